import Verif.CpuInfo.Lemmas
/-!
# C46 and C47: reading the processor listing
-/

namespace Verif.CpuInfo

/-! ## C46 -/

/-- `string_trim` removes exactly the leading and trailing blanks: its result is the string without them, and no other string is. -/
theorem trim_exact (s r : Str) : Trimmed s r ↔ r = trim s :=
  ⟨fun h => trimmed_unique h (trim_trimmed s), fun h => h ▸ trim_trimmed s⟩

-- tab, space, "a b", newline
example : trim [9, 32, 97, 32, 98, 10] = [97, 32, 98] ∧ trim [32, 32] = [] ∧ trim [] = [] := by decide

/-- `string_to_unsigned` accepts exactly the non-empty decimal digit strings whose value fits in `unsigned`, and yields that value; for every string without a NUL
character and every width of `unsigned`. Missing for strings with a NUL character: see `nul_accepted`. -/
theorem toUnsigned_partial {umax : Nat} {s : Str} (h : 0 ∉ s) (n : Nat) : toUnsigned umax s = some n ↔ Numeral umax s n := toUnsigned_iff h

-- "4294967295" is the largest 32-bit number and is accepted; "4294967296" is not
example : (0 : UInt8) ∉ [52, 50, 57, 52, 57, 54, 55, 50, 57, 53] ∧ toUnsigned (2 ^ 32 - 1) [52, 50, 57, 52, 57, 54, 55, 50, 57, 53] = some 4294967295 ∧
    toUnsigned (2 ^ 32 - 1) [52, 50, 57, 52, 57, 54, 55, 50, 57, 54] = none ∧ toUnsigned (2 ^ 32 - 1) [] = none ∧
    toUnsigned (2 ^ 32 - 1) [48, 48, 55] = some 7 ∧ toUnsigned (2 ^ 32 - 1) [49, 45] = none := by decide

/-- Nothing that is accepted is above the range of `unsigned`, NUL or not. -/
theorem toUnsigned_le {umax : Nat} {s : Str} {n : Nat} (h : toUnsigned umax s = some n) : n ≤ umax := by
  have key : ∀ (s : Str) (v : Nat), v ≤ umax → parseLoop umax v s = some n → n ≤ umax := by
    intro s
    induction s with
    | nil => intro v hv h; simp [parseLoop] at h; omega
    | cons c cs ih =>
      intro v hv h
      simp only [parseLoop] at h
      split at h
      · cases h; exact hv
      · split at h
        · cases h
        · rename_i hd
          have := digit_le ((digit_iff c).2 hd)
          repeat' split at h
          all_goals first | cases h | skip
          exact ih _ (by omega) h
  simp only [toUnsigned] at h
  split at h
  · cases h
  · exact key s 0 (Nat.zero_le _) h

/-- C46 fails for strings that contain a NUL character: `"1\0x"` is accepted as 1, and the string that is just a NUL as 0. -/
theorem nul_accepted : ∃ s n, toUnsigned (2 ^ 32 - 1) s = some n ∧ ¬ Numeral (2 ^ 32 - 1) s n :=
  ⟨[49, 0, 120], 1, by decide, fun h => absurd (h.2.1 120 (by decide)).2 (by decide)⟩

theorem nul_alone_accepted : toUnsigned (2 ^ 32 - 1) [0] = some 0 ∧ ¬ Numeral (2 ^ 32 - 1) [0] 0 :=
  ⟨by decide, fun h => absurd (h.2.1 0 (by decide)).1 (by decide)⟩

/-! ## C47 -/

/-- The lines of any text are read back exactly. -/
theorem lines_exact {ls : List Str} (h : ∀ l ∈ ls, 10 ∉ l) : getlines (unlines ls) = ls := getlines_unlines h

/-- C47, the fallback: for every listing without NUL characters, if a line is malformed, `hardware_concurrency()` is returned. -/
theorem malformed_falls_back {umax : Nat} {content : Str} (h0 : 0 ∉ content) (h : ∃ l ∈ getlines content, Malformed umax l) (hw : Nat) :
    physicalConcurrency umax content hw = hw := by
  rw [physicalConcurrency, scan_malformed (fun l hl hc => h0 (getlines_sub l hl hc)) h]

/-- C47, for every listing without NUL characters and without malformed lines: the result is the number of distinct pairs of a core id and the last physical id
above it; if there is none, `hardware_concurrency()`. -/
theorem counts_pairs {umax : Nat} {content : Str} (h0 : 0 ∉ content) (h : ∀ l ∈ getlines content, ¬ Malformed umax l) (hw : Nat) :
    ∃ S : Finset (Nat × Nat), (∀ p c, (p, c) ∈ S ↔ Pair umax (getlines content) p c) ∧
      (S = ∅ → physicalConcurrency umax content hw = hw) ∧
      (S ≠ ∅ → S.card ≤ umax → physicalConcurrency umax content hw = S.card) := by
  obtain ⟨cores, h1, h2, h3⟩ := scan_pairs (umax := umax) (cur := (0, 0)) (cores := []) (pre := []) (fun l hl hc => h0 (getlines_sub l hl hc)) h
    List.nodup_nil (.inr ⟨by simp, rfl⟩) (by
      intro x; simp only [List.not_mem_nil, false_iff]
      rintro ⟨a, co, b, v, e, -⟩
      simp at e)
  have hcard : cores.toFinset.card = cores.length := List.toFinset_card_of_nodup h2
  refine ⟨cores.toFinset, ?_, ?_, ?_⟩
  · intro p c
    rw [List.mem_toFinset, h3]; rfl
  · intro he
    rw [he, Finset.card_empty] at hcard
    simp [physicalConcurrency, h1, ← hcard]
  · intro hne hle
    have hl : cores.length ≠ 0 := by rw [← hcard]; exact Finset.card_ne_zero.2 (Finset.nonempty_iff_ne_empty.2 hne)
    simp only [physicalConcurrency, h1, if_pos hl]
    rw [Nat.mod_eq_of_lt (by omega), hcard]

/-- C47 as users know it: for every listing of processors as the kernel writes it (each processor with its physical id and then its core id, among other lines), the
result is the number of distinct (physical id, core id) pairs. -/
theorem counts_listing {umax : Nat} {ls : List Str} {ps : List (Nat × Nat)} (h : Listing umax ls ps) (hnl : ∀ l ∈ ls, 10 ∉ l) (hw : Nat)
    (hne : ps ≠ []) (hfit : ps.toFinset.card ≤ umax) : physicalConcurrency umax (unlines ls) hw = ps.toFinset.card := by
  obtain ⟨cores, h1, h2, h3⟩ := scan_listing (cur := (0, 0)) (cores := []) h List.nodup_nil
  have hcard : cores.toFinset.card = cores.length := List.toFinset_card_of_nodup h2
  simp only [List.toFinset_nil, Finset.union_empty] at h3
  have hl : cores.length ≠ 0 := by
    rw [← hcard, h3]
    exact Finset.card_ne_zero.2 (List.toFinset_nonempty_iff ps |>.2 hne)
  simp only [physicalConcurrency, getlines_unlines hnl, h1, if_pos hl]
  rw [← h3, hcard, Nat.mod_eq_of_lt (by rw [← hcard, h3]; omega)]

/-- With nothing of interest in the listing the result is `hardware_concurrency()`. -/
theorem nothing_listed {umax : Nat} {ls : List Str} (h : ∀ l ∈ ls, Other l) (hnl : ∀ l ∈ ls, 10 ∉ l) (hw : Nat) :
    physicalConcurrency umax (unlines ls) hw = hw := by
  have := scan_others (umax := umax) (cur := (0, 0)) (cores := []) (rest := []) h
  rw [List.append_nil] at this
  simp [physicalConcurrency, getlines_unlines hnl, this, scan]

/-- `"physical id\t: d"`, `"core id\t\t: d"` -/
def physLine (d : UInt8) : Str := physicalId ++ [9, 58, 32, d]
def coreLine (d : UInt8) : Str := coreId ++ [9, 9, 58, 32, d]

theorem processor_example (d e : UInt8) (n m : Nat) (h1 : IsDigit d) (h2 : IsDigit e) (hn : n = d.toNat - 48) (hm : m = e.toNat - 48) :
    Processor 4294967295 [physLine d, coreLine e, []] n m := by
  have bd : ∀ x : UInt8, IsDigit x → blank x = false := by
    intro x hx
    have := digit_le hx
    cases hb : blank x with
    | false => rfl
    | true =>
      simp only [blank, Bool.or_eq_true, beq_iff_eq] at hb
      rcases hb with ((hb | hb) | hb) | hb <;> (rw [hb] at this; exact absurd this.1 (by decide))
  have hv : ∀ x : UInt8, IsDigit x → Trimmed [32, x] [x] := fun x hx => trimmed_iff.2 ⟨[32], [], by simp, by decide, by simp, by simp [bd x hx], by simp [bd x hx]⟩
  have hnum : ∀ (x : UInt8) n, IsDigit x → n = x.toNat - 48 → Numeral 4294967295 [x] n := by
    intro x n hx hn
    refine ⟨by simp, by simpa using hx, by simp [decimal, hn], ?_⟩
    have := digit_le hx; omega
  refine ⟨[], physLine d, [], coreLine e, [[]], [d], [e], rfl, by simp, by simp, by simp [Other], ?_, hnum d n h1 hn, ?_, hnum e m h2 hm⟩
  · exact ⟨physicalId ++ [9], [32, d], rfl, by decide, by rw [trim_exact]; decide, hv d h1⟩
  · exact ⟨coreId ++ [9, 9], [32, e], rfl, by decide, by rw [trim_exact]; decide, hv e h2⟩

-- two packages with two cores of two threads each would list eight processors; here three, two of them on the same core
example : ∃ ps, Listing 4294967295 [physLine 48, coreLine 48, [], physLine 48, coreLine 49, [], physLine 48, coreLine 48, []] ps ∧ ps ≠ [] ∧
    ps.toFinset.card = 2 ∧ physicalConcurrency 4294967295 (unlines [physLine 48, coreLine 48, [], physLine 48, coreLine 49, [], physLine 48, coreLine 48, []]) 3 = 2 := by
  have d0 : IsDigit 48 := by unfold IsDigit; decide
  have d1 : IsDigit 49 := by unfold IsDigit; decide
  refine ⟨[(0, 0), (0, 1), (0, 0)], ?_, by simp, by decide, by decide⟩
  exact .cons (b := [physLine 48, coreLine 48, []]) (processor_example 48 48 0 0 d0 d0 rfl rfl)
    (.cons (b := [physLine 48, coreLine 49, []]) (processor_example 48 49 0 1 d0 d1 rfl rfl)
      (.cons (b := [physLine 48, coreLine 48, []]) (processor_example 48 48 0 0 d0 d0 rfl rfl) .nil))

/-- The pairing depends on the order of the lines: if the core id of a processor is listed before its physical id, the core id is paired with the physical id of the
processor before. Two processors on different packages with the same core id, the second on a third package's number, are counted wrongly: here (0,0), (1,0) are listed
as core 0, package 0 then core 0, package 1, and the result is 1 instead of 2. -/
theorem order_matters_fails :
    physicalConcurrency 4294967295 (unlines [coreLine 48, physLine 48, [], coreLine 48, physLine 49, []]) 8 = 1 ∧
    physicalConcurrency 4294967295 (unlines [physLine 48, coreLine 48, [], physLine 49, coreLine 48, []]) 8 = 2 := by decide

end Verif.CpuInfo
