import Verif.CpuInfo.Spec
/-!
# Lemmas about the processor listing reader
-/

namespace Verif.CpuInfo

/-! ## `string_trim` -/

theorem physicalId_eq : physicalId = physicalKey := by decide
theorem coreId_eq : coreId = coreKey := by decide

theorem blank_iff (c : UInt8) : blank c = true ↔ IsBlank c := by
  simp [blank, IsBlank, or_assoc]

theorem not_blank_iff (c : UInt8) : blank c = false ↔ ¬ IsBlank c := by
  rw [← blank_iff]; simp

theorem trimmed_iff {s r : Str} : Trimmed s r ↔ ∃ pre post, s = pre ++ r ++ post ∧ (∀ c ∈ pre, blank c = true) ∧ (∀ c ∈ post, blank c = true) ∧
    (∀ c, r.head? = some c → blank c = false) ∧ (∀ c, r.getLast? = some c → blank c = false) := by
  simp only [Trimmed, blank_iff, not_blank_iff]

theorem findFirstNot_none {p : UInt8 → Bool} {s : Str} : findFirstNot p s = none ↔ ∀ c ∈ s, p c = true := by
  induction s with
  | nil => simp [findFirstNot]
  | cons c cs ih =>
    simp only [findFirstNot]
    split <;> rename_i h
    · simp [ih, h]
    · simp [h]

theorem findFirstNot_some {p : UInt8 → Bool} {s : Str} {i : Nat} (h : findFirstNot p s = some i) :
    (∀ c ∈ s.take i, p c = true) ∧ ∃ c, s[i]? = some c ∧ p c = false := by
  induction s generalizing i with
  | nil => simp [findFirstNot] at h
  | cons c cs ih =>
    simp only [findFirstNot] at h
    split at h <;> rename_i hc
    · simp only [Option.map_eq_some_iff] at h
      obtain ⟨j, hj, rfl⟩ := h
      obtain ⟨h1, d, h2, h3⟩ := ih hj
      refine ⟨?_, d, by simpa using h2, h3⟩
      simp only [List.take_succ_cons, List.mem_cons, forall_eq_or_imp]
      exact ⟨hc, h1⟩
    · cases h
      exact ⟨by simp, c, by simp, by simpa using hc⟩

theorem findLastNot_none {p : UInt8 → Bool} {s : Str} : findLastNot p s = none ↔ ∀ c ∈ s, p c = true := by
  induction s with
  | nil => simp [findLastNot]
  | cons c cs ih =>
    simp only [findLastNot]
    split <;> rename_i h
    · have : ¬ ∀ c ∈ cs, p c = true := fun hh => by rw [ih.2 hh] at h; cases h
      simp only [reduceCtorEq, List.mem_cons, forall_eq_or_imp, false_iff, not_and]
      exact fun _ => this
    · have := ih.1 h
      cases hp : p c <;> simp [hp]
      exact this

theorem findLastNot_some {p : UInt8 → Bool} {s : Str} {j : Nat} (h : findLastNot p s = some j) :
    (∀ c ∈ s.drop (j + 1), p c = true) ∧ ∃ c, s[j]? = some c ∧ p c = false := by
  induction s generalizing j with
  | nil => simp [findLastNot] at h
  | cons c cs ih =>
    simp only [findLastNot] at h
    split at h <;> rename_i hr
    · cases h
      obtain ⟨h1, d, h2, h3⟩ := ih hr
      exact ⟨by simpa using h1, d, by simpa using h2, h3⟩
    · split at h <;> rename_i hc
      · cases h
      · cases h
        exact ⟨by simpa using findLastNot_none.1 hr, c, by simp, by simpa using hc⟩

theorem trim_trimmed (s : Str) : Trimmed s (trim s) := by
  rw [trimmed_iff]
  simp only [trim]
  cases hf : findFirstNot blank s with
  | none => exact ⟨s, [], by simp, findFirstNot_none.1 hf, by simp, by simp, by simp⟩
  | some i =>
    obtain ⟨h1, c, h2, h3⟩ := findFirstNot_some hf
    cases hl : findLastNot blank s with
    | none =>
      have := findLastNot_none.1 hl c (List.mem_of_getElem? h2)
      rw [h3] at this; cases this
    | some j =>
      obtain ⟨h4, d, h5, h6⟩ := findLastNot_some hl
      have hi := (List.getElem?_eq_some_iff.1 h2).1
      have hj := (List.getElem?_eq_some_iff.1 h5).1
      have hij : i ≤ j := by
        apply Nat.le_of_not_lt
        intro hlt
        have hm : c ∈ s.drop (j + 1) := by
          rw [List.mem_iff_getElem?]
          exact ⟨i - (j + 1), by rw [List.getElem?_drop]; rw [show j + 1 + (i - (j + 1)) = i by omega]; exact h2⟩
        have := h4 c hm
        rw [h3] at this; cases this
      have hlen : (substr s i (j + 1 - i)).length = j + 1 - i := by
        simp only [substr, List.length_take, List.length_drop]; omega
      refine ⟨s.take i, s.drop (j + 1), ?_, h1, h4, ?_, ?_⟩
      · simp only [substr, List.append_assoc]
        have e : s.drop (j + 1) = (s.drop i).drop (j + 1 - i) := by rw [List.drop_drop]; congr 1; omega
        rw [e, List.take_append_drop, List.take_append_drop]
      · intro b hb
        simp only [List.head?_eq_getElem?, substr] at hb
        rw [List.getElem?_take_of_lt (by omega), List.getElem?_drop] at hb
        rw [Nat.add_zero, h2] at hb; cases hb; exact h3
      · intro b hb
        rw [List.getLast?_eq_getElem?, hlen] at hb
        simp only [substr] at hb
        rw [List.getElem?_take_of_lt (by omega), List.getElem?_drop, show i + (j + 1 - i - 1) = j by omega, h5] at hb
        cases hb; exact h6

theorem dropWhile_all {p : UInt8 → Bool} {l r : Str} (hl : ∀ c ∈ l, p c = true) : (l ++ r).dropWhile p = r.dropWhile p := by
  induction l with
  | nil => rfl
  | cons c cs ih =>
    rw [List.cons_append, List.dropWhile_cons, if_pos (hl c (by simp))]
    exact ih fun d hd => hl d (by simp [hd])

theorem dropWhile_head {p : UInt8 → Bool} {r : Str} (h : ∀ c, r.head? = some c → p c = false) : r.dropWhile p = r := by
  cases r with
  | nil => rfl
  | cons c cs => rw [List.dropWhile_cons, if_neg (by simp [h c rfl])]

theorem trimmed_eq {s r : Str} (h : Trimmed s r) : r = ((s.dropWhile blank).reverse.dropWhile blank).reverse := by
  obtain ⟨pre, post, rfl, h1, h2, h3, h4⟩ := trimmed_iff.1 h
  rw [List.append_assoc, dropWhile_all h1]
  cases r with
  | nil =>
    have : post.dropWhile blank = [] := by
      have := dropWhile_all (r := []) h2
      simpa using this
    simp [this]
  | cons c cs =>
    have e : (c :: cs ++ post).dropWhile blank = c :: cs ++ post := dropWhile_head (by intro d hd; exact h3 d (by simpa using hd))
    rw [e, List.reverse_append, dropWhile_all (by simpa using h2), dropWhile_head (by rw [List.head?_reverse]; exact h4), List.reverse_reverse]

theorem trimmed_unique {s r r' : Str} (h : Trimmed s r) (h' : Trimmed s r') : r = r' := (trimmed_eq h).trans (trimmed_eq h').symm

/-! ## `string_to_unsigned` -/

theorem digit_iff (c : UInt8) : IsDigit c ↔ ¬ (c < 48 || c > 57) = true := by
  simp only [IsDigit, Bool.or_eq_true, decide_eq_true_eq, not_or, UInt8.not_lt, GT.gt]

theorem digit_le {c : UInt8} (h : IsDigit c) : 48 ≤ c.toNat ∧ c.toNat ≤ 57 := by
  obtain ⟨h1, h2⟩ := h
  exact ⟨by simpa [UInt8.le_iff_toNat_le] using h1, by simpa [UInt8.le_iff_toNat_le] using h2⟩

theorem zero_not_digit : ¬ IsDigit 0 := by unfold IsDigit; decide

theorem parseLoop_iff {umax v n : Nat} {s : Str} (hs : 0 ∉ s) (hv : v ≤ umax) :
    parseLoop umax v s = some n ↔ (∀ c ∈ s, IsDigit c) ∧ v * 10 ^ s.length + decimal s = n ∧ n ≤ umax := by
  induction s generalizing v with
  | nil => simp [parseLoop, decimal]; rintro rfl; exact hv
  | cons c cs ih =>
    simp only [List.mem_cons, not_or] at hs
    have hpow : 0 < 10 ^ cs.length := Nat.pow_pos (by omega)
    simp only [parseLoop]
    rw [if_neg (fun h => hs.1 h.symm)]
    split <;> rename_i hd
    · have : ¬ IsDigit c := fun hh => (digit_iff c).1 hh hd
      simp [this]
    · have hd := (digit_iff c).2 hd
      have hq := digit_le hd
      have hval : ∀ w, v * 10 ^ (cs.length + 1) + ((c.toNat - 48) * 10 ^ cs.length + w) = (v * 10 + (c.toNat - 48)) * 10 ^ cs.length + w := by
        intro w
        rw [Nat.pow_succ, Nat.add_mul, ← Nat.add_assoc, Nat.mul_comm (10 ^ cs.length) 10, Nat.mul_assoc]
      split <;> rename_i h1
      · -- v > umax / 10
        simp only [decimal, List.length_cons, hval, reduceCtorEq, false_iff]
        rintro ⟨-, rfl, hle⟩
        have h10 : umax < v * 10 + (c.toNat - 48) := by omega
        have := Nat.mul_le_mul_left (v * 10 + (c.toNat - 48)) hpow
        omega
      · split <;> rename_i h2
        · simp only [decimal, List.length_cons, hval, reduceCtorEq, false_iff]
          rintro ⟨-, rfl, hle⟩
          have h10 : umax < v * 10 + (c.toNat - 48) := by omega
          have := Nat.mul_le_mul_left (v * 10 + (c.toNat - 48)) hpow
          omega
        · have hle : v * 10 + (c.toNat - 48) ≤ umax := by omega
          rw [ih hs.2 hle]
          simp only [decimal, List.length_cons, hval, List.mem_cons, forall_eq_or_imp, hd, true_and]

theorem toUnsigned_iff {umax n : Nat} {s : Str} (hs : 0 ∉ s) : toUnsigned umax s = some n ↔ Numeral umax s n := by
  simp only [toUnsigned, Numeral]
  split <;> rename_i h
  · simp [h]
  · rw [parseLoop_iff hs (Nat.zero_le _)]
    simp only [Nat.zero_mul, Nat.zero_add, h, ne_eq, not_false_eq_true, true_and]

/-! ## Lines -/

theorem getlines_line {l : Str} {s : Str} (h : 10 ∉ l) : getlines (l ++ 10 :: s) = l :: getlines s := by
  induction l with
  | nil => simp [getlines]
  | cons c cs ih =>
    simp only [List.mem_cons, not_or] at h
    rw [List.cons_append, getlines, if_neg (fun hh => h.1 hh.symm), ih h.2]

theorem getlines_unlines {ls : List Str} (h : ∀ l ∈ ls, 10 ∉ l) : getlines (unlines ls) = ls := by
  induction ls with
  | nil => rfl
  | cons l ls ih =>
    have : unlines (l :: ls) = l ++ 10 :: unlines ls := by simp [unlines]
    rw [this, getlines_line (h l (by simp)), ih fun m hm => h m (by simp [hm])]

theorem splitColon_some {line k v : Str} : splitColon line = some (k, v) ↔ line = k ++ 58 :: v ∧ 58 ∉ k := by
  induction line generalizing k with
  | nil => simp [splitColon]
  | cons c cs ih =>
    simp only [splitColon]
    split <;> rename_i h
    · subst h
      simp only [Option.some.injEq, Prod.mk.injEq]
      constructor
      · rintro ⟨rfl, rfl⟩; simp
      · rintro ⟨h1, h2⟩
        cases k with
        | nil => simp at h1; exact ⟨rfl, h1⟩
        | cons d ds => simp only [List.cons_append, List.cons.injEq] at h1; simp [h1.1] at h2
    · simp only [Option.map_eq_some_iff, Prod.mk.injEq, Prod.exists]
      constructor
      · rintro ⟨k', v', h1, rfl, rfl⟩
        obtain ⟨rfl, h2⟩ := ih.1 h1
        simp only [List.cons_append, List.mem_cons, not_or, true_and]
        exact ⟨fun hh => h hh.symm, h2⟩
      · rintro ⟨h1, h2⟩
        cases k with
        | nil => simp at h1; exact absurd h1.1 h
        | cons d ds =>
          simp only [List.cons_append, List.cons.injEq] at h1
          simp only [List.mem_cons, not_or] at h2
          exact ⟨ds, v, ih.2 ⟨h1.2, h2.2⟩, by rw [h1.1], rfl⟩

theorem entry_iff {line key value : Str} :
    Entry line key value ↔ ∃ k v, splitColon line = some (k, v) ∧ trim k = key ∧ trim v = value := by
  constructor
  · rintro ⟨k, v, h1, h2, h3, h4⟩
    exact ⟨k, v, splitColon_some.2 ⟨h1, h2⟩, trimmed_unique (trim_trimmed k) h3, trimmed_unique (trim_trimmed v) h4⟩
  · rintro ⟨k, v, h1, rfl, rfl⟩
    obtain ⟨h2, h3⟩ := splitColon_some.1 h1
    exact ⟨k, v, h2, h3, trim_trimmed k, trim_trimmed v⟩

theorem entry_ne {line key value : Str} (h : Entry line key value) : line ≠ [] := by
  obtain ⟨k, v, rfl, -⟩ := h; simp

/-! ## The loop -/

theorem scan_other {umax cur cores} {l : Str} {rest : List Str} (h : Other l) : scan umax cur cores (l :: rest) = scan umax cur cores rest := by
  rcases h with rfl | ⟨k, v, he, h1, h2⟩
  · simp [scan]
  · have hne := entry_ne he
    obtain ⟨k', v', h3, rfl, rfl⟩ := entry_iff.1 he
    simp [scan, physicalId_eq, coreId_eq, hne, h3, h1, h2]

theorem scan_others {umax cur cores} {ls rest : List Str} (h : ∀ l ∈ ls, Other l) : scan umax cur cores (ls ++ rest) = scan umax cur cores rest := by
  induction ls with
  | nil => rfl
  | cons l ls ih => rw [List.cons_append, scan_other (h l (by simp)), ih fun m hm => h m (by simp [hm])]

theorem numeral_no_zero {umax n} {s : Str} (h : Numeral umax s n) : 0 ∉ s := fun h0 => zero_not_digit (h.2.1 0 h0)

theorem core_ne_phys : coreKey ≠ physicalKey := by decide

theorem scan_phys {umax cur cores n} {l v : Str} {rest : List Str} (he : Entry l physicalKey v) (hn : Numeral umax v n) :
    scan umax cur cores (l :: rest) = scan umax (n, cur.2) cores rest := by
  have hne := entry_ne he
  obtain ⟨k', v', h3, h4, rfl⟩ := entry_iff.1 he
  have := (toUnsigned_iff (numeral_no_zero hn)).2 hn
  simp [scan, physicalId_eq, hne, h3, h4, this]

theorem scan_core {umax cur cores n} {l v : Str} {rest : List Str} (he : Entry l coreKey v) (hn : Numeral umax v n) :
    scan umax cur cores (l :: rest) = scan umax (cur.1, n) (insert (cur.1, n) cores) rest := by
  have hne := entry_ne he
  obtain ⟨k', v', h3, h4, rfl⟩ := entry_iff.1 he
  have := (toUnsigned_iff (numeral_no_zero hn)).2 hn
  simp [scan, physicalId_eq, coreId_eq, hne, h3, h4, this, core_ne_phys]

theorem insert_toFinset (p : Nat × Nat) (cores : List (Nat × Nat)) : (insert p cores).toFinset = Insert.insert p cores.toFinset := by
  simp only [insert]
  split <;> rename_i h
  · exact (Finset.insert_eq_self.2 (by simpa using h)).symm
  · simp

theorem insert_nodup {p : Nat × Nat} {cores : List (Nat × Nat)} (h : cores.Nodup) : (insert p cores).Nodup := by
  simp only [insert]
  split <;> rename_i hm
  · exact h
  · exact List.nodup_cons.2 ⟨hm, h⟩

theorem scan_processor {umax cur cores p c} {b rest : List Str} (h : Processor umax b p c) :
    scan umax cur cores (b ++ rest) = scan umax (p, c) (insert (p, c) cores) rest := by
  obtain ⟨l₁, ph, l₂, co, l₃, pv, cv, rfl, h1, h2, h3, h4, h5, h6, h7⟩ := h
  rw [List.append_assoc, scan_others h1, List.cons_append, scan_phys h4 h5, List.append_assoc, scan_others h2, List.cons_append, scan_core h6 h7, scan_others h3]

theorem scan_listing {umax cur cores ps} {ls : List Str} (h : Listing umax ls ps) (hc : cores.Nodup) :
    ∃ cores', scan umax cur cores ls = some cores' ∧ cores'.Nodup ∧ cores'.toFinset = ps.toFinset ∪ cores.toFinset := by
  induction h generalizing cur cores with
  | nil => exact ⟨cores, rfl, hc, by simp⟩
  | @cons b ls p c ps hb _ ih =>
    rw [scan_processor hb]
    obtain ⟨cores', h1, h2, h3⟩ := ih (cur := (p, c)) (cores := insert (p, c) cores) (insert_nodup hc)
    refine ⟨cores', h1, h2, ?_⟩
    rw [h3, insert_toFinset]
    ext x
    simp only [Finset.mem_union, Finset.mem_insert, List.toFinset_cons]
    tauto

/-! ## Any listing -/

theorem trim_sub {s : Str} {c : UInt8} (h : c ∈ trim s) : c ∈ s := by
  obtain ⟨pre, post, h1, -⟩ := trim_trimmed s
  rw [h1]; simp [h]

theorem split_sub {line k v : Str} {c : UInt8} (h : splitColon line = some (k, v)) (hc : c ∈ v) : c ∈ line := by
  rw [(splitColon_some.1 h).1]; simp [hc]

theorem entry_fun {line k v k' v' : Str} (h : Entry line k v) (h' : Entry line k' v') : k = k' ∧ v = v' := by
  obtain ⟨a, b, h1, rfl, rfl⟩ := entry_iff.1 h
  obtain ⟨a', b', h2, rfl, rfl⟩ := entry_iff.1 h'
  rw [h1] at h2; cases h2; exact ⟨rfl, rfl⟩

theorem numeral_fun {umax n m} {s : Str} (h : Numeral umax s n) (h' : Numeral umax s m) : n = m := h.2.2.1.symm.trans h'.2.2.1

/-- Once a line is malformed, the loop is left. -/
theorem scan_malformed {umax cur cores} {ls : List Str} (h0 : ∀ l ∈ ls, 0 ∉ l) (h : ∃ l ∈ ls, Malformed umax l) : scan umax cur cores ls = none := by
  induction ls generalizing cur cores with
  | nil => obtain ⟨l, hl, -⟩ := h; cases hl
  | cons l ls ih =>
    have hl0 := h0 l (by simp)
    have hls0 : ∀ m ∈ ls, 0 ∉ m := fun m hm => h0 m (by simp [hm])
    by_cases hm : Malformed umax l
    · obtain ⟨hne, hm⟩ := hm
      rw [scan, if_neg hne]
      cases hs : splitColon l with
      | none => rfl
      | some kv =>
        obtain ⟨k, v⟩ := kv
        have he : Entry l (trim k) (trim v) := entry_iff.2 ⟨k, v, hs, rfl, rfl⟩
        rcases hm with hm | ⟨k', v', he', hk, hn⟩
        · exact absurd he (hm _ _)
        · obtain ⟨rfl, rfl⟩ := entry_fun he he'
          have h0v : 0 ∉ trim v := fun hh => hl0 (split_sub hs (trim_sub hh))
          have ht : toUnsigned umax (trim v) = none := by
            cases ht : toUnsigned umax (trim v) with
            | none => rfl
            | some n => exact absurd ((toUnsigned_iff h0v).1 ht) (hn n)
          rcases hk with hk | hk
          · simp [physicalId_eq, hk, ht]
          · simp [physicalId_eq, coreId_eq, hk, ht, core_ne_phys]
    · have hrest : ∃ m ∈ ls, Malformed umax m := by
        obtain ⟨m, hm1, hm2⟩ := h
        rcases List.mem_cons.1 hm1 with rfl | hm1
        · exact absurd hm2 hm
        · exact ⟨m, hm1, hm2⟩
      have ih' : ∀ cur cores, scan umax cur cores ls = none := fun cur cores => ih hls0 hrest
      rw [scan]
      repeat' split
      all_goals first | rfl | exact ih' _ _

/-- The number a physical id line gives. -/
theorem lastPhys_snoc {umax p p'} {pre : List Str} {l : Str} (h : LastPhys umax pre p)
    (hl : (∃ v, Entry l physicalKey v ∧ Numeral umax v p') ∨ ((∀ v, ¬ Entry l physicalKey v) ∧ p' = p)) : LastPhys umax (pre ++ [l]) p' := by
  rcases hl with ⟨v, h1, h2⟩ | ⟨h1, rfl⟩
  · exact .inl ⟨pre, l, [], v, by simp, h1, h2, by simp⟩
  · rcases h with ⟨a, ph, b, v, rfl, h2, h3, h4⟩ | ⟨h2, h3⟩
    · refine .inl ⟨a, ph, b ++ [l], v, by simp, h2, h3, ?_⟩
      intro m hm w
      rcases List.mem_append.1 hm with hm | hm
      · exact h4 m hm w
      · simp only [List.mem_singleton] at hm; subst hm; exact h1 w
    · refine .inr ⟨?_, h3⟩
      intro m hm w
      rcases List.mem_append.1 hm with hm | hm
      · exact h2 m hm w
      · simp only [List.mem_singleton] at hm; subst hm; exact h1 w

theorem lastPhys_nil {umax p} {ls : List Str} (h : LastPhys umax ls p) (hn : ∀ m ∈ ls, ∀ v, ¬ Entry m physicalKey v) : p = 0 := by
  rcases h with ⟨a, ph, b, v, rfl, h2, -⟩ | ⟨-, h⟩
  · exact absurd h2 (hn ph (by simp) v)
  · exact h

theorem lastPhys_fun {umax p p'} {ls : List Str} (h : LastPhys umax ls p) (h' : LastPhys umax ls p') : p = p' := by
  rcases h with ⟨a, ph, b, v, e, h2, h3, h4⟩ | ⟨h2, h3⟩
  · rcases h' with ⟨a', ph', b', v', e', h2', h3', h4'⟩ | ⟨h2', -⟩
    · rw [e] at e'
      rcases List.append_eq_append_iff.1 e' with ⟨c, h5, h6⟩ | ⟨c, h5, h6⟩
      · cases c with
        | nil =>
          simp only [List.nil_append, List.cons.injEq] at h6
          obtain ⟨rfl, -⟩ := h6
          obtain ⟨-, rfl⟩ := entry_fun h2 h2'
          exact numeral_fun h3 h3'
        | cons d ds =>
          simp only [List.cons_append, List.cons.injEq] at h6
          exact absurd h2' (h4 ph' (by rw [h6.2]; simp) v')
      · cases c with
        | nil =>
          simp only [List.nil_append, List.cons.injEq] at h6
          obtain ⟨rfl, -⟩ := h6
          obtain ⟨-, rfl⟩ := entry_fun h2 h2'
          exact numeral_fun h3 h3'
        | cons d ds =>
          simp only [List.cons_append, List.cons.injEq] at h6
          exact absurd h2 (h4' ph (by rw [h6.2]; simp) v)
    · exact absurd h2 (h2' ph (by rw [e]; simp) v)
  · rw [h3, lastPhys_nil h' h2]

/-- The loop over the remaining lines: the set it ends with is the pairs of the lines. -/
theorem scan_pairs {umax cur cores} {ls pre : List Str} (h0 : ∀ l ∈ ls, 0 ∉ l) (h : ∀ l ∈ ls, ¬ Malformed umax l) (hc : cores.Nodup)
    (hp : LastPhys umax pre cur.1) (hcores : ∀ x, x ∈ cores ↔ Pair umax pre x.1 x.2) :
    ∃ cores', scan umax cur cores ls = some cores' ∧ cores'.Nodup ∧ ∀ x, x ∈ cores' ↔ Pair umax (pre ++ ls) x.1 x.2 := by
  induction ls generalizing pre cur cores with
  | nil => exact ⟨cores, rfl, hc, by simpa using hcores⟩
  | cons l ls ih =>
    have hl0 := h0 l (by simp)
    have hm := h l (by simp)
    have ih' := fun cur cores hc hp hcores => ih (pre := pre ++ [l]) (cur := cur) (cores := cores) (fun m hm => h0 m (by simp [hm])) (fun m hm => h m (by simp [hm])) hc hp hcores
    simp only [List.append_assoc, List.singleton_append] at ih'
    -- what the pairs of `pre ++ [l]` are
    have hpair : ∀ p c, Pair umax (pre ++ [l]) p c ↔ Pair umax pre p c ∨ (LastPhys umax pre p ∧ ∃ v, Entry l coreKey v ∧ Numeral umax v c) := by
      intro p c
      constructor
      · rintro ⟨a, co, b, v, e, h1, h2, h3⟩
        rcases List.eq_nil_or_concat b with rfl | ⟨b', d, rfl⟩
        · have := List.append_inj' e rfl
          simp only [List.cons.injEq, and_true] at this
          obtain ⟨rfl, rfl⟩ := this
          exact .inr ⟨h1, v, h2, h3⟩
        · have e' : pre ++ [l] = (a ++ co :: b') ++ [d] := by simpa using e
          have := List.append_inj' e' rfl
          exact .inl ⟨a, co, b', v, this.1, h1, h2, h3⟩
      · rintro (⟨a, co, b, v, rfl, h1, h2, h3⟩ | ⟨h1, v, h2, h3⟩)
        · exact ⟨a, co, b ++ [l], v, by simp, h1, h2, h3⟩
        · exact ⟨pre, l, [], v, rfl, h1, h2, h3⟩
    have skip : (∀ v, ¬ Entry l physicalKey v) → (∀ v, ¬ Entry l coreKey v) →
        ∃ cores', scan umax cur cores ls = some cores' ∧ cores'.Nodup ∧ ∀ x, x ∈ cores' ↔ Pair umax (pre ++ l :: ls) x.1 x.2 := by
      intro h1 h2
      refine ih' cur cores hc (lastPhys_snoc hp (.inr ⟨h1, rfl⟩)) ?_
      intro x; rw [hcores, hpair]
      exact ⟨.inl, fun hh => hh.elim id fun ⟨_, v, he, _⟩ => absurd he (h2 v)⟩
    by_cases hne : l = []
    · rw [scan, if_pos hne]
      exact skip (fun v he => entry_ne he hne) (fun v he => entry_ne he hne)
    · cases hs : splitColon l with
      | none =>
        refine absurd ⟨hne, .inl ?_⟩ hm
        intro k v he
        obtain ⟨a, b, h1, -⟩ := entry_iff.1 he
        rw [hs] at h1; cases h1
      | some kv =>
        obtain ⟨k, v⟩ := kv
        have he : Entry l (trim k) (trim v) := entry_iff.2 ⟨k, v, hs, rfl, rfl⟩
        have hnum : trim k = physicalKey ∨ trim k = coreKey → ∃ n, Numeral umax (trim v) n := by
          intro hk
          apply Classical.byContradiction
          intro hn
          exact hm ⟨hne, .inr ⟨_, _, he, hk, fun n hh => hn ⟨n, hh⟩⟩⟩
        by_cases hk1 : trim k = physicalKey
        · obtain ⟨n, hn⟩ := hnum (.inl hk1)
          rw [hk1] at he
          rw [scan_phys he hn]
          refine ih' (n, cur.2) cores hc (lastPhys_snoc hp (.inl ⟨_, he, hn⟩)) ?_
          intro x; rw [hcores, hpair]
          exact ⟨.inl, fun hh => hh.elim id fun ⟨_, w, he', _⟩ => absurd (entry_fun he he').1.symm core_ne_phys⟩
        · by_cases hk2 : trim k = coreKey
          · obtain ⟨n, hn⟩ := hnum (.inr hk2)
            rw [hk2] at he
            rw [scan_core he hn]
            refine ih' (cur.1, n) _ (insert_nodup hc) (lastPhys_snoc hp (.inr ⟨fun w hw => core_ne_phys (entry_fun he hw).1, rfl⟩)) ?_
            intro x
            have hins : x ∈ insert (cur.1, n) cores ↔ x = (cur.1, n) ∨ x ∈ cores := by
              simp only [insert]; split <;> rename_i hmem
              · exact ⟨.inr, fun hh => hh.elim (fun e => e ▸ hmem) id⟩
              · simp
            rw [hins, hcores, hpair]
            constructor
            · rintro (rfl | hh)
              · exact .inr ⟨hp, _, he, hn⟩
              · exact .inl hh
            · rintro (hh | ⟨h1, w, h2, h3⟩)
              · exact .inr hh
              · obtain ⟨-, rfl⟩ := entry_fun he h2
                exact .inl (Prod.ext (lastPhys_fun h1 hp) (numeral_fun h3 hn))
          · have e : scan umax cur cores (l :: ls) = scan umax cur cores ls := scan_other (.inr ⟨_, _, he, hk1, hk2⟩)
            rw [e]
            exact skip (fun w hw => hk1 (entry_fun he hw).1) (fun w hw => hk2 (entry_fun he hw).1)

theorem getlines_sub {s : Str} {c : UInt8} : ∀ l ∈ getlines s, c ∈ l → c ∈ s := by
  induction s with
  | nil => simp [getlines]
  | cons d ds ih =>
    intro l hl hc
    simp only [getlines] at hl
    split at hl
    · rcases List.mem_cons.1 hl with rfl | hl
      · cases hc
      · exact List.mem_cons_of_mem _ (ih l hl hc)
    · split at hl <;> rename_i e
      · simp only [List.mem_singleton] at hl; subst hl
        simp only [List.mem_singleton] at hc; simp [hc]
      · rcases List.mem_cons.1 hl with rfl | hl
        · rcases List.mem_cons.1 hc with rfl | hc
          · simp
          · exact List.mem_cons_of_mem _ (ih _ (by rw [e]; simp) hc)
        · exact List.mem_cons_of_mem _ (ih l (by rw [e]; simp [hl]) hc)

end Verif.CpuInfo
