import Verif.TickCount.Sim
/-!
# The emulated `GetTickCount64`: the properties

`D` bounds the time a call takes and `P` the time between refreshes. The code asks for a refresh every 0x7fffffff ms; then a call may take up to 2^31/3 ms (8 days).
-/

namespace Verif.TickCount

variable {c : Cfg} {s s' : State} {σ : Spec} {t : Nat}

/-- Every value returned, by any of the threads, is the true time at some moment of the call, counted from the last wrap-around of `GetTickCount()` before the first call, however often it wraps
around; and the refresh is registered once at most.

Partial: without the bounds this is false, see `first_calls_race` and `missed_wrap`. -/
theorem conforms_partial (hT : c.timed = true) (hP : c.P + 3 * c.D < 2 ^ 32) {start : Nat} {ls : List Label} {es : List Event} (h : run (step c) (init start) ls = some (s, es)) : Accepts next {} es :=
  simulation (R c) (fun _ _ _ _ _ hR hs => sim hT hP hR hs) (R.init start) h

theorem next_keeps {e : Event} {σ' : Spec} {u : Nat} (h : next σ e = .ok σ') : (σ.off ≠ none → σ'.off = σ.off) ∧ σ.clock ≤ σ'.clock ∧ ((∀ v n, e ≠ .returned u v n) → σ.beg u ≠ none → σ'.beg u = σ.beg u) := by
  cases e with
  | began t now =>
    simp only [next] at h
    split at h <;> cases h
    rename_i hc
    refine ⟨fun ho => ?_, hc.2, fun _ hb => ?_⟩
    · cases hx : σ.off with
      | none => exact absurd hx ho
      | some o => simp
    · simp only [upd_apply]
      split
      · rename_i he; subst he; exact absurd hc.1 hb
      · rfl
  | returned t v now =>
    simp only [next] at h
    split at h
    · split at h <;> cases h
      rename_i hc
      refine ⟨fun _ => rfl, hc.2.2, fun hne _ => ?_⟩
      simp only [upd_apply]
      split
      · rename_i he; subst he; exact absurd rfl (hne v now)
      · rfl
    · cases h
  | registered t =>
    simp only [next] at h
    split at h <;> cases h
    exact ⟨fun _ => rfl, Nat.le_refl _, fun _ _ => rfl⟩

theorem keeps {es : List Event} {σ' : Spec} {u : Nat} (h : specState next σ es = some σ') : (σ.off ≠ none → σ'.off = σ.off) ∧ σ.clock ≤ σ'.clock ∧ ((∀ e ∈ es, ∀ v n, e ≠ .returned u v n) → σ.beg u ≠ none → σ'.beg u = σ.beg u) := by
  induction es generalizing σ with
  | nil => cases h; exact ⟨fun _ => rfl, Nat.le_refl _, fun _ _ => rfl⟩
  | cons e es ih =>
    simp only [specState] at h
    cases hn : next σ e with
    | undefined => simp [hn] at h
    | illegal => simp [hn] at h
    | ok m =>
      simp only [hn] at h
      have h1 := next_keeps (u := u) hn
      have h2 := ih h
      refine ⟨fun ho => ?_, Nat.le_trans h1.2.1 h2.2.1, fun hes hb => ?_⟩
      · have := h1.1 ho; rw [h2.1 (by rw [this]; exact ho), this]
      · have := h1.2.2 (hes e (List.mem_cons_self ..)) hb
        rw [h2.2.2 (fun e' he' => hes e' (List.mem_cons_of_mem _ he')) (by rw [this]; exact hb), this]

theorem Accepts.next_ok {e : Event} {es : List Event} (h : Accepts next σ (e :: es)) : ∃ σ', next σ e = .ok σ' ∧ Accepts next σ' es := by
  simp only [Accepts] at h
  cases hn : next σ e with
  | ok m => exact ⟨m, rfl, by simpa [hn] using h⟩
  | illegal => simp [hn] at h
  | undefined =>
    exfalso
    cases e <;> simp only [next] at hn
    · split at hn <;> cases hn
    · split at hn
      · split at hn <;> cases hn
      · cases hn
    · split at hn <;> cases hn

theorem Accepts.after {es es' : List Event} (h : Accepts next σ (es ++ es')) : ∃ σ', specState next σ es = some σ' ∧ Accepts next σ' es' := by
  induction es generalizing σ with
  | nil => exact ⟨σ, rfl, h⟩
  | cons e es ih =>
    obtain ⟨m, h1, h2⟩ := Accepts.next_ok h
    obtain ⟨σ', h3, h4⟩ := ih h2
    exact ⟨σ', by simp only [specState, h1, h3], h4⟩

/-- The clock does not go back: a call that begins after another one has returned, in any thread, returns at least as much; and the difference of the two values is the time that has passed between
them, up to the duration of the two calls. -/
theorem monotone_partial (hT : c.timed = true) (hP : c.P + 3 * c.D < 2 ^ 32) {start : Nat} {ls : List Label} {es₁ es₂ es₃ es₄ es₅ : List Event} {u v w a b x y : Nat}
    (h : run (step c) (init start) ls = some (s, es₁ ++ .began t a :: es₂ ++ .returned t v b :: es₃ ++ .began u x :: es₄ ++ .returned u w y :: es₅))
    (h2 : ∀ e ∈ es₂, ∀ v n, e ≠ .returned t v n) (h4 : ∀ e ∈ es₄, ∀ v n, e ≠ .returned u v n) :
    v ≤ w ∧ v + (x - b) ≤ w ∧ w ≤ v + (y - a) := by
  have ha := conforms_partial hT hP h
  simp only [List.append_assoc, List.cons_append] at ha
  obtain ⟨σ1, -, a1⟩ := Accepts.after ha
  obtain ⟨σ2, n2, a2⟩ := Accepts.next_ok a1
  obtain ⟨σ3, k3, a3⟩ := Accepts.after a2
  obtain ⟨σ4, n4, a4⟩ := Accepts.next_ok a3
  obtain ⟨σ5, k5, a5⟩ := Accepts.after a4
  obtain ⟨σ6, n6, a6⟩ := Accepts.next_ok a5
  obtain ⟨σ7, k7, a7⟩ := Accepts.after a6
  obtain ⟨σ8, n8, a8⟩ := Accepts.next_ok a7
  replace k3 := keeps (u := t) k3
  replace k5 := keeps (u := t) k5
  replace k7 := keeps (u := u) k7
  have q4 := next_keeps (u := t) n4
  have q6 := next_keeps (u := t) n6
  obtain ⟨off, hb2, ho2⟩ : ∃ off, σ2.beg t = some a ∧ σ2.off = some off := by
    simp only [next] at n2
    split at n2 <;> cases n2
    exact ⟨_, by simp [upd_apply], rfl⟩
  have hb3 := k3.2.2 h2 (by rw [hb2]; simp)
  have ho3 := k3.1 (by rw [ho2]; simp)
  rw [hb2] at hb3
  rw [ho2] at ho3
  simp only [next, ho3, hb3] at n4
  split at n4 <;> cases n4
  rename_i c4
  have ho5 := k5.1 (by simp)
  have ho6 := q6.1 (by rw [ho5]; simp)
  simp only [next] at n6
  split at n6 <;> cases n6
  rename_i c6
  have hb7 := k7.2.2 h4 (by simp [upd_apply])
  have ho7 := k7.1 (by simp)
  simp only [upd_apply, ↓reduceIte] at hb7
  rw [ho6, ho5] at ho7
  simp only [next, ho7, hb7] at n8
  split at n8 <;> cases n8
  rename_i c8
  have := k5.2.1
  have := c6.2
  simp only at *
  omega

/-- A call does not depend on other threads: wherever it is, it returns after at most five steps of its own, whether or not the registration succeeds. -/
theorem call_returns {start : Nat} {ls : List Label} {es : List Event} (_h : run (step c) (init start) ls = some (s, es)) (ht : t < c.n + 1) (hp : s.pc t ≠ .out) :
    ∃ ls' s' v es', ls'.length ≤ 5 ∧ (∀ l ∈ ls', l = .go t ∨ l = .regOk t) ∧ run (step c) s ls' = some (s', es') ∧ .returned t v s.now ∈ es' ∧ s'.pc t = .out := by
  have st : ∀ {m : State} {v r : Nat}, m.pc t = .store v r → m.now = s.now → ∃ ls' s' v es', ls'.length ≤ 1 ∧ (∀ l ∈ ls', l = .go t ∨ l = .regOk t) ∧ run (step c) m ls' = some (s', es') ∧ .returned t v s.now ∈ es' ∧ s'.pc t = .out := by
    intro m v r hm hn
    exact ⟨[.go t], _, v, _, Nat.le_refl _, by simp, by simp only [run, step, ht, ↓reduceIte, go, hm]; rfl, by simp [hn], by simp [upd_apply]⟩
  have cons : ∀ {m m' : State} {k : Nat} {l : Label} {es : List Event}, (l = .go t ∨ l = .regOk t) → step c m l = some (m', es) →
      (∃ ls' s' v es', ls'.length ≤ k ∧ (∀ l ∈ ls', l = .go t ∨ l = .regOk t) ∧ run (step c) m' ls' = some (s', es') ∧ .returned t v s.now ∈ es' ∧ s'.pc t = .out) →
      ∃ ls' s' v es', ls'.length ≤ k + 1 ∧ (∀ l ∈ ls', l = .go t ∨ l = .regOk t) ∧ run (step c) m ls' = some (s', es') ∧ .returned t v s.now ∈ es' ∧ s'.pc t = .out := by
    intro m m' k l es hl hs ⟨ls', s', v, es', h1, h2, h3, h4, h5⟩
    refine ⟨l :: ls', s', v, es ++ es', by simpa using h1, fun x hx => ?_, by simp only [run, hs, h3], List.mem_append_right _ h4, h5⟩
    rcases List.mem_cons.mp hx with rfl | hx
    · exact hl
    · exact h2 x hx
  have rd : ∀ {m : State} {o r : Nat}, m.pc t = .read o r → m.now = s.now → ∃ ls' s' v es', ls'.length ≤ 2 ∧ (∀ l ∈ ls', l = .go t ∨ l = .regOk t) ∧ run (step c) m ls' = some (s', es') ∧ .returned t v s.now ∈ es' ∧ s'.pc t = .out := by
    intro m o r hm hn
    exact cons (l := .go t) (m' := { m with pc := upd m.pc t (.store (combine o (getTickCount m)) m.now) }) (.inl rfl) (by simp only [step, ht, ↓reduceIte, go, hm]; rfl) (st (by simp only [upd_apply, ↓reduceIte]; rfl) hn)
  have ld : ∀ {m : State}, m.pc t = .load → m.now = s.now → ∃ ls' s' v es', ls'.length ≤ 3 ∧ (∀ l ∈ ls', l = .go t ∨ l = .regOk t) ∧ run (step c) m ls' = some (s', es') ∧ .returned t v s.now ∈ es' ∧ s'.pc t = .out := by
    intro m hm hn
    exact cons (l := .go t) (m' := { m with pc := upd m.pc t (.read m.ticks m.rd) }) (.inl rfl) (by simp only [step, ht, ↓reduceIte, go, hm]; rfl) (rd (by simp only [upd_apply, ↓reduceIte]; rfl) hn)
  have rg : ∀ {m : State}, m.pc t = .register → m.now = s.now → ∃ ls' s' v es', ls'.length ≤ 4 ∧ (∀ l ∈ ls', l = .go t ∨ l = .regOk t) ∧ run (step c) m ls' = some (s', es') ∧ .returned t v s.now ∈ es' ∧ s'.pc t = .out := by
    intro m hm hn
    exact cons (l := .regOk t) (m' := { m with installed := true, lastB := m.now, pc := upd m.pc t .load }) (.inr rfl) (by simp only [step]; rw [if_pos ⟨ht, hm⟩]) (ld (by simp [upd_apply]) hn)
  have wk : ∀ {k : Nat}, k ≤ 5 → (∃ ls' s' v es', ls'.length ≤ k ∧ (∀ l ∈ ls', l = .go t ∨ l = .regOk t) ∧ run (step c) s ls' = some (s', es') ∧ .returned t v s.now ∈ es' ∧ s'.pc t = .out) →
      ∃ ls' s' v es', ls'.length ≤ 5 ∧ (∀ l ∈ ls', l = .go t ∨ l = .regOk t) ∧ run (step c) s ls' = some (s', es') ∧ .returned t v s.now ∈ es' ∧ s'.pc t = .out :=
    fun hk ⟨ls', s', v, es', h1, h2⟩ => ⟨ls', s', v, es', Nat.le_trans h1 hk, h2⟩
  cases hq : s.pc t with
  | out => exact absurd hq hp
  | load => exact wk (by omega) (ld hq rfl)
  | read o r => exact wk (by omega) (rd hq rfl)
  | store v r => exact wk (by omega) (st hq rfl)
  | register => exact wk (by omega) (rg hq rfl)
  | init =>
    cases hb : s.busy with
    | true => exact wk (k := 4) (by omega) (cons (l := .go t) (m' := { s with pc := upd s.pc t .load }) (.inl rfl) (by simp only [step, ht, ↓reduceIte, go, hq, hb]; rfl) (ld (by simp [upd_apply]) rfl))
    | false => exact cons (l := .go t) (m' := { s with busy := true, pc := upd s.pc t .register }) (.inl rfl) (by simp only [step, ht, ↓reduceIte, go, hq, hb, Bool.false_eq_true]; rfl) (rg (by simp [upd_apply]) rfl)

/-! ## The theorems speak about something -/

/-- Two threads, the refresh every 0x7fffffff ms, calls of up to 1000 ms. -/
def cfg : Cfg := ⟨2, 1000, 0x7fffffff, true⟩

/-- A call in the period before a wrap-around; the registration; the refresh keeps the count up to date while nobody calls, for 8 589 934 588 ms; then a call of thread 2. -/
def prog : List Label :=
  [.call 1, .go 1, .regOk 1, .go 1, .advance 5, .go 1, .advance 1, .go 1] ++
  [.advance 0x7ffffff9, .call 0, .go 0, .go 0, .go 0] ++
  [.advance 0x7fffffff, .call 0, .go 0, .advance 7, .go 0, .go 0] ++
  [.advance 0x7ffffff8, .call 0, .go 0, .go 0, .go 0] ++
  [.advance 0x7ffffffe, .call 2, .go 2, .go 2, .go 2]

def events : List Event :=
  [.began 1 1000, .registered 1, .returned 1 1005 1006, .began 0 2147484647, .returned 0 2147484647 2147484647, .began 0 4294968294, .returned 0 4294968301 4294968301,
   .began 0 6442451941, .returned 0 6442451941 6442451941, .began 2 8589935587, .returned 2 8589935587 8589935587]

example : cfg.timed = true ∧ cfg.P + 3 * cfg.D < 2 ^ 32 := by decide +kernel
example : (run (step cfg) (init 1000) prog).map (·.2) = some events := by decide +kernel
example : ClientOk next {} events := by decide +kernel
/-- `monotone_partial`: the first call and the last one. -/
example : events = [] ++ .began 1 1000 :: [.registered 1] ++ .returned 1 1005 1006 ::
    [.began 0 2147484647, .returned 0 2147484647 2147484647, .began 0 4294968294, .returned 0 4294968301 4294968301, .began 0 6442451941, .returned 0 6442451941 6442451941] ++ .began 2 8589935587 :: [] ++
    .returned 2 8589935587 8589935587 :: [] := rfl
/-- `call_returns`: in the middle of the registration. -/
example : (run (step cfg) (init 1000) (prog.take 2)).map (·.1.pc 1) = some .register := by decide +kernel
/-- A start in the third period: values count from its beginning. -/
example : (run (step cfg) (init (2 * W + 500)) [.call 1, .go 1, .regFail 1, .go 1, .go 1, .go 1]).map (·.2) = some [.began 1 8589935092, .returned 1 500 8589935092] := by decide +kernel

/-! ## Without the bounds -/

/-- The first calls race: thread 1 has loaded the initial 0, when thread 2 makes calls of its own; `GetTickCount()` wraps around; thread 1 does not notice and puts the count back. The next call of
thread 2 returns less than its previous one: the clock jumps back by 49 days. No call takes more than 40 ms. -/
theorem first_calls_race : ∃ ls s es, run (step ⟨2, 40, 0x7fffffff, false⟩) (init 0xfffffff0) ls = some (s, es) ∧
    es = [.began 1 4294967280, .began 2 4294967280, .registered 2, .returned 2 4294967280 4294967280, .returned 1 16 4294967312, .began 2 4294967320, .returned 2 24 4294967320] ∧ ¬ Accepts next {} es := by
  refine ⟨[.call 1, .call 2, .go 2, .go 1, .go 1, .regOk 2, .go 2, .go 2, .go 2, .advance 32, .go 1, .go 1, .advance 8, .call 2, .go 2, .go 2, .go 2], _, _, rfl, ?_, ?_⟩ <;> decide +kernel

/-- If the registration fails, the call succeeds all the same, and later wrap-arounds are missed if nobody calls in time: two calls 2^32 ms apart return the same value. -/
theorem missed_wrap : ∃ ls s es, run (step ⟨1, 0, 0x7fffffff, false⟩) (init 7) ls = some (s, es) ∧
    es = [.began 1 7, .returned 1 7 7, .began 1 4294967303, .returned 1 7 4294967303] ∧ ¬ Accepts next {} es := by
  refine ⟨[.call 1, .go 1, .regFail 1, .go 1, .go 1, .go 1, .advance W, .call 1, .go 1, .regFail 1, .go 1, .go 1, .go 1], _, _, rfl, ?_, ?_⟩ <;> decide +kernel

/-! ## The specification rejects -/

example : ¬ Accepts next {} [.began 1 10, .returned 1 9 10] := by decide +kernel
example : ¬ Accepts next {} [.began 1 10, .returned 1 12 11] := by decide +kernel
example : ¬ Accepts next {} [.began 1 (W + 10), .returned 1 (W + 10) (W + 10)] := by decide +kernel
example : ¬ Accepts next {} [.began 1 (W - 1), .returned 1 (W - 1) (W - 1), .began 2 (W + 1), .returned 2 1 (W + 1)] := by decide +kernel
example : ¬ Accepts next {} [.registered 1, .registered 2] := by decide +kernel
example : ¬ Accepts next {} [.returned 1 0 0] := by decide +kernel

end Verif.TickCount
