import Verif.SyncValue.Sim
/-!
# Properties of `synchronized_value` (C44)
-/

set_option linter.unusedSimpArgs false

namespace Verif.SyncValue

/-- **C44 (atomicity).** In every history of operations on any number of `synchronized_value`s in any number of threads, with recursive or non-recursive mutexes, the operations
appear to happen one at a time: assignment, swap and comparison of two objects see and change both at once, and while a thread accesses an object through `operator->`,
`operator()`, `operator*` or `synchronize`, of one or two objects, no other thread reads or changes it. -/
theorem history_conforms {r : Bool} {v : Nat → Nat} {ls : List Label} {s : State} {es : List Event} (h : run (step r false) (init v) ls = some (s, es)) :
    Accepts next { val := v } es :=
  simulation R (fun _ _ _ _ _ hR hs => sim hR hs) (s := init v) (R.init v) h

/-- Non-vacuity: two threads assign to and swap two objects in opposite orders. -/
example : ∃ s, run (step false false) (init id) [.call 1 (.two 3 4 .assign), .call 2 (.two 4 5 .swap), .go 1, .go 2, .go 1, .go 2, .go 1, .go 2, .go 2, .go 2, .go 2, .go 2, .go 2,
    .go 1, .go 1, .go 1, .go 1, .go 1, .go 1, .go 1, .call 1 (.one 3 .sect), .go 1, .go 1, .read 1 3, .write 1 3 9, .leave 1] =
    some (s, [.swapped 2 4 5, .assigned 1 3 4, .entered 1 [3], .read 1 3 5, .wrote 1 3 9, .left 1]) := ⟨_, rfl⟩

/-- A value on the left: `4 < object 5`, and not `5 < object 5`. -/
example : ∃ s, run (step false false) (init id) [.call 1 (.one 5 (.cmp true .lt 4)), .go 1, .go 1, .go 1, .go 1, .call 1 (.one 5 (.cmp true .lt 5)), .go 1, .go 1, .go 1, .go 1, .call 1 (.one 5 (.cmp false .ne 5)), .go 1, .go 1] =
    some (s, [.cmp1 1 5 true .lt 4 true, .cmp1 1 5 true .lt 5 false, .cmp1 1 5 false .ne 5 false]) := ⟨_, rfl⟩

/-- The thread whose step it is. -/
def Label.thread : Label → Nat
  | .call t _ => t
  | .go t => t
  | .read t _ => t
  | .write t _ _ => t
  | .leave t => t

theorem step_other {r l3 : Bool} {s s' : State} {l : Label} {es : List Event} (hs : step r l3 s l = some (s', es)) {u : Nat} (hu : u ≠ l.thread) : s'.pc u = s.pc u := by
  cases l <;> simp only [Label.thread] at hu
  case call t c =>
    simp only [step] at hs
    split at hs
    · cases c with
      | one k o => simp only [call, Option.some.injEq, Prod.mk.injEq] at hs; obtain ⟨rfl, _⟩ := hs; simp [State.setPc, upd_apply, hu]
      | two a b o =>
        cases o <;> simp only [call] at hs <;> (try split at hs) <;> simp only [Option.some.injEq, Prod.mk.injEq, reduceCtorEq] at hs <;> obtain ⟨rfl, _⟩ := hs <;>
          simp [State.setPc, upd_apply, hu]
    · cases hs
  all_goals
    simp only [step, go] at hs
    (repeat' split at hs) <;> (try simp only [Option.some.injEq, Prod.mk.injEq, reduceCtorEq] at hs) <;> (try obtain ⟨rfl, _⟩ := hs) <;>
      simp [State.setPc, State.acquire, State.unlock, upd_apply, hu]

/-- Comparing an object with itself, with a non-recursive mutex: still inside `boost::lock`. -/
def Spins (a : Nat) (p : PC) : Prop := ∃ c f, p = .first (.cmp c) a a f ∨ p = .second (.cmp c) a a f ∨ p = .undo (.cmp c) a a f

/-- Comparing an object with itself never returns, whatever the schedule: `boost::lock` is given the same mutex twice, and unlike assignment and swap the comparison
operators do not test for this. -/
theorem self_compare_never_returns {v : Nat → Nat} {ls : List Label} {s : State} {es : List Event} (h : run (step false false) (init v) ls = some (s, es)) {t a : Nat} {c : Cmp}
    {ls' : List Label} {s' : State} {es' : List Event} (h' : run (step false false) s (.call t (.two a a (.cmp c)) :: ls') = some (s', es')) :
    s'.pc t ≠ .idle := by
  have hinv : Inv s := run_inv Inv (fun _ _ _ _ hI hs => hI.step hs) (Inv.init v) h
  obtain ⟨m, e1, e2, h1, h2, rfl⟩ := run_cons h'
  have hm : Inv m := hinv.step h1
  have hsp : Spins a (m.pc t) := by
    simp only [step] at h1
    split at h1
    · simp only [call, Option.some.injEq, Prod.mk.injEq] at h1
      obtain ⟨rfl, rfl⟩ := h1
      exact ⟨c, false, .inl (by simp [State.setPc, upd_apply])⟩
    · cases h1
  have key := run_inv (step := step false false) (fun s => Inv s ∧ Spins a (s.pc t)) ?_ ⟨hm, hsp⟩ h2
  · rintro hi; obtain ⟨c', f, e | e | e⟩ := key.2 <;> rw [hi] at e <;> cases e
  · intro s0 l s1 es1 ⟨i1, i2⟩ hs
    refine ⟨i1.step hs, ?_⟩
    by_cases hl : t = l.thread
    · obtain ⟨c', f, hpc⟩ := i2
      cases l <;> simp only [Label.thread] at hl <;> subst hl
      case go =>
        rcases hpc with hpc | hpc | hpc
        · simp only [step, go, hpc] at hs
          split at hs <;> simp only [Option.some.injEq, Prod.mk.injEq, reduceCtorEq] at hs
          obtain ⟨rfl, _⟩ := hs
          exact ⟨c', f, .inr (.inl (by simp [State.setPc, upd_apply]))⟩
        · have hown : s0.own a = some t := i1.own.owner (by simp [hold, hpc, PC.holds, fst])
          have hnf : s0.free false t (snd a a f) = false := by simp [State.free, snd, hown]
          simp only [step, go, hpc, hnf, Option.some.injEq, Prod.mk.injEq, Bool.false_eq_true, if_false] at hs
          obtain ⟨rfl, _⟩ := hs
          exact ⟨c', f, .inr (.inr (by simp [State.setPc, upd_apply]))⟩
        · simp only [step, go, hpc, Option.some.injEq, Prod.mk.injEq] at hs
          obtain ⟨rfl, _⟩ := hs
          exact ⟨c', !f, .inl (by simp [State.setPc, upd_apply])⟩
      all_goals rcases hpc with hpc | hpc | hpc <;> simp [step, hpc] at hs
    · rw [step_other hs hl]; exact i2

example : ∃ s, run (step false false) (init id) [.call 1 (.two 3 3 (.cmp .eq)), .go 1, .go 1, .go 1, .go 1, .go 1, .go 1] = some (s, []) ∧
    s.pc 1 = .first (.cmp .eq) 3 3 false := ⟨_, rfl, rfl⟩

/-! ## Termination -/

/-- Only steps of `u`, none of them a new call. -/
def By (u : Nat) (ls : List Label) : Prop := ∀ l ∈ ls, l = .go u ∨ l = .leave u

theorem By.other {r : Bool} {u : Nat} : ∀ {ls : List Label} {s s' : State} {es : List Event}, By u ls → run (step r false) s ls = some (s', es) → ∀ v, v ≠ u → s'.pc v = s.pc v
  | [], s, s', es, _, h, v, _ => by simp only [run_nil, Option.some.injEq, Prod.mk.injEq] at h; rw [← h.1]
  | l :: ls, s, s', es, hb, h, v, hv => by
    obtain ⟨m, e1, e2, h1, h2, rfl⟩ := run_cons h
    rw [By.other (fun l hl => hb l (List.mem_cons_of_mem _ hl)) h2 v hv]
    refine step_other h1 ?_
    rcases hb l (List.mem_cons_self ..) with rfl | rfl <;> exact hv

/-- `u` can get to a point that satisfies `Q` by itself. -/
def Can (r : Bool) (u : Nat) (s : State) (Q : PC → Prop) : Prop := ∃ ls s' es, By u ls ∧ run (step r false) s ls = some (s', es) ∧ Q (s'.pc u)

theorem Can.here {r : Bool} {u : Nat} {s : State} {Q : PC → Prop} (h : Q (s.pc u)) : Can r u s Q := ⟨[], s, [], by simp [By], rfl, h⟩

theorem Can.step {r : Bool} {u : Nat} {s m : State} {l : Label} {es : List Event} {Q : PC → Prop} (hl : l = .go u ∨ l = .leave u) (h : step r false s l = some (m, es))
    (hc : Can r u m Q) : Can r u s Q := by
  obtain ⟨ls, s', es', hb, hr, hq⟩ := hc
  exact ⟨l :: ls, s', _, by intro l' h'; rcases List.mem_cons.1 h' with rfl | h'; exact hl; exact hb l' h', run_step h hr, hq⟩

theorem pc_set (s : State) (u : Nat) (p : PC) : (s.setPc u p).pc u = p := by simp [State.setPc, upd_apply]

theorem can_unl {r : Bool} {u : Nat} : ∀ {ks : List Nat} {s : State}, s.pc u = .unl ks → Can r u s (· = .idle)
  | [], s, h => .step (m := s.setPc u .idle) (.inl rfl) (by simp only [step, go, h]; rfl) (.here (pc_set ..))
  | k :: ks, s, h => .step (m := (s.unlock k).setPc u (.unl ks)) (.inl rfl) (by simp only [step, go, h]; rfl) (can_unl (pc_set ..))

theorem can_sect {r : Bool} {u : Nat} {ks : List Nat} {s : State} (h : s.pc u = .sect ks) : Can r u s (· = .idle) :=
  .step (m := s.setPc u (.unl ks.reverse)) (.inr rfl) (by simp only [step, h]; rfl) (can_unl (pc_set ..))

/-- Once it has its locks an operation can finish by itself. -/
theorem can_in1 {r : Bool} {u k : Nat} {o : One} {s : State} (h : s.pc u = .in1 k o) : Can r u s (· = .idle) := by
  cases o with
  | get => exact .step (m := s.setPc u (.unl [k])) (.inl rfl) (by simp only [step, go, h]; rfl) (can_unl (pc_set ..))
  | set v => exact .step (m := { s with val := upd s.val k v }.setPc u (.unl [k])) (.inl rfl) (by simp only [step, go, h]; rfl) (can_unl (pc_set ..))
  | cmp left c v => exact .step (m := s.setPc u (.unl [k])) (.inl rfl) (by simp only [step, go, h]; rfl) (can_unl (pc_set ..))
  | sect => exact .step (m := s.setPc u (.sect [k])) (.inl rfl) (by simp only [step, go, h]; rfl) (can_sect (pc_set ..))

theorem can_assign2 {r : Bool} {u a b y : Nat} {s : State} (h : s.pc u = .assign2 a b y) : Can r u s (· = .idle) :=
  .step (m := { s with val := upd s.val a y }.setPc u (.unl [b, a])) (.inl rfl) (by simp only [step, go, h]; rfl) (can_unl (pc_set ..))

theorem can_cmp2 {r : Bool} {u a b x : Nat} {c : Cmp} {s : State} (h : s.pc u = .cmp2 c a b x) : Can r u s (· = .idle) :=
  .step (m := s.setPc u (.unl [b, a])) (.inl rfl) (by simp only [step, go, h]; rfl) (can_unl (pc_set ..))

theorem can_swap3 {r : Bool} {u a b x : Nat} {s : State} (h : s.pc u = .swap3 a b x) : Can r u s (· = .idle) :=
  .step (m := { s with val := upd s.val b x }.setPc u (.unl [b, a])) (.inl rfl) (by simp only [step, go, h]; rfl) (can_unl (pc_set ..))

theorem can_swap2 {r : Bool} {u a b x : Nat} {s : State} (h : s.pc u = .swap2 a b x) : Can r u s (· = .idle) :=
  .step (m := { s with val := upd s.val a (s.val b) }.setPc u (.swap3 a b x)) (.inl rfl) (by simp only [step, go, h]; rfl) (can_swap3 (pc_set ..))

theorem can_in2 {r : Bool} {u a b : Nat} {o : Two} {s : State} (h : s.pc u = .in2 o a b) : Can r u s (· = .idle) := by
  cases o with
  | assign => exact .step (m := s.setPc u (.assign2 a b (s.val b))) (.inl rfl) (by simp only [step, go, h]; rfl) (can_assign2 (pc_set ..))
  | swap => exact .step (m := s.setPc u (.swap2 a b (s.val a))) (.inl rfl) (by simp only [step, go, h]; rfl) (can_swap2 (pc_set ..))
  | cmp c => exact .step (m := s.setPc u (.cmp2 c a b (s.val a))) (.inl rfl) (by simp only [step, go, h]; rfl) (can_cmp2 (pc_set ..))
  | sync => exact .step (m := s.setPc u (.sect [a, b])) (.inl rfl) (by simp only [step, go, h]; rfl) (can_sect (pc_set ..))
  | sync3 k => exact .step (m := s.setPc u (.sect [a, b, k])) (.inl rfl) (by simp only [step, go, h]; rfl) (can_sect (pc_set ..))

theorem Can.mono {r : Bool} {u : Nat} {s : State} {Q Q' : PC → Prop} (h : Can r u s Q) (hq : ∀ p, Q p → Q' p) : Can r u s Q' := by
  obtain ⟨ls, s', es, h1, h2, h3⟩ := h; exact ⟨ls, s', es, h1, h2, hq _ h3⟩

/-- The pair operation `u` is in, while it is still locking. -/
def PC.locking (p : PC) (o : Two) (a b : Nat) : Prop := ∃ f, p = .first o a b f ∨ p = .second o a b f ∨ p = .undo o a b f

theorem can_undo {r : Bool} {u a b : Nat} {o : Two} {f : Bool} {s : State} (h : s.pc u = .undo o a b f) : Can r u s (fun p => p = .first o a b (!f)) :=
  .step (m := (s.unlock (fst a b f)).setPc u (.first o a b (!f))) (.inl rfl) (by simp only [step, go, h]; rfl) (.here (pc_set ..))

theorem can_second {r : Bool} {u a b : Nat} {o : Two} {f : Bool} {s : State} (h : s.pc u = .second o a b f) : Can r u s (fun p => p = .idle ∨ p = .first o a b (!f)) := by
  by_cases hf : s.free r u (snd a b f) = true
  · exact .step (m := (s.acquire u (snd a b f)).setPc u (.in2 o a b)) (.inl rfl) (by simp only [step, go, h, hf, if_true]; rfl)
      ((can_in2 (o := o) (a := a) (b := b) (pc_set ..)).mono fun p hp => .inl hp)
  · exact .step (m := s.setPc u (.undo o a b f)) (.inl rfl) (by simp only [step, go, h, hf]; rfl)
      ((can_undo (f := f) (o := o) (a := a) (b := b) (pc_set ..)).mono fun p hp => .inr hp)

/-- Every thread can by itself get to a point where it holds nothing: it has finished, or has not locked anything yet. -/
theorem can_settle (r : Bool) (u : Nat) (s : State) : Can r u s (fun p => p.holds = [] ∧ (p = .idle ∨ (∃ k o, p = .want k o) ∨ ∃ o a b f, p = .first o a b f ∧ (s.pc u).locking o a b)) := by
  have idle : Can r u s (· = .idle) → Can r u s (fun p => p.holds = [] ∧ (p = .idle ∨ (∃ k o, p = .want k o) ∨ ∃ o a b f, p = .first o a b f ∧ (s.pc u).locking o a b)) :=
    fun h => h.mono fun p hp => by subst hp; exact ⟨rfl, .inl rfl⟩
  cases h : s.pc u with
  | idle => rw [h] at idle; exact idle (.here h)
  | want k o => exact .here (by rw [h]; exact ⟨rfl, .inr (.inl ⟨k, o, rfl⟩)⟩)
  | first o a b f => exact .here (by rw [h]; exact ⟨rfl, .inr (.inr ⟨o, a, b, f, rfl, f, .inl rfl⟩)⟩)
  | in1 k o => rw [h] at idle; exact idle (can_in1 h)
  | second o a b f =>
    refine (can_second h).mono fun p hp => ?_
    rcases hp with rfl | rfl
    · exact ⟨rfl, .inl rfl⟩
    · exact ⟨rfl, .inr (.inr ⟨o, a, b, !f, rfl, f, .inr (.inl rfl)⟩)⟩
  | undo o a b f =>
    refine (can_undo h).mono fun p hp => ?_
    subst hp
    exact ⟨rfl, .inr (.inr ⟨o, a, b, !f, rfl, f, .inr (.inr rfl)⟩)⟩
  | in2 o a b => rw [h] at idle; exact idle (can_in2 h)
  | assign2 a b y => rw [h] at idle; exact idle (can_assign2 h)
  | cmp2 c a b x => rw [h] at idle; exact idle (can_cmp2 h)
  | swap2 a b x => rw [h] at idle; exact idle (can_swap2 h)
  | swap3 a b x => rw [h] at idle; exact idle (can_swap3 h)
  | sect ks => rw [h] at idle; exact idle (can_sect h)
  | unl ks => rw [h] at idle; exact idle (can_unl h)

/-- Labels that are not new calls. -/
def Label.cont : Label → Prop
  | .go _ => True
  | .leave _ => True
  | _ => False

theorem By.cont {u : Nat} {ls : List Label} (h : By u ls) : ∀ l ∈ ls, l.cont := by
  intro l hl; rcases h l hl with rfl | rfl <;> trivial

/-- The mutex of `k` can be made free, without a step of `t`, which does not hold it. -/
theorem can_free {r : Bool} {s : State} (hI : Inv s) (t k : Nat) (ht : (s.pc t).holds = []) :
    ∃ ls s' es, (∀ l ∈ ls, l.cont) ∧ run (step r false) s ls = some (s', es) ∧ s'.pc t = s.pc t ∧ Inv s' ∧ s'.own k = none ∧ ∀ j, s.own j = none → s'.own j = none := by
  cases ho : s.own k with
  | none => exact ⟨[], s, [], by simp, rfl, rfl, hI, ho, fun _ h => h⟩
  | some u =>
    have hut : u ≠ t := by
      rintro rfl
      have a := hI.own.mine u k ho
      have b := hI.own.pos k (by simp [ho])
      simp only [hold, ht, List.count_nil] at a; omega
    obtain ⟨ls, s', es, h1, h2, h3, -⟩ := can_settle r u s
    have hI' : Inv s' := run_inv Inv (fun _ _ _ _ hI hs => hI.step hs) hI h2
    have hall : ∀ j, (s.own j = none ∨ s.own j = some u) → s'.own j = none := by
      intro j hj
      cases hj' : s'.own j with
      | none => rfl
      | some v =>
        exfalso
        have a := hI'.own.mine v j hj'
        have b := hI'.own.pos j (by simp [hj'])
        by_cases hv : v = u
        · subst hv; simp only [hold, h3, List.count_nil] at a; omega
        · have hp := h1.other h2 v hv
          have : j ∈ hold s.pc v := by
            rw [hold, ← hp]; exact List.count_pos_iff.1 (by simp only [hold] at a; omega)
          have := hI.own.owner this
          rcases hj with hj | hj <;> rw [hj] at this
          · cases this
          · exact hv (by simpa using this.symm)
    exact ⟨ls, s', es, h1.cont, h2, h1.other h2 t (Ne.symm hut), hI', hall k (.inr ho), fun j hj => hall j (.inl hj)⟩

/-- Assigning an object to itself and swapping it with itself lock nothing. -/
def NoSelf (s : State) : Prop := ∀ t o a, (s.pc t).locking o a a → o ≠ .assign ∧ o ≠ .swap ∧ ∀ k, o ≠ .sync3 k

theorem NoSelf.upd {s : State} (h : NoSelf s) {s' : State} {t : Nat} {p : PC} (e : s'.pc = SyncValue.upd s.pc t p)
    (hp : ∀ o a, p.locking o a a → o ≠ .assign ∧ o ≠ .swap ∧ ∀ k, o ≠ .sync3 k) : NoSelf s' := by
  intro u o a hl
  rw [e] at hl
  simp only [upd_apply] at hl
  split at hl
  · exact hp o a hl
  · exact h u o a hl

theorem locking_of {p : PC} {o : Two} {a b : Nat} (h : p.locking o a b) : (∃ f, p = .first o a b f) ∨ (∃ f, p = .second o a b f) ∨ ∃ f, p = .undo o a b f := by
  obtain ⟨f, h | h | h⟩ := h
  · exact .inl ⟨f, h⟩
  · exact .inr (.inl ⟨f, h⟩)
  · exact .inr (.inr ⟨f, h⟩)

theorem NoSelf.step {r : Bool} {s s' : State} {l : Label} {es : List Event} (h : NoSelf s) (hs : step r false s l = some (s', es)) : NoSelf s' := by
  cases l with
  | call t c =>
    simp only [SyncValue.step] at hs
    split at hs
    · cases c with
      | one k o =>
        simp only [call, Option.some.injEq, Prod.mk.injEq] at hs
        obtain ⟨rfl, _⟩ := hs
        exact h.upd rfl fun o a hl => by rcases locking_of hl with ⟨f, e⟩ | ⟨f, e⟩ | ⟨f, e⟩ <;> cases e
      | two a b o =>
        cases o <;> simp only [call] at hs <;> (try split at hs) <;> (try contradiction) <;> simp only [Option.some.injEq, Prod.mk.injEq, reduceCtorEq] at hs <;>
          obtain ⟨rfl, _⟩ := hs
        all_goals first
          | exact h
          | exact h.upd rfl fun o a hl => by
              rcases locking_of hl with ⟨f, e⟩ | ⟨f, e⟩ | ⟨f, e⟩ <;> cases e <;> first | contradiction | simp
    · cases hs
  | go t =>
    have ht := h t
    simp only [SyncValue.step, go] at hs
    split at hs
    all_goals rename_i hpc; rw [hpc] at ht
    all_goals (try split at hs) <;> (try simp only [Option.some.injEq, Prod.mk.injEq, reduceCtorEq] at hs) <;> (try obtain ⟨rfl, _⟩ := hs) <;> (try contradiction) <;>
      refine h.upd rfl fun o a hl => ?_ <;> rcases locking_of hl with ⟨f, e⟩ | ⟨f, e⟩ | ⟨f, e⟩ <;> cases e
    · exact ht _ _ ⟨_, .inl rfl⟩
    · exact ht _ _ ⟨_, .inr (.inl rfl)⟩
    · exact ht _ _ ⟨_, .inr (.inr rfl)⟩
  | read t k =>
    simp only [SyncValue.step] at hs
    (repeat' split at hs) <;> simp only [Option.some.injEq, Prod.mk.injEq, reduceCtorEq] at hs
    obtain ⟨rfl, _⟩ := hs
    exact h
  | write t k v =>
    simp only [SyncValue.step] at hs
    (repeat' split at hs) <;> simp only [Option.some.injEq, Prod.mk.injEq, reduceCtorEq] at hs
    obtain ⟨rfl, _⟩ := hs
    exact h
  | leave t =>
    simp only [SyncValue.step] at hs
    split at hs <;> simp only [Option.some.injEq, Prod.mk.injEq, reduceCtorEq] at hs
    obtain ⟨rfl, _⟩ := hs
    exact h.upd rfl fun o a hl => by rcases locking_of hl with ⟨f, e⟩ | ⟨f, e⟩ | ⟨f, e⟩ <;> cases e

/-- **C44 (termination).** No operation is ever stuck: whatever the other threads are doing, as long as they go on with the operations they are in (and leave their sections),
there is a way for it to return; there is no deadlock between operations on the same objects in different orders. `_partial`: comparing an object with itself, or `synchronize`
with the same object twice, needs a recursive mutex; see `self_compare_never_returns`. -/
theorem operations_can_return_partial {r : Bool} {v : Nat → Nat} {ls : List Label} {s : State} {es : List Event} (h : run (step r false) (init v) ls = some (s, es)) (t : Nat)
    (hs : ∀ c a, (s.pc t).locking (.cmp c) a a ∨ (s.pc t).locking .sync a a → r = true) : ∃ ls' s' es', (∀ l ∈ ls', l.cont) ∧ run (step r false) s ls' = some (s', es') ∧ s'.pc t = .idle := by
  have hI : Inv s := run_inv Inv (fun _ _ _ _ hI hs => hI.step hs) (Inv.init v) h
  have hN : NoSelf s := run_inv NoSelf (fun _ _ _ _ hI hs => hI.step hs)
    (fun t o a hl => by rcases locking_of hl with ⟨f, e⟩ | ⟨f, e⟩ | ⟨f, e⟩ <;> cases e) h
  obtain ⟨l1, s1, e1, b1, r1, hold1, hq⟩ := can_settle r t s
  have hI1 : Inv s1 := run_inv Inv (fun _ _ _ _ hI hs => hI.step hs) hI r1
  suffices H : ∃ ls' s' es', (∀ l ∈ ls', l.cont) ∧ run (step r false) s1 ls' = some (s', es') ∧ s'.pc t = .idle by
    obtain ⟨l2, s2, e2, b2, r2, h2⟩ := H
    exact ⟨l1 ++ l2, s2, _, fun l h => (List.mem_append.1 h).elim (b1.cont l) (b2 l), run_append r1 r2, h2⟩
  have hcases : s1.pc t = .idle ∨ (∃ k o, s1.pc t = .want k o) ∨ ∃ o a b f, s1.pc t = .first o a b f ∧ (a = b → r = true) := by
    rcases hq with hq | hq | ⟨o, a, b, f, hq, hl⟩
    · exact .inl hq
    · exact .inr (.inl hq)
    · exact .inr (.inr ⟨o, a, b, f, hq, by
        rintro rfl
        have := hN t o a hl
        cases o with
        | cmp c => exact hs c a (.inl hl)
        | sync => exact hs .eq a (.inr hl)
        | assign => exact absurd rfl this.1
        | swap => exact absurd rfl this.2.1
        | sync3 k => exact absurd rfl (this.2.2 k)⟩)
  rcases hcases with hp | ⟨k, o, hp⟩ | ⟨o, a, b, f, hp, hab⟩
  · exact ⟨[], s1, [], by simp, rfl, hp⟩
  · obtain ⟨l2, s2, e2, b2, r2, p2, i2, o2, _⟩ := can_free (r := r) hI1 t k (by rw [hp]; rfl)
    obtain ⟨l3, s3, e3, b3, r3, h3⟩ : Can r t s2 (· = .idle) :=
      .step (m := (s2.acquire t k).setPc t (.in1 k o)) (.inl rfl) (by simp only [step, go, p2, hp, State.free, o2]; rfl) (can_in1 (pc_set ..))
    exact ⟨l2 ++ l3, s3, _, fun l h => (List.mem_append.1 h).elim (b2 l) (b3.cont l), run_append r2 r3, h3⟩
  · obtain ⟨l2, s2, e2, b2, r2, p2, i2, o2, k2⟩ := can_free (r := r) hI1 t (fst a b f) (by rw [hp]; rfl)
    obtain ⟨l3, s3, e3, b3, r3, p3, i3, o3, k3⟩ := can_free (r := r) i2 t (snd a b f) (by rw [p2, hp]; rfl)
    have of := k3 _ o2
    have hp3 : s3.pc t = .first o a b f := by rw [p3, p2, hp]
    obtain ⟨l4, s4, e4, b4, r4, h4⟩ : Can r t s3 (· = .idle) := by
      refine .step (m := (s3.acquire t (fst a b f)).setPc t (.second o a b f)) (.inl rfl) (by simp only [step, go, hp3, State.free, of]; rfl) ?_
      have hf2 : ((s3.acquire t (fst a b f)).setPc t (.second o a b f)).free r t (snd a b f) = true := by
        simp only [State.free, State.setPc, State.acquire, upd_apply]
        split
        · rename_i e
          have : a = b := by cases f <;> simp [fst, snd] at e <;> simp [e]
          simp [hab this]
        · simp [o3]
      refine .step (es := []) (m := (((s3.acquire t (fst a b f)).setPc t (.second o a b f)).acquire t (snd a b f)).setPc t (.in2 o a b)) (.inl rfl) ?_ (can_in2 (pc_set ..))
      simp only [step, go, pc_set, hf2, if_true]
    exact ⟨l2 ++ (l3 ++ l4), s4, _, fun l h => (List.mem_append.1 h).elim (b2 l) fun h => (List.mem_append.1 h).elim (b3 l) (b4.cont l), run_append r2 (run_append r3 r4), h4⟩

/-- The hypothesis holds of two threads that have each locked what the other wants. -/
example : ∃ s, run (step false false) (init id) [.call 1 (.two 3 4 .swap), .call 2 (.two 4 3 .assign), .go 1, .go 2] = some (s, []) ∧ s.pc 1 = .second .swap 3 4 false ∧
    s.pc 2 = .second .assign 4 3 false := ⟨_, rfl, rfl, rfl⟩

/-- The `synchronize` of three objects for compilers without variadic templates locks only two of them: two threads are in a section with the third at the same time. -/
theorem legacy_synchronize3_not_exclusive : ∃ ls s es, run (step false true) (init id) ls = some (s, es) ∧ ¬ Accepts next { val := id } es ∧
    es = [.entered 1 [0, 1, 2], .entered 2 [2]] :=
  ⟨[.call 1 (.two 0 1 (.sync3 2)), .go 1, .go 1, .go 1, .call 2 (.one 2 .sect), .go 2, .go 2], _, _, rfl, by decide, rfl⟩

end Verif.SyncValue
