import Verif.Async.Props
/-! # C56: when waiting for the result of `async` races -/

namespace Verif.Async

/-- How many threads are in `join()` of state `i`. -/
def joining (th : List Thread) (i : Nat) : Nat := th.countP fun th => decide (th.pc = .join i)

structure JK (s : State) : Prop where
  cnt : ∀ i, (s.node i).joiners = joining s.th i
  new : ∀ i, s.n ≤ i → (s.node i).handle = false ∧ (s.node i).joiners = 0
  start : ∀ th ∈ s.th, ∀ i, th.pc = .start i → i < s.n

theorem joining_set {l : List Thread} {t : Nat} {x y : Thread} (h : l[t]? = some x) (i : Nat) :
    joining (l.set t y) i + (if x.pc = .join i then 1 else 0) = joining l i + (if y.pc = .join i then 1 else 0) := by
  induction l generalizing t with
  | nil => cases h
  | cons a l ih =>
    cases t with
    | zero =>
      cases h
      simp only [joining, List.set_cons_zero, List.countP_cons, decide_eq_true_eq]
      omega
    | succ t =>
      have := ih (t := t) (by simpa using h)
      simp only [joining, List.set_cons_succ, List.countP_cons, decide_eq_true_eq] at this ⊢
      omega

theorem JK.put {s : State} (hk : JK s) {t : Nat} {th th' : Thread} (ht : s.th[t]? = some th) {n' : Nat} {node' : Nat → Node} (hn : s.n ≤ n')
    (hj : ∀ j, (node' j).joiners + (if th.pc = .join j then 1 else 0) = (s.node j).joiners + (if th'.pc = .join j then 1 else 0))
    (hnew : ∀ j, n' ≤ j → (node' j).handle = false ∧ (node' j).joiners = 0) (hst : ∀ i, th'.pc = .start i → i < n') : JK { n := n', node := node', th := s.th.set t th' } := by
  refine ⟨fun i => ?_, hnew, fun x hx i hp => ?_⟩
  · have h1 := joining_set (y := th') ht i
    have h2 := hj i
    have h3 := hk.cnt i
    show (node' i).joiners = joining (s.th.set t th') i
    omega
  · rcases List.mem_or_eq_of_mem_set hx with h1 | h1
    · exact Nat.lt_of_lt_of_le (hk.start x h1 i hp) hn
    · subst h1; exact hst i hp

/-- A step of thread `t` that enters and leaves no `join()` and sets no handle. -/
theorem JK.plain {s : State} (hk : JK s) {t : Nat} {th th' : Thread} (ht : s.th[t]? = some th) {i : Nat} {d : Node} (hd : d.joiners = (s.node i).joiners) (hh : d.handle = true → (s.node i).handle = true)
    (hp : ∀ j, th.pc ≠ .join j) (hp' : ∀ j, th'.pc ≠ .join j) (hst : ∀ j, th'.pc ≠ .start j) : JK ((s.setNode i d).setTh t th') := by
  refine hk.put ht (Nat.le_refl _) ?_ ?_ (fun j h => absurd h (hst j))
  · intro j
    simp only [hp j, hp' j, if_false, State.setNode, upd]
    split
    · next h => rw [h, hd]
    · rfl
  · intro j hj
    simp only [State.setNode, upd]
    have := hk.new j hj
    split
    · next h =>
      subst h
      refine ⟨?_, hd.trans this.2⟩
      cases hx : d.handle with
      | false => rfl
      | true => have := hh hx; simp_all
    · exact this

theorem JK.only {s : State} (hk : JK s) {t : Nat} {th th' : Thread} (ht : s.th[t]? = some th) (hp : ∀ j, th.pc ≠ .join j) (hp' : ∀ j, th'.pc ≠ .join j) (hst : ∀ j, th'.pc ≠ .start j) :
    JK (s.setTh t th') := hk.put ht (Nat.le_refl _) (fun j => by simp [hp j, hp' j]) hk.new (fun j h => absurd h (hst j))

theorem free_pc {th : Thread} (h : th.free = true) : th.pc = .idle := by
  simp only [Thread.free, Bool.and_eq_true, beq_iff_eq] at h; exact h.1

theorem k_finished {s : State} (hk : JK s) {t : Nat} {th : Thread} (ht : s.th[t]? = some th) {i : Nat} {d : Node} (hd : d.joiners = (s.node i).joiners) (hh : d.handle = true → (s.node i).handle = true)
    (hp : ∀ j, th.pc ≠ .join j) (w : Why) : JK (finished (s.setNode i d) t th i w).1 := by
  cases w with
  | drop => exact hk.plain ht hd hh hp (by simp) (by simp)
  | unwind => exact hk.plain ht hd hh hp (by simp) (by simp)
  | worker =>
    simp only [finished]
    split <;> exact hk.plain ht hd hh hp (by simp) (by simp)

theorem k_op {m : Mode} {s s' : State} {t : Nat} {th : Thread} {o : Op} {es : List Event} (hk : JK s) (ht : s.th[t]? = some th) (hf : th.pc = .idle) (hs : stepOp m s t th o = some (s', es)) : JK s' := by
  have hp : ∀ j, th.pc ≠ .join j := by simp [hf]
  cases o with
  | async k =>
    simp only [stepOp, Option.some.injEq, Prod.mk.injEq] at hs
    obtain ⟨rfl, -⟩ := hs
    refine hk.put (n' := s.n + 1) ht (Nat.le_succ _) ?_ ?_ ?_
    · intro j
      simp only [hp j, if_false, reduceCtorEq, upd]
      split
      · next h => rw [h]; exact (hk.new s.n (Nat.le_refl _)).2.symm
      · rfl
    · intro j hj
      simp only [upd]
      rw [if_neg (by omega)]
      exact hk.new j (by omega)
    · intro i h
      simp only [PC.start.injEq] at h
      omega
  | copy i =>
    simp only [stepOp] at hs
    split at hs <;> cases hs
    exact hk.plain ht rfl id hp hp (by simp [hf])
  | give i u =>
    simp only [stepOp] at hs
    split at hs
    · cases hs
    · next tu htu =>
      split at hs <;> cases hs
      next hc =>
      have h1 : JK (s.setTh t { th with own := upd th.own i (th.own i - 1) }) := hk.only ht hp hp (by simp [hf])
      have hu := free_pc hc.2.2
      refine h1.only (t := u) (th := tu) ?_ (by simp [hu]) (by simp [hu]) (by simp [hu])
      simp only [State.setTh]
      rw [List.getElem?_set_ne (Ne.symm hc.2.1)]
      exact htu
  | drop i =>
    simp only [stepOp] at hs
    split at hs <;> cases hs
    exact hk.only ht hp (by simp) (by simp)
  | wait i =>
    simp only [stepOp] at hs
    split at hs
    · split at hs
      · split at hs
        · cases hs; exact hk.plain ht rfl (by simp) hp (by simp) (by simp)
        · split at hs
          · next hh =>
            cases hs
            refine hk.put ht (Nat.le_refl _) ?_ ?_ (by simp)
            · intro j
              simp only [hp j, if_false, State.setNode, upd, PC.join.injEq]
              by_cases hj : j = i
              · simp [hj]
              · simp [hj, Ne.symm hj]
            · intro j hj
              simp only [State.setNode, upd]
              have := hk.new j hj
              split
              · next h => subst h; rw [this.1] at hh; cases hh
              · exact this
          · cases hs; exact hk.only ht hp (by simp) (by simp)
      · cases hs; exact hk.only ht hp (by simp) (by simp)
    · cases hs
  | get i =>
    simp only [stepOp] at hs
    split at hs <;> cases hs
    exact hk.only ht hp (by simp) (by simp)
  | poll i =>
    simp only [stepOp] at hs
    split at hs <;> cases hs
    exact hk

theorem k_go {m : Mode} {s s' : State} {t : Nat} {th : Thread} {es : List Event} (hk : JK s) (ht : s.th[t]? = some th) (hs : stepGo m s t th = some (s', es)) : JK s' := by
  simp only [stepGo] at hs
  split at hs
  · cases hs
  · next i hpc =>
    cases hs
    have hi : i < s.n := hk.start th (List.mem_of_getElem? ht) i hpc
    have h1 : JK { n := s.n, node := upd s.node i { s.node i with refs := (s.node i).refs + 1, handle := m == .blocking && (s.node i).kind == .thread }, th := s.th.set t { th with pc := .ret i } } := by
      refine hk.put ht (Nat.le_refl _) ?_ ?_ (by simp)
      · intro j
        simp only [hpc, reduceCtorEq, if_false, upd]
        split
        · next h => rw [h]
        · rfl
      · intro j hj
        simp only [upd]
        rw [if_neg (by omega)]
        exact hk.new j hj
    refine ⟨fun j => ?_, h1.new, fun x hx j hp => ?_⟩
    · rw [h1.cnt j]
      simp [joining, List.countP_append]
    · rcases List.mem_append.1 hx with h2 | h2
      · exact h1.start x h2 j hp
      · rw [List.mem_singleton] at h2; subst h2; cases hp
  · next i hpc => cases hs; exact hk.only ht (by simp [hpc]) (by simp) (by simp)
  · next i w hpc =>
    split at hs <;> cases hs
    · exact hk.plain ht rfl id (by simp [hpc]) (by simp) (by simp)
    · exact k_finished (i := i) (d := { s.node i with refs := (s.node i).refs - 1 }) hk ht rfl id (by simp [hpc]) w
  · next i w hpc =>
    have := stepDtor_destroy hs
    simp only [destroy, Prod.mk.injEq] at this
    rw [this.1]
    exact k_finished (i := i) (d := { s.node i with dead := true, handle := false }) hk ht rfl (by simp) (by simp [hpc]) w
  · next i hpc =>
    split at hs <;> cases hs
    refine hk.put ht (Nat.le_refl _) ?_ ?_ (by simp)
    · intro j
      have h1 : 0 < joining s.th i := List.countP_pos_iff.2 ⟨th, List.mem_of_getElem? ht, by simp [hpc]⟩
      rw [← hk.cnt i] at h1
      simp only [hpc, State.setNode, upd, PC.join.injEq, reduceCtorEq, if_false]
      by_cases hj : j = i
      · subst hj; simp only [if_true]; omega
      · simp [hj, Ne.symm hj]
    · intro j hj
      simp only [State.setNode, upd]
      have := hk.new j hj
      split
      · next h => subst h; simp [this.2]
      · exact this
  · next i g hpc =>
    split at hs <;> cases hs
    exact hk.only ht (by simp [hpc]) (by simp) (by simp)
  · next i hpc => cases hs; exact hk.only ht (by simp [hpc]) (by simp) (by simp)
  · next i o hpc => cases hs; exact hk.plain ht rfl id (by simp [hpc]) (by simp) (by simp)
  · next i hpc => cases hs; exact hk.plain ht rfl id (by simp [hpc]) (by simp) (by simp)
  · cases hs

theorem k_step {m : Mode} {s s' : State} {l : Label} {es : List Event} (hk : JK s) (hs : step m s l = some (s', es)) : JK s' := by
  cases l with
  | op t o =>
    simp only [step] at hs
    split at hs
    · cases hs
    · next th ht =>
      split at hs
      · next hf => exact k_op hk ht (free_pc hf) hs
      · cases hs
  | go t =>
    simp only [step] at hs
    split at hs
    · cases hs
    · next th ht => exact k_go hk ht hs
  | fail t =>
    simp only [step] at hs
    split at hs
    · cases hs
    · next th ht =>
      simp only [stepFail] at hs
      split at hs <;> cases hs
      next hpc => exact hk.only ht (by simp [hpc]) (by simp) (by simp)
  | discard t =>
    simp only [step] at hs
    split at hs
    · cases hs
    · next th ht =>
      simp only [stepDiscard] at hs
      split at hs
      · next hpc =>
        split at hs <;> cases hs
        exact hk.only ht (by simp [hpc]) (by simp) (by simp)
      · cases hs
  | finish t o =>
    simp only [step] at hs
    split at hs
    · cases hs
    · next th ht =>
      simp only [stepFinish] at hs
      split at hs <;> cases hs
      next hpc _ => exact hk.only ht (by simp [hpc]) (by simp) (by simp)

theorem JK.init (k : Nat) : JK (init k) := by
  refine ⟨fun i => ?_, fun i _ => ⟨rfl, rfl⟩, fun th hth i h => ?_⟩
  · show 0 = joining (List.replicate k {}) i
    rw [eq_comm, joining, List.countP_eq_zero]
    intro th hth
    rw [List.eq_of_mem_replicate hth]
    simp
  · rw [List.eq_of_mem_replicate hth] at h; cases h

/-- **C56 (races).** Exactly when it races: with `BOOST_THREAD_FUTURE_BLOCKING`, a thread calls `wait` for the result of a call of `async` that started a thread, while another thread is inside `wait` for the
same result, joining that thread. Nothing else races. -/
theorem race_iff_two_waits (m : Mode) (k : Nat) (ls : List Label) (s s' : State) (es es' : List Event) (l : Label) (i : Nat) (h : run (step m) (init k) ls = some (s, es)) (hs : step m s l = some (s', es')) :
    .raced i ∈ es' ↔ m = .blocking ∧ (s.node i).kind = .thread ∧ ∃ t u th, l = .op t (.wait i) ∧ u ≠ t ∧ s.th[u]? = some th ∧ th.pc = .join i := by
  have hk : JK s := run_inv JK (fun _ _ _ _ hi hs => k_step hi hs) (JK.init k) h
  have hthr : ∀ j, .raced i ∈ accessThr s j ↔ j = i ∧ 0 < joining s.th i := by
    intro j
    simp only [accessThr]
    split
    · next hj =>
      simp only [List.mem_singleton, Event.raced.injEq]
      constructor
      · rintro rfl; exact ⟨rfl, by rw [← hk.cnt]; exact hj⟩
      · rintro ⟨rfl, -⟩; rfl
    · next hj =>
      simp only [List.not_mem_nil, false_iff]
      rintro ⟨rfl, h2⟩
      rw [← hk.cnt] at h2; exact hj h2
  have hpos : ∀ (t : Nat) (th : Thread), s.th[t]? = some th → th.pc = .idle → (0 < joining s.th i ↔ ∃ (u : Nat) (th : Thread), u ≠ t ∧ s.th[u]? = some th ∧ th.pc = .join i) := by
    intro t th ht hf
    rw [joining, List.countP_pos_iff]
    constructor
    · rintro ⟨x, hx, hp⟩
      obtain ⟨u, hu⟩ := List.getElem?_of_mem hx
      have hp' : x.pc = .join i := by simpa using hp
      refine ⟨u, x, ?_, hu, hp'⟩
      rintro rfl
      rw [ht] at hu; cases hu
      rw [hf] at hp'; cases hp'
    · rintro ⟨u, x, -, hu, hp⟩
      exact ⟨x, List.mem_of_getElem? hu, by simp [hp]⟩
  have no : (∀ t, l ≠ .op t (.wait i)) → .raced i ∉ es' → (.raced i ∈ es' ↔ m = .blocking ∧ (s.node i).kind = .thread ∧ ∃ t u th, l = .op t (.wait i) ∧ u ≠ t ∧ s.th[u]? = some th ∧ th.pc = .join i) := by
    intro h1 h2
    constructor
    · intro h3; exact absurd h3 h2
    · rintro ⟨-, -, t, u, th, h3, -⟩; exact absurd h3 (h1 t)
  cases l with
  | op t o =>
    simp only [step] at hs
    split at hs
    · cases hs
    next th ht =>
    split at hs
    rotate_left
    · cases hs
    next hfree =>
    have hf := free_pc hfree
    cases o with
    | wait j =>
      simp only [stepOp] at hs
      split at hs
      · split at hs
        · next hb =>
          have hes : .raced i ∈ es' ↔ .raced i ∈ accessThr s j := by
            (repeat' split at hs) <;> cases hs <;> simp [raced_access]
          rw [hes, hthr j]
          constructor
          · rintro ⟨rfl, h1⟩
            obtain ⟨u, x, h2, h3, h4⟩ := (hpos t th ht hf).1 h1
            exact ⟨hb.1, hb.2, t, u, x, rfl, h2, h3, h4⟩
          · rintro ⟨-, -, t', u, x, h2, h3, h4, h5⟩
            cases h2
            exact ⟨rfl, (hpos t th ht hf).2 ⟨u, x, h3, h4, h5⟩⟩
        · next hb =>
          cases hs
          constructor
          · intro h1; simp [raced_access] at h1
          · rintro ⟨h1, h2, t', u, x, h3, -⟩
            cases h3
            exact absurd ⟨h1, h2⟩ hb
      · cases hs
    | async k => cases hs; exact no (by simp) (by simp)
    | copy j => simp only [stepOp] at hs; split at hs <;> cases hs; exact no (by simp) (by simp [raced_access])
    | give j u =>
      simp only [stepOp] at hs
      split at hs
      · cases hs
      · split at hs <;> cases hs; exact no (by simp) (by simp)
    | drop j => simp only [stepOp] at hs; split at hs <;> cases hs; exact no (by simp) (by simp)
    | get j => simp only [stepOp] at hs; split at hs <;> cases hs; exact no (by simp) (by simp [raced_access])
    | poll j => simp only [stepOp] at hs; split at hs <;> cases hs; exact no (by simp) (by simp [raced_access])
  | go t =>
    simp only [step] at hs
    split at hs
    · cases hs
    · exact no (by simp) (stepGo_events hs i).1
  | fail t =>
    simp only [step, stepFail] at hs
    (repeat' split at hs) <;> cases hs
    exact no (by simp) (by simp)
  | discard t =>
    simp only [step, stepDiscard] at hs
    (repeat' split at hs) <;> cases hs
    exact no (by simp) (by simp)
  | finish t o =>
    simp only [step, stepFinish] at hs
    (repeat' split at hs) <;> cases hs
    exact no (by simp) (by simp)

/-- Two threads wait; and a third call after the first two have come out does not race. -/
example : ∃ ls s es s' es', run (step .blocking) (init 2) ls = some (s, es) ∧ step .blocking s (.op 1 (.wait 0)) = some (s', es') ∧ .raced 0 ∈ es' :=
  ⟨[.op 0 (.async .thread), .go 0, .go 0, .op 0 (.copy 0), .op 0 (.give 0 1), .op 0 (.wait 0)], _, _, _, _, rfl, rfl, by decide⟩

example : ∃ ls s es s' es', run (step .blocking) (init 2) ls = some (s, es) ∧ step .blocking s (.op 1 (.wait 0)) = some (s', es') ∧ .waited 0 0 ∈ es ∧ .raced 0 ∉ es' :=
  ⟨[.op 0 (.async .thread), .go 0, .go 0, .op 0 (.copy 0), .op 0 (.give 0 1), .op 0 (.wait 0), .go 2, .finish 2 (.val 7), .go 2, .go 2, .go 2, .go 0, .go 0], _, _, _, _, rfl, rfl, by decide, by decide⟩

end Verif.Async
