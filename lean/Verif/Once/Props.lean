import Verif.Once.Lemmas
import Verif.Once.SpecLemmas
/-! # C19: `call_once` (atomic variant) -/

namespace Verif.Once

/-- **C19.** Whatever the number of threads and flags, the schedule and the pattern of throwing functions, what is observed of
flag `k` is what `specNext k` allows: calls of the function do not overlap, none starts after one completed, `call_once` returns
normally only after a completion, and an exception leaves the `call_once` whose own call of the function threw. -/
theorem call_once_exactly_once (n k : Nat) {ls : List Label} {s : State} {es : List Event}
    (h : run step (init n) ls = some (s, es)) : Accepts (specNext k) Flag.fresh es :=
  simulation (R k) (fun _ _ _ _ _ hR hs => step_follows k hR hs) (R_init k n) h

/-- **C19**, in words: at most one call completes, and nobody returns normally before it. -/
theorem call_once_completes_at_most_once (n k : Nat) {ls : List Label} {s : State} {es : List Event}
    (h : run step (init n) ls = some (s, es)) :
    completionsOf k es ≤ 1 ∧
    ∀ t pre post, es = pre ++ .returned t k :: post → completionsOf k pre = 1 := by
  have ha := call_once_exactly_once n k h
  have h1 := completionsOf_le_one (q := Flag.fresh) (by simp [Flag.fresh]) ha
  refine ⟨by simpa [Flag.fresh] using h1, ?_⟩
  rintro t pre post rfl
  have h2 := returned_after (q := Flag.fresh) (by simp [Flag.fresh]) ha rfl
  simp only [completionsOf, List.countP_append] at *
  simp [Flag.fresh] at h1
  omega

/-- Thread 1 waits while thread 0 runs the function, thread 0's call throws, thread 1 takes over, a third call returns at once. -/
example : ((run step (init 2) [.call 0 7, .enter 0, .call 1 7, .enter 1, .finish 0 false, .store 0, .broadcast 0, .enter 1, .finish 1 true,
    .store 1, .broadcast 1, .call 0 7]).map (·.2)) =
    some [.started 0 7, .finished 0 7 false, .raised 0 7, .started 1 7, .finished 1 7 true, .returned 1 7, .returned 0 7] := by decide

/-- Thread `t` is inside `call_once(k, …)`, neither running a function for it nor on the way out. -/
def Waiting (s : State) (t k : Nat) : Prop :=
  ∃ x, s.ts[t]? = some x ∧ (x.pc = .missed k ∨ x.pc = .asleep k ∨ x.pc = .woken k)

/-- Some thread is executing the function of flag `k`. -/
def Executing (s : State) (k : Nat) : Prop := ∃ (t : Nat) (x : Thread), s.ts[t]? = some x ∧ k ∈ x.stack

/-- Steps inside the library: no new calls, no function ends. -/
def Label.isInternal : Label → Bool
  | .enter _ => true
  | .store _ => true
  | .broadcast _ => true
  | _ => false

theorem loop_getsIn {s : State} {t k : Nat} {st : List Nat} (hv : s.flag k ≠ .inProgress) :
    Event.started t k ∈ (loop s t k st).2 ∨ Event.returned t k ∈ (loop s t k st).2 := by
  simp only [loop]
  split <;> simp_all

theorem enter_getsIn {s : State} {t k : Nat} {x : Thread} (ht : s.ts[t]? = some x)
    (hx : x.pc = .missed k ∨ x.pc = .woken k) (hv : s.flag k ≠ .inProgress) :
    ∃ s' es, run step s [.enter t] = some (s', es) ∧ (Event.started t k ∈ es ∨ Event.returned t k ∈ es) := by
  obtain ⟨pc, st⟩ := x
  rcases hx with rfl | rfl <;> refine ⟨(loop s t k st).1, (loop s t k st).2, ?_, loop_getsIn hv⟩ <;>
    simp [run, step, ht]

/-- A thread in the loop keeps its place, at worst woken, when another thread stores and broadcasts. -/
theorem broadcast_getsIn {s : State} {t u k j : Nat} {ok : Bool} {st : List Nat} {x : Thread} (ht : s.ts[t]? = some x)
    (hx : x.pc = .missed k ∨ x.pc = .asleep k ∨ x.pc = .woken k) (hu : s.ts[u]? = some ⟨.broadcasting j ok, st⟩)
    (hv : s.flag k ≠ .inProgress) :
    ∃ s' es, run step s [.broadcast u, .enter t] = some (s', es) ∧ (Event.started t k ∈ es ∨ Event.returned t k ∈ es) := by
  have hne : u ≠ t := by rintro rfl; rw [ht] at hu; cases hu; simp at hx
  let s1 : State := { s with ts := (s.ts.map fun x => { x with pc := x.pc.wake }).set u ⟨.user, st⟩ }
  have h1 : step s (.broadcast u) = some (s1, [if ok then .returned u j else .raised u j]) := by simp [step, hu, s1]
  obtain ⟨pc, xs⟩ := x
  have ht1 : s1.ts[t]? = some ⟨pc.wake, xs⟩ := by simp [s1, List.getElem?_set_ne hne, ht]
  obtain ⟨s', es, h2, h3⟩ := enter_getsIn (s := s1) (k := k) ht1 (by rcases hx with rfl | rfl | rfl <;> simp [PC.wake]) hv
  refine ⟨s', _, run_append (ls := [.broadcast u]) (by simp only [run, h1]; rfl) h2, ?_⟩
  rcases h3 with h3 | h3 <;> simp [h3]

/-- **C19.** No caller is ever left behind: as soon as no thread is executing the function of flag `k`, every thread inside
`call_once(k, …)` gets to run the function or to return, by steps of the library alone. In particular if the function threw, a waiting
caller takes over. -/
theorem call_once_caller_gets_in (n : Nat) {ls : List Label} {s : State} {es : List Event} (t k : Nat)
    (h : run step (init n) ls = some (s, es)) (hw : Waiting s t k) (hx : ¬ Executing s k) :
    ∃ ls' s' es', (∀ l ∈ ls', l.isInternal = true) ∧ run step s ls' = some (s', es') ∧
      (Event.started t k ∈ es' ∨ Event.returned t k ∈ es') := by
  obtain ⟨q, hq⟩ : ∃ q, specState (specNext k) Flag.fresh es = some q :=
    (call_once_exactly_once n k h).specState_isSome (clientOk k _ _)
  obtain ⟨o, r1, -, -, -, -, r5, r6, r7⟩ :=
    simulation_state (R k) (fun _ _ _ _ _ hR hs => step_follows k hR hs) (R_init k n) h hq
  obtain ⟨x, ht, hpc⟩ := hw
  by_cases hv : s.flag k = .inProgress
  · -- the thread that set the flag has left the function and will store and broadcast
    obtain ⟨u, hu⟩ := Option.ne_none_iff_exists'.mp (r1.mp hv)
    obtain ⟨⟨pc, st⟩, hy⟩ := r5 u hu
    have hact := (r7 u _ hy).act
    have hk : k ∉ st := fun hc => hx ⟨u, _, hy, hc⟩
    rw [List.count_eq_zero.mpr hk] at hact
    simp only [hu, decide_true, b2n_true, Nat.zero_add] at hact
    have : ∃ ok, pc = .ended k ok := by
      cases pc with
      | ended j ok =>
        simp only [PC.isEnded] at hact
        by_cases hj : j = k
        · exact ⟨ok, by rw [hj]⟩
        · simp [hj] at hact
      | _ => simp [PC.isEnded] at hact
    obtain ⟨ok, rfl⟩ := this
    have hne : u ≠ t := by rintro rfl; rw [ht] at hy; cases hy; simp at hpc
    let s1 : State := { flag := s.setFlag k (if ok then .initialized else .uninitialized), ts := s.ts.set u ⟨.broadcasting k ok, st⟩ }
    have h1 : step s (.store u) = some (s1, []) := by simp [step, hy, s1]
    obtain ⟨s', es', h2, h3⟩ := broadcast_getsIn (s := s1) (t := t) (u := u) (k := k) (j := k) (ok := ok) (st := st) (x := x)
      (by simp [s1, List.getElem?_set_ne hne, ht]) hpc (by simp [s1, getElem?_set_eq hy])
      (by cases ok <;> simp [s1, State.setFlag])
    exact ⟨[.store u, .broadcast u, .enter t], s', _, by simp [Label.isInternal],
      run_append (ls := [.store u]) (by simp only [run, h1]; rfl) h2, by simpa using h3⟩
  · by_cases ha : x.pc = .asleep k
    · have hpos := r6 (cnt_pos ht (by obtain ⟨pc, st⟩ := x; cases ha; simp [Thread.isAsleep]))
      rcases hpos with hpos | hpos
      · exact absurd hpos hv
      obtain ⟨u, ⟨pc, st⟩, hu, hb⟩ := exists_of_cnt_pos hpos
      cases pc with
      | broadcasting j ok =>
        obtain ⟨s', es', h2, h3⟩ := broadcast_getsIn ht hpc hu hv
        exact ⟨_, s', es', by simp [Label.isInternal], h2, h3⟩
      | _ => simp [Thread.isBroadcasting] at hb
    · obtain ⟨s', es', h2, h3⟩ := enter_getsIn ht (by rcases hpc with h | h | h <;> simp_all) hv
      exact ⟨_, s', es', by simp [Label.isInternal], h2, h3⟩

/-- The hypotheses are met: thread 1 sleeps, the function of thread 0 has just thrown. -/
example : ∃ s es, run step (init 2) [.call 0 7, .enter 0, .call 1 7, .enter 1, .finish 0 false] = some (s, es) ∧
    Waiting s 1 7 ∧ ¬ Executing s 7 := by
  refine ⟨_, _, rfl, ⟨_, rfl, Or.inr (Or.inl rfl)⟩, ?_⟩
  rintro ⟨t, x, hx, hk⟩
  match t with
  | 0 => cases hx; cases hk
  | 1 => cases hx; cases hk
  | t + 2 => cases hx

/-- Why the hypothesis is needed: a function that calls `call_once` for its own flag waits for itself for ever. -/
theorem recursive_call_never_returns (n : Nat) {ls : List Label} {s : State} {es : List Event}
    (h : run step (init n) ls = some (s, es)) (t k : Nat) (x : Thread) (ht : s.ts[t]? = some x) (hk : k ∈ x.stack)
    (hw : x.pc = .missed k ∨ x.pc = .asleep k ∨ x.pc = .woken k) {l : Label} {s' : State} {es' : List Event}
    (hs : step s l = some (s', es')) :
    (∃ x', s'.ts[t]? = some x' ∧ x'.stack = x.stack ∧ (x'.pc = .missed k ∨ x'.pc = .asleep k ∨ x'.pc = .woken k)) := by
  have hex : ∃ q, specState (specNext k) Flag.fresh es = some q :=
    (call_once_exactly_once n k h).specState_isSome (clientOk k _ _)
  obtain ⟨q, hq⟩ := hex
  obtain ⟨o, r1, -, -, -, -, r5, r6, r7⟩ :=
    simulation_state (R k) (fun _ _ _ _ _ hR hs => step_follows k hR hs) (R_init k n) h hq
  have hact := (r7 t _ ht).act
  have hv : s.flag k = .inProgress := by
    rw [r1]; rintro rfl
    have : 0 < x.stack.count k := List.count_pos_iff.mpr hk
    simp at hact; omega
  obtain ⟨pc, st⟩ := x
  simp only at hw hk
  have other : ∀ {u : Nat} {p z : Thread}, s.ts[u]? = some p → u ≠ t → (s.ts.set u z)[t]? = some ⟨pc, st⟩ := by
    intro u p z _ hne; rw [List.getElem?_set_ne hne]; exact ht
  have lp : ∀ {u j : Nat} {p : Thread} {st' : List Nat}, s.ts[u]? = some p → (p = ⟨.missed j, st'⟩ ∨ p = ⟨.woken j, st'⟩) →
      ∃ x', (loop s u j st').1.ts[t]? = some x' ∧ x'.stack = st ∧ (x'.pc = .missed k ∨ x'.pc = .asleep k ∨ x'.pc = .woken k) := by
    intro u j p st' hu hp
    by_cases hut : u = t
    · subst hut
      rw [ht] at hu; cases hu
      have hj : j = k ∧ st = st' := by rcases hp with h | h <;> cases h <;> simp_all
      obtain ⟨rfl, rfl⟩ := hj
      simp only [loop, hv, getElem?_set_eq ht, if_true]
      exact ⟨_, rfl, rfl, by simp⟩
    · refine ⟨⟨pc, st⟩, ?_, rfl, hw⟩
      simp only [loop]
      split <;> exact other hu hut
  cases l with
  | enter u =>
    simp only [step] at hs
    split at hs
    · next hu => have := congrArg Prod.fst (Option.some.inj hs); subst this; exact lp hu (Or.inl rfl)
    · next hu => have := congrArg Prod.fst (Option.some.inj hs); subst this; exact lp hu (Or.inr rfl)
    · cases hs
  | call u j =>
    simp only [step] at hs
    split at hs
    · next hu =>
      have hut : u ≠ t := by rintro rfl; rw [ht] at hu; cases hu; simp at hw
      split at hs <;> cases hs
      · exact ⟨_, ht, rfl, hw⟩
      · exact ⟨_, other hu hut, rfl, hw⟩
    · cases hs
  | spurious u =>
    simp only [step] at hs
    split at hs
    · next hu =>
      cases hs
      by_cases hut : u = t
      · subst hut; rw [ht] at hu; cases hu
        simp only [getElem?_set_eq ht, if_true]
        exact ⟨_, rfl, rfl, by simp_all⟩
      · exact ⟨_, other hu hut, rfl, hw⟩
    · cases hs
  | finish u ok =>
    simp only [step] at hs
    split at hs
    · next hu =>
      have hut : u ≠ t := by rintro rfl; rw [ht] at hu; cases hu; simp at hw
      cases hs; exact ⟨_, other hu hut, rfl, hw⟩
    · cases hs
  | store u =>
    simp only [step] at hs
    split at hs
    · next hu =>
      have hut : u ≠ t := by rintro rfl; rw [ht] at hu; cases hu; simp at hw
      cases hs; exact ⟨_, other hu hut, rfl, hw⟩
    · cases hs
  | broadcast u =>
    simp only [step] at hs
    split at hs
    · next hu =>
      have hut : u ≠ t := by rintro rfl; rw [ht] at hu; cases hu; simp at hw
      cases hs
      refine ⟨⟨pc.wake, st⟩, by simp [List.getElem?_set_ne hut, ht], rfl, ?_⟩
      rcases hw with rfl | rfl | rfl <;> simp [PC.wake]
    · cases hs

example : ∃ s es, run step (init 1) [.call 0 7, .enter 0, .call 0 7, .enter 0] = some (s, es) ∧
    s.ts[0]? = some ⟨.asleep 7, [7]⟩ := ⟨_, _, rfl, rfl⟩

end Verif.Once
