import Verif.Future.Live
/-!
# Promises and futures: C32 and C33

The contract is the automaton of `Verif.Future.Spec`. With `strict = true` it is the whole of C32 and C33, with `strict = false` the part the code keeps for
every history. Theorems named `_partial` prove the first for the clients that use only the calls for which it holds; the theorems named `…_fails` show that
each of the restrictions is needed.
-/

namespace Verif.Future

/-! ## Reading the contract -/

/-- What may not happen to a channel with outcome `o`. -/
def Keeps (strict : Bool) (o : Out) (c c' : Chan) : Prop :=
  c'.out = some o ∧ (c.ready = true → c'.ready = true) ∧ (strict = true → c'.spoiled = false)

theorem keeps_set {strict : Bool} {o : Out} {l : List Chan} {i j : Nat} {c d : Chan} (hc : l[i]? = some c) (hs : c.spoiled = false) (ho : c.out = some o)
    (hk : j = i → Keeps strict o c d) : ∃ c', (l.set j d)[i]? = some c' ∧ Keeps strict o c c' := by
  by_cases h : j = i
  · exact ⟨d, by simp [h, (List.getElem?_eq_some_iff.1 hc).1], hk h⟩
  · exact ⟨c, by simp [h, hc], ho, id, fun _ => hs⟩

theorem keeps_judgeSet {strict : Bool} {o : Out} {c c' : Chan} {m o' r} (hs : c.spoiled = false) (ho : c.out = some o)
    (h : judgeSet strict c m o' r = some c') : Keeps strict o c c' := by
  simp only [judgeSet, hs, ho] at h
  split at h
  · contradiction
  · split at h
    · split at h
      · cases h; exact ⟨ho, id, fun _ => hs⟩
      · cases h
    · rename_i hn; cases h
      refine ⟨rfl, id, fun hst => ?_⟩
      subst hst; simp at hn

theorem keeps_judgeWait {cfg : Cfg} {strict : Bool} {o : Out} {c c' : Chan} {w r} (hs : c.spoiled = false) (ho : c.out = some o)
    (h : judgeWait cfg strict c w r = some c') : Keeps strict o c c' := by
  obtain ⟨out, ready, spoiled, used, taken⟩ := c
  dsimp only at hs ho
  subst hs ho
  cases w <;> cases o <;> simp only [judgeWait, Bool.false_eq_true, if_false, Bool.false_or] at h <;> revert h <;> repeat' split
  all_goals (intro h; first | cases h; done | (simp only [Option.some.injEq] at h; subst h; exact ⟨rfl, id, fun _ => rfl⟩))

theorem keeps_publish {strict : Bool} {o : Out} {c : Chan} (hs : c.spoiled = false) (ho : c.out = some o) : Keeps strict o c c.publish := by
  simp [Chan.publish, ho, Keeps, hs]

theorem keeps_start {cfg : Cfg} {strict : Bool} {o : Out} {c : Chan} (w : Wait) (hs : c.spoiled = false) (ho : c.out = some o) : Keeps strict o c (w.start cfg c) := by
  have k0 : Keeps strict o c c := ⟨ho, id, fun _ => hs⟩
  rcases w with (_ | _) | _ | _ | _ <;> first | exact k0 | exact ⟨ho, id, fun _ => hs⟩

theorem keeps_startWait {cfg : Cfg} {strict : Bool} {o : Out} {c c' : Chan} {w r} (hs : c.spoiled = false) (ho : c.out = some o)
    (h : judgeWait cfg strict (w.start cfg c) w r = some c') : Keeps strict o c c' := by
  have k1 := keeps_start (cfg := cfg) (strict := true) w hs ho
  have k2 := keeps_judgeWait (k1.2.2 rfl) k1.1 h
  exact ⟨k2.1, fun h => k2.2.1 (k1.2.1 h), k2.2.2⟩

theorem keeps_ensure {σ : SState} {mk : Bool} {p : Nat} {x : Prom} {i : Nat} {c : Chan} (hc : σ.chans[i]? = some c) : (σ.ensure mk p x).1.chans[i]? = some c := by
  simp only [SState.ensure]
  split
  · exact hc
  · split
    · simp [List.getElem?_append_left (List.getElem?_eq_some_iff.1 hc).1, hc]
    · exact hc

theorem ofOption_ok {α : Type} {a : Option α} {b : α} (h : ofOption a = .ok b) : a = some b := by
  cases a <;> simp_all [ofOption]

/-- The contract, restated for one channel: whatever an accepted event does, a decided channel keeps its outcome and stays available, as long as it is not
spoiled, and under the strict contract it is never spoiled. -/
theorem spec_outcome_stable {cfg : Cfg} {strict : Bool} {σ σ' : SState} {e : E} {i : Nat} {c : Chan} {o : Out}
    (h : next cfg strict σ e = .ok σ') (hc : σ.chans[i]? = some c) (hs : c.spoiled = false) (ho : c.out = some o) :
    ∃ c', σ'.chans[i]? = some c' ∧ c'.out = some o ∧ (c.ready = true → c'.ready = true) ∧ (strict = true → c'.spoiled = false) := by
  have k0 : ∃ c', σ.chans[i]? = some c' ∧ Keeps strict o c c' := ⟨c, hc, ho, id, fun _ => hs⟩
  have kset : ∀ {j : Nat} {d d' : Chan}, σ.chans[j]? = some d → (d.spoiled = false → d.out = some o → Keeps strict o d d') →
      ∃ c', (σ.chans.set j d')[i]? = some c' ∧ Keeps strict o c c' := by
    intro j d d' hd hk
    refine keeps_set hc hs ho fun hj => ?_
    subst hj; rw [hc] at hd; cases hd
    exact hk hs ho
  cases e with
  | ret t op r =>
    cases op with
    | pnew =>
      simp only [next, nextRet] at h
      split at h <;> cases h
      · exact k0
      · exact ⟨c, by simp [List.getElem?_append_left (List.getElem?_eq_some_iff.1 hc).1, hc], ho, id, fun _ => hs⟩
    | pdestroy p =>
      simp only [next, nextRet] at h
      have h := ofOption_ok h
      simp only [Option.bind_eq_some_iff] at h
      obtain ⟨x, -, h⟩ := h
      split at h
      · cases h; exact k0
      · simp only [Option.map_eq_some_iff] at h
        obtain ⟨d, hd, h⟩ := h
        cases h
        exact kset hd (fun hs ho => by simp [Chan.abandon, ho, Keeps, hs])
    | passign p q =>
      simp only [next, nextRet] at h
      have h := ofOption_ok h
      simp only [Option.bind_eq_some_iff] at h
      obtain ⟨x, -, y, -, h⟩ := h
      split at h
      · split at h
        · simp only [Option.map_eq_some_iff] at h
          obtain ⟨d, hd, h⟩ := h
          cases h
          exact kset hd (fun hs ho => by simp [Chan.abandon, ho, Keeps, hs])
        · cases h; exact k0
      · cases h; exact k0
    | pmove p | fconv f sh | fdestroy f | fcopy f =>
      simp only [next, nextRet] at h
      have h := ofOption_ok h
      simp only [Option.map_eq_some_iff] at h
      obtain ⟨x, -, h⟩ := h
      cases h; exact k0
    | pswap p q | fassign f g =>
      simp only [next, nextRet] at h
      have h := ofOption_ok h
      simp only [Option.bind_eq_some_iff, Option.map_eq_some_iff] at h
      obtain ⟨x, -, y, -, h⟩ := h
      cases h; exact k0
    | getFuture p =>
      simp only [next, nextRet] at h
      have h := ofOption_ok h
      simp only [Option.bind_eq_some_iff] at h
      obtain ⟨x, -, h⟩ := h
      have ke : ∃ c', (σ.ensure cfg.lazy p x).1.chans[i]? = some c' ∧ Keeps strict o c c' := ⟨c, keeps_ensure hc, ho, id, fun _ => hs⟩
      split at h
      · split at h <;> cases h; exact ke
      · split at h
        · split at h <;> cases h; exact ke
        · split at h <;> cases h; exact ke
    | set p m o' =>
      simp only [next, nextRet] at h
      split at h
      · cases h
      · rename_i x _
        have ke := keeps_ensure (mk := cfg.lazy && (m != .atExit || strict)) (p := p) (x := x) hc
        split at h
        · split at h
          · split at h <;> cases h
          · split at h <;> cases h
            exact ⟨c, ke, ho, id, fun _ => hs⟩
        · rename_i j _
          have h := ofOption_ok h
          simp only [Option.bind_eq_some_iff, Option.map_eq_some_iff] at h
          obtain ⟨d, hd, d', hj, h⟩ := h
          have : ∃ c', ((σ.ensure (cfg.lazy && (m != .atExit || strict)) p x).1.chans.set j d')[i]? = some c' ∧ Keeps strict o c c' := by
            refine keeps_set ke hs ho fun hij => ?_
            subst hij; rw [ke] at hd; cases hd
            exact keeps_judgeSet hs ho hj
          split at h <;> cases h <;> exact this
    | notify p =>
      simp only [next, nextRet] at h
      have h := ofOption_ok h
      simp only [Option.bind_eq_some_iff] at h
      obtain ⟨x, -, h⟩ := h
      split at h
      · split at h <;> cases h; exact k0
      · split at h
        · simp only [Option.map_eq_some_iff] at h
          obtain ⟨d, hd, h⟩ := h
          cases h
          exact kset hd keeps_publish
        · cases h
    | isReady f | hasValue f | hasException f | valid f =>
      simp only [next, nextRet] at h
      have h := ofOption_ok h
      simp only [Option.bind_eq_some_iff] at h
      obtain ⟨x, -, h⟩ := h
      split at h
      · split at h <;> cases h; exact k0
      · simp only [Option.bind_eq_some_iff] at h
        obtain ⟨d, -, h⟩ := h
        split at h <;> cases h; exact k0
    | exit =>
      simp only [next, nextRet] at h
      split at h <;> cases h
      · refine ⟨_, by simp only [List.getElem?_mapIdx, hc]; rfl, ?_⟩
        show Keeps strict o c _
        split
        · exact keeps_publish hs ho
        · exact ⟨ho, id, fun _ => hs⟩
      · exact k0
    | getF f | getOrF f sh d | waitF f | timedF f =>
      simp only [next, nextRet, Op.waits] at h
      have h := ofOption_ok h
      simp only [Option.bind_eq_some_iff, Option.bind_some] at h
      obtain ⟨x, -, h⟩ := h
      split at h
      · split at h <;> cases h; exact k0
      · simp only [Option.bind_eq_some_iff] at h
        obtain ⟨d, hd, h⟩ := h
        split at h
        · split at h <;> cases h; exact k0
        · simp only [Option.map_eq_some_iff] at h
          obtain ⟨d', hj, h⟩ := h
          cases h
          refine kset hd fun hs ho => ?_
          exact keeps_startWait hs ho hj
  | enter t op =>
    simp only [next] at h
    have h := ofOption_ok h
    simp only [Option.bind_eq_some_iff] at h
    obtain ⟨fw, -, x, -, j, -, d, hd, h⟩ := h
    split at h <;> cases h
    exact kset hd (keeps_start _)
  | leave t r =>
    simp only [next] at h
    have h := ofOption_ok h
    simp only [Option.bind_eq_some_iff] at h
    obtain ⟨wi, -, h⟩ := h
    split at h
    · cases h
      split
      · simp only [List.getElem?_modify]
        split
        · rename_i hij
          rw [hc]
          exact ⟨_, rfl, ho, id, fun _ => hs⟩
        · exact ⟨c, by simpa using hc, ho, id, fun _ => hs⟩
      · exact k0
    · simp only [Option.bind_eq_some_iff, Option.map_eq_some_iff] at h
      obtain ⟨d, hd, d', hj, h⟩ := h
      cases h
      exact kset hd fun hs ho => keeps_judgeWait hs ho hj
  | released t => cases h; exact k0
  | published t =>
    simp only [next] at h
    have h := ofOption_ok h
    split at h
    · simp only [Option.map_eq_some_iff] at h
      obtain ⟨d, hd, h⟩ := h
      cases h
      exact kset hd keeps_publish
    · cases h

theorem R_init (strict : Bool) (libs : List Bool) : R strict (init libs) (sInit libs) := by
  refine ⟨rfl, rfl, ?_, ?_, ?_, rfl, fun i x c hx => ?_, fun _ l hl => ?_, fun _ d i hm => ?_, by simp [init, sInit]⟩
  · simp [init, sInit, pendOf]
  · simp [init, sInit]
  · simp [init, sInit, Function.comp_def]
  · simp [init] at hx
  · simp only [sInit, List.mem_map] at hl; obtain ⟨b, -, rfl⟩ := hl; rfl
  · simp only [sInit, List.mem_map] at hm; obtain ⟨b, -, hb⟩ := hm; cases hb

/-! ## C32, C33: every history -/

/-- C32 and C33, the part kept for every history: for every configuration, any number of threads, and every sequence of steps. -/
theorem every_history_partial {cfg : Cfg} {libs : List Bool} {ls : List L} {s : State} {es : List E}
    (h : run (step cfg) (init libs) ls = some (s, es)) : Accepts (next cfg false) (sInit libs) es :=
  simulation (s := init libs) (R false) (fun _ _ _ _ _ hR hs => sim_step (by simp) hR hs) (R_init false libs) h

/-- C32 and C33 in full, for clients that only use `set_value` and `set_exception`, do not assign to promises, do not use `shared_future::get_or`, and do not
interrupt a thread that waits for a future. -/
theorem plain_history_partial {cfg : Cfg} {libs : List Bool} {ls : List L} {s : State} {es : List E} (hl : ∀ l ∈ ls, Plain l)
    (h : run (step cfg) (init libs) ls = some (s, es)) : Accepts (next cfg true) (sInit libs) es :=
  simulation_on (s := init libs) Plain (R true) (fun _ _ _ _ _ hP hR hs => sim_step (fun _ => hP) hR hs) hl (R_init true libs) h

/-- The default configurations of the library: `BOOST_THREAD_VERSION` 2, 3, and 4 or 5. -/
abbrev v2 : Cfg := ⟨true, false⟩
abbrev v3 : Cfg := ⟨false, false⟩
abbrev v4 : Cfg := ⟨false, true⟩

/-- A history that meets the hypotheses of both theorems and in which something happens: one thread waits in `get`, another sets a value, tries a second time and
is rejected; the first thread receives the value, and its future is used up. -/
def demo : List L :=
  [.call 0 .pnew, .call 0 (.getFuture 0), .call 0 (.getFuture 0), .call 0 (.getF 0), .call 1 (.set 0 .now (.value 7)), .call 1 (.set 0 .now (.exc (.user 1))),
    .resume 0, .call 0 (.getF 0), .call 1 .pnew, .call 1 (.getFuture 1), .call 1 (.fconv 1 true), .call 1 (.fcopy 2), .call 1 (.pmove 1),
    .call 1 (.pdestroy 1), .call 0 (.isReady 2), .call 1 (.pdestroy 2), .call 0 (.getF 2), .call 0 (.getF 3)]

def demoEvents : List E :=
  [.ret 0 .pnew .ok, .ret 0 (.getFuture 0) .ok, .ret 0 (.getFuture 0) .retrieved, .enter 0 (.getF 0), .ret 1 (.set 0 .now (.value 7)) .ok,
    .ret 1 (.set 0 .now (.exc (.user 1))) .satisfied, .leave 0 (.value 7), .ret 0 (.getF 0) .uninit, .ret 1 .pnew .ok, .ret 1 (.getFuture 1) .ok,
    .ret 1 (.fconv 1 true) .ok, .ret 1 (.fcopy 2) .ok, .ret 1 (.pmove 1) .ok, .ret 1 (.pdestroy 1) .ok, .ret 0 (.isReady 2) (.bool false),
    .ret 1 (.pdestroy 2) .ok, .ret 0 (.getF 2) (.threw .broken), .ret 0 (.getF 3) (.threw .broken)]

example : (∀ l ∈ demo, Plain l) ∧ ∃ s, run (step v4) (init [true, true]) demo = some (s, demoEvents) :=
  ⟨by simp [demo, Plain], _, rfl⟩

/-- The contract is not vacuous: it rejects each of these answers. -/
example : ¬ Accepts (next v4 true) (sInit [true]) [.ret 0 .pnew .ok, .ret 0 (.set 0 .now (.value 1)) .ok, .ret 0 (.set 0 .now (.value 2)) .ok] := by decide
example : ¬ Accepts (next v4 false) (sInit [true]) [.ret 0 .pnew .ok, .ret 0 (.set 0 .now (.value 1)) .ok, .ret 0 (.set 0 .now (.value 2)) .ok] := by decide
example : ¬ Accepts (next v4 false) (sInit [true]) [.ret 0 .pnew .ok, .ret 0 (.getFuture 0) .ok, .ret 0 (.getFuture 0) .ok] := by decide
example : ¬ Accepts (next v4 false) (sInit [true])
    [.ret 0 .pnew .ok, .ret 0 (.getFuture 0) .ok, .ret 0 (.set 0 .now (.value 1)) .ok, .ret 0 (.getF 0) (.value 2)] := by decide
example : ¬ Accepts (next v4 false) (sInit [true]) [.ret 0 .pnew .ok, .ret 0 (.getFuture 0) .ok, .ret 0 (.getF 0) (.value 2)] := by decide
example : ¬ Accepts (next v4 false) (sInit [true]) [.ret 0 .pnew .ok, .ret 0 (.getFuture 0) .ok, .ret 0 (.pdestroy 0) .ok, .enter 0 (.getF 0)] := by decide
example : ¬ Accepts (next v4 false) (sInit [true]) [.ret 0 .pnew .ok, .ret 0 (.set 0 .atExit (.value 1)) .ok, .published 0] := by decide
example : ¬ Accepts (next v4 false) (sInit [true])
    [.ret 0 .pnew .ok, .ret 0 (.getFuture 0) .ok, .ret 0 (.pdestroy 0) .ok, .ret 0 (.isReady 0) (.bool false)] := by decide

/-! ## C32: where the full contract fails -/

/-- A second `set_value_deferred` does not throw, and its value replaces the first. -/
theorem deferred_twice_fails :
    (∃ s, run (step v4) (init [true]) [.call 0 .pnew, .call 0 (.getFuture 0), .call 0 (.set 0 .deferred (.value 1)), .call 0 (.set 0 .deferred (.value 2)),
        .call 0 (.notify 0), .call 0 (.getF 0)] = some (s,
      [.ret 0 .pnew .ok, .ret 0 (.getFuture 0) .ok, .ret 0 (.set 0 .deferred (.value 1)) .ok, .ret 0 (.set 0 .deferred (.value 2)) .ok,
        .ret 0 (.notify 0) .ok, .ret 0 (.getF 0) (.value 2)])) ∧
    ¬ Accepts (next v4 true) (sInit [true])
      [.ret 0 .pnew .ok, .ret 0 (.getFuture 0) .ok, .ret 0 (.set 0 .deferred (.value 1)) .ok, .ret 0 (.set 0 .deferred (.value 2)) .ok,
        .ret 0 (.notify 0) .ok, .ret 0 (.getF 0) (.value 2)] := ⟨⟨_, rfl⟩, by decide⟩

/-- `set_exception_deferred` on a promise that already holds an exception does not throw, and changes what `get` of a ready future throws. -/
theorem exception_changes_fails :
    (∃ s, run (step v4) (init [true]) [.call 0 .pnew, .call 0 (.getFuture 0), .call 0 (.fconv 0 true), .call 0 (.set 0 .now (.exc (.user 1))), .call 0 (.getF 1),
        .call 0 (.set 0 .deferred (.exc (.user 2))), .call 0 (.getF 1)] = some (s,
      [.ret 0 .pnew .ok, .ret 0 (.getFuture 0) .ok, .ret 0 (.fconv 0 true) .ok, .ret 0 (.set 0 .now (.exc (.user 1))) .ok, .ret 0 (.getF 1) (.threw (.user 1)),
        .ret 0 (.set 0 .deferred (.exc (.user 2))) .ok, .ret 0 (.getF 1) (.threw (.user 2))])) ∧
    ¬ Accepts (next v4 true) (sInit [true])
      [.ret 0 .pnew .ok, .ret 0 (.getFuture 0) .ok, .ret 0 (.fconv 0 true) .ok, .ret 0 (.set 0 .now (.exc (.user 1))) .ok, .ret 0 (.getF 1) (.threw (.user 1)),
        .ret 0 (.set 0 .deferred (.exc (.user 2))) .ok, .ret 0 (.getF 1) (.threw (.user 2))] := ⟨⟨_, rfl⟩, by decide⟩

/-- `set_value` after `set_exception_deferred` reports success, and the future throws the exception. -/
theorem value_after_deferred_exception_fails :
    (∃ s, run (step v4) (init [true]) [.call 0 .pnew, .call 0 (.getFuture 0), .call 0 (.set 0 .deferred (.exc (.user 1))), .call 0 (.set 0 .now (.value 2)),
        .call 0 (.getF 0)] = some (s,
      [.ret 0 .pnew .ok, .ret 0 (.getFuture 0) .ok, .ret 0 (.set 0 .deferred (.exc (.user 1))) .ok, .ret 0 (.set 0 .now (.value 2)) .ok,
        .ret 0 (.getF 0) (.threw (.user 1))])) ∧
    ¬ Accepts (next v4 true) (sInit [true])
      [.ret 0 .pnew .ok, .ret 0 (.getFuture 0) .ok, .ret 0 (.set 0 .deferred (.exc (.user 1))) .ok, .ret 0 (.set 0 .now (.value 2)) .ok,
        .ret 0 (.getF 0) (.threw (.user 1))] := ⟨⟨_, rfl⟩, by decide⟩

/-- `notify_deferred` without an outcome makes the future ready without a result: `get` then dereferences a null pointer. -/
theorem notify_without_outcome :
    ∃ s, run (step v4) (init [true]) [.call 0 .pnew, .call 0 (.getFuture 0), .call 0 (.notify 0), .call 0 (.hasValue 0), .call 0 (.getF 0)] = some (s,
      [.ret 0 .pnew .ok, .ret 0 (.getFuture 0) .ok, .ret 0 (.notify 0) .ok, .ret 0 (.hasValue 0) (.bool true), .ret 0 (.getF 0) .crash]) := ⟨_, rfl⟩

/-- In version 2 `set_value_at_thread_exit` on a new promise throws `promise_moved`, although `set_value` and `set_value_deferred` succeed. -/
theorem at_thread_exit_lazy_fails :
    (∃ s, run (step v2) (init [true]) [.call 0 .pnew, .call 0 (.set 0 .atExit (.value 1)), .call 0 (.set 0 .deferred (.value 1))] = some (s,
      [.ret 0 .pnew .ok, .ret 0 (.set 0 .atExit (.value 1)) .noState, .ret 0 (.set 0 .deferred (.value 1)) .ok])) ∧
    ¬ Accepts (next v2 true) (sInit [true])
      [.ret 0 .pnew .ok, .ret 0 (.set 0 .atExit (.value 1)) .noState, .ret 0 (.set 0 .deferred (.value 1)) .ok] := ⟨⟨_, rfl⟩, by decide⟩

/-- In versions 3 to 5 `set_value` on a promise that was moved from dereferences a null pointer; the deferred variant throws. -/
theorem moved_from_set_value :
    ∃ s, run (step v4) (init [true]) [.call 0 .pnew, .call 0 (.pmove 0), .call 0 (.set 0 .deferred (.value 1)), .call 0 (.set 0 .now (.value 1))] = some (s,
      [.ret 0 .pnew .ok, .ret 0 (.pmove 0) .ok, .ret 0 (.set 0 .deferred (.value 1)) .noState, .ret 0 (.set 0 .now (.value 1)) .crash]) := ⟨_, rfl⟩

/-- `shared_future::get_or` throws the stored exception instead of returning the alternative. -/
theorem shared_get_or_fails :
    (∃ s, run (step v4) (init [true]) [.call 0 .pnew, .call 0 (.getFuture 0), .call 0 (.fconv 0 true), .call 0 (.set 0 .now (.exc (.user 1))),
        .call 0 (.getOrF 1 true 5)] = some (s,
      [.ret 0 .pnew .ok, .ret 0 (.getFuture 0) .ok, .ret 0 (.fconv 0 true) .ok, .ret 0 (.set 0 .now (.exc (.user 1))) .ok,
        .ret 0 (.getOrF 1 true 5) (.threw (.user 1))])) ∧
    ¬ Accepts (next v4 true) (sInit [true])
      [.ret 0 .pnew .ok, .ret 0 (.getFuture 0) .ok, .ret 0 (.fconv 0 true) .ok, .ret 0 (.set 0 .now (.exc (.user 1))) .ok,
        .ret 0 (.getOrF 1 true 5) (.threw (.user 1))] := ⟨⟨_, rfl⟩, by decide⟩

/-- In versions 4 and 5 a `get` that is interrupted loses the result: the future is no longer valid, although nothing was returned. -/
theorem interrupted_get_fails :
    (∃ s, run (step v4) (init [true, true]) [.call 0 .pnew, .call 0 (.getFuture 0), .call 0 (.getF 0), .interrupt 0, .call 1 (.set 0 .now (.value 1)),
        .call 0 (.getF 0)] = some (s,
      [.ret 0 .pnew .ok, .ret 0 (.getFuture 0) .ok, .enter 0 (.getF 0), .leave 0 .interrupted, .ret 1 (.set 0 .now (.value 1)) .ok,
        .ret 0 (.getF 0) .uninit])) ∧
    ¬ Accepts (next v4 true) (sInit [true, true])
      [.ret 0 .pnew .ok, .ret 0 (.getFuture 0) .ok, .enter 0 (.getF 0), .leave 0 .interrupted, .ret 1 (.set 0 .now (.value 1)) .ok,
        .ret 0 (.getF 0) .uninit] := ⟨⟨_, rfl⟩, by decide⟩

/-- A `future` made from one of several `shared_future`s moves the value out, and the others then see an object that was moved from. -/
theorem unshared_get_moves :
    ∃ s, run (step v4) (init [true]) [.call 0 .pnew, .call 0 (.getFuture 0), .call 0 (.fconv 0 true), .call 0 (.fcopy 1), .call 0 (.fconv 1 false),
        .call 0 (.set 0 .now (.value 3)), .call 0 (.getF 3), .call 0 (.getF 2)] = some (s,
      [.ret 0 .pnew .ok, .ret 0 (.getFuture 0) .ok, .ret 0 (.fconv 0 true) .ok, .ret 0 (.fcopy 1) .ok, .ret 0 (.fconv 1 false) .ok,
        .ret 0 (.set 0 .now (.value 3)) .ok, .ret 0 (.getF 3) (.value 3), .ret 0 (.getF 2) .movedFrom]) := ⟨_, rfl⟩

/-! ## C33: everyone who waits is served -/

/-- As soon as a shared state is ready, a thread blocked on it was woken and returns with its next step; no notification is lost. -/
theorem ready_waiter_returns {cfg : Cfg} {libs : List Bool} {ls : List L} {s : State} {es : List E} {t : Nat} {th : Th} {w : Wait} {i : Nat} {a : Bool} {x : SS}
    (h : run (step cfg) (init libs) ls = some (s, es)) (ht : s.ts[t]? = some th) (hb : th.pc = .blocked w i a) (hx : s.ss[i]? = some x)
    (hd : x.done = true) : ∃ s' r, step cfg s (.resume t) = some (s', [.leave t r]) := by
  have hw : Wf s := run_inv Wf (fun _ _ _ _ hI hs => hI.step hs) (Wf.init libs) h
  cases a with
  | true => exact absurd (hw.sleep t th w i x ht hb hx) (by simp [hd])
  | false =>
    exact ⟨_, _, show step cfg s (.resume t) = _ by simp only [step, ht, Option.bind_some, hb, recheck, hx, Option.map_some, hd, if_true]; rfl⟩

example : ∃ s es th x, run (step v4) (init [true, true]) [.call 0 .pnew, .call 0 (.getFuture 0), .call 0 (.getF 0), .call 1 (.pdestroy 0)] = some (s, es) ∧
    s.ts[0]? = some th ∧ th.pc = .blocked (.get true) 0 false ∧ s.ss[0]? = some x ∧ x.done = true := ⟨_, _, _, _, rfl, rfl, rfl, rfl, rfl⟩

/-- A thread that has ended, and to which no `thread` object refers any more, publishes the results it was given for its exit, one with each step. -/
theorem ended_thread_publishes {cfg : Cfg} {libs : List Bool} {ls : List L} {s : State} {es : List E} {t : Nat} {th : Th}
    (h : run (step cfg) (init libs) ls = some (s, es)) (ht : s.ts[t]? = some th) (he : th.exited = true) (hr : th.released = true) (hn : th.atExit ≠ []) :
    ∃ s', step cfg s (.publish t) = some (s', [.published t]) := by
  have hw : Wf s := run_inv Wf (fun _ _ _ _ hI hs => hI.step hs) (Wf.init libs) h
  cases hex : th.atExit with
  | nil => exact absurd hex hn
  | cons i rest =>
    have hlt := hw.exits t th i ht (by rw [hex]; exact List.mem_cons_self)
    exact ⟨_, show step cfg s (.publish t) = _ by
      simp only [step, ht, Option.bind_some, he, hr, Bool.and_self, if_true, hex, List.getElem?_eq_getElem hlt, Option.map_some]; rfl⟩

example : ∃ s es th, run (step v4) (init [true]) [.call 0 .pnew, .call 0 (.set 0 .atExit (.value 1)), .call 0 .exit, .release 0] = some (s, es) ∧
    s.ts[0]? = some th ∧ th.exited = true ∧ th.released = true ∧ th.atExit ≠ [] := ⟨_, _, _, rfl, rfl, rfl, rfl, by decide⟩

/-- C33, nobody waits for a promise that is gone: when every promise is destroyed and no thread has results left to publish, every shared state is ready,
and every blocked thread returns with its next step. Proved for clients that neither assign to promises nor use `set_value_deferred` and
`set_exception_deferred`, and whose threads were all started by the library. -/
theorem nobody_waits_for_a_dead_promise_partial {cfg : Cfg} {libs : List Bool} {ls : List L} {s : State} {es : List E}
    (hlib : ∀ b ∈ libs, b = true) (hl : ∀ l ∈ ls, Sure l) (h : run (step cfg) (init libs) ls = some (s, es))
    (hp : ∀ p ∈ s.proms, p = none) (hq : ∀ th ∈ s.ts, th.atExit = []) :
    (∀ x ∈ s.ss, x.done = true) ∧
    ∀ (t : Nat) th w i a, s.ts[t]? = some th → th.pc = .blocked w i a → ∃ s' r, step cfg s (.resume t) = some (s', [.leave t r]) := by
  have hw : Wf s := run_inv Wf (fun _ _ _ _ hI hs => hI.step hs) (Wf.init libs) h
  have hk : Kept s ∧ AllLib s := run_inv_on Sure (fun s => Kept s ∧ AllLib s) (fun _ _ _ _ hS hI hs => hI.1.step hI.2 hS hs) hl
    ⟨Kept.init libs, AllLib.init hlib⟩ h
  have hall : ∀ (i : Nat) x, s.ss[i]? = some x → x.done = true := by
    intro i x hx
    rcases hk.1 i x hx with h1 | ⟨-, p, y, hpy, -⟩ | ⟨t, th, ht, hm⟩
    · exact h1
    · exact absurd (hp _ (List.mem_of_getElem? hpy)) (by simp)
    · rw [hq th (List.mem_of_getElem? ht)] at hm
      cases hm
  refine ⟨fun x hx => ?_, fun t th w i a ht hb => ?_⟩
  · obtain ⟨i, hi⟩ := List.mem_iff_getElem?.1 hx
    exact hall i x hi
  · have hlt := hw.pend t th w i a ht hb
    exact ready_waiter_returns h ht hb (List.getElem?_eq_getElem hlt) (hall i _ (List.getElem?_eq_getElem hlt))

/-- Two threads wait for two promises: one is destroyed, the other got its value at thread exit. -/
def demoDead : List L :=
  [.call 0 .pnew, .call 0 .pnew, .call 0 (.getFuture 0), .call 0 (.getFuture 1), .call 0 (.getF 0), .call 1 (.getF 1), .call 2 (.set 1 .atExit (.value 4)),
    .call 2 (.pdestroy 0), .call 2 (.pdestroy 1), .call 2 .exit, .release 2, .publish 2]

example : (∀ l ∈ demoDead, Sure l) ∧ ∃ s es, run (step v4) (init [true, true, true]) demoDead = some (s, es) ∧ (∀ p ∈ s.proms, p = none) ∧
    (∀ th ∈ s.ts, th.atExit = []) ∧ s.ss.length = 2 := ⟨by simp [demoDead, Sure], _, _, rfl, by decide, by decide, rfl⟩

/-! ## C33: where the full contract fails -/

/-- Assigning to a promise drops its shared state without an outcome: its future never becomes ready. -/
theorem assigned_promise_fails :
    (∃ s, run (step v4) (init [true]) [.call 0 .pnew, .call 0 (.getFuture 0), .call 0 .pnew, .call 0 (.passign 0 1), .call 0 (.pdestroy 0), .call 0 (.pdestroy 1),
        .call 0 (.isReady 0)] = some (s,
      [.ret 0 .pnew .ok, .ret 0 (.getFuture 0) .ok, .ret 0 .pnew .ok, .ret 0 (.passign 0 1) .ok, .ret 0 (.pdestroy 0) .ok, .ret 0 (.pdestroy 1) .ok,
        .ret 0 (.isReady 0) (.bool false)])) ∧
    ¬ Accepts (next v4 true) (sInit [true])
      [.ret 0 .pnew .ok, .ret 0 (.getFuture 0) .ok, .ret 0 .pnew .ok, .ret 0 (.passign 0 1) .ok, .ret 0 (.pdestroy 0) .ok, .ret 0 (.pdestroy 1) .ok,
        .ret 0 (.isReady 0) (.bool false)] := ⟨⟨_, rfl⟩, by decide⟩

/-- A promise destroyed between `set_value_deferred` and `notify_deferred` leaves a future that nobody can make ready: every promise is gone, no thread has
anything to publish, and the waiting thread can only be released by a spurious wake-up, which puts it to sleep again. -/
theorem deferred_then_destroyed_fails :
    ∃ s es, run (step v4) (init [true, true]) [.call 0 .pnew, .call 0 (.getFuture 0), .call 1 (.set 0 .deferred (.value 1)), .call 1 (.pdestroy 0),
        .call 0 (.getF 0)] = some (s, es) ∧ (∀ p ∈ s.proms, p = none) ∧ (∀ th ∈ s.ts, th.atExit = []) ∧ step v4 s (.resume 0) = none ∧
      (step v4 s (.spurious 0)).map (·.1) = some s := ⟨_, _, rfl, by decide, by decide, by decide, by decide⟩

/-- `set_value_at_thread_exit`: when the thread's function has returned, the result is not available; it becomes available only after the last `thread` object
has let go of the thread. A caller that waits for the future before it joins the thread waits for ever. -/
theorem at_thread_exit_needs_release_fails :
    (∃ s, run (step v4) (init [true, true]) [.call 0 .pnew, .call 0 (.getFuture 0), .call 1 (.set 0 .atExit (.value 1)), .call 1 .exit,
        .call 0 (.getF 0)] = some (s,
      [.ret 0 .pnew .ok, .ret 0 (.getFuture 0) .ok, .ret 1 (.set 0 .atExit (.value 1)) .ok, .ret 1 .exit .ok, .enter 0 (.getF 0)]) ∧
      step v4 s (.publish 1) = none ∧ step v4 s (.resume 0) = none) ∧
    ¬ Accepts (next v4 true) (sInit [true, true])
      [.ret 0 .pnew .ok, .ret 0 (.getFuture 0) .ok, .ret 1 (.set 0 .atExit (.value 1)) .ok, .ret 1 .exit .ok, .enter 0 (.getF 0)] :=
  ⟨⟨_, rfl, by decide, by decide⟩, by decide⟩

/-- `set_value_at_thread_exit` called in a thread the library did not start: the result is never published. -/
theorem at_thread_exit_foreign_thread_fails :
    ∃ s es, run (step v4) (init [true, false]) [.call 0 .pnew, .call 0 (.getFuture 0), .call 1 (.set 0 .atExit (.value 1)), .call 1 (.pdestroy 0), .call 1 .exit,
        .release 1, .call 0 (.getF 0)] = some (s, es) ∧ (∀ p ∈ s.proms, p = none) ∧ (∀ th ∈ s.ts, th.atExit = []) ∧ step v4 s (.resume 0) = none ∧
      (step v4 s (.spurious 0)).map (·.1) = some s := ⟨_, _, rfl, by decide, by decide, by decide, by decide⟩

end Verif.Future
