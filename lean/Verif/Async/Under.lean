import Verif.Async.Sim
/-!
# Which call a thread is in, from the history
-/

set_option linter.unusedSimpArgs false

namespace Verif.Async

def uw (t : Nat) (c : Option Event) (e : Event) : Option Event :=
  if e.thread = some t then (match e with
    | .asyncs _ _ _ | .drops _ _ | .waits _ _ | .gets _ _ => some e
    | _ => none) else c

theorem underWay_append (t : Nat) (es es' : List Event) : underWay t (es ++ es') = es'.foldl (uw t) (underWay t es) := by
  simp only [underWay, List.foldl_append]; rfl

theorem foldl_uw_other {t : Nat} {es : List Event} (c : Option Event) (h : ∀ e ∈ es, e.thread ≠ some t) : es.foldl (uw t) c = c := by
  induction es generalizing c with
  | nil => rfl
  | cons e es ih =>
    simp only [List.foldl_cons]
    rw [show uw t c e = c by simp [uw, h e (by simp)]]
    exact ih c fun e he => h e (by simp [he])

@[simp] theorem foldl_access (t : Nat) (s : State) (i : Nat) (c : Option Event) : (access s i).foldl (uw t) c = c := by
  apply foldl_uw_other; intro e he; simp only [access] at he; split at he <;> simp at he; subst he; simp [Event.thread]

@[simp] theorem foldl_accessThr (t : Nat) (s : State) (i : Nat) (c : Option Event) : (accessThr s i).foldl (uw t) c = c := by
  apply foldl_uw_other; intro e he; simp only [accessThr] at he; split at he <;> simp at he; subst he; simp [Event.thread]

theorem access_thread {s : State} {i : Nat} {e : Event} (h : e ∈ access s i) : e.thread = none := by
  simp only [access] at h; split at h <;> simp at h; subst h; rfl

theorem accessThr_thread {s : State} {i : Nat} {e : Event} (h : e ∈ accessThr s i) : e.thread = none := by
  simp only [accessThr] at h; split at h <;> simp at h; subst h; rfl

/-- The call `c` is the one in which a thread at `pc` is. -/
def Under (t : Nat) (c : Option Event) (pc : PC) : Prop :=
  match pc with
  | .start i | .ret i | .rel i .unwind | .dtor i .unwind => ∃ k, c = some (.asyncs t i k)
  | .rel i .drop | .dtor i .drop => c = some (.drops t i)
  | .wait i true => c = some (.gets t i)
  | .wait i false | .join i => c = some (.waits t i)
  | _ => c = none

structure UInv (s : State) (es : List Event) : Prop where
  under : ∀ (t : Nat) (th : Thread), s.th[t]? = some th → Under t (underWay t es) th.pc
  out : ∀ t, s.th.length ≤ t → underWay t es = none

theorem UInv.init (k : Nat) : UInv (init k) [] := by
  constructor
  · intro t th ht
    simp only [Async.init, List.getElem?_replicate] at ht
    split at ht <;> cases ht
    rfl
  · intro t _; rfl

theorem lt_of_getElem? {l : List Thread} {t : Nat} {x : Thread} (h : l[t]? = some x) : t < l.length := by
  rcases Nat.lt_or_ge t l.length with h' | h'
  · exact h'
  · rw [List.getElem?_eq_none h'] at h; cases h

theorem UInv.move {s s' : State} {t : Nat} {th th' : Thread} {hist es : List Event} (h : UInv s hist) (ht : s.th[t]? = some th) (hs : s'.th = s.th.set t th')
    (he : ∀ e ∈ es, e.thread = some t ∨ e.thread = none) (hu : Under t (underWay t hist) th.pc → Under t (es.foldl (uw t) (underWay t hist)) th'.pc) :
    UInv s' (hist ++ es) := by
  have hother : ∀ u, u ≠ t → underWay u (hist ++ es) = underWay u hist := by
    intro u hu
    rw [underWay_append]
    apply foldl_uw_other
    intro e hm hx
    rcases he e hm with h1 | h1 <;> rw [h1] at hx <;> simp at hx
    exact hu hx.symm
  constructor
  · intro u x hx
    rw [hs, getElem?_set_eq ht] at hx
    split at hx
    · rename_i htu
      subst htu
      cases hx
      rw [underWay_append]
      exact hu (h.under t th ht)
    · rename_i hne
      rw [hother u (fun hh => hne hh.symm)]
      exact h.under u x hx
  · intro u hu
    rw [hs, List.length_set] at hu
    have hne : u ≠ t := by have := lt_of_getElem? ht; omega
    rw [hother u hne]
    exact h.out u hu

theorem finished_under {s : State} {t i : Nat} {th : Thread} {w : Why} {hist es : List Event} (h : UInv s hist) (ht : s.th[t]? = some th) (d : Node)
    (hpc : th.pc = .rel i w ∨ th.pc = .dtor i w) (he : ∀ e ∈ es, e.thread = none) :
    UInv (finished (s.setNode i d) t th i w).1 (hist ++ (es ++ (finished (s.setNode i d) t th i w).2)) := by
  have hfe : ∀ c, es.foldl (uw t) c = c := fun c => foldl_uw_other c fun e hm hx => by rw [he e hm] at hx; cases hx
  cases w with
  | drop =>
    refine h.move (th' := { th with pc := .idle }) ht rfl ?_ ?_
    · intro e hm
      simp only [finished, List.mem_append, List.mem_singleton] at hm
      rcases hm with hm | rfl
      · exact .inr (he e hm)
      · exact .inl rfl
    · intro _; simp [finished, List.foldl_append, hfe, uw, Event.thread, Under]
  | unwind =>
    refine h.move (th' := { th with pc := .idle }) ht rfl ?_ ?_
    · intro e hm
      simp only [finished, List.mem_append, List.mem_singleton] at hm
      rcases hm with hm | rfl
      · exact .inr (he e hm)
      · exact .inl rfl
    · intro _; simp [finished, List.foldl_append, hfe, uw, Event.thread, Under]
  | worker =>
    have hu : Under t (underWay t hist) th.pc → underWay t hist = none := by
      rcases hpc with hp | hp <;> rw [hp] <;> exact id
    simp only [finished]
    split
    · refine h.move (th' := { th with pc := .bye i }) ht rfl (by simpa using fun e hm => .inr (he e hm)) ?_
      intro hx; simpa [hfe, Under] using hu hx
    · refine h.move (th' := { th with pc := .gone i }) ht rfl (by simpa using fun e hm => .inr (he e hm)) ?_
      intro hx; simpa [hfe, Under] using hu hx

theorem stepDtor_destroy {m : Mode} {s : State} {t i : Nat} {th : Thread} {w : Why} {r : State × List Event} (hs : stepDtor m s t th i w = some r) : r = destroy s t th i w := by
  simp only [stepDtor] at hs
  split at hs
  · exact (Option.some.inj hs).symm
  · exact (Option.some.inj hs).symm
  · split at hs
    · exact (Option.some.inj hs).symm
    · cases hs
  · split at hs
    · exact (Option.some.inj hs).symm
    · cases hs

/-- Close the goals of `UInv.move` for a step of thread `t`. -/
macro "umove" h:ident ht:ident "[" ts:Lean.Parser.Tactic.simpLemma,* "]" : tactic => `(tactic| (
  refine UInv.move $h $ht rfl ?_ ?_
  · intro e hm
    simp only [List.mem_append, List.mem_singleton, List.not_mem_nil] at hm
    rcases hm with hm | hm <;> first
      | exact .inr (access_thread hm)
      | (subst hm; first | exact .inl rfl | exact .inr rfl)
      | (rcases hm with hm | hm <;> first | exact .inr (access_thread hm) | exact .inr (accessThr_thread hm))
      | cases hm
  · intro hu
    simp [$ts,*, Under] at hu
    simp [List.foldl_append, uw, Event.thread, Under, hu, $ts,*]))

theorem stepOp_under {m : Mode} {s s' : State} {t : Nat} {th : Thread} {o : Op} {hist es : List Event} (h : UInv s hist) (ht : s.th[t]? = some th) (hf : th.free = true)
    (hs : stepOp m s t th o = some (s', es)) : UInv s' (hist ++ es) := by
  have hpc := free_idle hf
  cases o with
  | async k =>
    simp only [stepOp, Option.some.injEq, Prod.mk.injEq] at hs
    obtain ⟨rfl, rfl⟩ := hs
    refine h.move (th' := { th with pc := .start s.n }) ht rfl (by simp [Event.thread]) ?_
    intro _; simp [uw, Event.thread, Under]
  | copy i =>
    simp only [stepOp] at hs
    split at hs
    · simp only [Option.some.injEq, Prod.mk.injEq] at hs
      obtain ⟨rfl, rfl⟩ := hs
      umove h ht [hpc]
    · cases hs
  | give i u =>
    simp only [stepOp] at hs
    split at hs
    · cases hs
    · rename_i tu htu
      split at hs
      · rename_i ho
        simp only [Option.some.injEq, Prod.mk.injEq] at hs
        obtain ⟨rfl, rfl⟩ := hs
        have h1 : UInv (s.setTh t { th with own := upd th.own i (th.own i - 1) }) (hist ++ []) := h.move ht rfl (by simp) (by simp)
        rw [List.append_nil] at h1
        exact h1.move (t := u) (th := tu) (by simp only [State.setTh]; rw [getElem?_set_eq ht, if_neg (Ne.symm ho.2.1)]; exact htu) rfl (by simp) (by simp)
      · cases hs
  | drop i =>
    simp only [stepOp] at hs
    split at hs
    · simp only [Option.some.injEq, Prod.mk.injEq] at hs
      obtain ⟨rfl, rfl⟩ := hs
      refine h.move ht rfl (by simp [Event.thread]) ?_
      intro _; simp [uw, Event.thread, Under]
    · cases hs
  | wait i =>
    simp only [stepOp] at hs
    split at hs
    · split at hs
      · split at hs
        · simp only [Option.some.injEq, Prod.mk.injEq] at hs
          obtain ⟨rfl, rfl⟩ := hs
          umove h ht [hpc]
        · split at hs
          · simp only [Option.some.injEq, Prod.mk.injEq] at hs
            obtain ⟨rfl, rfl⟩ := hs
            umove h ht [hpc]
          · simp only [Option.some.injEq, Prod.mk.injEq] at hs
            obtain ⟨rfl, rfl⟩ := hs
            umove h ht [hpc]
      · simp only [Option.some.injEq, Prod.mk.injEq] at hs
        obtain ⟨rfl, rfl⟩ := hs
        umove h ht [hpc]
    · cases hs
  | get i =>
    simp only [stepOp] at hs
    split at hs
    · simp only [Option.some.injEq, Prod.mk.injEq] at hs
      obtain ⟨rfl, rfl⟩ := hs
      umove h ht [hpc]
    · cases hs
  | poll i =>
    simp only [stepOp] at hs
    split at hs
    · simp only [Option.some.injEq, Prod.mk.injEq] at hs
      obtain ⟨rfl, rfl⟩ := hs
      have : s.th = s.th.set t th := by
        apply List.ext_getElem?
        intro u
        rw [getElem?_set_eq ht]
        split
        · rename_i hh; rw [← hh, ht]
        · rfl
      refine UInv.move (th' := th) h ht ?_ ?_ ?_
      · exact this
      · intro e hm
        simp only [List.mem_append, List.mem_singleton] at hm
        rcases hm with hm | rfl
        · exact .inr (access_thread hm)
        · exact .inl rfl
      · intro hu
        simp [hpc, Under] at hu
        simp [List.foldl_append, uw, Event.thread, Under, hu, hpc]
    · cases hs

theorem stepGo_under {m : Mode} {s s' : State} {t : Nat} {th : Thread} {hist es : List Event} (h : UInv s hist) (ht : s.th[t]? = some th)
    (hs : stepGo m s t th = some (s', es)) : UInv s' (hist ++ es) := by
  cases hpc : th.pc with
  | idle => simp [stepGo, hpc] at hs
  | gone i => simp [stepGo, hpc] at hs
  | start i =>
    simp only [stepGo, hpc, Option.some.injEq, Prod.mk.injEq] at hs
    obtain ⟨rfl, rfl⟩ := hs
    have hun : ∀ u, underWay u (hist ++ access s i) = underWay u hist := by intro u; rw [underWay_append]; simp
    constructor
    · intro u x hx
      rw [hun]
      simp only [List.getElem?_append, List.length_set] at hx
      split at hx
      · rw [getElem?_set_eq ht] at hx
        split at hx
        · rename_i htu
          subst htu
          cases hx
          have := h.under t th ht
          simpa [hpc, Under] using this
        · exact h.under u x hx
      · rename_i hlt
        simp only [List.getElem?_singleton] at hx
        split at hx
        · cases hx
          exact h.out u (by omega)
        · cases hx
    · intro u hu
      rw [hun]
      simp at hu
      exact h.out u (by omega)
  | ret i =>
    simp only [stepGo, hpc, Option.some.injEq, Prod.mk.injEq] at hs
    obtain ⟨rfl, rfl⟩ := hs
    refine h.move ht rfl (by simp [Event.thread]) ?_
    intro _; simp [uw, Event.thread, Under]
  | rel i w =>
    simp only [stepGo, hpc] at hs
    split at hs
    · simp only [Option.some.injEq, Prod.mk.injEq] at hs
      obtain ⟨rfl, rfl⟩ := hs
      refine h.move ht rfl (fun e hm => .inr (access_thread hm)) ?_
      intro hu
      cases w <;> simpa [hpc, Under] using hu
    · simp only [Option.some.injEq, Prod.mk.injEq] at hs
      obtain ⟨rfl, rfl⟩ := hs
      exact finished_under h ht _ (.inl hpc) fun e hm => access_thread hm
  | dtor i w =>
    simp only [stepGo, hpc] at hs
    have := stepDtor_destroy hs
    simp only [destroy, Prod.mk.injEq] at this
    obtain ⟨rfl, rfl⟩ := this
    have := finished_under (es := access s i ++ [.destroyed i]) h ht { s.node i with dead := true, handle := false } (.inr hpc) (by
      intro e hm
      simp only [List.mem_append, List.mem_singleton] at hm
      rcases hm with hm | rfl
      · exact access_thread hm
      · rfl)
    simpa using this
  | join i =>
    simp only [stepGo, hpc] at hs
    split at hs
    · simp only [Option.some.injEq, Prod.mk.injEq] at hs
      obtain ⟨rfl, rfl⟩ := hs
      refine h.move ht rfl (fun e hm => .inr (access_thread hm)) ?_
      intro hu
      simpa [hpc, Under] using hu
    · cases hs
  | wait i g =>
    simp only [stepGo, hpc] at hs
    split at hs
    · cases hs
    · simp only [Option.some.injEq, Prod.mk.injEq] at hs
      obtain ⟨rfl, rfl⟩ := hs
      refine h.move ht rfl ?_ ?_
      · intro e hm
        simp only [List.mem_append, List.mem_singleton] at hm
        rcases hm with hm | rfl
        · exact .inr (access_thread hm)
        · cases g <;> exact .inl rfl
      · intro _
        cases g <;> simp [List.foldl_append, uw, Event.thread, Under]
  | ready i =>
    simp only [stepGo, hpc, Option.some.injEq, Prod.mk.injEq] at hs
    obtain ⟨rfl, rfl⟩ := hs
    refine h.move ht rfl (by simp [Event.thread]) ?_
    intro hu
    simpa [hpc, Under, uw, Event.thread] using hu
  | mark i o =>
    simp only [stepGo, hpc, Option.some.injEq, Prod.mk.injEq] at hs
    obtain ⟨rfl, rfl⟩ := hs
    refine h.move ht rfl (fun e hm => .inr (access_thread hm)) ?_
    intro hu
    simpa [hpc, Under] using hu
  | bye i =>
    simp only [stepGo, hpc, Option.some.injEq, Prod.mk.injEq] at hs
    obtain ⟨rfl, rfl⟩ := hs
    refine h.move ht rfl (by simp [Event.thread]) ?_
    intro hu
    simpa [hpc, Under, uw, Event.thread] using hu

theorem step_under {m : Mode} {s s' : State} {l : Label} {hist es : List Event} (h : UInv s hist) (hs : step m s l = some (s', es)) : UInv s' (hist ++ es) := by
  cases l with
  | op t o =>
    simp only [step] at hs
    split at hs
    · cases hs
    · rename_i th ht
      split at hs
      · rename_i hf; exact stepOp_under h ht hf hs
      · cases hs
  | go t =>
    simp only [step] at hs
    split at hs
    · cases hs
    · rename_i th ht; exact stepGo_under h ht hs
  | fail t =>
    simp only [step] at hs
    split at hs
    · cases hs
    · rename_i th ht
      simp only [stepFail] at hs
      split at hs
      · rename_i i hpc
        simp only [Option.some.injEq, Prod.mk.injEq] at hs
        obtain ⟨rfl, rfl⟩ := hs
        refine h.move ht rfl (by simp) ?_
        intro hu
        simpa [hpc, Under] using hu
      · cases hs
  | discard t =>
    simp only [step] at hs
    split at hs
    · cases hs
    · rename_i th ht
      simp only [stepDiscard] at hs
      split at hs
      · rename_i i hpc
        split at hs
        · simp only [Option.some.injEq, Prod.mk.injEq] at hs
          obtain ⟨rfl, rfl⟩ := hs
          refine h.move ht rfl (by simp [Event.thread]) ?_
          intro hu
          simpa [hpc, Under, uw, Event.thread] using hu
        · cases hs
      · cases hs
  | finish t o =>
    simp only [step] at hs
    split at hs
    · cases hs
    · rename_i th ht
      simp only [stepFinish] at hs
      split at hs
      · rename_i i hpc hfn
        simp only [Option.some.injEq, Prod.mk.injEq] at hs
        obtain ⟨rfl, rfl⟩ := hs
        refine h.move ht rfl (by simp [Event.thread]) ?_
        intro hu
        simpa [hpc, Under, uw, Event.thread] using hu
      · cases hs

theorem reach_under {m : Mode} {k : Nat} {ls : List Label} {s : State} {es : List Event} (h : run (step m) (init k) ls = some (s, es)) : UInv s es := by
  have := run_inv_hist (step := step m) (fun s hist => UInv s hist) (fun s l s' hist es h hs => step_under h hs) (hist := []) (UInv.init k) h
  simpa using this

end Verif.Async
