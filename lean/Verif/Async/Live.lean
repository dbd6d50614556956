import Verif.Async.Under
/-!
# Which calls return, and which do not
-/

set_option linter.unusedSimpArgs false

namespace Verif.Async

theorem setTh_self {s : State} {t : Nat} {th th' : Thread} (ht : s.th[t]? = some th) : (s.setTh t th').th[t]? = some th' := by
  simp only [State.setTh]; rw [getElem?_set_eq ht]; simp

theorem run1 {m : Mode} {s s' : State} {l : Label} {es : List Event} (h : step m s l = some (s', es)) : run (step m) s [l] = some (s', es) := by
  simp [run, h]

theorem run2 {m : Mode} {s s' s'' : State} {l l' : Label} {es es' : List Event} (h : step m s l = some (s', es)) (h' : step m s' l' = some (s'', es')) :
    run (step m) s [l, l'] = some (s'', es ++ es') := by
  simp [run, h, h']

/-- When the last future has been released, the destructor does not wait. -/
theorem dtorD_enabled {m : Mode} {s : State} {σ : Nat → Call} {t i : Nat} {th : Thread} (hm : m ≠ .blocking) (h : Inv s σ) (ht : s.th[t]? = some th) (hpc : th.pc = .dtor i .drop) :
    stepDtor m s t th i .drop = some (destroy s t th i .drop) := by
  simp only [stepDtor]
  split
  · rfl
  · rfl
  · rename_i hk
    have hout : (s.node i).out.isSome = true := by
      have g := le_tot (wt .dtorD i) ht
      simp [wt, PC.wt, hpc] at g
      obtain ⟨h1, h2, h3, h4, h5, h6, h7, h8, h9, h10, h11, h12, h13, h14, h15, h16, h17, h18, h19, h20, h21⟩ := h.ok i
      have hr : (s.node i).refs = 0 := by
        by_cases hr : (s.node i).refs = 0
        · exact hr
        · have := h9 hr; omega
      have hret : (σ i).returned = true := by cases hx : (σ i).returned <;> grind
      cases hc : (σ i).phase with
      | ended o => rw [h16 o hc (by omega)]; rfl
      | none => grind
      | called => simp [hret] at h18; grind
      | running => grind
      | failed => grind
    rw [if_pos hout]
  · exact absurd rfl hm

theorem release_alone {m : Mode} {s : State} {σ : Nat → Call} {t i : Nat} {th : Thread} (hm : m ≠ .blocking) (h : Inv s σ) (ht : s.th[t]? = some th)
    (hpc : th.pc = .rel i .drop ∨ th.pc = .dtor i .drop) : ∃ n s' es', run (step m) s (List.replicate n (.go t)) = some (s', es') ∧ .dropped t i ∈ es' := by
  have hd : ∀ (s : State) (σ : Nat → Call) (th : Thread), Inv s σ → s.th[t]? = some th → th.pc = .dtor i .drop →
      ∃ s' es', step m s (.go t) = some (s', es') ∧ .dropped t i ∈ es' := by
    intro s σ th h ht hpc
    refine ⟨_, _, by simp only [step, ht, stepGo, hpc]; exact dtorD_enabled hm h ht hpc, ?_⟩
    simp [destroy, finished]
  rcases hpc with hpc | hpc
  · by_cases hr : (s.node i).refs = 1
    · have hs : step m s (.go t) = some ((s.setNode i { s.node i with refs := (s.node i).refs - 1 }).setTh t { th with pc := .dtor i .drop }, access s i) := by
        simp only [step, ht, stepGo, hpc, if_pos hr]
      have hf := step_ok h hs
      rw [access_nil (h.alive (i := i) ht (by simp [wt, PC.wt, hpc])).1] at hf hs
      obtain ⟨s', es', h1, h2⟩ := hd _ σ _ hf (setTh_self (s := s.setNode i { s.node i with refs := (s.node i).refs - 1 }) ht) rfl
      exact ⟨2, s', _, run2 hs h1, by simpa using h2⟩
    · have hs : step m s (.go t) = some ((finished (s.setNode i { s.node i with refs := (s.node i).refs - 1 }) t th i .drop).1,
          access s i ++ (finished (s.setNode i { s.node i with refs := (s.node i).refs - 1 }) t th i .drop).2) := by
        simp only [step, ht, stepGo, hpc, if_neg hr]
      exact ⟨1, _, _, run1 hs, by simp [finished]⟩
  · obtain ⟨s', es', h1, h2⟩ := hd s σ th h ht hpc
    exact ⟨1, s', _, run1 h1, h2⟩

/-- When the thread cannot be started, `async` has the only reference. -/
theorem solo {s : State} {σ : Nat → Call} {t i : Nat} {th : Thread} (h : Inv s σ) (ht : s.th[t]? = some th) (hpc : th.pc = .start i ∨ th.pc = .rel i .unwind) :
    (s.node i).refs = 1 ∧ (s.node i).handle = false ∧ i < s.n := by
  have g := le_tot (wt .start i) ht
  have g' := le_tot (wt .relU i) ht
  have a := h.alive (i := i) ht (by rcases hpc with hpc | hpc <;> simp [wt, PC.wt, hpc])
  have hk := (h.ok i)
  obtain ⟨h1, h2, h3, h4, h5, h6, h7, h8, h9, h10, h11, h12, h13, h14, h15, h16, h17, h18, h19, h20, h21⟩ := hk
  refine ⟨?_, ?_, a.2.2⟩
  · rcases hpc with hpc | hpc <;> simp [wt, PC.wt, hpc] at g g' <;> cases hr : (σ i).returned <;> simp [hr] at h18 <;> cases hc : (σ i).phase <;> grind
  · apply h21; rcases hpc with hpc | hpc <;> simp [wt, PC.wt, hpc] at g g' <;> omega

theorem fail_throws {m : Mode} {s : State} {σ : Nat → Call} {t i : Nat} {th : Thread} (h : Inv s σ) (ht : s.th[t]? = some th) (hpc : th.pc = .rel i .unwind)
    (hm : m ≠ .waits ∨ (s.node i).kind = .executor) : ∃ n s' es', run (step m) s (List.replicate n (.go t)) = some (s', es') ∧ .threw t i ∈ es' := by
  obtain ⟨hr, hh, hn⟩ := solo h ht (.inr hpc)
  have hs : step m s (.go t) = some ((s.setNode i { s.node i with refs := (s.node i).refs - 1 }).setTh t { th with pc := .dtor i .unwind }, access s i) := by
    simp only [step, ht, stepGo, hpc, if_pos hr]
  have ht' : ((s.setNode i { s.node i with refs := (s.node i).refs - 1 }).setTh t { th with pc := .dtor i .unwind }).th[t]? = some { th with pc := .dtor i .unwind } :=
    setTh_self (s := s.setNode i { s.node i with refs := (s.node i).refs - 1 }) ht
  generalize hs1 : (s.setNode i { s.node i with refs := (s.node i).refs - 1 }).setTh t { th with pc := .dtor i .unwind } = s1 at hs ht'
  have hnode : s1.node i = { s.node i with refs := (s.node i).refs - 1 } := by rw [← hs1]; simp [State.setNode, State.setTh, upd]
  have hd : stepDtor m s1 t { th with pc := .dtor i .unwind } i .unwind = some (destroy s1 t { th with pc := .dtor i .unwind } i .unwind) := by
    simp only [stepDtor, hnode]
    cases hk : (s.node i).kind with
    | executor => rfl
    | thread =>
      cases m with
      | plain => rfl
      | waits => simp [hk] at hm
      | blocking => simp [hh]
  exact ⟨2, _, _, run2 hs (show step m s1 (.go t) = some ((destroy s1 t { th with pc := .dtor i .unwind } i .unwind).1, (destroy s1 t { th with pc := .dtor i .unwind } i .unwind).2) by
    simp only [step, ht', stepGo]; exact hd), by simp [destroy, finished]⟩

/-- The thread named by a label. -/
def Label.thread : Label → Nat
  | .op t _ | .go t | .fail t | .discard t | .finish t _ => t

/-- What others do does not move a thread that is in a call. -/
theorem step_other {m : Mode} {s s' : State} {l : Label} {es : List Event} {t : Nat} {th : Thread} (hs : step m s l = some (s', es)) (hl : l.thread ≠ t)
    (ht : s.th[t]? = some th) (hf : th.free = false) : s'.th[t]? = some th := by
  have hset : ∀ (u : Nat) (x y : Thread) (l : List Thread), l[u]? = some x → u ≠ t → (l.set u y)[t]? = l[t]? := by
    intro u x y l hu hne
    rw [getElem?_set_eq hu, if_neg hne]
  cases l with
  | op u o =>
    simp only [step] at hs
    split at hs
    · cases hs
    · rename_i tu hu
      split at hs
      · cases o with
        | give i v =>
          simp only [stepOp] at hs
          split at hs
          · cases hs
          · rename_i tv hv
            split at hs
            · rename_i ho
              cases hs
              have hvt : v ≠ t := by rintro rfl; rw [ht] at hv; cases hv; simp [hf] at ho
              simp only [State.setTh]
              rw [hset v tv _ _ (by rw [getElem?_set_eq hu, if_neg (Ne.symm ho.2.1)]; exact hv) hvt, hset u tu _ _ hu hl]
              exact ht
            · cases hs
        | poll i =>
          simp only [stepOp] at hs
          split at hs
          · cases hs; exact ht
          · cases hs
        | wait i =>
          simp only [stepOp] at hs
          (repeat' split at hs) <;> cases hs <;> simp only [State.setTh, State.setNode] <;> rw [hset u tu _ _ hu hl] <;> exact ht
        | async k => simp only [stepOp] at hs; cases hs; simp only [State.setTh]; rw [hset u tu _ _ hu hl]; exact ht
        | copy i =>
          simp only [stepOp] at hs
          (repeat' split at hs) <;> cases hs <;> simp only [State.setTh, State.setNode] <;> rw [hset u tu _ _ hu hl] <;> exact ht
        | drop i =>
          simp only [stepOp] at hs
          (repeat' split at hs) <;> cases hs <;> simp only [State.setTh, State.setNode] <;> rw [hset u tu _ _ hu hl] <;> exact ht
        | get i =>
          simp only [stepOp] at hs
          (repeat' split at hs) <;> cases hs <;> simp only [State.setTh, State.setNode] <;> rw [hset u tu _ _ hu hl] <;> exact ht
      · cases hs
  | go u =>
    simp only [step] at hs
    split at hs
    · cases hs
    · rename_i tu hu
      have hfin : ∀ (s₀ : State) (i : Nat) (w : Why), s₀.th = s.th → (finished s₀ u tu i w).1.th[t]? = some th := by
        intro s₀ i w h0
        cases w <;> simp only [finished] <;> (try split) <;> simp only [State.setTh, h0] <;> rw [hset u tu _ _ hu hl] <;> exact ht
      cases hpc : tu.pc with
      | idle => simp [stepGo, hpc] at hs
      | gone i => simp [stepGo, hpc] at hs
      | start i =>
        simp only [stepGo, hpc] at hs
        cases hs
        simp only [List.getElem?_append, List.length_set]
        rw [if_pos (lt_of_getElem? ht), hset u tu _ _ hu hl]
        exact ht
      | rel i w =>
        simp only [stepGo, hpc] at hs
        split at hs
        · cases hs; simp only [State.setTh, State.setNode]; rw [hset u tu _ _ hu hl]; exact ht
        · cases hs; exact hfin _ _ _ rfl
      | dtor i w =>
        simp only [stepGo, hpc] at hs
        have := stepDtor_destroy hs
        simp only [destroy, Prod.mk.injEq] at this
        obtain ⟨rfl, -⟩ := this
        exact hfin _ _ _ rfl
      | ret i => simp only [stepGo, hpc] at hs; cases hs; simp only [State.setTh]; rw [hset u tu _ _ hu hl]; exact ht
      | ready i => simp only [stepGo, hpc] at hs; cases hs; simp only [State.setTh]; rw [hset u tu _ _ hu hl]; exact ht
      | mark i o => simp only [stepGo, hpc] at hs; cases hs; simp only [State.setTh, State.setNode]; rw [hset u tu _ _ hu hl]; exact ht
      | bye i => simp only [stepGo, hpc] at hs; cases hs; simp only [State.setTh, State.setNode]; rw [hset u tu _ _ hu hl]; exact ht
      | join i =>
        simp only [stepGo, hpc] at hs
        split at hs <;> cases hs; simp only [State.setTh, State.setNode]; rw [hset u tu _ _ hu hl]; exact ht
      | wait i g =>
        simp only [stepGo, hpc] at hs
        split at hs <;> cases hs; simp only [State.setTh, State.setNode]; rw [hset u tu _ _ hu hl]; exact ht
  | fail u =>
    simp only [step] at hs
    split at hs
    · cases hs
    · rename_i tu hu
      simp only [stepFail] at hs
      split at hs <;> cases hs; simp only [State.setTh]; rw [hset u tu _ _ hu hl]; exact ht
  | discard u =>
    simp only [step] at hs
    split at hs
    · cases hs
    · rename_i tu hu
      simp only [stepDiscard] at hs
      split at hs
      · split at hs <;> cases hs; simp only [State.setTh]; rw [hset u tu _ _ hu hl]; exact ht
      · cases hs
  | finish u o =>
    simp only [step] at hs
    split at hs
    · cases hs
    · rename_i tu hu
      simp only [stepFinish] at hs
      split at hs <;> cases hs; simp only [State.setTh]; rw [hset u tu _ _ hu hl]; exact ht

/-- Events name the thread of the label. -/
theorem event_thread {m : Mode} {s s' : State} {l : Label} {es : List Event} (hs : step m s l = some (s', es)) : ∀ e ∈ es, e.thread = some l.thread ∨ e.thread = none := by
  intro e he
  have hfin : ∀ (s₀ : State) (u i : Nat) (tu : Thread) (w : Why), e ∈ (finished s₀ u tu i w).2 → e.thread = some u := by
    intro s₀ u i tu w hm
    cases w with
    | drop => simp only [finished, List.mem_singleton] at hm; subst hm; rfl
    | unwind => simp only [finished, List.mem_singleton] at hm; subst hm; rfl
    | worker => simp only [finished] at hm; split at hm <;> simp at hm
  cases l with
  | op u o =>
    simp only [step] at hs
    split at hs
    · cases hs
    · split at hs
      · cases o <;> simp only [stepOp] at hs <;> (repeat' split at hs) <;> cases hs <;> simp only [List.mem_append, List.mem_singleton, List.not_mem_nil] at he <;>
          (try rcases he with he | he) <;> (try rcases he with he | he) <;>
          first | exact .inl rfl | exact .inr (access_thread he) | exact .inr (accessThr_thread he) | (subst he; exact .inl rfl) | exact absurd he id
      · cases hs
  | go u =>
    simp only [step] at hs
    split at hs
    · cases hs
    · rename_i tu hu
      cases hpc : tu.pc with
      | idle => simp [stepGo, hpc] at hs
      | gone i => simp [stepGo, hpc] at hs
      | start i => simp only [stepGo, hpc] at hs; cases hs; exact .inr (access_thread he)
      | rel i w =>
        simp only [stepGo, hpc] at hs
        split at hs
        · cases hs; exact .inr (access_thread he)
        · cases hs
          simp only [List.mem_append] at he
          rcases he with he | he
          · exact .inr (access_thread he)
          · exact .inl (hfin _ _ _ _ _ he)
      | dtor i w =>
        simp only [stepGo, hpc] at hs
        have := stepDtor_destroy hs
        simp only [destroy, Prod.mk.injEq] at this
        obtain ⟨-, rfl⟩ := this
        simp only [List.mem_append, List.mem_cons] at he
        rcases he with he | rfl | he
        · exact .inr (access_thread he)
        · exact .inr rfl
        · exact .inl (hfin _ _ _ _ _ he)
      | ret i => simp only [stepGo, hpc] at hs; cases hs; simp at he; subst he; exact .inl rfl
      | ready i => simp only [stepGo, hpc] at hs; cases hs; simp at he; subst he; exact .inr rfl
      | mark i o => simp only [stepGo, hpc] at hs; cases hs; exact .inr (access_thread he)
      | bye i => simp only [stepGo, hpc] at hs; cases hs; simp at he; subst he; exact .inr rfl
      | join i =>
        simp only [stepGo, hpc] at hs
        split at hs <;> cases hs
        exact .inr (access_thread he)
      | wait i g =>
        simp only [stepGo, hpc] at hs
        split at hs <;> cases hs
        simp only [List.mem_append, List.mem_singleton] at he
        rcases he with he | rfl
        · exact .inr (access_thread he)
        · cases g <;> exact .inl rfl
  | fail u =>
    simp only [step] at hs
    split at hs
    · cases hs
    · simp only [stepFail] at hs
      split at hs <;> cases hs; simp at he
  | discard u =>
    simp only [step] at hs
    split at hs
    · cases hs
    · simp only [stepDiscard] at hs
      split at hs
      · split at hs <;> cases hs; simp at he; subst he; exact .inr rfl
      · cases hs
  | finish u o =>
    simp only [step] at hs
    split at hs
    · cases hs
    · simp only [stepFinish] at hs
      split at hs <;> cases hs; simp at he; subst he; exact .inr rfl

/-- The kind of a call does not change. -/
theorem kind_step {m : Mode} {s s' : State} {l : Label} {es : List Event} {i : Nat} (hi : i < s.n) (hs : step m s l = some (s', es)) :
    (s'.node i).kind = (s.node i).kind ∧ i < s'.n := by
  have hsn : ∀ (s₀ : State) (j : Nat) (d : Node), d.kind = (s₀.node j).kind → ((s₀.setNode j d).node i).kind = (s₀.node i).kind := by
    intro s₀ j d hd; simp only [State.setNode, upd]; split
    · rename_i h; rw [hd, h]
    · rfl
  have hfin : ∀ (s₀ : State) (u j : Nat) (tu : Thread) (w : Why), (finished s₀ u tu j w).1.node = s₀.node ∧ (finished s₀ u tu j w).1.n = s₀.n := by
    intro s₀ u j tu w
    cases w <;> simp only [finished] <;> (try split) <;> exact ⟨rfl, rfl⟩
  cases l with
  | op u o =>
    simp only [step] at hs
    split at hs
    · cases hs
    · split at hs
      · cases o with
        | async k =>
          simp only [stepOp] at hs
          cases hs
          simp only [State.setTh, upd]
          rw [if_neg (by omega)]
          exact ⟨rfl, by omega⟩
        | _ =>
          simp only [stepOp] at hs
          (repeat' split at hs) <;> cases hs <;> refine ⟨?_, hi⟩ <;> first | rfl | exact hsn _ _ _ rfl
      · cases hs
  | go u =>
    simp only [step] at hs
    split at hs
    · cases hs
    · rename_i tu hu
      cases hpc : tu.pc with
      | idle => simp [stepGo, hpc] at hs
      | gone i => simp [stepGo, hpc] at hs
      | start j =>
        simp only [stepGo, hpc] at hs
        cases hs
        refine ⟨?_, hi⟩
        simp only [upd]; split
        · rename_i h; rw [h]
        · rfl
      | rel j w =>
        simp only [stepGo, hpc] at hs
        split at hs
        · cases hs; exact ⟨hsn _ _ _ rfl, hi⟩
        · cases hs
          rw [(hfin _ _ _ _ _).1, (hfin _ _ _ _ _).2]
          exact ⟨hsn _ _ _ rfl, hi⟩
      | dtor j w =>
        simp only [stepGo, hpc] at hs
        have := stepDtor_destroy hs
        simp only [destroy, Prod.mk.injEq] at this
        obtain ⟨rfl, -⟩ := this
        rw [(hfin _ _ _ _ _).1, (hfin _ _ _ _ _).2]
        exact ⟨hsn _ _ _ rfl, hi⟩
      | ret j => simp only [stepGo, hpc] at hs; cases hs; exact ⟨rfl, hi⟩
      | ready j => simp only [stepGo, hpc] at hs; cases hs; exact ⟨rfl, hi⟩
      | mark j o => simp only [stepGo, hpc] at hs; cases hs; exact ⟨hsn _ _ _ rfl, hi⟩
      | bye j => simp only [stepGo, hpc] at hs; cases hs; exact ⟨hsn _ _ _ rfl, hi⟩
      | join j =>
        simp only [stepGo, hpc] at hs
        split at hs <;> cases hs
        exact ⟨hsn _ _ _ rfl, hi⟩
      | wait j g =>
        simp only [stepGo, hpc] at hs
        split at hs <;> cases hs
        exact ⟨rfl, hi⟩
  | fail u =>
    simp only [step] at hs
    split at hs
    · cases hs
    · simp only [stepFail] at hs
      split at hs <;> cases hs; exact ⟨rfl, hi⟩
  | discard u =>
    simp only [step] at hs
    split at hs
    · cases hs
    · simp only [stepDiscard] at hs
      split at hs
      · split at hs <;> cases hs; exact ⟨rfl, hi⟩
      · cases hs
  | finish u o =>
    simp only [step] at hs
    split at hs
    · cases hs
    · simp only [stepFinish] at hs
      split at hs <;> cases hs; exact ⟨rfl, hi⟩

/-- `async` waits in the destructor of a state that nothing will make ready. -/
def Stuck (s : State) (t i : Nat) : Prop :=
  ∃ th, s.th[t]? = some th ∧ (th.pc = .rel i .unwind ∨ th.pc = .dtor i .unwind) ∧ (s.node i).kind = .thread ∧ i < s.n

theorem stuck_step {s s' : State} {σ : Nat → Call} {l : Label} {es : List Event} {t i : Nat} (h : Inv s σ) (hst : Stuck s t i) (hs : step .waits s l = some (s', es)) :
    Stuck s' t i ∧ ∀ e ∈ es, e.thread ≠ some t := by
  obtain ⟨th, ht, hpc, hk, hi⟩ := hst
  have hk' := kind_step hi hs
  have hev := event_thread hs
  by_cases hl : l.thread = t
  · have hgo : l = .go t := by
      cases l with
      | go u => exact congrArg _ hl
      | op u o =>
        simp only [Label.thread] at hl; subst hl
        simp only [step, ht] at hs
        split at hs
        · rename_i hf; have := free_idle hf; rcases hpc with hp | hp <;> rw [hp] at this <;> cases this
        · cases hs
      | fail u => simp only [Label.thread] at hl; subst hl; simp only [step, ht, stepFail] at hs; rcases hpc with hp | hp <;> simp [hp] at hs
      | discard u => simp only [Label.thread] at hl; subst hl; simp only [step, ht, stepDiscard] at hs; rcases hpc with hp | hp <;> simp [hp] at hs
      | finish u o => simp only [Label.thread] at hl; subst hl; simp only [step, ht, stepFinish] at hs; rcases hpc with hp | hp <;> simp [hp] at hs
    subst hgo
    rcases hpc with hpc | hpc
    · obtain ⟨hr, -, -⟩ := solo h ht (.inr hpc)
      simp only [step, ht, stepGo, hpc, if_pos hr] at hs
      cases hs
      refine ⟨⟨_, setTh_self (s := s.setNode i { s.node i with refs := (s.node i).refs - 1 }) ht, .inr rfl, hk'.1.trans hk, hk'.2⟩, ?_⟩
      intro e he; rw [access_thread he]; simp
    · exfalso
      simp only [step, ht, stepGo, hpc, stepDtor, hk] at hs
      split at hs
      · rename_i ho
        obtain ⟨o, ho⟩ := Option.isSome_iff_exists.mp ho
        have := (h.ok i).out o ho
        have := ((h.ok i).ended o this).1
        have g := le_tot (wt .dtorU i) ht
        simp [wt, PC.wt, hpc] at g
        omega
      · cases hs
  · have hf : th.free = false := by rcases hpc with hp | hp <;> simp [Thread.free, hp]
    refine ⟨⟨th, step_other hs hl ht hf, hpc, hk'.1.trans hk, hk'.2⟩, ?_⟩
    intro e he hx
    rcases hev e he with h1 | h1 <;> rw [h1] at hx <;> simp at hx
    exact hl hx

theorem stuck_run {s s' : State} {σ : Nat → Call} {ls : List Label} {es : List Event} {t i : Nat} (h : Inv s σ) (hst : Stuck s t i) (hs : run (step .waits) s ls = some (s', es)) :
    ∀ e ∈ es, e.thread ≠ some t := by
  induction ls generalizing s σ es with
  | nil => simp only [run_nil, Option.some.injEq, Prod.mk.injEq] at hs; rw [← hs.2]; simp
  | cons l ls ih =>
    obtain ⟨x, es₁, es₂, h1, h2, rfl⟩ := run_cons hs
    obtain ⟨ha, hb⟩ := stuck_step h hst h1
    have hne : ∀ (σ : Nat → Call) (e : Event), next σ e ≠ .undefined := by
      intro σ e; cases e <;> simp only [next] <;> (try split) <;> simp
    have hf : ∀ (es : List Event) (σ : Nat → Call), Follows next (Inv x) σ es → ∃ σ', Inv x σ' := by
      intro es
      induction es with
      | nil => intro σ hf; exact ⟨σ, hf⟩
      | cons e es ihe =>
        intro σ hf
        simp only [Follows] at hf
        cases hn : next σ e with
        | ok σ' => simp only [hn] at hf; exact ihe σ' hf
        | undefined => exact absurd hn (hne _ _)
        | illegal => simp [hn] at hf
    obtain ⟨σ', hI⟩ := hf es₁ σ (step_ok h h1)
    intro e he
    simp only [List.mem_append] at he
    rcases he with he | he
    · exact hb e he
    · exact ih hI ha h2 e he

end Verif.Async
