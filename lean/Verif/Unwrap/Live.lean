import Verif.Unwrap.Step
/-!
# Launching continuations ends

Every step of a thread that is launching continuations of `unwrap` is possible and makes a measure smaller, so that all of them come to an end.
-/

set_option linter.unusedSimpArgs false
set_option linter.unusedVariables false

namespace Verif.Unwrap

def sumTo (f : Nat → Nat) : Nat → Nat
  | 0 => 0
  | n + 1 => sumTo f n + f n

theorem sumTo_congr {f g : Nat → Nat} {n : Nat} (h : ∀ i, i < n → f i = g i) : sumTo f n = sumTo g n := by
  induction n with
  | zero => rfl
  | succ n ih => simp only [sumTo]; rw [ih (fun i hi => h i (by omega)), h n (by omega)]

theorem sumTo_change {f g : Nat → Nat} {n k : Nat} (hk : k < n) (h : ∀ i, i ≠ k → f i = g i) : sumTo f n + g k = sumTo g n + f k := by
  induction n with
  | zero => omega
  | succ n ih =>
    simp only [sumTo]
    by_cases hn : k = n
    · subst hn
      have := sumTo_congr (f := f) (g := g) (n := k) (fun i hi => h i (by omega))
      omega
    · have := ih (by omega)
      have := h n (fun hc => hn hc.symm)
      omega

def nodeW (x : Node) : Nat :=
  x.conts.length + match x.kind with
    | .unwrap _ => if x.out = none then if x.inner = none then 4 else 1 else 0
    | _ => 0

def frameW : Frame → Nat
  | .launch l _ => 1 + l.length
  | .hook _ _ => 3
  | _ => 0

def stackW : List Frame → Nat
  | [] => 0
  | f :: l => frameW f + stackW l

def mu (s : State) (N : Nat) : Nat := sumTo (fun i => nodeW (s.node i)) s.n + sumTo (fun t => stackW (s.stk t)) N

/-- Is the thread launching continuations? -/
def Busy (s : State) (t : Nat) : Prop := (∃ l w rest, s.stk t = .launch l w :: rest) ∨ ∃ c j rest, s.stk t = .hook c j :: rest

theorem mu_lt {s s' : State} {N t k : Nat} (ht : t < N) (hk : k < s.n) (hn : s'.n = s.n) (hnode : ∀ i, i ≠ k → s'.node i = s.node i) (hstk : ∀ i, i ≠ t → s'.stk i = s.stk i)
    (hlt : nodeW (s'.node k) + stackW (s'.stk t) < nodeW (s.node k) + stackW (s.stk t)) : mu s' N < mu s N := by
  have h1 := sumTo_change (f := fun i => nodeW (s'.node i)) (g := fun i => nodeW (s.node i)) hk (fun i hi => by simp only [hnode i hi])
  have h2 := sumTo_change (f := fun i => stackW (s'.stk i)) (g := fun i => stackW (s.stk i)) ht (fun i hi => by simp only [hstk i hi])
  simp only [mu, hn]
  omega

/-- Events of a thread that only goes on with what it is launching. -/
def Event.isReturn : Event → Bool
  | .setRet .. => true
  | .unwrapRet .. => true
  | _ => false

theorem busy_step {s es loc} (h : Inv s es loc) {t N : Nat} (ht : t < N) (hb : Busy s t) :
    ∃ s' e, step s (.go t) = some (s', e) ∧ mu s' N < mu s N ∧ (∀ i, i ≠ t → s'.stk i = s.stk i) ∧ (∀ x ∈ e, x.isReturn = true) ∧
      ((∀ i, s.held i = true → s'.held i = true)) := by
  simp only [step]
  rcases hb with ⟨l, w, rest, hst⟩ | ⟨c, j, rest, hst⟩
  · cases l with
    | nil =>
      simp only [stepGo, hst]
      have hmu : ∀ s' : State, s'.n = s.n → s'.node = s.node → s'.stk = upd s.stk t rest → mu s' N < mu s N := by
        intro s' h1 h2 h3
        have h4 := sumTo_change (f := fun i => stackW (s'.stk i)) (g := fun i => stackW (s.stk i)) ht (fun i hi => by simp [h3, hi])
        simp only [mu, h1, h2]
        simp only [h3, upd_apply, if_true, hst, stackW, frameW, List.length_nil] at h4 ⊢
        omega
      cases w with
      | set i => exact ⟨_, _, rfl, hmu _ rfl rfl rfl, fun i hi => by simp [hi], by simp [Event.isReturn], fun i hi => hi⟩
      | unwrap u => exact ⟨_, _, rfl, hmu _ rfl rfl rfl, fun i hi => by simp [hi], by simp [Event.isReturn], fun i hi => by simp only [upd_apply]; split <;> simp_all⟩
      | other => exact ⟨_, _, rfl, hmu _ rfl rfl rfl, fun i hi => by simp [hi], by simp [Event.isReturn], fun i hi => hi⟩
    | cons c l =>
      have htop := h.top (t := t) (c := c) (rest := .launch l w :: rest) (by simp [hst, Frame.items])
      have hact := (h.active htop.1).lt h
      obtain ⟨wr, hk, hr1, hr2⟩ := (h.frames t (.launch (c :: l) w) (by simp [hst])).1 c (by simp)
      simp only [stepGo, hst]
      have key : ∀ s', stepLaunch s t c (.launch l w :: rest) = some s' → s'.n = s.n → (∀ i, i ≠ c → s'.node i = s.node i) → (∀ i, i ≠ t → s'.stk i = s.stk i) →
          s'.held = s.held → nodeW (s'.node c) + stackW (s'.stk t) < nodeW (s.node c) + stackW (s.stk t) →
          ∃ s' e, (stepLaunch s t c (.launch l w :: rest)).map (fun s' => (s', ([] : List Event))) = some (s', e) ∧ mu s' N < mu s N ∧ (∀ i, i ≠ t → s'.stk i = s.stk i) ∧
            (∀ x ∈ e, x.isReturn = true) ∧ (∀ i, s.held i = true → s'.held i = true) := by
        intro s' h1 h2 h3 h4 h5 h6
        exact ⟨s', [], by rw [h1]; rfl, mu_lt ht hact.1 h2 h3 h4 h6, h4, by simp, by rw [h5]; exact fun _ => id⟩
      have hfin : ∀ o, stepLaunch s t c (.launch l w :: rest) = some (s.finish t c o .other (.launch l w :: rest)) →
          ∃ s' e, (stepLaunch s t c (.launch l w :: rest)).map (fun s' => (s', ([] : List Event))) = some (s', e) ∧ mu s' N < mu s N ∧ (∀ i, i ≠ t → s'.stk i = s.stk i) ∧
            (∀ x ∈ e, x.isReturn = true) ∧ (∀ i, s.held i = true → s'.held i = true) := by
        intro o ho
        refine key _ ho rfl (fun i hi => by simp [State.finish, hi]) (fun i hi => by simp [State.finish, hi]) rfl ?_
        simp only [State.finish, upd_apply, if_true, nodeW, hk, hst, stackW, frameW, List.length_nil, List.length_cons, hact.2.1]
        simp only [reduceCtorEq, if_false, if_true]
        split <;> omega
      cases hin : (s.node c).inner with
      | none =>
        cases ho : (s.node wr).out with
        | none => exact absurd ho (hr1 hin)
        | some o =>
          have hd := (h.kindU c wr hk).2
          cases o with
          | num v => have := h.typ wr _ ho; simp only [Typed] at this; omega
          | exc e => exact hfin (.exc e) (by simp [stepLaunch, hk, hin, ho])
          | uninit => exact hfin .uninit (by simp [stepLaunch, hk, hin, ho])
          | fut j =>
            cases j with
            | none => exact hfin .uninit (by simp [stepLaunch, hk, hin, ho])
            | some j =>
              refine key { s with node := upd s.node c { s.node c with inner := some j }, stk := upd s.stk t (.hook c j :: .launch l w :: rest) }
                (by simp [stepLaunch, hk, hin, ho]) rfl (fun i hi => by simp [hi]) (fun i hi => by simp [hi]) rfl ?_
              simp only [upd_apply, if_true, nodeW, hk, hst, stackW, frameW, List.length_nil, List.length_cons, hact.2.1, hin]
              simp only [reduceCtorEq, if_false, if_true]
              omega
      | some j =>
        cases ho : (s.node j).out with
        | none => exact absurd ho (hr2 j hin)
        | some o => exact hfin o (by simp [stepLaunch, hk, hin, ho])
  · have hin : (s.node c).inner = some j := h.frames t (.hook c j) (by simp [hst])
    obtain ⟨w', h1, h2⟩ := h.inner c j hin
    have hj := (h.typ w' _ h2).1
    have hnc : (s.node j).out ≠ none → (s.node j).conts = [] := fun ho => by
      cases hc : (s.node j).conts with
      | nil => rfl
      | cons a l => exact absurd (h.cReady a j (by simp [hc])).1 ho
    refine ⟨s.attach t c j .other rest, [], by simp [stepGo, hst], mu_lt ht hj ?_ ?_ ?_ ?_, ?_, by simp, ?_⟩
    · simp only [State.attach]; split <;> rfl
    · intro i hi; simp only [State.attach]; split <;> simp [hi]
    · intro i hi; simp only [State.attach]; split <;> simp [hi]
    · simp only [State.attach]
      split
      · simp only [upd_apply, if_true, nodeW, hst, stackW, frameW, List.length_append, List.length_cons, List.length_nil]; omega
      · rename_i x ho
        have hnc := hnc (by simp [ho])
        simp only [upd_apply, if_true, nodeW, hst, stackW, frameW, hnc, List.length_append, List.length_cons, List.length_nil]; omega
    · intro i hi; simp only [State.attach]; split <;> simp [hi]
    · intro i hi; simp only [State.attach]; split <;> exact hi

/-- Only finitely many threads are doing anything. -/
def Fin (s : State) : Prop := ∃ N, ∀ t, N ≤ t → s.stk t = []

def Label.tid : Label → Nat
  | .op t _ => t
  | .finish t _ => t
  | .go t => t

theorem stk_change {s s' : State} {l : Label} {e : List Event} (hs : step s l = some (s', e)) : ∀ i, i ≠ l.tid → s'.stk i = s.stk i := by
  cases l with
  | op t o =>
    intro i hi
    simp only [Label.tid] at hi
    simp only [step] at hs
    split at hs
    · cases o <;> simp only [stepOp] at hs
      · cases hs; rfl
      · cases hs; rfl
      · split at hs
        · cases hs; simp only [State.attach]; split <;> simp [hi]
        · cases hs
      · split at hs
        · split at hs <;> cases hs
          · rfl
          · simp [State.finish, hi]
        · cases hs
      · split at hs
        · split at hs <;> cases hs <;> simp [hi]
        · cases hs
      · split at hs <;> cases hs; rfl
    · cases hs
  | finish t o =>
    intro i hi
    simp only [Label.tid] at hi
    simp only [step] at hs
    split at hs
    · split at hs <;> cases hs; simp [State.finish, hi]
    · cases hs
  | go t =>
    intro i hi
    simp only [Label.tid] at hi
    simp only [step, stepGo] at hs
    split at hs
    · rename_i c l w rest hst
      cases hl : stepLaunch s t c (.launch l w :: rest) with
      | none => rw [hl] at hs; cases hs
      | some s1 =>
        rw [hl] at hs
        cases hs
        simp only [stepLaunch] at hl
        split at hl
        · split at hl
          · split at hl <;> cases hl <;> simp [State.finish, hi]
          · split at hl <;> cases hl; simp [State.finish, hi]
        · cases hl
    · split at hs <;> cases hs <;> simp [hi]
    · cases hs; simp only [State.attach]; split <;> simp [hi]
    · split at hs <;> cases hs; simp [hi]
    · cases hs

theorem Fin.run {s : State} (h : Fin s) : ∀ {ls : List Label} {s' : State} {es : List Event}, run step s ls = some (s', es) → Fin s' := by
  intro ls
  induction ls generalizing s with
  | nil => intro s' es hr; rw [run_nil] at hr; cases hr; exact h
  | cons l ls ih =>
    intro s' es hr
    obtain ⟨m, e1, e2, h1, h2, -⟩ := run_cons hr
    refine ih ?_ h2
    obtain ⟨N, hN⟩ := h
    have ht := stk_change h1
    exact ⟨max N (l.tid + 1), fun i hi => by rw [ht i (by omega)]; exact hN i (by omega)⟩

theorem run_stk {i : Nat} : ∀ {ls : List Label} {s s' : State} {es : List Event}, run step s ls = some (s', es) → (∀ l ∈ ls, i ≠ l.tid) → s'.stk i = s.stk i := by
  intro ls
  induction ls with
  | nil => intro s s' es hr _; rw [run_nil] at hr; cases hr; rfl
  | cons l ls ih =>
    intro s s' es hr hi
    obtain ⟨m, e1, e2, h1, h2, -⟩ := run_cons hr
    rw [ih h2 (fun l hl => hi l (by simp [hl])), stk_change h1 i (hi l (by simp))]

/-- All launching can be brought to an end. -/
theorem settle {s : State} {es : List Event} {N : Nat} (hg : Good s es) (hN : ∀ t, N ≤ t → s.stk t = []) :
    ∃ (ts : List Nat) (s' : State) (e : List Event), run step s (ts.map Label.go) = some (s', e) ∧ (∀ t, ¬Busy s' t) ∧ (∀ x ∈ e, x.isReturn = true) ∧ (∀ t, ¬Busy s t → s'.stk t = s.stk t) ∧ ∀ t ∈ ts, t < N := by
  generalize hm : mu s N = m
  induction m using Nat.strongRecOn generalizing s es with
  | _ m ih =>
    by_cases hb : ∃ t, Busy s t
    · obtain ⟨t, hb⟩ := hb
      have ht : t < N := Nat.lt_of_not_le fun hc => by
        rcases hb with ⟨l, w, rest, h⟩ | ⟨c, j, rest, h⟩ <;> rw [hN t hc] at h <;> cases h
      obtain ⟨⟨loc, hI⟩, hF⟩ := hg
      obtain ⟨s1, e1, h1, h2, h3, h4, -⟩ := busy_step hI ht hb
      obtain ⟨ts, s', e2, h5, h6, h7, h8, h9⟩ := ih (mu s1 N) (by omega) (s := s1) (es := es ++ e1) ⟨hI.step hF h1, hF.step hI h1⟩
        (fun i hi => by rw [h3 i (by omega)]; exact hN i hi) rfl
      refine ⟨t :: ts, s', e1 ++ e2, run_step h1 h5, h6, ?_, ?_, ?_⟩
      · intro x hx; rcases List.mem_append.1 hx with hx | hx
        · exact h4 x hx
        · exact h7 x hx
      · intro i hi
        have hit : i ≠ t := fun hc => hi (hc ▸ hb)
        rw [h8 i ?_, h3 i hit]
        simpa [Busy, h3 i hit] using hi
      · intro i hi; rcases List.mem_cons.1 hi with rfl | hi
        · exact ht
        · exact h9 i hi
    · exact ⟨[], s, [], rfl, fun t ht => hb ⟨t, ht⟩, by simp, fun _ _ => rfl, by simp⟩

end Verif.Unwrap
