import Verif.Async.Inv
/-!
# Every step keeps the accounting and the contract
-/

set_option linter.unusedSimpArgs false

namespace Verif.Async

/-- The counts after a step, from the counts before. -/
macro "counts" hT:ident "[" ts:Lean.Parser.Tactic.simpLemma,* "]" : tactic => `(tactic| (
  have e1 := $hT .fut; have e2 := $hT .start; have e3 := $hT .ret; have e4 := $hT .relD; have e5 := $hT .dtorD; have e6 := $hT .relU; have e7 := $hT .dtorU
  have e8 := $hT .ready; have e9 := $hT .fn; have e10 := $hT .mark; have e11 := fun o => $hT (.markO o); have e12 := $hT .relW; have e13 := $hT .dtorW
  have e14 := $hT .bye; have e15 := $hT .gone
  simp [wt, PC.wt, upd, $ts,*] at e1 e2 e3 e4 e5 e6 e7 e8 e9 e10 e11 e12 e13 e14 e15))

theorem free_idle {th : Thread} (h : th.free = true) : th.pc = .idle := by
  simp only [Thread.free, Bool.and_eq_true, beq_iff_eq] at h; exact h.1

theorem access_nil {s : State} {i : Nat} (h : (s.node i).dead = false) : access s i = [] := by simp [access, h]

/-- A thread with a reference keeps the state alive. -/
theorem Inv.alive {s : State} {σ : Nat → Call} (h : Inv s σ) {t i : Nat} {th : Thread} (ht : s.th[t]? = some th)
    (hw : 0 < wt .fut i th ∨ 0 < wt .start i th ∨ 0 < wt .ret i th ∨ 0 < wt .relD i th ∨ 0 < wt .relU i th ∨ 0 < wt .ready i th ∨ 0 < wt .fn i th ∨ 0 < wt .mark i th ∨
      0 < wt .relW i th) : (s.node i).dead = false ∧ (s.node i).refs ≠ 0 ∧ i < s.n := by
  have o := h.ok i
  have g := fun k => le_tot (wt k i) ht
  have g1 := g .fut; have g2 := g .start; have g3 := g .ret; have g4 := g .relD; have g5 := g .relU; have g6 := g .ready; have g7 := g .fn; have g8 := g .mark; have g9 := g .relW
  have hr : (s.node i).refs ≠ 0 := by have := o.refs; omega
  refine ⟨?_, hr, ?_⟩
  · have := o.live hr
    cases hd : (s.node i).dead with
    | false => rfl
    | true => simp [hd] at this
  · by_cases hu : i < s.n
    · exact hu
    · have := (o.unused hu).2.1; simp [this] at hr

theorem race_ok {s : State} {σ : Nat → Call} {es : List Event} {R : (Nat → Call) → Prop} (i : Nat) (hf : Follows next R σ es) :
    Follows next R σ (accessThr s i ++ es) := by
  simp only [accessThr]; split
  · simpa [Follows, next] using hf
  · simpa using hf

/-- The same with the state of the model unchanged but for the thread. -/
theorem Inv.moveTh {s : State} {σ : Nat → Call} {t i : Nat} {th th' : Thread} {c : Call} (h : Inv s σ) (ht : s.th[t]? = some th)
    (hw : Wf th → Wf th') (hj : ∀ k j, j ≠ i → wt k j th' = wt k j th)
    (hi : ∀ T T' : K → Nat, (∀ k, T' k + wt k i th = T k + wt k i th') → Ok T (i < s.n) (s.node i) (σ i) → Ok T' (i < s.n) (s.node i) c) :
    Inv (s.setTh t th') (set σ i c) := by
  have := h.move (d := s.node i) ht hw hj hi
  rwa [setNode_self] at this

/-- Close a goal about the places for other calls. -/
macro "others" "[" ts:Lean.Parser.Tactic.simpLemma,* "]" : tactic => `(tactic| (
  intro k j hj
  cases k <;> simp [wt, PC.wt, upd, hj, hj.symm, Ne.symm hj, $ts,*]))

theorem stepFinish_ok {s s' : State} {σ : Nat → Call} {t : Nat} {th : Thread} {o : Out} {es : List Event} (h : Inv s σ) (ht : s.th[t]? = some th)
    (hs : stepFinish s t th o = some (s', es)) : Follows next (Inv s') σ es := by
  simp only [stepFinish] at hs
  split at hs
  · rename_i i hpc hfn
    cases hs
    have a := h.alive (i := i) ht (by simp [wt, hfn])
    have hph : (σ i).phase = .running := by
      have g := le_tot (wt .fn i) ht
      simp [wt, PC.wt, hpc, hfn] at g
      obtain ⟨h1, h2, h3, h4, h5, h6, h7, h8, h9, h10, h11, h12, h13, h14, h15, h16, h17, h18, h19, h20, h21⟩ := h.ok i
      cases hc : (σ i).phase <;> grind
    simp only [Follows, next, hph, if_true]
    apply h.moveTh ht
    · simp [Wf, hpc, hfn]; grind
    · others [hpc, hfn]
    · intro T T' hT hok
      obtain ⟨h1, h2, h3, h4, h5, h6, h7, h8, h9, h10, h11, h12, h13, h14, h15, h16, h17, h18, h19, h20, h21⟩ := hok
      counts hT [hpc, hfn]
      constructor <;> grind
  · cases hs

/-- The rest of a step about call `i` of thread `t`. -/
macro "same" h:ident ht:ident "[" ts:Lean.Parser.Tactic.simpLemma,* "]" : tactic => `(tactic| (
  first | apply Inv.move $h $ht | apply Inv.moveTh $h $ht
  · simp [Wf, $ts,*]
  · others [$ts,*]
  · intro T T' hT hok
    obtain ⟨h1, h2, h3, h4, h5, h6, h7, h8, h9, h10, h11, h12, h13, h14, h15, h16, h17, h18, h19, h20, h21⟩ := hok
    counts hT [$ts,*]
    constructor <;> grind [b2n]))

theorem stepFail_ok {s s' : State} {σ : Nat → Call} {t : Nat} {th : Thread} {es : List Event} (h : Inv s σ) (ht : s.th[t]? = some th)
    (hs : stepFail s t th = some (s', es)) : Follows next (Inv s') σ es := by
  simp only [stepFail] at hs
  split at hs
  · rename_i i hpc
    cases hs
    simp only [Follows]
    rw [← set_self σ i]
    same h ht [hpc]
  · cases hs

theorem stepDiscard_ok {s s' : State} {σ : Nat → Call} {t : Nat} {th : Thread} {es : List Event} (h : Inv s σ) (ht : s.th[t]? = some th)
    (hs : stepDiscard s t th = some (s', es)) : Follows next (Inv s') σ es := by
  simp only [stepDiscard] at hs
  split at hs
  · rename_i i hpc
    split at hs
    · rename_i hk
      cases hs
      have hph : (σ i).phase = .called := by
        have g := le_tot (wt .ready i) ht
        simp [wt, PC.wt, hpc] at g
        obtain ⟨h1, h2, h3, h4, h5, h6, h7, h8, h9, h10, h11, h12, h13, h14, h15, h16, h17, h18, h19, h20, h21⟩ := h.ok i
        cases hc : (σ i).phase <;> grind
      simp only [Follows, next, hph, if_true]
      same h ht [hpc]
    · cases hs
  · cases hs

set_option maxHeartbeats 2000000 in
theorem finished_ok {s : State} {σ : Nat → Call} {t i : Nat} {th : Thread} {w : Why} {d : Node} {c : Call} (h : Inv s σ) (ht : s.th[t]? = some th)
    (hw : (th.pc = .rel i w ∧ 1 < (s.node i).refs ∧ d = { s.node i with refs := (s.node i).refs - 1 } ∧ c = σ i) ∨
      (th.pc = .dtor i w ∧ d = { s.node i with dead := true, handle := false } ∧ c = { σ i with destroyed := true })) :
    Follows next (Inv (finished (s.setNode i d) t th i w).1) (set σ i c) (finished (s.setNode i d) t th i w).2 := by
  have hset : ∀ c', set (set σ i c) i c' = set σ i c' := by
    intro c'; funext j; simp only [set]; split <;> rfl
  have hsi : set σ i c i = c := by simp [set]
  have hnode : ((s.setNode i d).node i) = d := by simp [State.setNode, upd]
  cases w with
  | drop =>
    have hl : 0 < c.leaving := by
      have g := le_tot (wt .relD i) ht
      have g' := le_tot (wt .dtorD i) ht
      obtain ⟨h1, h2, h3, h4, h5, h6, h7, h8, h9, h10, h11, h12, h13, h14, h15, h16, h17, h18, h19, h20, h21⟩ := h.ok i
      have : 0 < (σ i).leaving := by rcases hw with ⟨hpc, -, -, -⟩ | ⟨hpc, -, -⟩ <;> simp [wt, PC.wt, hpc] at g g' <;> omega
      rcases hw with ⟨-, -, -, rfl⟩ | ⟨-, -, rfl⟩ <;> exact this
    simp only [finished, Follows, next, hsi, hl, if_true, hset]
    clear hset hsi hnode hl
    rcases hw with ⟨hpc, hr, rfl, rfl⟩ | ⟨hpc, rfl, rfl⟩
    · same h ht [hpc]
    · same h ht [hpc]
  | unwind =>
    have hσ : (σ i).phase = .called ∧ (σ i).returned = false := by
      have g := le_tot (wt .relU i) ht
      have g' := le_tot (wt .dtorU i) ht
      obtain ⟨h1, h2, h3, h4, h5, h6, h7, h8, h9, h10, h11, h12, h13, h14, h15, h16, h17, h18, h19, h20, h21⟩ := h.ok i
      rcases hw with ⟨hpc, -, -, -⟩ | ⟨hpc, -, -⟩ <;> simp [wt, PC.wt, hpc] at g g' <;> cases hc : (σ i).phase <;> cases hr : (σ i).returned <;> grind [b2n]
    have hl : c.phase = .called ∧ c.returned = false := by
      rcases hw with ⟨-, -, -, rfl⟩ | ⟨-, -, rfl⟩ <;> exact hσ
    simp only [finished, Follows, next, hsi, hl, and_self, if_true, hset]
    clear hset hsi hnode hl
    rcases hw with ⟨hpc, hr, rfl, rfl⟩ | ⟨hpc, rfl, rfl⟩
    · same h ht [hpc]
    · same h ht [hpc]
  | worker =>
    simp only [finished, hnode]
    clear hset hsi hnode
    split
    · rename_i hk
      simp only [Follows]
      rcases hw with ⟨hpc, hr, rfl, rfl⟩ | ⟨hpc, rfl, rfl⟩
      · same h ht [hpc]
      · same h ht [hpc]
    · rename_i hk
      simp only [Follows]
      rcases hw with ⟨hpc, hr, rfl, rfl⟩ | ⟨hpc, rfl, rfl⟩
      · same h ht [hpc]
      · same h ht [hpc]

theorem destroy_ok {s : State} {σ : Nat → Call} {t i : Nat} {th : Thread} {w : Why} (h : Inv s σ) (ht : s.th[t]? = some th) (hpc : th.pc = .dtor i w) :
    Follows next (Inv (destroy s t th i w).1) σ (destroy s t th i w).2 := by
  have hc : (σ i).futs = 0 ∧ (σ i).phase ≠ .none ∧ (σ i).phase ≠ .running ∧ (σ i).destroyed = false := by
    have g := le_tot (wt .dtorD i) ht
    have g' := le_tot (wt .dtorU i) ht
    have g'' := le_tot (wt .dtorW i) ht
    obtain ⟨h1, h2, h3, h4, h5, h6, h7, h8, h9, h10, h11, h12, h13, h14, h15, h16, h17, h18, h19, h20, h21⟩ := h.ok i
    cases w <;> simp [wt, PC.wt, hpc] at g g' g'' <;> cases hd : (s.node i).dead <;> grind [b2n]
  have hd : (s.node i).dead = false := by rw [← (h.ok i).dead]; exact hc.2.2.2
  simp only [destroy, access_nil hd, List.nil_append, Follows, next, hc, and_self, ne_eq, not_false_eq_true, if_true, not_true_eq_false, reduceCtorEq]
  have := finished_ok h ht (.inr ⟨hpc, rfl, rfl⟩)
  simpa [hc] using this

theorem stepDtor_ok {m : Mode} {s s' : State} {σ : Nat → Call} {t i : Nat} {th : Thread} {w : Why} {es : List Event} (h : Inv s σ) (ht : s.th[t]? = some th)
    (hpc : th.pc = .dtor i w) (hs : stepDtor m s t th i w = some (s', es)) : Follows next (Inv s') σ es := by
  have : (s', es) = destroy s t th i w := by
    simp only [stepDtor] at hs
    split at hs
    · exact (Option.some.inj hs).symm
    · exact (Option.some.inj hs).symm
    · split at hs
      · exact (Option.some.inj hs).symm
      · cases hs
    · split at hs
      · exact (Option.some.inj hs).symm
      · cases hs
  have hd := destroy_ok h ht hpc
  rw [← this] at hd
  exact hd

/-- Starting a thread or submitting a task. -/
theorem start_ok {s : State} {σ : Nat → Call} {t i : Nat} {th : Thread} {b : Bool} (h : Inv s σ) (ht : s.th[t]? = some th) (hpc : th.pc = .start i) :
    Inv { n := s.n, node := upd s.node i { s.node i with refs := (s.node i).refs + 1, handle := b }, th := s.th.set t { th with pc := .ret i } ++ [{ me := some i, pc := .ready i }] } σ := by
  constructor
  · intro u x hx
    simp only [List.getElem?_append, List.length_set] at hx
    split at hx
    · rw [getElem?_set_eq ht] at hx
      split at hx
      · cases hx; simpa [Wf, hpc] using h.wf t th ht
      · exact h.wf u x hx
    · simp only [List.getElem?_singleton] at hx
      split at hx
      · cases hx; simp [Wf]
      · cases hx
  intro j
  simp only [upd]
  have hT : ∀ k, tot (wt k j) (s.th.set t { th with pc := .ret i } ++ [{ me := some i, pc := .ready i }]) + wt k j th =
      tot (wt k j) s.th + wt k j { th with pc := .ret i } + wt k j { me := some i, pc := .ready i } := by
    intro k
    have := tot_set (wt k j) { th with pc := .ret i } ht
    rw [tot_append]; omega
  by_cases hij : j = i
  · subst hij
    simp only [if_true]
    have hok := h.ok j
    revert hT hok
    generalize s.th.set t { th with pc := .ret j } ++ [{ me := some j, pc := .ready j }] = l
    intro hT hok
    obtain ⟨h1, h2, h3, h4, h5, h6, h7, h8, h9, h10, h11, h12, h13, h14, h15, h16, h17, h18, h19, h20, h21⟩ := hok
    counts hT [hpc]
    constructor <;> grind [b2n]
  · simp only [if_neg hij]
    have : (fun k => tot (wt k j) (s.th.set t { th with pc := .ret i } ++ [{ me := some i, pc := .ready i }])) = fun k => tot (wt k j) s.th := by
      funext k
      have := hT k
      cases k <;> simp [wt, PC.wt, hpc, hij] at this ⊢ <;> omega
    rw [this]
    exact h.ok j

set_option maxHeartbeats 2000000 in
theorem stepGo_ok {m : Mode} {s s' : State} {σ : Nat → Call} {t : Nat} {th : Thread} {es : List Event} (h : Inv s σ) (ht : s.th[t]? = some th)
    (hs : stepGo m s t th = some (s', es)) : Follows next (Inv s') σ es := by
  cases hpc : th.pc with
  | idle => simp [stepGo, hpc] at hs
  | gone i => simp [stepGo, hpc] at hs
  | start i =>
    simp only [stepGo, hpc, Option.some.injEq, Prod.mk.injEq] at hs
    obtain ⟨rfl, rfl⟩ := hs
    rw [access_nil (h.alive (i := i) ht (by simp [wt, PC.wt, hpc] <;> omega)).1]
    simp only [Follows]
    exact start_ok h ht hpc
  | ret i =>
    simp only [stepGo, hpc, Option.some.injEq, Prod.mk.injEq] at hs
    obtain ⟨rfl, rfl⟩ := hs
    have a := h.alive (i := i) ht (by simp [wt, PC.wt, hpc] <;> omega)
    have hc : (σ i).phase ≠ .none ∧ (σ i).returned = false ∧ (σ i).destroyed = false := by
      have g := le_tot (wt .ret i) ht
      simp [wt, PC.wt, hpc] at g
      obtain ⟨h1, h2, h3, h4, h5, h6, h7, h8, h9, h10, h11, h12, h13, h14, h15, h16, h17, h18, h19, h20, h21⟩ := h.ok i
      cases hr : (σ i).returned <;> grind [b2n]
    simp only [Follows, next, hc, ne_eq, not_false_eq_true, and_self, if_true]
    same h ht [hpc]
  | rel i w =>
    have a := h.alive (i := i) ht (by cases w <;> simp [wt, PC.wt, hpc])
    simp only [stepGo, hpc, access_nil a.1, List.nil_append] at hs
    split at hs
    · rename_i hr
      simp only [Option.some.injEq, Prod.mk.injEq] at hs
      obtain ⟨rfl, rfl⟩ := hs
      simp only [Follows]
      rw [← set_self σ i]
      cases w
      · same h ht [hpc]
      · same h ht [hpc]
      · same h ht [hpc]
    · rename_i hr
      simp only [Option.some.injEq, Prod.mk.injEq] at hs
      obtain ⟨rfl, rfl⟩ := hs
      have := finished_ok h ht (.inl ⟨hpc, by omega, rfl, rfl⟩)
      rwa [set_self] at this
  | dtor i w => simp only [stepGo, hpc] at hs; exact stepDtor_ok h ht hpc hs
  | join i =>
    have a := h.alive (i := i) ht (by simp [wt, PC.wt, hpc] <;> omega)
    simp only [stepGo, hpc, access_nil a.1] at hs
    split at hs
    · simp only [Option.some.injEq, Prod.mk.injEq] at hs
      obtain ⟨rfl, rfl⟩ := hs
      simp only [Follows]
      rw [← set_self σ i]
      same h ht [hpc]
    · cases hs
  | wait i g =>
    have a := h.alive (i := i) ht (by simp [wt, PC.wt, hpc] <;> omega)
    simp only [stepGo, hpc, access_nil a.1, List.nil_append] at hs
    split at hs
    · cases hs
    · rename_i o ho
      simp only [Option.some.injEq, Prod.mk.injEq] at hs
      obtain ⟨rfl, rfl⟩ := hs
      have hp := (h.ok i).out o ho
      have hd := (h.ok i).dead.trans a.1
      have hI : Inv (s.setTh t { th with own := upd th.own i (th.own i + 1), pc := .idle }) σ := by
        rw [← set_self σ i]
        same h ht [hpc]
      cases g <;> simp [Follows, next, hp, hd, Phase.isEnded, hI]
  | ready i =>
    simp only [stepGo, hpc, Option.some.injEq, Prod.mk.injEq] at hs
    obtain ⟨rfl, rfl⟩ := hs
    have hw := h.wf t th ht
    simp [Wf, hpc] at hw
    have hph : (σ i).phase = .called := by
      have g := le_tot (wt .ready i) ht
      simp [wt, PC.wt, hpc] at g
      obtain ⟨h1, h2, h3, h4, h5, h6, h7, h8, h9, h10, h11, h12, h13, h14, h15, h16, h17, h18, h19, h20, h21⟩ := h.ok i
      cases hc : (σ i).phase <;> grind
    simp only [Follows, next, hph, if_true]
    same h ht [hpc, hw.1, hw.2]
  | mark i o =>
    have a := h.alive (i := i) ht (by simp [wt, PC.wt, hpc] <;> omega)
    simp only [stepGo, hpc, access_nil a.1, Option.some.injEq, Prod.mk.injEq] at hs
    obtain ⟨rfl, rfl⟩ := hs
    simp only [Follows]
    rw [← set_self σ i]
    same h ht [hpc]
  | bye i =>
    simp only [stepGo, hpc, Option.some.injEq, Prod.mk.injEq] at hs
    obtain ⟨rfl, rfl⟩ := hs
    have hc : (σ i).phase.isEnded = true ∧ (σ i).exited = false := by
      have g := le_tot (wt .bye i) ht
      simp [wt, PC.wt, hpc] at g
      obtain ⟨h1, h2, h3, h4, h5, h6, h7, h8, h9, h10, h11, h12, h13, h14, h15, h16, h17, h18, h19, h20, h21⟩ := h.ok i
      cases hr : (σ i).phase <;> cases hx : (s.node i).exit <;> grind [b2n, Phase.isEnded]
    simp only [Follows, next, hc, and_self, if_true]
    obtain ⟨o, ho⟩ : ∃ o, (σ i).phase = .ended o := by cases hr : (σ i).phase <;> simp [hr, Phase.isEnded] at hc ⊢
    same h ht [hpc]

end Verif.Async
