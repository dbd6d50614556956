import Verif.CondLife.Sim
/-!
# Windows
-/

set_option linter.unusedSimpArgs false
set_option linter.unusedVariables false

namespace Verif.CondLife.Win
open WinCondVar (Thread PC)

/-- What the specification may take a thread for. A thread that sleeps may have been woken by `notify_all` already. -/
def Fits : PC → View → Prop
  | .idle, v => v = ⟨some .out, none⟩
  | .holding _, v => v = ⟨some (.entering 0), none⟩
  | .sem _, v => v = ⟨some (.waiting 0), none⟩ ∨ v = ⟨some (.woken 0), none⟩
  | .try_ _, v => v = ⟨some (.waiting 0), none⟩ ∨ v = ⟨some (.woken 0), none⟩
  | .remove _ _, v => v = ⟨some (.woken 0), none⟩
  | .relock _, v => v = ⟨some (.woken 0), none⟩
  | .acting _, v => v = ⟨some .out, some 0⟩

def gone (b : Bool) : Nat → Bool := fun c => b && c == 0

structure OkW (ts : List Thread) (dead : Bool) (v : Nat → View) (σ : Spec) : Prop where
  ok : Ok true ts.length v (gone dead) σ
  fits : ∀ t x, ts[t]? = some x → Fits x.pc (v t)

def R (s : State) (σ : Spec) : Prop := ∃ v, OkW s.base.ts s.dead v σ

theorem R.init (n : Nat) : R (Win.init n) (start n) := by
  refine ⟨fun _ => ⟨some .out, none⟩, ?_, ?_⟩
  · have := Ok.init (strict := true) (n := n)
    have e : gone false = fun _ => false := by funext c; simp [gone]
    simp only [Win.init, WinCondVar.init, List.length_replicate, e]
    exact this
  · intro t x h
    simp only [Win.init, WinCondVar.init, List.getElem?_replicate] at h
    split at h <;> cases h
    rfl

variable {σ : Spec} {ts : List Thread} {dead : Bool} {v : Nat → View}

theorem lt_of_get {t : Nat} {x : Thread} (h : ts[t]? = some x) : t < ts.length := (List.getElem?_eq_some_iff.mp h).1

/-- After an event about `t`. -/
theorem OkW.after (h : OkW ts dead v σ) {t : Nat} {x' : Thread} {w : View} {σ' : Spec} (h' : Ok true ts.length (upd v t w) (gone dead) σ') (hx : Fits x'.pc w) :
    OkW (ts.set t x') dead (upd v t w) σ' := by
  refine ⟨by simpa using h', fun u y hu => ?_⟩
  rw [List.getElem?_set] at hu
  split at hu
  · rename_i e; subst e
    split at hu <;> cases hu
    simpa [upd] using hx
  · rename_i e
    have : u ≠ t := fun g => e g.symm
    simp only [upd, if_neg this]
    exact h.fits u y hu

theorem OkW.quiet (h : OkW ts dead v σ) {t : Nat} {x' : Thread} (hx : Fits x'.pc (v t)) : OkW (ts.set t x') dead v σ := by
  refine ⟨by simpa using h.ok, fun u y hu => ?_⟩
  rw [List.getElem?_set] at hu
  split at hu
  · rename_i e; subst e
    split at hu <;> cases hu
    exact hx
  · exact h.fits u y hu

theorem mem_waiters {b : WinCondVar.State} {u : Nat} (h : u ∈ waiters b) : ∃ x, b.ts[u]? = some x ∧ waits x.pc = true := by
  simp only [waiters, List.mem_filter, List.mem_range] at h
  cases e : b.ts[u]? with
  | none => simp [e] at h
  | some x => exact ⟨x, rfl, by simpa [e] using h.2⟩

theorem enter_ts (b : WinCondVar.State) (t : Nat) (x : Thread) (timed : Bool) : ∃ g, (b.enter t x timed).ts = b.ts.set t { x with pc := .holding g, timed } := by
  unfold WinCondVar.State.enter
  simp only
  split
  · exact ⟨_, rfl⟩
  · exact ⟨_, rfl⟩

theorem stepT_sim {M : Nat} {b b' : WinCondVar.State} {t : Nat} {x : Thread} {l : WinCondVar.Label} {es : List WinCondVar.Event} (hl : l.tid = t) (h : OkW b.ts dead v σ)
    (ht : b.ts[t]? = some x) (hs : WinCondVar.stepT M b t x l = some (b', es)) :
    Follows (next true) (fun σ' => ∃ v', OkW b'.ts dead v' σ') σ (silent b l ++ es.flatMap (sees b l)) := by
  have hlt := lt_of_get ht
  have hf := h.fits t x ht
  cases l with
  | lock t' =>
    simp only [WinCondVar.stepT] at hs
    split at hs <;> cases hs
    exact ⟨v, h⟩
  | unlock t' =>
    simp only [WinCondVar.stepT] at hs
    split at hs <;> cases hs
    exact ⟨v, h⟩
  | enter t' timed =>
    simp only [WinCondVar.stepT] at hs
    split at hs
    · rename_i g
      rw [g.1] at hf
      split at hs <;> cases hs
      · exact ⟨v, h⟩
      · simp only [silent, List.nil_append, List.flatMap_cons, List.flatMap_nil, sees, List.append_nil]
        refine h.ok.called hlt (by rw [hf]) fun σ' h' => ?_
        rw [hf] at h'
        obtain ⟨g', e⟩ := enter_ts b t x timed
        have h3 := h.after (x' := { x with pc := .holding g', timed }) h' rfl
        rw [← e] at h3
        exact ⟨_, h3⟩
    · cases hs
  | release t' =>
    simp only [WinCondVar.stepT] at hs
    split at hs <;> cases hs
    rename_i g hp
    rw [hp] at hf
    simp only [silent, List.nil_append, List.flatMap_cons, List.flatMap_nil, sees, List.append_nil]
    refine h.ok.released (c := 0) hlt (by rw [hf]) fun σ' h' => ?_
    rw [hf] at h'
    exact ⟨_, h.after h' (Or.inl rfl)⟩
  | pass t' =>
    simp only [WinCondVar.stepT] at hs
    split at hs
    · rename_i g hp
      split at hs <;> cases hs
      rw [hp] at hf
      exact ⟨v, h.quiet hf⟩
    · cases hs
  | timeout t' =>
    simp only [WinCondVar.Label.tid] at hl
    subst hl
    simp only [WinCondVar.stepT] at hs
    split at hs
    · rename_i g hp
      split at hs <;> cases hs
      rw [hp] at hf
      refine h.ok.woken (c := 0) hlt (by rcases hf with hf | hf <;> rw [hf] <;> simp) fun σ' h' => ?_
      have hb : (v t').busy = none := by rcases hf with hf | hf <;> rw [hf]
      rw [hb] at h'
      exact ⟨_, h.after h' rfl⟩
    · cases hs
  | interrupt t' =>
    simp only [WinCondVar.Label.tid] at hl
    subst hl
    simp only [WinCondVar.stepT] at hs
    split at hs
    · rename_i g hp
      cases hs
      rw [hp] at hf
      refine h.ok.woken (c := 0) hlt (by rcases hf with hf | hf <;> rw [hf] <;> simp) fun σ' h' => ?_
      have hb : (v t').busy = none := by rcases hf with hf | hf <;> rw [hf]
      rw [hb] at h'
      exact ⟨_, h.after h' rfl⟩
    · cases hs
  | tryWake t' =>
    simp only [WinCondVar.stepT] at hs
    split at hs
    · rename_i g hp
      rw [hp] at hf
      split at hs <;> cases hs
      · exact ⟨v, h.quiet hf⟩
      · simp only [silent, List.nil_append, List.flatMap_cons, List.flatMap_nil, sees, List.append_nil]
        refine h.ok.woken (c := 0) hlt (by rcases hf with hf | hf <;> rw [hf] <;> simp) fun σ' h' => ?_
        have hb : (v t).busy = none := by rcases hf with hf | hf <;> rw [hf]
        rw [hb] at h'
        exact ⟨_, h.after h' rfl⟩
    · cases hs
  | remove t' =>
    simp only [WinCondVar.stepT] at hs
    split at hs
    · rename_i g o hp
      cases hs
      rw [hp] at hf
      exact ⟨v, h.quiet hf⟩
    · cases hs
  | relock t' =>
    simp only [WinCondVar.stepT] at hs
    split at hs
    · rename_i o hp
      split at hs <;> cases hs
      rw [hp] at hf
      simp only [silent, List.nil_append, List.flatMap_cons, List.flatMap_nil, sees, List.append_nil]
      refine h.ok.back hlt (by rw [hf]; exact Or.inr ⟨0, Or.inr rfl⟩) fun σ' h' => ?_
      rw [hf] at h'
      exact ⟨_, h.after h' rfl⟩
    · cases hs
  | notify t' all =>
    simp only [WinCondVar.Label.tid] at hl
    subst hl
    simp only [WinCondVar.stepT] at hs
    split at hs
    · rename_i hp
      rw [hp] at hf
      split at hs <;> cases hs
      · rename_i h0
        simp only [silent, h0, if_true, List.nil_append, List.flatMap_cons, List.flatMap_nil, sees, List.append_nil]
        refine h.ok.notify fun σ1 h1 => h1.notified fun σ' h' => ?_
        refine ⟨v, h'.congr fun u _ => ?_, h.fits⟩
        have hf' : v t' = ⟨some .out, none⟩ := hf
        by_cases e : u = t' <;> simp [upd, e, hf']
      · rename_i h0
        simp only [silent, h0, if_false, List.flatMap_nil, List.append_nil]
        refine h.ok.notify fun σ' h' => ?_
        rw [hf] at h'
        exact ⟨_, h.after h' rfl⟩
    · cases hs
  | act t' =>
    simp only [WinCondVar.Label.tid] at hl
    subst hl
    simp only [WinCondVar.stepT] at hs
    split at hs
    · rename_i all hp
      rw [hp] at hf
      have fin : ∀ {σ1 : Spec} {v1 : Nat → View} (h1 : OkW b.ts dead v1 σ1), v1 t' = ⟨some .out, some 0⟩ →
          Follows (next true) (fun σ' => ∃ v', OkW (b.ts.set t' { x with pc := .idle }) dead v' σ') σ1 [.notified t'] := by
        intro σ1 v1 h1 hv1
        refine h1.ok.notified fun σ' h' => ?_
        rw [hv1] at h'
        exact ⟨_, h1.after h' rfl⟩
      split at hs <;> cases hs
      · simp only [silent, List.nil_append, List.flatMap_cons, List.flatMap_nil, sees, List.append_nil, Bool.and_false, Bool.false_eq_true, if_false]
        exact fin h hf
      · have hts : ((if all = true then b.all M else b.one M).pc t' x .idle).ts = b.ts.set t' { x with pc := .idle } := by
          cases all <;> rfl
        rw [hts]
        simp only [silent, List.nil_append, List.flatMap_cons, List.flatMap_nil, sees, List.append_nil, Bool.and_true]
        cases all with
        | false => simpa using fin h hf
        | true =>
          simp only [if_true]
          have hw : ∀ u, u ∈ waiters b → u < b.ts.length ∧ (v u = ⟨some (.waiting 0), none⟩ ∨ v u = ⟨some (.woken 0), none⟩) := by
            intro u hu
            obtain ⟨y, hy, hq⟩ := mem_waiters hu
            refine ⟨lt_of_get hy, ?_⟩
            have := h.fits u y hy
            cases hpc : y.pc <;> rw [hpc] at hq this <;> simp [waits] at hq
            · exact this
            · exact this
          have hnt : t' ∉ waiters b := fun g => by
            rcases (hw t' g).2 with e | e <;> rw [hf] at e <;> cases e
          refine h.ok.wokenAll (fun u hu => ⟨(hw u hu).1, 0, ?_⟩) fun σ1 h1 h2 => ?_
          · rcases (hw u hu).2 with e | e <;> rw [e] <;> simp
          · have h3 : OkW b.ts dead (fun u => if u ∈ waiters b then ⟨some (.woken 0), none⟩ else v u) σ1 := by
              refine ⟨⟨h1.num, h1.gone, fun u hu => ?_, h1.safe⟩, fun u y hy => ?_⟩
              · have hr := h1.rel u hu
                by_cases e : u ∈ waiters b
                · simp only [if_pos e] at hr ⊢
                  refine ⟨?_, h2 u e 0 (by rcases (hw u e).2 with e | e <;> rw [e] <;> simp)⟩
                  rw [hr.1]
                  rcases (hw u e).2 with e | e <;> rw [e]
                · simp only [if_neg e] at hr ⊢
                  exact hr
              · have hfu := h.fits u y hy
                by_cases e : u ∈ waiters b
                · simp only [if_pos e]
                  obtain ⟨y', hy', hq⟩ := mem_waiters e
                  rw [hy] at hy'; cases hy'
                  cases hpc : y.pc <;> rw [hpc] at hq <;> simp [waits] at hq
                  · exact Or.inr rfl
                  · exact Or.inr rfl
                · simp only [if_neg e]; exact hfu
            exact fin h3 (by simp only [if_neg hnt]; exact hf)
    · cases hs

theorem alive {s : State} (h : OkW s.base.ts s.dead v σ) {l : WinCondVar.Label} (hc : touched s.base l = true) : s.dead = false := by
  have key : ∀ (t : Nat) (x : Thread), s.base.ts[t]? = some x → touches x.pc = true → s.dead = false := by
    intro t x ht hx
    have hf := h.fits t x ht
    have : gone s.dead 0 = false := by
      refine h.ok.alive (lt_of_get ht) ?_
      cases hp : x.pc <;> rw [hp] at hx hf <;> simp [touches] at hx
      · rw [hf]; simp
      · rw [hf]; simp
    simpa [gone] using this
  cases l <;> simp only [touched, Bool.false_eq_true] at hc
  all_goals
    split at hc
    · rename_i t x ht; exact key _ x ht hc
    · cases hc

theorem sim {M : Nat} {s s' : State} {l : Label} {es : List Event} (h : R s σ) (hs : step M s l = some (s', es)) : Follows (next true) (R s') σ es := by
  obtain ⟨v, h⟩ := h
  cases l with
  | base l =>
    simp only [step] at hs
    split at hs
    · rename_i hc
      simp only [Bool.and_eq_true] at hc
      rw [alive h hc.2] at hc
      exact absurd hc.1 (by simp)
    · split at hs <;> cases hs
      rename_i b' es' hb
      unfold WinCondVar.step at hb
      split at hb
      · rename_i x hx
        exact stepT_sim rfl h hx hb
      · cases hb
  | destroy =>
    simp only [step] at hs; cases hs
    refine h.ok.destroyed fun σ' h' => ⟨v, ?_, h.fits⟩
    have : upd (gone s.dead) 0 true = gone true := by
      funext c
      simp only [upd, gone]
      by_cases e : c = 0 <;> simp [e]
    rwa [this] at h'

end Verif.CondLife.Win
