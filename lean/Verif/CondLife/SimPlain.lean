import Verif.CondLife.Sim
/-!
# POSIX without interruption
-/

set_option linter.unusedSimpArgs false
set_option linter.unusedVariables false

namespace Verif.CondLife.Plain

def view : PC → View
  | .idle => ⟨some .out, none⟩
  | .p1 c _ => ⟨some (.entering c), none⟩
  | .p2 c _ => ⟨some (.entering c), none⟩
  | .p3 c _ => ⟨some (.waiting c), none⟩
  | .asleep c _ => ⟨some (.waiting c), none⟩
  | .woke c _ => ⟨some (.woken c), none⟩
  | .relock _ => ⟨none, none⟩

def vw (s : State) : Nat → View := fun t => view ((s.ts[t]?).getD .idle)

structure R (any : Bool) (s : State) (σ : Spec) : Prop where
  ok : Ok any s.ts.length (vw s) s.dead σ
  wk : ∀ t c m : Nat, s.ts[t]? = some (PC.woke c m) → any = true

theorem vw_get {s : State} {t : Nat} {p : PC} (h : s.ts[t]? = some p) : vw s t = view p := by simp [vw, h]

theorem lt_of_get {s : State} {t : Nat} {p : PC} (h : s.ts[t]? = some p) : t < s.ts.length := (List.getElem?_eq_some_iff.mp h).1

theorem vw_set {s : State} {ts : List PC} {t u : Nat} {p : PC} (hts : s.ts = ts) (ht : t < ts.length) (im mx : Nat → Option Nat) (d : Nat → Bool) :
    vw { ts := ts.set t p, im := im, mx := mx, dead := d } u = upd (vw s) t (view p) u := by
  subst hts
  simp only [vw, upd]
  by_cases e : u = t
  · subst e; simp [ht]
  · have : t ≠ u := fun e' => e e'.symm
    simp [List.getElem?_set, this, e]

theorem R.init (any : Bool) (n : Nat) : R any (Plain.init n) (start n) := by
  refine ⟨?_, ?_⟩
  · have := Ok.init (strict := any) (n := n)
    simp only [Plain.init, List.length_replicate]
    refine this.congr fun t ht => ?_
    simp [vw, List.getElem?_replicate, ht, view]
  · intro t c m h
    simp only [Plain.init, List.getElem?_replicate] at h
    split at h <;> simp at h

theorem R.wk_set {any : Bool} {s : State} {σ : Spec} (h : R any s σ) {t : Nat} {p : PC} (hp : ∀ c m, p = PC.woke c m → any = true) :
    ∀ u c m : Nat, (s.ts.set t p)[u]? = some (PC.woke c m) → any = true := by
  intro u c m hu
  rw [List.getElem?_set] at hu
  split at hu
  · split at hu
    · cases hu; exact hp c m rfl
    · cases hu
  · exact h.wk u c m hu

/-- One thread goes on, with nothing to see. -/
theorem R.quiet {any : Bool} {s : State} {σ : Spec} (h : R any s σ) {t : Nat} {p p' : PC} (ht : s.ts[t]? = some p) (hv : ∀ q b, Rel (view p) q b → Rel (view p') q b)
    (hp : ∀ c m, p' = PC.woke c m → any = true) (im mx : Nat → Option Nat) : R any { ts := s.ts.set t p', im := im, mx := mx, dead := s.dead } σ := by
  refine ⟨?_, h.wk_set hp⟩
  have := h.ok.mono (v' := vw { ts := s.ts.set t p', im := im, mx := mx, dead := s.dead }) fun u hu q b hr => ?_
  · simpa using this
  · rw [vw_set rfl (lt_of_get ht)]
    simp only [upd]
    split
    · rename_i e; subst e; rw [vw_get ht] at hr; exact hv q b hr
    · exact hr

/-- After an event about `t`. -/
theorem R.after {any : Bool} {s : State} {σ σ' : Spec} (h : R any s σ) {t : Nat} {p' : PC} (ht : t < s.ts.length) {x : View} (h' : Ok any s.ts.length (upd (vw s) t x) s.dead σ')
    (hx : ∀ q b, Rel x q b → Rel (view p') q b) (hp : ∀ c m, p' = PC.woke c m → any = true) (im mx : Nat → Option Nat) :
    R any { ts := s.ts.set t p', im := im, mx := mx, dead := s.dead } σ' := by
  refine ⟨?_, h.wk_set hp⟩
  have := h'.mono (v' := vw { ts := s.ts.set t p', im := im, mx := mx, dead := s.dead }) fun u hu q b hr => ?_
  · simpa using this
  · rw [vw_set rfl ht]
    simp only [upd] at hr ⊢
    split
    · rename_i e; subst e; simp only [if_true] at hr; exact hx q b hr
    · rename_i e; simp only [if_neg e] at hr; exact hr

theorem R.same {any : Bool} {s s' : State} {σ : Spec} (h : R any s σ) (h1 : s'.ts = s.ts) (h2 : s'.dead = s.dead) : R any s' σ := by
  refine ⟨?_, by rw [h1]; exact h.wk⟩
  rw [h1, h2]
  exact h.ok.congr fun t _ => by simp [vw, h1]

theorem rel_woken (any : Bool) (c m : Nat) (q : Phase) (b : Option Nat) (h : Rel ⟨some (.woken c), none⟩ q b) : Rel (view (woken any (.asleep c m))) q b := by
  cases any
  · exact ⟨h.1, c, h.2⟩
  · exact h

theorem go_sim {any : Bool} {s s' : State} {σ : Spec} {t : Nat} {p : PC} {es : List Event} (h : R any s σ) (ht : s.ts[t]? = some p) (hs : go s t p = some (s', es)) :
    Follows (next any) (R any s') σ es := by
  have hlt := lt_of_get ht
  have hv := vw_get ht
  cases p with
  | idle => simp [go] at hs
  | asleep c m => simp [go] at hs
  | p1 c m =>
    simp only [go] at hs; split at hs <;> cases hs
    exact h.quiet (p' := .p2 c m) ht (fun q b hr => hr) (by simp) _ _
  | p2 c m =>
    simp only [go] at hs; cases hs
    refine h.ok.released hlt (c := c) (by rw [hv]; rfl) fun σ' h' => ?_
    rw [hv] at h'
    exact h.after (p' := .p3 c m) hlt h' (fun q b hr => hr) (by simp) _ _
  | p3 c m =>
    simp only [go] at hs; cases hs
    exact h.quiet (p' := .asleep c m) ht (fun q b hr => hr) (by simp) _ _
  | woke c m =>
    simp only [go] at hs; split at hs <;> cases hs
    exact h.quiet (p' := .relock m) ht (fun q b hr => ⟨hr.1, c, hr.2⟩) (by simp) _ _
  | relock m =>
    simp only [go] at hs; split at hs <;> cases hs
    refine h.ok.back hlt (by rw [hv]; exact Or.inl rfl) fun σ' h' => ?_
    rw [hv] at h'
    exact h.after (p' := .idle) hlt h' (fun q b hr => hr) (by simp) _ _

theorem mem_waiters {s : State} {c u : Nat} (h : u ∈ (List.range s.ts.length).filter (fun u => (s.ts[u]?).any (asleepOn c))) :
    u < s.ts.length ∧ ∃ m, s.ts[u]? = some (.asleep c m) := by
  simp only [List.mem_filter, List.mem_range] at h
  refine ⟨h.1, ?_⟩
  cases e : s.ts[u]? with
  | none => simp [e] at h
  | some p =>
    cases p <;> simp [e, asleepOn] at h ⊢
    exact h.2

theorem sim {any : Bool} {s s' : State} {σ : Spec} {l : Label} {es : List Event} (h : R any s σ) (hs : step any s l = some (s', es)) :
    Follows (next any) (R any s') σ es := by
  cases l with
  | lock t m => simp only [step] at hs; split at hs <;> cases hs; exact h.same rfl rfl
  | unlock t m => simp only [step] at hs; split at hs <;> cases hs; exact h.same rfl rfl
  | wait t c m =>
    simp only [step] at hs
    split at hs
    · rename_i g
      have hlt := lt_of_get g.1
      have hv := vw_get g.1
      split at hs <;> cases hs
      · refine h.ok.called hlt (by rw [hv]; rfl) fun σ' h' => ?_
        rw [hv] at h'
        exact h.after (p' := .p1 c m) hlt h' (fun q b hr => hr) (by simp) _ _
      · refine h.ok.called hlt (by rw [hv]; rfl) fun σ1 h1 => ?_
        refine h1.released (c := c) hlt (by simp [upd]) fun σ' h' => ?_
        have h'' : Ok any s.ts.length (upd (vw s) t ⟨some (.waiting c), none⟩) s.dead σ' := by
          refine h'.congr fun u _ => ?_
          by_cases e : u = t <;> simp [upd, e, hv, view]
        exact h.after (p' := .asleep c m) hlt h'' (fun q b hr => hr) (by simp) _ _
    · cases hs
  | go t =>
    simp only [step] at hs
    split at hs
    · rename_i p ht
      split at hs
      · rename_i c hc
        split at hs
        · exfalso
          rename_i hd
          have hlt := lt_of_get ht
          have hv := vw_get ht
          have : s.dead c = false := by
            cases p <;> simp [touches] at hc
            · subst hc; exact h.ok.alive hlt (by rw [hv]; exact Or.inl rfl)
            · subst hc; exact h.ok.alive hlt (by rw [hv]; exact Or.inr (Or.inl rfl))
            · subst hc; exact h.ok.alive hlt (by rw [hv]; exact Or.inr (Or.inr (Or.inl ⟨h.wk t _ _ ht, rfl⟩)))
          rw [this] at hd; cases hd
        · exact go_sim h ht hs
      · exact go_sim h ht hs
    · cases hs
  | wake t =>
    simp only [step] at hs
    split at hs
    · rename_i c m ht
      cases hs
      have hlt := lt_of_get ht
      have hv := vw_get ht
      refine h.ok.woken (c := c) hlt (by rw [hv]; exact Or.inl rfl) fun σ' h' => ?_
      rw [hv] at h'
      exact h.after hlt h' (rel_woken any c m) (by intro c' m' e; cases any <;> simp [woken] at e ⊢) _ _
    · cases hs
  | notifyOne t c w =>
    simp only [step] at hs
    split at hs
    · rename_i g
      have hlt := lt_of_get g.1
      have hv := vw_get g.1
      split at hs
      · split at hs <;> cases hs
        refine h.ok.notify fun σ1 h1 => ?_
        refine h1.notified fun σ' h' => ?_
        refine ⟨h'.congr fun u _ => ?_, h.wk⟩
        by_cases e : u = t <;> simp [upd, e, hv, view]
      · rename_i w
        split at hs
        · rename_i p hp
          split at hs <;> cases hs
          rename_i ha
          cases p with
          | asleep c' m =>
            have hc : c' = c := by simpa [asleepOn] using ha
            subst hc
            have hlw := lt_of_get hp
            have hvw := vw_get hp
            refine h.ok.notify fun σ1 h1 => ?_
            have hne : w ≠ t := fun e => by subst e; rw [g.1] at hp; cases hp
            refine h1.woken (c := c') hlw (by simp [upd, hne, hvw, view]) fun σ2 h2 => ?_
            refine h2.notified fun σ' h' => ?_
            have h'' : Ok any s.ts.length (upd (vw s) w ⟨some (.woken c'), none⟩) s.dead σ' := by
              refine h'.congr fun u _ => ?_
              have hne' : t ≠ w := fun e => hne e.symm
              by_cases e : u = t
              · subst e; simp [upd, hv, view, hne']
              · by_cases e2 : u = w
                · subst e2; simp [upd, hvw, view, hne]
                · simp [upd, e, e2]
            exact h.after hlw h'' (rel_woken any c' m) (by intro c' m' e; cases any <;> simp [woken] at e ⊢) _ _
          | _ => simp [asleepOn] at ha
        · cases hs
    · cases hs
  | notifyAll t c =>
    simp only [step] at hs
    split at hs
    · rename_i g
      cases hs
      have hlt := lt_of_get g.1
      have hv := vw_get g.1
      refine h.ok.notify fun σ1 h1 => ?_
      have hmem : ∀ u, u ∈ (List.range s.ts.length).filter (fun u => (s.ts[u]?).any (asleepOn c)) → u ≠ t := by
        intro u hu e; subst e
        obtain ⟨-, m, hm⟩ := mem_waiters hu
        rw [g.1] at hm; cases hm
      refine h1.wokenAll ?_ ?_
      · intro u hu
        obtain ⟨g1, m, g2⟩ := mem_waiters hu
        refine ⟨g1, c, Or.inl ?_⟩
        simp [upd, hmem u hu, vw_get g2, view]
      · intro σ2 h2 h3
        have hph2 : ∀ u, u ∈ (List.range s.ts.length).filter (fun u => (s.ts[u]?).any (asleepOn c)) → ∀ m, s.ts[u]? = some (.asleep c m) → σ2.ph u = .woken c := by
          intro u hu m hm
          exact h3 u hu c (Or.inl (by simp [upd, hmem u hu, vw_get hm, view]))
        simp only [Follows, next]
        have h' := h2.setBusy (t := t) (b := none) (fun c' e => by cases e)
        have hph : ∀ u, u ∈ (List.range s.ts.length).filter (fun u => (s.ts[u]?).any (asleepOn c)) → ∀ m, s.ts[u]? = some (.asleep c m) → σ2.ph u = .woken c := hph2
        have hget : ∀ u : Nat, (s.ts.map (fun p => if asleepOn c p then woken any p else p))[u]? = (s.ts[u]?).map (fun p => if asleepOn c p then woken any p else p) := by simp
        refine ⟨?_, ?_⟩
        · refine ⟨by simpa using h'.num, h'.gone, fun u hu => ?_, by simpa using h'.safe⟩
          have hu' : u < s.ts.length := by simpa using hu
          have hr := h'.rel u hu'
          simp only [vw, hget]
          by_cases e : u = t
          · subst e
            have hn : u ∉ (List.range s.ts.length).filter (fun u => (s.ts[u]?).any (asleepOn c)) := fun g' => hmem u g' rfl
            simp only [upd, if_true, if_neg hn] at hr ⊢
            simp only [g.1, Option.map_some, asleepOn, Option.getD_some, Bool.false_eq_true, if_false]
            rw [hv] at hr; exact hr
          · by_cases e2 : u ∈ (List.range s.ts.length).filter (fun u => (s.ts[u]?).any (asleepOn c))
            · obtain ⟨-, m, hm⟩ := mem_waiters e2
              have hvw := vw_get hm
              simp only [upd, if_neg e, if_pos e2, hvw] at hr ⊢
              simp only [hm, Option.map_some, asleepOn, Option.getD_some, beq_self_eq_true, if_true]
              refine rel_woken any c m _ _ ⟨hr.1, ?_⟩
              exact hph u e2 m hm
            · simp only [upd, if_neg e, if_neg e2] at hr ⊢
              obtain ⟨p, hp⟩ : ∃ p, s.ts[u]? = some p := ⟨_, List.getElem?_eq_getElem hu'⟩
              have hna : asleepOn c p = false := by
                cases ha : asleepOn c p with
                | false => rfl
                | true => exact absurd (List.mem_filter.mpr ⟨List.mem_range.mpr hu', by simp [hp, ha]⟩) e2
              simp only [hp, Option.map_some, hna, Option.getD_some, Bool.false_eq_true, if_false]
              rw [vw_get hp] at hr; exact hr
        · intro u c' m' hu
          simp only [hget] at hu
          cases hp : s.ts[u]? with
          | none => simp [hp] at hu
          | some p =>
            simp only [hp, Option.map_some, Option.some.injEq] at hu
            split at hu
            · cases p <;> cases any <;> simp_all [asleepOn, woken]
            · subst hu; exact h.wk u c' m' hp
    · cases hs
  | destroy c =>
    simp only [step] at hs; cases hs
    refine h.ok.destroyed fun σ' h' => ?_
    exact ⟨h'.congr fun u _ => rfl, h.wk⟩

end Verif.CondLife.Plain
