import Verif.WinThread.Model
/-!
# The simulation
-/
set_option linter.unusedSimpArgs false
set_option linter.unusedVariables false

namespace Verif.WinThread

@[simp] theorem upd_same {α : Type} (f : Nat → α) (i : Nat) (x : α) : upd f i x i = x := by simp [upd]

theorem upd_other {α : Type} (f : Nat → α) {i j : Nat} (x : α) (h : j ≠ i) : upd f i x j = f j := by simp [upd, h]

/-! ## Times -/

theorem ms_le {x : Int} : x ≤ ms x * 1000000 ∨ (x < 0 ∧ ms x < 0) := by
  unfold ms
  split
  · left
    rename_i h
    rw [Int.tdiv_eq_ediv_of_nonneg (by omega)]
    omega
  · right
    rename_i h
    refine ⟨by omega, ?_⟩
    have h1 : (x - 999999).tdiv 1000000 = -((-(x - 999999)).tdiv 1000000) := by rw [Int.neg_tdiv, Int.neg_neg]
    rw [h1, Int.tdiv_eq_ediv_of_nonneg (by omega)]
    omega

theorem ms_nonpos {x : Int} (h : ¬ 0 < ms x) : x ≤ 0 := by
  rcases @ms_le x with h1 | h1
  · omega
  · omega

/-- The timer does not fire early. -/
theorem due_ge {x now : Int} : x ≤ now + (if 0 < ms (x - now) then ms (x - now) * 1000000 else 0) := by
  split
  · rcases @ms_le (x - now) with h1 | h1 <;> omega
  · rename_i h
    have := ms_nonpos h
    omega

/-! ## The relation -/

def Pc.tgt : Pc → Option Nat
  | .look tgt _ _ _ | .add tgt _ _ _ | .arm tgt _ _ _ | .blocked tgt _ _ _ _ _ | .got tgt _ _ _ => tgt
  | _ => none

/-- What is common to all places in a join or a sleep. -/
structure Com (ev en : Bool) (tgt : Option Nat) (intr : Bool) (a : Active) : Prop where
  target : a.call.target = tgt
  noPoint : a.call ≠ .point
  same : (a.call.intr && en) = (intr && en)
  must : a.must = true → ev = true ∧ en = true ∧ intr = true

/-- The wait until `x` on the steady clock lasts long enough. -/
def Long (user : Int) (a : Active) (x : Int) : Option Int → Prop
  | none => ∃ t, a.dl = .steady t ∧ t ≤ x
  | some t => ∃ b, a.dl = .user t b ∧ (t ≤ user → b = true)

/-- The functions that look at the user's clock have a deadline there. -/
def Loop (user : Int) (a : Active) : Option Int → Prop
  | none => True
  | some t => ∃ b, a.dl = .user t b ∧ (t ≤ user → b = true)

def Good (s : St) (pc : Pc) (ev en : Bool) (c : Option Active) : Prop :=
  match pc with
  | .idle => c = none
  | .look tgt intr t first =>
    ∃ a, c = some a ∧ Com ev en tgt intr a ∧ Loop s.user a (some t) ∧ (a.must = true → first = true ∧ tgt.isSome = true)
  | .add tgt intr d k => ∃ a, c = some a ∧ Com ev en tgt intr a ∧ Long s.user a (s.now + d) k
  | .arm tgt intr dl k => ∃ a, c = some a ∧ Com ev en tgt intr a ∧ Loop s.user a k ∧
      (∀ e, dl = some e → Long s.user a e k) ∧ (dl = none → a.dl = .never)
  | .blocked tgt intr dl due til k =>
    ∃ a, c = some a ∧ Com ev en tgt intr a ∧ (intr = true → en = true) ∧ Loop s.user a k ∧ (∀ e, dl = some e → Long s.user a e k) ∧
      (dl = none → a.dl = .never) ∧ (∀ e, due = some e → ∃ e', dl = some e' ∧ e' ≤ e)
  | .got tgt intr b k =>
    ∃ a, c = some a ∧ Com ev en tgt intr a ∧ Loop s.user a k ∧ (b = true → ∃ u, tgt = some u ∧ (s.t u).fin = true) ∧
      (b = false → a.must = false ∧ Long s.user a s.now k)
  | .reset => ∃ a, c = some a ∧ a.call.intr = true ∧ ev = true ∧ en = true
  | .point => ∃ a, c = some a ∧ a.call = .point ∧ (a.must = true → ev = true ∧ en = true)

/-- The members of the disablers and restorers. -/
def ScR (lib : Bool) : List Obj → List Scope → Prop
  | [], [] => True
  | .dis was :: r, .dis :: r' => was = allowed lib r' ∧ ScR lib r r'
  | .res :: r, .res _ :: r' => (∃ r'', r' = .dis :: r'') ∧ ScR lib r r'
  | _, _ => False

structure TR (s : St) (w : Nat) (x : Thr) (y : STh) : Prop where
  lib : y.lib = x.lib
  fin : y.fin = x.fin
  obj : y.obj = x.obj
  pending : y.pending = x.event
  scopes : ScR x.lib x.objs y.scopes
  en : x.en = allowed x.lib y.scopes
  tgt : ∀ u, x.pc.tgt = some u → (s.t u).obj = true ∧ (s.t u).joiner = some w ∧ u ≠ w
  good : Good s x.pc x.event x.en y.call

structure R (s : St) (σ : Sys) : Prop where
  n : σ.n = s.n
  now : σ.now = s.now
  user : σ.user = s.user
  th : ∀ w, TR s w (s.t w) (σ.th w)
  unborn : ∀ u, s.n ≤ u → (s.t u).obj = false

theorem Good.congr {s s' : St} {pc : Pc} {ev en : Bool} {c : Option Active} (h : Good s pc ev en c) (hn : s'.now = s.now) (hu : s'.user = s.user)
    (hf : ∀ u, pc.tgt = some u → (s.t u).fin = true → (s'.t u).fin = true) : Good s' pc ev en c := by
  unfold Good at h ⊢
  split at h <;> try simp only [hn, hu] at h ⊢
  case h_6 tgt intr b k =>
    obtain ⟨a, h1, h2, h3, h4, h5⟩ := h
    refine ⟨a, h1, h2, h3, fun hb => ?_, h5⟩
    obtain ⟨u, hu1, hu2⟩ := h4 hb
    exact ⟨u, hu1, hf u hu1 hu2⟩
  all_goals exact h

theorem TR.congr {s s' : St} {w : Nat} {x : Thr} {y : STh} (h : TR s w x y) (hn : s'.now = s.now) (hu : s'.user = s.user)
    (hf : ∀ u, (s.t u).obj = true → (s.t u).joiner = some w → u ≠ w →
      (s'.t u).obj = true ∧ (s'.t u).joiner = some w ∧ ((s.t u).fin = true → (s'.t u).fin = true)) : TR s' w x y := by
  refine { h with tgt := fun u hu' => ?_, good := h.good.congr hn hu fun u hu' => ?_ }
  · have := h.tgt u hu'
    have h2 := hf u this.1 this.2.1 this.2.2
    exact ⟨h2.1, h2.2.1, this.2.2⟩
  · have := h.tgt u hu'
    exact (hf u this.1 this.2.1 this.2.2).2.2

/-- A step that changes one thread. -/
theorem R.set1 {s : St} {σ : Sys} (h : R s σ) {w : Nat} {x : Thr} {y : STh}
    (hk : ∀ v, v ≠ w → (s.t w).obj = true → (s.t w).joiner = some v → x.obj = true ∧ x.joiner = some v ∧ ((s.t w).fin = true → x.fin = true))
    (hb : s.n ≤ w → x.obj = false)
    (hw : TR (s.set w x) w x y) : R (s.set w x) (σ.set w y) := by
  refine ⟨h.n, h.now, h.user, fun v => ?_, fun u hu => ?_⟩
  · by_cases hv : v = w
    · subst hv; simpa [St.set, Sys.set] using hw
    · simp only [St.set, Sys.set, upd_other _ _ hv]
      refine (h.th v).congr rfl rfl fun u h1 h2 h3 => ?_
      by_cases hu : u = w
      · subst hu; simpa using hk v hv h1 h2
      · simp only [upd_other _ _ hu]; exact ⟨h1, h2, id⟩
  · simp only [St.set]
    by_cases hv : u = w
    · subst hv; simpa using hb hu
    · rw [upd_other _ _ hv]; exact h.unborn u hu

theorem R.set2 {s : St} {σ : Sys} (h : R s σ) {u w : Nat} {x : Thr} {y : STh} {x' : Thr} {y' : STh} (huw : u ≠ w)
    (hku : ∀ v, v ≠ w → v ≠ u → (s.t u).obj = true → (s.t u).joiner = some v → x'.obj = true ∧ x'.joiner = some v ∧ ((s.t u).fin = true → x'.fin = true))
    (hkw : ∀ v, v ≠ w → (s.t w).obj = true → (s.t w).joiner = some v → x.obj = true ∧ x.joiner = some v ∧ ((s.t w).fin = true → x.fin = true))
    (hbu : s.n ≤ u → x'.obj = false) (hb : s.n ≤ w → x.obj = false)
    (hu : ∀ s', s'.now = s.now → s'.user = s.user → s'.t = upd (upd s.t u x') w x → TR s' u x' y')
    (hw : ∀ s', s'.now = s.now → s'.user = s.user → s'.t = upd (upd s.t u x') w x → TR s' w x y) :
    R ((s.set u x').set w x) ((σ.set u y').set w y) := by
  refine ⟨h.n, h.now, h.user, fun v => ?_, fun t ht => ?_⟩
  · by_cases hv : v = w
    · subst hv; simpa [St.set, Sys.set] using hw ((s.set u x').set v x) rfl rfl rfl
    · by_cases hv' : v = u
      · subst hv'
        simp only [St.set, Sys.set, upd_other _ _ hv, upd_same]
        exact hu _ rfl rfl rfl
      · simp only [St.set, Sys.set, upd_other _ _ hv, upd_other _ _ hv']
        refine (h.th v).congr rfl rfl fun t h1 h2 h3 => ?_
        by_cases ht : t = w
        · subst ht; simpa using hkw v hv h1 h2
        · by_cases ht' : t = u
          · subst ht'
            simp only [upd_other _ _ ht, upd_same]
            exact hku v hv hv' h1 h2
          · simp only [upd_other _ _ ht, upd_other _ _ ht']; exact ⟨h1, h2, id⟩
  · simp only [St.set]
    by_cases hv : t = w
    · subst hv; simpa using hb ht
    · by_cases hv' : t = u
      · subst hv'; rw [upd_other _ _ hv, upd_same]; exact hbu ht
      · rw [upd_other _ _ hv, upd_other _ _ hv']; exact h.unborn t ht


theorem upd_eta {α : Type} (f : Nat → α) (i : Nat) : upd f i (f i) = f := by
  funext j; unfold upd; split
  · rename_i h; rw [h]
  · rfl

theorem Sys.set_eta (σ : Sys) (w : Nat) : σ.set w (σ.th w) = σ := by simp [Sys.set, upd_eta]

/-- The fields that a step inside a call leaves alone. -/
theorem TR.frame {s : St} {w : Nat} {x : Thr} {y : STh} (h : TR s w x y) {s' : St} {p : Pc} {c : Option Active} {j : Option Nat}
    (ht : ∀ u, p.tgt = some u → (s'.t u).obj = true ∧ (s'.t u).joiner = some w ∧ u ≠ w)
    (hg : Good s' p x.event x.en c) : TR s' w { x with pc := p, joiner := j } { y with call := c } :=
  ⟨h.lib, h.fin, h.obj, h.pending, h.scopes, h.en, ht, hg⟩

theorem R.goto {s : St} {σ : Sys} (h : R s σ) {w : Nat} {p : Pc} (ht : ∀ u, p.tgt = some u → (s.t w).pc.tgt = some u)
    (hg : Good s p (s.t w).event (s.t w).en (σ.th w).call) : R (s.goto w p) σ := by
  have := h.set1 (w := w) (x := { s.t w with pc := p }) (y := σ.th w) (fun v _ h1 h2 => ⟨h1, h2, id⟩) (fun hb => h.unborn w hb) ?_
  · rw [Sys.set_eta] at this; exact this
  · have hf : ∀ u, ((s.set w { s.t w with pc := p }).t u).obj = (s.t u).obj ∧ ((s.set w { s.t w with pc := p }).t u).joiner = (s.t u).joiner ∧
        ((s.set w { s.t w with pc := p }).t u).fin = (s.t u).fin := by
      intro u
      by_cases hu : u = w
      · subst hu; simp [St.set]
      · simp [St.set, upd_other _ _ hu]
    refine TR.frame (h.th w) (fun u hu => ?_) (hg.congr rfl rfl fun u hu => ?_)
    · rw [(hf u).1, (hf u).2.1]; exact (h.th w).tgt u (ht u hu)
    · rw [(hf u).2.2]; exact id

/-- The end of a call. -/
theorem R.leave {s : St} {σ : Sys} (h : R s σ) {w : Nat} {p : Pc} {tgt : Option Nat} {c : Option Active} (htg : (s.t w).pc.tgt = tgt)
    (hp : p.tgt = none) (hg : ∀ s', s'.now = s.now → s'.user = s.user → Good s' p (s.t w).event (s.t w).en c) :
    R ((s.unuse tgt).goto w p) (σ.set w { σ.th w with call := c }) := by
  cases tgt with
  | none =>
    refine h.set1 (fun v _ h1 h2 => ⟨h1, h2, id⟩) (fun hb => h.unborn w hb) ?_
    exact TR.frame (h.th w) (fun u hu => by rw [hp] at hu; cases hu) (hg _ rfl rfl)
  | some u =>
    have hu := (h.th w).tgt u htg
    have := h.set2 (u := u) (w := w) (x' := { s.t u with joiner := none }) (y' := σ.th u) (x := { s.t w with pc := p }) (y := { σ.th w with call := c }) hu.2.2
      (fun v hv _ _ h2 => by rw [hu.2.1] at h2; cases h2; exact absurd rfl hv) (fun v _ h1 h2 => ⟨h1, h2, id⟩)
      (fun hb => h.unborn u hb) (fun hb => h.unborn w hb) ?_ ?_
    · rw [Sys.set_eta] at this
      simpa [St.unuse, St.goto, St.set, upd_other _ _ (Ne.symm hu.2.2)] using this
    · intro s' h1 h2 h3
      have hx := h.th u
      refine TR.congr (s := s) ⟨hx.lib, hx.fin, hx.obj, hx.pending, hx.scopes, hx.en, hx.tgt, hx.good⟩ h1 h2 fun t g1 g2 g3 => ?_
      rw [h3]
      by_cases htw : t = w
      · subst htw; simp only [upd_same]; exact ⟨g1, g2, id⟩
      · have : t ≠ u := g3
        simp only [upd_other _ _ htw, upd_other _ _ this]; exact ⟨g1, g2, id⟩
    · intro s' h1 h2 h3
      exact TR.frame (h.th w) (fun u hu => by rw [hp] at hu; cases hu) (hg _ h1 h2)

theorem R.call {s : St} {σ : Sys} (h : R s σ) {w : Nat} : Good s (s.t w).pc (s.t w).event (s.t w).en (σ.th w).call := (h.th w).good

/-- A join or a sleep gives up. -/
theorem giveUp_ok {s s' : St} {σ : Sys} (h : R s σ) {w : Nat} {tgt : Option Nat} {es : List Event} {a : Active} (ha : (σ.th w).call = some a)
    (htg : (s.t w).pc.tgt = tgt) (ht : a.call.target = tgt) (hp : a.call ≠ .point) (hm : a.must = false) (hd : a.dl.reached s.now = true)
    (hs : giveUp s w tgt = some (s', es)) : Follows next (R s') σ es := by
  simp only [giveUp, Option.some.injEq, Prod.mk.injEq] at hs
  obtain ⟨rfl, rfl⟩ := hs
  have hl := h.leave (w := w) (p := .idle) (c := none) htg rfl (fun _ _ _ => rfl)
  cases tgt with
  | none =>
    simp only [Follows, next, ha]
    rw [if_pos ⟨ht, hp, by rw [h.now]; exact hd, hm⟩]
    exact hl
  | some u =>
    simp only [Follows, next, ha]
    rw [if_pos ⟨by rw [ht]; rfl, by rw [h.now]; exact hd, hm⟩]
    exact hl

theorem overflow_ok {s s' : St} {σ : Sys} {w : Nat} {tgt : Option Nat} {es : List Event} (hs : overflow s w tgt = some (s', es)) :
    Follows next (R s') σ es := by
  simp only [overflow, Option.some.injEq, Prod.mk.injEq] at hs
  obtain ⟨rfl, rfl⟩ := hs
  simp [Follows, next]

theorem Long.loop {user : Int} {a : Active} {x : Int} {k : Option Int} (h : Long user a x k) : Loop user a k := by
  cases k with
  | none => trivial
  | some t => exact h

theorem Long.mono {user : Int} {a : Active} {x y : Int} {k : Option Int} (h : Long user a x k) (hxy : x ≤ y) : Long user a y k := by
  cases k with
  | none => obtain ⟨t, h1, h2⟩ := h; exact ⟨t, h1, by omega⟩
  | some t => exact h

theorem go_ok {s s' : St} {σ : Sys} {w : Nat} {es : List Event} (h : R s σ) (hs : go s w = some (s', es)) : Follows next (R s') σ es := by
  have hc := h.call (w := w)
  unfold go at hs
  unfold Good at hc
  split at hs
  · cases hs
  · rename_i tgt intr t first hpc
    rw [hpc] at hc
    obtain ⟨a, ha, hcom, ⟨b, hb, hb2⟩, hm⟩ := hc
    split at hs
    · split at hs
      · rename_i hcond
        cases hs
        simp only [Follows]
        refine h.goto (by intro u hu; rw [hpc]; exact hu) ?_
        simp only [Good]
        exact ⟨a, ha, hcom, ⟨b, hb, hb2⟩⟩
      · rename_i hcond
        refine giveUp_ok h ha (by rw [hpc]; rfl) hcom.target hcom.noPoint ?_ ?_ hs
        · cases hmm : a.must with
          | false => rfl
          | true =>
            have := hm hmm
            simp [this.1, this.2] at hcond
        · rw [hb]
          simp only [Deadline.reached]
          apply hb2
          simp only [Bool.or_eq_true, decide_eq_true_eq, not_or] at hcond
          omega
    · exact overflow_ok hs
  · rename_i tgt intr d k hpc
    rw [hpc] at hc
    obtain ⟨a, ha, hcom, hl⟩ := hc
    split at hs
    · cases hs
      simp only [Follows]
      refine h.goto (by intro u hu; rw [hpc]; exact hu) ?_
      simp only [Good]
      exact ⟨a, ha, hcom, hl.loop, (fun e he => by cases he; exact hl), fun h => by cases h⟩
    · exact overflow_ok hs
  · cases hs
  · rename_i tgt intr dl due til k hpc
    rw [hpc] at hc
    obtain ⟨a, ha, hcom, hen, hlp, hdl, hnv, hdue⟩ := hc
    split at hs
    · rename_i hf
      cases hs
      simp only [Follows]
      refine h.goto (by intro u hu; rw [hpc]; exact hu) ?_
      simp only [Good]
      refine ⟨a, ha, hcom, hlp, fun _ => ?_, fun hb => by cases hb⟩
      cases tgt with
      | none => simp [St.signalled] at hf
      | some u => exact ⟨u, rfl, hf⟩
    · split at hs
      · rename_i hie
        simp only [Bool.and_eq_true] at hie
        cases hs
        simp only [Follows]
        have hl := h.leave (w := w) (p := .reset) (tgt := tgt) (c := some a) (by rw [hpc]; rfl) rfl (fun s1 h1 h2 => by
          simp only [Good]
          have hen' := hen hie.1
          have := hcom.same
          rw [hen', hie.1] at this
          exact ⟨a, rfl, by simpa using this, hie.2, hen'⟩)
        rw [← ha, Sys.set_eta] at hl
        exact hl
      · rename_i hnt hnie
        have hmust : a.must = false := by
          cases hmm : a.must with
          | false => rfl
          | true =>
            have := hcom.must hmm
            simp [this.1, this.2.2] at hnie
        split at hs
        · rename_i hd
          cases hs
          simp only [Follows]
          refine h.goto (by intro u hu; rw [hpc]; exact hu) ?_
          simp only [Good]
          refine ⟨a, ha, hcom, hlp, (fun hb => by cases hb), fun _ => ⟨hmust, ?_⟩⟩
          cases due with
          | none => simp [over] at hd
          | some e =>
            simp only [over, decide_eq_true_eq] at hd
            obtain ⟨e', h1, h2⟩ := hdue e rfl
            exact (hdl e' h1).mono (by omega)
        · split at hs
          · split at hs
            · rename_i x
              split at hs
              · split at hs
                · cases hs
                  simp only [Follows]
                  refine h.goto (by intro u hu; rw [hpc]; exact hu) ?_
                  simp only [Good]
                  exact ⟨a, ha, hcom, hen, hlp, hdl, hnv, hdue⟩
                · rename_i hms
                  cases hs
                  simp only [Follows]
                  refine h.goto (by intro u hu; rw [hpc]; exact hu) ?_
                  simp only [Good]
                  refine ⟨a, ha, hcom, hlp, (fun hb => by cases hb), fun _ => ⟨hmust, ?_⟩⟩
                  have := ms_nonpos (x := x - s.now) (by intro h; exact hms (Or.inr h))
                  exact (hdl x rfl).mono (by omega)
              · exact overflow_ok hs
            · cases hs; exact h
          · cases hs
  · rename_i tgt intr b k hpc
    rw [hpc] at hc
    obtain ⟨a, ha, hcom, hlp, htrue, hfalse⟩ := hc
    split at hs
    · rename_i u
      cases hs
      obtain ⟨u', hu', hfin⟩ := htrue rfl
      cases hu'
      have hu := (h.th w).tgt u (by rw [hpc]; rfl)
      simp only [Follows, next, ha, hcom.target]
      rw [if_pos ⟨by rw [(h.th u).fin]; exact hfin, by rw [(h.th u).obj]; exact hu.1, hu.2.2⟩]
      have := h.set2 (u := u) (w := w) (x' := { s.t u with obj := false, joiner := none }) (y' := { σ.th u with obj := false })
        (x := { s.t w with pc := .idle }) (y := { σ.th w with call := none }) hu.2.2
        (fun v hv _ _ h2 => by rw [hu.2.1] at h2; cases h2; exact absurd rfl hv) (fun v _ h1 h2 => ⟨h1, h2, id⟩)
        (fun _ => rfl) (fun hb => h.unborn w hb) ?_ ?_
      · simpa [St.goto, St.set, upd_other _ _ (Ne.symm hu.2.2)] using this
      · intro s' h1 h2 h3
        have hx := h.th u
        refine TR.congr (s := s) ⟨hx.lib, hx.fin, rfl, hx.pending, hx.scopes, hx.en, hx.tgt, hx.good⟩ h1 h2 fun t g1 g2 g3 => ?_
        rw [h3]
        by_cases htw : t = w
        · subst htw; simp only [upd_same]; exact ⟨g1, g2, id⟩
        · simp only [upd_other _ _ htw, upd_other _ _ g3]; exact ⟨g1, g2, id⟩
      · intro s' h1 h2 h3
        exact TR.frame (h.th w) (fun u hu => by cases hu) rfl
    · rename_i hne
      have hb : b = false := by
        cases b with
        | false => rfl
        | true =>
          obtain ⟨u', hu', _⟩ := htrue rfl
          exact absurd rfl (hne u' hu')
      obtain ⟨hm, hl⟩ := hfalse hb
      split at hs
      · refine giveUp_ok h ha (by rw [hpc]; rfl) hcom.target hcom.noPoint hm ?_ hs
        obtain ⟨t, h1, h2⟩ := hl
        rw [h1]; simp [Deadline.reached, h2]
      · cases hs
        simp only [Follows]
        refine h.goto (by intro u hu; rw [hpc]; exact hu) ?_
        simp only [Good]
        exact ⟨a, ha, hcom, hl, fun h => by rw [hm] at h; cases h⟩
  · rename_i hpc
    rw [hpc] at hc
    obtain ⟨a, ha, hi, he, hen⟩ := hc
    cases hs
    simp only [Follows, next, ha]
    have hx := h.th w
    rw [if_pos ⟨hi, by rw [hx.pending]; exact he, by rw [STh.allowed, hx.lib, ← hx.en]; exact hen⟩]
    refine h.set1 (fun v _ h1 h2 => ⟨h1, h2, id⟩) (fun hb => h.unborn w hb) ?_
    exact ⟨hx.lib, hx.fin, hx.obj, rfl, hx.scopes, hx.en, (fun u hu => by cases hu), rfl⟩
  · rename_i hpc
    rw [hpc] at hc
    obtain ⟨a, ha, hi, hm⟩ := hc
    split at hs
    · rename_i hee
      simp only [Bool.and_eq_true] at hee
      cases hs
      simp only [Follows]
      refine h.goto (by intro u hu; cases hu) ?_
      simp only [Good]
      exact ⟨a, ha, by rw [hi]; rfl, hee.2, hee.1⟩
    · rename_i hee
      cases hs
      simp only [Follows, next, ha]
      rw [if_pos ⟨hi, by
        cases hmm : a.must with
        | false => rfl
        | true => have := hm hmm; simp [this.1, this.2] at hee⟩]
      exact h.leave (w := w) (p := .idle) (tgt := none) (c := none) (by rw [hpc]; rfl) rfl (fun _ _ _ => rfl)

theorem arm_ok {s s' : St} {σ : Sys} {w : Nat} {ok : Bool} {es : List Event} (h : R s σ) (hs : armStep s w ok = some (s', es)) :
    Follows next (R s') σ es := by
  have hc := h.call (w := w)
  unfold armStep at hs
  unfold Good at hc
  split at hs
  · rename_i tgt intr dl k hpc
    rw [hpc] at hc
    obtain ⟨a, ha, hcom, hlp, hdl, hnv⟩ := hc
    have hcom' : Com (s.t w).event (s.t w).en tgt (intr && (s.t w).en) a :=
      ⟨hcom.target, hcom.noPoint, by rw [hcom.same]; cases intr <;> cases (s.t w).en <;> rfl,
       fun hm => by have := hcom.must hm; exact ⟨this.1, this.2.1, by rw [this.2.1, this.2.2]; rfl⟩⟩
    have hen : (intr && (s.t w).en) = true → (s.t w).en = true := by intro h; simp only [Bool.and_eq_true] at h; exact h.2
    split at hs
    · cases hs
      simp only [Follows]
      refine h.goto (by intro u hu; rw [hpc]; exact hu) ?_
      simp only [Good]
      exact ⟨a, ha, hcom', hen, hlp, (fun e he => by cases he), (fun _ => hnv rfl), fun e he => by cases he⟩
    · rename_i x
      split at hs
      · split at hs
        · cases hs
          simp only [Follows]
          refine h.goto (by intro u hu; rw [hpc]; exact hu) ?_
          simp only [Good]
          refine ⟨a, ha, hcom', hen, hlp, hdl, hnv, fun e he => ⟨x, rfl, ?_⟩⟩
          cases he
          exact due_ge
        · cases hs
          simp only [Follows]
          refine h.goto (by intro u hu; rw [hpc]; exact hu) ?_
          simp only [Good]
          exact ⟨a, ha, hcom', hen, hlp, hdl, hnv, fun e he => by cases he⟩
      · exact overflow_ok hs
  · cases hs

theorem ScR.length {lib : Bool} : ∀ {xs : List Obj} {ys : List Scope}, ScR lib xs ys → xs.length = ys.length
  | [], [], _ => rfl
  | .dis _ :: xs, .dis :: ys, h => by simp [ScR.length h.2]
  | .res :: xs, .res _ :: ys, h => by simp [ScR.length h.2]
  | [], _ :: _, h => h.elim
  | .dis _ :: _, [], h => h.elim
  | .res :: _, [], h => h.elim
  | .dis _ :: _, .res _ :: _, h => h.elim
  | .res :: _, .dis :: _, h => h.elim

/-- Steps that only change a thread outside of calls. -/
theorem R.own {s : St} {σ : Sys} (h : R s σ) {w : Nat} {x : Thr} {y : STh} (ho : x.obj = (s.t w).obj) (hj : x.joiner = (s.t w).joiner)
    (hf : (s.t w).fin = true → x.fin = true) (hw : ∀ s', s'.now = s.now → s'.user = s.user → x.pc.tgt = none → TR s' w x y) (ht : x.pc = .idle) :
    R (s.set w x) (σ.set w y) :=
  h.set1 (fun v _ h1 h2 => ⟨by rw [ho]; exact h1, by rw [hj]; exact h2, hf⟩) (fun hb => by rw [ho]; exact h.unborn w hb) (hw _ rfl rfl (by rw [ht]; rfl))

theorem R.idle {s : St} {σ : Sys} (h : R s σ) {w : Nat} (hp : (s.t w).pc = .idle) : (σ.th w).call = none := by
  have := (h.th w).good
  rw [hp] at this
  exact this

/-- The relation at the beginning of a call. -/
theorem firstPc_good {s : St} {σ : Sys} (h : R s σ) {w : Nat} (c : Call) (s' : St) (hn : s'.now = s.now) (hu : s'.user = s.user) :
    Good s' (firstPc s.now c) (s.t w).event (s.t w).en
      (some { call := c, dl := c.deadline σ.now σ.user, must := c.strict && (σ.th w).pending && (σ.th w).allowed }) := by
  have hx := h.th w
  have hal : (σ.th w).allowed = (s.t w).en := by rw [STh.allowed, hx.lib, ← hx.en]
  have hmust : ∀ {b : Bool}, (c.strict = true → b = true) → (c.strict && (σ.th w).pending && (σ.th w).allowed) = true →
      (s.t w).event = true ∧ (s.t w).en = true ∧ b = true := by
    intro b hb hm
    rw [hal, hx.pending] at hm
    simp only [Bool.and_eq_true] at hm
    exact ⟨hm.1.2, hm.2, hb hm.1.1⟩
  rw [h.now, h.user]
  cases c with
  | join u =>
    exact ⟨_, rfl, ⟨rfl, by simp, rfl, hmust fun _ => rfl⟩, trivial, (fun e he => by cases he), fun _ => rfl⟩
  | tryJoinUntil u st t =>
    cases st with
    | true => exact ⟨_, rfl, ⟨rfl, by simp, rfl, hmust fun _ => rfl⟩, trivial, (fun e he => by cases he; exact ⟨t, rfl, Int.le_refl t⟩), fun h => by cases h⟩
    | false =>
      refine ⟨_, rfl, ⟨rfl, by simp, rfl, hmust fun _ => rfl⟩, ⟨_, rfl, ?_⟩, fun _ => ⟨rfl, rfl⟩⟩
      rw [hu]; simp
  | tryJoinFor u d => exact ⟨_, rfl, ⟨rfl, by simp, rfl, hmust fun _ => rfl⟩, ⟨_, rfl, by rw [hn]; exact Int.le_refl _⟩⟩
  | sleepFor q d =>
    exact ⟨_, rfl, ⟨rfl, by simp, rfl, hmust fun h => h⟩, ⟨_, rfl, by rw [hn]; exact Int.le_refl _⟩⟩
  | sleepUntil q st t =>
    cases st with
    | true =>
      refine ⟨_, rfl, ⟨rfl, by simp, rfl, hmust fun h => ?_⟩, ⟨_, rfl, by rw [hn]; omega⟩⟩
      simpa [Call.strict] using h
    | false =>
      refine ⟨_, rfl, ⟨rfl, by simp, rfl, ?_⟩, ⟨_, rfl, ?_⟩, ?_⟩
      · simp [Call.strict]
      · rw [hu]; simp
      · simp [Call.strict]
  | point =>
    refine ⟨_, rfl, rfl, fun hm => ?_⟩
    have := hmust (b := true) (fun _ => rfl) hm
    exact ⟨this.1, this.2.1⟩

theorem firstPc_tgt (now : Int) (c : Call) : (firstPc now c).tgt = c.target := by
  cases c with
  | tryJoinUntil u st t => cases st <;> rfl
  | sleepUntil q st t => cases st <;> rfl
  | _ => rfl

theorem begin_ok {s s' : St} {σ : Sys} {w : Nat} {c : Call} {es : List Event} (h : R s σ) (hp : (s.t w).pc = .idle)
    (hs : begin s w c = some (s', es)) : Follows next (R s') σ es := by
  have hcall := h.idle hp
  unfold begin at hs
  split at hs
  · rename_i htg
    have key : Follows next (R (s.goto w (firstPc s.now c))) σ [.called w c] := by
      simp only [Follows, next]
      rw [if_pos ⟨hcall, fun u hu => by rw [htg] at hu; cases hu⟩]
      have := h.leave (w := w) (p := firstPc s.now c) (tgt := none)
        (c := some { call := c, dl := c.deadline σ.now σ.user, must := c.strict && (σ.th w).pending && (σ.th w).allowed })
        (by rw [hp]; rfl) (by rw [firstPc_tgt]; exact htg) (fun s1 h1 h2 => firstPc_good h c s1 h1 h2)
      exact this
    split at hs
    · cases hs; exact key
    · cases hs; simp [Follows, next]
  · rename_i u htg
    split at hs
    · rename_i hobj
      split at hs
      · rename_i huw
        cases hs
        simp only [Follows, next]
        rw [if_pos ⟨huw, by rw [(h.th u).obj]; exact hobj⟩]
        exact h
      · rename_i huw
        split at hs
        · cases hs
        · rename_i hj
          split at hs
          case isFalse => cases hs; simp [Follows, next]
          cases hs
          simp only [Follows, next]
          rw [if_pos ⟨hcall, fun v hv => by
            rw [htg] at hv; cases hv
            exact ⟨huw, by rw [(h.th u).obj]; exact hobj⟩⟩]
          have hj' : (s.t u).joiner = none := by
            cases hjj : (s.t u).joiner with
            | none => rfl
            | some v => simp [hjj] at hj
          have := h.set2 (u := u) (w := w) (x' := { s.t u with joiner := some w }) (y' := σ.th u) (x := { s.t w with pc := firstPc s.now c })
            (y := { σ.th w with call := some { call := c, dl := c.deadline σ.now σ.user, must := c.strict && (σ.th w).pending && (σ.th w).allowed } }) huw
            (fun v hv _ _ h2 => by rw [hj'] at h2; cases h2) (fun v _ h1 h2 => ⟨h1, h2, id⟩)
            (fun hb => h.unborn u hb) (fun hb => h.unborn w hb) ?_ ?_
          · rw [Sys.set_eta] at this
            simpa [St.goto, St.set, upd_other _ _ (Ne.symm huw)] using this
          · intro s' h1 h2 h3
            have hx := h.th u
            refine TR.congr (s := s) ⟨hx.lib, hx.fin, hx.obj, hx.pending, hx.scopes, hx.en, hx.tgt, hx.good⟩ h1 h2 fun t g1 g2 g3 => ?_
            rw [h3]
            by_cases htw : t = w
            · subst htw; simp only [upd_same]; exact ⟨g1, g2, id⟩
            · simp only [upd_other _ _ htw, upd_other _ _ g3]; exact ⟨g1, g2, id⟩
          · intro s' h1 h2 h3
            refine TR.frame (h.th w) (fun v hv => ?_) (firstPc_good h c s' h1 h2)
            rw [firstPc_tgt, htg] at hv
            cases hv
            rw [h3]
            simp only [upd_other _ _ huw, upd_same]
            exact ⟨hobj, trivial, huw⟩
    · rename_i hobj
      cases hs
      simp only [Follows, next]
      rw [if_pos (by rw [(h.th u).obj]; simpa using hobj)]
      exact h

/-- Time passes. -/
theorem Good.tick {s : St} {pc : Pc} {ev en : Bool} {c : Option Active} (h : Good s pc ev en c) (d : Nat) (user : Int) :
    Good { s with now := s.now + d, user := user } pc ev en (c.map fun a => { a with dl := a.dl.look user }) := by
  have hloop : ∀ {a : Active} {k : Option Int}, Loop s.user a k → Loop user { a with dl := a.dl.look user } k := by
    intro a k hl
    cases k with
    | none => trivial
    | some t =>
      obtain ⟨b, h1, h2⟩ := hl
      exact ⟨b || decide (t ≤ user), by simp [h1, Deadline.look], fun ht => by simp [ht]⟩
  have hlong : ∀ {a : Active} {x y : Int} {k : Option Int}, Long s.user a x k → x ≤ y → Long user { a with dl := a.dl.look user } y k := by
    intro a x y k hl hxy
    cases k with
    | none => obtain ⟨t, h1, h2⟩ := hl; exact ⟨t, by simp [h1, Deadline.look], by omega⟩
    | some t =>
      obtain ⟨b, h1, h2⟩ := hl
      exact ⟨b || decide (t ≤ user), by simp [h1, Deadline.look], fun ht => by simp [ht]⟩
  have hcom : ∀ {a : Active} {tgt : Option Nat} {intr : Bool}, Com ev en tgt intr a → Com ev en tgt intr { a with dl := a.dl.look user } :=
    fun h => ⟨h.target, h.noPoint, h.same, h.must⟩
  unfold Good at h ⊢
  split at h <;> rename_i hpc
  · rw [h]; rfl
  · obtain ⟨a, rfl, h1, h2, h3⟩ := h
    exact ⟨_, rfl, hcom h1, hloop h2, h3⟩
  · obtain ⟨a, rfl, h1, h2⟩ := h
    exact ⟨_, rfl, hcom h1, hlong h2 (by show _ ≤ s.now + d + _; omega)⟩
  · obtain ⟨a, rfl, h1, h2, h3, h4⟩ := h
    exact ⟨_, rfl, hcom h1, hloop h2, fun e he => hlong (h3 e he) (Int.le_refl _), fun hd => by simp [h4 hd, Deadline.look]⟩
  · obtain ⟨a, rfl, h1, h2, h3, h4, h5, h6⟩ := h
    exact ⟨_, rfl, hcom h1, h2, hloop h3, fun e he => hlong (h4 e he) (Int.le_refl _), fun hd => by simp [h5 hd, Deadline.look], h6⟩
  · obtain ⟨a, rfl, h1, h2, h3, h4⟩ := h
    exact ⟨_, rfl, hcom h1, hloop h2, h3, fun hb => ⟨(h4 hb).1, hlong (h4 hb).2 (by show _ ≤ s.now + d; omega)⟩⟩
  · obtain ⟨a, rfl, h1, h2, h3⟩ := h
    exact ⟨_, rfl, h1, h2, h3⟩
  · obtain ⟨a, rfl, h1, h2⟩ := h
    exact ⟨_, rfl, h1, h2⟩

theorem Good.interrupt {s : St} {pc : Pc} {ev en : Bool} {c : Option Active} (h : Good s pc ev en c) : Good s pc true en c := by
  have hcom : ∀ {a : Active} {tgt : Option Nat} {intr : Bool}, Com ev en tgt intr a → Com true en tgt intr a :=
    fun h => ⟨h.target, h.noPoint, h.same, fun hm => ⟨rfl, (h.must hm).2⟩⟩
  unfold Good at h ⊢
  split at h
  · exact h
  · obtain ⟨a, h0, h1, h2⟩ := h; exact ⟨a, h0, hcom h1, h2⟩
  · obtain ⟨a, h0, h1, h2⟩ := h; exact ⟨a, h0, hcom h1, h2⟩
  · obtain ⟨a, h0, h1, h2⟩ := h; exact ⟨a, h0, hcom h1, h2⟩
  · obtain ⟨a, h0, h1, h2⟩ := h; exact ⟨a, h0, hcom h1, h2⟩
  · obtain ⟨a, h0, h1, h2⟩ := h; exact ⟨a, h0, hcom h1, h2⟩
  · obtain ⟨a, h0, h1, h2, h3⟩ := h; exact ⟨a, h0, h1, rfl, h3⟩
  · obtain ⟨a, h0, h1, h2⟩ := h; exact ⟨a, h0, h1, fun hm => ⟨rfl, (h2 hm).2⟩⟩

theorem step_ok {s s' : St} {l : Label} {es : List Event} {σ : Sys} (h : R s σ) (hs : step s l = some (s', es)) : Follows next (R s') σ es := by
  cases l with
  | start w =>
    simp only [step] at hs
    split at hs
    · cases hs
      simp only [Follows, next]
      rw [if_pos h.n.symm]
      have hx := h.unborn s.n (Nat.le_refl _)
      refine ⟨by show σ.n + 1 = s.n + 1; rw [h.n], h.now, h.user, fun v => ?_, fun u hu => ?_⟩
      · by_cases hv : v = s.n
        · subst hv
          simp only [St.set, Sys.set, upd_same]
          exact ⟨rfl, rfl, rfl, rfl, trivial, rfl, (fun u hu => by cases hu), rfl⟩
        · simp only [St.set, Sys.set, upd_other _ _ hv]
          refine (h.th v).congr rfl rfl fun u h1 h2 h3 => ?_
          have : u ≠ s.n := by intro hu; subst hu; rw [hx] at h1; cases h1
          simp only [upd_other _ _ this]
          exact ⟨h1, h2, id⟩
      · have hu' : s.n + 1 ≤ u := hu
        simp only [St.set, upd_other _ _ (show u ≠ s.n by omega)]
        exact h.unborn u (by omega)
    · cases hs
  | finish w =>
    simp only [step] at hs
    split at hs
    · rename_i hp
      cases hs
      simp only [Follows, next]
      rw [if_pos (h.idle hp)]
      have hx := h.th w
      exact h.own rfl rfl (fun _ => rfl) (fun s' h1 h2 h3 => ⟨hx.lib, rfl, hx.obj, hx.pending, hx.scopes, hx.en, (fun u hu => by rw [h3] at hu; cases hu),
        by simp only [hp, h.idle hp]; rfl⟩) hp
    · cases hs
  | call w c =>
    simp only [step] at hs
    split at hs
    · rename_i hp
      exact begin_ok h hp.1 hs
    · cases hs
  | go w => exact go_ok h hs
  | arm w ok => exact arm_ok h hs
  | detach w u =>
    simp only [step] at hs
    split at hs
    · rename_i hp
      cases hs
      simp only [Follows, next]
      have hx := h.th u
      refine h.set1 (fun v _ _ h2 => by rw [hp.2] at h2; cases h2) (fun _ => rfl) ?_
      refine TR.congr (s := s) ⟨hx.lib, hx.fin, rfl, hx.pending, hx.scopes, hx.en, hx.tgt, hx.good⟩ rfl rfl fun t g1 g2 g3 => ?_
      simp only [St.set, upd_other _ _ g3]; exact ⟨g1, g2, id⟩
    · cases hs
  | joinable w u =>
    simp only [step] at hs
    split at hs
    · cases hs
      simp only [Follows, next, (h.th u).obj, if_pos]
      exact h
    · cases hs
  | interrupt w u =>
    simp only [step] at hs
    split at hs
    · split at hs
      · rename_i ho
        cases hs
        simp only [Follows, next, (h.th u).obj, if_pos ho]
        have hx := h.th u
        refine h.set1 (fun v _ h1 h2 => ⟨h1, h2, id⟩) (fun hb => h.unborn u hb) ?_
        refine TR.congr (s := s) ⟨hx.lib, hx.fin, by rw [ho], rfl, hx.scopes, hx.en, hx.tgt, ?_⟩ rfl rfl fun t g1 g2 g3 => ?_
        · exact hx.good.interrupt
        · simp only [St.set, upd_other _ _ g3]; exact ⟨g1, g2, id⟩
      · rename_i ho
        cases hs
        simp only [Follows, next, (h.th u).obj, if_neg ho]
        exact h
    · cases hs
  | asked w u =>
    simp only [step] at hs
    split at hs
    · cases hs
      simp only [Follows, next, (h.th u).obj, (h.th u).pending, if_pos]
      exact h
    · cases hs
  | requested w =>
    simp only [step] at hs
    split at hs
    · cases hs
      simp only [Follows, next, (h.th w).pending, if_pos]
      exact h
    · cases hs
  | enabled w =>
    simp only [step] at hs
    split at hs
    · cases hs
      simp only [Follows, next, STh.allowed, (h.th w).lib, ← (h.th w).en, if_pos]
      exact h
    · cases hs
  | disable w =>
    simp only [step] at hs
    split at hs
    · rename_i hp
      cases hs
      simp only [Follows, next]
      have hx := h.th w
      refine h.own rfl rfl id (fun s' h1 h2 h3 => ⟨hx.lib, hx.fin, hx.obj, hx.pending, ⟨hx.en, hx.scopes⟩, ?_, (fun u hu => by rw [h3] at hu; cases hu),
        by simp only [hp, h.idle hp]; rfl⟩) hp
      cases (s.t w).en <;> rfl
    · cases hs
  | restore w i =>
    simp only [step] at hs
    split at hs
    · rename_i hp
      split at hs
      · rename_i was hi
        cases hs
        have hx := h.th w
        simp only [Follows, next]
        split
        · rename_i heq
          split at heq
          · rename_i r hr
            cases heq
            have hsc := hx.scopes
            rw [hr] at hsc
            cases hob : (s.t w).objs with
            | nil => rw [hob] at hi; simp at hi
            | cons o os =>
              rw [hob] at hi hsc
              simp only [List.getElem?_cons_zero, Option.some.injEq] at hi
              subst hi
              have hen := hx.en
              rw [hr] at hen
              refine h.own rfl rfl id (fun s' h1 h2 h3 => ⟨hx.lib, hx.fin, hx.obj, hx.pending, ?_, ?_, (fun u hu => by rw [h3] at hu; cases hu),
                by simp only [hp, h.idle hp]; rfl⟩) hp
              · exact ⟨⟨r, rfl⟩, hsc⟩
              · have hen2 : (s.t w).en = false := hen
                show (if was then true else (s.t w).en) = allowed (σ.th w).lib r
                rw [hen2, hsc.1, hx.lib]
                cases allowed (s.t w).lib r <;> rfl
          · cases heq
        · trivial
        · rename_i heq
          split at heq <;> cases heq
      · cases hs
    · cases hs
  | close w =>
    simp only [step] at hs
    split at hs
    · rename_i hp
      have hx := h.th w
      have hsc := hx.scopes
      split at hs
      · rename_i was r ho
        cases hs
        rw [ho] at hsc
        cases hy : (σ.th w).scopes with
        | nil => rw [hy] at hsc; exact hsc.elim
        | cons y ys =>
          rw [hy] at hsc
          cases y with
          | res b => exact hsc.elim
          | dis =>
            simp only [Follows, next, hy]
            exact h.own rfl rfl id (fun s' h1 h2 h3 => ⟨hx.lib, hx.fin, hx.obj, hx.pending, hsc.2, hsc.1, (fun u hu => by rw [h3] at hu; cases hu),
              by simp only [hp, h.idle hp]; rfl⟩) hp
      · rename_i r ho
        cases hs
        rw [ho] at hsc
        cases hy : (σ.th w).scopes with
        | nil => rw [hy] at hsc; exact hsc.elim
        | cons y ys =>
          rw [hy] at hsc
          cases y with
          | dis => exact hsc.elim
          | res b =>
            obtain ⟨⟨r'', rfl⟩, hsc2⟩ := hsc
            simp only [Follows, next, hy]
            exact h.own rfl rfl id (fun s' h1 h2 h3 => ⟨hx.lib, hx.fin, hx.obj, hx.pending, hsc2, rfl, (fun u hu => by rw [h3] at hu; cases hu),
              by simp only [hp, h.idle hp]; rfl⟩) hp
      · cases hs
    · cases hs
  | tick d user =>
    simp only [step] at hs
    cases hs
    simp only [Follows, next, h.now]
    rw [if_pos (by omega)]
    refine ⟨h.n, rfl, rfl, fun w => ?_, h.unborn⟩
    have hx := h.th w
    exact ⟨hx.lib, hx.fin, hx.obj, hx.pending, hx.scopes, hx.en, hx.tgt, hx.good.tick d user⟩

theorem R_init (n : Nat) (now user : Int) : R (init n now user) (specInit n now user) :=
  ⟨rfl, rfl, rfl, fun _ => ⟨rfl, rfl, rfl, rfl, trivial, rfl, (fun u hu => by cases hu), rfl⟩, fun _ _ => rfl⟩

end Verif.WinThread
