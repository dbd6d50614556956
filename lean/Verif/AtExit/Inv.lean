import Verif.AtExit.Model
/-! # Invariants of the model of the end of a thread -/

namespace Verif.AtExit

set_option linter.unusedSimpArgs false

theorem askedNotify_append (u : Nat) (a b : List Event) : askedNotify u (a ++ b) = askedNotify u a ++ askedNotify u b := by
  induction a with
  | nil => rfl
  | cons e a ih => cases e <;> simp only [List.cons_append, askedNotify, ih] <;> split <;> rfl

theorem askedReady_append (u : Nat) (a b : List Event) : askedReady u (a ++ b) = askedReady u a ++ askedReady u b := by
  induction a with
  | nil => rfl
  | cons e a ih => cases e <;> simp only [List.cons_append, askedReady, ih] <;> split <;> rfl

theorem effects_append (u : Nat) (a b : List Event) : effects u (a ++ b) = effects u a ++ effects u b := by
  induction a with
  | nil => rfl
  | cons e a ih => cases e <;> simp only [List.cons_append, effects, ih] <;> split <;> rfl

theorem begun_append (u : Nat) (a b : List Event) : begun u (a ++ b) = begun u a + begun u b := by
  induction a with
  | nil => simp [begun]
  | cons e a ih => cases e <;> simp only [List.cons_append, begun, ih] <;> omega

theorem dropped_append (u : Nat) (a b : List Event) : dropped u (a ++ b) = dropped u a + dropped u b := by
  induction a with
  | nil => simp [dropped]
  | cons e a ih => cases e <;> simp only [List.cons_append, dropped, ih] <;> omega

theorem returned_append (u : Nat) (a b : List Event) : returned u (a ++ b) = returned u a + returned u b := by
  induction a with
  | nil => simp [returned]
  | cons e a ih => cases e <;> simp only [List.cons_append, returned, ih] <;> omega

/-- The call in which a reference to `u` was given up has not returned. -/
def retting (u : Nat) : Pc → Bool
  | .dtor _ (.ret v) => v == u
  | .fin (.ret v) => v == u
  | _ => false

/-- How many such calls. -/
def pending (u : Nat) (pc : Nat → Pc) (n : Nat) : Nat := (List.range n).countP fun w => retting u (pc w)

theorem countP_upd {α : Type} (f : α → Bool) (g : Nat → α) (n w : Nat) (a : α) (h : w < n) :
    (List.range n).countP (fun i => f (upd g w a i)) + (if f (g w) then 1 else 0) =
      (List.range n).countP (fun i => f (g i)) + (if f a then 1 else 0) := by
  induction n with
  | zero => omega
  | succ n ih =>
    simp only [List.range_succ, List.countP_append, List.countP_cons, List.countP_nil]
    by_cases hw : w = n
    · subst hw
      have : (List.range w).countP (fun i => f (upd g w a i)) = (List.range w).countP (fun i => f (g i)) := by
        apply List.countP_congr
        intro x hx
        have : x ≠ w := by have := List.mem_range.mp hx; omega
        simp [upd, this]
      rw [this]
      simp only [upd, if_true]
      omega
    · have := ih (by omega)
      have h2 : (upd g w a) n = g n := by simp [upd, Ne.symm hw]
      simp only [h2]
      omega

theorem pending_upd (u : Nat) (pc : Nat → Pc) (n w : Nat) (a : Pc) (h : w < n) :
    pending u (upd pc w a) n + (if retting u (pc w) then 1 else 0) = pending u pc n + (if retting u a then 1 else 0) :=
  countP_upd (retting u) pc n w a h

theorem pending_pos {u : Nat} {pc : Nat → Pc} {n w : Nat} (h : w < n) (hw : retting u (pc w) = true) : 0 < pending u pc n := by
  rw [pending, List.countP_pos_iff]
  exact ⟨w, List.mem_range.mpr h, hw⟩

theorem pending_succ (u : Nat) (pc : Nat → Pc) (n : Nat) (a : Pc) (h : retting u a = false) :
    pending u (upd pc n a) (n + 1) = pending u pc n := by
  simp only [pending, List.range_succ, List.countP_append, List.countP_cons, List.countP_nil, upd, if_true, h]
  have : (List.range n).countP (fun i => retting u (if i = n then a else pc i)) = (List.range n).countP (fun i => retting u (pc i)) := by
    apply List.countP_congr
    intro x hx
    have : x ≠ n := by have := List.mem_range.mp hx; omega
    simp [this]
  simp only [this]
  rfl

/-- What is known of the data of a thread and of the history of the thread. -/
structure DInv (u : Nat) (x : Data) (h : List Event) : Prop where
  asked1 : x.lib = true → askedNotify u h = x.notify.flatMap (fun y => [Eff.unlock y.2, .notify y.1])
  asked2 : x.lib = true → askedReady u h = x.states.map .ready
  none' : x.left = none → effects u h = []
  some' : ∀ js, x.left = some js → effects u h ++ js = jobs x
  free' : x.lib = true → (x.left = none ↔ x.free = false)
  refs : begun u h = dropped u h + (if x.obj then 1 else 0) + x.copies
  ext : x.lib = false → x.obj = false ∧ x.copies = 0
  own : x.lib = true → x.own = false → Event.finish u ∈ h
  lib' : created u h ↔ x.lib = true

structure Inv (s : St) (h : List Event) : Prop where
  data : ∀ u, DInv u (s.d u) h
  born : ∀ u, u < s.n ↔ s.pc u ≠ .unborn
  fresh : ∀ u, s.n ≤ u → s.d u = Data.external ∧ askedNotify u h = [] ∧ askedReady u h = [] ∧ begun u h = 0 ∧ Event.finish u ∉ h ∧ Event.gone u ∉ h
  /-- a thread that executes client code, or calls made by it, has its reference -/
  live : ∀ u, (s.d u).lib = true → (s.d u).own = false → s.pc u = .gone ∨ s.pc u = .fin .bye ∨ ∃ v, s.pc u = .dtor v .bye
  hold : ∀ u, (s.d u).lib = true → (s.d u).own = true → (s.d u).set = true ∧ s.pc u ≠ .gone ∧ s.pc u ≠ .fin .bye ∧ (∀ v, s.pc u ≠ .dtor v .bye)
  rets : ∀ u, dropped u h = returned u h + pending u s.pc s.n
  /-- who executes the destructor -/
  exec : ∀ x v k, s.pc x = .dtor v k → k = .ret v ∨ (k = .bye ∧ v = x)
  busy : ∀ u f js, (s.d u).left = some (f :: js) → ∃ x k, x < s.n ∧ s.pc x = .dtor u k
  gone : ∀ u, Event.gone u ∈ h → s.pc u = .gone

theorem created_append {u : Nat} {h es : List Event} (he : ∀ w, Event.start w u ∉ es) : created u (h ++ es) ↔ created u h := by
  constructor
  · rintro ⟨w, hw⟩
    rcases List.mem_append.mp hw with hw | hw
    · exact ⟨w, hw⟩
    · exact absurd hw (he w)
  · rintro ⟨w, hw⟩
    exact ⟨w, List.mem_append_left _ hw⟩

/-- Events that say nothing about requests, references and effects of `u`. -/
def quiet (u : Nat) : Event → Bool
  | .start _ v | .copied _ v | .drop _ v | .reg v _ _ | .stored v _ _ | .eff _ v _ => v != u
  | _ => true

theorem quiet_facts {u : Nat} {es : List Event} (h : ∀ e ∈ es, quiet u e = true) :
    askedNotify u es = [] ∧ askedReady u es = [] ∧ effects u es = [] ∧ begun u es = 0 ∧ dropped u es = 0 ∧ ∀ w, Event.start w u ∉ es := by
  induction es with
  | nil => simp [askedNotify, askedReady, effects, begun, dropped]
  | cons e es ih =>
    obtain ⟨a, b, c, d, f, g⟩ := ih fun e he => h e (List.mem_cons_of_mem _ he)
    have hq := h e (List.mem_cons_self ..)
    clear h ih
    cases e <;> simp only [AtExit.quiet, bne_iff_ne, ne_eq] at hq <;>
      simp [askedNotify, askedReady, effects, begun, dropped, hq, a, b, c, d, f, g]
    grind

theorem DInv.quiet {u : Nat} {x : Data} {h es : List Event} (hx : DInv u x h) (he : ∀ e ∈ es, quiet u e = true) : DInv u x (h ++ es) := by
  obtain ⟨a, b, c, d, f, g⟩ := quiet_facts he
  exact
    { asked1 := by rw [askedNotify_append, a, List.append_nil]; exact hx.asked1
      asked2 := by rw [askedReady_append, b, List.append_nil]; exact hx.asked2
      none' := by rw [effects_append, c, List.append_nil]; exact hx.none'
      some' := by rw [effects_append, c, List.append_nil]; exact hx.some'
      free' := hx.free'
      refs := by rw [begun_append, dropped_append, d, f]; exact hx.refs
      ext := hx.ext
      own := fun h1 h2 => List.mem_append_left _ (hx.own h1 h2)
      lib' := (created_append g).trans hx.lib' }

/-- The data changes in a way that concerns none of this. -/
theorem DInv.congr {u : Nat} {x y : Data} {h : List Event} (hx : DInv u x h) (h1 : y.lib = x.lib) (h2 : y.notify = x.notify)
    (h3 : y.states = x.states) (h4 : y.left = x.left) (h5 : x.lib = true → y.own = x.own) (h6 : y.obj = x.obj) (h7 : y.copies = x.copies) : DInv u y h := by
  have hj : jobs y = jobs x := by simp only [jobs, h1, h2, h3]
  exact
    { asked1 := by rw [h1, h2]; exact hx.asked1
      asked2 := by rw [h1, h3]; exact hx.asked2
      none' := by rw [h4]; exact hx.none'
      some' := by rw [h4, hj]; exact hx.some'
      free' := by
        intro hl
        rw [h1] at hl
        rw [h4, Data.free, h5 hl, h6, h7]
        exact hx.free' hl
      refs := by rw [h6, h7]; exact hx.refs
      ext := by rw [h1, h6, h7]; exact hx.ext
      own := fun a b => hx.own (h1 ▸ a) (by rw [← h5 (h1 ▸ a)]; exact b)
      lib' := by rw [h1]; exact hx.lib' }

theorem inv_init (n : Nat) : Inv (init n) [] where
  data u := by
    constructor <;> simp [init, Data.external, askedNotify, askedReady, effects, begun, dropped, jobs, created]
  born u := by simp only [init]; split <;> simp_all
  fresh u hu := by simp [init, askedNotify, askedReady, begun]
  live u hl := by simp [init, Data.external] at hl
  hold u hl := by simp [init, Data.external] at hl
  rets u := by
    simp only [dropped, returned, pending, Nat.zero_add]
    symm
    rw [List.countP_eq_zero]
    intro x hx
    simp only [init]
    split <;> simp [retting]
  exec x v k hx := by simp only [init] at hx; split at hx <;> cases hx
  busy u f js hl := by simp [init, Data.external] at hl
  gone u hu := by cases hu

end Verif.AtExit
