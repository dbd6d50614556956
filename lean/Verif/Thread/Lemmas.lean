import Verif.Thread.Spec
/-!
# Invariants of threads
-/

namespace Verif.Thread

@[grind =] theorem upd_apply {α : Type} (f : Nat → α) (i : Nat) (x : α) (j : Nat) : upd f i x j = if j = i then x else f j := rfl
@[grind =] theorem setPc_thr (s : State) (c : Nat) (p : PC) (i : Nat) : (s.setPc c p).thr i = if i = c then { s.thr c with pc := p } else s.thr i := rfl
@[grind =] theorem setPc_objs (s : State) (c : Nat) (p : PC) : (s.setPc c p).objs = s.objs := rfl
@[grind =] theorem setPc_n (s : State) (c : Nat) (p : PC) : (s.setPc c p).n = s.n := rfl
@[grind =] theorem notify_thr (s : State) (t i : Nat) : (s.notify t).thr i = { s.thr i with pc := (s.thr i).pc.wake t } := rfl
@[grind =] theorem notify_objs (s : State) (t : Nat) : (s.notify t).objs = s.objs := rfl
@[grind =] theorem notify_n (s : State) (t : Nat) : (s.notify t).n = s.n := rfl

/-- The thread this one is joining at the operating system. -/
def PC.joiner : PC → Option Nat
  | .nat _ t => some t
  | .setJ _ t => some t
  | _ => none

/-- The thread a call is about. -/
def PC.tgt : PC → Option Nat
  | .enter _ t _ => some t
  | .wDone _ t _ _ => some t
  | .wJoined _ t _ => some t
  | .nat _ t => some t
  | .setJ _ t => some t
  | .fin _ t => some t
  | .det t => some t
  | .detA t _ _ => some t
  | _ => none

/-- What a thread at `p` relies on. -/
def PcOk (s : State) : PC → Prop
  | .wDone _ t _ w => w = false → (s.thr t).isDone = false
  | .wJoined _ t w => (s.thr t).joinStarted = true ∧ (s.thr t).isDone = true ∧ (w = false → (s.thr t).joined = false)
  | .nat _ t => (s.thr t).joinStarted = true ∧ (s.thr t).joined = false ∧ (s.thr t).isDone = true ∧ (s.thr t).native = false
  | .setJ _ t => (s.thr t).joinStarted = true ∧ (s.thr t).joined = false ∧ (s.thr t).isDone = true ∧ (s.thr t).native = true
  | .fin _ t => (s.thr t).joined = true ∧ (s.thr t).isDone = true
  | _ => True

structure Inv (s : State) : Prop where
  objs : ∀ o t, s.objs o = some t → t < s.n
  tgt : ∀ c t, (s.thr c).pc.tgt = some t → t < s.n
  fresh : ∀ i, s.n ≤ i → s.thr i = {}
  ok : ∀ c, PcOk s (s.thr c).pc
  uniq : ∀ c c' t, (s.thr c).pc.joiner = some t → (s.thr c').pc.joiner = some t → c = c'
  joiner : ∀ t, (s.thr t).joinStarted = true → (s.thr t).joined = false → ∃ c, (s.thr c).pc.joiner = some t
  ns : ∀ t, (s.thr t).joinStarted = false → (s.thr t).native = false ∧ (s.thr t).joined = false
  jd : ∀ t, (s.thr t).joined = true → (s.thr t).native = true
  run : ∀ c, (s.thr c).pc ≠ .idle → (s.thr c).phase = .running
  n0 : 0 < s.n

theorem Inv_init : Inv {} := by
  constructor <;> intros <;> simp_all [PC.tgt, PcOk, PC.joiner] <;> grind [PC.tgt, PcOk, PC.joiner]

/-- Moving one thread. -/
theorem Inv.move {s : State} {c : Nat} {p : PC} (h : Inv s) (hr : p ≠ .idle → (s.thr c).phase = .running) (hok : PcOk s p) (ht : ∀ t, p.tgt = some t → t < s.n)
    (hc : c < s.n) (hj : (s.thr c).pc.joiner = none) (hj' : p.joiner = none) : Inv (s.setPc c p) := by
  obtain ⟨a1, a2, a3, a4, a5, a6, a7, a8, a9, a10⟩ := h
  have e : ∀ q, PcOk (s.setPc c p) q ↔ PcOk s q := by
    intro q; cases q <;> simp only [PcOk, State.setPc, upd, Thr.isDone] <;> grind
  constructor
  · exact a1
  · grind
  · grind
  · grind
  · grind
  · intro t h1 h2
    have : (s.thr t).joinStarted = true ∧ (s.thr t).joined = false := by grind
    obtain ⟨c', hc'⟩ := a6 t this.1 this.2
    exact ⟨c', by grind⟩
  · grind
  · grind
  · grind
  · exact a10

theorem Inv.lt {s : State} {c : Nat} (h : Inv s) (hp : (s.thr c).phase = .running) : c < s.n := by
  apply Nat.lt_of_not_le
  intro hc
  rw [h.fresh c hc] at hp; cases hp

theorem Inv.lt' {s : State} {c : Nat} (h : Inv s) (hp : (s.thr c).pc ≠ .idle) : c < s.n := h.lt (h.run c hp)

/-- A change of the objects only. -/
theorem Inv.objects {s : State} {f : Nat → Option Nat} (h : Inv s) (hf : ∀ o t, f o = some t → t < s.n) : Inv { s with objs := f } := by
  obtain ⟨a1, a2, a3, a4, a5, a6, a7, a8, a9, a10⟩ := h
  exact ⟨hf, a2, a3, fun c => by have := a4 c; revert this; cases (s.thr c).pc <;> exact id, a5, a6, a7, a8, a9, a10⟩

attribute [grind] PC.joiner PC.tgt PC.wake

theorem Inv.startJoin {s : State} {c o t : Nat} (h : Inv s) (hp : (s.thr c).phase = .running) (hj : (s.thr c).pc.joiner = none) (ht : t < s.n)
    (hd : (s.thr t).isDone = true) (hs : (s.thr t).joinStarted = false) :
    Inv ({ s with thr := upd s.thr t { s.thr t with joinStarted := true } }.setPc c (.nat o t)) := by
  have hc := h.lt hp
  obtain ⟨a1, a2, a3, a4, a5, a6, a7, a8, a9, a10⟩ := h
  have hn := a7 t hs
  constructor
  · exact a1
  · grind
  · grind
  · intro c'
    have := a4 c'
    by_cases e : c' = c
    · subst e; simp only [setPc_thr, if_true, PcOk, upd_apply, Thr.isDone] at *; grind
    · have hpc' : (({ s with thr := upd s.thr t { s.thr t with joinStarted := true } }.setPc c (.nat o t)).thr c').pc = (s.thr c').pc := by grind
      rw [hpc']
      clear hpc' a1 a2 a3 a4 a5 a6 a7 a8 a9 a10
      revert this
      cases (s.thr c').pc <;> simp only [PcOk, setPc_thr, upd_apply, Thr.isDone] <;> grind
  · intro c₁ c₂ u h1 h2
    have hno : ∀ c', (s.thr c').pc.joiner ≠ some t := by
      intro c' hj'
      have := a4 c'
      revert this hj'
      cases (s.thr c').pc <;> simp [PC.joiner, PcOk] <;> (rintro rfl; simp [hs])
    grind
  · intro u h1 h2
    by_cases e : u = t
    · exact ⟨c, by grind⟩
    · have : (s.thr u).joinStarted = true ∧ (s.thr u).joined = false := by grind
      obtain ⟨c', hc'⟩ := a6 u this.1 this.2
      exact ⟨c', by grind⟩
  · grind
  · grind
  · grind
  · exact a10

theorem Inv.natJoin {s : State} {c o t : Nat} (h : Inv s) (hp : (s.thr c).pc = .nat o t) :
    Inv ({ s with thr := upd s.thr t { s.thr t with native := true } }.setPc c (.setJ o t)) := by
  have hc := h.lt' (c := c) (by rw [hp]; simp)
  have ht := h.tgt c t (by rw [hp]; rfl)
  obtain ⟨a1, a2, a3, a4, a5, a6, a7, a8, a9, a10⟩ := h
  have hk := a4 c
  rw [hp] at hk
  have hrun := a9 c (by rw [hp]; simp)
  constructor
  · exact a1
  · grind
  · grind
  · intro c'
    have := a4 c'
    by_cases e : c' = c
    · subst e; simp only [setPc_thr, if_true, PcOk, upd_apply, Thr.isDone] at *; grind
    · have hu : (s.thr c').pc.joiner ≠ some t := fun hh => e (a5 c' c t hh (by rw [hp]; rfl))
      have hpc' : (({ s with thr := upd s.thr t { s.thr t with native := true } }.setPc c (.setJ o t)).thr c').pc = (s.thr c').pc := by grind
      rw [hpc']
      clear hpc' a1 a2 a3 a4 a5 a6 a7 a8 a9 a10
      revert this hu
      cases (s.thr c').pc <;> simp only [PcOk, PC.joiner, setPc_thr, upd_apply, Thr.isDone] <;> grind
  · grind
  · intro u h1 h2
    have : (s.thr u).joinStarted = true ∧ (s.thr u).joined = false := by grind
    obtain ⟨c', hc'⟩ := a6 u this.1 this.2
    exact ⟨c', by grind⟩
  · simp only [PcOk] at hk; grind
  · grind
  · grind
  · exact a10

theorem wake_joiner (t : Nat) (p : PC) : (p.wake t).joiner = p.joiner := by cases p <;> rfl
theorem wake_tgt (t : Nat) (p : PC) : (p.wake t).tgt = p.tgt := by cases p <;> rfl
theorem wake_idle (t : Nat) (p : PC) : p.wake t = .idle ↔ p = .idle := by cases p <;> simp [PC.wake]

theorem Inv.setJoined {s : State} {c o t : Nat} (h : Inv s) (hp : (s.thr c).pc = .setJ o t) :
    Inv (({ s with thr := upd s.thr t { s.thr t with joined := true } }.notify t).setPc c (.fin o t)) := by
  have hc := h.lt' (c := c) (by rw [hp]; simp)
  have ht := h.tgt c t (by rw [hp]; rfl)
  obtain ⟨a1, a2, a3, a4, a5, a6, a7, a8, a9, a10⟩ := h
  have hk := a4 c
  rw [hp] at hk
  simp only [PcOk] at hk
  have hrun := a9 c (by rw [hp]; simp)
  constructor
  · exact a1
  · intro c' u hu
    simp only [setPc_thr, notify_thr, upd_apply, setPc_n, notify_n] at hu ⊢
    split at hu
    · grind
    · split at hu <;> rw [wake_tgt] at hu <;> grind
  · intro i hi
    have hi : s.n ≤ i := hi
    have := a3 i hi
    have h1 : i ≠ c := by omega
    have h2 : i ≠ t := by omega
    simp [setPc_thr, notify_thr, upd_apply, h1, h2, this, PC.wake]
  · intro c'
    have := a4 c'
    by_cases e : c' = c
    · subst e; simp only [setPc_thr, notify_thr, if_true, PcOk, upd_apply, Thr.isDone] at *; grind
    · have hu : (s.thr c').pc.joiner ≠ some t := fun hh => e (a5 c' c t hh (by rw [hp]; rfl))
      have hpc' : ((({ s with thr := upd s.thr t { s.thr t with joined := true } }.notify t).setPc c (.fin o t)).thr c').pc = (s.thr c').pc.wake t := by
        simp only [setPc_thr, if_neg e, notify_thr, upd_apply]; split <;> simp_all
      rw [hpc']
      clear hpc' a1 a2 a3 a4 a5 a6 a7 a8 a9 a10
      revert this hu
      cases (s.thr c').pc <;> simp only [PcOk, PC.joiner, PC.wake, setPc_thr, notify_thr, upd_apply, Thr.isDone] <;> grind
  · intro c₁ c₂ u h1 h2
    have key : ∀ x, ((({ s with thr := upd s.thr t { s.thr t with joined := true } }.notify t).setPc c (.fin o t)).thr x).pc.joiner = if x = c then none else (s.thr x).pc.joiner := by
      intro x
      simp only [setPc_thr, notify_thr, upd_apply]
      split
      · rfl
      · split <;> rw [wake_joiner] <;> grind
    rw [key] at h1 h2
    grind
  · intro u h1 h2
    have hut : u ≠ t := by rintro rfl; simp [setPc_thr, notify_thr, upd_apply] at h2; grind
    have : (s.thr u).joinStarted = true ∧ (s.thr u).joined = false := by
      simp only [setPc_thr, notify_thr, upd_apply, hut, if_false] at h1 h2; grind
    obtain ⟨c', hc'⟩ := a6 u this.1 this.2
    have hcc : c' ≠ c := by rintro rfl; rw [hp] at hc'; simp [PC.joiner] at hc'; exact hut hc'.symm
    refine ⟨c', ?_⟩
    simp only [setPc_thr, notify_thr, upd_apply, hcc, if_false]
    split <;> rw [wake_joiner] <;> grind
  · intro u hu
    simp only [setPc_thr, notify_thr, upd_apply] at hu ⊢
    grind
  · intro u hu
    simp only [setPc_thr, notify_thr, upd_apply] at hu ⊢
    grind
  · intro u hu
    simp only [setPc_thr, notify_thr, upd_apply] at hu ⊢
    have := wake_idle t (s.thr u).pc
    have := wake_idle t (s.thr t).pc
    grind
  · exact a10

theorem Inv.detach {s : State} {c t : Nat} (h : Inv s) (ht : t < s.n) : Inv (detachBody s c t).1 := by
  simp only [detachBody]
  split
  · exact h
  · rename_i hs
    simp only [Bool.not_eq_true] at hs
    obtain ⟨a1, a2, a3, a4, a5, a6, a7, a8, a9, a10⟩ := h
    have hn := a7 t hs
    constructor
    · exact a1
    · grind
    · grind
    · intro c'
      have := a4 c'
      have hpc' : (upd s.thr t { s.thr t with native := true, joinStarted := true, joined := true } c').pc = (s.thr c').pc := by grind
      show PcOk _ (upd s.thr t { s.thr t with native := true, joinStarted := true, joined := true } c').pc
      rw [hpc']
      clear hpc' a1 a2 a3 a4 a5 a6 a7 a8 a9 a10
      revert this
      cases (s.thr c').pc <;> simp only [PcOk, upd_apply, Thr.isDone] <;> grind
    · grind
    · intro u h1 h2
      have : (s.thr u).joinStarted = true ∧ (s.thr u).joined = false := by grind
      obtain ⟨c', hc'⟩ := a6 u this.1 this.2
      exact ⟨c', by grind⟩
    · grind
    · grind
    · grind
    · exact a10

/-- A new thread. -/
theorem Inv.new {s : State} {x : Thr} (h : Inv s) (hx : x.pc = .idle) (hx1 : x.joinStarted = true → x.joined = true)
    (hx2 : x.joinStarted = false → x.native = false ∧ x.joined = false) (hx3 : x.joined = true → x.native = true) :
    Inv { s with thr := upd s.thr s.n x, n := s.n + 1 } := by
  obtain ⟨a1, a2, a3, a4, a5, a6, a7, a8, a9, a10⟩ := h
  have h0 := a3 s.n (Nat.le_refl _)
  constructor
  · intro o t ht; have := a1 o t ht; simp only; omega
  · intro c t ht
    have := a2 c t
    grind
  · grind
  · intro c
    have := a4 c
    have h2 := a2 c
    simp only [upd_apply]
    split
    · rw [hx]; trivial
    · clear a1 a2 a3 a4 a5 a6 a7 a8 a9 a10
      revert this h2
      cases (s.thr c).pc <;> simp only [PcOk, PC.tgt, upd_apply, Thr.isDone] <;> grind
  · grind
  · intro u h1 h2
    by_cases e : u = s.n
    · grind
    · have : (s.thr u).joinStarted = true ∧ (s.thr u).joined = false := by grind
      obtain ⟨c', hc'⟩ := a6 u this.1 this.2
      exact ⟨c', by grind⟩
  · grind
  · grind
  · grind
  · simp

/-- A thread whose pc is idle goes to a later phase. -/
theorem Inv.phase {s : State} {c : Nat} {p : Phase} (h : Inv s) (hpc : (s.thr c).pc = .idle) (hc : c < s.n)
    (hd : (decide (3 ≤ p.rank)) = (s.thr c).isDone) : Inv { s with thr := upd s.thr c { s.thr c with phase := p } } := by
  obtain ⟨a1, a2, a3, a4, a5, a6, a7, a8, a9, a10⟩ := h
  constructor
  · exact a1
  · grind
  · grind
  · intro c'
    have := a4 c'
    have hpc' : (upd s.thr c { s.thr c with phase := p } c').pc = (s.thr c').pc := by grind
    show PcOk _ (upd s.thr c { s.thr c with phase := p } c').pc
    rw [hpc']
    clear hpc' a1 a2 a3 a4 a5 a6 a7 a8 a9 a10
    simp only [Thr.isDone] at hd
    revert this
    cases (s.thr c').pc <;> simp only [PcOk, upd_apply, Thr.isDone] <;> grind
  · grind
  · intro u h1 h2
    have : (s.thr u).joinStarted = true ∧ (s.thr u).joined = false := by grind
    obtain ⟨c', hc'⟩ := a6 u this.1 this.2
    exact ⟨c', by grind⟩
  · grind
  · grind
  · grind
  · exact a10

theorem Inv.done {s : State} {c : Nat} (h : Inv s) (hpc : (s.thr c).pc = .idle) (hc : c < s.n) :
    Inv ({ s with thr := upd s.thr c { s.thr c with phase := .done } }.notify c) := by
  obtain ⟨a1, a2, a3, a4, a5, a6, a7, a8, a9, a10⟩ := h
  have key : ∀ x, (({ s with thr := upd s.thr c { s.thr c with phase := .done } }.notify c).thr x).pc = (s.thr x).pc.wake c := by
    intro x; simp only [notify_thr, upd_apply]; split <;> simp_all
  have kj : ∀ x, (({ s with thr := upd s.thr c { s.thr c with phase := .done } }.notify c).thr x).joinStarted = (s.thr x).joinStarted := by
    intro x; simp only [notify_thr, upd_apply]; split <;> simp_all
  have kd : ∀ x, (({ s with thr := upd s.thr c { s.thr c with phase := .done } }.notify c).thr x).joined = (s.thr x).joined := by
    intro x; simp only [notify_thr, upd_apply]; split <;> simp_all
  have kn : ∀ x, (({ s with thr := upd s.thr c { s.thr c with phase := .done } }.notify c).thr x).native = (s.thr x).native := by
    intro x; simp only [notify_thr, upd_apply]; split <;> simp_all
  have ki : ∀ x, (({ s with thr := upd s.thr c { s.thr c with phase := .done } }.notify c).thr x).isDone = ((s.thr x).isDone || x == c) := by
    intro x; simp only [notify_thr, upd_apply, Thr.isDone]; split <;> simp_all [Phase.rank]
  constructor
  · exact a1
  · intro x t; rw [key, wake_tgt]; exact a2 x t
  · intro i hi
    have hi : s.n ≤ i := hi
    have h1 : i ≠ c := by omega
    simp [notify_thr, upd_apply, h1, a3 i hi, PC.wake]
  · intro x
    have := a4 x
    rw [key]
    revert this
    clear key a1 a2 a3 a4 a5 a6 a7 a8 a9 a10
    cases (s.thr x).pc <;> simp only [PcOk, PC.wake, kj, kd, kn, ki] <;> grind
  · intro x y t; rw [key, key, wake_joiner, wake_joiner]; exact a5 x y t
  · intro t; rw [kj, kd]; intro h1 h2
    obtain ⟨x, hx⟩ := a6 t h1 h2
    exact ⟨x, by rw [key, wake_joiner]; exact hx⟩
  · intro t; rw [kj, kd, kn]; exact a7 t
  · intro t; rw [kd, kn]; exact a8 t
  · intro x; rw [key]
    intro hne
    have hne' : (s.thr x).pc ≠ .idle := fun e => hne ((wake_idle _ _).2 e)
    have hxc : x ≠ c := by rintro rfl; exact hne' hpc
    simp only [notify_thr, upd_apply, hxc, if_false]
    exact a9 x hne'
  · exact a10

theorem Inv.afterDone {s : State} {c o t : Nat} (h : Inv s) (hp : (s.thr c).phase = .running) (hj : (s.thr c).pc.joiner = none) (ht : t < s.n)
    (hd : (s.thr t).isDone = true) : Inv (afterDone s c o t) := by
  simp only [Thread.afterDone]
  split
  · rename_i hs
    split
    · rename_i hjd
      exact h.move (fun _ => hp) ⟨hjd, hd⟩ (by simp [PC.tgt]; omega) (h.lt hp) hj rfl
    · rename_i hjd
      exact h.move (fun _ => hp) ⟨hs, hd, fun _ => by simpa using hjd⟩ (by simp [PC.tgt]; omega) (h.lt hp) hj rfl
  · rename_i hs
    exact h.startJoin hp hj ht hd (by simpa using hs)

theorem Inv.eval {s : State} {c o t : Nat} {timed : Bool} (h : Inv s) (hp : (s.thr c).phase = .running) (hj : (s.thr c).pc.joiner = none) (ht : t < s.n) :
    Inv (eval s c o t timed) := by
  simp only [Thread.eval]
  split
  · rename_i hd; exact h.afterDone hp hj ht hd
  · rename_i hd
    exact h.move (fun _ => hp) (fun _ => by simpa using hd) (by simp [PC.tgt]; omega) (h.lt hp) hj rfl

theorem detachBody_thr (s : State) (c t i : Nat) : ((detachBody s c t).1.thr i).pc = (s.thr i).pc ∧ ((detachBody s c t).1.thr i).phase = (s.thr i).phase := by
  simp only [detachBody]; split
  · exact ⟨rfl, rfl⟩
  · simp only [upd_apply]; split
    · rename_i e; subst e; exact ⟨rfl, rfl⟩
    · exact ⟨rfl, rfl⟩

theorem detachBody_n (s : State) (c t : Nat) : (detachBody s c t).1.n = s.n := by simp only [detachBody]; split <;> rfl
theorem detachBody_objs (s : State) (c t : Nat) : (detachBody s c t).1.objs = s.objs := by simp only [detachBody]; split <;> rfl

theorem call_inv {cfg : Cfg} {s s' : State} {c : Nat} {op : Op} {es : List Event} (h : Inv s) (hp : (s.thr c).phase = .running) (hi : (s.thr c).pc = .idle)
    (hs : call cfg s c op = some (s', es)) : Inv s' := by
  have hj : (s.thr c).pc.joiner = none := by rw [hi]; rfl
  have hc := h.lt hp
  cases op with
  | start o k =>
    simp only [call] at hs
    split at hs
    · cases hs
    · cases k <;> simp only [Option.some.injEq, Prod.mk.injEq] at hs <;> obtain ⟨rfl, -⟩ := hs
      · exact h
      · refine (h.new (x := { phase := .running }) rfl (by simp) (by simp) (by simp)).objects ?_
        intro o' t ht
        have := h.objs o' t
        simp only [upd_apply] at ht
        split at ht
        · cases ht; simp
        · have := this ht; simp only; omega
      · exact h.new rfl (by simp) (by simp) (by simp)
  | join o timed =>
    simp only [call] at hs
    split at hs <;> simp only [Option.some.injEq, Prod.mk.injEq] at hs <;> obtain ⟨rfl, -⟩ := hs
    · exact h
    · exact h.move (fun _ => hp) trivial (by simp [PC.tgt]) hc hj rfl
  | detach o =>
    simp only [call] at hs
    split at hs <;> simp only [Option.some.injEq, Prod.mk.injEq] at hs <;> obtain ⟨rfl, -⟩ := hs
    · exact h
    · rename_i t ht
      exact (h.objects (f := upd s.objs o none) (by have := h.objs; grind)).move (fun _ => hp) trivial (by simp [PC.tgt]; exact h.objs o t ht) hc hj rfl
  | destroy o =>
    simp only [call] at hs
    split at hs
    · simp only [Option.some.injEq, Prod.mk.injEq] at hs; obtain ⟨rfl, -⟩ := hs; exact h
    · rename_i t ht
      split at hs <;> simp only [Option.some.injEq, Prod.mk.injEq] at hs <;> obtain ⟨rfl, -⟩ := hs
      · obtain ⟨a1, a2, a3, a4, a5, a6, a7, a8, a9, a10⟩ := h
        exact ⟨a1, a2, a3, fun c => by have := a4 c; revert this; cases (s.thr c).pc <;> exact id, a5, a6, a7, a8, a9, a10⟩
      · exact (h.objects (f := upd s.objs o none) (by have := h.objs; grind)).move (fun _ => hp) trivial (by simp [PC.tgt]; exact h.objs o t ht) hc hj rfl
  | moveCtor d src =>
    simp only [call] at hs
    split at hs <;> simp only [Option.some.injEq, Prod.mk.injEq, reduceCtorEq] at hs
    obtain ⟨rfl, -⟩ := hs
    exact h.objects (by have := h.objs; grind)
  | moveAsg d src =>
    simp only [call] at hs
    split at hs
    · simp only [Option.some.injEq, Prod.mk.injEq] at hs; obtain ⟨rfl, -⟩ := hs
      exact h.move (fun _ => hp) trivial (by simp [PC.tgt]) hc hj rfl
    · rename_i t ht
      split at hs <;> simp only [Option.some.injEq, Prod.mk.injEq] at hs <;> obtain ⟨rfl, -⟩ := hs
      · obtain ⟨a1, a2, a3, a4, a5, a6, a7, a8, a9, a10⟩ := h
        exact ⟨a1, a2, a3, fun c => by have := a4 c; revert this; cases (s.thr c).pc <;> exact id, a5, a6, a7, a8, a9, a10⟩
      · exact (h.objects (f := upd s.objs d none) (by have := h.objs; grind)).move (fun _ => hp) trivial (by simp [PC.tgt]; exact h.objs d t ht) hc hj rfl
  | swap a b =>
    simp only [call, Option.some.injEq, Prod.mk.injEq] at hs
    obtain ⟨rfl, -⟩ := hs
    exact h.objects (by have := h.objs; grind)
  | joinable o =>
    simp only [call, Option.some.injEq, Prod.mk.injEq] at hs
    obtain ⟨rfl, -⟩ := hs
    exact h

theorem waitJoined_inv {s : State} {c o t : Nat} {w : Bool} (h : Inv s) (hp : (s.thr c).pc = .wJoined o t w) :
    Inv (if (s.thr t).joined then s.setPc c (.fin o t) else s.setPc c (.wJoined o t false)) := by
  have hk := h.ok c
  rw [hp] at hk
  have hr := h.run c (by rw [hp]; simp)
  have ht := h.tgt c t (by rw [hp]; rfl)
  have hj : (s.thr c).pc.joiner = none := by rw [hp]; rfl
  split
  · rename_i hjd
    exact h.move (fun _ => hr) ⟨hjd, hk.2.1⟩ (by simp [PC.tgt]; omega) (h.lt hr) hj rfl
  · rename_i hjd
    exact h.move (fun _ => hr) ⟨hk.1, hk.2.1, fun _ => by simpa using hjd⟩ (by simp [PC.tgt]; omega) (h.lt hr) hj rfl

theorem go_inv {s s' : State} {c : Nat} {es : List Event} (h : Inv s) (hs : go s c = some (s', es)) : Inv s' := by
  simp only [go] at hs
  split at hs
  · cases hs
  all_goals rename_i hpc
  all_goals have hne : (s.thr c).pc ≠ .idle := by rw [hpc]; simp
  all_goals have hr := h.run c hne
  all_goals have hc := h.lt hr
  · split at hs <;> simp only [Option.some.injEq, Prod.mk.injEq] at hs <;> obtain ⟨rfl, -⟩ := hs
    · exact h.move (by simp) trivial (by simp [PC.tgt]) hc (by rw [hpc]; rfl) rfl
    · rename_i t ht
      exact h.move (fun _ => hr) trivial (by simp [PC.tgt]; exact h.objs _ _ ht) hc (by rw [hpc]; rfl) rfl
  · simp only [Option.some.injEq, Prod.mk.injEq] at hs; obtain ⟨rfl, -⟩ := hs
    exact h.eval hr (by rw [hpc]; rfl) (h.tgt c _ (by rw [hpc]; rfl))
  · split at hs <;> simp only [Option.some.injEq, Prod.mk.injEq, reduceCtorEq] at hs; obtain ⟨rfl, -⟩ := hs
    exact h.eval hr (by rw [hpc]; rfl) (h.tgt c _ (by rw [hpc]; rfl))
  · split at hs <;> simp only [Option.some.injEq, Prod.mk.injEq, reduceCtorEq] at hs; obtain ⟨rfl, -⟩ := hs
    exact waitJoined_inv h hpc
  · split at hs <;> simp only [Option.some.injEq, Prod.mk.injEq, reduceCtorEq] at hs; obtain ⟨rfl, -⟩ := hs
    exact h.natJoin hpc
  · simp only [Option.some.injEq, Prod.mk.injEq] at hs; obtain ⟨rfl, -⟩ := hs
    exact h.setJoined hpc
  · simp only [Option.some.injEq, Prod.mk.injEq] at hs; obtain ⟨rfl, -⟩ := hs
    split
    · exact (h.objects (f := upd s.objs _ none) (by have := h.objs; grind)).move (by simp) trivial (by simp [PC.tgt]) hc (by simp [hpc, PC.joiner]) rfl
    · exact h.move (by simp) trivial (by simp [PC.tgt]) hc (by rw [hpc]; rfl) rfl
  · rename_i t
    have ht := h.tgt c t (by rw [hpc]; rfl)
    simp only [Option.some.injEq, Prod.mk.injEq] at hs; obtain ⟨rfl, -⟩ := hs
    exact (h.detach (c := c) ht).move (by simp) trivial (by simp [PC.tgt]) (by rw [detachBody_n]; exact hc) (by rw [(detachBody_thr ..).1, hpc]; rfl) rfl
  · rename_i t _ _
    have ht := h.tgt c t (by rw [hpc]; rfl)
    simp only [Option.some.injEq, Prod.mk.injEq] at hs; obtain ⟨rfl, -⟩ := hs
    exact (h.detach (c := c) ht).move (fun _ => by rw [(detachBody_thr ..).2]; exact hr) trivial (by simp [PC.tgt]) (by rw [detachBody_n]; exact hc) (by rw [(detachBody_thr ..).1, hpc]; rfl) rfl
  · simp only [Option.some.injEq, Prod.mk.injEq] at hs; obtain ⟨rfl, -⟩ := hs
    exact (h.objects (by have := h.objs; grind)).move (by simp) trivial (by simp [PC.tgt]) hc (by simp [hpc, PC.joiner]) rfl

theorem step_inv {cfg : Cfg} {s s' : State} {l : Label} {es : List Event} (h : Inv s) (hs : step cfg s l = some (s', es)) : Inv s' := by
  simp only [step] at hs
  split at hs
  · cases hs
  · cases l with
    | call c op =>
      simp only at hs
      split at hs
      · rename_i hc; exact call_inv h hc.1 hc.2 hs
      · cases hs
    | go c => exact go_inv h hs
    | spurious c =>
      simp only at hs
      split at hs <;> simp only [Option.some.injEq, Prod.mk.injEq, reduceCtorEq] at hs <;> obtain ⟨rfl, -⟩ := hs <;> rename_i hpc
      · exact h.eval (h.run c (by rw [hpc]; simp)) (by rw [hpc]; rfl) (h.tgt c _ (by rw [hpc]; rfl))
      · exact waitJoined_inv h hpc
    | timeout c =>
      simp only at hs
      split at hs
      · rename_i o t w hpc
        have hr := h.run c (by rw [hpc]; simp)
        split at hs <;> simp only [Option.some.injEq, Prod.mk.injEq] at hs <;> obtain ⟨rfl, -⟩ := hs
        · rename_i hd; exact h.afterDone hr (by rw [hpc]; rfl) (h.tgt c _ (by rw [hpc]; rfl)) hd
        · exact h.move (by simp) trivial (by simp [PC.tgt]) (h.lt hr) (by rw [hpc]; rfl) rfl
      · cases hs
    | interrupt c =>
      simp only at hs
      split at hs <;> simp only [Option.some.injEq, Prod.mk.injEq, reduceCtorEq] at hs <;> obtain ⟨rfl, -⟩ := hs <;> rename_i hpc <;>
        exact h.move (by simp) trivial (by simp [PC.tgt]) (h.lt (h.run c (by rw [hpc]; simp))) (by rw [hpc]; rfl) rfl
    | ret c =>
      simp only at hs
      split at hs <;> simp only [Option.some.injEq, Prod.mk.injEq, reduceCtorEq] at hs; obtain ⟨rfl, -⟩ := hs
      rename_i hc
      exact h.phase hc.2 (h.lt hc.1) (by simp [Thr.isDone, hc.1, Phase.rank])
    | setDone c =>
      simp only at hs
      split at hs <;> simp only [Option.some.injEq, Prod.mk.injEq, reduceCtorEq] at hs; obtain ⟨rfl, -⟩ := hs
      rename_i hc
      have hi : (s.thr c).pc = .idle := by
        apply Classical.byContradiction; intro hne; have := h.run c hne; rw [hc] at this; cases this
      have hlt : c < s.n := by
        apply Nat.lt_of_not_le; intro hle; rw [h.fresh c hle] at hc; cases hc
      exact h.done hi hlt
    | exit c =>
      simp only at hs
      split at hs <;> simp only [Option.some.injEq, Prod.mk.injEq, reduceCtorEq] at hs; obtain ⟨rfl, -⟩ := hs
      rename_i hc
      have hi : (s.thr c).pc = .idle := by
        apply Classical.byContradiction; intro hne; have := h.run c hne; rw [hc] at this; cases this
      have hlt : c < s.n := by
        apply Nat.lt_of_not_le; intro hle; rw [h.fresh c hle] at hc; cases hc
      exact h.phase hi hlt (by simp [Thr.isDone, hc, Phase.rank])

end Verif.Thread
