import Verif.TimedQueue.Spec
/-! # Simulation and wake-up invariants of the timed queue -/

set_option linter.unusedSectionVars false
set_option linter.unusedSimpArgs false

namespace Verif.TimedQueue
variable {V : Type} [DecidableEq V]

theorem foldl_min (l : List (V × Int)) (m : Int) :
    (l.foldl (fun m y => min m y.2) m = m ∨ ∃ x ∈ l, x.2 = l.foldl (fun m y => min m y.2) m) ∧
    l.foldl (fun m y => min m y.2) m ≤ m ∧ ∀ x ∈ l, l.foldl (fun m y => min m y.2) m ≤ x.2 := by
  induction l generalizing m with
  | nil => simp
  | cons a l ih =>
    obtain ⟨h1, h2, h3⟩ := ih (min m a.2)
    simp only [List.foldl_cons, List.mem_cons, forall_eq_or_imp, exists_eq_or_imp]
    refine ⟨?_, by omega, by omega, h3⟩
    rcases h1 with h1 | h1
    · rw [h1]; by_cases h : m ≤ a.2
      · left; omega
      · right; left; omega
    · exact Or.inr (Or.inr h1)

theorem topTime_some {l : List (V × Int)} {m : Int} (h : topTime l = some m) :
    (∃ x ∈ l, x.2 = m) ∧ ∀ x ∈ l, m ≤ x.2 := by
  cases l with
  | nil => cases h
  | cons a l =>
    simp only [topTime, Option.some.injEq] at h
    subst h
    obtain ⟨h1, h2, h3⟩ := foldl_min l a.2
    refine ⟨?_, ?_⟩
    · rcases h1 with h1 | ⟨x, hx, h1⟩
      · exact ⟨a, by simp, h1.symm⟩
      · exact ⟨x, by simp [hx], h1⟩
    · simpa [h2] using h3

theorem topTime_none {l : List (V × Int)} : topTime l = none ↔ l = [] := by
  cases l <;> simp [topTime]

theorem not_reached {s : State V} {now : Int} (h : reached s now = false) : NothingDue s.data now := by
  simp only [reached] at h
  split at h
  · next h' => rw [topTime_none.mp h']; intro x hx; cases hx
  · next m h' =>
    simp only [decide_eq_false_iff_not] at h
    intro x hx
    have := (topTime_some h').2 x hx
    omega

theorem reached_iff {s : State V} {now : Int} : reached s now = true ↔ ∃ x ∈ s.data, x.2 ≤ now := by
  constructor
  · intro h
    simp only [reached] at h
    split at h
    · cases h
    · next m h' =>
      obtain ⟨⟨x, hx, hm⟩, -⟩ := topTime_some h'
      exact ⟨x, hx, by simp at h; omega⟩
  · rintro ⟨x, hx, h⟩
    cases hr : reached s now with
    | true => rfl
    | false => have := not_reached hr x hx; omega

theorem perm_eraseIdx {α : Type} {a : List α} {i : Nat} {v : α} (h : a[i]? = some v) : (v :: a.eraseIdx i).Perm a := by
  induction a generalizing i with
  | nil => cases h
  | cons x xs ih =>
    cases i with
    | zero => simp at h; subst h; exact List.Perm.refl _
    | succ i =>
      simp only [List.getElem?_cons_succ] at h
      exact (List.Perm.swap x v _).trans ((ih h).cons x)

/-! ## The per-thread invariant -/

def Ok (c : Cfg) (s : State V) : PC → Prop
  | .closing => s.closed = true
  | .expired (.until_ tp) => c.monotone = true → tp ≤ s.now
  | .expired (.for_ tp) => tp ≤ s.steady
  | .expired _ => False
  | .asleepEmpty _ => s.data = []
  | .asleepTimed _ (some w) => ∀ x ∈ s.data, w ≤ x.2
  | .asleepTimed k none => ∃ tp, k = .for_ tp
  | _ => True

def PC.isAsleep : PC → Bool
  | .asleepEmpty _ => true
  | .asleepTimed _ _ => true
  | _ => false

/-- The environment of the other threads only moves one way, except when an element is added. -/
structure Le (c : Cfg) (s s' : State V) : Prop where
  now : c.monotone = true → s.now ≤ s'.now
  steady : s.steady ≤ s'.steady
  data : ∀ x ∈ s'.data, x ∈ s.data
  closed : s.closed = true → s'.closed = true

theorem Le.refl (c : Cfg) (s : State V) : Le c s s := ⟨fun _ => Int.le_refl _, Int.le_refl _, fun _ h => h, fun h => h⟩

theorem Le.trans {c : Cfg} {s s' s'' : State V} (h : Le c s s') (h' : Le c s' s'') : Le c s s'' :=
  ⟨fun m => Int.le_trans (h.now m) (h'.now m), Int.le_trans h.steady h'.steady, fun x hx => h.data x (h'.data x hx),
   fun hc => h'.closed (h.closed hc)⟩

theorem Ok.mono {c : Cfg} {s s' : State V} {p : PC} (h : Ok c s p) (hl : Le c s s') : Ok c s' p := by
  cases p with
  | closing => exact hl.closed h
  | expired k =>
    cases k with
    | until_ tp => exact fun m => Int.le_trans (h m) (hl.now m)
    | for_ tp => exact Int.le_trans h hl.steady
    | _ => exact h
  | asleepEmpty k =>
    simp only [Ok] at *
    cases hd : s'.data with
    | nil => rfl
    | cons x xs => have := hl.data x (by simp [hd]); rw [h] at this; cases this
  | asleepTimed k w =>
    cases w with
    | some w => exact fun x hx => h x (hl.data x hx)
    | none => exact h
  | _ => trivial

def Inv (c : Cfg) (s : State V) : Prop := ∀ (t : Nat) (p : PC), s.ts[t]? = some p → Ok c s p

theorem Inv.set {c : Cfg} {s s' : State V} {t : Nat} {p q : PC} (h : Inv c s) (ht : s.ts[t]? = some p)
    (hts : s'.ts = s.ts.set t q) (hl : Le c s s') (hq : Ok c s' q) : Inv c s' := by
  intro u r hr
  rw [hts, getElem?_set_eq ht] at hr
  split at hr
  · cases hr; exact hq
  · exact (h u r hr).mono hl

def R (s : State V) (q : Queue V) : Prop := s.data.Perm q.items ∧ s.closed = q.closed

/-- What one critical section of a pull does. -/
structure Good (c : Cfg) (ub : Bool) (s : State V) (t : Nat) (q : Queue V) (s' : State V) (es : List (Event V)) : Prop where
  moved : ∃ p, s'.ts = s.ts.set t p ∧ Ok c s' p ∧ (p.isAsleep = true → s.closed = false) ∧ p ≠ .closing
  le : Le c s s'
  closedEq : s'.closed = s.closed
  follows : Follows (specNext ub) (R s') q es
  noClose : ∀ u, Event.closeReturned u ∉ es

theorem pop_good {c : Cfg} {ub : Bool} {s s' : State V} {t i : Nat} {now : Int} {es : List (Event V)} {q : Queue V} (hR : R s q)
    (hr : reached s now = true) (hs : pop s t i now = some (s', es)) : Good c ub s t q s' es := by
  simp only [pop] at hs
  split at hs
  · cases hs
  · next v due hi =>
    split at hs <;> cases hs
    next htop =>
    have hmem : (v, due) ∈ s.data := List.mem_of_getElem? hi
    have hmin := (topTime_some htop).2
    obtain ⟨x, hx, hxn⟩ := reached_iff.mp hr
    refine ⟨⟨.idle, rfl, trivial, by simp [PC.isAsleep], by simp⟩, ⟨fun _ => Int.le_refl _, Int.le_refl _, ?_, fun h => h⟩, rfl, ?_, by simp⟩
    · intro y hy; exact List.mem_of_mem_eraseIdx hy
    · have hq : (v, due) ∈ q.items := hR.1.mem_iff.mp hmem
      simp only [Follows, specNext]
      rw [if_pos ⟨hq, Int.le_trans (hmin x hx) hxn, fun y hy => hmin y (hR.1.mem_iff.mpr hy)⟩]
      have h1 := perm_eraseIdx hi
      have h2 := (List.perm_cons_erase hq).symm
      exact ⟨(h1.trans (hR.1.trans h2.symm)).cons_inv, hR.2⟩

/-- What `check` hands to its continuation. -/
structure Passed (c : Cfg) (k : Kind) (s s1 : State V) : Prop where
  data : s1.data = s.data
  ts : s1.ts = s.ts
  closed : s1.closed = s.closed
  isOpen : s.closed = false
  le : Le c s s1
  deadline : match k with
    | .until_ tp => c.monotone = true → s.now < tp
    | .for_ tp => s.steady < tp
    | _ => True

theorem readClock_some {c : Cfg} {s s1 : State V} {r : Int} (h : readClock c s r = some s1) :
    s1 = { s with now := r } ∧ (c.monotone = true → s.now ≤ r) := by
  simp only [readClock] at h
  split at h
  · cases h
  · next hh =>
    cases h
    refine ⟨rfl, fun m => ?_⟩
    simp only [m, true_and] at hh
    omega

theorem readSteady_some {s s1 : State V} {r : Int} (h : readSteady s r = some s1) :
    s1 = { s with steady := r } ∧ s.steady ≤ r := by
  simp only [readSteady] at h
  split at h
  · cases h
  · next hh => cases h; exact ⟨rfl, by omega⟩

theorem NothingDue.perm {a b : List (V × Int)} {now : Int} (h : NothingDue a now) (hp : a.Perm b) : NothingDue b now :=
  fun x hx => h x (hp.mem_iff.mpr hx)

theorem Good.shift {c : Cfg} {ub : Bool} {s s1 s' : State V} {t : Nat} {q : Queue V} {es : List (Event V)}
    (h : Good c ub s1 t q s' es) (hts : s1.ts = s.ts) (hcl : s1.closed = s.closed) (hl : Le c s s1) : Good c ub s t q s' es := by
  obtain ⟨⟨p, h1, h2, h3, h4⟩, h5, h6, h7, h8⟩ := h
  exact ⟨⟨p, by rw [h1, hts], h2, fun hp => hcl ▸ h3 hp, h4⟩, hl.trans h5, h6.trans hcl, h7, h8⟩

theorem check_good {c : Cfg} {ub : Bool} {s s' : State V} {t i : Nat} {k : Kind} {due dead : Int} {es : List (Event V)}
    {q : Queue V} {cont : State V → Option (State V × List (Event V))} (hR : R s q)
    (hcont : ∀ s1, Passed c k s s1 → ∀ s' es, cont s1 = some (s', es) → Good c ub s1 t q s' es)
    (hs : check c s t k i due dead cont = some (s', es)) : Good c ub s t q s' es := by
  simp only [check] at hs
  split at hs
  · cases hs
  next s0 hr =>
  obtain ⟨rfl, hnow⟩ := readClock_some hr
  have hle : Le c s { s with now := due } := ⟨hnow, Int.le_refl _, fun _ h => h, fun h => h⟩
  split at hs
  · next hre => exact (pop_good (s := { s with now := due }) hR hre hs).shift rfl rfl hle
  next hre =>
  have hnd := not_reached (Bool.eq_false_iff.mpr hre)
  split at hs
  · next hc =>
    cases hs
    refine ⟨⟨.idle, rfl, trivial, by simp [PC.isAsleep], by simp⟩, ⟨hnow, Int.le_refl _, fun _ h => h, fun h => h⟩, rfl, ?_, by simp⟩
    simp only [Follows, specNext]
    rw [if_pos ⟨hR.2 ▸ hc, hnd.perm hR.1⟩]
    exact hR
  next hc =>
  have hopen : s.closed = false := Bool.eq_false_iff.mpr hc
  have hemp : s.data.isEmpty = true ↔ q.items = [] := by
    rw [List.isEmpty_iff]
    exact ⟨fun h => by have := hR.1; rw [h] at this; exact this.nil_eq.symm, fun h => by have := hR.1; rw [h] at this; exact this.eq_nil⟩
  cases k with
  | throwing =>
    exact (hcont { s with now := due } ⟨rfl, rfl, rfl, hopen, hle, trivial⟩ _ _ hs).shift rfl rfl hle
  | status =>
    exact (hcont { s with now := due } ⟨rfl, rfl, rfl, hopen, hle, trivial⟩ _ _ hs).shift rfl rfl hle
  | until_ tp =>
    simp only at hs
    split at hs
    · cases hs
    next s2 hr2 =>
    obtain ⟨rfl, hnow2⟩ := readClock_some hr2
    have hle2 : Le c s { s with now := dead } :=
      ⟨fun m => Int.le_trans (hnow m) (hnow2 m), Int.le_refl _, fun _ h => h, fun h => h⟩
    split at hs
    · next hd =>
      cases hs
      refine ⟨⟨.idle, rfl, trivial, by simp [PC.isAsleep], by simp⟩, ⟨hle2.now, hle2.steady, fun _ h => h, fun h => h⟩, rfl, ?_, by simp⟩
      simp only [Follows, specNext]
      rw [if_pos ⟨hR.2 ▸ hopen, hd, hnd.perm hR.1, hemp⟩]
      exact hR
    · next hd =>
      refine (hcont { s with now := dead } ⟨rfl, rfl, rfl, hopen, hle2, fun m => ?_⟩ _ _ hs).shift rfl rfl hle2
      have h1 := hnow m; have h2 := hnow2 m; simp only at h2; omega
  | for_ tp =>
    simp only at hs
    split at hs
    · cases hs
    next s2 hr2 =>
    obtain ⟨rfl, hnow2⟩ := readSteady_some hr2
    have hle2 : Le c s { s with now := due, steady := dead } := ⟨hnow, hnow2, fun _ h => h, fun h => h⟩
    split at hs
    · next hd =>
      cases hs
      refine ⟨⟨.idle, rfl, trivial, by simp [PC.isAsleep], by simp⟩, ⟨hle2.now, hle2.steady, fun _ h => h, fun h => h⟩, rfl, ?_, by simp⟩
      simp only [Follows, specNext]
      rw [if_pos ⟨hR.2 ▸ hopen, hd, hnd.perm hR.1, hemp⟩]
      exact hR
    · next hd =>
      refine (hcont { s with now := due, steady := dead } ⟨rfl, rfl, rfl, hopen, hle2, ?_⟩ _ _ hs).shift rfl rfl hle2
      simp only at hnow2 ⊢; omega

/-- When `top()` may be evaluated on an empty queue without harm: never; this is what excludes it. -/
def Pre (c : Cfg) (ub : Bool) (s : State V) (k : Kind) : Prop :=
  ub = true ∨ s.data ≠ [] ∨ s.closed = true ∨
    match k with
    | .until_ tp => c.monotone = true ∧ tp ≤ s.now
    | .for_ tp => tp ≤ s.steady
    | _ => False

theorem limit_le (c : Cfg) (tp now : Int) : limit c tp now ≤ tp := by
  simp only [limit]; split <;> omega

theorem second_good {c : Cfg} {ub : Bool} {s s' : State V} {t i : Nat} {k : Kind} {r : Reads} {es : List (Event V)} {q : Queue V}
    (hR : R s q) (hp : Pre c ub s k) (hs : second c s t k i r = some (s', es)) : Good c ub s t q s' es := by
  refine check_good hR ?_ hs
  intro s1 hp1 s' es hs
  have hR1 : R s1 q := ⟨by rw [hp1.data]; exact hR.1, by rw [hp1.closed]; exact hR.2⟩
  simp only at hs
  split at hs
  · next hn =>
    cases hs
    refine ⟨⟨.idle, rfl, trivial, by simp [PC.isAsleep], by simp⟩, ⟨fun _ => Int.le_refl _, Int.le_refl _, fun _ h => h, fun h => h⟩, rfl, ?_, by simp⟩
    cases ub with
    | true => simp [Follows, specNext]
    | false =>
      exfalso
      rcases hp with h | h | h | h
      · cases h
      · exact h (by rw [← hp1.data]; exact topTime_none.mp hn)
      · rw [hp1.isOpen] at h; cases h
      · have hd := hp1.deadline
        cases k with
        | until_ tp => have := hd h.1; have := h.2; omega
        | for_ tp => simp only at h hd; omega
        | _ => exact h
  · next top htop =>
    split at hs
    · cases hs
    next s2 hr2 =>
    obtain ⟨rfl, hnow2⟩ := readClock_some hr2
    cases hs
    have hmin := (topTime_some htop).2
    have hl := limit_le c top r.lim
    refine ⟨⟨_, rfl, ?_, fun _ => hp1.closed.trans hp1.isOpen, by simp⟩, ⟨hnow2, Int.le_refl _, fun _ h => h, fun h => h⟩, rfl, hR1, by simp⟩
    cases k with
    | throwing => exact fun x hx => Int.le_trans hl (hmin x hx)
    | status => exact fun x hx => Int.le_trans hl (hmin x hx)
    | until_ tp => intro x hx; have := hmin x hx; omega
    | for_ tp => exact ⟨tp, rfl⟩

theorem first_good {c : Cfg} {ub : Bool} {s s' : State V} {t i : Nat} {k : Kind} {r : Reads} {es : List (Event V)} {q : Queue V}
    (hR : R s q) (hs : first c s t k i r = some (s', es)) : Good c ub s t q s' es := by
  refine check_good hR ?_ hs
  intro s1 hp1 s' es hs
  have hR1 : R s1 q := ⟨by rw [hp1.data]; exact hR.1, by rw [hp1.closed]; exact hR.2⟩
  split at hs
  · next he =>
    simp only [Bool.and_eq_true, List.isEmpty_iff] at he
    cases hs
    exact ⟨⟨_, rfl, he.1, fun _ => hp1.closed.trans hp1.isOpen, by simp⟩, ⟨fun _ => Int.le_refl _, Int.le_refl _, fun _ h => h, fun h => h⟩, rfl, hR1, by simp⟩
  · next he =>
    refine second_good hR1 ?_ hs
    have hc := hp1.closed.trans hp1.isOpen
    simp only [hc, Bool.not_false, Bool.and_true, List.isEmpty_iff] at he
    exact Or.inr (Or.inl he)

theorem wake_inv {c : Cfg} {s s' : State V} (h : Inv c s) (hts : s'.ts = s.ts.map PC.wake) (hn : c.monotone = true → s.now ≤ s'.now)
    (hst : s.steady ≤ s'.steady) (hc : s.closed = true → s'.closed = true) : Inv c s' := by
  intro t p hp
  rw [hts, List.getElem?_map] at hp
  cases hq : s.ts[t]? with
  | none => simp [hq] at hp
  | some q =>
    simp only [hq, Option.map_some, Option.some.injEq] at hp
    subst hp
    have := h t q hq
    cases q with
    | asleepEmpty k => trivial
    | asleepTimed k w => trivial
    | closing => exact hc this
    | expired k =>
      cases k with
      | until_ tp => exact fun m => Int.le_trans (this m) (hn m)
      | for_ tp => exact Int.le_trans this hst
      | _ => exact this
    | _ => trivial

/-- Nobody is asleep once a `close()` has returned. -/
def ClosedInv (s : State V) (h : List (Event V)) : Prop :=
  (∃ t, Event.closeReturned t ∈ h) → s.closed = true ∧ cnt PC.isAsleep s.ts = 0

theorem cnt_wake (ts : List PC) : cnt PC.isAsleep (ts.map PC.wake) = 0 := by
  rw [cnt_map, cnt_eq_zero]
  intro t p hp
  cases p <;> rfl

/-- Everything one step guarantees. -/
structure StepOk (c : Cfg) (ub : Bool) (s' : State V) (q : Queue V) (h es : List (Event V)) : Prop where
  inv : Inv c s'
  closed : ClosedInv s' (h ++ es)
  follows : Follows (specNext ub) (R s') q es

theorem Good.stepOk {c : Cfg} {ub : Bool} {s s' : State V} {t : Nat} {p : PC} {q : Queue V} {h es : List (Event V)}
    (hg : Good c ub s t q s' es) (hI : Inv c s) (hc : ClosedInv s h) (ht : s.ts[t]? = some p) : StepOk c ub s' q h es := by
  obtain ⟨⟨r, h1, h2, h3, h4⟩, h5, h6, h7, h8⟩ := hg
  refine ⟨hI.set ht h1 h5 h2, ?_, h7⟩
  rintro ⟨u, hu⟩
  rcases List.mem_append.mp hu with hu | hu
  · obtain ⟨g1, g2⟩ := hc ⟨u, hu⟩
    refine ⟨h6.trans g1, ?_⟩
    have := cnt_set PC.isAsleep r ht
    cases hr : r.isAsleep with
    | true => rw [h3 hr] at g1; cases g1
    | false => rw [hr] at this; rw [h1]; simp at this; omega
  · exact absurd hu (h8 u)

/-- A step that only moves thread `t`. -/
theorem quiet {c : Cfg} {ub : Bool} {s s' : State V} {t : Nat} {p pc : PC} {q : Queue V} {h es : List (Event V)} (hR : R s q)
    (hI : Inv c s) (hc : ClosedInv s h) (ht : s.ts[t]? = some p) (hts : s'.ts = s.ts.set t pc) (hd : s'.data = s.data)
    (hcl : s'.closed = s.closed) (hle : Le c s s') (hok : Ok c s' pc) (hp : pc.isAsleep = true → s.closed = false) (hne : pc ≠ .closing)
    (hes : es = [] ∨ ∃ u, es = [.interrupted u]) : StepOk c ub s' q h es := by
  have hR' : R s' q := ⟨by rw [hd]; exact hR.1, by rw [hcl]; exact hR.2⟩
  refine Good.stepOk (s := s) ⟨⟨pc, hts, hok, hp, hne⟩, hle, hcl, ?_, ?_⟩ hI hc ht
  · rcases hes with rfl | ⟨u, rfl⟩ <;> exact hR'
  · rcases hes with rfl | ⟨u, rfl⟩ <;> simp

theorem same_stepOk {c : Cfg} {ub : Bool} {s s' : State V} {t : Nat} {p : PC} {q : Queue V} {h : List (Event V)} {e : Event V}
    (hI : Inv c s) (hc : ClosedInv s h) (_ht : s.ts[t]? = some p) (hts : s'.ts = s.ts) (hl : Le c s s') (hcl : s'.closed = s.closed)
    (he : ∀ u, e ≠ .closeReturned u) (hf : Follows (specNext ub) (R s') q [e]) : StepOk c ub s' q h [e] := by
  refine ⟨fun u r hr => (hI u r (hts ▸ hr)).mono hl, ?_, hf⟩
  rintro ⟨u, hu⟩
  rcases List.mem_append.mp hu with hu | hu
  · rw [hcl, hts]; exact hc ⟨u, hu⟩
  · exact absurd (List.mem_singleton.mp hu).symm (he u)

theorem step_ok {c : Cfg} {ub : Bool} {s s' : State V} {l : Label V} {q : Queue V} {h es : List (Event V)}
    (hub : ub = true ∨ c.monotone = true) (hI : Inv c s) (hc : ClosedInv s h) (hR : R s q) (hs : step c s l = some (s', es)) :
    StepOk c ub s' q h es := by
  cases l with
  | push t v due =>
    simp only [step] at hs
    (repeat' split at hs) <;> cases hs
    · next ht hcl =>
      refine same_stepOk hI hc ht rfl (Le.refl c s) rfl (by simp) ?_
      simp only [Follows, specNext, ← hR.2, hcl, if_true]; exact hR
    · next ht hcl =>
      refine ⟨wake_inv hI rfl (fun _ => Int.le_refl _) (Int.le_refl _) (fun h => h), ?_, ?_⟩
      · rintro ⟨u, hu⟩
        rcases List.mem_append.mp hu with hu | hu
        · exact absurd (hc ⟨u, hu⟩).1 hcl
        · simp at hu
      · simp only [Follows, specNext, ← hR.2, hcl]
        exact ⟨hR.1.append_right _, rfl⟩
  | tryPull t now i =>
    simp only [step] at hs
    split at hs
    · next ht =>
      split at hs
      · cases hs
      next s0 hr =>
      obtain ⟨rfl, hnow⟩ := readClock_some hr
      have hle : Le c s { s with now := now } := ⟨hnow, Int.le_refl _, fun _ h => h, fun h => h⟩
      split at hs
      · next hre => exact (Good.shift (s := s) (pop_good (s := { s with now := now }) hR hre hs) rfl rfl hle).stepOk hI hc ht
      next hre =>
      have hnd := (not_reached (Bool.eq_false_iff.mpr hre)).perm hR.1
      have hemp : s.data.isEmpty = true ↔ q.items = [] := by
        rw [List.isEmpty_iff]
        exact ⟨fun h => by have := hR.1; rw [h] at this; exact this.nil_eq.symm, fun h => by have := hR.1; rw [h] at this; exact this.eq_nil⟩
      split at hs
      · next hcl =>
        cases hs
        refine same_stepOk hI hc ht rfl hle rfl (by simp) ?_
        simp only [Follows, specNext]; rw [if_pos ⟨hR.2 ▸ hcl, hnd⟩]; exact hR
      next hcl =>
      have hopen : q.closed = false := hR.2 ▸ Bool.eq_false_iff.mpr hcl
      split at hs <;> cases hs
      · next he =>
        refine same_stepOk hI hc ht rfl hle rfl (by simp) ?_
        simp only [Follows, specNext]; rw [if_pos ⟨hopen, hemp.mp he⟩]; exact hR
      · next he =>
        refine same_stepOk hI hc ht rfl hle rfl (by simp) ?_
        simp only [Follows, specNext]; rw [if_pos ⟨hopen, fun h => he (hemp.mpr h), hnd⟩]; exact hR
    · cases hs
  | busyPull t =>
    simp only [step] at hs
    (repeat' split at hs) <;> cases hs
    next ht => exact same_stepOk hI hc ht rfl (Le.refl c s) rfl (by simp) hR
  | pull t k r i =>
    simp only [step] at hs
    split at hs
    · next ht => exact (first_good hR hs).stepOk hI hc ht
    · cases hs
  | resume t r i =>
    simp only [step] at hs
    split at hs
    · next k ht =>
      split at hs
      · next he =>
        simp only [Bool.and_eq_true, List.isEmpty_iff, Bool.not_eq_true'] at he
        cases hs
        exact quiet hR hI hc ht rfl rfl rfl ⟨fun _ => Int.le_refl _, Int.le_refl _, fun _ h => h, fun h => h⟩ he.1 (fun _ => he.2) (by simp) (Or.inl rfl)
      · next he =>
        simp only [Bool.and_eq_true, List.isEmpty_iff, Bool.not_eq_true'] at he
        refine (second_good hR ?_ hs).stepOk hI hc ht
        by_cases hd : s.data = []
        · refine Or.inr (Or.inr (Or.inl ?_))
          cases hcl : s.closed with
          | true => rfl
          | false => exact absurd ⟨hd, hcl⟩ he
        · exact Or.inr (Or.inl hd)
    · next k ht =>
      refine (second_good hR ?_ hs).stepOk hI hc ht
      have := hI t _ ht
      rcases hub with rfl | hm
      · exact Or.inl rfl
      · refine Or.inr (Or.inr (Or.inr ?_))
        cases k with
        | until_ tp => exact ⟨hm, this hm⟩
        | for_ tp => exact this
        | _ => exact this
    · next k ht => exact (first_good hR hs).stepOk hI hc ht
    · cases hs
  | spurious t =>
    simp only [step] at hs
    (repeat' split at hs) <;> cases hs
    · next k ht => exact quiet hR hI hc ht rfl rfl rfl ⟨fun _ => Int.le_refl _, Int.le_refl _, fun _ h => h, fun h => h⟩ trivial (by simp [PC.isAsleep]) (by simp) (Or.inl rfl)
    · next k w ht => exact quiet hR hI hc ht rfl rfl rfl ⟨fun _ => Int.le_refl _, Int.le_refl _, fun _ h => h, fun h => h⟩ trivial (by simp [PC.isAsleep]) (by simp) (Or.inl rfl)
  | timeout t r =>
    simp only [step] at hs
    (repeat' split at hs) <;> try cases hs
    all_goals try (obtain ⟨rfl, hnow⟩ := readClock_some ‹_›)
    all_goals try (obtain ⟨rfl, hst⟩ := readSteady_some ‹_›)
    all_goals first
      | exact quiet hR hI hc ‹_› rfl rfl rfl ⟨hnow, Int.le_refl _, fun _ h => h, fun h => h⟩ (fun _ => ‹_›) (by simp [PC.isAsleep])
          (by simp) (Or.inl rfl)
      | exact quiet hR hI hc ‹_› rfl rfl rfl ⟨hnow, Int.le_refl _, fun _ h => h, fun h => h⟩ trivial (by simp [PC.isAsleep])
          (by simp) (Or.inl rfl)
      | exact quiet hR hI hc ‹_› rfl rfl rfl ⟨fun _ => Int.le_refl _, hst, fun _ h => h, fun h => h⟩ (by assumption)
          (by simp [PC.isAsleep]) (by simp) (Or.inl rfl)
      | exact quiet hR hI hc ‹_› rfl rfl rfl ⟨fun _ => Int.le_refl _, Int.le_refl _, fun _ h => h, fun h => h⟩ trivial (by simp [PC.isAsleep]) (by simp) (Or.inl rfl)
  | interrupt t =>
    simp only [step] at hs
    (repeat' split at hs) <;> cases hs <;>
      exact quiet hR hI hc ‹_› rfl rfl rfl ⟨fun _ => Int.le_refl _, Int.le_refl _, fun _ h => h, fun h => h⟩ trivial (by simp [PC.isAsleep]) (by simp) (Or.inr ⟨t, rfl⟩)
  | close t =>
    simp only [step] at hs
    (repeat' split at hs) <;> cases hs
    next ht =>
    refine ⟨hI.set ht rfl ⟨fun _ => Int.le_refl _, Int.le_refl _, fun _ h => h, fun _ => rfl⟩ rfl, ?_, ⟨hR.1, rfl⟩⟩
    rintro ⟨u, hu⟩
    rcases List.mem_append.mp hu with hu | hu
    · refine ⟨rfl, ?_⟩
      have := (hc ⟨u, hu⟩).2
      have := cnt_set PC.isAsleep .closing ht
      simp [PC.isAsleep] at this
      simp only
      omega
    · simp at hu
  | closeNotify t =>
    simp only [step] at hs
    (repeat' split at hs) <;> cases hs
    next ht =>
    have hcl : s.closed = true := hI t _ ht
    have h1 : Inv c { s with ts := s.ts.set t .idle } :=
      hI.set ht rfl ⟨fun _ => Int.le_refl _, Int.le_refl _, fun _ h => h, fun h => h⟩ trivial
    refine ⟨wake_inv h1 rfl (fun _ => Int.le_refl _) (Int.le_refl _) (fun h => h), fun _ => ⟨hcl, cnt_wake _⟩, ?_⟩
    simp only [Follows, specNext, ← hR.2, hcl, if_true]
    exact ⟨hR.1, hcl.symm.trans hR.2⟩

theorem init_inv (c : Cfg) (now steady : Int) (n : Nat) : Inv c (init V now steady n) := by
  intro t p hp
  simp only [init, List.getElem?_replicate] at hp
  split at hp <;> cases hp
  trivial

def Sim (c : Cfg) (s : State V) (q : Queue V) : Prop := R s q ∧ Inv c s ∧ ∃ h, ClosedInv s h

theorem sim {c : Cfg} {ub : Bool} (hub : ub = true ∨ c.monotone = true) (s : State V) (l : Label V) (s' : State V)
    (es : List (Event V)) (q : Queue V) (h : Sim c s q) (hs : step c s l = some (s', es)) :
    Follows (specNext ub) (Sim c s') q es := by
  obtain ⟨hR, hI, h0, hc⟩ := h
  have := step_ok hub hI hc hR hs
  exact this.follows.and ⟨this.inv, _, this.closed⟩

theorem init_sim (c : Cfg) (now steady : Int) (n : Nat) : Sim c (init V now steady n) (Queue.new V) :=
  ⟨⟨List.Perm.refl _, rfl⟩, init_inv c now steady n, [], by rintro ⟨t, ht⟩; cases ht⟩

end Verif.TimedQueue
