import Verif.WinCondVar.Model
/-! # The Windows condition variable: the invariant -/

set_option linter.unusedSimpArgs false

namespace Verif.WinCondVar

@[simp, grind =] theorem upd_apply {α : Type} (f : Nat → α) (i j : Nat) (x : α) : upd f i x j = if j = i then x else f j := rfl

def Phase.posts : Phase → Nat
  | .inside _ _ p _ => p
  | _ => 0

def Phase.wakes : Phase → Nat
  | .inside _ _ _ w => w
  | _ => 0

/-- The thread is in entry `g`. -/
def Thread.mem (g : Nat) (x : Thread) : Bool :=
  match x.pc with
  | .holding h | .sem h | .try_ h | .remove h _ => h == g
  | _ => false

/-- The thread is in entry `g` and not yet woken, timed out or interrupted. -/
def Thread.inG (g : Nat) (x : Thread) : Bool :=
  match x.pc with
  | .holding h | .sem h | .try_ h => h == g
  | _ => false

/-- The thread needs a token of the semaphore of entry `g`. -/
def Thread.wants (g : Nat) (x : Thread) : Bool :=
  match x.pc with
  | .holding h | .sem h => h == g
  | _ => false

/-- The thread has a token of the semaphore of entry `g`. -/
def Thread.has (g : Nat) (x : Thread) : Bool :=
  match x.pc with
  | .try_ h => h == g
  | _ => false

/-- The thread is waiting in an entry of `wake_sem` number `e`. -/
def Thread.inE (f : Nat → Entry) (e : Nat) (x : Thread) : Bool :=
  match x.pc with
  | .holding h | .sem h | .try_ h => (f h).epoch == e
  | _ => false

theorem inG_split (g : Nat) (x : Thread) : b2n (x.inG g) = b2n (x.wants g) + b2n (x.has g) := by
  obtain ⟨pc, timed⟩ := x
  cases pc <;> simp [Thread.inG, Thread.wants, Thread.has]

theorem inG_mem {g : Nat} {x : Thread} (h : x.inG g = true) : x.mem g = true := by
  obtain ⟨pc, timed⟩ := x
  cases pc <;> simp_all [Thread.inG, Thread.mem]

theorem inG_inE {f : Nat → Entry} {g : Nat} {x : Thread} (h : x.inG g = true) : x.inE f (f g).epoch = true := by
  obtain ⟨pc, timed⟩ := x
  cases pc <;> simp_all [Thread.inG, Thread.inE]

/-- A thread waiting in entry `g`. -/
structure InOk (s : State) (q : Book) (t g : Nat) (x : Thread) : Prop where
  lt : g < s.ents
  inside : (q.ph t).isInside = true
  timed : (q.ph t).timed = x.timed
  noted : (q.ph t).noted = true ∨ (s.ent g).sem = 0
  listed : s.cur = some (s.ent g).epoch → g ∈ s.gens
  wake : g ∈ s.gens → (q.ph t).posts ≤ (q.ph t).wakes + s.wake (s.ent g).epoch
  sem : g ∈ s.gens → (q.ph t).posts ≤ (q.ph t).wakes + (s.ent g).sem + cnt (Thread.has g) s.ts

/-- What holds of one thread. -/
def ThreadOk (s : State) (q : Book) (t : Nat) (x : Thread) : Prop :=
  match x.pc with
  | .idle | .acting _ => q.ph t = .away
  | .holding g => s.mutex = some t ∧ InOk s q t g x
  | .sem g => InOk s q t g x
  | .try_ g => InOk s q t g x ∧ (q.ph t).noted = true
  | .remove g o => g < s.ents ∧ (q.ph t).ends o = true
  | .relock o => (q.ph t).ends o = true

structure Rel (s : State) (q : Book) : Prop where
  owner : q.owner = s.mutex
  thread : ∀ (t : Nat) (x : Thread), s.ts[t]? = some x → ThreadOk s q t x
  waiters : ∀ g, g < s.ents → (s.ent g).waiters = cnt (Thread.mem g) s.ts
  fresh : ∀ g, g < s.ents → (s.ent g).notified = false → (s.ent g).sem = 0
  epoch : ∀ g, g < s.ents → (s.ent g).epoch < s.epochs
  gens : ∀ g, g ∈ s.gens → g < s.ents ∧ s.cur = some (s.ent g).epoch ∧ (s.ent g).sem + s.total ≤ q.entered ∧ (s.ent g).waiters ≤ q.entered ∧
    cnt (Thread.inG g) s.ts ≤ (s.ent g).sem + cnt (Thread.has g) s.ts + s.total
  cur : ∀ e, s.cur = some e → e < s.epochs ∧ s.total + s.wake e ≤ q.entered ∧ cnt (Thread.inE s.ent e) s.ts ≤ s.total + s.wake e
  none : s.cur = none → s.total = 0
  oldSem : ∀ g, g < s.ents → s.cur ≠ some (s.ent g).epoch → cnt (Thread.wants g) s.ts ≤ (s.ent g).sem
  oldWake : ∀ e, e < s.epochs → s.cur ≠ some e → cnt (Thread.inE s.ent e) s.ts ≤ s.wake e

theorem Rel.init (n : Nat) : Rel (init n) Book.init := by
  constructor <;> simp [WinCondVar.init, Book.init]
  rintro t x h
  simp only [List.getElem?_replicate] at h
  split at h <;> cases h
  rfl

theorem cnt_congr_mem {f g : Thread → Bool} {ts : List Thread} (h : ∀ (t : Nat) (x : Thread), ts[t]? = some x → f x = g x) : cnt f ts = cnt g ts := by
  induction ts with
  | nil => rfl
  | cons a ts ih =>
    simp only [cnt_cons]
    rw [h 0 a rfl, ih (fun t x hx => h (t + 1) x hx)]

theorem get_set {ts : List Thread} {t u : Nat} {x x' y : Thread} (hx : ts[t]? = some x) (hy : (ts.set t x')[u]? = some y) :
    (u = t ∧ y = x') ∨ (u ≠ t ∧ ts[u]? = some y) := by
  by_cases hut : u = t
  · subst hut; simp [getElem?_set_eq hx] at hy; exact Or.inl ⟨rfl, hy.symm⟩
  · rw [List.getElem?_set_ne (Ne.symm hut)] at hy; exact Or.inr ⟨hut, hy⟩

theorem follows_ok {P : Book → Prop} {q q' : Book} {e : Event} (hs : specNext q e = .ok q') (hP : P q') :
    Follows specNext P q [e] := by
  simp only [Follows, hs]; exact hP

/-- A waiting thread is waiting in some entry. -/
theorem ThreadOk.inOk {s : State} {q : Book} {t g : Nat} {x : Thread} (h : ThreadOk s q t x) (hg : x.inG g = true) : InOk s q t g x := by
  obtain ⟨pc, timed⟩ := x
  cases pc <;> simp_all [Thread.inG, ThreadOk]

/-- What a thread's facts depend on, when the books about it stay the same. -/
theorem ThreadOk.mono {s s' : State} {q q' : Book} {t : Nat} {x : Thread} (h : ThreadOk s q t x)
    (hm : (∃ g, x.pc = .holding g) → s'.mutex = s.mutex) (he : s.ents ≤ s'.ents)
    (hp : q'.ph t = q.ph t)
    (hin : ∀ g, x.inG g = true → InOk s q t g x → InOk s' q' t g x) : ThreadOk s' q' t x := by
  obtain ⟨pc, timed⟩ := x
  cases pc <;> simp only [ThreadOk, hp] at h ⊢
  · exact h
  · exact ⟨by rw [hm ⟨_, rfl⟩]; exact h.1, hin _ (by simp [Thread.inG]) h.2⟩
  · exact hin _ (by simp [Thread.inG]) h
  · exact ⟨hin _ (by simp [Thread.inG]) h.1, h.2⟩
  · exact ⟨by omega, h.2⟩
  · exact h
  · exact h

theorem mutex_follows {s : State} {q : Book} (R : Rel s q) (m : Option Nat)
    (hm : ∀ (t : Nat) (x : Thread) (g : Nat), s.ts[t]? = some x → x.pc = .holding g → m = some t) : Rel { s with mutex := m } { q with owner := m } := by
  obtain ⟨R1, R2, R3, R4, R5, R6, R7, R8, R9, R10⟩ := R
  refine ⟨rfl, ?_, R3, R4, R5, R6, R7, R8, R9, R10⟩
  intro t x hx
  refine (R2 t x hx).mono ?_ (Nat.le_refl _) rfl ?_
  · rintro ⟨g, hg⟩
    have := hm t x g hx hg
    have h2 := R2 t x hx
    simp only [ThreadOk, hg] at h2
    rw [this]; exact h2.1.symm
  · rintro g - ⟨h1, h2, h3, h4, h5, h6, h7⟩
    exact ⟨h1, h2, h3, h4, h5, h6, h7⟩

/-- One thread moves, `total`, the entries' epochs and lists stay. -/
theorem Rel.move {s : State} {q : Book} {t : Nat} {x : Thread} (R : Rel s q) (hx : s.ts[t]? = some x) {x' : Thread} {m : Option Nat} {q' : Book}
    {ent : Nat → Entry} {wake : Nat → Nat}
    (hq : q'.owner = m) (hqe : q'.entered = q.entered)
    (hep : ∀ g, (ent g).epoch = (s.ent g).epoch) (hno : ∀ g, (ent g).notified = (s.ent g).notified)
    (hse : ∀ g, (ent g).sem ≤ (s.ent g).sem)
    (hwa : ∀ g, (ent g).waiters + b2n (x.mem g) = (s.ent g).waiters + b2n (x'.mem g))
    (hwl : ∀ g, b2n (x'.mem g) ≤ b2n (x.mem g))
    (hwk : ∀ e, wake e ≤ s.wake e)
    (hC : ∀ g, g ∈ s.gens → (b2n (x'.inG g) + (s.ent g).sem + b2n (x.has g) ≤ b2n (x.inG g) + (ent g).sem + b2n (x'.has g)) ∨
      (s.wake (s.ent g).epoch = 0 ∧ x'.inG g = x.inG g))
    (hD : ∀ e, b2n (x'.inE s.ent e) + s.wake e ≤ b2n (x.inE s.ent e) + wake e)
    (hO : ∀ g, g < s.ents → s.cur ≠ some (s.ent g).epoch → b2n (x'.wants g) + (s.ent g).sem ≤ b2n (x.wants g) + (ent g).sem)
    (hself : ThreadOk { s with mutex := m, ent := ent, wake := wake, ts := s.ts.set t x' } q' t x')
    (hm : ∀ (u : Nat) (y : Thread) (g : Nat), u ≠ t → s.ts[u]? = some y → y.pc = .holding g → m = s.mutex)
    (hph : (∀ u, u ≠ t → q'.ph u = q.ph u ∧
        ∀ g, g ∈ s.gens → (q.ph u).posts ≤ (q.ph u).wakes + s.wake (s.ent g).epoch → (q.ph u).posts ≤ (q.ph u).wakes + (s.ent g).sem + cnt (Thread.has g) s.ts →
          (q.ph u).posts ≤ (q.ph u).wakes + wake (s.ent g).epoch ∧
          (q.ph u).posts + b2n (x.has g) ≤ (q.ph u).wakes + (ent g).sem + cnt (Thread.has g) s.ts + b2n (x'.has g)) ∨
      (∀ u, u ≠ t → q'.ph u = (q.ph u).sawWake ∧ ∀ g, (s.ent g).sem + b2n (x.has g) ≤ (ent g).sem + b2n (x'.has g) + 1 ∧
        s.wake (s.ent g).epoch ≤ wake (s.ent g).epoch + 1)) :
    Rel { s with mutex := m, ent := ent, wake := wake, ts := s.ts.set t x' } q' := by
  have hE : ∀ e (y : Thread), y.inE ent e = y.inE s.ent e := by
    intro e y
    obtain ⟨pc, timed⟩ := y
    cases pc <;> simp [Thread.inE, hep]
  have cE : ∀ e, cnt (Thread.inE ent e) (s.ts.set t x') = cnt (Thread.inE s.ent e) (s.ts.set t x') := fun e => cnt_congr _ (hE e)
  have c1 := fun g => cnt_set (Thread.mem g) x' hx
  have c2 := fun g => cnt_set (Thread.inG g) x' hx
  have c3 := fun g => cnt_set (Thread.wants g) x' hx
  have c4 := fun g => cnt_set (Thread.has g) x' hx
  have c5 := fun e => cnt_set (Thread.inE s.ent e) x' hx
  have c6 : ∀ g, cnt (Thread.inG g) s.ts ≤ cnt (Thread.inE s.ent (s.ent g).epoch) s.ts := fun g => cnt_le _ (fun y hy => inG_inE hy)
  obtain ⟨R1, R2, R3, R4, R5, R6, R7, R8, R9, R10⟩ := R
  refine ⟨hq, ?_, ?_, ?_, ?_, ?_, ?_, R8, ?_, ?_⟩
  · intro u y hy
    rcases get_set hx hy with ⟨rfl, rfl⟩ | ⟨h1, h2⟩
    · exact hself
    · have h3 := R2 u y h2
      rcases hph with hph | hph
      · refine h3.mono (fun ⟨g, hg⟩ => hm u y g h1 h2 hg) (Nat.le_refl _) (hph u h1).1 ?_
        rintro g - ⟨i1, i2, i3, i4, i5, i6, i7⟩
        refine ⟨i1, by rw [(hph u h1).1]; exact i2, by rw [(hph u h1).1]; exact i3, ?_, by simpa only [hep] using i5, ?_, ?_⟩
        · rw [(hph u h1).1]
          have := hse g
          rcases i4 with i4 | i4
          · exact Or.inl i4
          · right; simp only; omega
        · intro hg
          have := ((hph u h1).2 g hg (i6 hg) (i7 hg)).1
          simp only [hep, (hph u h1).1]; exact this
        · intro hg
          have := ((hph u h1).2 g hg (i6 hg) (i7 hg)).2
          have := c4 g
          simp only [(hph u h1).1]; omega
      · obtain ⟨hp, hp'⟩ := hph u h1
        have hin : ∀ g, InOk s q u g y → InOk { s with mutex := m, ent := ent, wake := wake, ts := s.ts.set t x' } q' u g y := by
          rintro g ⟨i1, i2, i3, i4, i5, i6, i7⟩
          have e1 : (q'.ph u).posts = (q.ph u).posts := by rw [hp]; cases q.ph u <;> rfl
          have e2 : (q'.ph u).wakes = (q.ph u).wakes + 1 := by rw [hp]; cases hh : q.ph u <;> simp_all [Phase.sawWake, Phase.wakes, Phase.isInside]
          have e3 : (q'.ph u).noted = (q.ph u).noted := by rw [hp]; cases q.ph u <;> rfl
          have e4 : (q'.ph u).isInside = (q.ph u).isInside := by rw [hp]; cases q.ph u <;> rfl
          have e5 : (q'.ph u).timed = (q.ph u).timed := by rw [hp]; cases q.ph u <;> rfl
          refine ⟨i1, by rw [e4]; exact i2, by rw [e5]; exact i3, ?_, by simpa only [hep] using i5, ?_, ?_⟩
          · have := hse g
            rw [e3]
            rcases i4 with i4 | i4
            · exact Or.inl i4
            · right; simp only; omega
          · intro hg
            have := i6 hg
            have := (hp' g).2
            simp only [hep, e1, e2]; omega
          · intro hg
            have := i7 hg
            have := (hp' g).1
            have := c4 g
            simp only [e1, e2]; omega
        have hends : ∀ o, (q.ph u).ends o = true → (q'.ph u).ends o = true := by
          intro o; rw [hp]; cases q.ph u <;> cases o <;> simp [Phase.ends, Phase.sawWake, Phase.timed, Phase.isInside]
        have hno' : (q.ph u).noted = true → (q'.ph u).noted = true := by
          rw [hp]; cases q.ph u <;> simp [Phase.sawWake, Phase.noted]
        obtain ⟨pc, timed⟩ := y
        cases pc <;> simp only [ThreadOk] at h3 ⊢
        · rw [hp, h3]; rfl
        · exact ⟨by rw [hm u _ _ h1 h2 rfl]; exact h3.1, hin _ h3.2⟩
        · exact hin _ h3
        · exact ⟨hin _ h3.1, hno' h3.2⟩
        · exact ⟨h3.1, hends _ h3.2⟩
        · exact hends _ h3
        · rw [hp, h3]; rfl
  · intro g hg
    have := R3 g hg
    have := hwa g
    have := c1 g
    simp only at *; omega
  · intro g hg hn
    have := R4 g hg (by rw [← hno]; exact hn)
    have := hse g
    simp only at *; omega
  · intro g hg; simp only [hep]; exact R5 g hg
  · intro g hg
    obtain ⟨h1, h2, h3, h4, h5⟩ := R6 g hg
    have a1 := hse g
    have a2 := hwa g
    have a3 := hwl g
    have a4 := c2 g
    have a5 := c4 g
    have a6 := hC g hg
    have a7 := (R7 _ h2).2.2
    have a8 := c6 g
    refine ⟨h1, by simpa only [hep] using h2, by simp only [hqe]; omega, by simp only [hqe]; omega, ?_⟩
    simp only
    rcases a6 with a6 | ⟨a6, a9⟩
    · omega
    · rw [a9] at a4; omega
  · intro e he
    obtain ⟨h1, h2, h3⟩ := R7 e he
    have := hwk e
    have := hD e
    have := c5 e
    refine ⟨h1, by simp only [hqe]; omega, ?_⟩
    simp only [cE]; omega
  · intro g hg hc
    simp only [hep] at hc
    have := R9 g hg hc
    have := hO g hg hc
    have := c3 g
    simp only; omega
  · intro e he hc
    have := R10 e he hc
    have := hD e
    have := c5 e
    simp only [cE]; omega

end Verif.WinCondVar
