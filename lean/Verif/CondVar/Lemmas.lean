import Verif.CondVar.Spec
/-!
# Invariant and simulation for condition variables and interruption
-/

namespace Verif.CondVar

theorem set_get {α : Type} {l : List α} {t r : Nat} {x x' : α} (h : l[t]? = some x) :
    (l.set t x')[r]? = if r = t then some x' else l[r]? := by
  rw [getElem?_set_eq h]
  by_cases e : t = r
  · rw [if_pos e, if_pos e.symm]
  · rw [if_neg e, if_neg (fun h => e h.symm)]

def absPC : PC → Phase
  | .w3 c m _ timed => .waiting c m timed
  | .asleep c m _ timed => .waiting c m timed
  | .woke _ m _ to => .woken m to
  | .clr _ m to => .woken m to
  | .relock m to => .woken m to
  | .ip m to => .back m to
  | _ => .out

def absScope : Scope → Option Bool
  | .dis w => some w
  | .res => none

def absT (x : Thr) : SThr := { phase := absPC x.pc, pending := x.rq, enabled := x.en, scopes := x.scopes.map absScope }

def abs (s : State) : SState := { ts := s.ts.map absT, mx := s.mx }

/-- The value of `current_cond`. -/
def curOf : PC → Option Nat
  | .w1 c _ true _ => some c
  | .w2 c _ true _ => some c
  | .w3 c _ true _ => some c
  | .asleep c _ true _ => some c
  | .woke c _ true _ => some c
  | .clr c _ _ => some c
  | _ => none

/-- The value of `set`, where it matters. -/
def setOf : PC → Option Bool
  | .w0 _ _ b _ => some b
  | .w1 _ _ b _ => some b
  | .w2 _ _ b _ => some b
  | .w3 _ _ b _ => some b
  | .asleep _ _ b _ => some b
  | .woke _ _ b _ => some b
  | .clr _ _ _ => some true
  | _ => none

/-- The user mutex which the thread owns on behalf of `wait`. -/
def ownOf : PC → Option Nat
  | .w0 _ m _ _ => some m
  | .w1 _ m _ _ => some m
  | .w2 _ m _ _ => some m
  | .ip m _ => some m
  | _ => none

/-- The user mutex which the thread has given up inside `wait`. -/
def awayOf : PC → Option Nat
  | .w3 _ m _ _ => some m
  | .asleep _ m _ _ => some m
  | .woke _ m _ _ => some m
  | .clr _ m _ => some m
  | .relock m _ => some m
  | _ => none

/-- The internal mutex which the thread holds. -/
def imOf : PC → Option Nat
  | .w2 c _ _ _ => some c
  | .w3 c _ _ _ => some c
  | _ => none

/-- Registered and not woken. -/
def deaf : PC → Bool
  | .w2 _ _ true _ => true
  | .w3 _ _ true _ => true
  | .asleep _ _ true _ => true
  | _ => false

def isW1 : PC → Bool
  | .w1 _ _ true _ => true
  | _ => false

def isI1 : PC → Bool
  | .i1 _ _ => true
  | _ => false

structure Loc (mx im : Nat → Option Nat) (t : Nat) (x : Thr) : Prop where
  cur : x.cur = curOf x.pc
  set : ∀ b, setOf x.pc = some b → b = x.en
  own : ∀ m, ownOf x.pc = some m → mx m = some t
  im : ∀ c, imOf x.pc = some c → im c = some t
  lost : deaf x.pc = true → x.rq = true → x.dm ≠ none
  w1 : isW1 x.pc = true → x.dm = some t ∧ x.rq = false
  away : ∀ m, awayOf x.pc = some m → mx m ≠ some t

structure Inv (s : State) : Prop where
  loc : ∀ (t : Nat) x, s.ts[t]? = some x → Loc s.mx s.im t x
  im : ∀ c (t : Nat), s.im c = some t → ∃ x, s.ts[t]? = some x ∧ imOf x.pc = some c
  dm : ∀ (u : Nat) y (t : Nat), s.ts[u]? = some y → y.dm = some t →
    ∃ x, s.ts[t]? = some x ∧ (t = u ∧ isW1 x.pc = true ∨ ∃ c, x.pc = .i1 u c)
  i1 : ∀ (t : Nat) x u c, s.ts[t]? = some x → x.pc = .i1 u c →
    t ≠ u ∧ ∃ y, s.ts[u]? = some y ∧ y.dm = some t ∧ y.cur = some c

theorem Loc.mono {mx im mx' im' : Nat → Option Nat} {t : Nat} {x : Thr} (h : Loc mx im t x)
    (hm : ∀ m, mx' m = some t ↔ mx m = some t) (hi : ∀ c, im c = some t → im' c = some t) : Loc mx' im' t x :=
  { h with own := fun m e => (hm m).2 (h.own m e), im := fun c e => hi c (h.im c e), away := fun m e a => h.away m e ((hm m).1 a) }

theorem init_inv (n : Nat) : Inv (init n) where
  loc := by
    intro t x h
    simp only [init, List.getElem?_replicate] at h
    split at h
    · injection h with h; subst h
      constructor <;> simp [Thr.new, curOf, setOf, ownOf, imOf, deaf, isW1, awayOf]
    · simp at h
  im := by intro c t h; simp [init] at h
  dm := by
    intro u y t h hd
    simp only [init, List.getElem?_replicate] at h
    split at h
    · injection h with h; subst h; simp [Thr.new] at hd
    · simp at h
  i1 := by
    intro t x u c h hp
    simp only [init, List.getElem?_replicate] at h
    split at h
    · injection h with h; subst h; simp [Thr.new] at hp
    · simp at h

/-- One thread's record changes, and possibly the mutexes it has to do with. -/
theorem Inv.move {s s' : State} {t : Nat} {x x' : Thr} (h : Inv s) (ht : s.ts[t]? = some x) (hts : s'.ts = s.ts.set t x')
    (hl : Loc s'.mx s'.im t x')
    (hm : ∀ r, r ≠ t → ∀ m, s'.mx m = some r ↔ s.mx m = some r)
    (hi : ∀ r, r ≠ t → ∀ c, s.im c = some r → s'.im c = some r)
    (him : ∀ c r, s'.im c = some r → (r = t ∧ imOf x'.pc = some c) ∨ (r ≠ t ∧ s.im c = some r))
    (hd : ∀ r, x'.dm = some r → (r = t ∧ isW1 x'.pc = true) ∨ (r ≠ t ∧ x.dm = some r))
    (hn : isI1 x.pc = false) (hn' : isI1 x'.pc = false)
    (hk : ∀ r, r ≠ t → x.dm = some r → x'.dm = x.dm ∧ x'.cur = x.cur) : Inv s' := by
  have get : ∀ (r : Nat) y, s'.ts[r]? = some y → (r = t ∧ y = x') ∨ (r ≠ t ∧ s.ts[r]? = some y) := by
    intro r y hr
    rw [hts, set_get ht] at hr
    split at hr
    · injection hr with hr; exact .inl ⟨by assumption, hr.symm⟩
    · exact .inr ⟨by assumption, hr⟩
  have put : ∀ (r : Nat) y, r ≠ t → s.ts[r]? = some y → s'.ts[r]? = some y := by
    intro r y hne hr; rw [hts, set_get ht, if_neg hne]; exact hr
  have self : s'.ts[t]? = some x' := by rw [hts, set_get ht, if_pos rfl]
  refine ⟨?_, ?_, ?_, ?_⟩
  · intro r y hr
    rcases get r y hr with ⟨rfl, rfl⟩ | ⟨hne, hr⟩
    · exact hl
    · exact (h.loc r y hr).mono (hm r hne) (hi r hne)
  · intro c r hc
    rcases him c r hc with ⟨rfl, e⟩ | ⟨hne, e⟩
    · exact ⟨x', self, e⟩
    · obtain ⟨y, hy, e⟩ := h.im c r e
      exact ⟨y, put r y hne hy, e⟩
  · intro u y r hu hr
    rcases get u y hu with ⟨rfl, rfl⟩ | ⟨hne, hu⟩
    · rcases hd r hr with ⟨rfl, e⟩ | ⟨hne, e⟩
      · exact ⟨_, self, .inl ⟨rfl, e⟩⟩
      · obtain ⟨z, hz, e⟩ := h.dm u x r ht e
        exact ⟨z, put r z hne hz, e⟩
    · obtain ⟨z, hz, e⟩ := h.dm u y r hu hr
      by_cases hrt : r = t
      · subst hrt
        rw [ht] at hz; injection hz with hz; subst hz
        rcases e with ⟨e, -⟩ | ⟨c, e⟩
        · exact absurd e.symm hne
        · rw [e] at hn; simp [isI1] at hn
      · exact ⟨z, put r z hrt hz, e⟩
  · intro r y u c hr hp
    rcases get r y hr with ⟨rfl, rfl⟩ | ⟨hne, hr⟩
    · rw [hp] at hn'; simp [isI1] at hn'
    · obtain ⟨h1, z, hz, h2, h3⟩ := h.i1 r y u c hr hp
      refine ⟨h1, ?_⟩
      by_cases hut : u = t
      · subst hut
        rw [ht] at hz; injection hz with hz; subst hz
        obtain ⟨e1, e2⟩ := hk r hne h2
        exact ⟨x', self, by rw [e1]; exact h2, by rw [e2]; exact h3⟩
      · exact ⟨z, put u z hut hz, h2, h3⟩

@[simp] theorem wake_dm (c : Nat) (x : Thr) : (wake c x).dm = x.dm := by unfold wake; split <;> (try split) <;> rfl
@[simp] theorem wake_cur (c : Nat) (x : Thr) : (wake c x).cur = x.cur := by unfold wake; split <;> (try split) <;> rfl
@[simp] theorem wake_rq (c : Nat) (x : Thr) : (wake c x).rq = x.rq := by unfold wake; split <;> (try split) <;> rfl
@[simp] theorem wake_en (c : Nat) (x : Thr) : (wake c x).en = x.en := by unfold wake; split <;> (try split) <;> rfl
@[simp] theorem wake_imOf (c : Nat) (x : Thr) : imOf (wake c x).pc = imOf x.pc := by
  unfold wake; split
  · rename_i h; split <;> simp [h, imOf]
  · rfl
@[simp] theorem wake_ownOf (c : Nat) (x : Thr) : ownOf (wake c x).pc = ownOf x.pc := by
  unfold wake; split
  · rename_i h; split <;> simp [h, ownOf]
  · rfl
@[simp] theorem wake_awayOf (c : Nat) (x : Thr) : awayOf (wake c x).pc = awayOf x.pc := by
  unfold wake; split
  · rename_i h; split <;> simp [h, awayOf]
  · rfl
@[simp] theorem wake_setOf (c : Nat) (x : Thr) : setOf (wake c x).pc = setOf x.pc := by
  unfold wake; split
  · rename_i h; split <;> simp [h, setOf]
  · rfl
@[simp] theorem wake_isW1 (c : Nat) (x : Thr) : isW1 (wake c x).pc = isW1 x.pc := by
  unfold wake; split
  · rename_i h; split <;> simp [h, isW1]
  · rfl
@[simp] theorem wake_isI1 (c : Nat) (x : Thr) : isI1 (wake c x).pc = isI1 x.pc := by
  unfold wake; split
  · rename_i h; split <;> simp [h, isI1]
  · rfl
@[simp] theorem wake_curOf (c : Nat) (x : Thr) : curOf (wake c x).pc = curOf x.pc := by
  unfold wake; split
  · rename_i c' m set to h; split
    · rename_i e; subst e; cases set <;> simp [h, curOf]
    · rfl
  · rfl
theorem wake_i1 {c : Nat} {x : Thr} {u d : Nat} : (wake c x).pc = .i1 u d ↔ x.pc = .i1 u d := by
  unfold wake; split
  · rename_i h; split <;> simp [h]
  · rfl
theorem wake_deaf {c : Nat} {x : Thr} (h : deaf (wake c x).pc = true) : deaf x.pc = true := by
  unfold wake at h; split at h
  · rename_i c' m set to e; split at h
    · simp [deaf] at h
    · exact h
  · exact h

theorem Loc.wake {mx im : Nat → Option Nat} {t : Nat} {x : Thr} (c : Nat) (h : Loc mx im t x) : Loc mx im t (wake c x) where
  cur := by simpa using h.cur
  set := by simpa using h.set
  own := by simpa using h.own
  im := by simpa using h.im
  lost := by intro a b; have := h.lost (wake_deaf a) (by simpa using b); simpa using this
  w1 := by simpa using h.w1
  away := by simpa using h.away

theorem Inv.wakeAll {s : State} (c : Nat) (h : Inv s) : Inv { s with ts := s.ts.map (wake c) } where
  loc := by
    intro t x ht
    simp only [List.getElem?_map, Option.map_eq_some_iff] at ht
    obtain ⟨y, hy, rfl⟩ := ht
    exact (h.loc t y hy).wake c
  im := by
    intro d t hd
    obtain ⟨x, hx, e⟩ := h.im d t hd
    exact ⟨wake c x, by simp [hx], by simpa using e⟩
  dm := by
    intro u y t hu hd
    simp only [List.getElem?_map, Option.map_eq_some_iff] at hu
    obtain ⟨y, hy, rfl⟩ := hu
    obtain ⟨x, hx, e⟩ := h.dm u y t hy (by simpa using hd)
    refine ⟨wake c x, by simp [hx], ?_⟩
    rcases e with ⟨e1, e2⟩ | ⟨d, e⟩
    · exact .inl ⟨e1, by simpa using e2⟩
    · exact .inr ⟨d, wake_i1.2 e⟩
  i1 := by
    intro t x u d ht hp
    simp only [List.getElem?_map, Option.map_eq_some_iff] at ht
    obtain ⟨x, hx, rfl⟩ := ht
    obtain ⟨h1, y, hy, h2, h3⟩ := h.i1 t x u d hx (wake_i1.1 hp)
    exact ⟨h1, wake c y, by simp [hy], by simpa using h2, by simpa using h3⟩

/-- `interrupt()` begins: it takes the target's `data_mutex`. -/
theorem Inv.beginInterrupt {s : State} {t u c : Nat} {x y : Thr} (h : Inv s) (ht : s.ts[t]? = some x) (hu : s.ts[u]? = some y)
    (hne : t ≠ u) (hp : x.pc = .idle) (hd : y.dm = none) (hc : y.cur = some c) :
    Inv (setT (setT s u { y with rq := true, dm := some t }) t (x.at (.i1 u c))) := by
  have hut : u ≠ t := fun e => hne e.symm
  have ht' : (s.ts.set u { y with rq := true, dm := some t })[t]? = some x := by rw [set_get hu, if_neg hne]; exact ht
  have get : ∀ (r : Nat) z, ((s.ts.set u { y with rq := true, dm := some t }).set t (x.at (.i1 u c)))[r]? = some z →
      (r = t ∧ z = x.at (.i1 u c)) ∨ (r = u ∧ z = { y with rq := true, dm := some t }) ∨ (r ≠ t ∧ r ≠ u ∧ s.ts[r]? = some z) := by
    intro r z hr
    rw [set_get ht'] at hr
    split at hr
    · injection hr with hr; exact .inl ⟨by assumption, hr.symm⟩
    · rw [set_get hu] at hr
      split at hr
      · injection hr with hr; exact .inr (.inl ⟨by assumption, hr.symm⟩)
      · exact .inr (.inr ⟨by assumption, by assumption, hr⟩)
  have selft : ((s.ts.set u { y with rq := true, dm := some t }).set t (x.at (.i1 u c)))[t]? = some (x.at (.i1 u c)) := by
    rw [set_get ht', if_pos rfl]
  have selfu : ((s.ts.set u { y with rq := true, dm := some t }).set t (x.at (.i1 u c)))[u]? = some { y with rq := true, dm := some t } := by
    rw [set_get ht', if_neg hut, set_get hu, if_pos rfl]
  have put : ∀ (r : Nat) z, r ≠ t → r ≠ u → s.ts[r]? = some z →
      ((s.ts.set u { y with rq := true, dm := some t }).set t (x.at (.i1 u c)))[r]? = some z := by
    intro r z h1 h2 hr; rw [set_get ht', if_neg h1, set_get hu, if_neg h2]; exact hr
  have lx := h.loc t x ht
  have ly := h.loc u y hu
  refine ⟨?_, ?_, ?_, ?_⟩
  · intro r z hr
    rcases get r z hr with ⟨rfl, rfl⟩ | ⟨rfl, rfl⟩ | ⟨-, -, hr⟩
    · constructor <;> simp [Thr.at, curOf, setOf, ownOf, imOf, deaf, isW1, awayOf]
      rw [lx.cur, hp]; rfl
    · refine ⟨ly.cur, ly.set, ly.own, ly.im, by simp, fun e => ?_, ly.away⟩
      have := (ly.w1 e).1
      rw [hd] at this; exact absurd this (by simp)
    · exact h.loc r z hr
  · intro d r hr
    obtain ⟨z, hz, e⟩ := h.im d r hr
    by_cases h1 : r = t
    · subst h1; rw [ht] at hz; injection hz with hz; subst hz; rw [hp] at e; simp [imOf] at e
    · by_cases h2 : r = u
      · subst h2; rw [hu] at hz; injection hz with hz; subst hz
        exact ⟨_, selfu, e⟩
      · exact ⟨z, put r z h1 h2 hz, e⟩
  · intro v z r hv hr
    rcases get v z hv with ⟨rfl, rfl⟩ | ⟨rfl, rfl⟩ | ⟨h1, h2, hv⟩
    · obtain ⟨w, hw, e⟩ := h.dm v x r ht hr
      by_cases h1 : r = v
      · subst h1; rw [ht] at hw; injection hw with hw; subst hw
        rcases e with ⟨-, e⟩ | ⟨d, e⟩ <;> rw [hp] at e <;> simp [isW1] at e
      · by_cases h2 : r = u
        · subst h2; rw [hu] at hw; injection hw with hw; subst hw
          rcases e with ⟨e, -⟩ | ⟨d, e⟩
          · exact absurd e hut
          · exact ⟨_, selfu, .inr ⟨d, e⟩⟩
        · exact ⟨w, put r w h1 h2 hw, e⟩
    · injection hr with hr; subst hr
      exact ⟨_, selft, .inr ⟨c, rfl⟩⟩
    · obtain ⟨w, hw, e⟩ := h.dm v z r hv hr
      by_cases h3 : r = t
      · subst h3; rw [ht] at hw; injection hw with hw; subst hw
        rcases e with ⟨-, e⟩ | ⟨d, e⟩ <;> rw [hp] at e <;> simp [isW1] at e
      · by_cases h4 : r = u
        · subst h4; rw [hu] at hw; injection hw with hw; subst hw
          exact ⟨_, selfu, e⟩
        · exact ⟨w, put r w h3 h4 hw, e⟩
  · intro r z v d hr hz
    rcases get r z hr with ⟨rfl, rfl⟩ | ⟨rfl, rfl⟩ | ⟨h1, h2, hr⟩
    · simp only [Thr.at, PC.i1.injEq] at hz
      obtain ⟨rfl, rfl⟩ := hz
      exact ⟨hne, _, selfu, rfl, hc⟩
    · obtain ⟨-, -, -, -, e⟩ := h.i1 r y v d hu hz
      have := ly.cur
      rw [hz, hc] at this; simp [curOf] at this
    · obtain ⟨h3, w, hw, h4, h5⟩ := h.i1 r z v d hr hz
      refine ⟨h3, ?_⟩
      by_cases h6 : v = t
      · subst h6; rw [ht] at hw; injection hw with hw; subst hw
        exact ⟨_, selft, h4, h5⟩
      · by_cases h7 : v = u
        · subst h7; rw [hu] at hw; injection hw with hw; subst hw
          rw [hd] at h4; exact absurd h4 (by simp)
        · exact ⟨w, put v w h6 h7 hw, h4, h5⟩

/-- `interrupt()` ends after its broadcast: it releases the target's `data_mutex`. -/
theorem Inv.endInterrupt {s : State} {t u c : Nat} {x y : Thr} (h : Inv s) (ht : s.ts[t]? = some x) (hu : s.ts[u]? = some y)
    (hp : x.pc = .i1 u c) (hdeaf : deaf y.pc = false) :
    Inv { s with ts := (s.ts.set u { y with dm := none }).set t (x.at .idle) } := by
  obtain ⟨hne, y', hy', hd, hc⟩ := h.i1 t x u c ht hp
  rw [hu] at hy'; injection hy' with hy'; subst hy'
  have hut : u ≠ t := fun e => hne e.symm
  have ht' : (s.ts.set u { y with dm := none })[t]? = some x := by rw [set_get hu, if_neg hne]; exact ht
  have get : ∀ (r : Nat) z, ((s.ts.set u { y with dm := none }).set t (x.at .idle))[r]? = some z →
      (r = t ∧ z = x.at .idle) ∨ (r = u ∧ z = { y with dm := none }) ∨ (r ≠ t ∧ r ≠ u ∧ s.ts[r]? = some z) := by
    intro r z hr
    rw [set_get ht'] at hr
    split at hr
    · injection hr with hr; exact .inl ⟨by assumption, hr.symm⟩
    · rw [set_get hu] at hr
      split at hr
      · injection hr with hr; exact .inr (.inl ⟨by assumption, hr.symm⟩)
      · exact .inr (.inr ⟨by assumption, by assumption, hr⟩)
  have selft : ((s.ts.set u { y with dm := none }).set t (x.at .idle))[t]? = some (x.at .idle) := by
    rw [set_get ht', if_pos rfl]
  have selfu : ((s.ts.set u { y with dm := none }).set t (x.at .idle))[u]? = some { y with dm := none } := by
    rw [set_get ht', if_neg hut, set_get hu, if_pos rfl]
  have put : ∀ (r : Nat) z, r ≠ t → r ≠ u → s.ts[r]? = some z →
      ((s.ts.set u { y with dm := none }).set t (x.at .idle))[r]? = some z := by
    intro r z h1 h2 hr; rw [set_get ht', if_neg h1, set_get hu, if_neg h2]; exact hr
  have lx := h.loc t x ht
  have ly := h.loc u y hu
  refine ⟨?_, ?_, ?_, ?_⟩
  · intro r z hr
    rcases get r z hr with ⟨rfl, rfl⟩ | ⟨rfl, rfl⟩ | ⟨-, -, hr⟩
    · constructor <;> simp [Thr.at, curOf, setOf, ownOf, imOf, deaf, isW1, awayOf]
      rw [lx.cur, hp]; rfl
    · refine ⟨ly.cur, ly.set, ly.own, ly.im, fun e => ?_, fun e => ?_, ly.away⟩
      · rw [hdeaf] at e; simp at e
      · have := (ly.w1 e).1
        rw [hd] at this; injection this with this; exact absurd this hne
    · exact h.loc r z hr
  · intro d r hr
    obtain ⟨z, hz, e⟩ := h.im d r hr
    by_cases h1 : r = t
    · subst h1; rw [ht] at hz; injection hz with hz; subst hz; rw [hp] at e; simp [imOf] at e
    · by_cases h2 : r = u
      · subst h2; rw [hu] at hz; injection hz with hz; subst hz
        exact ⟨_, selfu, e⟩
      · exact ⟨z, put r z h1 h2 hz, e⟩
  · intro v z r hv hr
    have key : ∃ z', s.ts[v]? = some z' ∧ z'.dm = some r ∧ v ≠ u := by
      rcases get v z hv with ⟨rfl, rfl⟩ | ⟨rfl, rfl⟩ | ⟨h1, h2, hv⟩
      · exact ⟨x, ht, hr, hne⟩
      · simp at hr
      · exact ⟨z, hv, hr, h2⟩
    obtain ⟨z', hv', hr', hvu⟩ := key
    obtain ⟨w, hw, e⟩ := h.dm v z' r hv' hr'
    by_cases h3 : r = t
    · subst h3; rw [ht] at hw; injection hw with hw; subst hw
      rcases e with ⟨-, e⟩ | ⟨d, e⟩
      · rw [hp] at e; simp [isW1] at e
      · rw [hp] at e; injection e with e1 e2; exact absurd e1.symm hvu
    · by_cases h4 : r = u
      · subst h4; rw [hu] at hw; injection hw with hw; subst hw
        exact ⟨_, selfu, e⟩
      · exact ⟨w, put r w h3 h4 hw, e⟩
  · intro r z v d hr hz
    have key : ∃ z', s.ts[r]? = some z' ∧ z'.pc = .i1 v d ∧ r ≠ t := by
      rcases get r z hr with ⟨rfl, rfl⟩ | ⟨rfl, rfl⟩ | ⟨h1, h2, hr⟩
      · simp [Thr.at] at hz
      · exact ⟨y, hu, hz, hut⟩
      · exact ⟨z, hr, hz, h1⟩
    obtain ⟨z', hr', hz', hrt⟩ := key
    obtain ⟨h3, w, hw, h4, h5⟩ := h.i1 r z' v d hr' hz'
    refine ⟨h3, ?_⟩
    by_cases h6 : v = t
    · subst h6; rw [ht] at hw; injection hw with hw; subst hw
      exact ⟨_, selft, h4, h5⟩
    · by_cases h7 : v = u
      · subst h7; rw [hu] at hw; injection hw with hw; subst hw
        rw [hd] at h4; injection h4 with h4; exact absurd h4.symm hrt
      · exact ⟨w, put v w h6 h7 hw, h4, h5⟩

/-! ## Simulation -/

theorem abs_get {s : State} {t : Nat} {x : Thr} (h : s.ts[t]? = some x) : (abs s).ts[t]? = some (absT x) := by simp [abs, h]

theorem abs_set (s : State) (t : Nat) (x : Thr) : (abs s).set t (absT x) = abs (setT s t x) := by
  simp [abs, SState.set, setT, List.map_set]

theorem absT_wake {c : Nat} {x : Thr} (h : imOf x.pc ≠ some c) : absT (wake c x) = (absT x).wake c := by
  obtain ⟨pc, en, rq, cur, dm, sc⟩ := x
  cases pc <;> simp only [wake, SThr.wake, absT, absPC, imOf] at h ⊢
  case w3 c' m st tm => rw [if_neg (fun e => h (by rw [e]))]
  case asleep c' m st tm =>
    by_cases e : c' = c
    · rw [if_pos e, if_pos e]
    · rw [if_neg e, if_neg e]

theorem Inv.noIm {s : State} {c t : Nat} {x : Thr} (h : Inv s) (hc : s.im c = none) (ht : s.ts[t]? = some x) : imOf x.pc ≠ some c := by
  intro e
  have := (h.loc t x ht).im c e
  rw [hc] at this; simp at this

theorem abs_wakeAll {s : State} {c : Nat} (h : Inv s) (hc : s.im c = none) :
    { abs s with ts := (abs s).ts.map (SThr.wake c) } = abs { s with ts := s.ts.map (wake c) } := by
  simp only [abs, List.map_map, SState.mk.injEq, and_true]
  apply List.map_congr_left
  intro x hx
  obtain ⟨t, ht⟩ := List.mem_iff_getElem?.1 hx
  exact (absT_wake (h.noIm hc ht)).symm

theorem absT_waits {c : Nat} {x : Thr} (h : imOf x.pc ≠ some c) : (absT x).waits c = asleepOn c x := by
  unfold SThr.waits asleepOn absT
  cases hp : x.pc <;> simp only [absPC, hp, imOf] at h ⊢
  case w3 c' m st tm => simpa using h

theorem upd_self (f : Nat → Option Nat) (i : Nat) (v : Option Nat) : upd f i v i = v := by simp [upd]

theorem upd_ne {f : Nat → Option Nat} {i j : Nat} (v : Option Nat) (h : j ≠ i) : upd f i v j = f j := by simp [upd, h]

def Sim (s s' : State) (es : List Event) : Prop := Inv s' ∧ Follows next (· = abs s') (abs s) es

theorem Inv.dmIdle {s : State} {t : Nat} {x : Thr} (h : Inv s) (ht : s.ts[t]? = some x) (hw : isW1 x.pc = false) (hi : isI1 x.pc = false) :
    x.dm ≠ some t := by
  intro e
  obtain ⟨y, hy, r⟩ := h.dm t x t ht e
  rw [ht] at hy; injection hy with hy; subst hy
  rcases r with ⟨-, r⟩ | ⟨c, r⟩
  · rw [hw] at r; simp at r
  · rw [r] at hi; simp [isI1] at hi

/-- A step of thread `t` that touches no mutex which outlives the step. -/
theorem Inv.move1 {s : State} {t : Nat} {x x' : Thr} (h : Inv s) (ht : s.ts[t]? = some x)
    (hl : Loc s.mx s.im t x') (him : imOf x'.pc = imOf x.pc)
    (hw : isW1 x.pc = false) (hn : isI1 x.pc = false) (hn' : isI1 x'.pc = false)
    (hdm : x'.dm = x.dm) (hk : x.dm ≠ none → x'.cur = x.cur) : Inv (setT s t x') := by
  refine h.move ht rfl hl (fun r _ m => Iff.rfl) (fun r _ c e => e) ?_ ?_ hn hn' ?_
  · intro c r hc
    by_cases e : r = t
    · subst e
      obtain ⟨y, hy, e⟩ := h.im c r hc
      rw [ht] at hy; injection hy with hy; subst hy
      exact .inl ⟨rfl, by rw [him]; exact e⟩
    · exact .inr ⟨e, hc⟩
  · intro r hr
    rw [hdm] at hr
    by_cases e : r = t
    · subst e; exact absurd hr (h.dmIdle ht hw hn)
    · exact .inr ⟨e, hr⟩
  · intro r _ hr
    exact ⟨hdm, hk (by rw [hr]; simp)⟩

theorem abs_same {s s' : State} {t : Nat} {x x' : Thr} (ht : s.ts[t]? = some x) (hts : s'.ts = s.ts.set t x') (hmx : s'.mx = s.mx)
    (he : absT x' = absT x) : abs s = abs s' := by
  simp only [abs, hts, hmx, SState.mk.injEq, and_true]
  apply List.ext_getElem?
  intro i
  simp only [List.getElem?_map, set_get ht]
  split
  · rename_i e; subst e; simp [ht, he]
  · rfl

theorem abs_upd {s s' : State} {t : Nat} {x' : Thr} {mx : Nat → Option Nat} (hts : s'.ts = s.ts.set t x') (hmx : s'.mx = mx) :
    ({ (abs s).set t (absT x') with mx := mx } : SState) = abs s' := by
  simp [abs, SState.set, hts, hmx, List.map_set]

theorem follows_one {s s' : State} {e : Event} {q : SState} (h : next (abs s) e = .ok q) (hq : q = abs s') :
    Follows next (· = abs s') (abs s) [e] := by
  simp only [Follows, h]; exact hq

theorem sim_w0 {s s' : State} {t c m : Nat} {set timed en rq : Bool} {cur dm : Option Nat} {sc : List Scope} {es : List Event} (h : Inv s)
    (ht : s.ts[t]? = some ⟨.w0 c m set timed, en, rq, cur, dm, sc⟩)
    (hs : go s t ⟨.w0 c m set timed, en, rq, cur, dm, sc⟩ = some (s', es)) : Sim s s' es := by
  obtain ⟨lc, ls, lo, li, ll, lw, la⟩ := h.loc t _ ht
  simp only [curOf, setOf, ownOf, Option.some.injEq, forall_eq'] at lc ls lo
  subst lc ls
  simp only [go] at hs
  split at hs
  · rename_i hset; subst hset
    split at hs
    · rename_i hd; subst hd
      split at hs
      · rename_i hr; subst hr
        injection hs with hs; injection hs with h1 h2; subst h1 h2
        refine ⟨h.move1 ht ⟨?_, ?_, ?_, ?_, ?_, ?_, ?_⟩ rfl rfl rfl rfl rfl (fun _ => rfl), follows_one ?_ (abs_set _ _ _)⟩
        any_goals simp [curOf, setOf, ownOf, imOf, deaf, isW1, awayOf]
        simp [next, abs_get ht, absT, absPC, SThr.due, allow]
      · rename_i hr
        simp only [Bool.not_eq_true] at hr; subst hr
        injection hs with hs; injection hs with h1 h2; subst h1 h2
        refine ⟨h.move ht rfl ⟨?_, ?_, ?_, ?_, ?_, ?_, ?_⟩ (fun _ _ _ => Iff.rfl) (fun _ _ _ e => e) ?_ ?_ rfl rfl ?_, abs_same ht rfl rfl rfl⟩
        any_goals simp [curOf, setOf, ownOf, imOf, deaf, isW1, awayOf]
        · exact lo
        · intro d r hr
          refine ⟨fun e => ?_, hr⟩
          subst e
          obtain ⟨y, hy, e⟩ := h.im d r hr
          rw [ht] at hy; injection hy with hy; subst hy
          simp [imOf] at e
    · simp at hs
  · rename_i hset
    simp only [Bool.not_eq_true] at hset; subst hset
    injection hs with hs; injection hs with h1 h2; subst h1 h2
    refine ⟨h.move1 ht ⟨?_, ?_, ?_, ?_, ?_, ?_, ?_⟩ rfl rfl rfl rfl rfl (fun _ => rfl), abs_same ht rfl rfl rfl⟩
    any_goals simp [curOf, setOf, ownOf, imOf, deaf, isW1, awayOf, Thr.at]
    exact lo

theorem Inv.imNone {s : State} {t c : Nat} {x : Thr} (h : Inv s) (ht : s.ts[t]? = some x) (hi : imOf x.pc = none) : s.im c ≠ some t := by
  intro e
  obtain ⟨y, hy, r⟩ := h.im c t e
  rw [ht] at hy; injection hy with hy; subst hy
  rw [hi] at r; simp at r

theorem sim_w1 {s s' : State} {t c m : Nat} {set timed en rq : Bool} {cur dm : Option Nat} {sc : List Scope} {es : List Event} (h : Inv s)
    (ht : s.ts[t]? = some ⟨.w1 c m set timed, en, rq, cur, dm, sc⟩)
    (hs : go s t ⟨.w1 c m set timed, en, rq, cur, dm, sc⟩ = some (s', es)) : Sim s s' es := by
  obtain ⟨lc, ls, lo, li, ll, lw, la⟩ := h.loc t _ ht
  simp only [setOf, ownOf, Option.some.injEq, forall_eq'] at ls lo
  subst ls
  simp only at lc
  have hw : set = true → dm = some t ∧ rq = false := fun e => lw (by subst e; rfl)
  simp only [go] at hs
  split at hs
  · rename_i hc
    injection hs with hs; injection hs with h1 h2; subst h1 h2
    refine ⟨h.move ht rfl ⟨?_, ?_, ?_, ?_, ?_, ?_, ?_⟩ (fun _ _ _ => Iff.rfl) ?_ ?_ ?_ rfl rfl ?_, abs_same ht rfl rfl rfl⟩
    · rw [lc]; cases set <;> rfl
    · simp [setOf]
    · simpa [ownOf, setT] using lo
    · simp [imOf, upd]
    · intro hd hr
      simp only at hr
      cases set
      · simp [deaf] at hd
      · rw [(hw rfl).2] at hr; simp at hr
    · simp [isW1]
    · simp [awayOf]
    · intro r hr d hd
      simp only [upd]
      split
      · rename_i e; subst e; rw [hc] at hd; simp at hd
      · exact hd
    · intro d r hr
      simp only [upd] at hr
      split at hr
      · rename_i e; subst e
        injection hr with hr; subst hr
        exact .inl ⟨rfl, rfl⟩
      · refine .inr ⟨?_, hr⟩
        intro e; subst e
        exact h.imNone ht rfl hr
    · intro r hr
      cases set
      · simp only [Bool.false_eq_true, if_false] at hr
        refine .inr ⟨?_, hr⟩
        intro e; subst e
        exact h.dmIdle ht rfl rfl hr
      · simp at hr
    · intro r hne hr
      cases set
      · simp
      · have := (hw rfl).1
        simp only at hr
        rw [this] at hr; injection hr with hr; exact absurd hr.symm hne
  · simp at hs

theorem sim_w2 {s s' : State} {t c m : Nat} {set timed en rq : Bool} {cur dm : Option Nat} {sc : List Scope} {es : List Event} (h : Inv s)
    (ht : s.ts[t]? = some ⟨.w2 c m set timed, en, rq, cur, dm, sc⟩)
    (hs : go s t ⟨.w2 c m set timed, en, rq, cur, dm, sc⟩ = some (s', es)) : Sim s s' es := by
  obtain ⟨lc, ls, lo, li, ll, lw, la⟩ := h.loc t _ ht
  simp only [setOf, ownOf, imOf, Option.some.injEq, forall_eq'] at ls lo li
  subst ls
  simp only at lc ll
  simp only [go] at hs
  injection hs with hs; injection hs with h1 h2; subst h1 h2
  refine ⟨h.move ht rfl ⟨?_, ?_, ?_, ?_, ?_, ?_, ?_⟩ ?_ (fun _ _ _ e => e) ?_ ?_ rfl rfl ?_, follows_one ?_ (abs_upd rfl rfl)⟩
  · simp only [Thr.at]; rw [lc]; cases set <;> rfl
  · simp [setOf, Thr.at]
  · simp [ownOf, Thr.at]
  · simpa [imOf, Thr.at, setT] using li
  · intro hd hr
    exact ll (by cases set <;> simp_all [deaf, Thr.at]) hr
  · simp [isW1, Thr.at]
  · simp [awayOf, Thr.at, upd]
  · intro r hr d
    simp only [upd]
    split
    · rename_i e; subst e
      simp only [lo, reduceCtorEq, Option.some.injEq, false_iff]; exact fun e => hr e.symm
    · rfl
  · intro d r hr
    by_cases e : r = t
    · subst e
      obtain ⟨y, hy, e⟩ := h.im d r hr
      rw [ht] at hy; injection hy with hy; subst hy
      exact .inl ⟨rfl, e⟩
    · exact .inr ⟨e, hr⟩
  · intro r hr
    refine .inr ⟨?_, hr⟩
    intro e; subst e
    exact h.dmIdle ht rfl rfl hr
  · intro r _ _; exact ⟨rfl, rfl⟩
  · have : (abs s).mx m = some t := lo
    simp only [next, abs_get ht, this, absT, absPC, allow, beq_self_eq_true, Bool.and_self, if_true, Thr.at]
    rfl

theorem sim_w3 {s s' : State} {t c m : Nat} {set timed en rq : Bool} {cur dm : Option Nat} {sc : List Scope} {es : List Event} (h : Inv s)
    (ht : s.ts[t]? = some ⟨.w3 c m set timed, en, rq, cur, dm, sc⟩)
    (hs : go s t ⟨.w3 c m set timed, en, rq, cur, dm, sc⟩ = some (s', es)) : Sim s s' es := by
  obtain ⟨lc, ls, lo, li, ll, lw, la⟩ := h.loc t _ ht
  simp only [setOf, imOf, Option.some.injEq, forall_eq'] at ls li
  subst ls
  simp only at lc ll
  simp only [go] at hs
  injection hs with hs; injection hs with h1 h2; subst h1 h2
  refine ⟨h.move ht rfl ⟨?_, ?_, ?_, ?_, ?_, ?_, ?_⟩ (fun _ _ _ => Iff.rfl) ?_ ?_ ?_ rfl rfl ?_, abs_same ht rfl rfl rfl⟩
  · simp only [Thr.at]; rw [lc]; cases set <;> rfl
  · simp [setOf, Thr.at]
  · simp [ownOf, Thr.at]
  · simp [imOf, Thr.at]
  · intro hd hr
    exact ll (by cases set <;> simp_all [deaf, Thr.at]) hr
  · simp [isW1, Thr.at]
  · intro m' e; exact la m' e
  · intro r hr d hd
    simp only [upd]
    split
    · rename_i e; subst e; rw [li] at hd; injection hd with hd; exact absurd hd.symm hr
    · exact hd
  · intro d r hr
    simp only [upd] at hr
    split at hr
    · simp at hr
    · rename_i hne
      refine .inr ⟨?_, hr⟩
      intro e; subst e
      obtain ⟨y, hy, e⟩ := h.im d r hr
      rw [ht] at hy; injection hy with hy; subst hy
      simp only [imOf, Option.some.injEq] at e; exact hne e.symm
  · intro r hr
    refine .inr ⟨?_, hr⟩
    intro e; subst e
    exact h.dmIdle ht rfl rfl hr
  · intro r _ _; exact ⟨rfl, rfl⟩

theorem sim_woke {s s' : State} {t c m : Nat} {set to en rq : Bool} {cur dm : Option Nat} {sc : List Scope} {es : List Event} (h : Inv s)
    (ht : s.ts[t]? = some ⟨.woke c m set to, en, rq, cur, dm, sc⟩)
    (hs : go s t ⟨.woke c m set to, en, rq, cur, dm, sc⟩ = some (s', es)) : Sim s s' es := by
  obtain ⟨lc, ls, lo, li, ll, lw, la⟩ := h.loc t _ ht
  simp only [setOf, Option.some.injEq, forall_eq'] at ls
  subst ls
  simp only [go] at hs
  split at hs
  · injection hs with hs; injection hs with h1 h2; subst h1 h2
    cases set <;> simp only [Bool.false_eq_true, if_false, if_true] <;>
      refine ⟨h.move1 ht ⟨?_, ?_, ?_, ?_, ?_, ?_, ?_⟩ rfl rfl rfl rfl rfl (fun _ => rfl), abs_same ht rfl rfl rfl⟩ <;>
      simp_all [curOf, setOf, ownOf, imOf, deaf, isW1, awayOf, Thr.at]
  · simp at hs

theorem sim_clr {s s' : State} {t c m : Nat} {to en rq : Bool} {cur dm : Option Nat} {sc : List Scope} {es : List Event} (h : Inv s)
    (ht : s.ts[t]? = some ⟨.clr c m to, en, rq, cur, dm, sc⟩)
    (hs : go s t ⟨.clr c m to, en, rq, cur, dm, sc⟩ = some (s', es)) : Sim s s' es := by
  simp only [go] at hs
  split at hs
  · rename_i hd; subst hd
    injection hs with hs; injection hs with h1 h2; subst h1 h2
    refine ⟨h.move1 ht ⟨?_, ?_, ?_, ?_, ?_, ?_, ?_⟩ rfl rfl rfl rfl rfl (fun e => absurd rfl e), abs_same ht rfl rfl rfl⟩ <;>
      simp [curOf, setOf, ownOf, imOf, deaf, isW1, awayOf]
    exact (h.loc t _ ht).away m rfl
  · simp at hs

theorem sim_relock {s s' : State} {t m : Nat} {to en rq : Bool} {cur dm : Option Nat} {sc : List Scope} {es : List Event} (h : Inv s)
    (ht : s.ts[t]? = some ⟨.relock m to, en, rq, cur, dm, sc⟩)
    (hs : go s t ⟨.relock m to, en, rq, cur, dm, sc⟩ = some (s', es)) : Sim s s' es := by
  obtain ⟨lc, ls, lo, li, ll, lw, la⟩ := h.loc t _ ht
  simp only [go] at hs
  split at hs
  · rename_i hm
    injection hs with hs; injection hs with h1 h2; subst h1 h2
    refine ⟨h.move ht rfl ⟨?_, ?_, ?_, ?_, ?_, ?_, ?_⟩ ?_ (fun _ _ _ e => e) ?_ ?_ rfl rfl ?_, follows_one ?_ (abs_upd rfl rfl)⟩
    · exact lc
    · simp [setOf, Thr.at]
    · simp [ownOf, Thr.at, upd]
    · simp [imOf, Thr.at]
    · simp [deaf, Thr.at]
    · simp [isW1, Thr.at]
    · simp [awayOf, Thr.at]
    · intro r hr d
      simp only [upd]
      split
      · rename_i e; subst e
        simp only [hm, reduceCtorEq, Option.some.injEq, iff_false]; exact fun e => hr e.symm
      · rfl
    · intro d r hr
      refine .inr ⟨?_, hr⟩
      intro e; subst e
      exact h.imNone ht rfl hr
    · intro r hr
      refine .inr ⟨?_, hr⟩
      intro e; subst e
      exact h.dmIdle ht rfl rfl hr
    · intro r _ _; exact ⟨rfl, rfl⟩
    · have : (abs s).mx m = none := hm
      simp only [next, abs_get ht, this, absT, absPC, allow, beq_self_eq_true, Bool.and_self, if_true, Thr.at]
      rfl
  · simp at hs

theorem sim_ip {s s' : State} {t m : Nat} {to en rq : Bool} {cur dm : Option Nat} {sc : List Scope} {es : List Event} (h : Inv s)
    (ht : s.ts[t]? = some ⟨.ip m to, en, rq, cur, dm, sc⟩)
    (hs : go s t ⟨.ip m to, en, rq, cur, dm, sc⟩ = some (s', es)) : Sim s s' es := by
  obtain ⟨lc, ls, lo, li, ll, lw, la⟩ := h.loc t _ ht
  simp only [ownOf, Option.some.injEq, forall_eq'] at lo
  have hm : (abs s).mx m = some t := lo
  simp only [go] at hs
  have hret : ∀ s' es, (en && rq) = false → some (setT s t (Thr.at ⟨.ip m to, en, rq, cur, dm, sc⟩ .idle), [Event.returned t to]) = some (s', es) →
      Sim s s' es := by
    intro s' es hr hs
    injection hs with hs; injection hs with h1 h2; subst h1 h2
    refine ⟨h.move1 ht ⟨lc, ?_, ?_, ?_, ?_, ?_, ?_⟩ rfl rfl rfl rfl rfl (fun _ => rfl), follows_one ?_ (abs_set _ _ _)⟩
    any_goals simp [setOf, ownOf, imOf, deaf, isW1, awayOf, Thr.at]
    simp only [next, abs_get ht, hm, absT, absPC, allow, SThr.due, beq_self_eq_true, Bool.and_self, hr, Bool.not_false, if_true]
  split at hs
  · rename_i he; subst he
    split at hs
    · rename_i hd; subst hd
      split at hs
      · rename_i hr; subst hr
        injection hs with hs; injection hs with h1 h2; subst h1 h2
        refine ⟨h.move1 ht ⟨lc, ?_, ?_, ?_, ?_, ?_, ?_⟩ rfl rfl rfl rfl rfl (fun _ => rfl), follows_one ?_ (abs_set _ _ _)⟩
        any_goals simp [setOf, ownOf, imOf, deaf, isW1, awayOf]
        simp only [next, abs_get ht, hm, absT, absPC, allow, SThr.due, beq_self_eq_true, Bool.and_self, if_true]
      · rename_i hr
        exact hret _ _ (by simpa using hr) hs
    · simp at hs
  · rename_i he
    exact hret _ _ (by simp_all) hs

theorem sim_i1 {s s' : State} {t u c : Nat} {en rq : Bool} {cur dm : Option Nat} {sc : List Scope} {es : List Event} (h : Inv s)
    (ht : s.ts[t]? = some ⟨.i1 u c, en, rq, cur, dm, sc⟩)
    (hs : go s t ⟨.i1 u c, en, rq, cur, dm, sc⟩ = some (s', es)) : Sim s s' es := by
  obtain ⟨hne, y, hy, hd, hcur⟩ := h.i1 t _ u c ht rfl
  simp only [go] at hs
  split at hs
  · rename_i hc
    have hw := h.wakeAll c
    have hyw : (s.ts.map (wake c))[u]? = some (wake c y) := by simp [hy]
    have htw : (s.ts.map (wake c))[t]? = some (⟨.i1 u c, en, rq, cur, dm, sc⟩) := by simp [ht, wake]
    simp only [hyw, set_get hyw, if_neg hne, htw] at hs
    injection hs with hs; injection hs with h1 h2; subst h1 h2
    have hdeaf : deaf (wake c y).pc = false := by
      have h1 := (h.loc u y hy).cur
      have h2 := h.noIm hc hy
      obtain ⟨pc, en, rq, cur, dm, sc⟩ := y
      simp only at hcur h1; subst hcur
      cases pc <;> simp only [wake, deaf] <;> try rfl
      case w2 c' m b tm => cases b <;> simp_all [curOf, imOf]
      case w3 c' m b tm => cases b <;> simp_all [curOf, imOf]
      case asleep c' m b tm =>
        cases b
        · simp [curOf] at h1
        · simp only [curOf, Option.some.injEq] at h1; subst h1; simp
    refine ⟨hw.endInterrupt htw hyw rfl hdeaf, follows_one rfl ?_⟩
    rw [abs_wakeAll h hc]
    have ht' : ((s.ts.map (wake c)).set u { wake c y with dm := none })[t]? = some (⟨.i1 u c, en, rq, cur, dm, sc⟩) := by
      rw [set_get hyw, if_neg hne, htw]
    exact (abs_same (s := { s with ts := s.ts.map (wake c) }) (s' := { s with ts := (s.ts.map (wake c)).set u { wake c y with dm := none } })
      hyw rfl rfl rfl).trans (abs_same ht' rfl rfl rfl)
  · simp at hs

theorem sim_go {s s' : State} {t : Nat} {x : Thr} {es : List Event} (h : Inv s) (ht : s.ts[t]? = some x) (hs : go s t x = some (s', es)) :
    Sim s s' es := by
  obtain ⟨pc, en, rq, cur, dm, sc⟩ := x
  cases pc
  case idle => simp [go] at hs
  case asleep => simp [go] at hs
  case w0 => exact sim_w0 h ht hs
  case w1 => exact sim_w1 h ht hs
  case w2 => exact sim_w2 h ht hs
  case w3 => exact sim_w3 h ht hs
  case woke => exact sim_woke h ht hs
  case clr => exact sim_clr h ht hs
  case relock => exact sim_relock h ht hs
  case ip => exact sim_ip h ht hs
  case i1 => exact sim_i1 h ht hs

theorem Inv.mxChange {s : State} {m : Nat} {v : Option Nat} (h : Inv s)
    (hown : ∀ (r : Nat) x, s.ts[r]? = some x → ownOf x.pc = some m → upd s.mx m v m = some r)
    (haway : ∀ (r : Nat) x, s.ts[r]? = some x → awayOf x.pc = some m → v ≠ some r) : Inv { s with mx := upd s.mx m v } where
  loc := by
    intro r x hr
    have l := h.loc r x hr
    refine { l with own := ?_, away := ?_ }
    · intro m' e
      by_cases hm : m' = m
      · subst hm; exact hown r x hr e
      · simp only [upd_ne v hm]; exact l.own m' e
    · intro m' e
      by_cases hm : m' = m
      · subst hm; simp only [upd_self]; exact haway r x hr e
      · simp only [upd_ne v hm]; exact l.away m' e
  im := h.im
  dm := h.dm
  i1 := h.i1

/-- A wake-up of one waiter. -/
theorem Inv.wakeOne {s : State} {t c m : Nat} {set timed en rq : Bool} {cur dm : Option Nat} {sc : List Scope} (to : Bool) (h : Inv s)
    (ht : s.ts[t]? = some ⟨.asleep c m set timed, en, rq, cur, dm, sc⟩) : Inv (setT s t ⟨.woke c m set to, en, rq, cur, dm, sc⟩) := by
  obtain ⟨lc, ls, lo, li, ll, lw, la⟩ := h.loc t _ ht
  refine h.move1 ht ⟨?_, ls, lo, li, ?_, lw, la⟩ rfl rfl rfl rfl rfl (fun _ => rfl)
  · simp only at lc ⊢; rw [lc]; cases set <;> rfl
  · simp [deaf]

theorem sim_step {s s' : State} {l : Label} {es : List Event} (h : Inv s) (hs : step s l = some (s', es)) : Sim s s' es := by
  cases l with
  | go t =>
    simp only [step] at hs
    split at hs
    · exact sim_go h (by assumption) hs
    · simp at hs
  | lock t m =>
    simp only [step] at hs
    split at hs
    · rename_i x ht
      split at hs
      · rename_i hc
        injection hs with hs; injection hs with h1 h2; subst h1 h2
        refine ⟨h.mxChange ?_ ?_, follows_one (q := { abs s with mx := upd (abs s).mx m (some t) }) ?_ rfl⟩
        · intro r y hr e
          have := (h.loc r y hr).own m e
          rw [hc.2] at this; simp at this
        · intro r y hr e e'
          injection e' with e'; subst e'
          rw [ht] at hr; injection hr with hr; subst hr
          rw [hc.1] at e; simp [awayOf] at e
        · have : (abs s).mx m = none := hc.2
          simp [next, allow, this]
      · simp at hs
    · simp at hs
  | unlock t m =>
    simp only [step] at hs
    split at hs
    · rename_i x ht
      split at hs
      · rename_i hc
        injection hs with hs; injection hs with h1 h2; subst h1 h2
        refine ⟨h.mxChange ?_ (by simp), follows_one (q := { abs s with mx := upd (abs s).mx m none }) ?_ rfl⟩
        · intro r y hr e
          have := (h.loc r y hr).own m e
          rw [hc.2] at this; injection this with this; subst this
          rw [ht] at hr; injection hr with hr; subst hr
          rw [hc.1] at e; simp [ownOf] at e
        · have : (abs s).mx m = some t := hc.2
          simp [next, allow, this]
      · simp at hs
    · simp at hs
  | wait t c m timed =>
    simp only [step] at hs
    split at hs
    · rename_i x ht
      split at hs
      · rename_i hc
        injection hs with hs; injection hs with h1 h2; subst h1 h2
        obtain ⟨pc, en, rq, cur, dm, sc⟩ := x
        simp only at hc; obtain ⟨rfl, hm⟩ := hc
        obtain ⟨lc, ls, lo, li, ll, lw, la⟩ := h.loc t _ ht
        refine ⟨h.move1 ht ⟨lc, ?_, ?_, ?_, ?_, ?_, ?_⟩ rfl rfl rfl rfl rfl (fun _ => rfl), abs_same ht rfl rfl rfl⟩
        any_goals simp [setOf, ownOf, imOf, deaf, isW1, awayOf, Thr.at]
        exact hm
      · simp at hs
    · simp at hs
  | spurious t =>
    simp only [step] at hs
    split at hs
    · rename_i x ht
      split at hs
      · rename_i c m set tm hp
        obtain ⟨pc, en, rq, cur, dm, sc⟩ := x
        simp only at hp; subst hp
        injection hs with hs; injection hs with h1 h2; subst h1 h2
        refine ⟨h.wakeOne false ht, follows_one ?_ (abs_set _ _ _)⟩
        simp [next, abs_get ht, absT, absPC, Thr.at]
      · simp at hs
    · simp at hs
  | timeout t =>
    simp only [step] at hs
    split at hs
    · rename_i x ht
      split at hs
      · rename_i c m set tm hp
        split at hs
        · rename_i htm; subst htm
          obtain ⟨pc, en, rq, cur, dm, sc⟩ := x
          simp only at hp; subst hp
          injection hs with hs; injection hs with h1 h2; subst h1 h2
          refine ⟨h.wakeOne true ht, follows_one ?_ (abs_set _ _ _)⟩
          simp [next, abs_get ht, absT, absPC, Thr.at]
        · simp at hs
      · simp at hs
    · simp at hs
  | notifyOne t c w =>
    simp only [step] at hs
    split at hs
    · rename_i x ht
      split at hs
      · rename_i hc
        cases w with
        | none =>
          simp only at hs
          split at hs
          · rename_i hall
            injection hs with hs; injection hs with h1 h2; subst h1 h2
            refine ⟨h, follows_one (q := abs s) ?_ rfl⟩
            have : ((abs s).ts.all fun y => !y.waits c) = true := by
              simp only [abs, List.all_map, List.all_eq_true] at hall ⊢
              intro y hy
              obtain ⟨r, hr⟩ := List.mem_iff_getElem?.1 hy
              simp only [Function.comp_apply, absT_waits (h.noIm hc.2 hr)]
              exact hall y hy
            simp [next, allow, this]
          · simp at hs
        | some v =>
          simp only at hs
          split at hs
          · rename_i y hv
            split at hs
            · rename_i ha
              injection hs with hs; injection hs with h1 h2; subst h1 h2
              have hn := h.noIm hc.2 hv
              refine ⟨?_, follows_one (q := (abs s).set v ((absT y).wake c)) ?_ ?_⟩
              · obtain ⟨pc, en, rq, cur, dm, sc⟩ := y
                cases pc <;> simp only [asleepOn, Bool.false_eq_true] at ha
                case asleep c' m st tm =>
                  simp only [beq_iff_eq] at ha; subst ha
                  have := h.wakeOne false hv
                  simpa [wake] using this
              · simp [next, abs_get hv, allow, absT_waits hn, ha]
              · rw [← absT_wake hn]; exact abs_set _ _ _
            · simp at hs
          · simp at hs
      · simp at hs
    · simp at hs
  | notifyAll t c =>
    simp only [step] at hs
    split at hs
    · rename_i x ht
      split at hs
      · rename_i hc
        injection hs with hs; injection hs with h1 h2; subst h1 h2
        exact ⟨h.wakeAll c, follows_one rfl (abs_wakeAll h hc.2)⟩
      · simp at hs
    · simp at hs
  | interrupt t u =>
    simp only [step] at hs
    split at hs
    · rename_i x y ht hu
      split at hs
      · rename_i hc
        split at hs
        · rename_i hcur
          injection hs with hs; injection hs with h1 h2; subst h1 h2
          obtain ⟨pc, en, rq, cur, dm, sc⟩ := y
          obtain ⟨hp, hd⟩ := hc
          simp only at hd hcur; subst hd hcur
          obtain ⟨lc, ls, lo, li, ll, lw, la⟩ := h.loc u _ hu
          have hnd : deaf pc = false := by
            cases pc <;> simp only [deaf] <;> try rfl
            all_goals rename_i b _; cases b <;> simp [curOf] at lc ⊢
          have hnw : isW1 pc = false := by
            cases hh : isW1 pc
            · rfl
            · have := (lw hh).1; simp at this
          have hni : isI1 pc = true ∨ isI1 pc = false := by cases isI1 pc <;> simp
          refine ⟨?_, follows_one ?_ (abs_set _ _ _)⟩
          · rcases hni with hni | hni
            · -- the target is itself inside `interrupt()`
              have key : ∀ (r : Nat) z, (setT s u ⟨pc, en, true, none, none, sc⟩).ts[r]? = some z →
                  (r = u ∧ z = ⟨pc, en, true, none, none, sc⟩) ∨ (r ≠ u ∧ s.ts[r]? = some z) := by
                intro r z hr
                simp only [setT, set_get hu] at hr
                split at hr
                · injection hr with hr; exact .inl ⟨by assumption, hr.symm⟩
                · exact .inr ⟨by assumption, hr⟩
              have put : ∀ (r : Nat) z, s.ts[r]? = some z → ∃ z', (setT s u ⟨pc, en, true, none, none, sc⟩).ts[r]? = some z' ∧
                  z'.pc = z.pc ∧ z'.dm = z.dm ∧ z'.cur = z.cur := by
                intro r z hr
                simp only [setT, set_get hu]
                by_cases e : r = u
                · subst e; rw [hu] at hr; injection hr with hr; subst hr
                  exact ⟨_, if_pos rfl, rfl, rfl, rfl⟩
                · exact ⟨z, by rw [if_neg e]; exact hr, rfl, rfl, rfl⟩
              refine ⟨?_, ?_, ?_, ?_⟩
              · intro r z hr
                rcases key r z hr with ⟨rfl, rfl⟩ | ⟨-, hr⟩
                · exact ⟨lc, ls, lo, li, fun e => by simp [hnd] at e, fun e => by simp [hnw] at e, la⟩
                · exact h.loc r z hr
              · intro d r hr
                obtain ⟨z, hz, e⟩ := h.im d r hr
                obtain ⟨z', hz', e1, -, -⟩ := put r z hz
                exact ⟨z', hz', by rw [e1]; exact e⟩
              · intro v z r hv hr
                have : ∃ z', s.ts[v]? = some z' ∧ z'.dm = some r := by
                  rcases key v z hv with ⟨rfl, rfl⟩ | ⟨-, hv⟩
                  · simp at hr
                  · exact ⟨z, hv, hr⟩
                obtain ⟨z', hz', hr'⟩ := this
                obtain ⟨w, hw, e⟩ := h.dm v z' r hz' hr'
                obtain ⟨w', hw', e1, -, -⟩ := put r w hw
                exact ⟨w', hw', by rw [e1]; exact e⟩
              · intro r z v d hr hz
                have : ∃ z', s.ts[r]? = some z' ∧ z'.pc = .i1 v d := by
                  rcases key r z hr with ⟨rfl, rfl⟩ | ⟨-, hr⟩
                  · exact ⟨_, hu, hz⟩
                  · exact ⟨z, hr, hz⟩
                obtain ⟨z', hz', e⟩ := this
                obtain ⟨h1, w, hw, h2, h3⟩ := h.i1 r z' v d hz' e
                obtain ⟨w', hw', -, e2, e3⟩ := put v w hw
                exact ⟨h1, w', hw', by rw [e2]; exact h2, by rw [e3]; exact h3⟩
            · exact h.move1 hu ⟨lc, ls, lo, li, fun e => by simp [hnd] at e, fun e => by simp [hnw] at e, la⟩ rfl hnw hni hni rfl (fun _ => rfl)
          · simp [next, abs_get hu, absT]
        · rename_i c hcur
          split at hs
          · simp at hs
          · rename_i hne
            injection hs with hs; injection hs with h1 h2; subst h1 h2
            refine ⟨h.beginInterrupt ht hu hne hc.1 hc.2 hcur, follows_one (q := abs (setT s u { y with rq := true, dm := some t })) ?_ ?_⟩
            · simp only [next, abs_get hu]
              rw [← abs_set]; rfl
            · refine abs_same (x := x) ?_ rfl rfl (by simp [absT, Thr.at, hc.1, absPC])
              simp only [setT, set_get hu, if_neg hne, ht]
      · simp at hs
    · simp at hs
  | point t =>
    simp only [step] at hs
    split at hs
    · rename_i x ht
      split at hs
      · rename_i hp
        obtain ⟨pc, en, rq, cur, dm, sc⟩ := x
        simp only at hp; subst hp
        obtain ⟨lc, ls, lo, li, ll, lw, la⟩ := h.loc t _ ht
        split at hs
        · rename_i he; simp only at he; subst he
          split at hs
          · rename_i hd; simp only at hd; subst hd
            split at hs
            · rename_i hr; simp only at hr; subst hr
              injection hs with hs; injection hs with h1 h2; subst h1 h2
              refine ⟨h.move1 ht ⟨lc, ?_, ?_, ?_, ?_, ?_, ?_⟩ rfl rfl rfl rfl rfl (fun _ => rfl), follows_one ?_ (abs_set _ _ _)⟩
              any_goals simp [setOf, ownOf, imOf, deaf, isW1, awayOf]
              simp [next, abs_get ht, absT, absPC, allow, SThr.due]
            · rename_i hr
              injection hs with hs; injection hs with h1 h2; subst h1 h2
              refine ⟨h, follows_one (q := abs s) ?_ rfl⟩
              simp_all [next, abs_get ht, absT, absPC, allow, SThr.due]
          · simp at hs
        · rename_i he
          injection hs with hs; injection hs with h1 h2; subst h1 h2
          refine ⟨h, follows_one (q := abs s) ?_ rfl⟩
          simp_all [next, abs_get ht, absT, absPC, allow, SThr.due]
      · simp at hs
    · simp at hs
  | isRequested t u =>
    simp only [step] at hs
    split at hs
    · rename_i x y ht hu
      split at hs
      · injection hs with hs; injection hs with h1 h2; subst h1 h2
        exact ⟨h, follows_one (q := abs s) (by simp [next, abs_get hu, absT, allow]) rfl⟩
      · simp at hs
    · simp at hs
  | isEnabled t =>
    simp only [step] at hs
    split at hs
    · rename_i x ht
      split at hs
      · injection hs with hs; injection hs with h1 h2; subst h1 h2
        exact ⟨h, follows_one (q := abs s) (by simp [next, abs_get ht, absT, allow]) rfl⟩
      · simp at hs
    · simp at hs
  | disable t =>
    simp only [step] at hs
    split at hs
    · rename_i x ht
      split at hs
      · rename_i hp
        injection hs with hs; injection hs with h1 h2; subst h1 h2
        obtain ⟨pc, en, rq, cur, dm, sc⟩ := x
        simp only at hp; subst hp
        obtain ⟨lc, ls, lo, li, ll, lw, la⟩ := h.loc t _ ht
        refine ⟨h.move1 ht ⟨lc, ?_, ?_, ?_, ?_, ?_, ?_⟩ rfl rfl rfl rfl rfl (fun _ => rfl), follows_one ?_ (abs_set _ _ _)⟩
        any_goals simp [setOf, ownOf, imOf, deaf, isW1, awayOf]
        cases en <;> simp [next, abs_get ht, absT, absPC, absScope]
      · simp at hs
    · simp at hs
  | restore t d =>
    simp only [step] at hs
    split at hs
    · rename_i x ht
      split at hs
      · rename_i hp
        split at hs
        · rename_i was hd
          injection hs with hs; injection hs with h1 h2; subst h1 h2
          obtain ⟨pc, en, rq, cur, dm, sc⟩ := x
          simp only at hp hd; subst hp
          obtain ⟨lc, ls, lo, li, ll, lw, la⟩ := h.loc t _ ht
          refine ⟨h.move1 ht ⟨lc, ?_, ?_, ?_, ?_, ?_, ?_⟩ rfl rfl rfl rfl rfl (fun _ => rfl), follows_one ?_ (abs_set _ _ _)⟩
          any_goals simp [setOf, ownOf, imOf, deaf, isW1, awayOf]
          have : (sc.map absScope).reverse[d]? = some (some was) := by rw [← List.map_reverse, List.getElem?_map, hd]; rfl
          cases was <;> simp [next, abs_get ht, absT, absPC, absScope, this]
        · simp at hs
      · simp at hs
    · simp at hs
  | endScope t =>
    simp only [step] at hs
    split at hs
    · rename_i x ht
      split at hs
      · rename_i hp
        obtain ⟨pc, en, rq, cur, dm, sc⟩ := x
        simp only at hp; subst hp
        obtain ⟨lc, ls, lo, li, ll, lw, la⟩ := h.loc t _ ht
        split at hs
        · rename_i was rest he
          simp only at he; subst he
          injection hs with hs; injection hs with h1 h2; subst h1 h2
          refine ⟨h.move1 ht ⟨lc, ?_, ?_, ?_, ?_, ?_, ?_⟩ rfl rfl rfl rfl rfl (fun _ => rfl), follows_one ?_ (abs_set _ _ _)⟩
          any_goals simp [setOf, ownOf, imOf, deaf, isW1, awayOf]
          simp [next, abs_get ht, absT, absPC, absScope]
        · rename_i rest he
          simp only at he; subst he
          injection hs with hs; injection hs with h1 h2; subst h1 h2
          refine ⟨h.move1 ht ⟨lc, ?_, ?_, ?_, ?_, ?_, ?_⟩ rfl rfl rfl rfl rfl (fun _ => rfl), follows_one ?_ (abs_set _ _ _)⟩
          any_goals simp [setOf, ownOf, imOf, deaf, isW1, awayOf]
          simp [next, abs_get ht, absT, absPC, absScope]
        · simp at hs
      · simp at hs
    · simp at hs

theorem run_sim {s s' : State} {ls : List Label} {es : List Event} (h : Inv s) (hr : run step s ls = some (s', es)) :
    Inv s' ∧ specState next (abs s) es = some (abs s') ∧ Accepts next (abs s) es := by
  induction ls generalizing s es with
  | nil =>
    simp only [run_nil, Option.some.injEq, Prod.mk.injEq] at hr
    obtain ⟨rfl, rfl⟩ := hr
    exact ⟨h, rfl, trivial⟩
  | cons l ls ih =>
    obtain ⟨m, e1, e2, h1, h2, rfl⟩ := run_cons hr
    obtain ⟨hi, hf⟩ := sim_step h h1
    obtain ⟨a, b, c⟩ := ih hi h2
    refine ⟨a, ?_, hf.accepts_append (fun q e => by rw [e]; exact c)⟩
    have key : ∀ (q : SState) (es : List Event), Follows next (· = abs m) q es → (∀ e ∈ es, ∀ q, next q e ≠ .undefined) →
        specState next q es = some (abs m) := by
      intro q es hf hu
      induction es generalizing q with
      | nil => simp only [Follows] at hf; simp [specState, hf]
      | cons e es ih =>
        simp only [Follows] at hf
        simp only [specState]
        cases hn : next q e with
        | ok q' => simp only [hn] at hf ⊢; exact ih q' hf (fun e he => hu e (by simp [he]))
        | undefined => exact absurd hn (hu e (by simp) q)
        | illegal => simp [hn] at hf
    have := key _ _ hf (fun e _ q => by
      cases e with
      | notifiedOne t c w =>
        cases w <;> simp only [next, allow] <;> (repeat' split) <;> simp
      | _ => simp only [next, allow] <;> (repeat' split) <;> simp)
    rw [specState_append, this]
    exact b

theorem abs_init (n : Nat) : abs (init n) = specInit n := by
  simp [abs, init, specInit, absT, Thr.new, SThr.new, absPC]

/-! ## Progress -/

/-- The thread goes on inside the library. -/
def Label.isGo : Label → Bool
  | .go _ => true
  | _ => false

theorem run_one {s s' : State} {l : Label} {es : List Event} (h : step s l = some (s', es)) : run step s [l] = some (s', es) := by
  simp [run, h]

theorem free_im {s : State} (h : Inv s) (c : Nat) : ∃ ls s' es, (∀ l ∈ ls, Label.isGo l = true) ∧ run step s ls = some (s', es) ∧
    s'.im c = none ∧ (∀ (t : Nat) x, s.ts[t]? = some x → imOf x.pc ≠ some c → s'.ts[t]? = some x) ∧
    (∀ m, s.mx m = none → s'.mx m = none) := by
  cases hc : s.im c with
  | none => exact ⟨[], s, [], by simp, rfl, hc, fun t x ht _ => ht, fun m e => e⟩
  | some r =>
    obtain ⟨x, hr, hi⟩ := h.im c r hc
    obtain ⟨pc, en, rq, cur, dm, sc⟩ := x
    cases pc <;> simp only [imOf, Option.some.injEq, reduceCtorEq] at hi
    case w3 c' m st tm =>
      subst hi
      have h1 : step s (.go r) = some ({ setT s r ⟨.asleep c' m st tm, en, rq, cur, dm, sc⟩ with im := upd s.im c' none }, []) := by
        simp [step, hr, go, Thr.at]
      refine ⟨[.go r], _, _, by simp [Label.isGo], run_one h1, upd_self _ _ _, ?_, fun m e => e⟩
      intro t x ht hx
      simp only [setT, set_get hr]
      split
      · rename_i e; subst e; rw [hr] at ht; injection ht with ht; subst ht; simp [imOf] at hx
      · exact ht
    case w2 c' m st tm =>
      subst hi
      let s1 : State := { setT s r ⟨.w3 c' m st tm, en, rq, cur, dm, sc⟩ with mx := upd s.mx m none }
      have h1 : step s (.go r) = some (s1, [.waitBegan r c' m tm]) := by simp [step, hr, go, Thr.at, s1]
      have hr1 : s1.ts[r]? = some ⟨.w3 c' m st tm, en, rq, cur, dm, sc⟩ := by simp [s1, setT, set_get hr]
      have h2 : step s1 (.go r) = some ({ setT s1 r ⟨.asleep c' m st tm, en, rq, cur, dm, sc⟩ with im := upd s1.im c' none }, []) := by
        simp [step, hr1, go, Thr.at]
      refine ⟨[.go r, .go r], _, _, by simp [Label.isGo], run_step h1 (run_one h2), upd_self _ _ _, ?_, ?_⟩
      · intro t x ht hx
        simp only [setT, set_get hr1]
        split
        · rename_i e; subst e; rw [hr] at ht; injection ht with ht; subst ht; simp [imOf] at hx
        · rename_i e; simp only [s1, setT, set_get hr, if_neg e, ht]
      · intro d hd
        simp only [setT, s1, upd]
        split
        · rfl
        · exact hd

/-- The outcome of a wait. -/
def outcome (t : Nat) (en rq to : Bool) : Event := if en && rq then .interrupted t else .returned t to

def Done (s : State) (e : Event) : Prop :=
  ∃ ls s' es, (∀ l ∈ ls, Label.isGo l = true) ∧ run step s ls = some (s', es) ∧ e ∈ es

theorem Done.after {s s1 : State} {e : Event} {ls : List Label} {es : List Event} (hl : ∀ l ∈ ls, Label.isGo l = true)
    (h : run step s ls = some (s1, es)) (hd : Done s1 e) : Done s e := by
  obtain ⟨ls', s', es', a, b, c⟩ := hd
  exact ⟨ls ++ ls', s', es ++ es', fun l h => (List.mem_append.1 h).elim (hl l) (a l), run_append h b, by simp [c]⟩

theorem Done.step {s s1 : State} {r : Nat} {e : Event} {es : List Event} (h : step s (.go r) = some (s1, es)) (hd : Done s1 e) : Done s e :=
  Done.after (ls := [.go r]) (by simp [Label.isGo]) (run_one h) hd

theorem Inv.dmNone {s : State} {t : Nat} {x : Thr} (h : Inv s) (ht : s.ts[t]? = some x) (hw : isW1 x.pc = false) (hc : curOf x.pc = none) :
    x.dm = none := by
  cases hd : x.dm with
  | none => rfl
  | some r =>
    obtain ⟨y, hy, e⟩ := h.dm t x r ht hd
    rcases e with ⟨rfl, e⟩ | ⟨c, e⟩
    · rw [ht] at hy; injection hy with hy; subst hy; rw [hw] at e; simp at e
    · obtain ⟨-, z, hz, -, e⟩ := h.i1 r y t c hy e
      rw [ht] at hz; injection hz with hz; subst hz
      rw [(h.loc t x ht).cur, hc] at e; simp at e

theorem done_ip {s : State} {t m : Nat} {to en rq : Bool} {cur dm : Option Nat} {sc : List Scope} (h : Inv s)
    (ht : s.ts[t]? = some ⟨.ip m to, en, rq, cur, dm, sc⟩) : Done s (outcome t en rq to) := by
  have hd : dm = none := h.dmNone ht rfl rfl
  subst hd
  have : ∃ s', step s (.go t) = some (s', [outcome t en rq to]) := by
    cases en <;> cases rq <;> simp [step, ht, go, outcome]
  obtain ⟨s', hs⟩ := this
  exact ⟨[.go t], s', _, by simp [Label.isGo], run_one hs, by simp⟩

theorem done_relock {s : State} {t m : Nat} {to en rq : Bool} {cur dm : Option Nat} {sc : List Scope} (h : Inv s)
    (ht : s.ts[t]? = some ⟨.relock m to, en, rq, cur, dm, sc⟩) (hm : s.mx m = none) : Done s (outcome t en rq to) := by
  have h1 : step s (.go t) = some ({ setT s t ⟨.ip m to, en, rq, cur, dm, sc⟩ with mx := upd s.mx m (some t) }, [.relocked t m]) := by
    simp [step, ht, go, hm, Thr.at]
  exact Done.step h1 (done_ip (sim_step h h1).1 (m := m) (cur := cur) (dm := dm) (sc := sc) (by simp [setT, set_get ht]))

/-- The broadcast of an interruption can happen as soon as the internal mutex is free. -/
theorem i1_go {s : State} {r u c : Nat} {x y : Thr} (h : Inv s) (hr : s.ts[r]? = some x) (hp : x.pc = .i1 u c) (hy : s.ts[u]? = some y)
    (hc : s.im c = none) : ∃ s', step s (.go r) = some (s', [.broadcast c]) ∧ s'.im = s.im ∧ s'.mx = s.mx ∧
      s'.ts[u]? = some { wake c y with dm := none } := by
  obtain ⟨hne, -⟩ := h.i1 r x u c hr hp
  have hyw : (s.ts.map (wake c))[u]? = some (wake c y) := by simp [hy]
  have hrw : (s.ts.map (wake c))[r]? = some x := by simp [hr, wake, hp]
  refine ⟨{ s with ts := ((s.ts.map (wake c)).set u { wake c y with dm := none }).set r (x.at .idle) }, ?_, rfl, rfl, ?_⟩
  · simp only [step, hr, go, hp, hc, if_true, hyw, set_get hyw, if_neg hne, hrw]
  · have : ((s.ts.map (wake c)).set u { wake c y with dm := none })[r]? = some x := by rw [set_get hyw, if_neg hne, hrw]
    simp only [set_get this, if_neg (fun e : u = r => hne e.symm), set_get hyw, if_true]

theorem done_clr {s : State} {t c m : Nat} {to en rq : Bool} {cur dm : Option Nat} {sc : List Scope} (h : Inv s)
    (ht : s.ts[t]? = some ⟨.clr c m to, en, rq, cur, dm, sc⟩) (hm : s.mx m = none) : Done s (outcome t en rq to) := by
  have free : ∀ {s : State} {cur : Option Nat}, Inv s → s.ts[t]? = some ⟨.clr c m to, en, rq, cur, none, sc⟩ → s.mx m = none →
      Done s (outcome t en rq to) := by
    intro s cur h ht hm
    have h1 : step s (.go t) = some (setT s t ⟨.relock m to, en, rq, none, none, sc⟩, []) := by simp [step, ht, go]
    exact Done.step h1 (done_relock (sim_step h h1).1 (m := m) (cur := none) (dm := none) (sc := sc) (by simp [setT, set_get ht]) hm)
  cases dm with
  | none => exact free h ht hm
  | some r =>
    obtain ⟨y, hy, e⟩ := h.dm t _ r ht rfl
    rcases e with ⟨rfl, e⟩ | ⟨d, e⟩
    · rw [ht] at hy; injection hy with hy; subst hy; simp [isW1] at e
    · obtain ⟨ls, s1, es, a, b, c1, c2, c3⟩ := free_im h d
      have h1 := (run_sim h b).1
      obtain ⟨s2, k1, k2, k3, k4⟩ := i1_go h1 (c2 r y hy (by rw [e]; simp [imOf])) e (c2 t _ ht (by simp [imOf])) c1
      refine Done.after a b (Done.step k1 (free (sim_step h1 k1).1 k4 (by rw [k3]; exact c3 m hm)))

theorem done_woke {s : State} {t c m : Nat} {set to en rq : Bool} {cur dm : Option Nat} {sc : List Scope} (h : Inv s)
    (ht : s.ts[t]? = some ⟨.woke c m set to, en, rq, cur, dm, sc⟩) (hm : s.mx m = none) : Done s (outcome t en rq to) := by
  obtain ⟨ls, s1, es, a, b, c1, c2, c3⟩ := free_im h c
  have h1 := (run_sim h b).1
  have ht1 := c2 t _ ht (by simp [imOf])
  refine Done.after a b ?_
  cases set
  · have h2 : step s1 (.go t) = some (setT s1 t ⟨.relock m to, en, rq, cur, dm, sc⟩, []) := by simp [step, ht1, go, c1, Thr.at]
    exact Done.step h2 (done_relock (sim_step h1 h2).1 (m := m) (cur := cur) (dm := dm) (sc := sc) (by simp [setT, set_get ht1]) (c3 m hm))
  · have h2 : step s1 (.go t) = some (setT s1 t ⟨.clr c m to, en, rq, cur, dm, sc⟩, []) := by simp [step, ht1, go, c1, Thr.at]
    exact Done.step h2 (done_clr (sim_step h1 h2).1 (c := c) (m := m) (cur := cur) (dm := dm) (sc := sc) (by simp [setT, set_get ht1]) (c3 m hm))

theorem done_interrupted {s : State} {t c m : Nat} {timed en : Bool} {cur dm : Option Nat} {sc : List Scope} (h : Inv s)
    (ht : s.ts[t]? = some ⟨.asleep c m true timed, en, true, cur, dm, sc⟩) (hm : s.mx m = none) : Done s (.interrupted t) := by
  have l := h.loc t _ ht
  have he : en = true := (l.set true rfl).symm
  subst he
  have hd := l.lost rfl rfl
  cases dm with
  | none => exact absurd rfl hd
  | some r =>
    obtain ⟨y, hy, e⟩ := h.dm t _ r ht rfl
    rcases e with ⟨rfl, e⟩ | ⟨d, e⟩
    · rw [ht] at hy; injection hy with hy; subst hy; simp [isW1] at e
    · obtain ⟨-, z, hz, -, ed⟩ := h.i1 r y t d hy e
      rw [ht] at hz; injection hz with hz; subst hz
      have : d = c := by
        have := l.cur; simp only [curOf] at this ed; rw [ed] at this; injection this
      subst this
      obtain ⟨ls, s1, es, a, b, c1, c2, c3⟩ := free_im h d
      have h1 := (run_sim h b).1
      obtain ⟨s2, k1, k2, k3, k4⟩ := i1_go h1 (c2 r y hy (by rw [e]; simp [imOf])) e (c2 t _ ht (by simp [imOf])) c1
      simp only [wake, if_true] at k4
      exact Done.after a b (Done.step k1 (done_woke (sim_step h1 k1).1 k4 (by rw [k3]; exact c3 m hm)))

end Verif.CondVar
