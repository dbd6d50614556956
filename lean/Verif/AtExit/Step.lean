import Verif.AtExit.Inv
/-! # The invariants hold in every run -/

namespace Verif.AtExit

set_option linter.unusedSimpArgs false

theorem upd_same {α : Type} (f : Nat → α) (i : Nat) (a : α) : upd f i a i = a := by simp [upd]

theorem upd_other {α : Type} (f : Nat → α) {i j : Nat} (a : α) (h : j ≠ i) : upd f i a j = f j := by simp [upd, h]

/-- Events that move nobody. -/
def still : Event → Bool
  | .drop .. | .ret .. | .gone _ | .finish _ => false
  | _ => true

theorem still_facts {es : List Event} (h : ∀ e ∈ es, still e = true) (u : Nat) :
    dropped u es = 0 ∧ returned u es = 0 ∧ Event.gone u ∉ es ∧ Event.finish u ∉ es := by
  induction es with
  | nil => simp [dropped, returned]
  | cons e es ih =>
    obtain ⟨a, b, c, d⟩ := ih fun e he => h e (List.mem_cons_of_mem _ he)
    have hq := h e (List.mem_cons_self ..)
    clear h ih
    cases e <;> simp only [still, Bool.false_eq_true] at hq <;> simp [dropped, returned, a, b, c, d]

/-- Nobody moves. -/
theorem Inv.stay {s s' : St} {h es : List Event} (hi : Inv s h) (hn : s'.n = s.n) (hpc : s'.pc = s.pc)
    (hd : ∀ u, DInv u (s'.d u) (h ++ es)) (hf : ∀ u, s.n ≤ u → s'.d u = s.d u ∧ ∀ e ∈ es, quiet u e = true)
    (hl : ∀ u, (s'.d u).lib = (s.d u).lib ∧ ((s.d u).lib = true → (s'.d u).own = (s.d u).own ∧ (s'.d u).set = (s.d u).set))
    (hleft : ∀ u f js, (s'.d u).left = some (f :: js) → ∃ f' js', (s.d u).left = some (f' :: js'))
    (he : ∀ e ∈ es, still e = true) : Inv s' (h ++ es) where
  data := hd
  born := by rw [hn, hpc]; exact hi.born
  fresh u hu := by
    rw [hn] at hu
    obtain ⟨h1, h2⟩ := hf u hu
    obtain ⟨a, b, c, d, _, _⟩ := quiet_facts h2
    obtain ⟨f1, f2, f3, f4, f5, f6⟩ := hi.fresh u hu
    obtain ⟨_, _, g1, g2⟩ := still_facts he u
    refine ⟨h1.trans f1, ?_, ?_, ?_, ?_, ?_⟩
    · rw [askedNotify_append, a, f2]; rfl
    · rw [askedReady_append, b, f3]; rfl
    · rw [begun_append, d, f4]
    · exact fun hm => (List.mem_append.mp hm).elim f5 g2
    · exact fun hm => (List.mem_append.mp hm).elim f6 g1
  live u h1 h2 := by
    rw [(hl u).1] at h1
    rw [((hl u).2 h1).1] at h2
    rw [hpc]
    exact hi.live u h1 h2
  hold u h1 h2 := by
    rw [(hl u).1] at h1
    rw [((hl u).2 h1).1] at h2
    rw [hpc, ((hl u).2 h1).2]
    exact hi.hold u h1 h2
  rets u := by
    obtain ⟨a, b, _, _⟩ := still_facts he u
    rw [dropped_append, returned_append, a, b, hpc, hn]
    exact hi.rets u
  exec := by rw [hpc]; exact hi.exec
  busy u f js hx := by
    obtain ⟨f', js', h1⟩ := hleft u f js hx
    rw [hn, hpc]
    exact hi.busy u f' js' h1
  gone u hu := by
    rw [hpc]
    rcases List.mem_append.mp hu with hu | hu
    · exact hi.gone u hu
    · exact absurd hu (still_facts he u).2.2.1

/-- Nobody moves and no request, reference or effect is concerned. -/
theorem Inv.plain {s s' : St} {h es : List Event} (hi : Inv s h) (hn : s'.n = s.n) (hpc : s'.pc = s.pc) (hd : s'.d = s.d)
    (hq : ∀ e ∈ es, (∀ u, quiet u e = true) ∧ still e = true) : Inv s' (h ++ es) :=
  hi.stay hn hpc (fun u => by rw [hd]; exact (hi.data u).quiet fun e he => (hq e he).1 u)
    (fun u _ => ⟨by rw [hd], fun e he => (hq e he).1 u⟩) (fun u => by rw [hd]; exact ⟨rfl, fun _ => ⟨rfl, rfl⟩⟩)
    (fun u f js hx => ⟨f, js, by rw [hd] at hx; exact hx⟩) (fun e he => (hq e he).2)

theorem Inv.lt {s : St} {h : List Event} (hi : Inv s h) {w : Nat} (hw : s.pc w ≠ .unborn) : w < s.n := (hi.born w).mpr hw

theorem Inv.lt_lib {s : St} {h : List Event} (hi : Inv s h) {u : Nat} (hu : (s.d u).lib = true) : u < s.n := by
  by_cases hn : u < s.n
  · exact hn
  · have := (hi.fresh u (by omega)).1
    rw [this] at hu
    cases hu

/-- The data of one thread changes; nobody moves. -/
theorem Inv.one {s s' : St} {h es : List Event} (hi : Inv s h) {w : Nat} {x : Data} (hw : w < s.n) (hn : s'.n = s.n) (hpc : s'.pc = s.pc)
    (hd : s'.d = upd s.d w x) (hx : DInv w x (h ++ es)) (hq : ∀ u, u ≠ w → ∀ e ∈ es, quiet u e = true)
    (hl : x.lib = (s.d w).lib) (ho : (s.d w).lib = true → x.own = (s.d w).own ∧ x.set = (s.d w).set)
    (hleft : ∀ f js, x.left = some (f :: js) → ∃ f' js', (s.d w).left = some (f' :: js'))
    (he : ∀ e ∈ es, still e = true) : Inv s' (h ++ es) := by
  refine hi.stay hn hpc (fun u => ?_) (fun u hu => ?_) (fun u => ?_) (fun u f js => ?_) he
  · rw [hd]
    by_cases huw : u = w
    · subst huw; rw [upd_same]; exact hx
    · rw [upd_other _ _ huw]; exact (hi.data u).quiet (hq u huw)
  · have huw : u ≠ w := by omega
    rw [hd, upd_other _ _ huw]
    exact ⟨rfl, hq u huw⟩
  · rw [hd]
    by_cases huw : u = w
    · subst huw; rw [upd_same]; exact ⟨hl, ho⟩
    · rw [upd_other _ _ huw]; exact ⟨rfl, fun _ => ⟨rfl, rfl⟩⟩
  · rw [hd]
    by_cases huw : u = w
    · subst huw; rw [upd_same]; exact hleft f js
    · rw [upd_other _ _ huw]; exact fun h => ⟨f, js, h⟩

/-- A thread created by the library whose data is not destroyed asks for something. -/
theorem Inv.left_none {s : St} {h : List Event} (hi : Inv s h) {w : Nat} (hp : s.pc w = .idle) (hl : (s.d w).lib = true) :
    (s.d w).own = true ∧ (s.d w).left = none := by
  have ho : (s.d w).own = true := by
    cases ho : (s.d w).own with
    | true => rfl
    | false =>
      rcases hi.live w hl ho with h1 | h1 | ⟨v, h1⟩ <;> rw [hp] at h1 <;> cases h1
  refine ⟨ho, ((hi.data w).free' hl).mpr ?_⟩
  simp [Data.free, ho]

/-- A thread asks for something. -/
theorem Inv.ask {s s' : St} {h es : List Event} (hi : Inv s h) {w : Nat} {x : Data} (hp : s.pc w = .idle) (hn : s'.n = s.n) (hpc : s'.pc = s.pc)
    (hd : s'.d = upd s.d w x)
    (h1 : x.lib = true → askedNotify w es = (x.notify.drop (s.d w).notify.length).flatMap (fun y => [Eff.unlock y.2, .notify y.1]) ∧
      x.notify = (s.d w).notify ++ x.notify.drop (s.d w).notify.length)
    (h2 : x.lib = true → askedReady w es = (x.states.drop (s.d w).states.length).map .ready ∧ x.states = (s.d w).states ++ x.states.drop (s.d w).states.length)
    (hx : { x with notify := (s.d w).notify, states := (s.d w).states } = s.d w)
    (heff : effects w es = [] ∧ begun w es = 0 ∧ dropped w es = 0 ∧ ∀ v, Event.start v w ∉ es)
    (hq : ∀ u, u ≠ w → ∀ e ∈ es, quiet u e = true)
    (he : ∀ e ∈ es, still e = true) : Inv s' (h ++ es) := by
  have hl : x.lib = (s.d w).lib := by rw [← hx]
  have hleft : x.left = (s.d w).left := by rw [← hx]
  have hown : x.own = (s.d w).own := by rw [← hx]
  have hset : x.set = (s.d w).set := by rw [← hx]
  have hobj : x.obj = (s.d w).obj := by rw [← hx]
  have hcop : x.copies = (s.d w).copies := by rw [← hx]
  have hD := hi.data w
  refine hi.one (hi.lt (by rw [hp]; simp)) hn hpc hd ?_ hq hl (fun _ => ⟨hown, hset⟩) (fun f js h => ⟨f, js, by rw [← hleft]; exact h⟩) he
  exact
    { asked1 := fun hx => by
        rw [askedNotify_append, hD.asked1 (hl ▸ hx), (h1 hx).1]
        conv => rhs; rw [(h1 hx).2]
        rw [List.flatMap_append]
      asked2 := fun hx => by
        rw [askedReady_append, hD.asked2 (hl ▸ hx), (h2 hx).1]
        conv => rhs; rw [(h2 hx).2]
        rw [List.map_append]
      none' := by rw [effects_append, heff.1, List.append_nil, hleft]; exact hD.none'
      some' := fun js hjs => by
        rw [hleft] at hjs
        cases hlib : (s.d w).lib with
        | true => rw [(hi.left_none hp hlib).2] at hjs; cases hjs
        | false =>
          rw [effects_append, heff.1, List.append_nil, hD.some' js hjs]
          simp [jobs, hl, hlib]
      free' := by rw [hl, hleft, Data.free, hown, hobj, hcop]; exact hD.free'
      refs := by rw [begun_append, dropped_append, heff.2.1, heff.2.2.1, hobj, hcop]; exact hD.refs
      ext := by rw [hl, hobj, hcop]; exact hD.ext
      own := fun a b => List.mem_append_left _ (hD.own (hl ▸ a) (hown ▸ b))
      lib' := by rw [hl]; exact (created_append heff.2.2.2).trans hD.lib' }

/-- A new thread. -/
theorem Inv.start {s : St} {h : List Event} (hi : Inv s h) (w : Nat) :
    Inv { s with n := s.n + 1, pc := upd s.pc s.n .idle, d := upd s.d s.n Data.created } (h ++ [.start w s.n]) := by
  obtain ⟨f1, f2, f3, f4, f5, f6⟩ := hi.fresh s.n (Nat.le_refl _)
  have hD := hi.data s.n
  have hne : ∀ {u}, u ≠ s.n → ∀ e ∈ [Event.start w s.n], quiet u e = true := by
    intro u hu e he
    simp only [List.mem_singleton] at he
    subst he
    simp [quiet, Ne.symm hu]
  constructor
  · intro u
    by_cases hu : u = s.n
    · subst hu
      simp only [upd_same]
      have h0 := hD.refs
      rw [f1] at h0
      simp only [Data.external, Bool.false_eq_true, if_false] at h0
      constructor <;> (try simp only [askedNotify_append, askedReady_append, effects_append, begun_append, dropped_append, f2, f3, f4]) <;>
        simp [askedNotify, askedReady, effects, begun, dropped, Data.created, Data.free, created]
      · exact hD.none' (by rw [f1]; rfl)
      · omega
    · simp only [upd_other _ _ hu]
      exact (hi.data u).quiet (hne hu)
  · intro u
    by_cases hu : u = s.n
    · subst hu; simp [upd_same]
    · simp only [upd_other _ _ hu]
      have := hi.born u
      constructor
      · intro h1; exact this.mp (by omega)
      · intro h1; have := this.mpr h1; omega
  · intro u hu
    dsimp only at hu
    have hu' : u ≠ s.n := by omega
    obtain ⟨a, b, _, d, _, _⟩ := quiet_facts (hne hu')
    obtain ⟨f1, f2, f3, f4, f5, f6⟩ := hi.fresh u (by omega)
    simp only [upd_other _ _ hu']
    refine ⟨f1, ?_, ?_, ?_, ?_, ?_⟩
    · rw [askedNotify_append, a, f2]; rfl
    · rw [askedReady_append, b, f3]; rfl
    · rw [begun_append, d, f4]
    · simpa using f5
    · simpa using f6
  · intro u
    by_cases hu : u = s.n
    · subst hu; simp [upd_same, Data.created]
    · simp only [upd_other _ _ hu]; exact hi.live u
  · intro u
    by_cases hu : u = s.n
    · subst hu; simp [upd_same, Data.created]
    · simp only [upd_other _ _ hu]; exact hi.hold u
  · intro u
    dsimp only
    rw [pending_succ u s.pc s.n .idle rfl, dropped_append, returned_append]
    simpa [dropped, returned] using hi.rets u
  · intro x v k hx
    dsimp only at hx
    by_cases hu : x = s.n
    · subst hu; rw [upd_same] at hx; cases hx
    · rw [upd_other _ _ hu] at hx; exact hi.exec x v k hx
  · intro u f js hx
    dsimp only at hx
    by_cases hu : u = s.n
    · subst hu; rw [upd_same] at hx; cases hx
    · rw [upd_other _ _ hu] at hx
      obtain ⟨x, k, h1, h2⟩ := hi.busy u f js hx
      exact ⟨x, k, by dsimp only; omega, by dsimp only; rw [upd_other _ _ (by omega)]; exact h2⟩
  · intro u hu
    simp only [List.mem_append, List.mem_singleton] at hu
    rcases hu with hu | hu
    · have hn : u ≠ s.n := fun e => f6 (e ▸ hu)
      dsimp only
      rw [upd_other _ _ hn]; exact hi.gone u hu
    · cases hu

/-- Thread `w` moves, but does not begin or end to give up a reference. -/
theorem Inv.move {s : St} {h : List Event} (hi : Inv s h) {w : Nat} (hp : s.pc w = .idle) (u : Nat) :
    Inv { s with pc := upd s.pc w (.joining u) } (h ++ []) := by
  rw [List.append_nil]
  have hw := hi.lt (w := w) (by rw [hp]; simp)
  refine { hi with born := ?_, live := ?_, hold := ?_, rets := ?_, exec := ?_, busy := ?_, gone := ?_ }
  · intro v
    by_cases hv : v = w
    · subst hv; simp [upd_same, hw]
    · simp only [upd_other _ _ hv]; exact hi.born v
  · intro v h1 h2
    by_cases hv : v = w
    · subst hv
      rcases hi.live v h1 h2 with h3 | h3 | ⟨_, h3⟩ <;> rw [hp] at h3 <;> cases h3
    · simp only [upd_other _ _ hv]; exact hi.live v h1 h2
  · intro v h1 h2
    by_cases hv : v = w
    · subst hv; simp [upd_same, (hi.hold v h1 h2).1]
    · simp only [upd_other _ _ hv]; exact hi.hold v h1 h2
  · intro v
    have := pending_upd v s.pc s.n w (.joining u) hw
    simp only [hp, retting, Bool.false_eq_true, if_false, Nat.add_zero] at this
    dsimp only
    rw [this]
    exact hi.rets v
  · intro x v k hx
    by_cases hv : x = w
    · subst hv; simp only [upd_same] at hx; cases hx
    · simp only [upd_other _ _ hv] at hx; exact hi.exec x v k hx
  · intro v f js hx
    obtain ⟨x, k, h1, h2⟩ := hi.busy v f js hx
    refine ⟨x, k, h1, ?_⟩
    have : x ≠ w := by rintro rfl; rw [hp] at h2; cases h2
    simp only [upd_other _ _ this]; exact h2
  · intro v hv
    have := hi.gone v hv
    have hne : v ≠ w := by rintro rfl; rw [hp] at this; cases this
    simp only [upd_other _ _ hne]; exact this

/-- What follows is the return of a call that has given up a reference to `u`. -/
def kret (u : Nat) : Kont → Bool
  | .ret v => v == u
  | .bye => false

theorem retting_finish {u : Nat} {k : Kont} {c : Pc} (hc : c = .fin k ∨ ∃ v, c = .dtor v k) :
    retting u c = kret u k := by
  rcases hc with rfl | ⟨v, rfl⟩ <;> cases k <;> rfl

/-- A thread that has given up a reference goes on. -/
theorem Inv.finishUp {s : St} {h : List Event} (hi : Inv s h) {w : Nat} {k : Kont}
    (hp : s.pc w = .fin k ∨ ∃ v, s.pc w = .dtor v k ∧ ∀ f js, (s.d v).left ≠ some (f :: js)) :
    Inv (finishUp s w k).1 (h ++ (finishUp s w k).2) := by
  have hc : s.pc w = .fin k ∨ ∃ v, s.pc w = .dtor v k := hp.imp_right fun ⟨v, h, _⟩ => ⟨v, h⟩
  have hw := hi.lt (w := w) (by rcases hc with h | ⟨_, h⟩ <;> rw [h] <;> simp)
  have hb : ∀ v f js, (s.d v).left = some (f :: js) → ∃ x k, x < s.n ∧ s.pc x = .dtor v k ∧ x ≠ w := by
    intro v f js hx
    obtain ⟨x, k', h1, h2⟩ := hi.busy v f js hx
    refine ⟨x, k', h1, h2, ?_⟩
    rintro rfl
    rcases hp with hp | ⟨v', hp, hn⟩
    · rw [hp] at h2; cases h2
    · rw [hp] at h2; cases h2; exact hn f js hx
  have hg : ∀ v, Event.gone v ∈ h → v ≠ w := by
    rintro v hv rfl
    have := hi.gone v hv
    rcases hc with h | ⟨_, h⟩ <;> rw [h] at this <;> cases this
  cases k with
  | ret u =>
    have hq : ∀ v, ∀ e ∈ [Event.ret w u], quiet v e = true := by
      intro v e he; simp only [List.mem_singleton] at he; subst he; rfl
    simp only [AtExit.finishUp]
    constructor
    · intro v; exact (hi.data v).quiet (hq v)
    · intro v
      by_cases hv : v = w
      · subst hv; simp [upd_same, hw]
      · simp only [upd_other _ _ hv]; exact hi.born v
    · intro v hv
      obtain ⟨a, b, _, d, _, _⟩ := quiet_facts (hq v)
      obtain ⟨f1, f2, f3, f4, f5, f6⟩ := hi.fresh v hv
      refine ⟨f1, ?_, ?_, ?_, ?_, ?_⟩
      · rw [askedNotify_append, a, f2]; rfl
      · rw [askedReady_append, b, f3]; rfl
      · rw [begun_append, d, f4]
      · simpa using f5
      · simpa using f6
    · intro v h1 h2
      by_cases hv : v = w
      · subst hv
        rcases hi.live v h1 h2 with h3 | h3 | ⟨_, h3⟩ <;> rcases hc with h | ⟨_, h⟩ <;> rw [h] at h3 <;> cases h3
      · simp only [upd_other _ _ hv]; exact hi.live v h1 h2
    · intro v h1 h2
      by_cases hv : v = w
      · subst hv; simp [upd_same, (hi.hold v h1 h2).1]
      · simp only [upd_other _ _ hv]; exact hi.hold v h1 h2
    · intro v
      have := pending_upd v s.pc s.n w .idle hw
      rw [retting_finish hc] at this
      have h2 := hi.rets v
      simp only [retting, kret, Bool.false_eq_true, if_false, Nat.add_zero, beq_iff_eq] at this
      simp only [dropped_append, returned_append, dropped, returned]
      omega
    · intro x v k hx
      by_cases hv : x = w
      · subst hv; simp only [upd_same] at hx; cases hx
      · simp only [upd_other _ _ hv] at hx; exact hi.exec x v k hx
    · intro v f js hx
      obtain ⟨x, k, h1, h2, h3⟩ := hb v f js hx
      exact ⟨x, k, h1, by simp only [upd_other _ _ h3]; exact h2⟩
    · intro v hv
      simp only [List.mem_append, List.mem_singleton, reduceCtorEq, or_false] at hv
      simp only [upd_other _ _ (hg v hv)]; exact hi.gone v hv
  | bye =>
    have hq : ∀ v, ∀ e ∈ [Event.gone w], quiet v e = true := by
      intro v e he; simp only [List.mem_singleton] at he; subst he; rfl
    simp only [AtExit.finishUp]
    constructor
    · intro v; exact (hi.data v).quiet (hq v)
    · intro v
      by_cases hv : v = w
      · subst hv; simp [upd_same, hw]
      · simp only [upd_other _ _ hv]; exact hi.born v
    · intro v hv
      obtain ⟨a, b, _, d, _, _⟩ := quiet_facts (hq v)
      obtain ⟨f1, f2, f3, f4, f5, f6⟩ := hi.fresh v hv
      refine ⟨f1, ?_, ?_, ?_, ?_, ?_⟩
      · rw [askedNotify_append, a, f2]; rfl
      · rw [askedReady_append, b, f3]; rfl
      · rw [begun_append, d, f4]
      · simpa using f5
      · simp only [List.mem_append, List.mem_singleton, Event.gone.injEq, not_or]
        exact ⟨f6, by dsimp only at hv; omega⟩
    · intro v h1 h2
      by_cases hv : v = w
      · subst hv; simp [upd_same]
      · simp only [upd_other _ _ hv]; exact hi.live v h1 h2
    · intro v h1 h2
      by_cases hv : v = w
      · subst hv
        obtain ⟨_, _, h3, h4⟩ := hi.hold v h1 h2
        rcases hc with h | ⟨x, h⟩
        · exact absurd h h3
        · exact absurd h (h4 x)
      · simp only [upd_other _ _ hv]; exact hi.hold v h1 h2
    · intro v
      have := pending_upd v s.pc s.n w .gone hw
      rw [retting_finish hc] at this
      have h2 := hi.rets v
      simp only [retting, kret, Bool.false_eq_true, if_false, Nat.add_zero, beq_iff_eq] at this
      simp only [dropped_append, returned_append, dropped, returned]
      omega
    · intro x v k hx
      by_cases hv : x = w
      · subst hv; simp only [upd_same] at hx; cases hx
      · simp only [upd_other _ _ hv] at hx; exact hi.exec x v k hx
    · intro v f js hx
      obtain ⟨x, k, h1, h2, h3⟩ := hb v f js hx
      exact ⟨x, k, h1, by simp only [upd_other _ _ h3]; exact h2⟩
    · intro v hv
      simp only [List.mem_append, List.mem_singleton, Event.gone.injEq] at hv
      rcases hv with hv | rfl
      · simp only [upd_other _ _ (hg v hv)]; exact hi.gone v hv
      · simp only [upd_same]

/-- A reference is given up. -/
theorem Inv.release {s : St} {h : List Event} (hi : Inv s h) {w u : Nat} {x : Data} {k : Kont} {e : Event}
    (hp : s.pc w = .idle ∨ ∃ v, s.pc w = .joining v) (hu : u < s.n)
    (hx : { x with own := (s.d u).own, set := (s.d u).set, obj := (s.d u).obj, copies := (s.d u).copies } = s.d u)
    (hk : (k = .ret u ∧ e = .drop w u ∧ (s.d u).lib = true ∧ x.own = (s.d u).own ∧ x.set = (s.d u).set ∧
        (if (s.d u).obj then 1 else 0) + (s.d u).copies = (if x.obj then 1 else 0) + x.copies + 1) ∨
      (k = .bye ∧ e = .finish w ∧ u = w ∧ x.own = false ∧ x.obj = (s.d u).obj ∧ x.copies = (s.d u).copies)) :
    Inv (release s w u x k) (h ++ [e]) := by
  have hw := hi.lt (w := w) (by rcases hp with h | ⟨_, h⟩ <;> rw [h] <;> simp)
  have hl : x.lib = (s.d u).lib := by rw [← hx]
  have hleft : x.left = (s.d u).left := by rw [← hx]
  have hnot : x.notify = (s.d u).notify := by rw [← hx]
  have hsta : x.states = (s.d u).states := by rw [← hx]
  have hj : jobs x = jobs (s.d u) := by simp only [jobs, hl, hnot, hsta]
  have hD := hi.data u
  -- the data was not destroyed before
  have hnone : x.lib = true → (s.d u).left = none := by
    intro hlib
    rw [hl] at hlib
    rw [hD.free' hlib]
    rcases hk with ⟨_, _, _, _, _, h4⟩ | ⟨_, _, rfl, _, _, _⟩
    · simp only [Data.free]
      cases hobj : (s.d u).obj with
      | true => simp
      | false =>
        simp only [hobj, Bool.false_eq_true, if_false] at h4
        simp; omega
    · have : (s.d u).own = true := by
        cases ho : (s.d u).own with
        | true => rfl
        | false =>
          rcases hi.live u hlib ho with h3 | h3 | ⟨_, h3⟩ <;> rcases hp with h | ⟨_, h⟩ <;> rw [h] at h3 <;> cases h3
      simp [Data.free, this]
  have hq : ∀ v, v ≠ u → quiet v e = true := by
    intro v hv
    rcases hk with ⟨_, rfl, _⟩ | ⟨_, rfl, _⟩
    · simp [quiet, Ne.symm hv]
    · rfl
  have hfacts : askedNotify u [e] = [] ∧ askedReady u [e] = [] ∧ effects u [e] = [] ∧ begun u [e] = 0 ∧ (∀ v, Event.start v u ∉ [e]) ∧
      returned u [e] = 0 := by
    rcases hk with ⟨_, rfl, _⟩ | ⟨_, rfl, _⟩ <;> simp [askedNotify, askedReady, effects, begun, returned]
  obtain ⟨q1, q2, q3, q4, q5, q6⟩ := hfacts
  have hown : x.lib = true → x.own = false → Event.finish u ∈ h ++ [e] := by
    intro h1 h2
    rcases hk with ⟨_, _, _, h3, _⟩ | ⟨_, rfl, rfl, _⟩
    · exact List.mem_append_left _ (hD.own (hl ▸ h1) (h3 ▸ h2))
    · simp
  have hrefs : begun u (h ++ [e]) = dropped u (h ++ [e]) + (if x.obj then 1 else 0) + x.copies := by
    rw [begun_append, dropped_append, q4, hD.refs]
    rcases hk with ⟨_, rfl, _, _, _, h4⟩ | ⟨_, rfl, _, _, h5, h6⟩
    · simp only [dropped, if_true]; omega
    · simp only [dropped, h5, h6]; omega
  have hext : x.lib = false → x.obj = false ∧ x.copies = 0 := by
    intro h1
    rw [hl] at h1
    rcases hk with ⟨_, _, h2, _⟩ | ⟨_, _, _, _, h5, h6⟩
    · rw [h1] at h2; cases h2
    · rw [h5, h6]; exact hD.ext h1
  have hlib' : created u (h ++ [e]) ↔ x.lib = true := by rw [hl]; exact (created_append q5).trans hD.lib'
  -- the data afterwards
  obtain ⟨y, c, hs', hdy, hylib, hyown, hyset, hc, hyl, hyleft⟩ : ∃ y c, AtExit.release s w u x k = { s with d := upd s.d u y, pc := upd s.pc w c } ∧
      DInv u y (h ++ [e]) ∧ y.lib = x.lib ∧ y.own = x.own ∧ y.set = x.set ∧
      (c = .fin k ∨ c = .dtor u k) ∧ (c = .dtor u k ∨ y.left = (s.d u).left) ∧ True := by
    unfold AtExit.release
    cases hfree : x.free with
    | true =>
      refine ⟨{ x with left := some (jobs x) }, .dtor u k, by rw [if_pos rfl], ?_, rfl, rfl, rfl, Or.inr rfl, Or.inl rfl, trivial⟩
      exact
        { asked1 := fun hx => by rw [askedNotify_append, q1, List.append_nil, hD.asked1 (hl ▸ hx), hnot]
          asked2 := fun hx => by rw [askedReady_append, q2, List.append_nil, hD.asked2 (hl ▸ hx), hsta]
          none' := fun h => by cases h
          some' := fun js hjs => by
            dsimp only at hjs
            cases hjs
            rw [effects_append, q3, List.append_nil]
            have : effects u h = [] := by
              cases hlib : x.lib with
              | true => exact hD.none' (hnone hlib)
              | false =>
                have hlib' : (s.d u).lib = false := by rw [← hl]; exact hlib
                cases hle : (s.d u).left with
                | none => exact hD.none' hle
                | some js =>
                  have := hD.some' js hle
                  simp only [jobs, hlib', Bool.false_eq_true, if_false, List.append_eq_nil_iff] at this
                  exact this.1
            rw [this]
            simp [jobs]
          free' := fun _ => by
            have : Data.free { x with left := some (jobs x) } = true := hfree
            rw [this]; simp
          refs := hrefs
          ext := hext
          own := hown
          lib' := hlib' }
    | false =>
      refine ⟨x, .fin k, by rw [if_neg (by simp)], ?_, rfl, rfl, rfl, Or.inl rfl, Or.inr hleft, trivial⟩
      exact
        { asked1 := fun hx => by rw [askedNotify_append, q1, List.append_nil, hD.asked1 (hl ▸ hx), hnot]
          asked2 := fun hx => by rw [askedReady_append, q2, List.append_nil, hD.asked2 (hl ▸ hx), hsta]
          none' := fun h => by rw [effects_append, q3, List.append_nil]; exact hD.none' (hleft ▸ h)
          some' := fun js hjs => by
            rw [effects_append, q3, List.append_nil, hj]
            exact hD.some' js (hleft ▸ hjs)
          free' := fun hlib => by rw [hfree, hleft, hnone hlib]; simp
          refs := hrefs
          ext := hext
          own := hown
          lib' := hlib' }
  rw [hs']
  have hkc : ∀ v, retting v c = kret v k := fun v =>
    retting_finish (hc.imp_right fun h => ⟨u, h⟩)
  constructor
  · intro v
    by_cases hv : v = u
    · subst hv; simp only [upd_same]; exact hdy
    · simp only [upd_other _ _ hv]
      exact (hi.data v).quiet fun e' he' => by simp only [List.mem_singleton] at he'; subst he'; exact hq v hv
  · intro v
    by_cases hv : v = w
    · subst hv; simp only [upd_same]; rcases hc with rfl | rfl <;> simp [hw]
    · simp only [upd_other _ _ hv]; exact hi.born v
  · intro v hv
    dsimp only at hv
    have hvu : v ≠ u := by omega
    obtain ⟨a, b, _, d, _, _⟩ := quiet_facts (u := v) (es := [e]) fun e' he' => by
      simp only [List.mem_singleton] at he'; subst he'; exact hq v hvu
    obtain ⟨f1, f2, f3, f4, f5, f6⟩ := hi.fresh v hv
    simp only [upd_other _ _ hvu]
    refine ⟨f1, ?_, ?_, ?_, ?_, ?_⟩
    · rw [askedNotify_append, a, f2]; rfl
    · rw [askedReady_append, b, f3]; rfl
    · rw [begun_append, d, f4]
    · simp only [List.mem_append, List.mem_singleton, not_or]
      refine ⟨f5, ?_⟩
      rcases hk with ⟨_, rfl, _⟩ | ⟨_, rfl, _⟩
      · simp
      · simp only [Event.finish.injEq]; omega
    · simp only [List.mem_append, List.mem_singleton, not_or]
      refine ⟨f6, ?_⟩
      rcases hk with ⟨_, rfl, _⟩ | ⟨_, rfl, _⟩ <;> simp
  · intro v h1 h2
    dsimp only at h1 h2 ⊢
    -- the thread that leaves, or a thread that had left before
    have hcase : (v = w ∧ k = .bye) ∨ (v ≠ w ∧ (s.d v).lib = true ∧ (s.d v).own = false) := by
      by_cases hv : v = u
      · subst hv
        simp only [upd_same] at h1 h2
        rw [hylib, hl] at h1
        rcases hk with ⟨_, _, _, h3, _⟩ | ⟨hb, _, he, _⟩
        · right
          rw [hyown, h3] at h2
          refine ⟨?_, h1, h2⟩
          rintro rfl
          rcases hi.live v h1 h2 with h3 | h3 | ⟨_, h3⟩ <;> rcases hp with h | ⟨_, h⟩ <;> rw [h] at h3 <;> cases h3
        · exact Or.inl ⟨he, hb⟩
      · simp only [upd_other _ _ hv] at h1 h2
        right
        refine ⟨?_, h1, h2⟩
        rintro rfl
        rcases hi.live v h1 h2 with h3 | h3 | ⟨_, h3⟩ <;> rcases hp with h | ⟨_, h⟩ <;> rw [h] at h3 <;> cases h3
    rcases hcase with ⟨rfl, rfl⟩ | ⟨hv, h3, h4⟩
    · rw [upd_same]
      rcases hc with rfl | rfl
      · exact Or.inr (Or.inl rfl)
      · exact Or.inr (Or.inr ⟨_, rfl⟩)
    · rw [upd_other _ _ hv]; exact hi.live v h3 h4
  · intro v h1 h2
    dsimp only at h1 h2 ⊢
    have hsame : (upd s.d u y v).set = (s.d v).set ∧ (s.d v).lib = true ∧ (s.d v).own = true ∧ (v = w → k ≠ .bye) := by
      by_cases hv : v = u
      · subst hv
        simp only [upd_same] at h1 h2 ⊢
        rw [hylib, hl] at h1
        rcases hk with ⟨hb, _, _, h3, h3', _⟩ | ⟨hb, _, he, h3, _⟩
        · rw [hyown, h3] at h2
          exact ⟨by rw [hyset, h3'], h1, h2, fun _ => by rw [hb]; simp⟩
        · rw [hyown, h3] at h2; cases h2
      · simp only [upd_other _ _ hv] at h1 h2 ⊢
        refine ⟨trivial, h1, h2, ?_⟩
        rintro rfl rfl
        rcases hk with ⟨hb, _⟩ | ⟨_, _, he, _⟩
        · cases hb
        · exact hv he.symm
    rw [hsame.1]
    obtain ⟨g1, g2⟩ := hi.hold v hsame.2.1 hsame.2.2.1
    refine ⟨g1, ?_⟩
    by_cases hv : v = w
    · subst hv
      rw [upd_same]
      have hne := hsame.2.2.2 rfl
      rcases hc with rfl | rfl
      · simp [hne]
      · simp [hne]
    · rw [upd_other _ _ hv]; exact g2
  · intro v
    have := pending_upd v s.pc s.n w c hw
    have h0 : retting v (s.pc w) = false := by rcases hp with h | ⟨_, h⟩ <;> rw [h] <;> rfl
    rw [hkc v, h0] at this
    have h2 := hi.rets v
    simp only [dropped_append, returned_append]
    rcases hk with ⟨rfl, rfl, _⟩ | ⟨rfl, rfl, _⟩
    · simp only [kret, Bool.false_eq_true, if_false, beq_iff_eq, dropped, returned] at this ⊢
      omega
    · simp only [kret, Bool.false_eq_true, if_false, dropped, returned] at this ⊢
      omega
  · intro z v k' hz
    dsimp only at hz
    by_cases hv : z = w
    · subst hv
      rw [upd_same] at hz
      rcases hc with rfl | rfl
      · cases hz
      · cases hz
        rcases hk with ⟨rfl, _⟩ | ⟨rfl, _, he, _⟩
        · exact Or.inl rfl
        · exact Or.inr ⟨rfl, he⟩
    · rw [upd_other _ _ hv] at hz; exact hi.exec z v k' hz
  · intro v f js hv
    dsimp only at hv ⊢
    have hold : (s.d v).left = some (f :: js) → ∃ z k', z < s.n ∧ upd s.pc w c z = .dtor v k' := by
      intro hl
      obtain ⟨z, k', h1, h2⟩ := hi.busy v f js hl
      refine ⟨z, k', h1, ?_⟩
      have : z ≠ w := by rintro rfl; rcases hp with h | ⟨_, h⟩ <;> rw [h] at h2 <;> cases h2
      rw [upd_other _ _ this]; exact h2
    by_cases hvu : v = u
    · subst hvu
      rw [upd_same] at hv
      rcases hyl with rfl | h2
      · exact ⟨w, k, hw, by rw [upd_same]⟩
      · exact hold (h2 ▸ hv)
    · rw [upd_other _ _ hvu] at hv
      exact hold hv
  · intro v hv
    have hv' : Event.gone v ∈ h := by
      simp only [List.mem_append, List.mem_singleton] at hv
      rcases hv with hv | hv
      · exact hv
      · rcases hk with ⟨_, rfl, _⟩ | ⟨_, rfl, _⟩ <;> cases hv
    have := hi.gone v hv'
    have hne : v ≠ w := by rintro rfl; rcases hp with h | ⟨_, h⟩ <;> rw [h] at this <;> cases this
    simp only [upd_other _ _ hne]; exact this

theorem perform_pc (s : St) (f : Eff) : (perform s f).pc = s.pc ∧ (perform s f).n = s.n ∧ (perform s f).d = s.d := by
  cases f <;> exact ⟨rfl, rfl, rfl⟩

theorem Inv.lib_of_ref {s : St} {h : List Event} (hi : Inv s h) {u : Nat} (hu : (s.d u).obj = true ∨ 0 < (s.d u).copies) :
    (s.d u).lib = true := by
  cases hl : (s.d u).lib with
  | true => rfl
  | false =>
    obtain ⟨a, b⟩ := (hi.data u).ext hl
    rcases hu with hu | hu
    · rw [a] at hu; cases hu
    · omega

set_option maxHeartbeats 1000000 in
theorem inv_idle {s s' : St} {h es : List Event} {l : Label} (hi : Inv s h) (hp : s.pc l.who = .idle)
    (hs : stepIdle s l = some (s', es)) : Inv s' (h ++ es) := by
  have hw := hi.lt (w := l.who) (by rw [hp]; simp)
  cases l with
  | start w =>
    simp only [stepIdle, Option.some.injEq, Prod.mk.injEq] at hs
    obtain ⟨rfl, rfl⟩ := hs
    exact hi.start w
  | mkData w =>
    simp only [stepIdle] at hs
    split at hs <;> cases hs
    next hset =>
    refine hi.one (w := w) hw rfl rfl rfl ?_ (by simp) rfl (fun hl => ?_) (fun f js h => ⟨f, js, h⟩) (by simp)
    · rw [List.append_nil]
      refine (hi.data w).congr rfl rfl rfl rfl (fun hl => ?_) rfl rfl
      exact (hi.left_none hp hl).1.symm
    · exact absurd (hi.hold w hl (hi.left_none hp hl).1).1 hset
  | lock w m =>
    simp only [stepIdle] at hs
    split at hs <;> cases hs
    exact hi.plain rfl rfl rfl (by simp [quiet, still])
  | unlock w m =>
    simp only [stepIdle] at hs
    split at hs <;> cases hs
    exact hi.plain rfl rfl rfl (by simp [quiet, still])
  | notifyExit w c m =>
    simp only [stepIdle] at hs
    split at hs
    case isFalse => cases hs
    split at hs
    · split at hs <;> cases hs
      · refine hi.ask (w := w) (x := { s.d w with notify := (s.d w).notify ++ [(c, m)] }) hp rfl rfl rfl (fun _ => ?_) (fun _ => ?_) rfl ?_ (fun u hu => ?_) (by simp [still])
        · simp [askedNotify]
        · simp [askedReady]
        · simp [effects, begun, dropped]
        · simp [quiet, Ne.symm hu]
      · next hl =>
        refine hi.ask (w := w) (x := s.d w) hp rfl rfl ?_ (fun h => absurd h hl) (fun h => absurd h hl) rfl ?_ (fun u hu => ?_) (by simp [still])
        · funext i; simp only [upd]; split <;> simp_all
        · simp [effects, begun, dropped]
        · simp [quiet, Ne.symm hu]
    · cases hs
      next hset =>
      have hl : ¬ (s.d w).lib = true := fun hl => hset (hi.hold w hl (hi.left_none hp hl).1).1
      refine hi.ask (w := w) (x := s.d w) hp rfl rfl ?_ (fun h => absurd h hl) (fun h => absurd h hl) rfl ?_ (fun u hu => ?_) (by simp [still])
      · funext i; simp only [upd]; split <;> simp_all
      · simp [effects, begun, dropped]
      · simp [quiet, Ne.symm hu]
  | setExit w p r =>
    simp only [stepIdle] at hs
    split at hs
    case isFalse => cases hs
    split at hs
    · cases hs
      exact hi.plain rfl rfl rfl (by simp [quiet, still])
    · split at hs <;> cases hs
      · refine hi.ask (w := w) (x := { s.d w with states := (s.d w).states ++ [p] }) hp rfl rfl rfl (fun _ => ?_) (fun _ => ?_) rfl ?_ (fun u hu => ?_) (by simp [still])
        · simp [askedNotify]
        · simp [askedReady]
        · simp [effects, begun, dropped]
        · simp [quiet, Ne.symm hu]
      · next hset =>
        have hl : ¬ (s.d w).lib = true := fun hl => hset (hi.hold w hl (hi.left_none hp hl).1).1
        refine hi.ask (w := w) (x := s.d w) hp rfl rfl ?_ (fun h => absurd h hl) (fun h => absurd h hl) rfl ?_ (fun u hu => ?_) (by simp [still])
        · funext i; simp only [upd]; split <;> simp_all
        · simp [effects, begun, dropped]
        · simp [quiet, Ne.symm hu]
  | setNow w p r =>
    simp only [stepIdle] at hs
    split at hs
    case isFalse => cases hs
    split at hs <;> cases hs
    · exact hi.plain rfl rfl rfl (by simp [quiet, still])
    · exact hi.plain rfl rfl rfl (by simp [quiet, still])
  | destroy w p =>
    simp only [stepIdle] at hs
    split at hs <;> cases hs
    exact hi.plain rfl rfl rfl (by simp [quiet, still])
  | get w p =>
    simp only [stepIdle] at hs
    split at hs <;> cases hs
    exact hi.plain rfl rfl rfl (by simp [quiet, still])
  | ret w =>
    simp only [stepIdle] at hs
    split at hs <;> cases hs
    refine hi.one (w := w) hw rfl rfl rfl ?_ (by simp) rfl (fun hl => ⟨rfl, rfl⟩) (fun f js h => ⟨f, js, h⟩) (by simp)
    rw [List.append_nil]
    exact (hi.data w).congr rfl rfl rfl rfl (fun _ => rfl) rfl rfl
  | leave w =>
    simp only [stepIdle] at hs
    split at hs <;> cases hs
    exact hi.release (Or.inl hp) hw rfl (Or.inr ⟨rfl, rfl, rfl, rfl, rfl, rfl⟩)
  | join w u =>
    simp only [stepIdle] at hs
    split at hs <;> cases hs
    exact hi.move hp u
  | detach w u =>
    simp only [stepIdle] at hs
    split at hs <;> cases hs
    next ho =>
    have hl := hi.lib_of_ref (Or.inl ho)
    exact hi.release (Or.inl hp) (hi.lt_lib hl) rfl (Or.inl ⟨rfl, rfl, hl, rfl, rfl, by simp [ho]; omega⟩)
  | copy w u =>
    simp only [stepIdle] at hs
    split at hs <;> cases hs
    next ho =>
    have hl := hi.lib_of_ref (Or.inl ho)
    have hD := hi.data u
    refine hi.one (w := u) (hi.lt_lib hl) rfl rfl rfl ?_ (fun v hv => by simp [quiet, Ne.symm hv]) rfl (fun hl => ⟨rfl, rfl⟩) (fun f js h => ⟨f, js, h⟩) (by simp [still])
    exact
      { asked1 := by simpa [askedNotify_append, askedNotify] using hD.asked1
        asked2 := by simpa [askedReady_append, askedReady] using hD.asked2
        none' := by simpa [effects_append, effects] using hD.none'
        some' := by simpa [effects_append, effects, jobs] using hD.some'
        free' := fun hl => by rw [hD.free' hl]; simp [Data.free, ho]
        refs := by
          have := hD.refs
          simp only [begun_append, dropped_append, begun, dropped, if_true]
          omega
        ext := fun h => by dsimp only at h; rw [hl] at h; cases h
        own := fun a b => List.mem_append_left _ (hD.own a b)
        lib' := (created_append (by simp)).trans hD.lib' }
  | uncopy w u =>
    simp only [stepIdle] at hs
    split at hs <;> cases hs
    next ho =>
    have hl := hi.lib_of_ref (Or.inr ho)
    exact hi.release (Or.inl hp) (hi.lt_lib hl) rfl (Or.inl ⟨rfl, rfl, hl, rfl, rfl, by dsimp only; omega⟩)
  | joinEnd w => cases hs
  | go w => cases hs

theorem inv_step {s s' : St} {h es : List Event} {l : Label} (hi : Inv s h) (hs : step s l = some (s', es)) : Inv s' (h ++ es) := by
  unfold step at hs
  split at hs
  · next hp => exact inv_idle hi hp hs
  · next u hp =>
    split at hs
    case h_2 => cases hs
    split at hs <;> cases hs
    next w ho =>
    have hl := hi.lib_of_ref (Or.inl ho.2)
    exact hi.release (Or.inr ⟨_, hp⟩) (hi.lt_lib hl) rfl (Or.inl ⟨rfl, rfl, hl, rfl, rfl, by simp [ho.2]; omega⟩)
  · next u k hp =>
    split at hs
    · next w f js hleft =>
      cases hs
      obtain ⟨p1, p2, p3⟩ := perform_pc { s with d := upd s.d u { s.d u with left := some js } } f
      have hD := hi.data u
      have hu : u < s.n := by
        by_cases hn : u < s.n
        · exact hn
        · rw [(hi.fresh u (by omega)).1] at hleft; cases hleft
      refine hi.one (w := u) hu p2 p1 p3 ?_ (fun v hv => by simp [quiet, Ne.symm hv]) rfl (fun _ => ⟨rfl, rfl⟩) (fun _ _ _ => ⟨f, js, hleft⟩) (by simp [still])
      exact
        { asked1 := by simpa [askedNotify_append, askedNotify] using hD.asked1
          asked2 := by simpa [askedReady_append, askedReady] using hD.asked2
          none' := fun h => by cases h
          some' := fun js' h => by
            dsimp only at h
            cases h
            have := hD.some' _ hleft
            simpa [effects_append, effects, jobs] using this
          free' := fun hl => by
            have := hD.free' hl
            rw [hleft] at this
            simp only [reduceCtorEq, false_iff, Bool.not_eq_false] at this
            have h2 : Data.free { s.d u with left := some js } = true := this
            rw [h2]; simp
          refs := by simpa [begun_append, dropped_append, begun, dropped] using hD.refs
          ext := hD.ext
          own := fun a b => List.mem_append_left _ (hD.own a b)
          lib' := (created_append (by simp)).trans hD.lib' }
    · next w hno =>
      simp only [Option.some.injEq] at hs
      have := hi.finishUp (w := w) (k := k) (Or.inr ⟨u, hp, fun f js hc => hno f js hc⟩)
      rw [hs] at this
      exact this
    · cases hs
  · next k hp =>
    split at hs
    · next w =>
      simp only [Option.some.injEq] at hs
      have := hi.finishUp (w := w) (k := k) (Or.inl hp)
      rw [hs] at this
      exact this
    · cases hs
  · cases hs

theorem inv_run {n : Nat} {ls : List Label} {s : St} {h : List Event} (hr : run step (init n) ls = some (s, h)) : Inv s h := by
  have := run_inv_hist Inv (fun s l s' h es hi hs => inv_step hi hs) (hist := []) (inv_init n) hr
  simpa using this

end Verif.AtExit
