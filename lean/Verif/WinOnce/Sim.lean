import Verif.WinOnce.Model
/-! # The Windows `call_once`: the invariant -/

set_option linter.unusedSimpArgs false

namespace Verif.WinOnce

open Once

/-- The thread has set the status to running and not yet stored another one. -/
def PC.claimed : PC → Bool
  | .enterOpen | .enterReset | .inside | .commitCount | .commitStatus | .rollStatus => true
  | _ => false

/-- The thread ran the function, which threw. -/
def PC.rolling : PC → Bool
  | .rollStatus | .rollOpen | .rollSet => true
  | _ => false

/-- The thread ran the function, which returned. -/
def PC.committing : PC → Bool
  | .commitCount | .commitStatus => true
  | _ => false

/-- The thread has stored the status after running the function and has not left. -/
def PC.tail : PC → Bool
  | .commitLook | .commitCreate | .commitSet | .rollOpen | .rollSet => true
  | _ => false

def Thread.claims (x : Thread) : Bool := x.pc.claimed
def Thread.commits (x : Thread) : Bool := x.pc.committing
/-- The thread will set the event. -/
def Thread.sets (x : Thread) : Bool := x.pc.claimed || x.pc.tail

/-- The thread waits for the event, or is about to. -/
def Thread.lurks (x : Thread) : Bool :=
  match x.pc with
  | .wait => true
  | .try_ => x.counted
  | _ => false

/-- What holds of one thread. -/
def Thread.ok (x : Thread) : Prop :=
  match x.pc with
  | .idle | .count => x.hnd = false ∧ x.counted = false
  | .top | .try_ => x.hnd = x.counted
  | .check | .create => x.hnd = false ∧ x.counted = true
  | .wait => x.hnd = true ∧ x.counted = true
  | .enterReset | .rollSet => x.hnd = true
  | .commitSet => x.hnd = true ∧ x.counted = true
  | .commitStatus | .commitLook => x.counted = true
  | .commitCreate => x.hnd = false ∧ x.counted = true
  | _ => True

structure Rel (s : State) (q : Flag) : Prop where
  refs : s.refs = cnt Thread.hnd s.ts
  count : cnt Thread.counted s.ts ≤ s.count
  claims : cnt Thread.claims s.ts = b2n (decide (s.status = .running))
  thread : ∀ (t : Nat) (x : Thread), s.ts[t]? = some x → x.ok
  running : ∀ t, q.running = some t → ∃ x, s.ts[t]? = some x ∧ x.pc = .inside
  inside : ∀ (t : Nat) (x : Thread), s.ts[t]? = some x → x.pc = .inside → q.running = some t
  done : q.done = (decide (s.status = .complete) || decide (0 < cnt Thread.commits s.ts))
  nodup : q.throwing.Nodup
  throwing : ∀ t, t ∈ q.throwing ↔ ∃ x, s.ts[t]? = some x ∧ x.pc.rolling = true
  finished : ∀ (t : Nat) (x : Thread), s.ts[t]? = some x → (x.pc = .commitLook ∨ x.pc = .commitCreate ∨ x.pc = .commitSet) → s.status = .complete
  wait : ∀ (t : Nat) (x : Thread), s.ts[t]? = some x → x.lurks = true → (x.pc = .wait ∨ s.status = .complete) → s.ev = true ∨ 0 < cnt Thread.sets s.ts

theorem Rel.init (n : Nat) : Rel (init n) Flag.fresh where
  refs := by simp [WinOnce.init, cnt_replicate]
  count := by simp [WinOnce.init, cnt_replicate]
  claims := by simp [WinOnce.init, cnt_replicate, Thread.claims, PC.claimed]
  thread := by
    intro t x h
    simp only [WinOnce.init, List.getElem?_replicate] at h
    split at h <;> cases h
    exact ⟨rfl, rfl⟩
  running := by simp [Flag.fresh]
  inside := by
    intro t x h
    simp only [WinOnce.init, List.getElem?_replicate] at h
    split at h <;> cases h
    simp
  done := by simp [WinOnce.init, cnt_replicate, Thread.commits, PC.committing, Flag.fresh]
  nodup := by simp [Flag.fresh]
  throwing := by
    intro t
    simp only [Flag.fresh, List.not_mem_nil, false_iff, not_exists, not_and]
    intro x h
    simp only [WinOnce.init, List.getElem?_replicate] at h
    split at h <;> cases h
    simp [PC.rolling]
  finished := by
    intro t x h
    simp only [WinOnce.init, List.getElem?_replicate] at h
    split at h <;> cases h
    simp
  wait := by
    intro t x h
    simp only [WinOnce.init, List.getElem?_replicate] at h
    split at h <;> cases h
    simp [Thread.lurks]

theorem mem_erase_nodup {l : List Nat} (h : l.Nodup) (a b : Nat) : a ∈ l.erase b ↔ a ≠ b ∧ a ∈ l := h.mem_erase_iff

/-- One thread changes its place. -/
theorem Rel.move {s : State} {q : Flag} {t : Nat} {x : Thread} (R : Rel s q) (hx : s.ts[t]? = some x) {x' : Thread} {s' : State} {q' : Flag}
    (hts : s'.ts = s.ts.set t x')
    (hrefs : s'.refs + b2n x.hnd = s.refs + b2n x'.hnd)
    (hcount : s.count + b2n x'.counted ≤ s'.count + b2n x.counted)
    (hclaims : b2n (decide (s'.status = .running)) + b2n x.claims = b2n (decide (s.status = .running)) + b2n x'.claims)
    (hok : x'.ok)
    (hrun : ∀ u, u ≠ t → (q'.running = some u ↔ q.running = some u)) (hrun' : q'.running = some t ↔ x'.pc = .inside)
    (hdone : ∀ c c', c' + b2n x.commits = c + b2n x'.commits → q.done = (decide (s.status = .complete) || decide (0 < c)) →
      c ≤ b2n (decide (s.status = .running)) → q'.done = (decide (s'.status = .complete) || decide (0 < c')))
    (hnd : q'.throwing.Nodup) (hthr : ∀ u, u ≠ t → (u ∈ q'.throwing ↔ u ∈ q.throwing)) (hthr' : t ∈ q'.throwing ↔ x'.pc.rolling = true)
    (hfin : s.status = .complete → s'.status = .complete)
    (hfin' : (x'.pc = .commitLook ∨ x'.pc = .commitCreate ∨ x'.pc = .commitSet) → s'.status = .complete)
    (hwait : s'.ev = true ∨ x'.sets = true ∨ (x'.lurks = false ∧ ∀ u y, u ≠ t → s.ts[u]? = some y → y.lurks = false) ∨
      (s'.ev = s.ev ∧ x.sets = false ∧ (s'.status = .complete → s.status = .complete) ∧
        (x'.lurks = true → (x.lurks = true ∧ s.status = .complete) ∨ s.status = .running ∨ (x'.pc = .try_ ∧ s'.status ≠ .complete)))) : Rel s' q' := by
  have hx' : (s.ts.set t x')[t]? = some x' := by simp [getElem?_set_eq hx]
  have hget : ∀ u y, s'.ts[u]? = some y → (u = t ∧ y = x') ∨ (u ≠ t ∧ s.ts[u]? = some y) := by
    intro u y hy
    rw [hts] at hy
    by_cases hut : u = t
    · subst hut; rw [hx'] at hy; cases hy; exact Or.inl ⟨rfl, rfl⟩
    · rw [List.getElem?_set_ne (Ne.symm hut)] at hy; exact Or.inr ⟨hut, hy⟩
  have hset : s'.ts[t]? = some x' := by rw [hts]; exact hx'
  have hset' : ∀ u y, u ≠ t → s.ts[u]? = some y → s'.ts[u]? = some y := by
    intro u y hut hy; rw [hts, List.getElem?_set_ne (Ne.symm hut)]; exact hy
  have c1 := cnt_set Thread.hnd x' hx
  have c2 := cnt_set Thread.counted x' hx
  have c3 := cnt_set Thread.claims x' hx
  have c4 := cnt_set Thread.commits x' hx
  have c5 := cnt_set Thread.sets x' hx
  have c6 : cnt Thread.commits s.ts ≤ cnt Thread.claims s.ts := cnt_le _ (by
    rintro ⟨pc, h, c⟩; cases pc <;> simp [Thread.commits, Thread.claims, PC.committing, PC.claimed])
  have c7 : cnt Thread.claims s.ts ≤ cnt Thread.sets s.ts := cnt_le _ (by
    rintro ⟨pc, h, c⟩; cases pc <;> simp [Thread.sets, Thread.claims, PC.claimed])
  rw [← hts] at c1 c2 c3 c4 c5
  have R1 := R.refs
  have R2 := R.count
  have R3 := R.claims
  refine ⟨by omega, by omega, by omega, ?_, ?_, ?_, ?_, hnd, ?_, ?_, ?_⟩
  · intro u y hy
    rcases hget u y hy with ⟨rfl, rfl⟩ | ⟨h1, h2⟩
    · exact hok
    · exact R.thread u y h2
  · intro u hu
    by_cases hut : u = t
    · subst hut; exact ⟨x', hset, hrun'.mp hu⟩
    · obtain ⟨y, h1, h2⟩ := R.running u ((hrun u hut).mp hu)
      exact ⟨y, hset' u y hut h1, h2⟩
  · intro u y hy hp
    rcases hget u y hy with ⟨rfl, rfl⟩ | ⟨h1, h2⟩
    · exact hrun'.mpr hp
    · exact (hrun u h1).mpr (R.inside u y h2 hp)
  · exact hdone _ _ c4 R.done (by omega)
  · intro u
    by_cases hut : u = t
    · subst hut
      rw [hthr']
      constructor
      · intro h; exact ⟨x', hset, h⟩
      · rintro ⟨y, h1, h2⟩; rw [hset] at h1; cases h1; exact h2
    · rw [hthr u hut, R.throwing u]
      constructor
      · rintro ⟨y, h1, h2⟩; exact ⟨y, hset' u y hut h1, h2⟩
      · rintro ⟨y, h1, h2⟩
        rcases hget u y h1 with ⟨h3, -⟩ | ⟨-, h3⟩
        · exact absurd h3 hut
        · exact ⟨y, h3, h2⟩
  · intro u y hy hp
    rcases hget u y hy with ⟨rfl, rfl⟩ | ⟨h1, h2⟩
    · exact hfin' hp
    · exact hfin (R.finished u y h2 hp)
  · intro u y hy hl hp
    rcases hwait with h | h | ⟨h, h'⟩ | ⟨h1, h2, h3, h4⟩
    · exact Or.inl h
    · exact Or.inr (cnt_pos hset h)
    · rcases hget u y hy with ⟨rfl, rfl⟩ | ⟨h1, h2⟩
      · rw [h] at hl; cases hl
      · rw [h' u y h1 h2] at hl; cases hl
    · have hold : (s.ev = true ∨ 0 < cnt Thread.sets s.ts) → s'.ev = true ∨ 0 < cnt Thread.sets s'.ts := by
        rintro (h6 | h6)
        · left; rw [h1]; exact h6
        · right; simp only [h2, b2n_false] at c5; omega
      rcases hget u y hy with ⟨rfl, rfl⟩ | ⟨h5, h6⟩
      · rcases h4 hl with ⟨h7, h8⟩ | h7 | ⟨h7, h8⟩
        · exact hold (R.wait u x hx h7 (Or.inr h8))
        · simp only [h7, decide_true, b2n_true] at R3
          right; simp only [h2, b2n_false] at c5; omega
        · rcases hp with hp | hp
          · rw [h7] at hp; cases hp
          · exact absurd hp h8
      · exact hold (R.wait u y h6 hl (hp.imp_right h3))

theorem not_running {s : State} {q : Flag} {t : Nat} {x : Thread} (R : Rel s q) (hx : s.ts[t]? = some x) (h : x.pc ≠ .inside) :
    q.running ≠ some t := by
  intro hr
  obtain ⟨y, h1, h2⟩ := R.running t hr
  rw [hx] at h1; cases h1; exact h h2

theorem throwing_iff {s : State} {q : Flag} {t : Nat} {x : Thread} (R : Rel s q) (hx : s.ts[t]? = some x) :
    t ∈ q.throwing ↔ x.pc.rolling = true := by
  rw [R.throwing t]
  constructor
  · rintro ⟨y, h1, h2⟩; rw [hx] at h1; cases h1; exact h2
  · intro h; exact ⟨x, hx, h⟩

/-- A claimed status is running, and nobody else claims. -/
theorem claim {s : State} {q : Flag} {t : Nat} {x : Thread} (R : Rel s q) (hx : s.ts[t]? = some x) (h : x.claims = true) :
    s.status = .running ∧ ∀ u, q.running = some u → u = t := by
  have h1 := cnt_pos hx h
  have h2 := R.claims
  have h3 : s.status = .running := by
    cases hst : s.status <;> simp_all
  refine ⟨h3, ?_⟩
  intro u hu
  obtain ⟨y, h4, h5⟩ := R.running u hu
  apply Classical.byContradiction
  intro hne
  have := cnt_ge_two h4 hx hne (f := Thread.claims) (by simp [Thread.claims, h5, PC.claimed]) h
  simp [h3] at h2; omega

theorem lurks_ok {x : Thread} (h : x.ok) (hl : x.lurks = true) : x.hnd = true ∧ x.counted = true := by
  obtain ⟨pc, hnd, counted⟩ := x
  cases pc <;> simp_all [Thread.ok, Thread.lurks]

theorem follows_ok {P : Flag → Prop} {q q' : Flag} {e : Event} (hs : specNext 0 q e = .ok q') (hP : P q') :
    Follows (specNext 0) P q [e] := by
  simp only [Follows, hs]; exact hP

set_option maxHeartbeats 4000000 in
theorem go_follows {s : State} {q : Flag} {t : Nat} {x : Thread} (R : Rel s q) (hx : s.ts[t]? = some x) {s' : State} {es : List Event}
    (hs : go s t x = some (s', es)) : Follows (specNext 0) (Rel s') q es := by
  have hok := R.thread t x hx
  have hr := not_running R hx
  have hth := throwing_iff R hx
  have hcl := claim R hx
  have hfi := R.finished t x hx
  have hnone : ∀ u y, u ≠ t → s.ts[u]? = some y → s.refs = b2n x.hnd → y.lurks = false := by
    intro u y hu hy hr
    cases hp : y.lurks with
    | false => rfl
    | true =>
    exfalso
    have hy1 := lurks_ok (R.thread u y hy) hp
    have := R.refs
    cases hh : x.hnd with
    | false => have := cnt_pos hy hy1.1; simp [hh] at hr; omega
    | true => have := cnt_ge_two hy hx hu hy1.1 hh; simp [hh] at hr; omega
  have hnone' : ∀ u y, u ≠ t → s.ts[u]? = some y → x.counted = true → s.count ≤ 1 → y.lurks = false := by
    intro u y hu hy hc hr
    cases hp : y.lurks with
    | false => rfl
    | true =>
    exfalso
    have hy1 := lurks_ok (R.thread u y hy) hp
    have := R.count
    have := cnt_ge_two hy hx hu hy1.2 hc; omega
  have hpos : x.hnd = true → 0 < s.refs := by
    intro h; rw [R.refs]; exact cnt_pos hx h
  have hdn := R.done
  have hnod := R.nodup
  have hcs := R.claims
  have hcc : cnt Thread.commits s.ts ≤ cnt Thread.claims s.ts := cnt_le _ (by
    rintro ⟨pc, h, c⟩; cases pc <;> simp [Thread.commits, Thread.claims, PC.committing, PC.claimed])
  have hcom : x.claims = true → x.commits = false → q.running ≠ some t → q.running = none ∧ q.done = false := by
    intro h1 h2 h3
    obtain ⟨h4, h5⟩ := claim R hx h1
    have h6 : q.running = none := by
      cases hq : q.running with
      | none => rfl
      | some u => rw [h5 u hq] at hq; exact absurd hq h3
    refine ⟨h6, ?_⟩
    have h7 : cnt Thread.commits s.ts = 0 := by
      rw [cnt_eq_zero]
      intro u y hy
      cases hc : y.commits with
      | false => rfl
      | true =>
        by_cases hut : u = t
        · subst hut; rw [hx] at hy; cases hy; rw [h2] at hc; cases hc
        · have h8 : y.claims = true := by
            obtain ⟨pc, h, c⟩ := y
            cases pc <;> simp_all [Thread.commits, Thread.claims, PC.committing, PC.claimed]
          have := cnt_ge_two hy hx hut h8 h1
          simp [h4] at hcs; omega
    rw [hdn, h7, h4]; rfl
  have hpc1 : x.pc = .top → (if x.hnd then s.refs - 1 else s.refs) + b2n x.hnd = s.refs := by
    intro _
    cases h : x.hnd with
    | false => simp
    | true => have := hpos h; simp; omega
  obtain ⟨pc, hnd, counted⟩ := x
  cases pc
  all_goals simp only [go] at hs
  all_goals (repeat' split at hs) <;> cases hs
  all_goals simp only [State.openEvent, State.createEvent, State.leave, State.at] at *
  all_goals try rw [if_neg (by assumption)]
  all_goals first
    | refine Rel.move (q' := q) R hx rfl ?_ ?_ ?_ ?_ (fun _ _ => Iff.rfl) ?_ ?_ hnod (fun _ _ => Iff.rfl) ?_ ?_ ?_ ?_
    | refine follows_ok (e := .returned t 0) (q' := q) ?_
        (Rel.move (q' := q) R hx rfl ?_ ?_ ?_ ?_ (fun _ _ => Iff.rfl) ?_ ?_ hnod (fun _ _ => Iff.rfl) ?_ ?_ ?_ ?_)
    | refine follows_ok (e := .started t 0) (q' := { q with running := some t }) ?_ (Rel.move R hx rfl ?_ ?_ ?_ ?_ ?_ ?_ ?_ hnod (fun _ _ => Iff.rfl) ?_ ?_ ?_ ?_)
    | refine follows_ok (e := .raised t 0) (q' := { q with throwing := q.throwing.erase t }) ?_
        (Rel.move R hx rfl ?_ ?_ ?_ ?_ (fun _ _ => Iff.rfl) ?_ ?_ (hnod.erase t) (fun u hu => by simp [mem_erase_nodup hnod, hu]) ?_ ?_ ?_ ?_)
  all_goals simp only [Thread.claims, Thread.commits, Thread.sets, Thread.lurks, Thread.ok, PC.claimed, PC.committing, PC.rolling, PC.tail, b2n_true, b2n_false,
    specNext, mem_erase_nodup hnod, ne_eq, not_true_eq_false, not_false_eq_true, reduceCtorEq, if_false, if_true, iff_false, iff_true, true_or, or_true, false_or, or_false, false_and, true_and, and_true, and_false,
    Bool.or_false, Bool.or_true, Bool.false_or, Bool.true_or] at *
  all_goals first
    | trivial
    | omega
    | (intros; simp_all; done)
    | (intros; simp_all; omega)
    | skip
  · right; cases hst : s.status <;> simp_all
  · right; intro u y hu hy; exact hnone' u y hu hy hok (by omega)
  · right; intro u y hu hy; exact hnone u y hu hy (by simp_all)
  · split
    · right; left; intro u y hu hy; exact hnone u y hu hy (by simp_all)
    · right; right; simp

theorem step_follows {s : State} {q : Flag} {l : Label} (R : Rel s q) {s' : State} {es : List Event}
    (hs : step s l = some (s', es)) : Follows (specNext 0) (Rel s') q es := by
  cases l with
  | go t =>
    simp only [step] at hs
    split at hs
    · rename_i x hx; exact go_follows R hx hs
    · cases hs
  | call t =>
    simp only [step] at hs
    split at hs
    · rename_i x hx
      split at hs <;> cases hs
      rename_i hp
      have hok := R.thread t x hx
      have hr := not_running R hx (by simp [hp])
      have hth := throwing_iff R hx
      obtain ⟨pc, hnd, counted⟩ := x
      simp only at hp; subst hp
      simp only [Thread.ok] at hok
      obtain ⟨rfl, rfl⟩ := hok
      refine Rel.move (q' := q) R hx rfl ?_ ?_ ?_ ?_ (fun _ _ => Iff.rfl) ?_ ?_ R.nodup (fun _ _ => Iff.rfl) ?_ ?_ ?_ ?_
      all_goals simp_all [State.at, Thread.claims, Thread.commits, Thread.sets, Thread.lurks, Thread.ok, PC.claimed, PC.committing, PC.rolling, PC.tail]
      all_goals first | rfl | (intros; rfl) | (intro u hu hc; exact hu hc.symm)
    · cases hs
  | finish t ok =>
    simp only [step] at hs
    split at hs
    · rename_i x hx
      split at hs <;> cases hs
      rename_i hp
      have hok := R.thread t x hx
      have hr := R.inside t x hx hp
      have hth := throwing_iff R hx
      obtain ⟨h1, h2⟩ := claim R hx (by simp [Thread.claims, hp, PC.claimed])
      have hnod := R.nodup
      obtain ⟨pc, hnd, counted⟩ := x
      simp only at hp; subst hp
      have hns : ∀ u, u ≠ t → q.running ≠ some u := by intro u hu hc; exact hu (h2 u hc)
      cases ok with
      | true =>
        refine follows_ok (q' := { q with running := none, done := true }) (by simp [specNext, hr])
          (Rel.move R hx rfl ?_ ?_ ?_ ?_ ?_ ?_ ?_ hnod (fun _ _ => Iff.rfl) ?_ ?_ ?_ ?_)
        all_goals simp_all [State.at, Thread.claims, Thread.commits, Thread.sets, Thread.lurks, Thread.ok, PC.claimed, PC.committing, PC.rolling, PC.tail]
        all_goals first | rfl | (intros; rfl) | (intro u hu hc; exact hu hc.symm)
      | false =>
        have hnt : t ∉ q.throwing := by rw [hth]; simp [PC.rolling]
        refine follows_ok (q' := { q with running := none, throwing := t :: q.throwing }) (by simp [specNext, hr])
          (Rel.move R hx rfl ?_ ?_ ?_ ?_ ?_ ?_ ?_ (List.nodup_cons.mpr ⟨hnt, hnod⟩) ?_ ?_ ?_ ?_ ?_)
        all_goals simp_all [State.at, Thread.claims, Thread.commits, Thread.sets, Thread.lurks, Thread.ok, PC.claimed, PC.committing, PC.rolling, PC.tail]
        all_goals first | rfl | (intros; rfl) | (intro u hu hc; exact hu hc.symm)
    · cases hs

end Verif.WinOnce
