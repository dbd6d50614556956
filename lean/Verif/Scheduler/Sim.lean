import Verif.Scheduler.Spec
import Verif.TimedQueue.Lemmas
set_option linter.unusedSimpArgs false
set_option linter.unusedVariables false
/-! # The executors keep the contract -/

namespace Verif.Scheduler

open TimedQueue (Reads Kind PC)

/-! ## What one step of the queue does to the thread that makes it -/

/-- Outcomes of a step inside `wait_pull`. -/
inductive Res (t : Nat) : PC → List (TimedQueue.Event Work) → Prop where
  | got (v : Work) (due now : Int) : Res t .idle [.pulled t v due now]
  | closed (now : Int) : Res t .idle [.closedPull t now]
  | garbage : Res t .idle [.garbage t]
  | empty : Res t (.asleepEmpty .status) []
  | timed (w : Int) : Res t (.asleepTimed .status (some w)) []

variable {c : TimedQueue.Cfg} {n : Nat}

theorem readClock_ts {s s1 : TimedQueue.State Work} {r : Int} (h : TimedQueue.readClock c s r = some s1) : s1.ts = s.ts := by
  simp only [TimedQueue.readClock] at h
  split at h
  · cases h
  · cases h; rfl

theorem pop_res {s s' : TimedQueue.State Work} {t i : Nat} {now : Int} {es} (h : TimedQueue.pop s t i now = some (s', es)) :
    ∃ p, s'.ts = s.ts.set t p ∧ Res t p es := by
  simp only [TimedQueue.pop] at h
  split at h
  · cases h
  · split at h
    · cases h; exact ⟨_, rfl, .got _ _ _⟩
    · cases h

theorem check_res {s s' : TimedQueue.State Work} {t i : Nat} {due dead : Int} {es} {cont}
    (hc : ∀ s1, s1.ts = s.ts → cont s1 = some (s', es) → ∃ p, s'.ts = s.ts.set t p ∧ Res t p es)
    (h : TimedQueue.check c s t .status i due dead cont = some (s', es)) : ∃ p, s'.ts = s.ts.set t p ∧ Res t p es := by
  simp only [TimedQueue.check] at h
  split at h
  · cases h
  · rename_i s1 h1
    have ht := readClock_ts h1
    split at h
    · rw [← ht]; exact pop_res h
    · split at h
      · cases h; exact ⟨_, by rw [ht], .closed _⟩
      · exact hc _ ht h

theorem second_res {s s' : TimedQueue.State Work} {t i : Nat} {r : Reads} {es} (h : TimedQueue.second c s t .status i r = some (s', es)) :
    ∃ p, s'.ts = s.ts.set t p ∧ Res t p es := by
  refine check_res ?_ h
  intro s1 h1 h
  split at h
  · cases h; exact ⟨_, by rw [h1], .garbage⟩
  · split at h
    · cases h
    · rename_i s2 h2
      have := readClock_ts h2
      cases h; exact ⟨_, by rw [this, h1], .timed _⟩

theorem first_res {s s' : TimedQueue.State Work} {t i : Nat} {r : Reads} {es} (h : TimedQueue.first c s t .status i r = some (s', es)) :
    ∃ p, s'.ts = s.ts.set t p ∧ Res t p es := by
  refine check_res ?_ h
  intro s1 h1 h
  split at h
  · cases h; exact ⟨_, by rw [h1], .empty⟩
  · rw [← h1]; exact second_res h

/-- A thread inside `wait_pull`. -/
def Waiting : PC → Prop
  | .asleepEmpty k => k = .status
  | .wokenEmpty k => k = .status
  | .asleepTimed k w => k = .status ∧ w ≠ none
  | .wokenTimed k => k = .status
  | _ => False

/-- What the place of a thread in the queue says about it. -/
def PcOk : Worker → PC → Prop
  | .fetch, p => p = .idle ∨ Waiting p
  | _, p => p = .idle ∨ p = .closing

theorem PcOk.wake {w : Worker} {p : PC} (h : PcOk w p) : PcOk w p.wake := by
  cases w <;> cases p <;> simp_all [PcOk, Waiting, PC.wake]

structure Rel (c : TimedQueue.Cfg) (n : Nat) (s : State) (b : Book) : Prop where
  sim : TimedQueue.Sim c s.q ⟨b.pending, b.closed⟩
  pcs : ∀ t p, s.q.ts[t]? = some p → PcOk (s.w t) p
  via : ∀ t, s.via t ≠ none → s.q.ts[t]? = some .idle ∧ (t < n → ∃ v, s.w t = .busy v)
  run : ∀ w, b.running w = match s.w w with | .busy v => some v | _ => none
  away : ∀ w, b.away w = true ↔ s.w w = .left
  intr : ∀ w, s.intr w = true → b.intr w = true
  ex : b.exClosed = s.exClosed
  dying : b.dying = false ↔ s.dtor = .none
  dclosed : s.dtor ≠ .none → b.closed = true
  over : b.over = true ↔ s.dead = true ∨ s.dtor = .gone
  wlt : ∀ w, n ≤ w → s.w w = .left
  gone : s.dtor = .gone → ∀ w, s.w w = .left
  inc : ∀ w, s.w w ≠ .left → w < s.q.ts.length

theorem init_rel (m : Nat) (now steady : Int) : Rel c n (init n m now steady) (Book.new n) := by
  refine ⟨TimedQueue.init_sim c now steady (n + m), ?_, ?_, ?_, ?_, ?_, rfl, ?_, ?_, ?_, ?_, ?_, ?_⟩
  · intro t p hp
    simp only [init, TimedQueue.init, List.getElem?_replicate] at hp
    split at hp <;> cases hp
    by_cases h : t < n <;> simp [init, h, PcOk]
  all_goals simp_all [init, Book.new, TimedQueue.init]
  · intro w; by_cases h : w < n <;> simp [h]
  · intro w hw; omega

/-! ## One step -/

theorem ts_set {ts : List PC} {t u : Nat} {p p' : PC} (hp : (ts.set t p)[u]? = some p') : (u = t ∧ p' = p ∧ t < ts.length) ∨ (u ≠ t ∧ ts[u]? = some p') := by
  rw [List.getElem?_set] at hp
  grind

theorem pull_follows {ub : Bool} {s : State} {b : Book} {t : Nat} {l : TimedQueue.Label Work} {q' : TimedQueue.State Work} {es : List (TimedQueue.Event Work)} {p : PC}
    (hub : ub = true ∨ c.monotone = true) (h : Rel c n s b) (hd : s.dead = false) (hw : s.w t = .fetch)
    (hq : TimedQueue.step c s.q l = some (q', es)) (hts : q'.ts = s.q.ts.set t p) (hr : Res t p es) :
    Follows (specNext n ub) (Rel c n { s with q := q', w := upd s.w t (after (s.w t) es) }) b (es.flatMap lift) := by
  have hf := TimedQueue.sim hub _ _ _ _ _ h.sim hq
  have hov : b.over = false := by
    have h1 := h.over; have h2 := h.gone
    cases ho : b.over with
    | false => rfl
    | true =>
      rcases h1.mp ho with h3 | h3
      · rw [hd] at h3; cases h3
      · have := h2 h3 t; rw [hw] at this; cases this
  obtain ⟨-, hpcs, hvia, hrun, haway, hintr, hex, hdy, hdc, hov', hwlt, hgone, hinc⟩ := h
  have hfree : b.Free t := by
    constructor
    · have := haway t; rw [hw] at this; simpa using this
    · rw [hrun, hw]
  cases hr with
  | got v due now =>
    simp only [Follows, TimedQueue.specNext] at hf
    split at hf
    · rename_i q2 heq
      split at heq
      · rename_i hh
        cases heq
        simp only [List.flatMap_cons, List.flatMap_nil, lift, List.append_nil, Follows, specNext, must, hov, if_true]
        rw [if_pos ⟨hfree, hh⟩]
        refine ⟨hf, ?_, ?_, ?_, ?_, ?_, ?_, ?_, ?_, ?_, ?_, ?_, ?_⟩ <;> simp only [after] at * <;> grind [PcOk, ts_set]
      · cases heq
    · rename_i heq; split at heq <;> cases heq
    · exact hf.elim
  | closed now =>
    simp only [Follows, TimedQueue.specNext] at hf
    split at hf
    · rename_i q2 heq
      split at heq
      · rename_i hh
        cases heq
        simp only [List.flatMap_cons, List.flatMap_nil, lift, List.append_nil, Follows, specNext, must, hov, if_true]
        rw [if_pos ⟨hfree, hh⟩]
        refine ⟨hf, ?_, ?_, ?_, ?_, ?_, ?_, ?_, ?_, ?_, ?_, ?_, ?_⟩ <;> simp only [after] at * <;> grind [PcOk, ts_set]
      · cases heq
    · rename_i heq; split at heq <;> cases heq
    · exact hf.elim
  | garbage =>
    simp only [Follows, TimedQueue.specNext] at hf
    simp only [List.flatMap_cons, List.flatMap_nil, lift, List.append_nil, Follows, specNext, must, hov, if_true]
    cases ub <;> simp_all
  | empty =>
    simp only [Follows, List.flatMap_nil] at hf ⊢
    refine ⟨hf, ?_, ?_, ?_, ?_, ?_, ?_, ?_, ?_, ?_, ?_, ?_, ?_⟩ <;> simp only [after] at * <;> grind [PcOk, ts_set, Waiting]
  | timed w =>
    simp only [Follows, List.flatMap_nil] at hf ⊢
    refine ⟨hf, ?_, ?_, ?_, ?_, ?_, ?_, ?_, ?_, ?_, ?_, ?_, ?_⟩ <;> simp only [after] at * <;> grind [PcOk, ts_set, Waiting]

theorem ts_map {ts : List PC} {u : Nat} {p' : PC} (hp : (ts.map PC.wake)[u]? = some p') : ∃ p, ts[u]? = some p ∧ p' = p.wake := by
  rw [List.getElem?_map] at hp
  cases h : ts[u]? with
  | none => simp [h] at hp
  | some p => exact ⟨p, rfl, by simpa [h] using hp.symm⟩

theorem map_idle {ts : List PC} {u : Nat} (h : ts[u]? = some .idle) : (ts.map PC.wake)[u]? = some .idle := by
  rw [List.getElem?_map, h]; rfl

theorem follows_ok {ub : Bool} {P : Book → Prop} {b b' : Book} {e : Event} (hs : specNext n ub b e = .ok b') (hP : P b') :
    Follows (specNext n ub) P b [e] := by
  simp only [Follows, hs]; exact hP

theorem must_pos {σ : Type} {p : Prop} [Decidable p] {v : Verdict σ} (h : p) : must p v = v := if_pos h

theorem open_of {s : State} {b : Book} (h : Rel c n s b) (hd : s.dead = false) (hg : s.dtor ≠ .gone) : b.over = false := by
  have := h.over
  cases ho : b.over with
  | false => rfl
  | true => simp_all

theorem open_of_w {s : State} {b : Book} {t : Nat} (h : Rel c n s b) (hd : s.dead = false) (hg : s.w t ≠ .left) : b.over = false :=
  open_of h hd fun hh => hg (h.gone hh t)

theorem mayCall_iff {s : State} {t : Nat} : mayCall n s t = true ↔ s.via t = none ∧ (t < n → ∃ v, s.w t = .busy v) ∧ (n ≤ t → s.dtor = .none) := by
  by_cases h : t < n
  · have : ¬ n ≤ t := by omega
    cases hw : s.w t <;> simp [mayCall, h, hw, this]
  · have h' : n ≤ t := by omega
    simp [mayCall, h, h']

theorem mayCall_open {s : State} {b : Book} {t : Nat} (h : Rel c n s b) (hd : s.dead = false) (hm : mayCall n s t = true) :
    s.via t = none ∧ s.w t ≠ .fetch ∧ b.over = false := by
  obtain ⟨h1, h2, h3⟩ := mayCall_iff.mp hm
  by_cases ht : t < n
  · obtain ⟨v, hv⟩ := h2 ht
    exact ⟨h1, by simp [hv], open_of_w (t := t) h hd (by simp [hv])⟩
  · have := h3 (by omega)
    exact ⟨h1, by simp [h.wlt t (by omega)], open_of h hd (by simp [this])⟩

theorem upd_self {α : Type} (f : Nat → α) (t : Nat) : upd f t (f t) = f := by
  funext u; simp only [upd]; split <;> simp_all

/-- A submission, with `s.via t` already cleared. -/
theorem push_follows {ub : Bool} {s s' : State} {b : Book} {t : Nat} {v : Work} {due : Int} {es : List Event}
    (hub : ub = true ∨ c.monotone = true) (h : Rel c n s b) (hv : s.via t = none) (hw : s.w t ≠ .fetch) (ho : b.over = false)
    (hs : queue c s t (.push t v due) = some (s', es)) : Follows (specNext n ub) (Rel c n s') b es := by
  simp only [queue] at hs
  cases hq : TimedQueue.step c s.q (.push t v due) with
  | none => simp [hq] at hs
  | some r =>
    obtain ⟨q', qes⟩ := r
    simp only [hq, Option.some.injEq, Prod.mk.injEq] at hs
    obtain ⟨rfl, rfl⟩ := hs
    have hf := TimedQueue.sim hub _ _ _ _ _ h.sim hq
    obtain ⟨-, hpcs, hvia, hrun, haway, hintr, hex, hdy, hdc, hov', hwlt, hgone, hinc⟩ := h
    simp only [TimedQueue.step] at hq
    split at hq
    · split at hq
      · cases hq
        simp only [Follows, TimedQueue.specNext] at hf
        cases hc : b.closed with
        | false => simp [hc] at hf
        | true =>
          simp only [hc, if_true] at hf
          refine follows_ok (b' := b) (by simp [lift, specNext, must, ho, hc]) ?_
          simp only [after, upd_self]
          exact ⟨by rw [hc]; exact hf, hpcs, hvia, hrun, haway, hintr, hex, hdy, hdc, hov', hwlt, hgone, hinc⟩
      · cases hq
        simp only [Follows, TimedQueue.specNext] at hf
        cases hc : b.closed with
        | true => simp [hc] at hf
        | false =>
          simp only [hc, if_false, Bool.false_eq_true] at hf
          refine follows_ok (b' := { b with pending := b.pending ++ [(v, due)] }) (by simp [lift, specNext, must, ho, hc]) ?_
          simp only [after, upd_self]
          refine ⟨by simp only; rw [hc]; exact hf, ?_, ?_, hrun, haway, hintr, hex, hdy, hdc, hov', hwlt, hgone, ?_⟩
          · intro u p hp
            obtain ⟨p0, h0, rfl⟩ := ts_map hp
            exact (hpcs u p0 h0).wake
          · intro u hu
            exact ⟨map_idle (hvia u hu).1, (hvia u hu).2⟩
          · simpa using hinc
    · cases hq

theorem inClosure_iff {s : State} {t : Nat} {v : Work} : inClosure s t = some v ↔ s.w t = .busy v ∧ s.via t = none ∧ s.q.ts[t]? = some .idle := by
  cases hw : s.w t <;> simp [inClosure, hw]
  grind

theorem silent_follows {ub : Bool} {s : State} {b : Book} {t : Nat} {l : TimedQueue.Label Work} {q' : TimedQueue.State Work} {p : PC}
    (hub : ub = true ∨ c.monotone = true) (h : Rel c n s b) (hw : s.w t = .fetch)
    (hq : TimedQueue.step c s.q l = some (q', [])) (hts : q'.ts = s.q.ts.set t p) (hp : Waiting p) :
    Follows (specNext n ub) (Rel c n { s with q := q', w := upd s.w t (after (s.w t) []) }) b ([].flatMap lift) := by
  have hf := TimedQueue.sim hub _ _ _ _ _ h.sim hq
  obtain ⟨hsim, hpcs, hvia, hrun, haway, hintr, hex, hdy, hdc, hov', hwlt, hgone, hinc⟩ := h
  simp only [after, upd_self, List.flatMap_nil, Follows] at hf ⊢
  refine ⟨hf, ?_, ?_, hrun, haway, hintr, hex, hdy, hdc, hov', hwlt, hgone, ?_⟩
  · intro u p' hp'
    rw [hts] at hp'
    rcases ts_set hp' with ⟨rfl, rfl, -⟩ | ⟨hne, hp'⟩
    · rw [hw]; exact Or.inr hp
    · exact hpcs u p' hp'
  · intro u hu
    refine ⟨?_, (hvia u hu).2⟩
    have := hvia u hu
    simp only [hts]
    grind
  · simpa [hts] using hinc

theorem sim {ub : Bool} (hub : ub = true ∨ c.monotone = true) (s : State) (l : Label) (s' : State) (es : List Event) (b : Book) (h : Rel c n s b)
    (hs : step c n s l = some (s', es)) : Follows (specNext n ub) (Rel c n s') b es := by
  simp only [step] at hs
  split at hs
  · cases hs
  rename_i hd
  have hd : s.dead = false := by simpa using hd
  cases l with
  | submit t v due =>
    simp only at hs
    split at hs
    · rename_i hm
      obtain ⟨h1, h2, h3⟩ := mayCall_open h hd hm
      exact push_follows hub h h1 h2 h3 hs
    · cases hs
  | via t v due own =>
    simp only at hs
    split at hs
    · rename_i hm
      obtain ⟨h1, h2, h3⟩ := mayCall_open h hd hm.1
      have hcl : s.q.closed = b.closed := h.sim.1.2
      have hex := h.ex
      split at hs
      · rename_i hc
        cases hs
        refine follows_ok (b' := b) ?_ h
        simp only [specNext, must_pos h3]
        rw [must_pos]
        cases v <;> simp_all [Work.isHand, wrapperClosed] <;> grind
      · cases hs
        obtain ⟨-, hb, -⟩ := mayCall_iff.mp hm.1
        obtain ⟨hsim, hpcs, hvia, hrun, haway, hintr, hex, hdy, hdc, hov', hwlt, hgone, hinc⟩ := h
        refine ⟨hsim, hpcs, ?_, hrun, haway, hintr, hex, hdy, hdc, hov', hwlt, hgone, hinc⟩
        grind
    · cases hs
  | push t =>
    simp only at hs
    split at hs
    · rename_i v due hv
      split at hs
      · rename_i hg
        obtain ⟨h1, h2⟩ := h.via t (by simp [hv])
        have h3 : s.w t ≠ .fetch := by
          by_cases ht : t < n
          · obtain ⟨v, hv⟩ := h2 ht; simp [hv]
          · simp [h.wlt t (by omega)]
        have h4 : b.over = false := by
          rcases hg with ht | ht
          · obtain ⟨v, hv⟩ := h2 ht; exact open_of_w (t := t) h hd (by simp [hv])
          · exact open_of h hd (by simp [ht])
        refine push_follows (s := { s with via := upd s.via t none }) hub ?_ (by simp [upd]) h3 h4 hs
        obtain ⟨hsim, hpcs, hvia, hrun, haway, hintr, hex, hdy, hdc, hov', hwlt, hgone, hinc⟩ := h
        refine ⟨hsim, hpcs, ?_, hrun, haway, hintr, hex, hdy, hdc, hov', hwlt, hgone, hinc⟩
        grind
      · cases hs
    · cases hs
  | close t =>
    simp only at hs
    split at hs
    · rename_i hm
      obtain ⟨h1, h2, h3⟩ := mayCall_open h hd hm
      simp only [queue] at hs
      cases hq : TimedQueue.step c s.q (.close t) with
      | none => simp [hq] at hs
      | some x =>
        obtain ⟨q', qes⟩ := x
        simp only [hq, Option.some.injEq, Prod.mk.injEq] at hs
        obtain ⟨rfl, rfl⟩ := hs
        have hf := TimedQueue.sim hub _ _ _ _ _ h.sim hq
        obtain ⟨hsim, hpcs, hvia, hrun, haway, hintr, hex, hdy, hdc, hov', hwlt, hgone, hinc⟩ := h
        simp only [TimedQueue.step] at hq
        split at hq
        · cases hq
          simp only [Follows, TimedQueue.specNext] at hf
          refine follows_ok (b' := { b with closed := true }) (by simp [lift, specNext, must, h3]) ?_
          simp only [after, upd_self]
          refine ⟨hf, ?_, ?_, hrun, haway, hintr, hex, hdy, fun _ => rfl, hov', hwlt, hgone, ?_⟩
          · intro u p hp
            rcases ts_set hp with ⟨rfl, rfl, -⟩ | ⟨hne, hp⟩
            · cases hw : s.w u <;> simp_all [PcOk]
            · exact hpcs u p hp
          · grind
          · simpa using hinc
        · cases hq
    · cases hs
  | closeNotify t =>
    simp only at hs
    split at hs
    · rename_i hm
      obtain ⟨h1, h2, h3⟩ := mayCall_open h hd hm
      simp only [queue] at hs
      cases hq : TimedQueue.step c s.q (.closeNotify t) with
      | none => simp [hq] at hs
      | some x =>
        obtain ⟨q', qes⟩ := x
        simp only [hq, Option.some.injEq, Prod.mk.injEq] at hs
        obtain ⟨rfl, rfl⟩ := hs
        have hf := TimedQueue.sim hub _ _ _ _ _ h.sim hq
        obtain ⟨hsim, hpcs, hvia, hrun, haway, hintr, hex, hdy, hdc, hov', hwlt, hgone, hinc⟩ := h
        simp only [TimedQueue.step] at hq
        split at hq
        · cases hq
          simp only [Follows, TimedQueue.specNext] at hf
          cases hc : b.closed with
          | false => simp [hc] at hf
          | true =>
            simp only [hc, if_true] at hf
            refine follows_ok (b' := b) (by simp [lift, specNext, must, h3, hc]) ?_
            simp only [after, upd_self]
            refine ⟨by rw [hc]; exact hf, ?_, ?_, hrun, haway, hintr, hex, hdy, hdc, hov', hwlt, hgone, ?_⟩
            · intro u p hp
              obtain ⟨p0, h0, rfl⟩ := ts_map hp
              rcases ts_set h0 with ⟨rfl, rfl, -⟩ | ⟨hne, hp⟩
              · cases hw : s.w u <;> simp [PcOk, PC.wake]
              · exact (hpcs u p0 hp).wake
            · intro u hu
              refine ⟨map_idle ?_, (hvia u hu).2⟩
              have := (hvia u hu).1
              grind
            · simpa using hinc
        · cases hq
    · cases hs
  | closeExecutor =>
    simp only at hs
    split at hs
    · cases hs
    · rename_i hg
      cases hs
      refine follows_ok (b' := { b with exClosed := true }) (by simp [specNext, must, open_of h hd hg]) ?_
      obtain ⟨hsim, hpcs, hvia, hrun, haway, hintr, hex, hdy, hdc, hov', hwlt, hgone, hinc⟩ := h
      exact ⟨hsim, hpcs, hvia, hrun, haway, hintr, rfl, hdy, hdc, hov', hwlt, hgone, hinc⟩
  | fetch w r i =>
    simp only at hs
    split at hs
    · rename_i hw
      simp only [queue] at hs
      cases hq : TimedQueue.step c s.q (.pull w .status r i) with
      | none => simp [hq] at hs
      | some x =>
        obtain ⟨q', qes⟩ := x
        simp only [hq, Option.some.injEq, Prod.mk.injEq] at hs
        obtain ⟨rfl, rfl⟩ := hs
        have hq' := hq
        simp only [TimedQueue.step] at hq'
        split at hq'
        · obtain ⟨p, hp, hr⟩ := first_res hq'
          exact pull_follows hub h hd hw hq hp hr
        · cases hq'
    · cases hs
  | resume w r i =>
    simp only at hs
    split at hs
    · rename_i hw
      simp only [queue] at hs
      cases hq : TimedQueue.step c s.q (.resume w r i) with
      | none => simp [hq] at hs
      | some x =>
        obtain ⟨q', qes⟩ := x
        simp only [hq, Option.some.injEq, Prod.mk.injEq] at hs
        obtain ⟨rfl, rfl⟩ := hs
        have hq' := hq
        have hpc := h.pcs w
        simp only [hw, PcOk] at hpc
        simp only [TimedQueue.step] at hq'
        split at hq'
        · rename_i k hk
          have hk' := hpc _ hk
          simp only [reduceCtorEq, Waiting, false_or] at hk'
          subst hk'
          split at hq'
          · cases hq'
            exact pull_follows hub h hd hw hq rfl .empty
          · obtain ⟨p, hp, hr⟩ := second_res hq'
            exact pull_follows hub h hd hw hq hp hr
        · rename_i k hk
          have hk' := hpc _ hk
          simp [Waiting] at hk'
        · rename_i k hk
          have hk' := hpc _ hk
          simp only [reduceCtorEq, Waiting, false_or] at hk'
          subst hk'
          obtain ⟨p, hp, hr⟩ := first_res hq'
          exact pull_follows hub h hd hw hq hp hr
        · cases hq'
    · cases hs
  | spurious w =>
    simp only at hs
    split at hs
    · rename_i hw
      simp only [queue] at hs
      cases hq : TimedQueue.step c s.q (.spurious w) with
      | none => simp [hq] at hs
      | some x =>
        obtain ⟨q', qes⟩ := x
        simp only [hq, Option.some.injEq, Prod.mk.injEq] at hs
        obtain ⟨rfl, rfl⟩ := hs
        have hq' := hq
        have hpc := h.pcs w
        simp only [hw, PcOk] at hpc
        simp only [TimedQueue.step] at hq'
        split at hq'
        · rename_i k hk
          have hk' := hpc _ hk
          simp only [reduceCtorEq, Waiting, false_or] at hk'
          subst hk'
          cases hq'
          exact silent_follows hub h hw hq rfl (by simp [Waiting])
        · rename_i k w' hk
          have hk' := hpc _ hk
          simp only [reduceCtorEq, Waiting, false_or] at hk'
          obtain ⟨rfl, -⟩ := hk'
          cases hq'
          exact silent_follows hub h hw hq rfl (by simp [Waiting])
        · cases hq'
    · cases hs
  | timeout w now =>
    simp only at hs
    split at hs
    · rename_i hw
      simp only [queue] at hs
      cases hq : TimedQueue.step c s.q (.timeout w now) with
      | none => simp [hq] at hs
      | some x =>
        obtain ⟨q', qes⟩ := x
        simp only [hq, Option.some.injEq, Prod.mk.injEq] at hs
        obtain ⟨rfl, rfl⟩ := hs
        have hq' := hq
        have hpc := h.pcs w
        simp only [hw, PcOk] at hpc
        simp only [TimedQueue.step] at hq'
        split at hq'
        · rename_i tp hk; have hk' := hpc _ hk; simp [Waiting] at hk'
        · rename_i tp hk; have hk' := hpc _ hk; simp [Waiting] at hk'
        · rename_i tp hk; have hk' := hpc _ hk; simp [Waiting] at hk'
        · rename_i tp hk; have hk' := hpc _ hk; simp [Waiting] at hk'
        · rename_i k w' hk
          have hk' := hpc _ hk
          simp only [reduceCtorEq, Waiting, false_or] at hk'
          obtain ⟨rfl, -⟩ := hk'
          split at hq'
          · cases hq'
          · rename_i s1 h1
            have := readClock_ts h1
            split at hq'
            · cases hq'
              exact silent_follows hub h hw hq (by rw [this]) (by simp [Waiting])
            · cases hq'
        · rename_i k hk
          have hk' := hpc _ hk
          simp [Waiting] at hk'
        · cases hq'
    · cases hs
  | interruptWait w =>
    simp only at hs
    split at hs
    · rename_i hw
      obtain ⟨hw, hi⟩ := hw
      have ho := open_of_w (t := w) h hd (by simp [hw])
      simp only [queue] at hs
      cases hq : TimedQueue.step c s.q (.interrupt w) with
      | none => simp [hq] at hs
      | some x =>
        obtain ⟨q', qes⟩ := x
        simp only [hq, Option.some.injEq, Prod.mk.injEq] at hs
        obtain ⟨rfl, rfl⟩ := hs
        have hf := TimedQueue.sim hub _ _ _ _ _ h.sim hq
        have hx : qes = [.interrupted w] ∧ q'.ts = s.q.ts.set w .idle := by
          simp only [TimedQueue.step] at hq
          split at hq <;> cases hq <;> exact ⟨rfl, rfl⟩
        obtain ⟨rfl, hts⟩ := hx
        obtain ⟨hsim, hpcs, hvia, hrun, haway, hintr, hex, hdy, hdc, hov', hwlt, hgone, hinc⟩ := h
        simp only [Follows, TimedQueue.specNext] at hf
        have hfree : b.Free w := by
          constructor
          · have := haway w; rw [hw] at this; simpa using this
          · rw [hrun, hw]
        refine follows_ok (b' := { b with away := upd b.away w true, intr := upd b.intr w false })
          (by simp [lift, specNext, must, ho, hfree, hintr w hi]) ?_
        refine ⟨hf, ?_, ?_, ?_, ?_, ?_, hex, hdy, hdc, hov', ?_, ?_, ?_⟩ <;> simp only [after] at * <;> grind [PcOk, ts_set]
    · cases hs
  | finish w =>
    simp only at hs
    split at hs
    · rename_i id hc
      obtain ⟨hw, hv, ht⟩ := inClosure_iff.mp hc
      have ho := open_of_w (t := w) h hd (by simp [hw])
      cases hs
      obtain ⟨hsim, hpcs, hvia, hrun, haway, hintr, hex, hdy, hdc, hov', hwlt, hgone, hinc⟩ := h
      have hr := hrun w; rw [hw] at hr
      refine follows_ok (b' := { b with running := upd b.running w none }) (by simp [specNext, must, ho, hr, Work.isHand]) ?_
      refine ⟨hsim, ?_, ?_, ?_, ?_, ?_, hex, hdy, hdc, hov', ?_, ?_, ?_⟩ <;> grind [PcOk]
    · rename_i id hc
      obtain ⟨hw, hv, ht⟩ := inClosure_iff.mp hc
      have ho := open_of_w (t := w) h hd (by simp [hw])
      obtain ⟨hsim, hpcs, hvia, hrun, haway, hintr, hex, hdy, hdc, hov', hwlt, hgone, hinc⟩ := h
      have hr := hrun w; rw [hw] at hr
      split at hs
      · rename_i he
        cases hs
        refine follows_ok (b' := { b with over := true }) (by simp [specNext, must, ho, hr, Work.isHand, hex, he]) ?_
        exact ⟨hsim, hpcs, hvia, hrun, haway, hintr, hex, hdy, hdc, by simp, hwlt, hgone, hinc⟩
      · rename_i he
        cases hs
        refine follows_ok (b' := { b with running := upd b.running w none }) (by simp [specNext, must, ho, hr, hex, he]) ?_
        refine ⟨hsim, ?_, ?_, ?_, ?_, ?_, hex, hdy, hdc, hov', ?_, ?_, ?_⟩ <;> grind [PcOk]
    · cases hs
  | throw w =>
    simp only at hs
    split at hs
    · rename_i v hc
      obtain ⟨hw, hv, ht⟩ := inClosure_iff.mp hc
      have ho := open_of_w (t := w) h hd (by simp [hw])
      obtain ⟨hsim, hpcs, hvia, hrun, haway, hintr, hex, hdy, hdc, hov', hwlt, hgone, hinc⟩ := h
      have hr := hrun w; rw [hw] at hr
      cases hs
      refine follows_ok (b' := { b with over := true }) (by simp [specNext, must, ho, hr]) ?_
      exact ⟨hsim, hpcs, hvia, hrun, haway, hintr, hex, hdy, hdc, by simp, hwlt, hgone, hinc⟩
    · cases hs
  | throwInterrupted w =>
    simp only at hs
    split at hs
    · rename_i v hc
      obtain ⟨hw, hv, ht⟩ := inClosure_iff.mp hc
      have ho := open_of_w (t := w) h hd (by simp [hw])
      obtain ⟨hsim, hpcs, hvia, hrun, haway, hintr, hex, hdy, hdc, hov', hwlt, hgone, hinc⟩ := h
      have hr := hrun w; rw [hw] at hr
      cases hs
      refine follows_ok (b' := { b with running := upd b.running w none, away := upd b.away w true, intr := upd b.intr w false }) (by simp [specNext, must, ho, hr]) ?_
      refine ⟨hsim, ?_, ?_, ?_, ?_, ?_, hex, hdy, hdc, hov', ?_, ?_, ?_⟩ <;> grind [PcOk]
    · cases hs
  | swallow w =>
    simp only at hs
    split at hs
    · split at hs
      · cases hs
        obtain ⟨hsim, hpcs, hvia, hrun, haway, hintr, hex, hdy, hdc, hov', hwlt, hgone, hinc⟩ := h
        exact ⟨hsim, hpcs, hvia, hrun, haway, by grind, hex, hdy, hdc, hov', hwlt, hgone, hinc⟩
      · cases hs
    · cases hs
  | destroy d =>
    simp only at hs
    split at hs
    · rename_i hm
      obtain ⟨hnd, hdt, hv⟩ := hm
      have ho := open_of h hd (by simp [hdt])
      cases hq : TimedQueue.step c s.q (.close d) with
      | none => simp [hq] at hs
      | some x =>
        obtain ⟨q', qes⟩ := x
        simp only [hq, Option.some.injEq, Prod.mk.injEq] at hs
        obtain ⟨rfl, rfl⟩ := hs
        have hf := TimedQueue.sim hub _ _ _ _ _ h.sim hq
        obtain ⟨hsim, hpcs, hvia, hrun, haway, hintr, hex, hdy, hdc, hov', hwlt, hgone, hinc⟩ := h
        simp only [TimedQueue.step] at hq
        split at hq
        · cases hq
          simp only [Follows, TimedQueue.specNext] at hf
          have hdy' := hdy.mpr hdt
          simp only [List.flatMap_cons, List.flatMap_nil, lift, List.append_nil, Follows, specNext, must, ho, hdy', if_true]
          refine ⟨hf, ?_, ?_, hrun, haway, hintr, hex, by simp, by simp, ?_, hwlt, by simp, ?_⟩
          · intro u p hp
            rcases ts_set hp with ⟨rfl, rfl, -⟩ | ⟨hne, hp⟩
            · simp [hwlt u hnd, PcOk]
            · exact hpcs u p hp
          · grind
          · simp [hd, ho]
          · simpa using hinc
        · cases hq
    · cases hs
  | destroyNotify =>
    simp only at hs
    split at hs
    · rename_i d hdt
      have ho := open_of h hd (by simp [hdt])
      cases hq : TimedQueue.step c s.q (.closeNotify d) with
      | none => simp [hq] at hs
      | some x =>
        obtain ⟨q', qes⟩ := x
        simp only [hq, Option.some.injEq, Prod.mk.injEq] at hs
        obtain ⟨rfl, rfl⟩ := hs
        have hf := TimedQueue.sim hub _ _ _ _ _ h.sim hq
        obtain ⟨hsim, hpcs, hvia, hrun, haway, hintr, hex, hdy, hdc, hov', hwlt, hgone, hinc⟩ := h
        have hc := hdc (by simp [hdt])
        simp only [TimedQueue.step] at hq
        split at hq
        · cases hq
          simp only [Follows, TimedQueue.specNext, hc, if_true] at hf
          refine follows_ok (b' := b) (by simp [lift, specNext, must, ho, hc]) ?_
          refine ⟨by rw [hc]; exact hf, ?_, ?_, hrun, haway, hintr, hex, ?_, by simp [hc], ?_, hwlt, by simp, ?_⟩
          · intro u p hp
            obtain ⟨p0, h0, rfl⟩ := ts_map hp
            rcases ts_set h0 with ⟨rfl, rfl, -⟩ | ⟨hne, hp⟩
            · cases hw : s.w u <;> simp [PcOk, PC.wake]
            · exact (hpcs u p0 hp).wake
          · intro u hu
            refine ⟨map_idle ?_, (hvia u hu).2⟩
            have := (hvia u hu).1
            grind
          · simp_all
          · simp [hd, ho]
          · simpa using hinc
        · cases hq
    · cases hs
  | interruptNext =>
    simp only at hs
    split at hs
    · rename_i d k hdt
      have ho := open_of h hd (by simp [hdt])
      obtain ⟨hsim, hpcs, hvia, hrun, haway, hintr, hex, hdy, hdc, hov', hwlt, hgone, hinc⟩ := h
      have hc := hdc (by simp [hdt])
      have hdy' : b.dying = true := by simp_all
      split at hs
      · rename_i hk
        cases hs
        refine follows_ok (b' := { b with intr := upd b.intr k true }) (by simp [specNext, must, ho, hc, hdy', hk]) ?_
        exact ⟨hsim, hpcs, hvia, hrun, haway, by grind, hex, by simp [hdy'], by simp [hc], by simp [hd, ho], hwlt, by simp, hinc⟩
      · cases hs
    · cases hs
  | join =>
    simp only at hs
    split at hs
    · rename_i d k hdt
      have ho := open_of h hd (by simp [hdt])
      obtain ⟨hsim, hpcs, hvia, hrun, haway, hintr, hex, hdy, hdc, hov', hwlt, hgone, hinc⟩ := h
      have hc := hdc (by simp [hdt])
      have hdy' : b.dying = true := by simp_all
      split at hs
      · rename_i hk
        cases hs
        refine follows_ok (b' := { b with over := true }) ?_ ?_
        · simp only [specNext, must_pos ho]
          rw [must_pos]
          exact ⟨hdy', hc, fun w hw => (haway w).mpr (hk.2 w hw)⟩
        · exact ⟨hsim, hpcs, hvia, hrun, haway, hintr, hex, by simp [hdy'], by simp [hc], by simp, hwlt, by grind, hinc⟩
      · cases hs
    · cases hs

end Verif.Scheduler
