import Verif.FutureHandle.Sim2
/-!
# Futures and shared futures: the theorem
-/

set_option linter.unusedSimpArgs false

namespace Verif.FutureHandle

variable {c : Cfg} {s s' : State} {σ : Spec}

/-- `called` and what follows it. -/
theorem called_follows {P : Spec → Prop} {t x : Nat} {op : Op} {es : List Event} (hi : ∀ y ∈ σ.busy, y.1 ≠ t)
    (h : (if op.consumes c x then σ.quiet x else σ.readable c x) = true → Follows (next false c) P { σ with busy := (t, x, op) :: σ.busy } es) :
    Follows (next false c) P σ (.called t x op :: es) := by
  have hall : (σ.busy.all fun y => y.1 != t) = true := by simpa using hi
  cases hb : (if op.consumes c x then σ.quiet x else σ.readable c x) with
  | false => simp [Follows, next, require, hb]
  | true => simpa [Follows, next, require, check, hb, hall] using h hb

/-- A call that returns at once with `future_uninitialized` (or null) changes nothing. -/
theorem uninit_sim (h : R c s σ) {t x : Nat} {op : Op} {r : Ret} (hi : s.pc t = .idle) (he : expected false c σ x op = some r) (hg : ∀ σ' : Spec, σ'.ref = σ.ref → Spec.give c σ' x op = σ') :
    Follows (next false c) (R c s) σ [.called t x op, .returned t x op r] := by
  have hid := h.idle hi
  refine called_follows hid (fun hq => ?_)
  refine returned (List.mem_cons_self ..) (by simpa [expected] using he) ?_
  rw [hg { σ with busy := ((t, x, op) :: σ.busy).filter fun y => y.1 != t } rfl]
  refine h.busy_congr (fun y => ?_)
  simp only [mem_drop, List.mem_cons]
  constructor
  · rintro ⟨rfl | hm, hn⟩
    · exact absurd rfl hn
    · exact hm
  · intro hm; exact ⟨.inr hm, hid y hm⟩

theorem finish_pc (s : State) (t x k : Nat) (op : Op) (p : PC) : State.finish c { s with pc := upd s.pc t p } t x op k = State.finish c s t x op k := by
  cases op <;> cases hs : c.shared x <;> simp only [State.finish, hs, State.ret, State.setSt, State.setPc, upd_upd]

theorem sim {l : Label} {es : List Event} (h : R c s σ) (hs : step c s l = some (s', es)) : Follows (next false c) (R c s') σ es := by
  cases l with
  | deliver k o =>
    simp only [step] at hs
    split at hs <;> cases hs
    rename_i hd
    have hout : (σ.cell k).out = none := by
      have := out_of_done (h.cell k)
      rw [this] at hd
      simpa using hd
    refine require_follows rfl (fun hb => ⟨_, by simp only [check, hout, Option.isNone_none, ↓reduceIte]; rfl, ?_⟩)
    have ho : o ≠ .exn none := by simpa using hb
    refine h.setCell ?_ ?_ rfl ?_ (cellRel_finish (h.cell k) hout ho)
    · cases o <;> rfl
    · cases o <;> rfl
    · simp [hout]
  | obtain k x =>
    simp only [step] at hs
    split at hs <;> cases hs
    rename_i hc
    obtain ⟨h1, h2, h3⟩ := hc
    have hg : (σ.cell k).given = false := by rw [← h.given]; exact h3
    refine require_follows rfl (fun hb => ⟨_, by simp only [check, hg, h2, Bool.not_false, Bool.and_self, ↓reduceIte]; rfl, ?_⟩)
    exact h.new hb h1 hg rfl (h.freshValid k hg) rfl (h.cell k)
  | exceptional k x e =>
    simp only [step] at hs
    split at hs <;> cases hs
    rename_i hc
    obtain ⟨h1, h2, h3⟩ := hc
    have hg : (σ.cell k).given = false := by rw [← h.given]; exact h2
    have hout : (σ.cell k).out = none := by
      have := out_of_done (h.cell k)
      rw [this] at h3
      simpa using h3
    refine require_follows rfl (fun hb => ⟨_, by simp only [check, hg, hout, Bool.not_false, Option.isNone_none, Bool.and_self, ↓reduceIte]; rfl, ?_⟩)
    simp only [Bool.and_eq_true, Bool.false_or, bne_iff_ne] at hb
    exact h.new hb.1 h1 hg rfl rfl rfl ⟨rfl, rfl, hb.2⟩
  | move src dst =>
    simp only [step] at hs
    split at hs <;> cases hs
    rename_i hc
    exact require_follows rfl (fun hb => ⟨_, rfl, move_sim h hc.1 hc.2 hb⟩)
  | copy src dst =>
    simp only [step] at hs
    split at hs <;> cases hs
    rename_i hc
    obtain ⟨h1, h2, h3, h4⟩ := hc
    exact require_follows rfl (fun hb => ⟨_, by simp only [check, h3, h4, Bool.and_self, ↓reduceIte], copy_sim h h2 h3 h4 hb⟩)
  | swap a b =>
    simp only [step] at hs
    split at hs <;> cases hs
    rename_i hc
    obtain ⟨h1, h2, h3⟩ := hc
    refine require_follows rfl (fun hb => ⟨_, by simp only [check, h3, beq_self_eq_true, ↓reduceIte]; rfl, ?_⟩)
    simp only [Bool.and_eq_true] at hb
    exact swap_sim h h1 h2 h3 hb.1 hb.2
  | destroy x =>
    simp only [step] at hs
    split at hs <;> cases hs
    exact require_follows rfl (fun hb => ⟨_, rfl, destroy_sim h hb⟩)
  | valid t x =>
    simp only [step] at hs
    split at hs <;> cases hs
    refine require_follows rfl (fun hb => ⟨σ, ?_, h⟩)
    simp only [check]
    rw [if_pos]
    simp only [beq_iff_eq, h.ptr x]
    cases hr : σ.ref x with
    | none => rfl
    | spent k => exact (h.spent x k hr).2
    | ref k =>
      rcases h.valid x k hr with hv | ⟨t', ht', hsx⟩
      · exact hv
      · have := readable_iff.1 hb t' .get ((h.busy _ _ _).2 (by simp [ht', PC.on]))
        simp [Op.consumes, hsx] at this
  | getState t x =>
    simp only [step] at hs
    split at hs <;> cases hs
    refine require_follows rfl (fun hb => ⟨σ, ?_, h⟩)
    simp only [check]
    rw [if_pos]
    have hp := h.ptr x
    have key : ∀ r, σ.ref x = r → s.fstate x = fstate σ x := by
      intro r hr
      rw [hr] at hp
      cases r <;> simp only [Ref.target] at hp <;> simp [State.fstate, fstate, Spec.outcome, hp, hr, Ref.target, out_of_done (h.cell _)]
    simp only [beq_iff_eq]
    exact key _ rfl
  | hasValue t x =>
    simp only [step] at hs
    split at hs <;> cases hs
    refine require_follows rfl (fun hb => ⟨σ, ?_, h⟩)
    simp only [check]
    rw [if_pos]
    simp only [beq_iff_eq, Spec.outcome, h.ptr x]
    cases hr : (σ.ref x).target with
    | none => rfl
    | some k =>
      have hc := h.cell k
      have hd := out_of_done hc
      simp only [Option.bind_some]
      cases ho : (σ.cell k).out with
      | none => simp [SS.hasValue, hd, ho]
      | some o =>
        cases o with
        | value v => exact (get_value hc ho).2.2.1
        | exn e => obtain ⟨v, -, -, -, -, hv⟩ := get_exn hc ho; exact hv
  | hasException t x =>
    simp only [step] at hs
    split at hs <;> cases hs
    refine require_follows rfl (fun hb => ⟨σ, ?_, h⟩)
    simp only [check]
    rw [if_pos]
    simp only [beq_iff_eq, Spec.outcome, h.ptr x]
    cases hr : (σ.ref x).target with
    | none => rfl
    | some k =>
      have hc := h.cell k
      have hd := out_of_done hc
      simp only [Option.bind_some]
      cases ho : (σ.cell k).out with
      | none => simp [hd, ho]
      | some o =>
        cases o with
        | value v => simp [(get_value hc ho).2.2.2.2]
        | exn e => obtain ⟨v, -, hv, -⟩ := get_exn hc ho; simp [hd, ho, hv]
  | call t x op =>
    simp only [step] at hs
    split at hs
    rotate_left
    · cases hs
    rename_i hc
    obtain ⟨hi, hl, hf⟩ := hc
    have hid := h.idle hi
    split at hs
    · rename_i hp
      simp only [Option.some.injEq, Prod.mk.injEq] at hs
      obtain ⟨rfl, rfl⟩ := hs
      have hr : σ.ref x = .none := by
        rw [h.ptr] at hp
        cases hr : σ.ref x <;> simp [hr, Ref.target] at hp ⊢
      exact uninit_sim h hi (by simp only [expected, hr]) (fun σ' e => by simp [Spec.give, e, hr])
    · rename_i k hp
      simp only [Option.some.injEq, Prod.mk.injEq] at hs
      obtain ⟨rfl, rfl⟩ := hs
      have htg : (σ.ref x).target = some k := by rw [← h.ptr]; exact hp
      simp only [State.begin]
      split
      · rename_i hb
        simp only [Bool.and_eq_true, Bool.not_eq_true'] at hb
        -- the handle is spent, or another call is taking it away
        simp only [State.ret]
        have hidle : upd s.pc t .idle = s.pc := by rw [← hi]; exact upd_self _ _
        rw [hidle]
        cases hr : σ.ref x with
        | none => rw [hr] at htg; cases htg
        | spent k' =>
          refine uninit_sim h hi ?_ (fun σ' e => by simp [Spec.give, e, hr])
          cases op <;> simp [Op.consumes] at hb <;> simp [expected, hr, Op.retrieves]
        | ref k' =>
          rw [hr] at htg; cases htg
          refine called_follows hid (fun hq => ?_)
          rw [if_pos hb.1] at hq
          rcases h.valid x k hr with hv | ⟨t', ht', -⟩
          · rw [hb.2] at hv; cases hv
          · exact absurd (by simp [ht', PC.on]) (h.quiet hq t' .get)
      · rename_i hb
        refine called_follows hid (fun hq => ?_)
        have hv : op.consumes c x = true → σ.ref x = .ref k := by
          intro hcs
          cases hr : σ.ref x with
          | none => rw [hr] at htg; cases htg
          | ref k' => rw [hr] at htg; cases htg; rfl
          | spent k' =>
            rw [hr] at htg; cases htg
            simp [hcs, (h.spent x k hr).2] at hb
        have he := h.enter hi htg hf hq hv rfl
        have hst : ∀ y, (if (op == .get && op.consumes c x && c.invalidates) = true then s.setSt k y else s) =
            { s with st := upd s.st k (if op == .get && op.consumes c x && c.invalidates then y else s.st k) } := by
          intro y; split
          · rfl
          · rw [upd_self]
        rw [hst]
        generalize (if (op == .get && op.consumes c x && c.invalidates) = true then { s.st k with isValid := false } else s.st k) = y at he ⊢
        split
        · rename_i hd
          have := finish_sim he (t := t) (x := x) (op := op) (k := k) (by simp [upd_apply]) hd
          rwa [finish_pc { s with st := upd s.st k y }] at this
        · exact he
  | resume t =>
    simp only [step] at hs
    split at hs
    · cases hs
    · rename_i x op k hp
      split at hs
      · rename_i hd
        simp only [Option.some.injEq] at hs
        have := finish_sim h hp hd
        rw [hs] at this
        exact this
      · cases hs
    · rename_i x d k hp
      obtain ⟨b1, b2, b3, v, b4⟩ := h.pco t x d k (.inl hp)
      obtain ⟨g1, g2, g3, g4, g5⟩ := get_value (h.cell k) b4
      simp only [g3, ↓reduceIte, Option.some.injEq, Prod.mk.injEq] at hs
      obtain ⟨rfl, rfl⟩ := hs
      obtain ⟨a1, a2, a3, a4, a5, a6, a7, a8, a9, a10, a11, a12, a13, a14⟩ := h
      simp only [Follows, State.setPc]
      refine ⟨a1, a2, a3, a4, a5, a6, a7, a8, ?_, ?_, a11, ?_, ?_, a14⟩
      · intro h' k' hk'
        rcases a9 h' k' hk' with hv' | ⟨t', ht', hs'⟩
        · exact .inl hv'
        · refine .inr ⟨t', ?_, hs'⟩
          simp only [upd_apply]
          rw [if_neg]
          · exact ht'
          · rintro rfl; rw [hp] at ht'; cases ht'
      · intro t' h' op'
        simp only [upd_apply]
        split
        · rename_i e; subst e; rw [a10, hp]; rfl
        · exact a10 t' h' op'
      · intro t' h' op' k' hw
        simp only [upd_apply] at hw
        split at hw
        · cases hw
        · exact a12 t' h' op' k' hw
      · intro t' h' d' k' hw
        simp only [upd_apply] at hw
        split at hw
        · rcases hw with hw | hw <;> cases hw
          exact ⟨b1, b2, b3, v, b4⟩
        · exact a13 t' h' d' k' hw
    · rename_i x d k hp
      obtain ⟨b1, b2, b3, v, b4⟩ := h.pco t x d k (.inr hp)
      obtain ⟨g1, g2, g3, g4, g5⟩ := get_value (h.cell k) b4
      simp only [Option.some.injEq] at hs
      simp only [State.ret, Prod.mk.injEq] at hs
      obtain ⟨rfl, rfl⟩ := hs
      have hon : (s.pc t).on = some (x, .getOr d) := by simp [hp, PC.on]
      refine returned ((h.busy _ _ _).2 hon) (by simp only [expected, b2, b4, Option.map_some, answer, g2]) ?_
      have : Spec.give c { σ with busy := σ.busy.filter fun y => y.1 != t } x (.getOr d) = { σ with busy := σ.busy.filter fun y => y.1 != t } := by
        simp [Spec.give, b2, Op.consumes, b1]
      rw [this]
      exact h.leave hon (by simp)
  | timeout t =>
    simp only [step] at hs
    split at hs
    rotate_left
    · cases hs
    rename_i x k hp
    simp only [Option.some.injEq, State.ret, Prod.mk.injEq] at hs
    obtain ⟨rfl, rfl⟩ := hs
    have hon : (s.pc t).on = some (x, .waitFor) := by simp [hp, PC.on]
    have hm := (h.busy _ _ _).2 hon
    obtain ⟨b1, -⟩ := h.pcw t x .waitFor k hp
    split
    · rename_i hd
      have := finish_sim h hp hd
      simpa only [State.finish, State.ret] using this
    · rename_i hd
      have hout : (σ.cell k).out = none := by
        have := out_of_done (h.cell k)
        rw [this] at hd
        simpa using hd
      have hne : σ.ref x ≠ .none := by intro e; rw [e] at b1; cases b1
      have ho : σ.outcome x = none := by simp [Spec.outcome, b1, hout]
      simp only [Follows, next, check, List.contains_iff_mem, hm, ↓reduceIte, beq_self_eq_true, bne_iff_ne, ne_eq, hne, not_false_eq_true, ho, Option.isNone_none, Bool.and_self, Bool.true_and,
        Bool.and_true]
      exact h.leave hon (by simp)
  | interrupt t =>
    simp only [step] at hs
    split at hs
    rotate_left
    · cases hs
    rename_i x op k hp
    simp only [Option.some.injEq, State.ret, Prod.mk.injEq] at hs
    obtain ⟨rfl, rfl⟩ := hs
    have hon : (s.pc t).on = some (x, op) := by simp [hp, PC.on]
    have hm := (h.busy _ _ _).2 hon
    obtain ⟨b1, b2, -, b4⟩ := h.pcw t x op k hp
    have hne : σ.ref x ≠ .none := by intro e; rw [e] at b1; cases b1
    simp only [Follows, next, check, List.contains_iff_mem, hm, ↓reduceIte, bne_iff_ne, ne_eq, hne, not_false_eq_true]
    by_cases hg : op = .get ∧ c.shared x = false
    · obtain ⟨rfl, hsx⟩ := hg
      have hc : Op.get.consumes c x = true := by simp [Op.consumes, hsx]
      have hr := b2 hc
      have := h.consume (y := s.st k) (z := σ.cell k) hon hc hr rfl (h.validity hp hsx) rfl rfl (h.cell k)
      rw [upd_self, upd_self] at this
      cases hi : c.invalidates with
      | true => simpa [Spec.interrupted, hr, hc, hi] using this
      | false => simpa [Spec.interrupted, hr, hc, hi] using this
    · have : Spec.interrupted false c { σ with busy := σ.busy.filter fun y => y.1 != t } x op = { σ with busy := σ.busy.filter fun y => y.1 != t } := by
        simp only [Spec.interrupted]
        split
        · rw [if_neg]
          intro hb
          simp only [Bool.not_false, Bool.true_and, Bool.and_eq_true, beq_iff_eq] at hb
          obtain ⟨⟨rfl, hb⟩, -⟩ := hb
          exact hg ⟨rfl, by simpa [Op.consumes] using hb⟩
        · rfl
      rw [this]
      refine h.leave hon ?_
      rintro rfl
      cases hsx : c.shared x with
      | true => rfl
      | false => exact absurd ⟨rfl, hsx⟩ hg

/-- **C69.** Whatever the threads do with their futures, shared futures and promises, in any configuration: every handle tells what the contract says, with the exceptions listed in the specification.

Partial: see `get_or_throws`, `shared_after_get`, `taken_from_copies`, `interrupted_get`, `null_exception`, `make_shared_future_void`. -/
theorem conforms_partial (c : Cfg) (ls : List Label) (s : State) (es : List Event) (h : run (step c) init ls = some (s, es)) : Accepts (next false c) {} es :=
  simulation (R c) (fun _ _ _ _ _ hR hs => sim hR hs) (R_init c) h

/-- Where a thread waits, or is about to read, in a call. -/
def PC.target : PC → Option Nat
  | .idle => none
  | .waiting _ _ k | .orCheck _ _ k | .orGet _ _ k => some k

/-- Nobody goes on waiting once the result is there: a thread in a call returns by steps of its own, at most three. -/
theorem returns_when_ready (c : Cfg) (s : State) (t k : Nat) (hk : (s.pc t).target = some k) (hd : (s.st k).done = true) :
    ∃ n s' es, n ≤ 3 ∧ run (step c) s (List.replicate n (.resume t)) = some (s', es) ∧ s'.pc t = .idle := by
  have hget : ∀ (s : State) x d, s.pc t = .orGet x d k → ∃ s' es, step c s (.resume t) = some (s', es) ∧ s'.pc t = .idle := by
    intro s x d hp
    exact ⟨{ s with pc := upd s.pc t .idle }, _, by simp only [step, hp, State.ret]; rfl, by simp [upd_apply]⟩
  have hcheck : ∀ (s : State) x d, s.pc t = .orCheck x d k → ∃ n s' es, n ≤ 2 ∧ run (step c) s (List.replicate n (.resume t)) = some (s', es) ∧ s'.pc t = .idle := by
    intro s x d hp
    cases hv : (s.st k).hasValue with
    | true =>
      obtain ⟨s', es, h1, h2⟩ := hget (s.setPc t (.orGet x d k)) x d (by simp [State.setPc, upd_apply])
      refine ⟨2, s', es, by omega, ?_, h2⟩
      have h0 : step c s (.resume t) = some (s.setPc t (.orGet x d k), []) := by simp [step, hp, hv]
      simp [List.replicate, run, h0, h1]
    | false =>
      refine ⟨1, { s with pc := upd s.pc t .idle }, _, by omega, by simp only [List.replicate, run, step, hp, hv, State.ret, Bool.false_eq_true, ↓reduceIte]; rfl, by simp [upd_apply]⟩
  cases hp : s.pc t with
  | idle => rw [hp] at hk; cases hk
  | orGet x d k' =>
    rw [hp] at hk; cases hk
    obtain ⟨s', es, h1, h2⟩ := hget s x d hp
    exact ⟨1, s', es, by omega, by simp [List.replicate, run, h1], h2⟩
  | orCheck x d k' =>
    rw [hp] at hk; cases hk
    obtain ⟨n, s', es, h0, h1, h2⟩ := hcheck s x d hp
    exact ⟨n, s', es, by omega, h1, h2⟩
  | waiting x op k' =>
    rw [hp] at hk; cases hk
    have h0 : step c s (.resume t) = some (s.finish c t x op k) := by simp [step, hp, hd]
    have key : (s.finish c t x op k).1.pc t = .idle ∨ ∃ d, (s.finish c t x op k).1.pc t = .orCheck x d k := by
      cases op <;> cases hs : c.shared x <;> simp only [State.finish, hs, State.ret, State.setSt, State.setPc]
      all_goals repeat' split
      all_goals simp [upd_apply]
    rcases key with h1 | ⟨d, h1⟩
    · exact ⟨1, _, _, by omega, by simp only [List.replicate, run, h0]; rfl, h1⟩
    · obtain ⟨n, s', es, h2, h3, h4⟩ := hcheck _ x d h1
      exact ⟨n + 1, s', _, by omega, by simp only [List.replicate_succ, run, h0, h3]; rfl, h4⟩

/-! ## The theorems speak about something -/

/-- Variables 0, 1 and 2 are futures, 3, 4 and 5 shared futures. -/
def cfg (ty : Ty) (inv : Bool) : Cfg := { ty := ty, invalidates := inv, shared := fun h => h ≥ 3, handles := 6 }

def evs (c : Cfg) (ls : List Label) : List Event := ((run (step c) init ls).map (·.2)).getD []

/-- A future is obtained, moved, and waited for by a thread that gets the value; it is invalid then, and a second `get` throws. -/
def prog₁ : List Label :=
  [.obtain 7 0, .valid 0 0, .getState 0 0, .move 0 1, .valid 0 0, .valid 0 1, .call 1 1 .get, .deliver 7 (.value 42), .resume 1, .valid 1 1, .call 1 1 .get, .call 1 0 .get, .call 1 0 .excPtr]

example : (run (step (cfg .object true)) init prog₁).map (·.2) = some
    [.obtained 7 0, .isValid 0 0 true, .state 0 0 .waiting, .moved 0 1, .isValid 0 0 false, .isValid 0 1 true, .called 1 1 .get, .delivered 7 (.value 42), .returned 1 1 .get (.value 42), .isValid 1 1 false,
     .called 1 1 .get, .returned 1 1 .get .uninit, .called 1 0 .get, .returned 1 0 .get .uninit, .called 1 0 .excPtr, .returned 1 0 .excPtr (.exc none)] := by decide +kernel
example : ClientOk (next true (cfg .object true)) {} (evs (cfg .object true) prog₁) := by decide +kernel

/-- A shared future, copied; both copies are asked at the same time and give the value, and give it again; `get_or` on a future with an exception gives the other value. -/
def prog₂ : List Label :=
  [.obtain 7 0, .move 0 3, .copy 3 4, .call 1 3 .get, .call 2 4 (.getOr 5), .call 0 4 .waitFor, .timeout 0, .deliver 7 (.value 42), .resume 1, .resume 2, .resume 2, .resume 2, .call 1 3 .get, .valid 0 4,
   .obtain 8 1, .deliver 8 (.exn (some 9)), .hasException 0 1, .call 0 1 (.getOr 5), .valid 0 1, .destroy 3, .hasValue 0 4]

example : (run (step (cfg .object true)) init prog₂).map (·.2) = some
    [.obtained 7 0, .moved 0 3, .copied 3 4, .called 1 3 .get, .called 2 4 (.getOr 5), .called 0 4 .waitFor, .returned 0 4 .waitFor .timeout, .delivered 7 (.value 42), .returned 1 3 .get (.value 42),
     .returned 2 4 (.getOr 5) (.value 42), .called 1 3 .get, .returned 1 3 .get (.value 42), .isValid 0 4 true, .obtained 8 1, .delivered 8 (.exn (some 9)), .hasException 0 1 true,
     .called 0 1 (.getOr 5), .returned 0 1 (.getOr 5) (.fallback 5), .isValid 0 1 false, .destroyed 3, .hasValue 0 4 true] := by decide +kernel
example : ClientOk (next true (cfg .object true)) {} (evs (cfg .object true) prog₂) := by decide +kernel
example : ClientOk (next false (cfg .object true)) {} (evs (cfg .object true) prog₂) := by decide +kernel

/-! ## Where the contract is broken -/

/-- `shared_future::get_or` waits with `wait()`, which throws the stored exception (future.hpp 2236, 405): it does not give the other value. -/
theorem get_or_throws : ∃ ls, evs (cfg .object true) ls =
      [.obtained 7 0, .moved 0 3, .delivered 7 (.exn (some 9)), .called 1 3 (.getOr 5), .returned 1 3 (.getOr 5) (.threw 9)] ∧ ¬ Accepts (next true (cfg .object true)) {} (evs (cfg .object true) ls) :=
  ⟨[.obtain 7 0, .move 0 3, .deliver 7 (.exn (some 9)), .call 1 3 (.getOr 5)], by decide +kernel, by decide +kernel⟩

/-- A shared future made of a future that has given away its value does not throw `future_uninitialized`: it says that it is not valid, and gives an object that was moved from. -/
theorem shared_after_get : ∃ ls, evs (cfg .object true) ls =
      [.obtained 7 0, .delivered 7 (.value 42), .called 1 0 .get, .returned 1 0 .get (.value 42), .moved 0 3, .isValid 1 3 false, .called 1 3 .get, .returned 1 3 .get .movedFrom] ∧
    ¬ Accepts (next true (cfg .object true)) {} (evs (cfg .object true) ls) :=
  ⟨[.obtain 7 0, .deliver 7 (.value 42), .call 1 0 .get, .move 0 3, .valid 1 3, .call 1 3 .get], by decide +kernel, by decide +kernel⟩

/-- A future made of a shared future takes the value away from the copies: they become invalid, and give an object that was moved from. -/
theorem taken_from_copies : ∃ ls, evs (cfg .object true) ls =
      [.obtained 7 0, .moved 0 3, .copied 3 4, .delivered 7 (.value 42), .moved 3 1, .called 1 1 .get, .returned 1 1 .get (.value 42), .called 2 4 .get, .returned 2 4 .get .movedFrom, .isValid 2 4 false] ∧
    ¬ Accepts (next true (cfg .object true)) {} (evs (cfg .object true) ls) :=
  ⟨[.obtain 7 0, .move 0 3, .copy 3 4, .deliver 7 (.value 42), .move 3 1, .call 1 1 .get, .call 2 4 .get, .valid 2 4], by decide +kernel, by decide +kernel⟩

/-- A `get` that is interrupted while it waits leaves the future invalid: the value that is delivered later cannot be got any more. -/
theorem interrupted_get : ∃ ls, evs (cfg .object true) ls =
      [.obtained 7 0, .called 1 0 .get, .returned 1 0 .get .interrupted, .delivered 7 (.value 42), .called 1 0 .get, .returned 1 0 .get .uninit] ∧
    ¬ Accepts (next true (cfg .object true)) {} (evs (cfg .object true) ls) :=
  ⟨[.obtain 7 0, .call 1 0 .get, .interrupt 1, .deliver 7 (.value 42), .call 1 0 .get], by decide +kernel, by decide +kernel⟩

/-- `make_exceptional()` without argument, or `make_exceptional_future<T>()` outside a handler, store a null `exception_ptr`: the future claims to have a value, and `get` dereferences null. -/
theorem null_exception : ∃ ls, evs (cfg .object true) ls =
      [.exceptional 7 0 none, .hasException 1 0 false, .hasValue 1 0 true, .called 1 0 .get, .returned 1 0 .get .nullDeref] ∧ ¬ Accepts (next true (cfg .object true)) {} (evs (cfg .object true) ls) :=
  ⟨[.exceptional 7 0 none, .hasException 1 0, .hasValue 1 0, .call 1 0 .get], by decide +kernel, by decide +kernel⟩

/-! ## Factories (future.hpp 4363-4439, 4458-4469)

They make a promise, satisfy it, obtain its future, and destroy the promise. `brokenPromise`: the exception that the destructor of a promise stores if it was not satisfied. -/

def brokenPromise : Nat := 1000

/-- `make_ready_future(v)`, `make_ready_future<T>(…)`, `make_ready_no_decay_future`, `make_ready_future()` (4363-4413), with the new state `k`, assigned to `h`. -/
def makeReadyFuture (k h v : Nat) : List Label := [.deliver k (.value v), .obtain k h]
/-- `make_exceptional_future` (4417-4439) -/
def makeExceptionalFuture (k h : Nat) (e : Option Nat) : List Label := [.deliver k (.exn e), .obtain k h]
/-- `make_shared_future(v)` (4458-4464); `tmp` is the temporary future -/
def makeSharedFuture (k tmp h v : Nat) : List Label := [.deliver k (.value v), .obtain k tmp, .move tmp h]
/-- `make_shared_future()` (4466-4469): the promise is not satisfied, its destructor stores the exception. -/
def makeSharedFutureVoid (k tmp h : Nat) : List Label := [.obtain k tmp, .move tmp h, .deliver k (.exn (some brokenPromise))]

/-- A state that nobody knows yet, and a variable nobody uses. -/
structure New (c : Cfg) (s : State) (k h : Nat) : Prop where
  done : (s.st k).done = false
  exc : (s.st k).exception = none
  obtained : (s.st k).obtained = false
  valid : (s.st k).isValid = true
  lt : h < c.handles

/-- The future made by `make_ready_future` is ready and valid, has a value, and gives it. -/
theorem make_ready (c : Cfg) (s : State) (k h t v : Nat) (n : New c s k h) (hs : c.shared h = false) (ht : s.pc t = .idle) :
    ∃ s', run (step c) s (makeReadyFuture k h v ++ [.valid t h, .getState t h, .hasValue t h, .call t h .get]) = some (s',
      [.delivered k (.value v), .obtained k h, .isValid t h true, .state t h .ready, .hasValue t h true, .called t h .get, .returned t h .get (valueRet c.ty false v)]) := by
  obtain ⟨h1, h2, h3, h4, h5⟩ := n
  cases hi : c.invalidates <;> cases hty : c.ty <;>
    simp [run, makeReadyFuture, step, h1, h2, h3, h4, h5, hs, ht, hi, hty, State.setSt, SS.finish, upd_apply, State.fstate, SS.hasValue, Op.hasForm, State.begin, Op.consumes, State.finish, SS.get, State.ret,
      valueRet]

/-- The future made by `make_exceptional_future` throws the exception. -/
theorem make_exceptional (c : Cfg) (s : State) (k h t e : Nat) (n : New c s k h) (hs : c.shared h = false) (ht : s.pc t = .idle) :
    ∃ s', run (step c) s (makeExceptionalFuture k h (some e) ++ [.valid t h, .getState t h, .hasException t h, .call t h .get]) = some (s',
      [.delivered k (.exn (some e)), .obtained k h, .isValid t h true, .state t h .ready, .hasException t h true, .called t h .get, .returned t h .get (.threw e)]) := by
  obtain ⟨h1, h2, h3, h4, h5⟩ := n
  cases hi : c.invalidates <;>
    simp [run, makeExceptionalFuture, step, h1, h2, h3, h4, h5, hs, ht, hi, State.setSt, SS.finish, upd_apply, State.fstate, SS.hasValue, Op.hasForm, State.begin, Op.consumes, State.finish, SS.get,
      State.ret]

/-- The shared future made by `make_shared_future(v)` gives the value. -/
theorem make_shared (c : Cfg) (s : State) (k tmp h t v : Nat) (n : New c s k tmp) (hh : h < c.handles) (hs : c.shared tmp = false) (hs' : c.shared h = true) (ht : s.pc t = .idle) :
    ∃ s', run (step c) s (makeSharedFuture k tmp h v ++ [.call t h .get]) = some (s',
      [.delivered k (.value v), .obtained k tmp, .moved tmp h, .called t h .get, .returned t h .get (valueRet c.ty false v)]) := by
  obtain ⟨h1, h2, h3, h4, h5⟩ := n
  have hne : h ≠ tmp := by rintro rfl; rw [hs] at hs'; cases hs'
  cases hty : c.ty <;>
    simp [run, makeSharedFuture, step, h1, h2, h3, h4, h5, hh, hs, hs', ht, hty, hne, State.setSt, SS.finish, upd_apply, Op.hasForm, State.begin, Op.consumes, State.finish, SS.getSh, State.ret, valueRet]

/-- The shared future made by `make_shared_future()` throws `broken_promise`: it never has a value. -/
theorem make_shared_future_void (c : Cfg) (s : State) (k tmp h t : Nat) (n : New c s k tmp) (hh : h < c.handles) (hs : c.shared tmp = false) (hs' : c.shared h = true) (ht : s.pc t = .idle) :
    ∃ s', run (step c) s (makeSharedFutureVoid k tmp h ++ [.hasValue t h, .call t h .get]) = some (s',
      [.obtained k tmp, .moved tmp h, .delivered k (.exn (some brokenPromise)), .hasValue t h false, .called t h .get, .returned t h .get (.threw brokenPromise)]) := by
  obtain ⟨h1, h2, h3, h4, h5⟩ := n
  have hne : h ≠ tmp := by rintro rfl; rw [hs] at hs'; cases hs'
  simp [run, makeSharedFutureVoid, step, h1, h2, h3, h4, h5, hh, hs, hs', ht, hne, State.setSt, SS.finish, upd_apply, Op.hasForm, State.begin, Op.consumes, State.finish, SS.getSh, State.ret, SS.hasValue]

example : New (cfg .object true) init 7 0 := ⟨rfl, rfl, rfl, rfl, by decide⟩
example : New (cfg .void true) (((run (step (cfg .void true)) init prog₁).map (·.1)).getD init) 8 2 := by constructor <;> decide +kernel

/-! ## The specification rejects -/

example : ¬ Accepts (next false (cfg .object true)) {} [.obtained 7 0, .isValid 0 0 false] := by decide +kernel
example : ¬ Accepts (next false (cfg .object true)) {} [.obtained 7 0, .called 1 0 .get, .returned 1 0 .get (.value 42)] := by decide +kernel
example : ¬ Accepts (next false (cfg .object true)) {} [.obtained 7 0, .delivered 7 (.value 42), .called 1 0 .get, .returned 1 0 .get (.value 41)] := by decide +kernel
example : ¬ Accepts (next false (cfg .object true)) {} [.obtained 7 0, .delivered 7 (.value 42), .called 1 0 .get, .returned 1 0 .get (.value 42), .isValid 0 0 true] := by decide +kernel
example : ¬ Accepts (next false (cfg .object true)) {} [.obtained 7 0, .delivered 7 (.value 42), .moved 0 1, .called 1 0 .get, .returned 1 0 .get (.value 42)] := by decide +kernel
example : ¬ Accepts (next false (cfg .object true)) {} [.obtained 7 0, .moved 0 3, .copied 3 4, .delivered 7 (.value 42), .called 1 3 .get, .returned 1 3 .get (.value 42), .called 1 4 .get,
    .returned 1 4 .get .movedFrom] := by decide +kernel
example : ¬ Accepts (next false (cfg .object true)) {} [.obtained 7 0, .delivered 7 (.value 42), .called 1 0 .waitFor, .returned 1 0 .waitFor .timeout] := by decide +kernel

end Verif.FutureHandle
