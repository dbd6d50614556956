import Verif.ForeignExit.Spec
import Verif.ThreadExit.Props
/-! # The end of foreign threads: the model follows the specification -/

namespace Verif.ForeignExit
open ThreadExit (State Op Event Node Sp upd nval)

theorem mono {σ E : Type} {next : σ → E → Verdict σ} {P Q : σ → Prop} {es : List E} {s : σ} (h : Follows next P s es) (hPQ : ∀ x, P x → Q x) : Follows next Q s es := by
  induction es generalizing s with
  | nil => exact hPQ s h
  | cons e es ih =>
    simp only [Follows] at h ⊢
    cases hn : next s e with
    | illegal => rw [hn] at h; exact h
    | undefined => trivial
    | ok x => rw [hn] at h; exact ih h

/-- What the running code does changes only `now`. -/
theorem lift {it nk : Nat} {fn : Nat → Bool} {P : Sp → Prop} {σ : FSp} {τ : Sp} {es : List Event} (ho : σ.over = false) (hb : ∀ e ∈ es, e ≠ .bodyRet)
    (h : Follows (ThreadExit.next false nk fn) P τ es) : Follows (next it nk fn) (fun σ' => ∃ τ', P τ' ∧ σ' = { σ with now := τ' }) { σ with now := τ } (es.map .now) := by
  induction es generalizing τ with
  | nil => exact ⟨τ, h, rfl⟩
  | cons e es ih =>
    simp only [List.map_cons, Follows, next]
    have he : ¬ (e = .bodyRet ∨ σ.over = true) := by
      rintro (h | h)
      · exact hb e List.mem_cons_self h
      · rw [ho] at h; cases h
    simp only [Follows] at h
    rw [if_neg he]
    cases hn : ThreadExit.next false nk fn τ e with
    | illegal => rw [hn] at h; exact h
    | undefined => trivial
    | ok τ₁ =>
      rw [hn] at h
      exact ih (fun e he => hb e (List.mem_cons_of_mem _ he)) h

theorem op_base {nk : Nat} {fn : Nat → Bool} {s s' : State} {o : Op} {es : List Event} (h : ThreadExit.op nk fn s o = some (s', es)) : s'.base = s.base ∧ ∀ e ∈ es, e ≠ .bodyRet := by
  cases o <;> simp only [ThreadExit.op, ThreadExit.setTss, State.store] at h <;> (repeat' split at h) <;> cases h <;> simp <;> (try split) <;> rfl

theorem ret_base {s s' : State} {es : List Event} (ha : s.acts ≠ []) (h : ThreadExit.ret s = some (s', es)) : s'.base = s.base ∧ ∀ e ∈ es, e ≠ .bodyRet := by
  simp only [ThreadExit.ret, State.store] at h
  split at h
  · next h' => exact absurd h' ha
  all_goals (repeat' split at h) <;> cases h <;> simp <;> (try split) <;> rfl

structure FR (it nk : Nat) (fn : Nat → Bool) (s : FState) (σ : FSp) : Prop where
  now : ThreadExit.R nk fn s.cur σ.now
  body : s.cur.base = .body
  empty : s.made = false → s.cur.cbs = [] ∧ ∀ k, s.cur.node k = none
  ret : σ.returned = decide (s.phase ≠ .body)
  over : σ.over = decide (s.phase = .ended)
  rounds : σ.rounds = s.rounds ∧ s.rounds ≤ it
  running : σ.running = s.top.isSome
  top : s.top.isSome = true → s.phase = .tearCb ∨ s.phase = .tearTss
  cbs : σ.cbs = s.oldCbs
  noCbs : s.phase ≠ .tearCb → s.oldCbs = []
  node : ∀ k nd, s.oldNode k = some nd → nd.fn = fn k ∧ k < nk ∧ (s.phase = .tearCb ∨ s.phase = .tearTss)
  left : ∀ k, fn k = true → σ.left k = if s.top = some (.clean k) then 0 else nval (s.oldNode k)
  acts : s.cur.acts ≠ [] → s.inCode = true

theorem FR_init (it nk : Nat) (fn : Nat → Bool) : FR it nk fn {} {} where
  now := ThreadExit.R.init nk fn
  body := rfl
  empty := fun _ => ⟨rfl, fun _ => rfl⟩
  ret := rfl
  over := rfl
  rounds := ⟨rfl, Nat.zero_le _⟩
  running := rfl
  top := fun h => by cases h
  cbs := rfl
  noCbs := fun _ => rfl
  node := fun _ _ h => by cases h
  left := fun _ _ => rfl
  acts := fun h => absurd rfl h

theorem not_holds {nk : Nat} {fn : Nat → Bool} {c : State} {τ : Sp} (hR : ThreadExit.R nk fn c τ) (h : holds nk c = false) : c.cbs = [] ∧ ∀ k, c.node k = none := by
  simp only [holds, Bool.or_eq_false_iff, Bool.not_eq_false', List.isEmpty_iff] at h
  refine ⟨h.1, fun k => ?_⟩
  cases hn : c.node k with
  | none => rfl
  | some nd =>
    have := List.any_eq_false.1 h.2 k (List.mem_range.2 (hR.node k nd hn).2)
    simp [hn] at this

theorem inCode_cur (s : FState) (c : State) (b : Bool) : ({ s with cur := c, made := b } : FState).inCode = s.inCode := rfl

theorem inCode_over {it nk : Nat} {fn : Nat → Bool} {s : FState} {σ : FSp} (hR : FR it nk fn s σ) (h : s.inCode = true) : σ.over = false := by
  rw [hR.over, decide_eq_false_iff_not]
  intro e
  simp only [FState.inCode, e, Bool.or_eq_true] at h
  simp at h
  have := hR.top h
  rw [e] at this; simp at this

/-- The running code did something. -/
theorem FR_cur {it nk : Nat} {fn : Nat → Bool} {s : FState} {σ : FSp} {c : State} {es : List Event} (hR : FR it nk fn s σ) (hc : s.inCode = true)
    (hb : c.base = s.cur.base ∧ ∀ e ∈ es, e ≠ .bodyRet) (h : Follows (ThreadExit.next false nk fn) (ThreadExit.R nk fn c) σ.now es) :
    Follows (next it nk fn) (FR it nk fn { s with cur := c, made := s.made || holds nk c }) σ (es.map .now) := by
  have := lift (it := it) (σ := σ) (inCode_over hR hc) hb.2 h
  refine mono this ?_
  rintro σ' ⟨τ, hτ, rfl⟩
  exact { hR with
    now := hτ
    body := hb.1.trans hR.body
    empty := fun h => not_holds hτ (by simp only [Bool.or_eq_false_iff] at h; exact h.2)
    acts := fun _ => hc }

theorem busy_nil {it nk : Nat} {fn : Nat → Bool} {s : FState} {σ : FSp} (hR : FR it nk fn s σ) (h : s.cur.acts = []) : σ.now.busy = [] := by
  rw [hR.now.busy, h]; rfl

theorem done_sys {it nk : Nat} {fn : Nat → Bool} {s : FState} {σ : FSp} (hR : FR it nk fn s σ) (h : s.phase = .sys) : σ.done nk fn := by
  have ht : s.top = none := by
    cases e : s.top with
    | none => rfl
    | some x => have := hR.top (by simp [e]); rw [h] at this; simp at this
  refine ⟨by rw [hR.running, ht]; rfl, by rw [hR.cbs]; exact hR.noCbs (by rw [h]; simp), fun k _ hf => ?_⟩
  rw [hR.left k hf, ht]
  simp only [reduceCtorEq, if_false]
  cases hn : s.oldNode k with
  | none => rfl
  | some nd => have := (hR.node k nd hn).2.2; rw [h] at this; simp at this

theorem idle_of {it nk : Nat} {fn : Nat → Bool} {s : FState} {σ : FSp} (hR : FR it nk fn s σ) (ha : s.cur.acts = []) (hm : s.made = false) : σ.now.cbs = [] ∧ ∀ k, σ.now.slot k = 0 := by
  have := hR.empty hm
  refine ⟨by rw [hR.now.cbs]; exact this.1, fun k => ?_⟩
  have h := (hR.now.idle k (by rw [busy_nil hR ha]; simp)).1
  rw [this.2 k] at h
  rcases h with h | h
  · exact h
  · rw [hR.now.ret, hR.body] at h; simp at h

/-- The slots between two rounds. -/
theorem slots {it nk : Nat} {fn : Nat → Bool} {s : FState} {σ : FSp} (hR : FR it nk fn s σ) (ha : s.cur.acts = []) (k : Nat) : σ.now.slot k = nval (s.cur.node k) ∧ σ.now.pend k = none := by
  have h := hR.now.idle k (by rw [busy_nil hR ha]; simp)
  refine ⟨?_, h.2⟩
  rcases h.1 with h | h
  · exact h
  · rw [hR.now.ret, hR.body] at h; simp at h

theorem now_empty {it nk : Nat} {fn : Nat → Bool} {s : FState} {σ : FSp} (hR : FR it nk fn s σ) (ha : s.cur.acts = []) :
    ThreadExit.R nk fn { s.cur with cbs := [], node := fun _ => none } { σ.now with cbs := [], slot := fun _ => 0 } where
  ub := hR.now.ub
  cbs := rfl
  ret := hR.now.ret
  busy := hR.now.busy
  nodup := hR.now.nodup
  node := fun _ _ h => by cases h
  idle := fun k _ => ⟨.inl rfl, (slots hR ha k).2⟩
  act := fun a h => by simp only [ha] at h; cases h

theorem sim {it nk : Nat} {fn : Nat → Bool} {s s' : FState} {l : FLabel} {es : List FEvent} {σ : FSp} (hR : FR it nk fn s σ) (hs : step it nk fn s l = some (s', es)) :
    Follows (next it nk fn) (FR it nk fn s') σ es := by
  have hu := hR.now.ub
  unfold step at hs
  rw [if_neg (by simp [hu])] at hs
  cases l with
  | op o =>
    simp only at hs
    split at hs
    · next hc =>
      split at hs <;> cases hs
      next c es ho => exact FR_cur hR hc (op_base ho) (ThreadExit.sim_op hR.now ho)
    · cases hs
  | touch =>
    simp only at hs
    split at hs <;> cases hs
    exact { hR with empty := fun h => by cases h }
  | ret =>
    simp only at hs
    split at hs
    · next ha =>
      split at hs <;> cases hs
      next c es ho => exact FR_cur hR (hR.acts ha) (ret_base ha ho) (ThreadExit.sim_ret hR.now ho)
    · next ha =>
      have ha : s.cur.acts = [] := Decidable.not_not.1 ha
      have hb := busy_nil hR ha
      split at hs
      · next ht =>
        cases hs
        have hrun : σ.running = true := by rw [hR.running, ht]; rfl
        simp only [Follows, next, hrun, hb, and_self, if_true]
        exact { hR with
          running := rfl
          top := fun h => by cases h
          left := fun k hf => by have := hR.left k hf; rw [ht] at this; simpa using this
          acts := fun h => absurd ha h }
      · next k ht =>
        cases hs
        have hrun : σ.running = true := by rw [hR.running, ht]; rfl
        simp only [Follows, next, hrun, hb, and_self, if_true]
        exact { hR with
          running := rfl
          top := fun h => by cases h
          node := fun j nd h => by
            simp only [upd] at h
            split at h
            · cases h
            · exact hR.node j nd h
          left := fun j hf => by
            have := hR.left j hf
            rw [ht] at this
            simp only [Option.some.injEq, Top.clean.injEq, reduceCtorEq, if_false, upd] at this ⊢
            rw [this]
            by_cases e : k = j
            · rw [if_pos e, if_pos e.symm]; rfl
            · rw [if_neg e, if_neg (fun h => e h.symm)]
          acts := fun h => absurd ha h }
      · next ht =>
        split at hs <;> cases hs
        next hp =>
        have hret : σ.returned = false := by rw [hR.ret, hp]; rfl
        simp only [Follows, next, hret, hb, and_self, if_true]
        exact { hR with
          ret := rfl
          over := by rw [hR.over, hp]; rfl
          top := fun h => by rw [ht] at h; cases h
          noCbs := fun _ => hR.noCbs (by rw [hp]; simp)
          node := fun k nd h => by have := (hR.node k nd h).2.2; rw [hp] at this; simp at this
          acts := fun h => absurd ha h }
  | round =>
    simp only at hs
    split at hs
    · next h =>
      obtain ⟨hp, ha, hlt⟩ := h
      have hb := busy_nil hR ha
      have hd := done_sys hR hp
      have ht : s.top = none := by
        cases e : s.top with
        | none => rfl
        | some x => have := hR.top (by simp [e]); rw [hp] at this; simp at this
      have hret : σ.returned = true := by rw [hR.ret, hp]; rfl
      have hov : σ.over = false := by rw [hR.over, hp]; rfl
      have hlt' : σ.rounds < it := by rw [hR.rounds.1]; exact hlt
      split at hs <;> cases hs
      · simp only [Follows, next, hret, hov, hb, hlt', hd, and_self, if_true]
        exact {
          now := by have h := now_empty hR ha; simp only [hb] at h; exact h
          body := hR.body
          empty := fun _ => ⟨rfl, fun _ => rfl⟩
          ret := by simp
          over := by simp
          rounds := ⟨by simp [hR.rounds.1], hlt⟩
          running := hR.running
          top := fun h => by simp only [ht] at h; cases h
          cbs := hR.now.cbs
          noCbs := fun h => by simp at h
          node := fun k nd h => ⟨(hR.now.node k nd h).1, (hR.now.node k nd h).2, .inl rfl⟩
          left := fun k _ => by simp only [ht, reduceCtorEq, if_false]; exact (slots hR ha k).1
          acts := fun h => absurd ha h }
      · next hm =>
        have hi := idle_of hR ha (by simpa using hm)
        simp only [Follows, next, hret, hov, hb, hlt', hd, and_self, if_true]
        have hn : σ.now.slot = fun _ => 0 := funext hi.2
        exact { hR with
          now := by
            have h := hR.now
            have hc := hi.1
            generalize σ.now = τ at h hn hc hb
            cases τ
            subst hn hc hb
            exact h
          ret := by simp [hp]
          over := by simp [hp]
          rounds := ⟨by simp [hR.rounds.1], hlt⟩
          cbs := by simp only; rw [hi.1, hR.noCbs (by rw [hp]; simp)]
          left := fun k hf => by
            have h1 := hd.2.2
            simp only [ht, reduceCtorEq, if_false]
            rw [hi.2 k]
            cases ho : s.oldNode k with
            | none => rfl
            | some nd => have := (hR.node k nd ho).2.2; rw [hp] at this; simp at this
          acts := fun h => absurd ha h }
    · cases hs
  | go =>
    simp only at hs
    split at hs
    · next h =>
      obtain ⟨ha, ht⟩ := h
      have hb := busy_nil hR ha
      have hrun : σ.running = false := by rw [hR.running, ht]; rfl
      simp only [go] at hs
      split at hs
      · next hp =>
        split at hs <;> cases hs
        · next hc =>
          exact { hR with
            ret := by rw [hR.ret, hp]; rfl
            over := by rw [hR.over, hp]; rfl
            top := fun _ => .inr rfl
            noCbs := fun _ => hc
            node := fun k nd h => ⟨(hR.node k nd h).1, (hR.node k nd h).2.1, .inr rfl⟩
            acts := fun h => absurd ha h }
        · next n r hc =>
          simp only [Follows, next, hrun, hb, hR.cbs, hc, List.head?_cons, and_self, if_true, List.tail_cons]
          exact { hR with
            now := hR.now
            running := rfl
            top := fun _ => .inl hp
            cbs := rfl
            noCbs := fun h => absurd hp h
            left := fun k hf => by have := hR.left k hf; rw [ht] at this; simpa using this
            acts := fun h => absurd ha h }
      · next hp =>
        have hc := hR.noCbs (by rw [hp]; simp)
        split at hs
        · next hf =>
          rw [if_pos hc] at hs
          cases hs
          have hnone : ∀ k, s.oldNode k = none := by
            intro k
            cases e : s.oldNode k with
            | none => rfl
            | some nd =>
              have := List.find?_eq_none.1 hf k (List.mem_range.2 (hR.node k nd e).2.1)
              simp [e] at this
          exact { hR with
            ret := by rw [hR.ret, hp]; rfl
            over := by rw [hR.over, hp]; rfl
            top := fun h => by simp only [ht] at h; cases h
            noCbs := fun _ => hc
            node := fun k nd h => by simp only [hnone k] at h; cases h
            acts := fun h => absurd ha h }
        · next k hf =>
          split at hs
          · cases hs
          · next nd hn =>
            have hnode := hR.node k nd hn
            split at hs <;> cases hs
            · next hv =>
              simp only [Bool.and_eq_true, bne_iff_ne, ne_eq] at hv
              have hfn : fn k = true := by rw [← hnode.1]; exact hv.1
              have hl := hR.left k hfn
              rw [ht, hn] at hl
              simp only [reduceCtorEq, if_false, ThreadExit.nval_some] at hl
              simp only [Follows, next, hrun, hb, hnode.2.1, hfn, hl, and_self, ne_eq, hv.2, not_false_eq_true, if_true]
              exact { hR with
                running := rfl
                top := fun _ => .inr hp
                left := fun j hj => by
                  have := hR.left j hj
                  rw [ht] at this
                  simp only [reduceCtorEq, if_false, upd, Option.some.injEq, Top.clean.injEq] at this ⊢
                  by_cases e : j = k
                  · rw [if_pos e, if_pos e.symm]
                  · rw [if_neg e, if_neg (fun h => e h.symm)]; exact this
                acts := fun h => absurd ha h }
            · next hv =>
              exact { hR with
                node := fun j md h => by
                  simp only [upd] at h
                  split at h
                  · cases h
                  · exact hR.node j md h
                left := fun j hj => by
                  have := hR.left j hj
                  rw [ht] at this
                  simp only [ht, reduceCtorEq, if_false, upd] at this ⊢
                  rw [this]
                  by_cases e : j = k
                  · subst e
                    rw [if_pos rfl, hn]
                    have : nd.val = 0 := by rw [hnode.1, hj] at hv; simpa using hv
                    simp [nval, this]
                  · rw [if_neg e]
                acts := fun h => absurd ha h }
      · cases hs
    · cases hs
  | fin =>
    simp only at hs
    split at hs <;> cases hs
    next h =>
    obtain ⟨hp, ha, hm⟩ := h
    have hret : σ.returned = true := by rw [hR.ret, hp]; rfl
    have hov : σ.over = false := by rw [hR.over, hp]; rfl
    have hlast : σ.rounds = it ∨ σ.idle nk fn := by
      rcases hm with hm | hm
      · exact .inl (by rw [hR.rounds.1]; exact hm)
      · have := idle_of hR ha hm
        exact .inr ⟨this.1, fun k _ _ => this.2 k⟩
    have hd := done_sys hR hp
    simp only [Follows, next, hret, hov, busy_nil hR ha, hd, hlast, and_self, if_true]
    exact { hR with
      ret := by simp
      over := rfl
      top := fun h => by have := hR.top h; rw [hp] at this; simp at this
      noCbs := fun _ => hR.noCbs (by rw [hp]; simp)
      node := fun k nd h => by have := (hR.node k nd h).2.2; rw [hp] at this; simp at this
      acts := fun h => absurd ha h }

end Verif.ForeignExit
