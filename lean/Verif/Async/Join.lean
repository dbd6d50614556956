import Verif.Async.Live
/-!
# `BOOST_THREAD_FUTURE_BLOCKING`: `wait` joins the thread
-/

set_option linter.unusedSimpArgs false

namespace Verif.Async

/-- The function of call `i` waits for its own future: it never ends. -/
def SelfWait (s : State) (i : Nat) : Prop := ∃ (u : Nat) (x : Thread), s.th[u]? = some x ∧ x.fn = some i ∧ x.pc = .wait i false

structure JInv (s : State) (hist : List Event) : Prop where
  handle : ∀ (t : Nat) (th : Thread) (i : Nat), s.th[t]? = some th → (s.node i).kind = .thread → 0 < wt .fut i th ∨ 0 < wt .ret i th →
    (s.node i).handle = true ∨ (s.node i).exit = true ∨ SelfWait s i
  waiting : ∀ (t : Nat) (th : Thread) (i : Nat), s.th[t]? = some th → (s.node i).kind = .thread → th.pc = .wait i false → (s.node i).exit = true ∨ SelfWait s i
  exit : ∀ i, (s.node i).exit = true → .exited i ∈ hist
  kind : ∀ u i k, .asyncs u i k ∈ hist → (s.node i).kind = k ∧ i < s.n
  joins : WaitJoins hist

theorem JInv.init (k : Nat) : JInv (init k) [] := by
  have hth : ∀ (t : Nat) (th : Thread), (Async.init k).th[t]? = some th → th = {} := by
    intro t th ht
    simp only [Async.init, List.getElem?_replicate] at ht
    split at ht <;> cases ht
    rfl
  constructor
  · intro t th i ht _ hw; rw [hth t th ht] at hw; simp [wt, PC.wt] at hw
  · intro t th i ht _ hp; rw [hth t th ht] at hp; cases hp
  · intro i h; simp [Async.init] at h
  · intro u i k h; simp at h
  · intro es₁ es₂ t u i h; simp at h

theorem WaitJoins.append {hist es : List Event} (h : WaitJoins hist) (he : ∀ t i, .waited t i ∉ es) : WaitJoins (hist ++ es) := by
  intro es₁ es₂ t u i heq hm
  rw [List.append_eq_append_iff] at heq
  rcases heq with ⟨a, h1, h2⟩ | ⟨a, h1, h2⟩
  · exact absurd (by rw [h2]; simp) (he t i)
  · cases a with
    | nil => simp only [List.nil_append] at h2; exact absurd (by rw [← h2]; simp) (he t i)
    | cons e a =>
      simp only [List.cons_append, List.cons.injEq] at h2
      obtain ⟨rfl, rfl⟩ := h2
      exact h es₁ a t u i h1 hm

theorem WaitJoins.waited {hist : List Event} (h : WaitJoins hist) {t i : Nat} (he : ∀ u, .asyncs u i .thread ∈ hist → .exited i ∈ hist) : WaitJoins (hist ++ [.waited t i]) := by
  intro es₁ es₂ t' u j heq hm
  rw [List.append_eq_append_iff] at heq
  rcases heq with ⟨a, h1, h2⟩ | ⟨a, h1, h2⟩
  · cases a with
    | nil =>
      simp only [List.nil_append, List.cons.injEq, Event.waited.injEq] at h2
      obtain ⟨⟨-, rfl⟩, -⟩ := h2
      simp only [List.append_nil] at h1
      subst h1
      exact he u hm
    | cons e a => simp at h2
  · cases a with
    | nil =>
      simp only [List.nil_append, List.cons.injEq, Event.waited.injEq] at h2
      obtain ⟨⟨-, rfl⟩, -⟩ := h2
      simp only [List.append_nil] at h1
      subst h1
      exact he u hm
    | cons e a =>
      simp only [List.cons_append, List.cons.injEq] at h2
      obtain ⟨rfl, -⟩ := h2
      exact h es₁ a t' u j h1 hm

/-- A step of thread `t`. -/
theorem JInv.move {s s' : State} {t : Nat} {th th' : Thread} {hist es : List Event} (h : JInv s hist) (ht : s.th[t]? = some th) (hs : s'.th = s.th.set t th') (hn : s'.n = s.n)
    (hk : ∀ j, (s'.node j).kind = (s.node j).kind) (hx : ∀ j, (s.node j).exit = true → (s'.node j).exit = true)
    (hh : ∀ j, (s.node j).handle = true → (s'.node j).handle = true ∨ (s'.node j).exit = true ∨ SelfWait s' j ∨ ∀ (u : Nat) (x : Thread), s.th[u]? = some x → wt .fut j x = 0 ∧ wt .ret j x = 0)
    (hw : ∀ j, 0 < wt .fut j th' ∨ 0 < wt .ret j th' → 0 < wt .fut j th ∨ 0 < wt .ret j th)
    (hself : ∀ j, th.fn = some j → th.pc ≠ .wait j false)
    (hp : ∀ j, (s.node j).kind = .thread → th'.pc = .wait j false → (s'.node j).exit = true ∨ SelfWait s' j)
    (he : ∀ j, (s'.node j).exit = true → (s.node j).exit = true ∨ .exited j ∈ es)
    (ha : ∀ u j k, .asyncs u j k ∉ es) (hj : WaitJoins (hist ++ es)) : JInv s' (hist ++ es) := by
  have hget : ∀ (u : Nat) (x : Thread), s'.th[u]? = some x → (u = t ∧ x = th') ∨ s.th[u]? = some x := by
    intro u x hxu
    rw [hs, getElem?_set_eq ht] at hxu
    split at hxu
    · rename_i htu; cases hxu; exact .inl ⟨htu.symm, rfl⟩
    · exact .inr hxu
  have hsw : ∀ j, SelfWait s j → SelfWait s' j := by
    rintro j ⟨u, x, hu, hf, hp⟩
    refine ⟨u, x, ?_, hf, hp⟩
    rw [hs, getElem?_set_eq ht]
    split
    · rename_i htu; subst htu; rw [ht] at hu; cases hu; exact absurd hp (hself j hf)
    · exact hu
  have hhandle : ∀ (u : Nat) (x : Thread) (i : Nat), s.th[u]? = some x → (s.node i).kind = .thread → 0 < wt .fut i x ∨ 0 < wt .ret i x →
      (s'.node i).handle = true ∨ (s'.node i).exit = true ∨ SelfWait s' i := by
    intro u x i hu hki hwx
    rcases h.handle u x i hu hki hwx with h1 | h1 | h1
    · rcases hh i h1 with h2 | h2 | h2 | h2
      · exact .inl h2
      · exact .inr (.inl h2)
      · exact .inr (.inr h2)
      · have := h2 u x hu; omega
    · exact .inr (.inl (hx i h1))
    · exact .inr (.inr (hsw i h1))
  constructor
  · intro u x i hu hki hwx
    rw [hk] at hki
    rcases hget u x hu with ⟨rfl, rfl⟩ | hu
    · exact hhandle u th i ht hki (hw i hwx)
    · exact hhandle u x i hu hki hwx
  · intro u x i hu hki hpc
    rw [hk] at hki
    rcases hget u x hu with ⟨rfl, rfl⟩ | hu
    · exact hp i hki hpc
    · exact (h.waiting u x i hu hki hpc).imp (hx i) (hsw i)
  · intro i hi
    rcases he i hi with h1 | h1
    · exact List.mem_append_left _ (h.exit i h1)
    · exact List.mem_append_right _ h1
  · intro u i k hm
    simp only [List.mem_append] at hm
    rcases hm with hm | hm
    · rw [hk, hn]; exact h.kind u i k hm
    · exact absurd hm (ha u i k)
  · exact hj

theorem no_waited_access (s : State) (i t j : Nat) : .waited t j ∉ access s i := by
  intro h; have := access_thread h; cases this

theorem no_waited_accessThr (s : State) (i t j : Nat) : .waited t j ∉ accessThr s i := by
  intro h; have := accessThr_thread h; cases this

theorem no_asyncs_access (s : State) (i t j : Nat) (k : Kind) : .asyncs t j k ∉ access s i := by
  intro h; have := access_thread h; cases this

theorem no_asyncs_accessThr (s : State) (i t j : Nat) (k : Kind) : .asyncs t j k ∉ accessThr s i := by
  intro h; have := accessThr_thread h; cases this

/-- Close the goals of `JInv.move` for a step that touches no shared state but one, and there not what matters here. -/
macro "jmove" h:ident ht:ident "[" ts:Lean.Parser.Tactic.simpLemma,* "]" : tactic => `(tactic| (
  refine JInv.move $h $ht rfl rfl ?_ ?_ ?_ ?_ ?_ ?_ ?_ ?_ ?_
  · intro j; simp only [State.setTh, State.setNode, upd] <;> (try split) <;> simp_all
  · intro j; simp only [State.setTh, State.setNode, upd] <;> (try split) <;> simp_all
  · intro j; simp only [State.setTh, State.setNode, upd] <;> (try split) <;> simp_all
  · intro j; simp only [wt, upd, PC.wt, $ts,*] <;> grind
  · intro j; simp [$ts,*]
  · intro j; simp [State.setTh, State.setNode, $ts,*] <;> grind [upd]
  · intro j; simp only [State.setTh, State.setNode, upd] <;> (try split) <;> simp_all
  · intro u j k; simp [no_asyncs_access, no_asyncs_accessThr]
  · apply WaitJoins.append (JInv.joins $h); intro u j; simp [no_waited_access, no_waited_accessThr]))

theorem finished_join {s : State} {t i : Nat} {th : Thread} {w : Why} {hist es : List Event} (h : JInv s hist) (ht : s.th[t]? = some th) (hpc : th.pc = .rel i w ∨ th.pc = .dtor i w) {d : Node}
    (hd : d.kind = (s.node i).kind ∧ d.exit = (s.node i).exit ∧ (d.handle = (s.node i).handle ∨ ∀ (u : Nat) (x : Thread), s.th[u]? = some x → wt .fut i x = 0 ∧ wt .ret i x = 0))
    (he : ∀ e ∈ es, e.thread = none) :
    JInv (finished (s.setNode i d) t th i w).1 (hist ++ (es ++ (finished (s.setNode i d) t th i w).2)) := by
  have hes : ∀ u j k, .asyncs u j k ∉ es := by intro u j k hm; have := he _ hm; cases this
  have hes' : ∀ u j, .waited u j ∉ es := by intro u j hm; have := he _ hm; cases this
  have hnode : ∀ j, (s.setNode i d).node j = if j = i then d else s.node j := by intro j; simp only [State.setNode, upd]
  have key : ∀ (pc : PC) (es' : List Event), (∀ k j, k = K.fut ∨ k = K.ret → pc.wt k j = 0) → (∀ j, pc ≠ .wait j false) → (∀ u j k, .asyncs u j k ∉ es') → (∀ u j, .waited u j ∉ es') →
      JInv ((s.setNode i d).setTh t { th with pc := pc }) (hist ++ es') := by
    intro pc es' h1 h2 h3 h4
    refine h.move (th' := { th with pc := pc }) ht rfl rfl ?_ ?_ ?_ ?_ ?_ ?_ ?_ h3 (h.joins.append h4)
    · intro j; simp only [State.setTh, hnode]; split
      · rename_i hj; rw [hj, hd.1]
      · rfl
    · intro j; simp only [State.setTh, hnode]; split
      · rename_i hj; rw [hj, hd.2.1]; exact id
      · exact id
    · intro j; simp only [State.setTh, hnode]; split
      · rename_i hj
        subst hj
        rcases hd.2.2 with hx | hx
        · rw [hx]; exact .inl
        · exact fun _ => .inr (.inr (.inr hx))
      · exact .inl
    · intro j; have a := h1 .fut j (.inl rfl); have b := h1 .ret j (.inr rfl); simp only [wt, a, b]; omega
    · intro j _; rcases hpc with hpc | hpc <;> rw [hpc] <;> simp
    · intro j _ hj; exact absurd hj (h2 j)
    · intro j; simp only [State.setTh, hnode]; split
      · rename_i hj; rw [hj, hd.2.1]; exact .inl
      · exact .inl
  cases w with
  | drop => exact key .idle _ (by intro k j _; cases k <;> rfl) (by simp) (by intro u j k; simp [finished, hes]) (by intro u j; simp [finished, hes'])
  | unwind => exact key .idle _ (by intro k j _; cases k <;> rfl) (by simp) (by intro u j k; simp [finished, hes]) (by intro u j; simp [finished, hes'])
  | worker =>
    simp only [finished]
    split
    · exact key (.bye i) _ (by rintro k j (rfl | rfl) <;> rfl) (by simp) (by intro u j k; simp [hes]) (by intro u j; simp [hes'])
    · exact key (.gone i) _ (by rintro k j (rfl | rfl) <;> rfl) (by simp) (by intro u j k; simp [hes]) (by intro u j; simp [hes'])

set_option maxHeartbeats 2000000 in
theorem stepOp_join {s s' : State} {t : Nat} {th : Thread} {o : Op} {σ : Nat → Call} {hist es : List Event} (hi : Inv s σ) (h : JInv s hist) (ht : s.th[t]? = some th) (hf : th.free = true)
    (hs : stepOp .blocking s t th o = some (s', es)) : JInv s' (hist ++ es) := by
  have hpc := free_idle hf
  have hwf := hi.wf t th ht
  simp only [Wf, hpc] at hwf
  cases o with
  | async k =>
    simp only [stepOp, Option.some.injEq, Prod.mk.injEq] at hs
    obtain ⟨rfl, rfl⟩ := hs
    have hz : ∀ (k : K) (u : Nat) (x : Thread), s.th[u]? = some x → wt k s.n x = 0 := by
      intro k u x hx
      exact tot_zero _ (((hi.ok s.n).unused (by omega)).2.2 k) hx
    have hget : ∀ (u : Nat) (x : Thread), (s.th.set t { th with pc := .start s.n })[u]? = some x → (u = t ∧ x = { th with pc := .start s.n }) ∨ s.th[u]? = some x := by
      intro u x hxu
      rw [getElem?_set_eq ht] at hxu
      split at hxu
      · rename_i htu; cases hxu; exact .inl ⟨htu.symm, rfl⟩
      · exact .inr hxu
    have hsw : ∀ i, SelfWait s i → SelfWait (State.setTh { s with n := s.n + 1, node := upd s.node s.n { kind := k, refs := 1 } } t { th with pc := .start s.n }) i := by
      rintro i ⟨u, x, hu, hf, hp⟩
      refine ⟨u, x, ?_, hf, hp⟩
      simp only [State.setTh]
      rw [getElem?_set_eq ht]
      split
      · rename_i htu; subst htu; rw [ht] at hu; cases hu; rw [hpc] at hp; cases hp
      · exact hu
    constructor
    · intro u x i hu hk hw
      by_cases hin : i = s.n
      · subst hin
        rcases hget u x hu with ⟨rfl, rfl⟩ | hu
        · have h1 := hz .fut u th ht; have h2 := hz .ret u th ht; simp only [wt, PC.wt, hpc] at h1 h2 hw; omega
        · have h1 := hz .fut u x hu; have h2 := hz .ret u x hu; omega
      · simp only [State.setTh, upd, if_neg hin] at hk ⊢
        rcases hget u x hu with ⟨rfl, rfl⟩ | hu
        · exact (h.handle u th i ht hk (by simp only [wt, PC.wt, hpc] at hw ⊢; exact hw)).imp id (.imp id (hsw i))
        · exact (h.handle u x i hu hk hw).imp id (.imp id (hsw i))
    · intro u x i hu hk hp
      by_cases hin : i = s.n
      · subst hin
        rcases hget u x hu with ⟨rfl, rfl⟩ | hu
        · cases hp
        · have h1 := hz .fut u x hu; simp [wt, PC.wt, hp] at h1
      · simp only [State.setTh, upd, if_neg hin] at hk ⊢
        rcases hget u x hu with ⟨rfl, rfl⟩ | hu
        · cases hp
        · exact (h.waiting u x i hu hk hp).imp id (hsw i)
    · intro i hx
      simp only [State.setTh, upd] at hx
      split at hx
      · cases hx
      · exact List.mem_append_left _ (h.exit i hx)
    · intro u i k' hm
      simp only [List.mem_append, List.mem_singleton, Event.asyncs.injEq] at hm
      rcases hm with hm | ⟨-, rfl, rfl⟩
      · have := h.kind u i k' hm
        simp only [State.setTh, upd, if_neg (show i ≠ s.n by omega)]
        exact ⟨this.1, by omega⟩
      · simp [State.setTh, upd]
    · exact h.joins.append (by simp)
  | copy i =>
    simp only [stepOp] at hs
    split at hs <;> cases hs
    rename_i hown
    jmove h ht [hpc]
  | give i u =>
    simp only [stepOp] at hs
    split at hs
    · cases hs
    rename_i tu hu
    split at hs <;> cases hs
    rename_i hc
    obtain ⟨hown, hne, hfu⟩ := hc
    have hpu := free_idle hfu
    have h1 : ∀ (v : Nat) (x : Thread), (((s.setTh t { th with own := upd th.own i (th.own i - 1) }).setTh u { tu with own := upd tu.own i (tu.own i + 1) }).th[v]? = some x) →
        ∃ y, s.th[v]? = some y ∧ y.pc = x.pc ∧ y.fn = x.fn ∧ ∀ j, 0 < x.own j → 0 < y.own j ∨ 0 < th.own j := by
      intro v x hv
      have hu' : (s.th.set t { th with own := upd th.own i (th.own i - 1) })[u]? = some tu := by rw [getElem?_set_eq ht, if_neg (Ne.symm hne)]; exact hu
      simp only [State.setTh] at hv
      rw [getElem?_set_eq hu'] at hv
      split at hv
      · rename_i huv; subst huv; cases hv
        refine ⟨tu, hu, rfl, rfl, fun j => ?_⟩
        simp only [upd]; split
        · rename_i hj; subst hj; intro _; exact .inr hown
        · exact .inl
      · rw [getElem?_set_eq ht] at hv
        split at hv
        · rename_i htv; subst htv; cases hv
          refine ⟨th, ht, rfl, rfl, fun j => ?_⟩
          simp only [upd]; split
          · rename_i hj; subst hj; intro _; exact .inr hown
          · exact .inl
        · exact ⟨x, hv, rfl, rfl, fun j => .inl⟩
    have hsw : ∀ j, SelfWait s j → SelfWait ((s.setTh t { th with own := upd th.own i (th.own i - 1) }).setTh u { tu with own := upd tu.own i (tu.own i + 1) }) j := by
      rintro j ⟨v, x, hv, hfv, hpv⟩
      refine ⟨v, x, ?_, hfv, hpv⟩
      have hu' : (s.th.set t { th with own := upd th.own i (th.own i - 1) })[u]? = some tu := by rw [getElem?_set_eq ht, if_neg (Ne.symm hne)]; exact hu
      simp only [State.setTh]
      rw [getElem?_set_eq hu']
      split
      · rename_i huv; subst huv; rw [hu] at hv; cases hv; rw [hpu] at hpv; cases hpv
      · rw [getElem?_set_eq ht]
        split
        · rename_i htv; subst htv; rw [ht] at hv; cases hv; rw [hpc] at hpv; cases hpv
        · exact hv
    rw [List.append_nil]
    constructor
    · intro v x j hv hk hw
      obtain ⟨y, hy, hpy, -, hoy⟩ := h1 v x hv
      by_cases hyy : 0 < wt .fut j y ∨ 0 < wt .ret j y
      · exact (h.handle v y j hy hk hyy).imp id (.imp id (hsw j))
      · refine (h.handle t th j ht hk (.inl ?_)).imp id (.imp id (hsw j))
        simp only [wt, hpy] at hyy hw ⊢
        have := hoy j
        omega
    · intro v x j hv hk hp
      obtain ⟨y, hy, hpy, -, -⟩ := h1 v x hv
      exact (h.waiting v y j hy hk (by rw [hpy]; exact hp)).imp id (hsw j)
    · exact h.exit
    · exact h.kind
    · exact h.joins
  | drop i =>
    simp only [stepOp] at hs
    split at hs <;> cases hs
    rename_i hown
    jmove h ht [hpc]
  | wait i =>
    simp only [stepOp] at hs
    split at hs
    rotate_left
    · cases hs
    rename_i hown
    split at hs
    · rename_i hk
      split at hs
      · rename_i hme
        cases hs
        have hsw : SelfWait ((s.setNode i { s.node i with handle := false }).setTh t { th with own := upd th.own i (th.own i - 1), pc := .wait i false }) i :=
          ⟨t, _, setTh_self ht, by simp only; rw [hwf, hme], rfl⟩
        refine JInv.move (th' := { th with own := upd th.own i (th.own i - 1), pc := .wait i false }) h ht rfl rfl ?_ ?_ ?_ ?_ ?_ ?_ ?_ ?_ ?_
        · intro j; simp only [State.setTh, State.setNode, upd]; (try split) <;> simp_all
        · intro j; simp only [State.setTh, State.setNode, upd]; (try split) <;> simp_all
        · intro j hj
          by_cases hji : j = i
          · subst hji; exact .inr (.inr (.inl hsw))
          · simp only [State.setTh, State.setNode, upd, if_neg hji]; exact .inl hj
        · intro j; simp only [wt, upd, PC.wt, hpc]; grind
        · intro j; simp [hpc]
        · intro j _ hj; cases hj; exact .inr hsw
        · intro j; simp only [State.setTh, State.setNode, upd]; (try split) <;> simp_all
        · intro u j k; simp [no_asyncs_access, no_asyncs_accessThr]
        · apply WaitJoins.append h.joins; intro u j; simp [no_waited_access, no_waited_accessThr]
      · split at hs <;> cases hs
        · jmove h ht [hpc]
        · rename_i hh
          have hx := h.handle t th i ht hk.2 (.inl (by simp only [wt]; omega))
          refine JInv.move (th' := { th with own := upd th.own i (th.own i - 1), pc := .wait i false }) h ht rfl rfl (fun _ => rfl) (fun _ => id) (fun _ => .inl) ?_ ?_ ?_ (fun _ => .inl) ?_ ?_
          · intro j; simp only [wt, upd, PC.wt, hpc]; grind
          · intro j; simp [hpc]
          · intro j _ hj
            cases hj
            rcases hx with hx | hx | ⟨u, x, hu, hfx, hpx⟩
            · exact absurd hx hh
            · exact .inl hx
            · refine .inr ⟨u, x, ?_, hfx, hpx⟩
              simp only [State.setTh]
              rw [getElem?_set_eq ht]
              split
              · rename_i htu; subst htu; rw [ht] at hu; cases hu; rw [hpc] at hpx; cases hpx
              · exact hu
          · intro u j k; simp [no_asyncs_access, no_asyncs_accessThr]
          · apply WaitJoins.append h.joins; intro u j; simp [no_waited_access, no_waited_accessThr]
    · rename_i hk
      cases hs
      jmove h ht [hpc]
  | get i =>
    simp only [stepOp] at hs
    split at hs <;> cases hs
    rename_i hown
    jmove h ht [hpc]
  | poll i =>
    simp only [stepOp] at hs
    split at hs <;> cases hs
    exact ⟨h.handle, h.waiting, fun i a => List.mem_append_left _ (h.exit i a), fun u j k hm => h.kind u j k (by simpa [no_asyncs_access] using hm),
      h.joins.append (by simp [no_waited_access])⟩

theorem none_of_dead {T : K → Nat} {used : Prop} {d : Node} {c : Call} (h : Ok T used d c) (hr : d.refs = 0) : T .fut = 0 ∧ T .ret = 0 := by
  have := h.refs; omega

set_option maxHeartbeats 2000000 in
theorem stepGo_join {s s' : State} {t : Nat} {th : Thread} {σ : Nat → Call} {hist es : List Event} (hi : Inv s σ) (h : JInv s hist) (ht : s.th[t]? = some th)
    (hs : stepGo .blocking s t th = some (s', es)) : JInv s' (hist ++ es) := by
  simp only [stepGo] at hs
  split at hs
  · cases hs
  · rename_i i hpc
    have hwi : 0 < wt .start i th := by simp [wt, PC.wt, hpc]
    simp only [Option.some.injEq, Prod.mk.injEq] at hs
    obtain ⟨rfl, rfl⟩ := hs
    have hget : ∀ (u : Nat) (x : Thread), (s.th.set t { th with pc := .ret i } ++ [{ me := some i, pc := .ready i }])[u]? = some x →
        (u = t ∧ x = { th with pc := .ret i }) ∨ s.th[u]? = some x ∨ x = { me := some i, pc := .ready i } := by
      intro u x hxu
      rw [List.getElem?_append] at hxu
      split at hxu
      · rw [getElem?_set_eq ht] at hxu
        split at hxu
        · rename_i htu; cases hxu; exact .inl ⟨htu.symm, rfl⟩
        · exact .inr (.inl hxu)
      · rename_i hlen
        generalize u - (s.th.set t { th with pc := .ret i }).length = v at hxu
        cases v with
        | zero => simp only [List.getElem?_cons_zero, Option.some.injEq] at hxu; exact .inr (.inr hxu.symm)
        | succ v => simp at hxu
    have hsw : ∀ (nd : Nat → Node) (j : Nat), SelfWait s j → SelfWait { s with node := nd, th := s.th.set t { th with pc := .ret i } ++ [{ me := some i, pc := .ready i }] } j := by
      rintro nd j ⟨u, x, hu, hf, hp⟩
      refine ⟨u, x, ?_, hf, hp⟩
      rw [List.getElem?_append_left (by rw [List.length_set]; exact lt_of_getElem? hu), getElem?_set_eq ht]
      split
      · rename_i htu; subst htu; rw [ht] at hu; cases hu; rw [hpc] at hp; cases hp
      · exact hu
    constructor
    · intro u x j hu hk hw
      by_cases hj : j = i
      · subst hj
        simp only [upd, if_true] at hk ⊢
        simp [hk]
      · simp only [upd, if_neg hj] at hk ⊢
        rcases hget u x hu with ⟨rfl, rfl⟩ | hu | rfl
        · refine (h.handle u th j ht hk ?_).imp id (.imp id (hsw _ j))
          simp only [wt, PC.wt, hpc, if_neg hj] at hw ⊢; omega
        · exact (h.handle u x j hu hk hw).imp id (.imp id (hsw _ j))
        · simp [wt, PC.wt] at hw
    · intro u x j hu hk hp
      have hk' : (s.node j).kind = .thread := by
        simp only [upd] at hk; split at hk
        · rename_i hj; rw [hj]; exact hk
        · exact hk
      have hx : (s.node j).exit = true ∨ SelfWait s j := by
        rcases hget u x hu with ⟨rfl, rfl⟩ | hu | rfl
        · cases hp
        · exact h.waiting u x j hu hk' hp
        · cases hp
      refine hx.imp (fun hx => ?_) (hsw _ j)
      simp only [upd]; split
      · rename_i hj; rw [← hj]; exact hx
      · exact hx
    · intro j hx
      simp only [upd] at hx
      refine List.mem_append_left _ (h.exit j ?_)
      split at hx
      · rename_i hj; rw [hj]; exact hx
      · exact hx
    · intro u j k hm
      have := h.kind u j k (by simpa [no_asyncs_access] using hm)
      refine ⟨?_, this.2⟩
      simp only [upd]; split
      · rename_i hj; rw [← hj]; exact this.1
      · exact this.1
    · exact h.joins.append (by simp [no_waited_access])
  · rename_i i hpc
    cases hs
    jmove h ht [hpc]
  · rename_i i w hpc
    split at hs <;> cases hs
    · refine JInv.move (th' := { th with pc := .dtor i w }) h ht rfl rfl ?_ ?_ ?_ ?_ ?_ ?_ ?_ ?_ ?_
      · intro j; simp only [State.setTh, State.setNode, upd]; (try split) <;> simp_all
      · intro j; simp only [State.setTh, State.setNode, upd]; (try split) <;> simp_all
      · intro j; simp only [State.setTh, State.setNode, upd]; (try split) <;> simp_all
      · intro j; cases w <;> simp only [wt, upd, PC.wt, hpc] <;> grind
      · intro j; simp [hpc]
      · intro j; simp
      · intro j; simp only [State.setTh, State.setNode, upd]; (try split) <;> simp_all
      · intro u j k; simp [no_asyncs_access, no_asyncs_accessThr]
      · apply WaitJoins.append h.joins; intro u j; simp [no_waited_access, no_waited_accessThr]
    · exact finished_join h ht (.inl hpc) ⟨rfl, rfl, .inl rfl⟩ fun e he => access_thread he
  · rename_i i w hpc
    have hd : s' = (destroy s t th i w).1 ∧ es = (destroy s t th i w).2 := by
      have := stepDtor_destroy hs
      rw [← this]; exact ⟨rfl, rfl⟩
    obtain ⟨rfl, rfl⟩ := hd
    have hr : (s.node i).refs = 0 := by
      have h1 := (hi.ok i).live
      have : 0 < tot (wt .dtorD i) s.th + tot (wt .dtorU i) s.th + tot (wt .dtorW i) s.th := by
        have a := le_tot (wt .dtorD i) ht
        have b := le_tot (wt .dtorU i) ht
        have c := le_tot (wt .dtorW i) ht
        cases w <;> simp [wt, PC.wt, hpc] at a b c <;> omega
      by_cases h0 : (s.node i).refs = 0
      · exact h0
      · have := h1 h0; omega
    have hz := none_of_dead (hi.ok i) hr
    have := finished_join (d := { s.node i with dead := true, handle := false }) (es := access s i ++ [.destroyed i]) h ht (.inr hpc)
      ⟨rfl, rfl, .inr fun u x hx => ⟨tot_zero _ hz.1 hx, tot_zero _ hz.2 hx⟩⟩ (by
        intro e he
        simp only [List.mem_append, List.mem_singleton] at he
        rcases he with he | he
        · exact access_thread he
        · subst he; rfl)
    simp only [destroy]
    simpa using this
  · rename_i i hpc
    split at hs <;> cases hs
    jmove h ht [hpc]
  · rename_i i g hpc
    split at hs <;> cases hs
    rename_i o ho
    have hnf : ∀ (u : Nat) (x : Thread), s.th[u]? = some x → x.fn ≠ some i := by
      intro u x hx hf
      have h1 := (hi.ok i).ended o ((hi.ok i).out o ho)
      have h2 := tot_zero (wt .fn i) (by omega) hx
      simp [wt, hf] at h2
    have hself : ∀ j, th.fn = some j → th.pc ≠ .wait j false := by
      intro j hf hp
      rw [hpc] at hp
      cases hp
      exact hnf t th ht hf
    cases g with
    | true => jmove h ht [hpc]
    | false =>
      refine JInv.move (th' := { th with own := upd th.own i (th.own i + 1), pc := .idle }) h ht rfl rfl ?_ ?_ ?_ ?_ ?_ ?_ ?_ ?_ ?_
      · intro j; rfl
      · intro j; exact id
      · intro j; exact .inl
      · intro j; simp only [wt, upd, PC.wt, hpc]; grind
      · exact hself
      · intro j; simp
      · intro j; exact .inl
      · intro u j k; simp [no_asyncs_access]
      · rw [← List.append_assoc]
        simp only [Bool.false_eq_true, if_false]
        apply WaitJoins.waited (h.joins.append (no_waited_access s i))
        intro u hm
        have hm' : .asyncs u i .thread ∈ hist := by simpa [no_asyncs_access] using hm
        rcases h.waiting t th i ht (h.kind u i _ hm').1 hpc with hx | ⟨u, x, hu, hf, -⟩
        · exact List.mem_append_left _ (h.exit i hx)
        · exact absurd hf (hnf u x hu)
  · rename_i i hpc
    cases hs
    have hme : th.me = some i := by have := hi.wf t th ht; simp only [Wf, hpc] at this; exact this.2
    refine JInv.move (th' := { th with fn := some i, pc := .idle }) h ht rfl rfl (fun _ => rfl) (fun _ => id) (fun _ => .inl) ?_ ?_ ?_ (fun _ => .inl) ?_ ?_
    · intro j; simp only [wt, upd, PC.wt, hpc]; grind
    · intro j; simp [hpc]
    · intro j; simp
    · intro u j k; simp
    · exact h.joins.append (by simp)
  · rename_i i o hpc
    cases hs
    jmove h ht [hpc]
  · rename_i i hpc
    cases hs
    refine JInv.move (th' := { th with pc := .gone i }) h ht rfl rfl ?_ ?_ ?_ ?_ ?_ ?_ ?_ ?_ ?_
    · intro j; simp only [State.setTh, State.setNode, upd]; (try split) <;> simp_all
    · intro j; simp only [State.setTh, State.setNode, upd]; (try split) <;> simp_all
    · intro j; simp only [State.setTh, State.setNode, upd]; (try split) <;> simp_all
    · intro j; simp only [wt, upd, PC.wt, hpc]; grind
    · intro j; simp [hpc]
    · intro j; simp
    · intro j; simp only [State.setTh, State.setNode, upd]; (try split) <;> simp_all
    · intro u j k; simp
    · exact h.joins.append (by simp)
  · cases hs

theorem step_join {s s' : State} {l : Label} {σ : Nat → Call} {hist es : List Event} (hi : Inv s σ) (h : JInv s hist) (hs : step .blocking s l = some (s', es)) :
    JInv s' (hist ++ es) := by
  cases l with
  | op t o =>
    simp only [step] at hs
    split at hs
    · cases hs
    rename_i th ht
    split at hs
    · rename_i hf; exact stepOp_join hi h ht hf hs
    · cases hs
  | go t =>
    simp only [step] at hs
    split at hs
    · cases hs
    rename_i th ht
    exact stepGo_join hi h ht hs
  | fail t =>
    simp only [step, stepFail] at hs
    split at hs
    · cases hs
    rename_i th ht
    split at hs <;> cases hs
    rename_i i hpc
    jmove h ht [hpc]
  | discard t =>
    simp only [step, stepDiscard] at hs
    split at hs
    · cases hs
    rename_i th ht
    split at hs
    rotate_left
    · cases hs
    rename_i i hpc
    split at hs <;> cases hs
    jmove h ht [hpc]
  | finish t o =>
    simp only [step, stepFinish] at hs
    split at hs
    · cases hs
    rename_i th ht
    split at hs <;> cases hs
    rename_i i hpc hfn
    jmove h ht [hpc]

theorem follows_state {R : (Nat → Call) → Prop} {σ : Nat → Call} {es : List Event} (h : Follows next R σ es) : ∃ σ', R σ' := by
  induction es generalizing σ with
  | nil => exact ⟨σ, h⟩
  | cons e es ih =>
    simp only [Follows] at h
    cases hn : next σ e with
    | ok σ' => simp only [hn] at h; exact ih h
    | undefined => exfalso; revert hn; cases e <;> simp only [next] <;> (try split) <;> simp
    | illegal => simp [hn] at h

theorem reach_join {k : Nat} {ls : List Label} {s : State} {es : List Event} (h : run (step .blocking) (init k) ls = some (s, es)) : JInv s es := by
  have := run_inv_hist (step := step .blocking) (fun s hist => (∃ σ, Inv s σ) ∧ JInv s hist)
    (fun s l s' hist es h hs => by
      obtain ⟨⟨σ, hi⟩, hj⟩ := h
      exact ⟨follows_state (step_ok hi hs), step_join hi hj hs⟩) (hist := []) ⟨⟨start, Inv.init k⟩, JInv.init k⟩ h
  simpa using this.2

end Verif.Async
