import Verif.Thread.Sim
/-!
# Facts about histories, and the end of a join
-/

set_option linter.unusedSimpArgs false

namespace Verif.Thread

/-- The event joins or detaches thread `t` at the operating system. -/
def Event.releases (t : Nat) : Event → Bool
  | .natJoin _ u => u == t
  | .natDetach _ u => u == t
  | _ => false

def Event.sees (t : Nat) : Event → Bool
  | .joinOk _ _ u => u == t
  | _ => false

theorem spec_fin {strict : Bool} {cfg : Cfg} {t : Nat} {es : List Event} {σ σ' : Sys} (h : specState (next strict cfg) σ es = some σ')
    (hf : (σ'.thr t).fin = true) : (σ.thr t).fin = true ∨ .fin t ∈ es := by
  induction es generalizing σ with
  | nil => simp only [specState, Option.some.injEq] at h; subst h; exact .inl hf
  | cons e es ih =>
    simp only [specState] at h
    cases hn : next strict cfg σ e with
    | undefined => simp [hn] at h
    | illegal => simp [hn] at h
    | ok m =>
      simp only [hn] at h
      rcases ih h with h1 | h1
      · clear h ih
        cases e <;> simp only [next, Sys.setCall] at hn <;> (try split at hn) <;> (try split at hn) <;> (try cases hn) <;> (try simp only [upd_apply] at h1) <;> grind
      · exact .inr (List.mem_cons_of_mem _ h1)

theorem client_false (cfg : Cfg) (σ : Sys) (es : List Event) : ClientOk (next false cfg) σ es := by
  induction es generalizing σ with
  | nil => trivial
  | cons e es ih =>
    simp only [ClientOk]
    split
    · exact ih _
    · rename_i h
      cases e <;> simp only [next, Bool.false_and, Bool.false_eq_true, if_false] at h <;> (try split at h) <;> (try split at h) <;> cases h
    · trivial

/-- What the specification knows about threads not yet started. -/
def Fresh (σ : Sys) : Prop := ∀ t, σ.n ≤ t → (σ.thr t).fin = false ∧ (σ.thr t).ok = false

theorem spec_fresh {strict : Bool} {cfg : Cfg} {σ m : Sys} {e : Event} (hF : Fresh σ) (hn : next strict cfg σ e = .ok m) : Fresh m := by
  intro t ht
  have h0 := hF t
  cases e <;> simp only [next, Sys.setCall] at hn <;> (try split at hn) <;> (try split at hn) <;> (try cases hn) <;> (try simp only [upd_apply] at ht ⊢) <;> grind

theorem spec_sees {cfg : Cfg} {t : Nat} {es : List Event} {σ σ' : Sys} (hF : Fresh σ) (h : specState (next true cfg) σ es = some σ') :
    es.countP (·.sees t) + (if (σ.thr t).ok then 1 else 0) ≤ 1 := by
  induction es generalizing σ with
  | nil => simp only [List.countP_nil]; split <;> omega
  | cons e es ih =>
    simp only [specState] at h
    cases hn : next true cfg σ e with
    | undefined => simp [hn] at h
    | illegal => simp [hn] at h
    | ok m =>
      simp only [hn] at h
      have h1 := ih (spec_fresh hF hn) h
      rw [List.countP_cons]
      have key : (if Event.sees t e = true then 1 else 0) + (if (σ.thr t).ok = true then 1 else 0) ≤ (if (m.thr t).ok = true then 1 else 0) := by
        have h0 := hF t
        clear h ih h1
        cases e <;> simp only [next, Sys.setCall] at hn <;> (try split at hn) <;> (try split at hn) <;> (try cases hn) <;> (try simp only [upd_apply, Event.sees]) <;> grind
      omega

theorem releases_step {cfg : Cfg} {s s' : State} {l : Label} {t : Nat} {es : List Event} (hI : Inv s) (hs : step cfg s l = some (s', es)) :
    es.countP (·.releases t) + (if (s.thr t).native then 1 else 0) ≤ (if (s'.thr t).native then 1 else 0) := by
  have hok := hI.ok
  have hns := hI.ns
  have hfr := hI.fresh s.n (Nat.le_refl _)
  simp only [step] at hs
  split at hs
  · cases hs
  · cases l with
    | call c op => cases op <;> simp only [call] at hs <;> (repeat' split at hs) <;> (try cases hs) <;> (try simp only [setPc_thr, notify_thr, upd_apply, List.countP_cons, List.countP_nil, List.countP_append, Event.releases]) <;> grind
    | go c =>
      have := hok c
      cases hp : (s.thr c).pc <;> simp only [go, hp, detachBody, PcOk, eval, afterDone] at hs this <;> (repeat' split at hs) <;> (try cases hs) <;> (try simp only [setPc_thr, notify_thr, upd_apply, List.countP_cons, List.countP_nil, List.countP_append, Event.releases]) <;> grind
    | spurious c => simp only [eval, afterDone] at hs; (repeat' split at hs) <;> (try cases hs) <;> (try simp only [setPc_thr, notify_thr, upd_apply, List.countP_cons, List.countP_nil, List.countP_append, Event.releases]) <;> grind
    | timeout c => simp only [afterDone] at hs; (repeat' split at hs) <;> (try cases hs) <;> (try simp only [setPc_thr, notify_thr, upd_apply, List.countP_cons, List.countP_nil, List.countP_append, Event.releases]) <;> grind
    | interrupt c => simp only at hs; (repeat' split at hs) <;> (try cases hs) <;> (try simp only [setPc_thr, notify_thr, upd_apply, List.countP_cons, List.countP_nil, List.countP_append, Event.releases]) <;> grind
    | ret c => simp only at hs; (repeat' split at hs) <;> (try cases hs) <;> (try simp only [setPc_thr, notify_thr, upd_apply, List.countP_cons, List.countP_nil, List.countP_append, Event.releases]) <;> grind
    | setDone c => simp only at hs; (repeat' split at hs) <;> (try cases hs) <;> (try simp only [setPc_thr, notify_thr, upd_apply, List.countP_cons, List.countP_nil, List.countP_append, Event.releases]) <;> grind
    | exit c => simp only at hs; (repeat' split at hs) <;> (try cases hs) <;> (try simp only [setPc_thr, notify_thr, upd_apply, List.countP_cons, List.countP_nil, List.countP_append, Event.releases]) <;> grind

theorem releases_run {cfg : Cfg} {s s' : State} {ls : List Label} {t : Nat} {es : List Event} (hI : Inv s) (hs : run (step cfg) s ls = some (s', es)) :
    es.countP (·.releases t) + (if (s.thr t).native then 1 else 0) ≤ (if (s'.thr t).native then 1 else 0) := by
  induction ls generalizing s es with
  | nil => simp only [run_nil, Option.some.injEq, Prod.mk.injEq] at hs; obtain ⟨rfl, rfl⟩ := hs; simp
  | cons l ls ih =>
    obtain ⟨m, e1, e2, h1, h2, rfl⟩ := run_cons hs
    have := ih (step_inv hI h1) h2
    have := releases_step (t := t) hI h1
    rw [List.countP_append]
    omega

/-! ## The end of a join -/

theorem go_step {cfg : Cfg} {s : State} {c : Nat} (hd : s.dead = false) : step cfg s (.go c) = go s c := by simp [step, hd]

/-- From the point where it resets the pointer, the join returns. -/
theorem fin_returns {cfg : Cfg} {s : State} {c o t : Nat} (hd : s.dead = false) (hp : (s.thr c).pc = .fin o t) :
    ∃ s' es, run (step cfg) s [.go c] = some (s', es) ∧ .joinOk c o t ∈ es := by
  have h : step cfg s (.go c) = some ((if s.objs o = some t then { s with objs := upd s.objs o .none } else s).setPc c .idle, [.joinOk c o t]) := by
    rw [go_step hd]; simp only [go, hp]
  exact ⟨_, _, run_step h rfl, by simp⟩

def Goes (cfg : Cfg) (s : State) (c o t : Nat) : Prop :=
  ∃ ls s' es, (∀ l ∈ ls, ∃ i, l = Label.go i) ∧ run (step cfg) s ls = some (s', es) ∧ .joinOk c o t ∈ es

theorem Goes.step {cfg : Cfg} {s m : State} {c o t i : Nat} {es : List Event} (hs : Thread.step cfg s (.go i) = some (m, es)) (h : Goes cfg m c o t) : Goes cfg s c o t := by
  obtain ⟨ls, s', es', h1, h2, h3⟩ := h
  refine ⟨.go i :: ls, s', es ++ es', ?_, run_step hs h2, by simp [h3]⟩
  intro l hl
  rcases List.mem_cons.1 hl with rfl | hl
  · exact ⟨i, rfl⟩
  · exact h1 l hl

theorem Goes.fin {cfg : Cfg} {s : State} {c o t : Nat} (hd : s.dead = false) (hp : (s.thr c).pc = .fin o t) : Goes cfg s c o t := by
  obtain ⟨s', es, h1, h2⟩ := fin_returns (cfg := cfg) hd hp
  exact ⟨[.go c], s', es, by simp, h1, h2⟩

theorem go_setJ {cfg : Cfg} {s : State} {c o t : Nat} (hd : s.dead = false) (hp : (s.thr c).pc = .setJ o t) :
    step cfg s (.go c) = some (({ s with thr := upd s.thr t { s.thr t with joined := true } }.notify t).setPc c (.fin o t), []) := by
  rw [go_step hd]; simp only [go, hp]

theorem go_nat {cfg : Cfg} {s : State} {c o t : Nat} (hd : s.dead = false) (he : (s.thr t).phase = .exited) (hp : (s.thr c).pc = .nat o t) :
    step cfg s (.go c) = some ({ s with thr := upd s.thr t { s.thr t with native := true } }.setPc c (.setJ o t), [.natJoin c t]) := by
  rw [go_step hd]; simp only [go, hp]; rw [if_pos he]

theorem go_woken {cfg : Cfg} {s : State} {c o t : Nat} (hd : s.dead = false) (hj : (s.thr t).joined = true) (hp : (s.thr c).pc = .wJoined o t true) :
    step cfg s (.go c) = some (s.setPc c (.fin o t), []) := by
  rw [go_step hd]; simp only [go, hp, hj, if_true]

theorem Goes.setJ {cfg : Cfg} {s : State} {c o t : Nat} (hd : s.dead = false) (hp : (s.thr c).pc = .setJ o t) : Goes cfg s c o t := by
  refine Goes.step (go_setJ hd hp) (Goes.fin hd ?_)
  simp [setPc_thr]

theorem Goes.nat {cfg : Cfg} {s : State} {c o t : Nat} (hd : s.dead = false) (he : (s.thr t).phase = .exited) (hp : (s.thr c).pc = .nat o t) : Goes cfg s c o t := by
  refine Goes.step (go_nat hd he hp) (Goes.setJ hd ?_)
  simp [setPc_thr]

/-- Somebody else is joining: it finishes first. -/
theorem Goes.woken {cfg : Cfg} {s : State} {c o t : Nat} (hd : s.dead = false) (hj : (s.thr t).joined = true) (hp : (s.thr c).pc = .wJoined o t true) : Goes cfg s c o t := by
  refine Goes.step (go_woken hd hj hp) (Goes.fin hd ?_)
  simp [setPc_thr]

theorem Goes.otherSetJ {cfg : Cfg} {s : State} {c c' o o' t : Nat} {w : Bool} (hd : s.dead = false) (hp : (s.thr c).pc = .wJoined o t w)
    (hp' : (s.thr c').pc = .setJ o' t) : Goes cfg s c o t := by
  have hne : c ≠ c' := by rintro rfl; rw [hp] at hp'; cases hp'
  refine Goes.step (go_setJ hd hp') (Goes.woken hd ?_ ?_)
  · grind
  · simp only [setPc_thr, notify_thr, upd_apply, hne, if_false]; split
    · rename_i e; subst e; simp [hp, PC.wake]
    · simp [hp, PC.wake]

theorem Goes.wJoined {cfg : Cfg} {s : State} {c o t : Nat} {w : Bool} (hI : Inv s) (hd : s.dead = false) (he : (s.thr t).phase = .exited)
    (hp : (s.thr c).pc = .wJoined o t w) : Goes cfg s c o t := by
  have hok := hI.ok c
  rw [hp] at hok
  simp only [PcOk] at hok
  cases hj : (s.thr t).joined with
  | true =>
    cases w with
    | true => exact Goes.woken hd hj hp
    | false => rw [hok.2.2 rfl] at hj; cases hj
  | false =>
    obtain ⟨c', hc'⟩ := hI.joiner t hok.1 hj
    have hne : c ≠ c' := by rintro rfl; rw [hp] at hc'; cases hc'
    cases hp' : (s.thr c').pc <;> rw [hp'] at hc' <;> simp only [PC.joiner, reduceCtorEq, Option.some.injEq] at hc'
    · subst hc'
      rename_i o' _
      refine Goes.step (go_nat hd he hp') (Goes.otherSetJ (w := w) (c' := c') (o' := o') hd ?_ ?_)
      · simp only [setPc_thr, upd_apply, hne, if_false]; split
        · rename_i e; subst e; exact hp
        · exact hp
      · simp [setPc_thr]
    · subst hc'
      exact Goes.otherSetJ hd hp hp'

theorem Goes.afterDone {cfg : Cfg} {s : State} {c o t : Nat} (hI : Inv (afterDone s c o t)) (hd : s.dead = false) (he : (s.thr t).phase = .exited) :
    Goes cfg (Thread.afterDone s c o t) c o t := by
  revert hI
  simp only [Thread.afterDone]
  split
  · split
    · intro _; exact Goes.fin hd (by simp [setPc_thr])
    · intro hI
      refine Goes.wJoined (w := false) hI hd ?_ (by simp [setPc_thr])
      simp only [setPc_thr]; split <;> simp_all
  · intro _
    refine Goes.nat hd ?_ (by simp [setPc_thr])
    grind

theorem Goes.eval {cfg : Cfg} {s : State} {c o t : Nat} {timed : Bool} (hI : Inv (eval s c o t timed)) (hd : s.dead = false) (he : (s.thr t).phase = .exited) :
    Goes cfg (Thread.eval s c o t timed) c o t := by
  have hD : (s.thr t).isDone = true := by simp [Thr.isDone, he, Phase.rank]
  have e : Thread.eval s c o t timed = Thread.afterDone s c o t := by simp [Thread.eval, hD]
  rw [e] at hI ⊢
  exact Goes.afterDone hI hd he

theorem goes {cfg : Cfg} {s : State} {c o t : Nat} (hI : Inv s) (hd : s.dead = false) (he : (s.thr t).phase = .exited)
    (hp : (s.thr c).pc.joins = some (o, t)) : Goes cfg s c o t := by
  have hok := hI.ok c
  cases h : (s.thr c).pc <;> rw [h] at hp hok <;> simp only [PC.joins, reduceCtorEq, Option.some.injEq, Prod.mk.injEq] at hp
  · obtain ⟨rfl, rfl⟩ := hp
    rename_i o t b
    have hs : Thread.step cfg s (.go c) = some (Thread.eval s c o t b, []) := by rw [go_step hd]; simp only [go, h]
    exact Goes.step hs (Goes.eval (step_inv hI hs) hd he)
  · obtain ⟨rfl, rfl⟩ := hp
    rename_i o t b w
    have hw : w = true := by
      cases w with
      | true => rfl
      | false =>
        have := hok rfl
        simp [Thr.isDone, he, Phase.rank] at this
    subst hw
    have hs : Thread.step cfg s (.go c) = some (Thread.eval s c o t b, []) := by rw [go_step hd]; simp only [go, h, if_true]
    exact Goes.step hs (Goes.eval (step_inv hI hs) hd he)
  · obtain ⟨rfl, rfl⟩ := hp; exact Goes.wJoined hI hd he h
  · obtain ⟨rfl, rfl⟩ := hp; exact Goes.nat hd he h
  · obtain ⟨rfl, rfl⟩ := hp; exact Goes.setJ hd h
  · obtain ⟨rfl, rfl⟩ := hp; exact Goes.fin hd h

end Verif.Thread
