import Verif.WinCondVar.Rel
/-! # The Windows condition variable: every step keeps the invariant -/

set_option linter.unusedSimpArgs false

namespace Verif.WinCondVar

variable {M : Nat}

theorem beq_false {g h : Nat} (hh : ¬ h = g) : (g == h) = false := by simpa using fun h' => hh h'.symm

theorem lock_follows {s : State} {q : Book} {t : Nat} (R : Rel s q) (hm : s.mutex = none) :
    Follows specNext (Rel { s with mutex := some t }) q [.locked t] := by
  refine follows_ok (q' := { q with owner := some t }) (by simp [specNext, must, R.owner, hm]) (mutex_follows R _ ?_)
  intro u y g hy hp
  have := R.thread u y hy
  simp [ThreadOk, hp, hm] at this

theorem unlock_follows {s : State} {q : Book} {t : Nat} {x : Thread} (R : Rel s q) (hx : s.ts[t]? = some x) (hp : x.pc = .idle) (hm : s.mutex = some t) :
    Follows specNext (Rel { s with mutex := none }) q [.unlocked t] := by
  refine follows_ok (q' := { q with owner := none }) (by simp [specNext, must, R.owner, hm]) (mutex_follows R _ ?_)
  intro u y g hy hp'
  have := R.thread u y hy
  simp [ThreadOk, hp', hm] at this
  rw [this.1, hy] at hx; cases hx; rw [hp] at hp'; cases hp'

theorem release_follows {s : State} {q : Book} {t g : Nat} {x : Thread} (R : Rel s q) (hx : s.ts[t]? = some x) (hp : x.pc = .holding g) :
    Follows specNext (Rel { s.pc t x (.sem g) with mutex := none }) q [.released t] := by
  have hok := R.thread t x hx
  obtain ⟨pc, timed⟩ := x
  simp only at hp; subst hp
  obtain ⟨hm, hin⟩ := hok
  refine follows_ok (q' := { q with owner := none }) (by simp [specNext, must, R.owner, hm, hin.inside]) ?_
  simp only [State.pc]
  refine Rel.move R hx rfl rfl (fun _ => rfl) (fun _ => rfl) (fun _ => Nat.le_refl _) (fun _ => rfl) (fun _ => Nat.le_refl _) (fun _ => Nat.le_refl _)
    (fun _ _ => Or.inl (Nat.le_refl _)) (fun _ => Nat.le_refl _) (fun _ _ _ => Nat.le_refl _) ?_ ?_ (Or.inl ?_)
  · have hc : cnt (Thread.has g) (s.ts.set t ⟨.sem g, timed⟩) = cnt (Thread.has g) s.ts := by
      have := cnt_set (Thread.has g) ⟨.sem g, timed⟩ hx
      simpa [Thread.has] using this
    obtain ⟨h1, h2, h3, h4, h5, h6, h7⟩ := hin
    exact ⟨h1, h2, h3, h4, h5, h6, fun hg => by simp only [hc]; exact h7 hg⟩
  · intro u y h hut hy hp'
    have := R.thread u y hy
    simp [ThreadOk, hp', hm] at this
    exact absurd this.1.symm hut
  · intro u hu
    exact ⟨rfl, fun g hg h1 h2 => ⟨h1, by simp only [Thread.has, b2n_false]; omega⟩⟩

theorem pass_follows {s : State} {q : Book} {t g : Nat} {x : Thread} (R : Rel s q) (hx : s.ts[t]? = some x) (hp : x.pc = .sem g) (hs : (s.ent g).sem ≠ 0) :
    Rel { s.pc t x (.try_ g) with ent := upd s.ent g { s.ent g with sem := (s.ent g).sem - 1 } } q := by
  have hok := R.thread t x hx
  obtain ⟨pc, timed⟩ := x
  simp only at hp; subst hp
  simp only [ThreadOk] at hok
  simp only [State.pc]
  refine Rel.move R hx R.owner rfl ?_ ?_ ?_ ?_ ?_ (fun _ => Nat.le_refl _) ?_ (fun _ => Nat.le_refl _) ?_ ?_ (fun _ _ _ _ _ _ => rfl) (Or.inl ?_)
  · intro h; simp only [upd_apply]; split <;> simp_all
  · intro h; simp only [upd_apply]; split <;> simp_all
  · intro h; simp only [upd_apply]; split <;> simp_all
  · intro h; simp only [upd_apply]; split <;> simp_all [Thread.mem]
  · intro h; simp [Thread.mem]
  · intro h _; left; simp only [upd_apply, Thread.inG, Thread.has]; split <;> simp_all <;> omega
  · intro h _ _; simp only [upd_apply, Thread.wants]; split <;> simp_all <;> omega
  · have hc := cnt_set (Thread.has g) ⟨.try_ g, timed⟩ hx
    simp only [Thread.has, b2n_false, beq_self_eq_true, b2n_true] at hc
    obtain ⟨h1, h2, h3, h4, h5, h6, h7⟩ := hok
    have h4 : (q.ph t).noted = true := by rcases h4 with h4 | h4; exact h4; exact absurd h4 hs
    refine ⟨⟨h1, h2, h3, Or.inl h4, ?_, ?_, ?_⟩, h4⟩
    · simpa using h5
    · simpa using h6
    · intro hg
      have := h7 hg
      simp only [upd_apply, if_true]
      omega
  · intro u hu
    refine ⟨rfl, fun h hg h1 h2 => ⟨h1, ?_⟩⟩
    simp only [upd_apply, Thread.has, b2n_false]
    split
    · rename_i hh; subst hh; simp; omega
    · simp [*]; omega

theorem quit_follows {s : State} {q : Book} {t g : Nat} {x : Thread} {o : Outcome} (R : Rel s q) (hx : s.ts[t]? = some x) (hp : x.pc = .sem g)
    (ho : o = .interrupted ∨ (o = .timeout ∧ x.timed = true)) : Rel (s.pc t x (.remove g o)) q := by
  have hok := R.thread t x hx
  obtain ⟨pc, timed⟩ := x
  simp only at hp; subst hp
  simp only [ThreadOk] at hok
  simp only [State.pc]
  refine Rel.move R hx R.owner rfl (fun _ => rfl) (fun _ => rfl) (fun _ => Nat.le_refl _) (fun _ => rfl) (fun _ => Nat.le_refl _) (fun _ => Nat.le_refl _)
    ?_ ?_ ?_ ?_ (fun _ _ _ _ _ _ => rfl) (Or.inl ?_)
  · intro h _; left; simp [Thread.inG, Thread.has]
  · intro h; simp [Thread.inE]
  · intro h; simp [Thread.wants]
  · refine ⟨hok.lt, ?_⟩
    rcases ho with rfl | ⟨rfl, h⟩
    · exact hok.inside
    · simp only at h; simp only [Phase.ends, hok.timed, h]
  · intro u hu
    refine ⟨rfl, fun h hg h1 h2 => ⟨h1, ?_⟩⟩
    simp only [Thread.has, b2n_false]; omega

theorem fail_follows {s : State} {q : Book} {t g : Nat} {x : Thread} (R : Rel s q) (hx : s.ts[t]? = some x) (hp : x.pc = .try_ g)
    (hw : s.wake (s.ent g).epoch = 0) : Rel (s.pc t x (.sem g)) q := by
  have hok := R.thread t x hx
  have hin : x.inE s.ent (s.ent g).epoch = true := inG_inE (by simp [Thread.inG, hp])
  have hcur : s.cur = some (s.ent g).epoch := by
    apply Classical.byContradiction
    intro hc
    have hlt : g < s.ents := by simp only [ThreadOk, hp] at hok; exact hok.1.lt
    have h1 := R.oldWake _ (R.epoch g hlt) hc
    have h2 := cnt_pos hx hin
    omega
  obtain ⟨pc, timed⟩ := x
  simp only at hp; subst hp
  simp only [ThreadOk] at hok
  have hc := cnt_set (Thread.has g) ⟨.sem g, timed⟩ hx
  simp only [Thread.has, b2n_false, beq_self_eq_true, b2n_true] at hc
  obtain ⟨⟨h1, h2, h3, h4, h5, h6, h7⟩, h8⟩ := hok
  simp only [State.pc]
  refine Rel.move R hx R.owner rfl (fun _ => rfl) (fun _ => rfl) (fun _ => Nat.le_refl _) (fun _ => rfl) (fun _ => Nat.le_refl _) (fun _ => Nat.le_refl _)
    ?_ ?_ ?_ ?_ (fun _ _ _ _ _ _ => rfl) (Or.inl ?_)
  · intro h _
    by_cases hh : h = g
    · subst hh; right; exact ⟨hw, by simp [Thread.inG]⟩
    · left; simp [Thread.inG, Thread.has, beq_false hh]
  · intro h; simp [Thread.inE]
  · intro h _ hh
    have : ¬ g = h := by rintro rfl; exact hh hcur
    simp [Thread.wants, beq_false (Ne.symm this)]
  · refine ⟨h1, h2, h3, h4, h5, h6, ?_⟩
    intro hg
    have := h6 hg
    simp only; omega
  · intro u hu
    refine ⟨rfl, fun h hg i1 i2 => ⟨i1, ?_⟩⟩
    by_cases hh : h = g
    · subst hh; simp only [Thread.has, beq_self_eq_true, b2n_true, b2n_false]
      have := cnt_pos (f := Thread.has h) hx (by simp [Thread.has])
      omega
    · simp [Thread.has, beq_false hh]; omega

theorem woke_follows {s : State} {q : Book} {t g : Nat} {x : Thread} (R : Rel s q) (hx : s.ts[t]? = some x) (hp : x.pc = .try_ g)
    (hw : s.wake (s.ent g).epoch ≠ 0) :
    Follows specNext (Rel { s.pc t x (.remove g .notified) with wake := upd s.wake (s.ent g).epoch (s.wake (s.ent g).epoch - 1) }) q [.woke t] := by
  have hok := R.thread t x hx
  obtain ⟨pc, timed⟩ := x
  simp only at hp; subst hp
  simp only [ThreadOk] at hok
  refine follows_ok (q' := { q with ph := fun u => if u = t then .woken else (q.ph u).sawWake }) (by simp [specNext, must, hok.2]) ?_
  simp only [State.pc]
  refine Rel.move R hx R.owner rfl (fun _ => rfl) (fun _ => rfl) (fun _ => Nat.le_refl _) (fun _ => rfl) (fun _ => Nat.le_refl _) ?_
    ?_ ?_ ?_ ?_ (fun _ _ _ _ _ _ => rfl) (Or.inr ?_)
  · intro e; simp only [upd_apply]; split <;> simp_all
  · intro h _; left; by_cases hh : h = g <;> simp [Thread.inG, Thread.has, hh, beq_false]; omega
  · intro e; simp only [upd_apply, Thread.inE, b2n_false]; split
    · rename_i hh; subst hh; simp; omega
    · rename_i hh; simp [beq_false hh]
  · intro h _ _; simp [Thread.wants]
  · exact ⟨hok.1.lt, by simp [Phase.ends]⟩
  · intro u hu
    refine ⟨by simp [hu], fun h => ⟨?_, ?_⟩⟩
    · have := b2n_le (Thread.has h ⟨.try_ g, timed⟩); omega
    · simp only [upd_apply]; split
      · rename_i hh; rw [hh]; omega
      · omega

theorem remove_follows {s : State} {q : Book} {t g : Nat} {x : Thread} {o : Outcome} (R : Rel s q) (hx : s.ts[t]? = some x) (hp : x.pc = .remove g o) :
    Rel { s.pc t x (.relock o) with ent := upd s.ent g { s.ent g with waiters := (s.ent g).waiters - 1 } } q := by
  have hok := R.thread t x hx
  have hpos : 0 < cnt (Thread.mem g) s.ts := cnt_pos hx (by simp [Thread.mem, hp])
  obtain ⟨pc, timed⟩ := x
  simp only at hp; subst hp
  simp only [ThreadOk] at hok
  have hw := R.waiters g hok.1
  simp only [State.pc]
  refine Rel.move R hx R.owner rfl ?_ ?_ ?_ ?_ ?_ (fun _ => Nat.le_refl _) ?_ (fun _ => Nat.le_refl _) ?_ ?_ (fun _ _ _ _ _ _ => rfl) (Or.inl ?_)
  · intro h; simp only [upd_apply]; split <;> simp_all
  · intro h; simp only [upd_apply]; split <;> simp_all
  · intro h; simp only [upd_apply]; split <;> simp_all
  · intro h; simp only [upd_apply, Thread.mem, b2n_false]; split
    · rename_i hh; subst hh; simp; omega
    · rename_i hh; simp [beq_false hh]
  · intro h; simp [Thread.mem]
  · intro h _; left; simp only [upd_apply, Thread.inG, Thread.has, b2n_false]; split <;> simp_all
  · intro h _ _; simp only [upd_apply, Thread.wants]; split <;> simp_all
  · exact hok.2
  · intro u hu
    refine ⟨rfl, fun h hg h1 h2 => ⟨h1, ?_⟩⟩
    simp only [upd_apply, Thread.has, b2n_false]
    split
    · rename_i hh; subst hh; simp; omega
    · omega

theorem relock_follows {s : State} {q : Book} {t : Nat} {x : Thread} {o : Outcome} (R : Rel s q) (hx : s.ts[t]? = some x) (hp : x.pc = .relock o)
    (hm : s.mutex = none) : Follows specNext (Rel { s.pc t x .idle with mutex := some t }) q [.returned t o] := by
  have hok := R.thread t x hx
  obtain ⟨pc, timed⟩ := x
  simp only at hp; subst hp
  simp only [ThreadOk] at hok
  refine follows_ok (q' := { q.set t .away with owner := some t }) (by simp [specNext, must, R.owner, hm, hok]) ?_
  simp only [State.pc]
  refine Rel.move R hx rfl rfl (fun _ => rfl) (fun _ => rfl) (fun _ => Nat.le_refl _) (fun _ => rfl) (fun _ => Nat.le_refl _) (fun _ => Nat.le_refl _)
    (fun _ _ => Or.inl (Nat.le_refl _)) (fun _ => Nat.le_refl _) (fun _ _ _ => Nat.le_refl _) ?_ ?_ (Or.inl ?_)
  · simp [ThreadOk, Book.set]
  · intro u y h hut hy hp'
    have := R.thread u y hy
    simp [ThreadOk, hp', hm] at this
  · intro u hu
    exact ⟨by simp [Book.set, hu], fun g hg h1 h2 => ⟨h1, by simp only [Thread.has, b2n_false]; omega⟩⟩

/-- A thread goes in or out of a notify function. -/
theorem idle_follows {s : State} {q : Book} {t : Nat} {x : Thread} {p : PC} (R : Rel s q) (hx : s.ts[t]? = some x)
    (hp : x.pc = .idle ∨ ∃ a, x.pc = .acting a) (hp' : p = .idle ∨ ∃ a, p = .acting a) : Rel (s.pc t x p) q := by
  have hok := R.thread t x hx
  have hph : q.ph t = .away := by
    rcases hp with hp | ⟨a, hp⟩ <;> simpa only [ThreadOk, hp] using hok
  obtain ⟨pc, timed⟩ := x
  have h1 : ∀ g, Thread.mem g ⟨p, timed⟩ = Thread.mem g ⟨pc, timed⟩ := by
    intro g; rcases hp with hp | ⟨a, hp⟩ <;> rcases hp' with hp' | ⟨a', hp'⟩ <;> simp only at hp <;> subst hp <;> subst hp' <;> rfl
  have h2 : ∀ g, Thread.inG g ⟨p, timed⟩ = Thread.inG g ⟨pc, timed⟩ := by
    intro g; rcases hp with hp | ⟨a, hp⟩ <;> rcases hp' with hp' | ⟨a', hp'⟩ <;> simp only at hp <;> subst hp <;> subst hp' <;> rfl
  have h3 : ∀ g, Thread.has g ⟨p, timed⟩ = Thread.has g ⟨pc, timed⟩ := by
    intro g; rcases hp with hp | ⟨a, hp⟩ <;> rcases hp' with hp' | ⟨a', hp'⟩ <;> simp only at hp <;> subst hp <;> subst hp' <;> rfl
  have h4 : ∀ g, Thread.wants g ⟨p, timed⟩ = Thread.wants g ⟨pc, timed⟩ := by
    intro g; rcases hp with hp | ⟨a, hp⟩ <;> rcases hp' with hp' | ⟨a', hp'⟩ <;> simp only at hp <;> subst hp <;> subst hp' <;> rfl
  have h5 : ∀ e, Thread.inE s.ent e ⟨p, timed⟩ = Thread.inE s.ent e ⟨pc, timed⟩ := by
    intro g; rcases hp with hp | ⟨a, hp⟩ <;> rcases hp' with hp' | ⟨a', hp'⟩ <;> simp only at hp <;> subst hp <;> subst hp' <;> rfl
  simp only [State.pc]
  refine Rel.move (x' := ⟨p, timed⟩) R hx R.owner rfl (fun _ => rfl) (fun _ => rfl) (fun _ => Nat.le_refl _) (fun g => by rw [h1]) (fun g => by rw [h1]; exact Nat.le_refl _)
    (fun _ => Nat.le_refl _) (fun g _ => Or.inl (by rw [h2, h3]; exact Nat.le_refl _)) (fun e => by rw [h5]; exact Nat.le_refl _)
    (fun g _ _ => by rw [h4]; exact Nat.le_refl _) ?_ (fun _ _ _ _ _ _ => rfl) (Or.inl ?_)
  · rcases hp' with hp' | ⟨a', hp'⟩ <;> subst hp' <;> simpa [ThreadOk] using hph
  · intro u hu
    exact ⟨rfl, fun g hg i1 i2 => ⟨i1, by rw [h3]; omega⟩⟩

end Verif.WinCondVar
