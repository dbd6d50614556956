import Verif.WinCondVar.Sim
/-! # The Windows condition variable: entering and notifying keep the invariant -/

set_option linter.unusedSimpArgs false

namespace Verif.WinCondVar

variable {M : Nat}

@[simp] theorem note_posts (a b : Bool) (p : Phase) : (p.note a b).posts ≤ p.posts + 1 := by
  cases p <;> simp [Phase.note, Phase.posts]; split <;> omega
@[simp] theorem note_wakes (a b : Bool) (p : Phase) : (p.note a b).wakes = p.wakes := by cases p <;> rfl
@[simp] theorem note_inside (a b : Bool) (p : Phase) : (p.note a b).isInside = p.isInside := by cases p <;> rfl
@[simp] theorem note_timed (a b : Bool) (p : Phase) : (p.note a b).timed = p.timed := by cases p <;> rfl
theorem note_noted (a b : Bool) (p : Phase) (h : p.isInside = true) : (p.note a b).noted = true := by cases p <;> simp_all [Phase.note, Phase.noted, Phase.isInside]
theorem note_away (a b : Bool) (p : Phase) (h : p = .away) : p.note a b = .away := by subst h; rfl
theorem note_ends (a b : Bool) (p : Phase) (o : Outcome) (h : p.ends o = true) : (p.note a b).ends o = true := by
  cases p <;> cases o <;> simp_all [Phase.ends, Phase.note, Phase.isInside, Phase.timed]
theorem note_posts_false (a : Bool) (p : Phase) : (p.note a false).posts = p.posts := by cases p <;> simp [Phase.note, Phase.posts]
theorem note_posts_all (b : Bool) (p : Phase) : (p.note true b).posts = p.posts := by cases p <;> simp [Phase.note, Phase.posts]

/-- A thread's facts after a notification. -/
theorem ThreadOk.note {s s' : State} {q : Book} {t : Nat} {x : Thread} {a b : Bool} (h : ThreadOk s q t x) (hm : s'.mutex = s.mutex) (he : s'.ents = s.ents)
    (hin : ∀ g, x.inG g = true → InOk s q t g x → InOk s' { q with ph := fun u => (q.ph u).note a b } t g x) :
    ThreadOk s' { q with ph := fun u => (q.ph u).note a b } t x := by
  obtain ⟨pc, timed⟩ := x
  cases pc <;> simp only [ThreadOk] at h ⊢
  · exact note_away _ _ _ h
  · exact ⟨by rw [hm]; exact h.1, hin _ (by simp [Thread.inG]) h.2⟩
  · exact hin _ (by simp [Thread.inG]) h
  · exact ⟨hin _ (by simp [Thread.inG]) h.1, note_noted _ _ _ h.1.inside⟩
  · exact ⟨by rw [he]; exact h.1, note_ends _ _ _ _ h.2⟩
  · exact note_ends _ _ _ _ h
  · exact note_away _ _ _ h

theorem skip_follows {s : State} {q : Book} {t : Nat} {a : Bool} (R : Rel s q) : Follows specNext (Rel s) q [.notify t a false] := by
  refine follows_ok (q' := { q with ph := fun u => (q.ph u).note a false }) rfl ?_
  obtain ⟨R1, R2, R3, R4, R5, R6, R7, R8, R9, R10⟩ := R
  refine ⟨R1, ?_, R3, R4, R5, R6, R7, R8, R9, R10⟩
  intro u y hy
  refine (R2 u y hy).note rfl rfl ?_
  rintro g - ⟨h1, h2, h3, h4, h5, h6, h7⟩
  exact ⟨h1, by simpa using h2, by simpa using h3, Or.inl (note_noted _ _ _ h2), h5, by simpa [note_posts_false] using h6, by simpa [note_posts_false] using h7⟩

theorem cur_some {s : State} {q : Book} (R : Rel s q) (ht : s.total ≠ 0) : ∃ e, s.cur = some e := by
  cases h : s.cur with
  | none => exact absurd (R.none h) ht
  | some e => exact ⟨e, rfl⟩

theorem cnt_inE_congr {f f' : Nat → Entry} (h : ∀ g, (f g).epoch = (f' g).epoch) (e : Nat) (ts : List Thread) :
    cnt (Thread.inE f e) ts = cnt (Thread.inE f' e) ts := cnt_congr _ (by
  rintro ⟨pc, timed⟩
  cases pc <;> simp [Thread.inE, h])

theorem one_follows {s : State} {q : Book} {t : Nat} (R : Rel s q) (ht : s.total ≠ 0) (hM : 2 * q.entered ≤ M) :
    Follows specNext (Rel (s.one M)) q [.notify t false true] := by
  refine follows_ok (q' := { q with ph := fun u => (q.ph u).note false true }) rfl ?_
  obtain ⟨e, he⟩ := cur_some R ht
  have hw := R.waiters
  obtain ⟨R1, R2, R3, R4, R5, R6, R7, R8, R9, R10⟩ := R
  have hep : ∀ g, (if g ∈ s.gens then (s.ent g).release M 1 else s.ent g).epoch = (s.ent g).epoch := by
    intro g; split <;> rfl
  have hwt : ∀ g, (if g ∈ s.gens then (s.ent g).release M 1 else s.ent g).waiters = (s.ent g).waiters := by
    intro g; split <;> rfl
  have hsem : ∀ g, g ∈ s.gens → ((s.ent g).release M 1).sem = (s.ent g).sem + 1 := by
    intro g hg
    have := R6 g hg
    simp only [Entry.release, post]
    rw [if_pos (by omega)]
  have hwk : post M (s.wake e) 1 = s.wake e + 1 := by
    have := R7 e he
    simp only [post]; rw [if_pos (by omega)]
  simp only [State.one, State.wakeWaiters, he, hwk]
  refine ⟨R1, ?_, ?_, ?_, ?_, ?_, ?_, ?_, ?_, ?_⟩
  · intro u y hy
    refine (R2 u y hy).note rfl rfl ?_
    rintro g hg ⟨h1, h2, h3, h4, h5, h6, h7⟩
    have hpos : (s.ent g).waiters ≠ 0 := by
      have := hw g h1; have := cnt_pos hy (inG_mem hg); simp only at this; omega
    refine ⟨h1, by simpa using h2, by simpa using h3, Or.inl (note_noted _ _ _ h2), ?_, ?_, ?_⟩
    · intro hc
      simp only [hep] at hc
      rw [List.mem_filter]; exact ⟨h5 (by rw [he]; exact hc), by simpa using hpos⟩
    · intro hg'
      have hg' := (List.mem_filter.mp hg').1
      have h8 := h6 hg'
      have hce : e = (s.ent g).epoch := by have := (R6 g hg').2.1; rw [he] at this; exact Option.some.inj this
      have := note_posts false true (q.ph u)
      simp only [hep, note_wakes, ← hce, upd_apply, if_true]
      rw [← hce] at h8; omega
    · intro hg'
      have hg' := (List.mem_filter.mp hg').1
      have := h7 hg'
      have := note_posts false true (q.ph u)
      simp only [note_wakes, hg', if_true, hsem g hg']; omega
  · intro g hg; simp only [hwt]; exact R3 g hg
  · intro g hg hn
    simp only at hn ⊢
    split at hn
    · simp [Entry.release] at hn
    · rename_i hg'; rw [if_neg hg']; exact R4 g hg hn
  · intro g hg; simp only [hep]; exact R5 g hg
  · intro g hg
    have hg := (List.mem_filter.mp hg).1
    obtain ⟨h1, h2, h3, h4, h5⟩ := R6 g hg
    refine ⟨h1, by simp only [hep]; rw [← he]; exact h2, ?_, by simp only [hwt]; exact h4, ?_⟩
    · simp only [hg, if_true, hsem g hg]; omega
    · simp only [hg, if_true, hsem g hg]; omega
  · intro e' he'
    cases he'
    obtain ⟨h1, h2, h3⟩ := R7 e he
    refine ⟨h1, by simp only [upd_apply, if_true]; omega, ?_⟩
    rw [cnt_inE_congr hep]
    simp only [upd_apply, if_true]; omega
  · intro h; cases h
  · intro g hg hc
    simp only [hep] at hc
    have hng : g ∉ s.gens := by intro hg'; have := (R6 g hg').2.1; rw [he] at this; exact hc this
    simp only [hng, if_false]
    exact R9 g hg (by rw [he]; exact hc)
  · intro e' he' hc
    rw [cnt_inE_congr hep]
    have hne : e' ≠ e := by rintro rfl; exact hc rfl
    simp only [upd_apply, hne, if_false]
    exact R10 e' he' (by rw [he]; exact hc)

theorem all_follows {s : State} {q : Book} {t : Nat} (R : Rel s q) (ht : s.total ≠ 0) (hM : 2 * q.entered ≤ M) :
    Follows specNext (Rel (s.all M)) q [.notify t true true] := by
  refine follows_ok (q' := { q with ph := fun u => (q.ph u).note true true }) rfl ?_
  obtain ⟨e, he⟩ := cur_some R ht
  obtain ⟨R1, R2, R3, R4, R5, R6, R7, R8, R9, R10⟩ := R
  have hep : ∀ g, (if g ∈ s.gens then (s.ent g).release M (s.ent g).waiters else s.ent g).epoch = (s.ent g).epoch := by
    intro g; split <;> rfl
  have hwt : ∀ g, (if g ∈ s.gens then (s.ent g).release M (s.ent g).waiters else s.ent g).waiters = (s.ent g).waiters := by
    intro g; split <;> rfl
  have hsem : ∀ g, g ∈ s.gens → ((s.ent g).release M (s.ent g).waiters).sem = (s.ent g).sem + (s.ent g).waiters := by
    intro g hg
    have := R6 g hg
    simp only [Entry.release, post]
    rw [if_pos (by omega)]
  have hwk : post M (s.wake e) s.total = s.wake e + s.total := by
    have := R7 e he
    simp only [post]; rw [if_pos (by omega)]
  simp only [State.all, State.wakeWaiters, he, hwk]
  refine ⟨R1, ?_, ?_, ?_, ?_, ?_, ?_, ?_, ?_, ?_⟩
  · intro u y hy
    refine (R2 u y hy).note rfl rfl ?_
    rintro g hg ⟨h1, h2, h3, h4, h5, h6, h7⟩
    refine ⟨h1, by simpa using h2, by simpa using h3, Or.inl (note_noted _ _ _ h2), ?_, ?_, ?_⟩
    · intro hc; cases hc
    · intro hg'; cases hg'
    · intro hg'; cases hg'
  · intro g hg; simp only [hwt]; exact R3 g hg
  · intro g hg hn
    simp only at hn ⊢
    split at hn
    · simp [Entry.release] at hn
    · rename_i hg'; rw [if_neg hg']; exact R4 g hg hn
  · intro g hg; simp only [hep]; exact R5 g hg
  · intro g hg; cases hg
  · intro e' he'; cases he'
  · intro _; simp
  · intro g hg _
    by_cases hg' : g ∈ s.gens
    · have := R3 g hg
      simp only [hg', if_true, hsem g hg']
      have : cnt (Thread.wants g) s.ts ≤ cnt (Thread.mem g) s.ts := cnt_le _ (by
        rintro ⟨pc, timed⟩; cases pc <;> simp [Thread.wants, Thread.mem])
      omega
    · simp only [hg', if_false]
      by_cases hc : s.cur = some (s.ent g).epoch
      · have : cnt (Thread.wants g) s.ts = 0 := by
          rw [cnt_eq_zero]
          intro u y hy
          cases hwy : y.wants g with
          | false => rfl
          | true =>
            have hin : y.inG g = true := by
              obtain ⟨pc, timed⟩ := y
              cases pc <;> simp_all [Thread.wants, Thread.inG]
            exact absurd (((R2 u y hy).inOk hin).listed hc) hg'
        omega
      · exact R9 g hg hc
  · intro e' he' _
    rw [cnt_inE_congr hep]
    by_cases hne : e' = e
    · subst hne
      have := R7 e' he
      simp only [upd_apply, if_true]; omega
    · simp only [upd_apply, hne, if_false]
      exact R10 e' he' (by rw [he]; simpa using Ne.symm hne)

/-- `get_wait_entry` makes a `wake_sem` if there is none. -/
theorem fresh_follows {s : State} {q : Book} (R : Rel s q) (hc : s.cur = none) :
    Rel { s with cur := some s.epochs, epochs := s.epochs + 1, wake := upd s.wake s.epochs 0 } q := by
  obtain ⟨R1, R2, R3, R4, R5, R6, R7, R8, R9, R10⟩ := R
  have hgens : ∀ g, g ∉ s.gens := by
    intro g hg; have := (R6 g hg).2.1; rw [hc] at this; cases this
  refine ⟨R1, ?_, R3, R4, ?_, ?_, ?_, ?_, ?_, ?_⟩
  · intro u y hy
    refine (R2 u y hy).mono (fun _ => rfl) (Nat.le_refl _) rfl ?_
    rintro g - ⟨h1, h2, h3, h4, h5, h6, h7⟩
    refine ⟨h1, h2, h3, h4, ?_, fun hg => absurd hg (hgens g), fun hg => absurd hg (hgens g)⟩
    intro h; have := R5 g h1; simp only [Option.some.injEq] at h; omega
  · intro g hg; have := R5 g hg; simp only; omega
  · intro g hg; exact absurd hg (hgens g)
  · intro e he
    cases he
    have h0 := R8 hc
    refine ⟨by simp, by simp [h0], ?_⟩
    have : cnt (Thread.inE s.ent s.epochs) s.ts = 0 := by
      rw [cnt_eq_zero]
      intro u y hy
      have hy' := R2 u y hy
      obtain ⟨pc, timed⟩ := y
      cases pc <;> simp only [Thread.inE, ThreadOk] at hy' ⊢
      · have := R5 _ hy'.2.lt; simp; omega
      · have := R5 _ hy'.lt; simp; omega
      · have := R5 _ hy'.1.lt; simp; omega
    simp only [this]; omega
  · intro h; cases h
  · intro g hg _; exact R9 g hg (by rw [hc]; simp)
  · intro e he hne
    simp only [ne_eq, Option.some.injEq] at hne
    have : e ≠ s.epochs := fun h => hne h.symm
    simp only [upd_apply, this, if_false]
    exact R10 e (by simp only at he; omega) (by rw [hc]; simp)

/-- A thread joins the last entry. -/
theorem join_follows {s : State} {q : Book} {t g : Nat} {x : Thread} {timed : Bool} (R : Rel s q) (hx : s.ts[t]? = some x) (hp : x.pc = .idle)
    (hm : s.mutex = some t) (hg : g ∈ s.gens) (hn : (s.ent g).notified = false) :
    Rel { s with total := s.total + 1, ent := upd s.ent g { s.ent g with waiters := (s.ent g).waiters + 1 }, ts := s.ts.set t ⟨.holding g, timed⟩ }
      { q.set t (.inside timed false 0 0) with entered := q.entered + 1 } := by
  obtain ⟨pc, timed0⟩ := x
  simp only at hp; subst hp
  have c1 := fun h => cnt_set (Thread.mem h) ⟨.holding g, timed⟩ hx
  have c2 := fun h => cnt_set (Thread.inG h) ⟨.holding g, timed⟩ hx
  have c3 := fun h => cnt_set (Thread.wants h) ⟨.holding g, timed⟩ hx
  have c4 := fun h => cnt_set (Thread.has h) ⟨.holding g, timed⟩ hx
  have c5 := fun e => cnt_set (Thread.inE s.ent e) ⟨.holding g, timed⟩ hx
  simp only [Thread.mem, Thread.inG, Thread.wants, Thread.has, Thread.inE, b2n_false, Nat.add_zero] at c1 c2 c3 c4 c5
  obtain ⟨R1, R2, R3, R4, R5, R6, R7, R8, R9, R10⟩ := R
  have hep : ∀ h, (upd s.ent g { s.ent g with waiters := (s.ent g).waiters + 1 } h).epoch = (s.ent h).epoch := by
    intro h; simp only [upd_apply]; split <;> simp_all
  have hse : ∀ h, (upd s.ent g { s.ent g with waiters := (s.ent g).waiters + 1 } h).sem = (s.ent h).sem := by
    intro h; simp only [upd_apply]; split <;> simp_all
  have hno : ∀ h, (upd s.ent g { s.ent g with waiters := (s.ent g).waiters + 1 } h).notified = (s.ent h).notified := by
    intro h; simp only [upd_apply]; split <;> simp_all
  obtain ⟨g1, g2, g3, g4, g5⟩ := R6 g hg
  refine ⟨by simpa [Book.set] using R1, ?_, ?_, ?_, ?_, ?_, ?_, ?_, ?_, ?_⟩
  · intro u y hy
    rcases get_set hx hy with ⟨rfl, rfl⟩ | ⟨h1, h2⟩
    · refine ⟨hm, g1, ?_, ?_, ?_, ?_, ?_, ?_⟩ <;> simp [Book.set, Phase.isInside, Phase.timed, Phase.noted, Phase.posts, R4 g g1 hn, hg]
    · refine (R2 u y h2).mono (fun _ => rfl) (Nat.le_refl _) (by simp [Book.set, h1]) ?_
      rintro h - ⟨i1, i2, i3, i4, i5, i6, i7⟩
      refine ⟨i1, ?_, ?_, ?_, ?_, ?_, ?_⟩ <;> simp only [Book.set, h1, if_false, hep, hse, c4] <;> assumption
  · intro h hh
    have := R3 h hh
    have := c1 h
    by_cases e : h = g
    · subst e; simp only [upd_apply, if_true]; simp at *; omega
    · simp only [upd_apply, e, if_false]; simp [beq_false e] at *; omega
  · intro h hh hn'; simp only [hno, hse] at *; exact R4 h hh hn'
  · intro h hh; simp only [hep]; exact R5 h hh
  · intro h hh
    obtain ⟨h1, h2, h3, h4, h5⟩ := R6 h hh
    have := c2 h
    have := b2n_le (g == h)
    refine ⟨h1, by simpa only [hep] using h2, by simp only [hse]; omega, ?_, by simp only [hse, c4]; omega⟩
    simp only [upd_apply]; split <;> simp_all
    omega
  · intro e he
    obtain ⟨h1, h2, h3⟩ := R7 e he
    have := c5 e
    have := b2n_le ((s.ent g).epoch == e)
    refine ⟨h1, by simp only; omega, ?_⟩
    rw [cnt_inE_congr hep]; simp only; omega
  · intro h; simp only at h; rw [h] at g2; cases g2
  · intro h hh hc
    simp only [hep, hse] at *
    have : ¬ h = g := by rintro rfl; exact hc g2
    have := c3 h
    simp [beq_false ‹¬ h = g›] at this
    rw [this]; exact R9 h hh hc
  · intro e he hc
    rw [cnt_inE_congr hep]
    have h1 : (s.ent g).epoch ≠ e := by rintro rfl; exact hc g2
    have := c5 e
    simp [beq_false (Ne.symm h1)] at this
    simp only [this]; exact R10 e he hc

/-- A thread makes a new entry. -/
theorem make_follows {s : State} {q : Book} {t e : Nat} {x : Thread} {timed : Bool} (R : Rel s q) (hx : s.ts[t]? = some x) (hp : x.pc = .idle)
    (hm : s.mutex = some t) (hcur : s.cur = some e) :
    Rel { s with total := s.total + 1, ent := upd s.ent s.ents ⟨e, 0, 1, false⟩, ents := s.ents + 1, gens := s.gens ++ [s.ents], ts := s.ts.set t ⟨.holding s.ents, timed⟩ }
      { q.set t (.inside timed false 0 0) with entered := q.entered + 1 } := by
  obtain ⟨pc, timed0⟩ := x
  simp only at hp; subst hp
  have c1 := fun h => cnt_set (Thread.mem h) ⟨.holding s.ents, timed⟩ hx
  have c2 := fun h => cnt_set (Thread.inG h) ⟨.holding s.ents, timed⟩ hx
  have c3 := fun h => cnt_set (Thread.wants h) ⟨.holding s.ents, timed⟩ hx
  have c4 := fun h => cnt_set (Thread.has h) ⟨.holding s.ents, timed⟩ hx
  have c5 := fun e' => cnt_set (Thread.inE (upd s.ent s.ents ⟨e, 0, 1, false⟩) e') ⟨.holding s.ents, timed⟩ hx
  simp only [Thread.mem, Thread.inG, Thread.wants, Thread.has, Thread.inE, b2n_false, Nat.add_zero, upd_apply, if_true] at c1 c2 c3 c4 c5
  obtain ⟨R1, R2, R3, R4, R5, R6, R7, R8, R9, R10⟩ := R
  have hmem : cnt (Thread.mem s.ents) s.ts = 0 := by
    rw [cnt_eq_zero]
    intro u y hy
    have hy' := R2 u y hy
    obtain ⟨pc, timed⟩ := y
    cases pc <;> simp only [Thread.mem, ThreadOk] at hy' ⊢
    · have := hy'.2.lt; simp; omega
    · have := hy'.lt; simp; omega
    · have := hy'.1.lt; simp; omega
    · have := hy'.1; simp; omega
  have hinG : cnt (Thread.inG s.ents) s.ts = 0 := by
    have : cnt (Thread.inG s.ents) s.ts ≤ cnt (Thread.mem s.ents) s.ts := cnt_le _ (fun y hy => inG_mem hy)
    omega
  have hE : ∀ e', cnt (Thread.inE (upd s.ent s.ents ⟨e, 0, 1, false⟩) e') s.ts = cnt (Thread.inE s.ent e') s.ts := by
    intro e'
    refine cnt_congr_mem ?_
    intro u y hy
    have hy' := R2 u y hy
    obtain ⟨pc, timed⟩ := y
    cases pc <;> simp only [Thread.inE, ThreadOk, upd_apply] at hy' ⊢
    · rw [if_neg (by have := hy'.2.lt; omega)]
    · rw [if_neg (by have := hy'.lt; omega)]
    · rw [if_neg (by have := hy'.1.lt; omega)]
  have hold : ∀ h, h < s.ents → upd s.ent s.ents ⟨e, 0, 1, false⟩ h = s.ent h := by
    intro h hh; simp only [upd_apply]; rw [if_neg (by omega)]
  obtain ⟨e1, e2, e3⟩ := R7 e hcur
  refine ⟨by simpa [Book.set] using R1, ?_, ?_, ?_, ?_, ?_, ?_, ?_, ?_, ?_⟩
  · intro u y hy
    rcases get_set hx hy with ⟨rfl, rfl⟩ | ⟨h1, h2⟩
    · refine ⟨hm, ?_, ?_, ?_, ?_, ?_, ?_, ?_⟩ <;> simp [Book.set, Phase.isInside, Phase.timed, Phase.noted, Phase.posts]
    · refine (R2 u y h2).mono (fun _ => rfl) (by simp) (by simp [Book.set, h1]) ?_
      rintro h - ⟨i1, i2, i3, i4, i5, i6, i7⟩
      have hmem' : h ∈ s.gens ++ [s.ents] → h ∈ s.gens := by
        intro hh; rcases List.mem_append.mp hh with hh | hh
        · exact hh
        · simp at hh; omega
      refine ⟨by simp only; omega, ?_, ?_, ?_, ?_, fun hh => ?_, fun hh => ?_⟩ <;> simp only [Book.set, h1, if_false, hold h i1, c4]
      · exact i2
      · exact i3
      · exact i4
      · intro hc; exact List.mem_append.mpr (Or.inl (i5 hc))
      · exact i6 (hmem' hh)
      · exact i7 (hmem' hh)
  · intro h hh
    simp only at hh ⊢
    have := c1 h
    by_cases e' : h = s.ents
    · subst e'; simp at *; omega
    · have := R3 h (by omega)
      rw [hold h (by omega)]; simp [beq_false e'] at *; omega
  · intro h hh hn'
    simp only at hh hn' ⊢
    by_cases e' : h = s.ents
    · subst e'; simp
    · rw [hold h (by omega)] at *; exact R4 h (by omega) hn'
  · intro h hh
    simp only at hh ⊢
    by_cases e' : h = s.ents
    · subst e'; simpa using e1
    · rw [hold h (by omega)]; exact R5 h (by omega)
  · intro h hh
    simp only at hh ⊢
    have := c2 h
    rcases List.mem_append.mp hh with hh | hh
    · obtain ⟨h1, h2, h3, h4, h5⟩ := R6 h hh
      rw [hold h h1]
      have : ¬ h = s.ents := by omega
      simp [beq_false this] at *
      refine ⟨by omega, h2, by omega, by omega, by rw [c4]; omega⟩
    · simp at hh; subst hh
      simp at this ⊢
      refine ⟨hcur, by omega, ?_⟩
      rw [c4]; omega
  · intro e' he'
    rw [hcur] at he'; cases he'
    have a1 := c5 e
    have a2 := hE e
    simp at a1
    refine ⟨e1, by simp only; omega, ?_⟩
    simp only; omega
  · intro h; simp only at h; rw [h] at hcur; cases hcur
  · intro h hh hc
    simp only at hh hc ⊢
    have e' : ¬ h = s.ents := by rintro rfl; simp [hcur] at hc
    have hlt : h < s.ents := by omega
    rw [hold h hlt] at *
    have := c3 h
    simp [beq_false e'] at this
    rw [this]; exact R9 h hlt hc
  · intro e' he' hc
    simp only at he' hc ⊢
    have h1 : e ≠ e' := by rintro rfl; exact hc hcur
    have := c5 e'
    simp [beq_false (Ne.symm h1)] at this
    rw [this, hE]; exact R10 e' he' hc

theorem enter_follows {s : State} {q : Book} {t : Nat} {x : Thread} {timed : Bool} (R : Rel s q) (hx : s.ts[t]? = some x) (hp : x.pc = .idle)
    (hm : s.mutex = some t) : Follows specNext (Rel (s.enter t x timed)) q [.entered t timed] := by
  have hok := R.thread t x hx
  simp only [ThreadOk, hp] at hok
  refine follows_ok (q' := { q.set t (.inside timed false 0 0) with entered := q.entered + 1 }) (by simp [specNext, R.owner, hm, hok]) ?_
  -- the state with a `wake_sem`
  obtain ⟨s1, hs1, hR1⟩ : ∃ s1 : State, s1 = { s with
      cur := some s.wakeSem, epochs := (if s.cur = none then s.epochs + 1 else s.epochs), wake := (if s.cur = none then upd s.wake s.wakeSem 0 else s.wake) } ∧
      Rel s1 q := by
    refine ⟨_, rfl, ?_⟩
    cases hc : s.cur with
    | none => simpa [State.wakeSem, hc] using fresh_follows R hc
    | some e =>
      have : s = { s with cur := some e } := by rw [← hc]
      simpa [State.wakeSem, hc, ← this] using R
  simp only [State.enter]
  split
  · have := make_follows (timed := timed) (s := s1) (e := s.wakeSem) hR1 (by rw [hs1]; exact hx) hp (by rw [hs1]; exact hm) (by rw [hs1])
    rw [hs1] at this
    exact this
  · rename_i hl
    cases hg : s.gens.getLast? with
    | none => simp [hg] at hl
    | some g =>
      simp [hg] at hl
      have := join_follows (timed := timed) (s := s1) (g := g) hR1 (by rw [hs1]; exact hx) hp (by rw [hs1]; exact hm) (by rw [hs1]; exact List.mem_of_getLast? hg)
        (by rw [hs1]; exact hl)
      rw [hs1] at this
      exact this

/-- How many waits a history begins. -/
def begun (es : List Event) : Nat := es.countP fun
  | .entered _ _ => true
  | _ => false

theorem stepT_follows {s s' : State} {q : Book} {t : Nat} {x : Thread} {l : Label} {es : List Event} (R : Rel s q) (hM : 2 * q.entered < M) (hx : s.ts[t]? = some x)
    (hs : stepT M s t x l = some (s', es)) :
    Follows specNext (Rel s') q es := by
  cases l <;> simp only [stepT] at hs
  case lock _ =>
    split at hs <;> cases hs
    rename_i h; exact lock_follows R h.2
  case unlock _ =>
    by_cases h : x.pc = .idle ∧ s.mutex = some t
    · rw [if_pos h] at hs; cases hs; exact unlock_follows R hx h.1 h.2
    · rw [if_neg h] at hs; cases hs
  case enter _ timed =>
    by_cases h : x.pc = .idle ∧ s.mutex = some t
    · rw [if_pos h] at hs
      split at hs <;> cases hs
      · rename_i ht
        obtain ⟨e, he⟩ := cur_some R (by omega)
        have := R.cur e he
        omega
      · exact enter_follows R hx h.1 h.2
    · rw [if_neg h] at hs; cases hs
  case release _ =>
    split at hs <;> cases hs
    rename_i h; exact release_follows R hx h
  case pass _ =>
    split at hs
    · split at hs <;> cases hs
      rename_i h h'; exact pass_follows R hx h h'
    · cases hs
  case timeout _ =>
    split at hs
    · split at hs <;> cases hs
      rename_i h h'; exact quit_follows R hx h (Or.inr ⟨rfl, h'⟩)
    · cases hs
  case interrupt _ =>
    split at hs <;> cases hs
    rename_i h; exact quit_follows R hx h (Or.inl rfl)
  case tryWake _ =>
    split at hs
    · split at hs <;> cases hs
      · rename_i h h'; exact fail_follows R hx h h'
      · rename_i h h'; exact woke_follows R hx h h'
    · cases hs
  case remove _ =>
    split at hs <;> cases hs
    rename_i h; exact remove_follows R hx h
  case relock _ =>
    split at hs
    · split at hs <;> cases hs
      rename_i h h'; exact relock_follows R hx h h'
    · cases hs
  case notify _ all =>
    split at hs
    · rename_i h
      split at hs <;> cases hs
      · exact skip_follows R
      · exact idle_follows R hx (Or.inl h) (Or.inr ⟨_, rfl⟩)
    · cases hs
  case act _ =>
    split at hs
    · rename_i all h
      split at hs <;> cases hs
      · exact skip_follows (idle_follows R hx (Or.inr ⟨_, h⟩) (Or.inl rfl))
      · rename_i h0
        have R' := idle_follows R hx (Or.inr ⟨_, h⟩) (Or.inl rfl) (p := .idle)
        cases all
        · exact one_follows (s := s.pc t x .idle) R' h0 (by omega)
        · exact all_follows (s := s.pc t x .idle) R' h0 (by omega)
    · cases hs

theorem step_follows {s s' : State} {q : Book} {l : Label} {es : List Event} (R : Rel s q) (hM : 2 * q.entered < M) (hs : step M s l = some (s', es)) :
    Follows specNext (Rel s') q es := by
  simp only [step] at hs
  split at hs
  · rename_i x hx; exact stepT_follows R hM hx hs
  · cases hs

theorem next_entered {q q' : Book} {e : Event} (h : specNext q e = .ok q') : q'.entered = q.entered + begun [e] := by
  cases e <;> simp only [specNext, must] at h <;> (try split at h) <;> cases h <;> simp [begun, Book.set]

theorem follows_entered {P : Book → Prop} {q : Book} {es : List Event} (h : Follows specNext P q es) :
    Follows specNext (fun q' => P q' ∧ q'.entered = q.entered + begun es) q es := by
  induction es generalizing q with
  | nil => exact ⟨h, by simp [begun]⟩
  | cons e es ih =>
    simp only [Follows] at h ⊢
    cases hn : specNext q e with
    | illegal => rw [hn] at h; exact h
    | undefined => trivial
    | ok q1 =>
      rw [hn] at h
      have h1 := ih h
      have h2 := next_entered hn
      have h3 : begun (e :: es) = begun [e] + begun es := by
        simp only [begun, ← List.countP_append]; rfl
      rw [show q.entered + begun (e :: es) = q1.entered + begun es by omega]
      exact h1

theorem begun_append (es es' : List Event) : begun (es ++ es') = begun es + begun es' := List.countP_append ..

theorem run_accepts {s s' : State} {q : Book} {ls : List Label} {es : List Event} (R : Rel s q) (hM : 2 * (q.entered + begun es) < M)
    (h : run (step M) s ls = some (s', es)) : Accepts specNext q es := by
  induction ls generalizing s q es with
  | nil => simp only [run_nil, Option.some.injEq, Prod.mk.injEq] at h; rw [← h.2]; trivial
  | cons l ls ih =>
    obtain ⟨m, es1, es2, h1, h2, rfl⟩ := run_cons h
    rw [begun_append] at hM
    refine (follows_entered (step_follows R (by omega) h1)).accepts_append ?_
    rintro q1 ⟨R1, hq⟩
    exact ih R1 (by omega) h2

theorem run_state {s s' : State} {q q' : Book} {ls : List Label} {es : List Event} (R : Rel s q) (hM : 2 * (q.entered + begun es) < M)
    (h : run (step M) s ls = some (s', es)) (hq : specState specNext q es = some q') : Rel s' q' := by
  induction ls generalizing s q es with
  | nil =>
    simp only [run_nil, Option.some.injEq, Prod.mk.injEq] at h
    obtain ⟨rfl, rfl⟩ := h
    simp only [specState, Option.some.injEq] at hq
    exact hq ▸ R
  | cons l ls ih =>
    obtain ⟨m, es1, es2, h1, h2, rfl⟩ := run_cons h
    rw [begun_append] at hM
    obtain ⟨q1, ⟨R1, hq1⟩, hs⟩ := (follows_entered (step_follows R (by omega) h1)).specState_append hq
    exact ih R1 (by omega) h2 hs

end Verif.WinCondVar
