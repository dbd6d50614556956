import Verif.WinThread.Live
/-!
# C59: joins, sleeps and interruption on Windows
-/
set_option linter.unusedSimpArgs false
set_option linter.unusedVariables false

namespace Verif.WinThread

/-- Whatever the threads do and however time passes, what is observed is as specified: a join returns only when its thread has ended, nothing times out
early, `thread_interrupted` comes out of an interruption point only when it is allowed and once for every request, a request that is there when an
interruption point begins is not missed, and the disablers and restorers nest. -/
theorem conforms {n : Nat} {now user : Int} {ls : List Label} {s : St} {es : List Event} (h : run step (init n now user) ls = some (s, es)) :
    Accepts next (specInit n now user) es :=
  simulation (R := R) (fun s l s' es σ hi hs => step_ok hi hs) (R_init n now user) h

theorem related {n : Nat} {now user : Int} {ls : List Label} {s : St} {es : List Event} {σ : Sys} (h : run step (init n now user) ls = some (s, es))
    (hσ : specState next (specInit n now user) es = some σ) : R s σ :=
  simulation_state R (fun s l s' es σ hi hs => step_ok hi hs) (R_init n now user) h hσ

/-- An interruption point whose thread is asked to stop, and may be interrupted, ends; nothing else has to happen. -/
theorem interruption_delivered {n : Nat} {now user : Int} {ls : List Label} {s : St} {es : List Event} {σ : Sys} {w : Nat} {a : Active}
    (h : run step (init n now user) ls = some (s, es)) (hσ : specState next (specInit n now user) es = some σ)
    (ha : (σ.th w).call = some a) (hi : a.call.intr = true) (hp : (σ.th w).pending = true) (hal : (σ.th w).allowed = true) :
    Ends (Own w) s w := by
  have hr := related h hσ
  have hx := hr.th w
  exact ends_of_ripe hr ha (Or.inr ⟨hi, by rw [← hx.pending]; exact hp, by rw [hx.en]; rw [← hx.lib]; exact hal⟩)

/-- A join whose thread has ended returns; nothing else has to happen. -/
theorem join_returns {n : Nat} {now user : Int} {ls : List Label} {s : St} {es : List Event} {σ : Sys} {w u : Nat} {a : Active}
    (h : run step (init n now user) ls = some (s, es)) (hσ : specState next (specInit n now user) es = some σ)
    (ha : (σ.th w).call = some a) (ht : a.call.target = some u) (hf : (σ.th u).fin = true) : Ends (Own w) s w := by
  have hr := related h hσ
  exact ends_of_ripe hr ha (Or.inl ⟨u, ht, by rw [← (hr.th u).fin]; exact hf⟩)

/-- Every call with a time limit, and `interruption_point`, ends when time passes and the user's clock shows its time, provided that a timer could
be had for the waits of more than 4294967294 ms (about 49 days). Without timer: `sleep_forever`. -/
theorem timed_call_ends_partial {n : Nat} {now user : Int} {ls : List Label} {s : St} {es : List Event} {σ : Sys} {w : Nat} {a : Active} {shown : Int}
    (h : run stepTame (init n now user) ls = some (s, es)) (hσ : specState next (specInit n now user) es = some σ)
    (ha : (σ.th w).call = some a) (hd : a.dl ≠ .never ∨ a.call = .point) (hu : ∀ t seen, a.dl = .user t seen → t ≤ shown) :
    Ends (OwnOrTime w shown) s w :=
  ends_of_time (related (run_tame h) hσ)
    (run_inv (step := stepTame) TInv (fun _ _ _ _ hi hs => tinv_step hi hs) (tinv_init n now user) h) ha hd hu

/-! ## Threads not created by the library -/

structure Ext (w : Nat) (s : St) : Prop where
  lt : w < s.n
  en : (s.t w).en = false
  was : ∀ b, Obj.dis b ∈ (s.t w).objs → b = false
  pc : (s.t w).pc ≠ .reset
  blk : ∀ tgt intr dl due til k, (s.t w).pc = .blocked tgt intr dl due til k → intr = false

theorem Ext.other {w v : Nat} {s : St} (h : Ext w s) (hv : w ≠ v) (x : Thr) : Ext w (s.set v x) := by
  have : (s.set v x).t w = s.t w := by simp [St.set, upd_other _ _ hv]
  exact ⟨h.lt, by rw [this]; exact h.en, by rw [this]; exact h.was, by rw [this]; exact h.pc, by rw [this]; exact h.blk⟩

/-- A change that does not concern interruption. -/
theorem Ext.set {w v : Nat} {s : St} (h : Ext w s) {x : Thr} (he : x.en = (s.t v).en) (ho : x.objs = (s.t v).objs) (hp : x.pc = (s.t v).pc) :
    Ext w (s.set v x) := by
  by_cases hv : w = v
  · subst hv
    have : (s.set w x).t w = x := by simp [St.set]
    exact ⟨h.lt, by rw [this, he]; exact h.en, by rw [this, ho]; exact h.was, by rw [this, hp]; exact h.pc, by rw [this, hp]; exact h.blk⟩
  · exact h.other hv x

theorem Ext.goto {w v : Nat} {s : St} (h : Ext w s) {p : Pc}
    (hp : v = w → p ≠ .reset ∧ ∀ tgt intr dl due til k, p = .blocked tgt intr dl due til k → intr = false) : Ext w (s.goto v p) := by
  by_cases hv : w = v
  · subst hv
    have : (s.goto w p).t w = { s.t w with pc := p } := by simp [St.goto, St.set]
    exact ⟨h.lt, by rw [this]; exact h.en, by rw [this]; exact h.was, by rw [this]; exact (hp rfl).1, by rw [this]; exact (hp rfl).2⟩
  · exact h.other hv _

theorem Ext.unuse {w : Nat} {s : St} (h : Ext w s) (tgt : Option Nat) : Ext w (s.unuse tgt) := by
  cases tgt with
  | none => exact h
  | some u => exact h.set rfl rfl rfl

theorem ext_step {w : Nat} {s s' : St} {l : Label} {es : List Event} (h : Ext w s) (hs : step s l = some (s', es)) :
    Ext w s' ∧ Event.interrupted w ∉ es := by
  have hov : ∀ {v tgt s' es}, overflow s v tgt = some (s', es) → Ext w s' ∧ Event.interrupted w ∉ es := by
    intro v tgt s' es h1
    simp only [overflow, Option.some.injEq, Prod.mk.injEq] at h1
    obtain ⟨rfl, rfl⟩ := h1
    exact ⟨(h.unuse tgt).goto (fun _ => ⟨by simp, by intros; simp_all⟩), by simp⟩
  have hgu : ∀ {v tgt s' es}, giveUp s v tgt = some (s', es) → Ext w s' ∧ Event.interrupted w ∉ es := by
    intro v tgt s' es h1
    simp only [giveUp, Option.some.injEq, Prod.mk.injEq] at h1
    obtain ⟨rfl, rfl⟩ := h1
    exact ⟨(h.unuse tgt).goto (fun _ => ⟨by simp, by intros; simp_all⟩), by cases tgt <;> simp⟩
  have hfp : ∀ c, firstPc s.now c ≠ .reset ∧ ∀ tgt intr dl due til k, firstPc s.now c = .blocked tgt intr dl due til k → intr = false := by
    intro c
    cases c with
    | tryJoinUntil u st t => cases st <;> simp [firstPc]
    | sleepUntil u st t => cases st <;> simp [firstPc]
    | _ => simp [firstPc]
  cases l with
  | go v =>
    simp only [step] at hs
    unfold go at hs
    split at hs
    · cases hs
    · split at hs
      · split at hs
        · cases hs; exact ⟨h.goto (fun _ => ⟨by simp, by intros; simp_all⟩), by simp⟩
        · exact hgu hs
      · exact hov hs
    · split at hs
      · cases hs; exact ⟨h.goto (fun _ => ⟨by simp, by intros; simp_all⟩), by simp⟩
      · exact hov hs
    · cases hs
    · rename_i tgt intr dl due til k hpc
      have hnb : ∀ {p : Pc} {tgt' b k'}, p = .got tgt' intr b k' → Ext w (s.goto v p) := by
        intro p tgt' b k' hp; subst hp
        exact h.goto (fun _ => ⟨by simp, by intros; simp_all⟩)
      split at hs
      · cases hs; exact ⟨hnb rfl, by simp⟩
      · split at hs
        · rename_i hev
          cases hs
          refine ⟨(h.unuse tgt).goto (fun he => ?_), by simp⟩
          subst he
          have := h.blk _ _ _ _ _ _ hpc
          subst this
          simp at hev
        · split at hs
          · cases hs; exact ⟨hnb rfl, by simp⟩
          · split at hs
            · split at hs
              · split at hs
                · split at hs
                  · cases hs
                    refine ⟨h.goto (fun he => ⟨by simp, ?_⟩), by simp⟩
                    intro tgt' intr' dl' due' til' k' hp
                    subst he
                    cases hp
                    exact h.blk _ _ _ _ _ _ hpc
                  · cases hs; exact ⟨hnb rfl, by simp⟩
                · exact hov hs
              · cases hs; exact ⟨h, by simp⟩
            · cases hs
    · split at hs
      · rename_i u _
        cases hs
        exact ⟨(h.set (v := u) (x := { s.t u with obj := false, joiner := none }) rfl rfl rfl).goto (fun _ => ⟨by simp, by intros; simp_all⟩), by simp⟩
      · split at hs
        · exact hgu hs
        · cases hs; exact ⟨h.goto (fun _ => ⟨by simp, by intros; simp_all⟩), by simp⟩
    · rename_i hpc
      cases hs
      have hv : w ≠ v := by intro he; subst he; exact h.pc hpc
      exact ⟨h.other hv _, by simpa using hv⟩
    · split at hs
      · rename_i hc
        cases hs
        refine ⟨h.goto (fun he => ?_), by simp⟩
        subst he
        simp [h.en] at hc
      · cases hs; exact ⟨h.goto (fun _ => ⟨by simp, by intros; simp_all⟩), by simp⟩
  | arm v ok =>
    simp only [step] at hs
    unfold armStep at hs
    have hb : ∀ {tgt intr dl due til k}, Ext w (s.goto v (.blocked tgt (intr && (s.t v).en) dl due til k)) := by
      intro tgt intr dl due til k
      refine h.goto (fun he => ⟨by simp, ?_⟩)
      intro tgt' intr' dl' due' til' k' hp
      subst he
      cases hp
      simp [h.en]
    split at hs
    · split at hs
      · cases hs; exact ⟨hb, by simp⟩
      · split at hs
        · split at hs
          · cases hs; exact ⟨hb, by simp⟩
          · cases hs; exact ⟨hb, by simp⟩
        · exact hov hs
    · cases hs
  | call v c =>
    simp only [step] at hs
    split at hs
    · unfold begin at hs
      split at hs
      · split at hs
        · cases hs; exact ⟨h.goto (fun _ => hfp c), by simp⟩
        · cases hs; exact ⟨h, by simp⟩
      · rename_i u _
        split at hs
        · split at hs
          · cases hs; exact ⟨h, by simp⟩
          · split at hs
            · cases hs
            · split at hs
              · cases hs
                exact ⟨(h.set (v := u) (x := { s.t u with joiner := some v }) rfl rfl rfl).goto (fun _ => hfp c), by simp⟩
              · cases hs; exact ⟨h, by simp⟩
        · cases hs; exact ⟨h, by simp⟩
    · cases hs
  | start v =>
    simp only [step] at hs
    split at hs
    · cases hs
      have h1 := h.other (v := s.n) (Nat.ne_of_lt h.lt) { lib := true, obj := true, en := true }
      exact ⟨⟨Nat.lt_succ_of_lt h1.lt, h1.en, h1.was, h1.pc, h1.blk⟩, by simp⟩
    · cases hs
  | tick d user =>
    simp only [step] at hs
    cases hs
    exact ⟨⟨h.lt, h.en, h.was, h.pc, h.blk⟩, by simp⟩
  | finish v => simp only [step] at hs; split at hs <;> cases hs; exact ⟨h.set rfl rfl rfl, by simp⟩
  | detach v u => simp only [step] at hs; split at hs <;> cases hs; exact ⟨h.set rfl rfl rfl, by simp⟩
  | interrupt v u =>
    simp only [step] at hs
    split at hs
    · split at hs
      · cases hs; exact ⟨h.set rfl rfl rfl, by simp⟩
      · cases hs; exact ⟨h, by simp⟩
    · cases hs
  | disable v =>
    simp only [step] at hs
    split at hs
    · cases hs
      refine ⟨?_, by simp⟩
      by_cases hv : w = v
      · subst hv
        refine ⟨h.lt, ?_, ?_, ?_, ?_⟩ <;> simp only [St.set, upd_same]
        · simp [h.en]
        · intro b hb
          rcases List.mem_cons.1 hb with hb | hb
          · cases hb; exact h.en
          · exact h.was b hb
        · exact h.pc
        · exact h.blk
      · exact h.other hv _
    · cases hs
  | restore v i =>
    simp only [step] at hs
    split at hs
    · split at hs
      · rename_i was hi
        cases hs
        refine ⟨?_, by simp⟩
        by_cases hv : w = v
        · subst hv
          have hw := h.was was (List.mem_of_getElem? hi)
          refine ⟨h.lt, ?_, ?_, ?_, ?_⟩ <;> simp only [St.set, upd_same]
          · simp [h.en, hw]
          · intro b hb
            rcases List.mem_cons.1 hb with hb | hb
            · cases hb
            · exact h.was b hb
          · exact h.pc
          · exact h.blk
        · exact h.other hv _
      · cases hs
    · cases hs
  | close v =>
    simp only [step] at hs
    split at hs
    · split at hs
      · rename_i was r ho
        cases hs
        refine ⟨?_, by simp⟩
        by_cases hv : w = v
        · subst hv
          refine ⟨h.lt, ?_, ?_, ?_, ?_⟩ <;> simp only [St.set, upd_same]
          · exact h.was was (by rw [ho]; simp)
          · intro b hb; exact h.was b (by rw [ho]; simp [hb])
          · exact h.pc
          · exact h.blk
        · exact h.other hv _
      · rename_i r ho
        cases hs
        refine ⟨?_, by simp⟩
        by_cases hv : w = v
        · subst hv
          refine ⟨h.lt, ?_, ?_, ?_, ?_⟩ <;> simp only [St.set, upd_same]
          · intro b hb; exact h.was b (by rw [ho]; simp [hb])
          · exact h.pc
          · exact h.blk
        · exact h.other hv _
      · cases hs
    · cases hs
  | joinable v u => simp only [step] at hs; split at hs <;> cases hs; exact ⟨h, by simp⟩
  | asked v u => simp only [step] at hs; split at hs <;> cases hs; exact ⟨h, by simp⟩
  | requested v => simp only [step] at hs; split at hs <;> cases hs; exact ⟨h, by simp⟩
  | enabled v => simp only [step] at hs; split at hs <;> cases hs; exact ⟨h, by simp⟩

/-- A thread that the library has not created is never interrupted, whatever anyone does. -/
theorem external_never_interrupted {n : Nat} {now user : Int} {ls : List Label} {s : St} {es : List Event} {w : Nat} (hw : w < n)
    (h : run step (init n now user) ls = some (s, es)) : Event.interrupted w ∉ es := by
  have key : ∀ (ls : List Label) (s0 s : St) (es : List Event), Ext w s0 → run step s0 ls = some (s, es) → Event.interrupted w ∉ es := by
    intro ls
    induction ls with
    | nil => intro s0 s es _ h; simp only [run_nil, Option.some.injEq, Prod.mk.injEq] at h; obtain ⟨-, rfl⟩ := h; simp
    | cons l ls ih =>
      intro s0 s es h0 h
      obtain ⟨m, e1, e2, h1, h2, rfl⟩ := run_cons h
      obtain ⟨h3, h4⟩ := ext_step h0 h1
      simp only [List.mem_append, not_or]
      exact ⟨h4, ih _ _ _ h3 h2⟩
  exact key ls _ _ _ ⟨hw, rfl, by simp [init], by simp [init], by simp [init]⟩ h

/-! ## The code and the property disagree -/

/-- Asleep without a timer and without a time-out. -/
def asleep : Pc := .blocked none false (some 4294967295000000) none none none

theorem asleep_step {s s' : St} {l : Label} {es : List Event} (h : (s.t 0).pc = asleep) (hn : 0 < s.n) (hs : step s l = some (s', es)) :
    (s'.t 0).pc = asleep ∧ 0 < s'.n ∧ ∀ e ∈ es, e.ends 0 = false := by
  have hset : ∀ {v : Nat} {x : Thr}, (v = 0 → x.pc = asleep) → ((s.set v x).t 0).pc = asleep := by
    intro v x hx
    by_cases hv : 0 = v
    · subst hv; simpa [St.set] using hx rfl
    · simp only [St.set, upd_other _ _ hv]; exact h
  have hset2 : ∀ {v u : Nat} {x y : Thr}, v ≠ 0 → (u = 0 → x.pc = asleep) → (((s.set u x).set v y).t 0).pc = asleep := by
    intro v u x y hv hx
    have : (((s.set u x).set v y).t 0) = (s.set u x).t 0 := by simp only [St.set]; rw [upd_other _ _ (Ne.symm hv)]
    rw [this]; exact hset hx
  have hidle : ∀ {v : Nat}, (s.t v).pc = .idle → v ≠ 0 := by
    intro v hv he; subst he; rw [h] at hv; cases hv
  have hun : ∀ {v : Nat} {tgt : Option Nat} {p : Pc}, v ≠ 0 → (((s.unuse tgt).goto v p).t 0).pc = asleep := by
    intro v tgt p hv
    cases tgt with
    | none => exact hset (fun he => absurd he hv)
    | some u => exact hset2 hv (fun he => by subst he; exact h)
  have hunn : ∀ tgt, (s.unuse tgt).n = s.n := by intro tgt; cases tgt <;> rfl
  have hov : ∀ {v tgt s' es}, v ≠ 0 → overflow s v tgt = some (s', es) → (s'.t 0).pc = asleep ∧ 0 < s'.n ∧ ∀ e ∈ es, e.ends 0 = false := by
    intro v tgt s' es hv h1
    simp only [overflow, Option.some.injEq, Prod.mk.injEq] at h1
    obtain ⟨rfl, rfl⟩ := h1
    exact ⟨hun hv, by show 0 < (s.unuse tgt).n; rw [hunn]; exact hn, by simp [Event.ends, hv]⟩
  have hgu : ∀ {v tgt s' es}, v ≠ 0 → giveUp s v tgt = some (s', es) → (s'.t 0).pc = asleep ∧ 0 < s'.n ∧ ∀ e ∈ es, e.ends 0 = false := by
    intro v tgt s' es hv h1
    simp only [giveUp, Option.some.injEq, Prod.mk.injEq] at h1
    obtain ⟨rfl, rfl⟩ := h1
    exact ⟨hun hv, by show 0 < (s.unuse tgt).n; rw [hunn]; exact hn, by cases tgt <;> simp [Event.ends, hv]⟩
  cases l with
  | go v =>
    simp only [step] at hs
    have hv : v ≠ 0 := by
      intro he; subst he
      simp [go, h, asleep, St.signalled, over] at hs
    have hg : ∀ {p : Pc}, ((s.goto v p).t 0).pc = asleep := hset (fun he => absurd he hv)
    unfold go at hs
    split at hs
    · cases hs
    · split at hs
      · split at hs
        · cases hs; exact ⟨hg, hn, by simp⟩
        · exact hgu hv hs
      · exact hov hv hs
    · split at hs
      · cases hs; exact ⟨hg, hn, by simp⟩
      · exact hov hv hs
    · cases hs
    · rename_i tgt _ _ _ _ _ _
      split at hs
      · cases hs; exact ⟨hg, hn, by simp⟩
      · split at hs
        · cases hs; exact ⟨hun hv, by show 0 < (s.unuse tgt).n; rw [hunn]; exact hn, by simp⟩
        · split at hs
          · cases hs; exact ⟨hg, hn, by simp⟩
          · split at hs
            · split at hs
              · split at hs
                · split at hs
                  · cases hs; exact ⟨hg, hn, by simp⟩
                  · cases hs; exact ⟨hg, hn, by simp⟩
                · exact hov hv hs
              · cases hs; exact ⟨h, hn, by simp⟩
            · cases hs
    · split at hs
      · rename_i u _
        cases hs
        exact ⟨hset2 hv (fun he => by subst he; exact h), hn, by simp [Event.ends, hv]⟩
      · split at hs
        · exact hgu hv hs
        · cases hs; exact ⟨hg, hn, by simp⟩
    · cases hs; exact ⟨hset (fun he => absurd he hv), hn, by simp [Event.ends, hv]⟩
    · split at hs
      · cases hs; exact ⟨hg, hn, by simp⟩
      · cases hs; exact ⟨hg, hn, by simp [Event.ends, hv]⟩
  | arm v ok =>
    simp only [step] at hs
    have hv : v ≠ 0 := by
      intro he; subst he
      simp [armStep, h, asleep] at hs
    have hg : ∀ {p : Pc}, ((s.goto v p).t 0).pc = asleep := hset (fun he => absurd he hv)
    unfold armStep at hs
    split at hs
    · split at hs
      · cases hs; exact ⟨hg, hn, by simp⟩
      · split at hs
        · split at hs <;> cases hs <;> exact ⟨hg, hn, by simp⟩
        · exact hov hv hs
    · cases hs
  | call v c =>
    simp only [step] at hs
    split at hs
    · rename_i hc
      have hv := hidle hc.1
      have hg : ∀ {p : Pc}, ((s.goto v p).t 0).pc = asleep := hset (fun he => absurd he hv)
      unfold begin at hs
      split at hs
      · split at hs
        · cases hs; exact ⟨hg, hn, by simp [Event.ends]⟩
        · cases hs; exact ⟨h, hn, by simp [Event.ends, hv]⟩
      · rename_i u _
        split at hs
        · split at hs
          · cases hs; exact ⟨h, hn, by simp [Event.ends]⟩
          · split at hs
            · cases hs
            · split at hs
              · cases hs; exact ⟨hset2 hv (fun he => by subst he; exact h), hn, by simp [Event.ends]⟩
              · cases hs; exact ⟨h, hn, by simp [Event.ends, hv]⟩
        · cases hs; exact ⟨h, hn, by simp [Event.ends]⟩
    · cases hs
  | start v =>
    simp only [step] at hs
    split at hs
    · cases hs; exact ⟨hset (v := s.n) (fun he => by omega), Nat.succ_pos _, by simp [Event.ends]⟩
    · cases hs
  | tick d user => simp only [step] at hs; cases hs; exact ⟨h, hn, by simp [Event.ends]⟩
  | finish v => simp only [step] at hs; split at hs <;> cases hs; exact ⟨hset (fun he => by subst he; exact h), hn, by simp [Event.ends]⟩
  | detach v u => simp only [step] at hs; split at hs <;> cases hs; exact ⟨hset (fun he => by subst he; exact h), hn, by simp [Event.ends]⟩
  | interrupt v u =>
    simp only [step] at hs
    split at hs
    · split at hs
      · cases hs; exact ⟨hset (fun he => by subst he; exact h), hn, by simp [Event.ends]⟩
      · cases hs; exact ⟨h, hn, by simp [Event.ends]⟩
    · cases hs
  | disable v => simp only [step] at hs; split at hs <;> cases hs; exact ⟨hset (fun he => by subst he; exact h), hn, by simp [Event.ends]⟩
  | restore v i =>
    simp only [step] at hs
    split at hs
    · split at hs <;> cases hs
      exact ⟨hset (fun he => by subst he; exact h), hn, by simp [Event.ends]⟩
    · cases hs
  | close v =>
    simp only [step] at hs
    split at hs
    · split at hs <;> cases hs <;> exact ⟨hset (fun he => by subst he; exact h), hn, by simp [Event.ends]⟩
    · cases hs
  | joinable v u => simp only [step] at hs; split at hs <;> cases hs; exact ⟨h, hn, by simp [Event.ends]⟩
  | asked v u => simp only [step] at hs; split at hs <;> cases hs; exact ⟨h, hn, by simp [Event.ends]⟩
  | requested v => simp only [step] at hs; split at hs <;> cases hs; exact ⟨h, hn, by simp [Event.ends]⟩
  | enabled v => simp only [step] at hs; split at hs <;> cases hs; exact ⟨h, hn, by simp [Event.ends]⟩

/-- `no_interruption_point::sleep_for(4294967295 ms)` for which no timer can be had never returns: the time left, as a `DWORD`, is `INFINITE`. -/
theorem sleep_forever : ∃ ls s es, run step (init 1 0 0) ls = some (s, es) ∧ es = [.called 0 (.sleepFor true 4294967295000000)] ∧
    ∀ ls' s' es', run step s ls' = some (s', es') → ∀ e ∈ es', e.ends 0 = false := by
  refine ⟨[.call 0 (.sleepFor true 4294967295000000), .go 0, .arm 0 false], _, _, rfl, rfl, ?_⟩
  have key : ∀ (ls : List Label) (s0 s : St) (es : List Event), (s0.t 0).pc = asleep → 0 < s0.n → run step s0 ls = some (s, es) →
      ∀ e ∈ es, e.ends 0 = false := by
    intro ls
    induction ls with
    | nil => intro s0 s es _ _ h; simp only [run_nil, Option.some.injEq, Prod.mk.injEq] at h; obtain ⟨-, rfl⟩ := h; simp
    | cons l ls ih =>
      intro s0 s es h0 hn h
      obtain ⟨m, e1, e2, h1, h2, rfl⟩ := run_cons h
      obtain ⟨h3, h4, h5⟩ := asleep_step h0 hn h1
      intro e he
      rcases List.mem_append.1 he with he | he
      · exact h5 e he
      · exact ih _ _ _ h3 h4 h2 e he
  intro ls' s' es' h
  exact key ls' _ _ _ rfl (by decide) h

/-- A restorer for the disabler around it, inside another such restorer, switches interruption off when it goes, though the outer restorer is
there to keep it on. -/
theorem nested_restore : ∃ ls s, run step (init 1 0 0) ls = some (s, [.start 0 1, .disable 1, .restore 1 0, .enabled 1 true, .restore 1 1,
    .enabled 1 true, .close 1, .enabled 1 false]) :=
  ⟨[.start 0, .disable 1, .restore 1 0, .enabled 1, .restore 1 1, .enabled 1, .close 1, .enabled 1], _, rfl⟩

/-- A restorer for a disabler that was itself made while interruption was off, inside a restorer, leaves interruption on: the two disablers, the
restorer of the outer one, then that of the inner one. What the inner one found was "off". -/
theorem restore_keeps_on : ∃ ls s, run step (init 1 0 0) ls = some (s, [.start 0 1, .disable 1, .disable 1, .enabled 1 false, .restore 1 1,
    .enabled 1 true, .restore 1 1, .enabled 1 true]) :=
  ⟨[.start 0, .disable 1, .disable 1, .enabled 1, .restore 1 1, .enabled 1, .restore 1 1, .enabled 1], _, rfl⟩

/-- A `sleep_until` of a past time of the user's clock is no interruption point: the request stays. -/
theorem past_sleep_is_no_point : ∃ ls s, run step (init 1 0 100) ls = some (s, [.start 0 1, .interrupt 0 1, .called 1 (.sleepUntil false false 50),
    .slept 1, .requested 1 true]) :=
  ⟨[.start 0, .interrupt 0 1, .call 1 (.sleepUntil false false 50), .go 1, .requested 1], _, rfl⟩

/-- One of the steady clock is. -/
theorem past_steady_sleep_is_point : ∃ ls s, run step (init 1 100 0) ls = some (s, [.start 0 1, .interrupt 0 1, .called 1 (.sleepUntil false true 50),
    .interrupted 1, .requested 1 false]) :=
  ⟨[.start 0, .interrupt 0 1, .call 1 (.sleepUntil false true 50), .go 1, .arm 1 true, .go 1, .go 1, .requested 1], _, rfl⟩

/-! ## The hypotheses are met -/

/-- Thread 1 joins with thread 2 for a while, is interrupted, sleeps with interruption disabled, and joins again. -/
def exampleRun : List Label :=
  [.start 0, .start 1, .call 1 (.tryJoinFor 2 1500000), .go 1, .arm 1 true, .interrupt 0 1, .go 1, .go 1, .disable 1, .interrupt 0 1,
   .call 1 (.sleepFor false 1500000), .go 1, .arm 1 false, .tick 1000000 5, .tick 1000000 6, .go 1, .go 1, .requested 1, .finish 2,
   .call 1 (.join 2), .arm 1 true, .go 1, .go 1, .joinable 1 2]

def exampleEvents : List Event :=
  [.start 0 1, .start 1 2, .called 1 (.tryJoinFor 2 1500000), .interrupt 0 1, .interrupted 1, .disable 1, .interrupt 0 1,
   .called 1 (.sleepFor false 1500000), .clock 1000000 5, .clock 2000000 6, .slept 1, .requested 1 true, .ended 2, .called 1 (.join 2), .joined 1,
   .joinable 1 2 false]

example : ∃ s, run step (init 1 0 0) exampleRun = some (s, exampleEvents) := ⟨_, rfl⟩

-- the specification rejects what must not happen
-- a join that returns early
example : specState next (specInit 1 0 0) [.start 0 1, .called 0 (.join 1), .joined 0] = none := rfl
example : ¬ Accepts next (specInit 1 0 0) [.start 0 1, .called 0 (.join 1), .joined 0] := by simp [Accepts, next, specInit, Sys.set, Call.target, upd]
-- `thread_interrupted` while disabled
example : ¬ Accepts next (specInit 1 0 0) [.start 0 1, .disable 1, .interrupt 0 1, .called 1 .point, .interrupted 1] := by
  simp [Accepts, next, specInit, Sys.set, Call.target, Call.intr, upd, STh.allowed, allowed]
-- a missed request
example : ¬ Accepts next (specInit 1 0 0) [.start 0 1, .interrupt 0 1, .called 1 .point, .passed 1] := by
  simp [Accepts, next, specInit, Sys.set, Call.target, Call.intr, Call.strict, upd, STh.allowed, allowed]
-- a sleep that ends early
example : ¬ Accepts next (specInit 1 0 0) [.called 0 (.sleepFor true 10), .clock 9 100, .slept 0] := by
  simp [Accepts, next, specInit, Sys.set, Call.target, Call.strict, upd, STh.allowed, allowed, Call.deadline, Deadline.reached, Deadline.look]

-- `interruption_delivered`: blocked in a join, then asked to stop
example : ∃ s σ a, run step (init 1 0 0) [.start 0, .start 1, .call 1 (.join 2), .arm 1 true, .interrupt 0 1] = some (s,
      [.start 0 1, .start 1 2, .called 1 (.join 2), .interrupt 0 1]) ∧
    specState next (specInit 1 0 0) [.start 0 1, .start 1 2, .called 1 (.join 2), .interrupt 0 1] = some σ ∧
    (σ.th 1).call = some a ∧ a.call.intr = true ∧ (σ.th 1).pending = true ∧ (σ.th 1).allowed = true :=
  ⟨_, _, ⟨.join 2, .never, false⟩, rfl, rfl, rfl, rfl, rfl, rfl⟩

-- `join_returns`
example : ∃ s σ a, run step (init 1 0 0) [.start 0, .call 0 (.join 1), .arm 0 true, .finish 1] = some (s,
      [.start 0 1, .called 0 (.join 1), .ended 1]) ∧
    specState next (specInit 1 0 0) [.start 0 1, .called 0 (.join 1), .ended 1] = some σ ∧
    (σ.th 0).call = some a ∧ a.call.target = some 1 ∧ (σ.th 1).fin = true :=
  ⟨_, _, ⟨.join 1, .never, false⟩, rfl, rfl, rfl, rfl, rfl⟩

-- `timed_call_ends_partial`: the fallback without timer, and a clock that was set back
example : ∃ s σ a, run stepTame (init 1 0 0) [.start 0, .call 0 (.tryJoinUntil 1 false 300000000), .go 0, .go 0, .arm 0 false, .tick 5 (-7)] = some (s,
      [.start 0 1, .called 0 (.tryJoinUntil 1 false 300000000), .clock 5 (-7)]) ∧
    specState next (specInit 1 0 0) [.start 0 1, .called 0 (.tryJoinUntil 1 false 300000000), .clock 5 (-7)] = some σ ∧
    (σ.th 0).call = some a ∧ a.dl ≠ .never ∧ ∀ t seen, a.dl = .user t seen → t ≤ 300000000 :=
  ⟨_, _, ⟨.tryJoinUntil 1 false 300000000, .user 300000000 false, false⟩, rfl, rfl, rfl, by simp, by intro t seen h; cases h; omega⟩

-- `external_never_interrupted`: an external thread at an interruption point
example : ∃ s, run step (init 1 0 0) [.disable 0, .restore 0 0, .call 0 .point, .go 0, .enabled 0] = some (s,
    [.disable 0, .restore 0 0, .called 0 .point, .passed 0, .enabled 0 false]) := ⟨_, rfl⟩

end Verif.WinThread
