import Verif.SerialCont.Model
/-!
# The chain of futures is a queue

At every moment one closure, the front, is in the hands of somebody; the closures before it have ended, the ones after it wait in the list of continuations of the one before.
-/

set_option linter.unusedSimpArgs false

namespace Verif.SerialCont

/-- What is being done with the front. -/
inductive Ph where
  /-- nothing is left -/
  | idle
  /-- `submit` is about to give it to the underlying executor -/
  | subm
  /-- the thread that has carried out the closure before it is about to do so -/
  | pass
  | handed
  | running
  | marking
  /-- nobody will -/
  | stuck
deriving DecidableEq, Repr

def Ph.job : Ph → Job
  | .handed => .handed
  | .running => .running
  | .marking => .marking
  | _ => .waiting

def jobOf (f : Nat) (ph : Ph) (n d : Nat) : Job :=
  if d < f then (if ph = .pass ∧ d + 1 = f then .launching [f] else .finished) else if d < n then (if d = f then ph.job else .waiting) else .none

/-- With `mtx_`? -/
def PC.holds : PC → Bool
  | .attach | .launch _ | .inline _ => true
  | _ => false

/-- Has `fut_` been moved from? -/
def PC.moved : PC → Bool
  | .launch _ | .inline _ => true
  | _ => false

structure FInv (s : State) (f : Nat) (ph : Ph) : Prop where
  done : ∀ i, (s.node i).done = decide (i ≤ f)
  conts : ∀ i, (s.node i).conts = if f < i ∧ i < s.n then [i] else []
  job : ∀ d, s.job d = jobOf f ph s.n d
  le : f ≤ s.n
  idle : ph = .idle ↔ f = s.n
  fut : ∀ p, s.fut = some p → p = s.n ∧ ∀ k, (s.pc k).moved = false
  launch : ∀ k c, s.pc k = .launch c → c = f ∧ f + 1 = s.n ∧ ph = .subm
  inline : ∀ k c, s.pc k = .inline c → (c = f ∧ f + 1 = s.n ∧ (ph = .running ∨ ph = .marking)) ∨ (c + 1 = f ∧ ph = .idle)
  holds : ∀ k, (s.pc k).holds = true → s.mtx = some k
  held : ∀ k, s.mtx = some k → (s.pc k).holds = true
  subm : ph = .subm → ∃ k, s.pc k = .launch f
  pass : ph = .pass → 0 < f

theorem FInv.init : FInv init 0 .idle := by
  constructor <;> simp [SerialCont.init, jobOf, PC.moved, PC.holds]
  intro i; rfl

/-- What has been seen of the closures. -/
def seen (f : Nat) (ph : Ph) : List Event := serial f ++ (if ph = .running then [.started f] else if ph = .marking then [.started f, .ended f] else [])

theorem serial_succ (f : Nat) : serial (f + 1) = serial f ++ [.started f, .ended f] := by simp [serial, List.range_succ]

/-- What a closure is for the specification. -/
def stOf (f : Nat) (ph : Ph) (d : Nat) : St :=
  if d < f then .done else if d = f then (match ph with | .running => .running | .marking => .done | .stuck => .dropped | _ => .waiting) else .waiting

/-- What an event makes of the closures. -/
def stEv (g : Nat → St) : Event → Nat → St
  | .started c => upd g c .running
  | .ended c => upd g c .done
  | .failed _ c | .lost c => upd g c .dropped
  | _ => g

/-- How a step moves the front. -/
def Moves (s' : State) (f : Nat) (ph : Ph) (es : List Event) : Prop := ∃ f' ph', FInv s' f' ph' ∧ seen f' ph' = seen f ph ++ es.filter isRun ∧ stOf f' ph' = es.foldl stEv (stOf f ph)

theorem Moves.same {s' : State} {f : Nat} {ph : Ph} {es : List Event} (h : FInv s' f ph) (he : es.filter isRun = []) (hg : ∀ g, es.foldl stEv g = g) : Moves s' f ph es :=
  ⟨f, ph, h, by rw [he, List.append_nil], (hg _).symm⟩

/-- Only a caller that does not hold `mtx_` moves, and takes nothing. -/
theorem FInv.setPc {s : State} {f : Nat} {ph : Ph} (h : FInv s f ph) {k : Caller} {q : PC} (hk : (s.pc k).holds = false) (hq : q.holds = false) : FInv { s with pc := upd s.pc k q } f ph := by
  have hm : q.moved = false := by cases q <;> simp [PC.holds] at hq <;> rfl
  have h1 := h.held; have h2 := h.holds; have h3 := h.launch; have h4 := h.inline; have h5 := h.fut; have h6 := h.subm
  refine { h with fut := ?_, launch := ?_, inline := ?_, holds := ?_, held := ?_, subm := ?_ } <;> simp only [upd_apply]
  · intro p hp; refine ⟨(h5 p hp).1, fun j => ?_⟩; split
    · exact hm
    · exact (h5 p hp).2 j
  · intro j c; split
    · rintro rfl; simp [PC.holds] at hq
    · exact h3 j c
  · intro j c; split
    · rintro rfl; simp [PC.holds] at hq
    · exact h4 j c
  · intro j; split
    · rw [hq]; simp
    · exact h2 j
  · intro j hj; split
    · rename_i hjk; subst hjk; have := h1 j hj; rw [hk] at this; cases this
    · exact h1 j hj
  · intro hp; obtain ⟨j, hj⟩ := h6 hp; refine ⟨j, ?_⟩
    split
    · rename_i hjk; subst hjk; rw [hj] at hk; simp [PC.holds] at hk
    · exact hj

/-- Nobody else is in `submit` with `mtx_`. -/
theorem FInv.alone {s : State} {f : Nat} {ph : Ph} (h : FInv s f ph) {k j : Caller} (hk : (s.pc k).holds = true) (hj : (s.pc j).holds = true) : j = k := by
  have a := h.holds k hk; have b := h.holds j hj; rw [a] at b; cases b; rfl

theorem holds_of_moved {q : PC} (h : q.moved = true) : q.holds = true := by cases q <;> simp [PC.moved] at h <;> rfl

theorem FInv.finishSubmit {s : State} {f : Nat} {ph : Ph} {k : Caller} {c : Nat} (hd : ∀ i, (s.node i).done = decide (i ≤ f)) (hc : ∀ i, (s.node i).conts = if f < i ∧ i < s.n then [i] else [])
    (hj : ∀ d, s.job d = jobOf f ph s.n d) (hle : f ≤ s.n) (hi : ph = .idle ↔ f = s.n) (hn : c + 1 = s.n) (hh : ∀ j, j ≠ k → (s.pc j).holds = false) (hs : ph ≠ .subm) (hp : ph = .pass → 0 < f) :
    FInv (finishSubmit s k c) f ph := by
  have hm : ∀ j, j ≠ k → (s.pc j).moved = false := by
    intro j hj'
    cases hq : (s.pc j).moved with
    | false => rfl
    | true => have := hh j hj'; rw [holds_of_moved hq] at this; cases this
  refine { done := hd, conts := hc, job := hj, le := hle, idle := hi, fut := ?_, launch := ?_, inline := ?_, holds := ?_, held := ?_, subm := fun h => absurd h hs, pass := hp } <;>
    simp only [SerialCont.finishSubmit, upd_apply]
  · rintro p hp; cases hp; refine ⟨hn, fun j => ?_⟩; split
    · rfl
    · rename_i hjk; exact hm j hjk
  · intro j d; split
    · simp
    · rename_i hjk; intro hx; have := hh j hjk; rw [hx] at this; simp [PC.holds] at this
  · intro j d; split
    · simp
    · rename_i hjk; intro hx; have := hh j hjk; rw [hx] at this; simp [PC.holds] at this
  · intro j; split
    · simp [PC.holds]
    · rename_i hjk; rw [hh j hjk]; simp
  · intro j hj'; cases hj'

theorem FInv.others {s : State} {f : Nat} {ph : Ph} (h : FInv s f ph) {k : Caller} (hk : (s.pc k).holds = true) : ∀ j, j ≠ k → (s.pc j).holds = false := by
  intro j hj
  cases hq : (s.pc j).holds with
  | false => rfl
  | true => exact absurd (h.alone hk hq) hj

set_option maxHeartbeats 1000000 in
theorem stepGo_front {s s' : State} {f : Nat} {ph : Ph} {k : Caller} {es : List Event} (h : FInv s f ph) (hs : stepGo s k = some (s', es)) : Moves s' f ph es := by
  simp only [stepGo] at hs
  split at hs
  · cases hs
  · rename_i o hpc
    have hk : (s.pc k).holds = false := by rw [hpc]; rfl
    split at hs
    · cases hs; exact .same (h.setPc hk rfl) rfl (fun _ => rfl)
    · split at hs
      · rename_i hm
        split at hs
        · cases hs; refine .same ?_ rfl (fun _ => rfl); exact { h.setPc (k := k) (q := .idle) hk rfl with }
        · cases hs; exact .same (h.setPc hk rfl) rfl (fun _ => rfl)
        · split at hs
          · cases hs; exact .same (h.setPc hk rfl) rfl (fun _ => rfl)
          · cases hs
            refine .same ?_ rfl (fun _ => rfl)
            have hno : ∀ j, (s.pc j).holds = false := by
              intro j
              cases hq : (s.pc j).holds with
              | false => rfl
              | true => have := h.holds j hq; rw [hm] at this; cases this
            have h3 := h.launch; have h4 := h.inline; have h5 := h.fut; have h6 := h.subm
            refine { h with fut := ?_, launch := ?_, inline := ?_, holds := ?_, held := ?_, subm := ?_ } <;> simp only [upd_apply]
            · intro p hp; refine ⟨(h5 p hp).1, fun j => ?_⟩; split
              · rfl
              · exact (h5 p hp).2 j
            · intro j c; split
              · simp
              · exact h3 j c
            · intro j c; split
              · simp
              · exact h4 j c
            · intro j; split
              · rename_i hjk; subst hjk; simp
              · rw [hno]; simp
            · intro j hj; cases hj; simp [PC.holds]
            · intro hp; obtain ⟨j, hj⟩ := h6 hp; have := hno j; rw [hj] at this; simp [PC.holds] at this
      · cases hs
  · rename_i hpc
    have hk : (s.pc k).holds = true := by rw [hpc]; rfl
    have hoth := h.others hk
    split at hs
    · rename_i hfut
      cases hs
      refine .same ?_ rfl (fun _ => rfl)
      have h3 := h.launch; have h4 := h.inline; have h6 := h.subm
      refine { h with fut := ?_, launch := ?_, inline := ?_, holds := ?_, held := ?_, subm := ?_ } <;> simp only [upd_apply]
      · intro p hp; rw [hfut] at hp; cases hp
      · intro j c; split
        · simp
        · exact h3 j c
      · intro j c; split
        · simp
        · exact h4 j c
      · intro j; split
        · simp [PC.holds]
        · rename_i hjk; rw [hoth j hjk]; simp
      · intro j hj; cases hj
      · intro hp; obtain ⟨j, hj⟩ := h6 hp; refine ⟨j, ?_⟩
        split
        · rename_i hjk; subst hjk; rw [hpc] at hj; cases hj
        · exact hj
    · rename_i p hp
      obtain ⟨rfl, hmv⟩ := h.fut p hp
      split at hs
      · rename_i hdone
        rw [h.done] at hdone
        have hfn : f = s.n := by have := h.le; simp at hdone; omega
        have hph := h.idle.2 hfn
        cases hs
        refine ⟨f, .subm, ?_, by rw [hph]; simp [seen, isRun], by funext e; simp only [stOf, stEv, List.foldl, upd_apply]; grind⟩
        have h1 := h.done; have h2 := h.conts; have h3 := h.job; have h4 := h.launch; have h5 := h.inline
        constructor
        · exact h1
        · intro i; rw [h2]; simp only; grind
        · intro d; simp only [upd_apply, h3, jobOf, hph, Ph.job]; grind
        · simp only; omega
        · simp only; constructor <;> intro hx
          · cases hx
          · omega
        · intro q hq; cases hq
        · intro j c; simp only [upd_apply]; split
          · intro hx; cases hx; exact ⟨hfn.symm, by omega, trivial⟩
          · rename_i hjk; intro hx; have := hoth j hjk; rw [hx] at this; simp [PC.holds] at this
        · intro j c; simp only [upd_apply]; split
          · simp
          · rename_i hjk; intro hx; have := hoth j hjk; rw [hx] at this; simp [PC.holds] at this
        · intro j; simp only [upd_apply]; split
          · rename_i hjk; subst hjk; intro _; exact h.holds j hk
          · rename_i hjk; rw [hoth j hjk]; simp
        · intro j hj; simp only [upd_apply]; split
          · rfl
          · exact h.held j hj
        · intro _; exact ⟨k, by simp [upd_apply, hfn]⟩
        · simp
      · rename_i hdone
        rw [h.done] at hdone
        have hfn : f < s.n := by simp at hdone; omega
        cases hs
        refine .same ?_ rfl (fun _ => rfl)
        have hns : ph ≠ .subm := by
          intro hx; obtain ⟨j, hj⟩ := h.subm hx; have := hmv j; rw [hj] at this; simp [PC.moved] at this
        have h1 := h.done; have h2 := h.conts; have h3 := h.job
        have h9 : ph ≠ .idle := by intro hx; have := h.idle.1 hx; omega
        refine FInv.finishSubmit ?_ ?_ ?_ ?_ ?_ rfl ?_ hns h.pass
        · intro i; simp only [upd_apply]; split
          · rename_i hi; rw [hi]; exact h1 _
          · exact h1 i
        · intro i; simp only [upd_apply]; grind
        · intro d; simp only [upd_apply, h3, jobOf]; grind
        · simp only; omega
        · simp only; constructor <;> intro hx
          · exact absurd hx h9
          · omega
        · exact hoth
  · cases hs
  · rename_i c hpc
    split at hs <;> cases hs
    rename_i hj
    have hk : (s.pc k).holds = true := by rw [hpc]; rfl
    refine .same ?_ rfl (fun _ => rfl)
    have hc : c + 1 = f ∧ ph = .idle := by
      rcases h.inline k c hpc with ⟨h1, h2, h3⟩ | hx
      · exfalso
        rw [h.job, jobOf, h1, if_neg (by omega), if_pos (by omega), if_pos rfl] at hj
        rcases h3 with h3 | h3 <;> rw [h3] at hj <;> cases hj
      · exact hx
    have hfn := h.idle.1 hc.2
    exact FInv.finishSubmit h.done h.conts h.job h.le h.idle (by omega) (h.others hk) (by rw [hc.2]; simp) h.pass

theorem job_front {s : State} {f : Nat} {ph : Ph} (h : FInv s f ph) {c : Nat} {j : Job} (hj : s.job c = j) (h1 : j ≠ .none) (h2 : j ≠ .waiting) (h3 : j ≠ .finished) (h4 : ∀ l, j ≠ .launching l) :
    c = f ∧ f < s.n ∧ ph.job = j := by
  rw [h.job, jobOf] at hj
  split at hj
  · split at hj
    · exact absurd hj.symm (h4 _)
    · exact absurd hj.symm h3
  · split at hj
    · split at hj
      · rename_i a b c; exact ⟨c, by omega, hj⟩
      · exact absurd hj.symm h2
    · exact absurd hj.symm h1

theorem job_pass {s : State} {f : Nat} {ph : Ph} (h : FInv s f ph) {c : Nat} {l : List Nat} (hj : s.job c = .launching l) : c + 1 = f ∧ ph = .pass ∧ l = [f] := by
  rw [h.job, jobOf] at hj
  split at hj
  · split at hj
    · rename_i hx; cases hj; exact ⟨hx.2, hx.1, rfl⟩
    · cases hj
  · split at hj
    · split at hj
      · cases ph <;> cases hj
      · cases hj
    · cases hj

/-- What is done with the front changes, nothing else. -/
theorem FInv.setPh {s : State} {f : Nat} {ph ph' : Ph} (h : FInv s f ph) (hf : f < s.n) (h1 : ph ≠ .subm) (h2 : ph ≠ .pass) (h3 : ph' ≠ .idle) (h4 : ph' ≠ .subm) (h5 : ph' ≠ .pass)
    (h6 : ∀ k c, s.pc k = .inline c → ph' = .running ∨ ph' = .marking) : FInv { s with job := upd s.job f ph'.job } f ph' := by
  have h7 := h.job
  refine { h with job := ?_, idle := ?_, launch := ?_, inline := ?_, subm := fun hx => absurd hx h4, pass := fun hx => absurd hx h5 }
  · intro d; simp only [upd_apply, h7, jobOf]; grind
  · exact ⟨fun hx => absurd hx h3, fun hx => by simp only at hx; omega⟩
  · intro k c hk; exact absurd (h.launch k c hk).2.2 h1
  · intro k c hk
    rcases h.inline k c hk with hx | hx
    · exact .inl ⟨hx.1, hx.2.1, h6 k c hk⟩
    · have := h.idle.1 hx.2; omega

theorem FInv.running_of_handed {s : State} {f : Nat} (h : FInv s f .handed) {k : Caller} {c : Nat} (hk : s.pc k = .inline c) : False := by
  rcases h.inline k c hk with ⟨-, -, hx | hx⟩ | hx
  · cases hx
  · cases hx
  · cases hx.2

set_option maxHeartbeats 1000000 in
theorem step_front {s s' : State} {f : Nat} {ph : Ph} {l : Label} {es : List Event} (h : FInv s f ph) (hs : step s l = some (s', es)) : Moves s' f ph es := by
  simp only [step] at hs
  split at hs
  · cases hs
  cases l with
  | call k o =>
    simp only [stepLive] at hs
    split at hs <;> cases hs
    rename_i hm
    refine .same (h.setPc ?_ rfl) rfl (fun _ => rfl)
    cases k <;> simp only [mayCall, Bool.and_eq_true, beq_iff_eq] at hm <;> rw [hm.1] <;> rfl
  | go k => exact stepGo_front h hs
  | give k =>
    simp only [stepLive, stepGive] at hs
    split at hs <;> cases hs
    rename_i c hpc
    have hk : (s.pc k).holds = true := by rw [hpc]; rfl
    obtain ⟨rfl, hn, rfl⟩ := h.launch k c hpc
    refine ⟨c, .handed, ?_, by simp [seen]; try rfl, by funext e; simp only [stOf, stEv, List.foldl, upd_apply]⟩
    have h3 := h.job
    refine FInv.finishSubmit h.done h.conts ?_ h.le ?_ hn (h.others hk) (by simp) (by simp)
    · intro d; simp only [upd_apply, h3, jobOf, Ph.job]; grind
    · simp only; constructor <;> intro hx
      · cases hx
      · omega
  | giveInline k =>
    simp only [stepLive, stepGiveInline] at hs
    split at hs <;> cases hs
    rename_i c hpc
    have hk : (s.pc k).holds = true := by rw [hpc]; rfl
    have hoth := h.others hk
    obtain ⟨rfl, hn, rfl⟩ := h.launch k c hpc
    refine ⟨c, .running, ?_, by simp [seen]; try rfl, by funext e; simp only [stOf, stEv, List.foldl, upd_apply]; grind⟩
    have h3 := h.job
    refine { h with job := ?_, idle := ?_, fut := ?_, launch := ?_, inline := ?_, holds := ?_, held := ?_, subm := ?_, pass := ?_ } <;> (try simp only [upd_apply])
    · intro d; simp only [h3, jobOf, Ph.job]; grind
    · constructor <;> intro hx
      · cases hx
      · omega
    · intro p hp; have := (h.fut p hp).2 k; rw [hpc] at this; cases this
    · intro j d; split
      · simp
      · rename_i hjk; intro hx; have := hoth j hjk; rw [hx] at this; simp [PC.holds] at this
    · intro j d; split
      · intro hx; cases hx; exact .inl ⟨rfl, hn, .inl trivial⟩
      · rename_i hjk; intro hx; have := hoth j hjk; rw [hx] at this; simp [PC.holds] at this
    · intro j; split
      · rename_i hjk; subst hjk; intro _; exact h.holds j hk
      · rename_i hjk; rw [hoth j hjk]; simp
    · intro j hj; split
      · rfl
      · exact h.held j hj
    · simp
    · simp
  | reject k =>
    simp only [stepLive, stepReject] at hs
    split at hs <;> cases hs
    rename_i c hpc
    have hk : (s.pc k).holds = true := by rw [hpc]; rfl
    have hoth := h.others hk
    obtain ⟨rfl, hn, rfl⟩ := h.launch k c hpc
    refine ⟨c, .stuck, ?_, by simp [seen]; try rfl, by funext e; simp only [stOf, stEv, List.foldl, upd_apply]; grind⟩
    have h3 := h.job
    refine { h with job := ?_, idle := ?_, fut := ?_, launch := ?_, inline := ?_, holds := ?_, held := ?_, subm := ?_, pass := ?_ } <;> (try simp only [upd_apply])
    · intro d; simp only [h3, jobOf, Ph.job]; grind
    · constructor <;> intro hx
      · cases hx
      · omega
    · intro p hp; have := (h.fut p hp).2 k; rw [hpc] at this; cases this
    · intro j d; split
      · simp
      · rename_i hjk; intro hx; have := hoth j hjk; rw [hx] at this; simp [PC.holds] at this
    · intro j d; split
      · simp
      · rename_i hjk; intro hx; have := hoth j hjk; rw [hx] at this; simp [PC.holds] at this
    · intro j; split
      · simp [PC.holds]
      · rename_i hjk; rw [hoth j hjk]; simp
    · intro j hj; cases hj
    · simp
    · simp
  | begin c =>
    simp only [stepLive] at hs
    split at hs <;> cases hs
    rename_i hj
    obtain ⟨rfl, hf, hp⟩ := job_front h hj (by simp) (by simp) (by simp) (by simp)
    have hph : ph = .handed := by cases ph <;> simp [Ph.job] at hp <;> rfl
    subst hph
    exact ⟨c, .running, h.setPh (ph' := .running) hf (by simp) (by simp) (by simp) (by simp) (by simp) (by simp), by simp [seen]; try rfl, by funext e; simp only [stOf, stEv, List.foldl, upd_apply]; grind⟩
  | finish c =>
    simp only [stepLive] at hs
    split at hs <;> cases hs
    rename_i hj
    obtain ⟨rfl, hf, hp⟩ := job_front h hj.1 (by simp) (by simp) (by simp) (by simp)
    have hph : ph = .running := by cases ph <;> simp [Ph.job] at hp <;> rfl
    subst hph
    exact ⟨c, .marking, h.setPh (ph' := .marking) hf (by simp) (by simp) (by simp) (by simp) (by simp) (by simp), by simp [seen]; try rfl, by funext e; simp only [stOf, stEv, List.foldl, upd_apply]; grind⟩
  | throw c =>
    simp only [stepLive] at hs
    split at hs <;> cases hs
    exact .same { h with } rfl (fun _ => rfl)
  | mark c =>
    simp only [stepLive, stepMark] at hs
    split at hs <;> cases hs
    rename_i hj
    obtain ⟨rfl, hf, hp⟩ := job_front h hj (by simp) (by simp) (by simp) (by simp)
    have hph : ph = .marking := by cases ph <;> simp [Ph.job] at hp <;> rfl
    subst hph
    have h1 := h.done; have h2 := h.conts; have h3 := h.job
    have hseen : ∀ ph', ph' ≠ .running → ph' ≠ .marking → seen (c + 1) ph' = seen c .marking := by intro ph' a b; simp [seen, serial_succ, a, b]
    by_cases hl : c + 1 = s.n
    · have hcs : (s.node (c + 1)).conts = [] := by rw [h2, if_neg (by omega)]
      refine ⟨c + 1, .idle, ?_, by rw [hseen _ (by simp) (by simp)]; simp, by funext e; simp only [stOf, stEv, List.foldl, upd_apply]; grind⟩
      rw [hcs, if_pos rfl]
      refine { h with done := ?_, conts := ?_, job := ?_, le := ?_, idle := ?_, launch := ?_, inline := ?_, subm := by simp, pass := by simp }
      · intro i; simp only [upd_apply]; grind
      · intro i; simp only [upd_apply]; grind
      · intro d; simp only [upd_apply, h3, jobOf, Ph.job]; grind
      · simp only; omega
      · exact ⟨fun _ => hl, fun _ => rfl⟩
      · intro k d hk; have := (h.launch k d hk).2.2; cases this
      · intro k d hk
        rcases h.inline k d hk with hx | hx
        · exact .inr ⟨by omega, rfl⟩
        · cases hx.2
    · have hcs : (s.node (c + 1)).conts = [c + 1] := by rw [h2, if_pos (by omega)]
      refine ⟨c + 1, .pass, ?_, by rw [hseen _ (by simp) (by simp)]; simp, by funext e; simp only [stOf, stEv, List.foldl, upd_apply]; grind⟩
      rw [hcs, if_neg (by simp)]
      refine { h with done := ?_, conts := ?_, job := ?_, le := ?_, idle := ?_, launch := ?_, inline := ?_, subm := by simp, pass := by simp }
      · intro i; simp only [upd_apply]; grind
      · intro i; simp only [upd_apply]; grind
      · intro d; simp only [upd_apply, h3, jobOf, Ph.job]; grind
      · simp only; omega
      · simp; omega
      · intro k d hk; have := (h.launch k d hk).2.2; cases this
      · intro k d hk
        rcases h.inline k d hk with hx | hx
        · omega
        · cases hx.2
  | pass c =>
    simp only [stepLive, stepPass] at hs
    split at hs <;> cases hs
    rename_i d l hj
    obtain ⟨hc, rfl, hl⟩ := job_pass h hj
    simp only [List.cons.injEq] at hl
    obtain ⟨rfl, rfl⟩ := hl
    have hrun : (accessEx s).filter isRun = [] := by simp only [accessEx]; split <;> rfl
    have hf : d < s.n := by
      have := h.le; have h9 := h.idle.2
      rcases Nat.lt_or_ge d s.n with h' | h'
      · exact h'
      · have := h9 (by omega); cases this
    have h3 := h.job
    refine ⟨d, .handed, ?_, by rw [hrun]; simp [seen], by funext e; simp only [accessEx]; split <;> simp only [stOf, stEv, List.foldl, upd_apply, List.cons_append, List.nil_append] <;> grind⟩
    rw [if_pos rfl]
    refine { h with job := ?_, idle := ?_, launch := ?_, inline := ?_, subm := by simp, pass := by simp }
    · intro e; simp only [upd_apply, h3, jobOf, Ph.job]; grind
    · simp; omega
    · intro k e hk; have := (h.launch k e hk).2.2; cases this
    · intro k e hk
      rcases h.inline k e hk with ⟨-, -, hx | hx⟩ | hx
      · cases hx
      · cases hx
      · cases hx.2
  | passReject c =>
    simp only [stepLive, stepPassReject] at hs
    split at hs <;> cases hs
    rename_i d l hj
    obtain ⟨hc, rfl, hl⟩ := job_pass h hj
    simp only [List.cons.injEq] at hl
    obtain ⟨rfl, rfl⟩ := hl
    have hrun : (accessEx s ++ [Event.lost d]).filter isRun = [] := by simp only [accessEx]; split <;> rfl
    have hf : d < s.n := by
      have := h.le; have h9 := h.idle.2
      rcases Nat.lt_or_ge d s.n with h' | h'
      · exact h'
      · have := h9 (by omega); cases this
    have h3 := h.job
    refine ⟨d, .stuck, ?_, by rw [hrun]; simp [seen], by funext e; simp only [accessEx]; split <;> simp only [stOf, stEv, List.foldl, upd_apply, List.cons_append, List.nil_append] <;> grind⟩
    refine { h with job := ?_, idle := ?_, launch := ?_, inline := ?_, subm := by simp, pass := by simp }
    · intro e; simp only [upd_apply, h3, jobOf, Ph.job]; grind
    · simp; omega
    · intro k e hk; have := (h.launch k e hk).2.2; cases this
    · intro k e hk
      rcases h.inline k e hk with ⟨-, -, hx | hx⟩ | hx
      · cases hx
      · cases hx
      · cases hx.2
  | destroy t =>
    simp only [stepLive] at hs
    split at hs <;> cases hs
    exact .same { h with } rfl (fun _ => rfl)
  | destroyEnd =>
    simp only [stepLive] at hs
    split at hs
    · cases hs
    · split at hs <;> cases hs
      exact .same { h with } rfl (fun _ => rfl)

/-- In every run. -/
theorem reach_front {ls : List Label} {s : State} {es : List Event} (h : run step init ls = some (s, es)) : ∃ f ph, FInv s f ph ∧ es.filter isRun = seen f ph := by
  have := run_inv_hist (step := step) (fun s hist => ∃ f ph, FInv s f ph ∧ hist.filter isRun = seen f ph) (fun s l s' hist es h hs => by
    obtain ⟨f, ph, hf, hh⟩ := h
    obtain ⟨f', ph', hf', hs', -⟩ := step_front hf hs
    exact ⟨f', ph', hf', by rw [List.filter_append, hh, hs']⟩) (hist := []) ⟨0, .idle, FInv.init, rfl⟩ h
  simpa using this

end Verif.SerialCont
