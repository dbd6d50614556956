import Verif.TaskRegion.Model
/-!
# Task regions: simulation
-/
set_option linter.unusedSimpArgs false
set_option linter.unusedVariables false

namespace Verif.TaskRegion

@[simp] theorem upd_same {α : Type} (f : Nat → α) (i : Nat) (x : α) : upd f i x i = x := by simp [upd]
theorem upd_other {α : Type} (f : Nat → α) {i j : Nat} (x : α) (h : j ≠ i) : upd f i x j = f j := by simp [upd, h]
@[simp] theorem updW_same {α : Type} (f : Who → α) (w : Who) (x : α) : updW f w x w = x := by simp [updW]
theorem updW_other {α : Type} (f : Who → α) {v w : Who} (x : α) (h : v ≠ w) : updW f w x v = f v := by simp [updW, h]

mutual
theorem handle_eq (errors : List Nat) : ∀ e : Exc, handle errors e = errors ++ e.leaves
  | .canceled => by simp [handle, Exc.leaves]
  | .user n => by simp [handle, Exc.leaves]
  | .list l => by simp only [handle, Exc.leaves]; exact handleAll_eq errors l
theorem handleAll_eq (errors : List Nat) : ∀ l : List Exc, handleAll errors l = errors ++ leavesAll l
  | [] => by simp [handleAll, leavesAll]
  | e :: l => by simp only [handleAll, leavesAll]; rw [handle_eq errors e, handleAll_eq _ l, List.append_assoc]
end

/-- What the specification knows of a task. -/
def TSt.shown : TSt → STask
  | .queued => .created
  | .running => .running
  | .thrown e | .failing e => .over (some e)
  | .done o => .over o

theorem collect_eq {task : Nat → Task} {group : List Nat} (h : ∀ t ∈ group, (task t).st.isDone = true) (exs : List Nat) :
    collect task exs group = exs ++ group.flatMap fun t => (task t).st.shown.errors := by
  induction group generalizing exs with
  | nil => simp [collect]
  | cons t g ih =>
    have h1 := h t (List.mem_cons_self ..)
    have h2 := fun exs => ih (fun u hu => h u (List.mem_cons_of_mem _ hu)) exs
    simp only [collect, List.foldl_cons] at h2 ⊢
    rw [h2, List.flatMap_cons, ← List.append_assoc]
    congr 1
    cases ht : (task t).st with
    | done o => cases o <;> simp [collect1, TSt.shown, STask.errors, handle_eq]
    | _ => rw [ht] at h1; cases h1

def Phase.shown : Phase → SPhase
  | .gone => .gone
  | .body | .waiting => .body
  | .final => .ending

def TSt.marked : TSt → Bool
  | .failing _ | .done (some _) => true
  | _ => false

structure RegR (s : St) (σ : Sys) (x : Reg) (y : SReg) : Prop where
  owner : y.owner = x.owner
  phase : y.phase = x.phase.shown
  tasks : y.tasks = x.group
  told : y.told = true → x.canceled = true
  threw : y.threw = true → y.told = true ∧ (∀ t ∈ x.group, (s.task t).st.isDone = true)
  own : x.phase.shown = .body → y.own = []
  exact : y.threw = false → x.phase ≠ .gone → x.exs = y.own
  upto : y.threw = true → x.phase ≠ .gone → ∀ v, v ∈ x.exs ↔ v ∈ y.own ∨ v ∈ x.group.flatMap fun t => (s.task t).st.shown.errors
  failed : x.canceled = true → ∃ t ∈ x.group, (s.task t).st.shown.failed = true
  waits : x.phase = .waiting → y.threw = false
  known : ∀ t ∈ x.group, t < s.nt

structure R (s : St) (σ : Sys) : Prop where
  nr : σ.nr = s.nr
  nt : σ.nt = s.nt
  reg : ∀ r, RegR s σ (s.reg r) (σ.reg r)
  task : ∀ t, σ.task t = (s.task t).st.shown
  home : ∀ t, t < s.nt → σ.home t = (s.task t).reg
  member : ∀ t, t < s.nt → t ∈ (s.reg (s.task t).reg).group
  alive : ∀ t, t < s.nt → (s.task t).st.isDone = false → (s.reg (s.task t).reg).phase ≠ .gone
  marked : ∀ t, t < s.nt → (s.task t).st.marked = true → (s.reg (s.task t).reg).canceled = true
  queued : ∀ t ∈ s.queue, t < s.nt ∧ (s.task t).st = .queued
  nodup : s.queue.Nodup
  frame : ∀ w r, .region r ∈ s.stack w → (s.reg r).owner = w ∧ r < s.nr
  frameT : ∀ w t, .task t ∈ s.stack w → t < s.nt
  unborn : ∀ r, s.nr ≤ r → (s.reg r).group = []
  own : ∀ t, t < s.nt → ∀ r, t ∈ (s.reg r).group → (s.task t).reg = r

theorem R_init (limit : Option Nat) : R (init limit) {} where
  nr := rfl
  nt := rfl
  reg r := ⟨rfl, rfl, rfl, by simp, by simp, by simp, by simp [init], by simp, by simp [init], by simp [init], by simp [init]⟩
  task t := rfl
  home t ht := by simp [init] at ht
  member t ht := by simp [init] at ht
  alive t ht := by simp [init] at ht
  marked t ht := by simp [init] at ht
  queued t ht := by simp [init] at ht
  nodup := by simp [init]
  frame w r h := by simp [init] at h
  frameT w r h := by simp [init] at h
  unborn r _ := rfl
  own t ht := by simp [init] at ht

theorem errors_eq {s : St} {σ : Sys} (h : R s σ) (r : Nat) : σ.errors r = (s.reg r).group.flatMap fun t => (s.task t).st.shown.errors := by
  unfold Sys.errors
  rw [(h.reg r).tasks]
  congr 1
  funext t
  rw [h.task t]

theorem done_of_allDone {s : St} {σ : Sys} (h : R s σ) {r : Nat} (hd : s.allDone r = true) : σ.done r = true := by
  unfold Sys.done
  rw [(h.reg r).tasks, List.all_eq_true]
  intro t ht
  rw [h.task t]
  have := List.all_eq_true.1 hd t ht
  cases hst : (s.task t).st <;> rw [hst] at this <;> first | rfl | cases this

/-- A region changes, the tasks do not, and its members stay. -/
theorem R.setR {s : St} {σ : Sys} (h : R s σ) {r : Nat} {x : Reg} {y : SReg} (hg : x.group = (s.reg r).group) (ho : r < s.nr → x.owner = (s.reg r).owner)
    (hc : (s.reg r).canceled = true → x.canceled = true) (hp : x.phase = .gone → (s.reg r).phase = .gone ∨ s.allDone r = true)
    (hxy : RegR s σ x y) (hb : s.nr ≤ r → x.group = []) : R (s.setR r x) (σ.set r y) := by
  have e1 : ∀ q, q ≠ r → (s.setR r x).reg q = s.reg q := fun q hq => upd_other _ _ hq
  have e2 : ∀ q, q ≠ r → (σ.set r y).reg q = σ.reg q := fun q hq => upd_other _ _ hq
  have e3 : (s.setR r x).reg r = x := upd_same _ _ _
  have e4 : (σ.set r y).reg r = y := upd_same _ _ _
  have conv : ∀ {x' : Reg} {y' : SReg}, RegR s σ x' y' → RegR (s.setR r x) (σ.set r y) x' y' :=
    fun h' => ⟨h'.owner, h'.phase, h'.tasks, h'.told, h'.threw, h'.own, h'.exact, h'.upto, h'.failed, h'.waits, h'.known⟩
  have eg : ∀ q, ((s.setR r x).reg q).group = (s.reg q).group := by
    intro q
    by_cases hq : q = r
    · subst hq; rw [e3, hg]
    · rw [e1 q hq]
  refine ⟨h.nr, h.nt, ?_, h.task, h.home, ?_, ?_, ?_, h.queued, h.nodup, ?_, h.frameT, ?_, ?_⟩
  · intro q
    by_cases hq : q = r
    · subst hq; rw [e3, e4]; exact conv hxy
    · rw [e1 q hq, e2 q hq]; exact conv (h.reg q)
  · intro t ht; rw [eg]; exact h.member t ht
  · intro t ht hst
    by_cases hq : (s.task t).reg = r
    · show ((s.setR r x).reg (s.task t).reg).phase ≠ .gone
      rw [hq, e3]
      intro hx
      rcases hp hx with h1 | h1
      · exact h.alive t ht hst (by rw [hq]; exact h1)
      · have hm := h.member t ht
        rw [hq] at hm
        have := List.all_eq_true.1 h1 t hm
        exact absurd this (by rw [show (s.task t).st.isDone = false from hst]; simp)
    · show ((s.setR r x).reg (s.task t).reg).phase ≠ .gone
      rw [e1 _ hq]; exact h.alive t ht hst
  · intro t ht hst
    show ((s.setR r x).reg (s.task t).reg).canceled = true
    by_cases hq : (s.task t).reg = r
    · rw [hq, e3]; apply hc; have := h.marked t ht hst; rwa [hq] at this
    · rw [e1 _ hq]; exact h.marked t ht hst
  · intro w q hq
    have := h.frame w q hq
    by_cases hq' : q = r
    · subst hq'; rw [e3, ho this.2]; exact this
    · rw [e1 q hq']; exact this
  · intro q hq
    rw [eg]; exact h.unborn q hq
  · intro t ht q hq
    rw [eg] at hq; exact h.own t ht q hq

theorem R.setS {s : St} {σ : Sys} (h : R s σ) {w : Who} {l : List Frame} (hr : ∀ r, .region r ∈ l → (s.reg r).owner = w ∧ r < s.nr)
    (ht : ∀ t, .task t ∈ l → t < s.nt) : R (s.setS w l) σ := by
  refine ⟨h.nr, h.nt, fun r => ?_, h.task, h.home, h.member, h.alive, h.marked, h.queued, h.nodup, ?_, ?_, h.unborn, h.own⟩
  · have h' := h.reg r
    exact ⟨h'.owner, h'.phase, h'.tasks, h'.told, h'.threw, h'.own, h'.exact, h'.upto, h'.failed, h'.waits, h'.known⟩
  · intro v r hv
    by_cases hw : v = w
    · subst hw; simp only [St.setS, updW_same] at hv; exact hr r hv
    · simp only [St.setS, updW_other _ _ hw] at hv; exact h.frame v r hv
  · intro v t hv
    by_cases hw : v = w
    · subst hw; simp only [St.setS, updW_same] at hv; exact ht t hv
    · simp only [St.setS, updW_other _ _ hw] at hv; exact h.frameT v t hv

theorem R.tail {s : St} {σ : Sys} (h : R s σ) {w : Who} {f : Frame} {l : List Frame} (hl : s.stack w = f :: l) {s' : St} {σ' : Sys} (h' : R s' σ')
    (hs : s'.stack = s.stack) : R (s'.setS w l) σ' := by
  refine h'.setS (fun r hr => ?_) (fun t ht => ?_)
  · exact h'.frame w r (by rw [hs, hl]; exact List.mem_cons_of_mem _ hr)
  · exact h'.frameT w t (by rw [hs, hl]; exact List.mem_cons_of_mem _ ht)

/-- The state of a task changes. -/
theorem R.setTask {s : St} {σ : Sys} (h : R s σ) {t : Nat} {x : Task} (ht : t < s.nt) (hd : (s.task t).st.isDone = false)
    (hq : t ∉ s.queue) (hr : x.reg = (s.task t).reg) (hk : (s.task t).st.shown.failed = true → x.st.shown.failed = true)
    (hm : x.st.marked = true → (s.reg (s.task t).reg).canceled = true) : R { s with task := upd s.task t x } { σ with task := upd σ.task t x.st.shown } := by
  have e1 : ∀ u, u ≠ t → (upd s.task t x) u = s.task u := fun u hu => upd_other _ _ hu
  have e2 : upd s.task t x t = x := upd_same _ _ _
  have er : ∀ u, (upd s.task t x u).reg = (s.task u).reg := by
    intro u
    by_cases hu : u = t
    · subst hu; rw [e2, hr]
    · rw [e1 u hu]
  have ed : ∀ u, (s.task u).st.isDone = true → upd s.task t x u = s.task u := by
    intro u hu
    refine e1 u ?_
    intro he; subst he; rw [hd] at hu; cases hu
  refine ⟨h.nr, h.nt, fun r => ?_, ?_, ?_, ?_, ?_, ?_, ?_, h.nodup, h.frame, h.frameT, h.unborn, ?_⟩
  · have h' := h.reg r
    refine ⟨h'.owner, h'.phase, h'.tasks, h'.told, ?_, h'.own, h'.exact, ?_, ?_, h'.waits, h'.known⟩
    · intro h1
      refine ⟨(h'.threw h1).1, fun u hu => ?_⟩
      have := (h'.threw h1).2 u hu
      show (upd s.task t x u).st.isDone = true; rw [ed u this]; exact this
    · intro h1 h2 v
      have h3 := h'.upto h1 h2 v
      have h4 : ((s.reg r).group.flatMap fun u => (upd s.task t x u).st.shown.errors) = (s.reg r).group.flatMap fun u => (s.task u).st.shown.errors := by
        have h5 := (h'.threw h1).2
        clear h3 h'
        generalize (s.reg r).group = g at h5
        induction g with
        | nil => rfl
        | cons u g ih =>
          simp only [List.flatMap_cons]
          rw [ed u (h5 u (List.mem_cons_self ..)), ih (fun v hv => h5 v (List.mem_cons_of_mem _ hv))]
      show v ∈ (s.reg r).exs ↔ v ∈ (σ.reg r).own ∨ v ∈ ((s.reg r).group.flatMap fun u => (upd s.task t x u).st.shown.errors)
      rw [h3, h4]
    · intro h1
      obtain ⟨u, hu, hum⟩ := h'.failed h1
      refine ⟨u, hu, ?_⟩
      by_cases he : u = t
      · subst he; show (upd s.task u x u).st.shown.failed = true; rw [e2]; exact hk hum
      · show (upd s.task t x u).st.shown.failed = true; rw [e1 u he]; exact hum
  · intro u
    by_cases hu : u = t
    · subst hu; show _ = (upd s.task u x u).st.shown; rw [e2]; exact upd_same _ _ _
    · show upd _ _ _ _ = (upd s.task t x u).st.shown; rw [e1 u hu]; rw [upd_other _ _ hu]; exact h.task u
  · intro u hu; show _ = (upd s.task t x u).reg; rw [er]; exact h.home u hu
  · intro u hu; show u ∈ (s.reg (upd s.task t x u).reg).group; rw [er]; exact h.member u hu
  · intro u hu h1
    show (s.reg (upd s.task t x u).reg).phase ≠ .gone
    replace h1 : (upd s.task t x u).st.isDone = false := h1
    rw [er]
    by_cases he : u = t
    · subst he; exact h.alive u hu hd
    · rw [e1 u he] at h1; exact h.alive u hu h1
  · intro u hu h1
    show (s.reg (upd s.task t x u).reg).canceled = true
    replace h1 : (upd s.task t x u).st.marked = true := h1
    rw [er]
    by_cases he : u = t
    · subst he; rw [e2] at h1; exact hm h1
    · rw [e1 u he] at h1; exact h.marked u hu h1
  · intro u hu
    have := h.queued u hu
    refine ⟨this.1, ?_⟩
    show (upd s.task t x u).st = _
    rw [e1 u (by intro he; subst he; exact hq hu)]
    exact this.2
  · intro u hu r hr; show (upd s.task t x u).reg = r; rw [er]; exact h.own u hu r hr

theorem R.notQueued {s : St} {σ : Sys} (h : R s σ) {t : Nat} (hq : (s.task t).st ≠ .queued) : t ∉ s.queue := fun hm => hq (h.queued t hm).2

theorem R.setT {s : St} {σ : Sys} (h : R s σ) {t : Nat} {x : TSt} (ht : t < s.nt) (hd : (s.task t).st.isDone = false)
    (hq : (s.task t).st ≠ .queued) (hk : (s.task t).st.shown.failed = true → x.shown.failed = true)
    (hm : x.marked = true → (s.reg (s.task t).reg).canceled = true) : R (s.setT t x) { σ with task := upd σ.task t x.shown } :=
  h.setTask (x := { s.task t with st := x }) ht hd (h.notQueued hq) rfl hk hm

theorem body_some {s : St} {w : Who} {r : Nat} (h : s.body? w = some r) : (∃ l, s.stack w = .region r :: l) ∧ (s.reg r).phase = .body := by
  unfold St.body? at h
  split at h
  · rename_i q l hl
    split at h
    · rename_i hp; cases h; exact ⟨⟨l, hl⟩, hp⟩
    · cases h
  · cases h

theorem inBody {s : St} {σ : Sys} (h : R s σ) {w : Who} {r : Nat} {l : List Frame} (hl : s.stack w = .region r :: l) (hp : (s.reg r).phase.shown = .body) :
    σ.inBody w r := by
  refine ⟨?_, ?_⟩
  · rw [(h.reg r).owner]; exact (h.frame w r (by rw [hl]; exact List.mem_cons_self ..)).1
  · rw [(h.reg r).phase]; exact hp

theorem failed_of {s : St} {σ : Sys} (h : R s σ) {r : Nat} (hc : (s.reg r).canceled = true) : ∃ t ∈ (σ.reg r).tasks, (σ.task t).failed = true := by
  obtain ⟨t, ht, hm⟩ := (h.reg r).failed hc
  exact ⟨t, by rw [(h.reg r).tasks]; exact ht, by rw [h.task t]; exact hm⟩

/-- The functions that the property is about: nobody interrupts the end of a region, and there is memory. -/
def plain (s : St) : Label → Bool
  | .runNoMemory _ => false
  | .interrupt w => match s.stack w with | .region r :: _ => decide ((s.reg r).phase ≠ .final) | _ => true
  | _ => true

theorem setR_self (s : St) (r : Nat) : s.setR r (s.reg r) = s := by
  simp only [St.setR]
  have : upd s.reg r (s.reg r) = s.reg := by funext q; by_cases hq : q = r <;> simp [upd, hq]
  rw [this]

/-- The function is told that a task has failed. -/
theorem R.told {s : St} {σ : Sys} (h : R s σ) {r : Nat} (hc : (s.reg r).canceled = true) : R s (σ.set r { σ.reg r with told := true }) := by
  have h0 := h.reg r
  have := h.setR (r := r) (x := s.reg r) (y := { σ.reg r with told := true }) rfl (fun _ => rfl) id (fun h => Or.inl h)
    ⟨h0.owner, h0.phase, h0.tasks, fun _ => hc, fun ht => ⟨rfl, (h0.threw ht).2⟩, h0.own, h0.exact, h0.upto, h0.failed, h0.waits, h0.known⟩ (h.unborn r)
  rwa [setR_self] at this

theorem run_ok {s : St} {σ : Sys} (h : R s σ) {r : Nat} (hr : r < s.nr) (hp : (s.reg r).phase = .body) (ht : (σ.reg r).told = false) :
    R ({ s with nt := s.nt + 1, queue := s.queue ++ [s.nt], task := upd s.task s.nt { reg := r } : St}.setR r { s.reg r with group := (s.reg r).group ++ [s.nt] })
      { σ.set r { σ.reg r with tasks := (σ.reg r).tasks ++ [s.nt] } with nt := s.nt + 1, task := upd σ.task s.nt .created, home := upd σ.home s.nt r } := by
  have hth : (σ.reg r).threw = false := by
    cases hh : (σ.reg r).threw with
    | false => rfl
    | true => have := ((h.reg r).threw hh).1; rw [ht] at this; cases this
  have et : ∀ u, u < s.nt → upd s.task s.nt { reg := r } u = s.task u := fun u hu => upd_other _ _ (Nat.ne_of_lt hu)
  have fm : ∀ g : List Nat, (∀ u ∈ g, u < s.nt) →
      (g.flatMap fun u => (upd s.task s.nt { reg := r } u).st.shown.errors) = g.flatMap fun u => (s.task u).st.shown.errors := by
    intro g hg
    induction g with
    | nil => rfl
    | cons u g ih => simp only [List.flatMap_cons]; rw [et u (hg u (List.mem_cons_self ..)), ih (fun v hv => hg v (List.mem_cons_of_mem _ hv))]
  have e1 : ∀ q, q ≠ r → upd s.reg r { s.reg r with group := (s.reg r).group ++ [s.nt] } q = s.reg q := fun q hq => upd_other _ _ hq
  have e2 : ∀ q, q ≠ r → upd σ.reg r { σ.reg r with tasks := (σ.reg r).tasks ++ [s.nt] } q = σ.reg q := fun q hq => upd_other _ _ hq
  refine ⟨h.nr, rfl, ?_, ?_, ?_, ?_, ?_, ?_, ?_, ?_, ?_, ?_, ?_, ?_⟩
  · intro q
    have h0 := h.reg q
    by_cases hq : q = r
    · subst hq
      simp only [St.setR, Sys.set, upd_same]
      refine ⟨h0.owner, h0.phase, by simp [h0.tasks], h0.told, ?_, h0.own, h0.exact, ?_, ?_, h0.waits, ?_⟩
      · intro h1; simp only at h1; rw [hth] at h1; cases h1
      · intro h1; simp only at h1; rw [hth] at h1; cases h1
      · intro h1
        obtain ⟨u, hu, hf⟩ := h0.failed h1
        exact ⟨u, List.mem_append_left _ hu, by simp only; rw [et u (h0.known u hu)]; exact hf⟩
      · intro u hu
        rcases List.mem_append.1 hu with hu | hu
        · exact Nat.lt_succ_of_lt (h0.known u hu)
        · simp only [List.mem_singleton] at hu; subst hu; exact Nat.lt_succ_self _
    · simp only [St.setR, Sys.set, e1 q hq, e2 q hq]
      refine ⟨h0.owner, h0.phase, h0.tasks, h0.told, ?_, h0.own, h0.exact, ?_, ?_, h0.waits, ?_⟩
      · intro h1; exact ⟨(h0.threw h1).1, fun u hu => by simp only; rw [et u (h0.known u hu)]; exact (h0.threw h1).2 u hu⟩
      · intro h1 h2 v; simp only; rw [fm _ h0.known]; exact h0.upto h1 h2 v
      · intro h1
        obtain ⟨u, hu, hf⟩ := h0.failed h1
        exact ⟨u, hu, by simp only; rw [et u (h0.known u hu)]; exact hf⟩
      · intro u hu; exact Nat.lt_succ_of_lt (h0.known u hu)
  · intro u
    simp only [St.setR, Sys.set]
    by_cases hu : u = s.nt
    · subst hu; simp [upd, TSt.shown]
    · rw [upd_other _ _ hu, upd_other _ _ hu]; exact h.task u
  · intro u hu
    simp only [St.setR, Sys.set]
    by_cases hn : u = s.nt
    · subst hn; simp [upd]
    · rw [upd_other _ _ hn, upd_other _ _ hn]
      have hu' : u < s.nt + 1 := hu
      exact h.home u (by omega)
  · intro u hu
    have hu' : u < s.nt + 1 := hu
    simp only [St.setR]
    by_cases hn : u = s.nt
    · subst hn; simp [upd]
    · have hlt : u < s.nt := by omega
      rw [et u hlt]
      have := h.member u hlt
      by_cases hq : (s.task u).reg = r
      · rw [hq] at this ⊢; simp only [upd_same]; exact List.mem_append_left _ this
      · rw [e1 _ hq]; exact this
  · intro u hu h1
    have hu' : u < s.nt + 1 := hu
    simp only [St.setR] at h1 ⊢
    by_cases hn : u = s.nt
    · subst hn; simp [upd, hp]
    · have hlt : u < s.nt := by omega
      rw [et u hlt] at h1 ⊢
      have := h.alive u hlt h1
      by_cases hq : (s.task u).reg = r
      · rw [hq] at this ⊢; simp only [upd_same]; exact this
      · rw [e1 _ hq]; exact this
  · intro u hu h1
    have hu' : u < s.nt + 1 := hu
    simp only [St.setR] at h1 ⊢
    by_cases hn : u = s.nt
    · subst hn; simp [upd, TSt.marked] at h1
    · have hlt : u < s.nt := by omega
      rw [et u hlt] at h1 ⊢
      have := h.marked u hlt h1
      by_cases hq : (s.task u).reg = r
      · rw [hq] at this ⊢; simp only [upd_same]; exact this
      · rw [e1 _ hq]; exact this
  · intro u hu
    simp only [St.setR] at hu ⊢
    rcases List.mem_append.1 hu with hu | hu
    · have := h.queued u hu
      exact ⟨Nat.lt_succ_of_lt this.1, by rw [et u this.1]; exact this.2⟩
    · simp only [List.mem_singleton] at hu; subst hu; exact ⟨Nat.lt_succ_self _, by simp [upd]⟩
  · simp only [St.setR]
    refine List.nodup_append.2 ⟨h.nodup, by simp, ?_⟩
    intro a ha b hb
    simp only [List.mem_singleton] at hb
    subst hb
    exact Nat.ne_of_lt (h.queued a ha).1
  · intro v q hv
    simp only [St.setR] at hv ⊢
    have := h.frame v q hv
    by_cases hq : q = r
    · subst hq; simp only [upd_same]; exact this
    · rw [e1 q hq]; exact this
  · intro v u hv; exact Nat.lt_succ_of_lt (h.frameT v u hv)
  · intro q hq
    simp only [St.setR] at hq ⊢
    have : q ≠ r := by intro he; subst he; exact absurd hq (by omega)
    rw [e1 q this]; exact h.unborn q hq
  · intro u hu q hq
    have hu' : u < s.nt + 1 := hu
    simp only [St.setR] at hq ⊢
    by_cases hn : u = s.nt
    · subst hn
      by_cases hr' : q = r
      · subst hr'; simp [upd]
      · rw [e1 q hr'] at hq; exact absurd ((h.reg q).known _ hq) (Nat.lt_irrefl _)
    · have hlt : u < s.nt := by omega
      rw [et u hlt]
      by_cases hr' : q = r
      · subst hr'
        simp only [upd_same] at hq
        rcases List.mem_append.1 hq with hq | hq
        · exact h.own u hlt q hq
        · simp only [List.mem_singleton] at hq; exact absurd hq hn
      · rw [e1 q hr'] at hq; exact h.own u hlt q hq

theorem not_told {s : St} {σ : Sys} (h : R s σ) {r : Nat} (hc : ¬ (s.reg r).canceled = true) : (σ.reg r).told = false := by
  cases hh : (σ.reg r).told with
  | false => rfl
  | true => exact absurd ((h.reg r).told hh) hc

theorem not_threw {s : St} {σ : Sys} (h : R s σ) {r : Nat} (hc : (σ.reg r).told = false) : (σ.reg r).threw = false := by
  cases hh : (σ.reg r).threw with
  | false => rfl
  | true => have := ((h.reg r).threw hh).1; rw [hc] at this; cases this

theorem step_ok {s s' : St} {l : Label} {es : List Event} {σ : Sys} (h : R s σ) (hP : plain s l = true) (hs : step s l = some (s', es)) :
    Follows next (R s') σ es := by
  cases l with
  | «open» w =>
    simp only [step] at hs
    split at hs
    · cases hs
      simp only [Follows, next, h.nr, if_true]
      have hg := h.unborn s.nr (Nat.le_refl _)
      have hc : (s.reg s.nr).canceled = true → False := by
        intro hc; obtain ⟨t, ht, -⟩ := (h.reg s.nr).failed hc; rw [hg] at ht; cases ht
      have h1 : R (s.setR s.nr { owner := w, phase := .body }) (σ.set s.nr { owner := w, phase := .body }) :=
        h.setR (by simp [hg]) (fun hr => absurd hr (Nat.lt_irrefl _)) (fun hc' => (hc hc').elim) (fun hx => by cases hx)
          ⟨rfl, rfl, rfl, by simp, by simp, by simp, by simp, by simp, by simp, by simp, by simp⟩ (by simp)
      refine ⟨rfl, h1.nt, fun r => ?_, h1.task, h1.home, h1.member, h1.alive, h1.marked, h1.queued, h1.nodup, ?_, ?_, ?_, h1.own⟩
      · have h' := h1.reg r
        exact ⟨h'.owner, h'.phase, h'.tasks, h'.told, h'.threw, h'.own, h'.exact, h'.upto, h'.failed, h'.waits, h'.known⟩
      · intro v r hv
        simp only at hv
        by_cases hw : v = w
        · subst hw
          simp only [updW_same] at hv
          rcases List.mem_cons.1 hv with hv | hv
          · cases hv; exact ⟨by simp [St.setR], Nat.lt_succ_self _⟩
          · have := h1.frame v r hv; exact ⟨this.1, Nat.lt_succ_of_lt this.2⟩
        · rw [updW_other _ _ hw] at hv
          have := h1.frame v r hv; exact ⟨this.1, Nat.lt_succ_of_lt this.2⟩
      · intro v t hv
        simp only at hv
        by_cases hw : v = w
        · subst hw
          simp only [updW_same] at hv
          rcases List.mem_cons.1 hv with hv | hv
          · cases hv
          · exact h1.frameT v t hv
        · rw [updW_other _ _ hw] at hv; exact h1.frameT v t hv
      · intro r hr; exact h1.unborn r (Nat.le_of_succ_le hr)
    · cases hs
  | run w refused =>
    simp only [step, stepRun] at hs
    split at hs
    · rename_i r hb
      obtain ⟨⟨l, hl⟩, hp⟩ := body_some hb
      have hin := inBody h hl (by rw [hp]; rfl)
      split at hs
      · rename_i hc
        cases hs
        simp only [Follows, next]
        rw [if_pos ⟨hin, failed_of h hc⟩]
        exact h.told hc
      · rename_i hc
        split at hs
        · cases hs
          simp only [Follows, next]
          rw [if_pos hin]
          exact h
        · cases hs
          simp only [Follows, next, h.nt]
          rw [if_pos ⟨hin, trivial, not_told h hc⟩]
          exact run_ok h (h.frame w r (by rw [hl]; exact List.mem_cons_self ..)).2 hp (not_told h hc)
    · cases hs
  | runNoMemory w => cases hP
  | wait w =>
    simp only [step, stepWait] at hs
    split at hs
    · rename_i r hb
      obtain ⟨⟨l, hl⟩, hp⟩ := body_some hb
      have hin := inBody h hl (by rw [hp]; rfl)
      split at hs
      · rename_i hc
        cases hs
        simp only [Follows, next]
        rw [if_pos ⟨hin, failed_of h hc⟩]
        exact h.told hc
      · rename_i hc
        cases hs
        simp only [Follows, next]
        rw [if_pos ⟨hin, not_told h hc⟩]
        have h0 := h.reg r
        have hph := h0.phase
        have hown := h0.own
        have hex := h0.exact
        have hup := h0.upto
        rw [hp] at hph hown hex hup
        have := h.setR (r := r) (x := { s.reg r with phase := .waiting }) (y := σ.reg r) rfl (fun _ => rfl) id (fun h => by cases h)
          ⟨h0.owner, hph, h0.tasks, h0.told, h0.threw, fun _ => hown rfl, fun a _ => hex a (by simp), fun a _ => hup a (by simp), h0.failed,
            fun _ => not_threw h (not_told h hc), h0.known⟩ (h.unborn r)
        have e : σ.set r (σ.reg r) = σ := by
          simp only [Sys.set]
          have : upd σ.reg r (σ.reg r) = σ.reg := by funext q; by_cases hq : q = r <;> simp [upd, hq]
          rw [this]
        rwa [e] at this
    · cases hs
  | go w =>
    simp only [step, stepGo] at hs
    split at hs
    · rename_i r rest hl
      split at hs
      · rename_i hd
        have hdone := done_of_allDone h hd
        have hcol : ∀ exs, collect s.task exs (s.reg r).group = exs ++ σ.errors r := by
          intro exs; rw [errors_eq h r]; exact collect_eq (fun t ht => List.all_eq_true.1 hd t ht) exs
        rw [hcol] at hs
        have h0 := h.reg r
        split at hs
        · rename_i hp
          have hin := inBody h hl (by rw [hp]; rfl)
          have hth := h0.waits hp
          have hex : (s.reg r).exs = [] := by rw [h0.exact hth (by rw [hp]; simp)]; exact h0.own (by rw [hp]; rfl)
          rw [hex, List.nil_append] at hs
          cases hs
          have hph := h0.phase
          rw [hp] at hph
          by_cases he : σ.errors r = []
          · simp only [he, if_true, Follows, next]
            rw [if_pos ⟨hin, hdone, trivial⟩]
            have := h.setR (r := r) (x := { s.reg r with phase := .body, exs := [] }) (y := σ.reg r) rfl (fun _ => rfl) id (fun h => by cases h)
              ⟨h0.owner, hph, h0.tasks, h0.told, h0.threw, fun _ => h0.own (by rw [hp]; rfl), fun _ _ => (h0.own (by rw [hp]; rfl)).symm,
                (fun a => by rw [hth] at a; cases a), h0.failed, (fun a => by cases a), h0.known⟩ (h.unborn r)
            have e : σ.set r (σ.reg r) = σ := by
              simp only [Sys.set]
              have : upd σ.reg r (σ.reg r) = σ.reg := by funext q; by_cases hq : q = r <;> simp [upd, hq]
              rw [this]
            rwa [e] at this
          · simp only [he, if_false, Follows, next]
            rw [if_pos ⟨hin, hdone, trivial, he⟩]
            have hcanc : (s.reg r).canceled = true := by
              rw [errors_eq h r] at he
              obtain ⟨v, hv⟩ := List.exists_mem_of_ne_nil _ he
              obtain ⟨t, ht, hv⟩ := List.mem_flatMap.1 hv
              have hlt := h0.known t ht
              have := h.own t hlt r ht
              rw [← this]
              apply h.marked t hlt
              have hd' := List.all_eq_true.1 hd t ht
              cases hst : (s.task t).st with
              | done o => cases o with
                | none => rw [hst] at hv; cases hv
                | some e => rfl
              | _ => rw [hst] at hd'; cases hd'
            refine h.setR (r := r) rfl (fun _ => rfl) id (fun h => by cases h)
              ⟨h0.owner, hph, h0.tasks, fun _ => hcanc, fun _ => ⟨rfl, fun t ht => List.all_eq_true.1 hd t ht⟩, fun _ => h0.own (by rw [hp]; rfl),
                (fun a => by cases a), fun _ _ v => ?_, h0.failed, (fun a => by cases a), h0.known⟩ (h.unborn r)
            rw [errors_eq h r]
            have hown := h0.own (by rw [hp]; rfl)
            simp only [hown, List.not_mem_nil, false_or]
        · rename_i hp
          cases hs
          have hph := h0.phase
          rw [hp] at hph
          have hfr := h.frame w r (by rw [hl]; exact List.mem_cons_self ..)
          have hsame : same (!(σ.reg r).threw) ((s.reg r).exs ++ σ.errors r) ((σ.reg r).own ++ σ.errors r) := by
            cases hth : (σ.reg r).threw with
            | false =>
              simp only [same, Bool.not_false, if_true]
              rw [h0.exact hth (by rw [hp]; simp)]
            | true =>
              have hup := h0.upto hth (by rw [hp]; simp)
              rw [← errors_eq h r] at hup
              simp only [same, Bool.not_true, Bool.false_eq_true, if_false, List.mem_append]
              exact ⟨fun x hx => hx.elim (fun hx => (hup x).1 hx) Or.inr, fun x hx => hx.elim (fun hx => Or.inl ((hup x).2 (Or.inl hx))) Or.inr⟩
          simp only [Follows, next]
          rw [if_pos ⟨by rw [h0.owner]; exact hfr.1, hph, hdone, hsame⟩]
          refine h.tail hl ?_ rfl
          exact h.setR (r := r) rfl (fun _ => rfl) id (fun _ => Or.inr hd)
            ⟨h0.owner, rfl, h0.tasks, h0.told, h0.threw, (fun a => by cases a), fun _ a => absurd rfl a, fun _ a => absurd rfl a, h0.failed,
              (fun a => by cases a), h0.known⟩ (h.unborn r)
        · cases hs
      · cases hs
    · cases hs
  | interrupt w =>
    simp only [step, stepInterrupt] at hs
    split at hs
    · rename_i r rest hl
      simp only [plain, hl] at hP
      split at hs
      · cases hs
      · rename_i hd
        split at hs
        · rename_i hp
          cases hs
          have hin := inBody h hl (by rw [hp]; rfl)
          have h0 := h.reg r
          simp only [Follows, next]
          rw [if_pos hin]
          have hph := h0.phase
          have hown := h0.own
          have hex := h0.exact
          have hup := h0.upto
          rw [hp] at hph hown hex hup
          have := h.setR (r := r) (x := { s.reg r with phase := .body }) (y := σ.reg r) rfl (fun _ => rfl) id (fun h => by cases h)
            ⟨h0.owner, hph, h0.tasks, h0.told, h0.threw, fun _ => hown rfl, fun a _ => hex a (by simp), fun a _ => hup a (by simp), h0.failed,
              (fun a => by cases a), h0.known⟩ (h.unborn r)
          have e : σ.set r (σ.reg r) = σ := by
            simp only [Sys.set]
            have : upd σ.reg r (σ.reg r) = σ.reg := by funext q; by_cases hq : q = r <;> simp [upd, hq]
            rw [this]
          rwa [e] at this
        · rename_i hp; simp [hp] at hP
        · cases hs
    · cases hs
  | leave w o =>
    simp only [step, stepLeave] at hs
    split at hs
    · rename_i r hb
      obtain ⟨⟨l, hl⟩, hp⟩ := body_some hb
      have hin := inBody h hl (by rw [hp]; rfl)
      have h0 := h.reg r
      cases hs
      simp only [Follows, next]
      rw [if_pos hin]
      have hown : (σ.reg r).own = [] := h0.own (by rw [hp]; rfl)
      have hexs : caught (s.reg r).exs o = (s.reg r).exs ++ thrown o := by
        cases o with
        | none => simp [caught, thrown]
        | some e => exact handle_eq _ e
      rw [hexs]
      refine h.setR (r := r) rfl (fun _ => rfl) id (fun h => by cases h)
        ⟨h0.owner, rfl, h0.tasks, h0.told, h0.threw, fun a => (by cases a), fun a _ => ?_, fun a _ v => ?_, h0.failed, (fun a => by cases a), h0.known⟩ (h.unborn r)
      · have := h0.exact a (by rw [hp]; simp)
        rw [hown] at this
        simp only [this, List.nil_append]
      · have := h0.upto a (by rw [hp]; simp) v
        rw [hown] at this
        simp only [List.not_mem_nil, false_or] at this
        simp only [List.mem_append, this]
        exact Or.comm
    · cases hs
  | start i =>
    simp only [step, stepStart] at hs
    split at hs
    · split at hs
      · rename_i t q hq
        cases hs
        have hqt := h.queued t (by rw [hq]; exact List.mem_cons_self ..)
        have hnd := h.nodup
        rw [hq] at hnd
        have hnd' := List.nodup_cons.1 hnd
        simp only [Follows, next]
        rw [h.task t, hqt.2]
        simp only [TSt.shown]
        rw [if_pos ⟨by rw [h.nt]; exact hqt.1, by
          rw [h.home t hqt.1, (h.reg _).phase]
          have := h.alive t hqt.1 (by rw [hqt.2]; rfl)
          cases hh : (s.reg (s.task t).reg).phase <;> simp [Phase.shown] <;> exact this hh⟩]
        have h1 : R { s with queue := q } σ := ⟨h.nr, h.nt, fun r => (by
            have h' := h.reg r
            exact ⟨h'.owner, h'.phase, h'.tasks, h'.told, h'.threw, h'.own, h'.exact, h'.upto, h'.failed, h'.waits, h'.known⟩), h.task, h.home, h.member, h.alive,
          h.marked, fun u hu => h.queued u (by rw [hq]; exact List.mem_cons_of_mem _ hu), hnd'.2, h.frame, h.frameT, h.unborn, h.own⟩
        have h2 := h1.setTask (t := t) (x := { s.task t with st := .running, runner := i }) hqt.1 (by show (s.task t).st.isDone = false; rw [hqt.2]; rfl) hnd'.1 rfl
          (by show (s.task t).st.shown.failed = true → _; rw [hqt.2]; intro hh; cases hh) (by intro hh; cases hh)
        exact h2.setS (w := .worker i) (l := [.task t]) (by simp) (by simp; exact hqt.1)
      · cases hs
    · cases hs
  | body w o =>
    simp only [step, stepBody] at hs
    split at hs
    · rename_i t rest hl
      have hlt := h.frameT w t (by rw [hl]; exact List.mem_cons_self ..)
      split at hs
      · rename_i hst
        split at hs
        · cases hs
          simp only [Follows, next]
          rw [h.task t, hst]
          simp only [TSt.shown]
          refine h.tail hl ?_ rfl
          exact h.setT hlt (by rw [hst]; rfl) (by rw [hst]; simp) (by rw [hst]; simp [TSt.shown, STask.failed]) (by simp [TSt.marked])
        · cases hs
          simp only [Follows, next]
          rw [h.task t, hst]
          simp only [TSt.shown]
          exact h.setT (x := .thrown _) hlt (by rw [hst]; rfl) (by rw [hst]; simp) (by rw [hst]; simp [TSt.shown, STask.failed]) (by simp [TSt.marked])
      · cases hs
    · cases hs
  | cancel w =>
    simp only [step, stepCancel] at hs
    split at hs
    · rename_i t ht
      obtain ⟨rest, hl⟩ : ∃ rest, s.stack w = .task t :: rest := by
        unfold St.task? at ht
        split at ht
        · rename_i t' l hl; cases ht; exact ⟨l, hl⟩
        · cases ht
      have hlt := h.frameT w t (by rw [hl]; exact List.mem_cons_self ..)
      split at hs
      · rename_i e hst
        have hal := h.alive t hlt (by rw [hst]; rfl)
        rw [if_neg hal] at hs
        cases hs
        simp only [Follows]
        have h0 := h.reg (s.task t).reg
        have h1 := h.setR (r := (s.task t).reg) (x := { s.reg (s.task t).reg with canceled := true }) (y := σ.reg (s.task t).reg) rfl (fun _ => rfl) (fun _ => rfl)
          (fun h => absurd h hal)
          ⟨h0.owner, h0.phase, h0.tasks, fun _ => rfl, h0.threw, h0.own, h0.exact, h0.upto, fun _ => ⟨t, h.member t hlt, by rw [hst]; rfl⟩, h0.waits, h0.known⟩
          (h.unborn _)
        have eσ : σ.set (s.task t).reg (σ.reg (s.task t).reg) = σ := by
          simp only [Sys.set]
          have : upd σ.reg (s.task t).reg (σ.reg (s.task t).reg) = σ.reg := by funext q; by_cases hq : q = (s.task t).reg <;> simp [upd, hq]
          rw [this]
        rw [eσ] at h1
        have h2 := h1.setT (t := t) (x := .failing e) hlt (by show (s.task t).st.isDone = false; rw [hst]; rfl) (by show (s.task t).st ≠ _; rw [hst]; simp)
          (fun _ => rfl) (fun _ => by simp [St.setR])
        have e2 : ({ σ with task := upd σ.task t (TSt.failing e).shown } : Sys) = σ := by
          have : upd σ.task t (TSt.failing e).shown = σ.task := by
            funext u
            by_cases hu : u = t
            · subst hu; rw [upd_same, h.task u, hst]; rfl
            · exact upd_other _ _ hu
          rw [this]
        rw [e2] at h2
        exact h2
      · cases hs
    · cases hs
  | ready w =>
    simp only [step, stepReady] at hs
    split at hs
    · rename_i t rest hl
      have hlt := h.frameT w t (by rw [hl]; exact List.mem_cons_self ..)
      split at hs
      · rename_i e hst
        cases hs
        simp only [Follows]
        refine h.tail hl ?_ rfl
        have h2 := h.setT (t := t) (x := .done (some e)) hlt (by rw [hst]; rfl) (by rw [hst]; simp)
          (fun _ => rfl) (fun _ => h.marked t hlt (by rw [hst]; rfl))
        have e2 : ({ σ with task := upd σ.task t (TSt.done (some e)).shown } : Sys) = σ := by
          have : upd σ.task t (TSt.done (some e)).shown = σ.task := by
            funext u
            by_cases hu : u = t
            · subst hu; rw [upd_same, h.task u, hst]; rfl
            · exact upd_other _ _ hu
          rw [this]
        rw [e2] at h2
        exact h2
      · cases hs
    · cases hs

end Verif.TaskRegion
