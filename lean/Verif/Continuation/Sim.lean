import Verif.Continuation.Spec
/-! # The model of continuations follows its specification -/

set_option linter.unusedSimpArgs false

namespace Verif.Continuation

/-! ## Who holds what -/

/-- What a stack holds: continuations to launch, deferred continuations waiting for their parent, running functions. -/
inductive Item where
  | l (c : Nat)
  | p (c : Nat)
  | f (c : Nat)
deriving DecidableEq

def items : Frame → List Item
  | .fn c => [.f c]
  | .launch l _ => l.map .l
  | .parent c => [.p c]
  | .wait _ => []

def its : List Frame → List Item
  | [] => []
  | f :: r => items f ++ its r

/-- `own x` is the thread whose stack holds `x`; no stack holds anything twice. -/
structure Owns (stk : Nat → List Frame) (own : Item → Option Nat) : Prop where
  mem : ∀ t x, x ∈ its (stk t) ↔ own x = some t
  nodup : ∀ t, (its (stk t)).Nodup

def change (own : Item → Option Nat) (t : Nat) (add del : List Item) : Item → Option Nat := fun x => if x ∈ add then some t else if x ∈ del then none else own x

theorem Owns.change {stk : Nat → List Frame} {own : Item → Option Nat} (h : Owns stk own) {t : Nat} {add del r : List Item} {st : List Frame} (h1 : its (stk t) = del ++ r)
    (h2 : its st = add ++ r) (h3 : add.Nodup) (h4 : ∀ x ∈ add, own x = none) : Owns (upd stk t st) (change own t add del) := by
  have hm := h.mem
  have hn := h.nodup t
  rw [h1, List.nodup_append] at hn
  have hdel : ∀ x ∈ del, own x = some t := fun x hx => (hm t x).mp (by rw [h1]; exact List.mem_append_left _ hx)
  have hr : ∀ x ∈ r, own x = some t := fun x hx => (hm t x).mp (by rw [h1]; exact List.mem_append_right _ hx)
  have hback : ∀ x, own x = some t → x ∈ del ∨ x ∈ r := fun x hx => by have := (hm t x).mpr hx; rw [h1] at this; exact List.mem_append.mp this
  have hdis : ∀ x ∈ del, x ∉ r := fun x hx hy => hn.2.2 x hx x hy rfl
  refine ⟨fun u x => ?_, fun u => ?_⟩
  · simp only [upd_apply, Continuation.change]
    by_cases hu : u = t
    · subst hu
      simp only [if_true, h2, List.mem_append]
      by_cases hx : x ∈ add
      · simp [hx]
      · by_cases hd : x ∈ del
        · simp [hx, hd, hdis x hd]
        · simp only [hx, hd, false_or, if_false]
          constructor
          · exact hr x
          · intro ho
            rcases hback x ho with h5 | h5
            · exact absurd h5 hd
            · exact h5
    · rw [if_neg hu, hm u x]
      by_cases hx : x ∈ add
      · simp [hx, h4 x hx, Ne.symm hu]
      · by_cases hd : x ∈ del
        · simp [hx, hd, hdel x hd, Ne.symm hu]
        · simp [hx, hd]
  · simp only [upd_apply]
    split
    · rw [h2, List.nodup_append]
      refine ⟨h3, hn.2.1, fun x hx y hy e => ?_⟩
      subst e
      have := hr x hy
      rw [h4 x hx] at this
      cases this
    · exact h.nodup u

/-! ## Chains of deferred continuations -/

theorem mem_chain_step {kind : Nat → Kind} (hk : ∀ c p pol, kind c = .cont p pol → p < c) : ∀ (f d c p : Nat), d ≤ f → c ∈ chain kind f d → kind c = .cont p .deferred → p ∈ chain kind f d := by
  intro f
  induction f with
  | zero =>
    intro d c p hd hc hp
    simp only [chain, List.mem_singleton] at hc
    subst hc
    have := hk _ _ _ hp
    omega
  | succ f ih =>
    intro d c p hd hc hp
    simp only [chain, List.mem_cons] at hc ⊢
    rcases hc with rfl | hc
    · right
      rw [hp]
      cases f <;> simp [chain]
    · right
      split at hc
      · rename_i q hq
        exact ih q c p (by have := hk _ _ _ hq; omega) hc hp
      · cases hc

theorem self_mem_chain (kind : Nat → Kind) (f d : Nat) : d ∈ chain kind f d := by
  cases f <;> simp [chain]

/-- What the frames below ask for. -/
def Wants (kind : Nat → Kind) (c : Nat) : List Frame → Prop
  | .wait d :: _ => c = d
  | .parent c' :: _ => kind c' = .cont c .deferred
  | _ => False

/-- Each deferred continuation that is being executed is asked for by the frame below. -/
def Linked (kind : Nat → Kind) : List Frame → Prop
  | [] => True
  | .parent c :: r => Wants kind c r ∧ Linked kind r
  | .fn _ :: r => Linked kind r
  | .launch _ _ :: r => Linked kind r
  | .wait _ :: r => Linked kind r

/-- What the specification sees of a stack. -/
def busyOf : List Frame → List Busy
  | [] => []
  | .fn c :: r => .inFn c :: busyOf r
  | .wait i :: r => .inWait i :: busyOf r
  | .launch _ _ :: r => busyOf r
  | .parent _ :: r => busyOf r

theorem wanted_of_wants {kind : Nat → Kind} (hk : ∀ c p pol, kind c = .cont p pol → p < c) : ∀ (st : List Frame) (c : Nat), Wants kind c st → Linked kind st → wanted kind c (busyOf st) = true := by
  intro st
  induction st with
  | nil => intro c h; cases h
  | cons f r ih =>
    intro c h hl
    cases f with
    | wait d =>
      simp only [Wants] at h
      subst h
      simp [busyOf, wanted, self_mem_chain]
    | parent c' =>
      simp only [Wants] at h
      have h1 := ih c' hl.1 hl.2
      simp only [busyOf]
      cases hb : busyOf r with
      | nil => rw [hb] at h1; cases h1
      | cons b bs =>
        rw [hb] at h1
        cases b with
        | inFn _ => cases h1
        | inWait d =>
          simp only [wanted, decide_eq_true_eq] at h1 ⊢
          exact mem_chain_step hk d d c' c (Nat.le_refl _) h1 h
    | fn _ => cases h
    | launch _ _ => cases h

theorem Linked.congr {k k' : Nat → Kind} {n : Nat} (hk : ∀ i, i < n → k' i = k i) : ∀ {st : List Frame}, (∀ c, Frame.parent c ∈ st → c < n) → Linked k st → Linked k' st := by
  intro st
  induction st with
  | nil => intros; trivial
  | cons f r ih =>
    intro hm h
    have ih' := ih (fun c hc => hm c (List.mem_cons_of_mem _ hc))
    cases f with
    | parent c =>
      refine ⟨?_, ih' h.2⟩
      have h1 := h.1
      cases r with
      | nil => cases h1
      | cons g r' =>
        cases g with
        | wait d => exact h1
        | parent c' =>
          simp only [Wants] at h1 ⊢
          rw [hk c' (hm c' (by simp))]
          exact h1
        | fn _ => cases h1
        | launch _ _ => cases h1
    | fn _ => exact ih' h
    | wait _ => exact ih' h
    | launch _ _ => exact ih' h

theorem parent_mem_its {st : List Frame} {c : Nat} : Frame.parent c ∈ st ↔ Item.p c ∈ its st := by
  induction st with
  | nil => simp [its]
  | cons f r ih => cases f <;> simp [its, items, ih]

/-! ## The relation -/

/-- What a frame says about the shared states. -/
def FrOk (s : State) : Frame → Prop
  | .launch _ (.set i) => (s.node i).out.isSome
  | .launch _ (.attach c) => c < s.n
  | .launch _ (.fin c) => (s.node c).out.isSome
  | .launch _ (.fin2 c) => (s.node c).out.isSome
  | .wait i => i < s.n
  | _ => True

structure Rel (strict : Bool) (s : State) (σ : Spec) (own : Item → Option Nat) : Prop where
  num : σ.n = s.n
  kind : ∀ i, σ.kind i = (s.node i).kind
  out : ∀ i, σ.out i = (s.node i).out
  busy : ∀ t, σ.busy t = busyOf (s.stk t)
  owns : Owns s.stk own
  linked : ∀ t, Linked (fun i => (s.node i).kind) (s.stk t)
  frames : ∀ t, ∀ f ∈ s.stk t, FrOk s f
  parents : ∀ c p pol, (s.node c).kind = .cont p pol → p < c
  fresh : ∀ c, s.n ≤ c → s.node c = {} ∧ σ.begun c = false ∧ own (.l c) = none ∧ own (.p c) = none ∧ own (.f c) = none ∧ c ∉ s.todo
  contsNodup : ∀ p, (s.node p).conts.Nodup
  conts : ∀ p c, c ∈ (s.node p).conts → (∃ pol, (s.node c).kind = .cont p pol ∧ (pol ≠ .deferred → σ.begun c = false)) ∧ own (.l c) = none ∧ c ∉ s.todo
  contsDone : ∀ p, (s.node p).out.isSome → (s.node p).conts = []
  launching : ∀ c t, own (.l c) = some t → ∃ p pol, (s.node c).kind = .cont p pol ∧ (s.node p).out.isSome ∧ (pol ≠ .deferred → σ.begun c = false) ∧ c ∉ s.todo
  todoNodup : s.todo.Nodup
  todo : ∀ c, c ∈ s.todo → σ.begun c = false ∧ ((s.node c).kind = .spawned ∨ ∃ p pol, (s.node c).kind = .cont p pol ∧ pol ≠ .deferred ∧ (s.node p).out.isSome)
  waiting : ∀ c t, own (.p c) = some t → (∃ p, (s.node c).kind = .cont p .deferred) ∧ σ.begun c = false ∧ (s.node c).deferred = false
  locked : ∀ c, (s.node c).locked = (own (.p c)).isSome
  deferred : ∀ c, (s.node c).deferred = true → σ.begun c = false ∧ own (.p c) = none ∧ ((s.node c).kind = .deferred ∨ ∃ p, (s.node c).kind = .cont p .deferred)
  running : ∀ c t, own (.f c) = some t → (s.node c).out = none ∧ σ.begun c = true ∧ (s.node c).kind ≠ .promise
  notYet : ∀ c, (s.node c).kind ≠ .promise → σ.begun c = false → (s.node c).out = none
  kept : strict = true → ∀ c p pol, (s.node c).kind = .cont p pol → pol ≠ .deferred → σ.begun c = true ∨ c ∈ s.todo ∨ (own (.l c)).isSome ∨ c ∈ (s.node p).conts

def R (strict : Bool) (s : State) (σ : Spec) : Prop := ∃ own, Rel strict s σ own

theorem rel_init (strict : Bool) : R strict init Spec.init := by
  refine ⟨fun _ => none, ?_⟩
  constructor <;> simp [init, Spec.init, busyOf, Linked]
  exact ⟨by simp [its], by simp [its]⟩

theorem FrOk.mono {s s' : State} {f : Frame} (hn : s.n ≤ s'.n) (ho : ∀ i, (s.node i).out.isSome → (s'.node i).out.isSome) (h : FrOk s f) : FrOk s' f := by
  cases f with
  | fn _ => trivial
  | parent _ => trivial
  | wait i => exact Nat.lt_of_lt_of_le h hn
  | launch l w =>
    cases w with
    | set i => exact ho i h
    | attach c => exact Nat.lt_of_lt_of_le h hn
    | fin c => exact ho c h
    | fin2 c => exact ho c h

theorem Rel.not_of_ge {strict : Bool} {s : State} {σ : Spec} {own : Item → Option Nat} (h : Rel strict s σ own) : ∀ t c, Frame.parent c ∈ s.stk t → c < s.n := by
  intro t c hc
  have h1 := (h.owns.mem t _).mp (parent_mem_its.mp hc)
  rcases Nat.lt_or_ge c s.n with h2 | h2
  · exact h2
  · rw [(h.fresh c h2).2.2.2.1] at h1; cases h1

/-- A new state with nothing attached. -/
theorem Rel.create {strict : Bool} {s : State} {σ : Spec} {own : Item → Option Nat} (h : Rel strict s σ own) (k : Kind) (hk : k = .promise ∨ k = .spawned ∨ k = .deferred) :
    Rel strict { s with n := s.n + 1, node := upd s.node s.n { kind := k, deferred := decide (k = .deferred) }, todo := if k = .spawned then s.todo ++ [s.n] else s.todo }
      { σ with n := σ.n + 1, kind := upd σ.kind s.n k } own := by
  have hf := h.fresh s.n (Nat.le_refl _)
  have hpar := h.not_of_ge
  refine { num := ?_, kind := ?_, out := ?_, busy := h.busy, owns := h.owns, linked := ?_, frames := ?_, parents := ?_, fresh := ?_, contsNodup := ?_, conts := ?_, contsDone := ?_, launching := ?_, todoNodup := ?_, todo := ?_, waiting := ?_, locked := ?_, deferred := ?_, running := ?_, notYet := ?_, kept := ?_ } <;> simp only [upd_apply]
  · rw [h.num]
  · have := h.kind; grind
  · have := h.out; grind
  · intro t
    exact (h.linked t).congr (n := s.n) (fun i hi => by simp [Nat.ne_of_lt hi]) (hpar t)
  · intro t f hm
    refine (h.frames t f hm).mono (Nat.le_succ _) (fun i hi => ?_)
    simp only [upd_apply]
    grind
  · have := h.parents; grind
  · have := h.fresh; grind
  · have := h.contsNodup; grind
  · have := h.conts; grind
  · have := h.contsDone; grind
  · have := h.launching; grind
  · have := h.todoNodup
    split
    · rw [List.nodup_append]; refine ⟨this, by simp, ?_⟩; grind
    · exact this
  · have := h.todo; grind
  · have := h.waiting; grind
  · have := h.locked; grind
  · have := h.deferred; grind
  · have := h.running; grind
  · have := h.notYet; grind
  · have := h.kept; grind

/-- The stack changes, but holds the same. -/
theorem Rel.restack {strict : Bool} {s : State} {σ : Spec} {own : Item → Option Nat} (h : Rel strict s σ own) (t : Nat) (st : List Frame) (hi : its st = its (s.stk t)) (hl : Linked (fun i => (s.node i).kind) st)
    (hfr : ∀ f ∈ st, FrOk s f) : Rel strict { s with stk := upd s.stk t st } { σ with busy := upd σ.busy t (busyOf st) } own := by
  have hm := h.owns.mem
  have hn := h.owns.nodup
  refine { num := h.num, kind := h.kind, out := h.out, busy := ?_, owns := ?_, linked := ?_, frames := ?_, parents := h.parents, fresh := h.fresh, contsNodup := h.contsNodup, conts := h.conts, contsDone := h.contsDone, launching := h.launching, todoNodup := h.todoNodup, todo := h.todo, waiting := h.waiting, locked := h.locked, deferred := h.deferred, running := h.running, notYet := h.notYet, kept := h.kept }
  · have := h.busy; simp only [upd_apply]; grind
  · refine ⟨fun u x => ?_, fun u => ?_⟩ <;> simp only [upd_apply] <;> grind
  · intro u; have := h.linked u; simp only [upd_apply]; grind
  · intro u f hf
    simp only [upd_apply] at hf
    refine FrOk.mono (s := s) (Nat.le_refl _) (fun _ h => h) ?_
    split at hf
    · exact hfr f hf
    · exact h.frames u f hf

theorem Rel.attachDone {strict : Bool} {s : State} {σ : Spec} {own : Item → Option Nat} (h : Rel strict s σ own) (t p : Nat) (pol : Pol) (hp : p < s.n) (hd : (s.node p).out.isSome) :
    Rel strict { s with n := s.n + 1, node := upd (upd s.node s.n { kind := .cont p pol, deferred := decide (pol = .deferred) }) p { s.node p with conts := [] }, stk := upd s.stk t (.launch ((s.node p).conts ++ [s.n]) (.attach s.n) :: s.stk t) } { σ with n := σ.n + 1, kind := upd σ.kind s.n (.cont p pol) } (change own t [.l s.n] []) := by
  have hf := h.fresh s.n (Nat.le_refl _)
  have hpar := h.not_of_ge
  have hpn : s.n ≠ p := Nat.ne_of_gt hp
  have hcd := h.contsDone p
  have hks : ∀ i, i ≠ s.n → (upd (upd s.node s.n { kind := .cont p pol, deferred := decide (pol = .deferred) }) p { s.node p with conts := [] } i).kind = (s.node i).kind := by intro i hi; simp only [upd_apply]; grind
  have hkn : (upd (upd s.node s.n { kind := .cont p pol, deferred := decide (pol = .deferred) }) p { s.node p with conts := [] } s.n).kind = .cont p pol := by simp [upd_apply, hpn]
  have hos : ∀ i, (upd (upd s.node s.n { kind := .cont p pol, deferred := decide (pol = .deferred) }) p { s.node p with conts := [] } i).out = (s.node i).out := by intro i; simp only [upd_apply]; grind
  have hcs : ∀ i, i ≠ p → (upd (upd s.node s.n { kind := .cont p pol, deferred := decide (pol = .deferred) }) p { s.node p with conts := [] } i).conts = (s.node i).conts := by intro i hi; simp only [upd_apply]; grind
  have hcp : (upd (upd s.node s.n { kind := .cont p pol, deferred := decide (pol = .deferred) }) p { s.node p with conts := [] } p).conts = [] := by simp [upd_apply]
  refine { num := ?_, kind := ?_, out := ?_, busy := ?_, owns := ?_, linked := ?_, frames := ?_, parents := ?_, fresh := ?_, contsNodup := ?_, conts := ?_, contsDone := ?_, launching := ?_, todoNodup := h.todoNodup, todo := ?_, waiting := ?_, locked := ?_, deferred := ?_, running := ?_, notYet := ?_, kept := ?_ }
  · rw [h.num]
  · have := h.kind; simp only [upd_apply, change] at *; grind
  · have := h.out; simp only [upd_apply, change] at *; grind
  · have := h.busy; simp only [upd_apply]; grind [busyOf]
  · refine h.owns.change (r := its (s.stk t)) rfl ?_ ?_ ?_
    · simp [its, items, hd, hcd]
    · simp
    · intro x hx
      simp only [List.mem_singleton] at hx; subst hx; exact hf.2.2.1
  · intro u
    have h1 := (h.linked u).congr (n := s.n) (k' := fun i => ((upd (upd s.node s.n { kind := .cont p pol, deferred := decide (pol = .deferred) }) p { s.node p with conts := [] }) i).kind) (fun i hi => hks i (Nat.ne_of_lt hi)) (hpar u)
    simp only [upd_apply (f := s.stk)]
    split
    · rename_i e; subst e; exact h1
    · exact h1
  · intro u f hf'
    simp only [upd_apply (f := s.stk)] at hf'
    have hmono : ∀ f ∈ s.stk u, FrOk { s with n := s.n + 1, node := upd (upd s.node s.n { kind := .cont p pol, deferred := decide (pol = .deferred) }) p { s.node p with conts := [] }, stk := upd s.stk t (.launch ((s.node p).conts ++ [s.n]) (.attach s.n) :: s.stk t) } f := by
      intro f hf'
      refine (h.frames u f hf').mono (Nat.le_succ _) (fun i hi => ?_)
      rw [hos i]; exact hi
    split at hf'
    · rename_i e
      subst e
      rcases List.mem_cons.mp hf' with rfl | hf'
      · exact Nat.lt_succ_self _
      · exact hmono f hf'
    · exact hmono f hf'
  · intro c q pl hc
    by_cases hcn : c = s.n
    · subst hcn; rw [hkn] at hc; cases hc; exact hp
    · exact h.parents c q pl (by rw [← hks c hcn]; exact hc)
  · have := h.fresh; simp only [upd_apply, change] at *; grind
  · have := h.contsNodup
    have h2 := h.conts p s.n
    intro q
    by_cases hq : q = p
    · subst hq
      simp only [hcp]
      simp
    · simp only [hcs q hq]; exact this q
  · intro q c hc
    have hold := h.conts q c
    have h2 := h.conts q s.n
    by_cases hq : q = p
    · subst hq
      simp only [hcp] at hc
      cases hc
    · simp only [hcs q hq] at hc
      have h3 := hold hc
      have hcn : c ≠ s.n := by intro e; subst e; have h4 := (h2 hc).1; obtain ⟨pl, h5, _⟩ := h4; rw [hf.1] at h5; cases h5
      obtain ⟨pl, h5, h6⟩ := h3.1
      refine ⟨⟨pl, by simp only [hks c hcn]; exact h5, h6⟩, ?_, h3.2.2⟩
      simp only [change, List.mem_singleton, Item.l.injEq, hcn, List.not_mem_nil, if_false]; exact h3.2.1
  · intro q hq
    by_cases hqp : q = p
    · subst hqp
      exact hcp
    · simp only [hcs q hqp]
      exact h.contsDone q (by rw [← hos q]; exact hq)
  · intro c u hc
    by_cases hcn : c = s.n
    · subst hcn
      exact ⟨p, pol, hkn, by rw [hos]; exact hd, fun _ => hf.2.1, hf.2.2.2.2.2⟩
    · simp only [change, List.mem_singleton, Item.l.injEq, hcn, List.not_mem_nil, if_false] at hc
      obtain ⟨q, pl, h1, h2, h3⟩ := h.launching c u hc
      exact ⟨q, pl, by simp only [hks c hcn]; exact h1, by rw [hos]; exact h2, h3⟩
  · intro c hc
    have hcn : c ≠ s.n := by intro e; subst e; exact hf.2.2.2.2.2 hc
    obtain ⟨h1, h2⟩ := h.todo c hc
    refine ⟨h1, ?_⟩
    simp only [hks c hcn, hos]
    exact h2
  · have := h.waiting; simp only [upd_apply, change] at *; grind
  · have := h.locked; simp only [upd_apply, change] at *; grind
  · have := h.deferred; simp only [upd_apply, change] at *; grind
  · have := h.running; simp only [upd_apply, change] at *; grind
  · have := h.notYet; simp only [upd_apply, change] at *; grind
  · intro hs c q pl hc hpl
    by_cases hcn : c = s.n
    · subst hcn; rw [hkn] at hc; cases hc
      exact .inr (.inr (.inl (by simp [change])))
    · simp only [hks c hcn] at hc
      have h1 := h.kept hs c q pl hc hpl
      by_cases hq : q = p
      · subst hq
        simp only [hcp]
        rw [hcd hd] at h1; simp only [change]; grind
      · simp only [hcs q hq]
        simp only [change]; grind

theorem Rel.attachWait {strict : Bool} {s : State} {σ : Spec} {own : Item → Option Nat} (h : Rel strict s σ own) (t p : Nat) (pol : Pol) (hp : p < s.n) (hd : (s.node p).out = none) :
    Rel strict { s with n := s.n + 1, node := upd (upd s.node s.n { kind := .cont p pol, deferred := decide (pol = .deferred) }) p { s.node p with conts := (s.node p).conts ++ [s.n] }, stk := upd s.stk t (.launch [] (.attach s.n) :: s.stk t) } { σ with n := σ.n + 1, kind := upd σ.kind s.n (.cont p pol) } (own) := by
  have hf := h.fresh s.n (Nat.le_refl _)
  have hpar := h.not_of_ge
  have hpn : s.n ≠ p := Nat.ne_of_gt hp
  have hcd := h.contsDone p
  have hks : ∀ i, i ≠ s.n → (upd (upd s.node s.n { kind := .cont p pol, deferred := decide (pol = .deferred) }) p { s.node p with conts := (s.node p).conts ++ [s.n] } i).kind = (s.node i).kind := by intro i hi; simp only [upd_apply]; grind
  have hkn : (upd (upd s.node s.n { kind := .cont p pol, deferred := decide (pol = .deferred) }) p { s.node p with conts := (s.node p).conts ++ [s.n] } s.n).kind = .cont p pol := by simp [upd_apply, hpn]
  have hos : ∀ i, (upd (upd s.node s.n { kind := .cont p pol, deferred := decide (pol = .deferred) }) p { s.node p with conts := (s.node p).conts ++ [s.n] } i).out = (s.node i).out := by intro i; simp only [upd_apply]; grind
  have hcs : ∀ i, i ≠ p → (upd (upd s.node s.n { kind := .cont p pol, deferred := decide (pol = .deferred) }) p { s.node p with conts := (s.node p).conts ++ [s.n] } i).conts = (s.node i).conts := by intro i hi; simp only [upd_apply]; grind
  have hcp : (upd (upd s.node s.n { kind := .cont p pol, deferred := decide (pol = .deferred) }) p { s.node p with conts := (s.node p).conts ++ [s.n] } p).conts = (s.node p).conts ++ [s.n] := by simp [upd_apply]
  refine { num := ?_, kind := ?_, out := ?_, busy := ?_, owns := ?_, linked := ?_, frames := ?_, parents := ?_, fresh := ?_, contsNodup := ?_, conts := ?_, contsDone := ?_, launching := ?_, todoNodup := h.todoNodup, todo := ?_, waiting := ?_, locked := ?_, deferred := ?_, running := ?_, notYet := ?_, kept := ?_ }
  · rw [h.num]
  · have := h.kind; simp only [upd_apply, change] at *; grind
  · have := h.out; simp only [upd_apply, change] at *; grind
  · have := h.busy; simp only [upd_apply]; grind [busyOf]
  · have hm := h.owns.mem
    have hn := h.owns.nodup
    refine ⟨fun u x => ?_, fun u => ?_⟩ <;> simp only [upd_apply] <;> split <;> simp_all [its, items]
  · intro u
    have h1 := (h.linked u).congr (n := s.n) (k' := fun i => ((upd (upd s.node s.n { kind := .cont p pol, deferred := decide (pol = .deferred) }) p { s.node p with conts := (s.node p).conts ++ [s.n] }) i).kind) (fun i hi => hks i (Nat.ne_of_lt hi)) (hpar u)
    simp only [upd_apply (f := s.stk)]
    split
    · rename_i e; subst e; exact h1
    · exact h1
  · intro u f hf'
    simp only [upd_apply (f := s.stk)] at hf'
    have hmono : ∀ f ∈ s.stk u, FrOk { s with n := s.n + 1, node := upd (upd s.node s.n { kind := .cont p pol, deferred := decide (pol = .deferred) }) p { s.node p with conts := (s.node p).conts ++ [s.n] }, stk := upd s.stk t (.launch [] (.attach s.n) :: s.stk t) } f := by
      intro f hf'
      refine (h.frames u f hf').mono (Nat.le_succ _) (fun i hi => ?_)
      rw [hos i]; exact hi
    split at hf'
    · rename_i e
      subst e
      rcases List.mem_cons.mp hf' with rfl | hf'
      · exact Nat.lt_succ_self _
      · exact hmono f hf'
    · exact hmono f hf'
  · intro c q pl hc
    by_cases hcn : c = s.n
    · subst hcn; rw [hkn] at hc; cases hc; exact hp
    · exact h.parents c q pl (by rw [← hks c hcn]; exact hc)
  · have := h.fresh; simp only [upd_apply, change] at *; grind
  · have := h.contsNodup
    have h2 := h.conts p s.n
    intro q
    by_cases hq : q = p
    · subst hq
      simp only [hcp]
      rw [List.nodup_append]; refine ⟨this q, by simp, ?_⟩; grind
    · simp only [hcs q hq]; exact this q
  · intro q c hc
    have hold := h.conts q c
    have h2 := h.conts q s.n
    by_cases hq : q = p
    · subst hq
      simp only [hcp] at hc
      rcases List.mem_append.mp hc with hc | hc
      · have h3 := hold hc
        have hcn : c ≠ s.n := by intro e; subst e; have h4 := (h2 hc).1; obtain ⟨pl, h5, _⟩ := h4; rw [hf.1] at h5; cases h5
        refine ⟨?_, h3.2.1, h3.2.2⟩
        obtain ⟨pl, h5, h6⟩ := h3.1
        exact ⟨pl, by simp only [hks c hcn]; exact h5, h6⟩
      · simp only [List.mem_singleton] at hc
        subst hc
        exact ⟨⟨pol, hkn, fun _ => hf.2.1⟩, hf.2.2.1, hf.2.2.2.2.2⟩
    · simp only [hcs q hq] at hc
      have h3 := hold hc
      have hcn : c ≠ s.n := by intro e; subst e; have h4 := (h2 hc).1; obtain ⟨pl, h5, _⟩ := h4; rw [hf.1] at h5; cases h5
      obtain ⟨pl, h5, h6⟩ := h3.1
      refine ⟨⟨pl, by simp only [hks c hcn]; exact h5, h6⟩, ?_, h3.2.2⟩
      exact h3.2.1
  · intro q hq
    by_cases hqp : q = p
    · subst hqp
      rw [hos, hd] at hq; cases hq
    · simp only [hcs q hqp]
      exact h.contsDone q (by rw [← hos q]; exact hq)
  · intro c u hc
    have hcn : c ≠ s.n := by intro e; subst e; rw [hf.2.2.1] at hc; cases hc
    obtain ⟨q, pl, h1, h2, h3⟩ := h.launching c u hc
    exact ⟨q, pl, by simp only [hks c hcn]; exact h1, by rw [hos]; exact h2, h3⟩
  · intro c hc
    have hcn : c ≠ s.n := by intro e; subst e; exact hf.2.2.2.2.2 hc
    obtain ⟨h1, h2⟩ := h.todo c hc
    refine ⟨h1, ?_⟩
    simp only [hks c hcn, hos]
    exact h2
  · have := h.waiting; simp only [upd_apply, change] at *; grind
  · have := h.locked; simp only [upd_apply, change] at *; grind
  · have := h.deferred; simp only [upd_apply, change] at *; grind
  · have := h.running; simp only [upd_apply, change] at *; grind
  · have := h.notYet; simp only [upd_apply, change] at *; grind
  · intro hs c q pl hc hpl
    by_cases hcn : c = s.n
    · subst hcn; rw [hkn] at hc; cases hc
      exact .inr (.inr (.inr (by simp only [hcp]; simp)))
    · simp only [hks c hcn] at hc
      have h1 := h.kept hs c q pl hc hpl
      by_cases hq : q = p
      · subst hq
        simp only [hcp]
        grind
      · simp only [hcs q hq]
        exact h1

/-- A state becomes ready, and its continuations are about to be launched. -/
theorem Rel.complete {strict : Bool} {s : State} {σ : Spec} {own : Item → Option Nat} (h : Rel strict s σ own) (t i : Nat) (o : Out) (w : Why) (rest : List Frame) (del : List Item) (hit : its (s.stk t) = del ++ its rest) (hsub : ∀ f ∈ rest, f ∈ s.stk t)
    (hl : Linked (fun i => (s.node i).kind) rest) (hw : w = .set i ∨ w = .fin i ∨ w = .fin2 i) (hb : (s.node i).kind ≠ .promise → σ.begun i = true) (hff : ∀ u, own (.f i) = some u → .f i ∈ del)
    (hdl : strict = true → ∀ c, .l c ∉ del) (hdp : ∀ c, .p c ∉ del) (hin : i < s.n) :
    Rel strict (s.complete t i o w rest) { σ with out := upd σ.out i (some o), busy := upd σ.busy t (busyOf rest) } (change own t ((s.node i).conts.map .l) del) := by
  show Rel strict { s with node := upd s.node i { s.node i with out := some o, conts := [] }, stk := upd s.stk t (.launch (s.node i).conts w :: rest) } _ _
  have hks : ∀ j, (upd s.node i { s.node i with out := some o, conts := [] } j).kind = (s.node j).kind := by intro j; simp only [upd_apply]; grind
  have hos : ∀ j, (s.node j).out.isSome → (upd s.node i { s.node i with out := some o, conts := [] } j).out.isSome := by intro j; simp only [upd_apply]; grind
  have hc := h.conts
  refine { num := h.num, kind := ?_, out := ?_, busy := ?_, owns := ?_, linked := ?_, frames := ?_, parents := ?_, fresh := ?_, contsNodup := ?_, conts := ?_, contsDone := ?_, launching := ?_, todoNodup := h.todoNodup, todo := ?_, waiting := ?_, locked := ?_, deferred := ?_, running := ?_, notYet := ?_, kept := ?_ }
  · have := h.kind; simp only [upd_apply, change] at *; grind
  · have := h.out; simp only [upd_apply, change] at *; grind
  · have := h.busy; simp only [upd_apply]; grind [busyOf]
  · refine h.owns.change (r := its rest) hit rfl ?_ ?_
    · simp only [List.Nodup, List.pairwise_map]; exact (h.contsNodup i).imp (fun hab e => hab (by cases e; rfl))
    · intro x hx
      obtain ⟨c, hc1, rfl⟩ := List.mem_map.mp hx
      exact (hc i c hc1).2.1
  · intro u
    have h1 := h.linked u
    simp only [upd_apply (f := s.stk), hks]
    split
    · exact hl
    · exact h1
  · intro u f hf
    simp only [upd_apply (f := s.stk)] at hf
    have hmono : ∀ v, ∀ f ∈ s.stk v, FrOk { s with node := upd s.node i { s.node i with out := some o, conts := [] }, stk := upd s.stk t (.launch (s.node i).conts w :: rest) } f := fun v f hf => FrOk.mono (s := s) (Nat.le_refl _) hos (h.frames v f hf)
    split at hf
    · rcases List.mem_cons.mp hf with rfl | hf
      · have h1 : ((upd s.node i { s.node i with out := some o, conts := [] }) i).out.isSome := by simp [upd_apply]
        rcases hw with rfl | rfl | rfl <;> exact h1
      · exact hmono t f (hsub f hf)
    · exact hmono u f hf
  · simp only [hks]; exact h.parents
  · have := h.fresh; simp only [upd_apply, change] at *; grind
  · have := h.contsNodup; simp only [upd_apply, change] at *; grind
  · have := h.conts; simp only [hks]; simp only [upd_apply, change] at *; grind
  · have := h.contsDone; simp only [upd_apply, change] at *; grind
  · intro c u hcu
    simp only [hks]
    simp only [change] at hcu
    split at hcu
    · rename_i hm
      obtain ⟨d, hd, e⟩ := List.mem_map.mp hm
      cases e
      obtain ⟨⟨pl, h1, h2⟩, h3, h4⟩ := hc i c hd
      exact ⟨i, pl, h1, by simp [upd_apply], h2, h4⟩
    · split at hcu
      · cases hcu
      · obtain ⟨q, pl, h1, h2, h3⟩ := h.launching c u hcu
        exact ⟨q, pl, h1, hos q h2, h3⟩
  · intro c hm
    obtain ⟨h1, h2⟩ := h.todo c hm
    refine ⟨h1, ?_⟩
    simp only [hks]
    rcases h2 with h2 | ⟨q, pl, h2, h3, h4⟩
    · exact .inl h2
    · exact .inr ⟨q, pl, h2, h3, hos q h4⟩
  · have := h.waiting; simp only [upd_apply, change] at *; grind
  · have := h.locked; simp only [upd_apply, change] at *; grind
  · have := h.deferred; simp only [upd_apply, change] at *; grind
  · have := h.running; simp only [upd_apply, change] at *; grind
  · have := h.notYet; simp only [upd_apply, change] at *; grind
  · intro hs c q pl hk hpl
    simp only [hks] at hk
    have h1 := h.kept hs c q pl hk hpl
    have h2 := hdl hs c
    simp only [upd_apply, change]
    grind

/-- Continuations to launch are dropped. -/
theorem Rel.drop {strict : Bool} {s : State} {σ : Spec} {own : Item → Option Nat} (h : Rel strict s σ own) (t : Nat) (rest : List Frame) (del : List Item) (hit : its (s.stk t) = del ++ its rest) (hfr : ∀ f ∈ rest, FrOk s f)
    (hl : Linked (fun i => (s.node i).kind) rest) (hdl : strict = true → ∀ c, .l c ∈ del → ∃ p, (s.node c).kind = .cont p .deferred) (hdp : ∀ c, .p c ∉ del) :
    Rel strict { s with stk := upd s.stk t rest } { σ with busy := upd σ.busy t (busyOf rest) } (change own t [] del) := by
  refine { num := h.num, kind := h.kind, out := h.out, busy := ?_, owns := ?_, linked := ?_, frames := ?_, parents := h.parents, fresh := ?_, contsNodup := h.contsNodup, conts := ?_, contsDone := h.contsDone, launching := ?_, todoNodup := h.todoNodup, todo := h.todo, waiting := ?_, locked := ?_, deferred := ?_, running := ?_, notYet := h.notYet, kept := ?_ }
  · have := h.busy; simp only [upd_apply]; grind [busyOf]
  · exact h.owns.change (r := its rest) hit rfl (by simp) (by simp)
  · intro u; have h1 := h.linked u; simp only [upd_apply]; split <;> assumption
  · intro u f hf
    simp only [upd_apply] at hf
    refine FrOk.mono (s := s) (Nat.le_refl _) (fun _ h => h) ?_
    split at hf
    · exact hfr f hf
    · exact h.frames u f hf
  · have := h.fresh; simp only [upd_apply, change] at *; grind
  · have := h.conts; simp only [upd_apply, change] at *; grind
  · have := h.launching; simp only [upd_apply, change] at *; grind
  · have := h.waiting; simp only [upd_apply, change] at *; grind
  · have := h.locked; simp only [upd_apply, change] at *; grind
  · have := h.deferred; simp only [upd_apply, change] at *; grind
  · have := h.running; simp only [upd_apply, change] at *; grind
  · intro hs c q pl hk hpl
    have h1 := h.kept hs c q pl hk hpl
    have h2 := hdl hs c
    simp only [change]
    grind

/-- A thread is started, or work is submitted. -/
theorem Rel.later {strict : Bool} {s : State} {σ : Spec} {own : Item → Option Nat} (h : Rel strict s σ own) (t c : Nat) (rest : List Frame) (p : Nat) (pol : Pol) (hk : (s.node c).kind = .cont p pol) (hpol : pol ≠ .deferred) (hit : its (s.stk t) = [.l c] ++ its rest)
    (hfr : ∀ f ∈ rest, FrOk s f) (hl : Linked (fun i => (s.node i).kind) rest) :
    Rel strict { s with stk := upd s.stk t rest, todo := s.todo ++ [c] } { σ with busy := upd σ.busy t (busyOf rest) } (change own t [] [.l c]) := by
  have hown : own (.l c) = some t := (h.owns.mem t _).mp (by rw [hit]; simp)
  have hcn : c < s.n := by
    rcases Nat.lt_or_ge c s.n with h1 | h1
    · exact h1
    · rw [(h.fresh c h1).1] at hk; cases hk
  have hL := h.launching c t hown
  refine { num := h.num, kind := h.kind, out := h.out, busy := ?_, owns := ?_, linked := ?_, frames := ?_, parents := h.parents, fresh := ?_, contsNodup := h.contsNodup, conts := ?_, contsDone := h.contsDone, launching := ?_, todoNodup := ?_, todo := ?_, waiting := ?_, locked := ?_, deferred := ?_, running := ?_, notYet := h.notYet, kept := ?_ }
  · have := h.busy; simp only [upd_apply]; grind [busyOf]
  · exact h.owns.change (r := its rest) hit rfl (by simp) (by simp)
  · intro u; have h1 := h.linked u; simp only [upd_apply]; split <;> assumption
  · intro u f hf
    simp only [upd_apply] at hf
    refine FrOk.mono (s := s) (Nat.le_refl _) (fun _ h => h) ?_
    split at hf
    · exact hfr f hf
    · exact h.frames u f hf
  · have := h.fresh; simp only [upd_apply, change] at *; grind
  · have := h.conts; simp only [upd_apply, change] at *; grind
  · have := h.launching; simp only [upd_apply, change] at *; grind
  · rw [List.nodup_append]
    refine ⟨h.todoNodup, by simp, ?_⟩
    obtain ⟨_, _, _, _, _, h1⟩ := hL
    grind
  · have := h.todo; simp only [upd_apply, change] at *; grind
  · have := h.waiting; simp only [upd_apply, change] at *; grind
  · have := h.locked; simp only [upd_apply, change] at *; grind
  · have := h.deferred; simp only [upd_apply, change] at *; grind
  · have := h.running; simp only [upd_apply, change] at *; grind
  · have := h.kept; simp only [upd_apply, change] at *; grind

/-- A function begins. -/
theorem Rel.began {strict : Bool} {s : State} {σ : Spec} {own : Item → Option Nat} (h : Rel strict s σ own) (t c : Nat) (rest : List Frame) (del : List Item) (hb : σ.begun c = false) (hk : (s.node c).kind ≠ .promise) (hit : its (s.stk t) = del ++ its rest)
    (hfr : ∀ f ∈ rest, FrOk s f) (hl : Linked (fun i => (s.node i).kind) rest) (hdel : ∀ x ∈ del, x = .l c ∨ x = .p c) (hp : ∀ u, own (.p c) = some u → .p c ∈ del)
    (hloc : (∃ p, (s.node c).kind = .cont p .deferred) ∨ (s.node c).kind = .deferred ∨ .l c ∈ del ∨ c ∈ s.todo) :
    Rel strict { s with node := upd s.node c { s.node c with deferred := false, locked := false }, stk := upd s.stk t (.fn c :: rest), todo := s.todo.erase c } { σ with begun := upd σ.begun c true, busy := upd σ.busy t (.inFn c :: busyOf rest) } (change own t [.f c] del) := by
  have hcn : c < s.n := by
    rcases Nat.lt_or_ge c s.n with h1 | h1
    · exact h1
    · rw [(h.fresh c h1).1] at hk; exact absurd rfl hk
  have hfn : own (.f c) = none := by
    cases ho : own (.f c) with
    | none => rfl
    | some u => rw [(h.running c u ho).2.1] at hb; cases hb
  have hldel : .l c ∈ del → own (.l c) = some t := fun hm => (h.owns.mem t _).mp (by rw [hit]; exact List.mem_append_left _ hm)
  have hno := h.notYet c hk hb
  have htn := h.todoNodup
  have htm : ∀ d, d ∈ s.todo.erase c ↔ d ≠ c ∧ d ∈ s.todo := fun d => htn.mem_erase_iff
  have hks : ∀ j, (upd s.node c { s.node c with deferred := false, locked := false } j).kind = (s.node j).kind := by intro j; simp only [upd_apply]; grind
  have hos : ∀ j, (upd s.node c { s.node c with deferred := false, locked := false } j).out = (s.node j).out := by intro j; simp only [upd_apply]; grind
  have hcs : ∀ j, (upd s.node c { s.node c with deferred := false, locked := false } j).conts = (s.node j).conts := by intro j; simp only [upd_apply]; grind
  have hde : ∀ x, x ≠ .l c → x ≠ .p c → x ∉ del := fun x h1 h2 h3 => (hdel x h3).elim h1 h2
  refine { num := h.num, kind := ?_, out := ?_, busy := ?_, owns := ?_, linked := ?_, frames := ?_, parents := ?_, fresh := ?_, contsNodup := ?_, conts := ?_, contsDone := ?_, launching := ?_, todoNodup := ?_, todo := ?_, waiting := ?_, locked := ?_, deferred := ?_, running := ?_, notYet := ?_, kept := ?_ }
  · simp only [hks]; exact h.kind
  · simp only [hos]; exact h.out
  · have := h.busy; simp only [upd_apply]; grind [busyOf]
  · refine h.owns.change (r := its rest) hit rfl (by simp) ?_
    intro x hx
    simp only [List.mem_singleton] at hx
    subst hx
    exact hfn
  · intro u; have h1 := h.linked u; simp only [upd_apply (f := s.stk), hks]; split <;> assumption
  · intro u f hf
    simp only [upd_apply] at hf
    refine FrOk.mono (s := s) (Nat.le_refl _) (fun j h => by rw [hos]; exact h) ?_
    split at hf
    · rcases List.mem_cons.mp hf with rfl | hf
      · trivial
      · exact hfr f hf
    · exact h.frames u f hf
  · simp only [hks]; exact h.parents
  · have := h.fresh; simp only [upd_apply, change] at *; grind
  · simp only [hcs]; exact h.contsNodup
  · have := h.conts; simp only [hks, hcs, htm]; simp only [upd_apply, change] at *; grind
  · simp only [hos, hcs]; exact h.contsDone
  · have := h.launching; have h2 := h.todo; have h3 := h.owns.mem; simp only [hks, hos, htm]; simp only [upd_apply, change] at *; grind
  · exact htn.erase _
  · have := h.todo; simp only [hks, hos, htm]; simp only [upd_apply, change] at *; grind
  · have := h.waiting; simp only [hks]; simp only [upd_apply, change] at *; grind
  · intro d
    have h1 := h.locked d
    simp only [upd_apply, change, List.mem_singleton, reduceCtorEq, if_false]
    split
    · rename_i e
      subst e
      cases ho : own (.p d) with
      | none => simp
      | some u => simp [hp u ho]
    · rename_i e
      rw [if_neg (hde _ (by simp) (by simp [e]))]
      exact h1
  · have := h.deferred; simp only [upd_apply, change] at *; grind
  · have := h.running; simp only [hos, hks]; simp only [upd_apply, change] at *; grind
  · have := h.notYet; simp only [hos, hks]; simp only [upd_apply, change] at *; grind
  · intro hs d q pl hk' hpl
    simp only [hks] at hk'
    have h1 := h.kept hs d q pl hk' hpl
    simp only [hcs, htm, upd_apply, change]
    grind

/-- A deferred continuation is taken up. -/
theorem Rel.take {strict : Bool} {s : State} {σ : Spec} {own : Item → Option Nat} (h : Rel strict s σ own) (t c p : Nat) (hk : (s.node c).kind = .cont p .deferred) (hd : (s.node c).deferred = true) (hw : Wants (fun i => (s.node i).kind) c (s.stk t)) :
    Rel strict { s with node := upd s.node c { s.node c with deferred := false, locked := true }, stk := upd s.stk t (.parent c :: s.stk t) } σ (change own t [.p c] []) := by
  have hD := h.deferred c hd
  have hks : ∀ j, (upd s.node c { s.node c with deferred := false, locked := true } j).kind = (s.node j).kind := by intro j; simp only [upd_apply]; grind
  have hos : ∀ j, (upd s.node c { s.node c with deferred := false, locked := true } j).out = (s.node j).out := by intro j; simp only [upd_apply]; grind
  have hcs : ∀ j, (upd s.node c { s.node c with deferred := false, locked := true } j).conts = (s.node j).conts := by intro j; simp only [upd_apply]; grind
  refine { num := h.num, kind := ?_, out := ?_, busy := ?_, owns := ?_, linked := ?_, frames := ?_, parents := ?_, fresh := ?_, contsNodup := ?_, conts := ?_, contsDone := ?_, launching := ?_, todoNodup := h.todoNodup, todo := ?_, waiting := ?_, locked := ?_, deferred := ?_, running := ?_, notYet := ?_, kept := ?_ }
  · simp only [hks]; exact h.kind
  · simp only [hos]; exact h.out
  · have := h.busy; simp only [upd_apply]; grind [busyOf]
  · refine h.owns.change (r := its (s.stk t)) rfl rfl (by simp) ?_
    intro x hx
    simp only [List.mem_singleton] at hx
    subst hx
    exact hD.2.1
  · intro u
    have h1 := h.linked u
    simp only [upd_apply (f := s.stk), hks]
    split
    · rename_i e; subst e; exact ⟨hw, h1⟩
    · exact h1
  · intro u f hf
    simp only [upd_apply] at hf
    refine FrOk.mono (s := s) (Nat.le_refl _) (fun j h => by rw [hos]; exact h) ?_
    split at hf
    · rcases List.mem_cons.mp hf with rfl | hf
      · trivial
      · exact h.frames t f hf
    · exact h.frames u f hf
  · simp only [hks]; exact h.parents
  · have := h.fresh; simp only [upd_apply, change] at *; grind
  · simp only [hcs]; exact h.contsNodup
  · have := h.conts; simp only [hks, hcs]; simp only [upd_apply, change] at *; grind
  · simp only [hos, hcs]; exact h.contsDone
  · have := h.launching; simp only [hks, hos]; simp only [upd_apply, change] at *; grind
  · simp only [hks, hos]; exact h.todo
  · have := h.waiting; simp only [upd_apply, change] at *; grind
  · have := h.locked; simp only [upd_apply, change] at *; grind
  · have := h.deferred; simp only [upd_apply, change] at *; grind
  · have := h.running; simp only [hos, hks]; simp only [upd_apply, change] at *; grind
  · simp only [hos, hks]; exact h.notYet
  · intro hs d q pl hk' hpl
    simp only [hks] at hk'
    have h1 := h.kept hs d q pl hk' hpl
    simp only [hcs, change]
    grind

/-! ## The steps -/

theorem Rel.lt_of_cont {strict : Bool} {s : State} {σ : Spec} {own : Item → Option Nat} (h : Rel strict s σ own) {c : Nat} (hk : (s.node c).kind ≠ .promise) : c < s.n := by
  rcases Nat.lt_or_ge c s.n with h1 | h1
  · exact h1
  · rw [(h.fresh c h1).1] at hk; exact absurd rfl hk

theorem kind_eq {strict : Bool} {s : State} {σ : Spec} {own : Item → Option Nat} (h : Rel strict s σ own) : σ.kind = fun i => (s.node i).kind := funext h.kind

theorem upd_same {α : Type} (f : Nat → α) (i : Nat) (x : α) (h : f i = x) : upd f i x = f := by
  funext j; simp only [upd_apply]; split
  · rename_i e; rw [e, h]
  · rfl

theorem sim_op {strict : Bool} {s s' : State} {es : List Event} {σ : Spec} {t : Nat} {o : Op} (hR : R strict s σ) (hs : doOp s t o = some (s', es)) : Follows (next strict) (R strict s') σ es := by
  obtain ⟨own, h⟩ := hR
  cases o <;> simp only [doOp] at hs
  case promise =>
    cases hs
    simp only [Follows, next, h.num]
    exact ⟨own, by simpa [h.num] using h.create .promise (by simp)⟩
  case spawn =>
    cases hs
    simp only [Follows, next, h.num]
    exact ⟨own, by simpa [h.num] using h.create .spawned (by simp)⟩
  case defer =>
    cases hs
    simp only [Follows, next, h.num]
    exact ⟨own, by simpa [h.num] using h.create .deferred (by simp)⟩
  case attach p pol =>
    split at hs
    · rename_i hp
      split at hs
      · rename_i hd
        cases hs
        simp only [Follows, next, h.num]
        rw [if_pos ⟨trivial, hp.1⟩]
        exact ⟨_, by simpa [h.num] using h.attachDone t p pol hp.1 hd⟩
      · rename_i hd
        cases hs
        simp only [Follows, next, h.num]
        rw [if_pos ⟨trivial, hp.1⟩]
        exact ⟨_, by simpa [h.num] using h.attachWait t p pol hp.1 (by simpa using hd)⟩
    · cases hs
  case set i o =>
    split at hs
    · rename_i hi
      split at hs
      · rename_i hd
        cases hs
        simp only [Follows, next]
        rw [if_pos ⟨by rw [h.kind]; exact hi.2, by rw [h.out]; exact hd⟩]
        exact ⟨own, h⟩
      · rename_i hd
        cases hs
        have hd' : (s.node i).out = none := by simpa using hd
        simp only [Follows, next]
        rw [if_pos ⟨by rw [h.num]; exact hi.1, by rw [h.kind]; exact hi.2, by rw [h.out]; exact hd'⟩]
        have hc := h.complete t i o (.set i) (s.stk t) [] rfl (fun f hf => hf) (h.linked t) (.inl rfl) (fun hk => absurd hi.2 hk) ?_ (by simp) (by simp) hi.1
        · rw [upd_same σ.busy t _ (h.busy t)] at hc
          exact ⟨_, hc⟩
        · intro u hu
          exact absurd hi.2 (h.running i u hu).2.2
    · cases hs
  case wait i =>
    split at hs
    · rename_i hi
      cases hs
      simp only [Follows, next]
      rw [if_pos (by rw [h.num]; exact hi)]
      refine ⟨own, ?_⟩
      have := h.restack t (.wait i :: s.stk t) rfl (h.linked t) (fun f hf => by
        rcases List.mem_cons.mp hf with rfl | hf
        · exact hi
        · exact h.frames t f hf)
      simpa only [busyOf, ← h.busy t] using this
    · cases hs
  case poll i =>
    split at hs
    · rename_i hi
      cases hs
      simp only [Follows, next]
      rw [if_pos ⟨by rw [h.num]; exact hi.1, by rw [h.out]⟩]
      exact ⟨own, h⟩
    · cases hs

/-- What the specification says about a function that may begin. -/
theorem began_ok {strict : Bool} {s : State} {σ : Spec} {own : Item → Option Nat} (h : Rel strict s σ own) {t c : Nat} (hb : σ.begun c = false) (hk : (s.node c).kind ≠ .promise)
    (hm : mayBegin σ t c = true) : next strict σ (.began t c) = .ok { σ with begun := upd σ.begun c true, busy := upd σ.busy t (.inFn c :: σ.busy t) } := by
  simp only [next]
  rw [if_pos ⟨by rw [h.num]; exact h.lt_of_cont hk, hb, hm⟩]

theorem sim_execute {strict : Bool} {s s' : State} {es : List Event} {σ : Spec} {own : Item → Option Nat} {t i : Nat} (h : Rel strict s σ own) (hd : (s.node i).deferred = true)
    (hw : Wants (fun i => (s.node i).kind) i (s.stk t)) (hs : execute s t i (s.stk t) = some (s', es)) : Follows (next strict) (R strict s') σ es := by
  have hD := h.deferred i hd
  have hL : (s.node i).locked = false := by rw [h.locked, hD.2.1]; rfl
  have hwant := wanted_of_wants h.parents (s.stk t) i hw (h.linked t)
  simp only [execute] at hs
  split at hs
  · rename_i hk
    cases hs
    have hk' : (s.node i).kind ≠ .promise := by rw [hk]; simp
    have hm : mayBegin σ t i = true := by simp only [mayBegin, h.kind, hk]; rw [kind_eq h, h.busy]; exact hwant
    have hnt : i ∉ s.todo := fun hm => by
      have := (h.todo i hm).2
      rw [hk] at this
      rcases this with h1 | ⟨_, _, h1, _⟩ <;> cases h1
    simp only [Follows, began_ok h hD.1 hk' hm]
    have := h.began t i (s.stk t) [] hD.1 hk' rfl (h.frames t) (h.linked t) (by simp) (fun u hu => by rw [hD.2.1] at hu; cases hu) (.inr (.inl hk))
    rw [List.erase_of_not_mem hnt, ← h.busy t] at this
    exact ⟨_, by simpa only [hL] using this⟩
  · rename_i p hk
    cases hs
    simp only [Follows]
    exact ⟨_, h.take t i p hk hd hw⟩
  · cases hs

theorem sim_go {strict : Bool} {s s' : State} {es : List Event} {σ : Spec} {t : Nat} (hR : R strict s σ) (hs : go s t (s.stk t) = some (s', es)) : Follows (next strict) (R strict s') σ es := by
  obtain ⟨own, h⟩ := hR
  have hlk := h.linked t
  have hfr := h.frames t
  have hbt := h.busy t
  have hmem := h.owns.mem t
  cases hst : s.stk t with
  | nil => rw [hst] at hs; simp [go] at hs
  | cons f rest =>
    rw [hst] at hlk hfr hbt hmem
    have hfr' : ∀ f ∈ rest, FrOk s f := fun f hf => hfr f (List.mem_cons_of_mem _ hf)
    cases f with
    | fn c => rw [hst] at hs; simp [go] at hs
    | launch l w =>
      rw [hst] at hs
      cases l with
      | nil =>
        simp only [go, Option.some.injEq, Prod.mk.injEq] at hs
        obtain ⟨rfl, rfl⟩ := hs
        have h1 := h.restack t rest (by rw [hst]; rfl) hlk hfr'
        simp only [busyOf] at hbt
        rw [upd_same σ.busy t _ hbt] at h1
        have hw := hfr _ (List.mem_cons_self ..)
        cases w <;> simp only [Why.ret, Follows, next, FrOk] at hw ⊢
        · rw [if_pos (by rw [h.out]; exact hw)]; exact ⟨own, h1⟩
        · rw [if_pos (by rw [h.num]; exact hw)]; exact ⟨own, h1⟩
        · exact ⟨own, h1⟩
        · exact ⟨own, h1⟩
      | cons c l =>
        have hit : its (s.stk t) = [.l c] ++ its (.launch l w :: rest) := by rw [hst]; simp [its, items]
        have hown : own (.l c) = some t := (h.owns.mem t _).mp (by rw [hit]; simp)
        have hfr2 : ∀ f ∈ Frame.launch l w :: rest, FrOk s f := by
          intro f hf
          rcases List.mem_cons.mp hf with rfl | hf
          · have hw := hfr _ (List.mem_cons_self ..)
            cases w <;> exact hw
          · exact hfr' f hf
        have hlk2 : Linked (fun i => (s.node i).kind) (Frame.launch l w :: rest) := hlk
        obtain ⟨p, pol, hk, hpo, hbeg, hnt⟩ := h.launching c t hown
        have hk' : (s.node c).kind ≠ .promise := by rw [hk]; simp
        have hbt2 : σ.busy t = busyOf (Frame.launch l w :: rest) := hbt
        cases pol with
        | sync =>
          simp only [go, hk, Option.some.injEq, Prod.mk.injEq] at hs
          obtain ⟨rfl, rfl⟩ := hs
          have hb := hbeg (by simp)
          have hm : mayBegin σ t c = true := by simp [mayBegin, h.kind, hk, h.out, hpo]
          have hdf : (s.node c).deferred = false := by
            cases hd : (s.node c).deferred with
            | false => rfl
            | true =>
              have := (h.deferred c hd).2.2
              rw [hk] at this
              rcases this with h1 | ⟨_, h1⟩ <;> cases h1
          have hop : own (.p c) = none := by
            cases ho : own (.p c) with
            | none => rfl
            | some u =>
              obtain ⟨q, h1⟩ := (h.waiting c u ho).1
              rw [hk] at h1; cases h1
          have hL : (s.node c).locked = false := by rw [h.locked, hop]; rfl
          simp only [Follows, began_ok h hb hk' hm]
          have := h.began t c (.launch l w :: rest) [.l c] hb hk' hit hfr2 hlk2 (by simp) (fun u hu => by rw [hop] at hu; cases hu) (.inr (.inr (.inl (by simp))))
          rw [List.erase_of_not_mem hnt, upd_same s.node c _ (by cases hn : s.node c; simp_all), ← hbt2] at this
          exact ⟨_, this⟩
        | async =>
          simp only [go, hk, Option.some.injEq, Prod.mk.injEq] at hs
          obtain ⟨rfl, rfl⟩ := hs
          have h1 := h.later t c (.launch l w :: rest) p .async hk (by simp) hit hfr2 hlk2
          rw [upd_same σ.busy t _ hbt2] at h1
          exact ⟨_, h1⟩
        | executor =>
          simp only [go, hk, Option.some.injEq, Prod.mk.injEq] at hs
          obtain ⟨rfl, rfl⟩ := hs
          have h1 := h.later t c (.launch l w :: rest) p .executor hk (by simp) hit hfr2 hlk2
          rw [upd_same σ.busy t _ hbt2] at h1
          exact ⟨_, h1⟩
        | deferred =>
          simp only [go, hk, Option.some.injEq, Prod.mk.injEq] at hs
          obtain ⟨rfl, rfl⟩ := hs
          have h1 := h.drop t (.launch l w :: rest) [.l c] hit hfr2 hlk2 (fun _ d hd => by
            simp only [List.mem_singleton, Item.l.injEq] at hd
            subst hd; exact ⟨p, hk⟩) (by simp)
          rw [upd_same σ.busy t _ hbt2] at h1
          exact ⟨_, h1⟩
    | wait i =>
      simp only [go, hst] at hs
      split at hs
      · cases hs
      · split at hs
        · rename_i hd
          rw [← hst] at hs
          exact sim_execute h hd (by rw [hst]; exact rfl) hs
        · split at hs
          · rename_i o ho
            cases hs
            simp only [Follows, next, hbt, busyOf]
            rw [if_pos ⟨trivial, by rw [h.out]; exact ho⟩]
            exact ⟨own, h.restack t rest (by rw [hst]; rfl) hlk hfr'⟩
          · cases hs
    | parent c =>
      simp only [go, hst] at hs
      split at hs
      · rename_i p hk
        split at hs
        · cases hs
        · split at hs
          · rename_i hd
            rw [← hst] at hs
            exact sim_execute h hd (by rw [hst]; exact hk) hs
          · split at hs
            · rename_i hpo
              cases hs
              have hown : own (.p c) = some t := (h.owns.mem t _).mp (by rw [hst]; simp [its, items])
              obtain ⟨_, hb, hdf⟩ := h.waiting c t hown
              have hk' : (s.node c).kind ≠ .promise := by rw [hk]; simp
              have hwant := wanted_of_wants h.parents rest c hlk.1 hlk.2
              have hm : mayBegin σ t c = true := by
                simp only [mayBegin, h.kind, hk]
                rw [kind_eq h, hbt, h.out]
                simp only [busyOf, hpo, hwant]
                rfl
              have hnt : c ∉ s.todo := fun hm => by
                have := (h.todo c hm).2
                rw [hk] at this
                rcases this with h1 | ⟨_, _, h1, h2, _⟩
                · cases h1
                · cases h1; exact h2 rfl
              simp only [Follows, began_ok h hb hk' hm]
              have := h.began t c rest [.p c] hb hk' (by rw [hst]; rfl) hfr' hlk.2 (by simp) (fun u hu => by simp) (.inl ⟨p, hk⟩)
              rw [List.erase_of_not_mem hnt] at this
              rw [hbt]
              exact ⟨_, by simpa only [hdf, busyOf] using this⟩
            · cases hs
      · cases hs

theorem sim_fail {s s' : State} {es : List Event} {σ : Spec} {t : Nat} (hR : R false s σ) (hs : fail s t (s.stk t) = some (s', es)) : Follows (next false) (R false s') σ es := by
  obtain ⟨own, h⟩ := hR
  have hlk := h.linked t
  have hfr := h.frames t
  have hbt := h.busy t
  cases hst : s.stk t with
  | nil => rw [hst] at hs; simp [fail] at hs
  | cons f rest =>
    rw [hst] at hlk hfr hbt
    have hfr' : ∀ f ∈ rest, FrOk s f := fun f hf => hfr f (List.mem_cons_of_mem _ hf)
    rw [hst] at hs
    cases f with
    | fn c => simp [fail] at hs
    | wait c => simp [fail] at hs
    | parent c => simp [fail] at hs
    | launch l w =>
      cases l with
      | nil => simp [fail] at hs
      | cons c l =>
        simp only [fail] at hs
        split at hs
        · have hw := hfr _ (List.mem_cons_self ..)
          have hit : its (s.stk t) = (c :: l).map Item.l ++ its rest := by rw [hst]; rfl
          have hbt2 : σ.busy t = busyOf rest := hbt
          have hdp : ∀ d, Item.p d ∉ (c :: l).map Item.l := by simp
          have h1 := h.drop t rest _ hit hfr' hlk (by simp) hdp
          rw [upd_same σ.busy t _ hbt2] at h1
          cases w <;> simp only [FrOk] at hw <;> simp only [Option.some.injEq, Prod.mk.injEq] at hs
          · obtain ⟨rfl, rfl⟩ := hs
            simp only [Follows, next]
            rw [if_pos ⟨trivial, by rw [h.out]; exact hw⟩]
            exact ⟨_, h1⟩
          · obtain ⟨rfl, rfl⟩ := hs
            simp only [Follows, next]
            exact ⟨_, h1⟩
          · rename_i d
            obtain ⟨rfl, rfl⟩ := hs
            simp only [Follows, next]
            rw [if_pos ⟨trivial, by rw [h.out]; exact hw⟩]
            have h2 := h.complete t d .noThread (.fin2 d) rest _ hit (fun f hf => by rw [hst]; exact List.mem_cons_of_mem _ hf) hlk (.inr (.inr rfl)) (fun hk => ?_) (fun u hu => ?_) (by simp) hdp ?_
            · rw [upd_same σ.busy t _ hbt2] at h2
              exact ⟨_, h2⟩
            · cases hb : σ.begun d with
              | true => rfl
              | false => rw [h.notYet d hk hb] at hw; cases hw
            · rw [(h.running d u hu).1] at hw; cases hw
            · rcases Nat.lt_or_ge d s.n with h3 | h3
              · exact h3
              · rw [(h.fresh d h3).1] at hw; cases hw
          · cases hs
        · cases hs

/-- Every step follows the specification; the strict one if nothing fails to start. -/
theorem sim {strict : Bool} {s s' : State} {l : Label} {es : List Event} {σ : Spec} (hl : strict = true → ∀ t, l ≠ .fail t) (hR : R strict s σ) (hs : step s l = some (s', es)) :
    Follows (next strict) (R strict s') σ es := by
  cases l <;> simp only [step] at hs
  case op t o =>
    split at hs
    · exact sim_op hR hs
    · cases hs
  case begin t c =>
    split at hs
    · rename_i hc
      cases hs
      obtain ⟨own, h⟩ := hR
      obtain ⟨hb, hk⟩ := h.todo c hc.1
      have hk' : (s.node c).kind ≠ .promise := by rcases hk with hk | ⟨_, _, hk, _⟩ <;> rw [hk] <;> simp
      have hm : mayBegin σ t c = true := by
        rcases hk with hk | ⟨p, pol, hk, h1, h2⟩
        · simp [mayBegin, h.kind, hk]
        · simp [mayBegin, h.kind, hk, h.out, h2, h1]
      have hdf : (s.node c).deferred = false := by
        cases hd : (s.node c).deferred with
        | false => rfl
        | true =>
          have := (h.deferred c hd).2.2
          rcases hk with hk | ⟨p, pol, hk, h1, h2⟩ <;> rw [hk] at this <;> rcases this with h3 | ⟨_, h3⟩ <;> cases h3
          exact absurd rfl h1
      have hop : own (.p c) = none := by
        cases ho : own (.p c) with
        | none => rfl
        | some u =>
          obtain ⟨q, h3⟩ := (h.waiting c u ho).1
          rcases hk with hk | ⟨p, pol, hk, h1, h2⟩ <;> rw [hk] at h3 <;> cases h3
          exact absurd rfl h1
      have hL : (s.node c).locked = false := by rw [h.locked, hop]; rfl
      simp only [Follows, began_ok h hb hk' hm]
      have := h.began t c (s.stk t) [] hb hk' rfl (h.frames t) (h.linked t) (by simp) (fun u hu => by rw [hop] at hu; cases hu) (.inr (.inr (.inr hc.1)))
      rw [upd_same s.node c _ (by cases hn : s.node c; simp_all), ← h.busy t] at this
      exact ⟨_, this⟩
    · cases hs
  case finish t o =>
    split at hs
    · rename_i c rest hst
      cases hs
      obtain ⟨own, h⟩ := hR
      have hlk := h.linked t
      have hbt := h.busy t
      rw [hst] at hlk hbt
      have hown : own (.f c) = some t := (h.owns.mem t _).mp (by rw [hst]; simp [its, items])
      obtain ⟨ho, hb, hk⟩ := h.running c t hown
      simp only [Follows, next, hbt, busyOf]
      rw [if_pos ⟨trivial, by rw [h.out]; exact ho⟩]
      exact ⟨_, h.complete t c o (.fin c) rest [.f c] (by rw [hst]; rfl) (fun f hf => by rw [hst]; exact List.mem_cons_of_mem _ hf) hlk (.inr (.inl rfl)) (fun _ => hb) (by simp) (by simp) (by simp)
        (h.lt_of_cont hk)⟩
    · cases hs
  case go t => exact sim_go hR hs
  case fail t =>
    cases strict with
    | true => exact absurd rfl (hl rfl t)
    | false => exact sim_fail hR hs

end Verif.Continuation
