import Verif.Async.Model
import Verif.Core.Threads
/-!
# The accounting of references

Every reference to a shared state is in one place: in a future that a thread has, in a call that is under way, or in the thread that runs the function. The counts of these places
determine the use count, and tell how far each call has come.
-/

set_option linter.unusedSimpArgs false

namespace Verif.Async

/-- Sum over all threads. -/
def tot (f : Thread → Nat) (l : List Thread) : Nat := (l.map f).sum

theorem tot_set (f : Thread → Nat) {l : List Thread} {t : Nat} {x : Thread} (y : Thread) (h : l[t]? = some x) : tot f (l.set t y) + f x = tot f l + f y := by
  induction l generalizing t with
  | nil => simp at h
  | cons a l ih =>
    cases t with
    | zero => simp only [List.getElem?_cons_zero, Option.some.injEq] at h; subst h; simp only [List.set_cons_zero, tot, List.map_cons, List.sum_cons]; omega
    | succ t => simp only [List.getElem?_cons_succ] at h; have := ih h; simp only [List.set_cons_succ, tot, List.map_cons, List.sum_cons] at this ⊢; omega

theorem tot_append (f : Thread → Nat) (l : List Thread) (x : Thread) : tot f (l ++ [x]) = tot f l + f x := by simp [tot]

theorem le_tot (f : Thread → Nat) {l : List Thread} {t : Nat} {x : Thread} (h : l[t]? = some x) : f x ≤ tot f l := by
  induction l generalizing t with
  | nil => simp at h
  | cons a l ih =>
    cases t with
    | zero => simp only [List.getElem?_cons_zero, Option.some.injEq] at h; subst h; simp only [tot, List.map_cons, List.sum_cons]; omega
    | succ t => simp only [List.getElem?_cons_succ] at h; have := ih h; simp only [tot, List.map_cons, List.sum_cons] at this ⊢; omega

theorem tot_zero (f : Thread → Nat) {l : List Thread} (h : tot f l = 0) {t : Nat} {x : Thread} (hx : l[t]? = some x) : f x = 0 := by
  have := le_tot f hx; omega

theorem exists_of_tot (f : Thread → Nat) {l : List Thread} (h : 0 < tot f l) : ∃ (t : Nat) (x : Thread), l[t]? = some x ∧ 0 < f x := by
  induction l with
  | nil => simp [tot] at h
  | cons a l ih =>
    by_cases ha : 0 < f a
    · exact ⟨0, a, rfl, ha⟩
    · obtain ⟨t, x, hx, hf⟩ := ih (by simp only [tot, List.map_cons, List.sum_cons] at h ⊢; omega)
      exact ⟨t + 1, x, by simpa using hx, hf⟩

/-- The places. -/
inductive K where
  | fut | start | ret | relD | dtorD | relU | dtorU | ready | fn | mark | markO (o : Out) | relW | dtorW | bye | gone

def PC.wt (k : K) (i : Nat) : PC → Nat
  | .idle => 0
  | .start j => match k with | .start => if i = j then 1 else 0 | _ => 0
  | .ret j => match k with | .ret => if i = j then 1 else 0 | _ => 0
  | .rel j .drop => match k with | .relD => if i = j then 1 else 0 | _ => 0
  | .rel j .unwind => match k with | .relU => if i = j then 1 else 0 | _ => 0
  | .rel j .worker => match k with | .relW => if i = j then 1 else 0 | _ => 0
  | .dtor j .drop => match k with | .dtorD => if i = j then 1 else 0 | _ => 0
  | .dtor j .unwind => match k with | .dtorU => if i = j then 1 else 0 | _ => 0
  | .dtor j .worker => match k with | .dtorW => if i = j then 1 else 0 | _ => 0
  | .join j => match k with | .fut => if i = j then 1 else 0 | _ => 0
  | .wait j _ => match k with | .fut => if i = j then 1 else 0 | _ => 0
  | .ready j => match k with | .ready => if i = j then 1 else 0 | _ => 0
  | .mark j o => match k with | .mark => if i = j then 1 else 0 | .markO o' => if i = j ∧ o = o' then 1 else 0 | _ => 0
  | .bye j => match k with | .bye => if i = j then 1 else 0 | _ => 0
  | .gone j => match k with | .gone => if i = j then 1 else 0 | _ => 0

/-- How often thread `th` is in place `k` for call `i`. -/
def wt (k : K) (i : Nat) (th : Thread) : Nat :=
  th.pc.wt k i + (match k with
    | .fut => th.own i
    | .fn => if th.fn = some i then 1 else 0
    | _ => 0)

/-- What the counts `T`, the shared state and the history have to do with each other. -/
structure Ok (T : K → Nat) (used : Prop) (d : Node) (c : Call) : Prop where
  unused : ¬ used → c = {} ∧ d = {} ∧ ∀ k, T k = 0
  known : used → c.phase ≠ .none
  refs : d.refs = T .fut + T .start + T .ret + T .relD + T .relU + T .ready + T .fn + T .mark + T .relW
  futs : c.futs = T .fut
  leaving : c.leaving = T .relD + T .dtorD
  dead : c.destroyed = d.dead
  exit : c.exited = d.exit
  dtor : used → d.refs = 0 → T .dtorD + T .dtorU + T .dtorW + b2n d.dead = 1
  live : d.refs ≠ 0 → T .dtorD + T .dtorU + T .dtorW + b2n d.dead = 0
  called : c.phase = .called → T .start + T .relU + T .dtorU + T .ready = 1 ∧ T .fn + T .mark + T .relW + T .dtorW + T .bye + T .gone = 0
  failed : c.phase = .failed → T .start + T .relU + T .dtorU + T .ready + T .fn + T .mark + T .bye = 0 ∧ (0 < T .relW + T .dtorW → d.kind = .executor)
  running : c.phase = .running → T .fn = 1 ∧ T .start + T .relU + T .dtorU + T .ready + T .mark + T .relW + T .dtorW + T .bye + T .gone = 0
  ended : ∀ o, c.phase = .ended o → T .start + T .relU + T .dtorU + T .ready + T .fn = 0 ∧ T .mark + T .relW + T .dtorW + T .bye + T .gone = 1
  mark : ∀ o, 0 < T (.markO o) → c.phase = .ended o
  out : ∀ o, d.out = some o → c.phase = .ended o
  isSet : ∀ o, c.phase = .ended o → T .mark = 0 → d.out = some o
  gone : d.exit = true → T .start + T .relU + T .dtorU + T .ready + T .fn + T .mark + T .relW + T .dtorW + T .bye = 0
  once : T .start + T .relU + T .dtorU + T .ret + b2n c.returned ≤ 1
  nofut : c.returned = false → T .fut + T .relD + T .dtorD = 0
  thrown : c.phase = .failed → d.kind = .thread → T .ret = 0 ∧ c.returned = false
  cold : 0 < T .start + T .relU + T .dtorU → d.handle = false

/-- A thread of a call is in the function, before it or after it. -/
def Wf (th : Thread) : Prop :=
  match th.pc with
  | .ready i | .mark i _ | .rel i .worker | .dtor i .worker | .bye i | .gone i => th.fn = none ∧ th.me = some i
  | _ => th.fn = th.me

structure Inv (s : State) (σ : Nat → Call) : Prop where
  wf : ∀ (t : Nat) (th : Thread), s.th[t]? = some th → Wf th
  ok : ∀ i, Ok (fun k => tot (wt k i) s.th) (i < s.n) (s.node i) (σ i)

theorem Inv.init (k : Nat) : Inv (init k) start := by
  have h0 : ∀ (f : Thread → Nat), f {} = 0 → tot f (List.replicate k {}) = 0 := by
    intro f hf
    induction k with
    | zero => rfl
    | succ k ih => simp only [List.replicate_succ, tot, List.map_cons, List.sum_cons, hf] at ih ⊢; omega
  have hz : ∀ k' i, tot (wt k' i) (List.replicate k {}) = 0 := fun k' i => h0 _ (by cases k' <;> simp [wt, PC.wt])
  constructor
  · intro t th ht
    simp only [Async.init, List.getElem?_replicate] at ht
    split at ht
    · cases ht; rfl
    · cases ht
  intro i
  constructor <;> simp [Async.init, start, hz]

/-- A step that moves thread `t` and concerns call `i` only. -/
theorem Inv.move {s : State} {σ : Nat → Call} {t i : Nat} {th th' : Thread} {d : Node} {c : Call} (h : Inv s σ) (ht : s.th[t]? = some th)
    (hw : Wf th → Wf th') (hj : ∀ k j, j ≠ i → wt k j th' = wt k j th)
    (hi : ∀ T T' : K → Nat, (∀ k, T' k + wt k i th = T k + wt k i th') → Ok T (i < s.n) (s.node i) (σ i) → Ok T' (i < s.n) d c) :
    Inv ((s.setNode i d).setTh t th') (set σ i c) := by
  constructor
  · intro u x hx
    simp only [State.setNode, State.setTh] at hx
    rw [getElem?_set_eq ht] at hx
    split at hx
    · cases hx; exact hw (h.wf t th ht)
    · exact h.wf u x hx
  intro j
  simp only [State.setNode, State.setTh, upd, set]
  by_cases hij : j = i
  · subst hij
    simp only [if_true]
    exact hi _ _ (fun k => tot_set (wt k j) th' ht) (h.ok j)
  · simp only [if_neg hij]
    have : (fun k => tot (wt k j) (s.th.set t th')) = fun k => tot (wt k j) s.th := by
      funext k
      have := tot_set (wt k j) th' ht
      rw [hj k j hij] at this
      omega
    rw [this]
    exact h.ok j

theorem setNode_self (s : State) (i : Nat) : s.setNode i (s.node i) = s := by
  simp only [State.setNode]
  congr 1
  funext j
  simp only [upd]
  split
  · rename_i h; rw [h]
  · rfl

theorem set_self (σ : Nat → Call) (i : Nat) : set σ i (σ i) = σ := by
  funext j
  simp only [set]
  split
  · rename_i h; rw [h]
  · rfl

end Verif.Async
