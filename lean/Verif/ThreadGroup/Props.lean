import Verif.ThreadGroup.Spec
/-!
# Properties of `thread_group` (C49)
-/

set_option linter.unusedSimpArgs false

namespace Verif.ThreadGroup

@[grind =] theorem upd_apply {α : Type} (f : Nat → α) (i : Nat) (x : α) (j : Nat) : upd f i x j = if j = i then x else f j := rfl

structure Inv (s : State) : Prop where
  nodup : s.members.Nodup
  lt : ∀ p ∈ s.members, p < s.np
  fresh : ∀ p t, s.tid p = some t → p < s.np ∧ t < s.nt
  inj : ∀ p q t, s.tid p = some t → s.tid q = some t → p = q
  pcLt : ∀ c, s.pc c ≠ .idle → c < s.nt
  addLt : ∀ c p, s.pc c = .adding p → p < s.np
  join : ∀ c r, s.pc c = .joining r → (∀ p ∈ r, p ∈ s.members) ∧ ∀ p ∈ s.members, p ∉ r → s.tid p = none

theorem hasId_iff {s : State} {i : Option Nat} : s.hasId i = true ↔ ∃ q ∈ s.members, s.tid q = i := by
  simp [State.hasId]

theorem hasId_holds {s : State} (hi : Inv s) {p t : Nat} (h : s.tid p = some t) : s.hasId (s.tid p) = true ↔ p ∈ s.members := by
  rw [hasId_iff, h]
  constructor
  · rintro ⟨q, hq, e⟩; rw [hi.inj _ _ _ h e]; exact hq
  · intro hp; exact ⟨p, hp, h⟩

theorem not_shared {s : State} (hi : Inv s) (h : ¬ s.shared = true) (c : Nat) (r : List Nat) : s.pc c ≠ .joining r := by
  intro hc
  apply h
  simp only [State.shared, List.any_eq_true, List.mem_range]
  exact ⟨c, hi.pcLt c (by simp [hc]), by simp [hc, PC.shares]⟩

def R (s : State) (σ : Grp) : Prop := s.destroyed = true ∨ (Inv s ∧ σ = ⟨s.members, s.tid⟩)

theorem filter_self {p : Nat} {ms : List Nat} (hp : p ∉ ms) : ms.filter (· ≠ p) = ms := by
  rw [List.filter_eq_self]
  intro a ha
  simp only [decide_eq_true_eq]
  rintro rfl
  exact hp ha

/-- The events of the destructor. -/
theorem follows_deletes (x : Bool) (c : Nat) (td : Nat → Option Nat) (P : Grp → Prop) (hP : ∀ σ, P σ) :
    ∀ (ms : List Nat), ms.Nodup → Follows (next x) P ⟨ms, td⟩ (ms.map (.deleted c) ++ [.destroyed c])
  | [], _ => by simp [Follows, next, hP]
  | p :: ms, h => by
    have hf : (p :: ms).filter (· ≠ p) = ms := by
      rw [List.filter_cons_of_neg (by simp), filter_self (List.nodup_cons.1 h).1]
    simp only [List.map_cons, List.cons_append, Follows, next, List.mem_cons, true_or, if_true]
    rw [hf]
    exact follows_deletes x c td P hP ms (List.nodup_cons.1 h).2

theorem erase_eq_filter {ms : List Nat} (h : ms.Nodup) (p : Nat) : ms.erase p = ms.filter (· ≠ p) := by
  rw [h.erase_eq_filter]
  congr 1
  funext a
  by_cases h : a = p <;> simp [bne, h]

/-- Only the position of an idle thread changes, to one that promises nothing. -/
theorem Inv.setPc {s : State} (hi : Inv s) {c : Nat} {q : PC} (hc : c < s.nt) (ha : ∀ p, q = .adding p → p < s.np)
    (hj : ∀ r, q = .joining r → (∀ p ∈ r, p ∈ s.members) ∧ ∀ p ∈ s.members, p ∉ r → s.tid p = none) : Inv (s.setPc c q) := by
  obtain ⟨h1, h2, h3, h4, h5, h6, h7⟩ := hi
  constructor <;> simp only [State.setPc] <;> intros <;> grind

theorem Inv.drop {s : State} (hi : Inv s) (p : Nat) : Inv { s with tid := upd s.tid p none } := by
  obtain ⟨h1, h2, h3, h4, h5, h6, h7⟩ := hi
  constructor <;> try simp only
  · exact h1
  · exact h2
  · grind
  · grind
  · exact h5
  · exact h6
  · intro c r h; have := h7 c r h; grind

theorem sim_call {x : Bool} {s s' : State} {c : Nat} {op : Op} {es : List Event} (hi : Inv s) (hc : c < s.nt) (hs : call x s c op = some (s', es)) :
    Follows (next false) (R s') ⟨s.members, s.tid⟩ es := by
  cases op with
  | create =>
    simp only [call, Option.some.injEq, Prod.mk.injEq] at hs
    obtain ⟨rfl, rfl⟩ := hs
    exact .inr ⟨hi.setPc hc (by simp) (by simp), rfl⟩
  | add p =>
    cases p with
    | none =>
      simp only [call, Option.some.injEq, Prod.mk.injEq] at hs
      obtain ⟨rfl, rfl⟩ := hs
      exact .inr ⟨hi, rfl⟩
    | some p =>
      simp only [call] at hs
      split at hs
      · cases hs
      · rename_i hp
        split at hs
        · rename_i h
          simp only [Option.some.injEq, Prod.mk.injEq] at hs
          obtain ⟨rfl, rfl⟩ := hs
          simp only [Bool.and_eq_true] at h
          have : p ∈ s.members ∨ s.tid p = none := by
            cases ht : s.tid p with
            | none => exact .inr rfl
            | some t => exact .inl ((hasId_holds hi ht).1 h.2)
          simp only [Follows, next, true_and, if_pos this]
          exact .inr ⟨hi, rfl⟩
        · simp only [Option.some.injEq, Prod.mk.injEq] at hs
          obtain ⟨rfl, rfl⟩ := hs
          exact .inr ⟨hi.setPc hc (by simp; omega) (by simp), rfl⟩
  | remove p =>
    simp only [call, Option.some.injEq, Prod.mk.injEq] at hs
    obtain ⟨rfl, rfl⟩ := hs
    exact .inr ⟨hi.setPc hc (by simp) (by simp), rfl⟩
  | isIn p =>
    simp only [call] at hs
    split at hs
    · cases hs
    · simp only [Option.some.injEq, Prod.mk.injEq] at hs
      obtain ⟨rfl, rfl⟩ := hs
      have : s.hasId (s.tid p) = decide (p ∈ s.members) ∨ s.tid p = none := by
        cases ht : s.tid p with
        | none => exact .inr rfl
        | some t => left; rw [← ht, Bool.eq_iff_iff, hasId_holds hi ht]; simp
      simp only [Follows, next, true_and, if_pos this]
      exact .inr ⟨hi, rfl⟩
  | selfIn =>
    simp only [call, Option.some.injEq, Prod.mk.injEq] at hs
    obtain ⟨rfl, rfl⟩ := hs
    have : s.hasId (some c) = decide (∃ p ∈ s.members, s.tid p = some c) := by rw [Bool.eq_iff_iff, hasId_iff]; simp
    simp only [Follows, next, if_pos this]
    exact .inr ⟨hi, rfl⟩
  | size =>
    simp only [call, Option.some.injEq, Prod.mk.injEq] at hs
    obtain ⟨rfl, rfl⟩ := hs
    simp only [Follows, next, if_true]
    exact .inr ⟨hi, rfl⟩
  | interruptAll =>
    simp only [call, Option.some.injEq, Prod.mk.injEq] at hs
    obtain ⟨rfl, rfl⟩ := hs
    simp only [Follows, next, if_true]
    exact .inr ⟨hi, rfl⟩
  | joinAll =>
    simp only [call] at hs
    split at hs <;> simp only [Option.some.injEq, Prod.mk.injEq] at hs <;> obtain ⟨rfl, rfl⟩ := hs
    · exact .inr ⟨hi, rfl⟩
    · exact .inr ⟨hi.setPc hc (by simp) (by simp), rfl⟩
  | destroy =>
    simp only [call] at hs
    split at hs
    · simp only [Option.some.injEq, Prod.mk.injEq] at hs
      obtain ⟨rfl, rfl⟩ := hs
      exact follows_deletes _ _ _ _ (fun _ => .inl rfl) _ hi.nodup
    · cases hs

theorem sim_go {s s' : State} {c : Nat} {es : List Event} (hi : Inv s) (hs : go s c = some (s', es)) :
    Follows (next false) (R s') ⟨s.members, s.tid⟩ es := by
  simp only [go] at hs
  split at hs
  · cases hs
  · rename_i hpc
    split at hs
    · cases hs
    · rename_i hsh
      have hn := not_shared hi hsh
      simp only [Option.some.injEq, Prod.mk.injEq] at hs
      obtain ⟨rfl, rfl⟩ := hs
      have hm : s.np ∉ s.members := fun h => Nat.lt_irrefl _ (hi.lt _ h)
      simp only [Follows, next, if_neg hm]
      refine .inr ⟨?_, rfl⟩
      obtain ⟨h1, h2, h3, h4, h5, h6, h7⟩ := hi
      constructor <;> simp only [State.setPc]
      · rw [List.nodup_append]; refine ⟨h1, by simp, ?_⟩; grind
      · intro p hp; simp only [List.mem_append, List.mem_singleton] at hp; rcases hp with hp | rfl
        · have := h2 p hp; omega
        · omega
      · intro p t; have := h3 p t; grind
      · intro p q t; have := h3 p t; have := h3 q t; have := h4 p q t; grind
      · intro c'; have := h5 c'; grind
      · intro c' p; have := h6 c' p; grind
      · intro c' r h; have := hn c' r; grind
  · rename_i p hpc
    split at hs
    · cases hs
    · rename_i hsh
      have hn := not_shared hi hsh
      simp only [Option.some.injEq, Prod.mk.injEq] at hs
      obtain ⟨rfl, rfl⟩ := hs
      simp only [Follows, next]
      by_cases hm : p ∈ s.members
      · simp [hm]
      · simp only [if_neg hm]
        refine .inr ⟨?_, rfl⟩
        obtain ⟨h1, h2, h3, h4, h5, h6, h7⟩ := hi
        have hp := h6 c p hpc
        constructor <;> simp only [State.setPc]
        · rw [List.nodup_append]; refine ⟨h1, by simp, ?_⟩; grind
        · grind
        · exact h3
        · exact h4
        · grind
        · grind
        · intro c' r h; have := hn c' r; grind
  · rename_i p hpc
    split at hs
    · cases hs
    · rename_i hsh
      have hn := not_shared hi hsh
      simp only [Option.some.injEq, Prod.mk.injEq] at hs
      obtain ⟨rfl, rfl⟩ := hs
      simp only [Follows, next]
      refine .inr ⟨?_, by simp only [State.setPc, erase_eq_filter hi.nodup]⟩
      obtain ⟨h1, h2, h3, h4, h5, h6, h7⟩ := hi
      constructor <;> simp only [State.setPc]
      · exact h1.erase p
      · intro q hq; exact h2 q (List.mem_of_mem_erase hq)
      · exact h3
      · exact h4
      · grind
      · grind
      · intro c' r h; have := hn c' r; grind
  · rename_i hpc
    simp only [Option.some.injEq, Prod.mk.injEq] at hs
    obtain ⟨rfl, rfl⟩ := hs
    exact .inr ⟨hi.setPc (hi.pcLt c (by simp [hpc])) (by simp) (by rintro r ⟨⟩; exact ⟨fun _ h => h, fun _ h h' => absurd h h'⟩), rfl⟩
  · rename_i hpc
    simp only [Option.some.injEq, Prod.mk.injEq] at hs
    obtain ⟨rfl, rfl⟩ := hs
    have : ∀ p ∈ s.members, s.tid p = none := fun p hp => (hi.join c [] hpc).2 p hp (by simp)
    simp only [Follows, next, if_pos this]
    exact .inr ⟨hi.setPc (hi.pcLt c (by simp [hpc])) (by simp) (by simp), rfl⟩
  · rename_i p rest hpc
    have hlt := hi.pcLt c (by simp [hpc])
    have hj := hi.join c _ hpc
    split at hs
    · rename_i ht
      simp only [Option.some.injEq, Prod.mk.injEq] at hs
      obtain ⟨rfl, rfl⟩ := hs
      exact .inr ⟨hi.setPc hlt (by simp) (by rintro r ⟨⟩; grind), rfl⟩
    · rename_i t ht
      split at hs
      · simp only [Option.some.injEq, Prod.mk.injEq] at hs
        obtain ⟨rfl, rfl⟩ := hs
        exact .inr ⟨hi.setPc hlt (by simp) (by simp), rfl⟩
      · split at hs
        · simp only [Option.some.injEq, Prod.mk.injEq] at hs
          obtain ⟨rfl, rfl⟩ := hs
          have hm : p ∈ s.members ∧ s.tid p ≠ none := ⟨hj.1 p (by simp), by simp [ht]⟩
          simp only [Follows, next, if_pos hm]
          exact .inr ⟨(hi.drop p).setPc hlt (by simp) (by rintro r ⟨⟩; simp only; grind), rfl⟩
        · cases hs

theorem sim {x : Bool} {s s' : State} {l : Label} {es : List Event} {σ : Grp} (hR : R s σ) (hs : step x s l = some (s', es)) :
    Follows (next false) (R s') σ es := by
  simp only [step] at hs
  split at hs
  · cases hs
  · rename_i hd
    rcases hR with h | ⟨hi, rfl⟩
    · exact absurd h hd
    cases l with
    | newObj =>
      simp only [Option.some.injEq, Prod.mk.injEq] at hs
      obtain ⟨rfl, rfl⟩ := hs
      refine .inr ⟨?_, rfl⟩
      obtain ⟨h1, h2, h3, h4, h5, h6, h7⟩ := hi
      constructor <;> simp only
      · exact h1
      · grind
      · intro p t; have := h3 p t; grind
      · intro p q t; have := h3 p t; have := h3 q t; have := h4 p q t; grind
      · intro c'; have := h5 c'; grind
      · intro c' p; have := h6 c' p; grind
      · intro c' r h; have := h7 c' r h; grind
    | newEmpty =>
      simp only [Option.some.injEq, Prod.mk.injEq] at hs
      obtain ⟨rfl, rfl⟩ := hs
      refine .inr ⟨?_, rfl⟩
      obtain ⟨h1, h2, h3, h4, h5, h6, h7⟩ := hi
      constructor <;> simp only
      · exact h1
      · grind
      · intro p t; have := h3 p t; grind
      · intro p q t; have := h4 p q t; grind
      · intro c'; have := h5 c'; grind
      · intro c' p; have := h6 c' p; grind
      · intro c' r h; have := h7 c' r h; grind
    | release p =>
      simp only at hs
      split at hs
      · simp only [Option.some.injEq, Prod.mk.injEq] at hs
        obtain ⟨rfl, rfl⟩ := hs
        exact .inr ⟨hi.drop p, rfl⟩
      · cases hs
    | move d src =>
      simp only at hs
      split at hs
      · rename_i hc
        simp only [Option.some.injEq, Prod.mk.injEq] at hs
        obtain ⟨rfl, rfl⟩ := hs
        simp only [Follows, next]
        by_cases hm : d ∈ s.members
        · simp [hm]
        · simp only [if_neg hm]
          refine .inr ⟨?_, rfl⟩
          obtain ⟨h1, h2, h3, h4, h5, h6, h7⟩ := hi
          constructor <;> simp only
          · exact h1
          · exact h2
          · intro p t; have := h3 p t; have := h3 src t; grind
          · intro p q t; have := h4 p q t; have := h4 src q t; have := h4 p src t; grind
          · exact h5
          · exact h6
          · intro c' r h; have := h7 c' r h; grind
      · cases hs
    | finish t =>
      simp only at hs
      split at hs
      · simp only [Option.some.injEq, Prod.mk.injEq] at hs
        obtain ⟨rfl, rfl⟩ := hs
        refine .inr ⟨?_, rfl⟩
        obtain ⟨h1, h2, h3, h4, h5, h6, h7⟩ := hi
        exact ⟨h1, h2, h3, h4, h5, h6, h7⟩
      · cases hs
    | call c op =>
      simp only at hs
      split at hs
      · rename_i hc; exact sim_call hi hc.1 hs
      · cases hs
    | go c => exact sim_go hi hs
    | interrupt c =>
      simp only at hs
      split at hs
      · rename_i r hpc
        simp only [Option.some.injEq, Prod.mk.injEq] at hs
        obtain ⟨rfl, rfl⟩ := hs
        exact .inr ⟨hi.setPc (hi.pcLt c (by simp [hpc])) (by simp) (by simp), rfl⟩
      · cases hs

theorem Inv.init : Inv {} := by constructor <;> simp

/-- **C49.** In every history of operations on a group, in any number of threads, as long as no member is added again: `remove_thread` removes that thread and no other;
`is_thread_in` reports membership, of every object that holds a thread; `is_this_thread_in` whether a member holds the calling thread; `size` the number of members;
`interrupt_all` interrupts the thread of every member; when `join_all` has returned no member holds a thread; the destructor deletes every member, once, and nothing else.
`_partial`: what `is_thread_in` and `add_thread` say of objects that hold no thread is wrong (`membership_of_empty_objects`). -/
theorem history_conforms_partial {x : Bool} {ls : List Label} {s : State} {es : List Event} (h : run (step x) {} ls = some (s, es)) :
    Accepts (next false) {} es :=
  simulation R (fun _ _ _ _ _ hR hs => sim hR hs) (s := {}) (.inr ⟨Inv.init, rfl⟩) h

example : ∃ s, run (step true) {} [.newObj, .call 0 .create, .go 0, .call 0 (.add (some 0)), .go 0, .call 0 (.isIn 0), .call 0 (.remove 1), .go 0, .finish 1, .call 0 .joinAll, .go 0,
    .go 0, .go 0, .call 0 .destroy] =
    some (s, [.made 0 1, .created 0 1 2, .added 0 0, .isIn 0 0 true, .removed 0 1, .joined 0 0, .joinAllRet 0, .deleted 0 0, .destroyed 0]) := ⟨_, rfl⟩

/-- Membership is by thread id, and all objects that hold no thread have the same id: once a member has been joined, an object that was never added is reported as a
member, and cannot be added. -/
theorem membership_of_empty_objects : ∃ ls s es, run (step true) {} ls = some (s, es) ∧ ¬ Accepts (next true) {} es ∧
    es = [.madeEmpty 0, .madeEmpty 1, .added 0 0, .isIn 0 1 true, .refused 0 1] :=
  ⟨[.newEmpty, .newEmpty, .call 0 (.add (some 0)), .go 0, .call 0 (.isIn 1), .call 0 (.add (some 1))], _, _, rfl, by decide, rfl⟩

/-- Without the precondition checks an object can be added twice, and is then deleted twice. -/
theorem double_delete_unchecked : ∃ ls s es, run (step false) {} ls = some (s, es) ∧ es = [.made 0 1, .added 0 0, .added 0 0, .deleted 0 0, .deleted 0 0, .destroyed 0] :=
  ⟨[.newObj, .call 0 (.add (some 0)), .go 0, .call 0 (.add (some 0)), .go 0, .call 0 .destroy], _, _, rfl, rfl⟩

/-- With the checks too, because the check and the insertion are separate critical sections: two threads add the same object at the same time and neither is refused. -/
theorem double_delete_race : ∃ ls s es, run (step true) {} ls = some (s, es) ∧
    es = [.made 0 1, .created 0 1 2, .added 0 0, .added 2 0, .deleted 0 1, .deleted 0 0, .deleted 0 0, .destroyed 0] :=
  ⟨[.newObj, .call 0 .create, .go 0, .call 0 (.add (some 0)), .call 2 (.add (some 0)), .go 0, .go 2, .call 0 .destroy], _, _, rfl, rfl⟩

structure Inv2 (a : Nat) (s : State) : Prop where
  nodup : s.members.Nodup
  lt : ∀ p ∈ s.members, p < s.np
  add : ∀ c p, s.pc c = .adding p → c = a ∧ p ∉ s.members ∧ p < s.np

/-- With the checks on, if one thread does all the adding, no object is ever in the group twice, whatever objects it adds (so that `added` is never outside the contract in
`history_conforms_partial`). -/
theorem checked_add_keeps_members_distinct {a : Nat} {ls : List Label} {s : State} {es : List Event} (h : run (step true) {} ls = some (s, es))
    (ho : ∀ c p, Label.call c (.add (some p)) ∈ ls → c = a) : s.members.Nodup := by
  have := run_inv_on (step := step true) (fun l => ∀ c p, l = .call c (.add (some p)) → c = a) (Inv2 a) ?_ (fun l hl c p e => ho c p (e ▸ hl)) (s := {}) ⟨by simp, by simp, by simp⟩ h
  · exact this.nodup
  · intro s l s' es hP ⟨h1, h2, h3⟩ hs
    simp only [step] at hs
    split at hs
    · cases hs
    · cases l with
      | call c op =>
        simp only at hs
        split at hs
        · cases op <;> simp only [call] at hs
          case add p =>
            cases p with
            | none => simp only [call, Option.some.injEq, Prod.mk.injEq] at hs; obtain ⟨rfl, _⟩ := hs; exact ⟨h1, h2, h3⟩
            | some p =>
              have hca := hP c p rfl
              simp only [call] at hs
              split at hs
              · cases hs
              · split at hs
                · simp only [Option.some.injEq, Prod.mk.injEq] at hs; obtain ⟨rfl, _⟩ := hs; exact ⟨h1, h2, h3⟩
                · rename_i hn
                  simp only [Option.some.injEq, Prod.mk.injEq] at hs
                  obtain ⟨rfl, _⟩ := hs
                  have hp : p ∉ s.members := fun hp => hn (by simp only [Bool.true_and]; exact hasId_iff.2 ⟨p, hp, rfl⟩)
                  constructor <;> simp only [State.setPc]
                  · exact h1
                  · exact h2
                  · intro c' q; have := h3 c' q; grind
          all_goals (repeat' split at hs) <;> (try cases hs) <;> (constructor <;> (try simp only [State.setPc]) <;> first | assumption | (intro c' q; have := h3 c' q; grind))
        · cases hs
      | go c =>
        simp only [go] at hs
        (repeat' split at hs) <;> (try cases hs) <;> (constructor <;> (try simp only [State.setPc]) <;> try assumption)
        all_goals try (intro c' q; have := h3 c' q; have := h3 c; grind)
        all_goals try grind
      | _ =>
        simp only at hs
        (repeat' split at hs) <;> (try cases hs) <;> (constructor <;> (try simp only [State.setPc]) <;> first | assumption | (intro c' q; have := h3 c' q; grind) | grind)

example : ∃ s, run (step true) {} [.newObj, .call 0 (.add (some 0)), .go 0, .call 0 (.add (some 0)), .release 0, .call 0 (.add (some 0))] =
    some (s, [.made 0 1, .added 0 0, .refused 0 0, .released 0, .refused 0 0]) := ⟨_, rfl⟩

/-- `join_all` waits with the group locked: a member that then creates, adds or removes a thread of the group waits for `join_all`, which waits for it; nothing but
interrupting `join_all`, or releasing the member behind its back, ends this. -/
theorem join_all_deadlocks_with_a_member : ∃ ls s es, run (step true) {} ls = some (s, es) ∧ es = [.created 0 0 1] ∧
    ∀ ls' s' es', (∀ l ∈ ls', l ≠ .interrupt 0 ∧ l ≠ .release 0 ∧ (∀ d, l ≠ .move d 0)) → run (step true) s ls' = some (s', es') →
      s'.pc 0 = .joining [0] ∧ s'.pc 1 = .removing 0 := by
  refine ⟨[.call 0 .create, .go 0, .call 0 .joinAll, .go 0, .call 1 (.remove 0)], _, _, rfl, rfl, ?_⟩
  intro ls' s' es' hl hr
  have := run_inv_on (step := step true) (fun l => l ≠ .interrupt 0 ∧ l ≠ .release 0 ∧ (∀ d, l ≠ .move d 0))
    (fun s => s.pc 0 = .joining [0] ∧ s.pc 1 = .removing 0 ∧ s.tid 0 = some 1 ∧ s.fin 1 = false ∧ 0 < s.nt ∧ 0 < s.np) ?_ hl (by refine ⟨rfl, rfl, rfl, rfl, ?_, ?_⟩ <;> decide) hr
  · exact ⟨this.1, this.2.1⟩
  · intro s l s' es hP ⟨h1, h2, h3, h4, h5, h6⟩ hs
    have hsh : s.shared = true := by
      simp only [State.shared, List.any_eq_true, List.mem_range]; exact ⟨0, h5, by simp [h1, PC.shares]⟩
    simp only [step] at hs
    split at hs
    · cases hs
    · cases l with
      | call c op =>
        simp only at hs
        split at hs
        · rename_i hc
          have hc0 : c ≠ 0 := by rintro rfl; simp [h1] at hc
          have hc1 : c ≠ 1 := by rintro rfl; simp [h2] at hc
          have hd : ((List.range s.nt).all fun i => s.pc i == .idle) = false := by
            simp only [List.all_eq_false, List.mem_range]; exact ⟨0, h5, by simp [h1]⟩
          cases op with
          | add p => cases p <;> simp only [call] at hs <;> (repeat' split at hs) <;> (try cases hs) <;> (try simp only [State.setPc]) <;> grind
          | _ =>
            simp only [call, hd] at hs
            (repeat' split at hs) <;> (try cases hs) <;> (try simp only [State.setPc]) <;> grind
        · cases hs
      | go c =>
        by_cases hc0 : c = 0
        · subst hc0; simp [go, h1, h3, h4] at hs
        · by_cases hc1 : c = 1
          · subst hc1; simp [go, h2, hsh] at hs
          · simp only [go, hsh] at hs
            (repeat' split at hs) <;> (try cases hs) <;> (try contradiction) <;> (try simp only [State.setPc]) <;> grind
      | interrupt c =>
        have : c ≠ 0 := by rintro rfl; exact hP.1 rfl
        by_cases hc1 : c = 1
        · subst hc1; simp [h2] at hs
        · simp only at hs
          (repeat' split at hs) <;> (try cases hs) <;> (try simp only [State.setPc]) <;> grind
      | release p =>
        have : p ≠ 0 := by rintro rfl; exact hP.2.1 rfl
        simp only at hs
        (repeat' split at hs) <;> (try cases hs) <;> grind
      | move d p =>
        have : p ≠ 0 := by rintro rfl; exact hP.2.2 d rfl
        simp only at hs
        (repeat' split at hs) <;> (try cases hs) <;> (try simp only) <;> grind
      | _ =>
        simp only at hs
        (repeat' split at hs) <;> (try cases hs) <;> (try simp only) <;> grind

end Verif.ThreadGroup
