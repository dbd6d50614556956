import Verif.ThreadExit.Spec
/-!
# Properties of the end of a thread (C40)
-/

set_option linter.unusedSimpArgs false

namespace Verif.ThreadExit

@[grind =] theorem upd_apply {α : Type} (f : Nat → α) (i : Nat) (x : α) (j : Nat) : upd f i x j = if j = i then x else f j := rfl

def Act.key : Act → Option Nat
  | .cb _ => none
  | .clean k _ => some k
  | .cleanFor k _ _ _ => some k

/-- The value of an entry of the map. -/
def nval : Option Node → Nat
  | some nd => nd.val
  | none => 0

theorem val_eq (s : State) (k : Nat) : s.val k = nval (s.node k) := by simp only [State.val]; cases s.node k <;> rfl

@[grind =] theorem nval_some (nd : Node) : nval (some nd) = nd.val := rfl
@[grind =] theorem nval_none : nval none = 0 := rfl

/-- What is known of the code that is running. -/
def ActOk (fn : Nat → Bool) (node : Nat → Option Node) (slot : Nat → Nat) (pend : Nat → Option Nat) : Act → Prop
  | .cb _ => True
  | .clean k id => (∃ nd, node k = some nd ∧ nd.id = id) ∧ slot k = 0 ∧ pend k = none
  | .cleanFor k id f v => (∃ nd, node k = some nd ∧ nd.id = id) ∧ slot k = 0 ∧ pend k = some v ∧ (f = fn k ∨ (f = false ∧ v = 0))

structure R (nk : Nat) (fn : Nat → Bool) (s : State) (σ : Sp) : Prop where
  ub : s.ub = false
  cbs : σ.cbs = s.cbs
  ret : σ.returned = decide (s.base ≠ .body)
  busy : σ.busy = s.acts.filterMap Act.key
  nodup : σ.busy.Nodup
  node : ∀ k nd, s.node k = some nd → nd.fn = fn k ∧ k < nk
  idle : ∀ k, k ∉ σ.busy → (σ.slot k = nval (s.node k) ∨ (σ.returned = true ∧ fn k = false ∧ nval (s.node k) = 0)) ∧ σ.pend k = none
  act : ∀ a ∈ s.acts, ActOk fn s.node σ.slot σ.pend a

/-- What is known of an activation only depends on its slot. -/
theorem ActOk.congr {fn : Nat → Bool} {node node' : Nat → Option Node} {slot slot' : Nat → Nat} {pend pend' : Nat → Option Nat} {a : Act}
    (h : ActOk fn node slot pend a) (e : ∀ k, a.key = some k → node' k = node k ∧ slot' k = slot k ∧ pend' k = pend k) : ActOk fn node' slot' pend' a := by
  cases a with
  | cb n => trivial
  | clean k id => obtain ⟨h1, h2, h3⟩ := e k rfl; simpa only [ActOk, h1, h2, h3] using h
  | cleanFor k id f v => obtain ⟨h1, h2, h3⟩ := e k rfl; simpa only [ActOk, h1, h2, h3] using h

theorem key_mem {as : List Act} {a : Act} {k : Nat} (h : a ∈ as) (hk : a.key = some k) : k ∈ as.filterMap Act.key :=
  List.mem_filterMap.2 ⟨a, h, hk⟩

/-- A slot whose cleanup function is not running gets another value. -/
theorem R.put {nk : Nat} {fn : Nat → Bool} {s : State} {σ : Sp} (h : R nk fn s σ) {k : Nat} {x : Option Node} {i : Nat} (hk : k ∉ σ.busy)
    (hx : ∀ nd, x = some nd → nd.fn = fn k ∧ k < nk) :
    R nk fn { s with node := upd s.node k x, nid := i } { σ with slot := upd σ.slot k (nval x), pend := upd σ.pend k none } := by
  obtain ⟨h1, h2, h3, h4, h5, h6, h7, h8⟩ := h
  constructor <;> simp only
  · exact h1
  · exact h2
  · exact h3
  · exact h4
  · exact h5
  · intro j nd; have := h6 j nd; have := hx nd; grind
  · intro j hj; have := h7 j hj; grind
  · intro a ha
    refine (h8 a ha).congr fun j hj => ?_
    have : j ≠ k := by rintro rfl; exact hk (h4 ▸ key_mem ha hj)
    simp only [upd_apply, if_neg this, and_self]

/-- The running cleanup function of the topmost activation returns and the slot gets a value. -/
theorem R.pop {nk : Nat} {fn : Nat → Bool} {s : State} {σ : Sp} (h : R nk fn s σ) {k : Nat} {a : Act} {as : List Act} {x : Option Node} (ha : s.acts = a :: as)
    (hk : a.key = some k) (hx : ∀ nd, x = some nd → nd.fn = fn k ∧ k < nk) :
    R nk fn { s with acts := as, node := upd s.node k x } { σ with busy := σ.busy.tail, slot := upd σ.slot k (nval x), pend := upd σ.pend k none } := by
  obtain ⟨h1, h2, h3, h4, h5, h6, h7, h8⟩ := h
  have hb : σ.busy = k :: as.filterMap Act.key := by rw [h4, ha]; simp [hk]
  rw [hb] at h5
  have hn := (List.nodup_cons.1 h5).1
  constructor <;> simp only [hb, List.tail_cons]
  · exact h1
  · exact h2
  · exact h3
  · exact (List.nodup_cons.1 h5).2
  · intro j nd; have := h6 j nd; have := hx nd; grind
  · intro j hj
    by_cases hjk : j = k
    · subst hjk; simp [upd_apply]
    · have := h7 j (by rw [hb]; simp [hjk, hj]); simp only [upd_apply, if_neg hjk]; exact this
  · intro b hb'
    refine (h8 b (by rw [ha]; exact List.mem_cons_of_mem _ hb')).congr fun j hj => ?_
    have : j ≠ k := by rintro rfl; exact hn (key_mem hb' hj)
    simp only [upd_apply, if_neg this, and_self]

theorem upd_self {α : Type} {f : Nat → α} {k : Nat} {x : α} (h : f k = x) : upd f k x = f := by
  funext j; simp only [upd_apply]; split <;> simp_all

theorem upd_upd {α : Type} {f : Nat → α} {k : Nat} {x y : α} : upd (upd f k x) k y = upd f k y := by
  funext j; simp only [upd_apply]; split <;> rfl

theorem store_eq (s : State) (k id : Nat) (f : Bool) (v : Nat) :
    ∃ x, s.store k id f v = { s with node := upd s.node k x } ∧ nval x = v ∧ ∀ nd, x = some nd → nd.fn = f ∧ (f = false → v ≠ 0) := by
  simp only [State.store]
  split
  · rename_i h
    refine ⟨_, rfl, rfl, ?_⟩
    rintro nd ⟨⟩
    refine ⟨rfl, ?_⟩
    rintro rfl
    simpa using h
  · rename_i h
    refine ⟨_, rfl, ?_, by simp⟩
    simp only [Bool.or_eq_true, bne_iff_ne, ne_eq, not_or, Decidable.not_not] at h
    exact h.2.symm

theorem sim_setTss {nk : Nat} {fn : Nat → Bool} {s : State} {σ : Sp} {k v : Nat} {f : Bool} (h : R nk fn s σ) (hk : k < nk) (hf : f = fn k ∨ (f = false ∧ v = 0))
    (hv : nval (s.node k) ≠ v ∨ v = 0) : Follows (next false nk fn) (R nk fn (setTss s k f v).1) σ (setTss s k f v).2 := by
  by_cases hb : k ∈ σ.busy
  · simp only [setTss]
    (repeat' split) <;> simp only [Follows, next, hb, and_self, if_true]
  have hi := h.idle k hb
  cases hn : s.node k with
  | some nd =>
    have hfn := (h.node k nd hn).1
    have hsl : fn k = true → σ.slot k = nd.val := by intro ht; rcases hi.1 with e | e; rw [e, hn]; rfl; simp [ht] at e
    by_cases hc : (nd.fn && nd.val != 0) = true
    · have e : setTss s k f v = ({ s with acts := .cleanFor k nd.id f v :: s.acts }, [.resetCall k v, .cleaned k nd.val]) := by simp only [setTss, hn, hc, if_true]
      rw [e]
      simp only [Bool.and_eq_true, bne_iff_ne, ne_eq] at hc
      have hvv : v ≠ nd.val := by rw [hn] at hv; simp only [nval_some] at hv; have := hc.2; omega
      have hcl : fn k = true ∧ nd.val ≠ 0 ∧ σ.slot k = nd.val ∧ ((upd σ.pend k (some v) k ≠ none ∧ upd σ.pend k (some v) k ≠ some nd.val) ∨
          (upd σ.pend k (some v) k = none ∧ σ.returned = true)) := ⟨hfn ▸ hc.1, hc.2, hsl (hfn ▸ hc.1), .inl (by simp [upd_apply, hvv])⟩
      simp only [Follows, next, hb, false_and, if_false, if_pos hcl]
      obtain ⟨h1, h2, h3, h4, h5, h6, h7, h8⟩ := h
      constructor <;> simp only
      · exact h1
      · exact h2
      · exact h3
      · simp [Act.key, h4]
      · exact List.nodup_cons.2 ⟨hb, h5⟩
      · exact h6
      · intro j hj; have := h7 j; grind
      · intro a ha
        rcases List.mem_cons.1 ha with rfl | ha
        · exact ⟨⟨nd, hn, rfl⟩, by simp [upd_apply], by simp [upd_apply], hf⟩
        · refine (h8 a ha).congr fun j hj => ?_
          have : j ≠ k := by rintro rfl; exact hb (h4 ▸ key_mem ‹_› hj)
          simp only [upd_apply, if_neg this, and_self]
    · have e : setTss s k f v = (s.store k nd.id f v, [.resetCall k v, .resetRet k v]) := by simp only [setTss, hn, hc]; rfl
      rw [e]
      simp only [Bool.and_eq_true, bne_iff_ne, ne_eq, not_and, Decidable.not_not] at hc
      have hcl : upd σ.pend k (some v) k = some v ∧ (σ.slot k = 0 ∨ σ.slot k = v ∨ fn k = false) := by
        refine ⟨by simp [upd_apply], ?_⟩
        cases hfk : fn k with
        | true => exact .inl (by rw [hsl hfk]; exact hc (by rw [hfn, hfk]))
        | false => exact .inr (.inr rfl)
      simp only [Follows, next, hb, false_and, if_false, if_pos hcl]
      obtain ⟨x, hx, hxv, hxf⟩ := store_eq s k nd.id f v
      rw [hx, upd_upd, ← hxv]
      exact h.put hb fun nd' e => ⟨by have := hxf nd' e; rcases hf with hf | hf; exact this.1.trans hf; exact absurd hf.2 (this.2 hf.1), hk⟩
  | none =>
    have hcl : upd σ.pend k (some v) k = some v ∧ (σ.slot k = 0 ∨ σ.slot k = v ∨ fn k = false) :=
      ⟨by simp [upd_apply], by rcases hi.1 with e | e; exact .inl (by rw [e, hn]; rfl); exact .inr (.inr e.2.1)⟩
    by_cases hc : (f || v != 0) = true
    · have e : setTss s k f v = ({ s with node := upd s.node k (some ⟨v, f, s.nid⟩), nid := s.nid + 1 }, [.resetCall k v, .resetRet k v]) := by simp only [setTss, hn, hc, if_true]
      rw [e]
      simp only [Follows, next, hb, false_and, if_false, if_pos hcl, upd_upd]
      refine h.put hb (x := some ⟨v, f, s.nid⟩) ?_
      rintro nd ⟨⟩
      refine ⟨?_, hk⟩
      rcases hf with hf | hf
      · exact hf
      · simp [hf.1, hf.2] at hc
    · have e : setTss s k f v = (s, [.resetCall k v, .resetRet k v]) := by simp only [setTss, hn, hc]; rfl
      rw [e]
      simp only [Follows, next, hb, false_and, if_false, if_pos hcl, upd_upd]
      simp only [Bool.or_eq_true, bne_iff_ne, ne_eq, not_or, Decidable.not_not] at hc
      have := h.put hb (x := s.node k) (i := s.nid) (fun nd e => by simp [hn] at e)
      rw [upd_self rfl, hn, nval_none] at this
      rw [hc.2]
      exact this

theorem sim_op {nk : Nat} {fn : Nat → Bool} {s s' : State} {o : Op} {es : List Event} {σ : Sp} (h : R nk fn s σ) (hs : op nk fn s o = some (s', es)) :
    Follows (next false nk fn) (R nk fn s') σ es := by
  cases o with
  | atExit =>
    simp only [op, Option.some.injEq, Prod.mk.injEq] at hs
    obtain ⟨rfl, rfl⟩ := hs
    obtain ⟨h1, h2, h3, h4, h5, h6, h7, h8⟩ := h
    exact ⟨h1, by simp [h2], h3, h4, h5, h6, h7, h8⟩
  | get k =>
    simp only [op] at hs
    split at hs
    · cases hs
    · simp only [Option.some.injEq, Prod.mk.injEq] at hs
      obtain ⟨rfl, rfl⟩ := hs
      have : k ∈ σ.busy ∨ Reads fn σ k (s.val k) := by
        by_cases hb : k ∈ σ.busy
        · exact .inl hb
        · rw [val_eq]; exact .inr (h.idle k hb).1
      simp only [Follows, next, if_pos this]
      exact h
  | release k =>
    simp only [op] at hs
    split at hs
    · cases hs
    · simp only [Option.some.injEq, Prod.mk.injEq] at hs
      obtain ⟨rfl, rfl⟩ := hs
      by_cases hb : k ∈ σ.busy
      · simp only [Follows, next, hb, and_self, if_true]
      · have hi := h.idle k hb
        have hr : Reads fn σ k (nval (s.node k)) := hi.1
        simp only [Follows, next, hb, false_and, if_false, val_eq, if_pos hr]
        have := h.put hb (x := none) (i := s.nid) (by simp)
        rw [upd_self hi.2] at this
        exact this
  | reset k v =>
    simp only [op] at hs
    split at hs
    · cases hs
    · rename_i hk
      split at hs
      · rename_i hv
        simp only [Option.some.injEq] at hs
        have := sim_setTss h (Nat.lt_of_not_le hk) (f := fn k) (v := v) (.inl rfl) (.inl (by rw [← val_eq]; exact hv))
        rw [hs] at this
        exact this
      · rename_i hv
        simp only [Option.some.injEq, Prod.mk.injEq] at hs
        obtain ⟨rfl, rfl⟩ := hs
        by_cases hb : k ∈ σ.busy
        · simp only [Follows, next, hb, and_self, if_true]
        · have hi := h.idle k hb
          have hv' : nval (s.node k) = v := by rw [← val_eq]; simpa using hv
          have hcl : upd σ.pend k (some v) k = some v ∧ (σ.slot k = 0 ∨ σ.slot k = v ∨ fn k = false) :=
            ⟨by simp [upd_apply], by rcases hi.1 with e | e; exact .inr (.inl (e.trans hv')); exact .inr (.inr e.2.1)⟩
          simp only [Follows, next, hb, false_and, if_false, if_pos hcl, upd_upd]
          have := h.put hb (x := s.node k) (i := s.nid) (fun nd e => h.node k nd e)
          rw [upd_self rfl, hv'] at this
          exact this
  | destroy k =>
    simp only [op] at hs
    split at hs
    · cases hs
    · rename_i hk
      simp only [Option.some.injEq] at hs
      have := sim_setTss h (Nat.lt_of_not_le hk) (f := false) (v := 0) (.inr ⟨rfl, rfl⟩) (.inr rfl)
      rw [hs] at this
      exact this

theorem sim_ret {nk : Nat} {fn : Nat → Bool} {s s' : State} {es : List Event} {σ : Sp} (h : R nk fn s σ) (hs : ret s = some (s', es)) :
    Follows (next false nk fn) (R nk fn s') σ es := by
  simp only [ret] at hs
  split at hs
  · rename_i ha
    split at hs
    · rename_i hb
      simp only [Option.some.injEq, Prod.mk.injEq] at hs
      obtain ⟨rfl, rfl⟩ := hs
      obtain ⟨h1, h2, h3, h4, h5, h6, h7, h8⟩ := h
      have : σ.returned = false := by simp [h3, hb]
      simp only [Follows, next, this]
      exact ⟨h1, h2, by simp, h4, h5, h6, fun k hk => by have := h7 k hk; grind, h8⟩
    · cases hs
  · rename_i n as ha
    simp only [Option.some.injEq, Prod.mk.injEq] at hs
    obtain ⟨rfl, rfl⟩ := hs
    obtain ⟨h1, h2, h3, h4, h5, h6, h7, h8⟩ := h
    exact ⟨h1, h2, h3, by rw [h4, ha]; exact List.filterMap_cons_none rfl, h5, h6, h7, fun a h => h8 a (by rw [ha]; exact List.mem_cons_of_mem _ h)⟩
  · rename_i k id as ha
    obtain ⟨⟨nd, hn, hid⟩, hsl, hp⟩ := h.act _ (by rw [ha]; exact List.mem_cons_self ..)
    have hv : s.valid k id = true := by simp [State.valid, hn, hid]
    have hb : σ.busy = k :: as.filterMap Act.key := by rw [h.busy, ha]; simp [Act.key]
    simp only [hv, if_true, Option.some.injEq, Prod.mk.injEq] at hs
    obtain ⟨rfl, rfl⟩ := hs
    have hcl : σ.busy.head? = some k := by simp [hb]
    simp only [Follows, next, if_pos hcl]
    have := h.pop ha rfl (x := none) (by simp)
    rw [nval_none, upd_self hsl, upd_self hp] at this
    exact this
  · rename_i k id f v as ha
    obtain ⟨⟨nd, hn, hid⟩, hsl, hp, hf⟩ := h.act _ (by rw [ha]; exact List.mem_cons_self ..)
    have hv : s.valid k id = true := by simp [State.valid, hn, hid]
    have hb : σ.busy = k :: as.filterMap Act.key := by rw [h.busy, ha]; simp [Act.key]
    simp only [hv, if_true, Option.some.injEq, Prod.mk.injEq] at hs
    obtain ⟨rfl, rfl⟩ := hs
    have hcl : σ.busy.head? = some k := by simp [hb]
    simp only [Follows, next, if_pos hcl, hp, hsl, true_and, true_or, if_true]
    obtain ⟨x, hx, hxv, hxf⟩ := store_eq { s with acts := as } k id f v
    rw [hx, ← hxv]
    exact h.pop ha rfl fun nd' e => ⟨by have := hxf nd' e; rcases hf with hf | hf; exact this.1.trans hf; exact absurd hf.2 (this.2 hf.1), (h.node k nd hn).2⟩

theorem first_none {s : State} {nk : Nat} (h : s.first nk = none) {k : Nat} (hk : k < nk) : s.node k = none := by
  have := List.find?_eq_none.1 h k (List.mem_range.2 hk)
  simpa using this

theorem sim_go {nk : Nat} {fn : Nat → Bool} {s s' : State} {es : List Event} {σ : Sp} (h : R nk fn s σ) (ha : s.acts = []) (hs : go nk s = some (s', es)) :
    Follows (next false nk fn) (R nk fn s') σ es := by
  have hb : σ.busy = [] := by rw [h.busy, ha]; rfl
  simp only [go] at hs
  split at hs
  · cases hs
  · cases hs
  · rename_i hbase
    split at hs
    · simp only [Option.some.injEq, Prod.mk.injEq] at hs
      obtain ⟨rfl, rfl⟩ := hs
      obtain ⟨h1, h2, h3, h4, h5, h6, h7, h8⟩ := h
      exact ⟨h1, h2, by simp [h3, hbase], h4, h5, h6, h7, h8⟩
    · rename_i n r hc
      simp only [Option.some.injEq, Prod.mk.injEq] at hs
      obtain ⟨rfl, rfl⟩ := hs
      obtain ⟨h1, h2, h3, h4, h5, h6, h7, h8⟩ := h
      have hcl : σ.returned = true ∧ σ.cbs.head? = some n := ⟨by simp [h3, hbase], by simp [h2, hc]⟩
      simp only [Follows, next, if_pos hcl]
      exact ⟨h1, by simp [h2, hc], h3, by simp [hb, Act.key], h5, h6, h7, by simp [ActOk]⟩
  · rename_i hbase
    split at hs
    · rename_i hf
      split at hs <;> simp only [Option.some.injEq, Prod.mk.injEq] at hs <;> obtain ⟨rfl, rfl⟩ := hs
      · rename_i hc
        obtain ⟨h1, h2, h3, h4, h5, h6, h7, h8⟩ := h
        have hcl : σ.returned = true ∧ σ.cbs = [] ∧ σ.busy = [] ∧ ∀ k < nk, fn k = true → σ.slot k = 0 :=
          ⟨by simp [h3, hbase], by simp [h2, hc], hb, fun k hk ht => by rcases (h7 k (by simp [hb])).1 with e | e; rw [e, first_none hf hk]; rfl; simp [ht] at e⟩
        simp only [Follows, next, if_pos hcl]
        exact ⟨h1, h2, by simp [h3, hbase], h4, h5, h6, h7, h8⟩
      · obtain ⟨h1, h2, h3, h4, h5, h6, h7, h8⟩ := h
        exact ⟨h1, h2, by simp [h3, hbase], h4, h5, h6, h7, h8⟩
    · rename_i k hf
      split at hs
      · cases hs
      · rename_i nd hn
        have hi := h.idle k (by simp [hb])
        have hfn := h.node k nd hn
        split at hs <;> simp only [Option.some.injEq, Prod.mk.injEq] at hs <;> obtain ⟨rfl, rfl⟩ := hs
        · rename_i hc
          simp only [Bool.and_eq_true, bne_iff_ne, ne_eq] at hc
          obtain ⟨h1, h2, h3, h4, h5, h6, h7, h8⟩ := h
          have hcl : fn k = true ∧ nd.val ≠ 0 ∧ σ.slot k = nd.val ∧ ((σ.pend k ≠ none ∧ σ.pend k ≠ some nd.val) ∨ (σ.pend k = none ∧ σ.returned = true)) :=
            ⟨hfn.1 ▸ hc.1, hc.2, by rcases hi.1 with e | e; rw [e, hn]; rfl; exact absurd (hfn.1 ▸ hc.1) (by simp [e.2.1]), .inr ⟨hi.2, by simp [h3, hbase]⟩⟩
          simp only [Follows, next, if_pos hcl]
          constructor <;> simp only
          · exact h1
          · exact h2
          · exact h3
          · simp [hb, Act.key]
          · simp [hb]
          · exact h6
          · intro j hj; have := h7 j; grind
          · simp only [List.mem_singleton, forall_eq]
            exact ⟨⟨nd, hn, rfl⟩, by simp [upd_apply], hi.2⟩
        · rename_i hc
          simp only [Bool.and_eq_true, bne_iff_ne, ne_eq, not_and, Decidable.not_not] at hc
          obtain ⟨h1, h2, h3, h4, h5, h6, h7, h8⟩ := h
          refine ⟨h1, h2, h3, h4, h5, ?_, ?_, by simp [ha]⟩ <;> simp only
          · intro j nd; have := h6 j nd; grind
          · intro j hj
            have := h7 j hj
            have hr : σ.returned = true := by simp [h3, hbase]
            by_cases hjk : j = k
            · subst hjk
              refine ⟨?_, this.2⟩
              simp only [upd_apply, if_true, nval_none]
              cases hfj : fn j with
              | true => left; rcases this.1 with e | e; rw [e, hn]; exact hc (hfn.1.trans hfj); simp [hfj] at e
              | false => exact .inr ⟨hr, rfl, trivial⟩
            · simpa only [upd_apply, if_neg hjk] using this

theorem sim {nk : Nat} {fn : Nat → Bool} {s s' : State} {l : Label} {es : List Event} {σ : Sp} (h : R nk fn s σ) (hs : step nk fn s l = some (s', es)) :
    Follows (next false nk fn) (R nk fn s') σ es := by
  simp only [step] at hs
  split at hs
  · cases hs
  · cases l with
    | op o =>
      simp only at hs
      split at hs
      · cases hs
      · exact sim_op h hs
    | ret => exact sim_ret h hs
    | go =>
      simp only at hs
      split at hs
      · rename_i ha; exact sim_go h ha hs
      · cases hs

theorem R.init (nk : Nat) (fn : Nat → Bool) : R nk fn {} {} := by constructor <;> simp [nval]

/-- **C40.** Whatever the function of the thread, the callbacks and the cleanup functions do, nested to any depth, as long as no cleanup function changes the slot it was called
for: the callbacks run after the function of the thread, each once, the one registered last first; a value is handed to the cleanup function of its slot exactly once, when
`reset` replaces it or the slot is destroyed, or at the end of the thread, and not when it has been released; `get` returns the value of the slot; when the thread ends every
callback has run and every value has been cleaned up. `_partial`: see `own_slot_reset_cleans_twice` and `own_slot_release_undefined` for the case excluded. -/
theorem history_conforms_partial {nk : Nat} {fn : Nat → Bool} {ls : List Label} {s : State} {es : List Event} (h : run (step nk fn) {} ls = some (s, es)) :
    Accepts (next false nk fn) {} es :=
  simulation (R nk fn) (fun _ _ _ _ _ hR hs => sim hR hs) (s := {}) (R.init nk fn) h

/-- Non-vacuity: a callback registers another one and stores a value, whose cleanup function stores a value in another slot and registers a third callback. -/
example : ∃ s, run (step 2 (fun _ => true)) {} [.op .atExit, .op (.reset 0 5), .op (.reset 0 6), .ret, .ret, .go, .op .atExit, .ret, .go, .op (.reset 1 8), .ret, .go, .go,
    .op (.reset 1 9), .ret, .op .atExit, .ret, .go, .ret, .go, .go, .ret, .go, .go] =
    some (s, [.registered 0, .resetCall 0 5, .resetRet 0 5, .resetCall 0 6, .cleaned 0 5, .cleanRet 0, .resetRet 0 6, .bodyRet, .ran 0, .registered 1, .ran 1,
      .resetCall 1 8, .resetRet 1 8, .cleaned 0 6, .resetCall 1 9, .cleaned 1 8, .cleanRet 1, .resetRet 1 9, .registered 2, .cleanRet 0, .cleaned 1 9, .cleanRet 1, .ran 2, .ended]) :=
  ⟨_, rfl⟩

/-- A cleanup function that resets its own slot is called again with the value it is already cleaning up: the slot still holds it. -/
theorem own_slot_reset_cleans_twice : ∃ ls s es, run (step 1 (fun _ => true)) {} ls = some (s, es) ∧ ¬ Accepts (next true 1 (fun _ => true)) {} es ∧
    es = [.resetCall 0 5, .resetRet 0 5, .bodyRet, .cleaned 0 5, .resetCall 0 0, .cleaned 0 5] :=
  ⟨[.op (.reset 0 5), .ret, .go, .go, .op (.reset 0 0)], _, _, rfl, by decide, rfl⟩

/-- One that releases its own slot erases the node that the caller goes on to use. -/
theorem own_slot_release_undefined : ∃ ls s es, run (step 1 (fun _ => true)) {} ls = some (s, es) ∧
    es = [.resetCall 0 5, .resetRet 0 5, .resetCall 0 6, .cleaned 0 5, .released 0 5, .ub] :=
  ⟨[.op (.reset 0 5), .op (.reset 0 6), .op (.release 0), .ret], _, _, rfl, rfl⟩

/-- The number of labels needed to end the thread. -/
def State.work (s : State) (nk : Nat) : Nat := s.cbs.length + ((List.range nk).filter fun k => (s.node k).isSome).length

theorem first_some {s : State} {nk k : Nat} (h : s.first nk = some k) : k < nk ∧ (s.node k).isSome :=
  ⟨List.mem_range.1 (List.mem_of_find?_eq_some h), List.find?_some (p := fun k => (s.node k).isSome) h⟩

theorem filter_lt {α : Type} {p q : α → Bool} : ∀ {l : List α} {a : α}, a ∈ l → p a = true → q a = false → (∀ b ∈ l, q b = true → p b = true) → (l.filter q).length < (l.filter p).length
  | b :: l, a, ha, hp, hq, h => by
    have hle : ∀ l' : List α, (∀ c ∈ l', q c = true → p c = true) → (l'.filter q).length ≤ (l'.filter p).length := by
      intro l'
      induction l' with
      | nil => simp
      | cons c l' ih =>
        intro h'
        have := ih fun d hd => h' d (List.mem_cons_of_mem _ hd)
        have hc := h' c (List.mem_cons_self ..)
        cases hqc : q c <;> cases hpc : p c <;> simp_all <;> omega
    rcases List.mem_cons.1 ha with rfl | ha
    · have := hle l fun d hd => h d (List.mem_cons_of_mem _ hd)
      simp [hp, hq]; omega
    · have := filter_lt ha hp hq fun d hd => h d (List.mem_cons_of_mem _ hd)
      have hb := h b (List.mem_cons_self ..)
      cases hqb : q b <;> cases hpb : p b <;> simp_all <;> omega

/-- `tls_destructor` gets nearer its end. -/
theorem finish_round {nk : Nat} {fn : Nat → Bool} {s : State} (ha : s.acts = [])
    (hu : s.ub = false) (hb : s.base = .tearCb ∨ s.base = .tearTss)
    (ih : ∀ m : State, 2 * m.work nk + (if m.base = .tearCb then 1 else 0) < 2 * s.work nk + (if s.base = .tearCb then 1 else 0) → m.acts = [] → m.ub = false →
      (m.base = .tearCb ∨ m.base = .tearTss) → ∃ ls' s' es', (∀ l ∈ ls', l = .ret ∨ l = .go) ∧ run (step nk fn) m ls' = some (s', es') ∧ s'.base = .ended) :
    ∃ ls' s' es', (∀ l ∈ ls', l = .ret ∨ l = .go) ∧ run (step nk fn) s ls' = some (s', es') ∧ s'.base = .ended := by
  have key : ∀ (ls : List Label) (m : State) (es : List Event), (∀ l ∈ ls, l = .ret ∨ l = .go) → run (step nk fn) s ls = some (m, es) →
      2 * m.work nk + (if m.base = .tearCb then 1 else 0) < 2 * s.work nk + (if s.base = .tearCb then 1 else 0) → m.acts = [] → m.ub = false →
      (m.base = .tearCb ∨ m.base = .tearTss) → ∃ ls' s' es', (∀ l ∈ ls', l = .ret ∨ l = .go) ∧ run (step nk fn) s ls' = some (s', es') ∧ s'.base = .ended := by
    intro ls m es hl hr h1 h2 h3 h4
    obtain ⟨ls', s', es', h5, h6, h7⟩ := ih m h1 h2 h3 h4
    exact ⟨ls ++ ls', s', _, fun l h => (List.mem_append.1 h).elim (hl l) (h5 l), run_append hr h6, h7⟩
  rcases hb with hb | hb
  · cases hc : s.cbs with
    | nil =>
      refine key [.go] { s with base := .tearTss } _ (by simp) (by simp [run, step, go, ha, hu, hb, hc]; rfl) ?_ ha hu (.inr rfl)
      simp only [State.work, hb]; simp
    | cons c r =>
      refine key [.go, .ret] { s with cbs := r } [.ran c] (by simp) (by simp [run, step, go, ret, ha, hu, hb, hc]) ?_ ha hu (.inl hb)
      simp only [State.work, hc, List.length_cons]; omega
  · cases hf : s.first nk with
    | none =>
      cases hc : s.cbs with
      | nil => exact ⟨[.go], { s with base := .ended }, [.ended], by simp, by simp [run, step, go, ha, hu, hb, hf, hc], rfl⟩
      | cons c r =>
        refine key [.go, .go, .ret] { s with cbs := r, base := .tearCb } [.ran c] (by simp) (by simp [run, step, go, ret, ha, hu, hb, hf, hc]) ?_ ha hu (.inl rfl)
        simp only [State.work, hc, hb, List.length_cons]; simp; omega
    | some k =>
      have hk := first_some hf
      obtain ⟨nd, hn⟩ := Option.isSome_iff_exists.1 hk.2
      have hlt : 2 * ({ s with node := upd s.node k none } : State).work nk + (if ({ s with node := upd s.node k none } : State).base = .tearCb then 1 else 0) <
          2 * s.work nk + (if s.base = .tearCb then 1 else 0) := by
        have := filter_lt (p := fun k => (s.node k).isSome) (q := fun j => (upd s.node k none j).isSome) (List.mem_range.2 hk.1) hk.2 (by simp [upd_apply])
          (by intro b _; simp only [upd_apply]; split <;> simp_all)
        simp only [State.work]; omega
      by_cases hc : (nd.fn && nd.val != 0) = true
      · refine key [.go, .ret] { s with node := upd s.node k none } [.cleaned k nd.val, .cleanRet k] (by simp) ?_ hlt ha hu (.inr hb)
        have h1 : step nk fn s .go = some ({ s with acts := [.clean k nd.id] }, [.cleaned k nd.val]) := by
          simp only [step, go, ha, hu, hb, hf, hn, hc]; rfl
        have h2 : step nk fn { s with acts := [.clean k nd.id] } .ret = some ({ s with node := upd s.node k none }, [.cleanRet k]) := by
          simp only [step, ret, hu, State.valid, hn]; simp [ha]
        simp only [run, h1, h2]; simp
      · refine key [.go] { s with node := upd s.node k none } [] (by simp) ?_ hlt ha hu (.inr hb)
        simp only [run, step, go, ret, ha, hu, hb, hf, hn, hc]; simp

/-- If the callbacks and cleanup functions that are still to be called do nothing more, the end of the thread is reached: the loops of `tls_destructor` terminate. -/
theorem tear_down_terminates {nk : Nat} {fn : Nat → Bool} {s : State} (ha : s.acts = [])
    (hu : s.ub = false) (hb : s.base = .tearCb ∨ s.base = .tearTss) :
    ∃ ls' s' es', (∀ l ∈ ls', l = .ret ∨ l = .go) ∧ run (step nk fn) s ls' = some (s', es') ∧ s'.base = .ended := by
  suffices H : ∀ n s, 2 * s.work nk + (if s.base = .tearCb then 1 else 0) ≤ n → s.acts = [] → s.ub = false → (s.base = .tearCb ∨ s.base = .tearTss) →
      ∃ ls' s' es', (∀ l ∈ ls', l = .ret ∨ l = .go) ∧ run (step nk fn) s ls' = some (s', es') ∧ s'.base = .ended from H _ s (Nat.le_refl _) ha hu hb
  intro n
  induction n with
  | zero =>
    intro s hw ha hu hb
    exact finish_round ha hu hb (fun m hm => absurd hm (by omega))
  | succ n ih =>
    intro s hw ha hu hb
    exact finish_round ha hu hb (fun m hm => ih m (by omega))

end Verif.ThreadExit
