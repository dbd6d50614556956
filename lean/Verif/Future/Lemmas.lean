import Verif.Future.Model
import Verif.Future.Spec
/-!
# Promises and futures: the simulation
-/

namespace Verif.Future

/-! ## One shared state and its channel -/

def Good (x : SS) (c : Chan) : Prop :=
  c.ready = x.done ∧ c.taken = x.moved ∧
  match c.out with
  | none => x.exc = none ∧ x.done = false ∧ x.constructed = false ∧ x.moved = false
  | some (.value v) => x.exc = none ∧ x.res = some v ∧ (x.done = true ∨ x.constructed = true)
  | some (.exc e) => x.exc = some e ∧ (x.done = true ∨ x.constructed = true)

structure CR (strict : Bool) (x : SS) (c : Chan) : Prop where
  used : c.used = !x.valid
  good : c.spoiled = false → Good x c
  pub : strict = true → c.spoiled = false → c.out.isSome → c.ready = true

theorem CR.fresh (strict : Bool) : CR strict {} {} :=
  ⟨rfl, fun _ => ⟨rfl, rfl, rfl, rfl, rfl, rfl⟩, fun _ _ h => by simp at h⟩

theorem cr_setNow {strict x c} (o : Out) (h : CR strict x c) :
    ∃ c', judgeSet strict c .now o (x.setNow o).2.2 = some c' ∧ CR strict (x.setNow o).1 c' := by
  obtain ⟨hu, hg, hp⟩ := h
  obtain ⟨out, ready, spoiled, used, taken⟩ := c
  obtain ⟨done, exc, res, moved, constructed, valid⟩ := x
  dsimp only at hu hg hp
  cases spoiled
  · obtain ⟨h1, h2, h3⟩ := hg rfl
    dsimp only at h1 h2 h3
    subst h1 h2 hu
    rcases out with _ | _ | _
    · obtain ⟨rfl, rfl, rfl, rfl⟩ := h3
      cases o <;> simp [judgeSet, SS.setNow, SS.put] <;>
        exact ⟨rfl, fun _ => by simp [Good], fun _ _ _ => rfl⟩
    all_goals
      cases ready
      · simp [judgeSet, SS.setNow]
        cases strict
        · simp
          refine ⟨?_, fun h => by simp at h, fun h => by simp at h⟩
          cases o <;> rfl
        · exact absurd (hp rfl rfl rfl) (by simp)
      · simp [judgeSet, SS.setNow, Out.isValue]
        exact ⟨rfl, fun _ => ⟨rfl, rfl, h3⟩, fun _ _ _ => rfl⟩
  · refine ⟨_, by simp only [judgeSet]; rfl, ?_, fun h => by simp at h, fun _ h => by simp at h⟩
    subst hu
    cases done <;> cases o <;> simp [SS.setNow, SS.put]

theorem cr_setLater {x c} (m : Mode) (hm : m ≠ .now) (o : Out) (h : CR false x c) :
    ∃ c', judgeSet false c m o (x.setLater o).2.2 = some c' ∧ CR false (x.setLater o).1 c' := by
  obtain ⟨hu, hg, -⟩ := h
  obtain ⟨out, ready, spoiled, used, taken⟩ := c
  obtain ⟨done, exc, res, moved, constructed, valid⟩ := x
  dsimp only at hu hg
  cases spoiled
  · obtain ⟨h1, h2, h3⟩ := hg rfl
    dsimp only at h1 h2 h3
    subst h1 h2 hu
    rcases out with _ | _ | _
    · obtain ⟨rfl, rfl, rfl, rfl⟩ := h3
      cases o <;> simp [judgeSet, SS.setLater, SS.put, hm] <;>
        exact ⟨rfl, fun _ => by simp [Good], fun h => by simp at h⟩
    · obtain ⟨rfl, rfl, h3⟩ := h3
      cases ready
      · simp [judgeSet, SS.setLater, hm]
        refine ⟨?_, fun h => by simp at h, fun h => by simp at h⟩
        cases o <;> rfl
      · simp [judgeSet, SS.setLater, hm, Out.isValue]
        exact ⟨rfl, fun _ => ⟨rfl, rfl, rfl, rfl, h3⟩, fun _ _ _ => rfl⟩
    · obtain ⟨rfl, h3⟩ := h3
      cases ready <;>
      · simp [judgeSet, SS.setLater, hm, Out.isValue]
        refine ⟨?_, fun h => by simp at h, fun h => by simp at h⟩
        cases o <;> rfl
  · refine ⟨_, by simp only [judgeSet]; rfl, ?_, fun h => by simp at h, fun _ h => by simp at h⟩
    subst hu
    cases done <;> cases exc <;> cases o <;> simp [SS.setLater, SS.put]

theorem cr_finish {strict x c} (h : CR strict x c) : CR strict x.finish.1 c.publish := by
  obtain ⟨hu, hg, hp⟩ := h
  obtain ⟨out, ready, spoiled, used, taken⟩ := c
  obtain ⟨done, exc, res, moved, constructed, valid⟩ := x
  dsimp only at hu hg hp
  rcases out with _ | _ | _
  · exact ⟨hu, fun h => by simp [Chan.publish] at h, fun _ h => by simp [Chan.publish] at h⟩
  all_goals
    refine ⟨hu, fun h => ?_, fun _ _ _ => rfl⟩
    obtain ⟨h1, h2, h3⟩ := hg h
    dsimp only at h1 h2 h3
    simp [Good, Chan.publish, SS.finish, h2, h3]

theorem cr_abandon {strict x c} (h : CR strict x c) : CR strict x.abandon.1 c.abandon := by
  obtain ⟨hu, hg, hp⟩ := h
  obtain ⟨out, ready, spoiled, used, taken⟩ := c
  obtain ⟨done, exc, res, moved, constructed, valid⟩ := x
  dsimp only at hu hg hp
  cases spoiled
  · obtain ⟨h1, h2, h3⟩ := hg rfl
    dsimp only at h1 h2 h3
    subst h1 h2 hu
    rcases out with _ | _ | _
    · obtain ⟨rfl, rfl, rfl, rfl⟩ := h3
      exact ⟨rfl, fun _ => by simp [Good, Chan.abandon, SS.abandon], fun _ _ _ => rfl⟩
    all_goals
      have : (SS.abandon ⟨ready, exc, res, taken, constructed, valid⟩).1 = ⟨ready, exc, res, taken, constructed, valid⟩ := by
        rcases ready with _ | _ <;> rcases constructed with _ | _ <;> simp [SS.abandon] at h3 ⊢
      rw [this]
      exact ⟨rfl, fun _ => ⟨rfl, rfl, h3⟩, hp⟩
  · refine ⟨?_, fun h => by simp [Chan.abandon] at h, fun _ h => by simp [Chan.abandon] at h⟩
    subst hu
    cases done <;> cases constructed <;> simp [SS.abandon, Chan.abandon]

theorem cr_take {cfg strict x c} (w : Wait) (hw : strict = true → ∀ d, w ≠ .getOr false d) (hd : x.done = true) (h : CR strict x c) :
    ∃ c', judgeWait cfg strict c w (x.take cfg w).2 = some c' ∧ CR strict (x.take cfg w).1 c' := by
  obtain ⟨hu, hg, hp⟩ := h
  obtain ⟨out, ready, spoiled, used, taken⟩ := c
  obtain ⟨done, exc, res, moved, constructed, valid⟩ := x
  dsimp only at hu hg hp hd
  subst hd
  cases spoiled
  · obtain ⟨h1, h2, h3⟩ := hg rfl
    dsimp only at h1 h2 h3
    subst h1 h2 hu
    rcases out with _ | v | e
    · exact absurd h3.2.1 (by simp)
    · obtain ⟨rfl, rfl, h3⟩ := h3
      rcases w with u | ⟨_ | _, d⟩ | _ | _ <;> simp [judgeWait, SS.take] <;>
        exact ⟨by simp, fun _ => by simp [Good], fun _ _ _ => rfl⟩
    · obtain ⟨rfl, h3⟩ := h3
      rcases w with u | ⟨_ | _, d⟩ | _ | _
      case getOr.false =>
        cases strict
        · simp [judgeWait, SS.take]
          exact ⟨by simp, fun _ => by simp [Good], fun _ _ _ => rfl⟩
        · exact absurd rfl (hw rfl d)
      all_goals
        simp [judgeWait, SS.take]
        exact ⟨by simp, fun _ => by simp [Good], fun _ _ _ => rfl⟩
  · subst hu
    rcases w with u | ⟨_ | _, d⟩ | _ | _ <;> cases exc <;> cases res <;> simp [judgeWait, SS.take] <;>
      exact ⟨by simp, fun h => by simp at h, fun _ h => by simp at h⟩

/-! ## The whole state -/

def pendOf (th : Th) : Option (Wait × Nat) :=
  match th.pc with
  | .idle => none
  | .blocked w i _ => some (w, i)

structure R (strict : Bool) (s : State) (σ : SState) : Prop where
  proms : σ.proms = s.proms
  futs : σ.futs = s.futs
  pend : σ.pend = s.ts.map pendOf
  exits : σ.exits = s.ts.map (·.atExit)
  libs : σ.libs = s.ts.map (·.lib)
  len : σ.chans.length = s.ss.length
  chans : ∀ (i : Nat) x c, s.ss[i]? = some x → σ.chans[i]? = some c → CR strict x c
  noexit : strict = true → ∀ l ∈ σ.exits, l = []
  noor : strict = true → ∀ (d i : Nat), some (Wait.getOr false d, i) ∉ σ.pend
  ended : σ.ended = s.ts.map (·.exited)

theorem wakeAll_pend (i : Nat) (ts : List Th) : (wakeAll i ts).map pendOf = ts.map pendOf := by
  simp only [wakeAll, List.map_map]
  refine List.map_congr_left fun x _ => ?_
  obtain ⟨pc, _, _, _, _⟩ := x
  cases pc with
  | idle => rfl
  | blocked w j a => by_cases h : j = i <;> simp [pendOf, h]

theorem wakeAll_exits (i : Nat) (ts : List Th) : (wakeAll i ts).map (·.atExit) = ts.map (·.atExit) := by
  simp only [wakeAll, List.map_map]
  refine List.map_congr_left fun x _ => ?_
  obtain ⟨pc, _, _, _, _⟩ := x
  cases pc with
  | idle => rfl
  | blocked w j a => by_cases h : j = i <;> simp [h]

theorem wakeAll_libs (i : Nat) (ts : List Th) : (wakeAll i ts).map (·.lib) = ts.map (·.lib) := by
  simp only [wakeAll, List.map_map]
  refine List.map_congr_left fun x _ => ?_
  obtain ⟨pc, _, _, _, _⟩ := x
  cases pc with
  | idle => rfl
  | blocked w j a => by_cases h : j = i <;> simp [h]

theorem wakeAll_ended (i : Nat) (ts : List Th) : (wakeAll i ts).map (·.exited) = ts.map (·.exited) := by
  simp only [wakeAll, List.map_map]
  refine List.map_congr_left fun x _ => ?_
  obtain ⟨pc, _, _, _, _⟩ := x
  cases pc with
  | idle => rfl
  | blocked w j a => by_cases h : j = i <;> simp [h]

theorem R.chan {strict s σ} {i : Nat} {x} (h : R strict s σ) (hx : s.ss[i]? = some x) : ∃ c, σ.chans[i]? = some c ∧ CR strict x c := by
  have hi : i < s.ss.length := (List.getElem?_eq_some_iff.1 hx).1
  have hi' : i < σ.chans.length := h.len ▸ hi
  exact ⟨σ.chans[i], List.getElem?_eq_getElem hi', h.chans i x _ hx (List.getElem?_eq_getElem hi')⟩

theorem R.store {strict s σ} {i : Nat} {x' c'} (h : R strict s σ) (fin : Bool) (hc : CR strict x' c') :
    R strict (s.store i x' fin) (σ.setChan i c') := by
  obtain ⟨h1, h2, h3, h4, h5, h6, h7, h8, h9, h10⟩ := h
  refine ⟨h1, h2, ?_, ?_, ?_, by simpa [SState.setChan, State.store] using h6, ?_, h8, h9, by cases fin <;> simp [State.store, SState.setChan, wakeAll_ended, h10]⟩
  · cases fin <;> simp [State.store, SState.setChan, wakeAll_pend, h3]
  · cases fin <;> simp [State.store, SState.setChan, wakeAll_exits, h4]
  · cases fin <;> simp [State.store, SState.setChan, wakeAll_libs, h5]
  · intro j y d hy hd
    simp only [State.store, SState.setChan, List.getElem?_set] at hy hd
    by_cases hij : i = j
    · subst hij
      simp only [if_true] at hy hd
      split at hy
      · split at hd
        · cases hy; cases hd; exact hc
        · cases hd
      · cases hy
    · rw [if_neg hij] at hy hd
      exact h7 j y d hy hd

theorem R.append {strict s σ} (h : R strict s σ) (pr : List (Option Prom)) :
    R strict { s with ss := s.ss ++ [{}], proms := pr } { σ with chans := σ.chans ++ [{}], proms := pr } := by
  obtain ⟨h1, h2, h3, h4, h5, h6, h7, h8, h9, h10⟩ := h
  refine ⟨rfl, h2, h3, h4, h5, by simp [h6], ?_, h8, h9, h10⟩
  intro j y d hy hd
  dsimp only at hy hd
  by_cases hj : j < s.ss.length
  · rw [List.getElem?_append_left hj] at hy
    rw [List.getElem?_append_left (h6 ▸ hj)] at hd
    exact h7 j y d hy hd
  · rw [List.getElem?_append_right (by omega)] at hy
    rw [List.getElem?_append_right (by omega)] at hd
    rw [h6] at hd
    cases hk : j - s.ss.length with
    | zero =>
      rw [hk] at hy hd
      cases hy; cases hd
      exact CR.fresh strict
    | succ k => rw [hk] at hy; simp at hy

theorem R.handles {strict s σ} (h : R strict s σ) (pr : List (Option Prom)) (fs : List (Option Fut)) :
    R strict { s with proms := pr, futs := fs } { σ with proms := pr, futs := fs } :=
  ⟨rfl, rfl, h.pend, h.exits, h.libs, h.len, h.chans, h.noexit, h.noor, h.ended⟩

theorem R.setProms {strict s σ} (h : R strict s σ) (pr : List (Option Prom)) : R strict { s with proms := pr } { σ with proms := pr } :=
  ⟨rfl, h.futs, h.pend, h.exits, h.libs, h.len, h.chans, h.noexit, h.noor, h.ended⟩

theorem R.setFuts {strict s σ} (h : R strict s σ) (fs : List (Option Fut)) : R strict { s with futs := fs } { σ with futs := fs } :=
  ⟨h.proms, rfl, h.pend, h.exits, h.libs, h.len, h.chans, h.noexit, h.noor, h.ended⟩

theorem map_set_same {α β : Type} (f : α → β) {l : List α} {t : Nat} {x y : α} (hx : l[t]? = some x) (hy : f y = f x) :
    (l.set t y).map f = l.map f := by
  rw [List.map_set, hy]
  obtain ⟨hi, rfl⟩ := List.getElem?_eq_some_iff.1 hx
  apply List.ext_getElem?
  intro n
  rw [List.getElem?_set]
  split
  · rename_i h; subst h
    simp [hi]
  · rfl

/-- A step that changes one thread only. -/
theorem R.thread {strict s σ} {t : Nat} {th th'} (h : R strict s σ) (ht : s.ts[t]? = some th) (hl : (th'.lib, th'.exited) = (th.lib, th.exited)) (he : th'.atExit = th.atExit)
    (hn : strict = true → ∀ (d i : Nat), pendOf th' ≠ some (Wait.getOr false d, i)) :
    R strict { s with ts := s.ts.set t th' } { σ with pend := σ.pend.set t (pendOf th') } := by
  obtain ⟨h1, h2, h3, h4, h5, h6, h7, h8, h9, h10⟩ := h
  refine ⟨h1, h2, by simp [h3, List.map_set], ?_, ?_, h6, h7, h8, ?_, ?_⟩
  · dsimp only
    rw [map_set_same _ ht he]; exact h4
  · dsimp only
    rw [map_set_same _ ht (congrArg Prod.fst hl)]; exact h5
  · intro hs d i hm
    rcases List.mem_or_eq_of_mem_set hm with hm | hm
    · exact h9 hs d i hm
    · exact hn hs d i hm.symm
  · dsimp only
    rw [map_set_same _ ht (congrArg Prod.snd hl)]; exact h10

theorem set_self_pend {strict s σ} {t : Nat} {th} (h : R strict s σ) (ht : s.ts[t]? = some th) : σ.pend.set t (pendOf th) = σ.pend := by
  rw [h.pend]
  have := map_set_same pendOf ht (y := th) rfl
  rw [List.map_set] at this
  exact this

theorem R.thread' {strict s σ} {t : Nat} {th th'} (h : R strict s σ) (ht : s.ts[t]? = some th) (hl : (th'.lib, th'.exited) = (th.lib, th.exited)) (he : th'.atExit = th.atExit)
    (hp : pendOf th' = pendOf th) :
    R strict { s with ts := s.ts.set t th' } σ := by
  have := h.thread (th' := th') ht hl he (by
    intro hs d i hc
    rw [hp] at hc
    refine h.noor hs d i ?_
    rw [h.pend, List.mem_map]
    exact ⟨th, List.mem_of_getElem? ht, hc⟩)
  rw [hp, set_self_pend h ht] at this
  exact this

theorem R.lookupP {strict s σ} (h : R strict s σ) (p : Nat) : σ.proms[p]?.join = s.proms[p]?.join := by rw [h.proms]
theorem R.lookupF {strict s σ} (h : R strict s σ) (f : Nat) : σ.futs[f]?.join = s.futs[f]?.join := by rw [h.futs]

theorem R.pendAt {strict s σ} {t : Nat} {th} (h : R strict s σ) (ht : s.ts[t]? = some th) : σ.pend[t]?.join = pendOf th := by
  rw [h.pend, List.getElem?_map, ht]; rfl

theorem follows_one {nx : SState → E → Verdict SState} {Q : SState → Prop} {σ σ' : SState} {e : E} (h1 : nx σ e = .ok σ') (h2 : Q σ') :
    Follows nx Q σ [e] := by
  simp only [Follows, h1]
  exact h2

/-- The calls the strict contract is proved for: outcomes are given with `set_value` and `set_exception` only, promises are not assigned to, `get_or` is not called
on a `shared_future`, and nobody is interrupted. -/
def Plain : L → Prop
  | .call _ (.set _ m _) => m = .now
  | .call _ (.passign _ _) => False
  | .call _ (.getOrF _ sh _) => sh = false
  | .interrupt _ => False
  | _ => True

/-! ## The calls -/

theorem sim_waitOp {cfg strict s σ} {t : Nat} {th : Th} {op : Op} {f : Nat} {x : Fut} {i : Nat} {w : Wait} {inv : Bool} {s' es}
    (h : R strict s σ) (ht : s.ts[t]? = some th) (hx : s.futs[f]?.join = some x) (hi : x.st = some i)
    (hop : op.waits = some (f, fun _ => w) ∨ ∃ g, op.waits = some (f, g) ∧ g x = w)
    (hw : strict = true → ∀ d, w ≠ .getOr false d)
    (hinv : ∀ y c, CR strict y c → CR strict (if inv then { y with valid := false } else y) (w.start cfg c))
    (hs : waitOp cfg s t th op i w w.uniq inv = some (s', es)) :
    Follows (next cfg strict) (R strict s') σ es := by
  obtain ⟨g, hop, hg⟩ : ∃ g, op.waits = some (f, g) ∧ g x = w := by
    rcases hop with hop | hop
    · exact ⟨_, hop, rfl⟩
    · exact hop
  simp only [waitOp, Option.map_eq_some_iff] at hs
  obtain ⟨y, hy, hs⟩ := hs
  obtain ⟨c, hc, hcr⟩ := h.chan hy
  have hr : ∀ r, nextRet cfg strict σ t op r = ofOption (op.waits.bind fun fw => σ.futs[fw.1]?.join.bind fun x =>
      match x.st with
      | none => if r = .uninit then some σ else none
      | some i => σ.chans[i]?.bind fun c =>
          let w := fw.2 x
          if w.uniq && c.used then (if r = .uninit then some σ else none)
          else (judgeWait cfg strict (w.start cfg c) w r).map fun c' => σ.setChan i c') := by
    intro r
    cases op <;> first | rfl | (simp [Op.waits] at hop)
  split at hs
  · rename_i hv
    cases hs
    refine follows_one (σ' := σ) ?_ h
    simp only [next, hr, hop, Option.bind_some, h.lookupF, hx, hi, hc, hg, hcr.used]
    rw [if_pos hv]
    rfl
  · rename_i hv
    have hcr' := hinv y c hcr
    split at hs
    · rename_i hd
      cases hs
      have hd' : (if inv then { y with valid := false } else y).done = true := by cases inv <;> exact hd
      obtain ⟨c', hj, hc'⟩ := cr_take (cfg := cfg) w hw hd' hcr'
      refine follows_one (σ' := σ.setChan i c') ?_ (h.store false hc')
      simp only [next, hr, hop, Option.bind_some, h.lookupF, hx, hi, hc, hg, hcr.used]
      rw [if_neg hv, hj]
      rfl
    · rename_i hd
      cases hs
      refine follows_one (σ' := { σ.setChan i (w.start cfg c) with pend := σ.pend.set t (some (w, i)) }) ?_ ?_
      · simp only [next, hop, Option.bind_some, h.lookupF, hx, hi, hc, hg, hcr.used]
        rw [if_neg]
        · rfl
        · simp only [Bool.or_eq_true, Bool.and_eq_true, not_or]
          refine ⟨by simpa using hv, ?_⟩
          rintro ⟨h1, h2⟩
          have := (hcr.good (by simpa using h2)).1
          rw [this] at h1
          exact hd h1
      · have := (h.store (i := i) false hcr').thread (t := t) (th := th) (th' := { th with pc := .blocked w i true }) ht rfl rfl (by
          intro hs d j hc
          have := hw hs d
          simp only [pendOf, Option.some.injEq, Prod.mk.injEq] at hc
          exact this hc.1)
        exact this

theorem sim_set {cfg strict s σ} {t : Nat} {th : Th} {p : Nat} {x : Prom} {m : Mode} {o : Out} {r}
    (h : R strict s σ) (ht : s.ts[t]? = some th) (hx : s.proms[p]?.join = some x) (hm : strict = true → m = .now)
    (hs : setOp cfg s t th p x m o = some r) :
    Follows (next cfg strict) (R strict r.1) σ [.ret t (.set p m o) r.2] := by
  have hens : ∀ mk, mk = cfg.lazy → ∃ a, σ.ensure mk p x = (a, (lazyInit cfg s p x).2.st) ∧ R strict (lazyInit cfg s p x).1 a := by
    intro mk hmk
    subst hmk
    cases hst : x.st with
    | some i => exact ⟨σ, by simp [SState.ensure, lazyInit, hst], by simpa [lazyInit, hst] using h⟩
    | none =>
      cases hl : cfg.lazy
      · exact ⟨σ, by simp [SState.ensure, lazyInit, hst, hl], by simpa [lazyInit, hst, hl] using h⟩
      · refine ⟨_, by simp [SState.ensure, lazyInit, hst, hl]; exact ⟨rfl, h.len⟩, ?_⟩
        simp only [lazyInit, hst, hl, if_true]
        have := h.append (s.proms.set p (some { x with st := some s.ss.length }))
        simp only [h.proms, h.len]
        exact this
  cases m with
  | now =>
    obtain ⟨a, ha, hR⟩ := hens (cfg.lazy && (Mode.now != .atExit || strict)) (by cases cfg.lazy <;> rfl)
    simp only [setOp] at hs
    cases hst : (lazyInit cfg s p x).2.st with
    | none =>
      rw [hst] at hs ha
      cases hs
      simp [Follows, next, nextRet, h.lookupP, hx, ha]
    | some i =>
      rw [hst] at hs ha
      simp only [Option.map_eq_some_iff] at hs
      obtain ⟨y, hy, rfl⟩ := hs
      obtain ⟨c, hc, hcr⟩ := hR.chan hy
      obtain ⟨c', hj, hc'⟩ := cr_setNow o hcr
      refine follows_one (σ' := a.setChan i c') ?_ (hR.store _ hc')
      simp [next, nextRet, h.lookupP, hx, ha, hc, hj, ofOption]
  | deferred =>
    have hst' : strict = false := by
      cases strict
      · rfl
      · exact absurd (hm rfl) (by simp)
    subst hst'
    obtain ⟨a, ha, hR⟩ := hens (cfg.lazy && (Mode.deferred != .atExit || false)) (by cases cfg.lazy <;> rfl)
    simp only [setOp] at hs
    cases hst : (lazyInit cfg s p x).2.st with
    | none =>
      rw [hst] at hs ha
      cases hs
      refine follows_one (σ' := a) ?_ hR
      simp only [next, nextRet, h.lookupP, hx, ha]
      rfl
    | some i =>
      rw [hst] at hs ha
      simp only [Option.map_eq_some_iff] at hs
      obtain ⟨y, hy, rfl⟩ := hs
      obtain ⟨c, hc, hcr⟩ := hR.chan hy
      obtain ⟨c', hj, hc'⟩ := cr_setLater .deferred (by simp) o hcr
      refine follows_one (σ' := a.setChan i c') ?_ (hR.store _ hc')
      simp only [next, nextRet, h.lookupP, hx, ha, hc, hj, ofOption, Option.bind_some, Option.map_some]
      simp
  | atExit =>
    have hst' : strict = false := by
      cases strict
      · rfl
      · exact absurd (hm rfl) (by simp)
    subst hst'
    have ha : σ.ensure (cfg.lazy && (Mode.atExit != .atExit || false)) p x = (σ, x.st) := by
      cases hst : x.st <;> simp [SState.ensure, hst]
    simp only [setOp] at hs
    cases hst : x.st with
    | none =>
      rw [hst] at hs ha
      cases hs
      refine follows_one (σ' := σ) ?_ h
      simp only [next, nextRet, h.lookupP, hx, ha]
      rfl
    | some i =>
      rw [hst] at hs ha
      simp only [Option.map_eq_some_iff] at hs
      obtain ⟨y, hy, rfl⟩ := hs
      obtain ⟨c, hc, hcr⟩ := h.chan hy
      obtain ⟨c', hj, hc'⟩ := cr_setLater .atExit (by simp) o hcr
      have hlib : σ.libs[t]? = some th.lib := by rw [h.libs, List.getElem?_map, ht]; rfl
      have hst := h.store (i := i) (y.setLater o).2.1 hc'
      by_cases hcond : (y.setLater o).2.2 = .ok ∧ th.lib = true
      · refine follows_one (σ' := { σ.setChan i c' with exits := σ.exits.modify t (· ++ [i]) }) ?_ ?_
        · simp only [next, nextRet, h.lookupP, hx, ha, hc, hj, ofOption, Option.bind_some, Option.map_some]
          rw [if_pos ⟨trivial, hcond.1, Or.inr (by simpa [SState.setChan, hcond.2] using hlib)⟩]
          rfl
        · rw [if_pos hcond]
          have hfin : (y.setLater o).2.1 = false := by simp only [SS.setLater]; split <;> rfl
          rw [hfin] at hst ⊢
          obtain ⟨h1, h2, h3, h4, h5, h6, h7, h8, h9, h10⟩ := hst
          refine ⟨h1, h2, ?_, ?_, ?_, h6, h7, by simp, by simp,
            h10.trans (map_set_same (·.exited) (y := { th with atExit := th.atExit ++ [i] }) ht rfl).symm⟩
          · rw [h3]
            exact (map_set_same pendOf (y := { th with atExit := th.atExit ++ [i] }) ht rfl).symm
          · have h4' : σ.exits = s.ts.map (·.atExit) := h.exits
            dsimp only [SState.setChan, State.store]
            rw [h4']
            apply List.ext_getElem?
            intro n
            simp only [List.getElem?_modify, List.getElem?_map, List.map_set, List.getElem?_set, List.length_map]
            have htl : t < s.ts.length := (List.getElem?_eq_some_iff.1 ht).1
            by_cases hn : t = n
            · subst hn
              simp only [Bool.false_eq_true, if_false, ht, htl, if_true]
              rfl
            · simp [hn]
          · rw [h5]
            exact (map_set_same (·.lib) (y := { th with atExit := th.atExit ++ [i] }) ht rfl).symm
      · refine follows_one (σ' := σ.setChan i c') ?_ ?_
        · simp only [next, nextRet, h.lookupP, hx, ha, hc, hj, ofOption, Option.bind_some, Option.map_some]
          rw [if_neg]
          rintro ⟨-, h1, h2⟩
          refine hcond ⟨h1, ?_⟩
          rcases h2 with h2 | h2
          · simp at h2
          · have : σ.libs[t]? = some true := h2
            rw [hlib] at this
            simpa using this
        · simp only [hcond, if_false]
          exact hst

theorem sim_ensure {cfg strict s σ} {p : Nat} {x : Prom} (h : R strict s σ) :
    ∃ a, σ.ensure cfg.lazy p x = (a, (lazyInit cfg s p x).2.st) ∧ R strict (lazyInit cfg s p x).1 a ∧ (lazyInit cfg s p x).2.got = x.got := by
  cases hst : x.st with
  | some i => exact ⟨σ, by simp [SState.ensure, lazyInit, hst], by simpa [lazyInit, hst] using h, by simp [lazyInit, hst]⟩
  | none =>
    cases hl : cfg.lazy
    · exact ⟨σ, by simp [SState.ensure, lazyInit, hst, hl], by simpa [lazyInit, hst, hl] using h, by simp [lazyInit, hst, hl]⟩
    · refine ⟨_, by simp [SState.ensure, lazyInit, hst, hl]; exact ⟨rfl, h.len⟩, ?_, by simp [lazyInit, hst, hl]⟩
      simp only [lazyInit, hst, hl, if_true]
      have := h.append (s.proms.set p (some { x with st := some s.ss.length }))
      simp only [h.proms, h.len]
      exact this

theorem inv_false {cfg strict} {w : Wait} (hw : ∀ c, w.start cfg c = c) :
    ∀ y c, CR strict y c → CR strict (if false = true then { y with valid := false } else y) (w.start cfg c) := by
  intro y c h
  rw [hw]
  exact h

theorem inv_get {cfg strict} (u : Bool) :
    ∀ y c, CR strict y c → CR strict (if (u && cfg.invAfter) = true then { y with valid := false } else y) ((Wait.get u).start cfg c) := by
  intro y c h
  obtain ⟨h1, h2, h3⟩ := h
  cases u
  · exact ⟨h1, h2, h3⟩
  · cases hi : cfg.invAfter
    · refine ⟨?_, h2, h3⟩
      simp [Wait.start, hi, h1]
    · refine ⟨?_, ?_, h3⟩
      · simp [Wait.start, hi]
      · intro hs
        exact h2 hs

theorem sim_call {cfg strict s σ} {t : Nat} {th : Th} {op : Op} {s' es} (h : R strict s σ) (ht : s.ts[t]? = some th)
    (hP : strict = true → Plain (.call t op)) (hs : call cfg s t th op = some (s', es)) : Follows (next cfg strict) (R strict s') σ es := by
  cases op with
  | pnew =>
    simp only [call] at hs
    split at hs <;> rename_i hl <;> cases hs
    · refine follows_one (σ' := { σ with proms := σ.proms ++ [some ⟨none, false⟩] }) (by simp [next, nextRet, hl]) ?_
      rw [h.proms]
      exact h.setProms _
    · refine follows_one (by simp only [next, nextRet, hl]; rfl) ?_
      have := h.append (s.proms ++ [some ⟨some s.ss.length, false⟩])
      simp only [h.proms, h.len]
      exact this
  | pdestroy p =>
    simp only [call, Option.bind_eq_some_iff] at hs
    obtain ⟨x, hx, hs⟩ := hs
    cases hst : x.st with
    | none =>
      rw [hst] at hs
      cases hs
      refine follows_one (σ' := { σ with proms := σ.proms.set p none }) (by simp [next, nextRet, h.lookupP, hx, hst, ofOption]) ?_
      rw [h.proms]
      exact h.setProms _
    | some i =>
      rw [hst] at hs
      simp only [Option.map_eq_some_iff] at hs
      obtain ⟨y, hy, hs⟩ := hs
      cases hs
      obtain ⟨c, hc, hcr⟩ := h.chan hy
      refine follows_one (σ' := { σ.setChan i c.abandon with proms := σ.proms.set p none })
        (by simp [next, nextRet, h.lookupP, hx, hst, hc, ofOption]) ?_
      have h' := h.store (i := i) y.abandon.2.1 (cr_abandon hcr)
      rw [h.proms]
      exact h'.setProms _
  | pmove p =>
    simp only [call, Option.map_eq_some_iff] at hs
    obtain ⟨x, hx, hs⟩ := hs
    cases hs
    refine follows_one (by simp only [next, nextRet, h.lookupP, hx, ofOption, Option.map_some]; rfl) ?_
    rw [h.proms]
    exact h.setProms _
  | passign p q =>
    have hst' : strict = false := by
      cases strict
      · rfl
      · exact (hP rfl).elim
    subst hst'
    simp only [call, Option.bind_eq_some_iff, Option.map_eq_some_iff] at hs
    obtain ⟨x, hx, y, hy, hs⟩ := hs
    cases hs
    refine follows_one (σ' := { σ with proms := (σ.proms.set p (some y)).set q (some ⟨none, false⟩) }) ?_ ?_
    · cases hst : x.st <;> simp [next, nextRet, h.lookupP, hx, hy, ofOption, hst]
    · rw [h.proms]
      exact h.setProms _
  | pswap p q =>
    simp only [call, Option.bind_eq_some_iff, Option.map_eq_some_iff] at hs
    obtain ⟨x, hx, y, hy, hs⟩ := hs
    cases hs
    refine follows_one (by simp only [next, nextRet, h.lookupP, hx, hy, ofOption, Option.bind_some, Option.map_some]; rfl) ?_
    rw [h.proms]
    exact h.setProms _
  | getFuture p =>
    simp only [call, Option.map_eq_some_iff] at hs
    obtain ⟨x, hx, hs⟩ := hs
    obtain ⟨a, ha, hR, hgot⟩ := sim_ensure (cfg := cfg) (p := p) (x := x) h
    cases hst : (lazyInit cfg s p x).2.st with
    | none =>
      rw [hst] at hs ha
      cases hs
      exact follows_one (σ' := a) (by simp [next, nextRet, h.lookupP, hx, ha, ofOption]) hR
    | some i =>
      rw [hst] at hs ha
      dsimp only at hs
      rw [hgot] at hs
      split at hs <;> rename_i hg <;> cases hs
      · exact follows_one (σ' := a) (by simp [next, nextRet, h.lookupP, hx, ha, ofOption, hg]) hR
      · refine follows_one (by simp only [next, nextRet, h.lookupP, hx, ha, ofOption, hg, Option.bind_some]; rfl) ?_
        have := hR.handles ((lazyInit cfg s p x).1.proms.set p (some ⟨some i, true⟩)) ((lazyInit cfg s p x).1.futs ++ [some ⟨some i, false⟩])
        simp only [hR.proms, hR.futs]
        exact this
  | set p m o =>
    simp only [call, Option.bind_eq_some_iff, Option.map_eq_some_iff] at hs
    obtain ⟨x, hx, r, hr, hs⟩ := hs
    cases hs
    exact sim_set h ht hx (fun hst => hP hst) hr
  | notify p =>
    simp only [call, Option.bind_eq_some_iff] at hs
    obtain ⟨x, hx, hs⟩ := hs
    cases hst : x.st with
    | none =>
      rw [hst] at hs
      cases hs
      exact follows_one (σ' := σ) (by simp [next, nextRet, h.lookupP, hx, hst, ofOption]) h
    | some i =>
      rw [hst] at hs
      simp only [Option.map_eq_some_iff] at hs
      obtain ⟨y, hy, hs⟩ := hs
      cases hs
      obtain ⟨c, hc, hcr⟩ := h.chan hy
      exact follows_one (σ' := σ.setChan i c.publish) (by simp [next, nextRet, h.lookupP, hx, hst, hc, ofOption])
        (h.store (i := i) _ (cr_finish hcr))
  | fconv f sh =>
    simp only [call, Option.map_eq_some_iff] at hs
    obtain ⟨x, hx, hs⟩ := hs
    cases hs
    refine follows_one (by simp only [next, nextRet, h.lookupF, hx, ofOption, Option.map_some]; rfl) ?_
    rw [h.futs]
    exact h.setFuts _
  | fassign f g =>
    simp only [call, Option.bind_eq_some_iff] at hs
    obtain ⟨x, hx, y, hy, hs⟩ := hs
    split at hs
    · cases hs
      refine follows_one (by simp only [next, nextRet, h.lookupF, hx, hy, ofOption, Option.bind_some, Option.map_some]; rfl) ?_
      rw [h.futs]
      exact h.setFuts _
    · cases hs
  | fcopy f =>
    simp only [call, Option.bind_eq_some_iff] at hs
    obtain ⟨x, hx, hs⟩ := hs
    split at hs
    · cases hs
      refine follows_one (by simp only [next, nextRet, h.lookupF, hx, ofOption, Option.map_some]; rfl) ?_
      rw [h.futs]
      exact h.setFuts _
    · cases hs
  | fdestroy f =>
    simp only [call, Option.map_eq_some_iff] at hs
    obtain ⟨x, hx, hs⟩ := hs
    cases hs
    refine follows_one (by simp only [next, nextRet, h.lookupF, hx, ofOption, Option.map_some]; rfl) ?_
    rw [h.futs]
    exact h.setFuts _
  | isReady f =>
    simp only [call, Option.bind_eq_some_iff] at hs
    obtain ⟨x, hx, hs⟩ := hs
    cases hst : x.st with
    | none =>
      rw [hst] at hs
      cases hs
      exact follows_one (σ' := σ) (by simp [next, nextRet, h.lookupF, hx, hst, ofOption]) h
    | some i =>
      rw [hst] at hs
      simp only [Option.map_eq_some_iff] at hs
      obtain ⟨y, hy, hs⟩ := hs
      cases hs
      obtain ⟨c, hc, hcr⟩ := h.chan hy
      refine follows_one (σ' := σ) ?_ h
      cases hsp : c.spoiled
      · simp [next, nextRet, h.lookupF, hx, hst, hc, ofOption, (hcr.good hsp).1]
      · simp [next, nextRet, h.lookupF, hx, hst, hc, ofOption, hsp]
  | hasValue f =>
    simp only [call, Option.bind_eq_some_iff] at hs
    obtain ⟨x, hx, hs⟩ := hs
    cases hst : x.st with
    | none =>
      rw [hst] at hs
      cases hs
      exact follows_one (σ' := σ) (by simp [next, nextRet, h.lookupF, hx, hst, ofOption]) h
    | some i =>
      rw [hst] at hs
      simp only [Option.map_eq_some_iff] at hs
      obtain ⟨y, hy, hs⟩ := hs
      cases hs
      obtain ⟨c, hc, hcr⟩ := h.chan hy
      refine follows_one (σ' := σ) ?_ h
      cases hsp : c.spoiled
      · have hg := hcr.good hsp
        have : (y.done && y.exc.isNone) = (c.ready && c.out.any (·.isValue)) := by
          obtain ⟨h1, h2, h3⟩ := hg
          rw [h1]
          rcases ho : c.out with _ | v | e <;> rw [ho] at h3
          · simp [h3]
          · simp [h3.1, Out.isValue]
          · simp [h3.1, Out.isValue]
        simp [next, nextRet, h.lookupF, hx, hst, hc, ofOption, this]
      · simp [next, nextRet, h.lookupF, hx, hst, hc, ofOption, hsp]
  | hasException f =>
    simp only [call, Option.bind_eq_some_iff] at hs
    obtain ⟨x, hx, hs⟩ := hs
    cases hst : x.st with
    | none =>
      rw [hst] at hs
      cases hs
      exact follows_one (σ' := σ) (by simp [next, nextRet, h.lookupF, hx, hst, ofOption]) h
    | some i =>
      rw [hst] at hs
      simp only [Option.map_eq_some_iff] at hs
      obtain ⟨y, hy, hs⟩ := hs
      cases hs
      obtain ⟨c, hc, hcr⟩ := h.chan hy
      refine follows_one (σ' := σ) ?_ h
      cases hsp : c.spoiled
      · have hg := hcr.good hsp
        have : (y.done && y.exc.isSome) = (c.ready && c.out.any (! ·.isValue)) := by
          obtain ⟨h1, h2, h3⟩ := hg
          rw [h1]
          rcases ho : c.out with _ | v | e <;> rw [ho] at h3
          · simp [h3]
          · simp [h3.1, Out.isValue]
          · simp [h3.1, Out.isValue]
        simp [next, nextRet, h.lookupF, hx, hst, hc, ofOption, this]
      · simp [next, nextRet, h.lookupF, hx, hst, hc, ofOption, hsp]
  | valid f =>
    simp only [call, Option.bind_eq_some_iff] at hs
    obtain ⟨x, hx, hs⟩ := hs
    cases hst : x.st with
    | none =>
      rw [hst] at hs
      cases hs
      exact follows_one (σ' := σ) (by simp [next, nextRet, h.lookupF, hx, hst, ofOption]) h
    | some i =>
      rw [hst] at hs
      simp only [Option.map_eq_some_iff] at hs
      obtain ⟨y, hy, hs⟩ := hs
      cases hs
      obtain ⟨c, hc, hcr⟩ := h.chan hy
      exact follows_one (σ' := σ) (by simp [next, nextRet, h.lookupF, hx, hst, hc, ofOption, hcr.used]) h
  | getF f =>
    simp only [call, Option.bind_eq_some_iff] at hs
    obtain ⟨x, hx, hs⟩ := hs
    cases hst : x.st with
    | none =>
      rw [hst] at hs
      cases hs
      exact follows_one (σ' := σ) (by simp [next, nextRet, Op.waits, h.lookupF, hx, hst, ofOption]) h
    | some i =>
      rw [hst] at hs
      exact sim_waitOp (w := .get (!x.shared)) h ht hx hst (Or.inr ⟨_, rfl, rfl⟩) (by simp) (inv_get _) hs
  | getOrF f sh d =>
    simp only [call, Option.bind_eq_some_iff] at hs
    obtain ⟨x, hx, hs⟩ := hs
    split at hs
    · cases hs
    cases hst : x.st with
    | none =>
      rw [hst] at hs
      cases hs
      exact follows_one (σ' := σ) (by simp [next, nextRet, Op.waits, h.lookupF, hx, hst, ofOption]) h
    | some i =>
      rw [hst] at hs
      refine sim_waitOp (w := .getOr (!sh) d) h ht hx hst (Or.inr ⟨_, rfl, rfl⟩) ?_ (inv_false (fun _ => rfl)) hs
      intro hst e
      have : sh = false := hP hst
      simp [this]
  | waitF f =>
    simp only [call, Option.bind_eq_some_iff] at hs
    obtain ⟨x, hx, hs⟩ := hs
    cases hst : x.st with
    | none =>
      rw [hst] at hs
      cases hs
      exact follows_one (σ' := σ) (by simp [next, nextRet, Op.waits, h.lookupF, hx, hst, ofOption]) h
    | some i =>
      rw [hst] at hs
      exact sim_waitOp (w := .wait) h ht hx hst (Or.inl rfl) (by simp) (inv_false (fun _ => rfl)) hs
  | timedF f =>
    simp only [call, Option.bind_eq_some_iff] at hs
    obtain ⟨x, hx, hs⟩ := hs
    cases hst : x.st with
    | none =>
      rw [hst] at hs
      cases hs
      exact follows_one (σ' := σ) (by simp [next, nextRet, Op.waits, h.lookupF, hx, hst, ofOption]) h
    | some i =>
      rw [hst] at hs
      exact sim_waitOp (w := .timed) h ht hx hst (Or.inl rfl) (by simp) (inv_false (fun _ => rfl)) hs
  | exit =>
    simp only [call, Option.some.injEq] at hs
    cases hs
    have hR : R strict { s with ts := s.ts.set t { th with exited := true } } { σ with ended := σ.ended.set t true } := by
      have hm : ∀ {β : Type} (f : Th → β), f { th with exited := true } = f th → (s.ts.set t { th with exited := true }).map f = s.ts.map f :=
        fun f hf => map_set_same f ht hf
      refine ⟨h.proms, h.futs, ?_, ?_, ?_, h.len, h.chans, h.noexit, h.noor, by simp [h.ended, List.map_set]⟩
      · exact h.pend.trans (hm _ rfl).symm
      · exact h.exits.trans (hm _ rfl).symm
      · exact h.libs.trans (hm _ rfl).symm
    refine follows_one (σ' := { σ with ended := σ.ended.set t true }) ?_ hR
    cases strict
    · rfl
    · have : σ.exits[t]?.getD [] = [] := by
        cases he : σ.exits[t]? with
        | none => rfl
        | some l => exact h.noexit rfl l (List.mem_of_getElem? he)
      simp only [next, nextRet, this]
      have : (σ.chans.mapIdx fun i c => if i ∈ ([] : List Nat) then c.publish else c) = σ.chans := by
        apply List.ext_getElem?
        intro n
        simp
      rw [this]
      rfl

theorem sim_recheck {cfg strict s σ} {t : Nat} {th : Th} {w : Wait} {i : Nat} {a : Bool} {s' es} (h : R strict s σ) (ht : s.ts[t]? = some th)
    (hpc : th.pc = .blocked w i a) (hs : recheck cfg s t th w i = some (s', es)) : Follows (next cfg strict) (R strict s') σ es := by
  simp only [recheck, Option.map_eq_some_iff] at hs
  obtain ⟨y, hy, hs⟩ := hs
  have hpend : pendOf th = some (w, i) := by simp [pendOf, hpc]
  have hw : strict = true → ∀ d, w ≠ .getOr false d := by
    rintro hst d rfl
    refine h.noor hst d i ?_
    rw [h.pend, List.mem_map]
    exact ⟨th, List.mem_of_getElem? ht, hpend⟩
  obtain ⟨c, hc, hcr⟩ := h.chan hy
  split at hs <;> rename_i hd <;> cases hs
  · obtain ⟨c', hj, hc'⟩ := cr_take (cfg := cfg) w hw hd hcr
    have hR := (h.store (i := i) false hc').thread (t := t) (th := th) (th' := { th with pc := .idle }) ht rfl rfl (by simp [pendOf])
    have hne : (y.take cfg w).2 ≠ .interrupted := by
      rcases w with u | ⟨_ | _, d⟩ | _ | _ <;> simp only [SS.take] <;> cases y.exc <;> cases y.res <;> simp <;> split <;> simp
    refine follows_one (σ' := { σ with pend := σ.pend.set t none, chans := σ.chans.set i c' }) ?_ hR
    simp only [next, h.pendAt ht, hpend, Option.bind_some, hc, hj, hne, if_false]
    rfl
  · exact h.thread' ht rfl rfl (by simp [pendOf, hpc])

theorem sim_step {cfg strict s σ l s' es} (hP : strict = true → Plain l) (h : R strict s σ) (hs : step cfg s l = some (s', es)) :
    Follows (next cfg strict) (R strict s') σ es := by
  cases l with
  | call t op =>
    simp only [step, Option.bind_eq_some_iff] at hs
    obtain ⟨th, ht, hs⟩ := hs
    split at hs
    · exact sim_call h ht hP hs
    · cases hs
  | resume t =>
    simp only [step, Option.bind_eq_some_iff] at hs
    obtain ⟨th, ht, hs⟩ := hs
    split at hs
    · rename_i hpc
      exact sim_recheck h ht hpc hs
    · cases hs
  | spurious t =>
    simp only [step, Option.bind_eq_some_iff] at hs
    obtain ⟨th, ht, hs⟩ := hs
    split at hs
    · rename_i hpc
      exact sim_recheck h ht hpc hs
    · cases hs
  | timeout t =>
    simp only [step, Option.bind_eq_some_iff] at hs
    obtain ⟨th, ht, hs⟩ := hs
    split at hs
    · rename_i i a hpc
      simp only [Option.map_eq_some_iff] at hs
      obtain ⟨y, hy, hs⟩ := hs
      cases hs
      obtain ⟨c, hc, hcr⟩ := h.chan hy
      have hpend : pendOf th = some (.timed, i) := by simp [pendOf, hpc]
      have hR := h.thread (th' := { th with pc := .idle }) ht rfl rfl (by simp [pendOf])
      refine follows_one (σ' := { σ with pend := σ.pend.set t none }) ?_ hR
      have hself : σ.chans.set i c = σ.chans := by
        apply List.ext_getElem?
        intro n
        rw [List.getElem?_set]
        split
        · rename_i hn; subst hn
          rw [hc, if_pos (List.getElem?_eq_some_iff.1 hc).1]
        · rfl
      have hj : judgeWait cfg strict c .timed (.bool y.done) = some c := by
        cases hsp : c.spoiled
        · simp [judgeWait, (hcr.good hsp).1]
        · simp [judgeWait, hsp]
      simp only [next, h.pendAt ht, hpend, Option.bind_some, hc, hj, SState.setChan, Option.map_some, hself]
      rfl
    · cases hs
  | interrupt t =>
    have hst' : strict = false := by
      cases strict
      · rfl
      · exact (hP rfl).elim
    subst hst'
    simp only [step, Option.bind_eq_some_iff] at hs
    obtain ⟨th, ht, hs⟩ := hs
    split at hs
    · rename_i w i a hpc
      cases hs
      have hpend : pendOf th = some (w, i) := by simp [pendOf, hpc]
      have hR := h.thread (th' := { th with pc := .idle }) ht rfl rfl (by simp [pendOf])
      refine follows_one (σ' := { σ with pend := σ.pend.set t none }) ?_ hR
      simp only [next, h.pendAt ht, hpend, Option.bind_some]
      rfl
    · cases hs
  | release t =>
    simp only [step, Option.bind_eq_some_iff] at hs
    obtain ⟨th, ht, hs⟩ := hs
    split at hs
    · cases hs
    · cases hs
      exact follows_one (σ' := σ) rfl (h.thread' ht rfl rfl rfl)
  | publish t =>
    simp only [step, Option.bind_eq_some_iff] at hs
    obtain ⟨th, ht, hs⟩ := hs
    split at hs
    · rename_i hend
      split at hs
      · cases hs
      · rename_i i rest hex
        simp only [Option.map_eq_some_iff] at hs
        obtain ⟨y, hy, hs⟩ := hs
        cases hs
        have hended : σ.ended[t]? = some true := by
          rw [h.ended, List.getElem?_map, ht]
          simp only [Bool.and_eq_true] at hend
          simp [hend.1]
        have hexits : σ.exits[t]? = some (i :: rest) := by rw [h.exits, List.getElem?_map, ht]; simp [hex]
        have hst' : strict = false := by
          cases strict
          · rfl
          · exact absurd (h.noexit rfl _ (List.mem_of_getElem? hexits)) (by simp)
        subst hst'
        obtain ⟨c, hc, hcr⟩ := h.chan hy
        have hR : R false { s with ts := s.ts.set t { th with atExit := rest } } { σ with exits := σ.exits.set t rest } := by
          refine ⟨h.proms, h.futs, ?_, ?_, ?_, h.len, h.chans, by simp, by simp,
            h.ended.trans (map_set_same (·.exited) (y := { th with atExit := rest }) ht rfl).symm⟩
          · dsimp only
            rw [map_set_same pendOf (y := { th with atExit := rest }) ht rfl]; exact h.pend
          · simp [h.exits, List.map_set]
          · dsimp only
            rw [map_set_same (·.lib) (y := { th with atExit := rest }) ht rfl]; exact h.libs
        refine follows_one (σ' := { σ.setChan i c.publish with exits := σ.exits.set t rest }) ?_ ?_
        · simp [next, hexits, hended, hc, ofOption]
        · exact hR.store (i := i) y.finish.2.1 (cr_finish hcr)
    · cases hs

end Verif.Future
