import Verif.Future.Lemmas
/-!
# Promises and futures: who is still waiting
-/

namespace Verif.Future

/-- A promise object refers to shared state `i`. -/
def Held (s : State) (i : Nat) : Prop := ∃ (p : Nat) (x : Prom), s.proms[p]? = some (some x) ∧ x.st = some i

/-- Some thread will publish shared state `i`. -/
def Queued (s : State) (i : Nat) : Prop := ∃ (t : Nat) (th : Th), s.ts[t]? = some th ∧ i ∈ th.atExit

/-- Every reference is to an existing shared state, and a sleeping thread's shared state is not done. -/
structure Wf (s : State) : Prop where
  proms : ∀ (p : Nat) x i, s.proms[p]? = some (some x) → x.st = some i → i < s.ss.length
  futs : ∀ (f : Nat) x i, s.futs[f]? = some (some x) → x.st = some i → i < s.ss.length
  pend : ∀ (t : Nat) th w i a, s.ts[t]? = some th → th.pc = .blocked w i a → i < s.ss.length
  sleep : ∀ (t : Nat) th w i x, s.ts[t]? = some th → th.pc = .blocked w i true → s.ss[i]? = some x → x.done = false
  exits : ∀ (t : Nat) th i, s.ts[t]? = some th → i ∈ th.atExit → i < s.ss.length

/-- Every shared state is done, or has a promise that has not given it an outcome, or will be published. -/
def Kept (s : State) : Prop :=
  ∀ (i : Nat) x, s.ss[i]? = some x → x.done = true ∨ (x.constructed = false ∧ Held s i) ∨ Queued s i

/-- Every thread was started by the library. -/
def AllLib (s : State) : Prop := ∀ (t : Nat) th, s.ts[t]? = some th → th.lib = true

theorem join_some {α : Type} {l : List (Option α)} {p : Nat} {x : α} (h : l[p]?.join = some x) : l[p]? = some (some x) := by
  cases hp : l[p]? with
  | none => rw [hp] at h; cases h
  | some y => rw [hp] at h; cases y <;> simp_all

theorem wakeAll_get {i t : Nat} {ts : List Th} {th' : Th} (h : (wakeAll i ts)[t]? = some th') :
    ∃ th, ts[t]? = some th ∧ th'.atExit = th.atExit ∧ (∀ w j a, th'.pc = .blocked w j a → ∃ a', th.pc = .blocked w j a' ∧
      (a = true → a' = true ∧ j ≠ i)) := by
  simp only [wakeAll, List.getElem?_map, Option.map_eq_some_iff] at h
  obtain ⟨th, ht, rfl⟩ := h
  refine ⟨th, ht, ?_, ?_⟩
  · split
    · split <;> rfl
    · rfl
  · intro w j a ha
    split at ha
    · rename_i w' j' a' hpc
      split at ha
      · cases ha
        exact ⟨a', hpc, by simp⟩
      · rename_i hne
        rw [hpc] at ha
        cases ha
        exact ⟨_, hpc, fun h => ⟨h, hne⟩⟩
    · rename_i hpc
      rw [hpc] at ha
      cases ha

/-- Storing in shared state `i`. -/
theorem Wf.store {s : State} {i : Nat} {x x' : SS} {fin : Bool} (h : Wf s) (hx : s.ss[i]? = some x) (hfin : x'.done = true → fin = true ∨ x.done = true) :
    Wf (s.store i x' fin) := by
  obtain ⟨h1, h2, h3, h4, h5⟩ := h
  have key : ∀ (t : Nat) th', (s.store i x' fin).ts[t]? = some th' → ∃ th, s.ts[t]? = some th ∧ th'.atExit = th.atExit ∧
      (∀ w j a, th'.pc = .blocked w j a → ∃ a', th.pc = .blocked w j a' ∧ (a = true → a' = true ∧ (fin = true → j ≠ i))) := by
    intro t th' ht
    cases fin
    · exact ⟨th', ht, rfl, fun w j a ha => ⟨a, ha, fun h => ⟨h, by simp⟩⟩⟩
    · obtain ⟨th, ha, hb, hc⟩ := wakeAll_get ht
      refine ⟨th, ha, hb, fun w j a h => ?_⟩
      obtain ⟨a', e1, e2⟩ := hc w j a h
      exact ⟨a', e1, fun h => ⟨(e2 h).1, fun _ => (e2 h).2⟩⟩
  refine ⟨?_, ?_, ?_, ?_, ?_⟩
  · intro p y j hp hy; simpa [State.store] using h1 p y j hp hy
  · intro p y j hp hy; simpa [State.store] using h2 p y j hp hy
  · intro t th' w j a ht hb
    obtain ⟨th, ha, -, hc⟩ := key t th' ht
    obtain ⟨a', e1, -⟩ := hc w j a hb
    simpa [State.store] using h3 t th w j a' ha e1
  · intro t th' w j y ht hb hy
    obtain ⟨th, ha, -, hc⟩ := key t th' ht
    obtain ⟨a', e1, e2⟩ := hc w j true hb
    obtain ⟨rfl, e3⟩ := e2 rfl
    simp only [State.store, List.getElem?_set] at hy
    split at hy
    · rename_i hij
      subst hij
      split at hy
      · cases hy
        cases hne : x'.done
        · rfl
        · rcases hfin hne with hf | hf
          · exact absurd rfl (e3 hf)
          · exact absurd (h4 t th w i x ha e1 hx) (by simp [hf])
      · cases hy
    · exact h4 t th w j y ha e1 hy
  · intro t th' j ht hj
    obtain ⟨th, ha, hb, -⟩ := key t th' ht
    rw [hb] at hj
    simpa [State.store] using h5 t th j ha hj

theorem Kept.store {s : State} {i : Nat} {x x' : SS} {fin : Bool} (h : Kept s) (hx : s.ss[i]? = some x)
    (hd : x.done = true → x'.done = true) (hc : x'.constructed = true → x.constructed = true ∨ x'.done = true) :
    Kept (s.store i x' fin) := by
  intro j y hy
  have hq : Queued s j → Queued (s.store i x' fin) j := by
    rintro ⟨t, th, ht, hm⟩
    cases fin
    · exact ⟨t, th, ht, hm⟩
    · refine ⟨t, _, by simp only [State.store, if_true, wakeAll, List.getElem?_map, ht]; rfl, ?_⟩
      show j ∈ (match th.pc with | .blocked w k _ => if k = i then { th with pc := .blocked w k false } else th | .idle => th).atExit
      split
      · split <;> exact hm
      · exact hm
  simp only [State.store, List.getElem?_set] at hy
  split at hy
  · rename_i hij
    subst hij
    split at hy
    · cases hy
      rcases h i x hx with h1 | ⟨h1, h2⟩ | h1
      · exact Or.inl (hd h1)
      · cases hcc : x'.constructed
        · exact Or.inr (Or.inl ⟨rfl, h2⟩)
        · rcases hc hcc with h3 | h3
          · rw [h1] at h3; cases h3
          · exact Or.inl h3
      · exact Or.inr (Or.inr (hq h1))
    · cases hy
  · rcases h j y hy with h1 | ⟨h1, h2⟩ | h1
    · exact Or.inl h1
    · exact Or.inr (Or.inl ⟨h1, h2⟩)
    · exact Or.inr (Or.inr (hq h1))

theorem Wf.thread {s : State} {t : Nat} {th' : Th} (h : Wf s) (he : ∀ i ∈ th'.atExit, i < s.ss.length)
    (hp : ∀ w i a, th'.pc = .blocked w i a → i < s.ss.length ∧ (a = true → ∀ x, s.ss[i]? = some x → x.done = false)) :
    Wf { s with ts := s.ts.set t th' } := by
  obtain ⟨h1, h2, h3, h4, h5⟩ := h
  refine ⟨h1, h2, ?_, ?_, ?_⟩
  · intro r th w i a hr hb
    simp only [List.getElem?_set] at hr
    split at hr
    · split at hr
      · cases hr; exact (hp w i a hb).1
      · cases hr
    · exact h3 r th w i a hr hb
  · intro r th w i x hr hb hx
    simp only [List.getElem?_set] at hr
    split at hr
    · split at hr
      · cases hr; exact (hp w i true hb).2 rfl x hx
      · cases hr
    · exact h4 r th w i x hr hb hx
  · intro r th i hr hb
    simp only [List.getElem?_set] at hr
    split at hr
    · split at hr
      · cases hr; exact he i hb
      · cases hr
    · exact h5 r th i hr hb

theorem Wf.idle {s : State} {t : Nat} {th th' : Th} (h : Wf s) (ht : s.ts[t]? = some th) (he : th'.atExit = th.atExit) (hp : th'.pc = .idle) :
    Wf { s with ts := s.ts.set t th' } :=
  h.thread (fun i hi => h.exits t th i ht (he ▸ hi)) (fun w i a hb => by rw [hp] at hb; cases hb)

theorem Wf.setProms {s : State} {P : List (Option Prom)} (h : Wf s) (hP : ∀ (p : Nat) x i, P[p]? = some (some x) → x.st = some i → i < s.ss.length) :
    Wf { s with proms := P } := ⟨hP, h.2, h.3, h.4, h.5⟩

theorem Wf.setFuts {s : State} {F : List (Option Fut)} (h : Wf s) (hF : ∀ (f : Nat) x i, F[f]? = some (some x) → x.st = some i → i < s.ss.length) :
    Wf { s with futs := F } := ⟨h.1, hF, h.3, h.4, h.5⟩

theorem Wf.append {s : State} (h : Wf s) : Wf { s with ss := s.ss ++ [{}] } := by
  obtain ⟨h1, h2, h3, h4, h5⟩ := h
  refine ⟨fun p x i a b => ?_, fun p x i a b => ?_, fun t th w i a b c => ?_, fun t th w i x a b c => ?_, fun t th i a b => ?_⟩
  · have := h1 p x i a b; simp; omega
  · have := h2 p x i a b; simp; omega
  · have := h3 t th w i a b c; simp; omega
  · have hl := h3 t th w i true a b
    rw [List.getElem?_append_left hl] at c
    exact h4 t th w i x a b c
  · have := h5 t th i a b; simp; omega

/-- Membership in a list with one element replaced. -/
theorem set_mem {α : Type} {l : List (Option α)} {p q : Nat} {x : α} {y : Option α} (h : (l.set p y)[q]? = some (some x)) :
    y = some x ∨ l[q]? = some (some x) := by
  simp only [List.getElem?_set] at h
  split at h
  · split at h
    · cases h; exact Or.inl rfl
    · cases h
  · exact Or.inr h

theorem snoc_mem {α : Type} {l : List (Option α)} {q : Nat} {x : α} {y : Option α} (h : (l ++ [y])[q]? = some (some x)) :
    y = some x ∨ l[q]? = some (some x) := by
  simp only [List.getElem?_append] at h
  split at h
  · exact Or.inr h
  · rw [List.getElem?_singleton] at h
    split at h
    · cases h; exact Or.inl rfl
    · cases h

/-- What the operations on a shared state do to `done`. -/
theorem setNow_done (x : SS) (o : Out) : ((x.setNow o).1.done = true → (x.setNow o).2.1 = true ∨ x.done = true) := by
  cases hd : x.done <;> simp [SS.setNow, hd]
theorem setLater_done (x : SS) (o : Out) : ((x.setLater o).1.done = true → (x.setLater o).2.1 = true ∨ x.done = true) := by
  intro h; right; revert h
  simp only [SS.setLater]; split <;> cases o <;> simp [SS.put]
theorem abandon_done (x : SS) : (x.abandon.1.done = true → x.abandon.2.1 = true ∨ x.done = true) := by
  simp only [SS.abandon]; split <;> simp
theorem take_done (cfg : Cfg) (x : SS) (w : Wait) : (x.take cfg w).1.done = x.done ∧ (x.take cfg w).1.constructed = x.constructed := by
  rcases w with u | ⟨_ | _, d⟩ | _ | _ <;> simp only [SS.take] <;> cases x.exc <;> cases x.res <;> simp

theorem Wf.lazyInit {cfg : Cfg} {s : State} {p : Nat} {x : Prom} (h : Wf s) : Wf (lazyInit cfg s p x).1 := by
  simp only [Verif.Future.lazyInit]
  split
  · exact h
  · split
    · refine Wf.setProms (s := { s with ss := s.ss ++ [{}] }) h.append ?_
      intro q y i hq hy
      rcases set_mem hq with hq | hq
      · cases hq; cases hy; simp
      · have := h.proms q y i hq hy; simp; omega
    · exact h

theorem Wf.waitOp {cfg s t th op i w c inv s' es} (h : Wf s) (ht : s.ts[t]? = some th) (hs : waitOp cfg s t th op i w c inv = some (s', es)) : Wf s' := by
  simp only [Verif.Future.waitOp, Option.map_eq_some_iff] at hs
  obtain ⟨y, hy, hs⟩ := hs
  have hlt := (List.getElem?_eq_some_iff.1 hy).1
  split at hs
  · cases hs; exact h
  · have hd : (if inv = true then { y with valid := false } else y).done = y.done := by split <;> rfl
    split at hs <;> rename_i hyd
    · cases hs
      exact h.store hy (fun _ => Or.inr hyd)
    · cases hs
      have h1 : Wf (s.store i (if inv = true then { y with valid := false } else y) false) := h.store hy (fun hh => Or.inr (hd ▸ hh))
      refine h1.thread (t := t) (th' := { th with pc := .blocked w i true }) (fun j hj => ?_) (fun w' j a hb => ?_)
      · simpa [State.store] using h.exits t th j ht hj
      · cases hb
        refine ⟨by simpa [State.store] using hlt, fun _ x hx => ?_⟩
        simp only [State.store, List.getElem?_set, hlt, if_true] at hx
        cases hx
        rw [hd]
        simpa using hyd

theorem Wf.setOp {cfg s t th p x m o s' r} (h : Wf s) (ht : s.ts[t]? = some th) (hs : setOp cfg s t th p x m o = some (s', r)) : Wf s' := by
  cases m with
  | now =>
    simp only [Verif.Future.setOp] at hs
    split at hs
    · cases hs; exact h.lazyInit
    · simp only [Option.map_eq_some_iff] at hs
      obtain ⟨y, hy, hs⟩ := hs
      cases hs
      exact h.lazyInit.store hy (setNow_done y o)
  | deferred =>
    simp only [Verif.Future.setOp] at hs
    split at hs
    · cases hs; exact h.lazyInit
    · simp only [Option.map_eq_some_iff] at hs
      obtain ⟨y, hy, hs⟩ := hs
      cases hs
      exact h.lazyInit.store hy (setLater_done y o)
  | atExit =>
    simp only [Verif.Future.setOp] at hs
    split at hs
    · cases hs; exact h
    · rename_i i _
      simp only [Option.map_eq_some_iff] at hs
      obtain ⟨y, hy, hs⟩ := hs
      have hlt := (List.getElem?_eq_some_iff.1 hy).1
      have h1 : Wf (s.store i (y.setLater o).1 (y.setLater o).2.1) := h.store hy (setLater_done y o)
      have hf : (y.setLater o).2.1 = false := by simp only [SS.setLater]; split <;> rfl
      cases hs
      split
      · refine h1.thread (fun j hj => ?_) (fun w j a hb => ?_)
        · rcases List.mem_append.1 hj with hj | hj
          · simpa [State.store] using h.exits t th j ht hj
          · simp only [List.mem_singleton] at hj
            subst hj
            simpa [State.store] using hlt
        · have ht' : (s.store i (y.setLater o).1 (y.setLater o).2.1).ts[t]? = some th := by rw [hf]; exact ht
          exact ⟨h1.pend t th w j a ht' hb, fun ha x hx => h1.sleep t th w j x ht' (ha ▸ hb) hx⟩
      · exact h1

theorem Wf.call {cfg s t th op s' es} (h : Wf s) (ht : s.ts[t]? = some th) (hpc : th.pc = .idle) (hs : call cfg s t th op = some (s', es)) : Wf s' := by
  cases op with
  | pnew =>
    simp only [Verif.Future.call] at hs
    split at hs <;> cases hs
    · refine h.setProms fun p x i hp hx => ?_
      rcases snoc_mem hp with hp | hp
      · cases hp; cases hx
      · exact h.proms p x i hp hx
    · refine Wf.setProms (s := { s with ss := s.ss ++ [{}] }) h.append fun p x i hp hx => ?_
      rcases snoc_mem hp with hp | hp
      · cases hp; cases hx; simp
      · have := h.proms p x i hp hx; simp; omega
  | pdestroy p =>
    simp only [Verif.Future.call, Option.bind_eq_some_iff] at hs
    obtain ⟨x, hx, hs⟩ := hs
    have key : ∀ s : State, Wf s → Wf (s.setProm p none) := by
      intro s h
      refine h.setProms fun q y i hq hy => ?_
      rcases set_mem hq with hq | hq
      · cases hq
      · exact h.proms q y i hq hy
    split at hs
    · cases hs; exact key _ h
    · simp only [Option.map_eq_some_iff] at hs
      obtain ⟨y, hy, hs⟩ := hs
      cases hs
      exact key _ (h.store hy (abandon_done y))
  | pmove p =>
    simp only [Verif.Future.call, Option.map_eq_some_iff] at hs
    obtain ⟨x, hx, hs⟩ := hs
    cases hs
    refine h.setProms fun q y i hq hy => ?_
    rcases snoc_mem hq with hq | hq
    · cases hq; exact h.proms p _ i (join_some hx) hy
    · rcases set_mem hq with hq | hq
      · cases hq; cases hy
      · exact h.proms q y i hq hy
  | passign p q =>
    simp only [Verif.Future.call, Option.bind_eq_some_iff, Option.map_eq_some_iff] at hs
    obtain ⟨x, hx, y, hy, hs⟩ := hs
    cases hs
    refine h.setProms fun r z i hr hz => ?_
    rcases set_mem hr with hr | hr
    · cases hr; cases hz
    · rcases set_mem hr with hr | hr
      · cases hr; exact h.proms q _ i (join_some hy) hz
      · exact h.proms r z i hr hz
  | pswap p q =>
    simp only [Verif.Future.call, Option.bind_eq_some_iff, Option.map_eq_some_iff] at hs
    obtain ⟨x, hx, y, hy, hs⟩ := hs
    cases hs
    refine h.setProms fun r z i hr hz => ?_
    rcases set_mem hr with hr | hr
    · cases hr; exact h.proms p _ i (join_some hx) hz
    · rcases set_mem hr with hr | hr
      · cases hr; exact h.proms q _ i (join_some hy) hz
      · exact h.proms r z i hr hz
  | getFuture p =>
    simp only [Verif.Future.call, Option.map_eq_some_iff] at hs
    obtain ⟨x, hx, hs⟩ := hs
    have hL := h.lazyInit (cfg := cfg) (p := p) (x := x)
    split at hs
    · cases hs; exact hL
    · rename_i i hi
      split at hs
      · cases hs; exact hL
      · cases hs
        have hlt : i < (Verif.Future.lazyInit cfg s p x).1.ss.length := by
          revert hi
          simp only [Verif.Future.lazyInit]
          split
          · rename_i j hj
            intro hi; rw [hj] at hi; cases hi; exact h.proms p x i (join_some hx) hj
          · split
            · intro hi; cases hi; simp
            · rename_i hn _; intro hi; rw [hn] at hi; cases hi
        have h1 : Wf ((Verif.Future.lazyInit cfg s p x).1.setProm p (some ⟨some i, true⟩)) := by
          refine hL.setProms fun q y j hq hy => ?_
          rcases set_mem hq with hq | hq
          · cases hq; cases hy; exact hlt
          · exact hL.proms q y j hq hy
        refine h1.setFuts fun q y j hq hy => ?_
        rcases snoc_mem hq with hq | hq
        · cases hq; cases hy; exact hlt
        · exact h1.futs q y j hq hy
  | set p m o =>
    simp only [Verif.Future.call, Option.bind_eq_some_iff, Option.map_eq_some_iff] at hs
    obtain ⟨x, hx, ⟨s1, r⟩, h1, hs⟩ := hs
    cases hs
    exact h.setOp ht h1
  | notify p =>
    simp only [Verif.Future.call, Option.bind_eq_some_iff] at hs
    obtain ⟨x, hx, hs⟩ := hs
    split at hs
    · cases hs; exact h
    · simp only [Option.map_eq_some_iff] at hs
      obtain ⟨y, hy, hs⟩ := hs
      cases hs
      exact h.store hy (fun _ => Or.inl rfl)
  | fconv f sh =>
    simp only [Verif.Future.call, Option.map_eq_some_iff] at hs
    obtain ⟨x, hx, hs⟩ := hs
    cases hs
    refine h.setFuts fun q y i hq hy => ?_
    rcases snoc_mem hq with hq | hq
    · cases hq; exact h.futs f x i (join_some hx) hy
    · rcases set_mem hq with hq | hq
      · cases hq; cases hy
      · exact h.futs q y i hq hy
  | fassign f g =>
    simp only [Verif.Future.call, Option.bind_eq_some_iff] at hs
    obtain ⟨x, hx, y, hy, hs⟩ := hs
    split at hs
    · cases hs
      refine h.setFuts fun r z i hr hz => ?_
      rcases set_mem hr with hr | hr
      · cases hr; cases hz
      · rcases set_mem hr with hr | hr
        · cases hr; exact h.futs g y i (join_some hy) hz
        · exact h.futs r z i hr hz
    · cases hs
  | fcopy f =>
    simp only [Verif.Future.call, Option.bind_eq_some_iff] at hs
    obtain ⟨x, hx, hs⟩ := hs
    split at hs
    · cases hs
      refine h.setFuts fun q y i hq hy => ?_
      rcases snoc_mem hq with hq | hq
      · cases hq; exact h.futs f _ i (join_some hx) hy
      · exact h.futs q y i hq hy
    · cases hs
  | fdestroy f =>
    simp only [Verif.Future.call, Option.map_eq_some_iff] at hs
    obtain ⟨x, hx, hs⟩ := hs
    cases hs
    refine h.setFuts fun q y i hq hy => ?_
    rcases set_mem hq with hq | hq
    · cases hq
    · exact h.futs q y i hq hy
  | isReady f | hasValue f | hasException f | valid f =>
    simp only [Verif.Future.call, Option.bind_eq_some_iff] at hs
    obtain ⟨x, hx, hs⟩ := hs
    split at hs
    · cases hs; exact h
    · simp only [Option.map_eq_some_iff] at hs
      obtain ⟨y, hy, hs⟩ := hs
      cases hs; exact h
  | getF f | waitF f | timedF f =>
    simp only [Verif.Future.call, Option.bind_eq_some_iff] at hs
    obtain ⟨x, hx, hs⟩ := hs
    split at hs
    · cases hs; exact h
    · exact h.waitOp ht hs
  | getOrF f sh d =>
    simp only [Verif.Future.call, Option.bind_eq_some_iff] at hs
    obtain ⟨x, hx, hs⟩ := hs
    split at hs
    · cases hs
    · split at hs
      · cases hs; exact h
      · exact h.waitOp ht hs
  | exit =>
    simp only [Verif.Future.call] at hs
    cases hs
    exact h.idle ht rfl hpc

theorem Wf.recheck {cfg s t th w i a s' es} (h : Wf s) (ht : s.ts[t]? = some th) (hpc : th.pc = .blocked w i a)
    (hs : recheck cfg s t th w i = some (s', es)) : Wf s' := by
  simp only [Verif.Future.recheck, Option.map_eq_some_iff] at hs
  obtain ⟨y, hy, hs⟩ := hs
  split at hs <;> rename_i hd <;> cases hs
  · exact (h.store hy (x' := (y.take cfg w).1) (fin := false) (fun hh => Or.inr hd)).idle (t := t) (th := th) (th' := { th with pc := .idle }) ht rfl rfl
  · refine h.thread (fun j hj => h.exits t th j ht hj) (fun w' j a' hb => ?_)
    cases hb
    refine ⟨h.pend t th w i a ht hpc, fun _ x hx => ?_⟩
    rw [hy] at hx; cases hx
    simpa using hd

theorem Wf.step {cfg s l s' es} (h : Wf s) (hs : step cfg s l = some (s', es)) : Wf s' := by
  cases l with
  | call t op =>
    simp only [Verif.Future.step, Option.bind_eq_some_iff] at hs
    obtain ⟨th, ht, hs⟩ := hs
    split at hs
    · rename_i hc; exact h.call ht hc.1 hs
    · cases hs
  | resume t | spurious t =>
    simp only [Verif.Future.step, Option.bind_eq_some_iff] at hs
    obtain ⟨th, ht, hs⟩ := hs
    split at hs
    · rename_i hpc; exact h.recheck ht hpc hs
    · cases hs
  | timeout t =>
    simp only [Verif.Future.step, Option.bind_eq_some_iff] at hs
    obtain ⟨th, ht, hs⟩ := hs
    split at hs
    · simp only [Option.map_eq_some_iff] at hs
      obtain ⟨y, hy, hs⟩ := hs
      cases hs
      exact h.idle ht rfl rfl
    · cases hs
  | interrupt t =>
    simp only [Verif.Future.step, Option.bind_eq_some_iff] at hs
    obtain ⟨th, ht, hs⟩ := hs
    split at hs
    · cases hs; exact h.idle ht rfl rfl
    · cases hs
  | release t =>
    simp only [Verif.Future.step, Option.bind_eq_some_iff] at hs
    obtain ⟨th, ht, hs⟩ := hs
    split at hs
    · cases hs
    · cases hs
      exact h.thread (fun i hi => h.exits t th i ht hi) (fun w i a hb => ⟨h.pend t th w i a ht hb, fun ha x hx => h.sleep t th w i x ht (ha ▸ hb) hx⟩)
  | publish t =>
    simp only [Verif.Future.step, Option.bind_eq_some_iff] at hs
    obtain ⟨th, ht, hs⟩ := hs
    split at hs
    · split at hs
      · cases hs
      · rename_i i rest hex
        simp only [Option.map_eq_some_iff] at hs
        obtain ⟨y, hy, hs⟩ := hs
        cases hs
        have h1 : Wf { s with ts := s.ts.set t { th with atExit := rest } } :=
          h.thread (fun j hj => h.exits t th j ht (by rw [hex]; exact List.mem_cons_of_mem _ hj))
            (fun w i a hb => ⟨h.pend t th w i a ht hb, fun ha x hx => h.sleep t th w i x ht (ha ▸ hb) hx⟩)
        exact h1.store hy (fun _ => Or.inl rfl)
    · cases hs

theorem Wf.init (libs : List Bool) : Wf (init libs) := by
  refine ⟨fun p x i hp => ?_, fun p x i hp => ?_, fun t th w i a ht hb => ?_, fun t th w i x ht hb => ?_, fun t th i ht hi => ?_⟩
  · simp [Verif.Future.init] at hp
  · simp [Verif.Future.init] at hp
  all_goals
    simp only [Verif.Future.init, List.getElem?_map, Option.map_eq_some_iff] at ht
    obtain ⟨b, -, rfl⟩ := ht
  · cases hb
  · cases hb
  · cases hi

/-! ## Every outcome arrives -/

theorem AllLib.wake {i : Nat} {s : State} {x' : SS} {fin : Bool} (h : AllLib s) : AllLib (s.store i x' fin) := by
  intro t th' ht
  cases fin
  · exact h t th' ht
  · simp only [State.store, if_true, wakeAll, List.getElem?_map, Option.map_eq_some_iff] at ht
    obtain ⟨th, ht, rfl⟩ := ht
    have := h t th ht
    split
    · split <;> exact this
    · exact this

theorem AllLib.thread {s : State} {t : Nat} {th' : Th} (h : AllLib s) (hl : th'.lib = true) : AllLib { s with ts := s.ts.set t th' } := by
  intro r th hr
  simp only [List.getElem?_set] at hr
  split at hr
  · split at hr
    · cases hr; exact hl
    · cases hr
  · exact h r th hr

theorem Kept.thread {s : State} {t : Nat} {th th' : Th} (h : Kept s) (ht : s.ts[t]? = some th) (he : th.atExit ⊆ th'.atExit) :
    Kept { s with ts := s.ts.set t th' } := by
  intro i x hx
  rcases h i x hx with h1 | h1 | ⟨r, tr, hr, hm⟩
  · exact Or.inl h1
  · exact Or.inr (Or.inl h1)
  · refine Or.inr (Or.inr ?_)
    by_cases hrt : t = r
    · subst hrt
      rw [ht] at hr; cases hr
      exact ⟨t, th', by simp [(List.getElem?_eq_some_iff.1 ht).1], he hm⟩
    · exact ⟨r, tr, by simp [hrt, hr], hm⟩

theorem Kept.proms {s s' : State} (h : Kept s) (hss : s'.ss = s.ss) (hts : s'.ts = s.ts) (hh : ∀ i, Held s i → Held s' i) : Kept s' := by
  intro i x hx
  rw [hss] at hx
  rcases h i x hx with h1 | ⟨h1, h2⟩ | h1
  · exact Or.inl h1
  · exact Or.inr (Or.inl ⟨h1, hh i h2⟩)
  · refine Or.inr (Or.inr ?_)
    obtain ⟨t, th, ht, hm⟩ := h1
    exact ⟨t, th, by rw [hts]; exact ht, hm⟩

/-- A new shared state that a promise refers to. -/
theorem Kept.append {s s' : State} (h : Kept s) (hss : s'.ss = s.ss ++ [({} : SS)]) (hts : s'.ts = s.ts) (hh : ∀ i, Held s i → Held s' i)
    (hn : Held s' s.ss.length) : Kept s' := by
  intro i x hx
  rw [hss, List.getElem?_append] at hx
  split at hx
  · rcases h i x hx with h1 | ⟨h1, h2⟩ | ⟨t, th, ht, hm⟩
    · exact Or.inl h1
    · exact Or.inr (Or.inl ⟨h1, hh i h2⟩)
    · exact Or.inr (Or.inr ⟨t, th, by rw [hts]; exact ht, hm⟩)
  · rw [List.getElem?_singleton] at hx
    split at hx
    · rename_i hge heq
      cases hx
      have : i = s.ss.length := by omega
      subst this
      exact Or.inr (Or.inl ⟨rfl, hn⟩)
    · cases hx

/-- Replacing one promise by another with the same shared state, or one that had none. -/
theorem held_set {s : State} {p : Nat} {x : Prom} {y : Option Prom} {i : Nat} (hx : s.proms[p]? = some (some x)) (hy : ∀ j, x.st = some j → ∃ z, y = some z ∧ z.st = some j)
    (h : Held s i) : Held { s with proms := s.proms.set p y } i := by
  obtain ⟨q, z, hq, hz⟩ := h
  by_cases hpq : p = q
  · subst hpq
    rw [hx] at hq; cases hq
    obtain ⟨w, rfl, hw⟩ := hy i hz
    exact ⟨p, w, by simp [(List.getElem?_eq_some_iff.1 hx).1], hw⟩
  · exact ⟨q, z, by simp [hpq, hq], hz⟩

theorem Kept.lazyInit {cfg : Cfg} {s : State} {p : Nat} {x : Prom} (h : Kept s) (hx : s.proms[p]? = some (some x)) : Kept (lazyInit cfg s p x).1 := by
  simp only [Verif.Future.lazyInit]
  split
  · exact h
  · rename_i hn
    split
    · refine h.append rfl rfl (fun i hi => held_set hx (fun j hj => ?_) hi) ?_
      · rw [hn] at hj; cases hj
      · exact ⟨p, { x with st := some s.ss.length }, by simp [(List.getElem?_eq_some_iff.1 hx).1], rfl⟩
    · exact h

theorem lazyInit_prom {cfg : Cfg} {s : State} {p : Nat} {x : Prom} (hx : s.proms[p]? = some (some x)) :
    (lazyInit cfg s p x).1.proms[p]? = some (some (lazyInit cfg s p x).2) := by
  simp only [lazyInit]
  split
  · exact hx
  · split
    · simp [(List.getElem?_eq_some_iff.1 hx).1]
    · exact hx

theorem AllLib.congr {s s' : State} (h : AllLib s) (hts : s'.ts = s.ts) : AllLib s' := by
  intro t th ht; rw [hts] at ht; exact h t th ht

theorem lazyInit_ts {cfg : Cfg} {s : State} {p : Nat} {x : Prom} : (lazyInit cfg s p x).1.ts = s.ts := by
  simp only [lazyInit]; split
  · rfl
  · split <;> rfl

/-- The steps after which every outcome arrives: no assignment to a promise, and no `set_*_deferred`. -/
def Sure : L → Prop
  | .call _ (.set _ m _) => m ≠ .deferred
  | .call _ (.passign _ _) => False
  | _ => True

theorem setNow_keep (y : SS) (o : Out) : (y.setNow o).1.done = true := by
  cases hd : y.done <;> simp [SS.setNow, hd]

theorem Kept.waitOp {cfg s t th op i w c inv s' es} (h : Kept s) (hl : AllLib s) (ht : s.ts[t]? = some th)
    (hs : waitOp cfg s t th op i w c inv = some (s', es)) : Kept s' ∧ AllLib s' := by
  simp only [Verif.Future.waitOp, Option.map_eq_some_iff] at hs
  obtain ⟨y, hy, hs⟩ := hs
  split at hs
  · cases hs; exact ⟨h, hl⟩
  · have hd : (if inv = true then { y with valid := false } else y).done = y.done := by split <;> rfl
    have hc : (if inv = true then { y with valid := false } else y).constructed = y.constructed := by split <;> rfl
    split at hs <;> rename_i hyd <;> cases hs
    · refine ⟨h.store hy (fun hh => ?_) (fun hh => ?_), hl.wake⟩
      · rw [(take_done _ _ _).1, hd]; exact hh
      · rw [(take_done _ _ _).2, hc] at hh; exact Or.inl hh
    · have h1 : Kept (s.store i (if inv = true then { y with valid := false } else y) false) :=
        h.store hy (fun hh => by rw [hd]; exact hh) (fun hh => Or.inl (hc ▸ hh))
      have h2 : AllLib (s.store i (if inv = true then { y with valid := false } else y) false) := hl.wake
      exact ⟨h1.thread (t := t) (th := th) (th' := { th with pc := .blocked w i true }) ht (List.Subset.refl _), h2.thread (hl t th ht)⟩

theorem Kept.call {cfg s t th op s' es} (h : Kept s) (hl : AllLib s) (ht : s.ts[t]? = some th) (hS : Sure (.call t op))
    (hs : call cfg s t th op = some (s', es)) : Kept s' ∧ AllLib s' := by
  cases op with
  | pnew =>
    have hmono : ∀ (P : Option Prom) (ss : List SS) i, Held s i → Held { s with ss := ss, proms := s.proms ++ [P] } i := by
      rintro P ss i ⟨p, x, hp, hx⟩
      exact ⟨p, x, by simp [List.getElem?_append_left (List.getElem?_eq_some_iff.1 hp).1, hp], hx⟩
    simp only [Verif.Future.call] at hs
    split at hs <;> cases hs
    · exact ⟨h.proms rfl rfl (hmono _ _), hl⟩
    · exact ⟨h.append rfl rfl (hmono _ _) ⟨s.proms.length, ⟨some s.ss.length, false⟩, by simp, rfl⟩, hl⟩
  | pdestroy p =>
    simp only [Verif.Future.call, Option.bind_eq_some_iff] at hs
    obtain ⟨x, hx, hs⟩ := hs
    split at hs <;> rename_i hst
    · cases hs
      exact ⟨h.proms rfl rfl (fun i hi => held_set (join_some hx) (fun j hj => by rw [hst] at hj; cases hj) hi), hl⟩
    · rename_i i
      simp only [Option.map_eq_some_iff] at hs
      obtain ⟨y, hy, hs⟩ := hs
      cases hs
      refine ⟨?_, AllLib.wake (x' := y.abandon.1) hl⟩
      have hk : Kept (s.store i y.abandon.1 y.abandon.2.1) := by
        refine h.store hy ?_ ?_
        · simp only [SS.abandon]; split <;> simp
        · simp only [SS.abandon]; split
          · simp
          · intro hh; exact Or.inl hh
      intro j z hz
      have hz' : (s.store i y.abandon.1 y.abandon.2.1).ss[j]? = some z := hz
      rcases hk j z hz' with h1 | ⟨h1, q, w, hq, hw⟩ | h1
      · exact Or.inl h1
      · by_cases hij : i = j
        · subst hij
          simp only [State.store, List.getElem?_set, (List.getElem?_eq_some_iff.1 hy).1, if_true] at hz'
          cases hz'
          left
          revert h1
          simp only [SS.abandon]
          split
          · simp
          · rename_i hn
            intro hc
            have hc : y.constructed = false := hc
            show y.done = true
            cases hyd : y.done
            · simp [hc, hyd] at hn
            · rfl
        · refine Or.inr (Or.inl ⟨h1, q, w, ?_, hw⟩)
          have hpq : p ≠ q := by
            rintro rfl
            have : s.proms[p]? = some (some w) := hq
            rw [join_some hx] at this
            cases this
            rw [hst] at hw
            cases hw
            exact hij rfl
          simp only [State.setProm, List.getElem?_set, hpq, if_false]
          exact hq
      · exact Or.inr (Or.inr h1)
  | pmove p =>
    simp only [Verif.Future.call, Option.map_eq_some_iff] at hs
    obtain ⟨x, hx, hs⟩ := hs
    cases hs
    refine ⟨h.proms rfl rfl ?_, hl⟩
    rintro i ⟨q, z, hq, hz⟩
    by_cases hpq : p = q
    · subst hpq
      rw [join_some hx] at hq; cases hq
      exact ⟨s.proms.length, _, by simp, hz⟩
    · have := (List.getElem?_eq_some_iff.1 hq).1
      exact ⟨q, z, by rw [List.getElem?_append_left (by simpa using this)]; simp [hpq, hq], hz⟩
  | passign p q => exact hS.elim
  | pswap p q =>
    simp only [Verif.Future.call, Option.bind_eq_some_iff, Option.map_eq_some_iff] at hs
    obtain ⟨x, hx, y, hy, hs⟩ := hs
    cases hs
    refine ⟨h.proms rfl rfl ?_, hl⟩
    rintro i ⟨r, z, hr, hz⟩
    have hpl := (List.getElem?_eq_some_iff.1 (join_some hx)).1
    have hql := (List.getElem?_eq_some_iff.1 (join_some hy)).1
    by_cases hpr : p = r
    · subst hpr
      rw [join_some hx] at hr; cases hr
      exact ⟨q, _, by simp [State.setProm, hql], hz⟩
    · by_cases hqr : q = r
      · subst hqr
        rw [join_some hy] at hr; cases hr
        exact ⟨p, _, by simp [State.setProm, hpl, Ne.symm hpr], hz⟩
      · exact ⟨r, z, by simp [State.setProm, hpr, hqr, hr], hz⟩
  | getFuture p =>
    simp only [Verif.Future.call, Option.map_eq_some_iff] at hs
    obtain ⟨x, hx, hs⟩ := hs
    have hL := h.lazyInit (cfg := cfg) (join_some hx)
    have hLl : AllLib (Verif.Future.lazyInit cfg s p x).1 := hl.congr lazyInit_ts
    split at hs
    · cases hs; exact ⟨hL, hLl⟩
    · rename_i i hi
      split at hs <;> cases hs
      · exact ⟨hL, hLl⟩
      · refine ⟨hL.proms rfl rfl fun j hj => ?_, hLl⟩
        exact held_set (y := some ⟨some i, true⟩) (lazyInit_prom (join_some hx)) (fun k hk => by rw [hi] at hk; cases hk; exact ⟨_, rfl, rfl⟩) hj
  | set p m o =>
    simp only [Verif.Future.call, Option.bind_eq_some_iff, Option.map_eq_some_iff] at hs
    obtain ⟨x, hx, ⟨s1, r⟩, h1, hs⟩ := hs
    cases hs
    cases m with
    | now =>
      simp only [Verif.Future.setOp] at h1
      have hL := h.lazyInit (cfg := cfg) (join_some hx)
      have hLl : AllLib (Verif.Future.lazyInit cfg s p x).1 := hl.congr lazyInit_ts
      split at h1
      · cases h1; exact ⟨hL, hLl⟩
      · simp only [Option.map_eq_some_iff] at h1
        obtain ⟨y, hy, h1⟩ := h1
        cases h1
        exact ⟨hL.store hy (fun _ => setNow_keep y o) (fun _ => Or.inr (setNow_keep y o)), hLl.wake⟩
    | deferred => exact (hS rfl).elim
    | atExit =>
      simp only [Verif.Future.setOp] at h1
      split at h1
      · cases h1; exact ⟨h, hl⟩
      · rename_i i _
        simp only [Option.map_eq_some_iff] at h1
        obtain ⟨y, hy, h1⟩ := h1
        have hlt := (List.getElem?_eq_some_iff.1 ht).1
        have htl := hl t th ht
        cases h1
        by_cases hd : (y.done && y.exc.isNone) = true
        · have e : y.setLater o = (y, false, .satisfied) := by simp only [SS.setLater]; rw [if_pos hd]
          simp only [e, reduceCtorEq, false_and, if_false]
          exact ⟨h.store hy (fun h => h) (fun h => Or.inl h), hl.wake⟩
        · have e : y.setLater o = ({ y.put o with constructed := true }, false, .ok) := by simp only [SS.setLater]; rw [if_neg hd]
          rw [e, if_pos ⟨rfl, htl⟩]
          refine ⟨?_, AllLib.thread (th' := { th with atExit := th.atExit ++ [i] }) (AllLib.wake hl) htl⟩
          intro j z hz
          simp only [State.store] at hz
          have hQ : ∀ k, k = i ∨ Queued s k → Queued { s.store i { y.put o with constructed := true } false with
              ts := s.ts.set t { th with atExit := th.atExit ++ [i] } } k := by
            rintro k (rfl | ⟨r, tr, hr, hm⟩)
            · exact ⟨t, { th with atExit := th.atExit ++ [k] }, by simp [hlt], by simp⟩
            · by_cases hrt : t = r
              · subst hrt
                rw [ht] at hr; cases hr
                exact ⟨t, { th with atExit := th.atExit ++ [i] }, by simp [hlt], by simp [hm]⟩
              · exact ⟨r, tr, by simp [hrt, hr], hm⟩
          simp only [List.getElem?_set] at hz
          split at hz
          · rename_i hij
            subst hij
            exact Or.inr (Or.inr (hQ i (Or.inl rfl)))
          · rcases h j z hz with h1 | h1 | h1
            · exact Or.inl h1
            · exact Or.inr (Or.inl h1)
            · exact Or.inr (Or.inr (hQ j (Or.inr h1)))
  | notify p =>
    simp only [Verif.Future.call, Option.bind_eq_some_iff] at hs
    obtain ⟨x, hx, hs⟩ := hs
    split at hs
    · cases hs; exact ⟨h, hl⟩
    · simp only [Option.map_eq_some_iff] at hs
      obtain ⟨y, hy, hs⟩ := hs
      cases hs
      exact ⟨h.store hy (fun _ => rfl) (fun _ => Or.inr rfl), hl.wake⟩
  | fconv f sh =>
    simp only [Verif.Future.call, Option.map_eq_some_iff] at hs
    obtain ⟨x, hx, hs⟩ := hs
    cases hs
    exact ⟨h.proms rfl rfl (fun _ hh => hh), hl⟩
  | fassign f g =>
    simp only [Verif.Future.call, Option.bind_eq_some_iff] at hs
    obtain ⟨x, hx, y, hy, hs⟩ := hs
    split at hs
    · cases hs
      exact ⟨h.proms rfl rfl (fun _ hh => hh), hl⟩
    · cases hs
  | fcopy f =>
    simp only [Verif.Future.call, Option.bind_eq_some_iff] at hs
    obtain ⟨x, hx, hs⟩ := hs
    split at hs
    · cases hs
      exact ⟨h.proms rfl rfl (fun _ hh => hh), hl⟩
    · cases hs
  | fdestroy f =>
    simp only [Verif.Future.call, Option.map_eq_some_iff] at hs
    obtain ⟨x, hx, hs⟩ := hs
    cases hs
    exact ⟨h.proms rfl rfl (fun _ hh => hh), hl⟩
  | isReady f | hasValue f | hasException f | valid f =>
    simp only [Verif.Future.call, Option.bind_eq_some_iff] at hs
    obtain ⟨x, hx, hs⟩ := hs
    split at hs
    · cases hs; exact ⟨h, hl⟩
    · simp only [Option.map_eq_some_iff] at hs
      obtain ⟨y, hy, hs⟩ := hs
      cases hs; exact ⟨h, hl⟩
  | getF f | waitF f | timedF f =>
    simp only [Verif.Future.call, Option.bind_eq_some_iff] at hs
    obtain ⟨x, hx, hs⟩ := hs
    split at hs
    · cases hs; exact ⟨h, hl⟩
    · exact h.waitOp hl ht hs
  | getOrF f sh d =>
    simp only [Verif.Future.call, Option.bind_eq_some_iff] at hs
    obtain ⟨x, hx, hs⟩ := hs
    split at hs
    · cases hs
    · split at hs
      · cases hs; exact ⟨h, hl⟩
      · exact h.waitOp hl ht hs
  | exit =>
    simp only [Verif.Future.call] at hs
    cases hs
    exact ⟨h.thread ht (List.Subset.refl _), hl.thread (hl t th ht)⟩

theorem Kept.recheck {cfg s t th w i s' es} (h : Kept s) (hl : AllLib s) (ht : s.ts[t]? = some th)
    (hs : recheck cfg s t th w i = some (s', es)) : Kept s' ∧ AllLib s' := by
  simp only [Verif.Future.recheck, Option.map_eq_some_iff] at hs
  obtain ⟨y, hy, hs⟩ := hs
  split at hs <;> rename_i hd <;> cases hs
  · have h1 : Kept (s.store i (y.take cfg w).1 false) :=
      h.store hy (fun hh => by rw [(take_done _ _ _).1]; exact hh) (fun hh => Or.inl (by rw [(take_done _ _ _).2] at hh; exact hh))
    exact ⟨h1.thread (t := t) (th := th) (th' := { th with pc := .idle }) ht (List.Subset.refl _), AllLib.thread (AllLib.wake (fin := false) hl) (hl t th ht)⟩
  · exact ⟨h.thread ht (List.Subset.refl _), hl.thread (hl t th ht)⟩

theorem Kept.step {cfg s l s' es} (h : Kept s) (hl : AllLib s) (hS : Sure l) (hs : step cfg s l = some (s', es)) : Kept s' ∧ AllLib s' := by
  cases l with
  | call t op =>
    simp only [Verif.Future.step, Option.bind_eq_some_iff] at hs
    obtain ⟨th, ht, hs⟩ := hs
    split at hs
    · exact h.call hl ht hS hs
    · cases hs
  | resume t | spurious t =>
    simp only [Verif.Future.step, Option.bind_eq_some_iff] at hs
    obtain ⟨th, ht, hs⟩ := hs
    split at hs
    · exact h.recheck hl ht hs
    · cases hs
  | timeout t =>
    simp only [Verif.Future.step, Option.bind_eq_some_iff] at hs
    obtain ⟨th, ht, hs⟩ := hs
    split at hs
    · simp only [Option.map_eq_some_iff] at hs
      obtain ⟨y, hy, hs⟩ := hs
      cases hs
      exact ⟨h.thread ht (List.Subset.refl _), hl.thread (hl t th ht)⟩
    · cases hs
  | interrupt t =>
    simp only [Verif.Future.step, Option.bind_eq_some_iff] at hs
    obtain ⟨th, ht, hs⟩ := hs
    split at hs
    · cases hs; exact ⟨h.thread ht (List.Subset.refl _), hl.thread (hl t th ht)⟩
    · cases hs
  | release t =>
    simp only [Verif.Future.step, Option.bind_eq_some_iff] at hs
    obtain ⟨th, ht, hs⟩ := hs
    split at hs
    · cases hs
    · cases hs
      exact ⟨h.thread ht (List.Subset.refl _), hl.thread (hl t th ht)⟩
  | publish t =>
    simp only [Verif.Future.step, Option.bind_eq_some_iff] at hs
    obtain ⟨th, ht, hs⟩ := hs
    split at hs
    · split at hs
      · cases hs
      · rename_i i rest hex
        simp only [Option.map_eq_some_iff] at hs
        obtain ⟨y, hy, hs⟩ := hs
        cases hs
        refine ⟨?_, AllLib.wake (AllLib.thread hl (hl t th ht))⟩
        intro j z hz
        simp only [State.store, List.getElem?_set] at hz
        split at hz
        · split at hz
          · cases hz; exact Or.inl rfl
          · cases hz
        · rename_i hij
          rcases h j z hz with h1 | h1 | ⟨r, tr, hr, hm⟩
          · exact Or.inl h1
          · exact Or.inr (Or.inl h1)
          · refine Or.inr (Or.inr ?_)
            have hQ : Queued { s with ts := s.ts.set t { th with atExit := rest } } j := by
              by_cases hrt : t = r
              · subst hrt
                rw [ht] at hr; cases hr
                rw [hex] at hm
                rcases List.mem_cons.1 hm with rfl | hm
                · exact absurd rfl hij
                · exact ⟨t, { th with atExit := rest }, by simp [(List.getElem?_eq_some_iff.1 ht).1], hm⟩
              · exact ⟨r, tr, by simp [hrt, hr], hm⟩
            obtain ⟨r, tr, hr, hm⟩ := hQ
            refine ⟨r, _, by simp only [State.store, SS.finish, if_true, wakeAll, List.getElem?_map, hr]; rfl, ?_⟩
            show j ∈ (match tr.pc with | .blocked w k _ => if k = i then { tr with pc := .blocked w k false } else tr | .idle => tr).atExit
            split
            · split <;> exact hm
            · exact hm
    · cases hs

theorem Kept.init (libs : List Bool) : Kept (init libs) := by
  intro i x hx; simp [Verif.Future.init] at hx

theorem AllLib.init {libs : List Bool} (h : ∀ b ∈ libs, b = true) : AllLib (init libs) := by
  intro t th ht
  simp only [Verif.Future.init, List.getElem?_map, Option.map_eq_some_iff] at ht
  obtain ⟨b, hb, rfl⟩ := ht
  exact h b (List.mem_of_getElem? hb)

end Verif.Future
