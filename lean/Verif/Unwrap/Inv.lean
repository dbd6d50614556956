import Verif.Unwrap.Model
/-!
# Invariant of the model of `unwrap`

Every state made by `unwrap` that is not ready waits in exactly one place (`loc`): in the list of continuations of the state it waits for, or on the stack of a thread that is about to
launch it.
-/

set_option linter.unusedSimpArgs false
set_option linter.unusedVariables false

namespace Verif.Unwrap

inductive Loc where
  | conts (i : Nat)
  | thr (t : Nat)
  | nowhere
deriving DecidableEq

def Frame.items : Frame → List Nat
  | .fn i => [i]
  | .launch l _ => l
  | .hook c _ => [c]
  | .wait _ => []

def items (l : List Frame) : List Nat := l.flatMap Frame.items

@[simp] theorem items_nil : items [] = [] := rfl
@[simp] theorem items_cons (f : Frame) (l : List Frame) : items (f :: l) = f.items ++ items l := rfl

theorem mem_items {f : Frame} {l : List Frame} {c : Nat} (h : f ∈ l) (hc : c ∈ f.items) : c ∈ items l := by
  simp only [items, List.mem_flatMap]; exact ⟨f, h, hc⟩

/-- `c` may be launched. -/
def Ready (s : State) (c : Nat) : Prop :=
  ∃ w, (s.node c).kind = .unwrap w ∧ ((s.node c).inner = none → (s.node w).out ≠ none) ∧ ∀ j, (s.node c).inner = some j → (s.node j).out ≠ none

def FrameOk (s : State) : Frame → Prop
  | .fn _ => True
  | .launch l w => (∀ c ∈ l, Ready s c) ∧ ∀ u, w = .unwrap u → u < s.n
  | .hook c j => (s.node c).inner = some j
  | .wait i => i < s.n

def Typed (s : State) (i : Nat) : Out → Prop
  | .num _ => (s.node i).depth = 0
  | .fut none => (s.node i).depth ≠ 0
  | .fut (some j) => j < s.n ∧ (s.node i).depth = (s.node j).depth + 1
  | _ => True

/-- `c` has a place of its own: it is made by `unwrap`, or its function runs, and it is not ready. -/
def Active (s : State) (c : Nat) : Prop := (s.node c).out = none ∧ ((∃ w, (s.node c).kind = .unwrap w) ∨ (s.node c).kind = .deferred ∧ (s.node c).deferred = false)

structure Inv (s : State) (es : List Event) (loc : Nat → Loc) : Prop where
  fresh : ∀ i, s.n ≤ i → s.node i = {}
  heldlt : ∀ i, s.held i = true → i < s.n
  kindU : ∀ i w, (s.node i).kind = .unwrap w → w < s.n ∧ (s.node w).depth = (s.node i).depth + 1
  typ : ∀ i o, (s.node i).out = some o → Typed s i o
  inner : ∀ c j, (s.node c).inner = some j → ∃ w, (s.node c).kind = .unwrap w ∧ (s.node w).out = some (.fut (some j))
  def1 : ∀ i, (s.node i).deferred = true → (s.node i).kind = .deferred ∧ (s.node i).out = none
  unw : ∀ u w, Unwraps es u w ↔ (s.node u).kind = .unwrap w
  del : ∀ i o, Delivered es i o ↔ (s.node i).out = some o ∧ ∀ w, (s.node i).kind ≠ .unwrap w
  sound : ∀ i o, (s.node i).out = some o → Resolves es i o
  locC : ∀ c i, c ∈ (s.node i).conts ↔ loc c = .conts i
  locT : ∀ c t, c ∈ items (s.stk t) ↔ loc c = .thr t
  nodC : ∀ i, (s.node i).conts.Nodup
  nodT : ∀ t, (items (s.stk t)).Nodup
  tok : ∀ c, loc c ≠ .nowhere ↔ Active s c
  cReady : ∀ c i, c ∈ (s.node i).conts → (s.node i).out = none ∧ ∃ w, (s.node c).kind = .unwrap w ∧ ((s.node c).inner = none ∧ i = w ∨ (s.node c).inner = some i)
  frames : ∀ t f, f ∈ s.stk t → FrameOk s f

theorem Inv.init : Inv init [] (fun _ => .nowhere) := by
  constructor <;> simp [Unwrap.init, Unwraps, Delivered, Active]

/-- Events that say nothing about what futures stand for. -/
def Event.silent : Event → Bool
  | .unwraps .. => false
  | .sets .. => false
  | .ended .. => false
  | _ => true

theorem unwraps_silent {es e : List Event} (he : ∀ x ∈ e, x.silent = true) (u w : Nat) : Unwraps (es ++ e) u w ↔ Unwraps es u w := by
  constructor
  · rintro ⟨t, h⟩
    rcases List.mem_append.1 h with h | h
    · exact ⟨t, h⟩
    · simpa [Event.silent] using he _ h
  · rintro ⟨t, h⟩; exact ⟨t, by simp [h]⟩

theorem delivered_silent {es e : List Event} (he : ∀ x ∈ e, x.silent = true) (i : Nat) (o : Out) : Delivered (es ++ e) i o ↔ Delivered es i o := by
  constructor
  · rintro ⟨t, h⟩
    refine ⟨t, ?_⟩
    rcases h with h | h <;> rcases List.mem_append.1 h with h | h
    · exact .inl h
    · simpa [Event.silent] using he _ h
    · exact .inr h
    · simpa [Event.silent] using he _ h
  · rintro ⟨t, h⟩; exact ⟨t, h.imp (by simp +contextual) (by simp +contextual)⟩

/-- Silent steps leave the part of the invariant about the history alone. -/
theorem Inv.silent {s es loc} (h : Inv s es loc) {e : List Event} (he : ∀ x ∈ e, x.silent = true) : Inv s (es ++ e) loc :=
  { h with
    unw := fun u w => (unwraps_silent he u w).trans (h.unw u w)
    del := fun i o => (delivered_silent he i o).trans (h.del i o)
    sound := fun i o ho => (h.sound i o ho).append _ }

theorem Typed.mono {s s' : State} {i : Nat} {o : Out} (h : Typed s i o) (hn : s.n ≤ s'.n) (hi : (s'.node i).depth = (s.node i).depth)
    (hd : ∀ j, j < s.n → (s'.node j).depth = (s.node j).depth) : Typed s' i o := by
  cases o with
  | fut j =>
    cases j with
    | none => simpa [Typed, hi] using h
    | some j => simp only [Typed] at h ⊢; rw [hi, hd j h.1]; exact ⟨by omega, h.2⟩
  | num v => simpa [Typed, hi] using h
  | exc => trivial
  | uninit => trivial

theorem FrameOk.mono {s s' : State} {f : Frame} (h : FrameOk s f) (hn : s.n ≤ s'.n) (hi : ∀ c ∈ f.items, (s'.node c).inner = (s.node c).inner)
    (hk : ∀ c ∈ f.items, (s'.node c).kind = (s.node c).kind) (ho : ∀ c, (s.node c).out ≠ none → (s'.node c).out ≠ none) : FrameOk s' f := by
  cases f with
  | fn => trivial
  | launch l w =>
    refine ⟨fun c hc => ?_, fun u hu => by have := h.2 u hu; omega⟩
    obtain ⟨w, h1, h2, h3⟩ := h.1 c hc
    refine ⟨w, by rw [hk c hc]; exact h1, fun h' => ho _ (h2 (by rw [← hi c hc]; exact h')), fun j h' => ho _ (h3 j (by rw [← hi c hc]; exact h'))⟩
  | hook c j => simp only [FrameOk] at h ⊢; rw [hi c (by simp [Frame.items])]; exact h
  | wait i => simp only [FrameOk] at h ⊢; omega

/-- Changing who holds a future. -/
theorem Inv.hold {s es loc} (h : Inv s es loc) {g : Nat → Bool} (hg : ∀ i, g i = true → i < s.n) : Inv { s with held := g } es loc :=
  { h with
    heldlt := hg
    typ := fun i o ho => (h.typ i o ho).mono (Nat.le_refl _) rfl (fun _ _ => rfl)
    tok := h.tok
    frames := fun t f hf => (h.frames t f hf).mono (Nat.le_refl _) (fun _ _ => rfl) (fun _ _ => rfl) (fun _ h => h) }

/-- Changing the stack of one thread, with the same items. -/
theorem Inv.stack {s es loc} (h : Inv s es loc) {t : Nat} {l : List Frame} (hl : items l = items (s.stk t)) (hf : ∀ f ∈ l, FrameOk s f) :
    Inv { s with stk := upd s.stk t l } es loc := by
  refine { h with typ := ?_, locT := ?_, nodT := ?_, tok := h.tok, frames := ?_ }
  · intro i o ho; exact (h.typ i o ho).mono (Nat.le_refl _) rfl (fun _ _ => rfl)
  · intro c t'
    have := h.locT c t'
    simp only [upd_apply]
    split
    · rename_i he; subst he; rw [hl]; exact this
    · exact this
  · intro t'
    have := h.nodT t'
    simp only [upd_apply]
    split
    · rename_i he; subst he; rw [hl]; exact this
    · exact this
  · intro t' f hm
    simp only [upd_apply] at hm
    split at hm
    · exact (hf f hm).mono (Nat.le_refl _) (fun _ _ => rfl) (fun _ _ => rfl) (fun _ h => h)
    · exact (h.frames t' f hm).mono (Nat.le_refl _) (fun _ _ => rfl) (fun _ _ => rfl) (fun _ h => h)

/-- A state becomes ready. -/
theorem Inv.finish {s es loc} (h : Inv s es loc) {t c : Nat} {o : Out} {w : Why} {rest : List Frame} {e : List Event} (hlt : c < s.n)
    (hout : (s.node c).out = none) (hdef : (s.node c).deferred = false) (hlc : loc c = .thr t ∨ loc c = .nowhere)
    (hit : ∀ x, x ∈ items rest ↔ loc x = .thr t ∧ x ≠ c) (hnd : (items rest).Nodup) (hfr : ∀ f ∈ rest, FrameOk s f) (hty : Typed s c o)
    (hw : ∀ u, w = .unwrap u → u < s.n)
    (hun : ∀ u w, Unwraps (es ++ e) u w ↔ Unwraps es u w)
    (hde : ∀ i o', Delivered (es ++ e) i o' ↔ Delivered es i o' ∨ i = c ∧ o' = o ∧ ∀ w, (s.node c).kind ≠ .unwrap w)
    (hre : Resolves (es ++ e) c o) : ∃ loc', Inv (s.finish t c o w rest) (es ++ e) loc' := by
  have hcc : c ∉ (s.node c).conts := fun hc => by rcases hlc with hl | hl <;> rw [(h.locC _ _).1 hc] at hl <;> cases hl
  have hr1 : ∀ x ∈ (s.node c).conts, loc x = .conts c := fun x hx => (h.locC _ _).1 hx
  have hmono : ∀ x, (s.node x).out ≠ none → ((s.finish t c o w rest).node x).out ≠ none := by
    intro x hx; simp only [State.finish, upd_apply]; split <;> simp_all
  refine ⟨fun x => if x = c then .nowhere else if x ∈ (s.node c).conts then .thr t else loc x, ?_⟩
  constructor
  case fresh =>
    intro i hi
    have hi : s.n ≤ i := hi
    simp only [State.finish, upd_apply]
    rw [if_neg (by omega)]; exact h.fresh i hi
  case heldlt => exact h.heldlt
  case kindU =>
    intro i w' hk
    simp only [State.finish, upd_apply] at hk ⊢
    have := h.kindU i w'
    split at hk <;> split <;> grind
  case typ =>
    intro i o' ho
    have hd : ∀ j, ((s.finish t c o w rest).node j).depth = (s.node j).depth := fun j => by
      simp only [State.finish, upd_apply]; split <;> simp_all
    refine Typed.mono (s := s) ?_ (Nat.le_refl _) (hd i) (fun j _ => hd j)
    simp only [State.finish, upd_apply] at ho
    split at ho
    · rename_i he; subst he; cases ho; exact hty
    · exact h.typ i o' ho
  case inner =>
    intro x j hi
    simp only [State.finish, upd_apply] at hi ⊢
    have := h.inner x j
    split at hi <;> grind
  case def1 =>
    intro i hi
    simp only [State.finish, upd_apply] at hi ⊢
    have := h.def1 i
    split at hi <;> simp_all
  case unw =>
    intro u w'
    rw [hun, h.unw]
    simp only [State.finish, upd_apply]
    split <;> simp_all
  case del =>
    intro i o'
    rw [hde, h.del]
    simp only [State.finish, upd_apply]
    split <;> grind
  case sound =>
    intro i o' ho
    simp only [State.finish, upd_apply] at ho
    split at ho
    · rename_i he; subst he; cases ho; exact hre
    · exact (h.sound i o' ho).append _
  case locC =>
    intro x i
    have := h.locC x i
    have := h.locC x c
    simp only [State.finish, upd_apply]
    grind
  case locT =>
    intro x t'
    have h1 := h.locT x t'
    have h2 := hit x
    have h3 := h.locC x c
    simp only [State.finish, upd_apply]
    split
    · rename_i he; subst he
      simp only [items_cons, Frame.items, List.mem_append]
      grind
    · grind
  case nodC =>
    intro i
    simp only [State.finish, upd_apply]
    split
    · exact List.nodup_nil
    · exact h.nodC i
  case nodT =>
    intro t'
    simp only [State.finish, upd_apply]
    split
    · simp only [items_cons, Frame.items]
      refine List.nodup_append.2 ⟨h.nodC c, hnd, ?_⟩
      intro a ha b hb hab
      subst hab
      have h1 := hr1 a ha
      have h2 := (hit a).1 hb
      rw [h1] at h2; cases h2.1
    · exact h.nodT t'
  case tok =>
    intro x
    have h1 := h.tok x
    simp only [Active] at h1 ⊢
    simp only [State.finish, upd_apply]
    by_cases hx : x = c
    · subst hx; simp
    · simp only [if_neg hx]
      rw [← h1]
      have h3 := h.locC x c
      grind
  case cReady =>
    intro x i hx
    simp only [State.finish, upd_apply] at hx ⊢
    by_cases hi : i = c
    · subst hi; simp at hx
    · simp only [if_neg hi] at hx
      obtain ⟨h1, w', h2, h3⟩ := h.cReady x i hx
      simp only [if_neg hi]
      refine ⟨h1, w', ?_⟩
      split <;> simp_all
  case frames =>
    intro t' f hf
    have hm : ∀ f, FrameOk s f → FrameOk (s.finish t c o w rest) f := fun f hf =>
      hf.mono (Nat.le_refl _) (fun x _ => by simp only [State.finish, upd_apply]; split <;> simp_all)
        (fun x _ => by simp only [State.finish, upd_apply]; split <;> simp_all) hmono
    simp only [State.finish, upd_apply] at hf
    split at hf
    · rcases List.mem_cons.1 hf with rfl | hf
      · refine ⟨fun x hx => ?_, hw⟩
        obtain ⟨h1, w', h2, h3⟩ := h.cReady x c hx
        have hxc : x ≠ c := fun he => hcc (he ▸ hx)
        refine ⟨w', ?_, ?_, ?_⟩ <;> simp only [State.finish, upd_apply, if_neg hxc]
        · exact h2
        · intro hi
          rcases h3 with h3 | h3
          · rw [if_pos h3.2.symm]; simp
          · rw [hi] at h3; cases h3
        · intro j hi
          rcases h3 with h3 | h3
          · rw [hi] at h3; cases h3.1
          · rw [hi] at h3; cases h3; simp
      · exact hm f (hfr f hf)
    · exact hm f (h.frames t' f hf)

/-- A state made by `unwrap` is handed to the state it waits for. -/
theorem Inv.attach {s es loc} (h : Inv s es loc) {t c j : Nat} {w : Why} {rest : List Frame} (hlt : j < s.n)
    (hw : ∀ u, w = .unwrap u → u < s.n) (hout : (s.node c).out = none) (hlc : loc c = .thr t)
    (hk : ∃ w, (s.node c).kind = .unwrap w ∧ ((s.node c).inner = none ∧ j = w ∨ (s.node c).inner = some j))
    (hit : ∀ x, x ∈ items rest ↔ loc x = .thr t ∧ x ≠ c) (hnd : (items rest).Nodup) (hfr : ∀ f ∈ rest, FrameOk s f) :
    ∃ loc', Inv (s.attach t c j w rest) es loc' := by
  have hcc : c ∉ (s.node j).conts := fun hc => by rw [(h.locC _ _).1 hc] at hlc; cases hlc
  cases hj : (s.node j).out with
  | none =>
    have hs : s.attach t c j w rest = { s with node := upd s.node j { s.node j with conts := (s.node j).conts ++ [c] }, stk := upd s.stk t (.launch [] w :: rest) } := by
      simp [State.attach, hj]
    rw [hs]
    have hsame : ∀ x, ((upd s.node j { s.node j with conts := (s.node j).conts ++ [c] }) x).kind = (s.node x).kind ∧
        ((upd s.node j { s.node j with conts := (s.node j).conts ++ [c] }) x).out = (s.node x).out ∧
        ((upd s.node j { s.node j with conts := (s.node j).conts ++ [c] }) x).inner = (s.node x).inner ∧
        ((upd s.node j { s.node j with conts := (s.node j).conts ++ [c] }) x).depth = (s.node x).depth ∧
        ((upd s.node j { s.node j with conts := (s.node j).conts ++ [c] }) x).deferred = (s.node x).deferred := by
      intro x; simp only [upd_apply]; split <;> simp_all
    refine ⟨fun x => if x = c then .conts j else loc x, ?_⟩
    constructor
    case fresh =>
      intro i hi
      have hi : s.n ≤ i := hi
      simp only [upd_apply]
      rw [if_neg (by omega)]; exact h.fresh i hi
    case heldlt => exact h.heldlt
    case kindU => intro i w'; have := h.kindU i w'; simp only [hsame]; exact this
    case typ =>
      intro i o' ho
      simp only [hsame] at ho
      exact (h.typ i o' ho).mono (Nat.le_refl _) (hsame i).2.2.2.1 (fun j _ => (hsame j).2.2.2.1)
    case inner => intro x j'; simp only [hsame]; exact h.inner x j'
    case def1 => intro x; simp only [hsame]; exact h.def1 x
    case unw => intro u w'; simp only [hsame]; exact h.unw u w'
    case del => intro i o'; simp only [hsame]; exact h.del i o'
    case sound => intro i o'; simp only [hsame]; exact h.sound i o'
    case locC =>
      intro x i
      have h1 := h.locC x i
      simp only [upd_apply]
      split
      · rename_i he; subst he; simp only [List.mem_append, List.mem_singleton]; grind
      · grind
    case locT =>
      intro x t'
      have h1 := h.locT x t'
      have h2 := hit x
      simp only [upd_apply]
      split
      · rename_i he; subst he
        simp only [items_cons, Frame.items, List.nil_append]
        grind
      · grind
    case nodC =>
      intro i
      have := h.nodC i
      simp only [upd_apply]
      split
      · rename_i he; subst he
        refine List.nodup_append.2 ⟨this, by simp, ?_⟩
        intro a ha b hb hab
        simp only [List.mem_singleton] at hb
        subst hab hb
        exact hcc ha
      · exact this
    case nodT =>
      intro t'
      simp only [upd_apply]
      split
      · simpa [Frame.items] using hnd
      · exact h.nodT t'
    case tok =>
      intro x
      have h1 := h.tok x
      simp only [Active, hsame] at h1 ⊢
      rw [← h1]
      grind
    case cReady =>
      intro x i hx
      simp only [hsame]
      simp only [upd_apply] at hx
      split at hx
      · rename_i he; subst he
        simp only [List.mem_append, List.mem_singleton] at hx
        rcases hx with hx | rfl
        · exact h.cReady x i hx
        · exact ⟨hj, hk⟩
      · exact h.cReady x i hx
    case frames =>
      intro t' f hf
      have hm : ∀ f, FrameOk s f → FrameOk { s with node := upd s.node j { s.node j with conts := (s.node j).conts ++ [c] }, stk := upd s.stk t (.launch [] w :: rest) } f :=
        fun f hf => hf.mono (Nat.le_refl _) (fun x _ => (hsame x).2.2.1) (fun x _ => (hsame x).1) (fun x => by simp only [hsame]; exact id)
      simp only [upd_apply] at hf
      split at hf
      · rcases List.mem_cons.1 hf with rfl | hf
        · exact ⟨by simp, hw⟩
        · exact hm f (hfr f hf)
      · exact hm f (h.frames t' f hf)
  | some oj =>
    have hs : s.attach t c j w rest = { s with node := upd s.node j { s.node j with conts := [] }, stk := upd s.stk t (.launch ((s.node j).conts ++ [c]) w :: rest) } := by
      simp [State.attach, hj]
    have hnil : (s.node j).conts = [] := by
      cases hc : (s.node j).conts with
      | nil => rfl
      | cons a l => have := (h.cReady a j (by simp [hc])).1; rw [hj] at this; cases this
    have hnode : upd s.node j { s.node j with conts := [] } = s.node := by
      funext x; simp only [upd_apply]; split
      · rename_i he; subst he; rw [← hnil]
      · rfl
    rw [hs, hnode, hnil, List.nil_append]
    refine ⟨loc, ?_⟩
    refine { h with typ := ?_, locT := ?_, nodT := ?_, tok := h.tok, frames := ?_ }
    · intro i o ho; exact (h.typ i o ho).mono (Nat.le_refl _) rfl (fun _ _ => rfl)
    · intro x t'
      have h1 := h.locT x t'
      have h2 := hit x
      simp only [upd_apply]
      split
      · rename_i he; subst he
        simp only [items_cons, Frame.items, List.mem_append, List.mem_singleton]
        grind
      · exact h1
    · intro t'
      simp only [upd_apply]
      split
      · simp only [items_cons, Frame.items, List.singleton_append]
        refine List.nodup_cons.2 ⟨fun hc => ((hit c).1 hc).2 rfl, hnd⟩
      · exact h.nodT t'
    · intro t' f hf
      have hm : ∀ f, FrameOk s f → FrameOk { s with stk := upd s.stk t (.launch [c] w :: rest) } f :=
        fun f hf => hf.mono (Nat.le_refl _) (fun x _ => rfl) (fun x _ => rfl) (fun x => id)
      simp only [upd_apply] at hf
      split at hf
      · rcases List.mem_cons.1 hf with rfl | hf
        · refine ⟨fun x hx => ?_, hw⟩
          simp only [List.mem_singleton] at hx
          subst hx
          obtain ⟨w', h1, h2⟩ := hk
          refine ⟨w', h1, ?_, ?_⟩
          · intro hi
            rcases h2 with h2 | h2
            · rw [← h2.2]; simp [hj]
            · simp only at hi; rw [hi] at h2; cases h2
          · intro j' hi
            rcases h2 with h2 | h2
            · simp only at hi; rw [hi] at h2; cases h2.1
            · simp only at hi; rw [hi] at h2; cases h2; simp [hj]
        · exact hm f (hfr f hf)
      · exact hm f (h.frames t' f hf)

/-- A new state. -/
theorem Inv.create {s es loc} (h : Inv s es loc) {x : Node} {e : List Event} (hx : x.out = none ∧ x.conts = [] ∧ x.inner = none)
    (hk : x.kind = .promise ∧ x.deferred = false ∨ x.kind = .deferred ∧ x.deferred = true) (he : ∀ y ∈ e, y.silent = true) (g : Nat → Bool)
    (hg : ∀ i, g i = true → i < s.n + 1) : Inv { s with n := s.n + 1, node := upd s.node s.n x, held := g } (es ++ e) loc := by
  have hf := h.fresh s.n (Nat.le_refl _)
  have hl : loc s.n = .nowhere := by
    cases hl : loc s.n with
    | nowhere => rfl
    | _ => have := (h.tok s.n).1 (by simp [hl]); simp [Active, hf] at this
  have hne : ∀ i, i < s.n → upd s.node s.n x i = s.node i := fun i hi => by simp only [upd_apply]; rw [if_neg (by omega)]
  have hlt : ∀ i, s.node i ≠ {} → i < s.n := fun i hi => Nat.lt_of_not_le fun hc => hi (h.fresh i hc)
  refine Inv.silent ?_ he
  constructor
  case fresh =>
    intro i hi
    have hi : s.n + 1 ≤ i := hi
    simp only [upd_apply]
    rw [if_neg (by omega)]; exact h.fresh i (by omega)
  case heldlt => exact hg
  case kindU =>
    intro i w hw
    simp only [upd_apply] at hw
    split at hw
    · rcases hk with hk | hk <;> rw [hk.1] at hw <;> cases hw
    · rename_i hi
      have := h.kindU i w hw
      refine ⟨by simp only; omega, ?_⟩
      simp only
      rw [hne w this.1, hne i (hlt i (fun hc => by rw [hc] at hw; cases hw))]; exact this.2
  case typ =>
    intro i o ho
    simp only [upd_apply] at ho
    split at ho
    · rw [hx.1] at ho; cases ho
    · refine (h.typ i o ho).mono (Nat.le_succ _) ?_ (fun j hj => by simp only [hne j hj])
      simp only
      rw [hne i (hlt i (fun hc => by rw [hc] at ho; cases ho))]
  case inner =>
    intro c j hc
    simp only [upd_apply] at hc
    split at hc
    · rw [hx.2.2] at hc; cases hc
    · obtain ⟨w, h1, h2⟩ := h.inner c j hc
      refine ⟨w, ?_, ?_⟩ <;> simp only
      · rw [hne c (hlt c (fun hc' => by rw [hc'] at h1; cases h1))]; exact h1
      · rw [hne w (hlt w (fun hc' => by rw [hc'] at h2; cases h2))]; exact h2
  case def1 =>
    intro i hi
    have := h.def1 i
    simp only [upd_apply] at hi ⊢
    split at hi <;> grind
  case unw =>
    intro u w
    rw [h.unw]
    simp only [upd_apply]
    split
    · rename_i he; subst he; rw [hf]; rcases hk with hk | hk <;> simp [hk.1]
    · rfl
  case del =>
    intro i o
    rw [h.del]
    simp only [upd_apply]
    split
    · rename_i he; subst he; rw [hf, hx.1]; simp
    · rfl
  case sound =>
    intro i o ho
    simp only [upd_apply] at ho
    split at ho
    · rw [hx.1] at ho; cases ho
    · exact h.sound i o ho
  case locC =>
    intro c i
    rw [← h.locC]
    simp only [upd_apply]
    split
    · rename_i he; subst he; rw [hf, hx.2.1]
    · rfl
  case locT => exact h.locT
  case nodC =>
    intro i
    simp only [upd_apply]
    split
    · rw [hx.2.1]; exact List.nodup_nil
    · exact h.nodC i
  case nodT => exact h.nodT
  case tok =>
    intro c
    by_cases hc : c = s.n
    · subst hc; simp only [hl, Active, upd_apply, if_true]
      rcases hk with hk | hk <;> simp [hk]
    · rw [h.tok]; simp only [Active, upd_apply, if_neg hc]
  case cReady =>
    intro c i hc
    simp only [upd_apply] at hc
    split at hc
    · rw [hx.2.1] at hc; cases hc
    · rename_i hi
      obtain ⟨h1, w, h2, h3⟩ := h.cReady c i hc
      simp only [upd_apply, if_neg hi]
      refine ⟨h1, w, ?_⟩
      rw [if_neg (fun hc' => by rw [hc', hf] at h2; cases h2)]; exact ⟨h2, h3⟩
  case frames =>
    intro t f hm
    have hi : ∀ c ∈ f.items, c < s.n := fun c hc => by
      have h1 := (h.tok c).1 (by rw [(h.locT c t).1 (mem_items hm hc)]; simp)
      refine hlt c fun hc' => ?_
      simp [Active, hc'] at h1
    refine (h.frames t f hm).mono (Nat.le_succ _) (fun c hc => by simp only [hne c (hi c hc)]) (fun c hc => by simp only [hne c (hi c hc)]) (fun c hc => ?_)
    simp only
    rw [hne c (hlt c (fun hc' => by rw [hc'] at hc; exact hc rfl))]; exact hc

/-- `unwrap` makes a state, which the calling thread is about to hand to the state it waits for; the frame `fn` only marks the place. -/
theorem Inv.createU {s es loc} (h : Inv s es loc) {t w : Nat} (hw : w < s.n) (hd : (s.node w).depth ≠ 0) :
    Inv { s with n := s.n + 1, node := upd s.node s.n { kind := .unwrap w, depth := (s.node w).depth - 1 }, held := upd s.held w false,
                 stk := upd s.stk t (.fn s.n :: s.stk t) }
      (es ++ [.unwraps t s.n w]) (fun c => if c = s.n then .thr t else loc c) := by
  have hf := h.fresh s.n (Nat.le_refl _)
  have hl : loc s.n = .nowhere := by
    cases hl : loc s.n with
    | nowhere => rfl
    | _ => have := (h.tok s.n).1 (by simp [hl]); simp [Active, hf] at this
  have hne : ∀ i, i < s.n → upd s.node s.n { kind := .unwrap w, depth := (s.node w).depth - 1 } i = s.node i := fun i hi => by
    simp only [upd_apply]; rw [if_neg (by omega)]
  have hlt : ∀ i, s.node i ≠ {} → i < s.n := fun i hi => Nat.lt_of_not_le fun hc => hi (h.fresh i hc)
  constructor
  case fresh =>
    intro i hi
    have hi : s.n + 1 ≤ i := hi
    simp only [upd_apply]
    rw [if_neg (by omega)]; exact h.fresh i (by omega)
  case heldlt =>
    intro i hi
    simp only [upd_apply] at hi
    split at hi
    · cases hi
    · have := h.heldlt i hi; simp only; omega
  case kindU =>
    intro i w' hw'
    simp only [upd_apply] at hw'
    split at hw'
    · rename_i he
      cases hw'
      refine ⟨by simp only; omega, ?_⟩
      simp only
      rw [hne w hw]; simp only [upd_apply, if_pos he]; omega
    · rename_i hi
      have := h.kindU i w' hw'
      refine ⟨by simp only; omega, ?_⟩
      simp only
      rw [hne w' this.1, hne i (hlt i (fun hc => by rw [hc] at hw'; cases hw'))]; exact this.2
  case typ =>
    intro i o ho
    simp only [upd_apply] at ho
    split at ho
    · cases ho
    · refine (h.typ i o ho).mono (Nat.le_succ _) ?_ (fun j hj => by simp only [hne j hj])
      simp only
      rw [hne i (hlt i (fun hc => by rw [hc] at ho; cases ho))]
  case inner =>
    intro c j hc
    simp only [upd_apply] at hc
    split at hc
    · cases hc
    · obtain ⟨w', h1, h2⟩ := h.inner c j hc
      refine ⟨w', ?_, ?_⟩ <;> simp only
      · rw [hne c (hlt c (fun hc' => by rw [hc'] at h1; cases h1))]; exact h1
      · rw [hne w' (hlt w' (fun hc' => by rw [hc'] at h2; cases h2))]; exact h2
  case def1 =>
    intro i hi
    have := h.def1 i
    simp only [upd_apply] at hi ⊢
    split at hi <;> grind
  case unw =>
    intro u w'
    have h1 := h.unw u w'
    simp only [Unwraps, List.mem_append, List.mem_singleton, Event.unwraps.injEq] at h1 ⊢
    simp only [upd_apply]
    split
    · rename_i he; subst he
      rw [hf] at h1
      constructor
      · rintro ⟨t', h | ⟨-, -, rfl⟩⟩
        · exact absurd (h1.1 ⟨t', h⟩) (by simp)
        · rfl
      · intro h2; cases h2; exact ⟨t, .inr ⟨rfl, rfl, rfl⟩⟩
    · rename_i hu
      rw [← h1]
      simp [hu]
  case del =>
    intro i o
    have h1 := h.del i o
    simp only [Delivered, List.mem_append, List.mem_singleton] at h1 ⊢
    simp only [reduceCtorEq, or_false]
    rw [h1]
    simp only [upd_apply]
    split
    · rename_i he; subst he; rw [hf]; simp
    · rfl
  case sound =>
    intro i o ho
    simp only [upd_apply] at ho
    split at ho
    · cases ho
    · exact (h.sound i o ho).append _
  case locC =>
    intro c i
    have h1 := h.locC c i
    simp only [upd_apply]
    have h2 := h.locC s.n i
    grind
  case locT =>
    intro c t'
    have h1 := h.locT c t'
    have h2 := h.locT s.n t'
    simp only [upd_apply]
    split
    · rename_i he; subst he; simp only [items_cons, Frame.items, List.singleton_append, List.mem_cons]; grind
    · grind
  case nodC =>
    intro i
    simp only [upd_apply]
    split
    · exact List.nodup_nil
    · exact h.nodC i
  case nodT =>
    intro t'
    simp only [upd_apply]
    split
    · simp only [items_cons, Frame.items, List.singleton_append]
      refine List.nodup_cons.2 ⟨fun hc => ?_, h.nodT t⟩
      rw [(h.locT _ _).1 hc] at hl; cases hl
    · exact h.nodT t'
  case tok =>
    intro c
    by_cases hc : c = s.n
    · subst hc; simp [Active]
    · simp only [if_neg hc]; rw [h.tok]; simp only [Active, upd_apply, if_neg hc]
  case cReady =>
    intro c i hc
    simp only [upd_apply] at hc
    split at hc
    · cases hc
    · rename_i hi
      obtain ⟨h1, w', h2, h3⟩ := h.cReady c i hc
      simp only [upd_apply, if_neg hi]
      refine ⟨h1, w', ?_⟩
      rw [if_neg (fun hc' => by rw [hc', hf] at h2; cases h2)]; exact ⟨h2, h3⟩
  case frames =>
    intro t' f hm
    simp only [upd_apply] at hm
    have key : ∀ t, f ∈ s.stk t → FrameOk { s with n := s.n + 1, node := upd s.node s.n { kind := .unwrap w, depth := (s.node w).depth - 1 }, held := upd s.held w false, stk := upd s.stk t (.fn s.n :: s.stk t) } f := by
      intro t hm
      have hi : ∀ c ∈ f.items, c < s.n := fun c hc => by
        have h1 := (h.tok c).1 (by rw [(h.locT c t).1 (mem_items hm hc)]; simp)
        refine hlt c fun hc' => ?_
        simp [Active, hc'] at h1
      refine (h.frames t f hm).mono (Nat.le_succ _) (fun c hc => by simp only [hne c (hi c hc)]) (fun c hc => by simp only [hne c (hi c hc)]) (fun c hc => ?_)
      simp only
      rw [hne c (hlt c (fun hc' => by rw [hc'] at hc; exact hc rfl))]; exact hc
    split at hm
    · rcases List.mem_cons.1 hm with rfl | hm
      · trivial
      · exact (key t hm).mono (Nat.le_refl _) (fun _ _ => rfl) (fun _ _ => rfl) (fun _ => id)
    · exact (key t' hm).mono (Nat.le_refl _) (fun _ _ => rfl) (fun _ _ => rfl) (fun _ => id)

/-- `launch_continuation` finds the inner future. -/
theorem Inv.found {s es loc} (h : Inv s es loc) {t c w j : Nat} {rest : List Frame} (hk : (s.node c).kind = .unwrap w) (hin : (s.node c).inner = none)
    (hw : (s.node w).out = some (.fut (some j))) (hlc : loc c = .thr t) (hit : ∀ x, x ∈ items rest ↔ loc x = .thr t ∧ x ≠ c) (hnd : (items rest).Nodup)
    (hfr : ∀ f ∈ rest, FrameOk s f) :
    Inv { s with node := upd s.node c { s.node c with inner := some j }, stk := upd s.stk t (.hook c j :: rest) } es loc := by
  have hsame : ∀ x, ((upd s.node c { s.node c with inner := some j }) x).kind = (s.node x).kind ∧
      ((upd s.node c { s.node c with inner := some j }) x).out = (s.node x).out ∧
      ((upd s.node c { s.node c with inner := some j }) x).conts = (s.node x).conts ∧
      ((upd s.node c { s.node c with inner := some j }) x).depth = (s.node x).depth ∧
      ((upd s.node c { s.node c with inner := some j }) x).deferred = (s.node x).deferred := by
    intro x; simp only [upd_apply]; split <;> simp_all
  have hin' : ∀ x, x ≠ c → ((upd s.node c { s.node c with inner := some j }) x).inner = (s.node x).inner := fun x hx => by simp [hx]
  constructor
  case fresh =>
    intro i hi
    have hc : i ≠ c := fun hc => by rw [← hc, h.fresh i hi] at hk; cases hk
    simp only [upd_apply, if_neg hc]; exact h.fresh i hi
  case heldlt => exact h.heldlt
  case kindU => intro i w'; simp only [hsame]; exact h.kindU i w'
  case typ =>
    intro i o' ho
    simp only [hsame] at ho
    exact (h.typ i o' ho).mono (Nat.le_refl _) (hsame i).2.2.2.1 (fun j _ => (hsame j).2.2.2.1)
  case inner =>
    intro x j' hx
    by_cases hxc : x = c
    · subst hxc
      simp only [upd_apply, if_true] at hx
      cases hx
      exact ⟨w, by rw [(hsame x).1]; exact hk, by rw [(hsame w).2.1]; exact hw⟩
    · rw [hin' x hxc] at hx
      simp only [hsame]; exact h.inner x j' hx
  case def1 => intro x; simp only [hsame]; exact h.def1 x
  case unw => intro u w'; simp only [hsame]; exact h.unw u w'
  case del => intro i o'; simp only [hsame]; exact h.del i o'
  case sound => intro i o'; simp only [hsame]; exact h.sound i o'
  case locC => intro x i; simp only [hsame]; exact h.locC x i
  case locT =>
    intro x t'
    have h1 := h.locT x t'
    have h2 := hit x
    simp only [upd_apply]
    split
    · rename_i he; subst he
      simp only [items_cons, Frame.items, List.singleton_append, List.mem_cons]
      grind
    · exact h1
  case nodC => intro i; simp only [hsame]; exact h.nodC i
  case nodT =>
    intro t'
    simp only [upd_apply]
    split
    · simp only [items_cons, Frame.items, List.singleton_append]
      exact List.nodup_cons.2 ⟨fun hc => ((hit c).1 hc).2 rfl, hnd⟩
    · exact h.nodT t'
  case tok => intro x; simp only [Active, hsame]; exact h.tok x
  case cReady =>
    intro x i hx
    simp only [hsame] at hx ⊢
    have hxc : x ≠ c := fun hc => by rw [← hc, (h.locC x i).1 hx] at hlc; cases hlc
    rw [hin' x hxc]
    exact h.cReady x i hx
  case frames =>
    intro t' f hf
    have hm : ∀ f, c ∉ f.items → FrameOk s f → FrameOk { s with node := upd s.node c { s.node c with inner := some j }, stk := upd s.stk t (.hook c j :: rest) } f :=
      fun f hc hf => hf.mono (Nat.le_refl _) (fun x hx => hin' x (fun h => hc (h ▸ hx))) (fun x _ => (hsame x).1) (fun x => by simp only [hsame]; exact id)
    simp only [upd_apply] at hf
    split at hf
    · rcases List.mem_cons.1 hf with rfl | hf
      · simp [FrameOk]
      · exact hm f (fun hc => ((hit c).1 (mem_items hf hc)).2 rfl) (hfr f hf)
    · rename_i ht
      refine hm f (fun hc => ht ?_) (h.frames t' f hf)
      have := (h.locT c t').1 (mem_items hf hc)
      rw [hlc] at this; cases this; rfl

/-- `get` runs the function of a deferred future. -/
theorem Inv.defer {s es loc} (h : Inv s es loc) {t i : Nat} (hd : (s.node i).deferred = true) :
    Inv { s with node := upd s.node i { s.node i with deferred := false }, stk := upd s.stk t (.fn i :: .wait i :: s.stk t) } es
      (fun c => if c = i then .thr t else loc c) := by
  obtain ⟨hk, ho⟩ := h.def1 i hd
  have hil : i < s.n := Nat.lt_of_not_le fun hc => by rw [h.fresh i hc] at hk; cases hk
  have hl : loc i = .nowhere := by
    cases hl : loc i with
    | nowhere => rfl
    | _ => have := (h.tok i).1 (by simp [hl]); simp [Active, hk, hd] at this
  have hsame : ∀ x, ((upd s.node i { s.node i with deferred := false }) x).kind = (s.node x).kind ∧
      ((upd s.node i { s.node i with deferred := false }) x).out = (s.node x).out ∧
      ((upd s.node i { s.node i with deferred := false }) x).conts = (s.node x).conts ∧
      ((upd s.node i { s.node i with deferred := false }) x).depth = (s.node x).depth ∧
      ((upd s.node i { s.node i with deferred := false }) x).inner = (s.node x).inner := by
    intro x; simp only [upd_apply]; split <;> simp_all
  constructor
  case fresh =>
    intro x hx
    have hc : x ≠ i := fun hc => by rw [← hc, h.fresh x hx] at hk; cases hk
    simp only [upd_apply, if_neg hc]; exact h.fresh x hx
  case heldlt => exact h.heldlt
  case kindU => intro i w'; simp only [hsame]; exact h.kindU i w'
  case typ =>
    intro x o' ho
    simp only [hsame] at ho
    exact (h.typ x o' ho).mono (Nat.le_refl _) (hsame x).2.2.2.1 (fun j _ => (hsame j).2.2.2.1)
  case inner => intro x j; simp only [hsame]; exact h.inner x j
  case def1 =>
    intro x hx
    simp only [hsame]
    refine h.def1 x ?_
    simp only [upd_apply] at hx
    split at hx
    · cases hx
    · exact hx
  case unw => intro u w'; simp only [hsame]; exact h.unw u w'
  case del => intro i o'; simp only [hsame]; exact h.del i o'
  case sound => intro i o'; simp only [hsame]; exact h.sound i o'
  case locC =>
    intro x i'
    simp only [hsame]
    have h1 := h.locC x i'
    grind
  case locT =>
    intro x t'
    have h1 := h.locT x t'
    simp only [upd_apply]
    split
    · rename_i he; subst he
      simp only [items_cons, Frame.items, List.singleton_append, List.nil_append, List.mem_cons]
      grind
    · grind
  case nodC => intro i; simp only [hsame]; exact h.nodC i
  case nodT =>
    intro t'
    simp only [upd_apply]
    split
    · simp only [items_cons, Frame.items, List.singleton_append, List.nil_append]
      refine List.nodup_cons.2 ⟨fun hc => ?_, h.nodT t⟩
      rw [(h.locT _ _).1 hc] at hl; cases hl
    · exact h.nodT t'
  case tok =>
    intro x
    by_cases hx : x = i
    · subst hx; simp [Active, ho, hk]
    · simp only [if_neg hx]; rw [h.tok]; simp only [Active, upd_apply, if_neg hx]
  case cReady => intro x i' hx; simp only [hsame] at hx ⊢; exact h.cReady x i' hx
  case frames =>
    intro t' f hf
    have hm : ∀ f, FrameOk s f → FrameOk { s with node := upd s.node i { s.node i with deferred := false }, stk := upd s.stk t (.fn i :: .wait i :: s.stk t) } f :=
      fun f hf => hf.mono (Nat.le_refl _) (fun x hx => (hsame x).2.2.2.2) (fun x _ => (hsame x).1) (fun x => by simp only [hsame]; exact id)
    simp only [upd_apply] at hf
    split at hf
    · rcases List.mem_cons.1 hf with rfl | hf
      · trivial
      · rcases List.mem_cons.1 hf with rfl | hf
        · exact hil
        · exact hm f (h.frames t f hf)
    · exact hm f (h.frames t' f hf)

end Verif.Unwrap
