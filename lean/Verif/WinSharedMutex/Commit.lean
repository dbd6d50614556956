import Verif.WinSharedMutex.Spec
/-! # Every compare-and-swap follows the specification -/

set_option linter.unusedSimpArgs false

namespace Verif.WinSharedMutex

/-- The upgrade owner that waits to become writer. -/
def Own.conv (o : Own) : Option Nat := if o.converting then o.upgrader else none
/-- It has become writer and is about to return. -/
def Own.handed (o : Own) : Bool := o.converting && o.readers.isEmpty

/-- The word that goes with the owners. -/
def Own.word (o : Own) : Word := ⟨o.owners, o.sharedWaits, o.writing, o.upgrader.isSome && !o.handed, o.exclWaits, o.asked⟩

structure WF (o : Own) : Prop where
  owners : o.owners < 2048
  sw : o.sharedWaits < 2048
  xw : o.exclWaits < 128
  asked : o.asked = true → o.owned = true ∧ 0 < o.exclWaits
  writer : o.writer.isSome = true → o.readers = [] ∧ o.upgrader = none
  conv : o.converting = true → o.upgrader.isSome = true

def relUp : PC → Nat
  | .releasing _ _ up _ => up
  | _ => 0

def Late : PC → Prop
  | .waiting (.shared true) old => old.closed = true
  | .releasing _ _ _ (some (c, _)) => c = .lockExpired
  | _ => True

structure Pcs (s : State) (conv : Option Nat) (handed : Bool) : Prop where
  up : ∀ t, s.pc t = .waitUp ↔ conv = some t
  tok : handed = true → (s.up = 1 ∧ ∀ t, relUp (s.pc t) = 0) ∨ (s.up = 0 ∧ ∃ t, relUp (s.pc t) = 1 ∧ ∀ t', t' ≠ t → relUp (s.pc t') = 0)
  notok : handed = false → s.up = 0 ∧ ∀ t, relUp (s.pc t) = 0
  late : ∀ t, Late (s.pc t)

structure Rel (s : State) (o : Own) : Prop where
  word : s.word = o.word
  wf : WF o
  pcs : Pcs s o.conv o.handed

theorem rel_init (threads : Nat) : Rel (init threads) free := by
  refine ⟨rfl, ?_, ?_⟩
  · constructor <;> simp [free, Own.owners]
  · constructor <;> simp [init, free, Own.conv, Own.handed, relUp, Late]

/-- A thread moves on, with the tokens it is about to release. -/
theorem Pcs.set {s s' : State} {conv : Option Nat} {handed : Bool} (h : Pcs s conv handed) (t : Nat) (p : PC) (hpc : s'.pc = upd s.pc t p) (hup : s'.up = s.up)
    (h1 : s.pc t ≠ .waitUp) (h2 : p ≠ .waitUp) (h3 : relUp p = relUp (s.pc t)) (h4 : Late p) : Pcs s' conv handed := by
  have hr : ∀ x, relUp (s'.pc x) = relUp (s.pc x) := by
    intro x; rw [hpc, upd_apply]; split
    · rename_i e; subst e; exact h3
    · rfl
  refine ⟨?_, ?_, ?_, ?_⟩
  · intro x
    rw [hpc, upd_apply]; split
    · rename_i e; subst e
      refine ⟨fun he => absurd he h2, fun he => absurd ((h.up x).2 he) h1⟩
    · exact h.up x
  · simp only [hr, hup]; exact h.tok
  · simp only [hr, hup]; exact h.notok
  · intro x
    rw [hpc, upd_apply]; split
    · exact h4
    · exact h.late x

/-- How the conversion in progress changes when a compare-and-swap succeeds. -/
def Conv (t : Nat) (o o' : Own) : Kont → Prop
  | .waitUp => o.conv = none ∧ o'.conv = some t ∧ o.handed = false ∧ o'.handed = false
  | .down _ _ _ up => (up = 0 ∧ o'.conv = o.conv ∧ o'.handed = o.handed) ∨ (up = 1 ∧ o'.conv = o.conv ∧ o.handed = false ∧ o'.handed = true)
  | _ => o'.conv = o.conv ∧ o'.handed = o.handed

def events (t : Nat) : Kont → List Event
  | .granted r => [.granted t r]
  | .refused r => [.refused t r]
  | .timedOut r _ => [.timedOut t r]
  | .down d _ _ _ => [.down t d]
  | .wait r => [.blocked t r]
  | .waitUp => [.blocked t .upgradeToExclusive]

theorem follows_must {R : Own → Prop} {o o' : Own} {e : Event} {b : Bool} (hn : next o e = must b o') (hb : b = true) (hr : R o') : Follows next R o [e] := by
  simp only [Follows, hn, must, hb, if_true]; exact hr

theorem follows_pre {R : Own → Prop} {o o' : Own} {e : Event} {b : Bool} (hn : next o e = pre b (.ok o')) (hr : b = true → R o') : Follows next R o [e] := by
  simp only [Follows, hn, pre]
  cases b <;> simp
  exact hr rfl

theorem follows_pre_must {R : Own → Prop} {o o' : Own} {e : Event} {b c : Bool} (hn : next o e = pre b (must c o')) (hb : b = true → c = true) (hr : b = true → R o') : Follows next R o [e] := by
  simp only [Follows, hn, pre]
  cases b <;> simp [must, hb]
  exact hr rfl

theorem decide_ok {o : Own} (hw : WF o) (t : Nat) (c : Code) (r : Req) (hp : plan o.word c = .refuse r) : next o (.refused t r) = .ok o := by
  obtain ⟨h1, h2, h3, h4, h5, h6⟩ := hw
  simp only [next, must]
  cases c <;> simp only [plan] at hp <;> (repeat' split at hp) <;> cases hp <;>
    simp_all [Own.word, Own.refusal, Own.owned, Own.writing, Own.owners, Own.handed, Word.closed, Word.incSC] <;> grind

theorem error_ok {o : Own} (hw : WF o) (t : Nat) (c : Code) (r : Req) (hp : plan o.word c = .error r) : next o (.error t r) = .ok o := by
  obtain ⟨h1, h2, h3, h4, h5, h6⟩ := hw
  cases c <;> simp only [plan] at hp <;> (repeat' split at hp) <;> cases hp <;>
    simp_all [next, must, Own.word, Word.incSC, Word.incXW, Word.incSW] <;> grind

theorem letGo_word {w : Word} (h : w.xw < 128) (h' : w.xb = true → 0 < w.xw) : w.letGo = { w with xw := w.xw - 1, xb := false } := by
  obtain ⟨sc, sw, x, u, xw, xb⟩ := w
  simp only [Word.letGo, Word.decXW] at *
  split
  · simp only [Word.mk.injEq, and_true, true_and]; omega
  · cases xb <;> simp_all

/-- What holds of the owners after a successful compare-and-swap. -/
def After (t : Nat) (o : Own) (new : Word) (k : Kont) (o' : Own) : Prop := o'.word = new ∧ WF o' ∧ Conv t o o' k

set_option hygiene false in
local macro "crush" : tactic => `(tactic| (
  (try rw [letGo_word]) <;>
  cases ug <;> cases wr <;> cases cv <;> cases as <;>
    simp_all [Own.word, Own.owned, Own.writing, Own.owners, Own.handed, Own.refusal, Word.closed, Word.incSC, Word.decSC, Word.incSW, Word.decSW, Word.incXW, Word.decXW, Conv, Own.conv, Own.letGo] <;> (try omega) <;> grind))

theorem commit_lock {o : Own} (hw : WF o) (t : Nat) (b : Bool) {new : Word} {k : Kont} (hp : plan o.word (.lock b) = .cas new k) : Follows next (After t o new k) o (events t k) := by
  obtain ⟨rs, ug, wr, cv, sw, xw, as⟩ := o
  obtain ⟨h1, h2, h3, h4, h5, h6⟩ := hw
  simp only [plan] at hp
  split at hp
  · split at hp
    · cases hp
    · cases hp
      refine follows_must rfl ?_ ⟨?_, ⟨?_, ?_, ?_, ?_, ?_, ?_⟩, ?_⟩ <;>
        crush
  · cases hp
    refine follows_must rfl ?_ ⟨?_, ⟨?_, ?_, ?_, ?_, ?_, ?_⟩, ?_⟩ <;>
      crush

theorem commit_shared {o : Own} (hw : WF o) (t : Nat) (b : Bool) {new : Word} {k : Kont} (hp : plan o.word (.shared b) = .cas new k) : Follows next (After t o new k) o (events t k) := by
  obtain ⟨rs, ug, wr, cv, sw, xw, as⟩ := o
  obtain ⟨h1, h2, h3, h4, h5, h6⟩ := hw
  simp only [plan] at hp
  split at hp
  · split at hp
    · cases hp
    · cases hp
      refine follows_must rfl ?_ ⟨?_, ⟨?_, ?_, ?_, ?_, ?_, ?_⟩, ?_⟩ <;>
        crush
  · split at hp
    · cases hp
    · cases hp
      refine follows_must rfl ?_ ⟨?_, ⟨?_, ?_, ?_, ?_, ?_, ?_⟩, ?_⟩ <;>
        crush

theorem commit_upgrade {o : Own} (hw : WF o) (t : Nat) {new : Word} {k : Kont} (hp : plan o.word .upgrade = .cas new k) : Follows next (After t o new k) o (events t k) := by
  obtain ⟨rs, ug, wr, cv, sw, xw, as⟩ := o
  obtain ⟨h1, h2, h3, h4, h5, h6⟩ := hw
  simp only [plan] at hp
  split at hp
  · split at hp
    · cases hp
    · cases hp
      refine follows_must rfl ?_ ⟨?_, ⟨?_, ?_, ?_, ?_, ?_, ?_⟩, ?_⟩ <;>
        crush
  · split at hp
    · cases hp
    · cases hp
      refine follows_must rfl ?_ ⟨?_, ⟨?_, ?_, ?_, ?_, ?_, ?_⟩, ?_⟩ <;>
        crush

theorem commit_tryLock {o : Own} (hw : WF o) (t : Nat) {new : Word} {k : Kont} (hp : plan o.word .tryLock = .cas new k) : Follows next (After t o new k) o (events t k) := by
  refine commit_lock hw t false ?_
  simp only [plan] at hp ⊢
  split at hp
  · cases hp
  · rename_i h; rw [if_neg h]; exact hp

theorem commit_tryShared {o : Own} (hw : WF o) (t : Nat) {new : Word} {k : Kont} (hp : plan o.word .tryShared = .cas new k) : Follows next (After t o new k) o (events t k) := by
  simp only [plan] at hp
  split at hp
  · cases hp
    obtain ⟨rs, ug, wr, cv, sw, xw, as⟩ := o
    obtain ⟨h1, h2, h3, h4, h5, h6⟩ := hw
    refine follows_must rfl ?_ ⟨?_, ⟨?_, ?_, ?_, ?_, ?_, ?_⟩, ?_⟩ <;>
      crush
  · rename_i h
    refine commit_shared hw t false ?_
    simp only [plan]
    rw [if_neg h]
    split at hp
    · cases hp
    · rename_i h'; rw [if_neg h']; exact hp

theorem commit_tryUpgrade {o : Own} (hw : WF o) (t : Nat) {new : Word} {k : Kont} (hp : plan o.word .tryUpgrade = .cas new k) : Follows next (After t o new k) o (events t k) := by
  refine commit_upgrade hw t ?_
  simp only [plan] at hp ⊢
  split at hp
  · cases hp
  · rename_i h; rw [if_neg h]
    split at hp
    · cases hp
    · rename_i h'; rw [if_neg h']; exact hp

theorem commit_lockExpired {o : Own} (hw : WF o) (t : Nat) {new : Word} {k : Kont} (hp : plan o.word .lockExpired = .cas new k) : Follows next (After t o new k) o (events t k) := by
  simp only [plan] at hp
  split at hp
  · obtain ⟨rs, ug, wr, cv, sw, xw, as⟩ := o
    obtain ⟨h1, h2, h3, h4, h5, h6⟩ := hw
    split at hp
    · split at hp <;> cases hp <;> refine follows_must rfl ?_ ⟨?_, ⟨?_, ?_, ?_, ?_, ?_, ?_⟩, ?_⟩ <;>
        crush
    · cases hp
      refine follows_must rfl ?_ ⟨?_, ⟨?_, ?_, ?_, ?_, ?_, ?_⟩, ?_⟩ <;>
        crush
  · rename_i h
    refine commit_lock hw t false ?_
    simp only [plan]
    rw [if_neg h]; exact hp

theorem commit_sharedExpired {o : Own} (hw : WF o) (t : Nat) {new : Word} {k : Kont} (hp : plan o.word .sharedExpired = .cas new k) : Follows next (After t o new k) o (events t k) := by
  simp only [plan] at hp
  split at hp
  · cases hp
    obtain ⟨rs, ug, wr, cv, sw, xw, as⟩ := o
    obtain ⟨h1, h2, h3, h4, h5, h6⟩ := hw
    refine follows_must rfl ?_ ⟨?_, ⟨?_, ?_, ?_, ?_, ?_, ?_⟩, ?_⟩ <;>
      crush
  · rename_i h
    refine commit_shared hw t false ?_
    simp only [plan]
    rw [if_neg h]
    split at hp
    · cases hp
    · rename_i h'; rw [if_neg h']; exact hp

theorem commit_unlock {o : Own} (hw : WF o) (t : Nat) {new : Word} {k : Kont} (hp : plan o.word .unlock = .cas new k) : Follows next (After t o new k) o (events t k) := by
  obtain ⟨rs, ug, wr, cv, sw, xw, as⟩ := o
  obtain ⟨h1, h2, h3, h4, h5, h6⟩ := hw
  simp only [plan] at hp
  cases hp
  refine follows_pre rfl fun hb => ⟨?_, ⟨?_, ?_, ?_, ?_, ?_, ?_⟩, ?_⟩ <;>
    crush

theorem commit_unlockUpgrade {o : Own} (hw : WF o) (t : Nat) {new : Word} {k : Kont} (hp : plan o.word .unlockUpgrade = .cas new k) : Follows next (After t o new k) o (events t k) := by
  obtain ⟨rs, ug, wr, cv, sw, xw, as⟩ := o
  obtain ⟨h1, h2, h3, h4, h5, h6⟩ := hw
  simp only [plan] at hp
  split at hp <;> (simp only [Plan.cas.injEq] at hp; obtain ⟨rfl, rfl⟩ := hp) <;>
  refine follows_pre rfl fun hb => ⟨?_, ⟨?_, ?_, ?_, ?_, ?_, ?_⟩, ?_⟩ <;>
    cases rs <;> crush

theorem commit_exclusiveToUpgrade {o : Own} (hw : WF o) (t : Nat) {new : Word} {k : Kont} (hp : plan o.word .exclusiveToUpgrade = .cas new k) : Follows next (After t o new k) o (events t k) := by
  obtain ⟨rs, ug, wr, cv, sw, xw, as⟩ := o
  obtain ⟨h1, h2, h3, h4, h5, h6⟩ := hw
  simp only [plan] at hp
  cases hp
  refine follows_pre rfl fun hb => ⟨?_, ⟨?_, ?_, ?_, ?_, ?_, ?_⟩, ?_⟩ <;>
    crush

theorem commit_exclusiveToShared {o : Own} (hw : WF o) (t : Nat) {new : Word} {k : Kont} (hp : plan o.word .exclusiveToShared = .cas new k) : Follows next (After t o new k) o (events t k) := by
  obtain ⟨rs, ug, wr, cv, sw, xw, as⟩ := o
  obtain ⟨h1, h2, h3, h4, h5, h6⟩ := hw
  simp only [plan] at hp
  cases hp
  refine follows_pre rfl fun hb => ⟨?_, ⟨?_, ?_, ?_, ?_, ?_, ?_⟩, ?_⟩ <;>
    crush

theorem commit_upgradeToShared {o : Own} (hw : WF o) (t : Nat) {new : Word} {k : Kont} (hp : plan o.word .upgradeToShared = .cas new k) : Follows next (After t o new k) o (events t k) := by
  obtain ⟨rs, ug, wr, cv, sw, xw, as⟩ := o
  obtain ⟨h1, h2, h3, h4, h5, h6⟩ := hw
  simp only [plan] at hp
  cases hp
  refine follows_pre rfl fun hb => ⟨?_, ⟨?_, ?_, ?_, ?_, ?_, ?_⟩, ?_⟩ <;>
    crush

theorem commit_upgradeToExclusive {o : Own} (hw : WF o) (t : Nat) (hc : o.conv ≠ some t) {new : Word} {k : Kont} (hp : plan o.word .upgradeToExclusive = .cas new k) :
    Follows next (After t o new k) o (events t k) := by
  obtain ⟨rs, ug, wr, cv, sw, xw, as⟩ := o
  obtain ⟨h1, h2, h3, h4, h5, h6⟩ := hw
  simp only [plan] at hp
  split at hp <;> (simp only [Plan.cas.injEq] at hp; obtain ⟨rfl, rfl⟩ := hp) <;>
  refine follows_pre_must rfl ?_ fun hb => ⟨?_, ⟨?_, ?_, ?_, ?_, ?_, ?_⟩, ?_⟩ <;>
    cases rs <;> crush

set_option maxHeartbeats 1000000 in
theorem commit_unlockShared {o : Own} (hw : WF o) (t : Nat) {new : Word} {k : Kont} (hp : plan o.word .unlockShared = .cas new k) : Follows next (After t o new k) o (events t k) := by
  obtain ⟨rs, ug, wr, cv, sw, xw, as⟩ := o
  obtain ⟨h1, h2, h3, h4, h5, h6⟩ := hw
  have hl : ∀ {b : Bool}, b = rs.contains t → b = true → ∃ es, rs.erase t = es ∧ es.length + 1 = rs.length := by
    intro b hb hb'
    have ht : t ∈ rs := by simpa [hb] using hb'
    have := List.length_erase_of_mem ht
    have := List.length_pos_of_mem ht
    exact ⟨_, rfl, by omega⟩
  simp only [plan] at hp
  split at hp
  · split at hp <;> (simp only [Plan.cas.injEq] at hp; obtain ⟨rfl, rfl⟩ := hp) <;> refine follows_pre rfl fun hb => ?_
    all_goals
      obtain ⟨es, he, hn⟩ := hl rfl hb
      clear hl hb
      simp only [he]
      cases es <;> refine ⟨?_, ⟨?_, ?_, ?_, ?_, ?_, ?_⟩, ?_⟩ <;> cases rs <;> crush
  · simp only [Plan.cas.injEq] at hp; obtain ⟨rfl, rfl⟩ := hp
    refine follows_pre rfl fun hb => ?_
    obtain ⟨es, he, hn⟩ := hl rfl hb
    clear hl hb
    simp only [he]
    cases es <;> refine ⟨?_, ⟨?_, ?_, ?_, ?_, ?_, ?_⟩, ?_⟩ <;> cases rs <;> crush

end Verif.WinSharedMutex
