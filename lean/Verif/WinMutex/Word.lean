import Verif.WinMutex.Model
/-!
# The packed word of the Windows mutex

`active_count` is a 32-bit `long` (basic_timed_mutex.hpp:35-39): bit 31 is the lock flag, bit 30 the event-set flag,
the low bits count waiters. The model keeps the three fields apart. Here the C++ expressions are written on
`BitVec 32` and shown to act like the field updates of the model while there are fewer than 2^30 waiters.
-/

namespace Verif.WinMutex

/-- `lock_flag_value`, basic_timed_mutex.hpp:37. -/
def lockFlag : BitVec 32 := 1#32 <<< 31
/-- `event_set_flag_value`, basic_timed_mutex.hpp:38. -/
def eventFlag : BitVec 32 := 1#32 <<< 30

/-- The packed form. -/
def Word.pack (w : Word) : BitVec 32 :=
  (if w.locked then lockFlag else 0#32) ||| (if w.eventSet then eventFlag else 0#32) ||| BitVec.ofNat 32 w.waiters

/-- Room for one more waiter. -/
def Word.fits (w : Word) : Prop := w.waiters + 1 < 2 ^ 30

/-- `old_count & lock_flag_value`, lines 79, 100, 126. -/
def testLock (c : BitVec 32) : Bool := c &&& lockFlag != 0#32
/-- `old_count & event_set_flag_value`, line 247. -/
def testEvent (c : BitVec 32) : Bool := c &&& eventFlag != 0#32
/-- `was_locked?(old_count+1):(old_count|lock_flag_value)`, line 101. -/
def markExpr (c : BitVec 32) : BitVec 32 := if testLock c then c + 1#32 else c ||| lockFlag
/-- Lines 122-123. -/
def guessExpr (c : BitVec 32) : BitVec 32 := (c &&& ~~~ lockFlag) ||| eventFlag
/-- Line 126. -/
def clearExpr (c : BitVec 32) : BitVec 32 :=
  (if testLock c then c else (c - 1#32) ||| lockFlag) &&& ~~~ eventFlag
/-- `InterlockedExchangeAdd(&active_count, lock_flag_value)`, line 244. -/
def unlockExpr (c : BitVec 32) : BitVec 32 := c + lockFlag
/-- `!(old_count&event_set_flag_value) && (old_count>lock_flag_value)` with a signed comparison, line 247. -/
def mustSignal (c : BitVec 32) : Bool := !testEvent c && lockFlag.slt c
/-- bit-test-and-set of bit 30 or 31, lines 67, 249. -/
def setBit (c f : BitVec 32) : BitVec 32 := c ||| f

theorem lockFlag_fin : ∀ i : Fin 32, lockFlag[i.val] = decide (i.val = 31) := by decide

theorem lockFlag_bit (i : Nat) (hi : i < 32) : lockFlag[i] = decide (i = 31) := by
  exact lockFlag_fin ⟨i, hi⟩

theorem eventFlag_fin : ∀ i : Fin 32, eventFlag[i.val] = decide (i.val = 30) := by decide

theorem eventFlag_bit (i : Nat) (hi : i < 32) : eventFlag[i] = decide (i = 30) := by
  exact eventFlag_fin ⟨i, hi⟩

theorem waiters_bit {w i : Nat} (h : w < 2 ^ 30) (hi : i < 32) (hge : 30 ≤ i) : (BitVec.ofNat 32 w)[i] = false := by
  have : w.testBit i = false :=
    Nat.testBit_lt_two_pow (Nat.lt_of_lt_of_le h (Nat.pow_le_pow_right (by decide) hge))
  rw [← BitVec.getLsbD_eq_getElem, BitVec.getLsbD_ofNat]
  simp [this]

theorem pack_bit (w : Word) (h : w.waiters < 2 ^ 30) (i : Nat) (hi : i < 32) :
    w.pack[i] = if i = 31 then w.locked else if i = 30 then w.eventSet else (BitVec.ofNat 32 w.waiters)[i] := by
  have h1 := lockFlag_bit i hi
  have h2 := eventFlag_bit i hi
  have h3 := fun hge => @waiters_bit w.waiters i h hi hge
  have h0 : (0#32)[i] = false := by simp
  unfold Word.pack
  cases w.locked <;> cases w.eventSet <;>
    simp only [BitVec.getElem_or, if_true, if_false, Bool.false_eq_true, h0, h1, h2] <;> grind

/-- The parts of a packed word do not overlap, so `|` is `+`. -/
theorem pack_add (w : Word) (h : w.waiters < 2 ^ 30) :
    w.pack = ((if w.locked then lockFlag else 0#32) ||| (if w.eventSet then eventFlag else 0#32)) +
      BitVec.ofNat 32 w.waiters := by
  rw [BitVec.add_eq_or_of_and_eq_zero, Word.pack]
  ext i hi
  have h1 := lockFlag_bit i hi
  have h2 := eventFlag_bit i hi
  have h3 := fun hge => @waiters_bit w.waiters i h hi hge
  have h0 : (0#32)[i] = false := by simp
  cases w.locked <;> cases w.eventSet <;>
    simp only [BitVec.getElem_or, BitVec.getElem_and, if_true, if_false, Bool.false_eq_true, h0, h1, h2] <;> grind

theorem and_flag_ne_zero (c f : BitVec 32) (k : Nat) (hk : k < 32)
    (hf : ∀ i (hi : i < 32), f[i] = decide (i = k)) : (c &&& f != 0#32) = c[k] := by
  cases hc : c[k] with
  | true =>
    rw [bne_iff_ne]
    intro h
    have : (c &&& f)[k] = (0#32)[k] := by rw [h]
    simp [hf, hc] at this
  | false =>
    rw [bne_eq_false_iff_eq]
    ext i hi
    have := hf i hi
    by_cases hik : i = k
    · subst hik; simp [hc]
    · simp [this, hik]

/-- Reading the lock flag. -/
theorem testLock_pack (w : Word) (h : w.waiters < 2 ^ 30) : testLock w.pack = w.locked := by
  rw [testLock, and_flag_ne_zero _ _ 31 (by decide) lockFlag_bit, pack_bit w h]; simp

/-- Reading the event flag. -/
theorem testEvent_pack (w : Word) (h : w.waiters < 2 ^ 30) : testEvent w.pack = w.eventSet := by
  rw [testEvent, and_flag_ne_zero _ _ 30 (by decide) eventFlag_bit, pack_bit w h]; simp

theorem or_lock (w : Word) (h : w.waiters < 2 ^ 30) : setBit w.pack lockFlag = ({ w with locked := true } : Word).pack := by
  ext i hi
  rw [setBit, BitVec.getElem_or, pack_bit w h, pack_bit { w with locked := true } h, lockFlag_bit]
  simp only []; grind

theorem or_event (w : Word) (h : w.waiters < 2 ^ 30) : setBit w.pack eventFlag = ({ w with eventSet := true } : Word).pack := by
  ext i hi
  rw [setBit, BitVec.getElem_or, pack_bit w h, pack_bit { w with eventSet := true } h, eventFlag_bit]
  simp only []; grind

theorem and_not_lock (w : Word) (h : w.waiters < 2 ^ 30) : w.pack &&& ~~~ lockFlag = ({ w with locked := false } : Word).pack := by
  ext i hi
  rw [BitVec.getElem_and, BitVec.getElem_not, pack_bit w h, pack_bit { w with locked := false } h, lockFlag_bit]
  simp only []; grind

theorem and_not_event (w : Word) (h : w.waiters < 2 ^ 30) : w.pack &&& ~~~ eventFlag = ({ w with eventSet := false } : Word).pack := by
  ext i hi
  rw [BitVec.getElem_and, BitVec.getElem_not, pack_bit w h, pack_bit { w with eventSet := false } h, eventFlag_bit]
  simp only []; grind

theorem pack_succ (w : Word) (h : w.fits) : w.pack + 1#32 = ({ w with waiters := w.waiters + 1 } : Word).pack := by
  unfold Word.fits at h
  rw [pack_add w (by omega), pack_add { w with waiters := w.waiters + 1 } h, BitVec.add_assoc]
  congr 1
  simp [BitVec.ofNat_add]

theorem pack_pred (w : Word) (h : w.waiters < 2 ^ 30) (h0 : 0 < w.waiters) :
    w.pack - 1#32 = ({ w with waiters := w.waiters - 1 } : Word).pack := by
  have hw : w = { w with waiters := (w.waiters - 1) + 1 } := by
    cases w; simp at h0 ⊢; omega
  have hf : Word.fits { w with waiters := w.waiters - 1 } := by unfold Word.fits; simp only []; omega
  have := pack_succ { w with waiters := w.waiters - 1 } hf
  rw [← hw] at this
  rw [← this, BitVec.add_sub_cancel]

/-- `mark_waiting_and_try_lock` stores what the model says. -/
theorem markExpr_pack (w : Word) (h : w.fits) : markExpr w.pack = w.mark.pack := by
  have h' : w.waiters < 2 ^ 30 := by unfold Word.fits at h; omega
  unfold markExpr Word.mark
  rw [testLock_pack w h']
  cases hl : w.locked with
  | true => simpa [hl] using pack_succ w h
  | false => simpa [setBit] using or_lock w h'

/-- `clear_waiting_and_try_lock` starts from what the model says. -/
theorem guessExpr_pack (w : Word) (h : w.waiters < 2 ^ 30) : guessExpr w.pack = w.clearGuess.pack := by
  unfold guessExpr Word.clearGuess
  rw [and_not_lock w h]
  exact or_event { w with locked := false } h

/-- `clear_waiting_and_try_lock` stores what the model says (it is called by a registered waiter, so there is one). -/
theorem clearExpr_pack (w : Word) (h : w.waiters < 2 ^ 30) (h0 : 0 < w.waiters) : clearExpr w.pack = w.clear.pack := by
  unfold clearExpr Word.clear
  rw [testLock_pack w h]
  cases hl : w.locked with
  | true => simpa [hl] using and_not_event w h
  | false =>
    have h1 := pack_pred w h h0
    have h2 := or_lock { w with waiters := w.waiters - 1 } (by simp only []; omega)
    have h3 := and_not_event { w with waiters := w.waiters - 1, locked := true } (by simp only []; omega)
    simp only [setBit] at h2
    simp only [Bool.false_eq_true, if_false, h1, h2, h3]

/-- `unlock()` of a locked mutex clears exactly the lock flag. -/
theorem unlockExpr_pack (w : Word) (h : w.waiters < 2 ^ 30) :
    unlockExpr w.pack = ({ w with locked := !w.locked } : Word).pack := by
  unfold unlockExpr
  rw [pack_add w h, pack_add { w with locked := !w.locked } h]
  rw [BitVec.add_assoc, BitVec.add_comm (BitVec.ofNat 32 w.waiters) lockFlag, ← BitVec.add_assoc]
  have : ((if w.locked then lockFlag else 0#32) ||| (if w.eventSet then eventFlag else 0#32)) + lockFlag =
      ((if !w.locked then lockFlag else 0#32) ||| (if w.eventSet then eventFlag else 0#32)) := by
    cases w.locked <;> cases w.eventSet <;> decide
  rw [this]

/-- The signed comparison `old_count > lock_flag_value` of a locked word says whether there is a waiter or the
event flag is set; so the whole test of line 247 is the one in the model. -/
theorem mustSignal_pack (w : Word) (h : w.waiters < 2 ^ 30) (hl : w.locked = true) :
    mustSignal w.pack = (w.eventSet = false && decide (0 < w.waiters)) := by
  unfold mustSignal
  rw [testEvent_pack w h]
  cases he : w.eventSet with
  | true => simp
  | false =>
    have hn : w.pack = lockFlag + BitVec.ofNat 32 w.waiters := by rw [pack_add w h, hl, he]; simp
    simp only [Bool.not_false, Bool.true_and, decide_true, hn]
    rw [BitVec.slt_eq_decide, BitVec.toInt_eq_toNat_cond, BitVec.toInt_eq_toNat_cond]
    have e1 : lockFlag.toNat = 2147483648 := by decide
    have e2 : (lockFlag + BitVec.ofNat 32 w.waiters).toNat = 2147483648 + w.waiters := by
      rw [BitVec.toNat_add, BitVec.toNat_ofNat, e1]; omega
    rw [e1, e2]
    by_cases hw : 0 < w.waiters <;> simp [hw] <;> omega

/-- A timed waiter giving up (`InterlockedDecrement`, line 178) only changes the number of waiters. -/
theorem giveUp_pack (w : Word) (h : w.waiters < 2 ^ 30) (h0 : 0 < w.waiters) :
    w.pack - 1#32 = ({ w with waiters := w.waiters - 1 } : Word).pack := pack_pred w h h0

/-- Equal packed words are equal words: the compare-and-swaps of the code succeed exactly when those of the model do. -/
theorem pack_inj (w v : Word) (hw : w.waiters < 2 ^ 30) (hv : v.waiters < 2 ^ 30) (h : w.pack = v.pack) : w = v := by
  have h1 : w.locked = v.locked := by rw [← testLock_pack w hw, ← testLock_pack v hv, h]
  have h2 : w.eventSet = v.eventSet := by rw [← testEvent_pack w hw, ← testEvent_pack v hv, h]
  rw [pack_add w hw, pack_add v hv, h1, h2] at h
  have h3 := congrArg BitVec.toNat ((BitVec.add_right_inj _).mp h)
  simp only [BitVec.toNat_ofNat] at h3
  have : w.waiters = v.waiters := by omega
  cases w; cases v; simp_all

example : Word.pack { locked := true, eventSet := false, waiters := 5 } = 0x80000005#32 := by decide
example : clearExpr 0x40000002#32 = 0x80000001#32 := by decide

end Verif.WinMutex
