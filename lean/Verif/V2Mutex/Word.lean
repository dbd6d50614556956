import Verif.V2Mutex.Model
/-!
# The packed word of `upgrade_mutex`

Models `state_` and its constants (`/repo/include/boost/thread/v2/shared_mutex.hpp` 429-437: `typedef unsigned count_t`, `write_entered_ = 1U << (sizeof(count_t)*CHAR_BIT - 1)`, `upgradable_entered_ = write_entered_ >> 1`,
`n_readers_ = ~(write_entered_ | upgradable_entered_)`) for 32-bit `unsigned`, and proves that each expression of the code does on the word what `Verif.V2Mutex.Model` does on the triple.
-/

set_option linter.unusedSimpArgs false

namespace Verif.V2Mutex.Word

abbrev W := BitVec 32

/-- `write_entered_` -/
def we : W := 1#32 <<< 31
/-- `upgradable_entered_` -/
def ue : W := we >>> 1
/-- `n_readers_` -/
def nr : W := ~~~(we ||| ue)

/-- The largest number of readers. -/
def limit : Nat := 2 ^ 30 - 1

theorem nr_eq : nr = BitVec.ofNat 32 limit := by decide

/-- The word of a triple. -/
def pack (w u : Bool) (n : Nat) : W := (if w then we else 0#32) ||| (if u then ue else 0#32) ||| BitVec.ofNat 32 n

theorem we_bit (i : Nat) : we.getLsbD i = decide (i = 31) := by
  rw [show we = BitVec.twoPow 32 31 from by decide, BitVec.getLsbD_twoPow]
  simp [eq_comm]

theorem ue_bit (i : Nat) : ue.getLsbD i = decide (i = 30) := by
  rw [show ue = BitVec.twoPow 32 30 from by decide, BitVec.getLsbD_twoPow]
  simp [eq_comm]

theorem nr_bit (i : Nat) : nr.getLsbD i = decide (i < 30) := by
  simp only [nr, BitVec.getLsbD_not, BitVec.getLsbD_or, we_bit, ue_bit]
  rw [Bool.eq_iff_iff]
  simp only [Bool.and_eq_true, decide_eq_true_eq, Bool.not_eq_true', Bool.or_eq_false_iff, decide_eq_false_iff_not]
  omega

theorem num_bit {n : Nat} (h : n ≤ limit) (i : Nat) : (BitVec.ofNat 32 n).getLsbD i = (decide (i < 30) && n.testBit i) := by
  rw [BitVec.getLsbD_ofNat]
  by_cases hi : i < 30
  · have : i < 32 := by omega
    simp [hi, this]
  · have : n.testBit i = false := Nat.testBit_lt_two_pow (Nat.lt_of_lt_of_le (show n < 2 ^ 30 by simp only [limit] at h; omega) (Nat.pow_le_pow_right (by omega) (by omega)))
    simp [hi, this]

theorem if_bit (b : Bool) (x : W) (i : Nat) : (if b then x else 0#32).getLsbD i = (b && x.getLsbD i) := by
  cases b <;> simp

theorem pack_bit (w u : Bool) {n : Nat} (h : n ≤ limit) (i : Nat) : (pack w u n).getLsbD i = ((w && decide (i = 31)) || (u && decide (i = 30)) || (decide (i < 30) && n.testBit i)) := by
  simp only [pack, BitVec.getLsbD_or, num_bit h, if_bit, we_bit, ue_bit]

/-- Two words are equal if their bits are. -/
theorem ext {x y : W} (h : ∀ i, i < 32 → x.getLsbD i = y.getLsbD i) : x = y := BitVec.eq_of_getLsbD_eq h

/-! ## Reading -/

/-- `state_ & n_readers_` is the number of readers. -/
theorem readers (w u : Bool) {n : Nat} (h : n ≤ limit) : pack w u n &&& nr = BitVec.ofNat 32 n := by
  refine ext fun i hi => ?_
  simp only [BitVec.getLsbD_and, pack_bit w u h, nr_bit, num_bit h]
  grind

/-- `state_ & write_entered_` tells whether a writer has entered. -/
theorem writer (w u : Bool) {n : Nat} (h : n ≤ limit) : pack w u n &&& we = if w then we else 0#32 := by
  refine ext fun i hi => ?_
  simp only [BitVec.getLsbD_and, pack_bit w u h, we_bit, if_bit]
  grind

/-- `state_ & upgradable_entered_` tells whether there is an upgrade owner. -/
theorem upgrader (w u : Bool) {n : Nat} (h : n ≤ limit) : pack w u n &&& ue = if u then ue else 0#32 := by
  refine ext fun i hi => ?_
  simp only [BitVec.getLsbD_and, pack_bit w u h, ue_bit, if_bit]
  grind

theorem num_inj {n m : Nat} (hn : n ≤ limit) (hm : m ≤ limit) (h : BitVec.ofNat 32 n = BitVec.ofNat 32 m) : n = m := by
  have := congrArg BitVec.toNat h
  simp only [BitVec.toNat_ofNat, limit] at this hn hm
  omega

/-- The number of readers is compared with a number. -/
theorem readers_eq (w u : Bool) {n m : Nat} (h : n ≤ limit) (hm : m ≤ limit) : pack w u n &&& nr = BitVec.ofNat 32 m ↔ n = m := by
  rw [readers w u h]
  exact ⟨num_inj h hm, fun e => by rw [e]⟩

/-- `(state_ & write_entered_) != 0`. -/
theorem writer_ne (w u : Bool) {n : Nat} (h : n ≤ limit) : pack w u n &&& we ≠ 0#32 ↔ w = true := by
  rw [writer w u h]
  cases w
  · simp
  · simp; decide

/-- `(state_ & upgradable_entered_) != 0`. -/
theorem upgrader_ne (w u : Bool) {n : Nat} (h : n ≤ limit) : pack w u n &&& ue ≠ 0#32 ↔ u = true := by
  rw [upgrader w u h]
  cases u
  · simp
  · simp; decide

/-- `no_writer_no_upgrader` 465-468 -/
theorem no_writer_no_upgrader (w u : Bool) {n : Nat} (h : n ≤ limit) : pack w u n &&& (we ||| ue) = 0#32 ↔ (!w && !u) = true := by
  rw [BitVec.and_or_distrib_left, writer w u h, upgrader w u h]
  cases w <;> cases u <;> decide

/-- The triple can be read off the word: no two triples have the same word. -/
theorem pack_inj {w u w' u' : Bool} {n n' : Nat} (h : n ≤ limit) (h' : n' ≤ limit) (e : pack w u n = pack w' u' n') : w = w' ∧ u = u' ∧ n = n' := by
  refine ⟨?_, ?_, ?_⟩
  · have h1 := writer_ne w u h; have h2 := writer_ne w' u' h'
    rw [e] at h1
    have := h1.symm.trans h2
    cases w <;> cases w' <;> simp_all
  · have h1 := upgrader_ne w u h; have h2 := upgrader_ne w' u' h'
    rw [e] at h1
    have := h1.symm.trans h2
    cases u <;> cases u' <;> simp_all
  · have h1 := readers w u h; have h2 := readers w' u' h'
    rw [e, h2] at h1
    exact (num_inj h' h h1).symm

/-- `no_writer_no_upgrader_no_readers` 470-475: `state_ == 0` -/
theorem is_free (w u : Bool) {n : Nat} (h : n ≤ limit) : pack w u n = 0#32 ↔ (!w && !u && n == 0) = true := by
  constructor
  · intro e
    obtain ⟨rfl, rfl, rfl⟩ := pack_inj h (by decide) (e.trans (show 0#32 = pack false false 0 by decide))
    rfl
  · intro e
    simp only [Bool.and_eq_true, Bool.not_eq_true', beq_iff_eq] at e
    obtain ⟨⟨rfl, rfl⟩, rfl⟩ := e
    decide

/-- `no_writer_no_upgrader_one_reader` 477-482: `state_ == 1` -/
theorem is_one (w u : Bool) {n : Nat} (h : n ≤ limit) : pack w u n = 1#32 ↔ (!w && !u && n == 1) = true := by
  constructor
  · intro e
    obtain ⟨rfl, rfl, rfl⟩ := pack_inj h (by decide) (e.trans (show 1#32 = pack false false 1 by decide))
    rfl
  · intro e
    simp only [Bool.and_eq_true, Bool.not_eq_true', beq_iff_eq] at e
    obtain ⟨⟨rfl, rfl⟩, rfl⟩ := e
    decide

/-! ## Writing -/

/-- `state_ |= write_entered_` (657, 683, 704) -/
theorem set_writer (w u : Bool) {n : Nat} (h : n ≤ limit) : pack w u n ||| we = pack true u n := by
  refine ext fun i hi => ?_
  simp only [BitVec.getLsbD_or, pack_bit _ _ h, we_bit]
  grind

/-- `state_ &= ~write_entered_` (687, 708) -/
theorem clear_writer (w u : Bool) {n : Nat} (h : n ≤ limit) : pack w u n &&& ~~~we = pack false u n := by
  refine ext fun i hi => ?_
  simp only [BitVec.getLsbD_and, BitVec.getLsbD_not, pack_bit _ _ h, we_bit]
  grind

/-- `state_ |= upgradable_entered_` (944, 960) -/
theorem set_upgrader (w u : Bool) {n : Nat} (h : n ≤ limit) : pack w u n ||| ue = pack w true n := by
  refine ext fun i hi => ?_
  simp only [BitVec.getLsbD_or, pack_bit _ _ h, ue_bit]
  grind

/-- `state_ &= ~upgradable_entered_` (972) -/
theorem clear_upgrader (w u : Bool) {n : Nat} (h : n ≤ limit) : pack w u n &&& ~~~ue = pack w false n := by
  refine ext fun i hi => ?_
  simp only [BitVec.getLsbD_and, BitVec.getLsbD_not, pack_bit _ _ h, ue_bit]
  grind

/-- `state_ &= ~n_readers_; state_ |= num_readers` -/
theorem set_readers (w u : Bool) {n m : Nat} (h : n ≤ limit) (hm : m ≤ limit) : (pack w u n &&& ~~~nr) ||| BitVec.ofNat 32 m = pack w u m := by
  refine ext fun i hi => ?_
  simp only [BitVec.getLsbD_or, BitVec.getLsbD_and, BitVec.getLsbD_not, pack_bit _ _ h, pack_bit _ _ hm, nr_bit, num_bit hm]
  grind

/-- `num_readers = (state_ & n_readers_) + 1; state_ &= ~n_readers_; state_ |= num_readers` (733-735, 745-747, 762-764, 779-781) -/
theorem add_reader (w u : Bool) {n : Nat} (h : n < limit) : (pack w u n &&& ~~~nr) ||| ((pack w u n &&& nr) + 1#32) = pack w u (n + 1) := by
  rw [readers w u (by omega), show BitVec.ofNat 32 n + 1#32 = BitVec.ofNat 32 (n + 1) from (BitVec.ofNat_add n 1).symm]
  exact set_readers w u (by omega) (by omega)

theorem num_pred {n : Nat} (h : 0 < n) : BitVec.ofNat 32 n - 1#32 = BitVec.ofNat 32 (n - 1) := by
  obtain ⟨m, rfl⟩ : ∃ m, n = m + 1 := ⟨n - 1, by omega⟩
  rw [BitVec.ofNat_add, BitVec.add_sub_cancel]
  rfl

/-- `num_readers = (state_ & n_readers_) - 1; state_ &= ~n_readers_; state_ |= num_readers` (790-792) -/
theorem sub_reader (w u : Bool) {n : Nat} (h : n ≤ limit) (hn : 0 < n) : (pack w u n &&& ~~~nr) ||| ((pack w u n &&& nr) - 1#32) = pack w u (n - 1) := by
  rw [readers w u h, num_pred hn]
  exact set_readers w u h (by omega)

/-- The test `num_readers == n_readers_ - 1` (795). -/
theorem was_full {n : Nat} (h : n ≤ limit) (hn : 0 < n) : BitVec.ofNat 32 n - 1#32 = nr - 1#32 ↔ n - 1 = limit - 1 := by
  rw [num_pred hn, nr_eq, num_pred (by decide)]
  exact ⟨num_inj (by omega) (by omega), fun e => by rw [e]⟩

/-- `num_readers = (state_ & n_readers_) + 1; state_ &= ~n_readers_; state_ |= upgradable_entered_ | num_readers` (811-813, 823-825, 840-842, 857-859) -/
theorem add_upgrader (w u : Bool) {n : Nat} (h : n < limit) : (pack w u n &&& ~~~nr) ||| (ue ||| ((pack w u n &&& nr) + 1#32)) = pack w true (n + 1) := by
  rw [← set_upgrader w u (show n + 1 ≤ limit by omega), ← add_reader w u h, BitVec.or_comm ue, ← BitVec.or_assoc]

/-- `num_readers = (state_ & n_readers_) - 1; state_ &= ~(upgradable_entered_ | n_readers_); state_ |= num_readers` (870-872) -/
theorem sub_upgrader (w u : Bool) {n : Nat} (h : n ≤ limit) (hn : 0 < n) : (pack w u n &&& ~~~(ue ||| nr)) ||| ((pack w u n &&& nr) - 1#32) = pack w false (n - 1) := by
  have hm : n - 1 ≤ limit := by omega
  rw [readers w u h, num_pred hn]
  refine ext fun i hi => ?_
  simp only [BitVec.getLsbD_or, BitVec.getLsbD_and, BitVec.getLsbD_not, pack_bit _ _ h, pack_bit _ _ hm, nr_bit, ue_bit, num_bit hm]
  grind

/-- `num_readers = (state_ & n_readers_) - 1; state_ &= ~n_readers_; state_ |= (write_entered_ | num_readers)` (905-907) -/
theorem reader_to_writer (w u : Bool) {n : Nat} (h : n ≤ limit) (hn : 0 < n) : (pack w u n &&& ~~~nr) ||| (we ||| ((pack w u n &&& nr) - 1#32)) = pack true u (n - 1) := by
  rw [← set_writer w u (show n - 1 ≤ limit by omega), ← sub_reader w u h hn, BitVec.or_comm we, ← BitVec.or_assoc]

/-- `num_readers = (state_ & n_readers_) - 1; state_ &= ~(upgradable_entered_ | n_readers_); state_ |= write_entered_ | num_readers` (987-989, 1016-1018) -/
theorem upgrader_to_writer (w u : Bool) {n : Nat} (h : n ≤ limit) (hn : 0 < n) : (pack w u n &&& ~~~(ue ||| nr)) ||| (we ||| ((pack w u n &&& nr) - 1#32)) = pack true false (n - 1) := by
  rw [← set_writer w false (show n - 1 ≤ limit by omega), ← sub_upgrader w u h hn, BitVec.or_comm we, ← BitVec.or_assoc]

/-- `++num_readers; state_ &= ~(write_entered_ | n_readers_); state_ |= num_readers` (911-913) -/
theorem give_up_reader (w u : Bool) {n saved : Nat} (h : n ≤ limit) (hs : saved < limit) : (pack w u n &&& ~~~(we ||| nr)) ||| (BitVec.ofNat 32 saved + 1#32) = pack false u (saved + 1) := by
  have hm : saved + 1 ≤ limit := by omega
  rw [show BitVec.ofNat 32 saved + 1#32 = BitVec.ofNat 32 (saved + 1) from (BitVec.ofNat_add saved 1).symm]
  refine ext fun i hi => ?_
  simp only [BitVec.getLsbD_or, BitVec.getLsbD_and, BitVec.getLsbD_not, pack_bit _ _ h, pack_bit _ _ hm, nr_bit, we_bit, num_bit hm]
  grind

/-- `++num_readers; state_ &= ~(write_entered_ | n_readers_); state_ |= (upgradable_entered_ | num_readers)` (1022-1024) -/
theorem give_up_upgrader (w u : Bool) {n saved : Nat} (h : n ≤ limit) (hs : saved < limit) : (pack w u n &&& ~~~(we ||| nr)) ||| (ue ||| (BitVec.ofNat 32 saved + 1#32)) = pack false true (saved + 1) := by
  rw [← set_upgrader false u (show saved + 1 ≤ limit by omega), ← give_up_reader w u h hs, BitVec.or_comm ue, ← BitVec.or_assoc]

/-- `state_ = 0` (642, 721) -/
theorem word_free : 0#32 = pack false false 0 := by decide
/-- `state_ = write_entered_` (668, 889, 1003) -/
theorem word_writer : we = pack true false 0 := by decide
/-- `state_ = 1` (927) -/
theorem word_reader : 1#32 = pack false false 1 := by decide
/-- `state_ = upgradable_entered_ | 1` (1037) -/
theorem word_upgrader : ue ||| 1#32 = pack false true 1 := by decide

/-! ## The bit operations of each function, and their effect on the triple -/

/-- The word of a state. -/
def _root_.Verif.V2Mutex.State.word (s : State) : W := pack s.w s.u s.n

/-- The number of readers, `state_ & n_readers_`. -/
def num (x : W) : W := x &&& nr

/-- The wait predicates on `gate1_` as the code evaluates them: 656, 732, 810, 900, 955. -/
def readyCode (x : W) : Op → Bool
  | .lock => x &&& (we ||| ue) == 0#32
  | .shared => x &&& we == 0#32 && x &&& nr != nr
  | .upgrade => x &&& (we ||| ue) == 0#32 && x &&& nr != nr
  | .sharedToExclusive => x &&& (we ||| ue) == 0#32
  | .sharedToUpgrade => x &&& (we ||| ue) == 0#32
  | .upgradeToExclusive => true

/-- What the code does to `state_` when the predicate holds: 657, 733-735, 811-813, 905-907, 960, 987-989. -/
def passCode (x : W) : Op → W
  | .lock => x ||| we
  | .shared => (x &&& ~~~nr) ||| (num x + 1#32)
  | .upgrade => (x &&& ~~~nr) ||| (ue ||| (num x + 1#32))
  | .sharedToExclusive => (x &&& ~~~nr) ||| (we ||| (num x - 1#32))
  | .sharedToUpgrade => x ||| ue
  | .upgradeToExclusive => (x &&& ~~~(ue ||| nr)) ||| (we ||| (num x - 1#32))

/-- What the code does to `state_` at the deadline on `gate2_`: 687, 911-913, 1022-1024. -/
def failCode (x saved : W) : Op → W
  | .sharedToExclusive => (x &&& ~~~(we ||| nr)) ||| (saved + 1#32)
  | .upgradeToExclusive => (x &&& ~~~(we ||| nr)) ||| (ue ||| (saved + 1#32))
  | _ => x &&& ~~~we

/-- The tests of the try operations: 664, 741, 819, 885, 940, 999. -/
def tryReadyCode (x : W) : TryOp → Bool
  | .lock => x == 0#32
  | .shared => x &&& we == 0#32 && x &&& nr != nr
  | .upgrade => x &&& (we ||| ue) == 0#32 && x &&& nr != nr
  | .sharedToExclusive => x == 1#32
  | .sharedToUpgrade => x &&& (we ||| ue) == 0#32
  | .upgradeToExclusive => x &&& nr == 1#32

/-- What the try operations do to `state_`: 668, 745-747, 823-825, 889, 944, 1003. -/
def tryCode (x : W) : TryOp → W
  | .lock => we
  | .shared => (x &&& ~~~nr) ||| (num x + 1#32)
  | .upgrade => (x &&& ~~~nr) ||| (ue ||| (num x + 1#32))
  | .sharedToExclusive => we
  | .sharedToUpgrade => x ||| ue
  | .upgradeToExclusive => we

/-- What the releases do to `state_`: 721, 790-792, 870-872, 927, 972, 1037. -/
def downCode (x : W) : Down → W
  | .unlock => 0#32
  | .unlockShared => (x &&& ~~~nr) ||| (num x - 1#32)
  | .unlockUpgrade => (x &&& ~~~(ue ||| nr)) ||| (num x - 1#32)
  | .exclusiveToShared => 1#32
  | .upgradeToShared => x &&& ~~~ue
  | .exclusiveToUpgrade => ue ||| 1#32

theorem writer_eq (w u : Bool) {n : Nat} (h : n ≤ limit) : (pack w u n &&& we == 0#32) = !w := by
  have := writer_ne w u h
  cases w <;> simp_all

theorem free_eq (w u : Bool) {n : Nat} (h : n ≤ limit) : (pack w u n &&& (we ||| ue) == 0#32) = (!w && !u) := by
  have := no_writer_no_upgrader w u h
  rw [Bool.eq_iff_iff, beq_iff_eq]
  exact this

theorem full_ne (w u : Bool) {n : Nat} (h : n ≤ limit) : (pack w u n &&& nr != nr) = (n != limit) := by
  have := readers_eq w u h (Nat.le_refl limit)
  rw [← nr_eq] at this
  rw [Bool.eq_iff_iff, bne_iff_ne, bne_iff_ne, ne_eq, ne_eq, this]

/-- The wait predicates. -/
theorem ready_word (s : State) (hl : s.limit = limit) (hn : s.n ≤ limit) (op : Op) : readyCode s.word op = op.ready s := by
  cases op <;> simp only [readyCode, Op.ready, State.word, State.noWriterNoUpgrader, State.noWriterNoMaxReaders, State.noWriterNoUpgraderNoMaxReaders, hl, writer_eq _ _ hn, free_eq _ _ hn, full_ne _ _ hn]

/-- Passing `gate1_`. -/
theorem pass1_word (s : State) (hl : s.limit = limit) (hn : s.n ≤ limit) (t : Nat) (tm : Bool) (op : Op) (hr : op.ready s = true) (ha : op.asserts s = true) : (s.pass1 t tm op).1.word = passCode s.word op := by
  have e2 : ∀ (s : State) op sv tm, (s.enter2 t op sv tm).1.word = s.word := by
    intro s op sv tm
    simp only [State.enter2]
    split <;> rfl
  cases op
  · simp only [State.pass1, e2, passCode]
    exact (set_writer s.w s.u hn).symm
  · simp only [Op.ready, State.noWriterNoMaxReaders, Bool.and_eq_true, bne_iff_ne, ne_eq] at hr
    exact (add_reader s.w s.u (by omega)).symm
  · simp only [Op.ready, State.noWriterNoUpgraderNoMaxReaders, Bool.and_eq_true, bne_iff_ne, ne_eq] at hr
    exact (add_upgrader s.w s.u (by omega)).symm
  · simp only [Op.asserts, decide_eq_true_eq] at ha
    simp only [State.pass1, e2, passCode]
    exact (reader_to_writer s.w s.u hn ha).symm
  · exact (set_upgrader s.w s.u hn).symm
  · simp only [Op.asserts, Bool.and_eq_true, decide_eq_true_eq] at ha
    simp only [State.pass1, e2, passCode]
    exact (upgrader_to_writer s.w s.u hn ha.2).symm

/-- Giving up on `gate2_`. -/
theorem fail2_word (s : State) (hn : s.n ≤ limit) (t saved : Nat) (hs : saved < limit) (op : Op) : (s.fail2 t saved op).word = failCode s.word (BitVec.ofNat 32 saved) op := by
  cases op <;> first
    | exact (clear_writer s.w s.u hn).symm
    | exact (give_up_reader s.w s.u hn hs).symm
    | exact (give_up_upgrader s.w s.u hn hs).symm

/-- The tests of the try operations. -/
theorem tryReady_word (s : State) (hl : s.limit = limit) (hn : s.n ≤ limit) (op : TryOp) : tryReadyCode s.word op = op.ready s := by
  cases op
  · simp only [tryReadyCode, State.word, TryOp.ready]
    rw [Bool.eq_iff_iff, beq_iff_eq]
    exact is_free s.w s.u hn
  · exact ready_word s hl hn .shared
  · exact ready_word s hl hn .upgrade
  · simp only [tryReadyCode, State.word, TryOp.ready]
    rw [Bool.eq_iff_iff, beq_iff_eq]
    exact is_one s.w s.u hn
  · exact ready_word s hl hn .sharedToUpgrade
  · simp only [tryReadyCode, State.word, TryOp.ready]
    rw [Bool.eq_iff_iff, beq_iff_eq, beq_iff_eq]
    exact readers_eq s.w s.u hn (by decide)

/-- The try operations. -/
theorem try_word (s : State) (hl : s.limit = limit) (hn : s.n ≤ limit) (op : TryOp) (hr : op.ready s = true) : (op.grant s).word = tryCode s.word op := by
  cases op
  · exact word_writer.symm
  · simp only [TryOp.ready, State.noWriterNoMaxReaders, Bool.and_eq_true, bne_iff_ne, ne_eq] at hr
    exact (add_reader s.w s.u (by omega)).symm
  · simp only [TryOp.ready, State.noWriterNoUpgraderNoMaxReaders, Bool.and_eq_true, bne_iff_ne, ne_eq] at hr
    exact (add_upgrader s.w s.u (by omega)).symm
  · exact word_writer.symm
  · exact (set_upgrader s.w s.u hn).symm
  · exact word_writer.symm

theorem notifyOne_word {s s' : State} {pick : Option Nat} (h : s.notifyOne1 pick = some s' ∨ s.notifyOne2 pick = some s') : s'.word = s.word := by
  cases pick <;> simp only [State.notifyOne1, State.notifyOne2] at h <;> rcases h with h | h <;> (repeat' split at h) <;> cases h <;> rfl

/-- The releases and downward conversions. -/
theorem down_word (s s' : State) (hn : s.n ≤ limit) (pick : Option Nat) (d : Down) (ha : d.asserts s = true) (hs : s.down pick d = some s') : s'.word = downCode s.word d := by
  cases d <;> simp only [State.down, Option.some.injEq] at hs
  · subst hs; exact word_free.symm
  · simp only [Down.asserts, decide_eq_true_eq] at ha
    have key : ({ s with n := s.n - 1 } : State).word = downCode s.word .unlockShared := (sub_reader s.w s.u hn ha).symm
    rw [← key]
    split at hs
    · split at hs
      · exact notifyOne_word (Or.inl hs)
      · cases hs; rfl
    · split at hs
      · exact notifyOne_word (Or.inr hs)
      · cases hs; rfl
  · subst hs
    simp only [Down.asserts, Bool.and_eq_true, decide_eq_true_eq] at ha
    exact (sub_upgrader s.w s.u hn ha.2).symm
  · subst hs; exact word_reader.symm
  · subst hs; exact (clear_upgrader s.w s.u hn).symm
  · subst hs; exact word_upgrader.symm

example : ∃ s : State, s.limit = limit ∧ 0 < s.n ∧ s.n ≤ limit ∧ Op.shared.ready s = true ∧ Op.asserts s .sharedToExclusive = true := ⟨{ init 2 limit with n := 5 }, by decide, by decide, by decide, by decide, by decide⟩

end Verif.V2Mutex.Word
