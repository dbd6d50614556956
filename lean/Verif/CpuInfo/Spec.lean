import Verif.CpuInfo.Model
import Mathlib.Data.Finset.Card
/-!
# What the processor listing reader promises
-/

namespace Verif.CpuInfo

/-- A decimal digit. -/
def IsDigit (c : UInt8) : Prop := 48 ≤ c ∧ c ≤ 57

/-- The number a decimal numeral stands for: each digit times the power of ten of its place. -/
def decimal : Str → Nat
  | [] => 0
  | c :: cs => (c.toNat - 48) * 10 ^ cs.length + decimal cs

/-- A blank: space, tab, carriage return or newline. -/
def IsBlank (c : UInt8) : Prop := c = 32 ∨ c = 9 ∨ c = 13 ∨ c = 10

/-- `r` is `s` without its leading and trailing blanks. -/
def Trimmed (s r : Str) : Prop :=
  ∃ pre post, s = pre ++ r ++ post ∧ (∀ c ∈ pre, IsBlank c) ∧ (∀ c ∈ post, IsBlank c) ∧
    (∀ c, r.head? = some c → ¬ IsBlank c) ∧ (∀ c, r.getLast? = some c → ¬ IsBlank c)

/-- The two keys of interest. -/
def physicalKey : Str := "physical id".toList.map fun c => c.toNat.toUInt8
def coreKey : Str := "core id".toList.map fun c => c.toNat.toUInt8

/-- A line of the listing: `key : value`, with blanks around both; the key does not contain a colon. -/
def Entry (line key value : Str) : Prop :=
  ∃ k v, line = k ++ 58 :: v ∧ 58 ∉ k ∧ Trimmed k key ∧ Trimmed v value

/-- A numeral that `unsigned` can hold. -/
def Numeral (umax : Nat) (s : Str) (n : Nat) : Prop := s ≠ [] ∧ (∀ c ∈ s, IsDigit c) ∧ decimal s = n ∧ n ≤ umax

/-- A line of no interest: empty, or with another key. -/
def Other (line : Str) : Prop := line = [] ∨ ∃ k v, Entry line k v ∧ k ≠ physicalKey ∧ k ≠ coreKey

/-- The lines of one processor, in the order the kernel writes them: its physical id, its core id, and lines of no interest. -/
def Processor (umax : Nat) (lines : List Str) (p c : Nat) : Prop :=
  ∃ l₁ ph l₂ co l₃ pv cv, lines = l₁ ++ ph :: (l₂ ++ co :: l₃) ∧ (∀ l ∈ l₁, Other l) ∧ (∀ l ∈ l₂, Other l) ∧ (∀ l ∈ l₃, Other l) ∧
    Entry ph physicalKey pv ∧ Numeral umax pv p ∧ Entry co coreKey cv ∧ Numeral umax cv c

/-- A listing of processors: the lines of each in turn. -/
inductive Listing (umax : Nat) : List Str → List (Nat × Nat) → Prop
  | nil : Listing umax [] []
  | cons {b ls p c ps} : Processor umax b p c → Listing umax ls ps → Listing umax (b ++ ls) ((p, c) :: ps)

/-- The lines of a text, each terminated by a newline. -/
def unlines (ls : List Str) : Str := ls.flatMap fun l => l ++ [10]

/-- A malformed line: not empty, and either without a colon or with an id that is not a numeral `unsigned` can hold. -/
def Malformed (umax : Nat) (line : Str) : Prop :=
  line ≠ [] ∧ ((∀ k v, ¬ Entry line k v) ∨ ∃ k v, Entry line k v ∧ (k = physicalKey ∨ k = coreKey) ∧ ∀ n, ¬ Numeral umax v n)

/-- The last physical id in `lines` is `p`, or there is none and `p` is 0. -/
def LastPhys (umax : Nat) (lines : List Str) (p : Nat) : Prop :=
  (∃ a ph b v, lines = a ++ ph :: b ∧ Entry ph physicalKey v ∧ Numeral umax v p ∧ ∀ l ∈ b, ∀ w, ¬ Entry l physicalKey w) ∨
    ((∀ l ∈ lines, ∀ w, ¬ Entry l physicalKey w) ∧ p = 0)

/-- Some line of `lines` has core id `c`, and the last physical id above it is `p`. -/
def Pair (umax : Nat) (lines : List Str) (p c : Nat) : Prop :=
  ∃ a co b v, lines = a ++ co :: b ∧ LastPhys umax a p ∧ Entry co coreKey v ∧ Numeral umax v c

end Verif.CpuInfo
