/-!
# Model of the processor listing reader

Models `/repo/include/boost/thread/detail/string_trim.hpp`, `/repo/include/boost/thread/detail/string_to_unsigned.hpp` and
`thread::physical_concurrency` (`/repo/src/pthread/thread.cpp` 517-586, Linux).

A `std::string` is a list of bytes, which may contain the byte 0. `UINT_MAX` is a parameter. The member functions of `std::string` and `std::getline` are written
out as their documentation says. Not modelled: failure to allocate or to read the file in the middle (the exception handler then returns
`hardware_concurrency()`; a read error looks like the end of the file).
-/

namespace Verif.CpuInfo

abbrev Str := List UInt8

/-- The set `" \t\r\n"` (string_trim.hpp 17, 21). -/
def blank (c : UInt8) : Bool := c == 32 || c == 9 || c == 13 || c == 10

/-- `std::string::find_first_not_of`. -/
def findFirstNot (p : UInt8 → Bool) : Str → Option Nat
  | [] => none
  | c :: cs => if p c then (findFirstNot p cs).map (· + 1) else some 0

/-- `std::string::find_last_not_of`. -/
def findLastNot (p : UInt8 → Bool) : Str → Option Nat
  | [] => none
  | c :: cs =>
    match findLastNot p cs with
    | some j => some (j + 1)
    | none => if p c then none else some 0

/-- `std::string::substr(pos, count)`, `pos` not beyond the end. -/
def substr (s : Str) (pos count : Nat) : Str := (s.drop pos).take count

/-- `string_trim` (string_trim.hpp 15-24). If the first search finds something, so does the second. -/
def trim (s : Str) : Str :=
  match findFirstNot blank s with
  | none => []
  | some i =>
    match findLastNot blank s with
    | none => []
    | some j => substr s i (j + 1 - i)

/-- The loop of `string_to_unsigned` (string_to_unsigned.hpp 25-47): the value, if the loop ends with `return true`. -/
def parseLoop (umax : Nat) (v : Nat) : Str → Option Nat
  | [] => some v
  | c :: cs =>
    if c = 0 then some v                                      -- `*p` is the end of the C string
    else if c < 48 || c > 57 then none
    else if v > umax / 10 then none
    else
      let q := c.toNat - 48
      if v = umax / 10 ∧ q > umax % 10 then none
      else parseLoop umax (v * 10 + q) cs

/-- `string_to_unsigned` (string_to_unsigned.hpp 16-50): `some v` if it returns `true`, with the value it stores. -/
def toUnsigned (umax : Nat) (s : Str) : Option Nat :=
  if s = [] then none else parseLoop umax 0 s

/-- Repeated `std::getline`: a last line that does not end with a newline counts unless it is empty. -/
def getlines : Str → List Str
  | [] => []
  | c :: cs =>
    if c = 10 then [] :: getlines cs
    else match getlines cs with
      | [] => [[c]]
      | l :: ls => (c :: l) :: ls

/-- `"physical id"` and `"core id"` (525). -/
def physicalId : Str := [112, 104, 121, 115, 105, 99, 97, 108, 32, 105, 100]
def coreId : Str := [99, 111, 114, 101, 32, 105, 100]

/-- `line.find(':')` and the two substrings (538-546). -/
def splitColon : Str → Option (Str × Str)
  | [] => none
  | c :: cs => if c = 58 then some ([], cs) else (splitColon cs).map fun (k, v) => (c :: k, v)

/-- `std::set<core_entry>::insert`; the set is a list without repetition. -/
def insert (p : Nat × Nat) (cores : List (Nat × Nat)) : List (Nat × Nat) := if p ∈ cores then cores else p :: cores

/-- The loop over the lines (534-571): `none` means that `hardware_concurrency()` is returned. -/
def scan (umax : Nat) (cur : Nat × Nat) (cores : List (Nat × Nat)) : List Str → Option (List (Nat × Nat))
  | [] => some cores
  | line :: rest =>
    if line = [] then scan umax cur cores rest
    else match splitColon line with
      | none => none
      | some (key, value) =>
        if trim key = physicalId then
          match toUnsigned umax (trim value) with
          | none => none
          | some n => scan umax (n, cur.2) cores rest
        else if trim key = coreId then
          match toUnsigned umax (trim value) with
          | none => none
          | some n => scan umax (cur.1, n) (insert (cur.1, n) cores) rest
        else scan umax cur cores rest

/-- `physical_concurrency` (517-578), given the content of `/proc/cpuinfo` and what `hardware_concurrency()` returns. A `core_entry` starts as (0, 0) (531); the
number of cores is converted to `unsigned`. -/
def physicalConcurrency (umax : Nat) (content : Str) (hw : Nat) : Nat :=
  match scan umax (0, 0) [] (getlines content) with
  | none => hw
  | some cores => if cores.length ≠ 0 then cores.length % (umax + 1) else hw

end Verif.CpuInfo
