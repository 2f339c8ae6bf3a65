/-!
# Base definitions shared by all model files

Outcomes, strings, character classification and the `std::string` operations used by FLPR.
-/

namespace FLPR

/-- A `std::string`.  A character with code `>= 128` stands for a non-ASCII byte. -/
abbrev Str := List Char

/-- The ways in which a modelled C++ function can fail to return normally. -/
inductive Fail where
  /-- a C++ exception leaves the function -/
  | exc
  /-- an `assert` fails -/
  | assertion
  /-- undefined behaviour -/
  | ub
  deriving DecidableEq, Repr

/-- Result of a modelled C++ function. -/
abbrev Res := Except Fail

/-- The NUL character, used by the code for "no open delimiter". -/
abbrev NUL : Char := '\x00'

/-- The exact set of characters for which `isspace` is true in the "C" locale. -/
def isSpace (c : Char) : Bool :=
  c == ' ' || c == '\t' || c == '\n' || c == '\x0b' || c == '\x0c' || c == '\r'

/-- `isdigit` in the "C" locale. -/
def isDigit (c : Char) : Bool := '0' ≤ c && c ≤ '9'

/-- ASCII lower-case letters to upper case, everything else unchanged ("C" locale). -/
def upChar (c : Char) : Char :=
  if 'a' ≤ c ∧ c ≤ 'z' then Char.ofNat (c.toNat - 32) else c

/-- ASCII upper-case letters to lower case, everything else unchanged ("C" locale). -/
def lowChar (c : Char) : Char :=
  if 'A' ≤ c ∧ c ≤ 'Z' then Char.ofNat (c.toNat + 32) else c

/-- A character that may be passed to the `<cctype>` functions as a plain `char`.
Non-ASCII bytes are negative on the usual platforms, which is undefined behaviour.
(Simplification: byte 0xFF equals `EOF` there and would be allowed; it is counted as UB.) -/
def isAscii (c : Char) : Bool := c.toNat < 128

/-- `std::isspace(c)` on a plain `char`. -/
def cIsSpace (c : Char) : Res Bool := if isAscii c then .ok (isSpace c) else .error .ub
/-- `std::isdigit(c)` on a plain `char`. -/
def cIsDigit (c : Char) : Res Bool := if isAscii c then .ok (isDigit c) else .error .ub
/-- `std::toupper(c)` on a plain `char`. -/
def cToUpper (c : Char) : Res Char := if isAscii c then .ok (upChar c) else .error .ub
/-- `std::tolower(c)` on a plain `char`. -/
def cToLower (c : Char) : Res Char := if isAscii c then .ok (lowChar c) else .error .ub

/-- `s[i]` of a `std::string`: the terminating NUL at `size()`, UB beyond. -/
def at' (s : Str) (i : Nat) : Res Char :=
  if i < s.length then .ok (s.getD i NUL) else if i = s.length then .ok NUL else .error .ub

/-- `s.substr(pos, n)`; throws `out_of_range` when `pos > size()`. -/
def substr (s : Str) (pos n : Nat) : Res Str :=
  if pos ≤ s.length then .ok ((s.drop pos).take n) else .error .exc

/-- `s.substr(pos)`. -/
def substrFrom (s : Str) (pos : Nat) : Res Str :=
  if pos ≤ s.length then .ok (s.drop pos) else .error .exc

/-- `s.find_first_not_of(set)`; `none` is `npos`. -/
def findFirstNotOf (set : Str) (s : Str) : Option Nat :=
  s.findIdx? (fun c => !set.contains c)

/-- One past `s.find_last_not_of(set)`, i.e. the length of `s` without its trailing run of
characters of `set`; `npos + 1` wraps to `0` exactly as here. -/
def lastNotOfSucc (set : Str) (s : Str) : Nat :=
  (s.reverse.dropWhile (fun c => set.contains c)).length

/-- `s.find(c)`; `none` is `npos`. -/
def findChar (c : Char) (s : Str) : Option Nat := s.findIdx? (· == c)

/-- `n` copies of a blank. -/
def blanks (n : Nat) : Str := List.replicate n ' '

/-- All characters of the string are plain ASCII. -/
def AsciiStr (s : Str) : Prop := ∀ c ∈ s, isAscii c = true

end FLPR
