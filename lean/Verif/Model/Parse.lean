/-!
# Number parsing

Models `try_string_to_uint64_limit` and its wrappers (src/util.c:55-297).
A C string is the list of its bytes followed by the terminator 0; the pointer
`s` together with the character already fetched into `c` is the list of the bytes
from `c` on.  Reading past the terminator is the outcome `ub`.
-/
namespace Splinter.Parse

/-- Outcome of a C function returning a success flag and an out parameter. -/
inductive Res (α : Type) where
  | ub | fail | ok (a : α)
deriving DecidableEq, Repr

/-- `isspace` in the C locale. -/
def isSpace (c : Nat) : Bool := c == 32 || (9 ≤ c && c ≤ 13)
/-- `isdigit`. -/
def isDigit (c : Nat) : Bool := 48 ≤ c && c ≤ 57
/-- `isupper` in the C locale. -/
def isUpper (c : Nat) : Bool := 65 ≤ c && c ≤ 90
/-- `isalpha` in the C locale. -/
def isAlpha (c : Nat) : Bool := isUpper c || (97 ≤ c && c ≤ 122)

/-- `do { c = *s++; } while (isspace(c));` (src/util.c:71-73) and
`while (isspace(c)) c = *s++;` (src/util.c:144-146); `none` when the terminator is
passed. -/
def skipSpaces : List Nat → Option (List Nat)
  | [] => none
  | c :: s => if isSpace c then skipSpaces s else some (c :: s)

/-- The digit of `c` (src/util.c:122-128); `none` is `goto invalid_characters`. -/
def digit (c : Nat) : Option Nat :=
  if isDigit c then some (c - 48)
  else if isAlpha c then some (if isUpper c then c - (65 - 10) else c - (97 - 10))
  else none

/-- The conversion loop (src/util.c:113-142) from accumulated `value` and
`converted_any`.  Returns value, `converted_any` and the position where it
stopped. -/
def convLoop (base limit : Nat) : Nat → Bool → List Nat → Res (Nat × Bool × List Nat)
  | _, _, [] => .ub
  | value, any, c :: s =>
    if c = 0 then .ok (value, any, c :: s)
    else if isSpace c then .ok (value, any, c :: s)
    else if ¬ c < 128 then .fail
    else
      match digit c with
      | none => .fail
      | some d =>
        if d ≥ base then .fail
        else if value > limit / base ∨ (value = limit / base ∧ d > limit % base) then .fail
        else convLoop base limit ((value * base % 2 ^ 64 + d) % 2 ^ 64) true s

/-- Base detection (src/util.c:86-100): base and the position of the first digit. -/
def detectBase : List Nat → Option (Nat × List Nat)
  | [] => none
  | c :: s =>
    if c = 48 then
      match s with
      | [] => none
      | x :: s' => if x = 120 ∨ x = 88 then some (16, s') else some (8, c :: s)
    else some (10, c :: s)

/-- Conversion and the checks after it (src/util.c:102-164). -/
def convert (negative : Bool) (base limit : Nat) (s : List Nat) : Res Nat :=
  match convLoop base limit 0 false s with
  | .ub => .ub
  | .fail => .fail
  | .ok (value, any, s) =>
    match skipSpaces s with
    | none => .ub
    | some [] => .ub
    | some (c :: _) =>
      if c ≠ 0 then .fail
      else if !any then .fail
      else .ok (if negative then (2 ^ 64 - value) % 2 ^ 64 else value)

/-- From base detection to the end (src/util.c:86-164). -/
def parseTail (negative : Bool) (limit : Nat) (s : List Nat) : Res Nat :=
  match detectBase s with
  | none => .ub
  | some (base, s) => convert negative base limit s

/-- `try_string_to_uint64_limit` (src/util.c:60-175). -/
def tryLimit (str : List Nat) (negLimit posLimit : Nat) : Res Nat :=
  match skipSpaces (str ++ [0]) with
  | none => .ub
  | some [] => .ub
  | some (c :: s) =>
    if c = 45 then
      if negLimit = 0 then .fail else parseTail true negLimit s
    else if c = 43 then parseTail false posLimit s
    else parseTail false posLimit (c :: s)

/-- `try_string_to_uint64` (src/util.c:199-206). -/
def tryUint64 (str : List Nat) : Res Nat := tryLimit str 0 (2 ^ 64 - 1)

/-- `(int64)u64` on a two's complement machine (src/util.c:221). -/
def toInt64 (u : Nat) : Int := if u < 2 ^ 63 then u else (u : Int) - 2 ^ 64

/-- `try_string_to_int64` (src/util.c:208-223). -/
def tryInt64 (str : List Nat) : Res Int :=
  match tryLimit str ((2 ^ 63 - 1) + 1) (2 ^ 63 - 1) with
  | .ub => .ub
  | .fail => .fail
  | .ok u => .ok (toInt64 u)

/-- `try_string_to_uint32/16/8` (src/util.c:225-259); `bits` is 32, 16 or 8. -/
def tryUint (bits : Nat) (str : List Nat) : Res Nat :=
  match tryUint64 str with
  | .ub => .ub
  | .fail => .fail
  | .ok t => if t > 2 ^ bits - 1 then .fail else .ok t

/-- `try_string_to_int32/16/8` (src/util.c:261-295); `bits` is 32, 16 or 8. -/
def tryInt (bits : Nat) (str : List Nat) : Res Int :=
  match tryInt64 str with
  | .ub => .ub
  | .fail => .fail
  | .ok t => if t > 2 ^ (bits - 1) - 1 ∨ t < -2 ^ (bits - 1) then .fail else .ok t

end Splinter.Parse
