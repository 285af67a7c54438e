/-!
# Keys: byte-string comparison and key kinds

Models `slice_lex_cmp` (src/util.h:89-103), the default data configuration
(src/default_data_config.c:22-30), and the internal key type with infinities
(src/data_internal.h:28-110, `data_key_compare` 550-558).
-/
namespace Splinter

/-- Contents of a `slice` (include/splinterdb/public_util.h): the bytes it
points to.  Simplified: the length is the length of the list, pointers and the
NULL slice are not represented. -/
abbrev Bytes := List UInt8

/-- `memcmp(a, b, n)` for `n = min (length a) (length b)` (the only use in
`slice_lex_cmp`, src/util.h:95).  The C standard fixes only the sign; the model
returns the difference of the first differing bytes. -/
def memcmp : Bytes → Bytes → Int
  | [], _ => 0
  | _, [] => 0
  | a :: as, b :: bs =>
    if a = b then memcmp as bs else (a.toNat : Int) - (b.toNat : Int)

/-- Conversion of a 64-bit difference to C `int` (32-bit two's complement), as
done implicitly by `return len1 - len2` in src/util.h:101. -/
def toCInt (x : Int) : Int := Int.bmod x (2 ^ 32)

/-- `slice_lex_cmp` (src/util.h:89-103). -/
def sliceLexCmp (a b : Bytes) : Int :=
  let len1 := a.length
  let len2 := b.length
  let cmp := memcmp a b
  if cmp ≠ 0 then cmp
  else if len1 < len2 then -1
  else toCInt ((len1 : Int) - (len2 : Int))

/-- Key kinds and keys (src/data_internal.h:28-45): `NEGATIVE_INFINITY = 1`,
`USER_KEY = 2`, `POSITIVE_INFINITY = 3`. -/
inductive Key where
  | negInf
  | user (bytes : Bytes)
  | posInf
deriving DecidableEq, Repr

/-- Numeric value of `k.kind` (src/data_internal.h:30-34). -/
def Key.kind : Key → Int
  | .negInf => 1
  | .user _ => 2
  | .posInf => 3

/-- `data_key_compare` (src/data_internal.h:550-558) with the application's
comparison function as a parameter. -/
def dataKeyCompare (cmp : Bytes → Bytes → Int) : Key → Key → Int
  | .user a, .user b => cmp a b
  | k1, k2 => k1.kind - k2.kind

end Splinter
