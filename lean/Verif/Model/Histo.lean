/-!
# Histograms of latencies

src/platform_linux/platform_inline.h and platform.c: `platform_histo_create`, `platform_histo_insert`, `platform_histo_merge_in`, which the trunk uses for the latencies of inserts, updates and deletes (trunk.c 6759-6769, 8871-8900).

Simplified: sums do not wrap round. One thread uses a histogram at a time (in the code each thread has its own).
-/
namespace Splinter.Histo

/-- `platform_histo_handle` (platform_types.h 167-173). `count` has `num_buckets` elements, `lims` one less. -/
structure Histo where
  lims : List Int
  count : List Nat
  num : Nat
  min : Int
  max : Int
  total : Int
deriving DecidableEq, Repr

/-- `platform_histo_create` (platform.c 531-552). -/
def create (lims : List Int) : Histo := ⟨lims, List.replicate (lims.length + 1) 0, 0, 2 ^ 63 - 1, -2 ^ 63, 0⟩

/-- The loop of `platform_histo_insert` (platform_inline.h 360-370). `none`: a limit outside of the array is read. The first argument bounds the number of rounds. -/
def search (lims : List Int) : Nat → Int → Int → Int → Option Nat
  | 0, _, _, _ => none
  | fuel + 1, lo, hi, d =>
    if lo < hi then
      let mid := lo + (hi - lo) / 2
      match lims[mid.toNat]? with
      | none => none
      | some x => if x < d then search lims fuel (mid + 1) hi d else search lims fuel lo (mid - 1) d
    else some lo.toNat

/-- The bucket that a datum is counted in. -/
def bucket (lims : List Int) (d : Int) : Option Nat := search lims (lims.length + 1) 0 lims.length d

/-- `platform_histo_insert` (357-381). `none`: an assertion fails or the search goes wrong. -/
def insert (h : Histo) (d : Int) : Option Histo := match bucket h.lims d with
  | none => none
  | some b =>
    if b < h.count.length then
      some { h with count := h.count.modify b (· + 1), num := h.num + 1, total := h.total + d,
                    min := if h.num = 0 then d else if h.min < d then h.min else d,
                    max := if h.num = 0 then d else if d < h.max then h.max else d }
    else none

/-- `platform_histo_merge_in` (383-409). `none`: an assertion fails. -/
def mergeIn (dest src : Histo) : Option Histo :=
  if src.num = 0 then some dest
  else if dest.count.length = src.count.length ∧ dest.lims = src.lims then
    some { dest with min := if src.min < dest.min ∨ dest.num = 0 then src.min else dest.min,
                     max := if dest.max < src.max ∨ dest.num = 0 then src.max else dest.max,
                     total := dest.total + src.total, num := dest.num + src.num,
                     count := List.zipWith (· + ·) dest.count src.count }
  else none

/-- A number of inserts. -/
def insertAll (h : Histo) (l : List Int) : Option Histo := l.foldlM insert h

/-- The bytes that `platform_histo_create` gets: it asks for `sizeof(hh)`, the size of a pointer, and 8 for each bucket (537-538); `platform_aligned_malloc` (platform_inline.h 444-472) rounds up to a line of the cache. -/
def allocated (n : Nat) : Nat := (8 + 8 * n + 63) / 64 * 64

/-- The bytes of a histogram: `count` starts at 48. -/
def needed (n : Nat) : Nat := 48 + 8 * n

end Splinter.Histo
