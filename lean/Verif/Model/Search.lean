import Mathlib.Order.Defs.LinearOrder
/-!
Binary searches over the keys of one node: `btree_find_pivot`, `btree_find_tuple`,
`trunk_find_pivot`. Keys are compared through `data_key_compare`, a total order
(see C08), so they are elements of a linear order here.
-/
namespace Splinter.Search

variable {K : Type} [LinearOrder K]

/-- Loop of `btree_find_pivot` (btree.c 464–491) and `btree_find_tuple`
(btree.c 508–536); the two differ only in the accessor used for the key. The
result is the index (`-1` for "before the first") and `*found`. -/
def bsearch (key : Nat → K) (target : K) (lo hi : Nat) : Int × Bool :=
  if lo < hi then
    let mid := (lo + hi) / 2
    if key mid = target then (mid, true)
    else if key mid < target then bsearch key target (mid + 1) hi
    else bsearch key target lo mid
  else ((lo : Int) - 1, false)
termination_by hi - lo

/-- `btree_find_pivot` / `btree_find_tuple` on a node with keys `ks`.
`def`ault for the accessor outside the node is never used for a search result. -/
def btreeFind [Inhabited K] (ks : List K) (target : K) : Int × Bool :=
  bsearch (fun i => ks.getD i default) target 0 ks.length

/-- `comparison` (util.h). -/
inductive Cmp | lt | le | gt | ge
  deriving DecidableEq

/-- `lowerbound`: trunk.c 1580–1586. `32 - clz(x)` is `log2 x + 1` for `x > 0`. -/
def lowerbound (size : Nat) : Nat := if size ≤ 1 then 0 else Nat.log2 (size - 1) + 1

/-- `trunk_update_lowerbound`: trunk.c 1591–1607. Does the pivot move `lo` up? -/
def below (c : Cmp) (pivot target : K) : Bool :=
  match c with
  | .lt | .ge => decide (pivot < target)
  | .le | .gt => decide (pivot ≤ target)

/-- The final switch of `trunk_find_pivot`: trunk.c 1663–1674. -/
def Cmp.result (c : Cmp) (lo : Nat) : Nat :=
  match c with
  | .lt | .le => lo
  | .gt | .ge => lo + 1

/-- Loop of `trunk_find_pivot`: trunk.c 1656–1661. -/
def findLoop (key : Nat → K) (target : K) (c : Cmp) : (i size lo : Nat) → Nat
  | 0, _, lo => lo
  | i + 1, size, lo =>
    let size := size / 2
    let mid := lo + size
    findLoop key target c i size (if below c (key mid) target then mid else lo)

/-- `trunk_find_pivot`: trunk.c 1614–1676. `n` is the number of children, `key` the
pivot keys `0 … n` (`n` is the node's upper bound). Simplified: the `uint16` index
cannot overflow since a node has at most `max_pivot_keys ≤ 65535` keys. -/
def findPivot (key : Nat → K) (n : Nat) (target : K) (c : Cmp) : Nat :=
  if n = 0 then 0
  else if n = 1 then
    match c with
    | .lt | .le => 0
    | .gt => if key 0 > target then 0 else 1
    | .ge => if key 0 ≥ target then 0 else 1
  else
    let half := 2 ^ (lowerbound n - 1)
    let mid := n - half
    let lo := if below c (key mid) target then mid else 0
    let lo := findLoop key target c (lowerbound half) half lo
    c.result lo

end Splinter.Search
