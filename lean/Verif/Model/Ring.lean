/-!
Circular arithmetic of trunk nodes: branches, bundles, subbundles and subbundle
filters live in circular arrays addressed by 16-bit cursors.

Simplified: nothing; `h` is `hard_max_branches_per_node` (branches), 12
(`TRUNK_MAX_BUNDLES`) or 24 (`TRUNK_MAX_SUBBUNDLES`, `TRUNK_MAX_SUBBUNDLE_FILTERS`).
The C sums are computed in at least 32 bits (integer promotion) and the result is
truncated to `uint16`; the truncation is the outer `% 65536`.
-/
namespace Splinter.Ring

/-- trunk.c 1353–1357, 1376–1380, 1398–1402, 1410–1414. -/
def add (h a off : Nat) : Nat := (a + off) % h % 65536

/-- trunk.c 1359–1364, 1382–1386, 1404–1408, 1416–1423. -/
def sub (h a off : Nat) : Nat := (a + h - off) % h % 65536

/-- `trunk_branch_in_range`, `trunk_bundle_in_range`: trunk.c 1366–1374, 1388–1396. -/
def inRange (h x start stop : Nat) : Bool := decide (sub h x start < sub h stop start)

/-- The loop `for (x = start; x != end; x = add(x, 1))` used throughout trunk.c
(for example 2078–2079, 2341–2342, 2418–2419, 2662–2663, 2987–2988), as the list of
values the body sees. `none`: not finished after `fuel` tests. -/
def enum (h : Nat) : (fuel : Nat) → (x stop : Nat) → Option (List Nat)
  | 0, _, _ => none
  | fuel + 1, x, stop =>
    if x = stop then some []
    else match enum h fuel (add h x 1) stop with
      | none => none
      | some l => some (x :: l)

/-- The newest-first walk `for (off = 0; off < n; off++) no = sub(end, off + 1)`
of lookups: trunk.c 6888–6892, 6919–6923. -/
def newestFirst (h stop n : Nat) : List Nat := (List.range n).map fun off => sub h stop (off + 1)

/-- `trunk_get_new_bundle`, `trunk_get_new_subbundle`, `trunk_get_new_branch`:
trunk.c 2205–2219, 2256–2264, 2768–2777. The slot number and the new end cursor;
`none` is the failed `platform_assert`; for branches (2768–2777) the check is only a
`debug_assert`, so in a release build `none` means the ring silently becomes empty. -/
def alloc (h start stop : Nat) : Option (Nat × Nat) :=
  let stop' := add h stop 1
  if stop' ≠ start then some (stop, stop') else none

/-- `trunk_leaf_get_new_subbundle_at_head`: trunk.c 2276–2282. New start cursor,
which is also the slot number. -/
def allocHead (h start stop : Nat) : Option Nat :=
  let n := sub h start 1
  if n ≠ stop then some n else none

/-- First loop of `trunk_reset_start_branch`: trunk.c 2055–2069. `starts` are the
`start_branch` fields of the node's pivots. -/
def resetStart (h stop : Nat) (starts : List Nat) : Nat :=
  starts.foldl (fun cur s => if sub h stop s > sub h stop cur then s else cur) stop

end Splinter.Ring
