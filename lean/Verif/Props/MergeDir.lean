import Verif.Props.MergeIter
/-!
# C06 / C39: changing direction (code violates the property)

Concrete runs on which `merge_next` / `merge_prev` report wrong results.  The
witnesses are closed computations of the model.
-/
namespace Splinter.Merge
open Splinter

/-- Key and data reported by an iterator, if any. -/
def seen (r : Except Err (MIter Nat Nat)) : Option (Nat × Nat) :=
  match r with
  | .ok m => if m.canCurr then m.cur.map fun x => (x.1, x.2.data) else none
  | .error _ => none

/-- Run a sequence of moves (`true` = next, `false` = prev). -/
def moves (r : Except Err (MIter Nat Nat)) : List Bool → Except Err (MIter Nat Nat)
  | [] => r
  | b :: bs =>
    match r with
    | .error e => .error e
    | .ok m => moves (if b then next m else prev m) bs

private def ins (k v : Nat) : Nat × Msg Nat := (k, ⟨.insert, v⟩)

/-- Two runs that both hold key 5. -/
def dupRuns : List (List (Nat × Msg Nat) × Nat) :=
  [([ins 1 10, ins 5 50, ins 9 90], 1), ([(5, ⟨.update, 5⟩), ins 7 70], 1)]

/-- C06 fails: from key 5 (present in two runs), `prev` reports key 5 again, with
the wrong value 5 (the update alone), instead of key 1. -/
theorem prev_rereports_duplicate_key :
    seen (moves (create counterCfg .full dupRuns) [true]) = some (5, 55) ∧
    seen (moves (create counterCfg .full dupRuns) [true, false]) = some (5, 5) := by
  constructor <;> decide +kernel

/-- Runs for which the flag of the last live input is stale after a change of
direction. -/
def staleRuns : List (List (Nat × Msg Nat) × Nat) :=
  [([ins 7 70], 1), ([ins 1 11, ins 7 71], 1), ([ins 3 30], 1)]

/-- C06 fails: at key 3, `prev` should report key 1 with value 11; it reports key
7 with the value of key 1, because `next_key_equal` of the last live input is not
reset by `setup_ordered_iterators` (src/merge.c:461-473). -/
theorem prev_reads_stale_flag :
    seen (moves (create counterCfg .full staleRuns) [true]) = some (3, 30) ∧
    seen (moves (create counterCfg .full staleRuns) [true, false]) = some (7, 11) := by
  constructor <;> decide +kernel

/-- The inputs of the merge iterator built by `trunk_range_iterator_prev` when it
enters the previous leaf: every input is positioned at its last item below the
leaf boundary (`start_type = less_than`, src/trunk.c:6500-6506). -/
def prevLeafRuns : List (List (Nat × Msg Nat) × Nat) :=
  [([ins 1 10, ins 5 50], 2), ([ins 2 20, ins 9 90], 2)]

/-- C39 fails across a leaf boundary: the new merge iterator is created facing
forwards (src/merge.c:560), so it reports the smallest of the inputs' last keys;
keys 9 (the predecessor of the boundary) is never reported and `prev` goes on to
2. -/
theorem prev_leaf_skips_keys :
    seen (create counterCfg .full prevLeafRuns) = some (5, 50) ∧
    seen (moves (create counterCfg .full prevLeafRuns) [false]) = some (2, 20) ∧
    seen (moves (create counterCfg .full prevLeafRuns) [false, false]) = some (1, 10) ∧
    seen (moves (create counterCfg .full prevLeafRuns) [false, false, false]) = none := by
  refine ⟨?_, ?_, ?_, ?_⟩ <;> decide +kernel

end Splinter.Merge
