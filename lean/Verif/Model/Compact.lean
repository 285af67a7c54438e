import Verif.Model.Trunk
import Verif.Model.Btree
import Verif.Model.Pack
/-!
# Compaction on pages

`trunk_btree_skiperator` (trunk.c 735–741, 4911–5047), the iterator over those parts of a branch that
lie in pivots for which the branch is live, and steps 5 to 7 of `trunk_compact_bundle` (trunk.c
5228–5300): one such iterator for each branch of the bundle, merged, and packed into a new tree.

Simplified: reference counts taken by `trunk_branch_iterator_init` are left out. The merge iterator
(`Model/MergeIter.lean`) has lists for inputs, so what a skiperator delivers is read into a list first.
The array of `TRUNK_MAX_PIVOTS` iterators is a list; there are at most as many ranges as pivots
(`ranges_length`).
-/
namespace Splinter.Compact
open Splinter.Btree

variable {K V M : Type}

/-- The ranges of the loop trunk.c 4931–4963: one for each run of pivots for which the branch is live.
`pv` are the pivots with `trunk_branch_live_for_pivot`, `hi` is the upper bound of the last one; the
option is `first_pivot` once `iterator_started`. -/
def ranges (hi : K) : List (K × Bool) → Option K → List (K × K)
  | [], none => []
  | [], some a => [(a, hi)]
  | (k, true) :: r, none => ranges hi r (some k)
  | (_, true) :: r, some a => ranges hi r (some a)
  | (_, false) :: r, none => ranges hi r none
  | (k, false) :: r, some a => (a, k) :: ranges hi r none

/-- `trunk_btree_skiperator`: trunk.c 735–741; `end` is the length of `its`. -/
structure Skip (K : Type) where
  curr : Nat
  its : List (Iter K)

section
variable [LinearOrder K] [BoundedOrder K] [Inhabited K]

/-- The loop trunk.c 4971–4977 and 4996–5002: on to the first iterator that is not at its end. -/
def settle (its : List (Iter K)) (c : Nat) : Nat :=
  match h : its[c]? with
  | none => c
  | some t => if t.canNext then c else settle its (c + 1)
termination_by its.length - c
decreasing_by
  have := (List.getElem?_eq_some_iff.mp h).1
  omega

/-- `trunk_btree_skiperator_init`: trunk.c 4911–4978. -/
def Skip.init (st : Store K M) (root : Nat) (hi : K) (pv : List (K × Bool)) : Option (Skip K) := do
  let its ← (ranges hi pv none).mapM fun r => Btree.init st root r.1 r.2 r.1 .ge
  some ⟨settle its 0, its⟩

/-- `trunk_btree_skiperator_can_next`: trunk.c 5018–5027. -/
def Skip.canNext (s : Skip K) : Bool :=
  match s.its[s.curr]? with
  | none => false
  | some t => t.canNext

/-- `trunk_btree_skiperator_can_prev`: trunk.c 5007–5016. -/
def Skip.canPrev (s : Skip K) : Bool :=
  match s.its[s.curr]? with
  | none => false
  | some t => t.canPrev

/-- `trunk_btree_skiperator_curr`: trunk.c 4978–4984. -/
def Skip.curr? (st : Store K M) (s : Skip K) : Option (K × M) := do
  let t ← s.its[s.curr]?
  t.curr? st

/-- `trunk_btree_skiperator_next`: trunk.c 4986–5005. -/
def Skip.next (st : Store K M) (s : Skip K) : Option (Skip K) := do
  let t ← s.its[s.curr]?
  let t ← Btree.next st t
  let its := s.its.set s.curr t
  some ⟨settle its s.curr, its⟩

/-- A caller moving forward: `while (can_next) { curr; next }`, at most `fuel` times, and whether it
got to the end. -/
def Skip.forward (st : Store K M) : (fuel : Nat) → Skip K → Option (List (K × M) × Bool)
  | 0, s => some ([], !s.canNext)
  | f + 1, s =>
    if s.canNext then do
      let x ← s.curr? st
      let s ← s.next st
      let r ← Skip.forward st f s
      some (x :: r.1, r.2)
    else some ([], true)

/-- What the skiperator of one branch delivers. -/
def readBranch (st : Store K M) (hi : K) (pv : List (K × Bool)) (fuel root : Nat) : Option (List (K × M)) := do
  let s ← Skip.init st root hi pv
  let r ← s.forward st fuel
  if r.2 then some r.1 else none

/-- Steps 5 to 7 of `trunk_compact_bundle`: trunk.c 5228–5300. `roots` are the branches of the bundle,
oldest first; `none` if a page cannot be read or a merge callback fails. -/
def compact (cfg : DataCfg K V) (full : Bool) (P : Env K (Msg V)) (st : Store K (Msg V)) (hi : K)
    (pv : List (K × Bool)) (fuel : Nat) (roots : List Nat) : Option (Except Fail (Packed K (Msg V))) := do
  let ins ← roots.mapM (readBranch st hi pv fuel)
  match Merge.mergeAll cfg (if full then .full else .intermediate) (ins.map (fun r => (r, 1)))
      ((ins.map (·.length)).sum + 1) with
  | .error _ => none
  | .ok out => some (pack P out)

end

/-- The pivots of a node as `trunk_btree_skiperator_init` sees them: keys, and whether bundle `idx` is
live for them. -/
def pivotsOf {F : Type} (n : Trunk.NodeInfo K V F) (idx : Nat) : List (K × Bool) :=
  n.pivots.map fun x => (x.1.key, decide (x.1.bskip ≤ idx))

end Splinter.Compact
