import Verif.Model.Trunk
/-!
# The range iterator (src/trunk.c 6147–6555)

The iterator behind `splinterdb_iterator_*` (splinterdb.c 662–752).  It reads the store
leaf by leaf: for one leaf it opens an iterator on every memtable and on every branch that
is live for the leaf's range, merges them (`MERGE_FULL`) and, when the merge ends, is built
anew for the next leaf.

Simplifications: the store does not change while the iterator is open (the code builds the
iterator for each leaf from the store as it is then); reference counts, locks, prefetching
and `num_tuples` are left out; so are the capacity of the `branch` array and failing
allocations.
-/
namespace Splinter.Trunk

open Splinter.Merge (MIter)

variable {K V F : Type} [LinearOrder K]

/-- Branches of a node live for a pivot, oldest first (`trunk_pivot_branch_count`
1986–1993: from the pivot's `start_branch` to the node's `end_branch`). -/
def Node.liveBranches {C : Type} (n : Node K V F C) (p : PData K F) : List (Branch K V) :=
  n.whole.drop p.wskip ++ (n.bundles.drop p.bskip).flatMap (fun b => b.sbs.flatMap (·.branches))

/-- The descent of `trunk_range_iterator_init` (trunk.c 6214–6285): the branches on the
path, oldest first, and the bounds of the leaf. `none`: a node without that child. -/
def leafRuns (c : Search.Cmp) : (h : Nat) → Node K V F (Sub K V F h) → K →
    Option (List (Branch K V) × K × K)
  | 0, n, _ => some (n.whole ++ n.bundles.flatMap (fun b => b.sbs.flatMap (·.branches)), n.keyAt 0, n.maxKey)
  | h + 1, n, k =>
    match n.pivots[Search.findPivot n.keyAt n.pivots.length k c]? with
    | none => none
    | some (p, ch) => (leafRuns c h ch k).map (fun r => (r.1 ++ n.liveBranches p, r.2))

/-- `btree_iterator_init` (btree.c 2950–3002) as the merge iterator sees it: the tuples in
`[lmn, lmx)` and the position (1 = on the first tuple). The iterators of some trees cannot
go back to the start of the range (`Btree.prev_misses`): they lack some number of tuples
before the position, `cut`. -/
def openBranch (cut : Nat) (lmn lmx start : K) (c : Search.Cmp) (b : Branch K V) :
    List (K × Msg V) × Nat :=
  let r := b.filter (fun x => decide (lmn ≤ x.1) && decide (x.1 < lmx))
  let lt := r.countP (fun x => decide (x.1 < start))
  let le := r.countP (fun x => decide (x.1 ≤ start))
  match c with
  | .ge => (r.drop (min cut lt), lt - min cut lt + 1)
  | .gt => (r.drop (min cut le), le - min cut le + 1)
  | .le => (r, le)
  | .lt => (r, lt)

/-- `trunk_range_iterator` (trunk.h 230–251). -/
structure RIter (K V : Type) where
  mn : K
  mx : K
  lmn : K
  lmx : K
  m : MIter K V
  canPrev : Bool
  canNext : Bool

inductive RErr where
  | merge (e : Merge.Err) | noChild | fuel

/-- `start_type >= greater_than` (iterator.h 12–17). -/
def isUp : Search.Cmp → Bool
  | .gt | .ge => true
  | _ => false

/-- `trunk_range_iterator_init` (trunk.c 6147–6387). `cut b k` is the number of tuples
before `k` that the iterator of branch `b` lacks. Simplified: `local_min` and `local_max`
still point into the released leaf page when they are compared at 6350 and 6369. -/
def rinit (cfg : DataCfg K V) (s : State K V F) (cut : Branch K V → K → Nat) (mn mx : K) :
    (fuel : Nat) → (start : K) → (c : Search.Cmp) → Except RErr (RIter K V)
  | 0, _, _ => .error .fuel
  | fuel + 1, start, c =>
    let start := if start < mn then mn else start
    let start := if mx ≤ start then mx else start
    match leafRuns (if c = .lt then .lt else .le) s.h s.root start with
    | none => .error .noChild
    | some (bs, llo, lhi) =>
      let lmn := if mn < llo then llo else mn
      let lmx := if lhi < mx then lhi else mx
      match Merge.create cfg .full ((bs ++ s.mems.reverse).map (fun b => openBranch (cut b start) lmn lmx start c b)) with
      | .error e => .error (.merge e)
      | .ok m =>
        if m.canCurr then .ok ⟨mn, mx, lmn, lmx, m, true, true⟩
        else if isUp c then
          if lmx < mx then rinit cfg s cut mn mx fuel lmx c
          else .ok ⟨mn, mx, lmn, lmx, m, m.canPrev, false⟩
        else
          if mn < lmn then rinit cfg s cut mn mx fuel lmn c
          else .ok ⟨mn, mx, lmn, lmx, m, false, m.canNext⟩

/-- `trunk_range_iterator_next` (trunk.c 6397–6454). -/
def rnext (cfg : DataCfg K V) (s : State K V F) (cut : Branch K V → K → Nat) (fuel : Nat) (r : RIter K V) :
    Except RErr (RIter K V) :=
  match Merge.next r.m with
  | .error e => .error (.merge e)
  | .ok m =>
    if m.canNext then .ok { r with m := m, canPrev := true, canNext := true }
    else if r.lmx < r.mx then rinit cfg s cut r.mn r.mx fuel r.lmx .ge
    else .ok { r with m := m, canPrev := true, canNext := false }

/-- `trunk_range_iterator_prev` (trunk.c 6456–6512). -/
def rprev (cfg : DataCfg K V) (s : State K V F) (cut : Branch K V → K → Nat) (fuel : Nat) (r : RIter K V) :
    Except RErr (RIter K V) :=
  match Merge.prev r.m with
  | .error e => .error (.merge e)
  | .ok m =>
    if m.canPrev then .ok { r with m := m, canPrev := true, canNext := true }
    else if r.mn < r.lmn then rinit cfg s cut r.mn r.mx fuel r.lmn .lt
    else .ok { r with m := m, canPrev := false, canNext := true }

/-- `splinterdb_iterator_valid` (splinterdb.c 711–719): `iterator_can_curr`. -/
def RIter.valid (r : RIter K V) : Bool := r.canNext && r.canPrev

/-- The loop of a client: while the iterator is valid, read it and step. -/
def rscan (step : RIter K V → Except RErr (RIter K V)) : (n : Nat) → RIter K V → Except RErr (List (K × Msg V))
  | 0, _ => .error .fuel
  | n + 1, r =>
    if r.valid then
      match r.m.cur with
      | none => .error (.merge .ub)
      | some x =>
        match step r with
        | .error e => .error e
        | .ok r' => (rscan step n r').map (x :: ·)
    else .ok []

/-- `splinterdb_iterator_init` at `start` and `next` to the end. -/
def scanFrom (cfg : DataCfg K V) (s : State K V F) (cut : Branch K V → K → Nat) (mn mx start : K) (fuel : Nat) :
    Except RErr (List (K × Msg V)) :=
  match rinit cfg s cut mn mx fuel start .ge with
  | .error e => .error e
  | .ok r => rscan (rnext cfg s cut fuel) fuel r

end Splinter.Trunk
