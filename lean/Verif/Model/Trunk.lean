import Verif.Model.Message
import Verif.Model.Search
import Verif.Props.MergeIter
/-!
# The trunk: memtables, nodes, pivots, bundles and branches

Model of src/trunk.c at the level of whole node operations.  A trunk update copies
the path from the root to the node it changes and switches the root under the root
lock (`trunk_copy_path_by_key_and_height` 1306–1345, `trunk_claim_and_copy_root`,
`trunk_update_claimed_root`), so a value of `State` is what a lookup sees between two
such updates and each operation below is one update.

Simplifications common to everything here:
* A branch (a B-tree on disk) is the list of its tuples in key order; C13 and C14 are
  about the tree itself.
* A node's circular arrays of branches, bundles, subbundles and subbundle filters are
  nested lists: whole branches, then bundles, each a list of subbundles with their own
  branches and filters (oldest first everywhere).  Cursors `start_branch`,
  `start_bundle` of a pivot become counts of skipped whole branches and bundles.
  The arrays are in `Model/NodeArr.lean` (C47).  Bundle numbers are natural numbers; the
  code reduces them modulo `TRUNK_MAX_BUNDLES`.
* Array capacities (`platform_assert`s on full nodes), tuple counts used by the
  flush and split policy, space reclamation, reference counts and statistics are left
  out.  The policy (which pivot is flushed when, when a node splits, at which keys a
  leaf splits) is an input of the operations, so every policy is covered.
* Fingerprint arrays are lists of keys; the code stores a 32-bit hash of each key.
-/
namespace Splinter.Trunk

open Splinter.Merge (mergeAll Mode)

variable {K V F : Type} [LinearOrder K]

/-- A routing filter seen from outside: `vals f k` are the values reported for `k`
in the order `routing_filter_get_next_value` (routing_filter.h) delivers them. -/
structure FilterOps (K F : Type) where
  empty : F
  add : F → List K → Nat → F
  vals : F → K → List Nat

/-- Tuples of a branch in key order. -/
abbrev Branch (K V : Type) := List (K × Msg V)

/-- `btree_lookup` on a branch. -/
def Branch.get (b : Branch K V) (k : K) : Option (Msg V) :=
  (b.find? (fun x => decide (x.1 = k))).map (·.2)

/-- `trunk_subbundle` (trunk.c 481–488) with its branches and filters. -/
structure SB (K V F : Type) where
  compacted : Bool
  branches : List (Branch K V)
  filters : List F

/-- `trunk_bundle` (trunk.c 466–471) with its subbundles; `no` is its number. -/
structure Bundle (K V F : Type) where
  no : Nat
  sbs : List (SB K V F)

/-- `trunk_pivot_data` (trunk.c 565–590): lower bound key, number of the node's whole
branches and bundles before `start_branch`/`start_bundle`, filter, generation. -/
structure PData (K F : Type) where
  key : K
  wskip : Nat
  bskip : Nat
  filter : F
  gen : Nat

/-- `trunk_hdr` (trunk.c 520–560) with the pivots and, for index nodes, the children. -/
structure Node (K V F C : Type) where
  id : Nat
  maxKey : K
  nextGen : Nat
  endB : Nat
  whole : List (Branch K V)
  bundles : List (Bundle K V F)
  pivots : List (PData K F × C)

/-- What hangs below the pivots of a node of height `h`. -/
@[reducible] def Sub (K V F : Type) : Nat → Type
  | 0 => Unit
  | h + 1 => Node K V F (Sub K V F h)

/-! ### Lookup -/

/-- Branches read by `trunk_filter_lookup` (trunk.c 6780–6828) when its start branch
is the first of `bs`: one per value in the filter, `none` if the value is beyond the
branches that belong to the filter. -/
def filterProbes (ops : FilterOps K F) (f : F) (bs : List (Branch K V)) (k : K) :
    List (Option (Branch K V)) :=
  (ops.vals f k).map (fun v => bs[v]?)

/-- Branches read by `trunk_compacted_subbundle_lookup` (trunk.c 6831–6880): the first
branch, if some filter reports a value. -/
def compactedProbes (ops : FilterOps K F) (sb : SB K V F) (k : K) : List (Option (Branch K V)) :=
  if sb.filters.any (fun f => !(ops.vals f k).isEmpty) then [sb.branches[0]?] else []

/-- One subbundle in `trunk_bundle_lookup` (trunk.c 6883–6910). -/
def sbProbes (ops : FilterOps K F) (sb : SB K V F) (k : K) : List (Option (Branch K V)) :=
  if sb.compacted then compactedProbes ops sb k
  else match sb.filters with
    | f :: _ => filterProbes ops f sb.branches k
    | [] => [none]

/-- `trunk_bundle_lookup` (trunk.c 6883–6910): newest subbundle first. -/
def bundleProbes (ops : FilterOps K F) (b : Bundle K V F) (k : K) : List (Option (Branch K V)) :=
  b.sbs.reverse.flatMap (fun sb => sbProbes ops sb k)

/-- `trunk_pivot_lookup` (trunk.c 6913–6937): live bundles newest first, then whole
branches. -/
def pivotProbes (ops : FilterOps K F) {C : Type} (n : Node K V F C) (p : PData K F) (k : K) :
    List (Option (Branch K V)) :=
  (n.bundles.drop p.bskip).reverse.flatMap (fun b => bundleProbes ops b k) ++
    filterProbes ops p.filter (n.whole.drop p.wskip) k

/-- `trunk_get_pivot` (trunk.c 1449–1459): keys of the pivots, then the upper bound. -/
def Node.keyAt {C : Type} (n : Node K V F C) (i : Nat) : K :=
  match n.pivots[i]? with
  | some (p, _) => p.key
  | none => n.maxKey

/-- The pivot `trunk_find_pivot(…, less_than_or_equal)` selects. -/
def Node.find {C : Type} (n : Node K V F C) (k : K) : Nat :=
  Search.findPivot n.keyAt n.pivots.length k .le

/-- The descent of `trunk_lookup` (trunk.c 6976–7000): branches read, in order, if no
definitive message stops it. `none` if a node has no pivot. -/
def probes (ops : FilterOps K F) : (h : Nat) → Node K V F (Sub K V F h) → K →
    List (Option (Branch K V))
  | 0, n, k =>
    match n.pivots[0]? with
    | some (p, _) => pivotProbes ops n p k
    | none => [none]
  | h + 1, n, k =>
    match n.pivots[n.find k]? with
    | some (p, c) => pivotProbes ops n p k ++ probes ops h c k
    | none => [none]

/-- Why a lookup would not return normally. -/
inductive LErr
  | badBranch | mergeFailed
  deriving DecidableEq

/-- `trunk_btree_lookup_and_merge` on each branch read, stopping when the accumulator
is definitive (trunk.c 6959–6998). -/
def runProbes (cfg : DataCfg K V) (k : K) (acc : Option (Msg V)) :
    List (Option (Branch K V)) → Except LErr (Option (Msg V))
  | [] => .ok acc
  | none :: _ => .error .badBranch
  | some b :: rest =>
    match b.get k with
    | none => runProbes cfg k acc rest
    | some m =>
      match accumulate cfg k acc m with
      | none => .error .mergeFailed
      | some none => runProbes cfg k none rest
      | some (some a) => if a.definitive then .ok (some a) else runProbes cfg k (some a) rest

/-! ### Node operations -/

section NodeOps
variable {C : Type}

/-- `trunk_get_new_bundle` (trunk.c 2205–2219) filled with subbundles. -/
def Node.addBundle (n : Node K V F C) (sbs : List (SB K V F)) : Node K V F C :=
  { n with bundles := n.bundles ++ [⟨n.endB, sbs⟩], endB := n.endB + 1 }

/-- `trunk_reset_start_branch` (trunk.c 2052–2093): drops whole branches and bundles
that are live for no pivot. -/
def Node.resetStart (n : Node K V F C) : Node K V F C :=
  let w := (n.pivots.map (·.1.wskip)).foldl min n.whole.length
  let b := (n.pivots.map (·.1.bskip)).foldl min n.bundles.length
  { n with
    whole := n.whole.drop w
    bundles := n.bundles.drop b
    pivots := n.pivots.map (fun x => ({ x.1 with wskip := x.1.wskip - w, bskip := x.1.bskip - b }, x.2)) }

/-- `trunk_pivot_clear` (trunk.c 2100–2120). -/
def Node.pivotClear (ops : FilterOps K F) (n : Node K V F C) (i : Nat) : Node K V F C :=
  match n.pivots[i]? with
  | none => n
  | some (p, c) =>
    let p' := { p with wskip := n.whole.length, bskip := n.bundles.length, filter := ops.empty }
    let n' := { n with pivots := n.pivots.set i (p', c) }
    if p.wskip = 0 ∧ p.bskip = 0 then n'.resetStart else n'

/-- The subbundles `trunk_flush_into_bundle` builds in the child (trunk.c 4491–4568):
the live whole branches with the pivot's filter, then every live subbundle. -/
def flushSbs (n : Node K V F C) (p : PData K F) : List (SB K V F) :=
  (if (n.whole.drop p.wskip).isEmpty then []
   else [⟨false, n.whole.drop p.wskip, [p.filter]⟩]) ++
  (n.bundles.drop p.bskip).flatMap (·.sbs)

/-- `trunk_flush_into_bundle` (trunk.c 4448–4595) through `trunk_flush` (4657–4765).
`none`: the assertion "Flush into empty bundle" fails. -/
def flush (ops : FilterOps K F) (n : Node K V F (Node K V F C)) (i : Nat) :
    Option (Node K V F (Node K V F C)) :=
  match n.pivots[i]? with
  | none => none
  | some (p, c) =>
    let sbs := flushSbs n p
    if sbs.isEmpty then none
    else some (({ n with pivots := n.pivots.set i (p, c.addBundle sbs) }).pivotClear ops i)

/-- Index of the bundle with number `no`. -/
def Node.bundleIdx (n : Node K V F C) (no : Nat) : Nat := n.bundles.findIdx (fun b => b.no == no)

/-- `trunk_bundle_live`: is there a bundle with this number in the node? -/
def Node.bundleLive (n : Node K V F C) (no : Nat) : Bool := n.bundles.any (fun b => b.no == no)

/-- `trunk_replace_bundle_branches` (trunk.c 2955–3144) with a replacement branch: the
bundle keeps all its filters in one compacted subbundle. -/
def Node.replaceBundle (n : Node K V F C) (no : Nat) (out : Branch K V) : Node K V F C :=
  { n with bundles := n.bundles.map (fun b =>
      if b.no == no then ⟨b.no, [⟨true, [out], b.sbs.flatMap (·.filters)⟩]⟩ else b) }

/-- `len` filters from position `pos` of the node's filter array after those behind a
vanished bundle were moved down by `d` (trunk.c 3009–3021); the last `d` cells keep what
they had. -/
def movedFilters (fs : List F) (d pos len : Nat) : List F :=
  (List.range' pos len).filterMap fun q => if q + d < fs.length then fs[q + d]? else fs[q]?

/-- Subbundles behind a vanished bundle: `start_filter` and `end_filter` stay as they
were (trunk.c 3046–3056). `pos` is the position of the first filter. -/
def movedSbs (fs : List F) (d : Nat) : Nat → List (SB K V F) → List (SB K V F)
  | _, [] => []
  | pos, sb :: r => { sb with filters := movedFilters fs d pos sb.filters.length } ::
      movedSbs fs d (pos + sb.filters.length) r

/-- Filters of a bundle. -/
def Bundle.filters (b : Bundle K V F) : List F := b.sbs.flatMap (·.filters)

/-- Bundles behind a vanished one, one number down (trunk.c 3096–3106). -/
def movedBundles (fs : List F) (d : Nat) : Nat → List (Bundle K V F) → List (Bundle K V F)
  | _, [] => []
  | pos, b :: r => ⟨b.no - 1, movedSbs fs d pos b.sbs⟩ :: movedBundles fs d (pos + b.filters.length) r

/-- `trunk_replace_bundle_branches` (trunk.c 2943–3144) without a replacement branch: the
bundle vanishes, later bundles and pivots move down by one. Positions of filters are
counted from the node's first one. The cells behind the new end of the filter array are
overwritten by the next filters added; that is not modelled. -/
def Node.vanish (n : Node K V F C) (no : Nat) : Node K V F C :=
  let i := n.bundleIdx no
  let pre := n.bundles.take i
  let dead := (n.bundles.drop i).take 1
  { n with
    bundles := pre ++ movedBundles (n.bundles.flatMap (·.filters)) (dead.flatMap (·.filters)).length
      ((pre ++ dead).flatMap (·.filters)).length (n.bundles.drop (i + 1))
    endB := n.endB - 1
    pivots := n.pivots.map (fun x => (if i < x.1.bskip then { x.1 with bskip := x.1.bskip - 1 } else x.1, x.2)) }

/-- `trunk_clear_bundle` (trunk.c 2626–2650) on the first bundle, whose branches become
whole branches. -/
def Node.clearBundle (n : Node K V F C) : Node K V F C :=
  match n.bundles with
  | [] => n
  | b :: rest =>
    let bs := b.sbs.flatMap (·.branches)
    { n with
      whole := n.whole ++ bs
      bundles := rest
      pivots := n.pivots.map (fun x =>
        (if x.1.bskip = 0 then x.1
         else { x.1 with bskip := x.1.bskip - 1, wskip := x.1.wskip + bs.length }, x.2)) }

/-- `trunk_prepare_build_filter`, `trunk_build_filters`, `trunk_replace_routing_filter`
(trunk.c 4046–4160): each pivot for which the first bundle is live gets the
fingerprints `slice gen` added under the number of its whole branches. Simplified:
preparing, building and installing are one step; in the code the node lock is
released in between, but a live pivot's filter is changed by nobody else. -/
def Node.buildFilters (ops : FilterOps K F) (n : Node K V F C) (slice : Nat → List K) :
    Node K V F C :=
  { n with pivots := n.pivots.map (fun x =>
      (if x.1.bskip = 0 then
        (if (slice x.1.gen).isEmpty then x.1
         else { x.1 with filter := ops.add x.1.filter (slice x.1.gen) (n.whole.length - x.1.wskip) })
       else x.1, x.2)) }

/-- `trunk_split_index` (trunk.c 5515–5570): left and right part. `none` when a half
would be empty. -/
def splitIndex (n : Node K V F C) (idL idR : Nat) : Option (Node K V F C × Node K V F C) :=
  let t := n.pivots.length / 2
  match n.pivots[t]? with
  | none => none
  | some (p, _) =>
    if t = 0 then none
    else some (({ n with id := idL, maxKey := p.key, pivots := n.pivots.take t }).resetStart,
               ({ n with id := idR, pivots := n.pivots.drop t }).resetStart)

/-- `trunk_leaf_rebundle_all_branches` (trunk.c 2457–2497). -/
def rebundle (ops : FilterOps K F) (n : Node K V F C) : Node K V F C :=
  match n.pivots with
  | (p, c) :: _ =>
    let head := if n.whole.isEmpty then [] else [⟨false, n.whole, [p.filter]⟩]
    { n with
      whole := []
      bundles := [⟨n.endB, head ++ n.bundles.flatMap (·.sbs)⟩]
      endB := n.endB + 1
      nextGen := n.nextGen + 1
      pivots := [({ p with wskip := 0, bskip := 0,
                           filter := if n.whole.isEmpty then p.filter else ops.empty,
                           gen := n.nextGen }, c)] }
  | [] => n

/-- The loop of `trunk_split_leaf` (trunk.c 5917–6030): one copy of the rebundled leaf
per range, with fresh node ids. -/
def leafCopies (n : Node K V F C) (id : Nat) (lo hi : K) : List K → List (Node K V F C)
  | [] => [{ n with id := id, maxKey := hi, pivots := n.pivots.map (fun x => ({ x.1 with key := lo }, x.2)) }]
  | k :: ks =>
    { n with id := id, maxKey := k, pivots := n.pivots.map (fun x => ({ x.1 with key := lo }, x.2)) } ::
      leafCopies n (id + 1) k hi ks

/-- `trunk_add_pivot` for each further part of a split child
(trunk.c 1726–1755, `trunk_init_pivot_data_from_pred` 1537–1560): the new pivot takes
the data and the generation of its predecessor, which gets a new generation.
`cs` are the parts, `p` the pivot of the child that was split. -/
def addPivots (p : PData K F) (nextGen : Nat) (key : Node K V F C → K) :
    List (Node K V F C) → List (PData K F × Node K V F C) × Nat
  | [] => ([], nextGen)
  | [c] => ([(p, c)], nextGen)
  | c :: c' :: cs =>
    let r := addPivots { p with key := key c' } (nextGen + 1) key (c' :: cs)
    (({ p with gen := nextGen }, c) :: r.1, r.2)

/-- Replaces child `i` by the parts `cs`. -/
def Node.replaceChild (n : Node K V F (Node K V F C)) (i : Nat) (cs : List (Node K V F C)) :
    Node K V F (Node K V F C) :=
  match n.pivots[i]? with
  | none => n
  | some (p, _) =>
    let r := addPivots p n.nextGen (fun c => c.keyAt 0) cs
    { n with pivots := n.pivots.take i ++ r.1 ++ n.pivots.drop (i + 1), nextGen := r.2 }

/-- The pivot holds nothing, as right after a flush. -/
def Node.pivotEmpty (n : Node K V F C) (p : PData K F) : Bool :=
  n.whole.length ≤ p.wskip && n.bundles.length ≤ p.bskip

/-- `trunk_split_index` with its parent (trunk.c 5515–5600), after a flush into the
child (4719–4729), so the child's pivot in the parent is empty. -/
def splitChildIndex (n : Node K V F (Node K V F C)) (i idL idR : Nat) :
    Option (Node K V F (Node K V F C)) :=
  match n.pivots[i]? with
  | none => none
  | some (p, c) =>
    if n.pivotEmpty p then
      match splitIndex c idL idR with
      | none => none
      | some (l, r) => some (n.replaceChild i [l, r])
    else none

/-- `trunk_split_leaf` (trunk.c 5722–6080) at the given keys, which must lie strictly
between the leaf's bounds and increase. (The keys come from a rough merge of the
branches; C57 is about where the code splits.) -/
def splitChildLeaf (ops : FilterOps K F) (n : Node K V F (Node K V F C)) (i id : Nat) (ks : List K) :
    Option (Node K V F (Node K V F C)) :=
  match n.pivots[i]? with
  | none => none
  | some (p, c) =>
    if n.pivotEmpty p && decide ((c.keyAt 0 :: ks ++ [c.maxKey]).Pairwise (· < ·)) then
      some (n.replaceChild i (leafCopies (rebundle ops c) id (c.keyAt 0) c.maxKey ks))
    else none

/-- `trunk_split_root` (trunk.c 6085–6115). The new pivot of the new root has
generation 0 (`trunk_set_initial_pivots` 1481–1492). -/
def splitRoot (ops : FilterOps K F) (n : Node K V F C) (idL idR : Nat) :
    Option (Node K V F (Node K V F C)) :=
  splitChildIndex
    { id := n.id, maxKey := n.maxKey, nextGen := n.nextGen, endB := 0, whole := [], bundles := [],
      pivots := [(⟨n.keyAt 0, 0, 0, ops.empty, 0⟩, n)] } 0 idL idR

end NodeOps

/-! ### Locating a node -/

/-- `trunk_copy_path_by_key_and_height` (trunk.c 1306–1345): applies `f` to the node of
height `j` whose range contains `k`. -/
def upd (j : Nat) (k : K) (f : (h : Nat) → Node K V F (Sub K V F h) → Option (Node K V F (Sub K V F h))) :
    (h : Nat) → Node K V F (Sub K V F h) → Option (Node K V F (Sub K V F h))
  | 0, n => if j = 0 then f 0 n else none
  | h + 1, n =>
    if h + 1 = j then f (h + 1) n
    else
      match n.pivots[n.find k]? with
      | none => none
      | some (p, c) =>
        match upd j k f h c with
        | none => none
        | some c' => some { n with pivots := n.pivots.set (n.find k) (p, c') }

/-- Parent-level operations as node operations. -/
def atIndex (f : (C : Type) → Node K V F (Node K V F C) → Option (Node K V F (Node K V F C))) :
    (h : Nat) → Node K V F (Sub K V F h) → Option (Node K V F (Sub K V F h))
  | 0, _ => none
  | h + 1, n => f (Sub K V F h) n

/-- What an observer needs of a located node. -/
structure NodeInfo (K V F : Type) where
  id : Nat
  lo : K
  hi : K
  endB : Nat
  whole : List (Branch K V)
  bundles : List (Bundle K V F)
  /-- pivots with their upper bounds -/
  pivots : List (PData K F × K)

/-- Pivots with their upper bounds. -/
def withHi {C : Type} (mx : K) : List (PData K F × C) → List (PData K F × K)
  | [] => []
  | [x] => [(x.1, mx)]
  | x :: y :: r => (x.1, y.1.key) :: withHi mx (y :: r)

def Node.info {C : Type} (n : Node K V F C) : NodeInfo K V F :=
  ⟨n.id, n.keyAt 0, n.maxKey, n.endB, n.whole, n.bundles, withHi n.maxKey n.pivots⟩

/-- `trunk_node_get_by_key_and_height` (trunk.c 1144–1200). -/
def nodeAt (j : Nat) (k : K) : (h : Nat) → Node K V F (Sub K V F h) → Option (NodeInfo K V F)
  | 0, n => if j = 0 then some n.info else none
  | h + 1, n =>
    if h + 1 = j then some n.info
    else
      match n.pivots[n.find k]? with
      | none => none
      | some (_, c) => nodeAt j k h c

/-! ### Compaction requests -/

/-- How far a request has got. -/
inductive Phase (K V : Type)
  /-- created by a flush, split or compaction of a leaf -/
  | created
  /-- `trunk_compact_bundle` has read the node and merged; replacing node by node,
  `cur` is the key of the next node -/
  | compacted (out : Branch K V) (full : Bool) (cur : K)
  /-- `trunk_bundle_build_filters`, next node at `cur` -/
  | filters (out : Branch K V) (cur : K)

/-- `trunk_compact_bundle_req` (trunk.c 705–735). `rngs` holds `pivot_generation`
with, for the proofs only, the range each pivot had; `cnts` is
`output_pivot_tuple_count`. -/
structure Req (K V : Type) where
  ht : Nat
  no : Nat
  id : Nat
  start : K
  stop : K
  rngs : List (Nat × K × K)
  cnts : List Nat
  phase : Phase K V

/-- `trunk_process_generation_to_pos` (trunk.c 2819–2831). -/
def Req.pos (r : Req K V) (gen : Nat) : Nat := r.rngs.findIdx (fun x => x.1 == gen)

/-- The fingerprints `trunk_process_generation_to_fp_bounds` (trunk.c 4080–4100)
selects for a pivot from the array of the whole output. -/
def Req.slice (r : Req K V) (fps : List K) (gen : Nat) : List K :=
  (fps.drop (r.cnts.take (r.pos gen)).sum).take (r.cnts.getD (r.pos gen) 0)

/-- Tuples of a branch in a pivot's range (`trunk_pivot_branch_tuple_counts`). -/
def countIn (b : Branch K V) (lo hi : K) : Nat :=
  (b.filter (fun x => decide (lo ≤ x.1 ∧ x.1 < hi))).length

/-- "record the pivot tuples" (trunk.c 3066–3086): for pivots still live for the bundle. -/
def Req.record (r : Req K V) (n : NodeInfo K V F) (out : Branch K V) : Req K V :=
  let idx := n.bundles.findIdx (fun b => b.no == r.no)
  { r with cnts := n.pivots.foldl (fun cs x =>
      if x.1.bskip ≤ idx then cs.set (r.pos x.1.gen) (countIn out x.1.key x.2) else cs) r.cnts }

/-- The request for a new bundle in a node (trunk.c 4468–4484, 3589–3650). -/
def newReq (ht : Nat) (n : NodeInfo K V F) (no : Nat) : Req K V :=
  { ht := ht, no := no, id := n.id, start := n.lo, stop := n.hi,
    rngs := n.pivots.map (fun x => (x.1.gen, x.1.key, x.2)),
    cnts := n.pivots.map (fun _ => 0), phase := .created }

/-- Is the key in the range of a pivot for which the bundle is live? Keys delivered by
`trunk_btree_skiperator` (trunk.c 4912–4975). -/
def NodeInfo.liveKey (n : NodeInfo K V F) (idx : Nat) (k : K) : Bool :=
  n.pivots.any (fun x => decide (x.1.bskip ≤ idx ∧ x.1.key ≤ k ∧ k < x.2))

/-- The merge of `trunk_compact_bundle` (trunk.c 5129–5300) on a snapshot of the node:
all branches of the bundle, oldest first, restricted to live pivots; `MERGE_FULL` only
in a leaf whose oldest branch is the bundle's first. -/
def compactOut (cfg : DataCfg K V) (ht : Nat) (n : NodeInfo K V F) (no : Nat) :
    Option (Branch K V × Bool) :=
  let idx := n.bundles.findIdx (fun b => b.no == no)
  match n.bundles[idx]? with
  | none => none
  | some b =>
    let full := ht == 0 && idx == 0 && n.whole.isEmpty
    let ins := (b.sbs.flatMap (·.branches)).map (fun br => br.filter (fun x => n.liveKey idx x.1))
    match mergeAll cfg (if full then .full else .intermediate) (ins.map (fun r => (r, 1)))
        ((ins.map (·.length)).sum + 1) with
    | .ok out => some (out, full)
    | .error _ => none

/-! ### The store -/

structure State (K V F : Type) where
  /-- memtables, newest first; the first takes inserts -/
  mems : List (Branch K V)
  h : Nat
  root : Node K V F (Sub K V F h)
  reqs : List (Req K V)
  nextId : Nat

/-- `trunk_create` (trunk.c 7646–7755): a root of height 1 over one empty leaf. -/
def init (ops : FilterOps K F) (lo hi : K) : State K V F :=
  { mems := [[]], h := 1,
    root := { id := 0, maxKey := hi, nextGen := 1, endB := 0, whole := [], bundles := [],
              pivots := [(⟨lo, 0, 0, ops.empty, 0⟩,
                { id := 1, maxKey := hi, nextGen := 1, endB := 0, whole := [], bundles := [],
                  pivots := [(⟨lo, 0, 0, ops.empty, 0⟩, ())] })] },
    reqs := [], nextId := 2 }

/-- Insert into a memtable: `btree_insert`, merging with the tuple already there
(btree.c leaf_incorporate_spec 560–680). -/
def memInsert (cfg : DataCfg K V) (k : K) (m : Msg V) : Branch K V → Option (Branch K V)
  | [] => some [(k, m)]
  | (k', m') :: r =>
    if k < k' then some ((k, m) :: (k', m') :: r)
    else if k = k' then (dataMergeTuples cfg k m' m).map (fun x => (k, x) :: r)
    else (memInsert cfg k m r).map (fun r' => (k', m') :: r')

/-- Operations on the store: the API writes and every maintenance action, each with
the choices the policy makes. -/
inductive Op (K V : Type)
  | insert (k : K) (m : Msg V)
  /-- the active memtable is finalised and a new one becomes active -/
  | rotate
  /-- the oldest memtable moves into the root -/
  | incorporate
  /-- flush the pivot containing `k` of the node of height `j + 1` -/
  | flush (j : Nat) (k : K)
  /-- split the index child of height `j` containing `k` -/
  | splitIndex (j : Nat) (k : K)
  | splitLeaf (k : K) (ks : List K)
  | splitRoot
  /-- request number `i`: read the node and merge -/
  | startCompact (i : Nat)
  /-- request number `i`: install the output in the next node -/
  | replace (i : Nat)
  /-- request number `i`: build the filters of the next node -/
  | filters (i : Nat)

/-- `trunk_insert` (trunk.c 6732–6777); `keyOk` is the key length check. The result is
`none` if a merge callback fails; a key that is too long changes nothing. -/
def doInsert (cfg : DataCfg K V) (keyOk : K → Bool) (s : State K V F) (k : K) (m : Msg V) :
    Option (State K V F) :=
  if keyOk k then
    match s.mems with
    | [] => none
    | b :: r =>
      match memInsert cfg k m b with
      | none => none
      | some b' => some { s with mems := b' :: r }
  else some s

/-- `trunk_memtable_compact_and_build_filter` (3431–3530) and
`trunk_memtable_incorporate_and_flush` (3669–3700) with
`trunk_install_new_compacted_subbundle` (3589–3645). The last memtable is the oldest;
the active one is never incorporated. An empty memtable fails an assertion (3505). -/
def doIncorporate (ops : FilterOps K F) (s : State K V F) : Option (State K V F) :=
  match s.mems with
  | [] => none
  | [_] => none
  | a :: b :: r =>
    let old := (b :: r).getLast (by simp)
    if old.isEmpty then none
    else
      let f := ops.add ops.empty (old.map (·.1)) 0
      let n' := s.root.addBundle [⟨true, [old], [f]⟩]
      let i := s.root.info
      let q : Req K V := newReq s.h i s.root.endB
      some { s with
        mems := a :: (b :: r).dropLast
        root := n'
        reqs := s.reqs ++ [{ q with cnts := i.pivots.map (fun x => countIn old x.1.key x.2)
                                    phase := .filters old q.start }] }

/-- `trunk_flush` (trunk.c 4657–4716) of one pivot, creating the child's request. -/
def doFlush (ops : FilterOps K F) (s : State K V F) (j : Nat) (k : K) : Option (State K V F) :=
  match nodeAt j k s.h s.root with
  | none => none
  | some c =>
    match upd (j + 1) k (atIndex (fun _ n => flush ops n (n.find k))) s.h s.root with
    | none => none
    | some root' => some { s with root := root', reqs := s.reqs ++ [newReq j c c.endB] }

/-- A request not yet started is split with its node (trunk.c 5606–5633). -/
def splitReq (j : Nat) (lo mid hi : K) (r : Req K V) : List (Req K V) :=
  match r.phase with
  | .created =>
    if r.ht = j ∧ r.start = lo ∧ r.stop = hi then [{ r with stop := mid }, { r with start := mid }]
    else [r]
  | _ => [r]

def doSplitIndex (s : State K V F) (j : Nat) (k : K) : Option (State K V F) :=
  match nodeAt j k s.h s.root with
  | none => none
  | some c =>
    if j = 0 then none
    else
      match upd (j + 1) k (atIndex (fun _ n => splitChildIndex n (n.find k) s.nextId (s.nextId + 1)))
          s.h s.root with
      | none => none
      | some root' =>
        match c.pivots[c.pivots.length / 2]? with
        | none => none
        | some m => some { s with
            root := root', nextId := s.nextId + 2
            reqs := s.reqs.flatMap (splitReq j c.lo m.1.key c.hi) }

/-- One request per new leaf (trunk.c 5997–6052). -/
def leafReqs (no gen : Nat) : (id : Nat) → (lo hi : K) → List K → List (Req K V)
  | id, lo, hi, [] => [⟨0, no, id, lo, hi, [(gen, lo, hi)], [0], .created⟩]
  | id, lo, hi, k :: ks => ⟨0, no, id, lo, k, [(gen, lo, k)], [0], .created⟩ ::
      leafReqs no gen (id + 1) k hi ks

/-- Generation the leaf containing `k` hands out next. -/
def leafGen (k : K) : (h : Nat) → Node K V F (Sub K V F h) → Nat
  | 0, n => n.nextGen
  | h + 1, n =>
    match n.pivots[n.find k]? with
    | none => 0
    | some (_, c) => leafGen k h c

/-- Not a request just created for leaf `id`; `trunk_flush` frees that one when it
splits the leaf (trunk.c 4721). -/
def keepReq (id : Nat) (r : Req K V) : Bool :=
  match r.phase with
  | .created => !(r.ht == 0 && r.id == id)
  | _ => true

def doSplitLeaf (ops : FilterOps K F) (s : State K V F) (k : K) (ks : List K) :
    Option (State K V F) :=
  match nodeAt 0 k s.h s.root with
  | none => none
  | some c =>
    match upd 1 k (atIndex (fun _ n => splitChildLeaf ops n (n.find k) s.nextId ks)) s.h s.root with
    | none => none
    | some root' => some { s with
        root := root', nextId := s.nextId + ks.length + 1
        reqs := s.reqs.filter (keepReq c.id) ++ leafReqs c.endB (leafGen k s.h s.root) s.nextId c.lo c.hi ks }

def doSplitRoot (ops : FilterOps K F) (s : State K V F) : Option (State K V F) :=
  match splitRoot ops s.root s.nextId (s.nextId + 1) with
  | none => none
  | some root' => some { s with h := s.h + 1, root := root', nextId := s.nextId + 2 }

/-- Steps 1–9 of `trunk_compact_bundle` (trunk.c 5129–5330). The code reads the node
at the address it had when the root update that created the request ended; here the
read may happen at any later time too, which includes that. `none`: the node has split
(assertion at 5155) or a callback failed. A bundle that is no longer there ends the
request. -/
def doStart (cfg : DataCfg K V) (s : State K V F) (i : Nat) : Option (State K V F) :=
  match s.reqs[i]? with
  | none => none
  | some r =>
    match r.phase with
    | .created =>
      match nodeAt r.ht r.start s.h s.root with
      | none => none
      | some n =>
        if n.hi ≠ r.stop ∨ (r.ht = 0 ∧ n.id ≠ r.id) then none
        else if n.bundles.any (fun b => b.no == r.no) then
          match compactOut cfg r.ht n r.no with
          | none => none
          | some (out, full) =>
            some { s with reqs := s.reqs.set i { r with phase := .compacted out full r.start } }
        else some { s with reqs := s.reqs.eraseIdx i }
    | _ => none

/-- One round of step 11 of `trunk_compact_bundle` (trunk.c 5334–5445). Without output
tuples the bundle vanishes, `start_key` moves on (5437), and no filters are built at the
end (5456–5467). -/
def doReplace (s : State K V F) (i : Nat) : Option (State K V F) :=
  match s.reqs[i]? with
  | none => none
  | some r =>
    match r.phase with
    | .compacted out full cur =>
      match nodeAt r.ht cur s.h s.root with
      | none => none
      | some n =>
        if r.ht = 0 ∧ n.id ≠ r.id then some { s with reqs := s.reqs.eraseIdx i }
        else if out.isEmpty then
          let reqs' := if n.hi < r.stop then
              s.reqs.set i { r with start := n.hi, phase := .compacted [] full n.hi }
            else s.reqs.eraseIdx i
          if n.bundles.any (fun b => b.no == r.no) then
            match upd r.ht cur (fun _ n => some (n.vanish r.no)) s.h s.root with
            | none => none
            | some root' => some { s with root := root', reqs := reqs' }
          else if r.ht = 0 then none
          else some { s with reqs := reqs' }
        else
          let phase : Phase K V :=
            if n.hi < r.stop then .compacted out full n.hi else .filters out r.start
          if n.bundles.any (fun b => b.no == r.no) then
            match upd r.ht cur (fun _ n => some (n.replaceBundle r.no out)) s.h s.root with
            | none => none
            | some root' => some { s with
                root := root'
                reqs := s.reqs.set i { r.record n out with phase := phase } }
          else if r.ht = 0 then none
          else some { s with reqs := s.reqs.set i { r with phase := phase } }
    | _ => none

/-- One round of `trunk_bundle_build_filters` (trunk.c 4245–4410). -/
def doFilters (ops : FilterOps K F) (s : State K V F) (i : Nat) : Option (State K V F) :=
  match s.reqs[i]? with
  | none => none
  | some r =>
    match r.phase with
    | .filters out cur =>
      match nodeAt r.ht cur s.h s.root with
      | none => none
      | some n =>
        let reqs' := if n.hi < r.stop then s.reqs.set i { r with phase := .filters out n.hi }
          else s.reqs.eraseIdx i
        if r.ht = 0 ∧ n.id ≠ r.id then some { s with reqs := s.reqs.eraseIdx i }
        else if n.bundles.any (fun b => b.no == r.no) then
          match n.bundles with
          | [] => none
          | b :: _ =>
            if b.no ≠ r.no then some s
            else
              match upd r.ht cur (fun _ n => some
                  (n.buildFilters ops (r.slice (out.map (·.1)))).clearBundle) s.h s.root with
              | none => none
              | some root' => some { s with root := root', reqs := reqs' }
        else some { s with reqs := reqs' }
    | _ => none

/-- One operation. `none`: an assertion of the code fails, a merge callback fails or
the operation is not applicable. -/
def step (cfg : DataCfg K V) (ops : FilterOps K F) (keyOk : K → Bool) (s : State K V F) :
    Op K V → Option (State K V F)
  | .insert k m => doInsert cfg keyOk s k m
  | .rotate => some { s with mems := [] :: s.mems }
  | .incorporate => doIncorporate ops s
  | .flush j k => doFlush ops s j k
  | .splitIndex j k => doSplitIndex s j k
  | .splitLeaf k ks => doSplitLeaf ops s k ks
  | .splitRoot => doSplitRoot ops s
  | .startCompact i => doStart cfg s i
  | .replace i => doReplace s i
  | .filters i => doFilters ops s i

/-- A sequence of operations. -/
def run (cfg : DataCfg K V) (ops : FilterOps K F) (keyOk : K → Bool) (s : State K V F) :
    List (Op K V) → Option (State K V F)
  | [] => some s
  | o :: os =>
    match step cfg ops keyOk s o with
    | none => none
    | some s' => run cfg ops keyOk s' os

/-- `trunk_lookup` (trunk.c 6941–7031): memtables newest first, then the tree. -/
def lookup (cfg : DataCfg K V) (ops : FilterOps K F) (s : State K V F) (k : K) :
    Except LErr (LookupOut V) :=
  match runProbes cfg k none (s.mems.map some ++ probes ops s.h s.root k) with
  | .error e => .error e
  | .ok acc => .ok (finishLookup cfg k acc)

end Splinter.Trunk
