import Verif.Model.Trunk
import Verif.Model.Filter
import Verif.Model.Btree
/-!
# Asynchronous lookup

Models `trunk_lookup_async` (trunk.c 7147–7595) with its callbacks (7046–7115) and the
two state machines it drives, `routing_filter_lookup_async` (routing_filter.c
997–1162) and `btree_lookup_async_with_ref` (btree.c 2265–2370).  One step is one
iteration of the `do … switch … while (!done)` loop.

Each attempt to get a page (`clockcache_get_async`, clockcache.c 2354–2480) is answered
from outside by `Ans`.  An iteration that leaves the loop with `async_locked` or
`async_no_reqs` is followed by another invocation with the same context, as the
comment of the function demands; one that leaves with `async_io_started` is followed
first by the callback and then by another invocation.  So a run is a list of answers.

Simplified: the memtables and the trunk do not change between the first invocation and
the last one.  Statistics and log output are left out.
-/
namespace Splinter.Async

/-- What `cache_get_async` answers: `async_success`, one of `async_locked` and
`async_no_reqs`, or `async_io_started`. -/
inductive Ans
  | ok | again | io
  deriving DecidableEq, Repr

/-! ### Routing filter -/

namespace Filter
open Splinter.Filter Splinter.PA
open Splinter.Log (Mem)

/-- `routing_async_state` (routing_filter.h 61–68); `returned` is after
`async_success`. -/
inductive PC
  | start | getIndex | gotIndex | getFilter | gotFilter | returned
  deriving DecidableEq, Repr

/-- `routing_async_ctxt` (routing_filter.h 71–90). `page` is the address of
`cache_ctxt->page`; `refs` counts page references, `found` is `*found_values`. -/
structure Ctx where
  pc : PC
  rs : Nat
  bucket : Nat
  index : Nat
  remainder : Nat
  pageAddr : Nat
  headerAddr : Nat
  page : Nat
  refs : Nat
  found : Option Nat

/-- `routing_filter_ctxt_init`. -/
def init : Ctx := ⟨.start, 0, 0, 0, 0, 0, 0, 0, 0, none⟩

/-- `routing_async_state_get_index`, `routing_async_state_get_filter` (1042–1090) and
the callback `routing_filter_async_callback` (946–967). -/
def getBody (a : Ans) (x : Ctx) : Ctx :=
  if a = .again then x
  else { x with pc := if x.pc = .getIndex then .gotIndex else .gotFilter, page := x.pageAddr, refs := x.refs + 1 }

/-- One iteration of `routing_filter_lookup_async` (1008–1160) for a key with hash `h`.
`none`: undefined behaviour or a read outside of the page. -/
def step (c : Cfg) (dev : Nat → Mem) (f : Splinter.Filter.Filter) (h : Nat) (a : Ans) (x : Ctx) : Option Ctx :=
  match x.pc with
  | .start =>
    let fp := h >>> (32 - c.F)
    (logBuckets c f.nfp).bind fun lb =>
      if c.F < lb ∨ c.F = 0 then none
      else
        let rs := c.F - lb
        (getBucket (u32 (fp <<< f.vs)) (rs + f.vs)).bind fun bucket =>
          (Splinter.Filter.getIndex (u32 (fp <<< f.vs)) (rs + f.vs + c.L)).bind fun index =>
            some (getBody a { x with pc := .getIndex, rs := rs, bucket := bucket, index := index,
                                     remainder := fp &&& (2 ^ rs - 1),
                                     pageAddr := f.addr + c.ps * (index / (c.ps / 8)) })
  | .getIndex | .getFilter => some (getBody a x)
  | .gotIndex =>
    let ha := rd (dev x.page) (8 * (x.index % (c.ps / 8))) 8
    some { x with pc := .getFilter, headerAddr := ha, pageAddr := ha - ha % c.ps, refs := x.refs - 1 }
  | .gotFilter =>
    let off := x.headerAddr % c.ps
    (rdIn c.ps (dev x.page) off 2).bind fun n =>
      let hl := headerLength c n
      (bucketBounds c.ps (dev x.page) (off + 2) hl (x.bucket % c.isz)).bind fun (start, stop) =>
        (collect (words (dev x.page) (off + hl) ((c.ps - (off + hl)) / 4)) (x.rs + f.vs) f.vs x.remainder start
          (stop - start) 0).map fun v => { x with pc := .returned, refs := x.refs - 1, found := some v }
  | .returned => some x

/-- The caller's loop. -/
def run (c : Cfg) (dev : Nat → Mem) (f : Splinter.Filter.Filter) (h : Nat) : List Ans → Ctx → Option Ctx
  | [], x => some x
  | a :: as, x => (step c dev f h a x).bind (run c dev f h as)

end Filter

/-! ### B-tree -/

namespace Btree
open Splinter.Btree Splinter.Search

variable {K M : Type} [LinearOrder K] [BoundedOrder K] [Inhabited K]

/-- `btree_async_state` (btree.h 177–183); `returned` is after `async_success`. -/
inductive PC
  | start | getNode | gotIndex | gotLeaf | returned
  deriving DecidableEq, Repr

/-- `btree_async_ctxt` (btree.h 186–201). `node` is the address of the page held in
`ctxt->node`, `page` that of `cache_ctxt->page`; `found` is `*found` with `*data`. -/
structure Ctx (M : Type) where
  pc : PC
  childAddr : Nat
  node : Option Nat
  page : Nat
  refs : Nat
  found : Option (Option M)

/-- `btree_ctxt_init`. -/
def init : Ctx M := ⟨.start, 0, none, 0, 0, none⟩

/-- `btree_async_state_get_node` (2292–2330) and `btree_async_callback` (2227–2245). -/
def getBody (a : Ans) (x : Ctx M) : Ctx M :=
  if a = .again then x else { x with pc := .gotIndex, page := x.childAddr, refs := x.refs + 1 }

/-- The child an index page is left through (2348–2355). -/
def childIdx (es : List (Entry K)) (target : K) : Nat :=
  let i : Int := (btreeFind (es.map (·.key)) target).1
  if i < 0 then 0 else i.toNat

/-- One iteration of `btree_lookup_async_with_ref` (2278–2376). When the key is found
the reference on the leaf stays with the caller, who gives it back after merging the
message (2398–2402, 2421–2439): `refs` is what is left after that. -/
def step (st : Store K M) (root : Nat) (target : K) (a : Ans) (x : Ctx M) : Option (Ctx M) :=
  match x.pc with
  | .start => some (getBody a { x with pc := .getNode, childAddr := root, node := none })
  | .getNode => some (getBody a x)
  | .gotIndex => do
    let x := { x with refs := if x.node.isSome then x.refs - 1 else x.refs, node := some x.page }
    let n ← st x.page
    if n.height = 0 then some { x with pc := .gotLeaf }
    else
      match n.body with
      | .leaf _ => none
      | .index es => do
        let e ← es[childIdx es target]?
        some { x with pc := .getNode, childAddr := e.child }
  | .gotLeaf => do
    let a ← x.node
    let es ← leafOf st a
    let (i, found) := btreeFind (es.map (·.1)) target
    if found then
      let e ← es[i.toNat]?
      some { x with pc := .returned, refs := x.refs - 1, found := some (some e.2) }
    else some { x with pc := .returned, refs := x.refs - 1, found := some none }
  | .returned => some x

/-- The caller's loop. -/
def run (st : Store K M) (root : Nat) (target : K) : List Ans → Ctx M → Option (Ctx M)
  | [], x => some x
  | a :: as, x => (step st root target a x).bind (run st root target as)

end Btree
end Splinter.Async

namespace Splinter.Trunk.Async
open Splinter.Async (Ans)

variable {K V F : Type} [LinearOrder K]

/-- A trunk node of any height. -/
abbrev AnyNode (K V F : Type) := Sigma (fun h => Node K V F (Sub K V F h))

/-- `trunk_async_state` (trunk.h 254–272). `returned` is after `async_state_end`. -/
inductive PC
  | start | memtable | getRoot | node | subbundle | pivot | filterStart | filter
  | branchStart | branch | next | nodeDone | getChild | ungetParent | early | fin | returned
  deriving DecidableEq, Repr

/-- `trunk_async_lookup_state` (trunk.h 274–279). -/
inductive LState
  | pivot | sub | comp
  deriving DecidableEq, Repr

/-- What a lookup is given. `isNull` tells that the address of a filter is 0. -/
structure Env (K V F : Type) where
  cfg : DataCfg K V
  ops : FilterOps K F
  isNull : F → Bool
  mems : List (Branch K V)
  h : Nat
  root : Node K V F (Sub K V F h)
  key : K

/-- `trunk_async_ctxt` (trunk.h 295–326) with `*result`. `sb_no`, `end_sb_no` are the
list of subbundles still to visit, the current one first; `below` is the node at
`pdata->addr`; `page` is `cache_ctxt.page`; `vals` are the values of `found_values`
not yet delivered by `routing_filter_get_next_value`. `locks` counts
`memtable_begin_lookup` minus `memtable_end_lookup`, `refs` counts page references
taken minus given back. `retries`, `out` are for the theorems: how often the root was
not available, and what the lookup has returned. -/
structure Ctx (K V F : Type) where
  pc : PC
  result : Option (Msg V)
  node : Option (AnyNode K V F)
  page : Option (AnyNode K V F)
  pdata : Option (PData K F)
  below : Option (AnyNode K V F)
  sbs : List (SB K V F)
  filterNo : Nat
  lst : LState
  filter : Option F
  vals : List Nat
  value : Option Nat
  branch : Option (Branch K V)
  locks : Nat
  refs : Nat
  retries : Nat
  out : Option (LookupOut V)

/-- How a step can go wrong: a read beyond the branches or pivots, a failing merge
callback, a null trunk node given to `trunk_node_unget`, a filter number beyond the
subbundle's, the assertion that only a pivot may lack a filter. -/
inductive Err
  | badBranch | mergeFailed | nullNode | badFilter | nullFilter
  deriving DecidableEq, Repr

/-- `trunk_async_ctxt_init` (trunk.h 447–453). -/
def init : Ctx K V F :=
  { pc := .start, result := none, node := none, page := none, pdata := none, below := none,
    sbs := [], filterNo := 0, lst := .pivot, filter := none, vals := [], value := none,
    branch := none, locks := 0, refs := 0, retries := 0, out := none }

/-- `async_state_get_root_reentrant` (7193–7232) and `trunk_async_callback`
(7056–7078) on the root's page. The state is the one the loop entered with. -/
def rootBody (e : Env K V F) (a : Ans) (c : Ctx K V F) : Ctx K V F :=
  match a with
  | .ok => { c with pc := .node, node := some ⟨e.h, e.root⟩, refs := c.refs + 1, locks := c.locks - 1 }
  | .again => { c with retries := c.retries + 1 }
  | .io =>
    { c with pc := if c.pc = .getRoot then .node else .ungetParent,
             page := some ⟨e.h, e.root⟩, refs := c.refs + 1 }

/-- `async_state_lookup_memtable` (7171–7192), which falls through to the root without
changing the state. The loop over the memtables is the one of `trunk_lookup`. -/
def memBody (e : Env K V F) (a : Ans) (c : Ctx K V F) : Except Err (Ctx K V F) :=
  let c := { c with locks := c.locks + 1 }
  match runProbes e.cfg e.key c.result (e.mems.map some) with
  | .error _ => .error .mergeFailed
  | .ok r =>
    let c := { c with result := r }
    if r.any Msg.definitive then .ok { c with pc := .early, locks := c.locks - 1 }
    else .ok (rootBody e a c)

/-- The child of a pivot. -/
def belowOf : (h : Nat) → Sub K V F h → Option (AnyNode K V F)
  | 0, _ => none
  | h + 1, c => some ⟨h, c⟩

/-- `async_state_trunk_node_lookup` (7234–7250). -/
def nodeBody (e : Env K V F) (c : Ctx K V F) : Except Err (Ctx K V F) :=
  match c.node with
  | none => .error .nullNode
  | some ⟨h, n⟩ =>
    match n.pivots[n.find e.key]? with
    | none => .error .badBranch
    | some (p, x) =>
      .ok { c with pc := .subbundle, pdata := some p, below := belowOf h x, filterNo := 0,
                   sbs := (n.bundles.drop p.bskip).reverse.flatMap (fun b => b.sbs.reverse) }

/-- `async_state_subbundle_lookup` (7251–7271). -/
def subbundleBody (c : Ctx K V F) : Except Err (Ctx K V F) :=
  match c.sbs with
  | [] => .ok { c with pc := .pivot, lst := .pivot }
  | sb :: _ =>
    match sb.filters[c.filterNo]? with
    | none => .error .badFilter
    | some f =>
      .ok { c with pc := .filterStart, filter := some f, lst := if sb.compacted then .comp else .sub }

/-- `async_state_pivot_lookup` (7272–7278). -/
def pivotBody (c : Ctx K V F) : Except Err (Ctx K V F) :=
  match c.pdata with
  | none => .error .nullNode
  | some p => .ok { c with pc := .filterStart, filter := some p.filter }

/-- `async_state_filter_lookup_start` (7279–7295). -/
def filterStartBody (e : Env K V F) (c : Ctx K V F) : Except Err (Ctx K V F) :=
  match c.filter with
  | none => .error .nullFilter
  | some f =>
    if e.isNull f then
      if c.lst = .pivot then .ok { c with pc := .next, value := none } else .error .nullFilter
    else .ok { c with pc := .filter, value := none }

/-- `async_state_filter_lookup_reentrant` (7296–7348). -/
def filterBody (e : Env K V F) (a : Ans) (c : Ctx K V F) : Except Err (Ctx K V F) :=
  match c.filter with
  | none => .error .nullFilter
  | some f => if a = .ok then .ok { c with pc := .branchStart, vals := e.ops.vals f e.key } else .ok c

/-- Branches of the current node from the pivot's `start_branch`. -/
def Ctx.pivotBranches (c : Ctx K V F) : List (Branch K V) :=
  match c.node, c.pdata with
  | some ⟨_, n⟩, some p => n.whole.drop p.wskip
  | _, _ => []

/-- `trunk_get_branch` into the context. -/
def toBranch (c : Ctx K V F) : Option (Branch K V) → Except Err (Ctx K V F)
  | none => .error .badBranch
  | some b => .ok { c with pc := .branch, branch := some b }

/-- The slot of the branch for value `v` of a subbundle's filter in
`async_state_btree_lookup_start` (7372–7374): the sum of `trunk_add_branch_number` is
overwritten with one that does not wrap. `trunk_filter_lookup` (6807) has `Ring.add`. -/
def subBranchNo (startBranch v : Nat) : Nat := (startBranch + v) % 65536

/-- `async_state_btree_lookup_start` (7349–7399). Branches are lists here, so the slot
is right by construction; see `subBranchNo` for the code's. -/
def branchStartBody (c : Ctx K V F) : Except Err (Ctx K V F) :=
  match c.lst, c.sbs with
  | .pivot, _ =>
    match c.vals with
    | [] => .ok { c with pc := .next, value := none }
    | v :: vs => toBranch { c with vals := vs, value := some v } c.pivotBranches[v]?
  | .sub, sb :: _ =>
    match c.vals with
    | [] => .ok { c with pc := .next, value := none }
    | v :: vs => toBranch { c with vals := vs, value := some v } sb.branches[v]?
  | .comp, sb :: _ =>
    if c.vals.isEmpty then .ok { c with pc := .next, value := none } else toBranch c sb.branches[0]?
  | _, [] => .error .badBranch

/-- `async_state_btree_lookup_reentrant` (7400–7448) with
`btree_lookup_and_merge_async` (btree.c 2389–2428). -/
def branchBody (e : Env K V F) (a : Ans) (c : Ctx K V F) : Except Err (Ctx K V F) :=
  match c.branch with
  | none => .error .badBranch
  | some b =>
    if a = .ok then
      match b.get e.key with
      | none => .ok { c with pc := .next }
      | some m =>
        match accumulate e.cfg e.key c.result m with
        | none => .error .mergeFailed
        | some r =>
          if r.any Msg.definitive then
            .ok { c with pc := .early, result := r, node := none, refs := c.refs - 1 }
          else .ok { c with pc := .next, result := r }
    else .ok c

/-- `async_state_next_in_node` (7449–7503). -/
def nextBody (c : Ctx K V F) : Ctx K V F :=
  match c.lst with
  | .pivot => { c with pc := if c.value = none then .nodeDone else .branchStart }
  | .sub =>
    if c.value = none then { c with pc := .subbundle, sbs := c.sbs.tail }
    else { c with pc := .branchStart }
  | .comp =>
    if !c.vals.isEmpty then { c with pc := .subbundle, sbs := c.sbs.tail, filterNo := 0 }
    else if (c.sbs.head?.map (·.filters.length)).getD 0 ≤ c.filterNo + 1 then
      { c with pc := .subbundle, sbs := c.sbs.tail, filterNo := 0 }
    else { c with pc := .subbundle, filterNo := c.filterNo + 1 }

/-- `async_state_trunk_node_done` (7504–7522). The result of the final merge is not
checked by the code; a failure leaves `*result` unspecified. -/
def nodeDoneBody (e : Env K V F) (c : Ctx K V F) : Except Err (Ctx K V F) :=
  match c.node with
  | none => .error .nullNode
  | some ⟨0, _⟩ =>
    let c := { c with pc := .fin, node := none, refs := c.refs - 1 }
    match c.result with
    | none => .ok c
    | some m =>
      if m.type = .insert then .ok c
      else
        match dataMergeTuplesFinal e.cfg e.key m with
        | none => .error .mergeFailed
        | some m => .ok { c with result := some m }
  | some ⟨_ + 1, _⟩ => .ok { c with pc := .getChild }

/-- `async_state_get_child_trunk_node_reentrant` (7523–7560), with the callback. -/
def getChildBody (a : Ans) (c : Ctx K V F) : Except Err (Ctx K V F) :=
  match c.below with
  | none => .error .nullNode
  | some n =>
    if a = .again then .ok c else .ok { c with pc := .ungetParent, page := some n, refs := c.refs + 1 }

/-- `async_state_unget_parent_trunk_node` (7561–7572). -/
def ungetParentBody (c : Ctx K V F) : Except Err (Ctx K V F) :=
  match c.node, c.page with
  | some _, some n => .ok { c with pc := .node, node := some n, pdata := none, refs := c.refs - 1 }
  | _, _ => .error .nullNode

/-- `async_state_end` (7578–7598). -/
def endBody (c : Ctx K V F) : Ctx K V F :=
  { c with
    pc := .returned
    out := some (match c.result with
      | none => .notFound
      | some m => if m.type = .delete then .notFound else .found m.data) }

/-- One iteration of the loop in `trunk_lookup_async` (7160–7603). Where the code falls
through after setting the state, the next step does the rest. -/
def step (e : Env K V F) (a : Ans) (c : Ctx K V F) : Except Err (Ctx K V F) :=
  match c.pc with
  | .start => memBody e a { c with pc := .memtable, result := none }
  | .memtable => memBody e a c
  | .getRoot => .ok (rootBody e a c)
  | .node => nodeBody e c
  | .subbundle => subbundleBody c
  | .pivot => pivotBody c
  | .filterStart => filterStartBody e c
  | .filter => filterBody e a c
  | .branchStart => branchStartBody c
  | .branch => branchBody e a c
  | .next => .ok (nextBody c)
  | .nodeDone => nodeDoneBody e c
  | .getChild => getChildBody a c
  | .ungetParent => ungetParentBody c
  | .early => .ok { c with pc := .fin }
  | .fin => .ok (endBody c)
  | .returned => .ok c

/-- The caller's loop: invoke until the answers run out. -/
def run (e : Env K V F) : List Ans → Ctx K V F → Except Err (Ctx K V F)
  | [], c => .ok c
  | a :: as, c =>
    match step e a c with
    | .error x => .error x
    | .ok c' => run e as c'

end Splinter.Trunk.Async
