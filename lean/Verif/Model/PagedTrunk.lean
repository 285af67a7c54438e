import Verif.Model.NodeArr
/-!
# The trunk with nodes on pages

The store of `Model/Trunk.lean` once more, with the circular arrays of `Model/NodeArr.lean`
in the nodes: a tree of pages runs beside the tree of lists. Every operation works on the
arrays and cursors of the pages; whether a bundle is still there, which bundle is the
first one, whether there is room, and which branches a lookup reads are decided by the
page. Shared with the lists are the pivot keys (and so the way down), generations, node
ids, the requests and the memtables.

Simplified: a path is copied on every update (`trunk_copy_path_by_key_and_height`, trunk.c
1306–1345), so pages are values here. Children of a page are kept beside it, in the order
of the pivots, in place of their addresses.
-/
namespace Splinter.Trunk.Paged

open NodeArr (Hdr PRec maxBu)

/-- A page of a trunk node and the pages below it. -/
inductive Tree (B F : Type)
  | mk (page : Hdr B F) (kids : List (Tree B F))

variable {B F : Type}

def Tree.page : Tree B F → Hdr B F
  | .mk a _ => a

def Tree.kids : Tree B F → List (Tree B F)
  | .mk _ l => l

@[simp] theorem page_mk (a : Hdr B F) (l : List (Tree B F)) : (Tree.mk a l).page = a := rfl
@[simp] theorem kids_mk (a : Hdr B F) (l : List (Tree B F)) : (Tree.mk a l).kids = l := rfl

/-- A page with the cursors at 0 and one pivot (`trunk_create`, trunk.c 7676–7730;
`trunk_split_root` 6085–6115). The arrays hold anything. -/
def fresh (zb : B) (zf : F) (empty : F) : Hdr B F :=
  { startBr := 0, fracBr := 0, endBr := 0, startBu := 0, endBu := 0, startSb := 0, endSb := 0, startF := 0, endF := 0,
    bundle := fun _ => (0, 0), sb := fun _ => ⟨false, 0, 0, 0, 0⟩, filt := fun _ => zf, branch := fun _ => zb,
    pivots := [⟨0, 0, empty⟩] }

/-! ### Operations on a page and its children -/

variable (H : Nat)

/-- `trunk_flush` (trunk.c 4657–4716) of pivot `i`. -/
def flushT (empty : F) (i : Nat) (t : Tree B F) : Option (Tree B F) :=
  match t.kids[i]? with
  | none => none
  | some u =>
    match NodeArr.flushInto H empty t.page u.page i with
    | none => none
    | some (a, c) => some (.mk a (t.kids.set i (.mk c u.kids)))

/-- `trunk_add_pivot` (trunk.c 1726–1755), `trunk_init_pivot_data_from_pred` (1537–1560):
further pivots are copies of pivot `i`, `m` in all. -/
def dupPivot (a : Hdr B F) (i m : Nat) : Hdr B F :=
  match a.pivots[i]? with
  | none => a
  | some p => { a with pivots := a.pivots.take i ++ List.replicate m p ++ a.pivots.drop (i + 1) }

/-- The child `i` is replaced by several. -/
def replaceKid (t : Tree B F) (i : Nat) (us : List (Tree B F)) : Tree B F :=
  .mk (dupPivot t.page i us.length) (t.kids.take i ++ us ++ t.kids.drop (i + 1))

/-- `trunk_split_index` (trunk.c 5515–5600) of child `i`: both parts keep the arrays. -/
def splitIndexT (i : Nat) (t : Tree B F) : Option (Tree B F) :=
  match t.kids[i]? with
  | none => none
  | some u =>
    let m := u.page.pivots.length / 2
    match NodeArr.resetStart H { u.page with pivots := u.page.pivots.take m },
        NodeArr.resetStart H { u.page with pivots := u.page.pivots.drop m } with
    | some l, some r => some (replaceKid t i [.mk l (u.kids.take m), .mk r (u.kids.drop m)])
    | _, _ => none

/-- `trunk_split_leaf` (trunk.c 5722–6080) of child `i` into `parts` leaves, each with a copy
of the arrays. -/
def splitLeafT (empty : F) (i parts : Nat) (t : Tree B F) : Option (Tree B F) :=
  match t.kids[i]? with
  | none => none
  | some u =>
    match NodeArr.rebundle H empty u.page with
    | none => none
    | some a => some (replaceKid t i (List.replicate parts (.mk a u.kids)))

/-- `trunk_split_root` (trunk.c 6085–6115). -/
def splitRootT (zb : B) (zf empty : F) (t : Tree B F) : Option (Tree B F) :=
  splitIndexT H 0 (.mk (fresh zb zf empty) [t])

/-- One round of step 11 of `trunk_compact_bundle` (trunk.c 5384–5445) for bundle `no`. A
leaf must have the bundle (5404). -/
def replaceT (leaf : Bool) (no : Nat) (out : Option B) (t : Tree B F) : Option (Tree B F) :=
  if NodeArr.buLive t.page (no % maxBu) then
    (match out with
      | none => NodeArr.vanish H t.page (no % maxBu)
      | some b => NodeArr.replaceBundle H t.page (no % maxBu) b).map (Tree.mk · t.kids)
  else if leaf then none else some t

/-- One round of `trunk_bundle_build_filters` (trunk.c 4262–4375) for bundle `no`, which
waits until the bundle is the first one of its node (4279–4290). -/
def filtersT {K : Type} (add : F → List K → Nat → F) (no : Nat) (slices : List (List K)) (t : Tree B F) : Tree B F :=
  if NodeArr.buLive t.page (no % maxBu) then
    if t.page.startBu = no % maxBu then
      .mk (NodeArr.clearBundle (NodeArr.buildFilters H add t.page slices)) t.kids
    else t
  else t

/-! ### The store -/

variable {K V : Type} [LinearOrder K]

/-- `trunk_copy_path_by_key_and_height` (trunk.c 1306–1345). The keys are those of `n`. -/
def updT (j : Nat) (k : K)
    (f : (h : Nat) → Node K V F (Sub K V F h) → Tree (Branch K V) F → Option (Tree (Branch K V) F)) :
    (h : Nat) → Node K V F (Sub K V F h) → Tree (Branch K V) F → Option (Tree (Branch K V) F)
  | 0, n, t => if j = 0 then f 0 n t else none
  | h + 1, n, t =>
    if h + 1 = j then f (h + 1) n t
    else
      match n.pivots[n.find k]?, t.kids[n.find k]? with
      | some (_, c), some u =>
        match updT j k f h c u with
        | none => none
        | some u' => some (.mk t.page (t.kids.set (n.find k) u'))
      | _, _ => none

/-- `trunk_create` (trunk.c 7646–7755). -/
def init (zb : Branch K V) (zf : F) (ops : FilterOps K F) : Tree (Branch K V) F :=
  .mk (fresh zb zf ops.empty) [.mk (fresh zb zf ops.empty) []]

/-- What an operation of the store does to the pages. `s` is the store before. -/
def step (zb : Branch K V) (zf : F) (ops : FilterOps K F) (s : State K V F) (t : Tree (Branch K V) F) :
    Op K V → Option (Tree (Branch K V) F)
  | .incorporate =>
    match s.mems with
    | _ :: b :: r =>
      let old := (b :: r).getLast (by simp)
      (NodeArr.install H t.page old (ops.add ops.empty (old.map (·.1)) 0)).map (Tree.mk · t.kids)
    | _ => none
  | .flush j k => updT (j + 1) k (fun _ n u => flushT H ops.empty (n.find k) u) s.h s.root t
  | .splitIndex j k => updT (j + 1) k (fun _ n u => splitIndexT H (n.find k) u) s.h s.root t
  | .splitLeaf k ks => updT 1 k (fun _ n u => splitLeafT H ops.empty (n.find k) (ks.length + 1) u) s.h s.root t
  | .splitRoot => splitRootT H zb zf ops.empty t
  | .replace i =>
    match s.reqs[i]? with
    | none => none
    | some r =>
      match r.phase with
      | .compacted out _ cur =>
        match nodeAt r.ht cur s.h s.root with
        | none => none
        | some n =>
          if r.ht = 0 ∧ n.id ≠ r.id then some t
          else updT r.ht cur (fun _ _ u => replaceT H (r.ht == 0) r.no (if out.isEmpty then none else some out) u)
            s.h s.root t
      | _ => none
  | .filters i =>
    match s.reqs[i]? with
    | none => none
    | some r =>
      match r.phase with
      | .filters out cur =>
        match nodeAt r.ht cur s.h s.root with
        | none => none
        | some n =>
          if r.ht = 0 ∧ n.id ≠ r.id then some t
          else updT r.ht cur (fun _ m u => some (filtersT H ops.add r.no
            (m.pivots.map fun y => r.slice (out.map (·.1)) y.1.gen) u)) s.h s.root t
      | _ => none
  | _ => some t

/-- Both stores side by side. -/
def run (cfg : DataCfg K V) (zb : Branch K V) (zf : F) (ops : FilterOps K F) (keyOk : K → Bool) :
    State K V F → Tree (Branch K V) F → List (Op K V) → Option (State K V F × Tree (Branch K V) F)
  | s, t, [] => some (s, t)
  | s, t, o :: os =>
    match Trunk.step cfg ops keyOk s o, step H zb zf ops s t o with
    | some s', some t' => run cfg zb zf ops keyOk s' t' os
    | _, _ => none

/-! ### Lookup -/

/-- The descent of `trunk_lookup` (trunk.c 6976–7000): branches read from the arrays, in
order. -/
def reads (ops : FilterOps K F) : (h : Nat) → Node K V F (Sub K V F h) → Tree (Branch K V) F → K →
    List (Option (Branch K V))
  | 0, _, t, k =>
    match t.page.pivots[0]? with
    | some x => (NodeArr.pivotReads H ops.vals t.page x k).map some
    | none => [none]
  | h + 1, n, t, k =>
    match t.page.pivots[n.find k]?, n.pivots[n.find k]?, t.kids[n.find k]? with
    | some x, some (_, c), some u => (NodeArr.pivotReads H ops.vals t.page x k).map some ++ reads ops h c u k
    | _, _, _ => [none]

/-- `trunk_lookup` (trunk.c 6941–7031) reading pages. -/
def lookup (cfg : DataCfg K V) (ops : FilterOps K F) (s : State K V F) (t : Tree (Branch K V) F) (k : K) :
    Except LErr (LookupOut V) :=
  match runProbes cfg k none (s.mems.map some ++ reads H ops s.h s.root t k) with
  | .error e => .error e
  | .ok acc => .ok (finishLookup cfg k acc)

end Splinter.Trunk.Paged
