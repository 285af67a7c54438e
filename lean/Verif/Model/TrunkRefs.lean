import Verif.Model.Mini
/-!
# References of trunk nodes to branches

A branch is shared: a node refers to it, for each pivot for which it is live, in the range of that
pivot. `trunk_inc_intersection` and `trunk_zap_branch_range` (trunk.c 3158–3196) keep the counts of the
branch's extents (`Model/Mini.lean`) up to date. Here is which of these calls the trunk makes, with what
ranges, when branches move.

A node is its branches in order, with the number of branches before the first live one for each pivot:
a pivot's branches are those from its `start_branch` to the node's `end_branch`. How the circular
arrays give these lists is C47. `L b` are the meta entries of branch `b`. Left out: filters, the kinds of
subbundles, the locks (one step is what happens between two updates of the root).
-/
namespace Splinter.TrunkRefs
open Splinter.Mini

variable {K : Type}

structure Nd (K : Type) where
  brs : List Nat
  pivs : List (K × Nat)
  hi : K

/-- A pivot's range: to the next pivot's key, the last one to the node's upper bound. -/
def ranges (hi : K) : List (K × Nat) → List (K × K × Nat)
  | [] => []
  | [(k, s)] => [(k, hi, s)]
  | (k, s) :: (k', s') :: r => (k, k', s) :: ranges hi ((k', s') :: r)

def Nd.ranges (d : Nd K) : List (K × K × Nat) := TrunkRefs.ranges d.hi d.pivs

def Nd.keys (d : Nd K) : List K := d.pivs.map (·.1)

/-- Counts of extents by branch. -/
abbrev Refs := Nat → Nat → Nat

section
variable [LinearOrder K] (L : Nat → List (Ent K))

/-- `btree_inc_ref_range` (btree.c 1237–1248). -/
def incAt (b : Nat) (a c : K) (R : Refs) : Option Refs := (incRange (L b) a c (R b)).map (Mini.upd R b)

/-- `trunk_zap_branch_range` (trunk.c 3158–3170), `btree_dec_ref_range` (btree.c 1250–1261). -/
def zapAt (b : Nat) (a c : K) (R : Refs) : Option Refs := (decRange (L b) a c (R b)).map (fun x => Mini.upd R b x.1)

/-- A loop that may fail. -/
def each {α : Type} (f : α → Refs → Option Refs) : List α → Refs → Option Refs
  | [], R => some R
  | x :: l, R =>
    match f x R with
    | none => none
    | some R' => each f l R'

/-- `trunk_inc_intersection` (trunk.c 3186–3196) at each of a list of keys. -/
def incKeys (b : Nat) (ks : List K) : Refs → Option Refs := each (fun k => incAt L b k k) ks

/-! ### The calls -/

/-- Trunk.c 3633–3643: a new branch is cut at all pivots but the first. -/
def installRefs (d : Nd K) (b : Nat) : Refs → Option Refs := incKeys L b d.keys.tail

/-- `trunk_bundle_inc_pivot_rc` (trunk.c 2700–2718): the same for each branch flushed into `c`. -/
def flushRefs (c : Nd K) (bs : List Nat) : Refs → Option Refs := each (fun b => incKeys L b c.keys.tail) bs

/-- Trunk.c 5970–5980, in the loop over the new leaves: `ks` are the lower bounds of all but the first. -/
def splitRefs (ks : List K) (bs : List Nat) : Refs → Option Refs := each (fun k => each (fun b => incAt L b k k) bs) ks

/-- `trunk_garbage_collect_bundle` (trunk.c 2903–2925): each branch is given up in the range of each pivot for which
the bundle, whose first branch is number `s`, is live. -/
def gcRefs (d : Nd K) (s : Nat) (bs : List Nat) : Refs → Option Refs :=
  each (fun b => each (fun r => zapAt L b r.1 r.2.1) (d.ranges.filter (fun r => decide (r.2.2 ≤ s)))) bs

/-- `trunk_replace_bundle_branches` (trunk.c 2964–2983): the new branch is cut at all pivots but the first and at the
upper bound of the node, and given up in the ranges of pivots for which the bundle is dead. -/
def replaceRefs (d : Nd K) (s out : Nat) (R : Refs) : Option Refs :=
  match incKeys L out (d.keys.tail ++ [d.hi]) R with
  | none => none
  | some R' => each (fun r => zapAt L out r.1 r.2.1) (d.ranges.filter (fun r => !decide (r.2.2 ≤ s))) R'

/-- `trunk_node_destroy` (trunk.c 7905–7920). -/
def destroyRefs (d : Nd K) : Refs → Option Refs :=
  each (fun r => each (fun b => zapAt L b r.1 r.2.1) (d.brs.drop r.2.2)) d.ranges

end

/-- Positions of the filters `trunk_node_destroy` gives up (trunk.c 7922–7927): the 16 bit number is counted up from
`start_sb_filter` until it equals `end_sb_filter`, not modulo the length of the array as elsewhere (trunk.c 1411–1415). -/
def destroyFilters (start stop : Nat) : List Nat := (List.range ((stop + 65536 - start) % 65536)).map (fun i => (start + i) % 65536)

/-! ### The branches of nodes -/

/-- `trunk_reset_start_branch` (trunk.c 2051–2094). -/
def Nd.resetStart (d : Nd K) : Nd K :=
  let m := (d.pivs.map (·.2)).foldl min d.brs.length
  { d with brs := d.brs.drop m, pivs := d.pivs.map (fun p => (p.1, p.2 - m)) }

/-- `trunk_pivot_clear` (trunk.c 2101–2120). -/
def Nd.clear (d : Nd K) (i : Nat) : Nd K :=
  match d.pivs[i]? with
  | none => d
  | some (k, s) =>
    let d' := { d with pivs := d.pivs.set i (k, d.brs.length) }
    if s = 0 then d'.resetStart else d'

/-- New branches at the end (trunk.c 3607, 4513, 4560). -/
def Nd.append (d : Nd K) (bs : List Nat) : Nd K := { d with brs := d.brs ++ bs }

/-- `trunk_replace_bundle_branches` (trunk.c 2955–3144) of the bundle with branches `s`, …, `e - 1`. -/
def Nd.replace (d : Nd K) (s e : Nat) (out : List Nat) : Nd K :=
  { d with
    brs := d.brs.take s ++ out ++ d.brs.drop e
    pivs := d.pivs.map (fun p => (p.1, if p.2 ≤ s then p.2 else p.2 - (e - s - out.length))) }

/-- The leaves of `trunk_split_leaf` (trunk.c 5918–5990); the leaf has one pivot, with all branches live. -/
def leaves (bs : List Nat) (hi : K) : K → List K → List (Nd K)
  | lo, [] => [⟨bs, [(lo, 0)], hi⟩]
  | lo, k :: ks => ⟨bs, [(lo, 0)], k⟩ :: leaves bs hi k ks

/-- `trunk_split_index` (trunk.c 5514–5570). -/
def Nd.left (d : Nd K) (t : Nat) (k : K) : Nd K := ({ d with pivs := d.pivs.take t, hi := k } : Nd K).resetStart
def Nd.right (d : Nd K) (t : Nat) : Nd K := ({ d with pivs := d.pivs.drop t } : Nd K).resetStart

/-- `trunk_add_pivot` (trunk.c 1726–1755), `trunk_init_pivot_data_from_pred` (1537–1560): the new pivot behind
number `i` takes over the first live branch of number `i`. -/
def Nd.addPivot (d : Nd K) (i : Nat) (k : K) : Nd K :=
  match d.pivs[i]? with
  | none => d
  | some p => { d with pivs := d.pivs.insertIdx (i + 1) (k, p.2) }

/-! ### Steps -/

/-- The nodes of the trunk, the references held by others (a compaction for its output, an iterator for what it
reads; branch and range), and the counts. `made` are the branches there have been. `lost` is not in the code: it records
for which ranges (branch, range before, range after) references were held of which only those for a smaller range are
still known to someone. -/
structure St (K : Type) where
  nodes : List (Nd K)
  fly : List (Nat × K × K)
  refs : Refs
  made : List Nat
  lost : List (Nat × (K × K) × (K × K))

section
variable [LinearOrder K] (L : Nat → List (Ent K)) (n : Nat → Nat) (exts : Nat → Nat → List (Nat × K)) (bot top : K)

inductive Step : St K → St K → Prop
  /-- A branch is packed: `btree_pack_post_loop`, `mini_release`. Each extent has one reference. -/
  | make {s : St K} {b : Nat} {r : Nat → Nat} : b ∉ s.made → (∀ β < n b, ∀ x ∈ exts b β, r x.1 = 2) →
      Step s { s with fly := (b, bot, top) :: s.fly, refs := Mini.upd s.refs b r, made := b :: s.made }
  /-- Incorporation into the root. -/
  | install {s : St K} {d : Nd K} {rest fly b R} : s.nodes.Perm (d :: rest) → s.fly.Perm ((b, bot, top) :: fly) →
      d.keys.head? = some bot → d.hi = top → installRefs L d b s.refs = some R →
      Step s { s with nodes := d.append [b] :: rest, fly := fly, refs := R }
  /-- A flush of pivot `i` of `p` into its child `c`. -/
  | flush {s : St K} {p c : Nd K} {rest i a z k R} : s.nodes.Perm (p :: c :: rest) → p.ranges[i]? = some (a, z, k) →
      c.keys.head? = some a → c.hi = z → flushRefs L c (p.brs.drop k) s.refs = some R →
      Step s { s with nodes := p.clear i :: c.append (p.brs.drop k) :: rest, refs := R }
  /-- A leaf is split at the keys `ks`. -/
  | splitLeaf {s : St K} {d : Nd K} {rest lo ks R} : s.nodes.Perm (d :: rest) → d.pivs = [(lo, 0)] →
      (lo :: ks ++ [d.hi]).Pairwise (· ≤ ·) → splitRefs L ks d.brs s.refs = some R →
      Step s { s with nodes := leaves d.brs d.hi lo ks ++ rest, refs := R }
  /-- An index node is split before pivot `t`. -/
  | splitIndex {s : St K} {d : Nd K} {rest t p} : s.nodes.Perm (d :: rest) → 0 < t → d.pivs[t]? = some p →
      Step s { s with nodes := d.left t p.1 :: d.right t :: rest }
  /-- The parent of a split child gets a pivot behind one that was flushed. -/
  | addPivot {s : St K} {d : Nd K} {rest i a z k} : s.nodes.Perm (d :: rest) → d.ranges[i]? = some (a, z, d.brs.length) →
      a ≤ k → k ≤ z → Step s { s with nodes := d.addPivot i k :: rest }
  /-- A new root above the old one, without branches. -/
  | newRoot {s : St K} : bot ≤ top → Step s { s with nodes := ⟨[], [(bot, 0)], top⟩ :: s.nodes }
  /-- The output of a compaction goes into a node for which its bundle is live. The last one it went into ended at `a`
  (or `a = bot`, the first time): if this is before `lo`, nothing takes over the references for the keys between (nothing
  is lost if there are no extents there, see `Props`). The zap of `compacted` comes before the garbage collection in the
  code, which makes no difference to the counts. -/
  | compact {s : St K} {d : Nd K} {rest fly lo b e out a R R'} : s.nodes.Perm (d :: rest) → s.fly.Perm ((out, a, top) :: fly) →
      d.keys.head? = some lo → a ≤ lo → d.hi ≤ top →
      b < e → e ≤ d.brs.length → (∀ p ∈ d.pivs, p.2 ≤ b ∨ e ≤ p.2) →
      replaceRefs L d b out s.refs = some R → gcRefs L d b ((d.brs.drop b).take (e - b)) R = some R' →
      Step s { s with nodes := d.replace b e [out] :: rest, fly := (out, d.hi, top) :: fly, refs := R', lost := (out, (a, top), (lo, top)) :: s.lost }
  /-- After the last node (trunk.c 5392–5396). -/
  | compacted {s : St K} {fly out hi R} : s.fly.Perm ((out, hi, top) :: fly) → hi ≤ top →
      zapAt L out hi hi s.refs = some R → Step s { s with fly := fly, refs := R, lost := (out, (hi, top), (hi, hi)) :: s.lost }
  /-- A compaction without output. -/
  | vanish {s : St K} {d : Nd K} {rest b e R} : s.nodes.Perm (d :: rest) → b < e → e ≤ d.brs.length →
      (∀ p ∈ d.pivs, p.2 ≤ b ∨ e ≤ p.2) → gcRefs L d b ((d.brs.drop b).take (e - b)) s.refs = some R →
      Step s { s with nodes := d.replace b e [] :: rest, refs := R }
  /-- An iterator over a range in which the branch is live. -/
  | hold {s : St K} {b a z R} : a ≤ z →
      (∀ k, a ≤ k → k ≤ z → ∃ d ∈ s.nodes, ∃ r ∈ d.ranges, b ∈ d.brs.drop r.2.2 ∧ r.1 ≤ k ∧ k ≤ r.2.1) → incAt L b a z s.refs = some R → Step s { s with fly := (b, a, z) :: s.fly, refs := R }
  /-- An iterator ends, or the output of a compaction is thrown away (`trunk_dec_ref`, trunk.c 3177–3183). -/
  | release {s : St K} {fly b a z R} : s.fly.Perm ((b, a, z) :: fly) → zapAt L b a z s.refs = some R →
      Step s { s with fly := fly, refs := R }
  /-- `trunk_destroy`. -/
  | destroy {s : St K} {d : Nd K} {rest R} : s.nodes.Perm (d :: rest) → destroyRefs L d s.refs = some R →
      Step s { s with nodes := rest, refs := R }

/-- `trunk_create`: a root above an empty leaf. -/
def St.init : St K := ⟨[⟨[], [(bot, 0)], top⟩, ⟨[], [(bot, 0)], top⟩], [], fun _ _ => 0, [], []⟩

inductive Reach : St K → Prop
  | init : Reach (St.init bot top)
  | step {s s' : St K} : Reach s → Step L n exts bot top s s' → Reach s'

end

end Splinter.TrunkRefs
