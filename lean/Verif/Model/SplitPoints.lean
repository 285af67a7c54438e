import Mathlib.Order.Basic
import Mathlib.Order.Defs.LinearOrder
import Mathlib.Data.Nat.Notation
/-!
# Where a trunk leaf is split

`trunk_split_leaf` (src/trunk.c 5722-5905) decides how many leaves to make, walks the index entries one level above
the leaves of the leaf's branches in key order, and takes an entry's key as the next boundary whenever enough bytes
have gone by. The iterators are those of src/btree.c (2504-2610, 2787-2868) with `height` 1.

Simplified: sums and products are not truncated to 64 bits; the choice of boundaries ignores locks and I/O.
-/
namespace Splinter.SplitPoints

variable {K : Type} [LinearOrder K]

/-- A tuple: key and bytes of its message. -/
abbrev Tuple (K : Type) := K × List UInt8

/-- A leaf page of a packed branch; `btree_pack` makes no empty ones. -/
structure Page (K : Type) where
  hd : Tuple K
  tl : List (Tuple K)

def Page.tuples (p : Page K) : List (Tuple K) := p.hd :: p.tl

/-- The pivot of a page in its parent is its first key (`btree_pack_link_node`, btree.c 3077-3078). -/
def Page.key (p : Page K) : K := p.hd.1

/-- A branch. `page`: its root is a leaf. `index`: the nodes of height 1 in order, each with its children. Levels above
do not matter: `btree_lookup_node` (btree.c 2072-2125) ends in the last node whose first pivot is not above the target, or the first node. -/
inductive Tree (K : Type) where
  | page (p : Page K)
  | index (nodes : List (List (Page K)))

/-- `btree_pivot_stats`: `num_kvs`, and the sum of `key_bytes` and `message_bytes`. -/
structure Stats where
  kvs : Nat
  bytes : Nat
deriving DecidableEq, Repr

def Stats.add (a b : Stats) : Stats := ⟨a.kvs + b.kvs, a.bytes + b.bytes⟩

/-- Bytes of a tuple; `klen` is the length of a key. -/
def size (klen : K → Nat) (t : Tuple K) : Nat := klen t.1 + t.2.length

/-- What `btree_pack_loop` (btree.c 3176-3179) records for a page. -/
def Page.stats (klen : K → Nat) (p : Page K) : Stats := ⟨p.tuples.length, (p.tuples.map (size klen)).sum⟩

/-- A little-endian 32-bit number. -/
def u32 (l : List UInt8) : Nat := (l.take 4).foldr (fun b n => b.toNat + 256 * n) 0

/-- The bytes of a message, read as `btree_pivot_data` (btree.h 115-124): `child_addr`, `num_kvs`, `key_bytes`,
`message_bytes`; the sum of the last two has 32 bits. `none`: the message is shorter than the structure, what is read
lies beyond it. -/
def asStats (m : List UInt8) : Option Stats :=
  if m.length < 20 then none else some ⟨u32 (m.drop 8), (u32 (m.drop 12) + u32 (m.drop 16)) % 2 ^ 32⟩

/-- What the iterator yields: a key and where the loop reads the statistics. -/
structure Item (K : Type) where
  key : K
  stats : Option Stats

/-- `btree_find_pivot` and the adjustment for `greater_than_or_equal` (btree.c 2562-2580): the first entry not below `k`. -/
def lowerIdx (l : List (Page K)) (k : K) : Nat := (l.takeWhile (fun p => decide (p.key < k))).length

/-- Whether the first pivot of a node is at most `k`. -/
def startsBy (k : K) : List (Page K) → Bool
  | [] => true
  | p :: _ => decide (p.key ≤ k)

/-- `btree_lookup_node` down to height 1. -/
def nodeFor (nodes : List (List (Page K))) (k : K) : Nat := (nodes.takeWhile (startsBy k)).length - 1

/-- The place of entry `i` of node `n` in the sequence of all entries. The end of a node is the beginning of the next. -/
def place (nodes : List (List (Page K))) (n i : Nat) : Nat := (nodes.take n).flatten.length + i

/-- `btree_iterator_find_end` (btree.c 2593-2617). `hi = none` is positive infinity. `find_key_in_node`
(2558-2560) does not look for the key it is given, but for `itor->min_key`: -/
def endPlace (nodes : List (List (Page K))) (lo : K) : Option K → Nat
  | none => place nodes (nodes.length - 1) ((nodes.getD (nodes.length - 1) []).length)
  | some h => place nodes (nodeFor nodes h) (lowerIdx (nodes.getD (nodeFor nodes h) []) lo)

/-- `find_btree_node_and_get_idx_bounds` (btree.c 2787-2868) for `min_key`. -/
def startPlace (nodes : List (List (Page K))) (lo : K) : Nat :=
  place nodes (nodeFor nodes lo) (lowerIdx (nodes.getD (nodeFor nodes lo) []) lo)

/-- All that a rough iterator yields (`btree_iterator_init` with height 1, trunk.c 5813-5824). In a tree of one page `find_key_in_node` returns 0
whatever it is to find (btree.c 2554-2557), `btree_iterator_find_end` does not ask it when the upper end is infinite, and `btree_iterator_curr`
(2528-2531) yields tuples. -/
def rough (klen : K → Nat) (lo : K) (hi : Option K) : Tree K → List (Item K)
  | .page p => match hi with
    | none => p.tuples.map fun t => ⟨t.1, asStats t.2⟩
    | some _ => []
  | .index nodes =>
    ((nodes.flatten.take (endPlace nodes lo hi)).drop (startPlace nodes lo)).map fun p => ⟨p.key, some (p.stats klen)⟩

/-- `l` is a merge of these lists: `merge_iterator_create` with `MERGE_RAW` (trunk.c 5833-5839). Equal keys may come in any order. -/
def IsMerge (ls : List (List (Item K))) (l : List (Item K)) : Prop :=
  l.Perm ls.flatten ∧ l.Pairwise (fun a b => a.key ≤ b.key)

/-- The inner loop (trunk.c 5853-5872). `last`: `num_leaves == target_num_leaves - 1`. Statistics that cannot be read count nothing here. -/
def fill (target : Nat) (last : Bool) (acc : Stats) : List (Item K) → Stats × List (Item K)
  | [] => (acc, [])
  | x :: l =>
    if acc.bytes < target ∨ last then fill target last (acc.add (x.stats.getD ⟨0, 0⟩)) l else (acc, x :: l)

/-- The outer loop (trunk.c 5850-5888): for each leaf what was counted, and the key that ends it. The first argument is
`target_num_leaves - num_leaves`. -/
def choose (target : Nat) : Nat → List (Item K) → List (Stats × Option K)
  | 0, _ => []
  | _, [] => []
  | n + 1, x :: l =>
    let r := fill target (n = 0) ⟨0, 0⟩ (x :: l)
    match r.2 with
    | [] => [(r.1, none)]
    | y :: _ => (r.1, some y.key) :: choose target n r.2

structure Cfg where
  /-- `target_leaf_kv_bytes`, half of `max_kv_bytes_per_node` -/
  leafBytes : Nat
  maxTuples : Nat
  maxPivotKeys : Nat

/-- `target_num_leaves` and `target_leaf_kv_bytes` (trunk.c 5747-5773), from the estimated number of keys (C15 does
not say how good it is; any number), the number of tuples and the bytes. `none`: division by zero. -/
def targets (c : Cfg) (est tuples bytes : Nat) : Option (Nat × Nat) :=
  if tuples = 0 ∨ c.leafBytes = 0 then none
  else
    let est := if est > tuples * 19 / 20 then tuples else est
    let n := est * bytes / tuples / c.leafBytes
    let n := if n ≤ 1 then (if est > 75 * c.maxTuples / 100 then 2 else 1) else n
    some (n, bytes / n)

/-- A leaf after the split: bounds, and whether it has a new node id (5946). -/
structure Leaf (K : Type) where
  lo : K
  hi : Option K
  newId : Bool
deriving DecidableEq, Repr

/-- The loop that makes the leaves (trunk.c 5926-6015) out of the boundaries. -/
def makeLeaves (lo : K) (hi : Option K) : List (Stats × Option K) → List (Leaf K)
  | [] => []
  | [_] => [⟨lo, hi, true⟩]
  | (_, some k) :: rest => ⟨lo, some k, true⟩ :: makeLeaves k hi rest
  | (_, none) :: _ => [⟨lo, hi, true⟩]

/-- `trunk_split_leaf`. `keys` is the number of pivot keys of the parent, `merged` what the merge of the branches' rough iterators
yields. `none`: an assertion fails (5899) or a boundary is written beyond `scratch->pivot` (20 entries). Without
boundaries, `num_leaves` is 0 and the loop that makes leaves does nothing: the leaf stays as it is, without a new id. -/
def split (c : Cfg) (keys : Nat) (lo : K) (hi : Option K) (n target : Nat) (merged : List (Item K)) : Option (List (Leaf K)) :=
  if n = 1 then
    if 1 + keys ≤ c.maxPivotKeys then some [⟨lo, hi, true⟩] else none
  else
    let ls := choose target n merged
    if ls.length < 20 ∧ ls.length + keys ≤ c.maxPivotKeys then
      some (if ls = [] then [⟨lo, hi, false⟩] else makeLeaves lo hi ls)
    else none

/-- A compaction of a leaf's bundle that ends: request and leaf agree in node id or not, and the bundle is live or not (trunk.c 5345-5425,
`trunk_compact_bundle_node_has_split` 3946-3951). `none`: the assertion at 5403 fails. `some false`: the output is discarded. -/
def finishCompaction (reqId leafId : Nat) (live : Bool) : Option Bool :=
  if reqId ≠ leafId then some false else if live then some true else none

end Splinter.SplitPoints
