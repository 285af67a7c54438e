import Mathlib.Order.BoundedOrder.Basic
import Verif.Model.Search
/-!
Reading a tree of pages: `btree_lookup_node`, `btree_lookup`, the rank functions and
the iterator (`src/btree.c`). A page is its header fields that matter here and its
entries in table order; how entries are laid out inside the page is the subject of
`Model/Page.lean`.

Simplified: page locks, prefetching, `next_extent_addr` and the generation check of
`btree_iterator_next_leaf` (nothing changes while the tree is read here); the iterator
has height 0 (`itor->height > 0` is used only to walk the extents of a branch). Keys
are elements of a bounded linear order whose bounds are the two infinite keys. Reading a
page that does not exist, or an entry past the end of a page, is the outcome `none`.
-/
namespace Splinter.Btree
open Search

/-- `btree_pivot_stats`: btree.h; three `uint32` counters. -/
structure Stats where
  kvs : Nat
  kb : Nat
  mb : Nat
  deriving DecidableEq, Repr

def Stats.zero : Stats := ⟨0, 0, 0⟩

/-- `BTREE_UNKNOWN_COUNTER`: btree.h. -/
def UNK : Nat := 0x7fffffff

/-- Range of a `uint32`. -/
def U32 : Nat := 2 ^ 32

/-- `add_unknown`: btree.c 1644–1652; the sum is stored in a `uint32`. -/
def addUnk (a b : Nat) : Nat := if a ≠ UNK ∧ b ≠ UNK then (a + b) % U32 else UNK

/-- `btree_accumulate_pivot_stats`: btree.c 1654–1660. -/
def Stats.acc (d s : Stats) : Stats :=
  ⟨addUnk d.kvs s.kvs, addUnk d.kb s.kb, addUnk d.mb s.mb⟩

/-- `index_entry`: btree.h. -/
structure Entry (K : Type) where
  key : K
  child : Nat
  stats : Stats
  deriving DecidableEq, Repr

/-- Entries of a page, in table order. -/
inductive Body (K M : Type)
  | leaf (es : List (K × M))
  | index (es : List (Entry K))
  deriving DecidableEq, Repr

/-- `btree_hdr` and the entries. -/
structure Node (K M : Type) where
  height : Nat
  next : Nat
  prev : Nat
  body : Body K M
  deriving DecidableEq, Repr

/-- The pages of the cache that belong to trees. -/
abbrev Store (K M : Type) := Nat → Option (Node K M)

variable {K M : Type} [LinearOrder K] [BoundedOrder K] [Inhabited K]

/-- Child index used by `btree_lookup_node`: btree.c 2095–2102. -/
def childIdx (es : List (Entry K)) (target : K) : Nat :=
  let i : Int := if target = ⊤ then (es.length : Int) - 1
                 else (btreeFind (es.map (·.key)) target).1
  if i < 0 then 0 else i.toNat

/-- Sum of the first `i` entries of an index page: `accumulate_node_ranks`,
btree.c 1679–1684. -/
def accIndex (es : List (Entry K)) (i : Nat) (s : Stats) : Stats :=
  (es.take i).foldl (fun s e => s.acc e.stats) s

/-- Sum of the first `i` entries of a leaf: `accumulate_node_ranks`,
btree.c 1669–1678. -/
def accLeaf (ksz : K → Nat) (msz : M → Nat) (es : List (K × M)) (i : Nat) (s : Stats) : Stats :=
  let s := (es.take i).foldl
    (fun s e => { s with kb := addUnk s.kb (ksz e.1), mb := addUnk s.mb (msz e.2) }) s
  { s with kvs := (s.kvs + i) % U32 }

/-- Loop of `btree_lookup_node`: btree.c 2093–2114, `d` iterations. -/
def descend (st : Store K M) (target : K) : (d : Nat) → (a : Nat) → Stats → Option (Nat × Stats)
  | 0, a, s => some (a, s)
  | d + 1, a, s => do
    let n ← st a
    match n.body with
    | .leaf _ => none
    | .index es => do
      let i := childIdx es target
      let e ← es[i]?
      descend st target d e.child (accIndex es i s)

/-- `btree_lookup_node`: btree.c 2071–2116. -/
def lookupNode (st : Store K M) (root : Nat) (target : K) (stop : Nat) :
    Option (Nat × Stats) := do
  let n ← st root
  descend st target (n.height - stop) root .zero

/-- Entries of a leaf page. -/
def leafOf (st : Store K M) (a : Nat) : Option (List (K × M)) :=
  match st a with
  | some ⟨_, _, _, .leaf es⟩ => some es
  | _ => none

/-- `btree_lookup_with_ref` and `btree_lookup`: btree.c 2119–2160. The inner option is
`*found` with the message. -/
def lookup (st : Store K M) (root : Nat) (target : K) : Option (Option M) := do
  let (a, _) ← lookupNode st root target 0
  let es ← leafOf st a
  let (i, found) := btreeFind (es.map (·.1)) target
  if found then
    let e ← es[i.toNat]?
    some (some e.2)
  else some none

/-- `btree_get_rank`: btree.c 3307–3325. -/
def getRank (ksz : K → Nat) (msz : M → Nat) (st : Store K M) (root : Nat) (target : K) :
    Option Stats := do
  let (a, s) ← lookupNode st root target 0
  let es ← leafOf st a
  let (i, found) := btreeFind (es.map (·.1)) target
  let i := if found then i else i + 1
  some (accLeaf ksz msz es i.toNat s)

/-- `uint32` subtraction. -/
def sub32 (a b : Nat) : Nat := (a + U32 - b % U32) % U32

/-- `btree_count_in_range`: btree.c 3331–3352. -/
def countInRange (ksz : K → Nat) (msz : M → Nat) (st : Store K M) (root : Nat) (lo hi : K) :
    Option Stats := do
  let m ← getRank ksz msz st root lo
  let s ← getRank ksz msz st root hi
  if m.kvs < s.kvs then
    some ⟨sub32 s.kvs m.kvs, sub32 s.kb m.kb, sub32 s.mb m.mb⟩
  else some .zero

/-! ### Iterator -/

/-- `btree_iterator`: btree.h. -/
structure Iter (K : Type) where
  root : Nat
  minKey : K
  maxKey : K
  curr : Nat
  idx : Int
  minIdx : Int
  endAddr : Nat
  endIdx : Int
  deriving DecidableEq, Repr

/-- `btree_iterator_can_prev`: btree.c 2492–2499. -/
def Iter.canPrev (t : Iter K) : Bool :=
  t.minIdx ≤ t.idx && (t.minIdx != t.endIdx || t.curr != t.endAddr)

/-- `btree_iterator_can_next`: btree.c 2501–2507. -/
def Iter.canNext (t : Iter K) : Bool :=
  t.curr != t.endAddr || (t.idx < t.endIdx && t.minIdx != t.endIdx)

/-- `btree_iterator_curr`: btree.c 2509–2538. -/
def Iter.curr? (st : Store K M) (t : Iter K) : Option (K × M) := do
  let es ← leafOf st t.curr
  if t.idx < 0 then none else es[t.idx.toNat]?

/-- The switch of `find_key_in_node`: btree.c 2562–2581. -/
def position (c : Cmp) (r : Int × Bool) : Int :=
  match c with
  | .lt => if r.2 then r.1 - 1 else r.1
  | .le => r.1
  | .ge => if r.2 then r.1 else r.1 + 1
  | .gt => r.1 + 1

/-- `find_key_in_node` at height 0: btree.c 2540–2583. -/
def findKey (es : List (K × M)) (target : K) (c : Cmp) : Int :=
  position c (btreeFind (es.map (·.1)) target)

/-- `btree_iterator_find_end`: btree.c 2585–2609. -/
def findEnd (st : Store K M) (t : Iter K) : Option (Iter K) := do
  let (a, _) ← lookupNode st t.root t.maxKey 0
  let es ← leafOf st a
  some { t with
    endAddr := a
    endIdx := if t.maxKey = ⊤ then es.length else findKey es t.maxKey .ge }

/-- `btree_iterator_next_leaf`: btree.c 2617–2674. -/
def nextLeaf (st : Store K M) (t : Iter K) : Option (Iter K) := do
  let n ← st t.curr
  let _ ← st n.next
  some { t with curr := n.next, idx := 0, minIdx := -1 }

/-- `btree_iterator_prev_leaf`: btree.c 2681–2738. The loop 2707–2712 does nothing when
the tree is not changing; a tree in which it would run is the outcome `none`. -/
def prevLeaf (st : Store K M) (t : Iter K) : Option (Iter K) := do
  let n ← st t.curr
  let p ← st n.prev
  if p.next ≠ t.curr then none else
  match p.body with
  | .index _ => none
  | .leaf es => do
    let first ← es[0]?
    let m : Int := if t.minKey < first.1 then -1 else findKey es t.minKey .ge
    let m : Int := if p.prev = 0 ∧ m = -1 then 0 else m
    some { t with curr := n.prev, idx := (es.length : Int) - 1, minIdx := m }

/-- `btree_iterator_next`: btree.c 2740–2763. -/
def next (st : Store K M) (t : Iter K) : Option (Iter K) := do
  let t := { t with idx := t.idx + 1 }
  let es ← leafOf st t.curr
  if t.idx = (es.length : Int) ∧ t.canNext then nextLeaf st t else some t

/-- `btree_iterator_prev`: btree.c 2765–2785. -/
def prev (st : Store K M) (t : Iter K) : Option (Iter K) :=
  let t := { t with idx := t.idx - 1 }
  if t.minIdx = -1 ∧ t.idx = -1 then prevLeaf st t else some t

/-- `find_btree_node_and_get_idx_bounds`: btree.c 2787–2867. -/
def findBounds (st : Store K M) (t : Iter K) (target : K) (c : Cmp) : Option (Iter K) := do
  let (a, _) ← lookupNode st t.root target 0
  let t ← findEnd st { t with curr := a }
  let n ← st a
  match n.body with
  | .index _ => none
  | .leaf es => do
    let r := btreeFind (es.map (·.1)) t.minKey
    let tmp := position .ge r
    let m : Int := if !r.2 ∧ tmp = 0 then tmp - 1 else tmp
    let m : Int := if m = -1 ∧ n.prev = 0 then 0 else m
    let t := { t with minIdx := m, idx := findKey es target c }
    let t ← if t.curr ≠ t.endAddr ∧ t.idx = (es.length : Int) then do
        let t ← nextLeaf st t
        some { t with minIdx := 0 }
      else some t
    if t.minIdx = -1 ∧ t.idx = -1 then prevLeaf st t else some t

/-- `btree_iterator_init`: btree.c 2950–3002. -/
def init (st : Store K M) (root : Nat) (lo hi start : K) (c : Cmp) : Option (Iter K) :=
  let hi := if hi < lo then lo else hi
  let start := if start < lo then lo else start
  let start := if hi < start then hi else start
  findBounds st ⟨root, lo, hi, 0, 0, 0, 0, 0⟩ start c

/-- `btree_iterator_seek`: btree.c 2874–2909. `none` is also the assertion failure; the
status is `true` for success. -/
def seek (st : Store K M) (t : Iter K) (k : K) (c : Cmp) : Option (Bool × Iter K) :=
  if k < t.minKey ∨ t.maxKey < k then some (false, t) else do
    let es ← leafOf st t.curr
    let first ← es[0]?
    let last ← if t.endIdx - 1 < 0 then none else es[(t.endIdx - 1).toNat]?
    if first.1 ≤ k ∧ k ≤ last.1 then
      let i := findKey es k c
      if i < 0 then none else some (true, { t with idx := i })
    else do
      let t ← findBounds st t k c
      some (true, t)

/-- A caller moving forward: `while (can_next) { curr; next }`, at most `fuel` times. The
result is the tuples seen and whether the iterator ran out. -/
def forward (st : Store K M) : (fuel : Nat) → Iter K → Option (List (K × M) × Bool)
  | 0, t => some ([], !t.canNext)
  | f + 1, t =>
    if t.canNext then do
      let x ← t.curr? st
      let t ← next st t
      let r ← forward st f t
      some (x :: r.1, r.2)
    else some ([], true)

/-- `iterator_can_curr`: iterator.h 65–69. -/
def Iter.canCurr (t : Iter K) : Bool := t.canNext && t.canPrev

/-- A caller moving backward: `while (can_curr) { curr; prev }`. -/
def backward (st : Store K M) : (fuel : Nat) → Iter K → Option (List (K × M) × Bool)
  | 0, t => some ([], !t.canCurr)
  | f + 1, t =>
    if t.canCurr then do
      let x ← t.curr? st
      let t ← prev st t
      let r ← backward st f t
      some (x :: r.1, r.2)
    else some ([], true)

/-- One call a caller makes, guarded by `can_next` or `can_prev`. -/
inductive Move
  | next
  | prev
  deriving DecidableEq

/-- A guarded call. -/
def Iter.move (st : Store K M) (t : Iter K) : Move → Option (Iter K)
  | .next => if t.canNext then Btree.next st t else some t
  | .prev => if t.canPrev then Btree.prev st t else some t

/-- A sequence of guarded calls. -/
def Iter.moves (st : Store K M) : List Move → Iter K → Option (Iter K)
  | [], t => some t
  | m :: ms, t => (t.move st m).bind (Iter.moves st ms)

end Splinter.Btree
