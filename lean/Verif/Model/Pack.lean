import Verif.Model.Btree
/-!
Bulk loading of a branch: `btree_pack` and its helpers (`src/btree.c` 3013–3301).

Simplified: page locks and `next_extent_addr` (used only for prefetching); the addresses
of the pages are what `btree_alloc` returned, given as a sequence `page`, and which
addresses share an extent is the given relation `share`; whether an entry fits in a page
is a given function of the entries already there (entries are only ever appended here, so
the free space is determined by them). The message stream is the list the input iterator
yields; iterator errors and allocation failures are not modelled.
-/
namespace Splinter.Btree

/-- Ways for `btree_pack` not to produce a tree. -/
inductive Fail
  /-- a failed `platform_assert` -/
  | assert
  /-- an index outside `edge[BTREE_MAX_HEIGHT][MAX_PAGES_PER_EXTENT]` -/
  | bounds
  /-- `STATUS_LIMIT_EXCEEDED` -/
  | limit
  /-- `STATUS_INVALID_STATE`: message of an invalid type -/
  | invalid
  deriving DecidableEq, Repr

/-- What the packing code is given. -/
structure Env (K M : Type) where
  /-- `btree_set_leaf_entry` at the end of a leaf succeeds -/
  leafFits : List (K × M) → K × M → Bool
  /-- `btree_set_index_entry` at the end of an index page succeeds -/
  indexFits : List (Entry K) → Entry K → Bool
  /-- `key_length` -/
  ksz : K → Nat
  /-- `message_length` -/
  msz : M → Nat
  /-- `message_is_invalid_user_type` -/
  bad : M → Bool
  /-- `req->hash` with `req->seed`, if set -/
  hash : Option (K → Nat)
  maxTuples : Nat
  /-- the address of the `i`th page allocated -/
  page : Nat → Nat
  /-- `btree_addrs_share_extent` -/
  share : Nat → Nat → Bool

/-- `BTREE_MAX_HEIGHT`: btree.h. -/
def maxHeight : Nat := 8
/-- `MAX_PAGES_PER_EXTENT`: allocator.h. -/
def maxEdges : Nat := 32

/-- `btree_pack_req`: btree.h. `edges h` lists the addresses in `edge[h]`, so
`num_edges[h]` is its length; `stats` is `edge_stats`. -/
structure Req (K M : Type) where
  height : Nat
  edges : Nat → List Nat
  stats : Nat → Nat → Stats
  store : Store K M
  /-- pages allocated so far -/
  count : Nat
  numTuples : Nat
  keyBytes : Nat
  msgBytes : Nat
  fps : List Nat

variable {K M : Type}

def setAt {α : Type} (f : Nat → α) (i : Nat) (x : α) : Nat → α := fun j => if j = i then x else f j

/-- Change one page. -/
def modify (st : Store K M) (a : Nat) (f : Node K M → Node K M) : Store K M :=
  setAt st a ((st a).map f)

/-- A page fresh from `btree_alloc` with its header initialised
(`btree_pack_node_init_hdr`: btree.c 3015–3025). -/
def fresh (h : Nat) : Node K M := ⟨h, 0, 0, if h = 0 then .leaf [] else .index []⟩

/-- `btree_pack_setup_start`: btree.c 3027–3043. The root page is page 0. -/
def setup (P : Env K M) : Req K M where
  height := 0
  edges := fun _ => []
  stats := fun _ _ => .zero
  store := setAt (fun _ => none) (P.page 0) (some (fresh 0))
  count := 1
  numTuples := 0
  keyBytes := 0
  msgBytes := 0
  fps := []

/-- Append an entry to an index page if it fits: `btree_set_index_entry` with
`k = num_entries`. -/
def addIndex (P : Env K M) (st : Store K M) (a : Nat) (e : Entry K) : Option (Store K M) :=
  match st a with
  | some ⟨h, x, p, .index es⟩ =>
    if P.indexFits es e then some (setAt st a (some ⟨h, x, p, .index (es ++ [e])⟩)) else none
  | _ => none

/-- Append a tuple to a leaf if it fits: `btree_set_leaf_entry` with `k = num_entries`. -/
def addLeaf (P : Env K M) (st : Store K M) (a : Nat) (e : K × M) : Option (Store K M) :=
  match st a with
  | some ⟨h, x, p, .leaf es⟩ =>
    if P.leafFits es e then some (setAt st a (some ⟨h, x, p, .leaf (es ++ [e])⟩)) else none
  | _ => none

/-- First key of a page: btree.c 3076–3077. -/
def firstKey (st : Store K M) (a : Nat) : Option K :=
  match st a with
  | some ⟨_, _, _, .leaf es⟩ => es.head?.map (·.1)
  | some ⟨_, _, _, .index es⟩ => es.head?.map (·.key)
  | none => none

/-- `btree_pack_get_current_node`: btree.c 3046–3054. -/
def current (r : Req K M) (h : Nat) : Option Nat := (r.edges h).getLast?

/-- `btree_accumulate_pivot_stats(btree_pack_get_current_node_stats(req, h), s)`. -/
def accStats (r : Req K M) (h : Nat) (s : Stats) : Req K M :=
  let i := (r.edges h).length - 1
  { r with stats := setAt r.stats h (setAt (r.stats h) i ((r.stats h i).acc s)) }

/-- Put an entry at the end of the current page of height `h`, or else in a new page:
btree.c 3084–3099. `create` is `btree_pack_create_next_node`. -/
def placeIndex (P : Env K M) (create : Req K M → Nat → Except Fail (Req K M)) (h : Nat)
    (e : Entry K) (r : Req K M) : Except Fail (Req K M) :=
  match (current r h).bind (addIndex P r.store · e) with
  | some st => .ok { r with store := st }
  | none =>
    match create r h with
    | .error f => .error f
    | .ok r =>
      match (current r h).bind (addIndex P r.store · e) with
      | none => .error .assert
      | some st => .ok { r with store := st }

/-- `btree_pack_link_node`: btree.c 3069–3106. `create` is `btree_pack_create_next_node`
one level up. A page without a first key cannot be linked (reading entry 0 of an empty
page); it is the outcome `bounds`. -/
def linkNode (P : Env K M) (create : Req K M → Nat → Except Fail (Req K M))
    (h off : Nat) (r : Req K M) : Except Fail (Req K M) :=
  match (r.edges h)[off]? with
  | none => .error .bounds
  | some a =>
    match firstKey r.store a with
    | none => .error .bounds
    | some pivot =>
      match placeIndex P create (h + 1) ⟨pivot, a, r.stats h off⟩ r with
      | .error f => .error f
      | .ok r1 =>
        let r2 := accStats r1 (h + 1) (r.stats h off)
        .ok { r2 with stats := setAt r2.stats h (setAt (r2.stats h) off .zero) }

/-- Loop of `btree_pack_link_extent`: nodes `off … off + n - 1`. -/
def linkLoop (P : Env K M) (create : Req K M → Nat → Except Fail (Req K M)) (h : Nat) :
    (off n : Nat) → Req K M → Except Fail (Req K M)
  | _, 0, r => .ok r
  | off, n + 1, r =>
    match linkNode P create h off r with
    | .error f => .error f
    | .ok r => linkLoop P create h (off + 1) n r

/-- `btree_pack_link_extent`: btree.c 3108–3117. -/
def linkExtent (P : Env K M) (create : Req K M → Nat → Except Fail (Req K M)) (h : Nat)
    (r : Req K M) : Except Fail (Req K M) :=
  match linkLoop P create h 0 (r.edges h).length r with
  | .error f => .error f
  | .ok r => .ok { r with edges := setAt r.edges h [] }

/-- `btree_pack_create_next_node`: btree.c 3119–3150. `fuel` is `BTREE_MAX_HEIGHT - h`, so
that running out of it is indexing past the arrays. -/
def createNext (P : Env K M) : (fuel : Nat) → Req K M → Nat → Except Fail (Req K M)
  | 0, _, _ => .error .bounds
  | f + 1, r, h =>
    let a := P.page r.count
    let r := { r with count := r.count + 1, store := setAt r.store a (some (fresh h)) }
    let linked : Except Fail (Req K M) := match current r h with
      | none => .ok r
      | some old =>
        let st := modify r.store old fun n => { n with next := a }
        let st := modify st a fun n => { n with prev := old }
        let r := { r with store := st }
        if P.share old a then .ok r else linkExtent P (createNext P f) h r
    match linked with
    | .error x => .error x
    | .ok r =>
      let r := { r with height := if r.height < h then h else r.height }
      if (r.edges h).length ≥ maxEdges then .error .bounds
      else .ok { r with edges := setAt r.edges h (r.edges h ++ [a]) }

/-- Put a tuple at the end of the current leaf, or else in a new leaf: btree.c 3163–3173. -/
def placeLeaf (P : Env K M) (x : K × M) (r : Req K M) : Except Fail (Req K M) :=
  match (current r 0).bind (addLeaf P r.store · x) with
  | some st => .ok { r with store := st }
  | none =>
    match createNext P maxHeight r 0 with
    | .error f => .error f
    | .ok r =>
      match (current r 0).bind (addLeaf P r.store · x) with
      | none => .error .assert
      | some st => .ok { r with store := st }

/-- The counters after a tuple was added: btree.c 3175–3190. -/
def bump (P : Env K M) (x : K × M) (r : Req K M) : Req K M :=
  let i := (r.edges 0).length - 1
  let s := r.stats 0 i
  let s : Stats :=
    ⟨(s.kvs + 1) % U32, (s.kb + P.ksz x.1) % U32, (s.mb + P.msz x.2) % U32⟩
  { r with
    stats := setAt r.stats 0 (setAt (r.stats 0) i s)
    numTuples := r.numTuples + 1
    keyBytes := (r.keyBytes + P.ksz x.1) % 2 ^ 64
    msgBytes := (r.msgBytes + P.msz x.2) % 2 ^ 64
    fps := match P.hash with
      | none => r.fps
      | some g => r.fps ++ [g x.1] }

/-- `btree_pack_loop` with the size test of `btree_pack`: btree.c 3152–3192, 3232–3236,
3274–3284. -/
def packOne (P : Env K M) (r : Req K M) (x : K × M) : Except Fail (Req K M) :=
  if ¬ r.numTuples < P.maxTuples then .error .limit
  else if P.bad x.2 then .error .invalid
  else
    match placeLeaf P x r with
    | .error f => .error f
    | .ok r => .ok (bump P x r)

/-- Loop of `btree_pack`: btree.c 3272–3296. -/
def packAll (P : Env K M) : List (K × M) → Req K M → Except Fail (Req K M)
  | [], r => .ok r
  | x :: xs, r =>
    match packOne P r x with
    | .error f => .error f
    | .ok r => packAll P xs r

/-- Loop of `btree_pack_post_loop`: btree.c 3211–3215. -/
def finishLoop (P : Env K M) : (fuel h : Nat) → Req K M → Except Fail (Req K M)
  | 0, _, _ => .error .bounds
  | f + 1, h, r =>
    if h < r.height ∨ 1 < (r.edges h).length then
      match linkExtent P (createNext P f) h r with
      | .error x => .error x
      | .ok r => finishLoop P f (h + 1) r
    else .ok r

/-- What `btree_pack` reports: the root (0 for an empty tree), the pages, the totals and
the fingerprints. -/
structure Packed (K M : Type) where
  root : Nat
  store : Store K M
  numTuples : Nat
  keyBytes : Nat
  msgBytes : Nat
  fps : List Nat

/-- `btree_pack_post_loop`: btree.c 3195–3230. -/
def finish (P : Env K M) (r : Req K M) : Except Fail (Packed K M) :=
  if r.numTuples = 0 then .ok ⟨0, r.store, 0, r.keyBytes, r.msgBytes, r.fps⟩
  else
    match finishLoop P maxHeight 0 r with
    | .error f => .error f
    | .ok r =>
      match (r.edges r.height)[0]? with
      | none => .error .bounds
      | some a =>
        .ok ⟨P.page 0, setAt r.store (P.page 0) (r.store a), r.numTuples, r.keyBytes,
          r.msgBytes, r.fps⟩

/-- `btree_pack`: btree.c 3265–3301. -/
def pack (P : Env K M) (xs : List (K × M)) : Except Fail (Packed K M) :=
  match packAll P xs (setup P) with
  | .error f => .error f
  | .ok r => finish P r

end Splinter.Btree
