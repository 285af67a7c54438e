import Verif.Model.Pack
/-!
Threads inserting into and looking up in one memtable tree: `btree_insert`,
`btree_grow_root`, `btree_split_child_leaf`, `btree_defragment_or_split_child_leaf`,
`btree_split_child_index`, `btree_defragment_or_split_child_index` and
`btree_lookup_node` (`src/btree.c`). Pages are the ones of `Model/Btree.lean`.

A thread is at one of the points of `Pc`, which says what pages it has read locked. One
step of one thread is the code up to the next point where it gives up or waits for a
page. A step that writes pages is possible only if no other thread has read locked them:
`cache_lock` waits for the other readers (C24). Within a step that writes several pages
the code acquires every lock before it releases the first one, so that the step can be
taken as a whole; a thread that waits for a page in the code is, in the model, a thread
that has not yet taken the step.

Simplified:
* claims: they decide which of several readers may go on to write and what happens to
  the others. `cache_claim` may fail here at any time; a thread that holds a claim has
  the page read locked, and only that is used.
* what depends on how entries are laid out inside a page is a free choice (`Choice`):
  whether a tuple or a pivot fits, whether a page is defragmented or split, and where.
  C11 is about those. Defragmenting does not change the entries of a page.
* a failed `platform_assert` ends the program: there is no step.
* a page allocated in `btree_split_child_leaf` is not used when the thread gives up there.
* `generation`, `was_unique` and the three parameter checks at the start of
  `btree_insert` are left out.
-/
namespace Splinter.BtreeIns
open Btree Search

variable {K M : Type} [LinearOrder K] [Inhabited K] [BoundedOrder K]

/-- `BTREE_PIVOT_STATS_UNKNOWN`: btree.c 102–106. -/
def unknown : Stats := ⟨UNK, UNK, UNK⟩

/-- `leaf_incorporate_spec`: btree_private.h 63–76. `found` is
`old_entry_state = ENTRY_STILL_EXISTS`; `msg` is `spec_message`. -/
structure Spec (M : Type) where
  idx : Nat
  found : Bool
  msg : M
  deriving DecidableEq, Repr

/-- `btree_create_leaf_incorporate_spec`: btree.c 575–608. `mrg key old new` is
`btree_merge_tuples`. -/
def mkSpec (mrg : K → M → M → M) (es : List (K × M)) (k : K) (m : M) : Option (Spec M) :=
  let r := btreeFind (es.map (·.1)) k
  if r.2 then
    match es[r.1.toNat]? with
    | none => none
    | some e => some ⟨r.1.toNat, true, mrg k e.2 m⟩
  else some ⟨(r.1 + 1).toNat, false, m⟩

/-- `btree_try_perform_leaf_incorporate_spec` when the tuple fits: btree.c 642–681. -/
def apply (es : List (K × M)) (k : K) (s : Spec M) : List (K × M) :=
  if s.found then es.set s.idx (k, s.msg) else es.insertIdx s.idx (k, s.msg)

/-- The tuples `btree_split_leaf_build_right_node` copies: btree.c 895–908. -/
def rightCopy (es : List (K × M)) (s : Spec M) (split : Nat) : List (K × M) :=
  if s.found = true ∧ split ≤ s.idx then (es.drop split).eraseIdx (s.idx - split)
  else es.drop split

/-- The two leaves and the new pivot of `btree_split_child_leaf`: `btree_splitting_pivot`
btree.c 864–878, right page 880–916, left page 918–934 and 1427–1431. After
`btree_split_leaf_build_right_node` the old entry is still there only if it is left of
the split. -/
def splitLeafBodies (es : List (K × M)) (k : K) (s : Spec M) (split : Nat) (left : Bool) :
    Option (List (K × M) × List (K × M) × K) :=
  let pivot? := if split = s.idx ∧ s.found = false ∧ left = false then some k
                else (es[split]?).map (·.1)
  match pivot? with
  | none => none
  | some pivot =>
    let r := rightCopy es s split
    let l := es.take split
    if left then
      if s.found = true ∧ s.idx < split then some (l.set s.idx (k, s.msg), r, pivot)
      else some (l.insertIdx s.idx (k, s.msg), r, pivot)
    else some (l, r.insertIdx (s.idx - split) (k, s.msg), pivot)

/-- Replace the contents of a page. -/
def putBody (st : Store K M) (a : Nat) (b : Body K M) : Store K M :=
  setAt st a ((st a).map fun n => { n with body := b })

/-- Entries of an index page. -/
def entsOf (st : Store K M) (a : Nat) : Option (List (Entry K)) :=
  match st a with
  | some ⟨_, _, _, .index es⟩ => some es
  | _ => none

/-- `btree_set_index_entry` of entry 0 with a new key: btree.c 1819–1829, 1834–1844,
1906–1918 and 1937–1949. -/
def setMin (st : Store K M) (a : Nat) (k : K) : Option (Store K M) :=
  match entsOf st a with
  | some (e :: es) => some (putBody st a (.index ({ e with key := k } :: es)))
  | _ => none

/-- A page that `mini_alloc` may return. -/
def isFresh (st : Store K M) (a : Nat) : Bool := (st a).isNone && a != 0

/-- `btree_grow_root`: btree.c 1699–1733. -/
def growRoot (st : Store K M) (root new : Nat) : Option (Store K M) :=
  match st root, firstKey st root with
  | some n, some f =>
    if isFresh st new then
      some (setAt (setAt st new (some n)) root
        (some { n with height := n.height + 1, body := .index [⟨f, new, unknown⟩] }))
    else none
  | _, _ => none

/-- `btree_insert_index_entry` of the new child next to child `i`. -/
def addPivot (st : Store K M) (p i : Nat) (pivot : K) (new : Nat) : Option (Store K M) :=
  match entsOf st p with
  | none => none
  | some es => some (putBody st p (.index (es.insertIdx (i + 1) ⟨pivot, new, unknown⟩)))

/-- `btree_split_child_index`: btree.c 1513–1592. Result: pages, the page to continue in
and the index of the next child there. -/
def splitIndex (st : Store K M) (p i c split new j : Nat) : Option (Store K M × Nat × Nat) :=
  match st c, entsOf st c with
  | some n, some es =>
    match es[split]? with
    | none => none
    | some e =>
      if isFresh st new ∧ 0 < split then
        match addPivot st p i e.key new with
        | none => none
        | some st1 =>
          let st2 := setAt st1 new (some { n with body := .index (es.drop split) })
          let st3 := putBody st2 c (.index (es.take split))
          if j < split then some (st3, c, j) else some (st3, new, j - split)
      else none
  | _, _ => none

/-- What `btree_build_leaf_splitting_plan` (btree.c 801–862) guarantees of `split_idx` and
`insertion_goes_left`: the side the tuple goes to has its position, and, for a tuple
that replaces one, the one replaced. `plan_ok` in `Props/BtreeInsert.lean` shows it of the byte model. -/
def planOk (s : Spec M) (split : Nat) (left : Bool) : Bool :=
  if left then (if s.found then decide (s.idx < split) else decide (s.idx ≤ split))
  else decide (split ≤ s.idx)

/-- `btree_split_child_leaf` once it has all locks: btree.c 1392–1436. A plan that leaves
one of the two pages empty is not a plan of the code (C11). -/
def splitLeaf (st : Store K M) (p i c new : Nat) (k : K) (s : Spec M) (split : Nat) (left : Bool) :
    Option (Store K M) :=
  match st c, leafOf st c with
  | some n, some es =>
    match splitLeafBodies es k s split left with
    | none => none
    | some (l, r, pivot) =>
      if isFresh st new ∧ planOk s split left ∧ l ≠ [] ∧ r ≠ [] then
        match addPivot st p i pivot new with
        | none => none
        | some st1 =>
          let st2 := if n.next = 0 then st1
                     else setAt st1 n.next ((st1 n.next).map fun x => { x with prev := new })
          let st3 := setAt st2 new (some { n with prev := c, body := .leaf r })
          some (setAt st3 c (some { n with next := new, body := .leaf l }))
      else none
  | _, _ => none

/-- Where a thread is. Comments: lines of btree.c, and the pages it has read locked. -/
inductive Pc (M : Type)
  | idle                                        -- 1775 `start_over`
  | root                                        -- 1779: root
  | rootLeaf (s : Spec M)                       -- 1786: root
  | rootIx                                      -- 1809: root, which is an index page
  | have (p i h : Nat)                          -- 1849, 1957: p, whose height is h
  | at (p i c h : Nat)                          -- 1878, 1971: p and its child c
  | leaf (p i c : Nat) (s : Spec M)             -- 1992: p and c
  | ready (c : Nat) (s : Spec M)                -- 1994: c
  | claimP (p i c : Nat) (s : Spec M) (rb : Bool)  -- 2017: p (claimed) and c
  | noChild (p i c : Nat) (s : Spec M)          -- 2019: p (claimed)
  | both (p i c : Nat) (s : Spec M)             -- 2038: p and c (claimed)
  | defrag (c : Nat) (s : Spec M)               -- 1478: c (claimed)
  | done (n : Nat)                              -- returned `STATUS_OK`
  | failed                                      -- returned `STATUS_NO_MEMORY`
  | lidle                                       -- 2089
  | lk (a h : Nat)                              -- 2093: a, whose height is h
  | ldone (r : Option M) (n : Nat)              -- `btree_lookup` returned
  deriving DecidableEq, Repr

/-- Pages a thread has read locked. -/
def Pc.reads (root : Nat) : Pc M → List Nat
  | .root | .rootLeaf _ | .rootIx => [root]
  | .have p _ _ => [p]
  | .at p _ c _ => [p, c]
  | .leaf p _ c _ => [p, c]
  | .ready c _ => [c]
  | .claimP p _ c _ _ => [p, c]
  | .noChild p _ _ _ => [p]
  | .both p _ c _ => [p, c]
  | .defrag c _ => [c]
  | .lk a _ => [a]
  | .idle | .done _ | .failed | .lidle | .ldone _ _ => []

/-- What the contents of pages, other threads and the heap decide for one step. -/
structure Choice where
  claim : Bool    -- `btree_node_claim` succeeds
  can : Bool      -- the tuple fits
  full1 : Bool    -- first `btree_index_is_full`
  set1 : Bool     -- first `btree_set_index_entry`
  full2 : Bool    -- second `btree_index_is_full`
  dfr : Bool      -- `total_space_required < BTREE_SPLIT_THRESHOLD`
  split : Nat     -- `btree_choose_index_split`, `split_idx` of the plan
  left : Bool     -- `insertion_goes_left`
  new : Nat       -- the page allocated
  oom : Bool      -- the merge runs out of memory
  deriving DecidableEq, Repr

/-- btree.c 1818–1844: the root has to get a new smallest pivot, or is full, or both.
Result: pages and `child_idx`. -/
def fixRoot (st : Store K M) (root : Nat) (k : K) (i : Int) (c : Choice) :
    Option (Store K M × Nat) :=
  let need := decide (i < 0) && !c.set1
  let st1? := if i < 0 ∧ c.set1 then setMin st root k else some st
  match st1? with
  | none => none
  | some st1 =>
    let st2? := if c.full2 then growRoot st1 root c.new else some st1
    match st2? with
    | none => none
    | some st2 =>
      let j := if c.full2 then 0 else i.toNat
      if need then (setMin st2 root k).map (·, j) else some (st2, j)

/-- btree.c 1905–1949: the same for a child index page `ch` of `p`. Result: pages, the
page to continue in and `next_child_idx`. -/
def fixChild (st : Store K M) (p i ch : Nat) (k : K) (j : Int) (c : Choice) :
    Option (Store K M × Nat × Nat) :=
  let need := decide (j < 0) && !c.set1
  let st1? := if j < 0 ∧ c.set1 then setMin st ch k else some st
  match st1? with
  | none => none
  | some st1 =>
    let r? := if c.full2 then
                if c.dfr then some (st1, ch, j.toNat)
                else splitIndex st1 p i ch c.split c.new j.toNat
              else some (st1, ch, j.toNat)
    match r? with
    | none => none
    | some (st2, q, j2) =>
      if need then (setMin st2 q k).map (·, q, j2) else some (st2, q, j2)

/-- What one step of a thread does: pages, where the thread is then, and whether the
insert takes effect. `sole l` is "no other thread has read locked a page of `l`"; `now`
is the number of inserts that have taken effect. -/
def thrStep (mrg : K → M → M → M) (sole : List Nat → Bool) (st : Store K M) (root now : Nat)
    (k : K) (m : M) (pc : Pc M) (c : Choice) : Option (Store K M × Pc M × Bool) :=
  match pc with
  | .idle => some (st, .root, false)
  | .root =>                                    -- 1779–1785
    match st root with
    | none => none
    | some n =>
      if n.height = 0 then
        match (leafOf st root).bind (mkSpec mrg · k m) with
        | none => none
        | some s => if s.found && c.oom then some (st, .failed, false)
                    else some (st, .rootLeaf s, false)
      else some (st, .rootIx, false)
  | .rootLeaf s =>                              -- 1786–1804
    if !c.claim then some (st, .idle, false)
    else if !sole [root] then none
    else if c.can then
      match leafOf st root with
      | none => none
      | some es => some (putBody st root (.leaf (apply es k s)), .done now, true)
    else (growRoot st root c.new).map (·, .rootIx, false)
  | .rootIx =>                                  -- 1809–1847
    match st root, entsOf st root with
    | some n, some es =>
      let i := (btreeFind (es.map (·.key)) k).1
      if i < 0 ∨ c.full1 then
        if !c.claim then some (st, .idle, false)
        else if !sole [root] then none
        else
          match fixRoot st root k i c with
          | none => none
          | some (st', j) =>
            match st' root with
            | none => none
            | some n' => some (st', .have root j n'.height, false)
      else some (st, .have root i.toNat n.height, false)
    | _, _ => none
  | .have p i h =>                              -- 1849–1876, 1959–1970
    match (entsOf st p).bind (·[i]?) with
    | none => none
    | some e => some (st, .at p i e.child h, false)
  | .at p i ch h =>
    if 1 < h then                               -- 1879–1955
      match entsOf st ch with
      | none => none
      | some es =>
        let j := (btreeFind (es.map (·.key)) k).1
        if j < 0 ∨ c.full1 then
          if !c.claim then some (st, .idle, false)
          else if !sole [p, ch] then none
          else (fixChild st p i ch k j c).map fun r => (r.1, .have r.2.1 r.2.2 (h - 1), false)
        else some (st, .have ch j.toNat (h - 1), false)
    else                                        -- 1980–1986
      match (leafOf st ch).bind (mkSpec mrg · k m) with
      | none => none
      | some s => if s.found && c.oom then some (st, .failed, false)
                  else some (st, .leaf p i ch s, false)
  | .leaf p i ch s =>                           -- 1992–1993, 2010–2015
    if c.can then some (st, .ready ch s, false)
    else if !c.claim then some (st, .idle, false)
    else some (st, .claimP p i ch s false, false)
  | .ready ch s =>                              -- 1994–2006
    if !c.claim then some (st, .idle, false)
    else if !sole [ch] then none
    else
      match leafOf st ch with
      | none => none
      | some es => some (putBody st ch (.leaf (apply es k s)), .done now, true)
  | .claimP p i ch s rb =>                      -- 2017–2037
    if !c.claim then some (st, .noChild p i ch s, false)
    else if rb then
      match (leafOf st ch).bind (mkSpec mrg · k m) with
      | none => none
      | some s => if s.found && c.oom then some (st, .failed, false)
                  else some (st, .both p i ch s, false)
    else some (st, .both p i ch s, false)
  | .noChild p i ch s => some (st, .claimP p i ch s true, false)   -- 2021–2022
  | .both p i ch s =>
    if c.dfr then some (st, .defrag ch s, false)                   -- 1475–1477
    else if !c.claim then some (st, .idle, false)                  -- 1378–1384
    else
      match st ch with
      | none => none
      | some n =>
        if !sole (p :: ch :: if n.next = 0 then [] else [n.next]) then none
        else (splitLeaf st p i ch c.new k s c.split c.left).map (·, .done now, true)
  | .defrag ch s =>                             -- 1478–1483
    if !sole [ch] then none
    else
      match leafOf st ch with
      | none => none
      | some es => some (putBody st ch (.leaf (apply es k s)), .done now, true)
  | _ => none

/-- One step of a lookup: `btree_lookup_node` and `btree_lookup_with_ref`. It writes
nothing. -/
def lookStep (st : Store K M) (root now : Nat) (k : K) (pc : Pc M) : Option (Pc M) :=
  match pc with
  | .lidle =>                                   -- 2088–2091
    match st root with
    | none => none
    | some n => some (.lk root n.height)
  | .lk a (h + 1) =>                            -- 2093–2114
    match entsOf st a with
    | none => none
    | some es => (es[childIdx es k]?).map fun e => .lk e.child h
  | .lk a 0 =>                                  -- 2129–2135
    match leafOf st a with
    | none => none
    | some es =>
      let r := btreeFind (es.map (·.1)) k
      if r.2 then (es[r.1.toNat]?).map fun e => .ldone (some e.2) now
      else some (.ldone none now)
  | _ => none

/-- A call of `btree_insert` or `btree_lookup`. `born` is the number of inserts that had
taken effect when it was made. -/
structure Thr (K M : Type) where
  key : K
  msg : Option M
  pc : Pc M
  born : Nat
  deriving DecidableEq, Repr

/-- Pages, calls made so far, and the inserts in the order they took effect. -/
structure Sys (K M : Type) where
  st : Store K M
  thr : List (Thr K M)
  hist : List (K × M)

/-- A step: a call is made, or a call goes on. -/
inductive Act (K M : Type)
  | insert (k : K) (m : M)
  | lookup (k : K)
  | go (t : Nat) (c : Choice)
  deriving DecidableEq, Repr

/-- No call but `t` has read locked a page of `l`. -/
def soleReader (root : Nat) (thr : List (Thr K M)) (t : Nat) (l : List Nat) : Bool :=
  thr.zipIdx.all fun x => x.2 == t || (x.1.pc.reads root).all fun a => !l.contains a

/-- One step of the system. -/
def step (mrg : K → M → M → M) (root : Nat) (s : Sys K M) : Act K M → Option (Sys K M)
  | .insert k m => some { s with thr := s.thr ++ [⟨k, some m, .idle, s.hist.length⟩] }
  | .lookup k => some { s with thr := s.thr ++ [⟨k, none, .lidle, s.hist.length⟩] }
  | .go t c =>
    match s.thr[t]? with
    | none => none
    | some x =>
      match x.msg with
      | some m =>
        match thrStep mrg (soleReader root s.thr t) s.st root s.hist.length x.key m x.pc c with
        | none => none
        | some (st', pc', eff) => some ⟨st', s.thr.set t { x with pc := pc' },
            if eff then s.hist ++ [(x.key, m)] else s.hist⟩
      | none =>
        match lookStep s.st root s.hist.length x.key x.pc with
        | none => none
        | some pc' => some { s with thr := s.thr.set t { x with pc := pc' } }

/-- `btree_create`: btree.c 1189–1234: the root is an empty leaf. -/
def create (root : Nat) : Sys K M :=
  ⟨fun a => if a = root then some ⟨0, 0, 0, .leaf []⟩ else none, [], []⟩

/-- States of a tree since its creation. -/
inductive Reachable (mrg : K → M → M → M) (root : Nat) : Sys K M → Prop
  | create : Reachable mrg root (create root)
  | step {s s' : Sys K M} {a : Act K M} : Reachable mrg root s → step mrg root s a = some s' →
      Reachable mrg root s'

end Splinter.BtreeIns
