import Verif.Model.BtreeInsert
/-!
Iterators over a memtable tree that is being inserted into: `btree_iterator_init`,
`btree_iterator_can_next`, `btree_iterator_curr`, `btree_iterator_next` and
`btree_iterator_deinit` (`src/btree.c`) beside the inserts and lookups of
`Model/BtreeInsert.lean`. Pages get their `generation`.

A scan is a caller that creates an iterator, takes tuples while there are any and closes
the iterator. One step is the code up to the next point where it gives up or waits for a
page, or up to the next call.

Simplified:
* as in `Model/BtreeInsert.lean` a claim may fail at any time.
* prefetching is left out.
* the iterator starts with `greater_than_or_equal` or `greater_than` and only moves
  forward. The other two start types and `btree_iterator_prev` are in `Model/Btree.lean`,
  for a tree that does not change.
* memtables are scanned at height 0.
-/
namespace Splinter.BtreeIns
open Btree Search

variable {K M : Type} [LinearOrder K] [Inhabited K] [BoundedOrder K]

/-! ### Generations -/

/-- Add one to the generation of a page. -/
def bump (gen : Nat → Nat) (a : Nat) : Nat → Nat := setAt gen a (gen a + 1)

/-- A page was allocated at `a`. -/
def alloced (st st' : Store K M) (a : Nat) : Bool := (st a).isNone && (st' a).isSome

/-- Generations after a step of an insert that turned `st` into `st'`:
* a tuple put into a leaf: btree.c 678;
* `btree_grow_root` copies the page with its generation and the root keeps its own:
  btree.c 1714–1720;
* `btree_split_index_build_right_node` and `btree_truncate_index`: btree.c 990–991, 1048;
* a leaf split: btree.c 890–891 and 928, and once more for the side the tuple goes to. -/
def genStep (root : Nat) (st st' : Store K M) (gen : Nat → Nat) (pc : Pc M) (c : Choice) (eff : Bool) :
    Nat → Nat :=
  match pc with
  | .rootLeaf _ =>
    if eff then bump gen root
    else if alloced st st' c.new then setAt gen c.new (gen root) else gen
  | .rootIx => if alloced st st' c.new then setAt gen c.new (gen root) else gen
  | .at _ _ ch _ => if alloced st st' c.new then setAt (bump gen ch) c.new (gen ch + 1) else gen
  | .ready ch _ | .defrag ch _ => if eff then bump gen ch else gen
  | .both _ _ ch _ =>
    if eff then
      let g := setAt (bump gen ch) c.new (gen ch + 1)
      if c.left then bump g ch else bump g c.new
    else gen
  | _ => gen

/-- The `generation` that `btree_insert` hands back: btree.c 678. In a split it is read
after the new one was given to the page (891, 928). -/
def genOut (root : Nat) (gen : Nat → Nat) : Pc M → Nat
  | .rootLeaf _ => gen root
  | .ready ch _ | .defrag ch _ => gen ch
  | .both _ _ ch _ => gen ch + 1
  | _ => 0

/-! ### Scans -/

/-- Where a scan is; the comments say what it has read locked. The last number is
`end_generation`. -/
inductive SPc (K : Type)
  | find                                   -- 2793, 2825: nothing
  | down (a h : Nat)                       -- `btree_lookup_node` for the start key: a
  | claimed (c : Nat)                      -- 2836: c (claimed)
  | look (c a h : Nat)                     -- 2589: c (claimed), and a on the way to the end
  | gap (t : Iter K) (eg : Nat)            -- 2628, 2659: nothing, `curr` is next
  | refind (t : Iter K)                    -- 2658: nothing
  | relook (t : Iter K) (a h : Nat)        -- 2589: a on the way to the end
  | at (t : Iter K) (eg : Nat)             -- between two calls: curr
  | done (n : Nat)                         -- closed
  deriving DecidableEq, Repr

/-- Pages a scan has read locked. -/
def SPc.reads : SPc K → List Nat
  | .down a _ => [a]
  | .claimed c => [c]
  | .look c a _ => [c, a]
  | .relook _ a _ => [a]
  | .at t _ => [t.curr]
  | .find | .gap _ _ | .refind _ | .done _ => []

/-- A scan: bounds as `btree_iterator_init` leaves them, whether it starts behind the
start key, where it is, the tuples seen, and the number of inserts that had taken effect
when it was created. -/
structure Scan (K M : Type) where
  lo : K
  hi : K
  start : K
  strict : Bool
  pc : SPc K
  out : List (K × M)
  born : Nat
  deriving DecidableEq, Repr

/-- The bounds of `btree_iterator_init`: btree.c 2968–2977. -/
def newScan (lo hi start : K) (strict : Bool) (now : Nat) : Scan K M :=
  let hi := if hi < lo then lo else hi
  let start := if start < lo then lo else start
  let start := if hi < start then hi else start
  ⟨lo, hi, start, strict, .find, [], now⟩

/-- One level of `btree_lookup_node`: btree.c 2093–2114. -/
def descend (st : Store K M) (a : Nat) (k : K) : Option Nat :=
  match entsOf st a with
  | none => none
  | some es => (es[childIdx es k]?).map (·.child)

/-- `end_idx`: btree.c 2601–2606. -/
def endIdx (es : List (K × M)) (hi : K) : Int :=
  if hi = ⊤ then es.length else findKey es hi .ge

/-- `find_btree_node_and_get_idx_bounds` once the end is known: btree.c 2838–2862.
`c` is `curr`, `ea`, `ei` and `eg` the end. -/
def bounds (st : Store K M) (x : Scan K M) (root c ea : Nat) (ei : Int) (eg : Nat) : Option (SPc K) :=
  match st c with
  | some ⟨_, nx, pv, .leaf es⟩ =>
    let r := btreeFind (es.map (·.1)) x.lo
    let tmp := position .ge r
    let m : Int := if !r.2 ∧ tmp = 0 then tmp - 1 else tmp
    let m : Int := if m = -1 ∧ pv = 0 then 0 else m
    let i := findKey es x.start (if x.strict then .gt else .ge)
    if c ≠ ea ∧ i = (es.length : Int) then some (.gap ⟨root, x.lo, x.hi, nx, 0, 0, ea, ei⟩ eg)
    else some (.at ⟨root, x.lo, x.hi, c, i, m, ea, ei⟩ eg)
  | _ => none

/-- One step of a scan: where it is then and the tuple it saw. `claim` is the outcome of
`btree_node_claim`. -/
def scanStep (st : Store K M) (gen : Nat → Nat) (root now : Nat) (x : Scan K M) (claim : Bool) :
    Option (SPc K × Option (K × M)) :=
  match x.pc with
  | .find => (st root).map fun n => (.down root n.height, none)
  | .down a (h + 1) => (descend st a x.start).map fun b => (.down b h, none)
  | .down a 0 => some (if claim then .claimed a else .find, none)          -- 2823–2834
  | .claimed c => (st root).map fun n => (.look c root n.height, none)
  | .look c a (h + 1) => (descend st a x.hi).map fun b => (.look c b h, none)
  | .look c a 0 =>                                                         -- 2598–2608, 2838–2862
    match leafOf st a with
    | none => none
    | some es => (bounds st x root c a (endIdx es x.hi) (gen a)).map (·, none)
  | .gap t eg =>                                                           -- 2627–2632
    match st t.curr with
    | none => none
    | some _ => if t.curr = t.endAddr ∧ gen t.curr ≠ eg then some (.refind t, none)
                else some (.at t eg, none)
  | .refind t => (st root).map fun n => (.relook t root n.height, none)
  | .relook t a (h + 1) => (descend st a x.hi).map fun b => (.relook t b h, none)
  | .relook t a 0 =>
    match leafOf st a with
    | none => none
    | some es => some (.gap { t with endAddr := a, endIdx := endIdx es x.hi } (gen a), none)
  | .at t eg =>
    if t.canNext then                                                      -- 2509–2538, 2740–2763
      match t.curr? st, st t.curr, leafOf st t.curr with
      | some e, some n, some es =>
        let t' := { t with idx := t.idx + 1 }
        if t'.idx = (es.length : Int) ∧ t'.canNext then
          some (.gap { t' with curr := n.next, idx := 0, minIdx := -1 } eg, some e)
        else some (.at t' eg, some e)
      | _, _, _ => none
    else some (.done now, none)                                            -- 3004–3009
  | .done _ => none

/-- Inserts and lookups, generations, the generation each insert handed back (in the
order of `base.hist`), and the scans. -/
structure SSys (K M : Type) where
  base : Sys K M
  gen : Nat → Nat
  glog : List Nat
  scans : List (Scan K M)

/-- A step: a call is made, or a call goes on. -/
inductive SAct (K M : Type)
  | insert (k : K) (m : M)
  | lookup (k : K)
  | go (t : Nat) (c : Choice)
  | scan (lo hi start : K) (strict : Bool)
  | iter (i : Nat) (claim : Bool)
  deriving DecidableEq, Repr

/-- No scan has read locked a page of `l`. -/
def scanFree (scans : List (Scan K M)) (l : List Nat) : Bool :=
  scans.all fun x => x.pc.reads.all fun a => !l.contains a

/-- One step of the system: threads of `btree_insert`, `btree_lookup` (btree.c) and scans. -/
def sstep (mrg : K → M → M → M) (root : Nat) (s : SSys K M) : SAct K M → Option (SSys K M)
  | .insert k m => (step mrg root s.base (.insert k m)).map fun b => { s with base := b }
  | .lookup k => (step mrg root s.base (.lookup k)).map fun b => { s with base := b }
  | .go t c =>
    match s.base.thr[t]? with
    | none => none
    | some x =>
      match x.msg with
      | some m =>
        match thrStep mrg (fun l => soleReader root s.base.thr t l && scanFree s.scans l) s.base.st root
            s.base.hist.length x.key m x.pc c with
        | none => none
        | some (st', pc', eff) => some {
            base := ⟨st', s.base.thr.set t { x with pc := pc' },
              if eff then s.base.hist ++ [(x.key, m)] else s.base.hist⟩
            gen := genStep root s.base.st st' s.gen x.pc c eff
            glog := if eff then s.glog ++ [genOut root s.gen x.pc] else s.glog
            scans := s.scans }
      | none => (step mrg root s.base (.go t c)).map fun b => { s with base := b }
  | .scan lo hi start strict =>
    some { s with scans := s.scans ++ [newScan lo hi start strict s.base.hist.length] }
  | .iter i claim =>
    match s.scans[i]? with
    | none => none
    | some x =>
      match scanStep s.base.st s.gen root s.base.hist.length x claim with
      | none => none
      | some (pc', e) => some { s with scans := s.scans.set i { x with pc := pc', out := x.out ++ e.toList } }

/-- A new tree: generations start at 0 (`btree_create`, btree.c 1189–1234, with `btree_init_hdr`). -/
def screate (root : Nat) : SSys K M := ⟨create root, fun _ => 0, [], []⟩

/-- States of a tree since its creation. -/
inductive SReachable (mrg : K → M → M → M) (root : Nat) : SSys K M → Prop
  | create : SReachable mrg root (screate root)
  | step {s s' : SSys K M} {a : SAct K M} : SReachable mrg root s → sstep mrg root s a = some s' →
      SReachable mrg root s'

end Splinter.BtreeIns
