/-!
# References of trunk nodes to filters

A filter is kept in a mini allocator without keys. Its count of references is the count of the extent of its first meta
page (mini_allocator.c 985–1045; `Model/MiniUnkeyed.lean` says what the last reference frees). Here is which references the
trunk takes and gives up when filters are built, replaced and moved with bundles.

A filter is a number, 0 is the empty filter (`addr == 0`). A node is its pivots and, for each bundle, the filters of its
subbundles in order. A pivot has the filter of its whole branches, their number, and how many of the node's bundles are before
its first live one. How the circular arrays give these lists is C47. The number of a bundle counts from the first one there was
(`first` is the number of the first one left). One step is what happens between two updates of the root. Left out: keys, which
node is a child of which, branches, and the arrays' lengths.
-/
namespace Splinter.FilterRefs

def upd (f : Nat → Nat) (k v : Nat) : Nat → Nat := fun j => if j = k then v else f j

/-- Counts of references: those of the extents with the first meta page of filters. Number 0 is the extent at address 0, that of
the super block: `meta_head` of the empty filter is 0. -/
abbrev Refs := Nat → Nat

/-- `trunk_inc_filter_ref` (trunk.c 3901–3912), `mini_unkeyed_inc_ref` (mini_allocator.c 1001–1009), `rc_allocator_inc_ref`
(rc_allocator.c 500–517). That the filter is not empty is a `debug_assert`. `none`: an assertion fails. -/
def inc (f : Nat) (R : Refs) : Option Refs :=
  let r := (R f + 1) % 256
  if r = 0 ∨ r = 1 then none
  else if r ≤ 2 then none
  else some (upd R f r)

/-- `trunk_dec_filter` (trunk.c 3914–3922), `mini_unkeyed_dec_ref` (mini_allocator.c 1022–1045), `rc_allocator_dec_ref`
(rc_allocator.c 519–551). At `MINI_NO_REFS` all extents are freed. Below it nothing but a `debug_assert` fails, here this is `none` too. -/
def dec (f : Nat) (R : Refs) : Option Refs :=
  if f = 0 then some R
  else
    let r := (R f + 255) % 256
    if r = 255 then none
    else if r = 2 then some (upd R f 0)
    else if r < 2 then none
    else some (upd R f r)

def incAll : List Nat → Refs → Option Refs
  | [], R => some R
  | f :: l, R =>
    match inc f R with
    | none => none
    | some R => incAll l R

def decAll : List Nat → Refs → Option Refs
  | [], R => some R
  | f :: l, R =>
    match dec f R with
    | none => none
    | some R => decAll l R

structure Piv where
  gen : Nat
  filter : Nat
  start : Nat
  whole : Nat
deriving DecidableEq, Repr

structure Nd where
  pivs : List Piv
  bus : List (List Nat)
  first : Nat
deriving DecidableEq, Repr

/-! ### Moving bundles -/

/-- Bundles live for no pivot (`trunk_reset_start_branch`, trunk.c 2051–2094). The code looks for the first live branch of all pivots;
a bundle's branches are live for a pivot if the bundle is. -/
def Nd.dead (d : Nd) : Nat := (d.pivs.map (·.start)).foldl min d.bus.length

/-- The filters `trunk_reset_start_branch` gives up (`trunk_bundle_clear_subbundles`, trunk.c 2411–2427), and the node after it. -/
def Nd.resetDecs (d : Nd) : List Nat := (d.bus.take d.dead).flatten
def Nd.reset (d : Nd) : Nd :=
  { pivs := d.pivs.map (fun p => { p with start := p.start - d.dead }), bus := d.bus.drop d.dead, first := d.first + d.dead }

/-- The slot for the whole branches of a flushed pivot (trunk.c 4487–4520). -/
def wholeSlot (p : Piv) : List Nat := if 0 < p.whole then [p.filter] else []

/-- The slots copied from live bundles, whose filters get another reference (trunk.c 4526–4577). -/
def Nd.liveSlots (d : Nd) (p : Piv) : List Nat := (d.bus.drop p.start).flatten

/-- `trunk_pivot_clear` (trunk.c 2101–2118) before the reset. The reset is left out there if another pivot has earlier branches, in which
case no bundle is dead. -/
def Nd.clear (d : Nd) (i : Nat) (p : Piv) : Nd := { d with pivs := d.pivs.set i { p with filter := 0, start := d.bus.length, whole := 0 } }

/-- `trunk_flush_into_bundle` (trunk.c 4447–4595): the references, the parent and the child. -/
def flushRefs (d : Nd) (i : Nat) (p : Piv) (R : Refs) : Option Refs :=
  match incAll (d.liveSlots p) R with
  | none => none
  | some R => decAll (d.clear i p).resetDecs R
def flushParent (d : Nd) (i : Nat) (p : Piv) : Nd := (d.clear i p).reset
def Nd.add (c : Nd) (l : List Nat) : Nd := { c with bus := c.bus ++ [l] }

/-- `trunk_leaf_rebundle_all_branches` (trunk.c 2455–2500): the filter of the whole branches gets the first slot of the only bundle left. -/
def Nd.rebundle (d : Nd) (p : Piv) (gen : Nat) : Nd :=
  ⟨[{ p with gen := gen, filter := if 0 < p.whole then 0 else p.filter, start := 0, whole := 0 }], [wholeSlot p ++ d.bus.flatten], d.first + d.bus.length⟩

/-- References of `trunk_split_leaf` (trunk.c 5981–5993) to the slots of the bundle, for each new leaf but the first. -/
def splitRefs (n : Nat) (slots : List Nat) : Refs → Option Refs := incAll (List.replicate n slots).flatten

/-- `trunk_split_index` (trunk.c 5541–5563). -/
def splitIndexRefs (d : Nd) (t : Nat) (R : Refs) : Option Refs :=
  match incAll d.bus.flatten R with
  | none => none
  | some R =>
    match decAll ({ d with pivs := d.pivs.drop t } : Nd).resetDecs R with
    | none => none
    | some R => decAll ({ d with pivs := d.pivs.take t } : Nd).resetDecs R

/-- The new pivot behind number `i` (`trunk_init_pivot_data_from_pred`, trunk.c 1537–1560): a copy of that one's data with a new
generation. -/
def Nd.addPivot (d : Nd) (i gen : Nat) (p : Piv) : Nd := { d with pivs := d.pivs.insertIdx (i + 1) { p with gen := gen } }

/-! ### Building filters -/

/-- `trunk_filter_scratch` (trunk.c 3928–3941) by generation: `todo` are old filters still to be added to, `made` are new filters;
`first` is whether no node had them replaced yet. -/
structure Scr where
  no : Nat
  todo : List (Nat × Nat)
  made : List (Nat × Nat)
  first : Bool
deriving DecidableEq, Repr

/-- The bundle, which is the node's first, is live for the pivot (`trunk_bundle_live_for_pivot`, trunk.c 2585–2596). -/
def Nd.liveFor (d : Nd) (no : Nat) (p : Piv) : Bool := decide (d.first = no ∧ d.bus ≠ [] ∧ p.start = 0)

/-- `trunk_prepare_build_filter` (trunk.c 4046–4086): the filters are copied without a reference. -/
def prepare (d : Nd) : Scr :=
  ⟨d.first, (d.pivs.filter (d.liveFor d.first)).map (fun p => (p.gen, p.filter)), [], true⟩

/-- `filter_scratch->filter[pos]` for the position of the generation is taken out. -/
def takeGen (g : Nat) : List (Nat × Nat) → Option (Nat × List (Nat × Nat))
  | [] => none
  | (h, f) :: l =>
    if h = g then some (f, (h, 0) :: l)
    else
      match takeGen g l with
      | none => none
      | some (x, l') => some (x, (h, f) :: l')

/-- What `trunk_replace_routing_filter` (trunk.c 4163–4215) leaves: pivots, scratch, the new filters it gives up, and the old ones
replaced. `none`: an assertion fails. -/
structure Rep where
  pivs : List Piv
  made : List (Nat × Nat)
  decs : List Nat
  olds : List Nat

def replaceOne (live : Bool) (p : Piv) (m : List (Nat × Nat)) : Option Rep :=
  if live then
    match takeGen p.gen m with
    | none => none
    | some (f, m') => some ⟨[{ p with filter := f }], m', [], [p.filter]⟩
  else
    match takeGen p.gen m with
    | none => some ⟨[p], m, [], []⟩
    | some (f, m') => some ⟨[p], m', [f], []⟩

def replaceAll (live : Piv → Bool) : List Piv → List (Nat × Nat) → Option Rep
  | [], m => some ⟨[], m, [], []⟩
  | p :: l, m =>
    match replaceOne (live p) p m with
    | none => none
    | some r =>
      match replaceAll live l r.made with
      | none => none
      | some r' => some ⟨r.pivs ++ r'.pivs, r'.made, r.decs ++ r'.decs, r.olds ++ r'.olds⟩

/-- `trunk_clear_bundle` (trunk.c 2625–2647) of the first bundle, which has one branch (it was compacted). -/
def Nd.clearBundle (d : Nd) : Nd :=
  { pivs := d.pivs.map (fun p => if p.start = 0 then { p with whole := p.whole + 1 } else { p with start := p.start - 1 }),
    bus := d.bus.tail, first := d.first + 1 }
def Nd.clearDecs (d : Nd) : List Nat := d.bus.head?.getD []

/-- The bundle is one of the node's (`trunk_bundle_live`, trunk.c 2183–2190). -/
def Nd.has (d : Nd) (no : Nat) : Bool := decide (d.first ≤ no ∧ no < d.first + d.bus.length)

/-- The loop of `trunk_bundle_build_filters` over the parts of the node (trunk.c 4300–4372), for one part `d`: the references, the new
node, what is left of the scratch, and the old filters nobody gives up. `trunk_garbage_collect_filters` (4217–4239) looks for the node
at the start of the range of the request, which is the first part; in later turns the bundle is not live there any more. -/
def replaceIn (d : Nd) (s : Scr) (R : Refs) : Option (Refs × Nd × Scr × List Nat) :=
  if d.has s.no = true ∧ s.no ≠ d.first then none
  else
    match replaceAll (d.liveFor s.no) d.pivs s.made with
    | none => none
    | some r =>
      let d1 := { d with pivs := r.pivs }
      let c := d.has s.no
      match decAll (r.decs ++ (if c then d1.clearDecs else []) ++ (if s.first then r.olds else [])) R with
      | none => none
      | some R' => some (R', if c then d1.clearBundle else d1, { s with made := r.made, first := false }, if s.first then [] else r.olds)

/-! ### Steps -/

/-- `fly` are filters of memtables not in the trunk yet. `lost` is not in the code: filters of which a reference is left that nobody will give up. -/
structure St where
  nodes : List Nd
  fly : List Nat
  scr : List Scr
  refs : Refs
  lost : List Nat

/-- `trunk_node_destroy` (trunk.c 7897–7933). -/
def Nd.slots (d : Nd) : List Nat := d.pivs.map (·.filter) ++ d.bus.flatten

inductive Step : St → St → Prop
  /-- The filter of a memtable (trunk.c 3508–3516): its extents were free, and get one reference (`mini_init`). -/
  | make {s : St} {f} : f ≠ 0 → s.refs f = 0 → Step s { s with fly := f :: s.fly, refs := upd s.refs f 3 }
  /-- Incorporation (trunk.c 3589–3645). -/
  | install {s : St} {d rest f fly} : s.nodes.Perm (d :: rest) → s.fly.Perm (f :: fly) →
      Step s { s with nodes := d.add [f] :: rest, fly := fly }
  /-- A flush of pivot `i` of `d` into its child `c`. -/
  | flush {s : St} {d c rest i p R} : s.nodes.Perm (d :: c :: rest) → d.pivs[i]? = some p → flushRefs d i p s.refs = some R →
      Step s { s with nodes := flushParent d i p :: c.add (wholeSlot p ++ d.liveSlots p) :: rest, refs := R }
  /-- A leaf's bundles are merged for a compaction (`trunk_compact_leaf`, trunk.c 6578–6638). -/
  | rebundle {s : St} {d rest p gen} : s.nodes.Perm (d :: rest) → d.pivs = [p] →
      Step s { s with nodes := d.rebundle p gen :: rest }
  /-- A leaf is split into `n + 1`. -/
  | splitLeaf {s : St} {d rest p gen n R} : s.nodes.Perm (d :: rest) → d.pivs = [p] →
      splitRefs n (d.rebundle p gen).bus.flatten s.refs = some R →
      Step s { s with nodes := List.replicate (n + 1) (d.rebundle p gen) ++ rest, refs := R }
  /-- An index node is split before pivot `t`. -/
  | splitIndex {s : St} {d rest t R} : s.nodes.Perm (d :: rest) → splitIndexRefs d t s.refs = some R →
      Step s { s with nodes := ({ d with pivs := d.pivs.take t } : Nd).reset :: ({ d with pivs := d.pivs.drop t } : Nd).reset :: rest, refs := R }
  /-- The parent of a split child gets a pivot behind the one that was flushed. -/
  | addPivot {s : St} {d rest i p gen} : s.nodes.Perm (d :: rest) → d.pivs[i]? = some p → p.whole = 0 → p.start = d.bus.length →
      Step s { s with nodes := d.addPivot i gen p :: rest }
  /-- A new root above the old one. -/
  | newRoot {s : St} {gen first} : Step s { s with nodes := ⟨[⟨gen, 0, 0, 0⟩], [], first⟩ :: s.nodes }
  /-- A filter build begins on a node. -/
  | prepare {s : St} {d} : d ∈ s.nodes → d.bus ≠ [] → Step s { s with scr := FilterRefs.prepare d :: s.scr }
  /-- `trunk_build_filters` (trunk.c 4108–4161) for one pivot: `routing_filter_add` makes a new filter. -/
  | build {s : St} {sc rest g o l f} : s.scr.Perm (sc :: rest) → sc.todo = (g, o) :: l → f ≠ 0 → s.refs f = 0 →
      Step s { s with scr := { sc with todo := l, made := (g, f) :: sc.made } :: rest, refs := upd s.refs f 3 }
  /-- The bundle has no keys for the pivot: the old filter, if any, gets another reference. -/
  | keep {s : St} {sc rest g o l R} : s.scr.Perm (sc :: rest) → sc.todo = (g, o) :: l →
      (if o = 0 then some s.refs else inc o s.refs) = some R →
      Step s { s with scr := { sc with todo := l, made := (g, o) :: sc.made } :: rest, refs := R }
  /-- The new filters go into one part of the node. -/
  | replace {s : St} {sc rest d nrest R d' sc' ls} : s.scr.Perm (sc :: rest) → sc.todo = [] → s.nodes.Perm (d :: nrest) →
      replaceIn d sc s.refs = some (R, d', sc', ls) →
      Step s { s with nodes := d' :: nrest, scr := sc' :: rest, refs := R, lost := ls ++ s.lost }
  /-- After the last part, or when a leaf was split (trunk.c 4318–4320, 4381–4383): what is left in the scratch is given up. -/
  | finish {s : St} {sc rest R} : s.scr.Perm (sc :: rest) → sc.todo = [] → decAll (sc.made.map (·.2)) s.refs = some R →
      Step s { s with scr := rest, refs := R }
  /-- The newest bundle has no keys after its compaction (trunk.c 3000–3028). -/
  | vanish {s : St} {d rest b l R} : s.nodes.Perm (d :: rest) → d.bus = b ++ [l] → decAll l s.refs = some R →
      Step s { s with nodes := { d with bus := b, pivs := d.pivs.map (fun p => { p with start := min p.start b.length }) } :: rest, refs := R }
  /-- `trunk_destroy`. -/
  | destroy {s : St} {d rest R} : s.nodes.Perm (d :: rest) → decAll d.slots s.refs = some R → Step s { s with nodes := rest, refs := R }

/-- `trunk_create`: a root above an empty leaf. The extent of the super block has one reference (`AL_ONE_REF`). -/
def St.init : St := ⟨[⟨[⟨0, 0, 0, 0⟩], [], 0⟩, ⟨[⟨0, 0, 0, 0⟩], [], 0⟩], [], [], fun x => if x = 0 then 2 else 0, []⟩

inductive Reach : St → Prop
  | init : Reach St.init
  | step {s s' : St} : Reach s → Step s s' → Reach s'

end Splinter.FilterRefs
