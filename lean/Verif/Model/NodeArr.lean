import Verif.Model.Ring
import Verif.Model.Trunk
/-!
# The circular arrays of a trunk node

`Model/Trunk.lean` describes a node by nested lists. Here is the node as it is on its page:
four circular arrays (branches, bundles, subbundles, subbundle filters), the cursors of the
header, and per pivot the first live branch and bundle (trunk.c 481–590).

`H` is `hard_max_branches_per_node`. A branch and a filter are values of any type. Left
out: keys, children, generations, tuple counts, reference counts, and the two kinds of
subbundles that are not compacted, which no code distinguishes in a release build.
-/
namespace Splinter.Trunk.NodeArr

/-- `TRUNK_MAX_BUNDLES`, `TRUNK_MAX_SUBBUNDLES`, `TRUNK_MAX_SUBBUNDLE_FILTERS`
(trunk.c 61–63). -/
abbrev maxBu : Nat := 12
abbrev maxSb : Nat := 24
abbrev maxF : Nat := 24

/-- `trunk_subbundle` (trunk.c 481–488). -/
structure SbRec where
  compacted : Bool
  startBr : Nat
  endBr : Nat
  startF : Nat
  endF : Nat
  deriving DecidableEq

/-- The part of `trunk_pivot_data` (trunk.c 565–580) that points into the arrays. -/
structure PRec (F : Type) where
  startBr : Nat
  startBu : Nat
  filter : F

/-- `trunk_hdr` (trunk.c 528–550) with the branch array and the pivots. A bundle is its
`start_subbundle` and `end_subbundle`. -/
structure Hdr (B F : Type) where
  startBr : Nat
  fracBr : Nat
  endBr : Nat
  startBu : Nat
  endBu : Nat
  startSb : Nat
  endSb : Nat
  startF : Nat
  endF : Nat
  bundle : Nat → Nat × Nat
  sb : Nat → SbRec
  filt : Nat → F
  branch : Nat → B
  pivots : List (PRec F)

/-- Assignment to an array cell. -/
def upd {α : Type} (f : Nat → α) (i : Nat) (v : α) : Nat → α := fun j => if j = i then v else f j

variable {B F : Type} (H : Nat)

/-! ### Questions -/

/-- `trunk_branch_is_whole` (trunk.c 1698–1704). -/
def isWhole (a : Hdr B F) (x : Nat) : Bool :=
  decide (Ring.sub H x a.startBr < Ring.sub H a.fracBr a.startBr)

/-- `trunk_branch_live` (trunk.c 2799–2805). -/
def brLive (a : Hdr B F) (x : Nat) : Bool := Ring.inRange H x a.startBr a.endBr

/-- `trunk_branch_valid` (trunk.c 2810–2817). -/
def brValid (a : Hdr B F) (x : Nat) : Bool :=
  decide (Ring.sub H x a.startBr ≤ Ring.sub H a.endBr a.startBr)

/-- `trunk_branch_live_for_pivot` (trunk.c 1681–1692). -/
def brLiveFor (a : Hdr B F) (p : PRec F) (x : Nat) : Bool := Ring.inRange H x p.startBr a.endBr

/-- `trunk_bundle_valid` (trunk.c 2570–2577). -/
def buValid (a : Hdr B F) (x : Nat) : Bool :=
  decide (Ring.sub maxBu x a.startBu ≤ Ring.sub maxBu a.endBu a.startBu)

/-- `trunk_bundle_live` (trunk.c 2180–2188). -/
def buLive (a : Hdr B F) (x : Nat) : Bool := Ring.inRange maxBu x a.startBu a.endBu

/-- `trunk_bundle_start_branch`, `trunk_bundle_end_branch` (trunk.c 2503–2526). -/
def buStartBr (a : Hdr B F) (bu : Nat × Nat) : Nat := (a.sb bu.1).startBr
def buEndBr (a : Hdr B F) (bu : Nat × Nat) : Nat := (a.sb (Ring.sub maxSb bu.2 1)).endBr

/-- `trunk_bundle_start_filter`, `trunk_bundle_end_filter` (trunk.c 2350–2369). -/
def buStartF (a : Hdr B F) (bu : Nat × Nat) : Nat := (a.sb bu.1).startF
def buEndF (a : Hdr B F) (bu : Nat × Nat) : Nat := (a.sb (Ring.sub maxSb bu.2 1)).endF

/-- `trunk_pivot_bundle_count` (trunk.c 1901–1908). -/
def pivBundles (a : Hdr B F) (p : PRec F) : Nat := Ring.sub maxBu a.endBu p.startBu

/-- `trunk_pivot_start_subbundle` (trunk.c 1929–1939). -/
def pivStartSb (a : Hdr B F) (p : PRec F) : Nat :=
  if p.startBu = a.endBu then a.endSb else (a.bundle p.startBu).1

/-- `trunk_pivot_subbundle_count` (trunk.c 1913–1927). -/
def pivSubbundles (a : Hdr B F) (p : PRec F) : Nat :=
  if pivBundles a p = 0 then 0 else Ring.sub maxSb a.endSb (a.bundle p.startBu).1

/-- `trunk_has_vacancy` (trunk.c 2742–2748). -/
def hasVacancy (a : Hdr B F) (k : Nat) : Bool := decide (Ring.sub H a.endBr a.startBr + k + 1 < H)

/-- `trunk_room_to_flush` (trunk.c 4604–4619). -/
def roomToFlush (parent child : Hdr B F) (p : PRec F) : Bool :=
  decide (Ring.sub H child.endBr child.startBr + Ring.sub H parent.endBr p.startBr < H) &&
  decide (Ring.sub maxBu child.endBu child.startBu + 2 ≤ maxBu) &&
  decide (Ring.sub maxSb child.endSb child.startSb + (pivSubbundles parent p + 1) + 1 < maxSb)

/-! ### Adding -/

/-- `trunk_get_new_bundle` (trunk.c 2204–2218). `none`: the assertion fails. -/
def newBundle (a : Hdr B F) : Option (Nat × Hdr B F) :=
  match Ring.alloc maxBu a.startBu a.endBu with
  | none => none
  | some (no, e) => some (no, { a with endBu := e })

/-- `trunk_get_new_subbundle` (trunk.c 2255–2273). No check of the filters. -/
def newSb (a : Hdr B F) (nf : Nat) : Option (Nat × Hdr B F) :=
  match Ring.alloc maxSb a.startSb a.endSb with
  | none => none
  | some (no, e) =>
    let ef := Ring.add maxF a.endF nf
    some (no, { a with
      endSb := e, endF := ef
      sb := upd a.sb no { a.sb no with startF := a.endF, endF := ef, compacted := true } })

/-- `trunk_get_new_branch` (trunk.c 2767–2777) and the assignment to it. No check in a
release build. -/
def newBranch (a : Hdr B F) (b : B) : Hdr B F :=
  { a with branch := upd a.branch a.endBr b, endBr := Ring.add H a.endBr 1 }

/-- Assigning to `trunk_subbundle_filter(…, i)`, `trunk_subbundle_filter(…, i + 1)`, …
(trunk.c 2371–2381) of a subbundle whose filters start at `s`. -/
def putFilters (s : Nat) : Nat → List F → (Nat → F) → (Nat → F)
  | _, [], g => g
  | i, f :: r, g => putFilters s (i + 1) r (upd g (Ring.add maxF s i) f)

/-- One new subbundle with its branches and filters (trunk.c 4494–4520, 4540–4567;
3607–3618). -/
def addSb (c : Bool) (bs : List B) (fs : List F) (a : Hdr B F) : Option (Hdr B F) :=
  match newSb a fs.length with
  | none => none
  | some (no, a1) =>
    let a2 := { a1 with sb := upd a1.sb no { a1.sb no with compacted := c, startBr := a1.endBr } }
    let a3 := bs.foldl (newBranch H) a2
    some { a3 with
      sb := upd a3.sb no { a3.sb no with endBr := a3.endBr }
      filt := putFilters (a3.sb no).startF 0 fs a3.filt }

/-- `addSb` for each of a list of subbundles. -/
def addSbs : List (Bool × List B × List F) → Hdr B F → Option (Hdr B F)
  | [], a => some a
  | (c, bs, fs) :: r, a =>
    match addSb H c bs fs a with
    | none => none
    | some a' => addSbs r a'

/-- `trunk_install_new_compacted_subbundle` (trunk.c 3588–3645) after the check
`trunk_has_vacancy` of its caller (3676). -/
def install (a : Hdr B F) (b : B) (f : F) : Option (Hdr B F) :=
  if hasVacancy H a 1 = false then none
  else
    match newBundle a with
    | none => none
    | some (no, a1) =>
      match addSb H true [b] [f] a1 with
      | none => none
      | some a2 => some { a2 with bundle := upd a2.bundle no (a1.endSb, a2.endSb) }

/-! ### Flush -/

/-- The loop over whole branches (trunk.c 4502–4514). `none`: not finished after `fuel`
rounds. -/
def wholeFrom (a : Hdr B F) : (fuel : Nat) → Nat → Option (List B)
  | 0, _ => none
  | fuel + 1, x =>
    if isWhole H a x then
      match wholeFrom a fuel (Ring.add H x 1) with
      | none => none
      | some l => some (a.branch x :: l)
    else some []

/-- What a subbundle contains (trunk.c 4536–4567). -/
def readSb (a : Hdr B F) (no : Nat) : Option (Bool × List B × List F) :=
  let r := a.sb no
  match Ring.enum H (H + 1) r.startBr r.endBr with
  | none => none
  | some xs => some (r.compacted, xs.map a.branch,
      (List.range (Ring.sub maxSb r.endF r.startF)).map (fun i => a.filt (Ring.add maxF r.startF i)))

def readSbs (a : Hdr B F) : List Nat → Option (List (Bool × List B × List F))
  | [] => some []
  | no :: r =>
    match readSb H a no, readSbs a r with
    | some s, some l => some (s :: l)
    | _, _ => none

/-- What `trunk_flush_into_bundle` copies into the child (trunk.c 4490–4568). -/
def readFlush (a : Hdr B F) (p : PRec F) : Option (List (Bool × List B × List F)) :=
  match (if isWhole H a p.startBr then
      (wholeFrom H a (H + 1) p.startBr).map (fun bs => [(false, bs, [p.filter])]) else some []) with
  | none => none
  | some w =>
    if pivBundles a p = 0 then some w
    else
      match Ring.enum maxSb (maxSb + 1) (pivStartSb a p) a.endSb with
      | none => none
      | some xs =>
        match readSbs H a xs with
        | none => none
        | some l => some (w ++ l)

/-- `trunk_bundle_clear_subbundles` (trunk.c 2409–2426). -/
def clearSubbundles (a : Hdr B F) (bu : Nat × Nat) : Hdr B F := { a with startF := buEndF a bu, startSb := bu.2 }

/-- Body of the loop of `trunk_reset_start_branch` over the bundles (trunk.c 2081–2092). -/
def resetBundle (a : Hdr B F) (no : Nat) : Hdr B F :=
  if brLive H a (buStartBr a (a.bundle no)) then a
  else
    let a1 := clearSubbundles a (a.bundle no)
    { a1 with startBu := Ring.add maxBu a1.startBu 1 }

/-- `trunk_reset_start_branch` (trunk.c 2051–2094). -/
def resetStart (a : Hdr B F) : Option (Hdr B F) :=
  let a1 := { a with startBr := Ring.resetStart H a.endBr (a.pivots.map (·.startBr)) }
  let a2 := if brValid H a1 a1.fracBr then a1 else { a1 with fracBr := a1.startBr }
  match Ring.enum maxBu (maxBu + 1) a2.startBu a2.endBu with
  | none => none
  | some xs => some (xs.foldl (resetBundle H) a2)

/-- `trunk_pivot_clear` (trunk.c 2101–2120). -/
def pivotClear (empty : F) (a : Hdr B F) (i : Nat) : Option (Hdr B F) :=
  match a.pivots[i]? with
  | none => none
  | some p =>
    let a1 := { a with pivots := a.pivots.set i ⟨a.endBr, a.endBu, empty⟩ }
    if p.startBr = a.startBr then resetStart H a1 else some a1

/-- `trunk_flush_into_bundle` (trunk.c 4447–4595) after the assertion of `trunk_flush`
that there is room (4674). The parent and the child afterwards. -/
def flushInto (empty : F) (parent child : Hdr B F) (i : Nat) : Option (Hdr B F × Hdr B F) :=
  match parent.pivots[i]? with
  | none => none
  | some p =>
    if roomToFlush H parent child p = false then none
    else
      match newBundle child, readFlush H parent p with
      | some (no, c1), some l =>
        match addSbs H l c1 with
        | none => none
        | some c2 =>
          if c1.endSb = c2.endSb then none
          else
            match pivotClear H empty parent i with
            | none => none
            | some parent' => some (parent', { c2 with bundle := upd c2.bundle no (c1.endSb, c2.endSb) })
      | _, _ => none

/-! ### Compaction and filters -/

/-- `trunk_reset_start_frac_branch` (trunk.c 2612–2623). -/
def resetFrac (a : Hdr B F) : Hdr B F :=
  if Ring.sub maxBu a.endBu a.startBu = 0 then { a with fracBr := a.endBr }
  else { a with fracBr := buStartBr a (a.bundle a.startBu) }

/-- `trunk_clear_bundle` (trunk.c 2625–2647) of the first bundle. -/
def clearBundle (a : Hdr B F) : Hdr B F :=
  let a1 := clearSubbundles a (a.bundle a.startBu)
  let a2 := { a1 with startBu := Ring.add maxBu a1.startBu 1 }
  resetFrac { a2 with
    pivots := a2.pivots.map (fun p => if buValid a2 p.startBu then p else { p with startBu := a2.startBu }) }

/-- The loops that move cells down by `d` (trunk.c 2986–2995, 3012–3021, 3045–3056). The
cell that is read is changed with `g` first. -/
def moveDown {α : Type} (h d : Nat) (g : α → α) (arr : Nat → α) (xs : List Nat) : Nat → α :=
  xs.foldl (fun arr x => upd (upd arr x (g (arr x))) (Ring.sub h x d) (g (arr x))) arr

/-- Shifting the branches of a subbundle (trunk.c 3049–3052). -/
def SbRec.shift (d : Nat) (r : SbRec) : SbRec :=
  { r with startBr := Ring.sub H r.startBr d, endBr := Ring.sub H r.endBr d }

/-- `trunk_replace_bundle_branches` (trunk.c 2944–3144) of bundle `no` with branch `out`. -/
def replaceBundle (a : Hdr B F) (no : Nat) (out : B) : Option (Hdr B F) :=
  let bu := a.bundle no
  let bs := buStartBr a bu
  let be := buEndBr a bu
  let diff := Ring.sub H be bs - 1
  let diffSb := Ring.sub maxSb bu.2 bu.1 - 1
  match Ring.enum H (H + 1) be a.endBr, Ring.enum maxSb (maxSb + 1) bu.2 a.endSb,
      Ring.enum maxBu (maxBu + 1) (Ring.add maxBu no 1) a.endBu with
  | some xb, some xs, some xu =>
    let branch1 := moveDown H diff id (upd a.branch bs out) xb
    let sb1 := upd a.sb bu.1 { a.sb bu.1 with endBr := Ring.add H bs 1, endF := buEndF a bu, compacted := true }
    let sb2 := moveDown maxSb diffSb (SbRec.shift H diff) sb1 xs
    let bundle1 := upd a.bundle no (bu.1, Ring.add maxSb bu.1 1)
    let bundle2 := moveDown maxBu 0
      (fun u : Nat × Nat => (Ring.sub maxSb u.1 diffSb, Ring.sub maxSb u.2 diffSb)) bundle1 xu
    some { a with
      branch := branch1
      sb := sb2
      endSb := Ring.sub maxSb a.endSb diffSb
      bundle := bundle2
      pivots := a.pivots.map (fun p =>
        if brLiveFor H a p bs then p else { p with startBr := Ring.sub H p.startBr diff })
      endBr := Ring.sub H a.endBr diff }
  | _, _, _ => none

/-- `trunk_replace_bundle_branches` without a branch (trunk.c 2944–3144): the bundle
vanishes. -/
def vanish (a : Hdr B F) (no : Nat) : Option (Hdr B F) :=
  let bu := a.bundle no
  let bs := buStartBr a bu
  let be := buEndBr a bu
  let diff := Ring.sub H be bs
  let diffSb := Ring.sub maxSb bu.2 bu.1
  match Ring.enum H (H + 1) be a.endBr, Ring.enum maxSb (maxSb + 1) bu.2 a.endSb,
      Ring.enum maxBu (maxBu + 1) (Ring.add maxBu no 1) a.endBu,
      Ring.enum maxSb (maxSb + 1) bu.1 bu.2, Ring.enum maxF (maxF + 1) (buEndF a bu) a.endF with
  | some xb, some xs, some xu, some ys, some xf =>
    let diffF := (ys.map fun y => Ring.sub maxSb (a.sb y).endF (a.sb y).startF).sum
    let bundle1 := moveDown maxBu 0
      (fun u : Nat × Nat => (Ring.sub maxSb u.1 diffSb, Ring.sub maxSb u.2 diffSb)) a.bundle xu
    let bundle2 := xu.foldl (fun f x => upd f (Ring.sub maxBu x 1) (f x)) bundle1
    let later := Ring.add maxBu no 1
    let laterEnd := Ring.add maxBu a.endBu 1
    some { a with
      branch := moveDown H diff id a.branch xb
      filt := moveDown maxF diffF id a.filt xf
      endF := Ring.sub maxF a.endF diffF
      sb := moveDown maxSb diffSb (SbRec.shift H diff) a.sb xs
      endSb := Ring.sub maxSb a.endSb diffSb
      bundle := bundle2
      endBu := Ring.sub maxBu a.endBu 1
      pivots := a.pivots.map (fun p =>
        let p1 := if Ring.inRange maxBu p.startBu later laterEnd then
          { p with startBu := Ring.sub maxBu p.startBu 1 } else p
        if brLiveFor H a p1 bs then p1 else { p1 with startBr := Ring.sub H p1.startBr diff })
      endBr := Ring.sub H a.endBr diff }
  | _, _, _, _, _ => none

/-- `trunk_leaf_get_new_subbundle_at_head` (trunk.c 2275–2292) for the branches
`[startBr, fracBr)` with one filter. -/
def headSb (a : Hdr B F) (f : F) : Option (Hdr B F) :=
  match Ring.allocHead maxSb a.startSb a.endSb, Ring.allocHead maxF a.startF a.endF with
  | some no, some fo => some { a with
      startSb := no, startF := fo
      sb := upd a.sb no ⟨false, a.startBr, a.fracBr, fo, a.startF⟩
      filt := upd a.filt fo f }
  | _, _ => none

/-- `trunk_leaf_rebundle_all_branches` (trunk.c 2456–2498). -/
def rebundle (empty : F) (a : Hdr B F) : Option (Hdr B F) :=
  match newBundle a, a.pivots with
  | some (no, a1), p :: r =>
    match (if isWhole H a1 a1.startBr then
        (headSb a1 p.filter).map (fun a => { a with pivots := { p with filter := empty } :: r }) else some a1) with
    | none => none
    | some a2 => some { a2 with
        bundle := upd a2.bundle no (a2.startSb, a2.endSb)
        startBu := no
        fracBr := a2.startBr
        pivots := a2.pivots.modifyHead (fun p => { p with startBu := no }) }
  | _, _ => none

/-- `trunk_pivot_whole_branch_count` (trunk.c 1886–1895). -/
def pivWhole (a : Hdr B F) (p : PRec F) : Nat := if isWhole H a p.startBr then Ring.sub H a.fracBr p.startBr else 0

/-- `trunk_bundle_live_for_pivot` (trunk.c 2585–2596). -/
def buLiveFor (a : Hdr B F) (p : PRec F) (no : Nat) : Bool := Ring.inRange maxBu no p.startBu a.endBu

/-- `trunk_prepare_build_filter`, `trunk_build_filters`, `trunk_replace_routing_filter`
(trunk.c 4045–4200) for the first bundle, as one step; `slices` are the fingerprints of the
compaction for each pivot. -/
def buildFilters {K : Type} (add : F → List K → Nat → F) (a : Hdr B F) (slices : List (List K)) : Hdr B F :=
  let build := fun (p : PRec F) (l : List K) =>
    if buLiveFor a p a.startBu && !l.isEmpty then { p with filter := add p.filter l (pivWhole H a p) } else p
  { a with pivots := List.zipWith build a.pivots slices }

/-! ### Lookup -/

variable {K : Type}

/-- Branches read by `trunk_filter_lookup` (trunk.c 6781–6828). -/
def filterReads (vals : F → K → List Nat) (a : Hdr B F) (f : F) (start : Nat) (k : K) : List B :=
  (vals f k).map (fun v => a.branch (Ring.add H start v))

/-- One subbundle of `trunk_bundle_lookup` (trunk.c 6831–6910). -/
def sbReads (vals : F → K → List Nat) (a : Hdr B F) (r : SbRec) (k : K) : List B :=
  if r.compacted then
    if (List.range (Ring.sub maxSb r.endF r.startF)).any
        (fun i => !(vals (a.filt (Ring.add maxF r.startF i)) k).isEmpty) then [a.branch r.startBr] else []
  else filterReads H vals a (a.filt (Ring.add maxF r.startF 0)) r.startBr k

/-- `trunk_bundle_lookup` (trunk.c 6883–6910). -/
def bundleReads (vals : F → K → List Nat) (a : Hdr B F) (bu : Nat × Nat) (k : K) : List B :=
  (Ring.newestFirst maxSb bu.2 (Ring.sub maxSb bu.2 bu.1)).flatMap (fun no => sbReads H vals a (a.sb no) k)

/-- `trunk_pivot_lookup` (trunk.c 6913–6937): the branches read, in order, if no definitive
message stops it. -/
def pivotReads (vals : F → K → List Nat) (a : Hdr B F) (p : PRec F) (k : K) : List B :=
  (Ring.newestFirst maxBu a.endBu (pivBundles a p)).flatMap (fun no => bundleReads H vals a (a.bundle no) k) ++
    filterReads H vals a p.filter p.startBr k

end Splinter.Trunk.NodeArr
