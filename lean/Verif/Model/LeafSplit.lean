import Verif.Model.Page
/-!
# Splitting and defragmenting a btree leaf

src/btree.c:565-934 and 1330-1497. Locks and page allocation are not part of this
model: the right page is any memory.
-/
namespace Splinter.Page

/-- `old_entry_state` (btree_private.h:69-73). -/
inductive Old where
  | didNotExist | stillExists | removed
deriving DecidableEq, Repr

/-- `leaf_incorporate_spec` (btree_private.h:66-80): position, state of the old entry, and the
tuple to store (`tuple_key` and `spec_message`, btree.c:565-573). -/
structure Spec where
  idx : Nat
  old : Old
  tup : Tuple
deriving DecidableEq, Repr

/-- `hdr->generation++` (8 bytes at 24). -/
def bumpGen (m : Mem) : Mem := wrN m 24 8 (rdN m 24 8 + 1)

/-- `btree_can_perform_leaf_incorporate_spec` (btree.c:619-640). -/
def canPerform (m : Mem) (s : Spec) : Bool :=
  match s.old with
  | .stillExists => canSetLeaf m s.idx s.tup
  | _ => canSetLeaf m (numEntries m) s.tup

/-- `btree_try_perform_leaf_incorporate_spec` (btree.c:642-681). -/
def tryPerform (m : Mem) (s : Spec) : Option (Mem × Bool) :=
  let r := match s.old with
    | .stillExists => setLeaf m s.idx s.tup
    | _ => insertLeaf m s.idx s.tup
  match r with
  | some (m', true) => some (bumpGen m', true)
  | r => r

/-- The loop of `btree_defragment_leaf` (btree.c:702-717) and of
`btree_split_leaf_build_right_node` (btree.c:895-908): copy entries `i … n-1` of `src`, except the
one that is being replaced. Results of `btree_set_leaf_entry` other than a failed assertion are
ignored, as in the code. -/
def copyFrom (src : Mem) (idx n i dst : Nat) (old : Old) (r : Mem) : Option (Mem × Old) :=
  if i < n then
    if old = .stillExists ∧ i = idx then copyFrom src idx n (i + 1) dst .removed r
    else
      match setLeaf r dst (entry leafFmt src i) with
      | none => none
      | some (r', _) => copyFrom src idx n (i + 1) (dst + 1) old r'
  else some (r, old)
termination_by n - i

/-- `btree_defragment_leaf` (btree.c:693-718) with a spec. -/
def defragment (ps : Nat) (m : Mem) (s : Spec) : Option (Mem × Spec) :=
  match copyFrom m s.idx (numEntries m) 0 0 s.old (reset ps m) with
  | none => none
  | some (m', old) => some (m', { s with old := old })

/-- The loop of `btree_truncate_leaf` (btree.c:727-730). -/
def minOffset (m : Mem) : Nat → Nat → Nat
  | 0, nx => nx
  | n + 1, nx =>
    let nx := minOffset m n nx
    if offset m n < nx then offset m n else nx

/-- `btree_truncate_leaf` (btree.c:720-734). -/
def truncate (ps : Nat) (m : Mem) (n : Nat) : Mem :=
  let nx := minOffset m n ps
  wrN (wrN m 35 2 n) 33 2 nx

/-- `sizeof_leaf_entry` of entry `i`. -/
def entrySize (m : Mem) (i : Nat) : Nat := leafFmt.size m (offset m i)

/-- Sum of the sizes of entries `0 … n-1` without the one being replaced
(btree.c:815-820 and 1463-1468). -/
def liveBytes (m : Mem) (s : Spec) : Nat → Nat
  | 0 => 0
  | n + 1 => liveBytes m s n + (if n = s.idx ∧ s.old = .stillExists then 0 else entrySize m n)

/-- `most_of_entry_is_on_left_side` (btree.c:749-756). -/
def mostOnLeft (total left size : Nat) : Bool := decide (left + 2 + size < (total + 2 + size) / 2)

/-- `plan_move_more_entries_to_left` (btree.c:773-791): final `left_bytes` and `split_idx`. -/
def planMore (m : Mem) (mx total left split : Nat) : Nat × Nat :=
  if split < mx ∧ mostOnLeft total left (entrySize m split) = true then
    planMore m mx total (left + 2 + entrySize m split) (split + 1)
  else (left, split)
termination_by mx - split
decreasing_by omega

/-- `btree_build_leaf_splitting_plan` (btree.c:801-862): `split_idx` and `insertion_goes_left`. -/
def buildPlan (m : Mem) (s : Spec) : Nat × Bool :=
  let n := numEntries m
  let size := leafFmt.cap s.tup
  let newN := n + (if s.old = .stillExists then 0 else 1)
  let total := size + liveBytes m s n + newN * 2
  let (left, split) := planMore m s.idx total 0 0
  if split = s.idx ∧ mostOnLeft total left size = true then
    let left := left + 2 + size
    let split := if s.old = .stillExists then split + 1 else split
    let (_, split) := planMore m n total left split
    (split, true)
  else (split, false)

/-- `btree_splitting_pivot` (btree.c:864-878). -/
def splittingPivot (m : Mem) (s : Spec) (plan : Nat × Bool) : Bytes :=
  if plan.1 = s.idx ∧ s.old ≠ .stillExists ∧ plan.2 = false then s.tup.key
  else (entry leafFmt m plan.1).key

/-- `btree_split_leaf_build_right_node` (btree.c:880-916). -/
def buildRight (ps : Nat) (m : Mem) (leftAddr : Nat) (s : Spec) (plan : Nat × Bool) (r0 : Mem) : Option (Mem × Spec) :=
  let r := wr r0 0 (rd m 0 37)
  let r := bumpGen r
  let r := wrN r 0 8 leftAddr
  let r := reset ps r
  match copyFrom m s.idx (numEntries m) plan.1 0 s.old r with
  | none => none
  | some (r, old) =>
    if plan.2 then some (r, { s with old := old })
    else
      let s := { s with old := old, idx := s.idx - plan.1 }
      match tryPerform r s with
      | some (r, true) => some (r, s)
      | _ => none

/-- `btree_split_leaf_cleanup_left_node` (btree.c:918-934). -/
def cleanupLeft (ps : Nat) (m : Mem) (s : Spec) (plan : Nat × Bool) (rightAddr : Nat) : Option (Mem × Spec) :=
  let m := wrN m 8 8 rightAddr
  let m := truncate ps m plan.1
  let m := bumpGen m
  if plan.2 = true ∧ canPerform m s = false then defragment ps m s else some (m, s)

/-- The page work of `btree_split_child_leaf` (btree.c:1330-1436): left page, right page and the
key put into the parent. `none` is a failed assertion. -/
def splitLeaf (ps : Nat) (m r0 : Mem) (s : Spec) (leftAddr rightAddr : Nat) : Option (Mem × Mem × Bytes) :=
  let plan := buildPlan m s
  let pivot := splittingPivot m s plan
  match buildRight ps m leftAddr s plan r0 with
  | none => none
  | some (r, s) =>
    match cleanupLeft ps m s plan rightAddr with
    | none => none
    | some (l, s) =>
      if plan.2 then
        match tryPerform l s with
        | some (l, true) => some (l, r, pivot)
        | _ => none
      else some (l, r, pivot)

/-- Result of `btree_defragment_or_split_child_leaf`. -/
inductive LeafResult where
  | one (m : Mem)
  | two (l r : Mem) (pivot : Bytes)

/-- `total_space_required` (btree.c:1469-1473). The conditional expression there reads
`(nentries + old_entry_state == ENTRY_STILL_EXISTS ? 0 : 1)`, with `ENTRY_STILL_EXISTS = 1`;
`sizeof(index_entry)` is 23. -/
def spaceRequired (m : Mem) (s : Spec) : Nat :=
  let state := match s.old with
    | .didNotExist => 0
    | .stillExists => 1
    | .removed => 2
  liveBytes m s (numEntries m) + leafFmt.cap s.tup + (if numEntries m + state = 1 then 0 else 1) * 23

/-- `btree_defragment_or_split_child_leaf` (btree.c:1447-1497). -/
def defragmentOrSplit (ps : Nat) (m r0 : Mem) (s : Spec) (leftAddr rightAddr : Nat) : Option LeafResult :=
  if spaceRequired m s < ps / 2 then
    match defragment ps m s with
    | none => none
    | some (m, s) =>
      match tryPerform m s with
      | some (m, true) => some (.one m)
      | _ => none
  else
    match splitLeaf ps m r0 s leftAddr rightAddr with
    | none => none
    | some (l, r, p) => some (.two l r p)

end Splinter.Page
