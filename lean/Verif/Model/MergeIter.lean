import Mathlib.Order.Defs.LinearOrder
import Verif.Model.Message
/-!
# The merge iterator (src/merge.c, src/merge.h)

Function-by-function model.  Keys are a linear order `K` (keys modulo
`data_key_compare(..) == 0`).  Undefined behaviour of the C code (reading a NULL
key, indexing past the array, calling a callback with a NULL message) is the
error `Err.ub`; a failed merge callback is `Err.mergeFailed`.
-/
namespace Splinter.Merge

open Splinter

/-- `ordered_iterator` (src/merge.h:19-25) together with its input iterator.
The input (a btree iterator, src/btree.c:2453-2540) is its list of items and a
position: `0` = before the first item, `i + 1` = at item `i`, `length + 1` = past
the last. -/
structure OItor (K V : Type) where
  seq : Nat
  items : List (K × Msg V)
  pos : Nat
  currKey : Option K
  currData : Option (Msg V)
  nextEq : Bool
deriving DecidableEq, Repr

inductive Err where
  | mergeFailed | ub | fuel
deriving DecidableEq, Repr

variable {K V : Type}

namespace OItor

/-- `iterator_can_prev` of the input (src/btree.c:2492-2499): false before the
first item and on an empty range. -/
def canPrev (o : OItor K V) : Bool := 0 < o.pos && !o.items.isEmpty

/-- `iterator_can_next` of the input (src/btree.c:2501-2507). -/
def canNext (o : OItor K V) : Bool := o.pos ≤ o.items.length && !o.items.isEmpty

/-- `iterator_can_curr` (src/iterator.h:63-67). -/
def canCurr (o : OItor K V) : Bool := o.canNext && o.canPrev

/-- `iterator_curr` (src/btree.c:2509-2538). -/
def curr (o : OItor K V) : Option (K × Msg V) :=
  if o.pos = 0 then none else o.items[o.pos - 1]?

/-- `set_curr_ordered_iterator` (src/merge.c:125-130). -/
def setCurr (o : OItor K V) : OItor K V :=
  { o with currKey := o.curr.map (·.1), currData := o.curr.map (·.2) }

/-- `iterator_next` / `iterator_prev` on the input. -/
def step (fwd : Bool) (o : OItor K V) : OItor K V :=
  { o with pos := if fwd then o.pos + 1 else o.pos - 1 }

end OItor

/-- `merge_iterator` (src/merge.h:58-88).  `num_trees` is `arr.length`; the
padding slots at index -1 are not represented.  `accBuf` is omitted: the merge
buffer is the accumulator argument of `resolveLoop`. -/
structure MIter (K V : Type) where
  cfg : DataCfg K V
  mergeMessages : Bool
  finalizeUpdates : Bool
  emitDeletes : Bool
  canPrev : Bool
  canNext : Bool
  numRemaining : Nat
  arr : List (OItor K V)
  currKey : Option K
  currData : Option (Msg V)
  forwards : Bool
  discarded : Nat

variable [LinearOrder K]

/-- `data_key_compare` with the sign flipped when going backwards
(src/merge.c:58-59). -/
def dcmp (fwd : Bool) (x y : K) : Ordering :=
  if x = y then .eq else if (if fwd then x < y else y < x) then .lt else .gt

/-- `bsearch_comp` (src/merge.c:51-69): compare keys, then `two.seq - one.seq`.
Returns the comparison and `keys_equal`; `none` if a key is NULL. -/
def bsearchComp (fwd : Bool) (one two : OItor K V) : Option (Ordering × Bool) :=
  match one.currKey, two.currKey with
  | some x, some y =>
    match dcmp fwd x y with
    | .eq => some (compare two.seq one.seq, true)
    | c => some (c, false)
  | _, _ => none

/-- The loop of `bsearch_insert` (src/merge.c:105-118).  State: `base`, `lim`, the
last probed `p`, whether the last comparison was negative, and the two flags. -/
def bsearchLoop (fwd : Bool) (key : OItor K V) (arr : List (OItor K V))
    (base lim p : Nat) (neg prevEq nextEq : Bool) : Option (Nat × Bool × Bool × Bool) :=
  if lim = 0 then some (p, neg, prevEq, nextEq)
  else
    let p := base + lim / 2
    match arr[p]? with
    | none => none
    | some e =>
      match bsearchComp fwd key e with
      | none => none
      | some (c, keq) =>
        if c = .gt then
          bsearchLoop fwd key arr (p + 1) ((lim - 1) / 2) p false (prevEq || keq) nextEq
        else
          bsearchLoop fwd key arr base (lim / 2) p (c = .lt) prevEq
            (nextEq || (decide (c = .lt) && keq))
termination_by lim
decreasing_by all_goals omega

/-- `bsearch_insert` (src/merge.c:89-123) followed by the caller's `1 +` (line
206): the index in the full array at which the key belongs. -/
def bsearchInsert (fwd : Bool) (key : OItor K V) (arr : List (OItor K V)) :
    Option (Nat × Bool × Bool) :=
  match bsearchLoop fwd key arr 0 arr.length 0 false false false with
  | none => none
  | some (p, neg, prevEq, nextEq) => some (p + 1 - (if neg then 1 else 0), prevEq, nextEq)

/-- `arr[i]->next_key_equal = b` (src/merge.c:236-237). -/
def setFlag (arr : List (OItor K V)) (i : Nat) (b : Bool) : List (OItor K V) :=
  arr.modify i (fun o => { o with nextEq := b })

/-- `advance_and_resort_min_ritor` (src/merge.c:167-243). -/
def advanceResort (m : MIter K V) : Except Err (MIter K V) :=
  match m.arr with
  | [] => .error .ub
  | o :: rest =>
    if m.numRemaining = 0 then .error .ub else
    let o := ({ o with nextEq := false, currKey := none, currData := none }).step m.forwards
    if !o.canCurr then
      -- exhausted: shift the live ones down, park it after them (191-200)
      .ok { m with
        numRemaining := m.numRemaining - 1
        arr := rest.take (m.numRemaining - 1) ++ o :: rest.drop (m.numRemaining - 1) }
    else
      let o := o.setCurr
      if m.numRemaining = 1 then .ok { m with arr := o :: rest }
      else
        match bsearchInsert m.forwards o (rest.take (m.numRemaining - 1)) with
        | none => .error .ub
        | some (index, prevEq, nextEq) =>
          let arr := rest.take index ++ o :: rest.drop index
          let arr := if index = 0 then arr else setFlag arr (index - 1) prevEq
          .ok { m with arr := setFlag arr index nextEq }

/-- The `do … while` of `merge_resolve_equal_keys` (src/merge.c:273-306); `acc` is
the merge buffer. -/
def resolveLoop : Nat → MIter K V → Msg V → Except Err (MIter K V × Msg V)
  | 0, _, _ => .error .fuel
  | fuel + 1, m, acc =>
    match m.arr, m.currKey with
    | _ :: o1 :: _, some k =>
      let merged : Except Err (Msg V) :=
        match o1.currData with
        | some d =>
          match dataMergeTuples m.cfg k d acc with
          | some a => .ok a
          | none => .error .mergeFailed
        | none => if acc.definitive then .ok acc else .error .ub
      match merged with
      | .error e => .error e
      | .ok acc =>
        match advanceResort { m with currKey := o1.currKey } with
        | .error e => .error e
        | .ok m =>
          match m.arr with
          | [] => .error .ub
          | o :: _ => if o.nextEq then resolveLoop fuel m acc else .ok (m, acc)
    | _, _ => .error .ub

/-- `merge_resolve_equal_keys` (src/merge.c:249-315).  The fuel is the number of
inputs, an upper bound on the number of copies. -/
def resolveEqualKeys (m : MIter K V) : Except Err (MIter K V) :=
  match m.currData with
  | none => .error .ub
  | some d =>
    match resolveLoop m.arr.length m d with
    | .error e => .error e
    | .ok (m, acc) => .ok { m with currData := some acc }

/-- `merge_finalize_updates_and_discard_deletes` (src/merge.c:325-357). -/
def finalizeDiscard (m : MIter K V) : Except Err (MIter K V × Bool) :=
  match m.currData, m.currKey with
  | some d, some k =>
    let fin : Option (Msg V) :=
      if d.type ≠ .insert && m.finalizeUpdates then dataMergeTuplesFinal m.cfg k d else some d
    match fin with
    | none => .error .mergeFailed
    | some d =>
      if d.type = .delete && !m.emitDeletes then
        .ok ({ m with currData := some d, discarded := m.discarded + 1 }, true)
      else .ok ({ m with currData := some d }, false)
  | _, _ => .error .ub

/-- `advance_one_loop` (src/merge.c:359-405); the Boolean is `*retry`. -/
def advanceOneLoop (m : MIter K V) : Except Err (MIter K V × Bool) :=
  if m.numRemaining = 0 then
    .ok (if m.forwards then { m with canNext := false } else { m with canPrev := false }, false)
  else
    match m.arr with
    | [] => .error .ub
    | o :: _ =>
      let m := { m with currKey := o.currKey, currData := o.currData }
      if !m.mergeMessages then .ok (m, false)
      else
        match (if o.nextEq then resolveEqualKeys m else .ok m) with
        | .error e => .error e
        | .ok m => finalizeDiscard m

/-- `merge_advance_helper` (src/merge.c:696-717). -/
def advanceHelper : Nat → MIter K V → Except Err (MIter K V)
  | 0, _ => .error .fuel
  | fuel + 1, m =>
    match advanceResort { m with currKey := none, currData := none } with
    | .error e => .error e
    | .ok m =>
      match advanceOneLoop m with
      | .error e => .error e
      | .ok (m, retry) => if retry then advanceHelper fuel m else .ok m

/-- Enough fuel for any retry loop: every iteration moves one input by one
position. -/
def totalItems (m : MIter K V) : Nat := (m.arr.map (fun o => o.items.length + 2)).sum

/-- The `while` loop of `setup_ordered_iterators` that moves dead inputs behind the
live ones (src/merge.c:426-449).  Also returns the two OR-ed capabilities. -/
def moveDead (i n : Nat) (arr : List (OItor K V)) (cp cn : Bool) :
    Nat × List (OItor K V) × Bool × Bool :=
  if i < n then
    match arr[i]? with
    | none => (n, arr, cp, cn)
    | some o =>
      let cp := cp || o.canPrev
      let cn := cn || o.canNext
      if !o.canCurr then
        match arr[n - 1]? with
        | none => (n, arr, cp, cn)
        | some t => moveDead i (n - 1) ((arr.set (n - 1) o).set i t) cp cn
      else moveDead (i + 1) n (arr.set i o.setCurr) cp cn
  else (n, arr, cp, cn)
termination_by n - i
decreasing_by all_goals omega

/-- `merge_comp` as a Boolean `≤` for sorting (src/merge.c:76-87). -/
def mergeLe (fwd : Bool) (a b : OItor K V) : Bool :=
  match bsearchComp fwd a b with
  | some (c, _) => c ≠ .gt
  | none => true

/-- One insertion of the sort below. -/
def insertBy (le : OItor K V → OItor K V → Bool) (a : OItor K V) :
    List (OItor K V) → List (OItor K V)
  | [] => [a]
  | b :: l => if le a b then a :: b :: l else b :: insertBy le a l

/-- `platform_sort_slow(.., merge_comp, ..)` (src/merge.c:452-457), i.e. `qsort_r`.
Simplified: an insertion sort; any correct sort gives the same list because the
comparison is a strict total order on inputs with distinct sequence numbers. -/
def sortBy (le : OItor K V → OItor K V → Bool) : List (OItor K V) → List (OItor K V)
  | [] => []
  | a :: l => insertBy le a (sortBy le l)

/-- "Generate initial value for next_key_equal bits" (src/merge.c:461-473); the
flag of the last live input is left as it was. -/
def initFlags : List (OItor K V) → List (OItor K V)
  | a :: b :: r => { a with nextEq := decide (a.currKey = b.currKey) } :: initFlags (b :: r)
  | l => l

/-- `setup_ordered_iterators` (src/merge.c:416-505).  Simplified: on
error the C code also frees the iterator. -/
def setup (m : MIter K V) : Except Err (MIter K V) :=
  let (n, arr, cp, cn) := moveDead 0 m.arr.length m.arr false false
  let sorted := sortBy (mergeLe m.forwards) (arr.take n)
  let arr := initFlags sorted ++ arr.drop n
  let m := { m with canPrev := cp, canNext := cn, numRemaining := n, arr := arr }
  let fuel := totalItems m
  match advanceOneLoop m with
  | .error e => .error e
  | .ok (m, retry) => if retry then advanceHelper fuel m else .ok m

/-- Merge modes (src/merge.h:28-55). -/
inductive Mode where
  | raw | intermediate | full
deriving DecidableEq, Repr

/-- `merge_iterator_create` (src/merge.c:520-590): `inputs` oldest first, as
(items, starting position).  Simplified: allocation failures and the check
`num_trees < MAX_MERGE_ARITY` are left out. -/
def create (cfg : DataCfg K V) (mode : Mode) (inputs : List (List (K × Msg V) × Nat)) :
    Except Err (MIter K V) :=
  setup
    { cfg := cfg
      mergeMessages := mode ≠ .raw
      finalizeUpdates := mode = .full
      emitDeletes := mode ≠ .full
      canPrev := false, canNext := false, numRemaining := 0
      arr := inputs.mapIdx fun i x =>
        { seq := i, items := x.1, pos := x.2, currKey := none, currData := none, nextEq := false }
      currKey := none, currData := none, forwards := true, discarded := 0 }

/-- `merge_iterator_set_direction` (src/merge.c:619-645). -/
def setDirection (m : MIter K V) (fwd : Bool) : Except Err (MIter K V) :=
  setup { m with
    forwards := fwd
    arr := m.arr.map fun o =>
      if fwd then (if o.canNext then o.step true else o)
      else (if o.canPrev then o.step false else o) }

/-- `merge_next` (src/merge.c:729-738). -/
def next (m : MIter K V) : Except Err (MIter K V) :=
  if m.forwards then advanceHelper (totalItems m) m else setDirection m true

/-- `merge_prev` (src/merge.c:750-759). -/
def prev (m : MIter K V) : Except Err (MIter K V) :=
  if m.forwards then setDirection m false else advanceHelper (totalItems m) m

/-- `iterator_can_curr` on the merge iterator. -/
def MIter.canCurr (m : MIter K V) : Bool := m.canNext && m.canPrev

/-- `merge_curr` (src/merge.c:687-694). -/
def MIter.cur (m : MIter K V) : Option (K × Msg V) :=
  match m.currKey, m.currData with
  | some k, some d => some (k, d)
  | _, _ => none

end Splinter.Merge
