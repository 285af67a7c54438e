/-!
# Reclaiming space: pivots and the queue

src/trunk.c: the places where pivots of trunk nodes enter and leave the queue of pivots whose space may be reclaimed, and `trunk_reclaim_space`, which works on the pivot with the highest priority. The queue itself is
C29 (`Model/Srq.lean`); here it is a map from indexes to entries, and any entry may be the one of highest priority.

Simplified: a node is its list of pivots, a pivot has its generation and its index in the queue. Generations are numbered for the whole tree and not per node. Pages of nodes that have left the tree are
freed at any time. Reclamation of a leaf leaves the generation. A pivot of the right node of a split gets back the index that its entry had before (one of those the queue may give).
-/
namespace Splinter.Reclaim

/-- `trunk_pivot_data` (trunk.c 565-580): `generation`, and `srq_idx` (`none` is -1). -/
structure Pivot where
  gen : Nat
  idx : Option Nat
deriving DecidableEq, Repr

/-- `srq_data` without the priority. -/
structure Ent where
  addr : Nat
  gen : Nat
deriving DecidableEq, Repr

/-- `page a = none`: not a page of a trunk node. `live`: in the tree of the current root. `hand`: the entry that `trunk_reclaim_space` has taken from the queue and not yet looked at. -/
structure State where
  page : Nat → Option (List Pivot)
  live : Nat → Bool
  queue : Nat → Option Ent
  next : Nat
  gen : Nat
  hand : Option Ent

def upd {α : Type} (f : Nat → α) (k : Nat) (v : α) : Nat → α := fun j => if j = k then v else f j

inductive Op where
  /-- `trunk_node_copy` (1083-1090) of a node of the tree: the copy takes its place. -/
  | copy (a : Nat)
  /-- A page of an older tree is freed. -/
  | free (a : Nat)
  /-- `trunk_replace_routing_filter` (4200-4211): pivot `k` of node `a` is worth reclaiming; the queue gives index `i`. -/
  | enqueue (a k i : Nat)
  /-- `trunk_flush` (4655-4740) of pivot `k`, not for reclamation; `split`: the child is split, which adds a pivot. -/
  | flush (a k : Nat) (split : Bool)
  /-- `trunk_leaf_rebundle_all_branches` (2484-2493) of a leaf, not for reclamation. -/
  | rebundle (a : Nat)
  /-- `trunk_split_index` (5552, 5572-5585): pivots from `n` on go to a new node. -/
  | splitIndex (a n : Nat)
  /-- `trunk_split_root` (6084-6106), up to the split of the child. -/
  | splitRoot (a : Nat)
  /-- `srq_extract_max` in `trunk_reclaim_space` (6664). -/
  | extract (i : Nat)
  /-- The rest of `trunk_reclaim_space` (6668-6702), for a node that has room. -/
  | reclaim
  /-- Unmount, and mount with `srq_init` (7781). -/
  | reopen
deriving DecidableEq, Repr

/-- `fault`: a failed assertion, or a page read as a trunk node that is none. `skip`: the operation does not come up. -/
inductive Res where
  | ok (s : State)
  | fault
  | skip

def setPivot (l : List Pivot) (k : Nat) (p : Pivot) : List Pivot := l.set k p

/-- `srq_delete` (srq.h) of the index of a pivot, if it has one. `none`: the assertion that the index is in use fails. -/
def dequeue (q : Nat → Option Ent) : Option Nat → Option (Nat → Option Ent)
  | none => some q
  | some i => if (q i).isSome then some (upd q i none) else none

/-- `trunk_init_pivot_data_from_pred` (1538-1560): a pivot after pivot `k`, which is `p`. `none`: the assertion of 1557 fails. -/
def addPivot (gen : Nat) (l : List Pivot) (k : Nat) (p : Pivot) : Option (List Pivot) :=
  if p.idx = none then some ((setPivot l k { p with gen := gen }).insertIdx (k + 1) p) else none

/-- The loop of 5572-5585 over the pivots of the right node at `a`. -/
def requeue (a : Nat) : List Pivot → (Nat → Option Ent) → Option (Nat → Option Ent)
  | [], q => some q
  | p :: l, q => match p.idx with
    | none => requeue a l q
    | some i => match q i with
      | none => none
      | some e => requeue a l (upd q i (some { e with addr := a }))

def step (s : State) : Op → Res
  | .copy a => match s.page a with
    | some l => if s.live a then .ok { s with page := upd s.page s.next (some l), live := upd (upd s.live a false) s.next true, next := s.next + 1 } else .skip
    | none => .skip
  | .free a => if s.live a then .skip else .ok { s with page := upd s.page a none }
  | .enqueue a k i => match s.page a with
    | some l => match l[k]? with
      | some p =>
        if s.live a ∧ p.idx = none ∧ s.queue i = none then
          .ok { s with page := upd s.page a (some (setPivot l k { p with idx := some i })), queue := upd s.queue i (some ⟨a, p.gen⟩) }
        else .skip
      | none => .skip
    | none => .skip
  | .flush a k split => match s.page a with
    | some l => match l[k]? with
      | some p =>
        if s.live a then match dequeue s.queue p.idx with
          | some q =>
            let p' := { p with idx := none }
            if split then match addPivot s.gen l k p' with
              | some l' => .ok { s with page := upd s.page a (some l'), queue := q, gen := s.gen + 1 }
              | none => .fault
            else .ok { s with page := upd s.page a (some (setPivot l k p')), queue := q }
          | none => .fault
        else .skip
      | none => .skip
    | none => .skip
  | .rebundle a => match s.page a with
    | some [p] =>
      if s.live a then match dequeue s.queue p.idx with
        | some q => .ok { s with page := upd s.page a (some [⟨s.gen, none⟩]), queue := q, gen := s.gen + 1 }
        | none => .fault
      else .skip
    | _ => .skip
  | .splitIndex a n => match s.page a with
    | some l =>
      if s.live a then match requeue s.next (l.drop n) s.queue with
        | some q => .ok { s with page := upd (upd s.page a (some (l.take n))) s.next (some (l.drop n)), live := upd s.live s.next true, queue := q, next := s.next + 1 }
        | none => .fault
      else .skip
    | none => .skip
  | .splitRoot a => match s.page a with
    | some l =>
      if s.live a then .ok { s with page := upd (upd s.page a (some [⟨s.gen, none⟩])) s.next (some l), live := upd s.live s.next true, next := s.next + 1, gen := s.gen + 1 } else .skip
    | none => .skip
  | .extract i => match s.queue i, s.hand with
    | some e, none => .ok { s with queue := upd s.queue i none, hand := some e }
    | _, _ => .skip
  | .reclaim => match s.hand with
    | none => .skip
    | some e => match s.page e.addr with
      | none => .fault
      | some l => match l.findIdx? (fun p => p.gen = e.gen) with
        | none => .ok { s with hand := none }
        | some k => .ok { s with hand := none, page := upd s.page e.addr (some (setPivot l k ⟨e.gen, none⟩)) }
  | .reopen => .ok { s with queue := fun _ => none, hand := none }

/-- A new tree: one leaf at address 0. -/
def init : State := ⟨fun a => if a = 0 then some [⟨0, none⟩] else none, fun a => a = 0, fun _ => none, 1, 1, none⟩

/-- States after some operations, all of which went well. -/
def run : State → List Op → Res
  | s, [] => .ok s
  | s, o :: l => match step s o with
    | .ok s' => run s' l
    | .fault => .fault
    | .skip => .skip

end Splinter.Reclaim
