/-
Relieving a full node of the trunk.

A node that is full, by the number of its logical branches or by the bytes of its
pivots, flushes pivots to its children until it is not full any more
(trunk.c:3715-3717 for the root, 4735-4739 for a child).

Simplified: a logical branch is a whole branch or a bundle (trunk.c:1007-1017);
they are numbered upward without wrapping round, and what happens in the child is
only how many new pivots its splitting adds to the node.
-/

namespace Splinter.Relieve

/-- The counts of a pivot: tuples, bytes, and its first live branch
(`trunk_pivot_data`, trunk.c:566-580). -/
structure Pivot where
  tuples : Nat
  bytes : Nat
  start : Nat
  deriving DecidableEq, Repr

/-- A node: its pivots, its first live branch and the end of its branches. -/
structure Node where
  pivots : List Pivot
  start : Nat
  stop : Nat
  deriving DecidableEq, Repr

/-- `max_branches_per_node` and `max_kv_bytes_per_node`. -/
structure Cfg where
  maxBranches : Nat
  maxBytes : Nat

/-- The bytes of all pivots (trunk.c:1030-1032). -/
def bytes (l : List Pivot) : Nat := (l.map Pivot.bytes).sum

/-- `trunk_node_is_full` (trunk.c:1023-1034). -/
def isFull (c : Cfg) (n : Node) : Bool :=
  if c.maxBranches < n.stop - n.start then true else decide (c.maxBytes < bytes n.pivots)

/-- `trunk_pivot_needs_flush` (trunk.c:1971-1978). -/
def needsFlush (c : Cfg) (n : Node) (p : Pivot) : Bool :=
  decide (c.maxBranches < n.stop - p.start)

/-- `trunk_reset_start_branch` (trunk.c:2052-2069): the first branch live for any
pivot. -/
def firstLive (stop : Nat) : List Pivot → Nat
  | [] => stop
  | p :: l => min p.start (firstLive stop l)

/-- `trunk_pivot_clear` (trunk.c:2101-2118). -/
def clearPivot (n : Node) (i : Nat) (p : Pivot) : Node :=
  let l := n.pivots.set i { tuples := 0, bytes := 0, start := n.stop }
  { n with pivots := l, start := if p.start = n.start then firstLive n.stop l else n.start }

/-- `trunk_flush` of pivot `i` as the node sees it (trunk.c:4656-4760): the pivot is
cleared, and `k` pivots are added after it if the child splits; they take the first
branch of the pivot and have no tuples (`trunk_init_pivot_data_from_pred`,
trunk.c:1538-1560). `none`: the assertion "Flush into empty bundle" fails
(trunk.c:4591-4592). -/
def flush (k i : Nat) (n : Node) : Option Node :=
  match n.pivots[i]? with
  | none => none
  | some p =>
    if p.start = n.stop then none
    else
      let m := clearPivot n i p
      some { m with pivots := m.pivots.take (i + 1) ++
        (List.replicate k { tuples := 0, bytes := 0, start := n.stop } ++ m.pivots.drop (i + 1)) }

/-- The state of the loop: the node, the fullest pivot so far and the number of
flushes. -/
structure Loop where
  node : Node
  fullest : Option Nat
  count : Nat
  deriving DecidableEq, Repr

/-- The tuples of pivot `i`. -/
def tuplesAt (n : Node) (i : Nat) : Nat := (n.pivots[i]?.map Pivot.tuples).getD 0

/-- The test of the `else if` (trunk.c:4801-4806). -/
def fuller (n : Node) (i : Nat) : Option Nat → Option Nat
  | none => some i
  | some j => if tuplesAt n j < tuplesAt n i then some i else some j

/-- The loop of `trunk_flush_fullest` (trunk.c:4784-4807) from pivot `i`. `sp` says
how many pivots each flush adds. The first argument bounds the number of rounds;
`none`: an assertion fails or the bound is reached. -/
def scan (c : Cfg) (sp : Nat → Nat) : Nat → Nat → Loop → Option Loop
  | 0, _, _ => none
  | fuel + 1, i, s =>
    match s.node.pivots[i]? with
    | none => some s
    | some p =>
      if needsFlush c s.node p then
        match flush (sp s.count) i s.node with
        | none => none
        | some n => scan c sp fuel (i + 1) { s with node := n, count := s.count + 1 }
      else scan c sp fuel (i + 1) { s with fullest := fuller s.node i s.fullest }

/-- `trunk_flush_fullest` (trunk.c:4769-4822). -/
def flushFullest (c : Cfg) (sp : Nat → Nat) (fuel : Nat) (n : Node) (count : Nat) :
    Option (Node × Nat) :=
  match scan c sp fuel 0 { node := n, fullest := none, count := count } with
  | none => none
  | some s =>
    if isFull c s.node then
      match s.fullest with
      | none => none
      | some i =>
        match flush (sp s.count) i s.node with
        | none => none
        | some n => some (n, s.count + 1)
    else some (s.node, s.count)

/-- The loop `while (trunk_node_is_full(…)) trunk_flush_fullest(…)`
(trunk.c:3715-3717, 4735-4739); the first argument bounds its rounds, the second
those of the loop inside. -/
def relieve (c : Cfg) (sp : Nat → Nat) : Nat → Nat → Node → Nat → Option (Node × Nat)
  | 0, _, _, _ => none
  | r + 1, fuel, n, count =>
    if isFull c n then
      match flushFullest c sp fuel n count with
      | none => none
      | some (n, count) => relieve c sp r fuel n count
    else some (n, count)

end Splinter.Relieve
