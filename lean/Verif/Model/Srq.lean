/-!
# The space-reclamation queue

src/srq.h. A binary max-heap in an array with a second array from element numbers to heap positions.
`M` is `SRQ_MAX_ENTRIES` (8192). Every operation runs under the queue's mutex, so operations are
atomic here. Index entries are `none` for `SRQ_INDEX_AVAILABLE` (-1). `srq_print` returns at once and
is omitted.
-/
namespace Splinter.Srq

/-- `srq_data` (srq.h:20-25). -/
structure Data where
  addr : Nat
  gen : Nat
  prio : Nat
  idx : Nat
deriving DecidableEq

/-- `srq` (srq.h:27-33). -/
structure Queue where
  heap : Nat → Data
  index : Nat → Option Nat
  num : Nat
  hand : Nat

def upd {α : Type} (f : Nat → α) (k : Nat) (v : α) : Nat → α := fun j => if j = k then v else f j

/-- `srq_init` (srq.h:35-45). -/
def init : Queue := ⟨fun _ => ⟨0, 0, 0, 0⟩, fun _ => none, 0, 0⟩

/-- srq.h:53-72 -/
def parent (pos : Nat) : Nat := (pos - 1) / 2
def lchild (pos : Nat) : Nat := 2 * pos + 1
def rchild (pos : Nat) : Nat := 2 * pos + 2

/-- `srq_has_priority` (srq.h:77-83). -/
def hasPriority (q : Queue) (l r : Nat) : Bool := decide ((q.heap l).prio > (q.heap r).prio)

/-- `srq_update_index` (srq.h:88-94). -/
def updateIndex (q : Queue) (pos : Nat) : Queue := { q with index := upd q.index (q.heap pos).idx (some pos) }

/-- `srq_swap` (srq.h:96-106). -/
def swap (q : Queue) (l r : Nat) : Queue :=
  let q1 := { q with heap := upd (upd q.heap l (q.heap r)) r (q.heap l) }
  updateIndex (updateIndex q1 l) r

/-- `srq_move_tail_to_pos` (srq.h:108-122). -/
def moveTail (q : Queue) (pos : Nat) : Queue :=
  let q1 := { q with num := q.num - 1 }
  if q1.num ≠ 0 then updateIndex { q1 with heap := upd q.heap pos (q.heap (q.num - 1)) } pos else q1

/-- `srq_rebalance_up` (srq.h:124-134). -/
def rebalanceUp (q : Queue) (pos : Nat) : Queue :=
  if _h : pos ≠ 0 ∧ hasPriority q pos (parent pos) = true then rebalanceUp (swap q (parent pos) pos) (parent pos) else q
termination_by pos
decreasing_by unfold parent; omega

/-- The loop condition of `srq_rebalance_down` (srq.h:142-146). -/
def downGo (q : Queue) (pos : Nat) : Bool :=
  (decide (lchild pos < q.num) && hasPriority q (lchild pos) pos) ||
  (decide (rchild pos < q.num) && hasPriority q (rchild pos) pos)

/-- The child exchanged in `srq_rebalance_down` (srq.h:148-156). -/
def downChild (q : Queue) (pos : Nat) : Nat :=
  if decide (rchild pos ≥ q.num) || hasPriority q (lchild pos) (rchild pos) then lchild pos else rchild pos

theorem swap_num (q : Queue) (l r : Nat) : (swap q l r).num = q.num := rfl

theorem downChild_lt {q : Queue} {pos : Nat} (h : downGo q pos = true) : pos < downChild q pos ∧ downChild q pos < q.num := by
  unfold downGo at h
  rw [Bool.or_eq_true, Bool.and_eq_true, Bool.and_eq_true] at h
  have h1 : lchild pos < q.num := by
    rcases h with h | h <;> have := of_decide_eq_true h.1
    · exact this
    · unfold lchild; unfold rchild at this; omega
  unfold downChild
  split
  · exact ⟨by unfold lchild; omega, h1⟩
  · rename_i h2
    rw [Bool.or_eq_true, decide_eq_true_eq] at h2
    exact ⟨by unfold rchild; omega, by omega⟩

/-- `srq_rebalance_down` (srq.h:136-158). -/
def rebalanceDown (q : Queue) (pos : Nat) : Queue :=
  if _h : downGo q pos = true then rebalanceDown (swap q pos (downChild q pos)) (downChild q pos) else q
termination_by q.num - pos
decreasing_by have := downChild_lt _h; rw [swap_num]; omega

/-- `srq_get_new_index` (srq.h:160-167), at most `fuel` turns of the loop; `none` if it is still looping. -/
def newIndex (M : Nat) (index : Nat → Option Nat) (hand : Nat) : (fuel : Nat) → Option Nat
  | 0 => none
  | fuel + 1 => if (index hand).isSome then newIndex M index ((hand + 1) % M) fuel else some hand

/-- `srq_insert` (srq.h:175-190). `none`: the assertion fails, or the search for a number does not end
(within `M` turns, after which it would repeat itself). -/
def insert (M : Nat) (q : Queue) (d : Data) : Option (Queue × Nat) :=
  if q.num = M then none
  else
    match newIndex M q.index q.hand M with
    | none => none
    | some i =>
      some (rebalanceUp ⟨upd q.heap q.num { d with idx := i }, upd q.index i (some q.num), q.num + 1, i⟩ q.num, i)

/-- `srq_extract_max` (srq.h:201-218); `none` for "not found". -/
def extractMax (q : Queue) : Queue × Option Data :=
  if q.num = 0 then (q, none)
  else
    let max := q.heap 0
    (rebalanceDown (moveTail { q with index := upd q.index max.idx none } 0) 0, some max)

/-- The middle of `srq_delete` (srq.h:228-232). -/
def fixup (q : Queue) (pos : Nat) : Queue := if pos ≠ q.num then rebalanceDown (rebalanceUp q pos) pos else q

/-- `srq_delete` (srq.h:220-237); `none` if the assertion fails. -/
def delete (q : Queue) (idx : Nat) : Option (Queue × Data) :=
  match q.index idx with
  | none => none
  | some pos =>
    let q1 := fixup (moveTail q pos) pos
    some ({ q1 with index := upd q1.index idx none }, q.heap pos)

/-- `srq_update` (srq.h:239-250), including the conversion of the caller's 64-bit priority
(trunk.c:4201) to the `uint32` parameter; `none` if the assertion fails. -/
def update (q : Queue) (idx : Nat) (prio : Nat) : Option Queue :=
  match q.index idx with
  | none => none
  | some pos =>
    some (rebalanceDown (rebalanceUp { q with heap := upd q.heap pos { q.heap pos with prio := prio % 2 ^ 32 } } pos) pos)

end Splinter.Srq
