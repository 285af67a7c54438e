/-!
# The producer/consumer ring

src/pcq.h:26-123. Many producers, one consumer; every step is one atomic access. Element pointers are
abstract; `none` is `NULL`.
-/
namespace Splinter.Pcq

variable {E : Type}

/-- `pcq` (pcq.h:15-20), with the threads in the middle of an operation. `inp` and `out` record the
elements in the order in which producers obtained their place and the consumer removed them. -/
structure State (E : Type) where
  tail : Nat
  head : Nat
  slot : Nat → Option E
  /-- producers that have a place (line 77) and have not stored yet (line 90) -/
  pend : List (Nat × E)
  /-- the consumer has taken an element (line 118) and not advanced `head` yet (line 120) -/
  taking : Bool
  inp : List E
  out : List E

/-- `pcq_alloc` (pcq.h:26-37): everything zero. -/
def init : State E := ⟨0, 0, fun _ => none, [], false, [], []⟩

/-- `pcq_count` (pcq.h:44-48), a `uint32` difference. -/
def count (s : State E) : Nat := (s.tail + 2 ^ 32 - s.head) % 2 ^ 32

/-- `pcq_is_empty` (pcq.h:51-55). -/
def isEmpty (s : State E) : Bool := s.head == s.tail

/-- `pcq_is_full` (pcq.h:58-62). -/
def isFull (n : Nat) (s : State E) : Bool := count s == n

inductive Act (E : Type) where
  /-- `pcq_enqueue`, the fetch-and-add (pcq.h:77) -/
  | reserve (e : E)
  /-- `pcq_enqueue` of the `i`-th pending producer, the store (pcq.h:84-90) -/
  | store (i : Nat)
  /-- `pcq_dequeue` up to clearing the slot (pcq.h:102-118) -/
  | take
  /-- `pcq_dequeue`, the increment (pcq.h:120) -/
  | advance

def setSlot (f : Nat → Option E) (k : Nat) (v : Option E) : Nat → Option E := fun j => if j = k then v else f j

/-- One step of a ring of `n` slots. `none`: the step is not possible (no such producer, or the
consumer finds nothing). -/
def step (n : Nat) (s : State E) : Act E → Option (State E)
  | .reserve e => some { s with tail := (s.tail + 1) % 2 ^ 32, pend := s.pend ++ [(s.tail % n, e)], inp := s.inp ++ [e] }
  | .store i =>
    match s.pend[i]? with
    | none => none
    | some (k, e) => some { s with slot := setSlot s.slot k (some e), pend := s.pend.eraseIdx i }
  | .take =>
    if s.taking then none
    else if isEmpty s then none
    else
      match s.slot (s.head % n) with
      | none => none
      | some e => some { s with slot := setSlot s.slot (s.head % n) none, taking := true, out := s.out ++ [e] }
  | .advance => if s.taking then some { s with head := (s.head + 1) % 2 ^ 32, taking := false } else none

/-- Executions in which no producer enqueues into a full ring, as the comment at pcq.h:78-82 demands. -/
inductive Reachable (n : Nat) : State E → Prop
  | init : Reachable n init
  | step {s s' : State E} (a : Act E) : Reachable n s → (∀ e, a = .reserve e → isFull n s = false) → step n s a = some s' →
      Reachable n s'

end Splinter.Pcq
