import Verif.Model.BtreeLock
/-!
# What it means that the threads of a memtable tree can always finish

The scheduler chooses which thread moves next, and may close an iterator that rests; what is in the
tree decides which of its moves the thread makes. `Force P s`: whatever the tree
decides, the scheduler can bring the threads from `s` to a state of `P`. No operation is
started on the way.
-/
namespace Splinter.BtreeLock

/-- The scheduler can bring about `P`, whatever the tree decides. -/
inductive Force (bad : Bool) (ht : Nat → Nat) (P : Sys → Prop) : Sys → Prop where
  | here {s} : P s → Force bad ht P s
  | go {s} (i : Nat) : (∃ t, Step bad ht s i t) → (∀ t, Step bad ht s i t → Force bad ht P t) →
      Force bad ht P s
  | close {s} (i l g : Nat) : s.ths[i]? = some (.rest l g) →
      Force bad ht P (s.put i (.free [(l, .r)] .idle) .none) → Force bad ht P s

/-- Every operation has returned and every iterator is closed. -/
def Quiet (s : Sys) : Prop := ∀ q ∈ s.ths, q = .idle

/-- Every operation has returned, with or without an error. -/
def Returned (s : Sys) : Prop := ∀ q ∈ s.ths, q = .idle ∨ ∃ p, q = .lost p

/-- Thread `i` cannot move. -/
def Waits (bad : Bool) (ht : Nat → Nat) (s : Sys) (i : Nat) : Prop := ¬ ∃ t, Step bad ht s i t

/-- There are pages of each height. -/
def AllHeights (ht : Nat → Nat) : Prop := ∀ h, ∃ z, z ≠ 0 ∧ ht z = h

end Splinter.BtreeLock
