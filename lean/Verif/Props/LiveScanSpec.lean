import Verif.Model.LiveScan
import Verif.Props.MergeIter
/-!
What a scan of a store that is being written to is to report, independent of the model of
the store; and which visits belong to an execution of the store.
-/
namespace Splinter.LiveScan

variable {K V : Type} [LinearOrder K]

/-- `rep` is what somebody reports who looks at all keys in ascending order between the
times `p` and `q`; `cont t k` is what they see if they look at `k` at time `t`. -/
def Sampled {M : Type} (cont : Nat → K → Option M) (p q : Nat) (rep : List (K × M)) : Prop :=
  (rep.Pairwise fun x y => x.1 < y.1) ∧
  ∃ τ : K → Nat, (∀ k, p ≤ τ k ∧ τ k ≤ q) ∧ (∀ k k', k ≤ k' → τ k ≤ τ k') ∧
    ∀ k v, (k, v) ∈ rep ↔ cont (τ k) k = some v

/-- The same for the keys `P` of a store: `val t k` is the value of `k` at time `t`, and a
value is reported as an `INSERT` message. -/
def Reported (val : Nat → K → Option V) (p q : Nat) (P : K → Prop) (out : List (K × Msg V)) : Prop :=
  (out.Pairwise fun x y => x.1 < y.1) ∧
  ∃ T : K → Nat, (∀ k, P k → p ≤ T k ∧ T k ≤ q) ∧ (∀ k k', P k → P k' → k ≤ k' → T k ≤ T k') ∧
    ∀ k m, (k, m) ∈ out ↔ P k ∧ m.type = .insert ∧ val (T k) k = some m.data

/-- The keys a scan is to report, or has reported if it is not at its end. -/
def Range (mn mx start : K) (fin : Bool) (out : List (K × Msg V)) (k : K) : Prop :=
  start ≤ k ∧ mn ≤ k ∧ k < mx ∧ (fin = false → ∃ x ∈ out, k ≤ x.1)

end Splinter.LiveScan

namespace Splinter.Trunk
open LiveScan

variable {K V F : Type} [LinearOrder K]

/-- The memtable that takes inserts, after the first `t` operations. -/
def headAt (cfg : DataCfg K V) (ops : FilterOps K F) (keyOk : K → Bool) (s0 : State K V F) (os : List (Op K V)) (t : Nat)
    (k : K) : Option (Msg V) :=
  (run cfg ops keyOk s0 (os.take t)).bind fun s => s.mems.head?.bind (·.get k)

/-- A visit that began after `p` operations and read the newest memtable until `q`
operations were done, or until the memtable was full. -/
structure Seen (cfg : DataCfg K V) (ops : FilterOps K F) (keyOk : K → Bool) (s0 : State K V F) (os : List (Op K V))
    (p q : Nat) (v : Visit K V F) : Prop where
  le : p ≤ q
  len : q ≤ os.length
  start : run cfg ops keyOk s0 (os.take p) = some v.s
  same : ∀ o ∈ (os.take q).drop p, o ≠ Op.rotate
  reads : Sampled (headAt cfg ops keyOk s0 os) p q v.rep

/-- Visits one after another, all between the times `a` and `b`. -/
inductive Chain (cfg : DataCfg K V) (ops : FilterOps K F) (keyOk : K → Bool) (s0 : State K V F) (os : List (Op K V)) :
    Nat → Nat → List (Visit K V F) → Prop
  | nil {a b : Nat} (h : a ≤ b) : Chain cfg ops keyOk s0 os a b []
  | cons {a b p q : Nat} {v : Visit K V F} {vs : List (Visit K V F)} (h : a ≤ p) (hv : Seen cfg ops keyOk s0 os p q v)
      (hvs : Chain cfg ops keyOk s0 os q b vs) : Chain cfg ops keyOk s0 os a b (v :: vs)

end Splinter.Trunk
