import Mathlib.Order.BoundedOrder.Basic
import Verif.Props.BtreeInsertSpec
/-!
What a scan of a tree that is being inserted into is to report. Independent of the model
of the tree.
-/
namespace Splinter.BtreeIns

variable {K M : Type} [LinearOrder K]

/-- The key is not before the start of a scan. -/
def From (start : K) (strict : Bool) (k : K) : Prop := if strict then start < k else start ≤ k

/-- The key is before the end of a scan; `⊤` is no end. -/
def UpTo [BoundedOrder K] (hi k : K) : Prop := hi = ⊤ ∨ k < hi

/-- `out` is what somebody reports who looks at the keys `P` one after another in ascending
order while inserts go on: each key has a time `τ k`, not before `n0`, not after `n1` and
not before that of a smaller key, and `k` is reported with the value it had then if it had
one. -/
def Swept (mrg : K → M → M → M) (hist : List (K × M)) (n0 n1 : Nat) (P : K → Prop) (out : List (K × M)) : Prop :=
  (out.Pairwise fun x y => x.1 < y.1) ∧
  ∃ τ : K → Nat, (∀ k, P k → n0 ≤ τ k ∧ τ k ≤ n1) ∧ (∀ k k', P k → P k' → k ≤ k' → τ k ≤ τ k') ∧
    ∀ k v, (k, v) ∈ out ↔ P k ∧ valueOf mrg k (hist.take (τ k)) = some v

end Splinter.BtreeIns
