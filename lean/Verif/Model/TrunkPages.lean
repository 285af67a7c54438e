import Verif.Model.Trunk
import Verif.Model.Filter
import Verif.Model.Btree
/-!
# Lookup through filters and trees as they are on the device

`trunk_lookup` (trunk.c 6938–7031) and the functions below it once more, now reading
the filters with `routing_filter_lookup` (`Model/Filter.lean`, pages of bytes) and the
branches and memtables with `btree_lookup` (`Model/Btree.lean`, pages of a tree), and
stopping as the code does when the message is definitive.

Simplified: trunk nodes are those of `Model/Trunk.lean`; a layout tells which filter
and which root address their entries stand for.
-/
namespace Splinter.Trunk.Pages

variable {K V F : Type} [LinearOrder K]

/-- What the filters and branches of trunk nodes are on the device. `hash` is
`filter_cfg.hash` with its seed. -/
structure Layout (K V F : Type) where
  fcfg : Splinter.Filter.Cfg
  dev : Nat → Splinter.Log.Mem
  hash : K → Nat
  filt : F → Splinter.Filter.Filter
  store : Splinter.Btree.Store K (Msg V)
  root : Branch K V → Nat

/-- How a lookup can go wrong: a value beyond the branches, a failing merge callback, a
fault while reading a filter, a fault while reading a tree, a subbundle without filter
or a node without pivot. -/
inductive Err
  | badBranch | mergeFailed | filterFault | treeFault | badNode
  deriving DecidableEq, Repr

/-- `true`: the message is definitive (`should_continue` is `FALSE`). -/
abbrev Res (V : Type) := Except Err (Bool × Option (Msg V))

/-- Goes on unless the answer is final. -/
def andThen (r : Res V) (f : Option (Msg V) → Res V) : Res V :=
  match r with
  | .error e => .error e
  | .ok (true, a) => .ok (true, a)
  | .ok (false, a) => f a

variable [BoundedOrder K] [Inhabited K]

/-- `trunk_btree_lookup_and_merge` with the test for a definitive message (6811–6820). -/
def readBranch (y : Layout K V F) (cfg : DataCfg K V) (k : K) (b : Branch K V) (acc : Option (Msg V)) : Res V :=
  match Btree.lookup y.store (y.root b) k with
  | none => .error .treeFault
  | some none => .ok (false, acc)
  | some (some m) =>
    match accumulate cfg k acc m with
    | none => .error .mergeFailed
    | some r => .ok (r.any Msg.definitive, r)

/-- The loop of `trunk_filter_lookup` (6804–6826). -/
def filterLoop (y : Layout K V F) (cfg : DataCfg K V) (k : K) (bs : List (Branch K V)) (found : Nat) :
    Nat → Option Nat → Option (Msg V) → Res V
  | 0, _, _ => .error .filterFault
  | fuel + 1, last, acc =>
    match Splinter.Filter.nextValue found last with
    | none => .error .filterFault
    | some none => .ok (false, acc)
    | some (some v) =>
      match bs[v]? with
      | none => .error .badBranch
      | some b => andThen (readBranch y cfg k b acc) (filterLoop y cfg k bs found fuel (some v))

/-- `trunk_filter_lookup` (6781–6828). -/
def filterLookup (y : Layout K V F) (cfg : DataCfg K V) (k : K) (f : F) (bs : List (Branch K V))
    (acc : Option (Msg V)) : Res V :=
  match Splinter.Filter.lookup y.fcfg y.dev (y.filt f) (y.hash k) with
  | none => .error .filterFault
  | some found => filterLoop y cfg k bs found 32 none acc

/-- `trunk_compacted_subbundle_lookup` (6830–6879). -/
def compactedLookup (y : Layout K V F) (cfg : DataCfg K V) (k : K) (bs : List (Branch K V)) :
    List F → Option (Msg V) → Res V
  | [], acc => .ok (false, acc)
  | f :: fs, acc =>
    match Splinter.Filter.lookup y.fcfg y.dev (y.filt f) (y.hash k) with
    | none => .error .filterFault
    | some found =>
      if found ≠ 0 then
        match bs[0]? with
        | none => .error .badBranch
        | some b => readBranch y cfg k b acc
      else compactedLookup y cfg k bs fs acc

/-- One subbundle in `trunk_bundle_lookup` (6894–6903). -/
def sbLookup (y : Layout K V F) (cfg : DataCfg K V) (k : K) (sb : SB K V F) (acc : Option (Msg V)) : Res V :=
  if sb.compacted then compactedLookup y cfg k sb.branches sb.filters acc
  else
    match sb.filters with
    | [] => .error .badNode
    | f :: _ => filterLookup y cfg k f sb.branches acc

/-- A loop over a list that ends early. -/
def each {A : Type} (f : A → Option (Msg V) → Res V) : List A → Option (Msg V) → Res V
  | [], acc => .ok (false, acc)
  | x :: xs, acc => andThen (f x acc) (each f xs)

/-- `trunk_bundle_lookup` (6881–6910). -/
def bundleLookup (y : Layout K V F) (cfg : DataCfg K V) (k : K) (b : Bundle K V F) : Option (Msg V) → Res V :=
  each (sbLookup y cfg k) b.sbs.reverse

/-- `trunk_pivot_lookup` (6912–6937). -/
def pivotLookup (y : Layout K V F) (cfg : DataCfg K V) (k : K) {C : Type} (n : Node K V F C) (p : PData K F)
    (acc : Option (Msg V)) : Res V :=
  andThen (each (bundleLookup y cfg k) (n.bundles.drop p.bskip).reverse acc)
    (filterLookup y cfg k p.filter (n.whole.drop p.wskip))

/-- The descent of `trunk_lookup` (6972–7001). -/
def descend (y : Layout K V F) (cfg : DataCfg K V) (k : K) :
    (h : Nat) → Node K V F (Sub K V F h) → Option (Msg V) → Res V
  | 0, n, acc =>
    match n.pivots[0]? with
    | none => .error .badNode
    | some (p, _) => pivotLookup y cfg k n p acc
  | h + 1, n, acc =>
    match n.pivots[n.find k]? with
    | none => .error .badNode
    | some (p, c) => andThen (pivotLookup y cfg k n p acc) (descend y cfg k h c)

/-- `trunk_lookup` (6938–7031). -/
def lookup (y : Layout K V F) (cfg : DataCfg K V) (s : State K V F) (k : K) : Except Err (LookupOut V) :=
  match andThen (each (readBranch y cfg k) s.mems none) (descend y cfg k s.h s.root) with
  | .error e => .error e
  | .ok (_, acc) => .ok (finishLookup cfg k acc)

end Splinter.Trunk.Pages
