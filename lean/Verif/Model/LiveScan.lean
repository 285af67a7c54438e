import Verif.Model.RangeIter
/-!
# The range iterator over a store that is being written to (src/trunk.c 6147–6454)

`Model/RangeIter.lean` with the store as it is each time `trunk_range_iterator_init` runs:
at the start and once per leaf. What the iterator reads of a store is fixed then, except for
the newest memtable, which goes on taking inserts.

Simplifications: as in `Model/RangeIter.lean`, and only forwards. A visit has the tuples of
the newest memtable as a sweep over all of it during the visit would report them
(`rep`); the iterator of the memtable reports the part between its bounds. The merge reads
them one by one, so what it does up to some moment depends only on those it has read. The
nodes of the trunk the iterator goes through are those of the root it took (C45). The
memtables and the root of a visit are taken at one moment.
-/
namespace Splinter.Trunk

open Splinter.Merge (MIter)

variable {K V F : Type} [LinearOrder K]

/-- One run of `trunk_range_iterator_init`: the store when it takes its memtables and the
root (6184–6222), and what the newest memtable reports until the iterator is built anew. -/
structure Visit (K V F : Type) where
  s : State K V F
  rep : Branch K V

/-- The memtables of a visit, newest first (trunk.c 6193–6218). -/
def Visit.mems (v : Visit K V F) : List (Branch K V) := v.rep :: v.s.mems.tail

/-- `trunk_range_iterator_init` (trunk.c 6147–6387) with `greater_than_or_equal`: the
iterator and the visits to come. -/
def rinitL (cfg : DataCfg K V) (cut : Branch K V → K → Nat) (mn mx : K) :
    List (Visit K V F) → (start : K) → Except RErr (RIter K V × List (Visit K V F))
  | [], _ => .error .fuel
  | v :: vs, start =>
    let start := if start < mn then mn else start
    let start := if mx ≤ start then mx else start
    match leafRuns .le v.s.h v.s.root start with
    | none => .error .noChild
    | some (bs, llo, lhi) =>
      let lmn := if mn < llo then llo else mn
      let lmx := if lhi < mx then lhi else mx
      match Merge.create cfg .full ((bs ++ v.mems.reverse).map (fun b => openBranch (cut b start) lmn lmx start .ge b)) with
      | .error e => .error (.merge e)
      | .ok m =>
        if m.canCurr then .ok (⟨mn, mx, lmn, lmx, m, true, true⟩, vs)
        else if lmx < mx then rinitL cfg cut mn mx vs lmx
        else .ok (⟨mn, mx, lmn, lmx, m, m.canPrev, false⟩, vs)

/-- `trunk_range_iterator_next` (trunk.c 6397–6454). -/
def rnextL (cfg : DataCfg K V) (cut : Branch K V → K → Nat) (vs : List (Visit K V F)) (r : RIter K V) :
    Except RErr (RIter K V × List (Visit K V F)) :=
  match Merge.next r.m with
  | .error e => .error (.merge e)
  | .ok m =>
    if m.canNext then .ok ({ r with m := m, canPrev := true, canNext := true }, vs)
    else if r.lmx < r.mx then rinitL cfg cut r.mn r.mx vs r.lmx
    else .ok ({ r with m := m, canPrev := true, canNext := false }, vs)

/-- The loop of a client that takes up to `n` tuples: the tuples, and whether the iterator
came to its end (splinterdb.c 711–752). -/
def rscanL (cfg : DataCfg K V) (cut : Branch K V → K → Nat) :
    Nat → List (Visit K V F) → RIter K V → Except RErr (List (K × Msg V) × Bool)
  | 0, _, _ => .ok ([], false)
  | n + 1, vs, r =>
    if r.valid then
      match r.m.cur with
      | none => .error (.merge .ub)
      | some x =>
        match rnextL cfg cut vs r with
        | .error e => .error e
        | .ok (r', vs') => (rscanL cfg cut n vs' r').map (fun y => (x :: y.1, y.2))
    else .ok ([], true)

/-- `splinterdb_iterator_init` at `start` and up to `n` times `next`. -/
def scanL (cfg : DataCfg K V) (cut : Branch K V → K → Nat) (mn mx : K) (n : Nat) (vs : List (Visit K V F)) (start : K) :
    Except RErr (List (K × Msg V) × Bool) :=
  match rinitL cfg cut mn mx vs start with
  | .error e => .error e
  | .ok (r, vs') => rscanL cfg cut n vs' r

end Splinter.Trunk
