/-!
What a tree of messages is to hold after some inserts. Independent of the model of the
tree.
-/
namespace Splinter.BtreeIns

variable {K M : Type} [DecidableEq K]

/-- The messages of one key, in order, merged from the oldest on. -/
def merged (mrg : K → M → M → M) (k : K) : List M → Option M
  | [] => none
  | m :: ms => some (ms.foldl (mrg k) m)

/-- The messages inserted for `k`, oldest first. -/
def msgsOf (k : K) (hist : List (K × M)) : List M :=
  (hist.filter fun x => x.1 = k).map (·.2)

/-- What a lookup of `k` is to return. -/
def valueOf (mrg : K → M → M → M) (k : K) (hist : List (K × M)) : Option M :=
  merged mrg k (msgsOf k hist)

end Splinter.BtreeIns
