/-!
# Messages and message merging

Models message types (include/splinterdb/data.h:25-58), the merge callbacks
(include/splinterdb/data.h:112-133) and the wrappers `data_merge_tuples`,
`data_merge_tuples_final` (src/data_internal.h:560-604), together with the
accumulation pattern used by lookups (src/trunk.c:6941-7031, src/btree.c
`btree_lookup_and_merge`).
-/
namespace Splinter

/-- `message_type` restricted to the user types (data.h:29-36):
`MESSAGE_TYPE_INSERT`, `MESSAGE_TYPE_UPDATE`, `MESSAGE_TYPE_DELETE`.
Simplified: `INVALID` is represented by `none` where a message may be absent and
`PIVOT_DATA` (btree index nodes only) is not a user message. -/
inductive MType where
  | insert | update | delete
deriving DecidableEq, Repr

/-- `message` (data.h:46-49): a type and its data. -/
structure Msg (V : Type) where
  type : MType
  data : V
deriving DecidableEq, Repr

/-- `message_is_definitive` (data_internal.h:339-343) and
`merge_accumulator_is_definitive` (data_internal.h:497-501). -/
def Msg.definitive {V : Type} (m : Msg V) : Bool :=
  m.type = .insert || m.type = .delete

/-- The two merge callbacks of `data_config` (data.h:112-133).  `none` stands for
a non-zero return.  The accumulator is always an UPDATE on entry, so only its
data is passed. -/
structure DataCfg (K V : Type) where
  mergeTuples : K → Msg V → V → Option (Msg V)
  mergeFinal : K → V → Option (Msg V)

variable {K V : Type}

/-- `data_merge_tuples` (data_internal.h:560-586): merges `old` under the
accumulator `acc`.  Simplified: the contents of the accumulator after a failed
callback (including the resize at 580-584) are not represented. -/
def dataMergeTuples (cfg : DataCfg K V) (k : K) (old acc : Msg V) : Option (Msg V) :=
  if acc.definitive then some acc
  else if old.type = .delete then cfg.mergeFinal k acc.data
  else cfg.mergeTuples k old acc.data

/-- `data_merge_tuples_final` (data_internal.h:588-604). -/
def dataMergeTuplesFinal (cfg : DataCfg K V) (k : K) (acc : Msg V) : Option (Msg V) :=
  if acc.definitive then some acc else cfg.mergeFinal k acc.data

/-- One step of a point lookup that visits a run holding message `old` for the
key: copy it when nothing has been found yet, else merge it under the accumulator
(src/btree.c `btree_lookup_and_merge` 2163-2188: `if (merge_accumulator_is_null)
copy else data_merge_tuples`).  Outer `none` = callback failure. -/
def accumulate (cfg : DataCfg K V) (k : K) (acc : Option (Msg V)) (old : Msg V) :
    Option (Option (Msg V)) :=
  match acc with
  | none => some (some old)
  | some a => (dataMergeTuples cfg k old a).map some

/-- Visits runs newest first, stopping at the first definitive accumulator
(src/trunk.c:6959-6998). -/
def accumulateAll (cfg : DataCfg K V) (k : K) (acc : Option (Msg V)) :
    List (Msg V) → Option (Option (Msg V))
  | [] => some acc
  | m :: ms =>
    match accumulate cfg k acc m with
    | none => none
    | some none => accumulateAll cfg k none ms
    | some (some a) =>
      if a.definitive then some (some a) else accumulateAll cfg k (some a) ms

/-- Outcome of a lookup. -/
inductive LookupOut (V : Type) where
  | found (v : V)
  | notFound
  | mergeError
deriving DecidableEq, Repr

/-- The end of `trunk_lookup` (src/trunk.c:7000-7028): a remaining UPDATE is
finalised, a DELETE is turned into "not found".  The code ignores the return
value of `data_merge_tuples_final` at 7004; the model makes a callback failure a
separate outcome. -/
def finishLookup (cfg : DataCfg K V) (k : K) : Option (Msg V) → LookupOut V
  | none => .notFound
  | some a =>
    match dataMergeTuplesFinal cfg k a with
    | none => .mergeError
    | some m =>
      match m.type with
      | .insert => .found m.data
      | .delete => .notFound
      | .update => .found m.data

/-- A whole lookup over the messages for a key, newest first. -/
def lookupMsgs (cfg : DataCfg K V) (k : K) (ms : List (Msg V)) : LookupOut V :=
  match accumulateAll cfg k none ms with
  | none => .mergeError
  | some acc => finishLookup cfg k acc

end Splinter
