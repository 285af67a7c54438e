import Verif.Model.Message
/-!
# Hex rendering, writable buffers, merge accumulators, lookup results

Models `debug_hex_encode` (src/util.c:322-356), `writable_buffer` (src/util.h:105-270,
src/util.c:10-52), `merge_accumulator` (src/data_internal.h:460-540,
src/data_internal.c) and the lookup result object (src/splinterdb.c:560-655,
src/trunk.c:6941-7031).  Bytes are natural numbers below 256.
-/
namespace Splinter.Buf

/-- A store to `dst[i]`; `none` is an out-of-bounds write. -/
def wr (dst : List Nat) (i v : Nat) : Option (List Nat) :=
  if i < dst.length then some (dst.set i v) else none

/-- The digit table (src/util.c:299-314): ASCII codes of "0123456789abcdef". -/
def table : List Nat := [48, 49, 50, 51, 52, 53, 54, 55, 56, 57, 97, 98, 99, 100, 101, 102]

/-- The loop of `debug_hex_encode` (src/util.c:341-352).  Simplified: the `int`
counters are unbounded (they overflow only for destinations above 2^31 bytes). -/
def hexLoop (maxLen : Nat) : List Nat → Nat → List Nat → Option (List Nat)
  | dst, _, [] => some dst
  | dst, dp, x :: xs =>
    if dp ≥ maxLen - 1 then some dst
    else
      match wr dst dp (table.getD ((x &&& 0xF0) >>> 4) 0) with
      | none => none
      | some dst =>
        match wr dst (dp + 1) (table.getD (x &&& 0x0F) 0) with
        | none => none
        | some dst => hexLoop maxLen dst (dp + 2) xs

/-- `debug_hex_encode` (src/util.c:316-356); `dst` is the destination of length
`dst_len` with its previous contents. -/
def hexEncode (dst data : List Nat) : Option (List Nat) :=
  if dst.length = 0 then some dst
  else
    let maxLen := if 2 + 2 * data.length + 1 > dst.length then dst.length else 2 + 2 * data.length + 1
    if maxLen = 1 then wr dst (maxLen - 1) 0
    else
      match wr dst 0 48 with
      | none => none
      | some dst =>
        match wr dst 1 120 with
        | none => none
        | some dst =>
          match hexLoop maxLen dst 2 data with
          | none => none
          | some dst => wr dst (maxLen - 1) 0

/-! ## Writable buffers -/

/-- `writable_buffer` (src/util.h:124-130).  `buf` is the memory behind `buffer`
(so `buffer_capacity = buf.length`); `len = none` is `WRITABLE_BUFFER_NULL_LENGTH`. -/
structure WB where
  buf : List Nat
  len : Option Nat
  canFree : Bool
deriving DecidableEq, Repr

/-- The process allocator: size to fresh memory with arbitrary contents, `none`
when out of memory. -/
abbrev Alloc := Nat → Option (List Nat)

/-- `writable_buffer_init_with_buffer` (src/util.h:166-178). -/
def WB.initWith (data : List Nat) (len : Option Nat) : WB := ⟨data, len, false⟩

/-- `writable_buffer_init` (src/util.h:180-185). -/
def WB.init : WB := ⟨[], none, false⟩

/-- `writable_buffer_ensure_space` (src/util.c:10-40); `none` is
`STATUS_NO_MEMORY`.  `platform_realloc` keeps the old contents. -/
def ensureSpace (alloc : Alloc) (wb : WB) (minspace : Nat) : Option WB :=
  if minspace ≤ wb.buf.length then some wb
  else
    let minspace := if minspace < 2 * wb.buf.length then 2 * wb.buf.length else minspace
    match alloc minspace with
    | none => none
    | some fresh =>
      let newdata :=
        if wb.canFree then wb.buf ++ fresh.drop wb.buf.length
        else
          match wb.len with
          | none => fresh
          | some l => wb.buf.take l ++ fresh.drop l
      some { wb with buf := newdata, canFree := true }

/-- `writable_buffer_resize` (src/util.c:42-52). -/
def resize (alloc : Alloc) (wb : WB) (n : Nat) : Option WB :=
  match ensureSpace alloc wb n with
  | none => none
  | some wb => some { wb with len := some n }

/-- `writable_buffer_set_to_null` (src/util.h:206-210). -/
def setToNull (wb : WB) : WB := { wb with len := none }

/-- `memcpy(buffer + off, src, n)`; `none` is a write outside the buffer. -/
def memcpy (buf : List Nat) (off : Nat) (src : List Nat) : Option (List Nat) :=
  if off + src.length ≤ buf.length then
    some (buf.take off ++ src ++ buf.drop (off + src.length))
  else none

/-- `writable_buffer_copy_slice` (src/util.h:229-238). -/
def copySlice (alloc : Alloc) (wb : WB) (src : List Nat) : Option WB :=
  match resize alloc wb src.length with
  | none => none
  | some wb =>
    match memcpy wb.buf 0 src with
    | none => none
    | some b => some { wb with buf := b }

/-- `writable_buffer_append` (src/util.h:259-268). -/
def append (alloc : Alloc) (wb : WB) (src : List Nat) : Option WB :=
  let old := wb.len.getD 0
  match resize alloc wb (old + src.length) with
  | none => none
  | some wb =>
    match memcpy wb.buf old src with
    | none => none
    | some b => some { wb with buf := b }

/-- `writable_buffer_to_slice` (src/util.h:249-257); `none` is `NULL_SLICE`. -/
def toSlice (wb : WB) : Option (List Nat) := wb.len.map (wb.buf.take ·)

/-! ## Merge accumulators and lookup results -/

/-- `merge_accumulator` (src/data_internal.h:466-469); `type = none` is
`MESSAGE_TYPE_INVALID`. -/
structure Acc where
  type : Option MType
  data : WB
deriving DecidableEq, Repr

/-- `merge_accumulator_set_to_null` (src/data_internal.h:526-531). -/
def Acc.setToNull (a : Acc) : Acc := ⟨none, Buf.setToNull a.data⟩

/-- `merge_accumulator_is_null` (src/data_internal.h:533-539). -/
def Acc.isNull (a : Acc) : Bool := a.data.len.isNone

/-- `merge_accumulator_copy_message` (src/data_internal.c:28-38). -/
def Acc.copyMessage (alloc : Alloc) (a : Acc) (m : Msg (List Nat)) : Option Acc :=
  match copySlice alloc a.data m.data with
  | none => none
  | some wb => some ⟨some m.type, wb⟩

/-- `merge_accumulator_to_message` (src/data_internal.h:503-507). -/
def Acc.toMessage (a : Acc) : Option (Msg (List Nat)) :=
  match a.type, toSlice a.data with
  | some t, some d => some ⟨t, d⟩
  | _, _ => none

/-- `splinterdb_lookup_result_init` (src/splinterdb.c:577-591). -/
def resultInit (buffer : List Nat) : Acc := ⟨none, WB.initWith buffer none⟩

/-- `splinterdb_lookup_found` (src/splinterdb.c:600-605, src/trunk.h:345-349). -/
def resultFound (a : Acc) : Bool := !a.isNull

/-- `splinterdb_lookup_result_value` (src/splinterdb.c:607-620); `none` is
`EINVAL`. -/
def resultValue (a : Acc) : Option (List Nat) :=
  if !resultFound a then none else toSlice a.data

variable {K : Type}

/-- Merging a run's message into the accumulator: `btree_lookup_and_merge`
(src/btree.c:2161-2190).  The application callback is taken to store its result
with resize, copy and set-class, i.e. as `copyMessage` does.  `none` is the
failed status on which the callers assert. -/
def accumulateInto (alloc : Alloc) (cfg : DataCfg K (List Nat)) (k : K) (a : Acc)
    (old : Msg (List Nat)) : Option Acc :=
  if a.isNull then a.copyMessage alloc old
  else
    match a.toMessage with
    | none => none
    | some new =>
      if new.definitive then some a
      else
        match dataMergeTuples cfg k old new with
        | none => none
        | some r => a.copyMessage alloc r

/-- `merge_accumulator_is_definitive` (src/data_internal.h:497-501). -/
def Acc.definitive (a : Acc) : Bool := a.type = some .insert || a.type = some .delete

/-- Visiting the runs of `trunk_lookup` (src/trunk.c:6959-6999), newest first,
stopping when definitive. -/
def visitRuns (alloc : Alloc) (cfg : DataCfg K (List Nat)) (k : K) : Acc → List (Msg (List Nat)) → Option Acc
  | a, [] => some a
  | a, m :: ms =>
    match accumulateInto alloc cfg k a m with
    | none => none
    | some a => if a.definitive then some a else visitRuns alloc cfg k a ms

/-- `trunk_lookup` into a caller-provided result object (src/trunk.c:6941-7031),
given the messages its runs hold for the key, newest first. -/
def lookupInto (alloc : Alloc) (cfg : DataCfg K (List Nat)) (k : K) (ms : List (Msg (List Nat)))
    (a : Acc) : Option Acc :=
  match visitRuns alloc cfg k a.setToNull ms with
  | none => none
  | some a =>
    let fin : Option Acc :=
      if a.isNull || a.definitive then some a
      else
        match a.toMessage with
        | none => none
        | some m =>
          match dataMergeTuplesFinal cfg k m with
          | none => none
          | some r => a.copyMessage alloc r
    match fin with
    | none => none
    | some a =>
      if !a.isNull && a.type = some .delete then some a.setToNull else some a

end Splinter.Buf
