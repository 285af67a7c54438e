import Verif.Model.Slice
/-!
# Bytes of a btree page

Little-endian memory, the on-disk key and tuple records
(src/data_internal.h:222-455) and the slotted pages of the btree
(src/btree.c:108-414, src/btree_private.h:36-300).
-/
namespace Splinter.Page

/-- Memory from the first byte of a page on. Addresses past the page exist in the
model, so that theorems can say they are not written. -/
abbrev Mem := Nat → UInt8

/-- `n` bytes from `a` on. -/
def rd (m : Mem) (a n : Nat) : Bytes := (List.range n).map (fun i => m (a + i))

/-- `memcpy` of `bs` to `a`. -/
def wr (m : Mem) (a : Nat) (bs : Bytes) : Mem :=
  fun i => if a ≤ i ∧ i < a + bs.length then bs.getD (i - a) 0 else m i

/-- `n` little-endian bytes of `v`; larger values are truncated, as on assignment to a
field of that size. -/
def le : Nat → Nat → Bytes
  | 0, _ => []
  | n + 1, v => UInt8.ofNat (v % 256) :: le n (v / 256)

/-- Value of little-endian bytes. -/
def ofLe : Bytes → Nat
  | [] => 0
  | b :: bs => b.toNat + 256 * ofLe bs

/-- Field of `n` bytes at `a`. -/
def rdN (m : Mem) (a n : Nat) : Nat := ofLe (rd m a n)

/-- Assignment to a field of `n` bytes at `a`. -/
def wrN (m : Mem) (a n v : Nat) : Mem := wr m a (le n v)

/-! ### On-disk keys (data_internal.h:222-290)

`ondisk_key`: `length` (2 bytes at 0), `flags` (1 byte at 2), `bytes` (at 3). -/

/-- `ONDISK_KEY_NEGATIVE_INFINITY` (data_internal.h:236). -/
def odkNegInf : Nat := 65535
/-- `ONDISK_KEY_POSITIVE_INFINITY` (data_internal.h:238). -/
def odkPosInf : Nat := 65534

/-- `key_length` (data_internal.h): infinite keys have no bytes. -/
def keyLength : Key → Nat
  | .user b => b.length
  | _ => 0

/-- `sizeof_ondisk_key_data` (data_internal.h:244-254). -/
def sizeofOndiskKeyData (m : Mem) (a : Nat) : Nat :=
  if rdN m a 2 = odkNegInf ∨ rdN m a 2 = odkPosInf then 0 else rdN m a 2

/-- `ondisk_key_to_key` (data_internal.h:266-276). -/
def ondiskKeyToKey (m : Mem) (a : Nat) : Key :=
  if rdN m a 2 = odkNegInf then .negInf
  else if rdN m a 2 = odkPosInf then .posInf
  else .user (rd m (a + 3) (rdN m a 2))

/-- `copy_key_to_ondisk_key` (data_internal.h:278-290). -/
def copyKeyToOndiskKey (m : Mem) (a : Nat) (k : Key) : Mem :=
  let m := wrN m (a + 2) 1 0
  match k with
  | .user b => wr (wrN m a 2 b.length) (a + 3) b
  | .negInf => wrN m a 2 odkNegInf
  | .posInf => wrN m a 2 odkPosInf

/-! ### On-disk tuples (data_internal.h:382-455)

`ondisk_tuple`: `key_length` (2 bytes at 0), `key_flags` (1 at 2), `message_length`
(2 at 3), `flags` (1 at 5), `key_and_message` (at 6). -/

/-- A key, a message type number and message data. -/
structure Tuple where
  key : Bytes
  type : Nat
  data : Bytes
deriving DecidableEq, Repr

/-- `sizeof_ondisk_tuple_data` (data_internal.h:401-405). -/
def sizeofOndiskTupleData (m : Mem) (a : Nat) : Nat := rdN m a 2 + rdN m (a + 3) 2

/-- `ondisk_tuple_key` (data_internal.h:418-422). -/
def ondiskTupleKey (m : Mem) (a : Nat) : Bytes := rd m (a + 6) (rdN m a 2)

/-- `ondisk_tuple_message_class` (data_internal.h:424-428): the low two bits of `flags`. -/
def ondiskTupleMessageClass (m : Mem) (a : Nat) : Nat := rdN m (a + 5) 1 % 4

/-- `ondisk_tuple_message` (data_internal.h:430-436), data part. -/
def ondiskTupleMessageData (m : Mem) (a : Nat) : Bytes := rd m (a + 6 + rdN m a 2) (rdN m (a + 3) 2)

/-- The tuple stored at `a`. -/
def ondiskTuple (m : Mem) (a : Nat) : Tuple :=
  ⟨ondiskTupleKey m a, ondiskTupleMessageClass m a, ondiskTupleMessageData m a⟩

/-- `copy_message_to_ondisk_tuple` (data_internal.h:438-446). -/
def copyMessageToOndiskTuple (m : Mem) (a : Nat) (type : Nat) (data : Bytes) : Mem :=
  let m := wrN m (a + 3) 2 data.length
  let m := wrN m (a + 5) 1 type
  wr m (a + 6 + rdN m a 2) data

/-- `copy_tuple_to_ondisk_tuple` (data_internal.h:448-456). `key_flags` is left as it
is; the assignment at 453 goes to `flags` and is overwritten. -/
def copyTupleToOndiskTuple (m : Mem) (a : Nat) (t : Tuple) : Mem :=
  let m := wrN m a 2 t.key.length
  let m := wrN m (a + 5) 1 0
  let m := wr m (a + 6) t.key
  copyMessageToOndiskTuple m a t.type t.data

/-! ### Index entries (btree_private.h:52-60)

`index_entry`: `child_addr` (8 bytes at 0), `num_kvs`, `key_bytes`, `message_bytes` (4 bytes
each at 8, 12, 16), `pivot` (at 20). -/

structure Index where
  pivot : Key
  addr : Nat
  kvs : Nat
  keyBytes : Nat
  msgBytes : Nat
deriving DecidableEq, Repr

/-- `btree_fill_index_entry` (btree.c:205-220). -/
def fillIndex (m : Mem) (a : Nat) (e : Index) : Mem :=
  let m := copyKeyToOndiskKey m (a + 20) e.pivot
  let m := wrN m a 8 e.addr
  let m := wrN m (a + 8) 4 e.kvs
  let m := wrN m (a + 12) 4 e.keyBytes
  wrN m (a + 16) 4 e.msgBytes

/-- The entry stored at `a` (`index_entry_key`, `index_entry_child_addr`, `pivot_data.stats`,
btree_private.h:186-196). -/
def readIndex (m : Mem) (a : Nat) : Index :=
  ⟨ondiskKeyToKey m (a + 20), rdN m a 8, rdN m (a + 8) 4, rdN m (a + 12) 4, rdN m (a + 16) 4⟩

/-- What the two kinds of entries have in common: required capacity, size of a stored
entry, storing and reading. -/
structure Format (E : Type) where
  cap : E → Nat
  size : Mem → Nat → Nat
  fill : Mem → Nat → E → Mem
  read : Mem → Nat → E

/-- Leaf entries: `leaf_entry_required_capacity` (btree.c:148-152), `sizeof_leaf_entry`
(btree_private.h:180-184), `btree_fill_leaf_entry` (btree.c:302-315). -/
def leafFmt : Format Tuple where
  cap t := 6 + t.key.length + t.data.length
  size m a := 6 + sizeofOndiskTupleData m a
  fill := copyTupleToOndiskTuple
  read := ondiskTuple

/-- Index entries: `index_entry_required_capacity` (btree.c:142-146), `sizeof_index_entry`
(btree_private.h:174-178). -/
def indexFmt : Format Index where
  cap e := 23 + keyLength e.pivot
  size m a := 23 + sizeofOndiskKeyData m (a + 20)
  fill := fillIndex
  read := readIndex

/-! ### Pages (btree_private.h:36-45)

`btree_hdr`: `prev_addr`, `next_addr`, `next_extent_addr`, `generation` (8 bytes each at 0, 8, 16,
24), `height` (1 at 32), `next_entry` (2 at 33), `num_entries` (2 at 35), `offsets` (2 each
from 37 on). -/

def nextEntry (m : Mem) : Nat := rdN m 33 2
def numEntries (m : Mem) : Nat := rdN m 35 2
def offset (m : Mem) (i : Nat) : Nat := rdN m (37 + 2 * i) 2
/-- `diff_ptr(hdr, &hdr->offsets[n])`. -/
def tableEnd (n : Nat) : Nat := 37 + 2 * n

variable {E : Type}

/-- Entry `i` (`btree_get_leaf_entry`, `btree_get_index_entry`, btree_private.h:216-295). -/
def entry (f : Format E) (m : Mem) (i : Nat) : E := f.read m (offset m i)

/-- All entries in table order. -/
def entries (f : Format E) (m : Mem) : List E := (List.range (numEntries m)).map (entry f m)

/-- The tail shared by `btree_set_leaf_entry` (btree.c:365-392) and `btree_set_index_entry`
(btree.c:260-274): put the entry below `next_entry`. `none` stands for the failed assertion
at 377. -/
def place (f : Format E) (m : Mem) (k : Nat) (e : E) : Option (Mem × Bool) :=
  let n := if k < numEntries m then numEntries m else k + 1
  if nextEntry m < tableEnd n + f.cap e then some (m, false)
  else
    let a := nextEntry m - f.cap e
    if tableEnd n ≤ a then
      let m := f.fill m a e
      let m := wrN m (37 + 2 * k) 2 a
      let m := wrN m 35 2 n
      some (wrN m 33 2 a, true)
    else none

/-- `btree_set_leaf_entry` (btree.c:348-393). -/
def setLeaf (m : Mem) (k : Nat) (e : Tuple) : Option (Mem × Bool) :=
  if k < numEntries m ∧ leafFmt.cap e ≤ leafFmt.size m (offset m k) then
    some (leafFmt.fill m (offset m k) e, true)
  else if k ≤ numEntries m then place leafFmt m k e
  else none

/-- `btree_can_set_leaf_entry` (btree.c:317-346). -/
def canSetLeaf (m : Mem) (k : Nat) (e : Tuple) : Bool :=
  if numEntries m < k then false
  else if k < numEntries m ∧ leafFmt.cap e ≤ leafFmt.size m (offset m k) then true
  else
    let n := if k < numEntries m then numEntries m else k + 1
    if nextEntry m < tableEnd n + leafFmt.cap e then false else true

/-- `btree_set_index_entry` (btree.c:222-275). -/
def setIndex (m : Mem) (k : Nat) (e : Index) : Option (Mem × Bool) :=
  if k ≤ numEntries m then
    if k < numEntries m then
      let old := indexFmt.size m (offset m k)
      if nextEntry m = offset m k ∧ tableEnd (numEntries m) + indexFmt.cap e ≤ nextEntry m + old then
        place indexFmt (wrN m 33 2 (nextEntry m + old)) k e
      else if indexFmt.cap e ≤ old then some (indexFmt.fill m (offset m k) e, true)
      else place indexFmt m k e
    else place indexFmt m k e
  else none

/-- Moving the last table entry to position `k` (`memmove` in `btree_insert_leaf_entry`,
btree.c:405-411, and `btree_insert_index_entry`, btree.c:287-292). -/
def rotate (m : Mem) (k : Nat) : Mem :=
  let a := offset m (numEntries m - 1)
  let m' := wr m (37 + 2 * (k + 1)) (rd m (37 + 2 * k) ((numEntries m - k - 1) * 2))
  wrN m' (37 + 2 * k) 2 a

/-- `btree_insert_leaf_entry` (btree.c:395-414). -/
def insertLeaf (m : Mem) (k : Nat) (e : Tuple) : Option (Mem × Bool) :=
  match setLeaf m (numEntries m) e with
  | some (m', true) => some (rotate m' k, true)
  | r => r

/-- `btree_insert_index_entry` (btree.c:277-295). -/
def insertIndex (m : Mem) (k : Nat) (e : Index) : Option (Mem × Bool) :=
  match setIndex m (numEntries m) e with
  | some (m', true) => some (rotate m' k, true)
  | r => r

/-- `btree_reset_node_entries` (btree.c:134-139). -/
def reset (ps : Nat) (m : Mem) : Mem := wrN (wrN m 35 2 0) 33 2 ps

end Splinter.Page
