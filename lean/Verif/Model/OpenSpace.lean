/-
Space taken by opening a table and given back by closing it.

The reference counts of the extents of the device, and the extents which a
table takes when it is created or mounted and gives back when it is unmounted
or destroyed: those of its memtables, of the allocator of the trunk and of the
log.
-/

namespace Splinter.OpenSpace

/-- The reference counts of the extents (`ref_count`, rc_allocator.h:62).

Simplified: a count is a natural number, not eight bits. -/
abbrev Refs := Nat → Nat

/-- One count changed. -/
def upd (r : Refs) (e v : Nat) : Refs := fun x => if x = e then v else r x

/-- A device: its number of extents and how a free extent is chosen
(the scan from `hand` in `rc_allocator_alloc`, rc_allocator.c:694-748). -/
structure Disk where
  n : Nat
  pick : Refs → Option Nat

/-- The scan finds only free extents and finds one if there is one. -/
structure Disk.Scans (d : Disk) : Prop where
  free : ∀ r e, d.pick r = some e → e < d.n ∧ r e = 0
  full : ∀ r, d.pick r = none → ∀ e, e < d.n → r e ≠ 0

/-- The scan which starts at the first extent. -/
def first (n : Nat) : Disk :=
  { n := n, pick := fun r => (List.range n).find? (fun e => r e == 0) }

/-- `allocator_alloc` (rc_allocator.c:694-748): a free extent gets the count
`AL_ONE_REF`, two; `none` is the status for a full device, which every caller
below asserts not to happen. -/
def alloc (d : Disk) (r : Refs) : Option (Nat × Refs) :=
  match d.pick r with
  | none => none
  | some e => some (e, upd r e 2)

/-- `allocator_dec_ref` (rc_allocator.c:519-551) with the caller's assertion on
the new count; `none` is a failed assertion. -/
def dec (e want : Nat) (r : Refs) : Option Refs :=
  if r e = want + 1 then some (upd r e want) else none

/-- Both references of an extent given up, with the assertions
`ref == AL_NO_REFS` and `ref == AL_FREE` (mini_allocator.c:636-641, 1012-1021). -/
def free2 (e : Nat) (r : Refs) : Option Refs :=
  match dec e 1 r with
  | none => none
  | some r => dec e 0 r

/-- The same for a list of extents. -/
def freeAll : List Nat → Refs → Option Refs
  | [], r => some r
  | e :: l, r =>
    match free2 e r with
    | none => none
    | some r => freeAll l r

/-- An unkeyed mini allocator: the extent of its first metadata page, the extents
waiting for each batch, and the extents entered in its metadata
(mini_allocator.h:36-50).

Simplified: the metadata never needs a second extent. -/
structure Mini where
  head : Nat
  next : List Nat
  entries : List Nat
  deriving DecidableEq, Repr

/-- The loop over the batches in `mini_init` (mini_allocator.c:318-325). -/
def allocN (d : Disk) : Nat → Refs → Option (List Nat × Refs)
  | 0, r => some ([], r)
  | k + 1, r =>
    match alloc d r with
    | none => none
    | some (e, r) =>
      match allocN d k r with
      | none => none
      | some (l, r) => some (e :: l, r)

/-- An extent for the head and `mini_init` with no tail on it: the head gets one
more reference and each batch an extent (mini_allocator.c:299-327;
callers btree.c:1188-1235, shard_log.c:101-120, trunk.c:7670-7694). -/
def miniNew (d : Disk) (batches : Nat) (r : Refs) : Option (Mini × Refs) :=
  match alloc d r with
  | none => none
  | some (h, r) =>
    match allocN d batches (upd r h 3) with
    | none => none
    | some (l, r) => some ({ head := h, next := l, entries := [] }, r)

/-- `mini_init` with a tail: only the batches get extents
(mini_allocator.c:313-325). -/
def miniLoad (d : Disk) (h batches : Nat) (r : Refs) : Option (Mini × Refs) :=
  match allocN d batches r with
  | none => none
  | some (l, r) => some ({ head := h, next := l, entries := [] }, r)

/-- `mini_alloc` on batch 0 at the end of an extent: the waiting extent is
entered and another one waits (mini_allocator.c:590-601). -/
def miniTake (d : Disk) (m : Mini) (r : Refs) : Option (Mini × Refs) :=
  match m.next with
  | [] => none
  | x :: xs =>
    match alloc d r with
    | none => none
    | some (e, r) => some ({ m with next := e :: xs, entries := x :: m.entries }, r)

/-- `mini_release` (mini_allocator.c:630-648) of an unkeyed allocator. -/
def miniRelease (m : Mini) (r : Refs) : Option Refs := freeAll m.next r

/-- `mini_unkeyed_dec_ref` of the last reference (mini_allocator.c:1023-1044):
the entered extents are freed, then the head (`mini_deinit`, 665-690). -/
def miniDec (m : Mini) (r : Refs) : Option Refs :=
  match dec m.head 2 r with
  | none => none
  | some r =>
    match freeAll m.entries r with
    | none => none
    | some r => free2 m.head r

/-- `memtable_deinit` (memtable.c:294-301). -/
def memtableDeinit (m : Mini) (r : Refs) : Option Refs :=
  match miniRelease m r with
  | none => none
  | some r => miniDec m r

/-- `memtable_context_create` (memtable.c:320-323): `k` memtables with
`BTREE_MAX_HEIGHT` batches each. -/
def memtables (d : Disk) : Nat → Refs → Option (List Mini × Refs)
  | 0, r => some ([], r)
  | k + 1, r =>
    match miniNew d 8 r with
    | none => none
    | some (m, r) =>
      match memtables d k r with
      | none => none
      | some (l, r) => some (m :: l, r)

/-- `memtable_context_destroy` (memtable.c:338-343). -/
def memtablesDestroy : List Mini → Refs → Option Refs
  | [], r => some r
  | m :: l, r =>
    match memtableDeinit m r with
    | none => none
    | some r => memtablesDestroy l r

/-- What of the configuration matters: the number of memtables and `use_log`. -/
structure Cfg where
  mts : Nat
  useLog : Bool
  deriving DecidableEq, Repr

/-- An open table. -/
structure Table where
  mts : List Mini
  trunk : Mini
  log : Option Mini
  deriving DecidableEq, Repr

/-- `log_create` if the table has a log (trunk.c:7702-7705, 7818-7820;
shard_log.c:90-125): a new allocator with one batch. -/
def logOpen (d : Disk) (c : Cfg) (r : Refs) : Option (Option Mini × Refs) :=
  if c.useLog then
    match miniNew d 1 r with
    | none => none
    | some (m, r) => some (some m, r)
  else some (none, r)

/-- `trunk_mount` (trunk.c:7759-7857) of the table whose root is in extent `h`:
memtables, batches of the trunk, and a new log. -/
def mount (d : Disk) (c : Cfg) (h : Nat) (r : Refs) : Option (Table × Refs) :=
  match memtables d c.mts r with
  | none => none
  | some (ms, r) =>
    match miniLoad d h 8 r with
    | none => none
    | some (t, r) =>
      match logOpen d c r with
      | none => none
      | some (l, r) => some ({ mts := ms, trunk := t, log := l }, r)

/-- `trunk_create` (trunk.c:7645-7753): the root and the batches of the trunk,
memtables, a log, and the first leaf.

Simplified: the super block has its own extent outside this model. -/
def create (d : Disk) (c : Cfg) (r : Refs) : Option (Table × Refs) :=
  match miniNew d 8 r with
  | none => none
  | some (t, r) =>
    match memtables d c.mts r with
    | none => none
    | some (ms, r) =>
      match logOpen d c r with
      | none => none
      | some (l, r) =>
        match miniTake d t r with
        | none => none
        | some (t, r) => some ({ mts := ms, trunk := t, log := l }, r)

/-- The log fills an extent (`shard_log_alloc`, shard_log.c:83-88) `w` times.

Simplified: what the same insertions put into the memtables, and what becomes of
it in the trunk, is data and left out. -/
def logFill (d : Disk) : Nat → Table → Refs → Option (Table × Refs)
  | 0, t, r => some (t, r)
  | w + 1, t, r =>
    match t.log with
    | none => some (t, r)
    | some m =>
      match miniTake d m r with
      | none => none
      | some (m, r) => logFill d w { t with log := some m } r

/-- `trunk_prepare_for_shutdown` (trunk.c:7862-7895) with no data in the
memtables, as `trunk_unmount` (7965-7985) calls it: the memtables and the batches
of the trunk are given back; of the log only the handle is freed (7886-7888). -/
def unmount (t : Table) (r : Refs) : Option Refs :=
  match memtablesDestroy t.mts r with
  | none => none
  | some r => miniRelease t.trunk r

/-- `trunk_destroy` (trunk.c:7935-7959) of a table without data: the same and the
allocator of the trunk. -/
def destroy (t : Table) (r : Refs) : Option Refs :=
  match unmount t r with
  | none => none
  | some r => miniDec t.trunk r

/-- `shard_log_zap` (shard_log.c:127-139), which nothing outside the tests
calls. -/
def logZap (t : Table) (r : Refs) : Option Refs :=
  match t.log with
  | none => some r
  | some m => miniDec m r

/-- One session: mount, fill `w` extents of the log, unmount. -/
def session (d : Disk) (c : Cfg) (h w : Nat) (r : Refs) : Option Refs :=
  match mount d c h r with
  | none => none
  | some (t, r) =>
    match logFill d w t r with
    | none => none
    | some (t, r) => unmount t r

/-- Sessions one after the other. -/
def sessions (d : Disk) (c : Cfg) (h : Nat) : List Nat → Refs → Option Refs
  | [], r => some r
  | w :: ws, r =>
    match session d c h w r with
    | none => none
    | some r => sessions d c h ws r

/-- The number of extents in use (`curr_allocated`). -/
def used : Nat → Refs → Nat
  | 0, _ => 0
  | n + 1, r => used n r + if r n = 0 then 0 else 1

end Splinter.OpenSpace
