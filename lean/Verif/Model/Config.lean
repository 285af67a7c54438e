/-!
# Configuration (src/splinterdb.c 70-231, src/io.h 197-221, src/platform_linux/laio.c, src/allocator.c,
src/clockcache.c, src/task.c, src/trunk.c)

What `splinterdb_create` and `splinterdb_open` do with a configuration, up to the point where the subsystems run.
`uint64` values are natural numbers below `2 ^ 64`; every operation that may wrap is written with `% W`.

Simplifications: pointers are described by whether they are NULL; strings by their length; allocation does not fail;
settings that are only handed on and never looked at (log handles, statistics flags, shared memory) are left out, except those that the
properties speak about. The sizes of `trunk_hdr`, `trunk_pivot_data` and `trunk_branch` are parameters.
-/
namespace Splinter.Config

/-- `2 ^ 64` -/
def W : Nat := 18446744073709551616

/-- `splinterdb_config` (include/splinterdb/splinterdb.h 42-147) and what is used of `data_config`. -/
structure Cfg where
  hasName : Bool
  nameLen : Nat
  cacheSize : Nat
  diskSize : Nat
  maxKey : Nat
  hasCompare : Bool
  hasHash : Bool
  hasKeyString : Bool
  hasMsgString : Bool
  pageSize : Nat
  extentSize : Nat
  ioFlags : Nat
  ioPerms : Nat
  ioDepth : Nat
  memtableThreads : Nat
  normalThreads : Nat
  roughHeight : Nat
  remainderSize : Nat
  indexSize : Nat
  useLog : Bool
  memtableCapacity : Nat
  fanout : Nat
  maxBranches : Nat
  useStats : Nat
  reclaim : Nat
  queueScale : Nat
deriving DecidableEq, Repr

/-- Sizes of on-disk structures. -/
structure Sizes where
  hdr : Nat
  pivot : Nat
  branch : Nat

/-- `splinterdb_config_set_defaults` (70-114). `O_RDWR | O_CREAT` is 66, `0755` is 493. -/
def setDefaults (c : Cfg) : Cfg :=
  let c := if c.pageSize = 0 then { c with pageSize := 4096 } else c
  let c := if c.extentSize = 0 then { c with extentSize := 32 * 4096 } else c
  let c := if c.ioFlags = 0 then { c with ioFlags := 66 } else c
  let c := if c.ioPerms = 0 then { c with ioPerms := 493 } else c
  let c := if c.ioDepth = 0 then { c with ioDepth := 256 } else c
  let c := if c.roughHeight = 0 then { c with roughHeight := 1 } else c
  let c := if c.indexSize = 0 then { c with indexSize := 512 } else c
  let c := if c.remainderSize = 0 then { c with remainderSize := 4 } else c
  let c := if c.memtableCapacity = 0 then { c with memtableCapacity := 24 * 1048576 } else c
  let c := if c.fanout = 0 then { c with fanout := 8 } else c
  let c := if c.maxBranches = 0 then { c with maxBranches := 24 } else c
  if c.reclaim = 0 then { c with reclaim := W - 1 } else c

/-- The configurations of the subsystems. -/
structure Kvs where
  -- io_config
  pageSize : Nat
  extentSize : Nat
  ioFlags : Nat
  ioPerms : Nat
  asyncQueue : Nat
  kernelQueue : Nat
  asyncMaxPages : Nat
  -- allocator_config
  capacity : Nat
  pageCapacity : Nat
  extentCapacity : Nat
  extentMask : Nat
  -- clockcache_config
  cacheCapacity : Nat
  cachePages : Nat
  logPageSize : Nat
  -- task_system_config
  memtableThreads : Nat
  normalThreads : Nat
  -- trunk_config
  fanout : Nat
  maxPivotKeys : Nat
  maxBranches : Nat
  hardMaxBranches : Nat
  reclaim : Nat
  queueScale : Nat
  useLog : Bool
  maxExtentsPerMemtable : Nat
  maxKvBytes : Nat
  maxTuples : Nat
  indexSize : Nat
  logIndexSize : Nat
  fingerprintSize : Nat
deriving DecidableEq, Repr

/-- How a function ends. -/
inductive Res (A : Type) where
  | ok (a : A)
  /-- `STATUS_BAD_PARAM` -/
  | bad
  /-- `platform_assert` -/
  | abort
  /-- undefined behaviour -/
  | ub
  /-- does not end -/
  | hang
deriving DecidableEq, Repr

def Res.bind {A B : Type} : Res A → (A → Res B) → Res B
  | .ok a, f => f a
  | .bad, _ => .bad
  | .abort, _ => .abort
  | .ub, _ => .ub
  | .hang, _ => .hang

/-- `MAX_STRING_LENGTH` (src/platform_linux/platform.h) -/
def maxString : Nat := 256

/-- `splinterdb_validate_app_data_config` (116-126). -/
def validData (c : Cfg) : Res Unit :=
  if c.maxKey > 0 ∧ c.hasCompare ∧ c.hasHash ∧ c.hasKeyString ∧ c.hasMsgString then .ok () else .abort

/-- `laio_config_valid` (laio.c 609-641). -/
def laioValid (pageSize extentSize : Nat) : Bool := pageSize = 4096 && extentSize = 32 * 4096

/-- `task_config_valid` (task.c 842-857). -/
def taskValid (normal memtable : Nat) : Bool := (normal + memtable) % W < 64

/-- The loop at the end of `trunk_config_init` (trunk.c 9775-9787): `index_size` is a `uint32`. Doubled 32 times it is 0,
and stays below any limit. -/
def growIndex (limit : Nat) : Nat → Nat → Nat → Res (Nat × Nat)
  | 0, _, _ => .hang
  | k + 1, i, l => if i ≤ limit then growIndex limit k (2 * i % 4294967296) (l + 1) else .ok (i, l)

/-- `trunk_config_init` (trunk.c 9615-9791). -/
def trunkInit (z : Sizes) (c : Cfg) (k : Kvs) : Res Kvs :=
  let maxPivotKeys := (c.fanout + 6) % W
  let pivotSize := (c.maxKey + z.pivot) % W
  let pivotBytes := maxPivotKeys * pivotSize % W
  let branchBytes := c.maxBranches * z.branch % W
  let minSize := (z.hdr + pivotBytes + branchBytes) % W
  -- `available_pivot_bytes / max_pivot_keys`
  if maxPivotKeys = 0 then .ub
  else if minSize ≥ k.pageSize then .bad
  else
    let bytesForBranches := (k.pageSize + W - z.hdr + W - pivotBytes) % W
    -- memtable_config_init (memtable.c 351-363)
    let maxExtents := 2 * c.memtableCapacity % W / k.extentSize
    let maxKv := c.fanout * maxExtents % W * k.extentSize % W / 2
    let maxTuples := maxKv / 32
    let index := c.indexSize % 4294967296
    -- `__builtin_clz(0)`
    if index = 0 ∨ maxTuples = 0 ∨ c.maxBranches = 0 then .ub
    else
      let fpSize := (c.remainderSize + (Nat.log2 maxTuples + 1)) % W
      let valueSize := Nat.log2 c.maxBranches + 1
      let fpMax := (32 + W - valueSize) % W
      let addrsPerPage := k.pageSize / 8
      let pagesPerExtent := k.extentSize / k.pageSize
      (growIndex (maxTuples / (addrsPerPage * pagesPerExtent)) 33 index (Nat.log2 index)).bind fun (i, l) =>
        .ok { k with
          fanout := c.fanout, maxPivotKeys := maxPivotKeys, maxBranches := c.maxBranches,
          hardMaxBranches := (bytesForBranches / z.branch + W - 1) % W, reclaim := c.reclaim, queueScale := c.queueScale,
          useLog := c.useLog, maxExtentsPerMemtable := maxExtents, maxKvBytes := maxKv, maxTuples := maxTuples,
          indexSize := i, logIndexSize := l, fingerprintSize := if fpSize > fpMax then fpMax else fpSize }

/-- `splinterdb_init_config` (145-231). -/
def initConfig (z : Sizes) (c0 : Cfg) : Res Kvs :=
  (validData c0).bind fun _ =>
  if !c0.hasName || c0.cacheSize = 0 || c0.diskSize = 0 then .bad
  else
    let c := setDefaults c0
    -- io_config_init (io.h 197-221)
    if c.nameLen ≥ maxString then .abort
    else
      let k : Kvs := {
        pageSize := c.pageSize, extentSize := c.extentSize, ioFlags := c.ioFlags, ioPerms := c.ioPerms,
        asyncQueue := c.ioDepth, kernelQueue := c.ioDepth, asyncMaxPages := c.extentSize / c.pageSize
        capacity := 0, pageCapacity := 0, extentCapacity := 0, extentMask := 0, cacheCapacity := 0, cachePages := 0,
        logPageSize := 0, memtableThreads := 0, normalThreads := 0, fanout := 0, maxPivotKeys := 0, maxBranches := 0,
        hardMaxBranches := 0, reclaim := 0, queueScale := 0, useLog := false, maxExtentsPerMemtable := 0, maxKvBytes := 0,
        maxTuples := 0, indexSize := 0, logIndexSize := 0, fingerprintSize := 0 }
      if !laioValid k.pageSize k.extentSize then .bad
      else
        -- allocator_config_init (allocator.c 13-27), clockcache_config_init (clockcache.c 1753-1772)
        let k := { k with
          capacity := c.diskSize, pageCapacity := c.diskSize / k.pageSize, extentCapacity := c.diskSize / k.extentSize,
          extentMask := W - 2 ^ Nat.log2 k.extentSize,
          cacheCapacity := c.cacheSize, cachePages := c.cacheSize / k.pageSize, logPageSize := Nat.log2 k.pageSize }
        -- task_system_config_init (task.c 859-877)
        if !taskValid c0.normalThreads c0.memtableThreads then .bad
        else
          let k := { k with memtableThreads := c0.memtableThreads, normalThreads := c0.normalThreads }
          trunkInit z c k

/-- `rc_allocator_valid_config` (rc_allocator.c 268-308). -/
def allocatorValid (k : Kvs) : Bool :=
  laioValid k.pageSize k.extentSize && k.capacity != 0 && k.extentCapacity != 0 &&
  k.capacity == k.pageSize * k.pageCapacity % W && k.capacity == k.extentSize * k.extentCapacity % W

/-- The assertions of `clockcache_init` (clockcache.c 1802-1804); cache lines have 64 bytes. -/
def cacheValid (k : Kvs) : Bool :=
  k.cachePages % 64 == 0 && k.cacheCapacity == k.cachePages * 2 ^ k.logPageSize % W

/-- `splinterdb_create_or_open` (237-395) up to `trunk_create` or `trunk_mount`: the outcome, and whether the file has
been opened, which creates it, and enlarged to 128 KiB (`io_handle_init`, laio.c 155-202). -/
def openDb (z : Sizes) (c : Cfg) : Res Kvs × Bool :=
  match initConfig z c with
  | .ok k =>
    if k.asyncQueue % 32 ≠ 0 then (.abort, false)
    else if !allocatorValid k then (.bad, true)
    else if !cacheValid k then (.abort, true)
    else (.ok k, true)
  | r => (r, false)

end Splinter.Config
