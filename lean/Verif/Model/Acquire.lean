/-
What opening a store takes from the system, and what is given back.

`splinterdb_create_or_open` (splinterdb.c:231-390) builds the parts of a store in
order; if one cannot be built it jumps to a label and gives back the parts built
so far. `splinterdb_close` (splinterdb.c:419-460) gives back all of them.

Simplified: the memtables, mini allocator, log and statistics of the trunk are
left out, as their failures are assertions and not errors; the
background threads of a group count as joined when its condition variable is
destroyed; registering the calling thread succeeds; memory taken from a heap
counts as held until freed, even if the heap is destroyed.
-/

namespace Splinter.Acquire

/-- Things taken from the system. -/
inductive Res
  /-- the shared segment, `platform_heap_create` (splinterdb.c:251) -/
  | heap
  /-- the `splinterdb` structure (splinterdb.c:268) -/
  | handle
  /-- the open file (laio.c:179-182) -/
  | fd
  /-- the array of asynchronous requests (laio.c:212) -/
  | reqs
  /-- the `task_system` structure (task.c:899) -/
  | tasks
  /-- the scratch space and number of the calling thread (task.c:915) -/
  | thread
  /-- the condition variable of a group of tasks (task.c:617) -/
  | cv (normal : Bool)
  /-- the lock, meta page and reference counts of the allocator
  (rc_allocator.c:342-356, 418-439) -/
  | lock | metaPage | refs
  /-- the arrays and buffers of the cache (clockcache.c:1821-1877) -/
  | lookup | entry | data | refcount | pincount | busy
  /-- the `trunk_handle` structure and the mutex of its queue
  (trunk.c:7770, 7781) -/
  | spl | srq
  deriving DecidableEq, Repr

/-- Places where opening can fail. -/
inductive Step
  | heap | handle | config | ioConfig | openFile | stat | falloc
  | taskConfig | tasks | cv (normal : Bool) | threads (normal : Bool)
  | alConfig | lock | metaPage | refs
  | lookup | entry | data | refcount | pincount | busy
  /-- the super block is there, and says the store was unmounted -/
  | superBlock
  deriving DecidableEq, Repr

/-- What is held, what was given back (latest first), and how often something
not held was used or given back. -/
structure St where
  held : List Res
  given : List Res
  bad : Nat
  deriving DecidableEq, Repr

/-- Take a thing. -/
def take (r : Res) (s : St) : St := { s with held := r :: s.held }

/-- Use a thing. -/
def use (r : Res) (s : St) : St := if r ∈ s.held then s else { s with bad := s.bad + 1 }

/-- Give a thing back. -/
def give (r : Res) (s : St) : St :=
  if r ∈ s.held then { s with held := s.held.erase r, given := r :: s.given }
  else { s with bad := s.bad + 1 }

/-- Give back if held: `clockcache_deinit` looks at each pointer first. -/
def giveIf (b : Bool) (r : Res) (s : St) : St := if b then give r s else s

/-- `io_handle_init` (laio.c:158-235). A failing `fstat` or `fallocate` returns
with the file open (191-201). -/
def ioInit (ok : Step → Bool) (s : St) : Bool × St :=
  if !ok .ioConfig then (false, s)
  else if !ok .openFile then (false, s)
  else if !ok .stat then (false, take .fd s)
  else if !ok .falloc then (false, take .fd s)
  else (true, take .reqs (take .fd s))

/-- `io_handle_deinit` (laio.c:240-263). -/
def ioDeinit (s : St) : St := give .reqs (give .fd s)

/-- `task_group_init` (task.c:604-642). -/
def groupInit (ok : Step → Bool) (g : Bool) (s : St) : Bool × St :=
  if !ok (.cv g) then (false, s)
  else if !ok (.threads g) then (false, give (.cv g) (take (.cv g) s))
  else (true, take (.cv g) s)

/-- `task_system_destroy` (task.c:952-974): both groups, then the calling thread
if it is registered, then the structure. -/
def tasksDestroy (registered : Bool) (s : St) : St :=
  give .tasks (giveIf registered .thread (give (.cv true) (give (.cv false) s)))

/-- `task_system_create` (task.c:888-943). When a group fails, the thread is
deregistered and the whole system destroyed (923-927). -/
def tasksCreate (ok : Step → Bool) (s : St) : Bool × St :=
  if !ok .taskConfig then (false, s)
  else if !ok .tasks then (false, s)
  else
    let s := take .thread (take .tasks s)
    match groupInit ok false s with
    | (false, s) => (false, tasksDestroy false (give .thread s))
    | (true, s) =>
      match groupInit ok true s with
      | (false, s) => (false, tasksDestroy false (give .thread s))
      | (true, s) => (true, s)

/-- `rc_allocator_init` (rc_allocator.c:320-383) and `rc_allocator_mount`
(rc_allocator.c:402-473); only the first looks at the configuration (337). -/
def alInit (ex : Bool) (ok : Step → Bool) (s : St) : Bool × St :=
  if !ex && !ok .alConfig then (false, s)
  else if !ok .lock then (false, s)
  else if !ok .metaPage then (false, give .lock (take .lock s))
  else if !ok .refs then
    let s := take .metaPage (take .lock s)
    (false, if ex then give .lock (give .metaPage s) else give .metaPage (give .lock s))
  else (true, take .refs (take .metaPage (take .lock s)))

/-- `rc_allocator_unmount`, `rc_allocator_deinit` (rc_allocator.c:385-392, 476-488). -/
def alUnmount (s : St) : St := give .metaPage (give .lock (give .refs s))

/-- `clockcache_deinit` (clockcache.c:1897-1935) of a cache that got as far as its
first `n` parts. -/
def ccDeinit (n : Nat) (s : St) : St :=
  giveIf (decide (6 ≤ n)) .busy
    (giveIf (decide (5 ≤ n)) .pincount
      (giveIf (decide (4 ≤ n)) .refcount
        (giveIf (decide (3 ≤ n)) .data
          (giveIf (decide (2 ≤ n)) .entry
            (giveIf (decide (1 ≤ n)) .lookup s)))))

/-- `clockcache_init` (clockcache.c:1774-1889): six parts in order; `alloc_error`
gives back those there are. -/
def ccInit (ok : Step → Bool) (s : St) : Bool × St :=
  if !ok .lookup then (false, ccDeinit 0 s)
  else
  let s := take .lookup s
  if !ok .entry then (false, ccDeinit 1 s)
  else
  let s := take .entry s
  if !ok .data then (false, ccDeinit 2 s)
  else
  let s := take .data s
  if !ok .refcount then (false, ccDeinit 3 s)
  else
  let s := take .refcount s
  if !ok .pincount then (false, ccDeinit 4 s)
  else
  let s := take .pincount s
  if !ok .busy then (false, ccDeinit 5 s)
  else (true, take .busy s)

/-- `trunk_create` (trunk.c:7645-7757), which does not fail, and `trunk_mount`
(trunk.c:7762-7871), which frees the structure if there is nothing to mount
(7800-7811) and leaves the queue's mutex. -/
def trunkStart (ex : Bool) (ok : Step → Bool) (s : St) : Bool × St :=
  let s := take .srq (take .spl s)
  if ex && !ok .superBlock then (false, give .spl s)
  else (true, s)

/-- The label `deinit_kvhandle` (splinterdb.c:371-389). -/
def dropHandle (created : Bool) (s : St) : St :=
  giveIf created .heap (give .handle s)

/-- `splinterdb_create_or_open` (splinterdb.c:231-390). `shm`: a shared segment is
wanted and the caller has none. `ex`: `open_existing`. `ok`: which steps succeed.
The result is whether a store was opened. -/
def openStore (shm ex : Bool) (ok : Step → Bool) (s : St) : Bool × St :=
  if shm && !ok .heap then (false, s)
  else
  let s := if shm then take .heap s else s
  if !ok .handle then (false, giveIf shm .heap s)
  else
  let s := take .handle s
  if !ok .config then (false, dropHandle shm s)
  else
  match ioInit ok s with
  | (false, s) => (false, dropHandle shm s)
  | (true, s) =>
  match tasksCreate ok s with
  | (false, s) => (false, dropHandle shm (ioDeinit s))
  | (true, s) =>
  match alInit ex ok s with
  | (false, s) => (false, dropHandle shm (ioDeinit (tasksDestroy true s)))
  | (true, s) =>
  match ccInit ok s with
  | (false, s) => (false, dropHandle shm (ioDeinit (tasksDestroy true (alUnmount s))))
  | (true, s) =>
  match trunkStart ex ok s with
  | (false, s) =>
    (false, dropHandle shm (ioDeinit (tasksDestroy true (alUnmount (ccDeinit 6 s)))))
  | (true, s) => (true, s)

/-- `trunk_unmount` (trunk.c:7966-7986): the queue's mutex is destroyed before the
last tasks are done. `busy`: one of them uses the queue. -/
def trunkUnmount (busy : Bool) (s : St) : St :=
  let s := give .srq s
  give .spl (if busy then use .srq s else s)

/-- `splinterdb_close` (splinterdb.c:418-460). -/
def closeStore (shm busy : Bool) (s : St) : St :=
  dropHandle shm (ioDeinit (tasksDestroy true (alUnmount (ccDeinit 6 (trunkUnmount busy s)))))

/-- One session: open, and close if that worked. -/
structure Session where
  shm : Bool
  ex : Bool
  ok : Step → Bool
  busy : Bool

/-- Run a session. -/
def Session.run (c : Session) (s : St) : St :=
  match openStore c.shm c.ex c.ok s with
  | (false, s) => s
  | (true, s) => closeStore c.shm c.busy s

end Splinter.Acquire
