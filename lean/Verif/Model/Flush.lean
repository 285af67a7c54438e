/-!
# Writing back and evicting pages of the cache

src/clockcache.c: `clockcache_batch_start_writeback`, `clockcache_write_callback`, `clockcache_flush`, `clockcache_try_evict`, `clockcache_evict_batch`,
`clockcache_evict_all`, as functions of the state when only one thread works on the cache. C21 and C22 (`Model/Cache.lean`) are about interleavings, with one page written at a time; here
are the loops, the extension of a write to neighbours in the extent, and the vector of pages given to the device.

Simplified: addresses are numbers of pages; the page before address 0 is in no extent of the device (the address wraps to the end of 64 bits). A write is done
when `io_write_async` returns (C59: it cleans up all I/Os of the process). The counters of readers of an entry are one number.
-/
namespace Splinter.Flush

/-- Flags of an entry (clockcache.c 556-562); `⟨false, …⟩` is `CC_CLEANABLE1_STATUS`. -/
structure Status where
  free : Bool
  accessed : Bool
  clean : Bool
  writeback : Bool
  loading : Bool
  writelocked : Bool
  claimed : Bool
deriving DecidableEq, Repr

def stFree : Status := ⟨true, false, false, false, false, false, false⟩
def stEvictable : Status := ⟨false, false, true, false, false, false, false⟩
def stCleanable1 : Status := ⟨false, false, false, false, false, false, false⟩
def stCleanable2 : Status := ⟨false, true, false, false, false, false, false⟩

/-- `clockcache_entry`, with its counters. `page = none`: `CC_UNMAPPED_ADDR`. -/
structure Entry where
  page : Option Nat
  data : Nat
  st : Status
  ref : Nat
  pin : Nat
deriving DecidableEq, Repr

/-- An asynchronous write: the first page and the entry of each page. -/
structure Req where
  first : Nat
  iov : List (Option Nat)
deriving DecidableEq, Repr

/-- `lookup p = none`: `CC_UNMAPPED_ENTRY`. `reqs`: the writes so far. -/
structure State where
  entry : Nat → Entry
  lookup : Nat → Option Nat
  dev : Nat → Nat
  reqs : List Req

/-- `cap` batches of 64 entries, `ppe` pages per extent. -/
structure Par where
  cap : Nat
  ppe : Nat

def batchSize : Nat := 64

def upd {α : Type} (f : Nat → α) (k : Nat) (v : α) : Nat → α := fun j => if j = k then v else f j

def State.setSt (s : State) (e : Nat) (st : Status) : State := { s with entry := upd s.entry e { s.entry e with st := st } }

/-- `clockcache_ok_to_writeback` (1198-1210). -/
def okToWriteback (urgent : Bool) (st : Status) : Bool := st = stCleanable1 || (urgent && st = stCleanable2)

/-- `clockcache_try_set_writeback` (1221-1247). -/
def trySet (urgent : Bool) (s : State) (e : Nat) : Option State :=
  if (s.entry e).st = stCleanable1 then some (s.setSt e { stCleanable1 with writeback := true })
  else if urgent && (s.entry e).st = stCleanable2 then some (s.setSt e { stCleanable2 with writeback := true })
  else none

/-- Walk backwards (1352-1362) from page `p` in the extent of page `a`; gives the first page of the write. -/
def walkBack (P : Par) (urgent : Bool) (a : Nat) : Nat → State → State × Nat
  | 0, s => (s, 0)
  | p + 1, s =>
    if p / P.ppe = a / P.ppe then
      match s.lookup p with
      | none => (s, p + 1)
      | some e => match trySet urgent s e with
        | none => (s, p + 1)
        | some s' => walkBack P urgent a p s'
    else (s, p + 1)

/-- Walk forwards (1365-1375) from page `p`; gives the page after the write. `fuel`: pages that may be in the extent. -/
def walkFwd (P : Par) (urgent : Bool) (a : Nat) : Nat → Nat → State → State × Nat
  | 0, p, s => (s, p + 1)
  | fuel + 1, p, s =>
    if (p + 1) / P.ppe = a / P.ppe then
      match s.lookup (p + 1) with
      | none => (s, p + 1)
      | some e => match trySet urgent s e with
        | none => (s, p + 1)
        | some s' => walkFwd P urgent a fuel (p + 1) s'
    else (s, p + 1)

/-- What is at a place of the vector. -/
def iovData (s : State) : Option Nat → Nat
  | some e => (s.entry e).data
  | none => 0

/-- The device writes the vector (1397-1404). -/
def devWrite (s : State) : Nat → List (Option Nat) → Nat → Nat
  | _, [] => s.dev
  | p, o :: l => upd (devWrite s (p + 1) l) p (iovData s o)

/-- `clockcache_write_callback` (1263-1298). -/
def callback (s : State) : List (Option Nat) → State
  | [] => s
  | none :: l => callback s l
  | some e :: l => callback (s.setSt e { (s.entry e).st with clean := true, writeback := false }) l

/-- `clockcache_batch_start_writeback`, one entry (1339-1405). -/
def startOne (P : Par) (urgent : Bool) (s : State) (e : Nat) : State :=
  match okToWriteback urgent (s.entry e).st, trySet urgent s e, (s.entry e).page with
  | true, some s1, some a =>
    let (s2, first) := walkBack P urgent a a s1
    let (s3, last) := walkFwd P urgent a P.ppe a s2
    let iov := (List.range' first (last - first)).map s3.lookup
    callback { s3 with dev := devWrite s3 first iov, reqs := s3.reqs ++ [⟨first, iov⟩] } iov
  | _, _, _ => s

/-- `clockcache_batch_start_writeback` (1314-1408). -/
def startBatch (P : Par) (urgent : Bool) (s : State) (b : Nat) : State :=
  (List.range' (b * batchSize) batchSize).foldl (startOne P urgent) s

/-- `clockcache_flush` (1687-1707). -/
def flush (P : Par) (s : State) : State := (List.range P.cap).foldl (startBatch P true) s

/-- `clockcache_try_evict` (1425-1524): the tests of 1445 and 1489, and of the readers in `clockcache_try_get_write`; the locks are taken and given back. -/
def tryEvict (s : State) (e : Nat) : State :=
  let x := s.entry e
  let s1 := s.setSt e { x.st with accessed := false }
  if x.st ≠ stEvictable ∨ x.ref ≠ 0 ∨ x.pin ≠ 0 then s1
  else match x.page with
    | some p => { s1 with entry := upd s1.entry e { x with page := none, st := stFree }, lookup := upd s1.lookup p none }
    | none => s1.setSt e stFree

/-- `clockcache_evict_batch` (1532-1552). -/
def evictBatch (s : State) (b : Nat) : State := (List.range' (b * batchSize) batchSize).foldl tryEvict s

/-- `clockcache_evict_all` (1716-1743). -/
def evictAll (P : Par) (s : State) : State := (List.range P.cap).foldl (fun s b => evictBatch (evictBatch s b) b) s

end Splinter.Flush
