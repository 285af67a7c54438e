/-!
# The distributed reader-writer lock

src/platform_linux/platform.c:313-429, one lock index. Every step is one atomic access of one
thread; memory accesses are sequentially consistent (the `__sync` operations used are full
barriers except `__sync_lock_test_and_set`, an acquire operation, and `__sync_lock_release`, a
release operation). Sleeping is left out. `N` is `MAX_THREADS`.
-/
namespace Splinter.RwLock

/-- Where a thread is, with respect to the lock. -/
inductive PC where
  /-- outside -/
  | idle
  /-- `get`, waiting for the flag to be clear (lines 405-408) -/
  | spin
  /-- `get`, flag was clear, counter not yet incremented (line 410) -/
  | enter
  /-- `get`, counter incremented, flag not yet read again (line 412) -/
  | probe
  /-- `get`, flag was set, counter not yet decremented (line 415) -/
  | back
  /-- holds a read lock -/
  | reading
  /-- `try_claim` won, counter not yet decremented (line 366) -/
  | claiming
  /-- holds the claim -/
  | claimed
  /-- `lock`, waiting for the counters from `i` on (lines 322-329) -/
  | draining (i : Nat)
  /-- holds the write lock -/
  | writing
  /-- `unclaim`, counter incremented, claim not yet released (line 389) -/
  | unclaiming
deriving DecidableEq, Repr

/-- `platform_batch_rwlock` at one index, and the threads. -/
structure State where
  count : Nat → Nat
  claim : Bool
  lock : Bool
  pc : Nat → PC

/-- Calls a thread may make; `tick` continues a call. -/
inductive Act where
  | get | unget | tryClaim | unclaim | lock | unlock | tick
deriving DecidableEq, Repr

inductive Res where
  /-- not a call this thread can make now -/
  | blocked
  /-- an assertion fails -/
  | fault
  | ok (s : State)

def upd {α : Type} (f : Nat → α) (i : Nat) (v : α) : Nat → α := fun j => if j = i then v else f j

/-- `ZERO_CONTENTS` (platform.c:296-300). -/
def init : State := ⟨fun _ => 0, false, false, fun _ => .idle⟩

def step (N : Nat) (s : State) (t : Nat) (a : Act) : Res :=
  if N ≤ t then .blocked
  else
    let c := s.count t
    let inc := upd s.count t ((c + 1) % 256)
    let dec := upd s.count t ((c + 255) % 256)
    match s.pc t, a with
    -- get (400-420)
    | .idle, .get => .ok { s with pc := upd s.pc t .spin }
    | .spin, .tick =>
      if s.lock then .ok s
      else .ok { s with pc := upd s.pc t .enter }
    | .enter, .tick =>
      if c = 0 then .ok { s with count := inc, pc := upd s.pc t .probe } else .fault
    | .probe, .tick => if s.lock then .ok { s with pc := upd s.pc t .back } else .ok { s with pc := upd s.pc t .reading }
    | .back, .tick => if c = 1 then .ok { s with count := dec, pc := upd s.pc t .spin } else .fault
    -- unget (422-429)
    | .reading, .unget => if c = 1 then .ok { s with count := dec, pc := upd s.pc t .idle } else .fault
    -- try_claim (358-370)
    | .reading, .tryClaim =>
      if c = 0 then .fault
      else if s.claim then .ok s
      else .ok { s with claim := true, pc := upd s.pc t .claiming }
    | .claiming, .tick => if 0 < c then .ok { s with count := dec, pc := upd s.pc t .claimed } else .fault
    -- lock (313-330)
    | .claimed, .lock =>
      if s.claim = false then .fault
      else if s.lock then .fault
      else .ok { s with lock := true, pc := upd s.pc t (.draining 0) }
    | .draining i, .tick =>
      if i < N then
        if s.count i ≠ 0 then .ok s else .ok { s with pc := upd s.pc t (.draining (i + 1)) }
      else .ok { s with pc := upd s.pc t .writing }
    -- unlock (332-336)
    | .writing, .unlock => .ok { s with lock := false, pc := upd s.pc t .claimed }
    -- unclaim (384-390)
    | .claimed, .unclaim => .ok { s with count := inc, pc := upd s.pc t .unclaiming }
    | .unclaiming, .tick => .ok { s with claim := false, pc := upd s.pc t .reading }
    | _, _ => .blocked

/-- States reached by any interleaving of any threads. -/
inductive Reachable (N : Nat) : State → Prop
  | init : Reachable N init
  | step {s s' : State} (t : Nat) (a : Act) : Reachable N s → step N s t a = .ok s' → Reachable N s'

end Splinter.RwLock
