/-!
# Thread slots

src/task.c:24-37 and 52-137. One bit per slot, 1 = free, guarded by a spin lock. `MAX_THREADS` is 64
(platform_linux/platform.h:73), so the array of bit masks has one word and the loop of lines 68-72 runs
once. Every step below is one atomic access by one thread.
-/
namespace Splinter.Tid

/-- `__builtin_ffsl` minus one: position of the lowest set bit. -/
def ffs (w : BitVec 64) : Option Nat := (List.range 64).find? (fun i => w.getLsbD i)

/-- Where a thread is. `a…` is inside `task_allocate_threadid`, `d…` inside `task_deallocate_threadid`. -/
inductive PC where
  | idle
  /-- spinning for the lock, task.c:62-64 -/
  | aWait
  /-- task.c:69-71 -/
  | aRead
  /-- `pos == 0`, task.c:74-78 -/
  | aFail
  /-- compare-and-swap, task.c:83-88 -/
  | aCas (old : BitVec 64) (tid : Nat)
  /-- lock release, task.c:90 -/
  | aRel (tid : Nat)
  /-- read of `max_tid`, task.c:98, 100 -/
  | aMax (tid : Nat)
  /-- loop test and compare-and-swap, task.c:99 -/
  | aMaxCas (tid tmp : Nat)
  /-- registered -/
  | held (tid : Nat)
  /-- spinning for the lock, task.c:114-116 -/
  | dWait (tid : Nat)
  /-- read and assertion, task.c:118-124 -/
  | dCheck (tid : Nat)
  /-- read, task.c:127-128, 132-133 -/
  | dRead (tid : Nat)
  /-- compare-and-swap, task.c:129-131 -/
  | dCas (tid : Nat) (tmp : BitVec 64)
  /-- lock release, task.c:136 -/
  | dRel
deriving DecidableEq

structure State where
  mask : BitVec 64
  lock : Bool
  maxTid : Nat
  pc : Nat → PC

/-- `task_init_tid_bitmask` (task.c:23-37). -/
def init : State := ⟨BitVec.allOnes 64, false, 0, fun _ => .idle⟩

inductive Res where
  | blocked
  /-- a `platform_assert` fails -/
  | fault
  | ok (s : State)

def upd (f : Nat → PC) (t : Nat) (p : PC) : Nat → PC := fun j => if j = t then p else f j

def State.goto (s : State) (t : Nat) (p : PC) : State := { s with pc := upd s.pc t p }

/-- The next step of thread `t`. -/
def step (s : State) (t : Nat) : Res :=
  match s.pc t with
  | .idle => .ok (s.goto t .aWait)
  | .aWait => if s.lock then .blocked else .ok ({ s with lock := true }.goto t .aRead)
  | .aRead =>
    match ffs s.mask with
    | none => .ok (s.goto t .aFail)
    | some pos => .ok (s.goto t (.aCas s.mask pos))
  | .aFail => .ok ({ s with lock := false }.goto t .idle)
  | .aCas old tid =>
    if s.mask = old then .ok ({ s with mask := old &&& ~~~(1#64 <<< tid) }.goto t (.aRel tid)) else .fault
  | .aRel tid => .ok ({ s with lock := false }.goto t (.aMax tid))
  | .aMax tid => .ok (s.goto t (.aMaxCas tid s.maxTid))
  | .aMaxCas tid tmp =>
    if tmp < tid then
      if s.maxTid = tmp then .ok ({ s with maxTid := tid }.goto t (.held tid)) else .ok (s.goto t (.aMax tid))
    else .ok (s.goto t (.held tid))
  | .held tid => .ok (s.goto t (.dWait tid))
  | .dWait tid => if s.lock then .blocked else .ok ({ s with lock := true }.goto t (.dCheck tid))
  | .dCheck tid => if s.mask &&& (1#64 <<< (tid % 64)) ≠ 0#64 then .fault else .ok (s.goto t (.dRead tid))
  | .dRead tid => .ok (s.goto t (.dCas tid s.mask))
  | .dCas tid tmp =>
    if s.mask = tmp then .ok ({ s with mask := tmp ||| (1#64 <<< (tid % 64)) }.goto t .dRel) else .ok (s.goto t (.dRead tid))
  | .dRel => .ok ({ s with lock := false }.goto t .idle)

inductive Reachable : State → Prop
  | init : Reachable init
  | step {s s' : State} (t : Nat) : Reachable s → step s t = .ok s' → Reachable s'

end Splinter.Tid
