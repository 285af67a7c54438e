/-!
# Task groups

src/task.c:452-818. A task system has two groups (`TASK_TYPE_MEMTABLE` = 1, `TASK_TYPE_NORMAL` = 2), each
with a linked queue, two counters and a mutex. A step below is one lock operation or one piece of code
between two accesses that another thread can observe. Simplifications:

* Task records are numbered instead of addressed and numbers are not reused; `prev` links, which nothing
  reads, are left out; a record's `next` is kept per group, as a record is only ever in one.
* A waiting worker (`platform_condvar_wait`) releases the lock and competes for it again; wake-ups are not
  modelled, so nothing is said about liveness. Worker exit (`bg.stop`) and statistics are left out.
* What a task does while it runs (including enqueuing) is the work of another thread of the model, so
  every real interleaving is among those of the model.
* The unlocked pre-check of `task_group_perform_one` (lines 716-721) may go either way.
-/
namespace Splinter.Task

/-- Where a thread is; `w` tells a worker from a foreground thread. -/
inductive PC where
  | idle
  /-- `task_enqueue` of record `t`, waiting for the lock (task.c:666) -/
  | eLock (g t : Nat) (atHead : Bool)
  /-- task.c:672-685 -/
  | eBody (g t : Nat) (atHead : Bool)
  /-- task.c:687 -/
  | eCount (g : Nat)
  /-- task.c:700 -/
  | eUnlock (g : Nat)
  /-- waiting for the lock (task.c:542, 723) -/
  | tLock (g : Nat) (w : Bool)
  /-- `task_group_get_next_task` (task.c:467-495) -/
  | tTake (g : Nat) (w : Bool)
  /-- task.c:551, 739 -/
  | tInc (g : Nat) (w : Bool) (t : Nat)
  /-- task.c:552, 742 -/
  | tUnlock (g : Nat) (w : Bool) (t : Nat)
  /-- nothing to run: `platform_condvar_wait` or unlock (task.c:561, 742) -/
  | tNone (g : Nat) (w : Bool)
  /-- `task_group_run_task` (task.c:555, 747) -/
  | running (g : Nat) (w : Bool) (t : Nat)
  /-- worker, waiting for the lock again (task.c:557) -/
  | wLock (g : Nat)
  /-- the decrement (task.c:559, 748) -/
  | dec (g : Nat) (w : Bool)
  /-- `task_system_is_quiescent`, locking group `g` (task.c:793-798) -/
  | qLock (g : Nat)
  /-- reading `current_executing_tasks` of group `g` (task.c:803) -/
  | qExec (g : Nat)
  /-- reading `current_waiting_tasks` of group `g` (task.c:804) -/
  | qWait (g : Nat)
  /-- unlocking, with the result (task.c:812-815) -/
  | qUnlock (g : Nat) (r : Bool)
deriving DecidableEq

/-- What happened to a group's queue, in the order of the critical sections. -/
inductive Ev where
  | enq (t : Nat) (atHead : Bool)
  | start (t : Nat)
deriving DecidableEq

/-- `task_group` (task.h:51-64), for group `g`; `log` and `ran` (tasks whose function was called and has
returned) are records for the specification. -/
structure Group where
  head : Option Nat
  tail : Option Nat
  next : Nat → Option Nat
  waiting : Nat
  executing : Nat
  lock : Option Nat
  log : List Ev
  ran : List Nat

structure State where
  grp : Nat → Group
  pc : Nat → PC
  fresh : Nat

def init : State := ⟨fun _ => ⟨none, none, fun _ => none, 0, 0, none, [], []⟩, fun _ => .idle, 0⟩

inductive Act where
  | enqueue (g : Nat) (atHead : Bool)
  | perform (g : Nat) (w : Bool)
  | quiescent
  | go

inductive Res where
  | blocked
  /-- a `platform_assert` fails, or a null pointer is followed -/
  | fault
  | ok (s : State)

def upd {α : Type} (f : Nat → α) (k : Nat) (v : α) : Nat → α := fun j => if j = k then v else f j

def State.goto (s : State) (a : Nat) (p : PC) : State := { s with pc := upd s.pc a p }
def State.setGrp (s : State) (g : Nat) (x : Group) : State := { s with grp := upd s.grp g x }

/-- Acquire the lock of group `g`, then continue at `p`. -/
def State.acquire (s : State) (a g : Nat) (p : PC) : Res :=
  match (s.grp g).lock with
  | some _ => .blocked
  | none => .ok ((s.setGrp g { s.grp g with lock := some a }).goto a p)

/-- Release the lock of group `g`, then continue at `p`. -/
def State.release (s : State) (a g : Nat) (p : PC) : Res :=
  .ok ((s.setGrp g { s.grp g with lock := none }).goto a p)

/-- The queue part of `task_enqueue` (task.c:672-685). -/
def link (x : Group) (t : Nat) (atHead : Bool) : Option Group :=
  match x.tail with
  | some last =>
    if atHead then some { x with next := upd x.next t x.head, head := some t }
    else some { x with next := upd (upd x.next t none) last (some t), tail := some t }
  | none =>
    match x.head with
    | some _ => none
    | none => some { x with next := upd x.next t none, head := some t, tail := some t }

/-- `task_group_get_next_task` when tasks are waiting (task.c:476-494). -/
def unlink (x : Group) : Option (Group × Nat) :=
  match x.head, x.tail with
  | some t, some last =>
    match x.next t with
    | none =>
      if last = t ∧ x.waiting = 1 then some ({ x with waiting := x.waiting - 1, head := none, tail := none }, t) else none
    | some t' => some ({ x with waiting := x.waiting - 1, head := some t' }, t)
  | _, _ => none

/-- The next step of thread `a`. -/
def step (s : State) (a : Nat) (act : Act) : Res :=
  match act, s.pc a with
  | .enqueue g h, .idle => .ok ({ s with fresh := s.fresh + 1 }.goto a (.eLock g s.fresh h))
  | .perform g w, .idle => .ok (s.goto a (.tLock g w))
  | .quiescent, .idle => .ok (s.goto a (.qLock 1))
  | .go, .eLock g t h => s.acquire a g (.eBody g t h)
  | .go, .eBody g t h =>
    match link (s.grp g) t h with
    | none => .fault
    | some x => .ok ((s.setGrp g { x with log := x.log ++ [.enq t h] }).goto a (.eCount g))
  | .go, .eCount g => .ok ((s.setGrp g { s.grp g with waiting := (s.grp g).waiting + 1 }).goto a (.eUnlock g))
  | .go, .eUnlock g => s.release a g .idle
  | .go, .tLock g w => s.acquire a g (.tTake g w)
  | .go, .tTake g w =>
    if (s.grp g).waiting = 0 then .ok (s.goto a (.tNone g w))
    else
      match unlink (s.grp g) with
      | none => .fault
      | some (x, t) => .ok ((s.setGrp g { x with log := x.log ++ [.start t] }).goto a (.tInc g w t))
  | .go, .tInc g w t => .ok ((s.setGrp g { s.grp g with executing := (s.grp g).executing + 1 }).goto a (.tUnlock g w t))
  | .go, .tUnlock g w t => s.release a g (.running g w t)
  | .go, .tNone g w => s.release a g (if w then .tLock g w else .idle)
  | .go, .running g w t =>
    .ok ((s.setGrp g { s.grp g with ran := (s.grp g).ran ++ [t] }).goto a (if w then .wLock g else .dec g false))
  | .go, .wLock g => s.acquire a g (.dec g true)
  | .go, .dec g w =>
    .ok ((s.setGrp g { s.grp g with executing := (s.grp g).executing - 1 }).goto a (if w then .tTake g true else .idle))
  | .go, .qLock g => s.acquire a g (if g = 1 then .qLock 2 else .qExec 1)
  | .go, .qExec g => .ok (s.goto a (if (s.grp g).executing ≠ 0 then .qUnlock 1 false else .qWait g))
  | .go, .qWait g => .ok (s.goto a (if (s.grp g).waiting ≠ 0 then .qUnlock 1 false else if g = 1 then .qExec 2 else .qUnlock 1 true))
  | .go, .qUnlock g r => s.release a g (if g = 1 then .qUnlock 2 r else .idle)
  | _, _ => .blocked

/-- Executions with `n` threads. -/
inductive Reachable (n : Nat) : State → Prop
  | init : Reachable n init
  | step {s s' : State} (a : Nat) (act : Act) : Reachable n s → a < n → step s a act = .ok s' → Reachable n s'

end Splinter.Task
