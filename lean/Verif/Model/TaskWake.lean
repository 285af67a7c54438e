/-!
# Workers that sleep and are woken

src/task.c 467-495, 537-598, 647-759 with the condition variable of each task group (src/platform_linux/platform.c 504-528:
`pthread_cond_wait`, `pthread_cond_signal`, `pthread_cond_broadcast`). `Model/Task.lean` (C27) has the same code without sleeping.
Here a worker that finds no task sleeps and goes on only when it is woken.

* A step is one lock operation or one critical section. Queues are lists (C27: the linked queues are these lists).
* `pthread_cond_wait` releases the lock and goes to sleep in one step. A signal wakes one sleeper if there is one, any one; it may wake
  more, and sleepers may wake up without a signal: `Act.spurious`.
* A task enqueues a list of tasks, one after the other, and returns. Which ones is fixed with the task: a task stands for one that does this in the execution at hand.
* `num_bg_threads` threads per group are workers from the start; thread creation is not modelled. Statistics are left out. A failing `pthread_mutex_lock` is not modelled.
-/
namespace Splinter.TaskWake

/-- `task_type` (task.h 30-37): `TASK_TYPE_MEMTABLE`, `TASK_TYPE_NORMAL`. -/
inductive Grp
  | memtable
  | normal
deriving DecidableEq, Repr

/-- What a task enqueues: group, `at_head`, task. -/
abbrev Spawn (T : Type) := List (Grp × Bool × T)

/-- Where a thread goes on after `task_enqueue`: its call returns, or it is in a task of group `g` with more to enqueue. -/
inductive Ret (T : Type)
  | call
  | task (g : Grp) (id : Nat) (rest : Spawn T)
deriving DecidableEq, Repr

inductive PC (T : Type)
  /-- a thread that is not a worker, outside of the task system -/
  | idle
  /-- `task_enqueue` waits for the lock (666) -/
  | enqLock (g : Grp) (atHead : Bool) (t : T) (r : Ret T)
  /-- links the task, counts it, signals (672-700) -/
  | enqBody (g : Grp) (atHead : Bool) (t : T) (r : Ret T)
  /-- unlocks (701) -/
  | enqUnlock (g : Grp) (r : Ret T)
  /-- waits for the lock to take a task: a worker at first (542) or after it was woken (561), another thread (723) -/
  | takeLock (g : Grp)
  /-- has the lock; a worker looks at `bg.stop` first (545-550, 728) -/
  | takeBody (g : Grp)
  /-- not a worker, no task (742) -/
  | noneUnlock (g : Grp)
  /-- took a task and counted it as executing (551-552, 739-742) -/
  | gotUnlock (g : Grp) (id : Nat) (l : Spawn T)
  /-- `task_group_run_task` (555, 747) -/
  | running (g : Grp) (id : Nat) (l : Spawn T)
  /-- a worker after the task waits for the lock (557) -/
  | backLock (g : Grp)
  /-- and counts down (559) -/
  | backBody (g : Grp)
  /-- in `pthread_cond_wait` (561) -/
  | asleep (g : Grp)
  /-- a worker that saw `bg.stop` (566) -/
  | exitUnlock (g : Grp)
  | exited
  /-- `task_group_stop_and_wait_for_threads` (573-595) -/
  | stopLock (g : Grp)
  | stopBody (g : Grp)
  | stopUnlock (g : Grp)
  | join (g : Grp)
deriving DecidableEq, Repr

/-- A task in the queue has a number, given when it is enqueued. `ran`: tasks whose function has returned. -/
structure State (T : Type) where
  q : Grp → List (Nat × T)
  lock : Grp → Option Nat
  /-- `current_executing_tasks` -/
  exec : Grp → Nat
  /-- `bg.stop` -/
  stop : Grp → Bool
  pc : Nat → PC T
  fresh : Nat
  ran : List Nat

/-- `n` threads; `role` is the group of a worker; `spawn` is what a task enqueues. -/
structure Par (T : Type) where
  n : Nat
  role : Nat → Option Grp
  spawn : T → Spawn T

variable {T : Type}

def init (P : Par T) : State T :=
  { q := fun _ => [], lock := fun _ => none, exec := fun _ => 0, stop := fun _ => false,
    pc := fun a => match P.role a with | some g => .takeLock g | none => .idle, fresh := 0, ran := [] }

inductive Act (T : Type)
  /-- `task_enqueue` -/
  | enqueue (g : Grp) (atHead : Bool) (t : T)
  /-- `task_group_perform_one` -/
  | perform (g : Grp)
  /-- `task_group_deinit` -/
  | stop (g : Grp)
  /-- wakes up without a signal -/
  | spurious
  /-- next step; `pick` is the sleeper that a signal wakes -/
  | go (pick : Nat)

inductive Res (T : Type)
  | blocked
  /-- an assertion fails -/
  | fault
  | ok (s : State T)

def upd {α β : Type} [DecidableEq α] (f : α → β) (k : α) (v : β) : α → β := fun j => if j = k then v else f j

def State.goto (s : State T) (a : Nat) (p : PC T) : State T := { s with pc := upd s.pc a p }

/-- Takes the lock of a group. -/
def State.acquire (s : State T) (a : Nat) (g : Grp) (p : PC T) : Res T :=
  match s.lock g with
  | some _ => .blocked
  | none => .ok ({ s with lock := upd s.lock g (some a) }.goto a p)

/-- Gives back the lock of a group. -/
def State.release (s : State T) (a : Nat) (g : Grp) (p : PC T) : Res T :=
  .ok ({ s with lock := upd s.lock g none }.goto a p)

def isAsleep (g : Grp) : PC T → Bool
  | .asleep g' => decide (g' = g)
  | _ => false

/-- `pthread_cond_signal`. `none`: there are sleepers and `pick` is not one of them. -/
def signal (P : Par T) (pc : Nat → PC T) (g : Grp) (pick : Nat) : Option (Nat → PC T) :=
  if pick < P.n ∧ isAsleep g (pc pick) then some (upd pc pick (.takeLock g))
  else if (List.range P.n).any (fun i => isAsleep g (pc i)) then none
  else some pc

/-- `pthread_cond_broadcast`. -/
def broadcast (pc : Nat → PC T) (g : Grp) : Nat → PC T := fun i => if isAsleep g (pc i) then .takeLock g else pc i

/-- After `task_enqueue`. -/
def Ret.pc : Ret T → PC T
  | .call => .idle
  | .task g id rest => .running g id rest

/-- `task_group_get_next_task` (467-495) for thread `a`, which has the lock. -/
def take (P : Par T) (s : State T) (a : Nat) (g : Grp) : Res T :=
  match s.q g with
  | (id, t) :: rest =>
    .ok ({ s with q := upd s.q g rest, exec := upd s.exec g (s.exec g + 1) }.goto a (.gotUnlock g id (P.spawn t)))
  | [] => if P.role a = some g then s.release a g (.asleep g) else .ok (s.goto a (.noneUnlock g))

/-- The next step of thread `a`. -/
def go (P : Par T) (s : State T) (a pick : Nat) : Res T :=
  match s.pc a with
  | .idle | .asleep _ | .exited => .blocked
  | .enqLock g h t r => s.acquire a g (.enqBody g h t r)
  | .enqBody g h t r =>
    match signal P s.pc g pick with
    | none => .blocked
    | some pc =>
      let x := (s.fresh, t)
      .ok ({ s with q := upd s.q g (if h then x :: s.q g else s.q g ++ [x]), fresh := s.fresh + 1, pc := pc }.goto a (.enqUnlock g r))
  | .enqUnlock g r => s.release a g r.pc
  | .takeLock g => s.acquire a g (.takeBody g)
  | .takeBody g => if P.role a = some g ∧ s.stop g = true then .ok (s.goto a (.exitUnlock g)) else take P s a g
  | .noneUnlock g => s.release a g .idle
  | .gotUnlock g id l => s.release a g (.running g id l)
  | .running g id ((g', h, t) :: rest) => .ok (s.goto a (.enqLock g' h t (.task g id rest)))
  | .running g id [] =>
    if P.role a = some g then .ok ({ s with ran := id :: s.ran }.goto a (.backLock g))
    else .ok ({ s with ran := id :: s.ran, exec := upd s.exec g (s.exec g - 1) }.goto a .idle)
  | .backLock g => s.acquire a g (.backBody g)
  | .backBody g => .ok ({ s with exec := upd s.exec g (s.exec g - 1) }.goto a (.takeBody g))
  | .exitUnlock g => s.release a g .exited
  | .stopLock g => s.acquire a g (.stopBody g)
  | .stopBody g =>
    if s.q g ≠ [] then .fault
    else .ok ({ s with stop := upd s.stop g true, pc := broadcast s.pc g }.goto a (.stopUnlock g))
  | .stopUnlock g => s.release a g (.join g)
  | .join g =>
    if (List.range P.n).all (fun i => decide (P.role i ≠ some g) || (match s.pc i with | .exited => true | _ => false)) then .ok (s.goto a .idle) else .blocked

def step (P : Par T) (s : State T) (a : Nat) : Act T → Res T
  | .go pick => go P s a pick
  | .spurious => match s.pc a with
    | .asleep g => .ok (s.goto a (.takeLock g))
    | _ => .blocked
  | .enqueue g h t => match s.pc a with
    | .idle => .ok (s.goto a (.enqLock g h t .call))
    | _ => .blocked
  | .perform g => match s.pc a with
    | .idle => .ok (s.goto a (.takeLock g))
    | _ => .blocked
  | .stop g => match s.pc a with
    | .idle => .ok (s.goto a (.stopLock g))
    | _ => .blocked

/-- Every execution. -/
inductive Reachable (P : Par T) : State T → Prop
  | init : Reachable P (init P)
  | step {s s' : State T} (a : Nat) (x : Act T) : Reachable P s → a < P.n → step P s a x = .ok s' → Reachable P s'

end Splinter.TaskWake
