/-!
# Shared memory heap (src/platform_linux/shmem.c)

`platform_shm_alloc` (525-619) with `platform_shm_find_large` (941-1037) and `platform_shm_track_large_alloc` (788-845),
and `platform_shm_free` (702-776) with `platform_shm_track_free` (855-931), called by any number of threads.

Addresses and sizes are `uint64`: natural numbers, with `% W` where the code may wrap. A step of a thread is what it does under one
lock; the addition to `shm_next` and its check are two steps, because `shm_next` is also read without the lock.
Simplifications: contents of the memory, tracing, messages, and the counters of large fragments are left out.
-/
namespace Splinter.Shmem

/-- `2 ^ 64` -/
def W : Nat := 18446744073709551616

/-- What does not change: the segment from the end of the control block (a multiple of the cache line size, 379-384) to
`shm_end`, `SHM_LARGE_FRAG_SIZE` (67-71), `SHM_NUM_LARGE_FRAGS` (78), the process of each thread. -/
structure Env where
  base : Nat
  stop : Nat
  large : Nat
  slots : Nat
  pid : Nat → Nat

/-- `shm_large_frag_info` (45-57); `addr = 0` is an unused slot. -/
structure Slot where
  addr : Nat
  size : Nat
  freedPid : Nat
  freedTid : Nat
deriving DecidableEq, Repr

/-- Where a thread is. -/
inductive Pc where
  | idle
  /-- has called `platform_shm_alloc` -/
  | start (size : Nat)
  /-- in `platform_shm_find_large` -/
  | find (size : Nat)
  /-- before `shm_lock_mem` -/
  | bump (size : Nat)
  /-- holding the lock, `retptr` read and `shm_next` increased (569) -/
  | added (ptr size : Nat)
  /-- before `platform_shm_track_large_alloc` -/
  | track (ptr size : Nat)
  /-- about to return `ptr`; 0 is NULL -/
  | ret (ptr size : Nat)
  /-- has called `platform_shm_free`; the size is the one asked for when the fragment was allocated -/
  | free1 (ptr size : Nat)
  /-- before `platform_shm_track_free` -/
  | free2 (ptr size : Nat)
deriving DecidableEq, Repr

/-- `shmem_heap` (117-136). `held` is a ghost: the fragments, with the sizes asked for, that were returned and that nobody
has called free for. -/
structure State where
  next : Nat
  last : Nat
  hip : Nat
  used : Nat
  free : Nat
  lock : Option Nat
  frags : List Slot
  pc : Nat → Pc
  held : List (Nat × Nat)
  /-- an assertion failed -/
  crashed : Bool

def State.setPc (s : State) (t : Nat) (p : Pc) : State := { s with pc := fun u => if u = t then p else s.pc u }

/-- `platform_shmcreate` (358-431). -/
def init (e : Env) : State :=
  { next := e.base, last := 0, hip := 0, used := 0, free := e.stop - e.base, lock := none,
    frags := List.replicate e.slots ⟨0, 0, 0, 0⟩, pc := fun _ => .idle, held := [], crashed := false }

/-- The outcome of the search for a free large fragment. -/
inductive Found where
  | none
  | at (i : Nat)
  | crash
deriving DecidableEq, Repr

/-- The loop of `platform_shm_find_large` (970-1009), from slot `i`. -/
def findLarge (size : Nat) : List Slot → Nat → Found
  | [], _ => .none
  | f :: fs, i =>
    if f.addr = 0 ∨ f.size < size then findLarge size fs (i + 1)
    else if f.freedPid = 0 then
      if f.freedTid = 0 then findLarge size fs (i + 1) else .crash
    else .at i

/-- The loop of `platform_shm_track_large_alloc` (804-822): the first unused slot; a slot with this address fails an
assertion. -/
def trackSlot (ptr : Nat) : List Slot → Nat → Found
  | [], _ => .none
  | f :: fs, i => if f.addr = 0 then .at i else if f.addr = ptr then .crash else trackSlot ptr fs (i + 1)

/-- The loop of `platform_shm_track_free` (876-883). -/
def freeSlot (ptr : Nat) : List Slot → Nat → Found
  | [], _ => .none
  | f :: fs, i => if f.addr = 0 ∨ f.addr ≠ ptr then freeSlot ptr fs (i + 1) else .at i

/-- Change one slot. -/
def setSlot (fs : List Slot) (i : Nat) (g : Slot → Slot) : List Slot := fs.modify i g

/-- The next step of thread `t` inside the two functions. -/
def go (e : Env) (s : State) (t : Nat) : Option State :=
  match s.pc t with
  | .idle => none
  | .start size =>
    -- 540-549
    if s.next % 64 ≠ 0 then some { s with crashed := true }
    else if size ≥ e.large then some (s.setPc t (.find size))
    else some (s.setPc t (.bump size))
  | .find size =>
    match findLarge size s.frags 0 with
    | .crash => some { s with crashed := true }
    | .none => some (s.setPc t (.bump size))
    | .at i =>
      some ({ s with frags := setSlot s.frags i (fun f => { f with freedPid := 0, freedTid := 0 }) }.setPc t
        (.ret (s.frags.getD i ⟨0, 0, 0, 0⟩).addr size))
  | .bump size =>
    -- 566-569
    match s.lock with
    | some _ => none
    | none => some ({ s with lock := some t, next := (s.next + size) % W }.setPc t (.added s.next size))
  | .added p size =>
    -- 571-603
    if (p + size) % W > e.stop then
      some ({ s with next := (s.next + (W - size)) % W, lock := none }.setPc t (.ret 0 size))
    else
      some ({ s with last := p, used := (s.used + size) % W, free := (s.free + (W - size)) % W, lock := none }.setPc t
        (if size ≥ e.large then .track p size else .ret p size))
  | .track p size =>
    match trackSlot p s.frags 0 with
    | .crash => some { s with crashed := true }
    | .none => some (s.setPc t (.ret p size))
    | .at i =>
      some ({ s with frags := setSlot s.frags i (fun _ => ⟨p, size, 0, 0⟩),
                     hip := if s.hip < p then p else s.hip }.setPc t (.ret p size))
  | .ret p size =>
    some ({ s with held := if p = 0 then s.held else (p, size) :: s.held }.setPc t .idle)
  | .free1 p size =>
    -- 716-757
    if ¬ (e.base ≤ p ∧ p < e.stop) then some (s.setPc t .idle)
    else
      match s.lock with
      | some _ => none
      | none =>
        if s.last = p ∧ (s.next + (W - p)) % W < e.large then
          let size := (s.next + (W - p)) % W
          some ({ s with next := p, last := 0, free := (s.free + size) % W, used := (s.used + (W - size)) % W }.setPc t .idle)
        else some (s.setPc t (.free2 p size))
  | .free2 p _ =>
    if p > s.hip then some (s.setPc t .idle)
    else
      match freeSlot p s.frags 0 with
      | .at i => some ({ s with frags := setSlot s.frags i (fun f => { f with freedPid := e.pid t, freedTid := t }) }.setPc t .idle)
      | _ => some (s.setPc t .idle)

/-- What can happen next. -/
inductive Act where
  /-- the client calls `platform_shm_alloc` -/
  | call (t size : Nat)
  /-- the client calls `platform_shm_free` for a fragment that it holds -/
  | release (t ptr size : Nat)
  | go (t : Nat)

/-- One action, by clients that ask only for sizes satisfying `ok`. -/
def act (e : Env) (ok : Nat → Bool) (s : State) : Act → Option State
  | .call t size => if s.pc t = .idle ∧ ok size then some (s.setPc t (.start size)) else none
  | .release t p size =>
    if s.pc t = .idle ∧ (p, size) ∈ s.held then
      some ({ s with held := s.held.erase (p, size) }.setPc t (.free1 p size))
    else none
  | .go t => if s.crashed then none else go e s t

/-- A sequence of actions. -/
def run (e : Env) (ok : Nat → Bool) (s : State) : List Act → Option State
  | [] => some s
  | a :: as => (act e ok s a).bind fun s' => run e ok s' as

end Splinter.Shmem
