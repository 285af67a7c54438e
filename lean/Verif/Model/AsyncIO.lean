/-!
# Asynchronous I/O

src/platform_linux/laio.c: request slots, contexts, submission and completion. A step is one access to shared memory, one system call, or
one critical section of `ctx_lock`. Threads are numbered by their thread ids; several processes may share the structures.

Simplified: a thread has at most one request that it has not submitted. Counters have no upper bound. What is in `iovec` and `metadata` of a request is
one number, the I/O's identity, written by the caller before it submits. `io_setup` does not fail, `io_getevents` does not report errors; `io_submit` may fail at any time.
-/
namespace Splinter.AsyncIO

/-- An I/O in the kernel: its context, the slot of its request, its identity, who submitted it, and the result once it is done (`true`: all bytes were transferred). -/
structure Io where
  ctx : Nat
  slot : Nat
  id : Nat
  by_ : Nat
  res : Option Bool
deriving DecidableEq, Repr

/-- Where a thread goes on after `laio_cleanup`. -/
inductive Ret
  /-- `laio_get_async_req` (337); batches it may still look at, if not blocking -/
  | getTry (left : Option Nat)
  /-- `io_submit` failed, again (449, 491) -/
  | submit (c k id : Nat)
  /-- the call returns -/
  | done
  /-- `laio_deregister_thread` (590) -/
  | dereg
  /-- `laio_wait_all` at context `i` (552) -/
  | wait (i : Nat)
deriving DecidableEq, Repr

/-- `lim` is `count - i` of `laio_cleanup`, `none` if `count` is 0; `c` is the index of `pctx`. -/
inductive PC
  /-- not registered -/
  | out
  | idle
  /-- loop of `laio_get_async_req` (331-343) -/
  | getHead (left : Option Nat)
  | getTry (left : Option Nat)
  /-- has a request -/
  | owns (k : Nat)
  /-- `laio_read_async`, `laio_write_async`: before 432/475, 433/476, 435/478 -/
  | sub1 (c k id : Nat)
  | sub2 (c k id : Nat)
  | sub3 (c k id : Nat)
  /-- `laio_cleanup`: reads `io_count` (513), asks the kernel (514), counts down (533), calls back (536, 405), frees the slot (406) -/
  | clean (c : Nat) (lim : Option Nat) (r : Ret)
  | clEv (c : Nat) (lim : Option Nat) (r : Ret)
  | clDec (c : Nat) (lim : Option Nat) (r : Ret) (io : Io)
  | clCall (c : Nat) (lim : Option Nat) (r : Ret) (io : Io)
  | clFree (c : Nat) (lim : Option Nat) (r : Ret) (io : Io)
  /-- `laio_deregister_thread` before it takes `ctx_lock` (592) -/
  | dereg
  /-- `laio_wait_all` at context `i` -/
  | wait (i : Nat)
deriving DecidableEq, Repr

/-- What the rest of the program sees. `called`: the callback with the status it is given (`true`: `STATUS_OK`). -/
inductive Ev
  | submitted (id : Nat)
  | called (id : Nat) (ok : Bool)
deriving DecidableEq, Repr

/-- `io_process_context` (laio.h 50-55); `pid = 0`: unused. -/
structure Ctx where
  pid : Nat
  threads : Nat
  count : Nat

/-- `laio_handle` (laio.h 60-72) and the kernel. -/
structure State where
  ctx : Nat → Ctx
  /-- `io->ctx_idx` -/
  ctxOf : Nat → Option Nat
  /-- `ctx_idx` of each request; `none`: `INVALID_TID`, not in use -/
  slot : Nat → Option Nat
  /-- what the caller wrote into each request -/
  content : Nat → Nat
  base : Nat
  hand : Nat → Nat
  kern : List Io
  pc : Nat → PC
  /-- `platform_getpid` of each thread -/
  procOf : Nat → Nat
  fresh : Nat
  log : List Ev

/-- `n` thread ids, `M` contexts (both `MAX_THREADS`), `qs` is `async_queue_size`. -/
structure Par where
  n : Nat
  M : Nat
  qs : Nat

/-- `LAIO_HAND_BATCH_SIZE` (30). -/
def batch : Nat := 32

def init : State :=
  { ctx := fun _ => ⟨0, 0, 0⟩, ctxOf := fun _ => none, slot := fun _ => none, content := fun _ => 0, base := 0, hand := fun _ => 0, kern := [],
    pc := fun _ => .out, procOf := fun _ => 0, fresh := 0, log := [] }

def upd {α : Type} (f : Nat → α) (k : Nat) (v : α) : Nat → α := fun j => if j = k then v else f j

inductive Act
  /-- `laio_register_thread`; `pid` is not 0 -/
  | register (pid : Nat)
  | deregister
  /-- `laio_get_async_req` -/
  | get (blocking : Bool)
  /-- `laio_read_async`, `laio_write_async` of the request the thread has -/
  | submit
  /-- `laio_cleanup` -/
  | cleanup (count : Nat)
  | waitAll
  /-- the next step; `ok`: `io_submit` succeeds; `i`: which I/O `io_getevents` returns -/
  | go (ok : Bool) (i : Nat)
  /-- the kernel completes an I/O -/
  | complete (i : Nat) (res : Bool)

inductive Res
  | blocked
  /-- an assertion fails, a request beyond the array is used, or a context is destroyed with I/O in it -/
  | fault
  | ok (s : State)

def State.goto (s : State) (t : Nat) (p : PC) : State := { s with pc := upd s.pc t p }

def State.setCount (s : State) (c m : Nat) : State := { s with ctx := upd s.ctx c { s.ctx c with count := m } }

/-- `get_ctx_idx` (114-150): the context of the process, or else the first unused one. -/
def findCtx (P : Par) (s : State) (pid : Nat) : Option Nat :=
  match (List.range P.M).find? (fun i => decide ((s.ctx i).pid = pid)) with
  | some i => some i
  | none => (List.range P.M).find? (fun i => decide ((s.ctx i).pid = 0))

/-- `laio_register_thread` (568-577). -/
def register (P : Par) (s : State) (t pid : Nat) : Res :=
  match findCtx P s pid with
  | none => .fault
  | some i =>
    let x := s.ctx i
    .ok ({ s with
      ctx := upd s.ctx i (if x.pid = pid then { x with threads := x.threads + 1 } else { x with pid := pid, threads := 1 }),
      ctxOf := upd s.ctxOf t (some i), procOf := upd s.procOf t pid }.goto t .idle)

/-- The critical section of `laio_deregister_thread` (592-606). -/
def deregister (s : State) (t c : Nat) : Res :=
  let x := s.ctx c
  let s' := { s with ctxOf := upd s.ctxOf t none }.goto t .out
  if x.threads - 1 = 0 then
    if x.count ≠ 0 ∨ s.kern.any (fun io => decide (io.ctx = c)) then .fault
    else .ok { s' with ctx := upd s.ctx c { x with pid := 0, threads := 0 } }
  else .ok { s' with ctx := upd s.ctx c { x with threads := x.threads - 1 } }

def Ret.pc : Ret → PC
  | .getTry left => .getTry left
  | .submit c k id => .sub1 c k id
  | .done => .idle
  | .dereg => .dereg
  | .wait i => .wait i

/-- One event was handled (513). -/
def limNext : Option Nat → Option Nat
  | none => none
  | some m => some (m - 1)

/-- The next step of thread `t`. -/
def go (P : Par) (s : State) (t : Nat) (ok : Bool) (i : Nat) : Res :=
  match s.pc t, s.ctxOf t with
  | .getHead left, some c =>
    if s.hand t % batch = 0 then
      if left = some 0 then .ok (s.goto t .idle)
      else .ok ({ s with hand := upd s.hand t (s.base % P.qs), base := s.base + 32 }.goto t (.clean c none (.getTry (limNext left))))
    else .ok (s.goto t (.getTry left))
  | .getTry left, some c =>
    let k := s.hand t
    let s := { s with hand := upd s.hand t (k + 1) }
    if k ≥ P.qs then .fault
    else if s.slot k = none then .ok ({ s with slot := upd s.slot k (some c) }.goto t (.owns k))
    else .ok (s.goto t (.getHead left))
  | .sub1 c k id, _ => .ok ((s.setCount c ((s.ctx c).count + 1)).goto t (.sub2 c k id))
  | .sub2 c k id, some c' =>
    if ok then .ok ({ s with kern := ⟨c, k, id, t, none⟩ :: s.kern, log := s.log ++ [Ev.submitted id] }.goto t (.clean c' none .done))
    else .ok (s.goto t (.sub3 c k id))
  | .sub3 c k id, some c' => .ok ((s.setCount c ((s.ctx c).count - 1)).goto t (.clean c' none (.submit c k id)))
  | .clean c lim r, _ =>
    if lim ≠ some 0 ∧ 0 < (s.ctx c).count then .ok (s.goto t (.clEv c lim r)) else .ok (s.goto t r.pc)
  | .clEv c lim r, _ =>
    match s.kern[i]? with
    | some io => if io.ctx = c ∧ io.res.isSome then .ok ({ s with kern := s.kern.eraseIdx i }.goto t (.clDec c lim r io)) else .ok (s.goto t (.clean c lim r))
    | none => .ok (s.goto t (.clean c lim r))
  | .clDec c lim r io, _ => .ok ((s.setCount c ((s.ctx c).count - 1)).goto t (.clCall c lim r io))
  -- `laio_callback` (396-408): `status` is `STATUS_OK` whatever `res` is, and 0 is passed for `res2`
  | .clCall c lim r io, _ => .ok ({ s with log := s.log ++ [Ev.called (s.content io.slot) true] }.goto t (.clFree c lim r io))
  | .clFree c lim r io, _ => .ok ({ s with slot := upd s.slot io.slot none }.goto t (.clean c (limNext lim) r))
  | .dereg, some c => deregister s t c
  | .wait i, some c =>
    if i ≥ P.M then .ok (s.goto t .idle)
    else if (s.ctx i).pid = s.procOf t then .ok (s.goto t (.clean c none (.wait (i + 1))))
    else if 0 < (s.ctx i).count then .ok (s.goto t (.clean c none (.wait i)))
    else .ok (s.goto t (.wait (i + 1)))
  | .out, _ | .idle, _ | .owns _, _ => .blocked
  -- the assertions that a thread is registered
  | _, none => .fault

def step (P : Par) (s : State) (t : Nat) : Act → Res
  | .go ok i => go P s t ok i
  | .complete i res =>
    match s.kern[i]? with
    | some io => if io.res = none then .ok { s with kern := s.kern.set i { io with res := some res } } else .blocked
    | none => .blocked
  | .register pid => if s.pc t = .out ∧ pid ≠ 0 then register P s t pid else .blocked
  | .deregister => if s.pc t = .idle then
      match s.ctxOf t with
      | some c => .ok (s.goto t (.clean c none .dereg))
      | none => .fault
    else .blocked
  | .get blocking => if s.pc t = .idle then .ok (s.goto t (.getHead (if blocking then none else some (P.qs / batch)))) else .blocked
  | .submit => match s.pc t with
    | .owns k =>
      match s.slot k with
      | some c => .ok ({ s with content := upd s.content k s.fresh, fresh := s.fresh + 1 }.goto t (.sub1 c k s.fresh))
      | none => .fault
    | _ => .blocked
  | .cleanup count => if s.pc t = .idle then
      match s.ctxOf t with
      | some c => .ok (s.goto t (.clean c (if count = 0 then none else some count) .done))
      | none => .fault
    else .blocked
  | .waitAll => if s.pc t = .idle then .ok (s.goto t (.wait 0)) else .blocked

/-- Every execution. -/
inductive Reachable (P : Par) : State → Prop
  | init : Reachable P init
  | step {s s' : State} (t : Nat) (x : Act) : Reachable P s → t < P.n → step P s t x = .ok s' → Reachable P s'

end Splinter.AsyncIO
