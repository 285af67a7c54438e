/-!
# Memtables: insertion, rotation, flushing, recycling, and lookups at the same time

src/memtable.c, and from src/trunk.c: `trunk_memtable_insert` (3388-3424), `trunk_memtable_flush_internal`
(3783-3800) with the functions it calls, the memtable part of `trunk_lookup` (6941-7000), and the part of
range iterators that holds memtables (6185-6222, 6547).

Each step of a thread is one access to shared memory, with these exceptions:
* the insert lock and the lookup lock are taken and released in one step, and a thread that wants a lock
  exclusively gets it when no other thread holds it (C23 proves that this is what the locks guarantee);
* the incorporation mutex is only held for a few lines, so what is done under it is one step;
* `btree_insert`, `btree_lookup` and `btree_pack` are one step each: a memtable is a list of messages in
  order of insertion, packing copies it (C13, C14 and C40 are about those functions);
* the tree under the root is the list of messages that were merged into it; compactions, flushes and splits
  do not change it (C01), so the only step that changes it is the one that installs a new root with a
  memtable added. That step holds the claim on the root;
* lines 3735-3739 of trunk.c (the transition to INCORPORATING, the one to INCORPORATED and the increment of
  `generation_retired`) are one step. Lookups are blocked meanwhile.

Counters do not wrap (64 bits). `ret` is `generation_retired + 1`, which starts at 0.
-/
namespace Splinter.Memtable

/-- `memtable_state` (memtable.h:19-29). -/
inductive MS where
  | ready | finalized | compacting | compacted | assigned | incorporated
deriving DecidableEq, Repr

structure Slot (M : Type) where
  st : MS
  gen : Nat
  /-- references to the memtable's btree; 0 when it has been freed -/
  refs : Nat
  /-- for the proofs: the reference of the memtable itself is still counted -/
  own : Bool
  data : List M
  /-- `spl->compacted_memtable[]`: the packed copy -/
  cmt : List M

inductive PC (M : Type) where
  | idle
  -- memtable_maybe_rotate_and_begin_insert, memtable_insert, memtable_end_insert
  | begin (m : M) | ins1 (m : M) | ins2 (m : M) (g : Nat) | ins3 (m : M) (g : Nat)
  | rot1 (m : M) (g : Nat) | rot2 (m : M) (g : Nat) | rot3 (m : M) (g : Nat) | rot4 (m : M) (g : Nat)
  | rot5 (m : M) (g : Nat) | rot6 (m : M) (g : Nat) | rot7 (m : M) (g : Nat)
  | put (m : M) (g : Nat) | put2 (m : M)
  -- trunk_memtable_flush_internal
  | fin (g : Nat) | comp (g : Nat) | comp2 (g : Nat) | start (g : Nat)
  | inc1 (g : Nat) | inc2 (g : Nat) | inc3 (g : Nat) (nr : List M) | inc4 (g : Nat) (nr : List M)
  | inc5 (g : Nat) (nr : List M) | inc6 (g : Nat) | inc7 (g : Nat) | cont (g : Nat)
  -- memtable_dec_ref_maybe_recycle when the last reference is gone; `k`: called by the flush
  | rec1 (g : Nat) (k : Bool) | rec2 (g : Nat) (k : Bool)
  -- trunk_lookup; `n` is the number of messages accepted before it was called (for the specification)
  | lk0 (n : Nat) | lk1 (n : Nat) | lk2 (n g : Nat)
  /-- generations `j` to `g` have been searched, `e` is `generation_retired + 1`, `obs` what was found -/
  | lk3 (n g e j : Nat) (obs : List M)
  | lk4 (n g e j : Nat) (obs : List M) (packed : Bool)
  | lk5 (n : Nat) (obs : List M) | lk6 (n : Nat) (obs root : List M) | lk7 (n : Nat) (obs : List M)
  | lk8 (n : Nat) (obs : List M)
  -- trunk_range_iterator_init
  | it0 | it1 | it2 (g : Nat) | it3 (e j : Nat) | it4 (e j : Nat)

structure State (M : Type) where
  gen : Nat
  ret : Nat
  /-- `generation_to_incorporate` -/
  inc : Nat
  slots : Nat → Slot M
  /-- flush tasks -/
  queue : List Nat
  root : List M
  /-- who has claimed the root -/
  rootX : Option Nat
  /-- insert lock: holders, claimer, and whether it is locked exclusively -/
  insR : List Nat
  insX : Option Nat
  insW : Bool
  /-- lookup lock: holders, and who blocks lookups -/
  lkR : List Nat
  lkX : Option Nat
  /-- generations that open iterators have a reference to, with multiplicity -/
  held : List Nat
  /-- `is_empty` -/
  empty : Bool
  pc : Nat → PC M
  /-- for the specification: messages recorded in memtables, with generation and thread -/
  log : List (Nat × Nat × M)
  /-- for the specification: inserts that have returned, with whether they succeeded -/
  done : List (Nat × M × Bool)
  /-- for the specification: lookups that have returned: accepted messages when called, whether the search
  went to the end, messages found in order of age -/
  results : List (Nat × Bool × List M)

def upd {α : Type} (f : Nat → α) (k : Nat) (v : α) : Nat → α := fun j => if j = k then v else f j

variable {M : Type}

/-- The memtable of generation `g` if it is still there (`generation % max_memtables`). -/
def State.sl (N : Nat) (s : State M) (g : Nat) : Slot M := s.slots (g % N)

def State.setSl (N : Nat) (s : State M) (g : Nat) (x : Slot M) : State M := { s with slots := upd s.slots (g % N) x }

def State.to (s : State M) (t : Nat) (p : PC M) : State M := { s with pc := upd s.pc t p }

/-- `memtable_context_create` (lines 313-353). -/
def init : State M :=
  ⟨0, 0, 0, fun i => ⟨.ready, i, 1, true, [], []⟩, [], [], none, [], none, false, [], none, [], true, fun _ => .idle, [], [], []⟩

inductive Res (α : Type) where
  | blocked
  /-- an assertion fails, or freed memory is used -/
  | fault
  | ok (s : α)

inductive Act (M : Type) where
  | insert (m : M)
  | flush (g : Nat)
  | lookup
  | iter
  | drop (g : Nat)
  /-- next step; the flag decides what the model leaves open: whether a memtable is full, whether a lookup has found a definitive message -/
  | go (b : Bool)

/-- `memtable_dec_ref_maybe_recycle` (lines 244-260) up to the release of the btree. -/
def decRef (N : Nat) (s : State M) (t g : Nat) (own : Bool) (k : Bool) (p : PC M) : Res (State M) :=
  let x := s.sl N g
  if x.refs = 0 then .fault
  else if x.refs = 1 then
    if x.st = .incorporated then .ok ((s.setSl N g { x with refs := 0, own := own }).to t (.rec1 g k)) else .fault
  else .ok ((s.setSl N g { x with refs := x.refs - 1, own := own }).to t p)

/-- `memtable_maybe_rotate_and_begin_insert` (lines 115-179), `trunk_memtable_insert`. -/
def stepInsert (N : Nat) (s : State M) (t : Nat) (b : Bool) : PC M → Res (State M)
  | .begin m => if s.insW then .blocked else .ok ({ s with insR := t :: s.insR }.to t (.ins1 m))
  | .ins1 m => .ok (s.to t (.ins2 m s.gen))
  | .ins2 m g =>
    if (s.sl N g).st = .ready then .ok (s.to t (.ins3 m g))
    else .ok ({ s with insR := s.insR.erase t }.to t (.begin m))
  | .ins3 m g => if b then .ok (s.to t (.rot1 m g)) else .ok (s.to t (.put m g))
  | .rot1 m g =>
    if (s.sl N (g + 1)).st = .ready then .ok (s.to t (.rot2 m g))
    else .ok ({ s with insR := s.insR.erase t, done := s.done ++ [(t, m, false)] }.to t .idle)
  | .rot2 m g =>
    if s.insX = none then .ok ({ s with insX := some t }.to t (.rot3 m g))
    else .ok ({ s with insR := s.insR.erase t }.to t (.begin m))
  | .rot3 m g => if s.insR = [t] then .ok ({ s with insW := true }.to t (.rot4 m g)) else .blocked
  | .rot4 m g =>
    let x := s.sl N g
    if x.st = .ready then .ok ((s.setSl N g { x with st := .finalized }).to t (.rot5 m g)) else .fault
  | .rot5 m g =>
    if s.gen + 2 ≤ s.ret + N ∧ g = s.gen then .ok ({ s with gen := s.gen + 1, empty := true }.to t (.rot6 m g)) else .fault
  | .rot6 m g => .ok ({ s with insW := false, insX := none, insR := s.insR.erase t }.to t (.rot7 m g))
  | .rot7 m g => .ok ({ s with queue := s.queue ++ [g] }.to t (.begin m))
  | .put m g =>
    let x := s.sl N g
    if x.gen = g ∧ x.refs ≠ 0 then
      .ok ({ s.setSl N g { x with data := x.data ++ [m] } with log := s.log ++ [(g, t, m)], empty := false }.to t (.put2 m))
    else .fault
  | .put2 m => .ok ({ s with insR := s.insR.erase t, done := s.done ++ [(t, m, true)] }.to t .idle)
  | _ => .blocked

/-- `trunk_memtable_flush_internal` (trunk.c:3783-3800): compaction (3431-3530), `trunk_try_start_incorporate`
(3547-3566), `trunk_memtable_incorporate_and_flush` (3669-3770), `trunk_try_continue_incorporate` (3568-3588). -/
def stepFlush (N : Nat) (s : State M) (t : Nat) : PC M → Res (State M)
  | .fin g =>
    let x := s.sl N g
    if x.gen = g ∧ x.st = .finalized then .ok ((s.setSl N g { x with st := .compacting }).to t (.comp g)) else .fault
  | .comp g =>
    let x := s.sl N g
    if x.gen = g ∧ x.st ≠ .ready ∧ x.refs ≠ 0 then .ok ((s.setSl N g { x with cmt := x.data }).to t (.comp2 g)) else .fault
  | .comp2 g =>
    let x := s.sl N g
    if x.st = .compacting then .ok ((s.setSl N g { x with st := .compacted }).to t (.start g)) else .fault
  | .start g =>
    let x := s.sl N g
    if x.gen = g ∧ g = s.inc ∧ x.st = .compacted then .ok ((s.setSl N g { x with st := .assigned }).to t (.inc1 g))
    else .ok (s.to t .idle)
  | .inc1 g => if s.rootX = none then .ok ({ s with rootX := some t }.to t (.inc2 g)) else .blocked
  | .inc2 g =>
    let x := s.sl N g
    if x.gen = g ∧ x.st ≠ .ready then .ok (s.to t (.inc3 g (s.root ++ x.cmt))) else .fault
  | .inc3 g nr => if s.lkR = [] ∧ s.lkX = none then .ok ({ s with lkX := some t }.to t (.inc4 g nr)) else .blocked
  | .inc4 g nr =>
    let x := s.sl N g
    if x.gen = g ∧ x.st = .assigned ∧ s.ret = g then
      .ok ({ s.setSl N g { x with st := .incorporated } with ret := s.ret + 1 }.to t (.inc5 g nr))
    else .fault
  | .inc5 g nr => .ok ({ s with root := nr, rootX := none }.to t (.inc6 g))
  | .inc6 g => .ok ({ s with lkX := none }.to t (.inc7 g))
  | .inc7 g => decRef N s t g false true (.cont g)
  | .rec1 g k =>
    let x := s.sl N g
    .ok ((s.setSl N g { x with gen := x.gen + N, refs := 1, own := true, data := [] }).to t (.rec2 g k))
  | .rec2 g k =>
    let x := s.sl N g
    if x.st = .incorporated then .ok ((s.setSl N g { x with st := .ready }).to t (if k then .cont g else .idle)) else .fault
  | .cont g =>
    let x := s.sl N (g + 1)
    if x.gen ≠ g + 1 then .ok (s.to t .idle)
    else if s.inc ≠ g then .fault
    else if x.st = .compacted then
      .ok ({ s.setSl N (g + 1) { x with st := .assigned } with inc := s.inc + 1 }.to t (.inc1 (g + 1)))
    else .ok ({ s with inc := s.inc + 1 }.to t .idle)
  | _ => .blocked

/-- `trunk_lookup` (trunk.c:6941-7000) with `trunk_memtable_lookup` (3838-3890), and the memtables of
`trunk_range_iterator_init` (6185-6222). -/
def stepLookup (N : Nat) (s : State M) (t : Nat) (b : Bool) : PC M → Res (State M)
  | .lk0 n => if s.lkX = none then .ok ({ s with lkR := t :: s.lkR }.to t (.lk1 n)) else .blocked
  | .lk1 n => .ok (s.to t (.lk2 n s.gen))
  | .lk2 n g => if g + 1 ≤ s.ret + N then .ok (s.to t (.lk3 n g s.ret (g + 1) [])) else .fault
  | .lk3 n g e j obs =>
    if j = e then .ok (s.to t (.lk5 n obs))
    else
      let x := s.sl N (j - 1)
      if j ≠ 0 ∧ x.gen = j - 1 ∧ x.st ≠ .incorporated then .ok (s.to t (.lk4 n g e j obs (x.st = .compacted ∨ x.st = .assigned)))
      else .fault
  | .lk4 n g e j obs packed =>
    let x := s.sl N (j - 1)
    if packed = false ∧ x.refs = 0 then .fault
    else
      let obs' := (if packed then x.cmt else x.data) ++ obs
      if b then .ok (s.to t (.lk7 n obs')) else .ok (s.to t (.lk3 n g e (j - 1) obs'))
  | .lk5 n obs => .ok (s.to t (.lk6 n obs s.root))
  | .lk6 n obs r => .ok ({ s with lkR := s.lkR.erase t }.to t (.lk8 n (r ++ obs)))
  | .lk7 n obs => .ok ({ s with lkR := s.lkR.erase t, results := s.results ++ [(n, false, obs)] }.to t .idle)
  | .lk8 n obs => .ok ({ s with results := s.results ++ [(n, true, obs)] }.to t .idle)
  | .it0 => if s.lkX = none then .ok ({ s with lkR := t :: s.lkR }.to t .it1) else .blocked
  | .it1 => .ok (s.to t (.it2 s.gen))
  | .it2 g => .ok (s.to t (.it3 s.ret (g + 1)))
  | .it3 e j =>
    if j = e then .ok ({ s with lkR := s.lkR.erase t }.to t .idle)
    else
      let x := s.sl N (j - 1)
      if j ≠ 0 ∧ x.gen = j - 1 ∧ x.st ≠ .incorporated then
        if x.st = .compacted ∨ x.st = .assigned then .ok (s.to t (.it3 e (j - 1))) else .ok (s.to t (.it4 e j))
      else .fault
  | .it4 e j =>
    let x := s.sl N (j - 1)
    if x.gen = j - 1 ∧ x.refs ≠ 0 then
      .ok ({ s.setSl N (j - 1) { x with refs := x.refs + 1 } with held := (j - 1) :: s.held }.to t (.it3 e (j - 1)))
    else .fault
  | _ => .blocked

def PC.isInsert : PC M → Bool
  | .begin _ | .ins1 _ | .ins2 _ _ | .ins3 _ _ | .rot1 _ _ | .rot2 _ _ | .rot3 _ _ | .rot4 _ _ | .rot5 _ _ | .rot6 _ _ | .rot7 _ _
  | .put _ _ | .put2 _ => true
  | _ => false

def PC.isFlush : PC M → Bool
  | .fin _ | .comp _ | .comp2 _ | .start _ | .inc1 _ | .inc2 _ | .inc3 _ _ | .inc4 _ _ | .inc5 _ _ | .inc6 _ | .inc7 _ | .cont _
  | .rec1 _ _ | .rec2 _ _ => true
  | _ => false

def step (N : Nat) (s : State M) (t : Nat) (a : Act M) : Res (State M) :=
  match s.pc t, a with
  | .idle, .insert m => .ok (s.to t (.begin m))
  | .idle, .flush g => if g ∈ s.queue then .ok ({ s with queue := s.queue.erase g }.to t (.fin g)) else .blocked
  | .idle, .lookup => .ok (s.to t (.lk0 s.log.length))
  | .idle, .iter => .ok (s.to t .it0)
  | .idle, .drop g =>
    if g ∈ s.held then
      if (s.sl N g).gen = g then decRef N { s with held := s.held.erase g } t g (s.sl N g).own false .idle else .fault
    else .blocked
  | .idle, .go _ => .blocked
  | p, .go b => if p.isInsert then stepInsert N s t b p else if p.isFlush then stepFlush N s t p else stepLookup N s t b p
  | _, _ => .blocked

/-- `memtable_force_finalize` (lines 265-281) with the `trunk_memtable_flush` that follows it (trunk.c:7874-7875), while no
other thread is in the middle of an operation. -/
def forceFinalize (N : Nat) (s : State M) : Res (State M) :=
  let x := s.sl N s.gen
  if x.st ≠ .ready then .fault
  else if s.gen + 2 ≤ s.ret + N then
    .ok { s.setSl N s.gen { x with st := .finalized } with gen := s.gen + 1, empty := true, queue := s.queue ++ [s.gen] }
  else .fault

end Splinter.Memtable
