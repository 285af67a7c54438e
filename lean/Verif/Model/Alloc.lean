/-!
# The reference-counting extent allocator

src/rc_allocator.c:495-745. Extents are numbered (the code's addresses are multiples of `extent_size`);
`cap` is `extent_capacity`. Every step is one atomic access of one thread. Simplifications:

* The test of line 712 and the compare-and-swap of line 714 are one step: a test that sees a non-zero
  count acts as a failed swap at that moment, and after a test that sees zero only the swap matters.
* `hand` does not wrap at 2^64.
* Statistics are left out.
* `holders` counts, for the specification, who has obtained an extent and not released it. Callers add or
  release a holder only of an extent that has one; the caller that releases the last holder (result
  `AL_NO_REFS`) later performs the second decrement, as mini_allocator.c:1014-1019 and the other callers do.
* `busy t e` records whether extent `e` was counted as in use at some moment since thread `t` began its
  current allocation; `start t` is the value of `hand` at that moment.
-/
namespace Splinter.Alloc

inductive PC where
  | idle
  /-- `rc_allocator_alloc`, before the fetch-and-add (line 711); `first` is `first_hand` -/
  | tick (first : Nat)
  /-- before the test and swap (lines 712-715) of counter value `h` -/
  | test (first h : Nat)
  /-- returning extent `e` -/
  | got (e : Nat)
  /-- returning `STATUS_NO_SPACE` -/
  | failed
  /-- a decrement has returned `AL_NO_REFS`; the extent's pages are being discarded -/
  | dying (e : Nat)
deriving DecidableEq

structure State where
  ref : Nat → Nat
  hand : Nat
  pc : Nat → PC
  holders : Nat → Nat
  busy : Nat → Nat → Bool
  start : Nat → Nat

inductive Act where
  | alloc
  | inc (e : Nat)
  | dec (e : Nat)
  | go

inductive Res where
  /-- not a call the thread can make now -/
  | blocked
  /-- a `platform_assert` fails -/
  | fault
  | ok (s : State)

def upd {α : Type} (f : Nat → α) (k : Nat) (v : α) : Nat → α := fun j => if j = k then v else f j

/-- `rc_allocator_init` (lines 300-343) after zeroing the counts. The extents it then allocates for itself
are allocations like any other. -/
def init : State := ⟨fun _ => 0, 0, fun _ => .idle, fun _ => 0, fun _ _ => false, fun _ => 0⟩

def State.goto (s : State) (t : Nat) (p : PC) : State := { s with pc := upd s.pc t p }

/-- One step of thread `t`, without the records for the specification. -/
def move (cap : Nat) (s : State) (t : Nat) (a : Act) : Res :=
  match s.pc t, a with
  -- rc_allocator_alloc (700-738)
  | .idle, .alloc => .ok (s.goto t (.tick (s.hand % cap)))
  | .tick first, .go => .ok ({ s with hand := s.hand + 1 }.goto t (.test first s.hand))
  | .test first h, .go =>
    if s.ref (h % cap) = 0 then
      .ok ({ s with ref := upd s.ref (h % cap) 2, holders := upd s.holders (h % cap) (s.holders (h % cap) + 1) }.goto t (.got (h % cap)))
    else if (h % cap + 1) % cap ≠ first then .ok (s.goto t (.tick first))
    else .ok (s.goto t .failed)
  | .got _, .go => .ok (s.goto t .idle)
  | .failed, .go => .ok (s.goto t .idle)
  -- rc_allocator_inc_ref (495-513)
  | .idle, .inc e =>
    if s.holders e = 0 then .blocked
    else
      let r := (s.ref e + 1) % 256
      if r ≠ 1 ∧ r ≠ 0 then .ok { s with ref := upd s.ref e r, holders := upd s.holders e (s.holders e + 1) } else .fault
  -- rc_allocator_dec_ref (515-548)
  | .idle, .dec e =>
    if s.holders e = 0 then .blocked
    else
      let r := (s.ref e + 255) % 256
      if r ≠ 255 then
        .ok ({ s with ref := upd s.ref e r, holders := upd s.holders e (s.holders e - 1) }.goto t (if r = 1 then .dying e else .idle))
      else .fault
  | .dying e, .go =>
    let r := (s.ref e + 255) % 256
    if r = 0 then .ok ({ s with ref := upd s.ref e r }.goto t .idle) else .fault
  | _, _ => .blocked

def Act.begins : Act → Bool
  | .alloc => true
  | _ => false

/-- The records for the specification. -/
def observe (s s' : State) (t : Nat) (a : Act) : State :=
  { s' with
    busy := fun u e => (!(a.begins && u == t) && s.busy u e) || decide (s'.ref e ≠ 0)
    start := if a.begins then upd s.start t s.hand else s.start }

def step (cap : Nat) (s : State) (t : Nat) (a : Act) : Res :=
  match move cap s t a with
  | .ok s' => .ok (observe s s' t a)
  | r => r

inductive Reachable (cap : Nat) : State → Prop
  | init : Reachable cap init
  | step {s s' : State} (t : Nat) (a : Act) : Reachable cap s → step cap s t a = .ok s' → Reachable cap s'

/-- `rc_allocator_alloc` (lines 695-738) running alone: extent and new `hand`, or no space. `none`: not finished after
`fuel` turns. -/
def allocLoop (cap : Nat) (ref : Nat → Nat) (first : Nat) : (fuel hand : Nat) → Option (Option Nat × Nat)
  | 0, _ => none
  | fuel + 1, hand =>
    let h := hand % cap
    if ref h = 0 then some (some h, hand + 1)
    else if (h + 1) % cap ≠ first then allocLoop cap ref first fuel (hand + 1)
    else some (none, hand + 1)

def allocSeq (cap : Nat) (ref : Nat → Nat) (hand : Nat) : Option (Option Nat × Nat) :=
  allocLoop cap ref (hand % cap) cap hand

/-! ### Superblock slots (rc_allocator.c:578-660)

`splinters` is an array of 30 ids, 0 for a free slot. Writing the page to the device, with its checksum, is
in the model of closing and opening. All three functions run under a mutex. -/

/-- The search loops; index of the first slot with the given contents. -/
def find (ids : List Nat) (id : Nat) : Option Nat := ids.findIdx? (· == id)

/-- `rc_allocator_get_super_addr` (578-597). -/
def getSuper (ps : Nat) (ids : List Nat) (id : Nat) : Option Nat := (find ids id).map fun i => (1 + i) * ps

/-- `rc_allocator_alloc_super_addr` (599-631). -/
def allocSuper (ps : Nat) (ids : List Nat) (id : Nat) : Option (List Nat × Nat) :=
  (find ids 0).map fun i => (ids.set i id, (1 + i) * ps)

/-- `rc_allocator_remove_super_addr` (633-664); `none` for the failed assertion. -/
def removeSuper (ids : List Nat) (id : Nat) : Option (List Nat) := (find ids id).map fun i => ids.set i 0

/-- `rc_allocator_init_meta_page` (225-256). -/
def initIds : List Nat := List.replicate 30 0

end Splinter.Alloc
