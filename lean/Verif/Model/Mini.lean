import Mathlib.Order.Defs.LinearOrder

/-!
# Mini allocator

src/mini_allocator.c: pages of one run are handed out of extents (`mini_init`, `mini_alloc`,
`mini_release`), the extents are listed in meta pages, and ranges of the run are referenced and released
extent by extent (`mini_keyed_inc_ref`, `mini_keyed_dec_ref`).
-/
namespace Splinter.Mini

def upd {α : Type} (f : Nat → α) (k : Nat) (v : α) : Nat → α := fun j => if j = k then v else f j

/-- `keyed_meta_entry` (lines 56-60); `ext = none` is `TERMINAL_EXTENT_ADDR`. -/
structure Ent (K : Type) where
  ext : Option Nat
  batch : Nat
  key : K
deriving DecidableEq, Repr

/-! ### Visiting the extents of a key range -/

/-- `boundary_state` (lines 792-796). -/
inductive BS where
  | before | inside | after
deriving DecidableEq, Repr

/-- The values lines 798-811 rely on. -/
def BS.val : BS → Nat
  | .before => 1
  | .inside => 0
  | .after => 2

/-- `interval_intersects_range` (lines 798-811). -/
def intersects (l r : BS) : Bool := (l.val &&& r.val) == 0

section
variable {K : Type} [LinearOrder K]

/-- `state` (lines 813-824). -/
def stateOf (a b k : K) : BS := if k < a then .before else if k ≤ b then .inside else .after

/-- The loops of `mini_keyed_for_each` and `mini_keyed_for_each_self_exclusive` (lines 839-902, 916-985): the calls of
`func` as pairs of batch and extent. The meta pages are one list here (see `State.entries`). -/
def visit (a b : K) : List (Ent K) → (Nat → BS) → (Nat → Option Nat) → List (Nat × Option Nat)
  | [], _, _ => []
  | e :: es, cur, ext =>
    let nxt :=
      if ext e.batch = none then .before
      else if e.ext = none then .after
      else stateOf a b e.key
    let rest := visit a b es (upd cur e.batch nxt) (upd ext e.batch e.ext)
    if intersects (cur e.batch) nxt then (e.batch, ext e.batch) :: rest else rest

def forEach (ents : List (Ent K)) (a b : K) : List (Option Nat) :=
  (visit a b ents (fun _ => .before) (fun _ => none)).map (·.2)

/-- `mini_keyed_inc_ref_extent` (lines 1078-1087) with `rc_allocator_inc_ref` (rc_allocator.c:500-517); `none` is a failed
assertion. -/
def incOne (refs : Nat → Nat) : Option Nat → Option (Nat → Nat)
  | none => none
  | some e =>
    let r := (refs e + 1) % 256
    if r ≠ 1 ∧ r ≠ 0 then some (upd refs e r) else none

/-- `mini_keyed_dec_ref_extent` (lines 1107-1122) with `rc_allocator_dec_ref` (rc_allocator.c:519-551): new counts and whether
the extent was freed. -/
def decOne (refs : Nat → Nat) : Option Nat → Option ((Nat → Nat) × Bool)
  | none => none
  | some e =>
    let r := (refs e + 255) % 256
    if r = 255 then none
    else if r = 1 then some (upd refs e 0, true)
    else some (upd refs e r, false)

def incAll (refs : Nat → Nat) : List (Option Nat) → Option (Nat → Nat)
  | [] => some refs
  | x :: xs =>
    match incOne refs x with
    | none => none
    | some refs => incAll refs xs

/-- With `should_cleanup`. -/
def decAll (refs : Nat → Nat) (clean : Bool) : List (Option Nat) → Option ((Nat → Nat) × Bool)
  | [] => some (refs, clean)
  | x :: xs =>
    match decOne refs x with
    | none => none
    | some (refs, c) => decAll refs (clean && c) xs

/-- `mini_keyed_inc_ref` (lines 1089-1105). -/
def incRange (ents : List (Ent K)) (a b : K) (refs : Nat → Nat) : Option (Nat → Nat) := incAll refs (forEach ents a b)

/-- `mini_keyed_dec_ref` (lines 1135-1160), once `mini_wait_for_blockers` has returned; the result says whether the meta
pages are released too. -/
def decRange (ents : List (Ent K)) (a b : K) (refs : Nat → Nat) : Option ((Nat → Nat) × Bool) := decAll refs true (forEach ents a b)

end

/-! ### Handing out pages

Every step is one atomic access, or a piece of code under the lock of the batch or of the last meta page. `es` and `ps` are
the sizes of extents and pages, `src i` is the `i`-th extent obtained from the extent allocator; `sz` is the space an entry
takes (`keyed_meta_entry_required_capacity`) and `cap` the space in a meta page. -/

structure Cfg (K : Type) where
  es : Nat
  ps : Nat
  src : Nat → Nat
  sz : K → Nat
  cap : Nat

inductive PC (K : Type) where
  | idle
  /-- holds the lock of batch `b`; `a` is `next_addr` (`mini_alloc`, line 587) -/
  | locked (b : Nat) (k : K) (a : Nat)
  /-- has taken extent `e` and is about to list it (line 598) -/
  | list (b : Nat) (k : K) (e : Nat)
  /-- about to unlock and return `a` (lines 607-609) -/
  | ret (b : Nat) (a : Nat)

structure State (K : Type) where
  /-- `next_addr`; 1 is `MINI_WAIT` -/
  nextAddr : Nat → Nat
  nextExtent : Nat → Nat
  /-- number of extents obtained so far -/
  taken : Nat
  /-- meta pages, oldest first: address and entries. The last one is `meta_tail`. -/
  metas : List (Nat × List (Ent K))
  pc : Nat → PC K
  /-- for the specification: pages handed out, oldest first -/
  out : List (Nat × Nat)

variable {K : Type}

/-- All entries, in the order of `mini_get_next_meta_addr` (line 491). -/
def State.entries (s : State K) : List (Ent K) := s.metas.flatMap (·.2)

/-- `mini_init` (lines 269-328) for a new allocator with `n` batches. -/
def init (c : Cfg K) (head n : Nat) : State K :=
  ⟨fun _ => 0, fun b => if b < n then c.src b else 0, n, [(head, [])], fun _ => .idle, []⟩

/-- Used space of a meta page (`hdr->pos`, without the header). -/
def used (c : Cfg K) (l : List (Ent K)) : Nat := (l.map (c.sz ·.key)).sum

/-- `mini_append_entry` (lines 509-557). `none`: an assertion fails. When the entry does not fit into an empty page either,
it is lost: line 553 is a `debug_assert`. -/
def appendEntry (c : Cfg K) (s : State K) (e : Ent K) : Option (State K) :=
  match s.metas.getLast? with
  | none => none
  | some (tail, l) =>
    if used c l + c.sz e.key ≤ c.cap then some { s with metas := s.metas.dropLast ++ [(tail, l ++ [e])] }
    else
      let l' := if c.sz e.key ≤ c.cap then [e] else []
      if (tail + c.ps) % c.es = 0 then some { s with metas := s.metas ++ [(c.src s.taken, l')], taken := s.taken + 1 }
      else some { s with metas := s.metas ++ [(tail + c.ps, l')] }

inductive Res (α : Type) where
  | blocked
  | fault
  | ok (s : α)

inductive Act (K : Type) where
  | alloc (b : Nat) (k : K)
  | go

/-- `mini_alloc` (lines 579-610). -/
def step (c : Cfg K) (n : Nat) (s : State K) (t : Nat) (a : Act K) : Res (State K) :=
  match s.pc t, a with
  | .idle, .alloc b k =>
    if b < n then
      if s.nextAddr b = 1 then .blocked
      else .ok { s with nextAddr := upd s.nextAddr b 1, pc := upd s.pc t (.locked b k (s.nextAddr b)) }
    else .blocked
  | .locked b k a, .go =>
    if a % c.es = 0 then
      .ok { s with nextExtent := upd s.nextExtent b (c.src s.taken), taken := s.taken + 1, pc := upd s.pc t (.list b k (s.nextExtent b)) }
    else .ok { s with pc := upd s.pc t (.ret b a) }
  | .list b k e, .go =>
    match appendEntry c s ⟨some e, b, k⟩ with
    | none => .fault
    | some s => .ok { s with pc := upd s.pc t (.ret b e) }
  | .ret b a, .go => .ok { s with nextAddr := upd s.nextAddr b (a + c.ps), pc := upd s.pc t .idle, out := s.out ++ [(b, a)] }
  | _, _ => .blocked

inductive Reachable (c : Cfg K) (head n : Nat) : State K → Prop
  | init : Reachable c head n (init c head n)
  | step {s s' : State K} (t : Nat) (a : Act K) : Reachable c head n s → step c n s t a = .ok s' → Reachable c head n s'

/-- `mini_release` (lines 630-648), keyed: the extents that were obtained ahead are given back (not part of this state) and each
batch gets a terminal entry. -/
def releaseFrom (c : Cfg K) (k : K) : List Nat → State K → Option (State K)
  | [], s => some s
  | b :: bs, s =>
    match appendEntry c s ⟨none, b, k⟩ with
    | none => none
    | some s => releaseFrom c k bs s

def release (c : Cfg K) (n : Nat) (s : State K) (k : K) : Option (State K) := releaseFrom c k (List.range n) s

end Splinter.Mini
