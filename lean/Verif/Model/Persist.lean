/-!
# What close writes, what open reads, and where a crash can fall

Code modelled:
* `trunk_set_super_block`, `trunk_get_super_block_if_valid` (trunk.c 907–983),
* `trunk_create` after its superblock write (trunk.c 7707), `trunk_mount`
  (7763–7858), `trunk_prepare_for_shutdown` (7863–7895), `trunk_unmount` (7967–7987),
* `rc_allocator_mount` and `rc_allocator_unmount` (rc_allocator.c 403–488),
* `splinterdb_create_or_open` with `open_existing` (splinterdb.c 232–399) and
  `splinterdb_close` (431–460),
* as actions in between: `allocator_alloc`, `allocator_inc_ref`, `allocator_dec_ref`,
  page writes into the cache, and the cache's page write backs.

Simplifications:
* The device has three parts that do not overlap: the table's superblock page, the
  table of reference counts, and all other pages. (C37 covers the superblock pages;
  `rc_allocator_init` keeps the extents of the first two out of circulation.)
  One table is open; the meta page does not change and is left out.
* A superblock is either valid or has a checksum that does not match (`none`).
  A checksum that matches by accident is left out.
* Writes reach the device in the order in which the process issues them; the
  process writes with `O_DIRECT` and never asks the device to sync.
* The reference counts are written in one call. The model writes the entries one at a
  time in any order, so that a crash may leave any mixture.
* What nodes, branches and filters mean is not modelled here: a page has any type `P`.
-/
namespace Splinter.Persist

/-- `trunk_super_block` (trunk.c 449–466), without the addresses of the log, which
`trunk_mount` does not read. -/
structure Super where
  root : Nat
  nextId : Nat
  metaTail : Nat
  stamp : Nat
  unmounted : Bool
  deriving DecidableEq, Repr

structure Disk (P : Type) where
  pages : Nat → P
  sup : Option Super
  refs : Nat → Nat

/-- Where the process is. -/
inductive Phase
  /-- in `trunk_mount`, before `trunk_set_super_block` (7831) -/
  | mounting
  | running
  /-- `trunk_prepare_for_shutdown` has returned -/
  | stopping
  /-- `trunk_set_super_block` of `trunk_unmount` (7972) has returned -/
  | saving
  deriving DecidableEq, Repr

structure Mem (P : Type) where
  /-- pages in the cache that differ from the device, newest first -/
  dirty : List (Nat × P)
  refs : Nat → Nat
  /-- extents allocated since the open (ghost) -/
  fresh : List Nat
  root : Nat
  nextId : Nat
  metaTail : Nat
  /-- `mini.meta_head` of the trunk's mini allocator -/
  metaHead : Nat
  phase : Phase

/-- The state that a close makes durable. -/
structure Snap (P : Type) where
  pages : Nat → P
  refs : Nat → Nat
  root : Nat
  nextId : Nat
  metaTail : Nat

/-- Pages per extent and number of extents. -/
structure Geo where
  es : Nat
  cap : Nat

variable {P : Type}

def Geo.ext (g : Geo) (a : Nat) : Nat := a / g.es

/-- What `cache_get` returns for an address. -/
def view (d : Disk P) (m : Mem P) (a : Nat) : P := (m.dirty.lookup a).getD (d.pages a)

def snapOf (d : Disk P) (m : Mem P) : Snap P :=
  ⟨view d m, m.refs, m.root, m.nextId, m.metaTail⟩

/-- The handle that an open has built at line 7812. -/
def loaded (d : Disk P) (s : Super) : Mem P :=
  { dirty := [], refs := d.refs, fresh := [], root := s.root, nextId := s.nextId,
    metaTail := s.metaTail, metaHead := s.root + 1, phase := .mounting }

/-- `rc_allocator_mount`, then `trunk_mount` up to line 7812. `none`: the open reports
failure. The failure path calls `rc_allocator_unmount`, which writes back the reference
counts just read. -/
def mount (d : Disk P) : Option (Mem P) :=
  let root := match d.sup with
    | none => 0
    | some s => if s.unmounted ∧ 0 < s.stamp then s.root else 0
  if root = 0 then none
  else
    match d.sup with
    | none => none
    | some s =>
      some (loaded d s)

/-- `trunk_set_super_block` (907–957) at time `t`. -/
def setSuper (d : Disk P) (m : Mem P) (unmounted : Bool) (t : Nat) : Disk P :=
  { d with sup := some ⟨m.root, m.nextId, m.metaTail, t, unmounted⟩ }

def setAt {A : Type} (f : Nat → A) (i : Nat) (x : A) : Nat → A := fun j => if j = i then x else f j

/-- The whole system, with three ghost fields. -/
structure Sys (P : Type) where
  disk : Disk P
  proc : Option (Mem P)
  /-- the state at the last superblock write of a close -/
  last : Option (Snap P)
  /-- a crash fell between that write and the end of the reference count write after it -/
  window : Bool
  /-- an open has read reference counts that differ from those of `last` -/
  stale : Bool

inductive Act (P : Type)
  | openDb
  /-- `allocator_alloc` hands out extent `e` with one reference (`AL_ONE_REF`, 2) -/
  | alloc (e : Nat)
  | inc (e : Nat)
  | dec (e : Nat)
  /-- a page is written in the cache -/
  | write (a : Nat) (p : P)
  /-- `cache_extent_discard` drops a page of an extent without references -/
  | discard (a : Nat)
  | writeback (a : Nat)
  /-- a new root, node identifier or tail of the mini allocator -/
  | setMeta (root nextId metaTail : Nat)
  /-- `trunk_set_super_block (spl, FALSE, FALSE, FALSE)` at the end of `trunk_mount` -/
  | mounted (t : Nat)
  /-- `trunk_prepare_for_shutdown` returns -/
  | stop
  /-- `trunk_set_super_block (spl, FALSE, TRUE, FALSE)` in `trunk_unmount` -/
  | unmount (t : Nat)
  /-- one entry of the reference counts reaches the device -/
  | save (e : Nat)
  /-- `rc_allocator_unmount` returns -/
  | done
  /-- the process stops. `torn`: during a superblock write. `junk`: during the write
  back of a page, leaving any content. -/
  | crash (torn : Bool) (junk : Option (Nat × P))

def sameRefs (g : Geo) (f h : Nat → Nat) : Bool := (List.range g.cap).all (fun e => f e == h e)

/-- One step; `none`: the step is not possible here. -/
def act (g : Geo) (s : Sys P) : Act P → Option (Sys P)
  | .openDb =>
    match s.proc with
    | some _ => none
    | none =>
      match mount s.disk with
      | none => some s
      | some m =>
        some { s with
          proc := some m
          stale := s.stale || (match s.last with
            | none => true
            | some l => !sameRefs g l.refs m.refs) }
  | .alloc e =>
    match s.proc with
    | none => none
    | some m =>
      if (m.phase = .mounting ∨ m.phase = .running) ∧ e < g.cap ∧ m.refs e = 0 then
        some { s with proc := some { m with refs := setAt m.refs e 2, fresh := e :: m.fresh } }
      else none
  | .inc e =>
    match s.proc with
    | none => none
    | some m =>
      if (m.phase = .running ∨ m.phase = .mounting ∧ e ∈ m.fresh) ∧ e < g.cap ∧ m.refs e ≠ 0 then
        some { s with proc := some { m with refs := setAt m.refs e (m.refs e + 1) } }
      else none
  | .dec e =>
    match s.proc with
    | none => none
    | some m =>
      if m.phase = .running ∧ e < g.cap ∧ m.refs e ≠ 0 then
        some { s with proc := some { m with refs := setAt m.refs e (m.refs e - 1) } }
      else none
  | .write a p =>
    match s.proc with
    | none => none
    | some m =>
      if (m.phase = .running ∨ m.phase = .mounting ∧ g.ext a ∈ m.fresh) ∧ m.refs (g.ext a) ≠ 0 then
        some { s with proc := some { m with dirty := (a, p) :: m.dirty } }
      else none
  | .discard a =>
    match s.proc with
    | none => none
    | some m =>
      if m.phase = .running ∧ m.refs (g.ext a) ≤ 1 then
        some { s with proc := some { m with dirty := m.dirty.filter (fun x => x.1 != a) } }
      else none
  | .writeback a =>
    match s.proc with
    | none => none
    | some m =>
      match m.dirty.lookup a with
      | none => none
      | some p =>
        some { s with
          disk := { s.disk with pages := setAt s.disk.pages a p }
          proc := some { m with dirty := m.dirty.filter (fun x => x.1 != a) } }
  | .setMeta r n t =>
    match s.proc with
    | none => none
    | some m =>
      if m.phase = .running ∧ r ≠ 0 then
        some { s with proc := some { m with root := r, nextId := n, metaTail := t } }
      else none
  | .mounted t =>
    match s.proc with
    | none => none
    | some m =>
      if m.phase = .mounting then
        some { s with disk := setSuper s.disk m false t, proc := some { m with phase := .running } }
      else none
  | .stop =>
    match s.proc with
    | none => none
    | some m =>
      if m.phase = .running ∧ m.dirty = [] then
        some { s with proc := some { m with phase := .stopping } }
      else none
  | .unmount t =>
    match s.proc with
    | none => none
    | some m =>
      if m.phase = .stopping ∧ 0 < t then
        some { s with
          disk := setSuper s.disk m true t
          proc := some { m with phase := .saving }
          last := some (snapOf s.disk m)
          window := false
          stale := false }
      else none
  | .save e =>
    match s.proc with
    | none => none
    | some m =>
      if m.phase = .saving ∧ e < g.cap then
        some { s with disk := { s.disk with refs := setAt s.disk.refs e (m.refs e) } }
      else none
  | .done =>
    match s.proc with
    | none => none
    | some m =>
      if m.phase = .saving ∧ sameRefs g s.disk.refs m.refs then some { s with proc := none }
      else none
  | .crash torn junk =>
    match s.proc with
    | none => none
    | some m =>
      if (torn → m.phase = .mounting ∨ m.phase = .stopping) then
        let d := if torn then { s.disk with sup := none } else s.disk
        match junk with
        | none =>
          some { s with
            disk := d, proc := none
            window := s.window || (m.phase = .saving && !sameRefs g s.disk.refs m.refs) }
        | some (a, p) =>
          if (m.dirty.lookup a).isSome then
            some { s with disk := { d with pages := setAt d.pages a p }, proc := none }
          else none
      else none

def run (g : Geo) (s : Sys P) : List (Act P) → Option (Sys P)
  | [] => some s
  | x :: xs =>
    match act g s x with
    | none => none
    | some s' => run g s' xs

/-- The moment after `trunk_create` has written its superblock (7707): the device holds
anything else; the process holds some extents, some pages, and a root. -/
structure Created (s : Sys P) : Prop where
  sup : ∃ x, s.disk.sup = some x ∧ x.unmounted = false
  proc : ∃ m, s.proc = some m ∧ m.phase = .running ∧ m.root ≠ 0 ∧ m.metaHead = m.root + 1
  last : s.last = none
  window : s.window = false
  stale : s.stale = false

end Splinter.Persist
