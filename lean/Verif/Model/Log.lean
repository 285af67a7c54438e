/-!
# The sharded write-ahead log

src/shard_log.c: `shard_log_write` (216-279), `get_new_page_for_thread` (199-214), `shard_log_valid` (302-309),
`shard_log_iterator_init` (336-425), `shard_log_compare` (318-324), and `ondisk_tuple` from data_internal.h (386-456).

A page is a function from offsets to bytes. Layouts are packed structs (`ONDISK`):
* page header (`shard_log_hdr`, 34 bytes): checksum 0-15, magic 16-23, `next_extent_addr` 24-31, `num_entries` 32-33;
* entry (`log_entry`, 14 bytes and data): generation 0-7, `key_length` 8-9, `key_flags` 10 (never written), `message_length` 11-12,
  `flags` 13, key and message from 14.

Each thread writes to a page of its own. A write is up to three steps, between which other threads run: complete the full page, allocate a new
page, store the record. The page is locked by its thread during a step.

Pages come from a mini allocator with one batch: the `p`-th page it hands out is page `p % P` of the extent `ext (p / P)`, and the next extent it
reports is `ext (p / P + 1)` (C38 proves that a mini allocator hands out pages this way, each once). The checksum is an arbitrary function.
-/
namespace Splinter.Log

abbrev Mem := Nat → Nat

/-- Little-endian integers. -/
def le : Nat → Nat → List Nat
  | 0, _ => []
  | n + 1, v => v % 256 :: le n (v / 256)

def unle : List Nat → Nat
  | [] => 0
  | b :: l => b + 256 * unle l

/-- `memcpy` to and from a page. -/
def put (m : Mem) (off : Nat) (l : List Nat) : Mem := fun i => if off ≤ i ∧ i < off + l.length then l.getD (i - off) 0 else m i
def get (m : Mem) (off n : Nat) : List Nat := (List.range n).map fun i => m (off + i)

structure Rec where
  gen : Nat
  key : List Nat
  cls : Nat
  msg : List Nat
deriving DecidableEq

/-- `log_entry_required_capacity` (lines 166-172). -/
def Rec.size (r : Rec) : Nat := 14 + (r.key.length + r.msg.length)

/-- `INVALID_GENERATION`. -/
def invalidGen : Nat := 2 ^ 64 - 1

def genAt (m : Mem) (off : Nat) : Nat := unle (get m off 8)
def klenAt (m : Mem) (off : Nat) : Nat := unle (get m (off + 8) 2)
def mlenAt (m : Mem) (off : Nat) : Nat := unle (get m (off + 11) 2)

/-- `sizeof_log_entry` (174-178). -/
def sizeAt (m : Mem) (off : Nat) : Nat := 14 + (klenAt m off + mlenAt m off)

/-- `log_entry_key`, `log_entry_message` (154-164), `ondisk_tuple_message` (data_internal.h:430). -/
def decode (m : Mem) (off : Nat) : Rec :=
  ⟨genAt m off, get m (off + 14) (klenAt m off), m (off + 13) % 4, get m (off + 14 + klenAt m off) (mlenAt m off)⟩

/-- Lines 263-264: `cursor->generation = generation; copy_tuple_to_ondisk_tuple(...)` (data_internal.h:438-456). -/
def writeEntry (m : Mem) (off : Nat) (r : Rec) : Mem :=
  let m := put m off (le 8 r.gen)
  let m := put m (off + 8) (le 2 r.key.length)
  let m := put m (off + 13) [0]
  let m := put m (off + 14) r.key
  let m := put m (off + 11) (le 2 r.msg.length)
  let m := put m (off + 13) [r.cls % 256]
  put m (off + 14 + klenAt m off) r.msg

structure Cfg where
  /-- page size -/
  PS : Nat
  /-- pages per extent -/
  P : Nat
  /-- extents the log can get -/
  E : Nat
  ext : Nat → Nat
  magic : Nat
  /-- checksum of the bytes after the checksum field -/
  H : List Nat → List Nat

/-- Address of the `p`-th page. -/
def Cfg.addr (c : Cfg) (p : Nat) : Nat := c.ext (p / c.P) + p % c.P * c.PS

/-- Lines 205-211. -/
def newPage (c : Cfg) (p : Nat) (m : Mem) : Mem :=
  put (put (put m 16 (le 8 c.magic)) 24 (le 8 (c.ext (p / c.P + 1)))) 32 (le 2 0)

/-- Lines 246-249: the page is full. -/
def finish (c : Cfg) (m : Mem) (off : Nat) : Mem :=
  let m := if 14 ≤ c.PS - off then put m off (le 8 invalidGen) else m
  put m 0 (c.H (get m 16 (c.PS - 16)))

/-- Lines 263-266. -/
def store (m : Mem) (off : Nat) (r : Rec) : Mem :=
  let m := writeEntry m off r
  put m 32 (le 2 (unle (get m 32 2) + 1))

inductive PC where
  | idle
  | new (r : Rec)
  | put (r : Rec)

structure State where
  dev : Nat → Mem
  /-- pages handed out by the mini allocator -/
  n : Nat
  /-- `thread_data`: the page (as its number) and the offset -/
  thr : Nat → Option (Nat × Nat)
  pc : Nat → PC
  /-- for the specification: page, thread and record of every write, in order -/
  hist : List (Nat × Nat × Rec)
  /-- for the specification: pages that have been completed -/
  full : Nat → Bool

def upd {α : Type} (f : Nat → α) (k : Nat) (v : α) : Nat → α := fun j => if j = k then v else f j

inductive Res (α : Type) where
  | blocked
  | fault
  | ok (s : α)

inductive Act where
  | write (r : Rec)
  | go

/-- `shard_log_write` (216-279). A record that does not fit a page is written over the end of the page (only a `debug_assert` checks it). When there are
no more extents the process stops (`platform_assert` in `mini_alloc`), here: `blocked`. -/
def step (c : Cfg) (s : State) (t : Nat) (a : Act) : Res State :=
  match s.pc t, a with
  | .idle, .write r =>
    match s.thr t with
    | none => .ok { s with pc := upd s.pc t (.new r) }
    | some (p, off) =>
      if c.PS - off < r.size then
        .ok { s with dev := upd s.dev (c.addr p) (finish c (s.dev (c.addr p)) off), full := upd s.full p true, pc := upd s.pc t (.new r) }
      else .ok { s with pc := upd s.pc t (.put r) }
  | .new r, .go =>
    if c.E ≤ s.n / c.P + 1 then .blocked
    else .ok { s with dev := upd s.dev (c.addr s.n) (newPage c s.n (s.dev (c.addr s.n))), n := s.n + 1, thr := upd s.thr t (some (s.n, 34)), pc := upd s.pc t (.put r) }
  | .put r, .go =>
    match s.thr t with
    | none => .fault
    | some (p, off) =>
      if c.PS < off + r.size then .fault
      else .ok { s with dev := upd s.dev (c.addr p) (store (s.dev (c.addr p)) off r), thr := upd s.thr t (some (p, off + r.size)), pc := upd s.pc t .idle, hist := s.hist ++ [(p, t, r)] }
  | _, _ => .blocked

/-- `shard_log_valid`. -/
def valid (c : Cfg) (m : Mem) : Bool := decide (unle (get m 16 8) = c.magic) && decide (get m 0 16 = c.H (get m 16 (c.PS - 16)))

/-- `shard_log_next_extent_addr`. -/
def nextExt (m : Mem) : Nat := unle (get m 24 8)

/-- The loop over the last `j` pages of an extent, lines 361-372: addresses of the valid pages, and whether the end was reached. -/
def scan (c : Cfg) (dev : Nat → Mem) (ext : Nat) : Nat → List Nat × Bool
  | 0 => ([], true)
  | j + 1 =>
    let a := ext + (c.P - (j + 1)) * c.PS
    if valid c (dev a) then let r := scan c dev ext j; (a :: r.1, r.2) else ([], false)

/-- The loop over extents (358-374 and 387-411). `live` says which extents have references. `none`: not finished after `fuel` extents. -/
def walk (c : Cfg) (live : Nat → Bool) (dev : Nat → Mem) : Nat → Nat → Option (List Nat)
  | 0, _ => none
  | fuel + 1, ext =>
    if ext = 0 ∨ live ext = false then some []
    else
      let r := scan c dev ext c.P
      if r.2 then (walk c live dev fuel (nextExt (dev (ext + (c.P - 1) * c.PS)))).map (r.1 ++ ·) else some r.1

/-- `itor->contents`, the position of the cursor in it, and `itor->entries` (as offsets into the contents). -/
structure Copy where
  contents : Mem
  cur : Nat
  entries : List Nat

/-- The loop over the entries of a page (398-406): `cap` is the size of `contents`, `num` that of `entries`.
`none`: an access outside of one of them, or of the page. -/
def copyPage (c : Cfg) (cap num : Nat) (m : Mem) (off : Nat) (x : Copy) : Option Copy :=
  if c.PS < off then none
  else if h : c.PS - off < 14 ∨ genAt m off = invalidGen then some x
  else
    let n := sizeAt m off
    if c.PS < off + n ∨ cap < x.cur + n ∨ num ≤ x.entries.length then none
    else
      let contents := put x.contents x.cur (get m off n)
      copyPage c cap num m (off + n) ⟨contents, x.cur + sizeAt contents x.cur, x.entries ++ [x.cur]⟩
termination_by c.PS - off
decreasing_by
  rename_i h1 h2
  have : 14 ≤ sizeAt m off := Nat.le_add_right 14 _
  have : sizeAt m off = n := rfl
  simp only [not_or] at h
  omega

def copyPages (c : Cfg) (cap num : Nat) (dev : Nat → Mem) : List Nat → Copy → Option Copy
  | [], x => some x
  | a :: l, x => (copyPage c cap num (dev a) 34 x).bind (copyPages c cap num dev l)

/-- `shard_log_compare`: the difference of two `uint64` as an `int`. -/
def compare (g1 g2 : Nat) : Int := ((g1 : Int) - g2).bmod (2 ^ 32)

/-- `shard_log_iterator_init` without the sort: `none` in the inner option is an access out of bounds. The records are those that
`shard_log_iterator_curr` returns for the entries. -/
def readLog (c : Cfg) (live : Nat → Bool) (dev : Nat → Mem) (garbage : Mem) (fuel : Nat) : Option (Option (Nat × List Rec)) :=
  (walk c live dev fuel (c.ext 0)).map fun l =>
    let num := (l.map fun a => unle (get (dev a) 32 2)).sum
    (copyPages c (l.length * c.PS) num dev l ⟨garbage, 0, []⟩).map fun x => (num, x.entries.map (decode x.contents))

end Splinter.Log
