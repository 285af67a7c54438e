/-!
# Reading ahead and writing an extent

src/clockcache.c: `clockcache_prefetch` and its callback, for any number of threads, in steps; other threads evict, change and write back pages meanwhile. And `clockcache_extent_sync` with its callback.

Simplified: addresses are page numbers. Reference counts and locks are left out: a page may be evicted whenever it is clean and not loading. An eviction is one step (a lookup between its writes is `miss`, see below).
The device reads a page when the request completes.
-/
namespace Splinter.Prefetch

/-- Flags of an entry: `CC_FREE_STATUS`, `CC_READ_LOADING_STATUS`, or neither free nor loading, with `CC_CLEAN` or without. -/
inductive St where
  | free
  | loading
  | valid (dirty : Bool)
deriving DecidableEq, Repr

/-- `clockcache_entry`: `page.disk_addr` and what `page.data` holds. -/
structure Ent where
  st : St
  page : Nat
  data : Nat
deriving DecidableEq, Repr

/-- A thread in `clockcache_prefetch` (2899-2998): `base_addr`, number of pages, `page_off`, `req_start_addr`, the vector of the request that is being put together, and the entry that it got and has not yet put in the table. -/
structure Thread where
  base : Nat
  n : Nat
  off : Nat
  start : Nat
  cur : List Nat
  free : Option Nat
deriving DecidableEq, Repr

/-- A read that is under way: the first page and the entries of the vector. -/
structure Req where
  start : Nat
  ents : List Nat
deriving DecidableEq, Repr

structure State where
  lookup : Nat → Option Nat
  ent : Nat → Ent
  disk : Nat → Nat
  thr : Nat → Option Thread
  reqs : Nat → Option Req
  next : Nat

def upd {α : Type} (f : Nat → α) (k : Nat) (v : α) : Nat → α := fun j => if j = k then v else f j

inductive Op where
  /-- Thread `t` starts to read `n` pages from `base`, all in one extent. `n` is the number of pages of an extent for a prefetch. A fetch of one page does the same with `n = 1`. -/
  | start (t base n : Nat)
  /-- `GET_RC_SUCCESS` or `GET_RC_CONFLICT` (2924-2945). -/
  | hit (t : Nat)
  /-- `GET_RC_EVICTED` (2946-2951), and the search for a free entry gives `e`. It comes up for a page in the table too, when its entry is freed while the thread looks at it. -/
  | miss (t e : Nat)
  /-- The compare and swap of 2953-2984. -/
  | cas (t : Nat)
  /-- The loop has ended (2988-2997). -/
  | finish (t : Nat)
  /-- A read is done, and `clockcache_prefetch_callback` (2849-2890) runs. -/
  | complete (i : Nat)
  /-- Another thread evicts an entry: `clockcache_try_evict` (1426-1530). -/
  | evict (e : Nat)
  /-- Another thread writes to a page that it has locked. -/
  | modify (p v : Nat)
  /-- A page is written back. -/
  | writeback (e : Nat)
deriving DecidableEq, Repr

/-- `io_read_async` of the request that was put together, if there is one (2929-2938, 2988-2997). -/
def issue (s : State) (T : Thread) : State :=
  if T.cur = [] then s else { s with reqs := upd s.reqs s.next (some ⟨T.start, T.cur⟩), next := s.next + 1 }

/-- The loop of the callback, with the data that the device has put in the buffers. -/
def load (d : Nat → Nat) : Nat → List Nat → (Nat → Ent) → Nat → Ent
  | _, [], f => f
  | p, e :: l, f => load d (p + 1) l (upd f e { f e with st := .valid false, data := d p })

/-- One step; `none`: it does not come up. `N` is the number of pages of an extent. -/
def step (N : Nat) (s : State) : Op → Option State
  | .start t base n => match s.thr t with
    | none => if base % N + n ≤ N then some { s with thr := upd s.thr t (some ⟨base, n, 0, 0, [], none⟩) } else none
    | some _ => none
  | .hit t => match s.thr t with
    | some T =>
      if T.off < T.n ∧ T.free = none ∧ s.lookup (T.base + T.off) ≠ none then
        some { issue s T with thr := upd s.thr t (some { T with off := T.off + 1, cur := [] }) }
      else none
    | none => none
  | .miss t e => match s.thr t with
    | some T =>
      if T.off < T.n ∧ T.free = none ∧ (s.ent e).st = .free then
        some { s with thr := upd s.thr t (some { T with free := some e }), ent := upd s.ent e { s.ent e with st := .loading, page := T.base + T.off } }
      else none
    | none => none
  | .cas t => match s.thr t with
    | some T => match T.free with
      | some e =>
        if s.lookup (T.base + T.off) = none then
          some { s with lookup := upd s.lookup (T.base + T.off) (some e),
                        thr := upd s.thr t (some { T with off := T.off + 1, start := if T.cur = [] then T.base + T.off else T.start, cur := T.cur ++ [e], free := none }) }
        else some { s with ent := upd s.ent e { s.ent e with st := .free }, thr := upd s.thr t (some { T with free := none }) }
      | none => none
    | none => none
  | .finish t => match s.thr t with
    | some T => if T.off = T.n ∧ T.free = none then some { issue s T with thr := upd s.thr t none } else none
    | none => none
  | .complete i => match s.reqs i with
    | some r => some { s with ent := load s.disk r.start r.ents s.ent, reqs := upd s.reqs i none }
    | none => none
  | .evict e =>
    if (s.ent e).st = .valid false then some { s with lookup := upd s.lookup (s.ent e).page none, ent := upd s.ent e { s.ent e with st := .free } } else none
  | .modify p v => match s.lookup p with
    | some e => match (s.ent e).st with
      | .valid _ => some { s with ent := upd s.ent e { s.ent e with st := .valid true, data := v } }
      | _ => none
    | none => none
  | .writeback e =>
    if (s.ent e).st = .valid true then some { s with disk := upd s.disk (s.ent e).page (s.ent e).data, ent := upd s.ent e { s.ent e with st := .valid false } } else none

/-- An empty cache over a device. -/
def init (d : Nat → Nat) : State := ⟨fun _ => none, fun _ => ⟨.free, 0, 0⟩, d, fun _ => none, fun _ => none, 0⟩

def run (N : Nat) : State → List Op → Option State
  | s, [] => some s
  | s, o :: l => (step N s o).bind (run N · l)

/-! ### `clockcache_extent_sync` -/

/-- The loop of 2796-2832 from page `p` on. `l`: for each page, whether it is cached and could be set to writeback. `c` pages from `q` on are in the request that is being put together. The result: first page and number of pages of each write. -/
def sync : Nat → List Bool → Nat → Nat → List (Nat × Nat)
  | _, [], q, c => if c ≠ 0 then [(q, c)] else []
  | p, true :: l, q, c => sync (p + 1) l (if c = 0 then p else q) (c + 1)
  | p, false :: l, q, c => if c ≠ 0 then (q, c) :: sync (p + 1) l q 0 else sync (p + 1) l q 0

/-- What the writes add to `*pages_outstanding` (2817, 2827). -/
def issued (l : List (Nat × Nat)) : Nat := (l.map Prod.snd).sum

/-- `clockcache_sync_callback` (2762-2772): `count`, the number of pages, is shifted by `log_page_size`. -/
def callback (logPage out : Nat) (r : Nat × Nat) : Nat := out - r.2 >>> logPage

end Splinter.Prefetch
