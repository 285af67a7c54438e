/-!
# The page cache

src/clockcache.c: `clockcache_try_get_read` (960-996), `get_read` (1009-1023), `try_get_claim` (1041-1058),
`get_write` (1077-1120), `try_get_write` (1139-1184), `ok_to_writeback`/`try_set_writeback` (1192-1247),
`write_callback` (1263-1298), `batch_start_writeback` (1314-1408), `try_evict` (1425-1524), `move_hand`
(1563-1595), `get_free_page` (1605-1676), `alloc` (1948-1967), `try_page_discard` (1976-2057), `get_internal`
(2095-2256), `get_async` (2354-2490) with its callback, `unget`, `try_claim`, `unclaim`, `lock`, `unlock`,
`mark_dirty` (2513-2642), `page_sync` (2691-2739), `extent_sync` (2784-2833), `prefetch` (2898-2998) with its
callback.

Each step is one access to shared memory. What is simplified:

* An *agent* is one use of the cache: a page that is asked for, held and given back; one eviction of one entry;
  the write-back of one page. A thread is any number of agents with the same thread id, so a thread may hold
  several pages while it asks for another one. Agents of one thread interleave here as if they ran in parallel,
  which adds executions and removes none. Requests of several pages are one agent for each page.
* The lock of a batch of entries (`batch_busy`) is held by an agent and can be handed to another agent
  (`move_hand` keeps it for the calls that the thread makes later).
* `CC_ACCESSED` is left out: it only chooses which pages are written or evicted first, and every comparison of
  a status word succeeds here whatever its value. Pins and the fast tests at the start of `try_evict` are left
  out, which again only adds executions.
* Reference counts do not overflow (16 bits).
* The contents of a page are one value; reading or writing a page on the device is one step. `no_torn_write`
  in `Props/Cache.lean` shows that no agent has write access to the page meanwhile.
* The callers keep to the following, which is in the guards of the first steps: a page address is allocated when
  it is not in use and not cached; it is discarded when nobody else uses it; a page that has been modified is
  marked as dirty before it is unlocked.

Memory accesses are sequentially consistent.
-/
namespace Splinter.Cache

/-- `clockcache_entry`, with the bits of `status` (clockcache.c:52-60) as fields. -/
structure Entry where
  free : Bool
  clean : Bool
  wb : Bool
  loading : Bool
  wl : Bool
  cm : Bool
  /-- `page.disk_addr`; `none` is `CC_UNMAPPED_ADDR` -/
  addr : Option Nat
  data : Nat
deriving DecidableEq, Repr

/-- What `get_free_page` is called for: `get` and `get_async`, `prefetch`, `alloc`. -/
inductive Mode where
  | get | pre | new
deriving DecidableEq, Repr

/-- Who takes a lock: a client that asked for page `a`, `try_page_discard` of page `a`, `try_evict`. -/
inductive Pur where
  | get (a : Nat) | disc (a : Nat) | evict
deriving DecidableEq, Repr

/-- Where an agent is. `a` is a page address, `e` an entry. -/
inductive PC where
  | idle
  -- lookup in get, get_async and prefetch; get_free_page; lookup in try_page_discard
  | gLook (a : Nat) | want (m : Mode) (a : Nat) | dLook (a : Nat)
  -- try_get_read: test of WRITELOCKED, inc_ref, test of FREE, test of WRITELOCKED; dec_ref
  | rTest (p : Pur) (e : Nat) | rInc (p : Pur) (e : Nat) | rFree (p : Pur) (e : Nat)
  | rW (p : Pur) (e : Nat) (f : Bool) | rDec (e : Nat)
  -- get: comparison of disk_addr, wait for LOADING, the page is held, claimed, locked (`m`: it was modified)
  | gAddr (a e : Nat) | gLoad (a e : Nat) | rd (a e : Nat) | cl (a e : Nat) | wr (a e : Nat) (m : Bool)
  -- try_page_discard: wait for LOADING, comparison of disk_addr, claim
  | dLoad (a e : Nat) | dAddr (a e : Nat) | dClaim (a e : Nat)
  -- try_evict: claim, test of LOADING
  | eClaim (e : Nat) | eLoad (e : Nat)
  -- get_write and try_get_write: set WRITELOCKED, test of WRITEBACK, test of counter `k`
  | wSet (p : Pur) (e : Nat) | wWb (p : Pur) (e : Nat) | wRef (p : Pur) (e : Nat) (k : Nat)
  -- try_evict: check of status, clear lookup, clear disk_addr, set FREE; give up
  | eStat (e : Nat) | eLk (e a : Nat) | eAd (e a : Nat) | eFr (e : Nat) | xW (e : Nat) | xC (e : Nat)
  -- try_page_discard: clear lookup, clear disk_addr, set FREE
  | dLk (a e : Nat) | dAd (a e : Nat) | dFr (a e : Nat)
  -- get_free_page: inc_ref, set status
  | aInc (m : Mode) (a e : Nat) | aStat (m : Mode) (a e : Nat)
  -- get: CAS of lookup; abort (2215-2226, 2434-2449); set disk_addr; request; read; clear LOADING
  | gCas (a e : Nat) | gAb1 (a e : Nat) | gAb2 (a e : Nat) | gAb3 (a e : Nat)
  | gSet (a e : Nat) | gReq (a e : Nat) | gRead (a e : Nat) | gClr (a e : Nat)
  -- get_async without a free request (2458-2469): clear lookup, clear disk_addr, set FREE
  | nA1 (a e : Nat) | nA2 (a e : Nat) | nA3 (a e : Nat)
  -- prefetch: set disk_addr, CAS of lookup, abort (2971-2979), read, clear LOADING
  | pSet (a e : Nat) | pCas (a e : Nat) | pAb1 (a e : Nat) | pAb2 (a e : Nat) | pRead (a e : Nat) | pClr (a e : Nat)
  -- alloc: set disk_addr, set lookup
  | lSet (a e : Nat) | lLk (a e : Nat)
  -- write-back: read disk_addr, lookup for the iovec, write, set CLEAN, clear WRITEBACK
  | wbAd (e : Nat) | wbIov (a e : Nat) | wbIo (a e : Nat) | wbCln (a e : Nat) | wbClr (a e : Nat)
  -- neighbour in the extent: lookup, CAS of its status (`b`: batch_start_writeback, otherwise extent_sync)
  | nLook (a : Nat) (b : Bool) | nCas (a e : Nat) (b : Bool)
  /-- use of `CC_UNMAPPED_ENTRY` or `CC_UNMAPPED_ADDR` as an index or address -/
  | crash
deriving DecidableEq, Repr

structure State where
  ent : Nat → Entry
  /-- `cc->lookup` -/
  look : Nat → Option Nat
  disk : Nat → Nat
  /-- `cc->refcount`: entry, counter -/
  cnt : Nat → Nat → Nat
  /-- the agent that holds `batch_busy` -/
  own : Nat → Option Nat
  pc : Nat → PC
  /-- for the specification: what was last written to a page -/
  cur : Nat → Nat

def upd {A : Type} (f : Nat → A) (i : Nat) (v : A) : Nat → A := fun j => if j = i then v else f j

structure Par where
  /-- number of agents -/
  n : Nat
  /-- thread id of an agent -/
  tid : Nat → Nat
  /-- batch of an entry -/
  bat : Nat → Nat
  /-- leave out the races that `Props/Cache.lean` shows to be harmful -/
  ok : Bool

/-- Counter of an agent (803, `CC_RC_WIDTH` is 4). -/
def Par.slot (P : Par) (i : Nat) : Nat := P.tid i % 4

/-- The page an agent uses. -/
def tgt : PC → Option Nat
  | .gLook a | .want _ a | .dLook a => some a
  | .rTest (.get a) _ | .rInc (.get a) _ | .rFree (.get a) _ | .rW (.get a) _ _ => some a
  | .rTest (.disc a) _ | .rInc (.disc a) _ | .rFree (.disc a) _ | .rW (.disc a) _ _ => some a
  | .gAddr a _ | .gLoad a _ | .rd a _ | .cl a _ | .wr a _ _ => some a
  | .dLoad a _ | .dAddr a _ | .dClaim a _ => some a
  | .wSet (.get a) _ | .wWb (.get a) _ | .wRef (.get a) _ _ => some a
  | .wSet (.disc a) _ | .wWb (.disc a) _ | .wRef (.disc a) _ _ => some a
  | .dLk a _ | .dAd a _ | .dFr a _ => some a
  | .aInc _ a _ | .aStat _ a _ => some a
  | .gCas a _ | .gAb1 a _ | .gAb2 a _ | .gAb3 a _ => some a
  | .gSet a _ | .gReq a _ | .gRead a _ | .gClr a _ => some a
  | .nA1 a _ | .nA2 a _ | .nA3 a _ => some a
  | .pSet a _ | .pCas a _ | .pAb1 a _ | .pAb2 a _ | .pRead a _ | .pClr a _ => some a
  | .lSet a _ | .lLk a _ => some a
  | _ => none

/-- The page an agent must have for itself: it is being allocated or discarded. -/
def xcl : PC → Option Nat
  | .want .new a | .dLook a => some a
  | .rTest (.disc a) _ | .rInc (.disc a) _ | .rFree (.disc a) _ | .rW (.disc a) _ _ => some a
  | .dLoad a _ | .dAddr a _ | .dClaim a _ => some a
  | .wSet (.disc a) _ | .wWb (.disc a) _ | .wRef (.disc a) _ _ => some a
  | .dLk a _ | .dAd a _ | .dFr a _ => some a
  | .aInc .new a _ | .aStat .new a _ | .lSet a _ | .lLk a _ => some a
  | _ => none

/-- The entry for whose sake an agent must keep the lock of its batch. -/
def bent : PC → Option Nat
  | .rTest .evict e | .rInc .evict e | .rFree .evict e | .rW .evict e _ => some e
  | .eClaim e | .eLoad e | .wSet .evict e | .wWb .evict e | .wRef .evict e _ => some e
  | .eStat e | .eLk e _ | .eAd e _ | .eFr e | .xW e | .xC e => some e
  | .aInc _ _ e | .aStat _ _ e | .gCas _ e | .gAb1 _ e | .gAb2 _ e | .gAb3 _ e | .gSet _ e | .gReq _ e => some e
  | .nA1 _ e | .nA2 _ e | .nA3 _ e => some e
  | .pSet _ e | .pCas _ e | .pAb1 _ e | .pAb2 _ e => some e
  | .lSet _ e | .lLk _ e => some e
  | _ => none

/-- `CC_FREE_STATUS`, `CC_ALLOC_STATUS`, `CC_READ_LOADING_STATUS` (62-86): plain stores of the whole word. -/
def Entry.setFree (x : Entry) : Entry :=
  { x with free := true, clean := false, wb := false, loading := false, wl := false, cm := false }
def Entry.setAlloc (x : Entry) : Entry :=
  { x with free := false, clean := false, wb := false, loading := false, wl := true, cm := true }
def Entry.setLoading (x : Entry) : Entry :=
  { x with free := false, clean := true, wb := false, loading := true, wl := false, cm := false }
/-- `status == CC_FREE_STATUS` -/
def Entry.isFree (x : Entry) : Bool := x.free && !x.clean && !x.wb && !x.loading && !x.wl && !x.cm
/-- `CC_CLEANABLE1_STATUS` or `CC_CLEANABLE2_STATUS` -/
def Entry.isDirty (x : Entry) : Bool := !x.free && !x.clean && !x.wb && !x.loading && !x.wl && !x.cm
/-- `CC_LOCKED_EVICTABLE_STATUS` -/
def Entry.isEvictable (x : Entry) : Bool := !x.free && x.clean && !x.wb && !x.loading && x.wl && x.cm

/-- After a successful `try_get_read`. -/
def passed : Pur → Nat → PC
  | .get a, e => .gAddr a e
  | .disc a, e => .dLoad a e
  | .evict, e => .eClaim e

/-- After a successful `get_write` or `try_get_write`. -/
def locked : Pur → Nat → PC
  | .get a, e => .wr a e false
  | .disc a, e => .dLk a e
  | .evict, e => .eStat e

/-- After `get_free_page`. -/
def gotFree : Mode → Nat → Nat → PC
  | .get, a, e => .gCas a e
  | .pre, a, e => .pSet a e
  | .new, a, e => .lSet a e

/-- One step of agent `t`. -/
inductive Step (P : Par) (s : State) (t : Nat) : State → Prop where
  -- batch locks (1571-1594)
  | acquire (b) : bent (s.pc t) = none → s.own b = none → Step P s t { s with own := upd s.own b (some t) }
  | release (b) : bent (s.pc t) = none → s.own b = some t → Step P s t { s with own := upd s.own b none }
  | give (b i) : bent (s.pc t) = none → s.own b = some t → i < P.n →
      Step P s t { s with own := upd s.own b (some i) }
  -- clockcache_get, get_async, prefetch: lookup
  | get (a) : s.pc t = .idle → (∀ j, j < P.n → xcl (s.pc j) ≠ some a) →
      Step P s t { s with pc := upd s.pc t (.gLook a) }
  | gHit (a e) : s.pc t = .gLook a → s.look a = some e → Step P s t { s with pc := upd s.pc t (.rTest (.get a) e) }
  | gMiss (a m) : s.pc t = .gLook a → s.look a = none → m ≠ .new → Step P s t { s with pc := upd s.pc t (.want m a) }
  -- try_get_read
  | rTest (p e) : s.pc t = .rTest p e → (s.ent e).wl = false → Step P s t { s with pc := upd s.pc t (.rInc p e) }
  | rConf (p e) : s.pc t = .rTest p e → (s.ent e).wl = true → Step P s t { s with pc := upd s.pc t .idle }
  | rInc (p e) : s.pc t = .rInc p e →
      Step P s t { s with pc := upd s.pc t (.rFree p e), cnt := upd s.cnt e (upd (s.cnt e) (P.slot t) (s.cnt e (P.slot t) + 1)) }
  | rFree (p e) : s.pc t = .rFree p e → Step P s t { s with pc := upd s.pc t (.rW p e (s.ent e).free) }
  | rPass (p e) : s.pc t = .rW p e false → (s.ent e).wl = false → Step P s t { s with pc := upd s.pc t (passed p e) }
  | rFail (p e f) : s.pc t = .rW p e f → f = true ∨ (s.ent e).wl = true → Step P s t { s with pc := upd s.pc t (.rDec e) }
  | rDec (e) : s.pc t = .rDec e →
      Step P s t { s with pc := upd s.pc t .idle, cnt := upd s.cnt e (upd (s.cnt e) (P.slot t) (s.cnt e (P.slot t) - 1)) }
  -- get: hit
  | gAddr (a e) : s.pc t = .gAddr a e → (s.ent e).addr = some a → Step P s t { s with pc := upd s.pc t (.gLoad a e) }
  | gOther (a e) : s.pc t = .gAddr a e → Step P s t { s with pc := upd s.pc t (.rDec e) }
  | gLoaded (a e) : s.pc t = .gLoad a e → (s.ent e).loading = false → Step P s t { s with pc := upd s.pc t (.rd a e) }
  | gBusy (a e) : s.pc t = .gLoad a e → (s.ent e).loading = true → Step P s t { s with pc := upd s.pc t (.rDec e) }
  -- unget, claim, unclaim, lock, unlock, mark_dirty; writes of the client
  | unget (a e) : s.pc t = .rd a e → Step P s t { s with pc := upd s.pc t (.rDec e) }
  | claim (a e) : s.pc t = .rd a e → (s.ent e).cm = false →
      Step P s t { s with pc := upd s.pc t (.cl a e), ent := upd s.ent e { s.ent e with cm := true } }
  | unclaim (a e) : s.pc t = .cl a e →
      Step P s t { s with pc := upd s.pc t (.rd a e), ent := upd s.ent e { s.ent e with cm := false } }
  | lock (a e) : s.pc t = .cl a e → Step P s t { s with pc := upd s.pc t (.wSet (.get a) e) }
  | write (a e m v) : s.pc t = .wr a e m →
      Step P s t { s with pc := upd s.pc t (.wr a e true), ent := upd s.ent e { s.ent e with data := v }, cur := upd s.cur a v }
  | mark (a e m) : s.pc t = .wr a e m → Step P s t { s with ent := upd s.ent e { s.ent e with clean := false } }
  | unlock (a e m) : s.pc t = .wr a e m → (m = true → (s.ent e).clean = false) →
      Step P s t { s with pc := upd s.pc t (.cl a e), ent := upd s.ent e { s.ent e with wl := false } }
  -- get_write, try_get_write
  | wSet (p e) : s.pc t = .wSet p e →
      Step P s t { s with pc := upd s.pc t (.wWb p e), ent := upd s.ent e { s.ent e with wl := true } }
  | wWb (p e) : s.pc t = .wWb p e → (s.ent e).wb = false → Step P s t { s with pc := upd s.pc t (.wRef p e 0) }
  | wWbX (e) : s.pc t = .wWb .evict e → (s.ent e).wb = true → Step P s t { s with pc := upd s.pc t (.xW e) }
  | wRef (p e k) : s.pc t = .wRef p e k → k < 4 → s.cnt e k ≤ (if k = P.slot t then 1 else 0) →
      Step P s t { s with pc := upd s.pc t (.wRef p e (k + 1)) }
  | wRefX (e k) : s.pc t = .wRef .evict e k → k < 4 → (if k = P.slot t then 1 else 0) < s.cnt e k →
      Step P s t { s with pc := upd s.pc t (.xW e) }
  | wDone (p e k) : s.pc t = .wRef p e k → 4 ≤ k → Step P s t { s with pc := upd s.pc t (locked p e) }
  -- try_evict
  | evict (e) : s.pc t = .idle → s.own (P.bat e) = some t → Step P s t { s with pc := upd s.pc t (.rTest .evict e) }
  | eClaim (e) : s.pc t = .eClaim e → (s.ent e).cm = false →
      Step P s t { s with pc := upd s.pc t (.eLoad e), ent := upd s.ent e { s.ent e with cm := true } }
  | eConf (e) : s.pc t = .eClaim e → (s.ent e).cm = true → Step P s t { s with pc := upd s.pc t (.rDec e) }
  | eLoad (e) : s.pc t = .eLoad e → (s.ent e).loading = false → Step P s t { s with pc := upd s.pc t (.wSet .evict e) }
  | eLoadX (e) : s.pc t = .eLoad e → (s.ent e).loading = true → Step P s t { s with pc := upd s.pc t (.xC e) }
  | eStat (e a) : s.pc t = .eStat e → (s.ent e).isEvictable = true → (s.ent e).addr = some a →
      Step P s t { s with pc := upd s.pc t (.eLk e a) }
  | eStat0 (e) : s.pc t = .eStat e → (s.ent e).isEvictable = true → (s.ent e).addr = none →
      Step P s t { s with pc := upd s.pc t (.eFr e) }
  | eStatX (e) : s.pc t = .eStat e → Step P s t { s with pc := upd s.pc t (.xW e) }
  | eLk (e a) : s.pc t = .eLk e a → Step P s t { s with pc := upd s.pc t (.eAd e a), look := upd s.look a none }
  | eAd (e a) : s.pc t = .eAd e a →
      Step P s t { s with pc := upd s.pc t (.eFr e), ent := upd s.ent e { s.ent e with addr := none } }
  | eFr (e) : s.pc t = .eFr e → Step P s t { s with pc := upd s.pc t (.rDec e), ent := upd s.ent e (s.ent e).setFree }
  | xW (e) : s.pc t = .xW e →
      Step P s t { s with pc := upd s.pc t (.xC e), ent := upd s.ent e { s.ent e with wl := false } }
  | xC (e) : s.pc t = .xC e →
      Step P s t { s with pc := upd s.pc t (.rDec e), ent := upd s.ent e { s.ent e with cm := false } }
  -- try_page_discard; what the page contained is lost
  | disc (a) : s.pc t = .idle → (∀ j, j < P.n → tgt (s.pc j) ≠ some a) → Step P s t { s with pc := upd s.pc t (.dLook a) }
  | dHit (a e) : s.pc t = .dLook a → s.look a = some e → Step P s t { s with pc := upd s.pc t (.rTest (.disc a) e) }
  | dMiss (a) : s.pc t = .dLook a → s.look a = none → Step P s t { s with pc := upd s.pc t .idle }
  | dLoad (a e) : s.pc t = .dLoad a e → (s.ent e).loading = false → Step P s t { s with pc := upd s.pc t (.dAddr a e) }
  | dAddr (a e) : s.pc t = .dAddr a e → (s.ent e).addr = some a → Step P s t { s with pc := upd s.pc t (.dClaim a e) }
  | dOther (a e) : s.pc t = .dAddr a e → (s.ent e).addr ≠ some a → Step P s t { s with pc := upd s.pc t (.rDec e) }
  | dClaim (a e) : s.pc t = .dClaim a e → (s.ent e).cm = false →
      Step P s t { s with pc := upd s.pc t (.wSet (.disc a) e), ent := upd s.ent e { s.ent e with cm := true } }
  | dConf (a e) : s.pc t = .dClaim a e → (s.ent e).cm = true → Step P s t { s with pc := upd s.pc t (.rDec e) }
  | dLk (a e) : s.pc t = .dLk a e →
      Step P s t { s with pc := upd s.pc t (.dAd a e), look := upd s.look a none, cur := upd s.cur a (s.disk a) }
  | dAd (a e) : s.pc t = .dAd a e →
      Step P s t { s with pc := upd s.pc t (.dFr a e), ent := upd s.ent e { s.ent e with addr := none } }
  | dFr (a e) : s.pc t = .dFr a e →
      Step P s t { s with pc := upd s.pc t (.rDec e), ent := upd s.ent e (s.ent e).setFree }
  -- get_free_page
  | new (a) : s.pc t = .idle → (∀ j, j < P.n → tgt (s.pc j) ≠ some a) → s.look a = none →
      Step P s t { s with pc := upd s.pc t (.want .new a) }
  | take (m a e) : s.pc t = .want m a → s.own (P.bat e) = some t → (s.ent e).isFree = true →
      Step P s t { s with pc := upd s.pc t (.aInc m a e), ent := upd s.ent e (s.ent e).setAlloc }
  | full (m a) : s.pc t = .want m a → m ≠ .new → Step P s t { s with pc := upd s.pc t .idle }
  | aInc (m a e) : s.pc t = .aInc m a e → m ≠ .pre →
      Step P s t { s with pc := upd s.pc t (.aStat m a e), cnt := upd s.cnt e (upd (s.cnt e) (P.slot t) (s.cnt e (P.slot t) + 1)) }
  | aIncP (a e) : s.pc t = .aInc .pre a e → Step P s t { s with pc := upd s.pc t (.aStat .pre a e) }
  | aStat (m a e) : s.pc t = .aStat m a e →
      Step P s t { s with pc := upd s.pc t (gotFree m a e), ent := upd s.ent e (if m = .new then (s.ent e).setAlloc else (s.ent e).setLoading) }
  -- get: miss
  | gCas (a e) : s.pc t = .gCas a e → s.look a = none →
      Step P s t { s with pc := upd s.pc t (.gSet a e), look := upd s.look a (some e) }
  | gCasX (a e) : s.pc t = .gCas a e → s.look a ≠ none → Step P s t { s with pc := upd s.pc t (.gAb1 a e) }
  | gCasY (a e) : s.pc t = .gCas a e → s.look a ≠ none → Step P s t { s with pc := upd s.pc t (.gAb3 a e) }
  | gAb1 (a e) : s.pc t = .gAb1 a e →
      Step P s t { s with pc := upd s.pc t (.gAb2 a e), cnt := upd s.cnt e (upd (s.cnt e) (P.slot t) (s.cnt e (P.slot t) - 1)) }
  | gAb2 (a e) : s.pc t = .gAb2 a e → Step P s t { s with pc := upd s.pc t .idle, ent := upd s.ent e (s.ent e).setFree }
  | gAb3 (a e) : s.pc t = .gAb3 a e →
      Step P s t { s with pc := upd s.pc t (.rDec e), ent := upd s.ent e (s.ent e).setFree }
  | gSet (a e) : s.pc t = .gSet a e →
      Step P s t { s with pc := upd s.pc t (.gReq a e), ent := upd s.ent e { s.ent e with addr := some a } }
  | gReq (a e) : s.pc t = .gReq a e → Step P s t { s with pc := upd s.pc t (.gRead a e) }
  | gRead (a e) : s.pc t = .gRead a e →
      Step P s t { s with pc := upd s.pc t (.gClr a e), ent := upd s.ent e { s.ent e with data := s.disk a } }
  | gClr (a e) : s.pc t = .gClr a e →
      Step P s t { s with pc := upd s.pc t (.rd a e), ent := upd s.ent e { s.ent e with loading := false } }
  -- get_async without a free request
  | noReq (a e) : s.pc t = .gReq a e → Step P s t { s with pc := upd s.pc t (.nA1 a e) }
  | nA1 (a e) : s.pc t = .nA1 a e → Step P s t { s with pc := upd s.pc t (.nA2 a e), look := upd s.look a none }
  | nA2 (a e) : s.pc t = .nA2 a e →
      Step P s t { s with pc := upd s.pc t (.nA3 a e), ent := upd s.ent e { s.ent e with addr := none } }
  | nA3 (a e) : s.pc t = .nA3 a e → (P.ok = true → ∀ j b, s.pc j ≠ .gLoad b e) →
      Step P s t { s with pc := upd s.pc t (.rDec e), ent := upd s.ent e (s.ent e).setFree }
  -- prefetch
  | pSet (a e) : s.pc t = .pSet a e →
      Step P s t { s with pc := upd s.pc t (.pCas a e), ent := upd s.ent e { s.ent e with addr := some a } }
  | pCas (a e) : s.pc t = .pCas a e → s.look a = none →
      Step P s t { s with pc := upd s.pc t (.pRead a e), look := upd s.look a (some e) }
  | pCasX (a e) : s.pc t = .pCas a e → s.look a ≠ none → Step P s t { s with pc := upd s.pc t (.pAb1 a e) }
  | pAb1 (a e) : s.pc t = .pAb1 a e →
      Step P s t { s with pc := upd s.pc t (.pAb2 a e), ent := upd s.ent e { s.ent e with addr := none } }
  | pAb2 (a e) : s.pc t = .pAb2 a e → (P.ok = true → ∀ j b, s.pc j ≠ .gLoad b e) →
      Step P s t { s with pc := upd s.pc t .idle, ent := upd s.ent e (s.ent e).setFree }
  | pRead (a e) : s.pc t = .pRead a e →
      Step P s t { s with pc := upd s.pc t (.pClr a e), ent := upd s.ent e { s.ent e with data := s.disk a } }
  | pClr (a e) : s.pc t = .pClr a e →
      Step P s t { s with pc := upd s.pc t .idle, ent := upd s.ent e { s.ent e with loading := false } }
  -- alloc
  | lSet (a e) : s.pc t = .lSet a e →
      Step P s t { s with pc := upd s.pc t (.lLk a e), ent := upd s.ent e { s.ent e with addr := some a } }
  | lLk (a e) : s.pc t = .lLk a e →
      Step P s t { s with pc := upd s.pc t (.wr a e false), look := upd s.look a (some e), cur := upd s.cur a (s.ent e).data }
  -- write-back of an entry of a batch
  | wb (e) : s.pc t = .idle → (s.ent e).isDirty = true →
      Step P s t { s with pc := upd s.pc t (.wbAd e), ent := upd s.ent e { s.ent e with wb := true } }
  | wbAd (e a) : s.pc t = .wbAd e → (s.ent e).addr = some a → Step P s t { s with pc := upd s.pc t (.wbIov a e) }
  | wbAd0 (e) : s.pc t = .wbAd e → (s.ent e).addr = none → Step P s t { s with pc := upd s.pc t .crash }
  | wbIov (a e e2) : s.pc t = .wbIov a e → s.look a = some e2 → Step P s t { s with pc := upd s.pc t (.wbIo a e2) }
  | wbIov0 (a e) : s.pc t = .wbIov a e → s.look a = none → Step P s t { s with pc := upd s.pc t .crash }
  | wbIo (a e) : s.pc t = .wbIo a e →
      Step P s t { s with pc := upd s.pc t (.wbCln a e), disk := upd s.disk a (s.ent e).data }
  | wbCln (a e) : s.pc t = .wbCln a e →
      Step P s t { s with pc := upd s.pc t (.wbClr a e), ent := upd s.ent e { s.ent e with clean := true } }
  | wbClr (a e) : s.pc t = .wbClr a e →
      Step P s t { s with pc := upd s.pc t .idle, ent := upd s.ent e { s.ent e with wb := false } }
  -- page_sync by a client `i` that holds the page
  | sync (i a e) : s.pc t = .idle → s.pc i = .rd a e → (s.ent e).isDirty = true →
      Step P s t { s with pc := upd s.pc t (.wbIo a e), ent := upd s.ent e { s.ent e with wb := true } }
  -- neighbours of a page that is written, and extent_sync
  | near (a b) : s.pc t = .idle → Step P s t { s with pc := upd s.pc t (.nLook a b) }
  | nHit (a b e) : s.pc t = .nLook a b → s.look a = some e → Step P s t { s with pc := upd s.pc t (.nCas a e b) }
  | nMiss (a b) : s.pc t = .nLook a b → s.look a = none → Step P s t { s with pc := upd s.pc t .idle }
  | nCas (a e b) : s.pc t = .nCas a e b → (s.ent e).isDirty = true → (P.ok = true → (s.ent e).addr = some a) →
      Step P s t { s with pc := upd s.pc t (if b then .wbIov a e else .wbIo a e), ent := upd s.ent e { s.ent e with wb := true } }
  | nCasX (a e b) : s.pc t = .nCas a e b → (s.ent e).isDirty = false → Step P s t { s with pc := upd s.pc t .idle }

/-- The cache after `clockcache_init` (1742-1890), over a device with any contents. -/
structure Init (s : State) : Prop where
  ent : ∀ e, (s.ent e).isFree = true ∧ (s.ent e).addr = none
  look : ∀ a, s.look a = none
  cnt : ∀ e k, s.cnt e k = 0
  own : ∀ b, s.own b = none
  pc : ∀ i, s.pc i = .idle
  cur : ∀ a, s.cur a = s.disk a

inductive Reachable (P : Par) : State → Prop where
  | init {s} : Init s → Reachable P s
  | step {s s' t} : Reachable P s → t < P.n → Step P s t s' → Reachable P s'

end Splinter.Cache
