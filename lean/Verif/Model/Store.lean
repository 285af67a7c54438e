import Verif.Model.Memtable
import Verif.Model.Trunk
/-!
# The whole store under concurrent inserts and lookups

`Model/Memtable.lean` (threads, memtables, locks) and `Model/Trunk.lean` (trunk, maintenance) as one system. The
messages of the memtable protocol are tuples; a lookup has a key, reads the trees of the memtables and goes on in the
trunk as it was when it took the root.

* `trunk_insert` (src/trunk.c 6732-6777) with `trunk_memtable_insert` (3388-3424)
* `trunk_lookup` (6941-7031) with `trunk_memtable_lookup` (3869-3890)
* `trunk_memtable_flush_internal` (3783-3800)

Simplifications are those of the two models. A memtable's tree is read in one step (C13, C41: concurrent tree inserts
and lookups take effect one after the other). A maintenance action changes the trunk in one step, at any time, and a
lookup goes through the trunk it took the root of (C45).
-/
namespace Splinter.Store

variable {K V F : Type} [LinearOrder K]

/-- What the threads share besides the store: the parameters. `N` is `max_memtables`, `keyOk` the key length check. -/
structure Par (K V F : Type) where
  N : Nat
  cfg : DataCfg K V
  ops : Trunk.FilterOps K F
  keyOk : K → Bool
  lo : K
  hi : K

/-- A lookup under way: its key, its accumulator, and the trunk whose root it holds. -/
structure Look (K V F : Type) where
  key : K
  acc : Option (Msg V)
  snap : Option (Trunk.State K V F)

/-- `t` is the trunk; its list of memtables is always one empty memtable. -/
structure St (K V F : Type) where
  m : Memtable.State (K × Msg V)
  t : Trunk.State K V F
  look : Nat → Option (Look K V F)

inductive Act (K V : Type)
  | insert (k : K) (m : Msg V)
  | lookup (k : K)
  | flush (g : Nat)
  | iter
  | drop (g : Nat)
  /-- next step; `full`: the memtable is found full (`memtable_is_full`) -/
  | go (full : Bool)
  /-- a maintenance action on the trunk -/
  | maint (o : Trunk.Op K V)

/-- What a step reports to the application. -/
inductive Out (V : Type)
  | nothing
  /-- `trunk_insert` returns: `STATUS_OK`, or `STATUS_BUSY` -/
  | inserted (ok : Bool)
  /-- `trunk_insert` returns `STATUS_BAD_PARAM` (6741-6743) -/
  | refused
  | looked (r : LookupOut V)
  /-- another call returns -/
  | other
deriving DecidableEq

/-- The tree of a memtable into which these tuples were inserted, `btree_insert` each. `none`: a callback failed. -/
def tree (cfg : DataCfg K V) (d : List (K × Msg V)) : Option (Trunk.Branch K V) :=
  d.foldl (fun b x => b.bind (Trunk.memInsert cfg x.1 x.2)) (some [])

/-- `trunk_btree_lookup_and_merge` (3210-3249) on one tree. `none`: a callback failed. -/
def probe (cfg : DataCfg K V) (k : K) (acc : Option (Msg V)) (b : Trunk.Branch K V) : Option (Option (Msg V)) :=
  match b.get k with
  | none => some acc
  | some m => accumulate cfg k acc m

/-- `merge_accumulator_is_definitive`. -/
def definitive : Option (Msg V) → Bool
  | none => false
  | some m => m.definitive

/-- The packed memtable becomes a bundle of the root: `trunk_memtable_incorporate_and_flush` (3669-3770) with
`trunk_install_new_compacted_subbundle` (3589-3645). -/
def addMem (P : Par K V F) (t : Trunk.State K V F) (d : List (K × Msg V)) : Option (Trunk.State K V F) :=
  match tree P.cfg d with
  | none => none
  | some b => Trunk.doIncorporate P.ops { t with mems := [[], b] }

/-- Only the actions on nodes; what concerns memtables is done by the threads. -/
def isMaint : Trunk.Op K V → Bool
  | .insert _ _ | .rotate | .incorporate => false
  | _ => true

def init (P : Par K V F) : St K V F := ⟨Memtable.init, Trunk.init P.ops P.lo P.hi, fun _ => none⟩

open Memtable (Res)

/-- A step that only the memtable model knows about. -/
def St.mem (s : St K V F) (o : Out V) : Res (Memtable.State (K × Msg V)) → Res (St K V F × Out V)
  | .blocked => .blocked
  | .fault => .fault
  | .ok m => .ok ({ s with m := m }, o)

/-- The same; the call returns when the thread is idle again. -/
def St.memIdle (s : St K V F) (t : Nat) : Res (Memtable.State (K × Msg V)) → Res (St K V F × Out V)
  | .blocked => .blocked
  | .fault => .fault
  | .ok m => .ok ({ s with m := m }, match m.pc t with | .idle => .other | _ => .nothing)

/-- The same with a new state of the thread's lookup. -/
def St.memLook (s : St K V F) (t : Nat) (l : Option (Look K V F)) (o : Out V) :
    Res (Memtable.State (K × Msg V)) → Res (St K V F × Out V)
  | .blocked => .blocked
  | .fault => .fault
  | .ok m => .ok ({ s with m := m, look := Memtable.upd s.look t l }, o)

/-- The next step of a thread that has begun an operation. -/
def go (P : Par K V F) (s : St K V F) (t : Nat) (full : Bool) : Res (St K V F × Out V) :=
  let m := s.m
  match m.pc t, s.look t with
  -- `memtable_is_full` (memtable.c 30-35) is false for an empty memtable
  | .ins3 _ g, _ =>
    if full ∧ (m.sl P.N g).data = [] then .blocked else s.mem .nothing (Memtable.step P.N m t (.go full))
  | .put2 _, _ => s.mem (.inserted true) (Memtable.step P.N m t (.go false))
  | .rot1 _ g, _ =>
    s.mem (if (m.sl P.N (g + 1)).st = .ready then .nothing else .inserted false) (Memtable.step P.N m t (.go false))
  -- `trunk_lookup`, a memtable (6959-6973)
  | .lk4 _ _ _ j _ packed, some l =>
    let x := m.sl P.N (j - 1)
    match tree P.cfg (if packed then x.cmt else x.data) with
    | none => .fault
    | some b =>
      match probe P.cfg l.key l.acc b with
      | none => .fault
      | some acc => s.memLook t (some { l with acc := acc }) .nothing (Memtable.step P.N m t (.go (definitive acc)))
  -- it takes the root (6975-6978)
  | .lk5 _ _, some l => s.memLook t (some { l with snap := some s.t }) .nothing (Memtable.step P.N m t (.go false))
  -- and goes through the trunk (6980-6998)
  | .lk6 _ _ _, some l =>
    match l.snap with
    | none => .fault
    | some t' =>
      match Trunk.runProbes P.cfg l.key l.acc (Trunk.probes P.ops t'.h t'.root l.key) with
      | .error _ => .fault
      | .ok acc => s.memLook t (some { l with acc := acc }) .nothing (Memtable.step P.N m t (.go false))
  | .lk7 _ _, some l | .lk8 _ _, some l =>
    s.memLook t none (.looked (finishLookup P.cfg l.key l.acc)) (Memtable.step P.N m t (.go false))
  -- the new root becomes visible (3741-3742)
  | .inc5 g _, _ =>
    match addMem P s.t (m.sl P.N g).cmt with
    | none => .fault
    | some t' =>
      match Memtable.step P.N m t (.go false) with
      | .blocked => .blocked
      | .fault => .fault
      | .ok m' => .ok ({ s with m := m', t := t' }, .nothing)
  | .idle, _ => .blocked
  | _, _ => s.memIdle t (Memtable.step P.N m t (.go full))

def step (P : Par K V F) (s : St K V F) (t : Nat) : Act K V → Res (St K V F × Out V)
  | .insert k m =>
    if P.keyOk k then s.mem .nothing (Memtable.step P.N s.m t (.insert (k, m)))
    else match s.m.pc t with
      | .idle => .ok (s, .refused)
      | _ => .blocked
  | .lookup k => s.memLook t (some ⟨k, none, none⟩) .nothing (Memtable.step P.N s.m t .lookup)
  | .flush g => s.mem .nothing (Memtable.step P.N s.m t (.flush g))
  | .iter => s.mem .nothing (Memtable.step P.N s.m t .iter)
  | .drop g => s.memIdle t (Memtable.step P.N s.m t (.drop g))
  | .go full => go P s t full
  | .maint o =>
    if isMaint o then
      match Trunk.step P.cfg P.ops P.keyOk s.t o with
      | none => .blocked
      | some t' => .ok ({ s with t := t' }, .nothing)
    else .blocked

end Splinter.Store
