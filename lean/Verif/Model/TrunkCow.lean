import Verif.Model.RwLock

/-!
# Changing the trunk under running lookups

src/trunk.c, the copy-on-write of trunk nodes: `trunk_root_get` (1126-1132), `trunk_node_copy`
(1083-1090), `trunk_copy_node_and_add_to_parent` (1096-1107), `trunk_claim_and_copy_root`
(1240-1253), `trunk_update_claimed_root` (1263-1271), `trunk_copy_path_by_key_and_height`
(1306-1340), `trunk_garbage_collect_node_get` (2841-2884), `trunk_garbage_collect_bundle`
(2889-2930), `trunk_memtable_incorporate_and_flush` (3667-3741), `trunk_garbage_collect_filters`
(4215-4233), the replacing part of `trunk_bundle_build_filters` (4301-4376) and of
`trunk_compact_bundle` (5322-5434), and the descent of `trunk_lookup` (6966-6993).

The tree is seen at one key. A node is what the key meets in it: the address of the child the key
leads to, and the branches and filters that a lookup of the key reads there, newest first. These
are called *resources*. A resource is one allocation, so a page given out again after it was freed
is another resource. For a branch, being *released* means that the range holding the key has been
zapped; for a filter, that the reference the key's path held has been dropped.

* A lookup takes the root and its page in one step, because it holds the root lock until it has the
  page. It takes the child's page before it gives up the parent's.
* Trunk pages are written only by the thread that allocated them, until it drops its write lock.
  Which pages are write locked is read off the states of the writers.
* Trunk pages are never deallocated (lines 2868 and 5370 say where it would be done).
* Incorporation builds pages nobody else can see, so only its reads of shared pages are steps. The
  pages it makes stand for those of the flushes and splits it may do; they hold what it read, in
  the same order, below the new memtable.
* A copier copies the path to one node, changes the resources of that node, and then garbage
  collects. The filter builder drops its lock before it collects and the compactor after; here the
  two can come in either order.
* Range iterators, asynchronous lookup and recovery are left out. Memory is sequentially consistent.
-/
namespace Splinter.Trunk.Cow

/-- A trunk node at the key (trunk.c:355-393, one `trunk_pivot_data`). -/
structure Node (R : Type) where
  child : Option Nat
  refs : List R
deriving DecidableEq

/-- A lookup in the trunk. -/
structure Reader (R : Type) where
  /-- the page it holds a read lock on -/
  addr : Nat
  /-- what it has read, in order -/
  acc : List R
  /-- what it will still read in this node -/
  todo : List R
  /-- which root it took; not in the code -/
  entry : Nat
  /-- how many nodes it has left behind; not in the code -/
  depth : Nat
deriving DecidableEq

/-- The progress of `trunk_garbage_collect_node_get`. -/
inductive Gc where
  | notYet
  /-- holds the write lock on a page, with so many levels to go -/
  | at (addr left : Nat)
  | done
deriving DecidableEq

/-- A thread that changes the trunk. `ver` is the number of the root it copied; not in the code. -/
inductive Writer (R : Type) where
  | idle
  /-- holds the claim on the root lock -/
  | claimed
  /-- incorporation: holds the claim, has copied `copied` nodes, which hold `acc` -/
  | building (acc : List R) (next : Option Nat) (copied : Nat)
  /-- copier: holds the claim and the write lock on the copy of the root -/
  | copied (old new : Nat)
  /-- copier: holds the write lock on `cur`, `n` levels below the new root -/
  | walking (old cur n ver : Nat)
  /-- copier: has changed the node; `dead` is to be released -/
  | modified (old n : Nat) (held : Option Nat) (dead : List R) (gc : Gc) (ver : Nat)
deriving DecidableEq

/-- The new page the writer has a write lock on. -/
def Writer.own {R : Type} : Writer R → Option Nat
  | .copied _ new => some new
  | .walking _ cur _ _ => some cur
  | .modified _ _ held _ _ _ => held
  | _ => none

/-- The old page the writer has a write lock on. -/
def Writer.draining {R : Type} : Writer R → Option Nat
  | .modified _ _ _ _ (.at a _) _ => some a
  | _ => none

/-- Does the writer believe it has the claim on the root lock? -/
def Writer.claiming {R : Type} : Writer R → Bool
  | .claimed | .building .. | .copied .. => true
  | _ => false

structure State (R : Type) where
  heap : Nat → Node R
  /-- next page `trunk_alloc` will give out -/
  next : Nat
  root : Nat
  /-- the claim flag of `trunk_root_lock` -/
  claim : Bool
  readers : Nat → Option (Reader R)
  writers : Nat → Writer R
  /-- released resources -/
  freed : List R
  /-- a lookup has read a released resource -/
  misread : Bool
  /-- `platform_assert(lock->write_lock[lock_idx].claim)` failed (platform.c:316) -/
  crashed : Bool
  /-- resources ever made; not in the code -/
  used : List R
  /-- how often the root has changed; not in the code -/
  ver : Nat
  /-- the roots there have been; not in the code -/
  hist : Nat → Nat
  /-- what has been incorporated by each root, newest first; not in the code -/
  said : Nat → List R

/-- A tree of one empty leaf (`trunk_create`, trunk.c:7716-7790). -/
def init {R : Type} : State R :=
  { heap := fun _ => ⟨none, []⟩, next := 1, root := 0, claim := false, readers := fun _ => none,
    writers := fun _ => .idle, freed := [], misread := false, crashed := false, used := [], ver := 0,
    hist := fun _ => 0, said := fun _ => [] }

export RwLock (upd)

/-- Somebody has a write lock on the page. -/
def Locked {R : Type} (s : State R) (a : Nat) : Prop :=
  ∃ w, (s.writers w).own = some a ∨ (s.writers w).draining = some a

/-- Somebody has a read lock on the page. -/
def Shared {R : Type} (s : State R) (a : Nat) : Prop :=
  ∃ i r, s.readers i = some r ∧ r.addr = a

/-- The pages of a path, from `a` on, holding `ls` from the top, the last one leading to `nxt`. -/
def spine {R : Type} (heap : Nat → Node R) (a : Nat) : List (List R) → Option Nat → Nat → Node R
  | [], _ => heap
  | [l], nxt => upd heap a ⟨nxt, l⟩
  | l :: l' :: ls, nxt => upd (spine heap (a + 1) (l' :: ls) nxt) a ⟨some (a + 1), l⟩

/-- What a replacement of the resources of a node must keep: any lookup that comes from above with
`p` and goes on below with `q` says the same. Below a leaf there is nothing. -/
def Keeps {R α : Type} (V : List R → α) (leaf : Bool) (x y : List R) : Prop :=
  ∀ p q, (leaf = true → q = []) → V (p ++ x ++ q) = V (p ++ y ++ q)

/-- What a thread does. -/
inductive Act (R : Type) where
  | enter (i : Nat) | read (i : Nat) | down (i : Nat) | leave (i : Nat)
  | claim (w : Nat) | copyFirst (w : Nat) | copyMore (w : Nat)
  | publish (w : Nat) (z : List R) (ls : List (List R))
  | copyRoot (w : Nat) | switch (w : Nat) | descend (w : Nat)
  | modify (w : Nat) (y dead eager : List R)
  | discard (w : Nat) | abort (w : Nat) | unlock (w : Nat)
  | gcRoot (w : Nat) | gcDown (w : Nat) | gcFree (w : Nat) | rest (w : Nat)

/-- One step. `V` is what a lookup makes of the resources it reads. -/
inductive Step {R α : Type} (V : List R → α) (s : State R) : Act R → State R → Prop
  /-- `trunk_root_get` -/
  | enter (i : Nat) : s.readers i = none → ¬ Locked s s.root →
      Step V s (.enter i) { s with
        readers := upd s.readers i (some ⟨s.root, [], (s.heap s.root).refs, s.ver, 0⟩) }
  /-- `trunk_pivot_lookup`, one resource -/
  | read (i : Nat) (r : Reader R) (x : R) (rest : List R) : s.readers i = some r → r.todo = x :: rest →
      x ∉ s.freed →
      Step V s (.read i) { s with
        readers := upd s.readers i (some { r with acc := r.acc ++ [x], todo := rest }) }
  | misread (i : Nat) (r : Reader R) (x : R) (rest : List R) : s.readers i = some r →
      r.todo = x :: rest → x ∈ s.freed →
      Step V s (.read i) { s with
        misread := true
        readers := upd s.readers i (some { r with acc := r.acc ++ [x], todo := rest }) }
  /-- trunk.c:6984-6987 -/
  | down (i : Nat) (r : Reader R) (c : Nat) : s.readers i = some r → r.todo = [] →
      (s.heap r.addr).child = some c → ¬ Locked s c →
      Step V s (.down i) { s with
        readers := upd s.readers i (some { r with addr := c, todo := (s.heap c).refs, depth := r.depth + 1 }) }
  /-- trunk.c:7010; an early answer leaves before the leaf -/
  | leave (i : Nat) (r : Reader R) : s.readers i = some r →
      Step V s (.leave i) { s with
        readers := upd s.readers i none }
  /-- `trunk_root_full_claim` -/
  | claim (w : Nat) : s.writers w = .idle → s.claim = false →
      Step V s (.claim w) { s with
        claim := true
        writers := upd s.writers w .claimed }
  /-- `trunk_memtable_incorporate_and_flush` copies the root -/
  | copyFirst (w : Nat) : s.writers w = .claimed → ¬ Locked s s.root →
      Step V s (.copyFirst w) { s with
        writers := upd s.writers w (.building (s.heap s.root).refs (s.heap s.root).child 1) }
  /-- `trunk_flush` copies the child it flushes into -/
  | copyMore (w : Nat) (acc : List R) (c n : Nat) : s.writers w = .building acc (some c) n →
      ¬ Locked s c →
      Step V s (.copyMore w) { s with
        writers := upd s.writers w (.building (acc ++ (s.heap c).refs) (s.heap c).child (n + 1)) }
  /-- `trunk_update_claimed_root_and_unlock`, with the memtable `z` on top -/
  | publish (w : Nat) (acc : List R) (nxt : Option Nat) (n : Nat) (z : List R) (ls : List (List R)) :
      s.writers w = .building acc nxt n → s.claim = true →
      ls ≠ [] → ls.flatten = z ++ acc → z.Nodup → (∀ x ∈ z, x ∉ s.used) →
      Step V s (.publish w z ls) { s with
        heap := spine s.heap s.next ls nxt
        next := s.next + ls.length
        root := s.next
        claim := false
        writers := upd s.writers w .idle
        used := s.used ++ z
        ver := s.ver + 1
        hist := upd s.hist (s.ver + 1) s.next
        said := upd s.said (s.ver + 1) (z ++ s.said s.ver) }
  | publishCrash (w : Nat) (acc : List R) (nxt : Option Nat) (n : Nat) :
      s.writers w = .building acc nxt n → s.claim = false →
      Step V s (.publish w [] []) { s with
        crashed := true }
  /-- `trunk_claim_and_copy_root` -/
  | copyRoot (w : Nat) : s.writers w = .claimed → ¬ Locked s s.root →
      Step V s (.copyRoot w) { s with
        heap := upd s.heap s.next (s.heap s.root)
        next := s.next + 1
        writers := upd s.writers w (.copied s.root s.next) }
  /-- `trunk_update_claimed_root` -/
  | switch (w old new : Nat) : s.writers w = .copied old new → s.claim = true →
      Step V s (.switch w) { s with
        root := new
        claim := false
        writers := upd s.writers w (.walking old new 0 s.ver)
        ver := s.ver + 1
        hist := upd s.hist (s.ver + 1) new
        said := upd s.said (s.ver + 1) (s.said s.ver) }
  | switchCrash (w old new : Nat) : s.writers w = .copied old new → s.claim = false →
      Step V s (.switch w) { s with
        crashed := true }
  /-- trunk.c:1319-1331 -/
  | descend (w old cur n v c : Nat) : s.writers w = .walking old cur n v →
      (s.heap cur).child = some c → ¬ Locked s c →
      Step V s (.descend w) { s with
        heap := upd (upd s.heap s.next (s.heap c)) cur ⟨some s.next, (s.heap cur).refs⟩
        next := s.next + 1
        writers := upd s.writers w (.walking old s.next (n + 1) v) }
  /-- `trunk_replace_bundle_branches`, or `trunk_replace_routing_filter` and `trunk_clear_bundle`.
  `eager` is what is released at once: the filters of the bundle (lines 2422 and 3006). -/
  | modify (w old cur n v : Nat) (y dead eager : List R) : s.writers w = .walking old cur n v →
      Keeps V (s.heap cur).child.isNone (s.heap cur).refs y →
      y.Nodup → (∀ x ∈ y, x ∈ (s.heap cur).refs ∨ x ∉ s.used) →
      (∀ x ∈ dead, x ∈ (s.heap cur).refs ∧ x ∉ y) → (∀ x ∈ eager, x ∈ (s.heap cur).refs ∧ x ∉ y) →
      Step V s (.modify w y dead eager) { s with
        heap := upd s.heap cur ⟨(s.heap cur).child, y⟩
        used := s.used ++ y
        freed := s.freed ++ eager
        writers := upd s.writers w (.modified old n (some cur) dead .notYet v) }
  /-- trunk.c:5341-5382: the leaf has split, the compaction is thrown away -/
  | discard (w old cur n v : Nat) : s.writers w = .walking old cur n v →
      Step V s (.discard w) { s with
        writers := upd s.writers w .idle }
  /-- trunk.c:4310-4324: the leaf has split; also gives up a claim it does not have -/
  | abort (w old cur n v : Nat) : s.writers w = .walking old cur n v → (s.heap cur).child = none →
      Step V s (.abort w) { s with
        claim := false
        writers := upd s.writers w .idle }
  | unlock (w old n cur : Nat) (dead : List R) (gc : Gc) (v : Nat) :
      s.writers w = .modified old n (some cur) dead gc v →
      Step V s (.unlock w) { s with
        writers := upd s.writers w (.modified old n none dead gc v) }
  /-- trunk.c:2853-2857 -/
  | gcRoot (w old n : Nat) (held : Option Nat) (dead : List R) (v : Nat) :
      s.writers w = .modified old n held dead .notYet v → ¬ Locked s old → ¬ Shared s old →
      Step V s (.gcRoot w) { s with
        writers := upd s.writers w (.modified old n held dead (.at old n) v) }
  /-- trunk.c:2860-2873 -/
  | gcDown (w old n : Nat) (held : Option Nat) (dead : List R) (v a left c : Nat) :
      s.writers w = .modified old n held dead (.at a (left + 1)) v → (s.heap a).child = some c →
      ¬ Locked s c → ¬ Shared s c →
      Step V s (.gcDown w) { s with
        writers := upd s.writers w (.modified old n held dead (.at c left) v) }
  /-- `trunk_garbage_collect_bundle` or `trunk_garbage_collect_filters` -/
  | gcFree (w old n : Nat) (held : Option Nat) (dead : List R) (v a : Nat) :
      s.writers w = .modified old n held dead (.at a 0) v →
      Step V s (.gcFree w) { s with
        freed := s.freed ++ dead
        writers := upd s.writers w (.modified old n held dead .done v) }
  | rest (w old n : Nat) (dead : List R) (v : Nat) :
      s.writers w = .modified old n none dead .done v →
      Step V s (.rest w) { s with
        writers := upd s.writers w .idle }

/-- States reached by any interleaving in which every step satisfies `G`. -/
inductive Reach {R α : Type} (V : List R → α) (G : State R → Act R → Prop) : State R → Prop
  | init : Reach V G init
  | step {s s' : State R} {a : Act R} : Reach V G s → G s a → Step V s a s' → Reach V G s'

/-- The abort of a filter build (trunk.c:4313) never meets a claim held by somebody else. -/
def NoStray {R : Type} (s : State R) : Act R → Prop
  | .abort _ => s.claim = false
  | _ => True

/-- `NoStray`, and what is released is not in use by a lookup that the release does not wait for:
garbage collection finds no lookup that took a root older than the one it drains, and what is
released at once is released when no lookup is in an old tree. -/
def Patient {R : Type} (s : State R) : Act R → Prop
  | .abort w => NoStray s (.abort w)
  | .modify w _ _ eager => eager ≠ [] → ∀ old cur n v, s.writers w = .walking old cur n v →
      ∀ i r, s.readers i = some r → v < r.entry
  | .gcFree w => ∀ old n held dead gc v, s.writers w = .modified old n held dead gc v →
      ∀ i r, s.readers i = some r → v ≤ r.entry
  | _ => True

end Splinter.Trunk.Cow
