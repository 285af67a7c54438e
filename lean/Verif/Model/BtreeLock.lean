/-!
# The page locks taken in one memtable tree (src/btree.c 47–80, 1320–2050, 2072–2112, 2586–2868)

Any number of threads insert into, look up in and iterate over the tree of one memtable. This
file has only what they hold and what they wait for: each thread is a program counter
(`Pc`), from which the pages it holds and how are computed (`Pc.holds`), and one move of
a thread is `Next`.

A page is held with a read lock, a claim or a write lock (clockcache.c 940–1130): taking a
read lock waits while another thread has set the write flag, trying for a claim never waits
and fails if another thread has it, and turning a claim into a write lock sets the flag at once
and then waits until the other readers are gone. A thread that waits for the readers is
in a state that already holds the page for writing.

Simplifications: which child a node has for the key, which leaf is next, whether a node is
full, and whether the tuple fits are not computed: a move allows every answer, so what is
proved holds for every content of the tree. What is kept of the content is the height of
each page: 0 for a leaf, fixed when the page is allocated except for the root, which grows; and the
number of leaf splits so far, which bounds how often an iterator has to look again. Page 0
is the root. A page that is being allocated is not listed until its creator starts to release
it, as no other thread can know its address before. Waiting for the I/O of the cache is
not modelled (memtable pages are in the cache or are read from the device, which ends).
-/
namespace Splinter.BtreeLock

/-- How a thread holds a page: a read lock, a claim (with its read lock), a write lock whose
flag is set (clockcache.c 940–1130). -/
inductive Mode where
  | r | c | w
  deriving DecidableEq, Repr

/-- What a thread goes down the tree for: an insert (btree.c 1744), a lookup (2120), the
first leaf of an iterator (2789–2831), the end of an iterator while it has a claim on leaf `l`
(2833), the end once more before it gets leaf `n` again (2654–2656). -/
inductive Kind where
  | ins | look | start
  | stop (l : Nat)
  | again (n : Nat)
  deriving DecidableEq, Repr

/-- What is held all along a descent (btree.c 2820–2836). -/
def Kind.base : Kind → List (Nat × Mode)
  | .stop l => [(l, .c)]
  | _ => []

/-- Where a thread is. -/
inductive Pc where
  /-- in no operation -/
  | idle
  /-- about to get the root (btree.c 1770, 2093) -/
  | root (k : Kind)
  /-- insert, read lock on the root (1772) -/
  | top
  /-- insert, waits for the readers of the root (1791, 1819) -/
  | topLock
  /-- read lock on `p`, about to choose the child -/
  | desc (k : Kind) (p : Nat)
  /-- read lock on `p`, about to get its child `z` (1873, 1966, 2109) -/
  | down (k : Kind) (p z : Nat)
  /-- insert, read locks on `p` and its child `z` (1876–1885, 1971–1976) -/
  | pair (p z : Nat)
  /-- claim on `p`, about to claim `z` (1894, 2018); `b`: `z` was let go in between -/
  | pairC (b : Bool) (p z : Nat)
  /-- waits for the readers of the index `p`, claim on its child `z`, an index (1901) -/
  | lockP (p z : Nat)
  /-- write lock on `p`, waits for the readers of `z` (1902) -/
  | lockZ (p z : Nat)
  /-- read lock on the leaf `z`, its parent let go (1990–1991) -/
  | leaf (z : Nat)
  /-- claim on the leaf `z`, its parent let go (1480) -/
  | leafC (z : Nat)
  /-- waits for the readers of the leaf `z` (1481, 1996) -/
  | lockLeaf (z : Nat)
  /-- claim on `p`, about to get the leaf `z` again after a failed claim (2022) -/
  | spin (p z : Nat)
  /-- claims on `p` and its child, the leaf `z` (2036) -/
  | both (p z : Nat)
  /-- waits for the readers of `p` to split the leaf `z` (1363) -/
  | slockP (p z : Nat)
  /-- write lock on `p`, claim on `z`, about to get the leaf `n` after `z`, `i` failed claims
  (1369, 1387) -/
  | getNext (p z n i : Nat)
  /-- and a read lock on `n` (1372) -/
  | gotNext (p z n i : Nat)
  /-- waits for the readers of `n` (1389) -/
  | slockN (p z n : Nat)
  /-- waits for the readers of `z` (1393), write lock on `n` if there is a next leaf -/
  | slockZ (p z : Nat) (n : Option Nat)
  /-- a descent that is no insert, at its leaf (2114) -/
  | leafL (k : Kind) (z : Nat)
  /-- iterator, end found, claim on `l` given back (2836) -/
  | found (l g : Nat)
  /-- iterator, about to get leaf `n`; `g` splits when the end was found (2627, 2656) -/
  | hop (n g : Nat)
  /-- iterator, read lock on `n` (2631) -/
  | got (n g : Nat)
  /-- iterator backwards, about to get `n`; `o` splits when it let its leaf go, `j` leaves
  walked since (2692, 2703) -/
  | back (n g o j : Nat)
  /-- iterator backwards, read lock on `n` (2699) -/
  | gotB (n g o j : Nat)
  /-- iterator between two calls, read lock on its leaf -/
  | rest (l g : Nat)
  /-- releasing `l` one by one, then `q` -/
  | free (l : List (Nat × Mode)) (q : Pc)
  /-- has returned from an insert that failed, without giving back its claim on `p`
  (2031–2036) -/
  | lost (p : Nat)
  deriving DecidableEq, Repr

/-- The pages a thread holds. -/
def Pc.holds : Pc → List (Nat × Mode)
  | .idle => []
  | .root k => k.base
  | .top => [(0, .r)]
  | .topLock => [(0, .w)]
  | .desc k p => k.base ++ [(p, .r)]
  | .down k p _ => k.base ++ [(p, .r)]
  | .pair p z => [(p, .r), (z, .r)]
  | .pairC _ p z => [(p, .c), (z, .r)]
  | .lockP p z => [(p, .w), (z, .c)]
  | .lockZ p z => [(p, .w), (z, .w)]
  | .leaf z => [(z, .r)]
  | .leafC z => [(z, .c)]
  | .lockLeaf z => [(z, .w)]
  | .spin p _ => [(p, .c)]
  | .both p z => [(p, .c), (z, .c)]
  | .slockP p z => [(p, .w), (z, .c)]
  | .getNext p z _ _ => [(p, .w), (z, .c)]
  | .gotNext p z n _ => [(p, .w), (z, .c), (n, .r)]
  | .slockN p z n => [(p, .w), (z, .c), (n, .w)]
  | .slockZ p z n => [(p, .w), (z, .w)] ++ n.toList.map (fun n => (n, .w))
  | .leafL k z => k.base ++ [(z, .r)]
  | .found l _ => [(l, .r)]
  | .hop _ _ => []
  | .got n _ => [(n, .r)]
  | .back _ _ _ _ => []
  | .gotB n _ _ _ => [(n, .r)]
  | .rest l _ => [(l, .r)]
  | .free l q => l ++ q.holds
  | .lost p => [(p, .c)]

/-- The tree and its threads: the height of the root, the leaf splits so far, the threads. -/
structure Sys where
  rootHt : Nat
  splits : Nat
  ths : List Pc
  deriving DecidableEq, Repr

/-- The height of a page: the root's is part of the state (btree.c 1700–1733). -/
def hgt (ht : Nat → Nat) (R a : Nat) : Nat := if a = 0 then R else ht a

/-- Some thread other than `i` holds page `a` in a mode of `f`. -/
def Sys.held (s : Sys) (i a : Nat) (f : Mode → Bool) : Bool :=
  s.ths.zipIdx.any fun x => x.2 != i && x.1.holds.any fun y => y.1 == a && f y.2

/-- A read lock can be taken: no other thread has set the write flag (clockcache.c 961–993). -/
def Sys.readable (s : Sys) (i a : Nat) : Bool := !s.held i a (· == .w)

/-- A claim can be taken: no other thread has it (clockcache.c 1034–1057). -/
def Sys.claimable (s : Sys) (i a : Nat) : Bool := !s.held i a (· != .r)

/-- The readers are gone (clockcache.c 1099–1118). -/
def Sys.alone (s : Sys) (i a : Nat) : Bool := !s.held i a (fun _ => true)

/-- What a move does to the tree: nothing, a higher root, one more leaf. -/
inductive Eff where
  | none | grow | split
  deriving DecidableEq, Repr

/-- One move of thread `i`, from its program counter to the next. With `bad`, the merge
callback may fail when a tuple is built. -/
inductive Next (bad : Bool) (ht : Nat → Nat) (s : Sys) (i : Nat) : Pc → Pc → Eff → Prop where
  /-- btree.c 1770 -/
  | rootIns : s.readable i 0 → Next bad ht s i (.root .ins) .top .none
  /-- 2093 -/
  | rootRead {k} : k ≠ .ins → s.readable i 0 → Next bad ht s i (.root k) (.desc k 0) .none
  /-- 1786, 1814 -/
  | topClaim : s.claimable i 0 → Next bad ht s i .top .topLock .none
  /-- 1786–1790, 1814–1817 -/
  | topFail : ¬ s.claimable i 0 → Next bad ht s i .top (.free [(0, .r)] (.root .ins)) .none
  /-- 1813: an index that is not full and has a child for the key -/
  | topOn : 1 ≤ s.rootHt → Next bad ht s i .top (.desc .ins 0) .none
  /-- 1792–1799 -/
  | topDone : s.alone i 0 → s.rootHt = 0 → Next bad ht s i .topLock (.free [(0, .w)] .idle) .none
  /-- 1801–1804, 1832–1835 -/
  | topGrow : s.alone i 0 → Next bad ht s i .topLock (.free [(0, .w)] (.desc .ins 0)) .grow
  /-- 1820–1848, the root not full -/
  | topSet : s.alone i 0 → 1 ≤ s.rootHt →
      Next bad ht s i .topLock (.free [(0, .w)] (.desc .ins 0)) .none
  /-- 1857–1859, 1957–1964, 2096–2104 -/
  | descDown {k p z} : 1 ≤ hgt ht s.rootHt p → z ≠ 0 → ht z + 1 = hgt ht s.rootHt p →
      Next bad ht s i (.desc k p) (.down k p z) .none
  /-- 2095, the loop ends -/
  | descLeaf {k p} : k ≠ .ins → hgt ht s.rootHt p = 0 → Next bad ht s i (.desc k p) (.leafL k p) .none
  /-- 1873, 1966 -/
  | downIns {p z} : s.readable i z → Next bad ht s i (.down .ins p z) (.pair p z) .none
  /-- 2109–2112 -/
  | downRead {k p z} : k ≠ .ins → s.readable i z →
      Next bad ht s i (.down k p z) (.free [(p, .r)] (.desc k z)) .none
  /-- 1950–1953 -/
  | pairOn {p z} : 1 ≤ ht z → Next bad ht s i (.pair p z) (.free [(p, .r)] (.desc .ins z)) .none
  /-- 1889, 2010 -/
  | pairClaim {p z} : s.claimable i p → Next bad ht s i (.pair p z) (.pairC false p z) .none
  /-- 1889–1893, 2010–2015 -/
  | pairFail {p z} : ¬ s.claimable i p →
      Next bad ht s i (.pair p z) (.free [(p, .r), (z, .r)] (.root .ins)) .none
  /-- 1989–1990 -/
  | pairLeaf {p z} : ht z = 0 → Next bad ht s i (.pair p z) (.free [(p, .r)] (.leaf z)) .none
  /-- 1977–1981 -/
  | pairErr {p z} : bad = true → ht z = 0 →
      Next bad ht s i (.pair p z) (.free [(p, .r), (z, .r)] .idle) .none
  /-- 1894 -/
  | idxClaim {b p z} : 1 ≤ ht z → s.claimable i z → Next bad ht s i (.pairC b p z) (.lockP p z) .none
  /-- 1894–1899 -/
  | idxFail {b p z} : 1 ≤ ht z → ¬ s.claimable i z →
      Next bad ht s i (.pairC b p z) (.free [(p, .c), (z, .r)] (.root .ins)) .none
  /-- 1901 -/
  | lockP {p z} : s.alone i p → Next bad ht s i (.lockP p z) (.lockZ p z) .none
  /-- 1902–1949: in place, or split with the insert going left or right -/
  | lockZ {p z z' : Nat} {rc : Option Nat} : s.alone i z → (∀ a ∈ rc, a ≠ 0 ∧ ht a = ht z ∧ s.alone i a) →
      (z' = z ∨ z' ∈ rc) →
      Next bad ht s i (.lockZ p z)
        (.free ([(p, .w), (z, .w)] ++ rc.toList.map (fun a => (a, .w))) (.desc .ins z')) .none
  /-- 1991, 1996 -/
  | leafClaim {z} : s.claimable i z → Next bad ht s i (.leaf z) (.lockLeaf z) .none
  /-- 1991–1995 -/
  | leafFail {z} : ¬ s.claimable i z → Next bad ht s i (.leaf z) (.free [(z, .r)] (.root .ins)) .none
  /-- 1481 -/
  | leafC {z} : Next bad ht s i (.leafC z) (.lockLeaf z) .none
  /-- 1482–1487, 1997–2003 -/
  | lockLeaf {z} : s.alone i z → Next bad ht s i (.lockLeaf z) (.free [(z, .w)] .idle) .none
  /-- 2018 -/
  | leafBoth {b p z} : ht z = 0 → s.claimable i z → Next bad ht s i (.pairC b p z) (.both p z) .none
  /-- 2018–2019 -/
  | leafSpin {b p z} : ht z = 0 → ¬ s.claimable i z → Next bad ht s i (.pairC b p z) (.spin p z) .none
  /-- 2022–2023 -/
  | spin {p z} : s.readable i z → Next bad ht s i (.spin p z) (.pairC true p z) .none
  /-- 2025–2037: the parent is let go without giving back the claim on it -/
  | leafErr {p z} : bad = true → ht z = 0 → s.claimable i z →
      Next bad ht s i (.pairC true p z) (.free [(z, .c)] (.lost p)) .none
  /-- 1478–1480 -/
  | defrag {p z} : Next bad ht s i (.both p z) (.free [(p, .c)] (.leafC z)) .none
  /-- 1489, 1363 -/
  | split {p z} : Next bad ht s i (.both p z) (.slockP p z) .none
  /-- 1363–1369 -/
  | slockP {p z n} : s.alone i p → n ≠ 0 → ht n = 0 → Next bad ht s i (.slockP p z) (.getNext p z n 0) .none
  /-- 1363–1368, 1393: no next leaf -/
  | slockLast {p z} : s.alone i p → Next bad ht s i (.slockP p z) (.slockZ p z none) .none
  /-- 1369, 1387 -/
  | getNext {p z n j} : s.readable i n → Next bad ht s i (.getNext p z n j) (.gotNext p z n j) .none
  /-- 1372, 1389 -/
  | nextClaim {p z n j} : s.claimable i n → Next bad ht s i (.gotNext p z n j) (.slockN p z n) .none
  /-- 1372–1375, 1383–1387 -/
  | nextRetry {p z n j} : ¬ s.claimable i n → j < 100 →
      Next bad ht s i (.gotNext p z n j) (.getNext p z n (j + 1)) .none
  /-- 1372–1381: after 101 failed claims -/
  | nextGiveUp {p z n j} : ¬ s.claimable i n → 100 ≤ j →
      Next bad ht s i (.gotNext p z n j) (.free [(n, .r), (p, .w), (z, .c)] (.root .ins)) .none
  /-- 1389–1393 -/
  | slockN {p z n} : s.alone i n → Next bad ht s i (.slockN p z n) (.slockZ p z (some n)) .none
  /-- 1393–1432 -/
  | slockZ {p z : Nat} {n rc : Option Nat} : s.alone i z → (∀ a ∈ rc, s.alone i a) →
      Next bad ht s i (.slockZ p z n)
        (.free ([(p, .w)] ++ n.toList.map (fun a => (a, .w)) ++ rc.toList.map (fun a => (a, .w)) ++ [(z, .w)]) .idle)
        .split
  /-- 2120–2136, 2155 -/
  | lookDone {z} : Next bad ht s i (.leafL .look z) (.free [(z, .r)] .idle) .none
  /-- 2820 -/
  | startClaim {z} : s.claimable i z → Next bad ht s i (.leafL .start z) (.root (.stop z)) .none
  /-- 2820–2829 -/
  | startFail {z} : ¬ s.claimable i z →
      Next bad ht s i (.leafL .start z) (.free [(z, .r)] (.root .start)) .none
  /-- 2598–2608, 2836 -/
  | stop {l z} : Next bad ht s i (.leafL (.stop l) z) (.free [(z, .r), (l, .c)] (.found l s.splits)) .none
  /-- 2598–2608, 2656 -/
  | again {n z} : Next bad ht s i (.leafL (.again n) z) (.free [(z, .r)] (.hop n s.splits)) .none
  /-- 2838–2857 -/
  | foundRest {l g} : Next bad ht s i (.found l g) (.rest l g) .none
  /-- 2859–2864 -/
  | foundNext {l g n} : Next bad ht s i (.found l g) (.free [(l, .r)] (.hop n g)) .none
  /-- 2865–2867 -/
  | foundPrev {l g n} : Next bad ht s i (.found l g) (.free [(l, .r)] (.back n g s.splits 0)) .none
  /-- 2627–2631, 2656 -/
  | hop {n g} : s.readable i n → Next bad ht s i (.hop n g) (.got n g) .none
  /-- 2634: not the end leaf, or not split since -/
  | gotRest {n g} : Next bad ht s i (.got n g) (.rest n g) .none
  /-- 2634–2655 -/
  | gotAgain {n g} : g ≠ s.splits → Next bad ht s i (.got n g) (.free [(n, .r)] (.root (.again n))) .none
  /-- 2692–2694, 2703–2705 -/
  | back {n g o j} : s.readable i n → Next bad ht s i (.back n g o j) (.gotB n g o j) .none
  /-- 2701 -/
  | backRest {n g o j} : Next bad ht s i (.gotB n g o j) (.rest n g) .none
  /-- 2701–2705: each leaf in between comes from a split after the leaf was let go -/
  | backOn {n n' g o j} : j < s.splits - o →
      Next bad ht s i (.gotB n g o j) (.free [(n, .r)] (.back n' g o (j + 1))) .none
  /-- a page is released (1121–1152) -/
  | free {x l q} : Next bad ht s i (.free (x :: l) q) (.free l q) .none
  | freed {q} : Next bad ht s i (.free [] q) q .none

/-- Thread `i` is at `q`, the tree changes by `e`. -/
def Sys.put (s : Sys) (i : Nat) (q : Pc) : Eff → Sys
  | .none => { s with ths := s.ths.set i q }
  | .grow => { s with ths := s.ths.set i q, rootHt := s.rootHt + 1 }
  | .split => { s with ths := s.ths.set i q, splits := s.splits + 1 }

/-- Thread `i` moves. -/
inductive Step (bad : Bool) (ht : Nat → Nat) (s : Sys) (i : Nat) : Sys → Prop where
  | mk {q q' e} : s.ths[i]? = some q → Next bad ht s i q q' e → Step bad ht s i (s.put i q' e)

/-- What the callers of the tree start: an operation on an idle thread, a move of an
iterator to the next or the previous leaf, the end of an iterator (btree.c 2744–2786,
3005–3012). A step within a leaf takes no lock. -/
inductive Call (s : Sys) (i : Nat) : Sys → Prop where
  | op {k} : s.ths[i]? = some .idle → k = .ins ∨ k = .look ∨ k = .start →
      Call s i (s.put i (.root k) .none)
  | next {l g n} : s.ths[i]? = some (.rest l g) →
      Call s i (s.put i (.free [(l, .r)] (.hop n g)) .none)
  | prev {l g n} : s.ths[i]? = some (.rest l g) →
      Call s i (s.put i (.free [(l, .r)] (.back n g s.splits 0)) .none)
  | close {l g} : s.ths[i]? = some (.rest l g) →
      Call s i (s.put i (.free [(l, .r)] .idle) .none)

/-- What can come about from threads that are all idle, the root at any height. -/
inductive Reach (bad : Bool) (ht : Nat → Nat) : Sys → Prop where
  | init {s} : (∀ q ∈ s.ths, q = .idle) → Reach bad ht s
  | step {s i t} : Reach bad ht s → Step bad ht s i t → Reach bad ht t
  | call {s i t} : Reach bad ht s → Call s i t → Reach bad ht t

end Splinter.BtreeLock
