import Verif.Model.Flush
/-!
# Finding a free entry of the cache

src/clockcache.c: `clockcache_move_hand` and `clockcache_get_free_page`, for one thread while the others are at rest. The others keep the batches they have taken (`batch_busy`): a thread gives its batch
back only in its next call of `clockcache_move_hand`, also when it is idle or has left.

Simplified: the shared hand does not overflow 32 bits. `io_max_latency_elapsed` is always true (io.h 179-185; laio.c has no such function), so three passes are all, blocking or not.
-/
namespace Splinter.Flush

/-- `cleaner_gap`, and the batches that other threads have taken. -/
structure HandPar extends Par where
  gap : Nat
  held : Nat → Bool

/-- Cleaning ahead of the hand (clockcache.c 1584-1590), with `reqs` the writes of this batch only. -/
def cleanAhead (P : HandPar) (urgent : Bool) (s : State) (h : Nat) : State :=
  let c := (h + P.gap) % P.cap
  if P.held c then s else startBatch P.toPar urgent { s with reqs := [] } c

/-- `clockcache_move_hand` (1563-1595), the loop from 1579 with at most `fuel` rounds; `hand` is `cc->evict_hand`. -/
def moveHand (P : HandPar) (urgent : Bool) : Nat → State → Nat → Option (State × Nat)
  | 0, _, _ => none
  | fuel + 1, s, hand =>
    let h := (hand + 1) % P.cap
    let s1 := cleanAhead P urgent s h
    if P.held h then moveHand P urgent fuel s1 (hand + 1) else some (evictBatch s1 h, hand + 1)

/-- The loop over the batch (1633-1646), up to the compare-and-swap. -/
def scan (s : State) (h : Nat) : Option Nat := (List.range' (h * batchSize) batchSize).find? fun e => (s.entry e).st = stFree

/-- What a call comes to: an entry, the message "cache locked" (an assertion fails if the call is blocking), or no end. -/
inductive Res where
  | got (e : Nat) (s : State) (hand : Nat)
  | locked (s : State) (hand : Nat)
  | spins

/-- The loop of `clockcache_get_free_page` (1628-1666), at most `fuel` rounds. `fh` is the thread's `free_hand`. -/
def getLoop (P : HandPar) (st : Status) : Nat → State → Nat → Nat → Nat → Nat → Res
  | 0, _, _, _, _, _ => .spins
  | fuel + 1, s, hand, fh, maxHand, passes =>
    if 3 ≤ passes then .locked s hand
    else match scan s fh with
      | some e => .got e (s.setSt e st) hand
      | none => match moveHand P (decide (passes ≠ 0)) fuel s hand with
        | none => .spins
        | some (s', hand') =>
          let fh' := hand' % P.cap
          getLoop P st fuel s' hand' fh' fh' (if fh' < maxHand then passes + 1 else passes)

/-- `CC_UNMAPPED_ENTRY` (clockcache.c 31). -/
def unmapped : Nat := 2 ^ 32 - 1

/-- `clockcache_get_free_page` (1605-1676). -/
def getFree (P : HandPar) (st : Status) (fuel : Nat) (s : State) (hand : Nat) : Option Nat → Res
  | some fh => getLoop P st fuel s hand fh fh 0
  | none => match moveHand P false fuel s hand with
    | none => .spins
    | some (s', hand') => getLoop P st fuel s' hand' (hand' % P.cap) unmapped 0

end Splinter.Flush
