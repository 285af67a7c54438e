import Verif.Model.PackedArray
import Verif.Model.Log
/-!
# Routing filters

src/routing_filter.c: `RadixSort` (50-125), `routing_get_bucket_bounds` (218-270), `routing_get_bucket_counts` (272-296), `routing_filter_add`
(326-636), `routing_filter_lookup` (828-906); src/routing_filter.h: `routing_filter_get_next_value` (108-119), `routing_filter_is_value_found` (121-125).

Pages are functions from offsets to bytes (a byte is the number modulo 256); the device maps page addresses to pages. New pages have arbitrary
contents. The addresses come from a mini allocator (C38): `ext` is the extent of the index pages, `pgs` the
pages it hands out after that (when there are no more, the process stops).

`none` stands for a failed assertion and for every access outside of a buffer or page, and every shift by more than the width of its operand.
A width of 0 for remainder and value together is also `none`: `PackedArray_unpack` does nothing for it, so the code would use what an earlier call
left in its buffer. The calls of the allocator and of the cache succeed.
-/
namespace Splinter.Filter
open Splinter.PA (u32)
open Splinter.Log (Mem put le)

structure Cfg where
  /-- `fingerprint_size` -/
  F : Nat
  /-- `index_size` -/
  isz : Nat
  /-- `log_index_size` -/
  L : Nat
  /-- page size -/
  ps : Nat
  /-- pages per extent -/
  ppe : Nat

/-- `routing_filter` (`meta_head` is for the allocator). -/
structure Filter where
  addr : Nat
  nfp : Nat
  nuniq : Nat
  vs : Nat

def emptyFilter : Filter := ⟨0, 0, 0, 0⟩

/-- `n` bytes as a little-endian number. -/
def rd (m : Mem) (off : Nat) : Nat → Nat
  | 0 => 0
  | n + 1 => m off % 256 + 256 * rd m (off + 1) n

/-- Reading inside of a page of `ps` bytes. -/
def rdIn (ps : Nat) (m : Mem) (off n : Nat) : Option Nat := if off + n ≤ ps then some (rd m off n) else none

/-- `n` 32-bit words. -/
def words (m : Mem) (off : Nat) : Nat → List Nat
  | 0 => []
  | n + 1 => rd m off 4 :: words m (off + 4) n

def putWords (m : Mem) (off : Nat) : List Nat → Mem
  | [] => m
  | w :: l => putWords (put m off (le 4 w)) (off + 4) l

/-! ## Sorting -/

/-- Byte `j` of a number. -/
def byteOf (x j : Nat) : Nat := x >>> (8 * j) % 256

/-- Histogram of round `j` (lines 79-86), `sh` is `value_size` rounded down to bytes. -/
def histogram (sh j : Nat) (data : List Nat) : List Nat :=
  data.foldl (fun h x => h.set (byteOf (u32 (x >>> (8 * sh))) j) (h.getD (byteOf (u32 (x >>> (8 * sh))) j) 0 + 1)) (List.replicate 256 0)

/-- Conversion to indices (88-96). -/
def indices (count : Nat) : Nat → List Nat → Option (List Nat)
  | _, [] => some []
  | n, m :: l => if n ≤ count then (indices count (n + m) l).map (n :: ·) else none

/-- One pass over the source (101-116). -/
def place (count b : Nat) : List Nat → List Nat → List Nat → Option (List Nat)
  | [], _, dst => some dst
  | x :: l, idx, dst =>
    let i := idx.getD (byteOf x b) 0
    if i < count then place count b l (idx.set (byteOf x b) (i + 1)) (dst.set i x) else none

/-- The rounds from `j` on (99-121): returns the final `pSrc`. -/
def rounds (count sh : Nat) (data : List Nat) : Nat → Nat → List Nat → List Nat → Option (List Nat)
  | 0, _, src, _ => some src
  | r + 1, j, src, dst =>
    (indices count 0 (histogram sh j data)).bind fun idx =>
      (place count (j + sh) src idx dst).bind fun dst' => rounds count sh data r (j + 1) dst' src

/-- `RadixSort`; `temp` is the contents of the second buffer. -/
def radixSort (data temp : List Nat) (fpSize valueSize : Nat) : Option (List Nat) :=
  let fp := if fpSize = 0 then 1 else fpSize
  let n := (fp + valueSize % 8 - 1) / 8 + 1
  let sh := valueSize / 8
  if n + sh ≤ 4 then rounds data.length sh data n 0 data temp else none

/-- Removal of duplicates (454-466): `out` is what has been kept, last first. -/
def dedup : List Nat → List Nat → List Nat
  | [], out => out.reverse
  | x :: l, [] => dedup l [x]
  | x :: l, y :: out => if x ≠ y then dedup l (x :: y :: out) else dedup l (y :: out)

/-! ## Geometry -/

/-- Lines 345-348, 361-364: `31 - clz(n)`, at least `log_index_size`. `clz(0)` is undefined. -/
def logBuckets (c : Cfg) (n : Nat) : Option Nat := if n = 0 then none else some (max n.log2 c.L)

/-- Line 369. -/
def valueSize (v : Nat) : Nat := if v = 0 then 0 else v.log2 + 1

/-- `routing_get_index`. -/
def getIndex (fp irvs : Nat) : Option Nat := if irvs = 32 then some 0 else if 32 < irvs then none else some (fp >>> irvs)

/-- `routing_get_bucket`. -/
def getBucket (fp rvs : Nat) : Option Nat := if 32 ≤ rvs then none else some (fp >>> rvs)

/-- The inner loop of lines 471-476: length of the run with this index. -/
def runLen (irvs i : Nat) : List Nat → Option Nat
  | [] => some 0
  | x :: l => (getIndex x irvs).bind fun k => if k = i then (runLen irvs i l).map (· + 1) else some 0

/-- `index_count` (468-478). -/
def indexCounts (irvs : Nat) : Nat → Nat → List Nat → Option (List Nat)
  | 0, _, _ => some []
  | n + 1, i, l => (runLen irvs i l).bind fun k => (indexCounts irvs n (i + 1) (l.drop k)).map (k :: ·)

/-! ## Reading a block -/

/-- Position of the lowest set bit, `__builtin_ffs(w) - 1`. -/
def ctz (n w : Nat) : Option Nat := (List.range n).find? fun t => w.testBit t

/-- `w & (w - 1)`. -/
def clearLow (w : Nat) : Nat := w &&& (w - 1)

/-- `while (word == 0) word = next` for words of `n` bytes: number and contents of the next non-zero word. -/
def seek (ps : Nat) (m : Mem) (off n : Nat) (fuel k w : Nat) : Option (Nat × Nat) :=
  if w ≠ 0 then some (k, w)
  else match fuel with
    | 0 => none
    | fuel + 1 => (rdIn ps m (off + n * (k + 1)) n).bind fun w' => seek ps m off n fuel (k + 1) w'

/-- `routing_get_bucket_counts` from bucket `i` on: `start`, the number of the word and the word. The inner loop adds `64 - start` for the first zero
word and 64 for each further one. -/
def counts (ps : Nat) (m : Mem) (off : Nat) : Nat → Nat → Nat → Nat → Option (List Nat)
  | 0, _, _, _ => some []
  | n + 1, start, k, w =>
    (seek ps m off 8 ps k w).bind fun (k', w') =>
      (ctz 64 w').bind fun e =>
        let c := (if k' = k then 0 else (64 - start) + 64 * (k' - k - 1)) + (e - (if k' = k then start else 0))
        (counts ps m off n (e + 1) k' (clearLow w')).map (c :: ·)

def bucketCounts (c : Cfg) (m : Mem) (off : Nat) : Option (List Nat) :=
  (rdIn c.ps m off 8).bind fun w => counts c.ps m off c.isz 0 0 w

/-- `__builtin_popcount` of a 32-bit word. -/
def pop (w : Nat) : Nat := ((List.range 32).filter fun t => w.testBit t).length

/-- The loop over words of lines 246-250: number of the word and buckets ended before it. -/
def skipWords (ps : Nat) (m : Mem) (off len target : Nat) : Nat → Nat → Nat → Option (Nat × Nat)
  | 0, _, _ => none
  | fuel + 1, k, b =>
    (rdIn ps m (off + 4 * k) 4).bind fun w =>
      if 4 * k < len ∧ b + pop w < target then skipWords ps m off len target fuel (k + 1) (b + pop w) else some (k, b)

/-- Clearing the lowest bit `n` times (253-256). -/
def clearN : Nat → Nat → Nat
  | 0, w => w
  | n + 1, w => clearN n (clearLow w)

/-- `routing_get_bucket_bounds`. -/
def bucketBounds (ps : Nat) (m : Mem) (off len t : Nat) : Option (Nat × Nat) :=
  if t = 0 then
    (rdIn ps m off 4).bind fun w => (seek ps m off 4 ps 0 w).bind fun (k, w) => (ctz 32 w).map fun b => (0, 32 * k + b)
  else
    (skipWords ps m off len t (ps + 1) 0 0).bind fun (k, b) =>
      (rdIn ps m (off + 4 * k) 4).bind fun w =>
        let w := clearN (t - 1 - b) w
        (ctz 32 w).bind fun bit =>
          let start := 32 * k + bit + 1 - t
          (seek ps m off 4 ps k (clearLow w)).bind fun (k, w) => (ctz 32 w).map fun b => (start, 32 * k + b - t)

/-- `routing_get_header`: page and offset of the header. -/
def getHeader (c : Cfg) (dev : Nat → Mem) (addr index : Nat) : Option (Nat × Nat) :=
  let app := c.ps / 8
  if c.ppe ≤ index / app then none
  else
    let raw := rd (dev (addr + c.ps * (index / app))) (8 * (index % app)) 8
    if raw = 0 then none else some (raw - raw % c.ps, raw % c.ps)

/-- `routing_header_length`. -/
def headerLength (c : Cfg) (n : Nat) : Nat := (n + c.isz - 1) / 8 + 4 + 2

/-- `PackedArray_unpack` of `n` items from a page. -/
def unpackAt (c : Cfg) (m : Mem) (off n b : Nat) : Option (List Nat) :=
  let nw := (n * b + 31) / 32
  if b = 0 ∨ 32 < b ∨ c.ps < off + 4 * nw then none else PA.unpack (words m off nw) 0 n b

/-- Lines 509-515. -/
def orBuckets (base rvs : Nat) : Nat → List Nat → List Nat → Option (List Nat)
  | _, [], l => some l
  | b, k :: ks, l =>
    if l.length < k then none
    else (orBuckets base rvs (b + 1) ks (l.drop k)).map ((l.take k).map (· ||| u32 ((base + b) <<< rvs)) ++ ·)

/-- Lines 521-528. -/
def widen (ovs vs x : Nat) : Nat :=
  let v := x &&& (2 ^ ovs - 1)
  u32 ((x - v) <<< (vs - ovs)) ||| v

/-- Lines 484-530: the fingerprints of one index of the old filter. -/
def readOld (c : Cfg) (dev : Nat → Mem) (f : Filter) (orvs vs oi : Nat) : Option (List Nat) :=
  if f.addr = 0 then some []
  else
    (getHeader c dev f.addr oi).bind fun (pa, off) =>
      (rdIn c.ps (dev pa) off 2).bind fun n =>
        (bucketCounts c (dev pa) (off + 2)).bind fun cnt =>
          if n = 0 then some []
          else if 4096 < n then none
          else
            (unpackAt c (dev pa) (off + headerLength c n) n orvs).bind fun l =>
              (orBuckets (u32 (oi * c.isz)) orvs 0 cnt l).bind fun l =>
                if f.vs = vs then some l else if vs < f.vs then none else some (l.map (widen f.vs vs))

/-! ## Writing -/

/-- `routing_unset_bit`. -/
def unset (enc : Nat → Nat) (b : Nat) : Nat → Nat := fun k => if k = b / 64 then enc k &&& ((2 ^ 64 - 1) ^^^ (1 <<< (b % 64))) else enc k

/-- Byte `i` of an array of 64-bit words. -/
def encByte (enc : Nat → Nat) (i : Nat) : Nat := enc (i / 8) >>> (8 * (i % 8)) % 256

/-- `memset(encoding_buffer, 0xff, n)`. -/
def resetEnc (enc : Nat → Nat) (n : Nat) : Nat → Nat := fun k =>
  if 8 * k + 8 ≤ n then 2 ^ 64 - 1 else if n ≤ 8 * k then enc k else enc k ||| (2 ^ (8 * (n - 8 * k)) - 1)

/-- Variables of the merge loop. -/
structure Merge where
  lastFp : Nat
  lastB : Nat
  hb : Nat
  enc : Nat → Nat
  dst : List Nat
  nu : Nat

/-- Choice of the next fingerprint (552-563): whether it is old, the fingerprint, and what remains. -/
def pick : List Nat → List Nat → Option (Bool × Nat × List Nat × List Nat)
  | [], [] => none
  | x :: old, [] => some (true, x, old, [])
  | [], y :: new => some (false, y, [], new)
  | x :: old, y :: new => if x ≤ y then some (true, x, old, y :: new) else some (false, y, x :: old, new)

/-- The merge loop (548-591); each round uses up one fingerprint, so `fuel` is the number of fingerprints. Returns the old fingerprints that are left. -/
def mergeLoop (vs rvs endB : Nat) : Nat → List Nat → List Nat → Merge → Option (List Nat × Merge)
  | fuel, old, new, s =>
    match pick old new, fuel with
    | none, _ => some ([], s)
    | some _, 0 => none
    | some (isOld, fp, old', new'), fuel + 1 =>
      let nu := if s.lastFp >>> vs ≠ fp >>> vs then s.nu + 1 else s.nu
      (getBucket fp rvs).bind fun bucket =>
        if endB ≤ bucket then (if isOld then some (old, { s with nu := nu }) else none)
        else
          let hb := s.hb + u32 (bucket + 2 ^ 32 - s.lastB)
          if 4096 ≤ hb ∨ 4096 ≤ s.dst.length then none
          else mergeLoop vs rvs endB fuel old' new' ⟨fp, bucket, hb + 1, unset s.enc hb, s.dst ++ [fp &&& (2 ^ rvs - 1)], nu⟩

/-- The writer: device, current page, offset in it, remaining bytes, number of pages taken. -/
structure W where
  dev : Nat → Mem
  addr : Nat
  off : Nat
  rem : Nat
  taken : Nat
  enc : Nat → Nat
  nu : Nat

def upd {α : Type} (f : Nat → α) (k : Nat) (v : α) : Nat → α := fun j => if j = k then v else f j

/-- `PackedArray_pack` into a page. -/
def packAt (c : Cfg) (m : Mem) (off : Nat) (l : List Nat) (b : Nat) : Option Mem :=
  let nw := (l.length * b + 31) / 32
  if b = 0 ∨ 32 < b ∨ c.ps < off + 4 * nw then none else (PA.pack (words m off nw) 0 l b).map (putWords m off)

/-- `remainder_block_size` (593-594). -/
def blockSize (n rvs : Nat) : Nat := u32 ((n * rvs + 2 ^ 64 - 1) % 2 ^ 64 / 8 + 4)

/-- Taking a new page if the block does not fit (598-606). -/
def nextPage (c : Cfg) (pgs : List Nat) (size : Nat) (w : W) : Option W :=
  if w.rem < size then (pgs[w.taken]?).map fun a => { w with addr := a, off := 0, rem := c.ps, taken := w.taken + 1 } else some w

/-- Writing one block (593-631). -/
def emit (c : Cfg) (ext : Nat) (pgs : List Nat) (rvs index : Nat) (dst : List Nat) (w : W) : Option W :=
  let n := dst.length
  let rbs := blockSize n rvs
  let es := (n + c.isz - 1) / 8 + 4
  let hs := es + 2
  (nextPage c pgs (hs + rbs) w).bind fun w =>
    let app := c.ps / 8
    if c.ppe ≤ index / app ∨ 512 < es ∨ w.rem < hs + rbs then none
    else
      let ip := ext + c.ps * (index / app)
      let dev := upd w.dev ip (put (w.dev ip) (8 * (index % app)) (le 8 (w.addr + w.off)))
      let m := put (dev w.addr) w.off (le 2 n)
      let m := put m (w.off + 2) ((List.range es).map (encByte w.enc))
      (if n ≠ 0 then packAt c m (w.off + hs) dst rvs else some m).map fun m =>
        ⟨upd dev w.addr m, w.addr, w.off + hs + rbs, w.rem - (hs + rbs), w.taken, resetEnc w.enc es, w.nu⟩

/-- The loop over the new indices of an old index (533-632): `cnts` are the remaining entries of `index_count`, `fps` the remaining new fingerprints,
`old` the remaining old ones. -/
def newIndices (c : Cfg) (ext : Nat) (pgs : List Nat) (vs rvs : Nat) : Nat → Nat → List Nat → List Nat → List Nat → W → Option (List Nat × List Nat × W)
  | 0, _, cnts, fps, _, w => some (cnts, fps, w)
  | k + 1, i, cnts, fps, old, w =>
    match cnts with
    | [] => none
    | n :: cnts =>
      (mergeLoop vs rvs (u32 ((i + 1) * c.isz)) (old.length + n) old (fps.take n) ⟨2 ^ 32 - 1, u32 (i * c.isz), 0, w.enc, [], w.nu⟩).bind fun (old, s) =>
        (emit c ext pgs rvs i s.dst { w with enc := s.enc, nu := s.nu }).bind fun w =>
          newIndices c ext pgs vs rvs k (i + 1) cnts (fps.drop n) old w

/-- The loop over the old indices (480-636). -/
def oldIndices (c : Cfg) (ext : Nat) (pgs : List Nat) (f : Filter) (orvs vs rvs per : Nat) : Nat → Nat → List Nat → List Nat → W → Option W
  | 0, _, _, _, w => some w
  | k + 1, oi, cnts, fps, w =>
    (readOld c w.dev f orvs vs oi).bind fun old =>
      (newIndices c ext pgs vs rvs per (oi * per) cnts fps old w).bind fun (cnts, fps, w) =>
        oldIndices c ext pgs f orvs vs rvs per k (oi + 1) cnts fps w

/-- Parameters of the old filter (334-356): `old_num_indices` as a logarithm and `old_remainder_and_value_size`. -/
def oldParams (c : Cfg) (f : Filter) : Option (Nat × Nat) :=
  if f.addr = 0 then some (0, 0)
  else (logBuckets c f.nfp).bind fun lb => if c.F < lb ∨ 32 < c.F + f.vs then none else some (lb - c.L, f.vs + (c.F - lb))

/-- Lines 445-449. -/
def prepare (c : Cfg) (vs value h : Nat) : Nat := u32 ((h >>> (32 - c.F)) <<< vs) ||| value

/-- `routing_filter_add`: `hs` is `new_fp_arr`, `temp` the contents of the second buffer of the sort. -/
def add (c : Cfg) (dev : Nat → Mem) (f : Filter) (hs temp : List Nat) (value ext : Nat) (pgs : List Nat) : Option ((Nat → Mem) × Filter) :=
  (oldParams c f).bind fun (lo, orvs) =>
    let nfp := u32 (hs.length + f.nfp)
    (logBuckets c nfp).bind fun lb =>
      let vs := valueSize value
      if c.F < lb ∨ 32 < c.F + vs ∨ c.F = 0 ∨ vs + (c.F - lb) = 0 then none
      else
        let rvs := vs + (c.F - lb)
        let irvs := rvs + c.L
        (radixSort (hs.map (prepare c vs value)) temp c.F vs).bind fun sorted =>
          let fps := dedup sorted []
          (indexCounts irvs (2 ^ (lb - c.L)) 0 fps).bind fun cnts =>
            (pgs[0]?).bind fun a =>
              (oldIndices c ext pgs f orvs vs rvs (2 ^ (lb - c.L) / 2 ^ lo) (2 ^ lo) 0 cnts fps
                ⟨dev, a, 0, c.ps, 1, fun _ => 2 ^ 64 - 1, 0⟩).map fun w => (w.dev, ⟨ext, nfp, w.nu, vs⟩)

/-! ## Lookup -/

/-- The loop of lines 880-899, for positions `start … start + n - 1` from the last down. -/
def collect (ws : List Nat) (rvs vs remainder start : Nat) : Nat → Nat → Option Nat
  | 0, found => some found
  | n + 1, found =>
    (PA.get ws (start + n) rvs).bind fun x =>
      if x >>> vs = remainder then
        let v := (x &&& (2 ^ vs - 1)) % 2 ^ 16
        if v < 64 then collect ws rvs vs remainder start n (found ||| 1 <<< v) else none
      else collect ws rvs vs remainder start n found

/-- `routing_filter_lookup` for a key with hash `h`. -/
def lookup (c : Cfg) (dev : Nat → Mem) (f : Filter) (h : Nat) : Option Nat :=
  if f.addr = 0 then some 0
  else
    let fp := h >>> (32 - c.F)
    (logBuckets c f.nfp).bind fun lb =>
      if c.F < lb ∨ c.F = 0 then none
      else
        let rs := c.F - lb
        let rvs := rs + f.vs
        (getBucket (u32 (fp <<< f.vs)) rvs).bind fun bucket =>
          (getIndex (u32 (fp <<< f.vs)) (rs + f.vs + c.L)).bind fun index =>
            (getHeader c dev f.addr index).bind fun (pa, off) =>
              (rdIn c.ps (dev pa) off 2).bind fun n =>
                let hl := headerLength c n
                (bucketBounds c.ps (dev pa) (off + 2) hl (bucket % c.isz)).bind fun (start, stop) =>
                  if start = stop then some 0
                  else collect (words (dev pa) (off + hl) ((c.ps - (off + hl)) / 4)) rvs f.vs (fp &&& (2 ^ rs - 1)) start (stop - start) 0

/-- `routing_filter_get_next_value`; `last = none` is `ROUTING_NOT_FOUND`. `1 << last` and the subtraction are on `int`. -/
def nextValue (found : Nat) (last : Option Nat) : Option (Option Nat) :=
  match last with
  | some v => if 31 ≤ v then none else let x := found &&& (2 ^ v - 1); some (if x = 0 then none else some x.log2)
  | none => some (if found = 0 then none else some found.log2)

/-- The values in the order in which `trunk_filter_lookup` (trunk.c:6804-6826) goes through them when no branch ends the search. -/
def values (found : Nat) : Nat → Option Nat → Option (List Nat)
  | 0, _ => none
  | fuel + 1, last => (nextValue found last).bind fun
    | none => some []
    | some v => (values found fuel (some v)).map (v :: ·)

end Splinter.Filter
