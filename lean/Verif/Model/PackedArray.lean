/-!
# Packed integer arrays

Models src/PackedArray.c.  An array is a list of 32-bit words (`Nat` below 2^32);
`b` is `bitsPerItem`.  Reading or writing outside the array is `none`.  The code is
one template expanded for each width 1..32; the model takes the width as a
parameter.
-/
namespace Splinter.PA

/-- `uint32` truncation. -/
def u32 (x : Nat) : Nat := x % 2 ^ 32

/-- `~x` on `uint32`. -/
def not32 (x : Nat) : Nat := x ^^^ (2 ^ 32 - 1)

/-- `(uint32)(1ULL << b) - 1` in `uint32` arithmetic (src/PackedArray.c:483, 519). -/
def mask32 (b : Nat) : Nat := u32 (u32 (2 ^ b) + (2 ^ 32 - 1))

/-- A store `a[i] = v`. -/
def store (a : List Nat) (i v : Nat) : Option (List Nat) :=
  if i < a.length then some (a.set i v) else none

/-- `PackedArray_set` (src/PackedArray.c:469-502); `none` also for the failed
assertion that `v` fits. -/
def set (a : List Nat) (offset v b : Nat) : Option (List Nat) :=
  let out := offset * b / 32
  let startBit := offset * b % 32
  let avail := 32 - startBit
  let mask := mask32 b
  if not32 mask &&& v ≠ 0 then none
  else
    match a[out]? with
    | none => none
    | some w0 =>
      if b ≤ avail then
        store a out ((w0 &&& not32 (u32 (mask <<< startBit))) ||| u32 (v <<< startBit))
      else
        let low := u32 (v <<< startBit)
        let high := v >>> avail
        match store a out ((w0 &&& not32 (u32 (mask <<< startBit))) ||| low) with
        | none => none
        | some a =>
          match a[out + 1]? with
          | none => none
          | some w1 => store a (out + 1) ((w1 &&& not32 (mask >>> (32 - startBit))) ||| high)

/-- `PackedArray_get` (src/PackedArray.c:504-539). -/
def get (a : List Nat) (offset b : Nat) : Option Nat :=
  let i := offset * b / 32
  let startBit := offset * b % 32
  let avail := 32 - startBit
  let mask := mask32 b
  match a[i]? with
  | none => none
  | some w0 =>
    if b ≤ avail then some ((w0 >>> startBit) &&& mask)
    else
      match a[i + 1]? with
      | none => none
      | some w1 =>
        let low := w0 >>> startBit
        let high := u32 (w1 <<< (32 - startBit))
        some (low ^^^ ((low ^^^ high) &&& u32 ((mask >>> avail) <<< avail)))

/-! ## Packing a sequence -/

/-- Local variables of the packing function: memory, `out`, `packed`. -/
structure PSt where
  mem : List Nat
  out : Nat
  packed : Nat
deriving Repr

/-- One `case` of the packing switch (src/PackedArray.c:145-157). -/
def packItem (b i : Nat) (v : Nat) (s : PSt) : Option PSt :=
  let start := i * b % 32
  let avail := 32 - start
  if b ≤ avail then
    let packed := s.packed ||| u32 (v <<< start)
    if b = avail then
      match store s.mem s.out packed with
      | none => none
      | some m => some ⟨m, s.out + 1, 0⟩
    else some { s with packed := packed }
  else
    let packed := s.packed ||| u32 (v <<< start)
    match store s.mem s.out packed with
    | none => none
    | some m => some ⟨m, s.out + 1, v >>> avail⟩

/-- Falling through the cases `i, i+1, …` for the given items. -/
def packCases (b : Nat) : Nat → List Nat → PSt → Option PSt
  | _, [], s => some s
  | i, v :: vs, s =>
    match packItem b i v s with
    | none => none
    | some s => packCases b (i + 1) vs s

/-- The `do … while (--n > 0)` loop entered at case `offset`
(src/PackedArray.c:221-228). -/
def packPasses (b : Nat) : Nat → Nat → List Nat → PSt → Option PSt
  | 0, _, _, s => some s
  | n + 1, offset, ins, s =>
    match packCases b offset (ins.take (32 - offset)) s with
    | none => none
    | some s => packPasses b n 0 (ins.drop (32 - offset)) s

/-- The second switch with its break and the final partial word
(src/PackedArray.c:238-252).  With `count = 0` the break test comes too late and
the code runs past its input: outcome `none`. -/
def packTail (b offset startBit : Nat) (ins : List Nat) (s : PSt) : Option (List Nat) :=
  if ins.length = 0 then none
  else if ins.length > 32 - offset then none
  else
    match packCases b offset ins s with
    | none => none
    | some s =>
      if (ins.length * b + startBit) % 32 ≠ 0 then
        match s.mem[s.out]? with
        | none => none
        | some w =>
          store s.mem s.out
            (s.packed ||| (w &&& not32 (2 ^ ((ins.length * b + startBit - 1) % 32 + 1) - 1)))
      else some s.mem

/-- `__PackedArray_pack_b` (src/PackedArray.c:204-253). -/
def pack (a : List Nat) (offset : Nat) (ins : List Nat) (b : Nat) : Option (List Nat) :=
  let out := offset * b / 32
  let startBit := offset * b % 32
  match a[out]? with
  | none => none
  | some w =>
    let s : PSt := ⟨a, out, w &&& (2 ^ startBit - 1)⟩
    let o := offset % 32
    if ins.length ≥ 32 - o then
      let n := (ins.length + o) / 32
      let used := 32 * n - o
      match packPasses b n o (ins.take used) s with
      | none => none
      | some s =>
        if ins.length - used = 0 then some s.mem
        else packTail b 0 0 (ins.drop used) s
    else packTail b o startBit ins s

/-! ## Unpacking a sequence -/

/-- Local variables of the unpacking function: `in`, `packed`. -/
structure USt where
  idx : Nat
  packed : Nat
deriving Repr

/-- `packed = *++in`. -/
def next (mem : List Nat) (s : USt) : Option USt :=
  match mem[s.idx + 1]? with
  | none => none
  | some w => some ⟨s.idx + 1, w⟩

/-- `PACKEDARRAY_IMPL_MASK` (src/PackedArray.c:136). -/
def implMask (b : Nat) : Nat := u32 (2 ^ b - 1)

/-- Falling through the unpacking cases `i, i+1, …` for `cnt` items
(src/PackedArray.c:173-190).  `brk` tells whether the break test is present. -/
def unpackCases (mem : List Nat) (b : Nat) (brk : Bool) : Nat → Nat → USt → Option (List Nat × USt)
  | _, 0, s => some ([], s)
  | i, cnt + 1, s =>
    let start := i * b % 32
    let avail := 32 - start
    if b ≤ avail then
      let v := (s.packed >>> start) &&& implMask b
      if brk && cnt = 0 then some ([v], s)
      else if i < 31 ∧ b = avail then
        match next mem s with
        | none => none
        | some s =>
          match unpackCases mem b brk (i + 1) cnt s with
          | none => none
          | some (vs, s) => some (v :: vs, s)
      else
        match unpackCases mem b brk (i + 1) cnt s with
        | none => none
        | some (vs, s) => some (v :: vs, s)
    else
      let low := s.packed >>> start
      match next mem s with
      | none => none
      | some s =>
        let high := u32 (s.packed <<< avail)
        let v := (low ||| high) &&& implMask b
        match unpackCases mem b brk (i + 1) cnt s with
        | none => none
        | some (vs, s) => some (v :: vs, s)

/-- The `do … while (--n > 0)` loop entered at case `offset`
(src/PackedArray.c:270-278); the load at the top of the body is skipped by the
jump into the first pass. -/
def unpackPasses (mem : List Nat) (b : Nat) : Nat → Nat → USt → Option (List Nat × USt)
  | 0, _, s => some ([], s)
  | n + 1, offset, s =>
    match unpackCases mem b false offset (32 - offset) s with
    | none => none
    | some (vs, s) =>
      if n = 0 then some (vs, s)
      else
        match next mem s with
        | none => none
        | some s =>
          match unpackPasses mem b n 0 s with
          | none => none
          | some (ws, s) => some (vs ++ ws, s)

/-- The second unpacking switch (src/PackedArray.c:288-297); running past the
requested count is `none`. -/
def unpackTail (mem : List Nat) (b offset count : Nat) (s : USt) : Option (List Nat) :=
  if count = 0 then none
  else if count > 32 - offset then none
  else (unpackCases mem b true offset count s).map (·.1)

/-- `__PackedArray_unpack_b` (src/PackedArray.c:255-298). -/
def unpack (mem : List Nat) (offset count b : Nat) : Option (List Nat) :=
  let idx := offset * b / 32
  match mem[idx]? with
  | none => none
  | some w =>
    let s : USt := ⟨idx, w⟩
    let o := offset % 32
    if count ≥ 32 - o then
      let n := (count + o) / 32
      let rest := count - (32 * n - o)
      match unpackPasses mem b n o s with
      | none => none
      | some (vs, s) =>
        if rest = 0 then some vs
        else
          match next mem s with
          | none => none
          | some s => (unpackTail mem b 0 rest s).map (vs ++ ·)
    else unpackTail mem b o count s

end Splinter.PA
