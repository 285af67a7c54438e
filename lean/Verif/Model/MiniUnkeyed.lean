import Verif.Model.Mini
/-!
# Mini allocators without keys

src/mini_allocator.c, `mini_init` with `keyed = FALSE`: filters, memtables, the log and the trunk itself. All extents have one reference and the
extent of the first meta page has one more for every user of the whole allocator; the last user to go frees everything. Handing out pages is the
same as with keys (`Model/Mini.lean`; entries have no key, so all of them take the same space). `refs` are the bytes of rc_allocator.c by the address of
the extent. Left out: the discards of the extents' pages from the cache.
-/
namespace Splinter.Mini
variable {K : Type}

/-- Address of the extent of a page (`base_addr`, lines 241-246). -/
def Cfg.base (c : Cfg K) (a : Nat) : Nat := a / c.es * c.es

/-- `rc_allocator_dec_ref` (rc_allocator.c 519–551): the count left. -/
def decByte (e : Nat) (refs : Nat → Nat) : Option (Nat × (Nat → Nat)) :=
  let r := (refs e + 255) % 256
  if r = 255 then none else some (r, upd refs e r)

/-- `mini_dealloc_extent` (lines 1011-1020), also in `mini_release` (635-639) and `mini_deinit` (678-682): the count goes to `AL_NO_REFS` and then to
`AL_FREE`. `none`: an assertion fails. -/
def freeExtent (e : Nat) (refs : Nat → Nat) : Option (Nat → Nat) :=
  match decByte e refs with
  | none => none
  | some (r, refs) =>
    if r ≠ 1 then none
    else
      match decByte e refs with
      | none => none
      | some (r, refs) => if r ≠ 0 then none else some refs

def freeAll : List Nat → (Nat → Nat) → Option (Nat → Nat)
  | [], refs => some refs
  | e :: l, refs =>
    match freeExtent e refs with
    | none => none
    | some refs => freeAll l refs

/-- `mini_release` (lines 627-646) without keys. -/
def releaseRefs (n : Nat) (s : State K) : (Nat → Nat) → Option (Nat → Nat) := freeAll ((List.range n).map s.nextExtent)

/-- The extents `mini_deinit` (lines 660-686) frees, from the addresses of the meta pages: that of a page, if the next one is in another. After the
last page the address is 0. -/
def deinitExts (c : Cfg K) : List Nat → List Nat
  | [] => []
  | [m] => if c.base m = c.base 0 then [] else [c.base m]
  | m :: m' :: l => if c.base m = c.base m' then deinitExts c (m' :: l) else c.base m :: deinitExts c (m' :: l)

/-- `mini_unkeyed_inc_ref` (lines 1001-1009). -/
def unkeyedInc (c : Cfg K) (head : Nat) (refs : Nat → Nat) : Option (Nat → Nat) :=
  let r := (refs (c.base head) + 1) % 256
  if r = 0 ∨ r = 1 then none else if r ≤ 2 then none else some (upd refs (c.base head) r)

/-- `mini_unkeyed_dec_ref` (lines 1022-1045), with `mini_unkeyed_for_each` (766-786): whether everything was freed. -/
def unkeyedDec (c : Cfg K) (head : Nat) (s : State K) (refs : Nat → Nat) : Option ((Nat → Nat) × Bool) :=
  match decByte (c.base head) refs with
  | none => none
  | some (r, refs) =>
    if r ≠ 2 then some (refs, false)
    else
      match freeAll (s.entries.filterMap (·.ext)) refs with
      | none => none
      | some refs =>
        match freeAll (deinitExts c (s.metas.map (·.1))) refs with
        | none => none
        | some refs => some (refs, true)

/-- The users of the allocator take and give up references, the last one is left: `true` is a reference taken. -/
def unkeyedRun (c : Cfg K) (head : Nat) (s : State K) : List Bool → (Nat → Nat) → Option ((Nat → Nat) × Bool)
  | [], refs => some (refs, false)
  | true :: l, refs =>
    match unkeyedInc c head refs with
    | none => none
    | some refs => unkeyedRun c head s l refs
  | false :: l, refs =>
    match unkeyedDec c head s refs with
    | none => none
    | some (refs, true) => if l = [] then some (refs, true) else none
    | some (refs, false) => unkeyedRun c head s l refs

end Splinter.Mini
