import Verif.Proof.Persist
import Mathlib.Tactic.ByContra
import Mathlib.Tactic.IntervalCases

/-!
# Close, open and crash (C19, C20)

`close_open`: a completed close followed by an open gives back the pages, the root and
the reference counts. `crash_open_partial`: after a crash the open fails or gives the
state at the last close. It needs that no crash fell between the superblock write and
the end of the reference count write of a close. `crash_in_close` shows that such a
crash makes the store hand out the extent that holds its root.
-/
namespace Splinter.Persist

variable {P : Type} {g : Geo}

/-! ### The ghost fields follow the history -/

/-- The crash falls in a close, after the superblock write, while some reference count on
the device is still old. -/
def InWindow (g : Geo) (s : Sys P) : Act P → Prop
  | .crash _ _ => ∃ m, s.proc = some m ∧ m.phase = .saving ∧ ∃ e, e < g.cap ∧ s.disk.refs e ≠ m.refs e
  | _ => False

/-- No crash of the history falls there. -/
def SafeRun (g : Geo) : Sys P → List (Act P) → Prop
  | _, [] => True
  | s, x :: xs => ¬ InWindow g s x ∧ ∀ s', act g s x = some s' → SafeRun g s' xs

/-- The state of the process when it wrote its last superblock in a close: what it would
read at each address, its reference counts, its root. -/
def lastClose (g : Geo) : Sys P → List (Act P) → Option (Disk P × Mem P) → Option (Disk P × Mem P)
  | _, [], r => r
  | s, x :: xs, r =>
    match act g s x with
    | none => r
    | some s' =>
      lastClose g s' xs (match x, s.proc with
        | .unmount _, some m => some (s.disk, m)
        | _, _ => r)

theorem last_eq : ∀ (xs : List (Act P)) (s s' : Sys P) (r : Option (Disk P × Mem P)),
    s.last = r.map (fun y => snapOf y.1 y.2) → run g s xs = some s' →
    s'.last = (lastClose g s xs r).map (fun y => snapOf y.1 y.2)
  | [], s, s', r, hr, h => by obtain rfl := Option.some.inj h; exact hr
  | x :: xs, s, s', r, hr, h => by
    unfold run at h
    unfold lastClose
    cases hx : act g s x with
    | none => rw [hx] at h; cases h
    | some s1 =>
      rw [hx] at h
      refine last_eq xs s1 s' _ ?_ h
      cases x with
      | unmount t =>
        simp only [act] at hx
        cases hp : s.proc with
        | none => rw [hp] at hx; cases hx
        | some m =>
          rw [hp] at hx
          simp only [Option.ite_none_right_eq_some, Option.some.injEq] at hx
          obtain ⟨-, rfl⟩ := hx
          rfl
      | openDb =>
        simp only [act] at hx
        rw [← hr]
        split at hx
        · cases hx
        · split at hx <;> (obtain rfl := Option.some.inj hx; rfl)
      | crash torn junk =>
        simp only [act] at hx
        rw [← hr]
        split at hx
        · cases hx
        · split at hx
          · split at hx
            · obtain rfl := Option.some.inj hx; rfl
            · split at hx
              · obtain rfl := Option.some.inj hx; rfl
              · cases hx
          · cases hx
      | writeback a =>
        simp only [act] at hx
        rw [← hr]
        split at hx
        · cases hx
        · split at hx
          · cases hx
          · obtain rfl := Option.some.inj hx; rfl
      | _ =>
        simp only [act] at hx
        rw [← hr]
        split at hx
        · cases hx
        · split at hx
          · obtain rfl := Option.some.inj hx; rfl
          · cases hx

theorem safe_step {s s' : Sys P} {x : Act P} (I : Inv g s) (hw : s.window = false ∧ s.stale = false)
    (hsafe : ¬ InWindow g s x) (hx : act g s x = some s') : s'.window = false ∧ s'.stale = false := by
  cases x with
  | unmount t =>
    simp only [act] at hx
    split at hx
    · cases hx
    · split at hx
      · obtain rfl := Option.some.inj hx; exact ⟨rfl, rfl⟩
      · cases hx
  | openDb =>
    simp only [act] at hx
    split at hx
    · cases hx
    · rename_i hp
      split at hx
      · obtain rfl := Option.some.inj hx; exact hw
      · rename_i m hm
        obtain rfl := Option.some.inj hx
        obtain ⟨y, h1, h2, h3, h4, rfl⟩ := mount_some hm
        obtain ⟨l, hl, ho, hag⟩ := I.idle hp y h1 h2
        refine ⟨hw.1, ?_⟩
        have := (hag hw.2).2.resolve_left (by rw [hw.1]; simp)
        simp only [hl, hw.2, Bool.false_or, Bool.not_eq_false']
        exact sameRefs_iff.mpr (fun e he => (this e he).symm)
  | crash torn junk =>
    simp only [act] at hx
    split at hx
    · cases hx
    · rename_i m hp
      split at hx
      · split at hx
        · obtain rfl := Option.some.inj hx
          refine ⟨?_, hw.2⟩
          simp only [hw.1, Bool.false_or, Bool.and_eq_false_iff]
          by_cases hs : m.phase = .saving
          · right
            simp only [Bool.not_eq_false']
            rw [sameRefs_iff]
            intro e he
            by_contra hc
            exact hsafe ⟨m, hp, hs, e, he, hc⟩
          · left; simpa using hs
        · split at hx
          · obtain rfl := Option.some.inj hx; exact hw
          · cases hx
      · cases hx
  | writeback a =>
    simp only [act] at hx
    split at hx
    · cases hx
    · split at hx
      · cases hx
      · obtain rfl := Option.some.inj hx; exact hw
  | _ =>
    simp only [act] at hx
    split at hx
    · cases hx
    · split at hx
      · obtain rfl := Option.some.inj hx; exact hw
      · cases hx

theorem safe_run : ∀ (xs : List (Act P)) (s s' : Sys P), Inv g s → s.window = false ∧ s.stale = false →
    SafeRun g s xs → run g s xs = some s' → s'.window = false ∧ s'.stale = false
  | [], s, s', _, hw, _, h => by obtain rfl := Option.some.inj h; exact hw
  | x :: xs, s, s', I, hw, hs, h => by
    unfold run at h
    cases hx : act g s x with
    | none => rw [hx] at h; cases h
    | some s1 =>
      rw [hx] at h
      exact safe_run xs s1 s' (act_inv I hx) (safe_step I hw hs.1 hx) (hs.2 s1 hx) h

/-! ### C20 -/

/-- What an open gives back matches the state `d`, `m0` of a process: same root, node
counter and allocator tail, same pages in every extent held, same reference counts. -/
structure Restored (g : Geo) (d : Disk P) (m0 : Mem P) (d' : Disk P) (m : Mem P) : Prop where
  root : m.root = m0.root
  nextId : m.nextId = m0.nextId
  metaTail : m.metaTail = m0.metaTail
  pages : ∀ a, m0.refs (g.ext a) ≠ 0 → view d' m a = view d m0 a
  refs : ∀ e, e < g.cap → m.refs e = m0.refs e

/-- C20. After any history of opens, work, closes and crashes, an open reports failure or
gives back the state at the last close, provided no crash fell inside a close between
its superblock write and the end of its reference count write. -/
theorem crash_open_partial {s0 s : Sys P} {xs : List (Act P)} (h0 : Created s0) (hsafe : SafeRun g s0 xs)
    (hr : run g s0 xs = some s) (hp : s.proc = none) :
    mount s.disk = none ∨
      ∃ m d m0, mount s.disk = some m ∧ lastClose g s0 xs none = some (d, m0) ∧ Restored g d m0 s.disk m := by
  have I := run_inv (h0.inv (g := g)) hr
  have hw := safe_run xs s0 s h0.inv ⟨h0.window, h0.stale⟩ hsafe hr
  have hl := last_eq xs s0 s none (by rw [h0.last]; rfl) hr
  cases hm : mount s.disk with
  | none => exact Or.inl rfl
  | some m =>
    right
    obtain ⟨y, h1, h2, h3, h4, rfl⟩ := mount_some hm
    obtain ⟨l, hl', ho, hag⟩ := I.idle hp y h1 h2
    obtain ⟨ha, hb⟩ := hag hw.2
    have hb := hb.resolve_left (by rw [hw.1]; simp)
    rw [hl'] at hl
    cases hc : lastClose g s0 xs none with
    | none => rw [hc] at hl; cases hl
    | some dm =>
      obtain ⟨d, m0⟩ := dm
      rw [hc] at hl
      obtain rfl := Option.some.inj hl
      refine ⟨_, d, m0, rfl, rfl, ho.1, ho.2.1, ho.2.2.1, ?_, ?_⟩
      · intro a h; exact ha a h
      · intro e he; exact hb e he

/-- Even a crash inside the window leaves the contents right for the next open: only the
reference counts may be old. (`stale = false`: no open since the last close has read old
reference counts.) -/
theorem crash_open_contents {s0 s : Sys P} {xs : List (Act P)} (h0 : Created s0)
    (hr : run g s0 xs = some s) (hp : s.proc = none) (hst : s.stale = false) {m : Mem P}
    (hm : mount s.disk = some m) :
    ∃ d m0, lastClose g s0 xs none = some (d, m0) ∧ m.root = m0.root ∧ m.nextId = m0.nextId ∧
      m.metaTail = m0.metaTail ∧ ∀ a, m0.refs (g.ext a) ≠ 0 → view s.disk m a = view d m0 a := by
  have I := run_inv (h0.inv (g := g)) hr
  have hl := last_eq xs s0 s none (by rw [h0.last]; rfl) hr
  obtain ⟨y, h1, h2, h3, h4, rfl⟩ := mount_some hm
  obtain ⟨l, hl', ho, hag⟩ := I.idle hp y h1 h2
  rw [hl'] at hl
  cases hc : lastClose g s0 xs none with
  | none => rw [hc] at hl; cases hl
  | some dm =>
    obtain ⟨d, m0⟩ := dm
    rw [hc] at hl
    obtain rfl := Option.some.inj hl
    exact ⟨d, m0, rfl, ho.1, ho.2.1, ho.2.2.1, fun a h => (hag hst).1 a h⟩

/-! ### C19 -/

/-- The steps that `trunk_mount` performs before its superblock write. -/
def Act.inMount : Act P → Bool
  | .alloc _ | .inc _ | .write _ _ | .writeback _ => true
  | _ => false

def Act.isSave : Act P → Bool
  | .save _ => true
  | _ => false

theorem run_append : ∀ (xs ys : List (Act P)) (s : Sys P),
    run g s (xs ++ ys) = (run g s xs).bind (fun s' => run g s' ys)
  | [], _, _ => rfl
  | x :: xs, ys, s => by
    show (match act g s x with | none => none | some s' => run g s' (xs ++ ys)) = _
    conv => rhs; arg 1; unfold run
    cases act g s x with
    | none => rfl
    | some s1 => exact run_append xs ys s1

theorem run_saves : ∀ (xs : List (Act P)) (s s' : Sys P), (∀ x ∈ xs, x.isSave = true) → run g s xs = some s' →
    s'.proc = s.proc ∧ s'.disk.sup = s.disk.sup ∧ s'.disk.pages = s.disk.pages ∧ s'.last = s.last ∧
      s'.window = s.window ∧ s'.stale = s.stale
  | [], s, s', _, h => by obtain rfl := Option.some.inj h; simp
  | x :: xs, s, s', hx, h => by
    unfold run at h
    cases ha : act g s x with
    | none => rw [ha] at h; cases h
    | some s1 =>
      rw [ha] at h
      have := run_saves xs s1 s' (fun y hy => hx y (List.mem_cons_of_mem _ hy)) h
      have hs := hx x (List.mem_cons_self ..)
      cases x with
      | save e =>
        simp only [act] at ha
        cases hp : s.proc with
        | none => rw [hp] at ha; cases ha
        | some m =>
          rw [hp] at ha
          simp only [Option.ite_none_right_eq_some, Option.some.injEq] at ha
          obtain ⟨-, rfl⟩ := ha
          exact this
      | _ => cases hs

theorem run_mounting : ∀ (xs : List (Act P)) (s s' : Sys P), (∀ x ∈ xs, x.inMount = true) → run g s xs = some s' →
    (∃ m, s.proc = some m ∧ m.phase = .mounting) →
    (∃ m, s'.proc = some m ∧ m.phase = .mounting) ∧ s'.last = s.last ∧ s'.stale = s.stale
  | [], s, s', _, h, hm => by obtain rfl := Option.some.inj h; exact ⟨hm, rfl, rfl⟩
  | x :: xs, s, s', hx, h, hm => by
    unfold run at h
    cases ha : act g s x with
    | none => rw [ha] at h; cases h
    | some s1 =>
      rw [ha] at h
      have hs := hx x (List.mem_cons_self ..)
      obtain ⟨m, hp, hph⟩ := hm
      have key : (∃ m, s1.proc = some m ∧ m.phase = .mounting) ∧ s1.last = s.last ∧ s1.stale = s.stale := by
        cases x with
        | alloc e =>
          simp only [act, hp] at ha
          simp only [Option.ite_none_right_eq_some, Option.some.injEq] at ha
          obtain ⟨-, rfl⟩ := ha
          exact ⟨⟨_, rfl, hph⟩, rfl, rfl⟩
        | inc e =>
          simp only [act, hp] at ha
          simp only [Option.ite_none_right_eq_some, Option.some.injEq] at ha
          obtain ⟨-, rfl⟩ := ha
          exact ⟨⟨_, rfl, hph⟩, rfl, rfl⟩
        | write a p =>
          simp only [act, hp] at ha
          simp only [Option.ite_none_right_eq_some, Option.some.injEq] at ha
          obtain ⟨-, rfl⟩ := ha
          exact ⟨⟨_, rfl, hph⟩, rfl, rfl⟩
        | writeback a =>
          simp only [act, hp] at ha
          split at ha
          · cases ha
          · obtain rfl := Option.some.inj ha
            exact ⟨⟨_, rfl, hph⟩, rfl, rfl⟩
        | _ => cases hs
      obtain ⟨h1, h2, h3⟩ := run_mounting xs s1 s' (fun y hy => hx y (List.mem_cons_of_mem _ hy)) h key.1
      exact ⟨h1, h2.trans key.2.1, h3.trans key.2.2⟩

/-- The rest of a close, from the moment `trunk_prepare_for_shutdown` returns. -/
theorem close_done {s0 s s1 : Sys P} {xs saves : List (Act P)} {m0 : Mem P} {t : Nat} (h0 : Created s0)
    (hr : run g s0 xs = some s) (hp : s.proc = some m0)
    (hsv : ∀ x ∈ saves, x.isSave = true) (hc : run g s (.unmount t :: saves ++ [.done]) = some s1) :
    s1.proc = none ∧ s1.last = some (snapOf s.disk m0) ∧ s1.window = false ∧ s1.stale = false ∧ Inv g s1 ∧
      ∃ y, s1.disk.sup = some y ∧ y.unmounted = true := by
  have I := run_inv (h0.inv (g := g)) hr
  have I1 := run_inv I hc
  rw [run_append] at hc
  unfold run at hc
  cases hu : act g s (.unmount t) with
  | none => rw [hu] at hc; cases hc
  | some su =>
    rw [hu] at hc
    simp only at hc
    cases hv : run g su saves with
    | none => rw [hv] at hc; cases hc
    | some sv =>
      rw [hv] at hc
      have hs := run_saves saves su sv hsv hv
      simp only [Option.bind_some, run] at hc
      cases hd : act g sv .done with
      | none => rw [hd] at hc; cases hc
      | some sd =>
        rw [hd] at hc
        obtain rfl := Option.some.inj hc
        simp only [act, hp] at hu
        simp only [Option.ite_none_right_eq_some, Option.some.injEq] at hu
        obtain ⟨-, rfl⟩ := hu
        simp only [act, hs.1] at hd
        simp only [Option.ite_none_right_eq_some, Option.some.injEq] at hd
        obtain ⟨-, rfl⟩ := hd
        exact ⟨rfl, hs.2.2.2.1, hs.2.2.2.2.1, hs.2.2.2.2.2, I1, _, hs.2.1, rfl⟩

/-- C19. A close that completes makes the next open succeed and gives back what the
process held. -/
theorem close_open {s0 s s1 : Sys P} {xs saves : List (Act P)} {m0 : Mem P} {t : Nat} (h0 : Created s0)
    (hr : run g s0 xs = some s) (hp : s.proc = some m0)
    (hsv : ∀ x ∈ saves, x.isSave = true) (hc : run g s (.unmount t :: saves ++ [.done]) = some s1) :
    ∃ m, mount s1.disk = some m ∧ Restored g s.disk m0 s1.disk m := by
  obtain ⟨hn, hl, hw, hst, I1, y, hy, hu⟩ := close_done h0 hr hp hsv hc
  obtain ⟨l, hl', ho, hag⟩ := I1.idle hn y hy hu
  rw [hl] at hl'; obtain rfl := Option.some.inj hl'
  obtain ⟨ha, hb⟩ := hag hst
  have hb := hb.resolve_left (by rw [hw]; simp)
  refine ⟨_, mount_of hy hu ho.2.2.2.2 (ho.1 ▸ ho.2.2.2.1), ho.1, ho.2.1, ho.2.2.1, ?_, ?_⟩
  · intro a h; exact ha a h
  · intro e he; exact hb e he

/-- C19, up to the end of the open. The mount allocates extents, fills them and writes
the superblock; what was held before the close is untouched and still held, and any
other extent held was allocated by this open. -/
theorem close_open_mounted {s0 s s2 : Sys P} {xs saves ys : List (Act P)} {m0 : Mem P} {t t' : Nat}
    (h0 : Created s0) (hr : run g s0 xs = some s) (hp : s.proc = some m0)
    (hsv : ∀ x ∈ saves, x.isSave = true) (hys : ∀ x ∈ ys, x.inMount = true)
    (hc : run g s ((.unmount t :: saves ++ [.done]) ++ (.openDb :: ys ++ [.mounted t'])) = some s2) :
    ∃ m, s2.proc = some m ∧ m.phase = .running ∧ m.root = m0.root ∧ m.nextId = m0.nextId ∧
      m.metaTail = m0.metaTail ∧ (∀ a, m0.refs (g.ext a) ≠ 0 → view s2.disk m a = view s.disk m0 a) ∧
      (∀ e, e < g.cap → m0.refs e ≠ 0 → m.refs e = m0.refs e) ∧
      (∀ e, e < g.cap → m0.refs e = 0 → m.refs e ≠ 0 → e ∈ m.fresh) := by
  rw [run_append] at hc
  cases h1 : run g s (.unmount t :: saves ++ [.done]) with
  | none => rw [h1] at hc; cases hc
  | some s1 =>
    rw [h1] at hc
    simp only [Option.bind_some] at hc
    obtain ⟨m, hm, -⟩ := close_open h0 hr hp hsv h1
    obtain ⟨hn, hl, hw, hst, I1, y, hy, hu⟩ := close_done h0 hr hp hsv h1
    rw [run_append] at hc
    unfold run at hc
    cases ho : act g s1 .openDb with
    | none => rw [ho] at hc; cases hc
    | some so =>
      rw [ho] at hc
      simp only at hc
      have Io := act_inv I1 ho
      have hso := safe_step (x := .openDb) I1 ⟨hw, hst⟩ (fun h => h) ho
      simp only [act, hn, hm] at ho
      have hlo : so.last = some (snapOf s.disk m0) := by
        obtain rfl := Option.some.inj ho; exact hl
      have hpo : ∃ m, so.proc = some m ∧ m.phase = .mounting := by
        obtain rfl := Option.some.inj ho
        obtain ⟨z, -, -, -, -, rfl⟩ := mount_some hm
        exact ⟨_, rfl, rfl⟩
      cases hy' : run g so ys with
      | none => rw [hy'] at hc; cases hc
      | some sm =>
        rw [hy'] at hc
        have Im := run_inv Io hy'
        obtain ⟨⟨mm, hmm, hph⟩, q2, q3⟩ := run_mounting ys so sm hys hy' hpo
        simp only [Option.bind_some, run, act, hmm, hph, if_true] at hc
        obtain rfl := Option.some.inj hc
        have := Im.proc mm hmm
        rw [hph] at this
        obtain ⟨x, l, h1, h2, h3, h4, h5, h6, h7, h8, h9, h10, h11⟩ := this
        rw [q2, hlo] at h3
        obtain rfl := Option.some.inj h3
        obtain ⟨ha, hb⟩ := h11 (q3.trans hso.2)
        have nf : ∀ e, m0.refs e ≠ 0 → e ∉ mm.fresh := fun e he hf =>
          he ((hb e (h8 e hf).1).symm.trans (h8 e hf).2.1)
        refine ⟨_, rfl, rfl, h5, h6, h7, ?_, ?_, ?_⟩
        · intro a ham
          have : mm.dirty.lookup a = none := by
            cases hd : mm.dirty.lookup a with
            | none => rfl
            | some p => exact absurd (h10 _ (mem_of_lookup hd)) (nf _ ham)
          show (mm.dirty.lookup a).getD _ = _
          rw [this]
          exact ha a ham
        · intro e he hne
          exact (h9 e (nf e hne)).trans (hb e he)
        · intro e he hz hne
          by_contra hf
          exact hne (((h9 e hf).trans (hb e he)).trans hz)

/-- Any reading of the store that starts at the root and only looks at pages in extents
held gives the same result after the close and the open. -/
theorem close_open_read {R : Type} {s0 s s2 : Sys P} {xs saves ys : List (Act P)} {m0 : Mem P} {t t' : Nat}
    (h0 : Created s0) (hr : run g s0 xs = some s) (hp : s.proc = some m0)
    (hsv : ∀ x ∈ saves, x.isSave = true) (hys : ∀ x ∈ ys, x.inMount = true)
    (hc : run g s ((.unmount t :: saves ++ [.done]) ++ (.openDb :: ys ++ [.mounted t'])) = some s2)
    (read : (Nat → P) → Nat → R)
    (hloc : ∀ f, (∀ a, m0.refs (g.ext a) ≠ 0 → f a = view s.disk m0 a) →
      read f m0.root = read (view s.disk m0) m0.root) :
    ∃ m, s2.proc = some m ∧ read (view s2.disk m) m.root = read (view s.disk m0) m0.root := by
  obtain ⟨m, h1, h2, h3, h4, h5, h6, h7, h8⟩ := close_open_mounted h0 hr hp hsv hys hc
  exact ⟨m, h1, by rw [h3]; exact hloc _ h6⟩

/-! ### A crash inside the window -/

/-- Four pages per extent, five extents. Just after `trunk_create`: the root at page 4,
the tree's allocator in the same extent, the memtable in extent 2. The device has never
held reference counts. -/
def exGeo : Geo := ⟨4, 5⟩

def exStart : Sys Nat where
  disk := { pages := fun _ => 0, sup := some ⟨4, 0, 5, 1, false⟩, refs := fun _ => 0 }
  proc := some { dirty := [(4, 7), (5, 8), (8, 9)], refs := fun e => if e = 1 then 3 else if e = 2 then 3 else if e = 0 then 2 else 0,
                 fresh := [1, 2], root := 4, nextId := 0, metaTail := 5, metaHead := 5, phase := .running }
  last := none
  window := false
  stale := false

theorem exStart_created : Created exStart :=
  ⟨⟨_, rfl, rfl⟩, ⟨_, rfl, rfl, by decide, rfl⟩, rfl, rfl, rfl⟩

/-- Work, then the part of a close before the reference count write: a copy of the root
goes to page 12, the memtable is freed. -/
def exClose : List (Act Nat) :=
  [.alloc 3, .write 12 21, .setMeta 12 2 5, .dec 2, .dec 2, .discard 8, .dec 2,
   .writeback 4, .writeback 5, .writeback 12, .stop, .unmount 2]

/-- C20 fails. A crash between the superblock write and the reference count write of a
close lets the next open succeed with reference counts that say the extent of the root is
free; that open gives the extent to its memtable, and the root page is overwritten. -/
theorem crash_in_close :
    ∃ s d m0, run exGeo exStart (exClose ++ [.crash false none]) = some s ∧
      lastClose exGeo exStart (exClose ++ [.crash false none]) none = some (d, m0) ∧
      m0.root = 12 ∧ m0.refs (exGeo.ext 12) = 2 ∧ view d m0 12 = 21 ∧
      (mount s.disk).map (fun m => (m.root, view s.disk m 12, m.refs (exGeo.ext 12))) = some (12, 21, 0) ∧
      (run exGeo s [.openDb, .alloc 3, .write 12 99, .mounted 3]).map
        (fun s' => s'.proc.map (fun m => (m.root, view s'.disk m 12))) = some (some (12, 99)) := by
  obtain ⟨s, hs⟩ : ∃ s, run exGeo exStart (exClose ++ [.crash false none]) = some s :=
    Option.isSome_iff_exists.mp (by decide +kernel)
  obtain ⟨⟨d, m0⟩, hd⟩ : ∃ y, lastClose exGeo exStart (exClose ++ [.crash false none]) none = some y :=
    Option.isSome_iff_exists.mp (by decide +kernel)
  have h1 : (run exGeo exStart (exClose ++ [.crash false none])).map (fun s =>
      (mount s.disk).map (fun m => (m.root, view s.disk m 12, m.refs (exGeo.ext 12)))) = some (some (12, 21, 0)) := by
    decide +kernel
  have h2 : (run exGeo exStart (exClose ++ [.crash false none])).map (fun s =>
      (run exGeo s [.openDb, .alloc 3, .write 12 99, .mounted 3]).map
        (fun s' => s'.proc.map (fun m => (m.root, view s'.disk m 12)))) = some (some (some (12, 99))) := by
    decide +kernel
  have h3 : (lastClose exGeo exStart (exClose ++ [.crash false none]) none).map (fun y =>
      (y.2.root, y.2.refs (exGeo.ext 12), view y.1 y.2 12)) = some (12, 2, 21) := by
    decide +kernel
  rw [hs] at h1 h2
  rw [hd] at h3
  simp only [Option.map_some, Option.some.injEq, Prod.mk.injEq] at h3
  exact ⟨s, d, m0, hs, hd, h3.1, h3.2.1, h3.2.2, Option.some.inj h1, Option.some.inj h2⟩

/-- The same run with the close completed meets the hypotheses of `close_open_mounted`. -/
def exSaves : List (Act Nat) := [.save 0, .save 1, .save 2, .save 3, .save 4]

set_option synthInstance.maxSize 512 in
example : (run exGeo exStart exClose.dropLast).map (fun s =>
    (s.proc.map (fun m => (m.phase, m.root, view s.disk m 12, m.refs 3)),
     (run exGeo s ((.unmount 2 :: exSaves ++ [.done]) ++
        (.openDb :: [.alloc 2, .inc 2, .write 8 50, .writeback 8, .alloc 4] ++ [.mounted 3]))).map
        (fun s2 => s2.proc.map (fun m => (m.phase, m.root, view s2.disk m 12, m.refs 3, m.refs 2))))) =
    some (some (.stopping, 12, 21, 2), some (some (.running, 12, 21, 2, 3))) := by
  decide +kernel

/-- A history for `crash_open_partial`: a complete close, an open, and a crash with one
page half written before the open has written its superblock. The next open succeeds. -/
def exCrash : List (Act Nat) :=
  exClose ++ exSaves ++ [.done, .openDb, .alloc 2, .write 8 50, .crash false (some (8, 77))]

theorem safe_of_phase {s : Sys P} {xs : List (Act P)}
    (h : ∀ i (_ : i < xs.length), ∀ s', run g s (xs.take i) = some s' → ¬ InWindow g s' xs[i]) : SafeRun g s xs := by
  induction xs generalizing s with
  | nil => trivial
  | cons x xs ih =>
    refine ⟨h 0 (by simp) s rfl, ?_⟩
    intro s' hs'
    apply ih
    intro i hi s'' hs''
    refine h (i + 1) (by simpa using hi) s'' ?_
    show (match act g s x with | none => none | some s1 => run g s1 (xs.take i)) = _
    rw [hs']; exact hs''

example : SafeRun exGeo exStart exCrash ∧
    (run exGeo exStart exCrash).map (fun s => (mount s.disk).map (fun m => (m.root, view s.disk m 12, view s.disk m 8))) =
      some (some (12, 21, 77)) := by
  constructor
  · refine safe_of_phase ?_
    intro i hi s' hs'
    have hi' : i < 22 := hi
    by_cases h21 : i = 21
    · subst h21
      rintro ⟨m, hm, hph, -⟩
      have : (run exGeo exStart (exCrash.take 21)).map (fun s => s.proc.map (·.phase)) = some (some .mounting) := by
        decide +kernel
      rw [hs'] at this
      simp only [Option.map_some, hm, hph] at this
      cases this
    · have hl : i < 21 := by omega
      have : ∀ j (_ : j < 21) (hj' : j < exCrash.length), ∀ s : Sys Nat, ¬ InWindow exGeo s exCrash[j] := by
        intro j hj hj' s
        revert hj'
        interval_cases j <;> exact fun _ h => h
      exact this i hl hi s'
  · decide +kernel

/-- A history in which a process crashed after its superblock write in the open: the next
open reports failure. -/
example : (run exGeo exStart (exClose ++ exSaves ++ [.done, .openDb, .alloc 2, .mounted 3, .crash false none])).map
    (fun s => (mount s.disk).isNone) = some true := by
  decide +kernel

/-! ### The head of the tree's allocator -/

/-- `trunk_mount` takes the page after the root for the head of the trunk's mini
allocator (7812). That is right only while the root is the one `trunk_create` made;
every change of the root copies it to a new page (`trunk_claim_and_copy_root`,
1241–1253). After a reopen `trunk_destroy` would release the wrong extent. -/
theorem meta_head_wrong :
    (run exGeo exStart exClose.dropLast).map (fun s =>
      (s.proc.map (fun m => (m.root, m.metaHead, exGeo.ext m.metaHead)),
       (run exGeo s ((.unmount 2 :: exSaves ++ [.done]) ++ [.openDb])).map
         (fun s2 => s2.proc.map (fun m => (m.root, m.metaHead, exGeo.ext m.metaHead))))) =
    some (some (12, 5, 1), some (some (12, 13, 3))) := by
  decide +kernel

end Splinter.Persist
