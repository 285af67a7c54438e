import Verif.Props.Trunk
import Verif.Props.Persist
/-!
# Lookups across close and open (C19)

`Props/Persist.lean` shows that pages, root and reference counts come back. Here the
contents of the tree come in: a close first moves the memtable into the tree and
finishes every compaction (`trunk_prepare_for_shutdown`, trunk.c 7863–7879), and an open
starts with empty memtables and no compaction requests (`trunk_mount`, 7814–7829).

The theorems carry the suffix `_partial` because the maintenance at the end of a session
needs `FlushLegal` (see `Props/Trunk.lean`).
-/
namespace Splinter.Trunk
open Splinter.Spec (eval UpdateSem Implements report)
open Written (written)

variable {K V F : Type} [LinearOrder K]
variable {cfg : DataCfg K V} {ops : FilterOps K F} {keyOk : K → Bool} {sem : UpdateSem K V} {lo hi : K}

/-- The store at the end of `trunk_prepare_for_shutdown`: the memtable is empty and no
compaction is left. -/
def State.atRest (s : State K V F) : Bool := s.mems.length == 1 && s.mems.all List.isEmpty && s.reqs.isEmpty

/-- The store that `trunk_mount` builds over a tree. -/
def mounted (h : Nat) (root : Node K V F (Sub K V F h)) (nextId : Nat) : State K V F :=
  { mems := [[]], h := h, root := root, reqs := [], nextId := nextId }

omit [LinearOrder K] in
theorem mounted_of_atRest {s : State K V F} (h : s.atRest = true) : mounted s.h s.root s.nextId = s := by
  obtain ⟨mems, ht, root, reqs, nid⟩ := s
  simp only [State.atRest, Bool.and_eq_true, beq_iff_eq] at h
  obtain ⟨⟨h1, h2⟩, h3⟩ := h
  match mems, h1 with
  | [m], _ =>
    simp only [List.all_cons, List.all_nil, Bool.and_true, List.isEmpty_iff] at h2
    simp only [List.isEmpty_iff] at h3
    subst h2 h3
    rfl

/-- One session: operations, of which the last ones are the maintenance of the close. -/
def runSession (cfg : DataCfg K V) (ops : FilterOps K F) (keyOk : K → Bool) (s : State K V F) (os : List (Op K V)) :
    Option (State K V F) :=
  match run cfg ops keyOk s os with
  | none => none
  | some s' => if s'.atRest then some (mounted s'.h s'.root s'.nextId) else none

def runSessions (cfg : DataCfg K V) (ops : FilterOps K F) (keyOk : K → Bool) :
    State K V F → List (List (Op K V)) → Option (State K V F)
  | s, [] => some s
  | s, os :: r =>
    match runSession cfg ops keyOk s os with
    | none => none
    | some s' => runSessions cfg ops keyOk s' r

def LegalSessions (cfg : DataCfg K V) (ops : FilterOps K F) (keyOk : K → Bool) (lo hi : K) :
    State K V F → List (List (Op K V)) → Prop
  | _, [] => True
  | s, os :: r => LegalRun cfg ops keyOk lo hi s os ∧
      ∀ s', runSession cfg ops keyOk s os = some s' → LegalSessions cfg ops keyOk lo hi s' r

theorem written_append (keyOk : K → Bool) (k : K) : ∀ (os os' : List (Op K V)),
    written keyOk k (os ++ os') = written keyOk k os ++ written keyOk k os'
  | [], _ => rfl
  | o :: os, os' => by
    rw [List.cons_append, written_cons, written_append keyOk k os os', written_cons keyOk k o os, List.append_assoc]

theorem sessions_inv {L : FilterLaws ops} (H : Implements cfg sem) : ∀ (oss : List (List (Op K V)))
    (s s' : State K V F) (hist : K → List (Msg V)), Inv L sem lo hi s hist → LegalSessions cfg ops keyOk lo hi s oss →
    runSessions cfg ops keyOk s oss = some s' → Inv L sem lo hi s' (fun k => hist k ++ written keyOk k oss.flatten)
  | [], s, s', hist, I, _, hr => by
    obtain rfl := Option.some.inj hr
    simpa [written] using I
  | os :: oss, s, s', hist, I, hl, hr => by
    unfold runSessions at hr
    cases h1 : runSession cfg ops keyOk s os with
    | none => rw [h1] at hr; cases hr
    | some s1 =>
      rw [h1] at hr
      have hl2 := hl.2 s1 h1
      unfold runSession at h1
      cases h2 : run cfg ops keyOk s os with
      | none => rw [h2] at h1; cases h1
      | some s2 =>
        rw [h2] at h1
        simp only [Option.ite_none_right_eq_some, Option.some.injEq] at h1
        obtain ⟨ha, hm⟩ := h1
        rw [mounted_of_atRest ha] at hm
        subst hm
        have I1 := run_inv H os s s2 hist I hl.1 h2
        have := sessions_inv H oss s2 s' _ I1 hl2 hr
        have e : (fun k => hist k ++ written keyOk k (os :: oss).flatten) =
            fun k => (hist k ++ written keyOk k os) ++ written keyOk k oss.flatten := by
          funext k; rw [List.flatten_cons, written_append, List.append_assoc]
        rw [e]; exact this

/-- C19, C01. However often the store was closed and opened, a lookup reports the value
left by all writes to its key since the store was created. -/
theorem lookup_after_sessions_partial (L : FilterLaws ops) (H : Implements cfg sem) (hlt : lo < hi)
    (oss : List (List (Op K V))) (os : List (Op K V)) {s1 s : State K V F}
    (hl : LegalSessions cfg ops keyOk lo hi (init ops lo hi) oss)
    (hr : runSessions cfg ops keyOk (init ops lo hi) oss = some s1)
    (hl' : LegalRun cfg ops keyOk lo hi s1 os) (hr' : run cfg ops keyOk s1 os = some s)
    {k : K} (k1 : lo ≤ k) (k2 : k < hi) :
    lookup cfg ops s k = .ok (report (eval sem k (written keyOk k (oss.flatten ++ os)))) := by
  have I := sessions_inv (L := L) H oss _ s1 _ (inv_init hlt) hl hr
  have I' := run_inv H os s1 s _ I hl' hr'
  have := I'.lookup H k1 k2
  rw [written_append]
  simpa using this

/-- C07 for a sequence of maintenance actions. -/
theorem maintenance_run_invisible_partial (L : FilterLaws ops) (H : Implements cfg sem) (hlt : lo < hi)
    {s s' : State K V F} (hs : Reachable cfg ops keyOk lo hi s) {os : List (Op K V)}
    (hm : ∀ o ∈ os, o.maintenance = true) (hl : LegalRun cfg ops keyOk lo hi s os)
    (hr : run cfg ops keyOk s os = some s') {k : K} (k1 : lo ≤ k) (k2 : k < hi) :
    lookup cfg ops s' k = lookup cfg ops s k := by
  obtain ⟨hist, I⟩ := hs.inv L H hlt
  have I' := run_inv H os s s' hist I hl hr
  rw [I.lookup H k1 k2, I'.lookup H k1 k2]
  have : ∀ os : List (Op K V), (∀ o ∈ os, o.maintenance = true) → written keyOk k os = [] := by
    intro os
    induction os with
    | nil => intro _; rfl
    | cons o os ih =>
      intro h
      rw [written_cons, ih (fun x hx => h x (List.mem_cons_of_mem _ hx)), List.append_nil]
      have := h o (List.mem_cons_self ..)
      cases o <;> first | rfl | cases this
  rw [this os hm, List.append_nil]

/-- C19 from the pages up. A store runs the maintenance of a close (`os`), its tree is then
in the pages of the process `m0` (`decode`, which only looks at pages in extents held),
the close completes and an open follows. The handle after the open shows, for every key,
what the store showed before the close. -/
theorem close_open_lookup_partial {P : Type} {g : Persist.Geo} (L : FilterLaws ops) (H : Implements cfg sem)
    (hlt : lo < hi) {st st' : State K V F} (hs : Reachable cfg ops keyOk lo hi st) {os : List (Op K V)}
    (hm : ∀ o ∈ os, o.maintenance = true) (hl : LegalRun cfg ops keyOk lo hi st os)
    (hrun : run cfg ops keyOk st os = some st') (hrest : st'.atRest = true)
    {s0 s s2 : Persist.Sys P} {xs saves ys : List (Persist.Act P)} {m0 : Persist.Mem P} {t t' : Nat}
    (h0 : Persist.Created s0) (hr : Persist.run g s0 xs = some s) (hp : s.proc = some m0)
    (hsv : ∀ x ∈ saves, x.isSave = true) (hys : ∀ x ∈ ys, x.inMount = true)
    (hc : Persist.run g s ((.unmount t :: saves ++ [.done]) ++ (.openDb :: ys ++ [.mounted t'])) = some s2)
    (decode : (Nat → P) → Nat → Option ((h : Nat) × Node K V F (Sub K V F h)))
    (hloc : ∀ f, (∀ a, m0.refs (g.ext a) ≠ 0 → f a = Persist.view s.disk m0 a) →
      decode f m0.root = decode (Persist.view s.disk m0) m0.root)
    (htree : decode (Persist.view s.disk m0) m0.root = some ⟨st'.h, st'.root⟩) (hid : m0.nextId = st'.nextId) :
    ∃ m tr, s2.proc = some m ∧ decode (Persist.view s2.disk m) m.root = some tr ∧
      ∀ k, lo ≤ k → k < hi → lookup cfg ops (mounted tr.1 tr.2 m.nextId) k = lookup cfg ops st k := by
  obtain ⟨m, h1, h2, h3, h4, h5, h6, -, -⟩ := Persist.close_open_mounted h0 hr hp hsv hys hc
  refine ⟨m, ⟨st'.h, st'.root⟩, h1, ?_, ?_⟩
  · rw [h3, hloc _ h6]; exact htree
  · intro k k1 k2
    have e : mounted st'.h st'.root m.nextId = st' := by rw [h4, hid]; exact mounted_of_atRest hrest
    show lookup cfg ops (mounted st'.h st'.root m.nextId) k = _
    rw [e]
    exact maintenance_run_invisible_partial L H hlt hs hm hl hrun k1 k2

/-! ### Examples -/

def exS1 : List (Op Nat Nat) :=
  [.insert 10 ⟨.insert, 1⟩, .insert 30 ⟨.insert, 3⟩, .rotate, .incorporate, .filters 0]

def exS2 : List (Op Nat Nat) :=
  [.insert 30 ⟨.update, 4⟩, .insert 10 ⟨.delete, 0⟩, .rotate, .incorporate, .flush 0 10, .filters 0,
   .startCompact 0, .replace 0, .filters 0]

/-- Two sessions, then an update that is still in the memtable. -/
example : ∃ s1 s, runSessions counterCfg setFilter (fun _ => true) (init setFilter 0 100) [exS1, exS2] = some s1 ∧
    run counterCfg setFilter (fun _ => true) s1 [.insert 30 ⟨.update, 5⟩] = some s ∧
    lookup counterCfg setFilter s 30 = .ok (.found 12) ∧ lookup counterCfg setFilter s 10 = .ok .notFound := by
  obtain ⟨s1, h1⟩ : ∃ s, runSessions counterCfg setFilter (fun _ => true) (init setFilter 0 100) [exS1, exS2] = some s :=
    Option.isSome_iff_exists.mp (by decide +kernel)
  have h2 : (runSessions counterCfg setFilter (fun _ => true) (init setFilter 0 100) [exS1, exS2]).map (fun s1 =>
      (run counterCfg setFilter (fun _ => true) s1 [.insert 30 ⟨.update, 5⟩]).isSome) = some true := by decide +kernel
  rw [h1] at h2
  obtain ⟨s, hs⟩ := Option.isSome_iff_exists.mp (Option.some.inj h2)
  have hl : LegalSessions counterCfg setFilter (fun _ => true) 0 100 (init setFilter 0 100) [exS1, exS2] := by
    refine ⟨legalRunB_sound _ _ (by decide +kernel), fun sa ha => ⟨legalRunB_sound _ _ ?_, fun _ _ => trivial⟩⟩
    have : (runSession counterCfg setFilter (fun _ => true) (init setFilter 0 100) exS1).map (fun s => legalRunB s exS2) =
        some true := by decide +kernel
    rw [ha] at this; exact Option.some.inj this
  have hl' : LegalRun counterCfg setFilter (fun _ => true) 0 100 s1 [.insert 30 ⟨.update, 5⟩] :=
    ⟨⟨by decide, by decide⟩, fun _ _ => trivial⟩
  have a := lookup_after_sessions_partial setFilter_laws counter_implements (by decide) _ _ hl h1 hl' hs (k := 30) (by decide) (by decide)
  have b := lookup_after_sessions_partial setFilter_laws counter_implements (by decide) _ _ hl h1 hl' hs (k := 10) (by decide) (by decide)
  refine ⟨s1, s, h1, hs, ?_, ?_⟩
  · rw [a]; decide +kernel
  · rw [b]; decide +kernel

/-- The hypotheses of `close_open_lookup_partial` are met by a small store whose tree is
named by the content of its root page. -/
example : ∃ (st st' : State Nat Nat (List (Nat × Nat))) (s s2 : Persist.Sys Nat) (m0 m : Persist.Mem Nat),
    run counterCfg setFilter (fun _ => true) (init setFilter 0 100) (exS1.take 2) = some st ∧
    run counterCfg setFilter (fun _ => true) st (exS1.drop 2) = some st' ∧
    Persist.run Persist.exGeo Persist.exStart Persist.exClose.dropLast = some s ∧ s.proc = some m0 ∧
    Persist.run Persist.exGeo s ((.unmount 2 :: Persist.exSaves ++ [.done]) ++ (.openDb :: [.alloc 2] ++ [.mounted 3])) =
      some s2 ∧ s2.proc = some m ∧
    (∀ k, 0 ≤ k → k < 100 →
      lookup counterCfg setFilter (mounted st'.h st'.root m.nextId) k = lookup counterCfg setFilter st k) := by
  obtain ⟨st, h1⟩ : ∃ s, run counterCfg setFilter (fun _ => true) (init setFilter 0 100) (exS1.take 2) = some s :=
    Option.isSome_iff_exists.mp (by decide +kernel)
  have h2 : (run counterCfg setFilter (fun _ => true) (init setFilter 0 100) (exS1.take 2)).map (fun st =>
      (run counterCfg setFilter (fun _ => true) st (exS1.drop 2)).map (fun x => (x.atRest, x.nextId))) =
      some (some (true, 2)) := by decide +kernel
  rw [h1] at h2
  have h2 := Option.some.inj h2
  simp only at h2
  obtain ⟨st', h3⟩ : ∃ s, run counterCfg setFilter (fun _ => true) st (exS1.drop 2) = some s := by
    cases h : run counterCfg setFilter (fun _ => true) st (exS1.drop 2) with
    | none => rw [h] at h2; cases h2
    | some x => exact ⟨x, rfl⟩
  rw [h3] at h2
  have h2 := Prod.mk.inj (Option.some.inj h2)
  obtain ⟨s, h4⟩ : ∃ s, Persist.run Persist.exGeo Persist.exStart Persist.exClose.dropLast = some s :=
    Option.isSome_iff_exists.mp (by decide +kernel)
  have h5 : (Persist.run Persist.exGeo Persist.exStart Persist.exClose.dropLast).map (fun s =>
      s.proc.map (fun m => (Persist.view s.disk m 12, m.root, m.nextId, m.refs 3))) = some (some (21, 12, 2, 2)) := by
    decide +kernel
  have h6 : (Persist.run Persist.exGeo Persist.exStart Persist.exClose.dropLast).map (fun s =>
      (Persist.run Persist.exGeo s ((.unmount 2 :: Persist.exSaves ++ [.done]) ++ (.openDb :: [.alloc 2] ++ [.mounted 3]))).isSome)
      = some true := by decide +kernel
  rw [h4] at h5 h6
  obtain ⟨s2, h7⟩ := Option.isSome_iff_exists.mp (Option.some.inj h6)
  have h5 := Option.some.inj h5
  simp only at h5
  cases hp : s.proc with
  | none => rw [hp] at h5; cases h5
  | some m0 =>
    rw [hp] at h5
    simp only [Option.map_some, Option.some.injEq, Prod.mk.injEq] at h5
    have hext : Persist.exGeo.ext 12 = 3 := by decide
    obtain ⟨m, tr, e1, e2, e3⟩ := close_open_lookup_partial (g := Persist.exGeo) setFilter_laws counter_implements (by decide)
      (lo := 0) (hi := 100) (st := st) ⟨_, legalRunB_sound _ _ (by decide +kernel), h1⟩ (os := exS1.drop 2)
      (by intro o ho; simp [exS1] at ho; rcases ho with rfl | rfl | rfl <;> rfl)
      (by exact ⟨trivial, fun _ _ => ⟨trivial, fun _ _ => ⟨trivial, fun _ _ => trivial⟩⟩⟩) h3 h2.1
      Persist.exStart_created h4 hp (by intro x hx; simp [Persist.exSaves] at hx; rcases hx with rfl | rfl | rfl | rfl | rfl <;> rfl)
      (ys := [.alloc 2]) (by intro x hx; simp at hx; subst hx; rfl) h7
      (fun f r => if f r = 21 then some ⟨st'.h, st'.root⟩ else none)
      (by
        intro f hf
        have := hf 12 (by rw [hext, h5.2.2.2]; decide)
        simp only [h5.2.1, this])
      (by simp only [h5.2.1, h5.1]; rfl) (by rw [h5.2.2.1, h2.2])
    refine ⟨st, st', s, s2, m0, m, h1, h3, h4, hp, h7, e1, ?_⟩
    split at e2
    · obtain rfl := Option.some.inj e2; exact e3
    · cases e2

end Splinter.Trunk
