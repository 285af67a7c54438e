import Verif.Proof.LiveScan2
import Verif.Props.RangeIter
/-!
C54: a scan of the whole store while it is written to.

Specification: `Reported` of `LiveScanSpec.lean`. The value of a key after `t` operations is
that of C01: the writes to the key among the first `t` operations, evaluated in order.

The theorems carry the suffix `_partial`: runs are legal as in C01, scans go forwards, and the
nodes of the trunk a visit goes through are those of the root it took (C45).
-/
namespace Splinter.Trunk
open Splinter.Merge (SortedRun)
open Splinter.Spec (eval UpdateSem Implements report)
open LiveScan Written
open BtreeIns (Swept From UpTo)

variable {K V F : Type} [LinearOrder K] {cfg : DataCfg K V} {ops : FilterOps K F} {keyOk : K → Bool}
  {sem : UpdateSem K V} {lo hi : K} {s : State K V F} {os : List (Op K V)} {cut : Branch K V → K → Nat}
  {mn mx start : K} {a b n : Nat} {vs : List (Visit K V F)} {out : List (K × Msg V)} {fin : Bool}

/-- The value of a key after `t` operations. -/
def valAt (sem : UpdateSem K V) (keyOk : K → Bool) (os : List (Op K V)) (t : Nat) (k : K) : Option V :=
  eval sem k (written keyOk k (os.take t))

/-- C54. A scan all of whose visits are between the times `a` and `b` reports what somebody
reports who looks the keys of its range up one after another, in ascending order, between
`a` and `b`. If it did not come to its end this holds up to the last key reported. -/
theorem live_scan_partial (L : FilterLaws ops) (H : Implements cfg sem) (hlt : lo < hi)
    (hl : LegalRun cfg ops keyOk lo hi (init ops lo hi) os) (hr : run cfg ops keyOk (init ops lo hi) os = some s)
    (b1 : lo ≤ mn) (b2 : mn ≤ mx) (b3 : mx ≤ hi) (b4 : mn < hi) (hst : start < hi)
    (hc : Chain cfg ops keyOk (init ops lo hi) os a b vs) (h : scanL cfg cut mn mx n vs start = .ok (out, fin)) :
    Reported (valAt sem keyOk os) a b (Range mn mx start fin out) out := by
  rcases scanL_spec (L := L) H cut (inv_init hlt) hl hr b1 b2 b3 b4 vs a b start n hc hst with ⟨h', _⟩ | ⟨out', fin', h', R⟩
  · rw [h] at h'; cases h'
  · rw [h] at h'
    cases h'
    exact R

/-- C54. A scan makes at most one visit for each leaf bound there is while it runs, and one
more. -/
theorem live_scan_visits_partial (L : FilterLaws ops) (H : Implements cfg sem) (hlt : lo < hi)
    (hl : LegalRun cfg ops keyOk lo hi (init ops lo hi) os) (hr : run cfg ops keyOk (init ops lo hi) os = some s)
    (b1 : lo ≤ mn) (b2 : mn ≤ mx) (b3 : mx ≤ hi) (b4 : mn < hi) (hst : start < hi)
    (hc : Chain cfg ops keyOk (init ops lo hi) os a b vs) (B : List K)
    (hB : ∀ v ∈ vs, ∀ x ∈ leafBounds v.s.h v.s.root, x ∈ B) (hlen : B.length < vs.length) :
    ∃ out fin, scanL cfg cut mn mx n vs start = .ok (out, fin) := by
  rcases scanL_spec (L := L) H cut (inv_init hlt) hl hr b1 b2 b3 b4 vs a b start n hc hst with ⟨_, h'⟩ | ⟨out', fin', h', _⟩
  · exact absurd ((h' B hB).trans List.countP_le_length) (by omega)
  · exact ⟨out', fin', h'⟩

section
variable (L : FilterLaws ops) (H : Implements cfg sem) (hlt : lo < hi)
  (hl : LegalRun cfg ops keyOk lo hi (init ops lo hi) os) (hr : run cfg ops keyOk (init ops lo hi) os = some s)
  (b1 : lo ≤ mn) (b2 : mn ≤ mx) (b3 : mx ≤ hi) (b4 : mn < hi) (hst : start < hi)
  (hc : Chain cfg ops keyOk (init ops lo hi) os a b vs)
include L H hlt hl hr b1 b2 b3 b4 hst hc

/-- C54. No key is reported twice or out of order, and every key reported had the value
reported at some time during the scan. -/
theorem live_scan_sound_partial (h : scanL cfg cut mn mx n vs start = .ok (out, fin)) :
    (out.Pairwise fun x y => x.1 < y.1) ∧
    ∀ k m, (k, m) ∈ out → start ≤ k ∧ mn ≤ k ∧ k < mx ∧ m.type = .insert ∧
      ∃ t, a ≤ t ∧ t ≤ b ∧ valAt sem keyOk os t k = some m.data := by
  obtain ⟨h1, T, h2, _, h4⟩ := live_scan_partial L H hlt hl hr b1 b2 b3 b4 hst hc h
  refine ⟨h1, fun k m hk => ?_⟩
  obtain ⟨p, q, r⟩ := (h4 k m).1 hk
  exact ⟨p.1, p.2.1, p.2.2.1, q, T k, (h2 k p).1, (h2 k p).2, r⟩

/-- C54. A key whose value does not change during the scan is reported with it. -/
theorem live_scan_steady_partial (h : scanL cfg cut mn mx n vs start = .ok (out, true)) {k : K} {v : V}
    (k1 : start ≤ k) (k2 : mn ≤ k) (k3 : k < mx) (hv : ∀ t, a ≤ t → t ≤ b → valAt sem keyOk os t k = some v) :
    (k, ⟨.insert, v⟩) ∈ out := by
  obtain ⟨_, T, h2, _, h4⟩ := live_scan_partial L H hlt hl hr b1 b2 b3 b4 hst hc h
  have p : Range mn mx start true out k := ⟨k1, k2, k3, fun h => by cases h⟩
  exact (h4 k _).2 ⟨p, rfl, hv _ (h2 k p).1 (h2 k p).2⟩

/-- C54. A key that has a value all the time is reported, with one it had. -/
theorem live_scan_present_partial (h : scanL cfg cut mn mx n vs start = .ok (out, true)) {k : K}
    (k1 : start ≤ k) (k2 : mn ≤ k) (k3 : k < mx) (hv : ∀ t, a ≤ t → t ≤ b → (valAt sem keyOk os t k).isSome) :
    ∃ m, (k, m) ∈ out := by
  obtain ⟨_, T, h2, _, h4⟩ := live_scan_partial L H hlt hl hr b1 b2 b3 b4 hst hc h
  have p : Range mn mx start true out k := ⟨k1, k2, k3, fun h => by cases h⟩
  obtain ⟨v, hv⟩ := Option.isSome_iff_exists.1 (hv _ (h2 k p).1 (h2 k p).2)
  exact ⟨⟨.insert, v⟩, (h4 k _).2 ⟨p, rfl, hv⟩⟩

/-- C54. What a scan reports of a key is not older than what it reports of a smaller one: if
`k` is reported with a value it did not have before time `i`, a greater key that keeps its
value from `i` on is reported with that. -/
theorem live_scan_order_partial (h : scanL cfg cut mn mx n vs start = .ok (out, true)) {k k' : K} {m : Msg V} {v : V} {i : Nat}
    (hk : (k, m) ∈ out) (hkk : k ≤ k') (k3 : k' < mx) (hi : ∀ t, t < i → valAt sem keyOk os t k ≠ some m.data)
    (hv : ∀ t, i ≤ t → t ≤ b → valAt sem keyOk os t k' = some v) : (k', ⟨.insert, v⟩) ∈ out := by
  obtain ⟨_, T, h2, h3, h4⟩ := live_scan_partial L H hlt hl hr b1 b2 b3 b4 hst hc h
  obtain ⟨p, _, r⟩ := (h4 k m).1 hk
  have p' : Range mn mx start true out k' := ⟨p.1.trans hkk, p.2.1.trans hkk, k3, fun h => by cases h⟩
  have hT : i ≤ T k := by
    by_contra hcon
    exact hi (T k) (by omega) r
  exact (h4 k' _).2 ⟨p', rfl, hv _ (hT.trans (h3 k k' p p' hkk)) (h2 k' p').2⟩

end

/-- C54. If all visits are at one time the scan reports what lookups find then. -/
theorem live_scan_still_partial (L : FilterLaws ops) (H : Implements cfg sem) (hlt : lo < hi)
    (hl : LegalRun cfg ops keyOk lo hi (init ops lo hi) os) (hr : run cfg ops keyOk (init ops lo hi) os = some s)
    (b1 : lo ≤ mn) (b2 : mn ≤ mx) (b3 : mx ≤ hi) (b4 : mn < hi) (hst : start < hi)
    (hc : Chain cfg ops keyOk (init ops lo hi) os os.length os.length vs)
    (h : scanL cfg cut mn mx n vs start = .ok (out, true)) (k : K) (m : Msg V) :
    (k, m) ∈ out ↔ start ≤ k ∧ mn ≤ k ∧ k < mx ∧ m.type = .insert ∧ lookup cfg ops s k = .ok (.found m.data) := by
  obtain ⟨_, T, h2, _, h4⟩ := live_scan_partial L H hlt hl hr b1 b2 b3 b4 hst hc h
  have hval : ∀ k, Range mn mx start true out k →
      lookup cfg ops s k = .ok (report (valAt sem keyOk os (T k) k)) := by
    intro k p
    have : T k = os.length := by have := h2 k p; omega
    rw [this, lookup_after_run_partial L H hlt os hl hr (b1.trans p.2.1) (lt_of_lt_of_le p.2.2.1 b3), valAt, List.take_length]
  rw [h4]
  constructor
  · rintro ⟨p, q, r⟩
    refine ⟨p.1, p.2.1, p.2.2.1, q, ?_⟩
    rw [hval k p, report_found.2 r]
  · rintro ⟨k1, k2, k3, q, r⟩
    have p : Range mn mx start true out k := ⟨k1, k2, k3, fun h => by cases h⟩
    rw [hval k p] at r
    exact ⟨p, q, report_found.1 (Except.ok.inj r)⟩

/-- C54 and C52. What the iterator of the newest memtable reports of its range while other
threads insert is part of a visit: let the memtable be the tree of C52, with the inserts
since the last rotation, the iterator made after `p` operations and closed after `q`. -/
theorem live_visit (H : Implements cfg sem) [BoundedOrder K] [Inhabited K] {root : Nat} (hroot : root ≠ 0)
    (hr : run cfg ops keyOk (init ops lo hi) os = some s) {p q : Nat} (hpq : p ≤ q) (hq : q ≤ os.length)
    (hno : ∀ o ∈ (os.take q).drop p, o ≠ Op.rotate) {t : BtreeIns.SSys K (Msg V)} {x : BtreeIns.Scan K (Msg V)}
    (ht : BtreeIns.SReachable (mrgOf cfg) root t) (hx : x ∈ t.scans) {e : Nat} (hd : x.pc = .done e)
    (hhist : t.base.hist.take e = recent keyOk (os.take q)) (hborn : x.born = (recent keyOk (os.take p)).length) :
    ∃ rep, Sampled (headAt cfg ops keyOk (init ops lo hi) os) p q rep ∧
      ∀ k m, From x.start x.strict k → UpTo x.hi k → ((k, m) ∈ rep ↔ (k, m) ∈ x.out) := by
  obtain ⟨h1, h2, h3⟩ := BtreeIns.scan_swept hroot ht hx hd
  have he : e = (recent keyOk (os.take q)).length := by rw [← hhist, List.length_take]; omega
  obtain ⟨rep, r1, r2⟩ := swept_visit H hr hpq hq hno hhist he hborn (by
    rintro k k' k'' ⟨u1, _⟩ ⟨_, u2⟩ hle hle'
    refine ⟨BtreeIns.From.trans u1 hle, ?_⟩
    rcases u2 with u2 | u2
    · exact .inl u2
    · exact .inr (lt_of_le_of_lt hle' u2)) h3
  exact ⟨rep, r1, fun k m u1 u2 => r2 k m ⟨u1, u2⟩⟩

/-! ### Examples -/

/-- A visit that reads the newest memtable at once. -/
theorem seen_still {p : Nat} (hp : p ≤ os.length) (hr : run cfg ops keyOk (init ops lo hi) (os.take p) = some s)
    {b : Branch K V} {r : List (Branch K V)} (hm : s.mems = b :: r) (hb : SortedRun b) :
    Seen cfg ops keyOk (init ops lo hi) os p p ⟨s, b⟩ := by
  refine ⟨le_rfl, hp, hr, ?_, hb, fun _ => p, fun _ => ⟨le_rfl, le_rfl⟩, fun _ _ _ => le_rfl, fun k m => ?_⟩
  · intro o ho
    rw [List.drop_eq_nil_of_le (by rw [List.length_take]; omega)] at ho
    cases ho
  · unfold headAt
    rw [hr]
    simp only [Option.bind_some, hm, List.head?_cons]
    exact ⟨fun h => SortedRun.mem_get hb h, Branch.get_mem⟩

/-- Leaves with bounds 20, 50 and 70, then three writes. -/
def liveRun : List (Op Nat Nat) :=
  raceSetup ++ [.insert 10 ⟨.insert, 1⟩, .insert 80 ⟨.insert, 8⟩, .insert 60 ⟨.delete, 0⟩]

/-- The store after so many operations of `liveRun`. -/
def liveAt (t : Nat) : Option (State Nat Nat (List (Nat × Nat))) :=
  run counterCfg setFilter (fun _ => true) (init setFilter 0 100) (liveRun.take t)

/-- Visits at these times. -/
def liveVisits (ts : List Nat) : Option (List (Visit Nat Nat (List (Nat × Nat)))) :=
  ts.mapM fun t => (liveAt t).map fun s => ⟨s, s.mems.headD []⟩

/-- Keys and values a scan lists. -/
def shownL (r : Except RErr (List (Nat × Msg Nat) × Bool)) : Option (List (Nat × Nat) × Bool) :=
  match r with
  | .ok l => some (l.1.map (fun x => (x.1, x.2.data)), l.2)
  | .error _ => none

theorem liveVisits_chain : ∀ (ts : List Nat) (a b : Nat) (vs : List (Visit Nat Nat (List (Nat × Nat)))),
    (a :: ts ++ [b]).Pairwise (· ≤ ·) → b ≤ liveRun.length →
    (∀ t ∈ ts, ((liveAt t).map fun s => !s.mems.isEmpty && decide ((s.mems.headD []).Pairwise fun x y => x.1 < y.1)) = some true) →
    liveVisits ts = some vs →
    Chain counterCfg setFilter (fun _ => true) (init setFilter 0 100) liveRun a b vs
  | [], a, b, vs, h, _, _, hv => by
    simp only [liveVisits, List.mapM_nil, Option.pure_def, Option.some.injEq] at hv
    subst hv
    exact .nil (by simpa using h)
  | t :: ts, a, b, vs, h, hb, hs, hv => by
    simp only [liveVisits, List.mapM_cons, Option.pure_def, Option.bind_eq_bind, Option.bind_eq_some_iff,
      Option.some.injEq, Option.map_eq_some_iff] at hv
    obtain ⟨_, ⟨s, h1, rfl⟩, vs', h2, rfl⟩ := hv
    have h3 := hs t List.mem_cons_self
    rw [h1] at h3
    simp only [Option.map_some, Option.some.injEq, Bool.and_eq_true, decide_eq_true_eq] at h3
    obtain ⟨m, r, hm⟩ := List.exists_cons_of_ne_nil (l := s.mems) (by intro e; rw [e] at h3; exact absurd h3.1 (by decide))
    rw [hm] at h3 ⊢
    simp only [List.cons_append, List.pairwise_cons] at h
    have hat : a ≤ t := h.1 t List.mem_cons_self
    have htb : t ≤ b := h.2.1 b (by simp)
    refine .cons hat (seen_still (htb.trans hb) h1 hm h3.2) ?_
    exact liveVisits_chain ts t b vs' (by simpa only [List.cons_append, List.pairwise_cons] using h.2) hb
      (fun x hx => hs x (List.mem_cons_of_mem _ hx)) h2

/-- C54 says no more: scans are not snapshots. The scan visits the first leaf before key 10 is
written and the others after key 80 is; it lists 80 and not 10, but 10 was written first. Key
60 is deleted after the scan has gone by. -/
theorem live_scan_no_snapshot : ∃ vs out,
    Chain counterCfg setFilter (fun _ => true) (init setFilter 0 100) liveRun 7 10 vs ∧
    scanL counterCfg (fun _ _ => 0) 0 100 9 vs 0 = .ok (out, true) ∧
    Reported (valAt counterSem (fun _ => true) liveRun) 7 10 (Range 0 100 0 true out) out ∧
    out.map (fun x => (x.1, x.2.data)) = [(60, 0), (80, 8)] ∧
    ∀ t ≤ 10, ¬ (valAt counterSem (fun _ => true) liveRun t 10 = none ∧
      valAt counterSem (fun _ => true) liveRun t 80 = some 8) := by
  have h0 : (liveVisits [7, 7, 8, 9]).isSome = true := by decide +kernel
  obtain ⟨vs, hv⟩ := Option.isSome_iff_exists.1 h0
  have hc := liveVisits_chain [7, 7, 8, 9] 7 10 vs (by decide) (by decide) (by decide +kernel) hv
  have hl : LegalRun counterCfg setFilter (fun _ => true) 0 100 (init setFilter 0 100) liveRun :=
    legalRunB_sound _ _ (by decide +kernel)
  have h1 : (run counterCfg setFilter (fun _ => true) (init setFilter 0 100) liveRun).isSome = true := by decide +kernel
  obtain ⟨s, hs⟩ := Option.isSome_iff_exists.1 h1
  have h2 : (liveVisits [7, 7, 8, 9]).map (fun vs => shownL (scanL counterCfg (fun _ _ => 0) 0 100 9 vs 0)) =
      some (some ([(60, 0), (80, 8)], true)) := by decide +kernel
  rw [hv] at h2
  simp only [Option.map_some, Option.some.injEq] at h2
  cases h3 : scanL counterCfg (fun _ _ => 0) 0 100 9 vs 0 with
  | error e => rw [h3] at h2; cases h2
  | ok r =>
    obtain ⟨out, fin⟩ := r
    rw [h3] at h2
    simp only [shownL, Option.some.injEq, Prod.mk.injEq] at h2
    obtain ⟨h2, rfl⟩ := h2
    exact ⟨vs, out, hc, h3, live_scan_partial setFilter_laws counter_implements (by decide) hl hs (by decide) (by decide)
      (by decide) (by decide) (by decide) hc h3, h2, by decide +kernel⟩

/-! A memtable that takes two inserts, is scanned, and takes two more during the scan. -/

def finCfg : DataCfg (Fin 64) Nat where
  mergeTuples _ old d := some ⟨old.type, old.data + d⟩
  mergeFinal _ d := some ⟨.insert, d⟩

def finSem : UpdateSem (Fin 64) Nat where
  apply _ d v := some (v.getD 0 + d)

theorem fin_implements : Implements finCfg finSem where
  merge k old d h := by
    refine ⟨_, rfl, fun v => ?_⟩
    cases ht : old.type <;> simp_all [Spec.act, finSem]
    omega
  final k d := ⟨_, rfl, by simp, fun v => by simp [Spec.act, finSem]⟩

def finFilter : FilterOps (Fin 64) Unit := ⟨(), fun _ _ _ => (), fun _ _ => []⟩

def visitRun : List (Op (Fin 64) Nat) :=
  [.insert 7 ⟨.insert, 0⟩, .rotate, .insert 10 ⟨.insert, 1⟩, .insert 20 ⟨.insert, 2⟩, .incorporate, .insert 30 ⟨.insert, 3⟩,
    .insert 10 ⟨.update, 4⟩]

open BtreeIns in
/-- The same inserts into the tree of the memtable, page by page, with the scan. -/
def visitTree : List (SAct (Fin 64) (Msg Nat)) :=
  [.insert 10 ⟨.insert, 1⟩, .go 0 exC, .go 0 exC, .go 0 exC,
   .insert 20 ⟨.insert, 2⟩, .go 1 exC, .go 1 exC, .go 1 { exC with can := false, new := 2 },
   .go 1 exC, .go 1 exC, .go 1 exC, .go 1 { exC with can := false }, .go 1 exC, .go 1 { exC with new := 3 },
   .scan 5 63 5 false, .iter 0 true, .iter 0 true, .iter 0 false, .iter 0 true, .iter 0 true, .iter 0 true,
   .iter 0 true, .iter 0 true, .iter 0 true, .iter 0 true,
   .insert 30 ⟨.insert, 3⟩, .go 2 exC, .go 2 exC, .go 2 exC, .go 2 exC, .go 2 exC, .go 2 { exC with can := false }, .go 2 exC,
   .go 2 { exC with new := 4 },
   .insert 10 ⟨.update, 4⟩, .go 3 exC, .go 3 exC, .go 3 exC, .go 3 exC, .go 3 exC, .go 3 exC, .go 3 exC,
   .iter 0 true, .iter 0 true, .iter 0 true, .iter 0 true, .iter 0 true, .iter 0 true, .iter 0 true,
   .iter 0 true, .iter 0 true]

set_option maxRecDepth 100000 in
open BtreeIns in
/-- The visit sees key 30, written while it went on, and not the update of key 10, written
later but behind it. -/
example : ∃ rep, Sampled (headAt finCfg finFilter (fun _ => true) (init finFilter 0 63) visitRun) 5 7 rep ∧
    (10, ⟨.insert, 1⟩) ∈ rep ∧ (20, ⟨.insert, 2⟩) ∈ rep ∧ (30, ⟨.insert, 3⟩) ∈ rep := by
  have h : (srun (mrgOf finCfg) 1 visitTree (screate 1)).isSome = true := by decide +kernel
  obtain ⟨t, ht⟩ := Option.isSome_iff_exists.1 h
  have h1 : (srun (mrgOf finCfg) 1 visitTree (screate 1)).map (·.scans) =
      some [⟨5, 63, 5, false, .done 4, [(10, ⟨.insert, 1⟩), (20, ⟨.insert, 2⟩), (30, ⟨.insert, 3⟩)], 2⟩] := by
    decide +kernel
  have h2 : (srun (mrgOf finCfg) 1 visitTree (screate 1)).map (·.base.hist) =
      some (recent (fun _ => true) (visitRun.take 7)) := by decide +kernel
  rw [ht] at h1 h2
  simp only [Option.map_some, Option.some.injEq] at h1 h2
  have h3 : (run finCfg finFilter (fun _ => true) (init finFilter 0 63) visitRun).isSome = true := by decide +kernel
  obtain ⟨s, hs⟩ := Option.isSome_iff_exists.1 h3
  obtain ⟨rep, r1, r2⟩ := live_visit fin_implements (root := 1) (by decide) hs (p := 5) (q := 7) (by decide) (by decide)
    (fun o ho => by
      have : o = .insert 30 ⟨.insert, 3⟩ ∨ o = .insert 10 ⟨.update, 4⟩ := by simpa [visitRun] using ho
      rcases this with rfl | rfl <;> intro h <;> cases h)
    (srun_reachable .create ht) (x := ⟨5, 63, 5, false, .done 4, [(10, ⟨.insert, 1⟩), (20, ⟨.insert, 2⟩), (30, ⟨.insert, 3⟩)], 2⟩)
    (by rw [h1]; exact List.mem_cons_self) (e := 4) rfl (by rw [h2]; decide +kernel) (by decide +kernel)
  refine ⟨rep, r1, ?_, ?_, ?_⟩
  · exact (r2 10 _ (by simp [From]) (.inr (by decide))).2 (by simp)
  · exact (r2 20 _ (by simp [From]) (.inr (by decide))).2 (by simp)
  · exact (r2 30 _ (by simp [From]) (.inr (by decide))).2 (by simp)

end Splinter.Trunk
