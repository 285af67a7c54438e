import Verif.Proof.RangeIter
import Verif.Props.Trunk
/-!
# C04: forward iteration (and where C06, C39 fail on whole stores)

The specification is the lookup: a scan lists, in key order, the keys for which a lookup
finds a value, with that value.

The theorems carry the suffix `_partial` because they speak about stores reached by legal
runs (`Props/Trunk.lean`), and because the store does not change during the scan.
-/
namespace Splinter.Trunk
open Splinter.Spec (eval UpdateSem Implements report)

variable {K V F : Type} [LinearOrder K] {cfg : DataCfg K V} {ops : FilterOps K F} {keyOk : K → Bool}
  {sem : UpdateSem K V} {lo hi : K} {s : State K V F}

theorem report_found {v : Option V} {x : V} : report v = .found x ↔ v = some x := by
  cases v <;> simp [report]

/-- C04 for an iterator over a key range `[mn, mx)` (`trunk_range_iterator_init` with any
bounds): it terminates and lists exactly the live keys of the range from `start` on. -/
theorem range_scan_partial (L : FilterLaws ops) (H : Implements cfg sem) (hlt : lo < hi)
    (hs : Reachable cfg ops keyOk lo hi s) (cut : Branch K V → K → Nat) {mn mx start : K}
    (b1 : lo ≤ mn) (b2 : mn ≤ mx) (b3 : mx ≤ hi) (b4 : mn < hi) (h : start < hi) :
    ∃ N out, (∀ fuel ≥ N, scanFrom cfg s cut mn mx start fuel = .ok out) ∧
      out.Pairwise (fun a b => a.1 < b.1) ∧
      ∀ k m, (k, m) ∈ out ↔ start ≤ k ∧ mn ≤ k ∧ k < mx ∧ m.type = .insert ∧
        lookup cfg ops s k = .ok (.found m.data) := by
  obtain ⟨hist, I⟩ := hs.inv L H hlt
  obtain ⟨N, out, _, h1, h2, h3⟩ := scan_spec I H cut b1 b2 b3 b4 _ start h (Nat.lt_succ_self _)
  refine ⟨N, out, fun fuel hf => ?_, h2, fun k m => ?_⟩
  · obtain ⟨r, r1, r2⟩ := h1 fuel hf
    unfold scanFrom
    rw [r1]
    exact r2 fuel hf fuel hf
  · rw [h3 k m]
    constructor
    · rintro ⟨a, b, c, d, e⟩
      refine ⟨a, b, c, d, ?_⟩
      rw [I.lookup H (le_trans b1 b) (lt_of_lt_of_le c b3), report_found.mpr e]
    · rintro ⟨a, b, c, d, e⟩
      rw [I.lookup H (le_trans b1 b) (lt_of_lt_of_le c b3)] at e
      exact ⟨a, b, c, d, report_found.mp (Except.ok.inj e)⟩

/-- C04. An iterator opened at `start` and moved with `next` until it is invalid lists, in
strictly increasing key order, exactly the keys `≥ start` that a lookup finds, each with
the value the lookup returns. -/
theorem iterate_live_partial (L : FilterLaws ops) (H : Implements cfg sem) (hlt : lo < hi)
    (hs : Reachable cfg ops keyOk lo hi s) (cut : Branch K V → K → Nat) {start : K} (h : start < hi) :
    ∃ N out, (∀ fuel ≥ N, scanFrom cfg s cut lo hi start fuel = .ok out) ∧
      out.Pairwise (fun a b => a.1 < b.1) ∧
      ∀ k m, (k, m) ∈ out ↔ start ≤ k ∧ lo ≤ k ∧ k < hi ∧ m.type = .insert ∧
        lookup cfg ops s k = .ok (.found m.data) :=
  range_scan_partial L H hlt hs cut (le_refl _) (le_of_lt hlt) (le_refl _) hlt h

/-! ### Concrete stores -/

/-- Four leaves with bounds 20, 50, 70; keys in the tree and in two memtables. -/
def iterRun : List (Op Nat Nat) :=
  raceSetup ++ [.insert 15 ⟨.insert, 1⟩, .insert 60 ⟨.update, 5⟩, .insert 25 ⟨.insert, 2⟩, .rotate, .insert 20 ⟨.insert, 9⟩,
    .insert 19 ⟨.insert, 3⟩, .insert 25 ⟨.delete, 0⟩]

/-- Keys and values a scan lists. -/
def shown (r : Except RErr (List (Nat × Msg Nat))) : Option (List (Nat × Nat)) :=
  match r with
  | .ok l => some (l.map (fun x => (x.1, x.2.data)))
  | .error _ => none

/-- Where an iterator stands. -/
def at' (r : Except RErr (RIter Nat Nat)) : Option (Nat × Nat) :=
  match r with
  | .ok r => if r.valid then r.m.cur.map (fun x => (x.1, x.2.data)) else none
  | .error _ => none

/-- Instance of `iterate_live_partial`: the scan crosses all four leaves, resolves keys
that are in the tree and in memtables, and leaves out the deleted key 25. -/
example : ∃ s, Reachable counterCfg setFilter (fun _ => true) 0 100 s ∧
    shown (scanFrom counterCfg s (fun _ _ => 0) 0 100 16 20) = some [(19, 3), (20, 9), (60, 5)] ∧
    ∃ N out, (∀ fuel ≥ N, scanFrom counterCfg s (fun _ _ => 0) 0 100 16 fuel = .ok out) ∧ (60, ⟨.insert, 5⟩) ∈ out := by
  have h0 : (run counterCfg setFilter (fun _ => true) (init setFilter 0 100) iterRun).isSome = true := by decide +kernel
  obtain ⟨s, hs⟩ := Option.isSome_iff_exists.mp h0
  have hl : LegalRun counterCfg setFilter (fun _ => true) 0 100 (init setFilter 0 100) iterRun :=
    legalRunB_sound _ _ (by decide +kernel)
  have h1 : (run counterCfg setFilter (fun _ => true) (init setFilter 0 100) iterRun).map (fun s =>
      (shown (scanFrom counterCfg s (fun _ _ => 0) 0 100 16 20))) = some (some [(19, 3), (20, 9), (60, 5)]) := by
    decide +kernel
  rw [hs] at h1
  refine ⟨s, ⟨_, hl, hs⟩, Option.some.inj h1, ?_⟩
  obtain ⟨N, out, a, _, b⟩ := iterate_live_partial setFilter_laws counter_implements (by decide)
    (⟨_, hl, hs⟩ : Reachable counterCfg setFilter (fun _ => true) 0 100 s) (fun _ _ => 0) (start := 16) (by decide)
  refine ⟨N, out, a, (b _ _).mpr ⟨by decide, by decide, by decide, rfl, ?_⟩⟩
  rw [lookup_after_run_partial setFilter_laws counter_implements (by decide) iterRun hl hs (k := 60) (by decide) (by decide)]
  decide +kernel

/-- C39 and C06 fail on a whole store: the iterator stands on 20, the first key of its leaf.
The key before it is 19, but `prev` goes to 15: the merge iterator for the previous leaf is
built facing forward, so of the last keys of its inputs it reports the smallest. -/
theorem store_prev_skips_key :
    (run counterCfg setFilter (fun _ => true) (init setFilter 0 100) iterRun).map (fun s =>
      (lookup counterCfg setFilter s 19, at' (rinit counterCfg s (fun _ _ => 0) 0 100 20 20 .ge),
        at' (match rinit counterCfg s (fun _ _ => 0) 0 100 20 20 .ge with
          | .ok r => rprev counterCfg s (fun _ _ => 0) 20 r
          | .error e => .error e))) =
      some (.ok (.found 3), some (20, 9), some (15, 1)) := by
  decide +kernel

/-- A range iterator opened with `greater_than` (which the public interface does not use)
skips key 20: the first leaf is empty above 19 and the iterator is opened anew with
`greater_than` at the leaf's upper bound 20. -/
theorem gt_skips_leaf_bound :
    (run counterCfg setFilter (fun _ => true) (init setFilter 0 100) iterRun).map (fun s =>
      (lookup counterCfg setFilter s 20, at' (rinit counterCfg s (fun _ _ => 0) 0 100 20 19 .gt))) =
      some (.ok (.found 9), some (60, 5)) := by
  decide +kernel

end Splinter.Trunk
