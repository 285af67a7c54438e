import Verif.Props.RangeIter
import Verif.Props.Reopen
/-!
# Iteration after deletes, maintenance and reopening (C03, C07, C19)

`Props/RangeIter.lean` ties a scan to the lookups of the same store. Here the scan is tied
to the writes themselves, so that what C03, C07 and C19 say about lookups also holds for
iterators.

The theorems carry the suffix `_partial` for the same reason as those of
`Props/Trunk.lean` and because the store does not change during the scan.
-/
namespace Splinter.Trunk
open Splinter.Spec (eval UpdateSem Implements report)
open Written (written)

variable {K V F : Type} [LinearOrder K] {cfg : DataCfg K V} {ops : FilterOps K F} {keyOk : K → Bool}
  {sem : UpdateSem K V} {lo hi : K} {s : State K V F}

/-- What a scan of `[mn, mx)` from `start` lists, given the value of each key. -/
structure Lists (val : K → Option V) (mn mx start : K) (out : List (K × Msg V)) : Prop where
  order : out.Pairwise (fun a b => a.1 < b.1)
  keys : ∀ k m, (k, m) ∈ out ↔ start ≤ k ∧ mn ≤ k ∧ k < mx ∧ m.type = .insert ∧ val k = some m.data

omit [LinearOrder K] in
theorem eq_of_sorted {A : Type} [LinearOrder A] {B : Type} : ∀ {l l' : List (A × B)},
    l.Pairwise (fun a b => a.1 < b.1) → l'.Pairwise (fun a b => a.1 < b.1) → (∀ x, x ∈ l ↔ x ∈ l') → l = l'
  | [], [], _, _, _ => rfl
  | [], b :: l', _, _, h => absurd ((h b).mpr (List.mem_cons_self ..)) (by simp)
  | a :: l, [], _, _, h => absurd ((h a).mp (List.mem_cons_self ..)) (by simp)
  | a :: l, b :: l', h1, h2, h => by
    rw [List.pairwise_cons] at h1 h2
    have hab : a = b := by
      rcases List.mem_cons.mp ((h a).mp (List.mem_cons_self ..)) with e | e
      · exact e
      rcases List.mem_cons.mp ((h b).mpr (List.mem_cons_self ..)) with e' | e'
      · exact e'.symm
      exact absurd (h2.1 a e) (not_lt.mpr (le_of_lt (h1.1 b e')))
    subst hab
    rw [eq_of_sorted h1.2 h2.2 fun x => ?_]
    constructor
    · intro hx
      rcases List.mem_cons.mp ((h x).mp (List.mem_cons_of_mem _ hx)) with e | e
      · subst e; exact absurd (h1.1 _ hx) (lt_irrefl _)
      · exact e
    · intro hx
      rcases List.mem_cons.mp ((h x).mpr (List.mem_cons_of_mem _ hx)) with e | e
      · subst e; exact absurd (h2.1 _ hx) (lt_irrefl _)
      · exact e

/-- The values determine the list. -/
theorem Lists.unique {val : K → Option V} {mn mx start : K} {o o' : List (K × Msg V)}
    (h : Lists val mn mx start o) (h' : Lists val mn mx start o') : o = o' :=
  eq_of_sorted h.order h'.order fun ⟨k, m⟩ => (h.keys k m).trans (h'.keys k m).symm

theorem Inv.scans {L : FilterLaws ops} {hist : K → List (Msg V)} (I : Inv L sem lo hi s hist) (H : Implements cfg sem)
    (cut : Branch K V → K → Nat) {mn mx start : K} (b1 : lo ≤ mn) (b2 : mn ≤ mx) (b3 : mx ≤ hi) (b4 : mn < hi)
    (h : start < hi) : ∃ N out, (∀ fuel ≥ N, scanFrom cfg s cut mn mx start fuel = .ok out) ∧
      Lists (fun k => eval sem k (hist k)) mn mx start out := by
  obtain ⟨N, out, _, h1, h2, h3⟩ := scan_spec I H cut b1 b2 b3 b4 _ start h (Nat.lt_succ_self _)
  refine ⟨N, out, fun fuel hf => ?_, h2, h3⟩
  obtain ⟨r, r1, r2⟩ := h1 fuel hf
  unfold scanFrom
  rw [r1]
  exact r2 fuel hf fuel hf

/-- C04, C19. However often the store was closed and opened, a scan lists the values left
by all writes since the store was created. -/
theorem scan_after_sessions_partial (L : FilterLaws ops) (H : Implements cfg sem) (hlt : lo < hi)
    (oss : List (List (Op K V))) (os : List (Op K V)) {s1 : State K V F}
    (hl : LegalSessions cfg ops keyOk lo hi (init ops lo hi) oss)
    (hr : runSessions cfg ops keyOk (init ops lo hi) oss = some s1)
    (hl' : LegalRun cfg ops keyOk lo hi s1 os) (hr' : run cfg ops keyOk s1 os = some s)
    (cut : Branch K V → K → Nat) {mn mx start : K} (b1 : lo ≤ mn) (b2 : mn ≤ mx) (b3 : mx ≤ hi) (b4 : mn < hi)
    (h : start < hi) : ∃ N out, (∀ fuel ≥ N, scanFrom cfg s cut mn mx start fuel = .ok out) ∧
      Lists (fun k => eval sem k (written keyOk k (oss.flatten ++ os))) mn mx start out := by
  have I := sessions_inv (L := L) H oss _ s1 _ (inv_init hlt) hl hr
  have I' := run_inv H os s1 s _ I hl' hr'
  obtain ⟨N, out, a, b⟩ := I'.scans H cut b1 b2 b3 b4 h
  refine ⟨N, out, a, ?_⟩
  simpa [written_append] using b

/-- C03. Once the last write to a key is a delete, no scan lists it, whatever maintenance
ran since. -/
theorem delete_hides_scan_partial (L : FilterLaws ops) (H : Implements cfg sem) (hlt : lo < hi) (os : List (Op K V))
    (hl : LegalRun cfg ops keyOk lo hi (init ops lo hi) os)
    (hr : run cfg ops keyOk (init ops lo hi) os = some s)
    {k : K} {before : List (Msg V)} {d : V} (hd : written keyOk k os = before ++ [⟨.delete, d⟩])
    (cut : Branch K V → K → Nat) {mn mx start : K} (b1 : lo ≤ mn) (b2 : mn ≤ mx) (b3 : mx ≤ hi) (b4 : mn < hi)
    (h : start < hi) : ∃ N out, (∀ fuel ≥ N, scanFrom cfg s cut mn mx start fuel = .ok out) ∧
      ∀ x ∈ out, x.1 ≠ k := by
  obtain ⟨N, out, a, b⟩ := (run_inv H os _ s _ (inv_init (L := L) hlt) hl hr).scans H cut b1 b2 b3 b4 h
  refine ⟨N, out, a, ?_⟩
  rintro ⟨k', m⟩ hx rfl
  have := ((b.keys _ _).mp hx).2.2.2.2
  simp only [List.nil_append, hd, eval, List.foldl_append] at this
  cases this

/-- C07. Maintenance does not change what a scan lists. -/
theorem maintenance_scan_invisible_partial (L : FilterLaws ops) (H : Implements cfg sem) (hlt : lo < hi)
    {s' : State K V F} (hs : Reachable cfg ops keyOk lo hi s) {o : Op K V} (hm : o.maintenance = true)
    (hl : Legal lo hi s o) (hr : step cfg ops keyOk s o = some s')
    (cut cut' : Branch K V → K → Nat) {mn mx start : K} (b1 : lo ≤ mn) (b2 : mn ≤ mx) (b3 : mx ≤ hi) (b4 : mn < hi)
    (h : start < hi) : ∃ N out, ∀ fuel ≥ N, scanFrom cfg s cut mn mx start fuel = .ok out ∧
      scanFrom cfg s' cut' mn mx start fuel = .ok out := by
  obtain ⟨hist, I⟩ := hs.inv L H hlt
  have I' := run_inv (keyOk := keyOk) H [o] s s' hist I ⟨hl, fun _ _ => trivial⟩ (by simp [run, hr])
  have hw : ∀ k, written keyOk k [o] = [] := by
    intro k
    cases o <;> first | rfl | cases hm
  obtain ⟨N, out, a, b⟩ := I.scans H cut b1 b2 b3 b4 h
  obtain ⟨N', out', a', b'⟩ := I'.scans H cut' b1 b2 b3 b4 h
  simp only [hw, List.append_nil] at b'
  obtain rfl := b.unique b'
  exact ⟨max N N', out, fun fuel hf => ⟨a _ (le_trans (le_max_left ..) hf), a' _ (le_trans (le_max_right ..) hf)⟩⟩

/-! ### Examples -/

/-- Instance of `delete_hides_scan_partial`: the tombstone of 10 and the value it hides
were merged away before the scan. -/
example : ∃ (s : State Nat Nat (List (Nat × Nat))) (N : Nat) (out : List (Nat × Msg Nat)),
    run counterCfg setFilter (fun _ => true) (init setFilter 0 100) (exS1 ++ exS2) = some s ∧
    (∀ fuel ≥ N, scanFrom counterCfg s (fun _ _ => 0) 0 100 0 fuel = .ok out) ∧ (∀ x ∈ out, x.1 ≠ 10) ∧
    (30, ⟨.insert, 7⟩) ∈ out := by
  obtain ⟨s, hs⟩ : ∃ s, run counterCfg setFilter (fun _ => true) (init setFilter 0 100) (exS1 ++ exS2) = some s :=
    Option.isSome_iff_exists.mp (by decide +kernel)
  have hl : LegalRun counterCfg setFilter (fun _ => true) 0 100 (init setFilter 0 100) (exS1 ++ exS2) :=
    legalRunB_sound _ _ (by decide +kernel)
  obtain ⟨N, out, a, b⟩ := delete_hides_scan_partial setFilter_laws counter_implements (by decide) _ hl hs
    (k := 10) (before := [⟨.insert, 1⟩]) (d := 0) (by decide +kernel) (fun _ _ => 0) (mn := 0) (mx := 100) (start := 0)
    (by decide) (by decide) (by decide) (by decide) (by decide)
  obtain ⟨N', out', a', b'⟩ := scan_after_sessions_partial setFilter_laws counter_implements (by decide) [] _
    (trivial : LegalSessions counterCfg setFilter (fun _ => true) 0 100 (init setFilter 0 100) []) rfl hl hs
    (fun _ _ => 0) (mn := 0) (mx := 100) (start := 0) (by decide) (by decide) (by decide) (by decide) (by decide)
  have e : out = out' := by
    have := (a _ (le_max_left N N')).symm.trans (a' _ (le_max_right N N'))
    exact Except.ok.inj this
  subst e
  exact ⟨s, N, out, hs, a, b, (b'.keys _ _).mpr ⟨by decide, by decide, by decide, rfl, by decide +kernel⟩⟩

/-- Instance of `maintenance_scan_invisible_partial`: installing a merge. -/
example : ∃ (s s' : State Nat Nat (List (Nat × Nat))) (N : Nat) (out : List (Nat × Msg Nat)),
    run counterCfg setFilter (fun _ => true) (init setFilter 0 100) (exS1 ++ exS2.take 7) = some s ∧
    step counterCfg setFilter (fun _ => true) s (.replace 0) = some s' ∧ s.reqs.length = 1 ∧
    ∀ fuel ≥ N, scanFrom counterCfg s (fun _ _ => 0) 0 100 5 fuel = .ok out ∧
      scanFrom counterCfg s' (fun _ _ => 0) 0 100 5 fuel = .ok out := by
  have h0 : (run counterCfg setFilter (fun _ => true) (init setFilter 0 100) (exS1 ++ exS2.take 7)).map (fun s =>
      ((step counterCfg setFilter (fun _ => true) s (.replace 0)).isSome, vanishLegalB s 0, s.reqs.length)) =
      some (true, true, 1) := by
    decide +kernel
  obtain ⟨s, hs, h1⟩ := Option.map_eq_some_iff.mp h0
  simp only [Prod.mk.injEq] at h1
  obtain ⟨s', hs'⟩ := Option.isSome_iff_exists.mp h1.1
  have hl : LegalRun counterCfg setFilter (fun _ => true) 0 100 (init setFilter 0 100) (exS1 ++ exS2.take 7) :=
    legalRunB_sound _ _ (by decide +kernel)
  obtain ⟨N, out, a⟩ := maintenance_scan_invisible_partial setFilter_laws counter_implements (by decide) ⟨_, hl, hs⟩
    (o := .replace 0) rfl (vanishLegalB_sound h1.2.1) hs' (fun _ _ => 0) (fun _ _ => 0) (mn := 0) (mx := 100) (start := 5)
    (by decide) (by decide) (by decide) (by decide) (by decide)
  exact ⟨s, s', N, out, hs, hs', h1.2.2, a⟩

end Splinter.Trunk
