import Mathlib.Order.Fin.Basic
import Verif.Proof.BtreeScanSys
import Verif.Props.BtreeInsert
import Verif.Props.Log
/-!
C52: a scan of a memtable that is being inserted into. C53: the generations inserts hand
back.

Specification: `Swept`, `From` and `UpTo` of `BtreeScanSpec.lean` and `valueOf` of
`BtreeInsertSpec.lean`, all functions of the inserts in the order they took effect.
-/
namespace Splinter.BtreeIns
open Btree Search

variable {K M : Type} [LinearOrder K] [BoundedOrder K] [Inhabited K] {mrg : K → M → M → M} {root : Nat}
  {s : SSys K M} {x : Scan K M}

/-- C52. A scan that was closed when `n` inserts had taken effect reported what somebody
reports who looks at all keys of its range in ascending order between its creation and its
end. -/
theorem scan_swept (hr : root ≠ 0) (h : SReachable mrg root s) (hx : x ∈ s.scans) {n : Nat} (hd : x.pc = .done n) :
    x.born ≤ n ∧ n ≤ s.base.hist.length ∧
    Swept mrg s.base.hist x.born n (fun k => From x.start x.strict k ∧ UpTo x.hi k) x.out := by
  obtain ⟨H, lv, _, _, _, hs, _⟩ := (sreachable_inv hr h).tree
  have := hs x hx
  unfold SOk at this
  rw [hd] at this
  exact this.2.2.2

/-- C52. So did one that is not closed yet, for the keys up to some point. -/
theorem scan_prefix (hr : root ≠ 0) (h : SReachable mrg root s) (hx : x ∈ s.scans) :
    ∃ P : K → Prop, (∀ k, P k → From x.start x.strict k ∧ UpTo x.hi k) ∧
      (∀ k k', P k → k' ≤ k → From x.start x.strict k' → P k') ∧
      Swept mrg s.base.hist x.born s.base.hist.length P x.out := by
  obtain ⟨H, lv, _, _, _, hs, _⟩ := (sreachable_inv hr h).tree
  have := hs x hx
  unfold SOk at this
  obtain ⟨_, _, hb, this⟩ := this
  have hnil : x.out = [] → ∃ P : K → Prop, (∀ k, P k → From x.start x.strict k ∧ UpTo x.hi k) ∧
      (∀ k k', P k → k' ≤ k → From x.start x.strict k' → P k') ∧
      Swept mrg s.base.hist x.born s.base.hist.length P x.out := by
    intro ho
    rw [ho]
    exact ⟨fun _ => False, fun _ h => h.elim, fun _ _ h => h.elim, .empty hb fun _ h => h.elim⟩
  have hle : ∀ k k', UpTo x.hi k → k' ≤ k → UpTo x.hi k' := by
    rintro k k' (h | h) hk
    · exact .inl h
    · exact .inr (lt_of_le_of_lt hk h)
  have hseen : ∀ F, Seen mrg s.base.hist x F → ∃ P : K → Prop, (∀ k, P k → From x.start x.strict k ∧ UpTo x.hi k) ∧
      (∀ k k', P k → k' ≤ k → From x.start x.strict k' → P k') ∧
      Swept mrg s.base.hist x.born s.base.hist.length P x.out := by
    intro F hF
    exact ⟨Done x F, fun k h => ⟨h.1, h.2.1⟩,
      fun k k' h hk hf => ⟨hf, hle k k' h.2.1 hk, fun f hf => lt_of_le_of_lt hk (h.2.2 f hf)⟩, hF.1⟩
  cases hp : x.pc <;> rw [hp] at this <;> simp only at this
  case find => exact hnil this
  case down => exact hnil this.1
  case claimed => exact hnil this.1
  case look => exact hnil this.1
  case gap => obtain ⟨_, _, _, _, _, _, _, _, _, h⟩ := this; exact hseen _ h
  case refind => obtain ⟨_, _, _, _, _, h⟩ := this; exact hseen _ h
  case relook => obtain ⟨⟨_, _, _, _, _, h⟩, _⟩ := this; exact hseen _ h
  case «at» => obtain ⟨_, _, _, _, _, _, _, h, _⟩ := this; exact hseen _ h
  case done n =>
    refine ⟨_, fun k h => h, fun k k' h hk hf => ⟨hf, hle k k' h.2 hk⟩, ?_⟩
    have := this.2.2.grow [] this.2.1 this.2.1
    simpa using this

/-- C52. At any time the keys reported are ascending, none twice, all of them in the
range, each with a value it had after the scan was created. -/
theorem scan_sound (hr : root ≠ 0) (h : SReachable mrg root s) (hx : x ∈ s.scans) :
    (x.out.Pairwise fun a b => a.1 < b.1) ∧
    ∀ k v, (k, v) ∈ x.out → From x.start x.strict k ∧ UpTo x.hi k ∧
      ∃ t, x.born ≤ t ∧ t ≤ s.base.hist.length ∧ valueOf mrg k (s.base.hist.take t) = some v := by
  obtain ⟨P, h1, _, hs, τ, h2, _, h4⟩ := scan_prefix hr h hx
  refine ⟨hs, fun k v hk => ?_⟩
  obtain ⟨hp, hv⟩ := (h4 k v).1 hk
  exact ⟨(h1 k hp).1, (h1 k hp).2, τ k, (h2 k hp).1, (h2 k hp).2, hv⟩

omit [BoundedOrder K] [Inhabited K] in
/-- A key that has a value keeps having one. -/
theorem valueOf_keeps {k : K} {hist : List (K × M)} {i j : Nat} (hij : i ≤ j)
    (h : (valueOf mrg k (hist.take i)).isSome) : (valueOf mrg k (hist.take j)).isSome := by
  have hsome : ∀ l : List M, (merged mrg k l).isSome ↔ l ≠ [] := by
    intro l; cases l <;> simp [merged]
  unfold valueOf at h ⊢
  rw [hsome] at h ⊢
  intro hn
  apply h
  unfold msgsOf at hn ⊢
  rw [List.map_eq_nil_iff, List.filter_eq_nil_iff] at hn ⊢
  intro a ha
  exact hn a (List.mem_of_mem_take (i := i) (by rwa [List.take_take, Nat.min_eq_left hij]))

/-- C52. A closed scan reported every key of its range that had a value when it was
created. -/
theorem scan_complete (hr : root ≠ 0) (h : SReachable mrg root s) (hx : x ∈ s.scans) {n : Nat} (hd : x.pc = .done n)
    {k : K} (h1 : From x.start x.strict k) (h2 : UpTo x.hi k)
    (hk : (valueOf mrg k (s.base.hist.take x.born)).isSome) : ∃ v, (k, v) ∈ x.out := by
  obtain ⟨_, _, _, τ, a, _, c⟩ := scan_swept hr h hx hd
  obtain ⟨v, hv⟩ := Option.isSome_iff_exists.1 (valueOf_keeps (a k ⟨h1, h2⟩).1 hk)
  exact ⟨v, (c k v).2 ⟨⟨h1, h2⟩, hv⟩⟩

/-- C52. If no insert took effect during a scan it reported exactly what the tree held. -/
theorem scan_snapshot (hr : root ≠ 0) (h : SReachable mrg root s) (hx : x ∈ s.scans) (hd : x.pc = .done x.born)
    (k : K) (v : M) :
    (k, v) ∈ x.out ↔ (From x.start x.strict k ∧ UpTo x.hi k) ∧ valueOf mrg k (s.base.hist.take x.born) = some v := by
  obtain ⟨_, _, _, τ, a, _, c⟩ := scan_swept hr h hx hd
  rw [c]
  constructor
  · rintro ⟨p, q⟩
    have := a k p
    rw [show τ k = x.born by omega] at q
    exact ⟨p, q⟩
  · rintro ⟨p, q⟩
    have := a k p
    rw [← show τ k = x.born by omega] at q
    exact ⟨p, q⟩

/-- C52. If two inserts took effect in order, both before the scan ended, and the scan
reported the later one's effect on a key, it does not miss the earlier one's effect on a
greater key. -/
theorem scan_order (hr : root ≠ 0) (h : SReachable mrg root s) (hx : x ∈ s.scans) {n : Nat} (hd : x.pc = .done n)
    {k k' : K} {v : M} {i : Nat} (hk : (k, v) ∈ x.out) (hkk : k ≤ k')
    (hv : ∀ j ≤ i, valueOf mrg k (s.base.hist.take j) ≠ some v) (h2 : UpTo x.hi k')
    (hk' : (valueOf mrg k' (s.base.hist.take (i + 1))).isSome) : ∃ v', (k', v') ∈ x.out := by
  obtain ⟨_, _, _, τ, a, b, c⟩ := scan_swept hr h hx hd
  obtain ⟨p, q⟩ := (c k v).1 hk
  have hf : From x.start x.strict k' := by
    exact p.1.trans hkk
  have hi : i + 1 ≤ τ k := by
    by_contra hcon
    exact hv (τ k) (by omega) q
  obtain ⟨v', hv'⟩ := Option.isSome_iff_exists.1
    (valueOf_keeps (hi.trans (b k k' p ⟨hf, h2⟩ hkk)) hk')
  exact ⟨v', (c k' v').2 ⟨⟨hf, h2⟩, hv'⟩⟩

/-- C52. A scan that is not closed can always go on: it never comes to a page that is not
there or is not what it is taken for. -/
theorem scan_goes_on (hr : root ≠ 0) (h : SReachable mrg root s) {i : Nat} (hx : s.scans[i]? = some x)
    (hd : ∀ n, x.pc ≠ .done n) (claim : Bool) : ∃ s', sstep mrg root s (.iter i claim) = some s' := by
  obtain ⟨H, lv, T, _, hv, hs, _⟩ := (sreachable_inv hr h).tree
  obtain ⟨pc', e, h1, _⟩ := scanStep_spec T hv (hs x (List.mem_of_getElem? hx)) hd claim
  exact ⟨{ s with scans := s.scans.set i { x with pc := pc', out := x.out ++ e.toList } },
    by simp only [sstep, hx, h1]⟩

/-- C52. Scans do not change what inserts and lookups do: the theorems of C13 and C41 hold
beside them. -/
theorem scan_silent (h : SReachable mrg root s) : Reachable mrg root s.base := sreachable_base h

omit [Inhabited K] in
/-- The bounds of a new scan: `btree_iterator_init` only changes bounds that are not in order. -/
theorem newScan_bounds {lo hi start : K} {strict : Bool} {n : Nat} :
    let x : Scan K M := newScan lo hi start strict n
    x.lo = lo ∧ lo ≤ x.start ∧ x.start ≤ x.hi ∧ (lo ≤ hi → x.hi = hi) ∧ (lo ≤ start → start ≤ hi → x.start = start) ∧
      (start < lo → x.start = lo) := by
  simp only [newScan]
  refine ⟨trivial, ?_⟩
  rcases lt_or_ge hi lo with h1 | h1
  · rcases lt_or_ge start lo with h2 | h2
    · simp [h1, h2, not_le.2 h1]
    · rcases eq_or_lt_of_le h2 with h3 | h3
      · subst h3; simp [h1, not_le.2 h1]
      · simp only [h1, if_true, not_lt.2 h2, if_false, h3, le_refl, true_and, not_le.2 h1, IsEmpty.forall_iff]
        exact ⟨fun _ h => absurd (h2.trans h) (not_le.2 h1), trivial⟩
  · rcases lt_or_ge start lo with h2 | h2
    · simp [not_lt.2 h1, h2, not_le.2 h2, h1]
    · rcases lt_or_ge hi start with h3 | h3
      · simp [not_lt.2 h1, not_lt.2 h2, h3, h1, not_le.2 h3]
      · simp [not_lt.2 h1, not_lt.2 h2, not_lt.2 h3, h1, h2, h3]

/-! ### Generations -/

/-- C53. Of two inserts of the same key the one that took effect later hands back the
greater generation. -/
theorem generation_order (hr : root ≠ 0) (h : SReachable mrg root s) :
    s.glog.length = s.base.hist.length ∧
    ∀ (i j : Nat) k m m' g g', i < j → s.base.hist[i]? = some (k, m) → s.base.hist[j]? = some (k, m') →
      s.glog[i]? = some g → s.glog[j]? = some g' → g < g' :=
  ⟨(sreachable_inv hr h).len, (sreachable_inv hr h).order⟩

/-- The inserts of one tree with the generations they handed back. -/
def logged (s : SSys K M) : List (Nat × K × M) := s.glog.zip s.base.hist

/-- C53, partial: one memtable only. A log of it, put in the order of generations in whatever way, holds
the messages of each key in the order they took effect. -/
theorem replay_order_partial (hr : root ≠ 0) (h : SReachable mrg root s) {l : List (Nat × K × M)} (hp : l.Perm (logged s))
    (hs : l.Pairwise fun a b => a.1 ≤ b.1) (k : K) :
    msgsOf k (l.map (·.2)) = msgsOf k s.base.hist := by
  obtain ⟨hlen, hord⟩ := generation_order hr h
  have e : s.base.hist = (logged s).map (·.2) := by
    simp only [logged]
    rw [← List.unzip_snd, List.unzip_zip hlen]
  have hf : ∀ l : List (Nat × K × M), msgsOf k (l.map (·.2)) = (l.filter fun x => x.2.1 = k).map (·.2.2) := by
    intro l
    simp only [msgsOf, List.filter_map, List.map_map]
    rfl
  rw [e, hf, hf]
  congr 1
  have hsort : ((logged s).filter fun x => x.2.1 = k).Pairwise fun a b => a.1 < b.1 := by
    rw [List.pairwise_filter, List.pairwise_iff_getElem]
    intro i j hi hj hij hki hkj
    simp only [logged, List.length_zip, List.getElem_zip] at hi hj hki hkj ⊢
    simp only [decide_eq_true_eq] at hki hkj
    have hi1 : i < s.glog.length := by omega
    have hj1 : j < s.glog.length := by omega
    have hi2 : i < s.base.hist.length := by omega
    have hj2 : j < s.base.hist.length := by omega
    refine hord i j k s.base.hist[i].2 s.base.hist[j].2 _ _ hij ?_ ?_ (List.getElem?_eq_getElem hi1)
      (List.getElem?_eq_getElem hj1)
    · rw [List.getElem?_eq_getElem hi2, ← hki]
    · rw [List.getElem?_eq_getElem hj2, ← hkj]
  have hperm : (l.filter fun x => x.2.1 = k).Perm ((logged s).filter fun x => x.2.1 = k) := hp.filter _
  have hl : (l.filter fun x => x.2.1 = k).Pairwise fun a b => a.1 ≤ b.1 := hs.filter _
  refine hperm.eq_of_pairwise ?_ hl (hsort.imp fun h => le_of_lt h)
  intro a b ha hb h1 h2
  by_contra hne
  have hb' := hb
  have ha' := (hperm.mem_iff).1 ha
  have hinj : ∀ l : List (Nat × K × M), (l.Pairwise fun a b => a.1 < b.1) → ∀ a ∈ l, ∀ b ∈ l, a.1 = b.1 → a = b := by
    intro l hl
    induction hl with
    | nil => simp
    | cons hx _ ih =>
      intro a ha b hb hab
      rcases List.mem_cons.1 ha with rfl | ha1 <;> rcases List.mem_cons.1 hb with rfl | hb1
      · rfl
      · exact absurd hab (ne_of_lt (hx b hb1))
      · exact absurd hab.symm (ne_of_lt (hx a ha1))
      · exact ih a ha1 b hb1 hab
  exact hne (hinj _ hsort a ha' b hb' (le_antisymm h1 h2))

/-! ### An execution

Two inserts make a tree of two leaves. A scan looks for its end and waits behind the first
tuple while a third insert splits the second leaf, so that the scan has to look for its end
again; a fourth insert then changes a key the scan has passed. -/

/-- All steps of a list. -/
def srun (mrg : K → M → M → M) (root : Nat) : List (SAct K M) → SSys K M → Option (SSys K M)
  | [], s => some s
  | a :: l, s => (sstep mrg root s a).bind (srun mrg root l)

theorem srun_reachable {l : List (SAct K M)} {s s' : SSys K M} (h : SReachable mrg root s)
    (e : srun mrg root l s = some s') : SReachable mrg root s' := by
  induction l generalizing s with
  | nil => simp only [srun, Option.some.injEq] at e; exact e ▸ h
  | cons a l ih =>
    obtain ⟨s1, h1, h2⟩ := Option.bind_eq_some_iff.1 e
    exact ih (h.step h1) h2

def sEx : List (SAct (Fin 64) (List Nat)) :=
  [.insert 10 [1], .go 0 exC, .go 0 exC, .go 0 exC,
   .insert 20 [2], .go 1 exC, .go 1 exC, .go 1 { exC with can := false, new := 2 },
   .go 1 exC, .go 1 exC, .go 1 exC, .go 1 { exC with can := false }, .go 1 exC, .go 1 { exC with new := 3 },
   .scan 5 63 5 false, .iter 0 true, .iter 0 true, .iter 0 false, .iter 0 true, .iter 0 true, .iter 0 true,
   .iter 0 true, .iter 0 true, .iter 0 true, .iter 0 true,
   .insert 30 [3], .go 2 exC, .go 2 exC, .go 2 exC, .go 2 exC, .go 2 exC, .go 2 { exC with can := false }, .go 2 exC,
   .go 2 { exC with new := 4 },
   .insert 10 [4], .go 3 exC, .go 3 exC, .go 3 exC, .go 3 exC, .go 3 exC, .go 3 exC, .go 3 exC,
   .iter 0 true, .iter 0 true, .iter 0 true, .iter 0 true, .iter 0 true, .iter 0 true, .iter 0 true,
   .iter 0 true, .iter 0 true]

set_option maxRecDepth 100000 in
/-- The scan reports the key that came while it was under way, behind it, and the value the
first key had when it came by. Generations of one key go up. -/
example : ∃ s x, SReachable exMrg 1 s ∧ s.base.hist = [(10, [1]), (20, [2]), (30, [3]), (10, [4])] ∧
    s.glog = [0, 2, 4, 2] ∧ s.scans = [x] ∧ x.born = 2 ∧ x.pc = .done 4 ∧ x.out = [(10, [1]), (20, [2]), (30, [3])] ∧
    valueOf exMrg 10 s.base.hist = some [1, 4] := by
  have h : (srun exMrg 1 sEx (screate 1)).isSome = true := by decide +kernel
  obtain ⟨s, hs⟩ := Option.isSome_iff_exists.1 h
  have h1 : (srun exMrg 1 sEx (screate 1)).map (·.scans) =
      some [⟨5, 63, 5, false, .done 4, [(10, [1]), (20, [2]), (30, [3])], 2⟩] := by decide +kernel
  have h2 : (srun exMrg 1 sEx (screate 1)).map (fun s => (s.base.hist, s.glog)) =
      some ([(10, [1]), (20, [2]), (30, [3]), (10, [4])], [0, 2, 4, 2]) := by decide +kernel
  rw [hs] at h1 h2
  simp only [Option.map_some, Option.some.injEq, Prod.mk.injEq] at h1 h2
  refine ⟨s, _, srun_reachable .create hs, h2.1, h2.2, h1, rfl, rfl, rfl, ?_⟩
  rw [h2.1]
  decide +kernel

/-- Two inserts into one memtable, one into the next. -/
def mt1 : List (SAct (Fin 64) (List Nat)) :=
  [.insert 10 [1], .go 0 exC, .go 0 exC, .go 0 exC, .insert 10 [2], .go 1 exC, .go 1 exC, .go 1 exC]
def mt2 : List (SAct (Fin 64) (List Nat)) := [.insert 10 [3], .go 0 exC, .go 0 exC, .go 0 exC]

set_option maxRecDepth 100000 in
/-- C53 ends with the memtable. `trunk_memtable_insert` (trunk.c 3388–3425) hands `log_write`
the generation of the leaf only, and each memtable starts at 0 again: of two memtables, one
used after the other, the log in the order of generations has a later write of a key before
an earlier one, and applying it gives another value. -/
theorem replay_reversed : ∃ (s1 s2 : SSys (Fin 64) (List Nat)) (l : List (Nat × Fin 64 × List Nat)),
    SReachable exMrg 1 s1 ∧ SReachable exMrg 1 s2 ∧ l.Perm (logged s1 ++ logged s2) ∧
    (l.Pairwise fun a b => a.1 ≤ b.1) ∧
    valueOf exMrg 10 (s1.base.hist ++ s2.base.hist) = some [1, 2, 3] ∧
    valueOf exMrg 10 (l.map (·.2)) = some [1, 3, 2] := by
  have h : (srun exMrg 1 mt1 (screate 1)).isSome = true := by decide +kernel
  have h' : (srun exMrg 1 mt2 (screate 1)).isSome = true := by decide +kernel
  obtain ⟨s1, hs1⟩ := Option.isSome_iff_exists.1 h
  obtain ⟨s2, hs2⟩ := Option.isSome_iff_exists.1 h'
  have h1 : (srun exMrg 1 mt1 (screate 1)).map (fun s => (s.base.hist, s.glog)) =
      some ([(10, [1]), (10, [2])], [0, 1]) := by decide +kernel
  have h2 : (srun exMrg 1 mt2 (screate 1)).map (fun s => (s.base.hist, s.glog)) =
      some ([(10, [3])], [0]) := by decide +kernel
  rw [hs1] at h1
  rw [hs2] at h2
  simp only [Option.map_some, Option.some.injEq, Prod.mk.injEq] at h1 h2
  refine ⟨s1, s2, [(0, 10, [1]), (0, 10, [3]), (1, 10, [2])], srun_reachable .create hs1, srun_reachable .create hs2,
    ?_, by decide +kernel, ?_, by decide +kernel⟩
  · simp only [logged, h1.1, h1.2, h2.1, h2.2]
    decide +kernel
  · rw [h1.1, h2.1]
    decide +kernel

end Splinter.BtreeIns
