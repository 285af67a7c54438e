import Verif.Model.RangeIter
import Verif.Proof.TrunkLookup
import Verif.Proof.BtreeIter
/-!
Forward scans with the range iterator.
-/
namespace Splinter.Merge
set_option linter.unusedSectionVars false
variable {K V : Type} [LinearOrder K]

/-- What moving in one direction leaves alone. -/
def Keep (m m' : MIter K V) : Prop := m'.forwards = m.forwards ∧ (m.forwards = true → m'.canPrev = m.canPrev)

theorem Keep.trans {a b c : MIter K V} (h : Keep a b) (h' : Keep b c) : Keep a c :=
  ⟨h'.1.trans h.1, fun hf => (h'.2 (h.1.trans hf)).trans (h.2 hf)⟩

theorem advanceResort_keep {m m' : MIter K V} (h : advanceResort m = .ok m') : Keep m m' := by
  unfold advanceResort at h
  split at h
  · cases h
  · split at h
    · cases h
    · simp only at h
      split at h
      · cases h; exact ⟨rfl, fun _ => rfl⟩
      · split at h
        · cases h; exact ⟨rfl, fun _ => rfl⟩
        · split at h
          · cases h
          · cases h; exact ⟨rfl, fun _ => rfl⟩

theorem resolveLoop_keep : ∀ (fuel : Nat) {m : MIter K V} {acc : Msg V} {r},
    resolveLoop fuel m acc = .ok r → Keep m r.1
  | 0, _, _, _, h => by cases h
  | fuel + 1, m, acc, r, h => by
    rw [resolveLoop] at h
    split at h
    · simp only at h
      split at h
      · cases h
      · split at h
        · cases h
        · rename_i m1 h1
          have k1 := advanceResort_keep h1
          have k1 : Keep m m1 := ⟨k1.1, k1.2⟩
          split at h
          · cases h
          · split at h
            · exact k1.trans (resolveLoop_keep fuel h)
            · cases h; exact k1
    · cases h

theorem finalizeDiscard_keep {m : MIter K V} {r} (h : finalizeDiscard m = .ok r) : Keep m r.1 := by
  unfold finalizeDiscard at h
  split at h
  · simp only at h
    split at h
    · cases h
    · split at h <;> (cases h; exact ⟨rfl, fun _ => rfl⟩)
  · cases h

theorem advanceOneLoop_keep {m : MIter K V} {r} (h : advanceOneLoop m = .ok r) : Keep m r.1 := by
  unfold advanceOneLoop at h
  split at h
  · cases h
    cases hf : m.forwards
    · exact ⟨by simp [hf], by simp [hf]⟩
    · exact ⟨by simp [hf], by simp⟩
  · split at h
    · cases h
    · simp only at h
      split at h
      · cases h; exact ⟨rfl, fun _ => rfl⟩
      · split at h
        · cases h
        · rename_i m1 h1
          have k1 : Keep m m1 := by
            split at h1
            · unfold resolveEqualKeys at h1
              split at h1
              · cases h1
              · split at h1
                · cases h1
                · rename_i h2
                  cases h1
                  have := resolveLoop_keep _ h2
                  exact ⟨this.1, this.2⟩
            · cases h1; exact ⟨rfl, fun _ => rfl⟩
          exact k1.trans (finalizeDiscard_keep h)

theorem advanceHelper_keep : ∀ (fuel : Nat) {m m' : MIter K V}, advanceHelper fuel m = .ok m' → Keep m m'
  | 0, _, _, h => by cases h
  | fuel + 1, m, m', h => by
    rw [advanceHelper] at h
    split at h
    · cases h
    · rename_i m1 h1
      have k1 := advanceResort_keep h1
      have k1 : Keep m m1 := ⟨k1.1, k1.2⟩
      split at h
      · cases h
      · rename_i m2 retry h2
        have k2 := k1.trans (advanceOneLoop_keep h2)
        split at h
        · exact k2.trans (advanceHelper_keep fuel h)
        · cases h; exact k2

theorem next_keep {m m' : MIter K V} (hf : m.forwards = true) (h : next m = .ok m') :
    m'.forwards = true ∧ m'.canPrev = m.canPrev := by
  unfold next at h
  rw [if_pos hf] at h
  have := advanceHelper_keep _ h
  exact ⟨this.1.trans hf, this.2 hf⟩

theorem create_forwards {cfg : DataCfg K V} {mode : Mode} {inputs : List (List (K × Msg V) × Nat)} {m : MIter K V}
    (h : create cfg mode inputs = .ok m) : m.forwards = true := by
  unfold create setup at h
  simp only at h
  split at h
  · cases h
  · rename_i m1 retry h1
    have k1 := advanceOneLoop_keep h1
    have k1 : m1.forwards = true := k1.1
    split at h
    · exact (advanceHelper_keep _ h).1.trans k1
    · cases h; exact k1

end Splinter.Merge

namespace Splinter.Trunk
open Splinter.Merge (SortedRun MIter)
open Splinter.Spec (msgsOf actAll eval act UpdateSem Implements report)
set_option linter.unusedSectionVars false

variable {K V F C : Type} [LinearOrder K] {ops : FilterOps K F} {L : FilterLaws ops} {sem : UpdateSem K V}
  {cfg : DataCfg K V} {lo hi : K} {s : State K V F} {hist : K → List (Msg V)}

/-- Upper bounds of the leaves. -/
def leafBounds : (h : Nat) → Node K V F (Sub K V F h) → List K
  | 0, n => [n.maxKey]
  | h + 1, n => n.pivots.flatMap (fun x => leafBounds h x.2)

theorem nodeLiveBranches_eq (n : Node K V F C) (p : PData K F) (ht : Nat) (ph : K) :
    n.liveBranches p = (mkLvl ht n p ph).branches := rfl

theorem leafRuns_spec : ∀ (h : Nat) (n : Node K V F (Sub K V F h)) (lo hi k : K), Good h n lo hi → lo ≤ k → k < hi →
    ∃ bs llo lhi, leafRuns .le h n k = some (bs, llo, lhi) ∧ lo ≤ llo ∧ llo ≤ k ∧ k < lhi ∧ lhi ≤ hi ∧
      lhi ∈ leafBounds h n ∧ ∀ k', llo ≤ k' → k' < lhi → viewBranches (view h n k') = bs
  | 0, n, lo, hi, k, g, h1, h2 => by
    refine ⟨_, _, _, rfl, ?_, ?_, ?_, ?_, by simp [leafBounds], ?_⟩
    · rw [g.1.hmin]
    · rw [g.1.hmin]; exact h1
    · rw [g.1.hmax]; exact h2
    · rw [g.1.hmax]
    · intro k' _ _
      obtain ⟨p, c, hp, w, b⟩ := g.2
      simp only [view, hp, routeL, viewBranches, List.reverse_singleton, List.flatMap_singleton]
      show (mkLvl 0 n p _).branches = _
      rw [← nodeLiveBranches_eq]
      unfold Node.liveBranches
      rw [w, b]; rfl
  | h + 1, n, lo, hi, k, g, h1, h2 => by
    obtain ⟨p, c, ph, hr⟩ := g.node.route (k := k)
    have hrg := g.node.range h1 h2 hr
    obtain ⟨bs, llo, lhi, e1, e2, e3, e4, e5, e6, e7⟩ :=
      leafRuns_spec h c p.key ph k (g.2 k p c ph h1 h2 hr) hrg.2.1 hrg.2.2.1
    have hf : n.pivots[n.find k]? = some (p, c) := by
      obtain ⟨a, b, q1, q2, _⟩ := g.node.find h1 h2 hr
      rw [q2, q1]; simp
    refine ⟨bs ++ n.liveBranches p, llo, lhi, ?_, le_trans hrg.2.2.2.1 e2, e3, e4, le_trans e5 hrg.2.2.2.2, ?_, ?_⟩
    · unfold leafRuns
      unfold Node.find at hf
      rw [hf]; simp only [e1, Option.map_some]
    · exact List.mem_flatMap.mpr ⟨(p, c), hrg.1, e6⟩
    · intro k' k1 k2
      have hr' := g.node.congr h1 h2 hr (le_trans e2 k1) (lt_of_lt_of_le k2 e5)
      simp only [view, hr', viewBranches_cons]
      rw [e7 k' k1 k2, nodeLiveBranches_eq]

theorem view_runs (g : Good s.h s.root lo hi) {k : K} (k1 : lo ≤ k) (k2 : k < hi) :
    ∀ b ∈ viewBranches (view s.h s.root k), SortedRun b := by
  intro b hb
  unfold viewBranches at hb
  obtain ⟨l, hl, hb⟩ := List.mem_flatMap.mp hb
  exact (view_wf s.h s.root lo hi k g k1 k2 l (List.mem_reverse.mp hl)).runs b hb

/-- What a scan from `a` up to `b` wants of a branch. -/
def part (lmn lmx start : K) (b : Branch K V) : Branch K V :=
  b.filter (fun x => decide (start ≤ x.1) && (decide (lmn ≤ x.1) && decide (x.1 < lmx)))

theorem openBranch_spec (cut : Nat) (lmn lmx start : K) {b : Branch K V} (hs : SortedRun b) :
    SortedRun (openBranch cut lmn lmx start .ge b).1 ∧ 1 ≤ (openBranch cut lmn lmx start .ge b).2 ∧
    Merge.fromPos (openBranch cut lmn lmx start .ge b) = part lmn lmx start b := by
  have hr : SortedRun (b.filter (fun x => decide (lmn ≤ x.1) && decide (x.1 < lmx))) :=
    hs.sublist List.filter_sublist
  unfold openBranch part Merge.fromPos
  simp only
  generalize hR : b.filter (fun x => decide (lmn ≤ x.1) && decide (x.1 < lmx)) = R at hr
  refine ⟨hr.sublist (List.drop_sublist _ _), by omega, ?_⟩
  rw [List.drop_drop]
  have e : min cut (R.countP fun x => decide (x.1 < start)) +
      ((R.countP fun x => decide (x.1 < start)) - min cut (R.countP fun x => decide (x.1 < start)) + 1 - 1) =
      R.countP fun x => decide (x.1 < start) := by omega
  rw [e, (Btree.take_cnt hr ?_).2, ← hR, List.filter_filter]
  · apply List.filter_congr
    intro x _
    simp [← not_lt]
  · intro x y hxy hy
    simp only [decide_eq_true_eq] at *
    exact lt_trans hxy hy

theorem find_part {lmn lmx start k : K} (b : Branch K V) :
    (part lmn lmx start b).find? (fun x => decide (x.1 = k)) =
      if start ≤ k ∧ lmn ≤ k ∧ k < lmx then b.find? (fun x => decide (x.1 = k)) else none := by
  unfold part
  rw [List.find?_filter]
  split
  · rename_i h
    congr 1
    funext x
    by_cases hx : x.1 = k
    · simp [hx, h]
    · simp [hx]
  · rename_i h
    rw [List.find?_eq_none]
    intro x _ hx
    simp only [Bool.and_eq_true, decide_eq_true_eq] at hx
    exact h (by rw [← hx.2]; exact hx.1)

theorem msgsOf_part {lmn lmx start k : K} (bs : List (Branch K V)) :
    msgsOf k (bs.map (part lmn lmx start)) = if start ≤ k ∧ lmn ≤ k ∧ k < lmx then msgsOf k bs else [] := by
  unfold msgsOf
  rw [List.filterMap_map]
  split
  · rename_i h
    congr 1
    funext b
    simp only [Function.comp, find_part, if_pos h]
  · rename_i h
    rw [List.filterMap_eq_nil_iff]
    intro b _
    simp only [Function.comp, find_part, if_neg h, Option.map_none]

/-- A scan that is built anew for the next leaf when its merge ends. -/
theorem rscan_leaf {cut : Branch K V → K → Nat} {mn mx lmn lmx : K} {N : Nat} {out2 : List (K × Msg V)}
    (h1 : lmx < mx → ∀ f ≥ N, ∃ r, rinit cfg s cut mn mx f lmx .ge = .ok r ∧
      ∀ F ≥ N, ∀ n ≥ N, rscan (rnext cfg s cut F) n r = .ok out2)
    (h2 : ¬ lmx < mx → out2 = []) (hN : 1 ≤ N) :
    ∀ (d : Nat) (m : MIter K V) (l : List (K × Msg V)), Merge.drain Merge.next d m = .ok l → m.canCurr = true →
      m.forwards = true → ∀ F ≥ N, ∀ n ≥ d + N,
      rscan (rnext cfg s cut F) n ⟨mn, mx, lmn, lmx, m, true, true⟩ = .ok (l ++ out2)
  | 0, _, _, h, _, _, _, _, _, _ => by cases h
  | d + 1, m, l, h, hc, hf, F, hF, n, hn => by
    obtain ⟨n, rfl⟩ : ∃ n', n = n' + 1 := ⟨n - 1, by omega⟩
    have hcp : m.canPrev = true := by
      unfold MIter.canCurr at hc; rw [Bool.and_eq_true] at hc; exact hc.2
    rw [Merge.drain, if_pos hc] at h
    rw [rscan]
    simp only [RIter.valid, Bool.and_self, if_true]
    cases hcur : m.cur with
    | none => rw [hcur] at h; cases h
    | some x =>
      rw [hcur] at h
      simp only at h ⊢
      cases hnx : Merge.next m with
      | error e => rw [hnx] at h; cases h
      | ok m' =>
        have hstep : rnext cfg s cut F ⟨mn, mx, lmn, lmx, m, true, true⟩ =
            if m'.canNext then .ok ⟨mn, mx, lmn, lmx, m', true, true⟩
            else if lmx < mx then rinit cfg s cut mn mx F lmx .ge
            else .ok ⟨mn, mx, lmn, lmx, m', true, false⟩ := by
          unfold rnext; simp only [hnx]
        rw [hnx] at h
        simp only at h
        cases hdr : Merge.drain Merge.next d m' with
        | error e => rw [hdr] at h; cases h
        | ok l' =>
          rw [hdr] at h
          simp only [Except.ok.injEq] at h
          subst h
          obtain ⟨k1, k2⟩ := Merge.next_keep hf hnx
          rw [hcp] at k2
          by_cases hcn : m'.canNext = true
          · rw [hstep, if_pos hcn]
            simp only
            rw [rscan_leaf h1 h2 hN d m' l' hdr (by simp [MIter.canCurr, hcn, k2]) k1 F hF n (by omega)]
            rfl
          · have hl' : l' = [] := by
              cases d with
              | zero => cases hdr
              | succ d =>
                rw [Merge.drain, if_neg (by simp [MIter.canCurr, hcn])] at hdr
                cases hdr; rfl
            subst hl'
            rw [hstep, if_neg hcn]
            by_cases hm : lmx < mx
            · rw [if_pos hm]
              obtain ⟨r, r1, r2⟩ := h1 hm F hF
              rw [r1]
              simp only
              rw [r2 F hF n (by omega)]
              rfl
            · rw [if_neg hm]
              simp only
              obtain ⟨n, rfl⟩ : ∃ n', n = n' + 1 := ⟨n - 1, by omega⟩
              rw [rscan, h2 hm]
              simp [RIter.valid, Except.map]

/-- One leaf: its bounds and the merge of its branches and the memtables. -/
theorem leaf_spec (I : Inv L sem lo hi s hist) (H : Implements cfg sem) (cut : Branch K V → K → Nat) {mn mx st : K}
    (b1 : lo ≤ mn) (s1 : mn ≤ st) (s2 : st < hi) :
    ∃ bs llo lhi m out d, leafRuns .le s.h s.root st = some (bs, llo, lhi) ∧ llo ≤ st ∧ st < lhi ∧ lhi ≤ hi ∧
      lhi ∈ leafBounds s.h s.root ∧
      Merge.create cfg .full ((bs ++ s.mems.reverse).map (fun b => openBranch (cut b st) (if mn < llo then llo else mn)
        (if lhi < mx then lhi else mx) st .ge b)) = .ok m ∧ Merge.drain Merge.next d m = .ok out ∧
      out.Pairwise (fun a b => a.1 < b.1) ∧
      ∀ k x, (k, x) ∈ out ↔ st ≤ k ∧ k < (if lhi < mx then lhi else mx) ∧ x.type = .insert ∧
        eval sem k (hist k) = some x.data := by
  obtain ⟨bs, llo, lhi, e1, e2, e3, e4, e5, e6, e7⟩ :=
    leafRuns_spec s.h s.root lo hi st I.good (le_trans b1 s1) s2
  have hruns : ∀ b ∈ bs ++ s.mems.reverse, SortedRun b := by
    intro b hb
    rcases List.mem_append.mp hb with hb | hb
    · rw [← e7 st e3 e4] at hb
      exact view_runs I.good (le_trans b1 s1) s2 b hb
    · exact (I.mems b (List.mem_reverse.mp hb)).1
  generalize hlmn : (if mn < llo then llo else mn) = lmn
  generalize hlmx : (if lhi < mx then lhi else mx) = lmx
  have hlmn' : lmn ≤ st := by rw [← hlmn]; split <;> assumption
  have hlmx' : lmx ≤ lhi := by
    rw [← hlmx]; split
    · exact le_refl _
    · exact not_lt.mp ‹_›
  have hllo : llo ≤ lmn := by
    rw [← hlmn]; split
    · exact le_refl _
    · exact not_lt.mp ‹_›
  obtain ⟨inputs, hin⟩ : ∃ inputs, inputs = (bs ++ s.mems.reverse).map (fun b => openBranch (cut b st) lmn lmx st .ge b) :=
    ⟨_, rfl⟩
  have i1 : ∀ x ∈ inputs, SortedRun x.1 := by
    intro x hx; rw [hin] at hx
    obtain ⟨b, hb, rfl⟩ := List.mem_map.mp hx
    exact (openBranch_spec (cut b st) lmn lmx st (hruns b hb)).1
  have i2 : ∀ x ∈ inputs, 1 ≤ x.2 := by
    intro x hx; rw [hin] at hx
    obtain ⟨b, hb, rfl⟩ := List.mem_map.mp hx
    exact (openBranch_spec (cut b st) lmn lmx st (hruns b hb)).2.1
  have i3 : inputs.map Merge.fromPos = (bs ++ s.mems.reverse).map (part lmn lmx st) := by
    rw [hin, List.map_map]
    apply List.map_congr_left
    intro b hb
    exact (openBranch_spec (cut b st) lmn lmx st (hruns b hb)).2.2
  obtain ⟨out, o1, o2, o3⟩ := Merge.merge_full_spec H inputs i1 i2 _ (Nat.lt_succ_self _)
  rw [i3] at o3
  unfold Merge.mergeAll at o1
  cases hc : Merge.create cfg .full inputs with
  | error e => rw [hc] at o1; cases o1
  | ok m =>
    rw [hc] at o1
    refine ⟨bs, llo, lhi, m, out, _, e1, e3, e4, e5, e6, ?_, o1, o2, ?_⟩
    · rw [hlmn, hlmx, ← hin]; exact hc
    · intro k x
      rw [hlmx, o3 k x, msgsOf_part]
      by_cases hk : st ≤ k ∧ k < lmx
      · have hk' : st ≤ k ∧ lmn ≤ k ∧ k < lmx := ⟨hk.1, le_trans hlmn' hk.1, hk.2⟩
        rw [if_pos hk']
        have hkl : llo ≤ k := le_trans e3 hk.1
        have hkh : k < lhi := lt_of_lt_of_le hk.2 hlmx'
        have hv := I.value k (le_trans (le_trans b1 s1) hk.1) (lt_of_lt_of_le hkh e5)
        rw [e7 k hkl hkh] at hv
        have he : eval sem k (msgsOf k (bs ++ s.mems.reverse)) = eval sem k (hist k) := hv
        rw [he]
        simp [hk.1, hk.2]
      · have hk' : ¬ (st ≤ k ∧ lmn ≤ k ∧ k < lmx) := fun h => hk ⟨h.1, h.2.2⟩
        rw [if_neg hk']
        constructor
        · rintro ⟨_, h⟩; cases h
        · rintro ⟨h1, h2, _⟩; exact absurd ⟨h1, h2⟩ hk

theorem drain_nil {m : MIter K V} {d : Nat} {out : List (K × Msg V)} (hc : ¬ m.canCurr = true)
    (h : Merge.drain Merge.next d m = .ok out) : out = [] := by
  cases d with
  | zero => cases h
  | succ d => rw [Merge.drain, if_neg hc] at h; cases h; rfl

/-- The scan from `start`: enough fuel exists, and the output is the live tuples. -/
theorem scan_spec (I : Inv L sem lo hi s hist) (H : Implements cfg sem) (cut : Branch K V → K → Nat) {mn mx : K}
    (b1 : lo ≤ mn) (b2 : mn ≤ mx) (b3 : mx ≤ hi) (b4 : mn < hi) : ∀ (c : Nat) (start : K), start < hi →
    ((leafBounds s.h s.root).countP (fun b => decide (start < b)) < c) →
    ∃ N out, 1 ≤ N ∧ (∀ f ≥ N, ∃ r, rinit cfg s cut mn mx f start .ge = .ok r ∧
        ∀ F ≥ N, ∀ n ≥ N, rscan (rnext cfg s cut F) n r = .ok out) ∧
      out.Pairwise (fun a b => a.1 < b.1) ∧
      ∀ k m, (k, m) ∈ out ↔ start ≤ k ∧ mn ≤ k ∧ k < mx ∧ m.type = .insert ∧ eval sem k (hist k) = some m.data := by
  intro c
  induction c with
  | zero => intro start _ h; omega
  | succ c ih =>
    intro start hst hcnt
    obtain ⟨st0, hst0⟩ : ∃ st0, st0 = (if start < mn then mn else start) := ⟨_, rfl⟩
    obtain ⟨st, hst'⟩ : ∃ st, st = (if mx ≤ st0 then mx
      else st0) := ⟨_, rfl⟩
    have q1 : mn ≤ st0 := by
      rw [hst0]; split
      · exact le_refl _
      · exact not_lt.mp ‹_›
    have q2 : start ≤ st0 := by
      rw [hst0]; split
      · exact le_of_lt ‹_›
      · exact le_refl _
    have q3 : st0 < hi := by rw [hst0]; split <;> assumption
    have q4 : ∀ k, st0 ≤ k ↔ start ≤ k ∧ mn ≤ k := by
      intro k
      constructor
      · intro h; exact ⟨le_trans q2 h, le_trans q1 h⟩
      · rintro ⟨h1, h2⟩; rw [hst0]; split <;> assumption
    have s1 : mn ≤ st := by rw [hst']; split <;> assumption
    have s2 : st < hi := by
      rw [hst']; split
      · exact lt_of_le_of_lt ‹_› q3
      · exact q3
    have s3 : st ≤ mx := by
      rw [hst']; split
      · exact le_refl _
      · exact le_of_lt (not_le.mp ‹_›)
    have s4 : ∀ k, k < mx → (st ≤ k ↔ start ≤ k ∧ mn ≤ k) := by
      intro k hk
      rw [← q4 k, hst']
      split
      · rename_i h
        exact ⟨fun h' => absurd hk (not_lt.mpr h'), fun h' => absurd hk (not_lt.mpr (le_trans h h'))⟩
      · rfl
    obtain ⟨bs, llo, lhi, m, out1, d, e1, e2, e3, e4, e5, e6, e7, e8, e9⟩ := leaf_spec I H cut (mx := mx) b1 s1 s2
    -- the rest of the scan
    obtain ⟨N, out2, hN, t1, t2, t3, t4⟩ : ∃ N out2, 1 ≤ N ∧
        ((if lhi < mx then lhi else mx) < mx → ∀ f ≥ N, ∃ r, rinit cfg s cut mn mx f (if lhi < mx then lhi else mx) .ge = .ok r ∧
          ∀ F ≥ N, ∀ n ≥ N, rscan (rnext cfg s cut F) n r = .ok out2) ∧
        (¬ (if lhi < mx then lhi else mx) < mx → out2 = []) ∧ out2.Pairwise (fun a b => a.1 < b.1) ∧
        ∀ k x, (k, x) ∈ out2 ↔ (if lhi < mx then lhi else mx) ≤ k ∧ mn ≤ k ∧ k < mx ∧ x.type = .insert ∧
          eval sem k (hist k) = some x.data := by
      by_cases hm : lhi < mx
      · simp only [if_pos hm]
        have hlt : start < lhi := by
          have hs : st = st0 := by
            rw [hst']; split
            · rename_i h
              rw [hst', if_pos h] at e3
              exact absurd e3 (not_lt.mpr (le_of_lt hm))
            · rfl
          exact lt_of_le_of_lt (hs ▸ q2) e3
        have hc : (leafBounds s.h s.root).countP (fun b => decide (lhi < b)) < c := by
          refine Nat.lt_of_lt_of_le ?_ (Nat.le_of_lt_succ hcnt)
          have hle : ∀ b, decide (lhi < b) = true → decide (start < b) = true := by
            intro b hb
            simp only [decide_eq_true_eq] at *
            exact lt_trans hlt hb
          obtain ⟨a, b, hab⟩ := List.append_of_mem e5
          rw [hab]
          simp only [List.countP_append, List.countP_cons, lt_irrefl, decide_false, Bool.false_eq_true, if_false, hlt,
            decide_true, if_true]
          have h1 := List.countP_mono_left (l := a) (fun x _ => hle x)
          have h2 := List.countP_mono_left (l := b) (fun x _ => hle x)
          omega
        obtain ⟨N, out2, n1, n2, n3, n4⟩ := ih lhi (lt_of_lt_of_le hm b3) hc
        exact ⟨N, out2, n1, fun _ => n2, fun h => absurd hm h, n3, n4⟩
      · simp only [if_neg hm]
        refine ⟨1, [], le_refl _, fun h => absurd h (lt_irrefl _), fun _ => rfl, List.Pairwise.nil, ?_⟩
        intro k x
        constructor
        · intro h; cases h
        · rintro ⟨h1, _, h2, _⟩; exact absurd h2 (not_lt.mpr h1)
    have hrin : ∀ f, rinit cfg s cut mn mx (f + 1) start .ge =
        if m.canCurr then .ok ⟨mn, mx, if mn < llo then llo else mn, if lhi < mx then lhi else mx, m, true, true⟩
        else if (if lhi < mx then lhi else mx) < mx then rinit cfg s cut mn mx f (if lhi < mx then lhi else mx) .ge
        else .ok ⟨mn, mx, if mn < llo then llo else mn, if lhi < mx then lhi else mx, m, m.canPrev, false⟩ := by
      intro f
      rw [rinit]
      simp only [← hst0, ← hst', reduceCtorEq, if_false, e1, e6, isUp, if_true]
    refine ⟨d + N + 1, out1 ++ out2, by omega, ?_, ?_, ?_⟩
    · intro f hf
      obtain ⟨f, rfl⟩ : ∃ f', f = f' + 1 := ⟨f - 1, by omega⟩
      rw [hrin f]
      by_cases hc : m.canCurr = true
      · rw [if_pos hc]
        refine ⟨_, rfl, fun F hF n hn => ?_⟩
        exact rscan_leaf t1 t2 hN d m out1 e7 hc (Merge.create_forwards e6) F (by omega) n (by omega)
      · rw [if_neg hc]
        have h0 := drain_nil hc e7
        subst h0
        by_cases hm : (if lhi < mx then lhi else mx) < mx
        · rw [if_pos hm]
          obtain ⟨r, r1, r2⟩ := t1 hm f (by omega)
          exact ⟨r, r1, fun F hF n hn => r2 F (by omega) n (by omega)⟩
        · rw [if_neg hm]
          refine ⟨_, rfl, fun F hF n hn => ?_⟩
          obtain ⟨n, rfl⟩ : ∃ n', n = n' + 1 := ⟨n - 1, by omega⟩
          rw [rscan, t2 hm]
          simp [RIter.valid]
    · rw [List.pairwise_append]
      refine ⟨e8, t3, ?_⟩
      rintro ⟨k, x⟩ hx ⟨k', x'⟩ hx'
      exact lt_of_lt_of_le ((e9 k x).mp hx).2.1 ((t4 k' x').mp hx').1
    · intro k x
      rw [List.mem_append, e9 k x, t4 k x]
      have hle : (if lhi < mx then lhi else mx) ≤ mx := by
        split
        · exact le_of_lt ‹_›
        · exact le_refl _
      have hge : (if lhi < mx then lhi else mx) ≤ k → k < mx → st ≤ k := by
        intro h1 h2
        split at h1
        · exact le_trans (le_of_lt e3) h1
        · exact absurd h2 (not_lt.mpr h1)
      constructor
      · rintro (⟨h1, h2, h3⟩ | ⟨h1, h2, h3, h4⟩)
        · have hk := lt_of_lt_of_le h2 hle
          exact ⟨((s4 k hk).mp h1).1, ((s4 k hk).mp h1).2, hk, h3⟩
        · exact ⟨((s4 k h3).mp (hge h1 h3)).1, h2, h3, h4⟩
      · rintro ⟨h1, h2, h3, h4⟩
        by_cases hk : k < (if lhi < mx then lhi else mx)
        · exact .inl ⟨(s4 k h3).mpr ⟨h1, h2⟩, hk, h4⟩
        · exact .inr ⟨not_lt.mp hk, h2, h3, h4⟩

end Splinter.Trunk
