import Verif.Props.Trunk
/-!
# C33: after a split every key is still routed to its data

`Sees h n k bs` is the specification: walk from the root, at each node take a child
whose half-open range holds the key, and collect the branches that are live for it.
-/
namespace Splinter.Trunk
set_option linter.unusedSectionVars false
open Splinter.Spec (UpdateSem Implements)

variable {K V F : Type} [LinearOrder K]

/-- Child `i` of a node, with its half-open key range. -/
def ChildAt {C : Type} (n : Node K V F C) (i : Nat) (k : K) (p : PData K F) (c : C) : Prop :=
  n.pivots[i]? = some (p, c) ∧ p.key ≤ k ∧ k < n.keyAt (i + 1)

/-- Branches of a node that pivot `p` has not flushed yet, oldest first. -/
def liveBranches {C : Type} (n : Node K V F C) (p : PData K F) : List (Branch K V) :=
  n.whole.drop p.wskip ++ ((n.bundles.drop p.bskip).flatMap (·.sbs)).flatMap (·.branches)

/-- The branches met when following the ranges that contain `k`, oldest first. -/
def Sees : (h : Nat) → Node K V F (Sub K V F h) → K → List (Branch K V) → Prop
  | 0, n, k, bs => ∃ i p c, ChildAt n i k p c ∧ bs = liveBranches n p
  | h + 1, n, k, bs => ∃ i p c bs', ChildAt n i k p c ∧ Sees h c k bs' ∧ bs = bs' ++ liveBranches n p

theorem hd_keyAt {C : Type} (n : Node K V F C) (a b : List (PData K F × C)) (x : PData K F × C)
    (h : n.pivots = a ++ x :: b) : n.keyAt (a.length + 1) = hd n.maxKey b := by
  unfold Node.keyAt
  rw [h, List.getElem?_append_right (by omega)]
  have : a.length + 1 - a.length = 1 := by omega
  rw [this]
  cases b <;> simp [hd]

theorem childAt_iff {C : Type} {n : Node K V F C} {lo hi k : K} (g : NodeOk n lo hi) (h1 : lo ≤ k) (h2 : k < hi)
    {p c ph} (hr : routeL n.maxKey k n.pivots = some (p, c, ph)) {i : Nat} {p' : PData K F} {c' : C} :
    ChildAt n i k p' c' ↔ i = n.find k ∧ p' = p ∧ c' = c := by
  obtain ⟨a, b, e1, e2, e3⟩ := g.find h1 h2 hr
  have hs := g.sorted
  rw [← g.hmax] at hs
  constructor
  · rintro ⟨q1, q2, q3⟩
    obtain ⟨a', b', e, hl⟩ : ∃ a' b', n.pivots = a' ++ (p', c') :: b' ∧ a'.length = i := by
      have hi : i < n.pivots.length := by
        rcases Nat.lt_or_ge i n.pivots.length with h | h
        · exact h
        · rw [List.getElem?_eq_none h] at q1; cases q1
      refine ⟨n.pivots.take i, n.pivots.drop (i + 1), ?_, by simp; omega⟩
      rw [List.getElem?_eq_getElem hi] at q1
      rw [← Option.some.inj q1, List.getElem_cons_drop, List.take_append_drop]
    rw [← hl, hd_keyAt n a' b' _ e] at q3
    have h := routeL_at (by rw [← e]; exact hs) q2 q3
    rw [← e, hr] at h
    simp only [Option.some.injEq, Prod.mk.injEq] at h
    obtain ⟨rfl, rfl, _⟩ := h
    refine ⟨?_, rfl, rfl⟩
    obtain ⟨a2, b2, f1, f2, f3⟩ := g.find h1 h2 hr
    have hnd : (n.pivots.map (·.1.key)).Nodup := hs.1.imp (fun h => ne_of_lt h)
    have hA : (n.pivots.map (·.1.key))[i]? = some p.key := by
      rw [List.getElem?_map, q1]; rfl
    have hB : (n.pivots.map (·.1.key))[n.find k]? = some p.key := by
      rw [List.getElem?_map, f2, f1, List.getElem?_append_right (Nat.le_refl _)]; simp
    obtain ⟨hA1, hA2⟩ := List.getElem?_eq_some_iff.mp hA
    obtain ⟨hB1, hB2⟩ := List.getElem?_eq_some_iff.mp hB
    exact (List.getElem_inj hnd).mp (hA2.trans hB2.symm)
  · rintro ⟨rfl, rfl, rfl⟩
    obtain ⟨_, r1, r2, _⟩ := g.range h1 h2 hr
    refine ⟨?_, r1, ?_⟩
    · rw [e2, e1, List.getElem?_append_right (Nat.le_refl _)]; simp
    · rw [e2, hd_keyAt n a b _ e1, ← e3]; exact r2

theorem liveBranches_eq {C : Type} (h : Nat) (n : Node K V F C) (p : PData K F) (ph : K) :
    (mkLvl h n p ph).branches = liveBranches n p := by
  unfold Lvl.branches liveBranches mkLvl Bundle.branches
  simp only [List.flatMap_assoc]

/-- Exactly one list of branches is seen. -/
theorem sees_iff : ∀ (h : Nat) (n : Node K V F (Sub K V F h)) (lo hi k : K) (bs : List (Branch K V)),
    Good h n lo hi → lo ≤ k → k < hi → (Sees h n k bs ↔ bs = viewBranches (view h n k))
  | 0, n, lo, hi, k, bs, g, h1, h2 => by
    obtain ⟨p, c, ph, hr⟩ := g.node.route (k := k)
    have hv : viewBranches (view 0 n k) = liveBranches n p := by
      simp only [view, hr, viewBranches, List.reverse_singleton, List.flatMap_singleton, liveBranches_eq]
    rw [hv]
    unfold Sees
    constructor
    · rintro ⟨i, p', c', q, e⟩
      obtain ⟨_, rfl, rfl⟩ := (childAt_iff g.node h1 h2 hr).mp q
      exact e
    · exact fun e => ⟨_, _, _, (childAt_iff g.node h1 h2 hr).mpr ⟨rfl, rfl, rfl⟩, e⟩
  | h + 1, n, lo, hi, k, bs, g, h1, h2 => by
    obtain ⟨p, c, ph, hr⟩ := g.node.route (k := k)
    obtain ⟨_, r1, r2, _⟩ := g.node.range h1 h2 hr
    have ih := fun bs' => sees_iff h c p.key ph k bs' (g.2 k p c ph h1 h2 hr) r1 r2
    have hv : viewBranches (view (h + 1) n k) = viewBranches (view h c k) ++ liveBranches n p := by
      simp only [view, hr, viewBranches_cons, liveBranches_eq]
    rw [hv]
    unfold Sees
    constructor
    · rintro ⟨i, p', c', bs', q, q2, e⟩
      obtain ⟨_, rfl, rfl⟩ := (childAt_iff g.node h1 h2 hr).mp q
      rw [e, (ih bs').mp q2]
    · exact fun e => ⟨_, _, _, _, (childAt_iff g.node h1 h2 hr).mpr ⟨rfl, rfl, rfl⟩, (ih _).mpr rfl, e⟩

variable {ops : FilterOps K F} {lo hi : K} {s s' : State K V F}

theorem splitIndex_branches (g : Good s.h s.root lo hi) {j : Nat} {k : K} (k1 : lo ≤ k) (k2 : k < hi)
    (hs : doSplitIndex s j k = some s') : Good s'.h s'.root lo hi ∧ ∀ k', lo ≤ k' → k' < hi →
      viewBranches (view s'.h s'.root k') = viewBranches (view s.h s.root k') := by
  unfold doSplitIndex at hs
  split at hs
  · cases hs
  split at hs
  · cases hs
  rename_i hj
  split at hs
  · cases hs
  rename_i root' hu
  split at hs
  · cases hs
  obtain rfl := Option.some.inj hs
  obtain ⟨hjh, nd, nd', nlo, nhi, u1, u2, u3, u4, u5, u6, u7, u8, u9, u10⟩ := upd_spec _ _ _ _ _ _ _ _ g k1 k2 hu
  simp only [atIndex] at u7
  obtain ⟨f1, clo, mid, chi, cd, f2, f3, f4, f5, f6, f7, _, f8, f9, f10, f11, f12, f13⟩ :=
    Good.splitChildIndex u2 u3 u4 u7
  refine ⟨u8 f1, fun k' a1 a2 => ?_⟩
  simp only
  by_cases hh : nlo ≤ k' ∧ k' < nhi
  · obtain ⟨pre, p1, p2, p3⟩ := u10 k' hh.1 hh.2
    rw [p2, p3, viewBranches_append, viewBranches_append]
    by_cases hc : clo ≤ k' ∧ k' < chi
    · obtain ⟨l1, l1', l2, l2', r, e1, e2, e3, e4, e5, e6, e7, e8⟩ := f13 k' hc.1 hc.2
      have e9 : l2'.branches = l2.branches := by rcases e8 with ⟨_, e⟩ | ⟨_, e⟩ <;> rw [e] <;> rfl
      rw [e1, e7, viewBranches_cons, viewBranches_cons, viewBranches_cons, viewBranches_cons, e6.branches, e9]
    · rw [f12 k' hh.1 hh.2 hc]
  · rw [u9 k' a1 a2 hh]

theorem splitRoot_branches (g : Good s.h s.root lo hi) (hs : doSplitRoot ops s = some s') :
    Good s'.h s'.root lo hi ∧ ∀ k', lo ≤ k' → k' < hi →
      viewBranches (view s'.h s'.root k') = viewBranches (view s.h s.root k') := by
  unfold doSplitRoot at hs
  split at hs
  · cases hs
  rename_i root' hu
  obtain rfl := Option.some.inj hs
  have hlt := g.node.lt
  obtain ⟨n1, n2, n3⟩ := Good.newRoot g ops
  unfold Trunk.splitRoot at hu
  rw [← n2 lo] at hu
  obtain ⟨f1, clo, mid, chi, cd, f2, f3, f4, f5, f6, f7, f7', f8, f9, f10, f11, f12, f13⟩ :=
    Good.splitChildIndex n1 (le_refl lo) hlt hu
  refine ⟨f1, fun k' a1 a2 => ?_⟩
  simp only
  have hnew := congrArg viewBranches (n3 k')
  rw [viewBranches_cons] at hnew
  simp only [Lvl.branches, List.flatMap_nil, List.append_nil] at hnew
  rw [← hnew]
  by_cases hc : clo ≤ k' ∧ k' < chi
  · obtain ⟨l1, l1', l2, l2', r, e1, e2, e3, e4, e5, e6, e7, e8⟩ := f13 k' hc.1 hc.2
    have e9 : l2'.branches = l2.branches := by rcases e8 with ⟨_, e⟩ | ⟨_, e⟩ <;> rw [e] <;> rfl
    rw [e1, e7, viewBranches_cons, viewBranches_cons, viewBranches_cons, viewBranches_cons, e6.branches, e9]
  · rw [f12 k' a1 a2 hc]

theorem splitLeaf_branches (g : Good s.h s.root lo hi) {k : K} {ks : List K} (k1 : lo ≤ k) (k2 : k < hi)
    (hs : doSplitLeaf ops s k ks = some s') : Good s'.h s'.root lo hi ∧ ∀ k', lo ≤ k' → k' < hi →
      viewBranches (view s'.h s'.root k') = viewBranches (view s.h s.root k') := by
  unfold doSplitLeaf at hs
  split at hs
  · cases hs
  split at hs
  · cases hs
  rename_i root' hu
  obtain rfl := Option.some.inj hs
  obtain ⟨hjh, nd, nd', nlo, nhi, u1, u2, u3, u4, u5, u6, u7, u8, u9, u10⟩ := upd_spec _ _ _ _ _ _ _ _ g k1 k2 hu
  simp only [atIndex] at u7
  obtain ⟨f1, clo, chi, cd, f2, f3, f4, f5, f6, f7, f8, f9, f10, f11⟩ := Good.splitChildLeaf u2 ops u3 u4 u7
  refine ⟨u8 f1, fun k' a1 a2 => ?_⟩
  simp only
  by_cases hh : nlo ≤ k' ∧ k' < nhi
  · obtain ⟨pre, p1, p2, p3⟩ := u10 k' hh.1 hh.2
    rw [p2, p3, viewBranches_append, viewBranches_append]
    by_cases hc : clo ≤ k' ∧ k' < chi
    · obtain ⟨l1, l1', l2, i, lo', hi', e1, e2, e3, e4, e5, e6, e7, e8, e9⟩ := f11 k' hc.1 hc.2
      rw [e1, e9, viewBranches_cons, viewBranches_cons, viewBranches_cons, viewBranches_cons, e8.branches,
        rebundled_branches]
    · rw [f10 k' hh.1 hh.2 hc]
  · rw [u9 k' a1 a2 hh]

/-- The three splits. -/
def Op.isSplit : Op K V → Bool
  | .splitIndex _ _ => true
  | .splitLeaf _ _ => true
  | .splitRoot => true
  | _ => false

variable {cfg : DataCfg K V} {keyOk : K → Bool} {sem : UpdateSem K V}

/-- C33. In every well-formed tree a key sees exactly one list of branches, and a split
of a leaf, of an index node or of the root leaves the tree well-formed and that list
the same. -/
theorem split_keeps_routing (g : Good s.h s.root lo hi) {o : Op K V} (ho : o.isSplit = true) (hl : Legal lo hi s o)
    (hst : step cfg ops keyOk s o = some s') : Good s'.h s'.root lo hi ∧ ∀ k, lo ≤ k → k < hi →
      ∃ bs, ∀ bs', (Sees s.h s.root k bs' ↔ bs' = bs) ∧ (Sees s'.h s'.root k bs' ↔ bs' = bs) := by
  have key : Good s'.h s'.root lo hi ∧ ∀ k', lo ≤ k' → k' < hi →
      viewBranches (view s'.h s'.root k') = viewBranches (view s.h s.root k') := by
    cases o with
    | splitIndex j k => exact splitIndex_branches g hl.1 hl.2 hst
    | splitLeaf k ks => exact splitLeaf_branches g hl.1 hl.2 hst
    | splitRoot => exact splitRoot_branches g hst
    | _ => cases ho
  refine ⟨key.1, fun k k1 k2 => ⟨_, fun bs' => ⟨sees_iff _ _ lo hi k bs' g k1 k2, ?_⟩⟩⟩
  rw [← key.2 k k1 k2]
  exact sees_iff _ _ lo hi k bs' key.1 k1 k2

/-- The trees of reachable stores are well-formed. -/
theorem reachable_wf (L : FilterLaws ops) (H : Implements cfg sem) (hlt : lo < hi)
    (hs : Reachable cfg ops keyOk lo hi s) : Good s.h s.root lo hi :=
  let ⟨_, I⟩ := hs.inv L H hlt
  I.good

/-- Instance: the root split of `raceSetup`, after which the tree has height 2. -/
example : ∃ s s', Reachable counterCfg setFilter (fun _ => true) 0 100 s ∧
    step counterCfg setFilter (fun _ => true) s .splitRoot = some s' ∧
    ∃ bs, ∀ bs', (Sees s.h s.root 60 bs' ↔ bs' = bs) ∧ (Sees s'.h s'.root 60 bs' ↔ bs' = bs) := by
  have h0 : (do
      let s ← run counterCfg setFilter (fun _ => true) (init setFilter 0 100) (raceSetup.take 6)
      some (step counterCfg setFilter (fun _ => true) s .splitRoot).isSome) = some true := by decide +kernel
  have h1 : (run counterCfg setFilter (fun _ => true) (init setFilter 0 100) (raceSetup.take 6)).isSome = true := by
    decide +kernel
  obtain ⟨s, hs⟩ := Option.isSome_iff_exists.mp h1
  rw [hs] at h0
  obtain ⟨s', hs'⟩ := Option.isSome_iff_exists.mp (Option.some.inj h0)
  have hr : Reachable counterCfg setFilter (fun _ => true) 0 100 s :=
    ⟨_, legalRunB_sound _ _ (by decide +kernel), hs⟩
  exact ⟨s, s', hr, hs', (split_keeps_routing (reachable_wf setFilter_laws counter_implements (by decide) hr)
    (o := .splitRoot) rfl trivial hs').2 60 (by decide) (by decide)⟩

end Splinter.Trunk
