import Verif.Proof.TrunkSplit
/-!
Child splits with their parent: effect on the view of each key.
-/
namespace Splinter.Trunk
open Splinter.Merge (SortedRun)
set_option linter.unusedSectionVars false

variable {K V F C : Type} [LinearOrder K]

/-- Halving an index child. -/
theorem Good.splitChildIndex {j : Nat} {n n' : Node K V F (Node K V F (Sub K V F j))} {lo hi k : K}
    (g : Good (j + 1) n lo hi) (k1 : lo ≤ k) (k2 : k < hi) {idL idR : Nat}
    (hs : Trunk.splitChildIndex n (n.find k) idL idR = some n') :
    Good (j + 1) n' lo hi ∧ ∃ (clo mid chi : K) (c : Node K V F (Sub K V F j)), clo ≤ k ∧ k < chi ∧ lo ≤ clo ∧ chi ≤ hi ∧
      clo < mid ∧ mid < chi ∧ j ≠ 0 ∧
      nodeAt j k (j + 1) n = some c.info ∧ c.info.lo = clo ∧ c.info.hi = chi ∧
      c.info.pivots[c.info.pivots.length / 2]?.map (·.1.key) = some mid ∧
      (∀ k', lo ≤ k' → k' < hi → ¬ (clo ≤ k' ∧ k' < chi) → view (j + 1) n' k' = view (j + 1) n k') ∧
      ∀ k', clo ≤ k' → k' < chi → ∃ l1 l1' l2 l2' r, view (j + 1) n k' = l1 :: l2 :: r ∧
        l2.nlo = clo ∧ l2.nhi = chi ∧ l1.whole = [] ∧ l1.bundles = [] ∧ SameBut l1 l1' ∧
        view (j + 1) n' k' = l1' :: l2' :: r ∧
        ((k' < mid ∧ l2' = { l2 with id := idL, nlo := clo, nhi := mid }) ∨
         (mid ≤ k' ∧ l2' = { l2 with id := idR, nlo := mid, nhi := chi })) := by
  have ok := g.node
  obtain ⟨p, c, ph, hr⟩ := ok.route (k := k)
  have hrg := ok.range k1 k2 hr
  obtain ⟨a, b, q1, q2, q3⟩ := ok.find k1 k2 hr
  have hget : n.pivots[n.find k]? = some (p, c) := by rw [q2, q1]; simp
  have gc : Good j c p.key ph := g.2 k p c ph k1 k2 hr
  unfold Trunk.splitChildIndex at hs
  rw [hget] at hs
  simp only at hs
  split at hs
  swap
  · cases hs
  rename_i hpe
  cases hsp : Trunk.splitIndex c idL idR with
  | none => rw [hsp] at hs; cases hs
  | some lr =>
    obtain ⟨l, r⟩ := lr
    rw [hsp] at hs
    simp only [Option.some.injEq] at hs
    cases j with
    | zero =>
      exfalso
      obtain ⟨p0, c0, e0, _⟩ := gc.2
      unfold Trunk.splitIndex at hsp
      rw [e0] at hsp
      simp at hsp
    | succ j =>
      obtain ⟨mid, m1, m2, m3, m4, m5, m6, m7⟩ := gc.splitIndex hsp
      let P : Node K V F (Sub K V F (j + 1)) → K → K → Prop := fun c' lo' hi' =>
        Good (j + 1) c' lo' hi' ∧
          ((lo' = p.key ∧ hi' = mid ∧ HalfOf c idL c' lo' hi') ∨ (lo' = mid ∧ hi' = ph ∧ HalfOf c idR c' lo' hi'))
      have hparts : Parts P [l, r] p.key ph := by
        refine ⟨?_, ?_⟩
        · rw [m5]; exact ⟨m6.1, .inl ⟨rfl, rfl, m6⟩⟩
        · rw [m5]; exact ⟨m7.1, .inr ⟨rfl, rfl, m7⟩⟩
      obtain ⟨g', vo, vi⟩ := g.replaceChild k1 k2 P hr hpe (fun _ _ _ h => h.1) hparts hs.symm
      refine ⟨g', p.key, mid, ph, c, hrg.2.1, hrg.2.2.1, hrg.2.2.2.1, hrg.2.2.2.2, m2, m3, by omega, ?_,
        gc.node.hmin, gc.node.hmax, m1, vo, ?_⟩
      · simp [nodeAt, hget]
      · intro k' e1 e2
        obtain ⟨l1, l1', c', lo', hi', f1, f2, f3, f4, f5, f6, f7, f8⟩ := vi k' e1 e2
        obtain ⟨_, f3⟩ := f3
        rcases f3 with ⟨rfl, rfl, hH⟩ | ⟨rfl, rfl, hH⟩
        · obtain ⟨l2, r2, v1, v2⟩ := hH.2 k' f1 f2
          obtain ⟨p2, c2, ph2, rr, _, hv, _⟩ := view_cons (j + 1) c p.key ph k' gc e1 e2
          have hl2 : l2 = mkLvl (j + 1) c p2 ph2 := by rw [hv] at v1; exact (List.cons.inj v1).1.symm
          refine ⟨l1, l1', l2, _, r2, by rw [f4, v1], ?_, ?_, f5, f6, f7, by rw [f8, v2], .inl ⟨f2, rfl⟩⟩
          · rw [hl2]; exact gc.node.hmin
          · rw [hl2]; exact gc.node.hmax
        · obtain ⟨l2, r2, v1, v2⟩ := hH.2 k' f1 f2
          obtain ⟨p2, c2, ph2, rr, _, hv, _⟩ := view_cons (j + 1) c p.key hi' k' gc e1 e2
          have hl2 : l2 = mkLvl (j + 1) c p2 ph2 := by rw [hv] at v1; exact (List.cons.inj v1).1.symm
          refine ⟨l1, l1', l2, _, r2, by rw [f4, v1], ?_, ?_, f5, f6, f7, by rw [f8, v2], .inr ⟨f1, rfl⟩⟩
          · rw [hl2]; exact gc.node.hmin
          · rw [hl2]; exact gc.node.hmax

/-! ### Leaves -/

def Lvl.rebundled (ops : FilterOps K F) (gen id : Nat) (lo hi : K) (l : Lvl K V F) : Lvl K V F :=
  { ht := l.ht, id := id, endB := l.endB + 1, nlo := lo, nhi := hi, plo := lo, phi := hi, gen := gen,
    filter := if l.whole.isEmpty then l.filter else ops.empty, whole := [],
    bundles := [⟨l.endB, l.flushSbs⟩] }

/-- Ids and ranges of the new leaves. -/
def triples : Nat → K → K → List K → List (Nat × K × K)
  | id, lo, hi, [] => [(id, lo, hi)]
  | id, lo, hi, k :: ks => (id, lo, k) :: triples (id + 1) k hi ks

theorem leafReqs_eq (no gen : Nat) : ∀ (ks : List K) (id : Nat) (lo hi : K),
    (leafReqs no gen id lo hi ks : List (Req K V)) = (triples id lo hi ks).map (fun t =>
      ⟨0, no, t.1, t.2.1, t.2.2, [(gen, t.2.1, t.2.2)], [0], .created⟩)
  | [], id, lo, hi => rfl
  | k :: ks, id, lo, hi => by
    simp only [leafReqs, triples, List.map_cons]
    rw [leafReqs_eq no gen ks]

theorem triples_mem : ∀ (ks : List K) (id : Nat) (lo hi : K), (lo :: ks ++ [hi]).Pairwise (· < ·) →
    (∀ t ∈ triples id lo hi ks, id ≤ t.1 ∧ t.1 < id + ks.length + 1 ∧ lo ≤ t.2.1 ∧ t.2.1 < t.2.2 ∧ t.2.2 ≤ hi) ∧
    (triples id lo hi ks).Pairwise (fun a b => a.1 < b.1 ∧ a.2.2 ≤ b.2.1)
  | [], id, lo, hi, h => by
    simp only [triples, List.mem_singleton, forall_eq, List.pairwise_singleton, and_true]
    refine ⟨Nat.le_refl _, by simp, le_refl _, ?_, le_refl _⟩
    simpa using h
  | k :: ks, id, lo, hi, h => by
    simp only [List.cons_append] at h
    obtain ⟨h1, h2⟩ := List.pairwise_cons.mp h
    obtain ⟨i1, i2⟩ := triples_mem ks (id + 1) k hi h2
    have hlk : lo < k := h1 k List.mem_cons_self
    have hkh : k < hi := (List.pairwise_cons.mp h2).1 hi (by simp)
    refine ⟨?_, ?_⟩
    · intro t ht
      rcases List.mem_cons.mp ht with rfl | ht
      · exact ⟨Nat.le_refl _, by simp only [List.length_cons]; omega, le_refl _, hlk, le_of_lt hkh⟩
      · obtain ⟨a1, a2, a3, a4⟩ := i1 t ht
        exact ⟨by omega, by simp only [List.length_cons]; omega, le_trans (le_of_lt hlk) a3, a4⟩
    · simp only [triples]
      refine List.pairwise_cons.mpr ⟨fun t ht => ?_, i2⟩
      obtain ⟨a1, _, a3, _⟩ := i1 t ht
      exact ⟨by simp only; omega, a3⟩

/-- One of the new leaves. -/
def leafCopy (n : Node K V F C) (id : Nat) (lo hi : K) : Node K V F C :=
  { n with id := id, maxKey := hi, pivots := n.pivots.map (fun x => ({ x.1 with key := lo }, x.2)) }

theorem leafCopies_cons (n : Node K V F C) (id : Nat) (lo hi k : K) (ks : List K) :
    leafCopies n id lo hi (k :: ks) = leafCopy n id lo k :: leafCopies n (id + 1) k hi ks := rfl

theorem leafCopies_nil (n : Node K V F C) (id : Nat) (lo hi : K) :
    leafCopies n id lo hi [] = [leafCopy n id lo hi] := rfl

theorem leafCopies_parts (n : Node K V F C) (hn : n.pivots ≠ []) (P : Node K V F C → K → K → Prop)
    (Q : Nat × K × K → Prop) (hQ : ∀ t, Q t → t.2.1 < t.2.2 → P (leafCopy n t.1 t.2.1 t.2.2) t.2.1 t.2.2) :
    ∀ (ks : List K) (id : Nat) (lo hi : K), (lo :: ks ++ [hi]).Pairwise (· < ·) →
    (∀ t ∈ triples id lo hi ks, Q t) → Parts P (leafCopies n id lo hi ks) lo hi
  | [], id, lo, hi, h, hq => by
    rw [leafCopies_nil]
    exact hQ (id, lo, hi) (hq _ (by simp [triples])) (by simpa using h)
  | k :: ks, id, lo, hi, h, hq => by
    rw [leafCopies_cons]
    simp only [List.cons_append] at h
    obtain ⟨h1, h2⟩ := List.pairwise_cons.mp h
    have ih := leafCopies_parts n hn P Q hQ ks (id + 1) k hi h2
      (fun t ht => hq t (List.mem_cons_of_mem _ ht))
    have hhead : ∃ c cs, leafCopies n (id + 1) k hi ks = c :: cs ∧ c.keyAt 0 = k := by
      have hk : ∀ i h', (leafCopy n i k h').keyAt 0 = k := by
        intro i h'
        rw [keyAt_zero]
        unfold leafCopy
        cases hp : n.pivots with
        | nil => exact absurd hp hn
        | cons x xs => rfl
      cases ks with
      | nil => exact ⟨_, _, leafCopies_nil .., hk _ _⟩
      | cons k' ks => exact ⟨_, _, leafCopies_cons .., hk _ _⟩
    obtain ⟨c, cs, e1, e2⟩ := hhead
    rw [e1] at ih ⊢
    refine ⟨?_, by rw [e2]; exact ih⟩
    rw [e2]
    exact hQ (id, lo, k) (hq _ (by simp [triples])) (h1 k List.mem_cons_self)

theorem rebundle_eq (ops : FilterOps K F) (c : Node K V F C) {p : PData K F} {u : C} (hp : c.pivots = [(p, u)])
    (hw : p.wskip = 0) (hb : p.bskip = 0) :
    rebundle ops c = { c with
      whole := []
      bundles := [⟨c.endB, flushSbs c p⟩]
      endB := c.endB + 1
      nextGen := c.nextGen + 1
      pivots := [({ p with wskip := 0, bskip := 0,
                           filter := if c.whole.isEmpty then p.filter else ops.empty,
                           gen := c.nextGen }, u)] } := by
  unfold rebundle flushSbs
  rw [hp, hw, hb]
  rfl

/-- A leaf after the split. -/
theorem leafCopy_spec (ops : FilterOps K F) {c : Node K V F (Sub K V F 0)} {lo hi : K} (g : Good 0 c lo hi)
    (id : Nat) {lo' hi' : K} (hlt : lo' < hi') (h1 : lo ≤ lo') (h2 : hi' ≤ hi) :
    Good 0 (leafCopy (rebundle ops c) id lo' hi') lo' hi' ∧
    ∀ k, lo' ≤ k → k < hi' → ∃ l, view 0 c k = [l] ∧
      view 0 (leafCopy (rebundle ops c) id lo' hi') k = [l.rebundled ops c.nextGen id lo' hi'] := by
  have ok := g.node
  obtain ⟨p, u, hp, hw, hb⟩ := g.2
  rw [rebundle_eq ops c hp hw hb]
  unfold leafCopy
  simp only [List.map_cons, List.map_nil]
  refine ⟨⟨?_, ?_⟩, ?_⟩
  · constructor
    · rfl
    · rfl
    · simp
    · refine ⟨List.pairwise_singleton _ _, ?_⟩
      intro x hx
      simp only [List.mem_singleton] at hx
      subst hx; exact hlt
    · intro x hx
      simp only [List.mem_singleton] at hx
      subst hx; exact Nat.zero_le _
    · intro x hx
      simp only [List.mem_singleton] at hx
      subst hx; exact Nat.zero_le _
    · intro x hx
      simp only [List.mem_singleton] at hx
      subst hx; intro h; cases h
    · simp
    · intro x hx
      simp only [List.mem_singleton] at hx
      subst hx; exact Nat.lt_succ_self _
    · simp
    · intro x hx
      simp only [List.mem_singleton] at hx
      subst hx; exact Nat.lt_succ_self _
    · intro x hx; cases hx
    · intro x hx
      simp only [List.mem_singleton] at hx
      subst hx; exact flushSbs_sorted ok p
  · exact ⟨_, _, rfl, rfl, rfl⟩
  · intro k _ _
    have hr : routeL c.maxKey k c.pivots = some (p, u, c.maxKey) := by rw [hp]; rfl
    refine ⟨_, view_eq (h := 0) hr, ?_⟩
    simp only [view, routeL, List.cons.injEq, and_true]
    unfold mkLvl Lvl.rebundled Lvl.flushSbs flushSbs
    simp only [hw, hb, List.drop_zero, Lvl.mk.injEq, true_and, and_true]
    rfl

/-- Splitting a leaf child. -/
theorem Good.splitChildLeaf {n n' : Node K V F (Node K V F (Sub K V F 0))} {lo hi k : K}
    (g : Good 1 n lo hi) (ops : FilterOps K F) (k1 : lo ≤ k) (k2 : k < hi) {id : Nat} {ks : List K}
    (hs : Trunk.splitChildLeaf ops n (n.find k) id ks = some n') :
    Good 1 n' lo hi ∧ ∃ (clo chi : K) (c : Node K V F (Sub K V F 0)), clo ≤ k ∧ k < chi ∧ lo ≤ clo ∧ chi ≤ hi ∧
      (clo :: ks ++ [chi]).Pairwise (· < ·) ∧ Good 0 c clo chi ∧
      nodeAt 0 k 1 n = some c.info ∧ leafGen k 1 n = c.nextGen ∧
      (∀ k', lo ≤ k' → k' < hi → ¬ (clo ≤ k' ∧ k' < chi) → view 1 n' k' = view 1 n k') ∧
      ∀ k', clo ≤ k' → k' < chi → ∃ l1 l1' l2 i lo' hi', view 1 n k' = [l1, l2] ∧ view 0 c k' = [l2] ∧
        (i, lo', hi') ∈ triples id clo chi ks ∧ lo' ≤ k' ∧ k' < hi' ∧
        l1.whole = [] ∧ l1.bundles = [] ∧ SameBut l1 l1' ∧
        view 1 n' k' = [l1', l2.rebundled ops c.nextGen i lo' hi'] := by
  have ok := g.node
  obtain ⟨p, c, ph, hr⟩ := ok.route (k := k)
  have hrg := ok.range k1 k2 hr
  obtain ⟨a, b, q1, q2, q3⟩ := ok.find k1 k2 hr
  have hget : n.pivots[n.find k]? = some (p, c) := by rw [q2, q1]; simp
  have gc : Good 0 c p.key ph := g.2 k p c ph k1 k2 hr
  unfold Trunk.splitChildLeaf at hs
  rw [hget] at hs
  simp only at hs
  split at hs
  swap
  · cases hs
  rename_i hcond
  simp only [Bool.and_eq_true, decide_eq_true_eq] at hcond
  obtain ⟨hpe, hpw⟩ := hcond
  have e1 : c.keyAt 0 = p.key := gc.node.hmin
  have e2 : c.maxKey = ph := gc.node.hmax
  rw [e1, e2] at hpw
  simp only [Option.some.injEq] at hs
  rw [e1, e2] at hs
  let P : Node K V F (Sub K V F 0) → K → K → Prop := fun c' lo' hi' =>
    ∃ i, c' = leafCopy (rebundle ops c) i lo' hi' ∧ (i, lo', hi') ∈ triples id p.key ph ks ∧ Good 0 c' lo' hi' ∧
      ∀ k, lo' ≤ k → k < hi' → ∃ l, view 0 c k = [l] ∧ view 0 c' k = [l.rebundled ops c.nextGen i lo' hi']
  obtain ⟨t1, _⟩ := triples_mem ks id p.key ph hpw
  have hparts : Parts P (leafCopies (rebundle ops c) id p.key ph ks) p.key ph := by
    refine leafCopies_parts (rebundle ops c) ?_ P (fun t => t ∈ triples id p.key ph ks) ?_ ks id p.key ph hpw (fun t ht => ht)
    · obtain ⟨p0, u, e, ew, eb⟩ := gc.2
      rw [rebundle_eq ops c e ew eb]; simp
    · intro t ht hlt
      obtain ⟨_, _, b1, _, b2⟩ := t1 t ht
      obtain ⟨s1, s2⟩ := leafCopy_spec ops gc t.1 hlt b1 b2
      exact ⟨t.1, rfl, ht, s1, s2⟩
  obtain ⟨g', vo, vi⟩ := g.replaceChild k1 k2 P hr hpe (fun _ _ _ h => by obtain ⟨_, _, _, h, _⟩ := h; exact h) hparts hs.symm
  refine ⟨g', p.key, ph, c, hrg.2.1, hrg.2.2.1, hrg.2.2.2.1, hrg.2.2.2.2, hpw, gc, ?_, ?_, vo, ?_⟩
  · simp [nodeAt, hget]
  · simp [leafGen, hget]
  · intro k' e1 e2
    obtain ⟨l1, l1', c', lo', hi', f1, f2, ⟨i, _, f3, _, f3'⟩, f4, f5, f6, f7, f8⟩ := vi k' e1 e2
    obtain ⟨l2, v1, v2⟩ := f3' k' f1 f2
    exact ⟨l1, l1', l2, i, lo', hi', by rw [f4, v1], v1, f3, f1, f2, f5, f6, f7, by rw [f8, v2]⟩

/-! ### New root -/

/-- The root above the old one before the old one is split. -/
theorem Good.newRoot {h : Nat} {n : Node K V F (Sub K V F h)} {lo hi : K} (g : Good h n lo hi)
    (ops : FilterOps K F) :
    let n1 : Node K V F (Node K V F (Sub K V F h)) :=
      { id := n.id, maxKey := n.maxKey, nextGen := n.nextGen, endB := 0, whole := [], bundles := [],
        pivots := [(⟨n.keyAt 0, 0, 0, ops.empty, 0⟩, n)] }
    Good (h + 1) n1 lo hi ∧ (∀ k, n1.find k = 0) ∧
    ∀ k, view (h + 1) n1 k = { ht := h + 1, id := n.id, endB := 0, nlo := lo, nhi := hi, plo := lo, phi := hi, gen := 0, filter := ops.empty, whole := [], bundles := [] } :: view h n k := by
  have ok := g.node
  intro n1
  have hk0 : n1.keyAt 0 = lo := ok.hmin
  have hr : ∀ k, routeL n1.maxKey k n1.pivots = some (⟨n.keyAt 0, 0, 0, ops.empty, 0⟩, n, n.maxKey) := fun k => rfl
  refine ⟨?_, ?_, ?_⟩
  · refine good_iff.mpr ⟨?_, fun h0 => by omega, ?_⟩
    · constructor
      · exact ok.hmax
      · exact hk0
      · simp [n1]
      · refine ⟨List.pairwise_singleton _ _, ?_⟩
        intro x hx
        simp only [n1, List.mem_singleton] at hx
        subst hx
        show n.keyAt 0 < hi
        rw [ok.hmin]; exact ok.lt
      · intro x hx
        simp only [n1, List.mem_singleton] at hx
        subst hx; exact Nat.zero_le _
      · intro x hx
        simp only [n1, List.mem_singleton] at hx
        subst hx; exact Nat.zero_le _
      · intro x hx
        simp only [n1, List.mem_singleton] at hx
        subst hx; intro h; cases h
      · simp [n1]
      · intro x hx
        simp only [n1, List.mem_singleton] at hx
        subst hx
        show 0 < n.nextGen
        cases hp : n.pivots with
        | nil => exact absurd hp ok.ne
        | cons y ys =>
          have := ok.genLt y (by rw [hp]; exact List.mem_cons_self)
          omega
      · simp [n1]
      · intro x hx; simp [n1] at hx
      · intro x hx; simp [n1] at hx
      · intro x hx; simp [n1] at hx
    · intro k p c ph _ _ e
      rw [hr] at e
      simp only [Option.some.injEq, Prod.mk.injEq] at e
      obtain ⟨rfl, rfl, rfl⟩ := e
      show Good h n (n.keyAt 0) n.maxKey
      rw [ok.hmin, ok.hmax]; exact g
  · intro k
    unfold Node.find Search.findPivot
    simp [n1]
  · intro k
    rw [view_eq (h := h + 1) (hr k)]
    show mkLvl (h + 1) n1 _ _ :: view h n k = _
    unfold mkLvl
    rw [hk0]
    simp [n1, ok.hmin, ok.hmax]

end Splinter.Trunk
