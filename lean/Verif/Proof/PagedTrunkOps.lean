import Verif.Proof.PagedTrunk
/-!
# Operations of the store on pages and on lists
-/
namespace Splinter.Trunk.Paged

open NodeArr (Hdr PRec maxBu maxSb maxF Rep RepAt PivRep Node.nBr Node.nSb Node.nF brsOf flsOf sbsOf)

variable {K V F : Type} {H : Nat}

/-- A node changed, its children not. -/
theorem RepT.set {h : Nat} {n n' : Node K V F (Sub K V F h)} {t : Tree (Branch K V) F} (r : RepT H h n t)
    {a : Hdr (Branch K V) F} (h1 : Rep H a n') (h2 : NodeOk n') (h3 : LeafOk n → LeafOk n')
    (h4 : n'.pivots.map (·.2) = n.pivots.map (·.2)) : RepT H h n' (.mk a t.kids) := by
  cases h with
  | zero => exact ⟨h1, h2, h3 r.2.2⟩
  | succ h => exact ⟨h1, h2, by rw [h4]; exact r.2.2⟩

theorem set_same_data {C : Type} {l : List (PData K F × C)} {i : Nat} {p : PData K F} {c c' : C} (h : l[i]? = some (p, c)) :
    (l.set i (p, c')).map (fun y => (y.1.wskip, y.1.bskip, y.1.filter)) = l.map (fun y => (y.1.wskip, y.1.bskip, y.1.filter)) := by
  rw [List.map_set]
  obtain ⟨hi, e2⟩ := List.getElem?_eq_some_iff.mp h
  apply List.ext_getElem?
  intro m
  rw [List.getElem?_set]
  split
  · rename_i hm
    subst hm
    simp [hi, e2]
  · rfl

/-! ### Flush -/

/-- The checks of `trunk_room_to_flush` (trunk.c 4604–4619), and room for the filters,
which the code does not check. -/
def FlushFits {C : Type} (H : Nat) (n : Node K V F (Node K V F C)) (i : Nat) : Prop :=
  ∀ p c, n.pivots[i]? = some (p, c) →
    Node.nBr c + (brsOf (flushSbs n p)).length < H ∧ c.bundles.length + 2 ≤ maxBu ∧
    Node.nSb c + ((sbsOf (n.bundles.drop p.bskip)).length + 1) + 1 < maxSb ∧
    Node.nF c + (flsOf (flushSbs n p)).length < maxF

theorem flush_rep {ops : FilterOps K F} {h i : Nat} {n n' : Node K V F (Sub K V F (h + 1))} {t : Tree (Branch K V) F}
    (r : RepT H (h + 1) n t) (hfit : FlushFits H n i) (e : flush ops n i = some n') :
    ∃ t', flushT H ops.empty i t = some t' ∧ RepT H (h + 1) n' t' := by
  unfold flush at e
  cases hp : n.pivots[i]? with
  | none => rw [hp] at e; cases e
  | some q =>
    obtain ⟨p, c⟩ := q
    rw [hp] at e
    dsimp only at e
    by_cases hne : (flushSbs n p).isEmpty = true
    · rw [if_pos hne] at e; cases e
    · rw [if_neg hne] at e
      obtain rfl := Option.some.inj e
      obtain ⟨r1, r2, r3⟩ := r
      obtain ⟨u, hu, hc⟩ := forall₂_get r3 (i := i) (x := c) (by rw [List.getElem?_map, hp]; rfl)
      obtain ⟨f1, f2, f3, f4⟩ := hfit p c hp
      have hn1 : Rep H t.page ({ n with pivots := n.pivots.set i (p, c.addBundle (flushSbs n p)) } : Node K V F (Sub K V F (h + 1))) :=
        Rep.congr r1 rfl rfl rfl (set_same_data hp)
      have hi := (List.getElem?_eq_some_iff.mp hp).1
      have hp1 : (n.pivots.set i (p, c.addBundle (flushSbs n p)))[i]? = some (p, c.addBundle (flushSbs n p)) := by
        simp [hi]
      have hroom : ∃ x, t.page.pivots[i]? = some x ∧ NodeArr.roomToFlush H t.page u.page x = true := by
        obtain ⟨b0, s0, f0, u0, R⟩ := r1
        obtain ⟨b1, s1, g1, u1, Rc⟩ := hc.rep
        obtain ⟨x, hx, P⟩ := R.pivot hp
        refine ⟨x, hx, ?_⟩
        unfold NodeArr.roomToFlush
        rw [Rc.nBr, Rc.nBu, Rc.nSb, P.branches R, P.pivSubbundles R]
        simp only [Bool.and_eq_true, decide_eq_true_eq]
        exact ⟨⟨f1, f2⟩, f3⟩
      obtain ⟨a', ca', g1, g2, g3⟩ := NodeArr.flushInto_spec (ops := ops) hn1 hc.rep hp1
        (fun h => hne (by rw [show flushSbs n p = [] from h]; rfl)) f4 hroom
      unfold flushT
      rw [hu]
      dsimp only
      rw [g1]
      refine ⟨_, rfl, g2, NodeOk.pivotClear (NodeOk.congr (m := { n with pivots := n.pivots.set i (p, c.addBundle (flushSbs n p)) }) r2 rfl) ops i, ?_⟩
      rw [kids_pivotClear]
      rw [kids_mk]
      rw [List.map_set]
      refine forall₂_set r3 i (RepT.set hc g3 (NodeOk.addBundle hc.ok (NodeOk.flushSbs r2 p)) id rfl)

/-! ### Splits -/

theorem addPivots_rep {C : Type} {b0 u0 : Nat} {W : List (Branch K V)} {Bs : List (Bundle K V F)} {x : PRec F}
    (key : Node K V F C → K) : ∀ (cs : List (Node K V F C)) (p : PData K F) (g : Nat), PivRep H b0 u0 W Bs x p →
    List.Forall₂ (fun x (y : PData K F × Node K V F C) => PivRep H b0 u0 W Bs x y.1) (List.replicate cs.length x)
      (addPivots p g key cs).1
  | [], _, _, _ => .nil
  | [c], _, _, P => .cons P .nil
  | c :: c' :: cs, p, g, P => by
    have := addPivots_rep key (c' :: cs) { p with key := key c' } (g + 1) (PivRep.congr P rfl rfl rfl)
    exact .cons (PivRep.congr P rfl rfl rfl) this

theorem replaceChild_rep {h i : Nat} {n : Node K V F (Sub K V F (h + 1))} {t : Tree (Branch K V) F}
    (r : RepT H (h + 1) n t) {q : PData K F × Node K V F (Sub K V F h)} (hp : n.pivots[i]? = some q)
    {cs : List (Node K V F (Sub K V F h))} {us : List (Tree (Branch K V) F)} (hc : List.Forall₂ (fun c u => RepT H h c u) cs us) :
    RepT H (h + 1) (n.replaceChild i cs) (replaceKid t i us) := by
  obtain ⟨p, c⟩ := q
  obtain ⟨r1, r2, r3⟩ := r
  unfold Node.replaceChild replaceKid
  rw [hp]
  refine ⟨?_, NodeOk.congr r2 rfl, ?_⟩
  · obtain ⟨b0, s0, f0, u0, R⟩ := r1
    obtain ⟨x, hx, P⟩ := R.pivot hp
    rw [page_mk]
    unfold dupPivot
    rw [hx]
    dsimp only
    refine ⟨b0, s0, f0, u0, withPivots R (by rfl) (by rfl) (by rfl) ?_⟩
    refine List.rel_append (List.rel_append (List.forall₂_take _ R.piv) ?_) (List.forall₂_drop _ R.piv)
    rw [← hc.length_eq]
    exact addPivots_rep _ cs p n.nextGen P
  · rw [kids_mk]
    rw [List.map_append, List.map_append, kids_addPivots, List.map_take, List.map_drop]
    exact List.rel_append (List.rel_append (List.forall₂_take _ r3) hc) (List.forall₂_drop _ r3)

theorem splitIndex_rep {h i idL idR : Nat} {n n' : Node K V F (Sub K V F (h + 1))} {t : Tree (Branch K V) F}
    (r : RepT H (h + 1) n t) (e : splitChildIndex n i idL idR = some n') :
    ∃ t', splitIndexT H i t = some t' ∧ RepT H (h + 1) n' t' := by
  unfold splitChildIndex at e
  cases hp : n.pivots[i]? with
  | none => rw [hp] at e; cases e
  | some q =>
    obtain ⟨p, c⟩ := q
    rw [hp] at e
    dsimp only at e
    split at e
    · obtain ⟨u, hu, hc⟩ := forall₂_get r.2.2 (i := i) (x := c) (by rw [List.getElem?_map, hp]; rfl)
      cases hs : splitIndex c idL idR with
      | none => rw [hs] at e; cases e
      | some lr =>
        rw [hs] at e
        obtain rfl := Option.some.inj e
        unfold splitIndex at hs
        dsimp only at hs
        cases hq : c.pivots[c.pivots.length / 2]? with
        | none => rw [hq] at hs; cases hs
        | some q2 =>
          rw [hq] at hs
          dsimp only at hs
          by_cases h0 : c.pivots.length / 2 = 0
          · rw [if_pos h0] at hs; cases hs
          · rw [if_neg h0] at hs
            obtain rfl := Option.some.inj hs
            have hlen := Rep.pivots_length hc.rep
            obtain ⟨al, l1, l2⟩ := NodeArr.pivots_spec hc.rep (id := idL) (k := q2.1.key) (Or.inl ⟨rfl, rfl⟩)
            obtain ⟨ar, m1, m2⟩ := NodeArr.pivots_spec hc.rep (id := idR) (k := c.maxKey) (Or.inr ⟨rfl, rfl⟩)
            unfold splitIndexT
            rw [hu]
            dsimp only
            rw [hlen, l1, m1]
            refine ⟨_, rfl, replaceChild_rep r hp ?_⟩
            cases h with
            | zero =>
              obtain ⟨p1, c1, e1, -, -⟩ := hc.2.2
              rw [e1] at h0
              exact absurd (by simp) h0
            | succ h =>
              refine .cons ⟨l2, NodeOk.resetStart (NodeOk.congr hc.ok rfl), ?_⟩
                (.cons ⟨m2, NodeOk.resetStart (NodeOk.congr hc.ok rfl), ?_⟩ .nil)
              · rw [kids_resetStart]
                rw [kids_mk]
                rw [List.map_take]
                exact List.forall₂_take _ hc.2.2
              · rw [kids_resetStart]
                rw [kids_mk]
                rw [List.map_drop]
                exact List.forall₂_drop _ hc.2.2
    · cases e

theorem splitRoot_rep {ops : FilterOps K F} {h idL idR : Nat} {n : Node K V F (Sub K V F h)} {n' : Node K V F (Sub K V F (h + 1))}
    {t : Tree (Branch K V) F} (zb : Branch K V) (zf : F) (h0 : 0 < H) (h1 : H ≤ 65536)
    (r : RepT H h n t) (e : splitRoot ops n idL idR = some n') :
    ∃ t', splitRootT H zb zf ops.empty t = some t' ∧ RepT H (h + 1) n' t' := by
  unfold splitRoot at e
  exact splitIndex_rep ⟨fresh_rep h0 h1 zb zf ops.empty _ _ _ _ _ _, fun sb hs => by simp [sbsOf] at hs, .cons r .nil⟩ e

/-- The asserts of `trunk_leaf_rebundle_all_branches` (trunk.c 2204–2292); the leaf is not
empty. -/
def LeafFits {C : Type} (n : Node K V F (Node K V F C)) (i : Nat) : Prop :=
  ∀ p c, n.pivots[i]? = some (p, c) → (c.whole ≠ [] ∨ c.bundles ≠ []) ∧ c.bundles.length + 1 < maxBu ∧
    (c.whole ≠ [] → Node.nSb c + 1 < maxSb ∧ Node.nF c + 1 < maxF)

theorem leafCopies_rep {c : Node K V F (Sub K V F 0)} {u : Tree (Branch K V) F} {a : Hdr (Branch K V) F} (hr : Rep H a c)
    (ho : NodeOk c) (hl : LeafOk c) (hi : K) : ∀ (ks : List K) (id : Nat) (lo : K),
    List.Forall₂ (fun c u => RepT H 0 c u) (leafCopies c id lo hi ks) (List.replicate (ks.length + 1) (.mk a u.kids)) := by
  have key : ∀ (id : Nat) (mk lo : K), RepT H 0
      ({ c with id := id, maxKey := mk, pivots := c.pivots.map (fun x => ({ x.1 with key := lo }, x.2)) } : Node K V F (Sub K V F 0))
      (.mk a u.kids) := by
    intro id mk lo
    refine ⟨Rep.congr hr rfl rfl rfl (by simp [List.map_map, Function.comp_def]), NodeOk.congr ho rfl, ?_⟩
    obtain ⟨p, x, e, h1, h2⟩ := hl
    exact ⟨{ p with key := lo }, x, by simp only [e, List.map_cons, List.map_nil], h1, h2⟩
  intro ks
  induction ks with
  | nil => intro id lo; exact .cons (key _ _ _) .nil
  | cons k ks ih => intro id lo; exact .cons (key _ _ _) (ih _ _)

theorem splitLeaf_rep [LinearOrder K] {ops : FilterOps K F} {i id : Nat} {ks : List K} {n n' : Node K V F (Sub K V F 1)} {t : Tree (Branch K V) F}
    (r : RepT H 1 n t) (hfit : LeafFits n i) (e : splitChildLeaf ops n i id ks = some n') :
    ∃ t', splitLeafT H ops.empty i (ks.length + 1) t = some t' ∧ RepT H 1 n' t' := by
  unfold splitChildLeaf at e
  cases hp : n.pivots[i]? with
  | none => rw [hp] at e; cases e
  | some q =>
    obtain ⟨p, c⟩ := q
    rw [hp] at e
    dsimp only at e
    split at e
    · obtain rfl := Option.some.inj e
      obtain ⟨u, hu, hc⟩ := forall₂_get r.2.2 (i := i) (x := c) (by rw [List.getElem?_map, hp]; rfl)
      obtain ⟨f1, f2, f3⟩ := hfit p c hp
      obtain ⟨p1, c1, e1, w1, b1⟩ := hc.2.2
      have hs := NodeArr.rebundle_spec (ops := ops) hc.rep e1 w1 b1 f1
      rw [if_pos ⟨f2, f3⟩] at hs
      obtain ⟨a, g1, g2⟩ := hs
      unfold splitLeafT
      rw [hu]
      dsimp only
      rw [g1]
      exact ⟨_, rfl, replaceChild_rep r hp (leafCopies_rep g2 (NodeOk.rebundle hc.ok ops) (LeafOk.rebundle hc.2.2 ops) _ _ _ _)⟩
    · cases e

/-! ### Compaction and filters -/

/-- Whether the number of a bundle can be told from later ones: twelve numbers are in use. -/
def Young (no endB : Nat) (bundles : List (Bundle K V F)) : Prop :=
  bundles.any (fun b => b.no == no) = true ∨ (no < endB ∧ endB ≤ no + maxBu)

theorem replace_rep {h no : Nat} {n : Node K V F (Sub K V F h)} {t : Tree (Branch K V) F} (leaf : Bool) (r : RepT H h n t)
    (hl : n.bundles.any (fun b => b.no == no) = true) (out : Branch K V) :
    ∃ t', replaceT H leaf no (some out) t = some t' ∧ RepT H h (n.replaceBundle no out) t' := by
  unfold replaceT
  rw [buLive_iff r.rep (.inl hl), if_pos hl]
  obtain ⟨b, hb, e⟩ := List.any_eq_true.mp hl
  have e : b.no = no := by simpa using e
  subst e
  obtain ⟨a, g1, g2⟩ := NodeArr.replaceBundle_spec r.rep hb out
  dsimp only
  rw [g1]
  exact ⟨_, rfl, RepT.set r g2 (NodeOk.replaceBundle r.ok _ _) id rfl⟩

theorem vanish_rep {h no : Nat} {n : Node K V F (Sub K V F h)} {t : Tree (Branch K V) F} (leaf : Bool) (r : RepT H h n t)
    (hl : n.bundles.any (fun b => b.no == no) = true) (he : n.endB = no + 1) :
    ∃ t', replaceT H leaf no none t = some t' ∧ RepT H h (n.vanish no) t' := by
  unfold replaceT
  rw [buLive_iff r.rep (.inl hl), if_pos hl]
  obtain ⟨pre, b, e, e2, e3⟩ := newest r.rep hl he
  obtain ⟨a, g1, g2⟩ := NodeArr.vanish_newest r.rep e
  rw [e2] at g1 g2
  dsimp only
  rw [g1]
  exact ⟨_, rfl, RepT.set r g2 (NodeOk.vanish r.ok e3) (fun h => LeafOk.vanish h _) (kids_vanish _ _)⟩

theorem skip_rep {h no : Nat} {n : Node K V F (Sub K V F h)} {t : Tree (Branch K V) F} (r : RepT H h n t)
    (hy : Young no n.endB n.bundles) (hl : n.bundles.any (fun b => b.no == no) = false) (o : Option (Branch K V)) :
    replaceT H false no o t = some t := by
  unfold replaceT
  rw [buLive_iff r.rep hy, hl]
  rfl

theorem filters_rep {ops : FilterOps K F} {h no : Nat} {n : Node K V F (Sub K V F h)} {t : Tree (Branch K V) F} (r : RepT H h n t)
    {b : Bundle K V F} {rest : List (Bundle K V F)} (e : n.bundles = b :: rest) (hno : b.no = no) (slice : Nat → List K) :
    RepT H h (n.buildFilters ops slice).clearBundle (filtersT H ops.add no (n.pivots.map fun y => slice y.1.gen) t) := by
  have hl : n.bundles.any (fun b => b.no == no) = true := by rw [e]; simp [hno]
  unfold filtersT
  rw [buLive_iff r.rep (.inl hl), if_pos hl, if_pos ((first_iff r.rep e hl).mpr hno)]
  have hne : n.bundles ≠ [] := by rw [e]; simp
  refine RepT.set r (NodeArr.clearBundle_spec (NodeArr.buildFilters_spec r.rep hne slice) hne)
    (NodeOk.clearBundle (NodeOk.congr r.ok rfl)) (fun h => LeafOk.clearBundle (LeafOk.buildFilters h _ _)) ?_
  rw [kids_clearBundle, kids_buildFilters]

theorem filters_wait {ops : FilterOps K F} {h no : Nat} {n : Node K V F (Sub K V F h)} {t : Tree (Branch K V) F} (r : RepT H h n t)
    {b : Bundle K V F} {rest : List (Bundle K V F)} (e : n.bundles = b :: rest) (hno : b.no ≠ no)
    (hl : n.bundles.any (fun b => b.no == no) = true) (sl : List (List K)) : filtersT H ops.add no sl t = t := by
  unfold filtersT
  rw [buLive_iff r.rep (.inl hl), if_pos hl, if_neg (fun h => hno ((first_iff r.rep e hl).mp h))]

theorem filters_skip {ops : FilterOps K F} {h no : Nat} {n : Node K V F (Sub K V F h)} {t : Tree (Branch K V) F} (r : RepT H h n t)
    (hy : Young no n.endB n.bundles) (hl : n.bundles.any (fun b => b.no == no) = false) (sl : List (List K)) :
    filtersT H ops.add no sl t = t := by
  unfold filtersT
  rw [buLive_iff r.rep hy, hl]
  rfl

end Splinter.Trunk.Paged
