import Verif.Proof.TrunkNode
/-!
Flushes and splits: effect on well-formedness and on the view of each key.
-/
namespace Splinter.Trunk
open Splinter.Merge (SortedRun)
set_option linter.unusedSectionVars false

variable {K V F C : Type} [LinearOrder K]

/-- Replacing one pivot by several. -/
theorem Good.mid {h : Nat} {n n' : Node K V F (Sub K V F h)} {lo hi : K}
    {a b m : List (PData K F × Sub K V F h)} {p : PData K F} {c : Sub K V F h} (g : Good h n lo hi)
    (he : n.pivots = a ++ (p, c) :: b) (he' : n'.pivots = a ++ (m ++ b)) (hmax : n'.maxKey = n.maxKey)
    (hid : n'.id = n.id) (hend : n'.endB = n.endB) (hw : n'.whole = n.whole) (hbu : n'.bundles = n.bundles)
    (hm : m ≠ []) (hhd : hd n.maxKey m = p.key) (ok' : NodeOk n' lo hi) (hh : h ≠ 0)
    (hc : ∀ k, p.key ≤ k → k < hd n.maxKey b → ∀ p1 c1 ph1,
      routeL (hd n.maxKey b) k m = some (p1, c1, ph1) → GoodC h c1 p1.key ph1) :
    Good h n' lo hi ∧
    (∀ k, lo ≤ k → k < hi → ¬ (p.key ≤ k ∧ k < hd n.maxKey b) → view h n' k = view h n k) ∧
    (∀ k, p.key ≤ k → k < hd n.maxKey b → routeL n'.maxKey k n'.pivots = routeL (hd n.maxKey b) k m) := by
  have ok := g.node
  have hs : SortedP n.maxKey (a ++ ([(p, c)] ++ b)) := by
    rw [ok.hmax]; have := ok.sorted; rw [he] at this; exact this
  have hs' : SortedP n.maxKey (a ++ (m ++ b)) := by
    rw [ok.hmax]; have := ok'.sorted; rw [he'] at this; exact this
  have hlo : hd n.maxKey (a ++ ([(p, c)] ++ b)) = lo := by
    have := ok.hmin; rw [keyAt_zero, he] at this; exact this
  have hin : ∀ k, p.key ≤ k → k < hd n.maxKey b →
      routeL n'.maxKey k n'.pivots = routeL (hd n.maxKey b) k m := by
    intro k k1 k2
    rw [he', hmax]
    exact routeL_mid hm hs' (by rw [hhd]; exact k1) k2
  have hout : ∀ k, lo ≤ k → k < hi → ¬ (p.key ≤ k ∧ k < hd n.maxKey b) →
      routeL n'.maxKey k n'.pivots = routeL n.maxKey k n.pivots := by
    intro k k1 k2 k3
    rw [he', hmax, he]
    exact routeL_out (m := [(p, c)]) (by simp) hm hs hs' hhd (by rw [hlo]; exact k1)
      (by rw [ok.hmax]; exact k2) k3
  refine ⟨good_iff.mpr ⟨ok', fun h0 => absurd h0 hh, ?_⟩, ?_, hin⟩
  · intro k p1 c1 ph1 k1 k2 e
    by_cases hk : p.key ≤ k ∧ k < hd n.maxKey b
    · rw [hin k hk.1 hk.2] at e
      exact hc k hk.1 hk.2 p1 c1 ph1 e
    · rw [hout k k1 k2 hk] at e
      exact (good_iff.mp g).2.2 k p1 c1 ph1 k1 k2 e
  · intro k k1 k2 k3
    obtain ⟨p1, c1, ph1, e⟩ := ok.route (k := k)
    rw [view_eq e, view_eq ((hout k k1 k2 k3).trans e)]
    unfold mkLvl
    rw [ok.hmin, ok'.hmin, hid, hend, hw, hbu, hmax]

theorem NodeOk.mid {n n' : Node K V F C} {lo hi : K}
    {a b m : List (PData K F × C)} {p : PData K F} {c : C} (ok : NodeOk n lo hi)
    (he : n.pivots = a ++ (p, c) :: b) (he' : n'.pivots = a ++ (m ++ b)) (hmax : n'.maxKey = n.maxKey)
    (hend : n'.endB = n.endB) (hw : n'.whole = n.whole) (hbu : n'.bundles = n.bundles)
    (hm : m ≠ []) (hhd : hd n.maxKey m = p.key) (hsm : SortedP (hd n.maxKey b) m)
    (hskip : ∀ x ∈ m, x.1.wskip ≤ n.whole.length ∧ x.1.bskip ≤ n.bundles.length ∧
      (0 < x.1.bskip → x.1.wskip = n.whole.length))
    (hgen : ∀ x ∈ m, x.1.gen = p.gen ∨ n.nextGen ≤ x.1.gen ∧ x.1.gen < n'.nextGen)
    (hgn : (m.map (·.1.gen)).Nodup) (hg : n.nextGen ≤ n'.nextGen) : NodeOk n' lo hi := by
  have hhm : hd n.maxKey (m ++ b) = hd n.maxKey m := by
    cases m with
    | nil => exact absurd rfl hm
    | cons x m => rfl
  have hs : SortedP n.maxKey (a ++ ((p, c) :: b)) := by
    rw [ok.hmax]; have := ok.sorted; rw [he] at this; exact this
  have hold : ∀ x ∈ n'.pivots, x ∈ n.pivots ∨ x ∈ m := by
    intro x hx
    rw [he'] at hx; rw [he]
    simp only [List.mem_append, List.mem_cons] at hx ⊢
    rcases hx with h | h | h
    · exact .inl (.inl h)
    · exact .inr h
    · exact .inl (.inr (.inr h))
  constructor
  · rw [hmax]; exact ok.hmax
  · have h0 := ok.hmin
    rw [keyAt_zero, he] at h0
    rw [keyAt_zero, he', hmax]
    cases a with
    | nil => exact hhm.trans (hhd.trans h0)
    | cons x a => exact h0
  · rw [he']; simp [hm]
  · rw [he', ← ok.hmax]
    have h2 : SortedP n.maxKey (m ++ b) := hsm.append hs.right.tail hs.right.tail.hd_le
    refine SortedP.append ?_ h2 h2.hd_le
    rw [hhm, hhd]
    exact hs.left
  · intro x hx
    rw [hw]
    rcases hold x hx with h | h
    · exact ok.wskip x h
    · exact (hskip x h).1
  · intro x hx
    rw [hbu]
    rcases hold x hx with h | h
    · exact ok.bskip x h
    · exact (hskip x h).2.1
  · intro x hx
    rw [hw]
    rcases hold x hx with h | h
    · exact ok.skip x h
    · exact (hskip x h).2.2
  · have hg0 := ok.gens
    rw [he] at hg0
    rw [he']
    simp only [List.map_append, List.map_cons] at hg0 ⊢
    rw [List.nodup_append] at hg0 ⊢
    obtain ⟨g1, g2, g3⟩ := hg0
    rw [List.nodup_cons] at g2
    have hlt : ∀ x ∈ n.pivots, x.1.gen < n.nextGen := ok.genLt
    rw [he] at hlt
    have hma : ∀ y ∈ m.map (·.1.gen), y = p.gen ∨ n.nextGen ≤ y := by
      intro y hy
      obtain ⟨x, hx, rfl⟩ := List.mem_map.mp hy
      rcases hgen x hx with h | h
      · exact .inl h
      · exact .inr h.1
    refine ⟨g1, ?_, ?_⟩
    · rw [List.nodup_append]
      refine ⟨hgn, g2.2, ?_⟩
      rintro y hy z hz rfl
      rcases hma y hy with h | h
      · rw [h] at hz; exact g2.1 hz
      · obtain ⟨x, hx, e⟩ := List.mem_map.mp hz
        have := hlt x (by simp [hx])
        omega
    · intro y hy z hz
      rcases List.mem_append.mp hz with hz | hz
      · rintro rfl
        rcases hma y hz with h | h
        · exact g3 y hy p.gen List.mem_cons_self h
        · obtain ⟨x, hx, e⟩ := List.mem_map.mp hy
          have := hlt x (by simp [hx])
          omega
      · exact g3 y hy z (List.mem_cons_of_mem _ hz)
  · intro x hx
    rcases hold x hx with h | h
    · have := ok.genLt x h; omega
    · rcases hgen x h with h' | h'
      · have := ok.genLt (p, c) (by rw [he]; simp)
        simp only at this
        omega
      · exact h'.2
  · rw [hbu]; exact ok.nos
  · rw [hbu, hend]; exact ok.noLt
  · rw [hw]; exact ok.runsW
  · rw [hbu]; exact ok.runsB

/-! ### Flush -/

def Lvl.flushSbs (l : Lvl K V F) : List (SB K V F) :=
  (if l.whole.isEmpty then [] else [⟨false, l.whole, [l.filter]⟩]) ++ l.bundles.flatMap (·.sbs)

def Lvl.cleared (ops : FilterOps K F) (l : Lvl K V F) : Lvl K V F :=
  { l with whole := [], bundles := [], filter := ops.empty }

theorem flushSbs_sorted {n : Node K V F C} {lo hi : K} (ok : NodeOk n lo hi) (p : PData K F) :
    ∀ sb ∈ flushSbs n p, ∀ br ∈ sb.branches, SortedRun br := by
  intro sb hsb br hbr
  unfold flushSbs at hsb
  rcases List.mem_append.mp hsb with h | h
  · split at h
    · cases h
    · simp only [List.mem_singleton] at h
      subst h
      exact ok.runsW br (List.mem_of_mem_drop hbr)
  · obtain ⟨b, hb, h'⟩ := List.mem_flatMap.mp h
    exact ok.runsB b (List.mem_of_mem_drop hb) sb h' br hbr

theorem Good.flush {j : Nat} {n n' : Node K V F (Node K V F (Sub K V F j))} {lo hi k : K}
    (g : Good (j + 1) n lo hi) (ops : FilterOps K F) (k1 : lo ≤ k) (k2 : k < hi)
    (hf : Trunk.flush ops n (n.find k) = some n') :
    Good (j + 1) n' lo hi ∧ ∃ plo phi, plo ≤ k ∧ k < phi ∧ lo ≤ plo ∧ phi ≤ hi ∧
      (∀ k', lo ≤ k' → k' < hi → ¬ (plo ≤ k' ∧ k' < phi) → view (j + 1) n' k' = view (j + 1) n k') ∧
      ∀ k', plo ≤ k' → k' < phi → ∃ l1 l2 r, view (j + 1) n k' = l1 :: l2 :: r ∧
        l1.plo = plo ∧ l1.phi = phi ∧ l1.flushSbs ≠ [] ∧
        view (j + 1) n' k' = l1.cleared ops :: l2.addBundle l1.flushSbs :: r := by
  have ok := g.node
  obtain ⟨p, c, ph, hr⟩ := ok.route (k := k)
  have hrg := ok.range k1 k2 hr
  obtain ⟨a, b, q1, q2, q3⟩ := ok.find k1 k2 hr
  have hget : n.pivots[n.find k]? = some (p, c) := by rw [q2, q1]; simp
  unfold Trunk.flush at hf
  rw [hget] at hf
  simp only at hf
  split at hf
  · cases hf
  rename_i hne
  simp only [Option.some.injEq] at hf
  have hset : ∀ x, n.pivots.set (n.find k) x = a ++ x :: b := by intro x; rw [q2, q1]; simp
  unfold Node.pivotClear at hf
  simp only [hset] at hf
  rw [q2] at hf
  rw [List.getElem?_append_right (Nat.le_refl _)] at hf
  simp only [Nat.sub_self, List.getElem?_cons_zero] at hf
  rw [List.set_append_right _ _ (Nat.le_refl _)] at hf
  simp only [Nat.sub_self, List.set_cons_zero] at hf
  generalize hp' : ({ p with wskip := n.whole.length, bskip := n.bundles.length, filter := ops.empty } : PData K F) = p' at hf
  generalize hn2 : ({ n with pivots := a ++ (p', c.addBundle (flushSbs n p)) :: b } : Node K V F (Node K V F (Sub K V F j))) = n2 at hf
  have gc : Good j c p.key ph := g.2 k p c ph k1 k2 hr
  obtain ⟨gc', vc'⟩ := Good.addBundle gc (flushSbs_sorted ok p)
  have hpk : p'.key = p.key := by rw [← hp']
  have hgen : p'.gen = p.gen := by rw [← hp']
  have ok2 : NodeOk n2 lo hi := by
    refine NodeOk.mid (m := [(p', c.addBundle (flushSbs n p))]) ok q1 (by rw [← hn2]; rfl) (by rw [← hn2])
      (by rw [← hn2]) (by rw [← hn2]) (by rw [← hn2]) (by simp) hpk ?_ ?_ ?_ (by simp) (by rw [← hn2])
    · refine ⟨List.pairwise_singleton _ _, ?_⟩
      intro x hx
      simp only [List.mem_singleton] at hx
      subst hx
      rw [← q3]
      exact lt_of_le_of_lt (by rw [hpk]; exact hrg.2.1) hrg.2.2.1
    · intro x hx
      simp only [List.mem_singleton] at hx
      subst hx
      rw [← hp']
      exact ⟨Nat.le_refl _, Nat.le_refl _, fun _ => rfl⟩
    · intro x hx
      simp only [List.mem_singleton] at hx
      subst hx
      exact .inl hgen
  obtain ⟨g2, v2o, v2i⟩ := Good.mid (h := j + 1) (n := n) (n' := n2) (m := [(p', c.addBundle (flushSbs n p))])
    g q1 (by rw [← hn2]; rfl) (by rw [← hn2]) (by rw [← hn2]) (by rw [← hn2]) (by rw [← hn2])
    (by rw [← hn2]) (by simp) hpk ok2 (by omega) (by
      intro k' e1 e2 p1 c1 ph1 e3
      simp only [routeL, Option.some.injEq, Prod.mk.injEq] at e3
      obtain ⟨rfl, rfl, rfl⟩ := e3
      rw [hpk, ← q3]; exact gc')
  obtain ⟨g3, v3⟩ := g2.resetStart (by omega)
  have hview : Good (j + 1) n' lo hi ∧ ∀ k', lo ≤ k' → k' < hi → view (j + 1) n' k' = view (j + 1) n2 k' := by
    rw [← hf]
    split
    · exact ⟨g3, v3⟩
    · exact ⟨g2, fun _ _ _ => rfl⟩
  refine ⟨hview.1, p.key, ph, hrg.2.1, hrg.2.2.1, hrg.2.2.2.1, hrg.2.2.2.2, ?_, ?_⟩
  · intro k' e1 e2 e3
    rw [hview.2 k' e1 e2]
    exact v2o k' e1 e2 (by rw [← q3]; exact e3)
  · intro k' e1 e2
    have e1' := le_trans hrg.2.2.2.1 e1
    have e2' := lt_of_lt_of_le e2 hrg.2.2.2.2
    have hr' := ok.congr k1 k2 hr e1 e2
    have hr2 := v2i k' e1 (by rw [← q3]; exact e2)
    have hr2' : routeL n2.maxKey k' n2.pivots = some (p', c.addBundle (flushSbs n p), ph) := by
      rw [hr2, ← q3]; rfl
    obtain ⟨p2, c2, ph2, r2, _, hv2, _⟩ := view_cons j c p.key ph k' gc e1 e2
    have hv' := vc' k' e1 e2 _ _ hv2
    refine ⟨mkLvl (j + 1) n p ph, mkLvl j c p2 ph2, r2, ?_, rfl, rfl, ?_, ?_⟩
    · rw [view_eq (h := j + 1) hr']
      show _ :: view j c k' = _
      rw [hv2]
    · intro hnil
      exact hne (by
        have : flushSbs n p = [] := hnil
        rw [this]; rfl)
    · rw [hview.2 k' e1' e2', view_eq (h := j + 1) hr2']
      show _ :: view j (c.addBundle _) k' = _
      rw [hv']
      congr 1
      unfold mkLvl Lvl.cleared
      rw [ok2.hmin, ok.hmin, ← hn2, ← hp']
      simp

/-! ### Child splits -/

/-- Consecutive parts covering `[lo, hi)`. -/
def Parts (P : Node K V F C → K → K → Prop) : List (Node K V F C) → K → K → Prop
  | [], _, _ => False
  | [c], lo, hi => P c lo hi
  | c :: c' :: cs, lo, hi => P c lo (c'.keyAt 0) ∧ Parts P (c' :: cs) (c'.keyAt 0) hi

theorem addPivots_spec (P : Node K V F C → K → K → Prop) (hP : ∀ c lo hi, P c lo hi → lo < hi) :
    ∀ (cs : List (Node K V F C)) (p : PData K F) (g : Nat) (hi : K), Parts P cs p.key hi → p.gen < g →
    ∀ m g', addPivots p g (fun c => c.keyAt 0) cs = (m, g') →
    m ≠ [] ∧ (∀ mx, hd mx m = p.key) ∧ SortedP hi m ∧ g ≤ g' ∧ (m.map (·.1.gen)).Nodup ∧
    (∀ x ∈ m, x.1.wskip = p.wskip ∧ x.1.bskip = p.bskip ∧ x.1.filter = p.filter ∧
      (x.1.gen = p.gen ∨ g ≤ x.1.gen ∧ x.1.gen < g') ∧ p.key ≤ x.1.key) ∧
    (∀ k p1 c1 ph1, p.key ≤ k → k < hi → routeL hi k m = some (p1, c1, ph1) → P c1 p1.key ph1)
  | [], p, g, hi, hp, _, _, _, _ => absurd hp (by simp [Parts])
  | [c], p, g, hi, hp, hg, m, g', e => by
    simp only [addPivots, Prod.mk.injEq] at e
    obtain ⟨rfl, rfl⟩ := e
    refine ⟨by simp, fun _ => rfl, ⟨List.pairwise_singleton _ _, ?_⟩, Nat.le_refl _, by simp, ?_, ?_⟩
    · intro x hx
      simp only [List.mem_singleton] at hx
      subst hx
      exact hP _ _ _ hp
    · intro x hx
      simp only [List.mem_singleton] at hx
      subst hx
      exact ⟨rfl, rfl, rfl, .inl rfl, le_refl _⟩
    · intro k p1 c1 ph1 _ _ e
      simp only [routeL, Option.some.injEq, Prod.mk.injEq] at e
      obtain ⟨rfl, rfl, rfl⟩ := e
      exact hp
  | c :: c' :: cs, p, g, hi, hp, hg, m, g', e => by
    obtain ⟨hp1, hp2⟩ := hp
    simp only [addPivots, Prod.mk.injEq] at e
    obtain ⟨e1, e2⟩ := e
    obtain ⟨i1, i2, i3, i4, i5, i6, i7⟩ := addPivots_spec P hP (c' :: cs) { p with key := c'.keyAt 0 } (g + 1) hi hp2
      (Nat.lt_succ_of_lt hg) _ _ rfl
    generalize hrr : addPivots { p with key := c'.keyAt 0 } (g + 1) (fun c => c.keyAt 0) (c' :: cs) = rr at *
    have hlt : p.key < c'.keyAt 0 := hP _ _ _ hp1
    obtain ⟨y, ys, hys⟩ := List.exists_cons_of_ne_nil i1
    have hyk : y.1.key = c'.keyAt 0 := by have := i2 hi; rw [hys] at this; exact this
    subst e1 e2
    refine ⟨by simp, fun _ => rfl, ⟨?_, ?_⟩, by omega, ?_, ?_, ?_⟩
    · rw [List.map_cons, List.pairwise_cons]
      refine ⟨?_, i3.1⟩
      intro z hz
      obtain ⟨x, hx, rfl⟩ := List.mem_map.mp hz
      exact lt_of_lt_of_le hlt (i6 x hx).2.2.2.2
    · intro x hx
      rcases List.mem_cons.mp hx with rfl | hx
      · refine lt_trans hlt ?_
        rw [← hyk]; exact i3.2 y (by rw [hys]; exact List.mem_cons_self)
      · exact i3.2 x hx
    · rw [List.map_cons, List.nodup_cons]
      refine ⟨?_, i5⟩
      intro hmem
      obtain ⟨x, hx, e⟩ := List.mem_map.mp hmem
      rcases (i6 x hx).2.2.2.1 with h | h
      · simp only at e h; omega
      · simp only at e h; omega
    · intro x hx
      rcases List.mem_cons.mp hx with rfl | hx
      · exact ⟨rfl, rfl, rfl, .inr ⟨Nat.le_refl _, by simp only; omega⟩, le_refl _⟩
      · obtain ⟨a1, a2, a3, a4, a5⟩ := i6 x hx
        refine ⟨a1, a2, a3, ?_, le_trans (le_of_lt hlt) a5⟩
        rcases a4 with h | h
        · exact .inl h
        · exact .inr ⟨by omega, h.2⟩
    · intro k p1 c1 ph1 k1 k2 e
      rw [hys] at e
      unfold routeL at e
      split at e
      · simp only [Option.some.injEq, Prod.mk.injEq] at e
        obtain ⟨rfl, rfl, rfl⟩ := e
        rw [hyk]; exact hp1
      · rename_i hk
        rw [← hys] at e
        exact i7 k p1 c1 ph1 (by rw [hyk] at hk; exact not_lt.mp hk) k2 e

/-- Level of the parent after its child was split. -/
structure SameBut (l l' : Lvl K V F) : Prop where
  ht : l'.ht = l.ht
  id : l'.id = l.id
  endB : l'.endB = l.endB
  nlo : l'.nlo = l.nlo
  nhi : l'.nhi = l.nhi
  filter : l'.filter = l.filter
  whole : l'.whole = l.whole
  bundles : l'.bundles = l.bundles

theorem Good.replaceChild {j : Nat} {n n' : Node K V F (Node K V F (Sub K V F j))} {lo hi k : K}
    (g : Good (j + 1) n lo hi) (k1 : lo ≤ k) (k2 : k < hi) {cs : List (Node K V F (Sub K V F j))}
    (P : Node K V F (Sub K V F j) → K → K → Prop) {p c ph}
    (hr : routeL n.maxKey k n.pivots = some (p, c, ph))
    (hpe : n.pivotEmpty p = true)
    (hP : ∀ c lo hi, P c lo hi → Good j c lo hi) (hcs : Parts P cs p.key ph)
    (hn' : n' = n.replaceChild (n.find k) cs) :
    Good (j + 1) n' lo hi ∧
      (∀ k', lo ≤ k' → k' < hi → ¬ (p.key ≤ k' ∧ k' < ph) → view (j + 1) n' k' = view (j + 1) n k') ∧
      ∀ k', p.key ≤ k' → k' < ph → ∃ l1 l1' c' lo' hi', lo' ≤ k' ∧ k' < hi' ∧ P c' lo' hi' ∧
        view (j + 1) n k' = l1 :: view j c k' ∧ l1.whole = [] ∧ l1.bundles = [] ∧
        SameBut l1 l1' ∧ view (j + 1) n' k' = l1' :: view j c' k' := by
  have ok := g.node
  have hrg := ok.range k1 k2 hr
  obtain ⟨a, b, q1, q2, q3⟩ := ok.find k1 k2 hr
  have hget : n.pivots[n.find k]? = some (p, c) := by rw [q2, q1]; simp
  have hPlt : ∀ c lo hi, P c lo hi → lo < hi := fun c lo hi h => (hP c lo hi h).node.lt
  have hpg : p.gen < n.nextGen := ok.genLt _ hrg.1
  unfold Node.replaceChild at hn'
  rw [hget] at hn'
  simp only at hn'
  generalize hmg : addPivots p n.nextGen (fun c => c.keyAt 0) cs = mg at hn'
  obtain ⟨m, g'⟩ := mg
  obtain ⟨i1, i2, i3, i4, i5, i6, i7⟩ := addPivots_spec P hPlt cs p n.nextGen ph hcs hpg m g' hmg
  have hpv : n'.pivots = a ++ (m ++ b) := by
    rw [hn', q2, q1]
    simp
  have hwl := ok.wskip _ hrg.1
  have hbl := ok.bskip _ hrg.1
  have hsk := ok.skip _ hrg.1
  have ok' : NodeOk n' lo hi := by
    refine NodeOk.mid ok q1 hpv (by rw [hn']) (by rw [hn']) (by rw [hn']) (by rw [hn']) i1 (i2 _)
      (by rw [← q3]; exact i3) ?_ ?_ i5 (by rw [hn']; exact i4)
    · intro x hx
      obtain ⟨a1, a2, _⟩ := i6 x hx
      rw [a1, a2]
      exact ⟨hwl, hbl, hsk⟩
    · intro x hx
      have := (i6 x hx).2.2.2.1
      rw [hn']; exact this
  obtain ⟨g2, v2o, v2i⟩ := Good.mid (h := j + 1) (n := n) (n' := n') (m := m)
    g q1 hpv (by rw [hn']) (by rw [hn']) (by rw [hn']) (by rw [hn'])
    (by rw [hn']) i1 (i2 _) ok' (by omega) (by
      intro k' e1 e2 p1 c1 ph1 e3
      rw [← q3] at e2 e3
      exact hP _ _ _ (i7 k' p1 c1 ph1 e1 e2 e3))
  refine ⟨g2, fun k' e1 e2 e3 => v2o k' e1 e2 (by rw [← q3]; exact e3), ?_⟩
  intro k' e1 e2
  have hr' := ok.congr k1 k2 hr e1 e2
  have hr2 := v2i k' e1 (by rw [← q3]; exact e2)
  obtain ⟨p1, c1, ph1, e3⟩ := g2.node.route (k := k')
  have e4 := e3
  rw [hr2, ← q3] at e4
  have hrg2 := g2.node.range (le_trans hrg.2.2.2.1 e1) (lt_of_lt_of_le e2 hrg.2.2.2.2) e3
  have hpin : (p1, c1) ∈ m := (routeL_range e4 i3 (by rw [i2]; exact e1) e2).1
  obtain ⟨a1, a2, a3, _⟩ := i6 _ hpin
  unfold Node.pivotEmpty at hpe
  simp only [Bool.and_eq_true, decide_eq_true_eq] at hpe
  refine ⟨mkLvl (j + 1) n p ph, mkLvl (j + 1) n' p1 ph1, c1, p1.key, ph1, hrg2.2.1, hrg2.2.2.1,
    i7 k' p1 c1 ph1 e1 e2 e4, ?_, ?_, ?_, ?_, ?_⟩
  · rw [view_eq (h := j + 1) hr']; rfl
  · exact List.drop_eq_nil_of_le hpe.1
  · exact List.drop_eq_nil_of_le hpe.2
  · constructor
    · rfl
    · show n'.id = n.id; rw [hn']
    · show n'.endB = n.endB; rw [hn']
    · show n'.keyAt 0 = n.keyAt 0; rw [ok.hmin, ok'.hmin]
    · show n'.maxKey = n.maxKey; rw [hn']
    · exact a3
    · show n'.whole.drop p1.wskip = n.whole.drop p.wskip
      simp only at a1; rw [a1, hn']
    · show n'.bundles.drop p1.bskip = n.bundles.drop p.bskip
      simp only at a2; rw [a2, hn']
  · rw [view_eq (h := j + 1) e3]; rfl

/-- A half of a split index node. -/
def HalfOf {j : Nat} (c : Node K V F (Sub K V F (j + 1))) (id : Nat) (c' : Node K V F (Sub K V F (j + 1))) (lo hi : K) : Prop :=
  Good (j + 1) c' lo hi ∧ ∀ k, lo ≤ k → k < hi → ∃ l r, view (j + 1) c k = l :: r ∧
    view (j + 1) c' k = { l with id := id, nlo := lo, nhi := hi } :: r

theorem NodeOk.sub {n n' : Node K V F C} {lo hi lo' hi' : K} (ok : NodeOk n lo hi)
    (hs : n'.pivots.Sublist n.pivots) (hne : n'.pivots ≠ []) (h1 : n'.maxKey = hi') (h2 : n'.keyAt 0 = lo')
    (h3 : SortedP hi' n'.pivots) (h4 : n'.whole = n.whole) (h5 : n'.bundles = n.bundles)
    (h6 : n'.nextGen = n.nextGen) (h7 : n'.endB = n.endB) : NodeOk n' lo' hi' := by
  constructor
  · exact h1
  · exact h2
  · exact hne
  · exact h3
  · intro x hx; rw [h4]; exact ok.wskip x (hs.mem hx)
  · intro x hx; rw [h5]; exact ok.bskip x (hs.mem hx)
  · intro x hx; rw [h4]; exact ok.skip x (hs.mem hx)
  · exact (List.Sublist.map _ hs).nodup ok.gens
  · intro x hx; rw [h6]; exact ok.genLt x (hs.mem hx)
  · rw [h5]; exact ok.nos
  · rw [h5, h7]; exact ok.noLt
  · rw [h4]; exact ok.runsW
  · rw [h5]; exact ok.runsB

theorem Good.splitIndex {j : Nat} {c l r : Node K V F (Sub K V F (j + 1))} {lo hi : K}
    (g : Good (j + 1) c lo hi) {idL idR : Nat} (hs : Trunk.splitIndex c idL idR = some (l, r)) :
    ∃ mid, c.info.pivots[c.info.pivots.length / 2]?.map (·.1.key) = some mid ∧ lo < mid ∧ mid < hi ∧
      l.keyAt 0 = lo ∧ r.keyAt 0 = mid ∧
      HalfOf c idL l lo mid ∧ HalfOf c idR r mid hi := by
  have ok := g.node
  unfold Trunk.splitIndex at hs
  generalize ht : c.pivots.length / 2 = t at hs
  simp only at hs
  split at hs
  · cases hs
  rename_i p c0 hp
  split at hs
  · cases hs
  rename_i ht0
  simp only [Option.some.injEq, Prod.mk.injEq] at hs
  obtain ⟨hl, hrr⟩ := hs
  obtain ⟨htl, hpe⟩ := List.getElem?_eq_some_iff.mp hp
  have hsplit : c.pivots = c.pivots.take t ++ c.pivots.drop t := (List.take_append_drop t _).symm
  have hdrop : c.pivots.drop t = (p, c0) :: c.pivots.drop (t + 1) := by
    rw [List.drop_eq_getElem_cons htl, hpe]
  have htne : c.pivots.take t ≠ [] := by
    intro h
    have := congrArg List.length h
    rw [List.length_take, List.length_nil] at this
    omega
  have hso : SortedP c.maxKey (c.pivots.take t ++ c.pivots.drop t) := by
    rw [← hsplit, ok.hmax]; exact ok.sorted
  have hhd : hd c.maxKey (c.pivots.drop t) = p.key := by rw [hdrop]; rfl
  have hsL : SortedP p.key (c.pivots.take t) := by rw [← hhd]; exact hso.left
  have hsR : SortedP hi (c.pivots.drop t) := by rw [← ok.hmax]; exact hso.right
  have hlo : hd p.key (c.pivots.take t) = lo := by
    have := ok.hmin
    rw [keyAt_zero, hsplit] at this
    cases hx : c.pivots.take t with
    | nil => exact absurd hx htne
    | cons x xs => rw [hx] at this; exact this
  have hmid1 : lo < p.key := by
    cases hx : c.pivots.take t with
    | nil => exact absurd hx htne
    | cons x xs =>
      rw [hx] at hlo hsL
      rw [← hlo]; exact hsL.2 x List.mem_cons_self
  have hmid2 : p.key < hi := hsR.2 (p, c0) (by rw [hdrop]; exact List.mem_cons_self)
  generalize hnl : ({ c with id := idL, maxKey := p.key, pivots := c.pivots.take t } : Node K V F (Sub K V F (j + 1))) = nl at hl
  generalize hnr : ({ c with id := idR, pivots := c.pivots.drop t } : Node K V F (Sub K V F (j + 1))) = nr at hrr
  have okL : NodeOk nl lo p.key := by
    rw [← hnl]
    exact ok.sub (List.take_sublist _ _) htne rfl (by rw [keyAt_zero]; exact hlo) hsL rfl rfl rfl rfl
  have okR : NodeOk nr p.key hi := by
    rw [← hnr]
    refine ok.sub (List.drop_sublist _ _) (by simp [hdrop]) ok.hmax ?_ hsR rfl rfl rfl rfl
    rw [keyAt_zero]
    show hd c.maxKey (c.pivots.drop t) = p.key
    exact hhd
  have rL : ∀ k, lo ≤ k → k < p.key → routeL nl.maxKey k nl.pivots = routeL c.maxKey k c.pivots := by
    intro k k1 k2
    conv_rhs => rw [hsplit]
    rw [routeL_append (by rw [ok.hmax]; exact lt_trans k2 hmid2) _ _ htne hso, hhd, if_pos k2, ← hnl]
  have rR : ∀ k, p.key ≤ k → k < hi → routeL nr.maxKey k nr.pivots = routeL c.maxKey k c.pivots := by
    intro k k1 k2
    conv_rhs => rw [hsplit]
    rw [routeL_append (by rw [ok.hmax]; exact k2) _ _ htne hso, hhd, if_neg (not_lt.mpr k1), ← hnr]
  have gL : Good (j + 1) nl lo p.key := by
    refine good_iff.mpr ⟨okL, fun h => by omega, ?_⟩
    intro k p1 c1 ph1 k1 k2 e
    rw [rL k k1 k2] at e
    exact (good_iff.mp g).2.2 k p1 c1 ph1 k1 (lt_trans k2 hmid2) e
  have gR : Good (j + 1) nr p.key hi := by
    refine good_iff.mpr ⟨okR, fun h => by omega, ?_⟩
    intro k p1 c1 ph1 k1 k2 e
    rw [rR k k1 k2] at e
    exact (good_iff.mp g).2.2 k p1 c1 ph1 (le_trans (le_of_lt hmid1) k1) k2 e
  have hmids : c.info.pivots[c.info.pivots.length / 2]?.map (·.1.key) = some p.key := by
    have e1 : (c.info.pivots.map (·.1)) = c.pivots.map (·.1) := withHi_fst c.maxKey c.pivots
    have e2 : c.info.pivots.length = c.pivots.length := by
      have := congrArg List.length e1; simpa using this
    have e3 : (c.info.pivots.map (·.1))[t]? = some p := by
      rw [e1, List.getElem?_map, hp]; rfl
    rw [e2, ht]
    rw [List.getElem?_map] at e3
    obtain ⟨x, hx, hxp⟩ := Option.map_eq_some_iff.mp e3
    rw [hx, ← hxp]; rfl
  obtain ⟨gL', vL'⟩ := gL.resetStart (by omega)
  obtain ⟨gR', vR'⟩ := gR.resetStart (by omega)
  refine ⟨p.key, hmids, hmid1, hmid2, ?_, ?_, ?_, ?_⟩
  · rw [← hl]; exact gL'.node.hmin
  · rw [← hrr]; exact gR'.node.hmin
  · rw [← hl]
    refine ⟨gL', fun k k1 k2 => ?_⟩
    obtain ⟨p1, c1, ph1, e⟩ := ok.route (k := k)
    refine ⟨_, _, view_eq (h := j + 1) e, ?_⟩
    rw [vL' k k1 k2, view_eq (h := j + 1) ((rL k k1 k2).trans e)]
    unfold mkLvl
    rw [okL.hmin, okL.hmax, ← hnl]
  · rw [← hrr]
    refine ⟨gR', fun k k1 k2 => ?_⟩
    obtain ⟨p1, c1, ph1, e⟩ := ok.route (k := k)
    refine ⟨_, _, view_eq (h := j + 1) e, ?_⟩
    rw [vR' k k1 k2, view_eq (h := j + 1) ((rR k k1 k2).trans e)]
    unfold mkLvl
    rw [okR.hmin, okR.hmax, ← hnr]

end Splinter.Trunk
