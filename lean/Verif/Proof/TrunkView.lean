import Verif.Proof.TrunkRoute
/-!
Well-formed trees and the levels a key passes.
-/
namespace Splinter.Trunk
open Splinter.Merge (SortedRun)
set_option linter.unusedSectionVars false

variable {K V F C : Type} [LinearOrder K]

/-- Inside the replaced part. -/
theorem routeL_mid {mx k : K} {a m b : List (PData K F × C)} (hm : m ≠ [])
    (hs : SortedP mx (a ++ (m ++ b))) (h1 : hd mx m ≤ k) (h2 : k < hd mx b) :
    routeL mx k (a ++ (m ++ b)) = routeL (hd mx b) k m := by
  have hkm : k < mx := lt_of_lt_of_le h2 hs.right.right.hd_le
  have e : routeL mx k (m ++ b) = routeL (hd mx b) k m := by
    rw [routeL_append hkm m b hm hs.right, if_pos h2]
  have hh : hd mx (m ++ b) = hd mx m := by
    cases m with
    | nil => exact absurd rfl hm
    | cons x m => rfl
  by_cases ha : a = []
  · subst ha; exact e
  · rw [routeL_append hkm a _ ha hs, if_neg (by rw [hh]; exact not_lt.mpr h1)]
    exact e

/-- Outside the replaced part. -/
theorem routeL_out {mx k : K} {a m m' b : List (PData K F × C)} (hm : m ≠ []) (hm' : m' ≠ [])
    (hs : SortedP mx (a ++ (m ++ b))) (hs' : SortedP mx (a ++ (m' ++ b))) (he : hd mx m' = hd mx m)
    (h0 : hd mx (a ++ (m ++ b)) ≤ k) (hkm : k < mx) (ho : ¬ (hd mx m ≤ k ∧ k < hd mx b)) :
    routeL mx k (a ++ (m' ++ b)) = routeL mx k (a ++ (m ++ b)) := by
  have hh : hd mx (m ++ b) = hd mx m := by
    cases m with
    | nil => exact absurd rfl hm
    | cons x m => rfl
  have hh' : hd mx (m' ++ b) = hd mx m := by
    rw [← he]
    cases m' with
    | nil => exact absurd rfl hm'
    | cons x m => rfl
  have key : ∀ m'' : List (PData K F × C), m'' ≠ [] → SortedP mx (a ++ (m'' ++ b)) →
      hd mx (m'' ++ b) = hd mx m → ¬ k < hd mx m → routeL mx k (m'' ++ b) = routeL mx k b := by
    intro m'' hne hss _ hk
    have : ¬ k < hd mx b := fun h => ho ⟨not_lt.mp hk, h⟩
    rw [routeL_append hkm m'' b hne hss.right, if_neg this]
  by_cases ha : a = []
  · subst ha
    have : ¬ k < hd mx m := by
      rw [List.nil_append, hh] at h0; exact not_lt.mpr h0
    simp only [List.nil_append]
    rw [key m' hm' hs' hh' this, key m hm hs hh this]
  · rw [routeL_append hkm a _ ha hs, routeL_append hkm a _ ha hs', hh, hh']
    split
    · rfl
    · rename_i hk
      rw [key m' hm' hs' hh' hk, key m hm hs hh hk]

/-- One level on the way of a key: node data, pivot data, live branches and bundles. -/
structure Lvl (K V F : Type) where
  ht : Nat
  id : Nat
  endB : Nat
  nlo : K
  nhi : K
  plo : K
  phi : K
  gen : Nat
  filter : F
  whole : List (Branch K V)
  bundles : List (Bundle K V F)

def mkLvl (ht : Nat) (n : Node K V F C) (p : PData K F) (ph : K) : Lvl K V F :=
  { ht := ht, id := n.id, endB := n.endB, nlo := n.keyAt 0, nhi := n.maxKey, plo := p.key, phi := ph,
    gen := p.gen, filter := p.filter, whole := n.whole.drop p.wskip, bundles := n.bundles.drop p.bskip }

/-- Levels of key `k`, root first. -/
def view : (h : Nat) → Node K V F (Sub K V F h) → K → List (Lvl K V F)
  | 0, n, k =>
    match routeL n.maxKey k n.pivots with
    | none => []
    | some (p, _, ph) => [mkLvl 0 n p ph]
  | h + 1, n, k =>
    match routeL n.maxKey k n.pivots with
    | none => []
    | some (p, c, ph) => mkLvl (h + 1) n p ph :: view h c k

/-- Local well-formedness of a node covering `[lo, hi)`. -/
structure NodeOk (n : Node K V F C) (lo hi : K) : Prop where
  hmax : n.maxKey = hi
  hmin : n.keyAt 0 = lo
  ne : n.pivots ≠ []
  sorted : SortedP hi n.pivots
  wskip : ∀ x ∈ n.pivots, x.1.wskip ≤ n.whole.length
  bskip : ∀ x ∈ n.pivots, x.1.bskip ≤ n.bundles.length
  skip : ∀ x ∈ n.pivots, 0 < x.1.bskip → x.1.wskip = n.whole.length
  gens : (n.pivots.map (·.1.gen)).Nodup
  genLt : ∀ x ∈ n.pivots, x.1.gen < n.nextGen
  nos : (n.bundles.map (·.no)).Pairwise (· < ·)
  noLt : ∀ b ∈ n.bundles, b.no < n.endB
  runsW : ∀ b ∈ n.whole, SortedRun b
  runsB : ∀ b ∈ n.bundles, ∀ sb ∈ b.sbs, ∀ br ∈ sb.branches, SortedRun br

/-- A leaf has one pivot and skips nothing. -/
def LeafOk (n : Node K V F C) : Prop := ∃ p c, n.pivots = [(p, c)] ∧ p.wskip = 0 ∧ p.bskip = 0

/-- Well-formed tree of height `h` covering `[lo, hi)`. -/
def Good : (h : Nat) → Node K V F (Sub K V F h) → K → K → Prop
  | 0, n, lo, hi => NodeOk n lo hi ∧ LeafOk n
  | h + 1, n, lo, hi => NodeOk n lo hi ∧
      ∀ k p c ph, lo ≤ k → k < hi → routeL n.maxKey k n.pivots = some (p, c, ph) → Good h c p.key ph

theorem Good.node {h : Nat} {n : Node K V F (Sub K V F h)} {lo hi : K} (g : Good h n lo hi) :
    NodeOk n lo hi := by
  cases h <;> exact g.1

theorem NodeOk.lt {n : Node K V F C} {lo hi : K} (g : NodeOk n lo hi) : lo < hi := by
  have h1 := g.hmin
  rw [keyAt_zero, g.hmax] at h1
  have h2 := g.ne
  cases hp : n.pivots with
  | nil => exact absurd hp h2
  | cons x l =>
    rw [hp] at h1
    rw [← h1]
    exact g.sorted.2 x (by rw [hp]; exact List.mem_cons_self)

theorem NodeOk.route {n : Node K V F C} {lo hi k : K} (g : NodeOk n lo hi) :
    ∃ p c ph, routeL n.maxKey k n.pivots = some (p, c, ph) := by
  have := routeL_isSome n.maxKey k n.pivots g.ne
  obtain ⟨⟨p, c, ph⟩, h⟩ := Option.isSome_iff_exists.mp this
  exact ⟨p, c, ph, h⟩

theorem NodeOk.range {n : Node K V F C} {lo hi k : K} (g : NodeOk n lo hi) (h1 : lo ≤ k) (h2 : k < hi)
    {p c ph} (hr : routeL n.maxKey k n.pivots = some (p, c, ph)) :
    (p, c) ∈ n.pivots ∧ p.key ≤ k ∧ k < ph ∧ lo ≤ p.key ∧ ph ≤ hi := by
  have hl := g.hmin
  rw [keyAt_zero] at hl
  have := routeL_range hr (by rw [g.hmax]; exact g.sorted) (by rw [hl]; exact h1) (by rw [g.hmax]; exact h2)
  rw [hl, g.hmax] at this
  exact this

theorem NodeOk.congr {n : Node K V F C} {lo hi k k' : K} (g : NodeOk n lo hi) (h1 : lo ≤ k) (h2 : k < hi)
    {p c ph} (hr : routeL n.maxKey k n.pivots = some (p, c, ph)) (h3 : p.key ≤ k') (h4 : k' < ph) :
    routeL n.maxKey k' n.pivots = some (p, c, ph) := by
  have hl := g.hmin
  rw [keyAt_zero] at hl
  exact routeL_congr hr (by rw [g.hmax]; exact g.sorted) (by rw [hl]; exact h1) (by rw [g.hmax]; exact h2) h3 h4

theorem NodeOk.find {n : Node K V F C} {lo hi k : K} (g : NodeOk n lo hi) (h1 : lo ≤ k) (h2 : k < hi)
    {p c ph} (hr : routeL n.maxKey k n.pivots = some (p, c, ph)) :
    ∃ a b, n.pivots = a ++ (p, c) :: b ∧ n.find k = a.length ∧ ph = hd n.maxKey b :=
  find_decomp n k (by rw [g.hmax]; exact g.sorted) (by rw [g.hmin]; exact h1) (by rw [g.hmax]; exact h2) hr

/-- Heights of the levels. -/
theorem view_ht : ∀ (h : Nat) (n : Node K V F (Sub K V F h)) (lo hi k : K), Good h n lo hi → lo ≤ k → k < hi →
    ∀ l ∈ view h n k, l.ht ≤ h
  | 0, n, lo, hi, k, g, h1, h2, l, hl => by
    obtain ⟨p, c, ph, hr⟩ := g.node.route (k := k)
    simp only [view, hr, List.mem_singleton] at hl
    subst hl; exact Nat.le_refl _
  | h + 1, n, lo, hi, k, g, h1, h2, l, hl => by
    obtain ⟨p, c, ph, hr⟩ := g.node.route (k := k)
    simp only [view, hr, List.mem_cons] at hl
    have hrg := g.node.range h1 h2 hr
    rcases hl with rfl | hl
    · exact Nat.le_refl _
    · have := view_ht h c p.key ph k (g.2 k p c ph h1 h2 hr) hrg.2.1 hrg.2.2.1 l hl
      omega

/-- `view` is a head level followed by lower ones. -/
theorem view_cons (h : Nat) (n : Node K V F (Sub K V F h)) (lo hi k : K) (g : Good h n lo hi) (h1 : lo ≤ k)
    (h2 : k < hi) : ∃ p c ph rest, routeL n.maxKey k n.pivots = some (p, c, ph) ∧
      view h n k = mkLvl h n p ph :: rest ∧ ∀ l ∈ rest, l.ht < h := by
  obtain ⟨p, c, ph, hr⟩ := g.node.route (k := k)
  cases h with
  | zero => exact ⟨p, c, ph, [], hr, by simp [view, hr], by simp⟩
  | succ h =>
    have hrg := g.node.range h1 h2 hr
    refine ⟨p, c, ph, view h c k, hr, by simp [view, hr], fun l hl => ?_⟩
    have := view_ht h c p.key ph k (g.2 k p c ph h1 h2 hr) hrg.2.1 hrg.2.2.1 l hl
    omega

/-- The node `nodeAt` finds. -/
theorem nodeAt_spec (j : Nat) (k : K) : ∀ (h : Nat) (n : Node K V F (Sub K V F h)) (lo hi : K),
    Good h n lo hi → lo ≤ k → k < hi → j ≤ h →
    ∃ (nd : Node K V F (Sub K V F j)) (nlo nhi : K), nodeAt j k h n = some nd.info ∧ Good j nd nlo nhi ∧
      nlo ≤ k ∧ k < nhi ∧ lo ≤ nlo ∧ nhi ≤ hi ∧
      ∀ k', nlo ≤ k' → k' < nhi → ∃ pre, (∀ l ∈ pre, j < l.ht) ∧ view h n k' = pre ++ view j nd k'
  | 0, n, lo, hi, g, h1, h2, hj => by
    obtain rfl : j = 0 := by omega
    exact ⟨n, lo, hi, by simp [nodeAt], g, h1, h2, le_refl _, le_refl _, fun k' _ _ => ⟨[], by simp, rfl⟩⟩
  | h + 1, n, lo, hi, g, h1, h2, hj => by
    by_cases hjh : h + 1 = j
    · subst hjh
      exact ⟨n, lo, hi, by simp [nodeAt], g, h1, h2, le_refl _, le_refl _, fun k' _ _ => ⟨[], by simp, rfl⟩⟩
    · obtain ⟨p, c, ph, hr⟩ := g.node.route (k := k)
      have hrg := g.node.range h1 h2 hr
      obtain ⟨nd, nlo, nhi, e1, e2, e3, e4, e5, e6, e7⟩ :=
        nodeAt_spec j k h c p.key ph (g.2 k p c ph h1 h2 hr) hrg.2.1 hrg.2.2.1 (by omega)
      have hf : n.pivots[n.find k]? = some (p, c) := by
        obtain ⟨a, b, q1, q2, _⟩ := g.node.find h1 h2 hr
        rw [q2, q1]; simp
      refine ⟨nd, nlo, nhi, by simp [nodeAt, hjh, hf, e1], e2, e3, e4,
        le_trans hrg.2.2.2.1 e5, le_trans e6 hrg.2.2.2.2, fun k' k1 k2 => ?_⟩
      obtain ⟨pre, p1, p2⟩ := e7 k' k1 k2
      have hr' := g.node.congr h1 h2 hr (le_trans e5 k1) (lt_of_lt_of_le k2 e6)
      refine ⟨mkLvl (h + 1) n p ph :: pre, ?_, by simp [view, hr', p2]⟩
      intro l hl
      rcases List.mem_cons.mp hl with rfl | hl
      · show j < h + 1; omega
      · exact p1 l hl

theorem keyAt_set_zero {n : Node K V F C} {a b : List (PData K F × C)} {p c} (c' : C)
    (he : n.pivots = a ++ (p, c) :: b) :
    Node.keyAt { n with pivots := a ++ (p, c') :: b } 0 = n.keyAt 0 := by
  rw [keyAt_zero, keyAt_zero, he]
  cases a <;> rfl

theorem SortedP.congr {D : Type} {mx : K} {l : List (PData K F × C)} {l' : List (PData K F × D)} (h : SortedP mx l)
    (e : l'.map (·.1.key) = l.map (·.1.key)) : SortedP mx l' := by
  refine ⟨by rw [e]; exact h.1, fun x hx => ?_⟩
  have : x.1.key ∈ l'.map (·.1.key) := List.mem_map_of_mem hx
  rw [e] at this
  obtain ⟨y, hy, e2⟩ := List.mem_map.mp this
  rw [← e2]; exact h.2 y hy

theorem NodeOk.setChild {n : Node K V F C} {lo hi : K} {a b : List (PData K F × C)} {p c} (c' : C)
    (g : NodeOk n lo hi) (he : n.pivots = a ++ (p, c) :: b) :
    NodeOk { n with pivots := a ++ (p, c') :: b } lo hi := by
  have hm : ∀ x ∈ a ++ (p, c') :: b, ∃ y ∈ n.pivots, y.1 = x.1 := by
    intro x hx
    rw [he]
    rcases List.mem_append.mp hx with h | h
    · exact ⟨x, List.mem_append_left _ h, rfl⟩
    · rcases List.mem_cons.mp h with rfl | h
      · exact ⟨(p, c), by simp, rfl⟩
      · exact ⟨x, by simp [h], rfl⟩
  constructor
  · exact g.hmax
  · rw [keyAt_set_zero c' he]; exact g.hmin
  · simp
  · exact g.sorted.congr (by rw [he]; simp)
  · intro x hx; obtain ⟨y, hy, e⟩ := hm x hx; rw [← e]; exact g.wskip y hy
  · intro x hx; obtain ⟨y, hy, e⟩ := hm x hx; rw [← e]; exact g.bskip y hy
  · intro x hx; obtain ⟨y, hy, e⟩ := hm x hx; rw [← e]; exact g.skip y hy
  · have := g.gens; rw [he] at this; simpa using this
  · intro x hx; obtain ⟨y, hy, e⟩ := hm x hx; rw [← e]; exact g.genLt y hy
  · exact g.nos
  · exact g.noLt
  · exact g.runsW
  · exact g.runsB

/-- Update of one node, seen key by key. -/
theorem upd_spec (j : Nat) (k : K)
    (f : (h : Nat) → Node K V F (Sub K V F h) → Option (Node K V F (Sub K V F h))) :
    ∀ (h : Nat) (n n' : Node K V F (Sub K V F h)) (lo hi : K),
    Good h n lo hi → lo ≤ k → k < hi → upd j k f h n = some n' →
    j ≤ h ∧ ∃ (nd nd' : Node K V F (Sub K V F j)) (nlo nhi : K),
      ((∀ i, i ≤ j → nodeAt i k h n = nodeAt i k j nd) ∧ leafGen k h n = leafGen k j nd ∧
        nodeAt j k h n = some nd.info) ∧ Good j nd nlo nhi ∧
      nlo ≤ k ∧ k < nhi ∧ lo ≤ nlo ∧ nhi ≤ hi ∧ f j nd = some nd' ∧
      (Good j nd' nlo nhi → Good h n' lo hi) ∧
      (∀ k', lo ≤ k' → k' < hi → ¬ (nlo ≤ k' ∧ k' < nhi) → view h n' k' = view h n k') ∧
      ∀ k', nlo ≤ k' → k' < nhi → ∃ pre, (∀ l ∈ pre, j < l.ht) ∧
        view h n k' = pre ++ view j nd k' ∧ view h n' k' = pre ++ view j nd' k'
  | 0, n, n', lo, hi, g, h1, h2, hu => by
    unfold upd at hu
    split at hu
    · rename_i hj; subst hj
      exact ⟨Nat.le_refl _, n, n', lo, hi, ⟨fun _ _ => rfl, rfl, by simp [nodeAt]⟩, g, h1, h2, le_refl _, le_refl _, hu, id,
        fun k' a b c => absurd ⟨a, b⟩ c, fun k' _ _ => ⟨[], by simp, rfl, rfl⟩⟩
    · cases hu
  | h + 1, n, n', lo, hi, g, h1, h2, hu => by
    unfold upd at hu
    by_cases hjh : h + 1 = j
    · subst hjh
      rw [if_pos rfl] at hu
      exact ⟨Nat.le_refl _, n, n', lo, hi, ⟨fun _ _ => rfl, rfl, by simp [nodeAt]⟩, g, h1, h2, le_refl _, le_refl _, hu, id,
        fun k' a b c => absurd ⟨a, b⟩ c, fun k' _ _ => ⟨[], by simp, rfl, rfl⟩⟩
    · rw [if_neg hjh] at hu
      obtain ⟨p, c, ph, hr⟩ := g.node.route (k := k)
      have hrg := g.node.range h1 h2 hr
      obtain ⟨a, b, q1, q2, q3⟩ := g.node.find h1 h2 hr
      have hf : n.pivots[n.find k]? = some (p, c) := by rw [q2, q1]; simp
      rw [hf] at hu
      simp only at hu
      cases hc : upd j k f h c with
      | none => rw [hc] at hu; cases hu
      | some c'0 =>
        rw [hc] at hu
        obtain ⟨c', hcc⟩ : ∃ c' : Sub K V F (h + 1), c' = c'0 := ⟨_, rfl⟩
        subst hcc
        simp only [Option.some.injEq] at hu
        have hset : n.pivots.set (n.find k) (p, c') = a ++ (p, c') :: b := by
          rw [q2, q1]; simp
        rw [hset] at hu
        obtain ⟨hj, nd, nd', nlo, nhi, e1, e2, e3, e4, e5, e6, e7, e8, e9, e10⟩ :=
          upd_spec j k f h c c' p.key ph (g.2 k p c ph h1 h2 hr) hrg.2.1 hrg.2.2.1 hc
        have hsort : SortedP n.maxKey (a ++ ([(p, c)] ++ b)) := by
          rw [g.1.hmax]; have := g.1.sorted; rw [q1] at this; exact this
        have hsort' : SortedP n.maxKey (a ++ ([(p, c')] ++ b)) :=
          hsort.congr (by simp)
        have hin : ∀ k', p.key ≤ k' → k' < ph →
            routeL n.maxKey k' (a ++ (p, c') :: b) = some (p, c', ph) := by
          intro k' a1 a2
          have := routeL_mid (m := [(p, c')]) (by simp) hsort' a1 (by rw [← q3]; exact a2)
          rw [← q3] at this
          exact this
        have hlo : hd n.maxKey (a ++ ([(p, c)] ++ b)) = lo := by
          have := g.1.hmin; rw [keyAt_zero, q1] at this; exact this
        have hout : ∀ k', lo ≤ k' → k' < hi → ¬ (p.key ≤ k' ∧ k' < ph) →
            routeL n.maxKey k' (a ++ (p, c') :: b) = routeL n.maxKey k' n.pivots := by
          intro k' a1 a2 a3
          rw [q1]
          exact routeL_out (m := [(p, c)]) (m' := [(p, c')]) (by simp) (by simp) hsort hsort' rfl
            (by rw [hlo]; exact a1) (by rw [g.1.hmax]; exact a2) (by rw [← q3]; exact a3)
        have hin0 : ∀ k', p.key ≤ k' → k' < ph → routeL n.maxKey k' n.pivots = some (p, c, ph) :=
          fun k' => g.1.congr h1 h2 hr
        refine ⟨by omega, nd, nd', nlo, nhi, ⟨fun i hi => ?_, ?_, by simp [nodeAt, hjh, hf, e1.2.2]⟩, e2, e3, e4,
          le_trans hrg.2.2.2.1 e5, le_trans e6 hrg.2.2.2.2, e7, ?_, ?_, ?_⟩
        · rw [← e1.1 i hi]
          simp [nodeAt, show h + 1 ≠ i by omega, hf]
        · rw [← e1.2.1]
          simp [leafGen, hf]
        · intro gd
          rw [← hu]
          refine ⟨g.1.setChild c' q1, ?_⟩
          intro k' p1 c1 ph1 b1 b2 b3
          by_cases hk : p.key ≤ k' ∧ k' < ph
          · rw [show routeL _ k' _ = _ from hin k' hk.1 hk.2] at b3
            cases b3; exact e8 gd
          · rw [show routeL _ k' _ = _ from hout k' b1 b2 hk] at b3
            exact g.2 k' p1 c1 ph1 b1 b2 b3
        · intro k' b1 b2 b3
          rw [← hu]
          unfold view
          by_cases hk : p.key ≤ k' ∧ k' < ph
          · rw [show routeL _ k' _ = _ from hin k' hk.1 hk.2, hin0 k' hk.1 hk.2]
            simp only
            rw [e9 k' hk.1 hk.2 b3]
            congr 1
            unfold mkLvl
            simp only
            rw [keyAt_set_zero c' q1]
          · rw [show routeL _ k' _ = _ from hout k' b1 b2 hk]
            obtain ⟨p1, c1, ph1, hr1⟩ := g.1.route (k := k')
            rw [hr1]
            simp only
            congr 1
            unfold mkLvl
            simp only
            rw [keyAt_set_zero c' q1]
        · intro k' b1 b2
          have hk : p.key ≤ k' ∧ k' < ph := ⟨le_trans e5 b1, lt_of_lt_of_le b2 e6⟩
          obtain ⟨pre, p1, p2, p3⟩ := e10 k' b1 b2
          refine ⟨mkLvl (h + 1) n p ph :: pre, ?_, ?_, ?_⟩
          · intro l hl
            rcases List.mem_cons.mp hl with rfl | hl
            · show j < h + 1; omega
            · exact p1 l hl
          · simp [view, hin0 k' hk.1 hk.2, p2]
          · rw [← hu]
            conv_lhs => unfold view
            rw [show routeL _ k' _ = _ from hin k' hk.1 hk.2]
            simp only [p3, List.cons_append]
            congr 1
            unfold mkLvl
            simp only
            rw [keyAt_set_zero c' q1]

/-- Levels are determined by their height. -/
theorem view_unique : ∀ (h : Nat) (n : Node K V F (Sub K V F h)) (lo hi k : K), Good h n lo hi → lo ≤ k → k < hi →
    ∀ l ∈ view h n k, ∀ l' ∈ view h n k, l.ht = l'.ht → l = l'
  | 0, n, lo, hi, k, g, h1, h2, l, hl, l', hl', _ => by
    obtain ⟨p, c, ph, hr⟩ := g.node.route (k := k)
    simp only [view, hr, List.mem_singleton] at hl hl'
    rw [hl, hl']
  | h + 1, n, lo, hi, k, g, h1, h2, l, hl, l', hl', e => by
    obtain ⟨p, c, ph, hr⟩ := g.node.route (k := k)
    have hrg := g.node.range h1 h2 hr
    have gc := g.2 k p c ph h1 h2 hr
    have ih := view_unique h c p.key ph k gc hrg.2.1 hrg.2.2.1
    have hh := view_ht h c p.key ph k gc hrg.2.1 hrg.2.2.1
    simp only [view, hr, List.mem_cons] at hl hl'
    rcases hl with rfl | hl <;> rcases hl' with rfl | hl'
    · rfl
    · have := hh l' hl'; have : h + 1 = l'.ht := e; omega
    · have := hh l hl; have : l.ht = h + 1 := e; omega
    · exact ih l hl l' hl' e

end Splinter.Trunk
