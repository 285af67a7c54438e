import Verif.Model.Trunk
import Verif.Props.Search
/-!
Routing in the trunk and the per-key view of a tree: for each key the levels it
passes on its way to a leaf.
-/
namespace Splinter.Trunk
set_option linter.unusedSectionVars false

variable {K V F C : Type} [LinearOrder K]

/-- Last pivot not above `k`, with its child and upper bound. -/
def routeL (mx : K) (k : K) : List (PData K F × C) → Option (PData K F × C × K)
  | [] => none
  | [x] => some (x.1, x.2, mx)
  | x :: y :: r => if k < y.1.key then some (x.1, x.2, y.1.key) else routeL mx k (y :: r)

/-- Key of the first pivot, `mx` if there is none. -/
def hd (mx : K) : List (PData K F × C) → K
  | [] => mx
  | x :: _ => x.1.key

/-- Keys strictly increase and stay below `mx`. -/
def SortedP (mx : K) (l : List (PData K F × C)) : Prop :=
  (l.map (·.1.key)).Pairwise (· < ·) ∧ ∀ x ∈ l, x.1.key < mx

theorem SortedP.tail {mx : K} {x : PData K F × C} {l : List (PData K F × C)}
    (h : SortedP mx (x :: l)) : SortedP mx l :=
  ⟨(List.pairwise_cons.mp h.1).2, fun y hy => h.2 y (List.mem_cons_of_mem _ hy)⟩

theorem SortedP.head {mx : K} {x y : PData K F × C} {l : List (PData K F × C)}
    (h : SortedP mx (x :: l)) (hy : y ∈ l) : x.1.key < y.1.key :=
  (List.pairwise_cons.mp h.1).1 _ (List.mem_map_of_mem hy)

theorem SortedP.head_lt_hd {mx : K} {x : PData K F × C} {l : List (PData K F × C)}
    (h : SortedP mx (x :: l)) : x.1.key < hd mx l := by
  cases l with
  | nil => exact h.2 x List.mem_cons_self
  | cons y l => exact h.head List.mem_cons_self

theorem routeL_isSome (mx k : K) : ∀ l : List (PData K F × C), l ≠ [] → (routeL mx k l).isSome
  | [], h => absurd rfl h
  | [_], _ => rfl
  | x :: y :: r, _ => by
    unfold routeL
    split
    · rfl
    · exact routeL_isSome mx k (y :: r) (by simp)

/-- Range containment of the routed pivot. -/
theorem routeL_range {mx k : K} : ∀ {l : List (PData K F × C)} {p c ph},
    routeL mx k l = some (p, c, ph) → SortedP mx l → hd mx l ≤ k → k < mx →
    (p, c) ∈ l ∧ p.key ≤ k ∧ k < ph ∧ hd mx l ≤ p.key ∧ ph ≤ mx
  | [], _, _, _, h, _, _, _ => by simp [routeL] at h
  | [x], p, c, ph, h, hs, h1, h2 => by
    simp only [routeL, Option.some.injEq, Prod.mk.injEq] at h
    obtain ⟨rfl, rfl, rfl⟩ := h
    exact ⟨List.mem_cons_self, h1, h2, le_refl _, le_refl _⟩
  | x :: y :: r, p, c, ph, h, hs, h1, h2 => by
    unfold routeL at h
    split at h
    · rename_i hk
      simp only [Option.some.injEq, Prod.mk.injEq] at h
      obtain ⟨rfl, rfl, rfl⟩ := h
      exact ⟨List.mem_cons_self, h1, hk, le_refl _, le_of_lt (hs.tail.2 y List.mem_cons_self)⟩
    · rename_i hk
      obtain ⟨a1, a2, a3, a4, a5⟩ := routeL_range h hs.tail (not_lt.mp hk) h2
      exact ⟨List.mem_cons_of_mem _ a1, a2, a3,
        le_trans (le_of_lt (hs.head List.mem_cons_self)) a4, a5⟩

/-- Two keys routed to overlapping ranges are routed to the same pivot. -/
theorem routeL_congr {mx k k' : K} : ∀ {l : List (PData K F × C)} {p c ph},
    routeL mx k l = some (p, c, ph) → SortedP mx l → hd mx l ≤ k → k < mx →
    p.key ≤ k' → k' < ph → routeL mx k' l = some (p, c, ph)
  | [], _, _, _, h, _, _, _, _, _ => by simp [routeL] at h
  | [x], p, c, ph, h, hs, h1, h2, h3, h4 => by simpa [routeL] using h
  | x :: y :: r, p, c, ph, h, hs, h1, h2, h3, h4 => by
    unfold routeL at h
    split at h
    · rename_i hk
      simp only [Option.some.injEq, Prod.mk.injEq] at h
      obtain ⟨rfl, rfl, rfl⟩ := h
      simp [routeL, h4]
    · rename_i hk
      have hr := routeL_range h hs.tail (not_lt.mp hk) h2
      have : ¬ k' < y.1.key := not_lt.mpr (le_trans hr.2.2.2.1 h3)
      unfold routeL
      rw [if_neg this]
      exact routeL_congr h hs.tail (not_lt.mp hk) h2 h3 h4

theorem SortedP.left {mx : K} {a b : List (PData K F × C)} (h : SortedP mx (a ++ b)) :
    SortedP (hd mx b) a := by
  obtain ⟨h1, h2⟩ := h
  rw [List.map_append, List.pairwise_append] at h1
  refine ⟨h1.1, fun x hx => ?_⟩
  cases b with
  | nil => exact h2 x (by simpa using hx)
  | cons y b =>
    exact h1.2.2 _ (List.mem_map_of_mem hx) y.1.key (by rw [List.map_cons]; exact List.mem_cons_self)

theorem SortedP.right {mx : K} {a b : List (PData K F × C)} (h : SortedP mx (a ++ b)) :
    SortedP mx b := by
  obtain ⟨h1, h2⟩ := h
  rw [List.map_append, List.pairwise_append] at h1
  exact ⟨h1.2.1, fun x hx => h2 x (List.mem_append_right _ hx)⟩

theorem SortedP.append {mx : K} {a b : List (PData K F × C)} (ha : SortedP (hd mx b) a)
    (hb : SortedP mx b) (hm : hd mx b ≤ mx) : SortedP mx (a ++ b) := by
  refine ⟨?_, ?_⟩
  · rw [List.map_append, List.pairwise_append]
    refine ⟨ha.1, hb.1, ?_⟩
    intro x' hx' y' hy'
    obtain ⟨x, hx, rfl⟩ := List.mem_map.mp hx'
    obtain ⟨y, hy, rfl⟩ := List.mem_map.mp hy'
    have h := ha.2 x hx
    cases b with
    | nil => cases hy
    | cons z b =>
      rcases List.mem_cons.mp hy with rfl | hy
      · exact h
      · exact lt_trans h (hb.head hy)
  · intro x hx
    rcases List.mem_append.mp hx with h | h
    · exact lt_of_lt_of_le (ha.2 x h) hm
    · exact hb.2 x h

theorem SortedP.hd_le {mx : K} {b : List (PData K F × C)} (h : SortedP mx b) : hd mx b ≤ mx := by
  cases b with
  | nil => exact le_refl _
  | cons x b => exact le_of_lt (h.2 x List.mem_cons_self)

/-- Routing in a concatenation. -/
theorem routeL_append {mx k : K} (hk : k < mx) : ∀ (a b : List (PData K F × C)), a ≠ [] →
    SortedP mx (a ++ b) →
    routeL mx k (a ++ b) = if k < hd mx b then routeL (hd mx b) k a else routeL mx k b
  | [], _, h, _ => absurd rfl h
  | [x], [], _, _ => by simp [hd, hk, routeL]
  | [x], y :: b, _, _ => rfl
  | x :: y :: a, b, _, hs => by
    have ih := routeL_append hk (y :: a) b (by simp) hs.tail
    simp only [List.cons_append] at ih ⊢
    simp only [routeL]
    rw [ih]
    by_cases h1 : k < y.1.key
    · have : y.1.key < hd mx b := hs.tail.left.2 y List.mem_cons_self
      simp [h1, lt_trans h1 this]
    · simp only [h1, if_false]

/-- Routing after a change of pivot data that keeps the keys. -/
theorem routeL_map {D : Type} (mx k : K) (g : PData K F × C → PData K F × D)
    (hg : ∀ x, (g x).1.key = x.1.key) : ∀ l : List (PData K F × C),
    routeL mx k (l.map g) = (routeL mx k l).map (fun r => ((g (r.1, r.2.1)).1, (g (r.1, r.2.1)).2, r.2.2))
  | [] => rfl
  | [x] => rfl
  | x :: y :: r => by
    have ih := routeL_map mx k g hg (y :: r)
    simp only [List.map_cons] at ih ⊢
    simp only [routeL, hg]
    split
    · rfl
    · exact ih

theorem SortedP.map {D : Type} {mx : K} (g : PData K F × C → PData K F × D)
    (hg : ∀ x, (g x).1.key = x.1.key) {l : List (PData K F × C)} (h : SortedP mx l) :
    SortedP mx (l.map g) := by
  refine ⟨?_, ?_⟩
  · have : (l.map g).map (·.1.key) = l.map (·.1.key) := by simp [hg]
    rw [this]; exact h.1
  · intro x hx
    obtain ⟨y, hy, rfl⟩ := List.mem_map.mp hx
    rw [hg]; exact h.2 y hy

theorem hd_map {D : Type} (mx : K) (g : PData K F × C → PData K F × D)
    (hg : ∀ x, (g x).1.key = x.1.key) (l : List (PData K F × C)) : hd mx (l.map g) = hd mx l := by
  cases l with
  | nil => rfl
  | cons x l => exact hg x

theorem keyAt_zero (n : Node K V F C) : n.keyAt 0 = hd n.maxKey n.pivots := by
  unfold Node.keyAt hd
  cases n.pivots <;> rfl

/-- Decomposition of the pivots around the routed one. -/
theorem routeL_decomp {mx k : K} : ∀ {l : List (PData K F × C)} {p c ph},
    routeL mx k l = some (p, c, ph) → ∃ a b, l = a ++ (p, c) :: b ∧ ph = hd mx b
  | [], _, _, _, h => by simp [routeL] at h
  | [x], p, c, ph, h => by
    simp only [routeL, Option.some.injEq, Prod.mk.injEq] at h
    obtain ⟨rfl, rfl, rfl⟩ := h
    exact ⟨[], [], rfl, rfl⟩
  | x :: y :: r, p, c, ph, h => by
    unfold routeL at h
    split at h
    · simp only [Option.some.injEq, Prod.mk.injEq] at h
      obtain ⟨rfl, rfl, rfl⟩ := h
      exact ⟨[], y :: r, rfl, rfl⟩
    · obtain ⟨a, b, h1, h2⟩ := routeL_decomp h
      exact ⟨x :: a, b, by rw [h1]; rfl, h2⟩

/-- The pivot at a position, seen by routing. -/
theorem routeL_at {mx k : K} {a b : List (PData K F × C)} {p c} (hs : SortedP mx (a ++ (p, c) :: b))
    (h1 : p.key ≤ k) (h2 : k < hd mx b) : routeL mx k (a ++ (p, c) :: b) = some (p, c, hd mx b) := by
  have hkm : k < mx := lt_of_lt_of_le h2 hs.right.tail.hd_le
  have e : routeL mx k ((p, c) :: b) = some (p, c, hd mx b) := by
    cases b with
    | nil => rfl
    | cons y b => simp only [routeL]; exact if_pos h2
  cases ha : a with
  | nil => exact e
  | cons x a' =>
    rw [ha] at hs
    rw [routeL_append hkm (x :: a') _ (by simp) hs]
    exact (if_neg (not_lt.mpr h1)).trans e

/-- `trunk_find_pivot` finds the routed pivot. -/
theorem find_decomp (n : Node K V F C) (k : K) (hs : SortedP n.maxKey n.pivots)
    (h1 : n.keyAt 0 ≤ k) (h2 : k < n.maxKey) {p c ph}
    (hr : routeL n.maxKey k n.pivots = some (p, c, ph)) :
    ∃ a b, n.pivots = a ++ (p, c) :: b ∧ n.find k = a.length ∧ ph = hd n.maxKey b := by
  obtain ⟨a, b, he, hph⟩ := routeL_decomp hr
  refine ⟨a, b, he, ?_, hph⟩
  rw [keyAt_zero] at h1
  obtain ⟨_, q1, q2, _, _⟩ := routeL_range hr hs h1 h2
  have hlen : 1 ≤ n.pivots.length := by rw [he]; simp; omega
  have mono : ∀ i j, i < j → j ≤ n.pivots.length → n.keyAt i < n.keyAt j := by
    intro i j hij hj
    have hi : i < n.pivots.length := by omega
    rcases Nat.lt_or_ge j n.pivots.length with hj' | hj'
    · have := List.pairwise_iff_getElem.mp hs.1 i j (by simpa using hi) (by simpa using hj') hij
      simp only [List.getElem_map] at this
      unfold Node.keyAt
      rw [List.getElem?_eq_getElem hi, List.getElem?_eq_getElem hj']
      exact this
    · unfold Node.keyAt
      rw [List.getElem?_eq_getElem hi, List.getElem?_eq_none hj']
      exact hs.2 _ (List.getElem_mem hi)
  obtain ⟨m, e1, _, _, _, hu⟩ := Search.findPivot_routes n.keyAt n.pivots.length k hlen mono
    (by rw [keyAt_zero]; exact h1)
    (by unfold Node.keyAt; rw [List.getElem?_eq_none (Nat.le_refl _)]; exact h2)
  have ha : n.keyAt a.length = p.key := by unfold Node.keyAt; rw [he]; simp
  have hb : n.keyAt (a.length + 1) = hd n.maxKey b := by
    unfold Node.keyAt; rw [he]
    cases b with
    | nil => simp [hd]
    | cons y b => simp [hd]
  unfold Node.find
  rw [e1]
  exact (hu a.length (by rw [he]; simp) (by rw [ha]; exact q1) (by rw [hb, ← hph]; exact q2)).symm

/-- `find` reads the routed pivot. -/
theorem find_get (n : Node K V F C) (k : K) (hs : SortedP n.maxKey n.pivots)
    (h1 : n.keyAt 0 ≤ k) (h2 : k < n.maxKey) {p c ph}
    (hr : routeL n.maxKey k n.pivots = some (p, c, ph)) :
    n.pivots[n.find k]? = some (p, c) := by
  obtain ⟨a, b, e1, e2, _⟩ := find_decomp n k hs h1 h2 hr
  rw [e2, e1]; simp

/-! ### Pivots with upper bounds -/

theorem withHi_mem {mx k : K} : ∀ {l : List (PData K F × C)}, SortedP mx l → hd mx l ≤ k → k < mx →
    ∀ {p ph}, ((p, ph) ∈ withHi mx l ∧ p.key ≤ k ∧ k < ph) ↔ ∃ c, routeL mx k l = some (p, c, ph)
  | [], _, h1, h2, _, _ => absurd (lt_of_le_of_lt h1 h2) (lt_irrefl _)
  | [x], _, h1, h2, p, ph => by
    simp only [withHi, routeL, List.mem_singleton, Prod.mk.injEq, Option.some.injEq]
    constructor
    · rintro ⟨⟨rfl, rfl⟩, _⟩; exact ⟨x.2, rfl, rfl, rfl⟩
    · rintro ⟨c, rfl, rfl, rfl⟩; exact ⟨⟨rfl, rfl⟩, h1, h2⟩
  | x :: y :: r, hs, h1, h2, p, ph => by
    simp only [withHi, routeL, List.mem_cons, Prod.mk.injEq]
    by_cases hk : k < y.1.key
    · simp only [hk, if_true, Option.some.injEq, Prod.mk.injEq]
      constructor
      · rintro ⟨⟨rfl, rfl⟩ | hm, h3, h4⟩
        · exact ⟨x.2, rfl, rfl, rfl⟩
        · exfalso
          have hall : ∀ (l : List (PData K F × C)) (p : PData K F) (ph : K), (p, ph) ∈ withHi mx l →
              ∃ c, (p, c) ∈ l := by
            intro l
            induction l with
            | nil => intro p ph h; cases h
            | cons z l ih =>
              intro p ph h
              cases l with
              | nil => simp [withHi] at h; exact ⟨z.2, by rw [h.1]; exact List.mem_cons_self⟩
              | cons w l =>
                simp only [withHi, List.mem_cons, Prod.mk.injEq] at h
                rcases h with ⟨rfl, _⟩ | h
                · exact ⟨z.2, List.mem_cons_self⟩
                · obtain ⟨c, hc⟩ := ih p ph h; exact ⟨c, List.mem_cons_of_mem _ hc⟩
          obtain ⟨c, hc⟩ := hall _ _ _ hm
          rcases List.mem_cons.mp hc with e | hc'
          · have : p = y.1 := by rw [← e]
            rw [this] at h3; exact absurd (lt_of_le_of_lt h3 hk) (lt_irrefl _)
          · have := hs.tail.head hc'
            exact absurd (lt_trans (lt_of_le_of_lt h3 hk) this) (lt_irrefl _)
      · rintro ⟨c, rfl, rfl, rfl⟩; exact ⟨.inl ⟨rfl, rfl⟩, h1, hk⟩
    · simp only [hk, if_false]
      rw [← withHi_mem hs.tail (not_lt.mp hk) h2]
      constructor
      · rintro ⟨⟨rfl, rfl⟩ | hm, h3, h4⟩
        · exact absurd h4 hk
        · exact ⟨hm, h3, h4⟩
      · rintro ⟨hm, h3, h4⟩; exact ⟨.inr hm, h3, h4⟩

theorem withHi_fst (mx : K) : ∀ l : List (PData K F × C), (withHi mx l).map (·.1) = l.map (·.1)
  | [] => rfl
  | [x] => rfl
  | x :: y :: r => by
    have := withHi_fst mx (y :: r)
    simp only [withHi, List.map_cons] at this ⊢
    rw [this]

/-- The ranges are consecutive. -/
theorem withHi_ranges {mx : K} : ∀ {l : List (PData K F × C)}, SortedP mx l →
    (withHi mx l).Pairwise (fun x y => x.2 ≤ y.1.key) ∧
    ∀ x ∈ withHi mx l, hd mx l ≤ x.1.key ∧ x.1.key < x.2 ∧ x.2 ≤ mx
  | [], _ => by simp [withHi]
  | [x], hs => by
    simp only [withHi, List.pairwise_singleton, List.mem_singleton, forall_eq, true_and]
    exact ⟨le_refl _, hs.2 x List.mem_cons_self, le_refl _⟩
  | x :: y :: r, hs => by
    obtain ⟨i1, i2⟩ := withHi_ranges hs.tail
    have hxy : x.1.key < y.1.key := hs.head List.mem_cons_self
    refine ⟨?_, ?_⟩
    · unfold withHi
      exact List.pairwise_cons.mpr ⟨fun z hz => (i2 z hz).1, i1⟩
    · intro z hz
      unfold withHi at hz
      rcases List.mem_cons.mp hz with rfl | hz
      · exact ⟨le_refl _, hxy, le_of_lt (hs.tail.2 y List.mem_cons_self)⟩
      · have := i2 z hz
        exact ⟨le_trans (le_of_lt hxy) this.1, this.2⟩

end Splinter.Trunk
