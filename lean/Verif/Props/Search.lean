import Verif.Model.Search
import Mathlib.Order.Nat
/-!
C12: search inside a B-tree page finds the right slot.
C33 (first part): search among the boundary keys of a trunk node finds the unique
child whose range contains the key.
-/
namespace Splinter.Search

variable {K : Type} [LinearOrder K]

/-! ## C12 -/

/-- Specification: `idx` is the last slot whose key is at most `target`, `-1` if
there is none, and `found` tells whether that key equals `target`. -/
def Spec.LastLe (ks : List K) (target : K) (idx : Int) (found : Bool) : Prop :=
  -1 ≤ idx ∧ idx < ks.length ∧
  (∀ (i : Nat) (k : K), ks[i]? = some k → ((i : Int) ≤ idx ↔ k ≤ target)) ∧
  (found = true ↔ target ∈ ks) ∧ (found = true → ks[idx.toNat]? = some target)

theorem bsearch_spec (key : Nat → K) (target : K) (n : Nat)
    (mono : ∀ i j, i < j → j < n → key i < key j) (lo hi : Nat) (h1 : lo ≤ hi) (h2 : hi ≤ n)
    (hl : ∀ i, i < lo → key i < target) (hh : ∀ i, hi ≤ i → i < n → target < key i) :
    ∃ idx found, bsearch key target lo hi = (idx, found) ∧ -1 ≤ idx ∧ idx < n ∧
      (∀ i : Nat, i < n → ((i : Int) ≤ idx ↔ key i ≤ target)) ∧
      (found = true ↔ ∃ i, i < n ∧ key i = target) ∧
      (found = true → 0 ≤ idx ∧ key idx.toNat = target) := by
  fun_induction bsearch key target lo hi with
  | case1 lo hi hlt mid heq =>
    refine ⟨_, _, rfl, by omega, by omega, ?_, ?_, ?_⟩
    · intro i hi'
      constructor
      · intro hle
        have : i ≤ mid := by omega
        rcases Nat.lt_or_ge i mid with h | h
        · exact le_of_lt (heq ▸ mono i mid h (by omega))
        · have : i = mid := by omega
          rw [this, heq]
      · intro hle
        by_contra hc
        have : target < key i := heq ▸ mono mid i (by omega) hi'
        exact absurd (lt_of_lt_of_le this hle) (lt_irrefl _)
    · exact ⟨fun _ => ⟨mid, by omega, heq⟩, fun _ => rfl⟩
    · intro _; exact ⟨by omega, heq⟩
  | case2 lo hi hlt mid hne hlt2 ih =>
    refine ih (by omega) h2 ?_ hh
    intro i hi'
    rcases Nat.lt_or_ge i mid with h | h
    · exact lt_trans (mono i mid h (by omega)) hlt2
    · have : i = mid := by omega
      rw [this]; exact hlt2
  | case3 lo hi hlt mid hne hge ih =>
    refine ih (by omega) (by omega) hl ?_
    have hgt : target < key mid := lt_of_le_of_ne (not_lt.1 hge) (Ne.symm hne)
    intro i hi1 hi2
    rcases Nat.lt_or_ge mid i with h | h
    · exact lt_trans hgt (mono mid i h hi2)
    · have : i = mid := by omega
      rw [this]; exact hgt
  | case4 lo hi hge =>
    refine ⟨_, _, rfl, by omega, by omega, ?_, ?_, ?_⟩
    · intro i hi'
      constructor
      · intro hle; exact le_of_lt (hl i (by omega))
      · intro hle
        by_contra hc
        exact absurd (lt_of_lt_of_le (hh i (by omega) hi') hle) (lt_irrefl _)
    · refine ⟨fun h => absurd h (by simp), ?_⟩
      rintro ⟨i, hi', he⟩
      rcases Nat.lt_or_ge i lo with h | h
      · exact absurd (he ▸ hl i h) (lt_irrefl _)
      · exact absurd (he ▸ hh i (by omega) hi') (lt_irrefl _)
    · intro h; exact absurd h (by simp)

omit [LinearOrder K] in
theorem getD_of_lt [Inhabited K] {ks : List K} {i : Nat} (h : i < ks.length) :
    ks[i]? = some (ks.getD i default) := by
  simp [List.getD, List.getElem?_eq_getElem h]

/-- C12: for strictly increasing keys the search finds the last slot not above the
target and reports exactly whether the target is present. -/
theorem btreeFind_spec [Inhabited K] (ks : List K) (target : K) (hs : ks.Pairwise (· < ·)) :
    Spec.LastLe ks target (btreeFind ks target).1 (btreeFind ks target).2 := by
  have mono : ∀ i j, i < j → j < ks.length → ks.getD i default < ks.getD j default := by
    intro i j hij hj
    have := List.pairwise_iff_getElem.1 hs i j (by omega) hj hij
    simpa [List.getD, List.getElem?_eq_getElem hj, List.getElem?_eq_getElem (by omega : i < ks.length)] using this
  obtain ⟨idx, found, e, p1, p2, p3, p4, p5⟩ := bsearch_spec (fun i => ks.getD i default) target ks.length
    mono 0 ks.length (by omega) (Nat.le_refl _) (by intro i h; omega) (by intro i h1 h2; omega)
  unfold btreeFind
  rw [e]
  have idxOf : ∀ i k, ks[i]? = some k → i < ks.length ∧ ks.getD i default = k := by
    intro i k h
    obtain ⟨hi, rfl⟩ := List.getElem?_eq_some_iff.1 h
    exact ⟨hi, by simp [List.getD, List.getElem?_eq_getElem hi]⟩
  refine ⟨p1, p2, ?_, ?_, ?_⟩
  · intro i k h
    obtain ⟨hi, rfl⟩ := idxOf i k h
    exact p3 i hi
  · rw [p4]
    constructor
    · rintro ⟨i, hi, he⟩
      exact List.mem_of_getElem? (he ▸ getD_of_lt hi)
    · intro hm
      obtain ⟨i, hi⟩ := List.mem_iff_getElem?.1 hm
      exact ⟨i, idxOf i _ hi⟩
  · intro hf
    obtain ⟨q1, q2⟩ := p5 hf
    exact q2 ▸ getD_of_lt (by omega)

/-- The answer is unique, so the specification determines the search. -/
theorem lastLe_unique {ks : List K} {t : K} {i j : Int} {f g : Bool}
    (h1 : Spec.LastLe ks t i f) (h2 : Spec.LastLe ks t j g) : i = j ∧ f = g := by
  have key : ∀ {i j : Int} {f g}, Spec.LastLe ks t i f → Spec.LastLe ks t j g → i ≤ j := by
    intro i j f g h1 h2
    by_contra hc
    have hi : 0 ≤ i := by have := h2.1; omega
    obtain ⟨n, rfl⟩ := Int.eq_ofNat_of_zero_le hi
    have hn : n < ks.length := by have := h1.2.1; omega
    have e := List.getElem?_eq_getElem hn
    have := (h2.2.2.1 n _ e).2 ((h1.2.2.1 n _ e).1 (Int.le_refl _))
    omega
  refine ⟨Int.le_antisymm (key h1 h2) (key h2 h1), ?_⟩
  have := h1.2.2.2.1.trans h2.2.2.2.1.symm
  cases f <;> cases g <;> simp_all

example : btreeFind [2, 5, 9, 14] 9 = (2, true) ∧ btreeFind [2, 5, 9, 14] 1 = (-1, false) ∧
    btreeFind [2, 5, 9, 14] 13 = (2, false) := by decide +kernel
example : ([2, 5, 9, 14] : List Nat).Pairwise (· < ·) := by decide

/-! ## trunk_find_pivot -/

theorem lowerbound_spec {n : Nat} (h : 2 ≤ n) :
    1 ≤ lowerbound n ∧ 2 ^ (lowerbound n - 1) < n ∧ n ≤ 2 * 2 ^ (lowerbound n - 1) := by
  unfold lowerbound
  rw [if_neg (by omega)]
  have h1 : n - 1 ≠ 0 := by omega
  have a := Nat.log2_self_le h1
  have b := @Nat.lt_log2_self (n - 1)
  refine ⟨by omega, ?_, ?_⟩
  · rw [Nat.add_sub_cancel]; omega
  · rw [Nat.add_sub_cancel]; rw [Nat.pow_succ] at b; omega

theorem lowerbound_pow (k : Nat) : lowerbound (2 ^ k) = k := by
  unfold lowerbound
  cases k with
  | zero => rfl
  | succ k =>
    have : 0 < 2 ^ k := Nat.two_pow_pos k
    have e : 2 ^ (k + 1) = 2 * 2 ^ k := by rw [Nat.pow_succ, Nat.mul_comm]
    rw [if_neg (by omega)]
    congr 1
    rw [Nat.log2_eq_iff (by omega)]
    omega

/-- `below` only depends on the boundary, downwards closed in the pivot. -/
theorem below_mono {c : Cmp} {p q t : K} (h : p ≤ q) (hb : below c q t = true) : below c p t = true := by
  unfold below at *
  cases c <;> simp only [decide_eq_true_eq] at * <;> first | exact lt_of_le_of_lt h hb | exact le_trans h hb

theorem findLoop_spec (key : Nat → K) (t : K) (c : Cmp) (n : Nat)
    (hmono : ∀ i j, i ≤ j → j < n → below c (key j) t = true → below c (key i) t = true) :
    ∀ (i lo : Nat), lo + 2 ^ i ≤ n → below c (key lo) t = true →
      (∀ j, lo + 2 ^ i ≤ j → j < n → below c (key j) t = false) →
      ∃ m, findLoop key t c i (2 ^ i) lo = m ∧ m < n ∧ below c (key m) t = true ∧
        ∀ j, m < j → j < n → below c (key j) t = false := by
  intro i
  induction i with
  | zero =>
    intro lo h1 h2 h3
    exact ⟨lo, rfl, by omega, h2, fun j hj hjn => h3 j (by omega) hjn⟩
  | succ i ih =>
    intro lo h1 h2 h3
    have e : 2 ^ (i + 1) = 2 * 2 ^ i := by rw [Nat.pow_succ, Nat.mul_comm]
    have hp : 0 < 2 ^ i := Nat.two_pow_pos i
    rw [e] at h1 h3
    unfold findLoop
    simp only [e, Nat.mul_div_cancel_left _ (by omega : 0 < 2)]
    by_cases hb : below c (key (lo + 2 ^ i)) t = true
    · rw [if_pos hb]
      exact ih _ (by omega) hb (fun j hj hjn => h3 j (by omega) hjn)
    · rw [if_neg hb]
      refine ih _ (by omega) h2 (fun j hj hjn => ?_)
      by_contra hc
      simp only [Bool.not_eq_false] at hc
      exact hb (hmono _ j hj hjn hc)

/-- Correctness of the search given that the first pivot is on the low side: the
result is derived from the last pivot on the low side. -/
theorem findPivot_last (key : Nat → K) (n : Nat) (t : K) (c : Cmp) (hn : 1 ≤ n)
    (mono : ∀ i j, i < j → j < n → key i < key j) (h0 : below c (key 0) t = true) :
    ∃ m, m < n ∧ below c (key m) t = true ∧ (∀ j, m < j → j < n → below c (key j) t = false) ∧
      findPivot key n t c = c.result m := by
  have hmono : ∀ i j, i ≤ j → j < n → below c (key j) t = true → below c (key i) t = true := by
    intro i j hij hj hb
    refine below_mono ?_ hb
    rcases Nat.lt_or_ge i j with h | h
    · exact le_of_lt (mono i j h hj)
    · rw [show i = j by omega]
  unfold findPivot
  rw [if_neg (by omega)]
  by_cases h1 : n = 1
  · rw [if_pos h1]
    refine ⟨0, by omega, h0, fun j _ _ => by omega, ?_⟩
    cases c <;> simp only [below, decide_eq_true_eq, Cmp.result] at h0 ⊢
    · rw [if_neg (not_lt.2 h0)]
    · rw [if_neg (not_le.2 h0)]
  · rw [if_neg h1]
    obtain ⟨l1, l2, l3⟩ := lowerbound_spec (by omega : 2 ≤ n)
    simp only [lowerbound_pow]
    generalize lowerbound n - 1 = k at *
    have hp : 0 < 2 ^ k := Nat.two_pow_pos k
    by_cases hb : below c (key (n - 2 ^ k)) t = true
    · rw [if_pos hb]
      obtain ⟨m, e, m1, m2, m3⟩ := findLoop_spec key t c n hmono k (n - 2 ^ k) (by omega) hb
        (fun j _ _ => by omega)
      exact ⟨m, m1, m2, m3, by rw [e]⟩
    · rw [if_neg hb]
      obtain ⟨m, e, m1, m2, m3⟩ := findLoop_spec key t c n hmono k 0 (by omega) h0
        (fun j hj hjn => by
          by_contra hc
          simp only [Bool.not_eq_false] at hc
          exact hb (hmono _ j (by omega) hjn hc))
      exact ⟨m, m1, m2, m3, by rw [e]⟩

/-- C33: with boundary keys `key 0 < … < key n`, a target in `[key 0, key n)` is
routed to the one child whose half-open range contains it. -/
theorem findPivot_routes (key : Nat → K) (n : Nat) (t : K) (hn : 1 ≤ n)
    (mono : ∀ i j, i < j → j ≤ n → key i < key j) (h0 : key 0 ≤ t) (ht : t < key n) :
    ∃ m, findPivot key n t .le = m ∧ m < n ∧ key m ≤ t ∧ t < key (m + 1) ∧
      ∀ j, j < n → key j ≤ t → t < key (j + 1) → j = m := by
  obtain ⟨m, m1, m2, m3, e⟩ := findPivot_last key n t .le hn (fun i j h1 h2 => mono i j h1 (by omega))
    (by simpa [below] using h0)
  have m2' : key m ≤ t := by simpa [below] using m2
  have m4 : t < key (m + 1) := by
    rcases Nat.lt_or_ge (m + 1) n with h | h
    · have := m3 (m + 1) (by omega) h
      simpa [below] using this
    · rw [show m + 1 = n by omega]; exact ht
  refine ⟨m, e, m1, m2', m4, fun j hj j1 j2 => ?_⟩
  rcases Nat.lt_trichotomy j m with h | h | h
  · have : key (j + 1) ≤ key m := by
      rcases Nat.lt_or_ge (j + 1) m with g | g
      · exact le_of_lt (mono _ _ g (by omega))
      · rw [show j + 1 = m by omega]
    exact absurd (lt_of_lt_of_le j2 (le_trans this m2')) (lt_irrefl _)
  · exact h
  · have : key (m + 1) ≤ key j := by
      rcases Nat.lt_or_ge (m + 1) j with g | g
      · exact le_of_lt (mono _ _ g (by omega))
      · rw [show m + 1 = j by omega]
    exact absurd (lt_of_lt_of_le m4 (le_trans this j1)) (lt_irrefl _)

/-- Strict variant (`less_than`): the child whose range `(key m, key (m+1)]`
contains the target. -/
theorem findPivot_routes_lt (key : Nat → K) (n : Nat) (t : K) (hn : 1 ≤ n)
    (mono : ∀ i j, i < j → j ≤ n → key i < key j) (h0 : key 0 < t) (ht : t ≤ key n) :
    ∃ m, findPivot key n t .lt = m ∧ m < n ∧ key m < t ∧ t ≤ key (m + 1) := by
  obtain ⟨m, m1, m2, m3, e⟩ := findPivot_last key n t .lt hn (fun i j h1 h2 => mono i j h1 (by omega))
    (by simpa [below] using h0)
  refine ⟨m, e, m1, by simpa [below] using m2, ?_⟩
  rcases Nat.lt_or_ge (m + 1) n with h | h
  · have := m3 (m + 1) (by omega) h
    simpa [below] using this
  · rw [show m + 1 = n by omega]; exact ht

/-- Searching for the first boundary above the target. -/
theorem findPivot_gt (key : Nat → K) (n : Nat) (t : K) (hn : 1 ≤ n)
    (mono : ∀ i j, i < j → j ≤ n → key i < key j) (h0 : key 0 ≤ t) (ht : t < key n) :
    ∃ m, findPivot key n t .gt = m ∧ m ≤ n ∧ t < key m ∧ ∀ j, j < m → key j ≤ t := by
  obtain ⟨m, m1, m2, m3, e⟩ := findPivot_last key n t .gt hn (fun i j h1 h2 => mono i j h1 (by omega))
    (by simpa [below] using h0)
  have m2' : key m ≤ t := by simpa [below] using m2
  refine ⟨m + 1, e, by omega, ?_, ?_⟩
  · rcases Nat.lt_or_ge (m + 1) n with h | h
    · have := m3 (m + 1) (by omega) h
      simpa [below] using this
    · rw [show m + 1 = n by omega]; exact ht
  · intro j hj
    rcases Nat.lt_or_ge j m with h | h
    · exact le_of_lt (lt_of_lt_of_le (mono j m h (by omega)) m2')
    · rw [show j = m by omega]; exact m2'

/-- Searching for the first boundary not below the target. -/
theorem findPivot_ge (key : Nat → K) (n : Nat) (t : K) (hn : 1 ≤ n)
    (mono : ∀ i j, i < j → j ≤ n → key i < key j) (h0 : key 0 < t) (ht : t ≤ key n) :
    ∃ m, findPivot key n t .ge = m ∧ m ≤ n ∧ t ≤ key m ∧ ∀ j, j < m → key j < t := by
  obtain ⟨m, m1, m2, m3, e⟩ := findPivot_last key n t .ge hn (fun i j h1 h2 => mono i j h1 (by omega))
    (by simpa [below] using h0)
  have m2' : key m < t := by simpa [below] using m2
  refine ⟨m + 1, e, by omega, ?_, ?_⟩
  · rcases Nat.lt_or_ge (m + 1) n with h | h
    · have := m3 (m + 1) (by omega) h
      simpa [below] using this
    · rw [show m + 1 = n by omega]; exact ht
  · intro j hj
    rcases Nat.lt_or_ge j m with h | h
    · exact lt_trans (mono j m h (by omega)) m2'
    · rw [show j = m by omega]; exact m2'

/-- The comment of `trunk_find_pivot` (1609–1613) promises the smallest pivot
greater than the target; with two or more children the first pivot is never
examined, so if it is already greater the answer is wrong. -/
theorem findPivot_gt_misses_first :
    findPivot (fun i => 10 * i + 10) 2 (5 : Nat) .gt = 1 ∧ (10 * 0 + 10 : Nat) > 5 ∧
      findPivot (fun i => 10 * i + 10) 1 (5 : Nat) .gt = 0 := by decide

example : findPivot (fun i => 10 * i) 7 (34 : Nat) .le = 3 := by decide
example : ∃ m, findPivot (fun i => 10 * i) 7 (34 : Nat) .le = m ∧ m < 7 ∧ 10 * m ≤ 34 ∧ 34 < 10 * (m + 1) := by
  obtain ⟨m, h1, h2, h3, h4, _⟩ := findPivot_routes (fun i => 10 * i) 7 (34 : Nat) (by omega)
    (by intro i j h1 h2; omega) (by simp) (by simp)
  exact ⟨m, h1, h2, h3, h4⟩

end Splinter.Search
