import Verif.Model.Filter
import Mathlib.Data.List.Flatten
import Mathlib.Tactic.Ring
/-!
# The radix sort of the routing filter sorts
-/
namespace Splinter.Filter
open Splinter.PA (u32)

theorem byteOf_lt (x j : Nat) : byteOf x j < 256 := Nat.mod_lt _ (by decide)

theorem byteOf_shift {x sh j : Nat} (hx : x < 2 ^ 32) : byteOf (u32 (x >>> (8 * sh))) j = byteOf x (j + sh) := by
  unfold byteOf u32
  have : x >>> (8 * sh) < 2 ^ 32 := Nat.lt_of_le_of_lt (Nat.shiftRight_le _ _) hx
  rw [Nat.mod_eq_of_lt this, ← Nat.shiftRight_add]
  congr 2; omega

/-! ## Histogram and start indices -/

theorem hist_fold (g : Nat → Nat) (hg : ∀ x, g x < 256) (data : List Nat) : ∀ h : List Nat, h.length = 256 →
    (data.foldl (fun h x => h.set (g x) (h.getD (g x) 0 + 1)) h).length = 256 ∧
      ∀ c, (data.foldl (fun h x => h.set (g x) (h.getD (g x) 0 + 1)) h).getD c 0 = h.getD c 0 + data.countP (fun x => g x = c) := by
  induction data with
  | nil => intro h hl; exact ⟨hl, fun c => by simp⟩
  | cons x data ih =>
    intro h hl
    simp only [List.foldl_cons]
    obtain ⟨h1, h2⟩ := ih (h.set (g x) (h.getD (g x) 0 + 1)) (by simpa using hl)
    refine ⟨h1, fun c => ?_⟩
    rw [h2 c, List.countP_cons]
    have hx := hg x
    simp only [List.getD_eq_getElem?_getD, List.getElem?_set]
    by_cases hc : g x = c
    · subst hc; simp [hl, hx]; omega
    · simp [hc]

theorem histogram_spec (sh j : Nat) (data : List Nat) (hd : ∀ x ∈ data, x < 2 ^ 32) :
    (histogram sh j data).length = 256 ∧ ∀ c, (histogram sh j data).getD c 0 = data.countP (fun x => byteOf x (j + sh) = c) := by
  obtain ⟨h1, h2⟩ := hist_fold (fun x => byteOf (u32 (x >>> (8 * sh))) j) (fun x => byteOf_lt _ _) data (List.replicate 256 0) List.length_replicate
  refine ⟨h1, fun c => ?_⟩
  rw [show (histogram sh j data).getD c 0 = _ from h2 c]
  have : (List.replicate 256 0).getD c 0 = 0 := by
    simp only [List.getD_eq_getElem?_getD, List.getElem?_replicate]; split <;> rfl
  rw [this, Nat.zero_add]
  apply List.countP_congr
  intro x hx
  simp [byteOf_shift (hd x hx)]

theorem indices_spec {count : Nat} : ∀ (l : List Nat) (n : Nat) (r : List Nat), indices count n l = some r →
    r.length = l.length ∧ ∀ c, c < l.length → r.getD c 0 = n + (l.take c).sum := by
  intro l
  induction l with
  | nil => intro n r h; cases h; exact ⟨rfl, fun c hc => absurd hc (by simp)⟩
  | cons m l ih =>
    intro n r h
    unfold indices at h
    split at h
    · rw [Option.map_eq_some_iff] at h
      obtain ⟨r', h1, rfl⟩ := h
      obtain ⟨h2, h3⟩ := ih _ _ h1
      refine ⟨by simp [h2], fun c hc => ?_⟩
      cases c with
      | zero => simp
      | succ c => simp only [List.getD_cons_succ, List.take_succ_cons, List.sum_cons]; rw [h3 c (by simpa using hc)]; omega
    · cases h

theorem countP_lt_succ (g : Nat → Nat) (c : Nat) (l : List Nat) : l.countP (fun x => decide (g x < c + 1)) = l.countP (fun x => decide (g x < c)) + l.countP (fun x => decide (g x = c)) := by
  induction l with
  | nil => rfl
  | cons x l ih =>
    simp only [List.countP_cons, ih]
    by_cases h1 : g x < c
    · have h2 : g x < c + 1 := by omega
      have h3 : ¬ g x = c := by omega
      simp [h1, h2, h3]; omega
    · by_cases h2 : g x = c
      · simp [h2]; omega
      · have h3 : ¬ g x < c + 1 := by omega
        simp [h1, h2, h3]

theorem start_spec {sh j count : Nat} {data idx : List Nat} (hd : ∀ x ∈ data, x < 2 ^ 32) (h : indices count 0 (histogram sh j data) = some idx) :
    idx.length = 256 ∧ ∀ c, c < 256 → idx.getD c 0 = data.countP (fun x => decide (byteOf x (j + sh) < c)) := by
  obtain ⟨h1, h2⟩ := histogram_spec sh j data hd
  obtain ⟨h3, h4⟩ := indices_spec _ _ _ h
  refine ⟨by omega, fun c hc => ?_⟩
  rw [h4 c (by omega), Nat.zero_add]
  clear h4 h3 h
  induction c with
  | zero => simp
  | succ c ih =>
    rw [List.take_succ_eq_append_getElem (by omega), List.sum_append, ih (by omega), countP_lt_succ]
    have := h2 c
    rw [List.getD_eq_getElem?_getD, List.getElem?_eq_getElem (by omega)] at this
    simpa using this

/-! ## One pass -/

theorem place_spec {n b : Nat} (S : Nat → Nat) : ∀ (l dn idx dst dst' : List Nat), place n b l idx dst = some dst' →
    idx.length = 256 → dst.length = n →
    (∀ c, c < 256 → idx.getD c 0 = S c + (dn.filter (fun x => byteOf x b = c)).length) →
    (∀ c, c < 256 → ∀ c', c' < 256 → c < c' → S c + ((dn ++ l).filter (fun x => byteOf x b = c)).length ≤ S c') →
    (∀ c, c < 256 → ∀ k, k < (dn.filter (fun x => byteOf x b = c)).length → dst[S c + k]? = (dn.filter (fun x => byteOf x b = c))[k]?) →
    dst'.length = n ∧ ∀ c, c < 256 → ∀ k, k < ((dn ++ l).filter (fun x => byteOf x b = c)).length →
      dst'[S c + k]? = ((dn ++ l).filter (fun x => byteOf x b = c))[k]? := by
  intro l
  induction l with
  | nil =>
    intro dn idx dst dst' h hl hdl hi hS hd
    cases h
    exact ⟨hdl, fun c hc k hk => by rw [List.append_nil] at hk ⊢; exact hd c hc k hk⟩
  | cons x l ih =>
    intro dn idx dst dst' h hl hdl hi hS hd
    unfold place at h
    simp only at h
    split at h
    rotate_left
    · cases h
    rename_i hlt
    have hbx := byteOf_lt x b
    have hx := hi _ hbx
    have happ : dn ++ x :: l = (dn ++ [x]) ++ l := by simp
    rw [happ] at hS ⊢
    have hfx : ∀ c, ((dn ++ [x]).filter (fun x => byteOf x b = c)) = (dn.filter (fun x => byteOf x b = c)) ++ (if byteOf x b = c then [x] else []) := by
      intro c; rw [List.filter_append]; congr 1; simp [List.filter_cons]
    refine ih (dn ++ [x]) _ _ _ h (by simpa using hl) (by simpa using hdl) ?_ hS ?_
    · intro c hc
      rw [hfx]
      simp only [List.getD_eq_getElem?_getD, List.getElem?_set]
      by_cases he : byteOf x b = c
      · subst he
        rw [if_pos rfl, if_pos (by omega), if_pos rfl, List.length_append, ← Nat.add_assoc, ← hx]; rfl
      · simp only [he, if_false, List.append_nil]; rw [← List.getD_eq_getElem?_getD]; exact hi c hc
    · intro c hc k hk
      rw [hfx] at hk ⊢
      rw [List.getElem?_set]
      by_cases he : byteOf x b = c
      · subst he
        simp only [if_true, List.length_append, List.length_singleton] at hk ⊢
        rcases Nat.lt_or_ge k (dn.filter (fun y => byteOf y b = byteOf x b)).length with h1 | h1
        · rw [if_neg (by omega), List.getElem?_append_left h1]; exact hd _ hbx k h1
        · have : k = (dn.filter (fun y => byteOf y b = byteOf x b)).length := by omega
          subst this
          rw [if_pos hx, if_pos (by omega), List.getElem?_append_right (Nat.le_refl _)]; simp
      · simp only [he, if_false, List.append_nil] at hk ⊢
        have hlen : ∀ c, (dn.filter (fun y => byteOf y b = c)).length ≤ ((dn ++ [x] ++ l).filter (fun y => byteOf y b = c)).length := by
          intro c; simp only [List.filter_append, List.length_append]; omega
        have h2 : (dn.filter (fun y => byteOf y b = byteOf x b)).length + 1 ≤ ((dn ++ [x] ++ l).filter (fun y => byteOf y b = byteOf x b)).length := by
          rw [List.filter_append, hfx, List.length_append, List.length_append]; simp
        have := hlen c
        rw [if_neg, hd c hc k hk]
        rw [hx]
        intro heq
        rcases Nat.lt_or_gt_of_ne he with h3 | h3
        · have := hS _ hbx c hc h3; omega
        · have := hS c hc _ hbx h3; omega

/-- The elements in order of their byte, stably. -/
def bucketed (b : Nat) (l : List Nat) (m : Nat) : List Nat := (List.range m).flatMap fun c => l.filter (fun x => byteOf x b = c)

theorem bucketed_succ (b : Nat) (l : List Nat) (m : Nat) : bucketed b l (m + 1) = bucketed b l m ++ l.filter (fun x => byteOf x b = m) := by
  simp [bucketed, List.range_succ]

theorem bucketed_length (b : Nat) (l : List Nat) (m : Nat) : (bucketed b l m).length = l.countP (fun x => decide (byteOf x b < m)) := by
  induction m with
  | zero => simp [bucketed]
  | succ m ih => rw [bucketed_succ, List.length_append, ih, countP_lt_succ (fun x => byteOf x b), List.countP_eq_length_filter (p := fun x => decide (byteOf x b = m))]

theorem bucketed_perm (b : Nat) (l : List Nat) : ∀ m, (bucketed b l m ++ l.filter (fun x => decide (m ≤ byteOf x b))).Perm l := by
  intro m
  induction m with
  | zero => simp [bucketed, List.filter_eq_self.2]
  | succ m ih =>
    rw [bucketed_succ, List.append_assoc]
    refine List.Perm.trans (List.Perm.append_left _ ?_) ih
    have h := List.filter_append_perm (fun x => decide (byteOf x b = m)) (l.filter (fun x => decide (m ≤ byteOf x b)))
    simp only [List.filter_filter] at h
    refine List.Perm.trans (List.Perm.of_eq ?_) h
    congr 1 <;> refine List.filter_congr fun x _ => ?_
    · by_cases hx : byteOf x b = m <;> simp [hx]
    · by_cases hx : byteOf x b = m
      · simp [hx]
      · simp only [hx, decide_false, Bool.not_false, Bool.true_and]
        exact decide_eq_decide.2 (by omega)

theorem bucketed_all_perm (b : Nat) (l : List Nat) : (bucketed b l 256).Perm l := by
  have h := bucketed_perm b l 256
  have : l.filter (fun x => decide (256 ≤ byteOf x b)) = [] := by
    rw [List.filter_eq_nil_iff]; intro x _; have := byteOf_lt x b; simp; omega
  rwa [this, List.append_nil] at h

theorem place_eq {sh j count : Nat} {data src idx dst dst' : List Nat} (hd : ∀ x ∈ data, x < 2 ^ 32) (hp : src.Perm data)
    (h : indices count 0 (histogram sh j data) = some idx) (hdst : dst.length = count) (hc : data.length = count)
    (h2 : place count (j + sh) src idx dst = some dst') : dst' = bucketed (j + sh) src 256 := by
  obtain ⟨h3, h4⟩ := start_spec hd h
  have hS : ∀ c, c < 256 → idx.getD c 0 = (bucketed (j + sh) src c).length := by
    intro c hc; rw [h4 c hc, bucketed_length]; exact (hp.countP_eq _).symm
  obtain ⟨h5, h6⟩ := place_spec (fun c => (bucketed (j + sh) src c).length) src [] idx dst dst' h2 h3 hdst
    (fun c hc => hS c hc) (fun c hc c' hc' hlt => by
      have h1 : (bucketed (j + sh) src (c + 1)).length ≤ (bucketed (j + sh) src c').length := by
        rw [bucketed_length, bucketed_length]; apply List.countP_mono_left; intro x _; simp; omega
      rw [bucketed_succ, List.length_append] at h1; exact h1) (fun c _ k hk => by simp at hk)
  have hlen : (bucketed (j + sh) src 256).length = count := by rw [(bucketed_all_perm _ _).length_eq, hp.length_eq, hc]
  have key : ∀ m, m ≤ 256 → dst'.take (bucketed (j + sh) src m).length = bucketed (j + sh) src m := by
    intro m
    induction m with
    | zero => intro _; simp [bucketed]
    | succ m ih =>
      intro hm
      have ih := ih (by omega)
      rw [bucketed_succ, List.length_append, List.take_add, ih]
      congr 1
      apply List.ext_getElem?
      intro k
      rw [List.getElem?_take]
      split
      · rw [List.getElem?_drop]; exact h6 m (by omega) k (by simpa using ‹k < _›)
      · rw [List.getElem?_eq_none (by omega)]
  have := key 256 (Nat.le_refl _)
  rw [hlen, ← h5, List.take_length] at this
  exact this

/-! ## All rounds -/

/-- What the first `j` rounds sort by. -/
def low (sh j x : Nat) : Nat := x >>> (8 * sh) % 256 ^ j

theorem low_succ (sh j x : Nat) : low sh (j + 1) x = low sh j x + 256 ^ j * byteOf x (j + sh) := by
  unfold low byteOf
  rw [Nat.pow_succ, Nat.mod_mul, show 8 * (j + sh) = 8 * sh + 8 * j by omega, Nat.shiftRight_add, Nat.shiftRight_eq_div_pow _ (8 * j), show 2 ^ (8 * j) = 256 ^ j by rw [Nat.pow_mul]]

theorem low_lt (sh j x : Nat) : low sh j x < 256 ^ j := Nat.mod_lt _ (Nat.pow_pos (by decide))

theorem bucketed_sorted {sh j : Nat} {l : List Nat} (h : l.Pairwise fun x y => low sh j x ≤ low sh j y) (m : Nat) :
    (bucketed (j + sh) l m).Pairwise fun x y => low sh (j + 1) x ≤ low sh (j + 1) y := by
  induction m with
  | zero => simp [bucketed]
  | succ m ih =>
    rw [bucketed_succ, List.pairwise_append]
    refine ⟨ih, ?_, ?_⟩
    · refine List.Pairwise.imp_of_mem ?_ (h.filter _)
      intro x y hx hy hle
      have hx := of_decide_eq_true (List.mem_filter.1 hx).2
      have hy := of_decide_eq_true (List.mem_filter.1 hy).2
      rw [low_succ, low_succ, hx, hy]; omega
    · intro x hx y hy
      have hy := of_decide_eq_true (List.mem_filter.1 hy).2
      simp only [bucketed, List.mem_flatMap, List.mem_range] at hx
      obtain ⟨c, hc, hx⟩ := hx
      have hx := of_decide_eq_true (List.mem_filter.1 hx).2
      rw [low_succ, low_succ, hx, hy]
      have h1 := low_lt sh j x
      have h2 : 256 ^ j * (c + 1) ≤ 256 ^ j * m := Nat.mul_le_mul_left _ hc
      rw [Nat.mul_add, Nat.mul_one] at h2
      omega

theorem rounds_spec {count sh : Nat} {data : List Nat} (hd : ∀ x ∈ data, x < 2 ^ 32) (hc : data.length = count) : ∀ (r j : Nat) (src dst res : List Nat),
    rounds count sh data r j src dst = some res → src.Perm data → dst.length = count → (src.Pairwise fun x y => low sh j x ≤ low sh j y) →
    res.Perm data ∧ res.Pairwise fun x y => low sh (j + r) x ≤ low sh (j + r) y := by
  intro r
  induction r with
  | zero => intro j src dst res h hp _ hs; cases h; exact ⟨hp, hs⟩
  | succ r ih =>
    intro j src dst res h hp hl hs
    unfold rounds at h
    simp only [Option.bind_eq_some_iff] at h
    obtain ⟨idx, h1, dst', h2, h3⟩ := h
    have he := place_eq hd hp h1 hl hc h2
    subst he
    have := ih (j + 1) _ _ _ h3 ((bucketed_all_perm _ _).trans hp) (by rw [hp.length_eq, hc]) (bucketed_sorted hs 256)
    rwa [show j + 1 + r = j + (r + 1) by omega] at this

/-- The radix sort returns its input sorted, if the input numbers agree on the bits below the fingerprint. -/
theorem radixSort_spec {data temp res : List Nat} {F vs v : Nat} (h : radixSort data temp F vs = some res) (ht : temp.length = data.length)
    (hb : ∀ x ∈ data, x < 2 ^ (F + vs)) (hv : ∀ x ∈ data, x % 2 ^ vs = v) (hF : F ≠ 0) (h32 : F + vs ≤ 32) : res.Perm data ∧ res.Pairwise (· ≤ ·) := by
  unfold radixSort at h
  simp only [hF, if_false] at h
  split at h
  rotate_left
  · cases h
  obtain ⟨h1, h2⟩ := rounds_spec (fun x hx => Nat.lt_of_lt_of_le (hb x hx) (Nat.pow_le_pow_right (by decide) h32)) rfl _ _ _ _ _ h (List.Perm.refl _) ht
    (by rw [List.pairwise_iff_getElem]; intros; simp [low, Nat.mod_one])
  refine ⟨h1, h2.imp_of_mem ?_⟩
  intro x y hx hy hle
  have hlow : ∀ z ∈ res, low (vs / 8) (0 + ((F + vs % 8 - 1) / 8 + 1)) z = z / 2 ^ (8 * (vs / 8)) ∧ z % 2 ^ (8 * (vs / 8)) = v % 2 ^ (8 * (vs / 8)) := by
    intro z hz
    have hz := h1.mem_iff.1 hz
    constructor
    · unfold low
      rw [Nat.shiftRight_eq_div_pow]
      apply Nat.mod_eq_of_lt
      rw [Nat.div_lt_iff_lt_mul (Nat.two_pow_pos _)]
      refine Nat.lt_of_lt_of_le (hb z hz) ?_
      rw [show (256 : Nat) = 2 ^ 8 from rfl, ← Nat.pow_mul, ← Nat.pow_add]
      exact Nat.pow_le_pow_right (by decide) (by omega)
    · rw [← hv z hz, Nat.mod_mod_of_dvd]
      exact Nat.pow_dvd_pow 2 (by omega)
  obtain ⟨hx1, hx2⟩ := hlow x hx
  obtain ⟨hy1, hy2⟩ := hlow y hy
  rw [hx1, hy1] at hle
  rw [← Nat.div_add_mod x (2 ^ (8 * (vs / 8))), ← Nat.div_add_mod y (2 ^ (8 * (vs / 8))), hx2, hy2]
  exact Nat.add_le_add_right (Nat.mul_le_mul_left _ hle) _

/-! ## Duplicates -/

theorem dedup_spec : ∀ (l out : List Nat), l.Pairwise (· ≤ ·) → out.Pairwise (· > ·) → (∀ x ∈ l, ∀ y ∈ out, y ≤ x) →
    (dedup l out).Pairwise (· < ·) ∧ ∀ x, x ∈ dedup l out ↔ x ∈ l ∨ x ∈ out := by
  intro l
  induction l with
  | nil => intro out _ ho _; exact ⟨by rw [dedup, List.pairwise_reverse]; exact ho, fun x => by simp [dedup]⟩
  | cons a l ih =>
    intro out hl ho hlo
    have hl' := List.pairwise_cons.1 hl
    cases out with
    | nil =>
      obtain ⟨h1, h2⟩ := ih [a] hl'.2 (by simp) (fun x hx y hy => by simp at hy; subst hy; exact hl'.1 x hx)
      exact ⟨h1, fun x => by rw [dedup, h2]; simp; tauto⟩
    | cons b out =>
      unfold dedup
      have hab := hlo a (by simp) b (by simp)
      split
      · obtain ⟨h1, h2⟩ := ih (a :: b :: out) hl'.2 (List.pairwise_cons.2 ⟨fun y hy => by
            have := hlo a (by simp) y hy
            rcases List.mem_cons.1 hy with rfl | hy'
            · omega
            · have := (List.pairwise_cons.1 ho).1 y hy'; omega, ho⟩)
          (fun x hx y hy => by
            rcases List.mem_cons.1 hy with rfl | hy'
            · exact hl'.1 x hx
            · exact hlo x (by simp [hx]) y hy')
        exact ⟨h1, fun x => by rw [h2]; simp; tauto⟩
      · rename_i he
        have he : a = b := by simpa using he
        subst he
        obtain ⟨h1, h2⟩ := ih (a :: out) hl'.2 ho (fun x hx y hy => hlo x (by simp [hx]) y hy)
        exact ⟨h1, fun x => by rw [h2]; simp; tauto⟩

end Splinter.Filter
