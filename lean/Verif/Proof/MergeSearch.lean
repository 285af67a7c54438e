import Verif.Model.MergeIter
/-! Lemmas about the merge iterator's binary search (src/merge.c:51-123). -/
namespace Splinter.Merge
open Splinter
variable {K V : Type} [LinearOrder K]

/-- Strict order in the direction of travel. -/
def dlt (fwd : Bool) (x y : K) : Prop := if fwd then x < y else y < x

instance (fwd : Bool) (x y : K) : Decidable (dlt fwd x y) := by unfold dlt; infer_instance

theorem dlt_irrefl {fwd : Bool} {x : K} : ¬ dlt fwd x x := by
  cases fwd <;> simp [dlt]
theorem dlt_trans {fwd : Bool} {x y z : K} : dlt fwd x y → dlt fwd y z → dlt fwd x z := by
  cases fwd <;> simp only [dlt, if_true, Bool.false_eq_true, if_false]
  · exact fun h1 h2 => lt_trans h2 h1
  · exact fun h1 h2 => lt_trans h1 h2
theorem dlt_tri {fwd : Bool} (x y : K) : dlt fwd x y ∨ x = y ∨ dlt fwd y x := by
  cases fwd <;> simp only [dlt, if_true, Bool.false_eq_true, if_false]
  · rcases lt_trichotomy x y with h | h | h
    · exact .inr (.inr h)
    · exact .inr (.inl h)
    · exact .inl h
  · exact lt_trichotomy x y
theorem dlt_asymm {fwd : Bool} {x y : K} (h : dlt fwd x y) : ¬ dlt fwd y x :=
  fun h' => dlt_irrefl (dlt_trans h h')
theorem dlt_ne {fwd : Bool} {x y : K} (h : dlt fwd x y) : x ≠ y :=
  fun e => by subst e; exact dlt_irrefl h

theorem dcmp_spec (fwd : Bool) (x y : K) :
    (dcmp fwd x y = .eq ∧ x = y) ∨ (dcmp fwd x y = .lt ∧ dlt fwd x y) ∨
    (dcmp fwd x y = .gt ∧ dlt fwd y x) := by
  unfold dcmp
  by_cases h : x = y
  · simp [h]
  · rcases dlt_tri (fwd := fwd) x y with h1 | h1 | h1
    · right; left; simp only [h, if_false]
      exact ⟨by have h2 := h1; unfold dlt at h2; simp [h2], h1⟩
    · exact absurd h1 h
    · right; right; simp only [h, if_false]
      refine ⟨?_, h1⟩
      have := dlt_asymm h1; unfold dlt at this; simp [this]

/-- Array order: key in direction of travel, newest (highest seq) first. -/
def ILt (fwd : Bool) (a b : OItor K V) : Prop :=
  ∃ x y, a.currKey = some x ∧ b.currKey = some y ∧ (dlt fwd x y ∨ (x = y ∧ b.seq < a.seq))

theorem ILt_trans {fwd : Bool} {a b c : OItor K V} : ILt fwd a b → ILt fwd b c → ILt fwd a c := by
  rintro ⟨x, y, hx, hy, h⟩ ⟨y', z, hy', hz, h'⟩
  rw [hy] at hy'; cases hy'
  refine ⟨x, z, hx, hz, ?_⟩
  rcases h with h | ⟨h, h2⟩ <;> rcases h' with h' | ⟨h', h2'⟩
  · exact .inl (dlt_trans h h')
  · subst h'; exact .inl h
  · subst h; exact .inl h'
  · subst h; subst h'; exact .inr ⟨rfl, by omega⟩

theorem ILt_irrefl {fwd : Bool} {a : OItor K V} : ¬ ILt fwd a a := by
  rintro ⟨x, y, hx, hy, h⟩
  rw [hx] at hy; cases hy
  rcases h with h | h
  · exact dlt_irrefl h
  · omega

theorem bsearchComp_spec (fwd : Bool) (a b : OItor K V) (x y : K) (ha : a.currKey = some x)
    (hb : b.currKey = some y) (hs : a.seq ≠ b.seq) :
    (bsearchComp fwd a b = some (.lt, decide (x = y)) ∧ ILt fwd a b) ∨
    (bsearchComp fwd a b = some (.gt, decide (x = y)) ∧ ILt fwd b a) := by
  unfold bsearchComp
  simp only [ha, hb]
  rcases dcmp_spec fwd x y with ⟨h1, h2⟩ | ⟨h1, h2⟩ | ⟨h1, h2⟩
  · subst h2
    simp only [h1]
    rcases Nat.lt_or_gt_of_ne hs with h | h
    · right; refine ⟨?_, x, x, hb, ha, .inr ⟨rfl, h⟩⟩
      simp [Nat.compare_eq_gt.mpr h]
    · left; refine ⟨?_, x, x, ha, hb, .inr ⟨rfl, h⟩⟩
      simp [Nat.compare_eq_lt.mpr h]
  · left; simp only [h1]
    exact ⟨by simp [dlt_ne h2], x, y, ha, hb, .inl h2⟩
  · right; simp only [h1]
    exact ⟨by simp [(dlt_ne h2).symm], y, x, hb, ha, .inl h2⟩

/-- `key` has the same key as `arr[i]`. -/
def sameAt (key : OItor K V) (arr : List (OItor K V)) (i : Nat) : Bool :=
  match arr[i]? with
  | some e => decide (key.currKey = e.currKey)
  | none => false

theorem bsearchLoop_spec (fwd : Bool) (key : OItor K V) (arr : List (OItor K V)) (x : K)
    (hk : key.currKey = some x)
    (hkeys : ∀ e ∈ arr, e.currKey ≠ none) (hseq : ∀ e ∈ arr, key.seq ≠ e.seq)
    (hsort : arr.Pairwise (ILt fwd)) :
    ∀ (lim base p : Nat) (neg prevEq nextEq : Bool),
      base + lim ≤ arr.length →
      (∀ i (hi : i < arr.length), i < base → ILt fwd arr[i] key) →
      (∀ i (hi : i < arr.length), base + lim ≤ i → ILt fwd key arr[i]) →
      (prevEq = (decide (0 < base) && sameAt key arr (base - 1))) →
      (nextEq = sameAt key arr (base + lim)) →
      (lim = 0 → (neg = true → p = base) ∧ (neg = false → p + 1 = base)) →
      ∃ j p' neg', bsearchLoop fwd key arr base lim p neg prevEq nextEq =
          some (p', neg', (decide (0 < j) && sameAt key arr (j - 1)), sameAt key arr j) ∧
        p' + 1 - (if neg' then 1 else 0) = j ∧ j ≤ arr.length ∧
        (∀ i (hi : i < arr.length), i < j → ILt fwd arr[i] key) ∧
        (∀ i (hi : i < arr.length), j ≤ i → ILt fwd key arr[i]) := by
  intro lim
  induction lim using Nat.strongRecOn with
  | _ lim ih =>
    intro base p neg prevEq nextEq hb hlo hhi hpe hne hend
    unfold bsearchLoop
    by_cases h0 : lim = 0
    · simp only [h0, if_true]
      refine ⟨base, p, neg, ?_, ?_, by omega, fun i hi h => hlo i hi h, fun i hi h => hhi i hi (by omega)⟩
      · subst h0; rw [hpe, hne]; simp
      · have := hend h0
        cases neg <;> simp_all
    · have hp : base + lim / 2 < arr.length := by omega
      simp only [h0, if_false, List.getElem?_eq_getElem hp]
      have hmem : arr[base + lim / 2] ∈ arr := List.getElem_mem hp
      obtain ⟨y, hy⟩ := Option.ne_none_iff_exists'.mp (hkeys _ hmem)
      have hsp := List.pairwise_iff_getElem.mp hsort
      have hsame : sameAt key arr (base + lim / 2) = decide (x = y) := by
        simp [sameAt, List.getElem?_eq_getElem hp, hk, hy]
      rcases bsearchComp_spec fwd key arr[base + lim / 2] x y hk hy (hseq _ hmem) with
        ⟨h1, h2⟩ | ⟨h1, h2⟩
      · simp only [h1]
        simp only [reduceCtorEq, if_false, decide_true, Bool.true_and]
        apply ih (lim / 2) (by omega) base (base + lim / 2) true prevEq
        · omega
        · exact hlo
        · intro i hi hge
          by_cases he : i = base + lim / 2
          · subst he; exact h2
          · exact ILt_trans h2 (hsp _ _ hp hi (by omega))
        · exact hpe
        · rw [hsame, hne]
          -- if the upper neighbour had the same key, so has arr[p]
          by_cases hs : sameAt key arr (base + lim) = true
          · have : base + lim < arr.length := by
              unfold sameAt at hs
              rcases Nat.lt_or_ge (base + lim) arr.length with h | h
              · exact h
              · simp [List.getElem?_eq_none h] at hs
            have hkk : key.currKey = arr[base+lim].currKey := by
              unfold sameAt at hs
              simpa [List.getElem?_eq_getElem this] using hs
            have hpl := hsp _ _ hp this (by omega)
            obtain ⟨a, b, ha, hb', hab⟩ := hpl
            obtain ⟨c, d, hc, hd, hcd⟩ := h2
            rw [hk] at hc; cases hc
            rw [ha] at hd; cases hd
            rw [ha] at hy; cases hy
            rw [hk, hb'] at hkk; cases hkk
            have : x = y := by
              rcases hcd with h | h
              · rcases hab with h' | h'
                · exact absurd (dlt_trans h h') dlt_irrefl
                · exact h'.1.symm
              · exact h.1
            simp [hs, this]
          · simp [hs]
        · intro hl; simp; omega
      · simp only [h1]
        simp only [if_true]
        apply ih ((lim - 1) / 2) (by omega) (base + lim / 2 + 1) (base + lim / 2) false
        · omega
        · intro i hi hlt
          by_cases he : i = base + lim / 2
          · subst he; exact h2
          · exact ILt_trans (hsp _ _ hi hp (by omega)) h2
        · intro i hi hge; exact hhi i hi (by omega)
        · simp only [Nat.add_sub_cancel, hsame]
          rw [hpe]
          by_cases hs : (decide (0 < base) && sameAt key arr (base - 1)) = true
          · simp only [Bool.and_eq_true, decide_eq_true_eq] at hs
            have hb1 : base - 1 < arr.length := by omega
            have hkk : key.currKey = arr[base-1].currKey := by
              have := hs.2; unfold sameAt at this
              simpa [List.getElem?_eq_getElem hb1] using this
            have hpl := hsp _ _ hb1 hp (by omega)
            obtain ⟨a, b, ha, hb', hab⟩ := hpl
            obtain ⟨c, d, hc, hd, hcd⟩ := h2
            rw [hk] at hd; cases hd
            rw [hb'] at hc; cases hc
            rw [hb'] at hy; cases hy
            rw [hk, ha] at hkk; cases hkk
            have : x = y := by
              rcases hab with h | h
              · rcases hcd with h' | h'
                · exact absurd (dlt_trans h h') dlt_irrefl
                · exact h'.1.symm
              · exact h.1
            simp [hs.1, hs.2, this]
          · simp only [hs, Bool.false_or]; simp
        · rw [hne]; congr 1; omega
        · intro hl; simp

theorem bsearchInsert_spec (fwd : Bool) (key : OItor K V) (arr : List (OItor K V)) (x : K)
    (hk : key.currKey = some x) (hne : arr ≠ [])
    (hkeys : ∀ e ∈ arr, e.currKey ≠ none) (hseq : ∀ e ∈ arr, key.seq ≠ e.seq)
    (hsort : arr.Pairwise (ILt fwd)) :
    ∃ j, bsearchInsert fwd key arr =
        some (j, (decide (0 < j) && sameAt key arr (j - 1)), sameAt key arr j) ∧
      j ≤ arr.length ∧
      (∀ i (hi : i < arr.length), i < j → ILt fwd arr[i] key) ∧
      (∀ i (hi : i < arr.length), j ≤ i → ILt fwd key arr[i]) := by
  have hlen : 0 < arr.length := List.length_pos_iff.mpr hne
  obtain ⟨j, p', neg', h1, h2, h3, h4, h5⟩ :=
    bsearchLoop_spec fwd key arr x hk hkeys hseq hsort arr.length 0 0 false false false
      (by omega) (by intro i _ h; omega) (by intro i _ h; omega) (by simp)
      (by simp [sameAt]) (by omega)
  refine ⟨j, ?_, h3, h4, h5⟩
  unfold bsearchInsert
  rw [h1]; simp [h2]

end Splinter.Merge
