import Verif.Proof.FilterBits
/-!
# The merge loop of the filter
-/
namespace Splinter.Filter
open Splinter.PA (u32)
open Splinter.Log (Mem put le)

/-- Bit `j` of the encoding buffer. -/
def encBit (enc : Nat → Nat) (j : Nat) : Bool := (enc (j / 64)).testBit (j % 64)

theorem unset_bit (enc : Nat → Nat) (b j : Nat) : encBit (unset enc b) j = (encBit enc j && decide (j ≠ b)) := by
  unfold encBit unset
  split
  · rename_i h
    rw [Nat.testBit_and, Nat.testBit_xor, Nat.testBit_two_pow_sub_one, Nat.testBit_shiftLeft]
    have hj : j % 64 < 64 := Nat.mod_lt _ (by decide)
    congr 1
    by_cases hjb : j = b
    · subst hjb; simp [hj]
    · have : j % 64 ≠ b % 64 := by omega
      rcases Nat.lt_or_gt_of_ne this with h1 | h1
      · have : ¬ b % 64 ≤ j % 64 := by omega
        simp [hj, hjb, this]
      · obtain ⟨d, hd⟩ : ∃ d, j % 64 - b % 64 = d + 1 := ⟨j % 64 - b % 64 - 1, by omega⟩
        simp [hj, hjb, hd, Nat.testBit_succ]
  · have : j ≠ b := by intro h1; subst h1; contradiction
    simp [this]

theorem resetEnc_bit {enc : Nat → Nat} {n j : Nat} : encBit (resetEnc enc n) j = (encBit enc j || decide (j < 8 * n)) := by
  unfold encBit resetEnc
  have hj : j % 64 < 64 := Nat.mod_lt _ (by decide)
  split
  · have h1 : j < 8 * n := by omega
    rw [Nat.testBit_two_pow_sub_one]; simp [h1, hj]
  · split
    · have h1 : ¬ j < 8 * n := by omega
      simp [h1]
    · rw [Nat.testBit_or, Nat.testBit_two_pow_sub_one]
      congr 1
      exact decide_eq_decide.2 (by omega)

/-- Items whose bucket is at most `base + t`. -/
def C (rvs base : Nat) (it : List Nat) (t : Nat) : Nat := it.countP fun x => decide (x >>> rvs ≤ base + t)

theorem C_mono (rvs base : Nat) (it : List Nat) {t t' : Nat} (h : t ≤ t') : C rvs base it t ≤ C rvs base it t' :=
  List.countP_mono_left fun x _ hx => by simp at hx ⊢; omega

theorem C_le (rvs base : Nat) (it : List Nat) (t : Nat) : C rvs base it t ≤ it.length := List.countP_le_length

theorem pre_le (rvs base : Nat) (it : List Nat) (t : Nat) : pre (C rvs base it) t ≤ C rvs base it t := by
  unfold pre; split
  · exact Nat.zero_le _
  · exact C_mono _ _ _ (by omega)

theorem C_append (rvs base : Nat) (it : List Nat) (x t : Nat) : C rvs base (it ++ [x]) t = C rvs base it t + (if x >>> rvs ≤ base + t then 1 else 0) := by
  simp [C, List.countP_append, List.countP_cons]

theorem C_all {rvs base : Nat} {it : List Nat} {t : Nat} (h : ∀ x ∈ it, x >>> rvs ≤ base + t) : C rvs base it t = it.length := by
  unfold C; rw [List.countP_eq_length]; intro x hx; simpa using h x hx

/-- Positions in a list sorted by bucket. -/
theorem sorted_pos (g : Nat → Nat) (t : Nat) : ∀ (l : List Nat), l.Pairwise (fun x y => g x ≤ g y) → ∀ i (h : i < l.length),
    (g l[i] ≤ t ↔ i < l.countP (fun x => decide (g x ≤ t))) := by
  intro l
  induction l with
  | nil => intro _ i h; simp at h
  | cons a l ih =>
    intro hp i h
    obtain ⟨h1, h2⟩ := List.pairwise_cons.1 hp
    rw [List.countP_cons]
    by_cases ha : g a ≤ t
    · cases i with
      | zero => simp [ha]
      | succ i => simp only [List.getElem_cons_succ, ha, decide_true, if_true]; rw [ih h2 i (by simpa using h)]; omega
    · have hz : l.countP (fun x => decide (g x ≤ t)) = 0 := by
        rw [List.countP_eq_zero]; intro x hx; have := h1 x hx; simp; omega
      cases i with
      | zero => simp [ha, hz]
      | succ i =>
        have hi : i < l.length := by simpa using h
        have := h1 l[i] (List.getElem_mem _)
        simp only [List.getElem_cons_succ, ha, hz]
        simp; omega

theorem shift_mono {x y : Nat} (h : x ≤ y) (n : Nat) : x >>> n ≤ y >>> n := by
  rw [Nat.shiftRight_eq_div_pow, Nat.shiftRight_eq_div_pow]; exact Nat.div_le_div_right h

/-- The state of the merge loop after adding the items `it`. -/
structure MInv (rvs base endB : Nat) (it : List Nat) (s : Merge) : Prop where
  dst : s.dst = it.map (· % 2 ^ rvs)
  sorted : it.Pairwise (· ≤ ·)
  ge : ∀ x ∈ it, base ≤ x >>> rvs
  le : ∀ x ∈ it, x >>> rvs ≤ s.lastB
  last : base ≤ s.lastB ∧ s.lastB < endB
  hb : s.hb = s.lastB - base + it.length
  cnt : N (encBit s.enc) s.hb = s.lastB - base
  rest : ∀ j, s.hb ≤ j → encBit s.enc j = true
  one : ∀ t, t < s.lastB - base → One (encBit s.enc) t (t + C rvs base it t)

theorem N_ones {B : Nat → Bool} {p n : Nat} (h : ∀ j, p ≤ j → j < p + n → B j = true) : N B (p + n) = N B p + n := by
  induction n with
  | zero => rfl
  | succ n ih => rw [← Nat.add_assoc, N_succ, ih fun j h1 h2 => h j h1 (by omega), h (p + n) (by omega) (by omega)]; simp; omega

theorem MInv.all {rvs base endB : Nat} {it : List Nat} {s : Merge} (h : MInv rvs base endB it s) (t : Nat) : One (encBit s.enc) t (t + C rvs base it t) := by
  rcases Nat.lt_or_ge t (s.lastB - base) with h1 | h1
  · exact h.one t h1
  · have h2 := h.last.1
    rw [C_all fun x hx => by have := h.le x hx; omega]
    have h3 := h.hb
    refine ⟨h.rest _ (by omega), ?_⟩
    have h4 := N_ones (B := encBit s.enc) (p := s.hb) (n := t - (s.lastB - base)) fun j hj _ => h.rest j hj
    rw [show s.hb + (t - (s.lastB - base)) = t + it.length by omega, h.cnt] at h4
    rw [h4]; omega

theorem MInv.add {rvs base endB : Nat} {it : List Nat} {s : Merge} (h : MInv rvs base endB it s) {fp nu : Nat} (hle : ∀ x ∈ it, x ≤ fp)
    (h1 : s.lastB ≤ fp >>> rvs) (h2 : fp >>> rvs < endB) :
    MInv rvs base endB (it ++ [fp]) ⟨fp, fp >>> rvs, s.hb + (fp >>> rvs - s.lastB) + 1, unset s.enc (s.hb + (fp >>> rvs - s.lastB)), s.dst ++ [fp &&& (2 ^ rvs - 1)], nu⟩ := by
  have hl := h.last.1
  have hhb := h.hb
  have hN : N (encBit s.enc) (s.hb + (fp >>> rvs - s.lastB)) = fp >>> rvs - base := by
    rw [N_ones fun j hj _ => h.rest j hj, h.cnt]; omega
  have hsame : ∀ j, j < s.hb + (fp >>> rvs - s.lastB) → encBit (unset s.enc (s.hb + (fp >>> rvs - s.lastB))) j = encBit s.enc j := by
    intro j hj; rw [unset_bit]; have : j ≠ s.hb + (fp >>> rvs - s.lastB) := by omega
    simp [this]
  refine ⟨?_, ?_, ?_, ?_, ⟨by dsimp only; omega, h2⟩, ?_, ?_, ?_, ?_⟩
  · rw [h.dst, List.map_append, Nat.and_two_pow_sub_one_eq_mod]; rfl
  · rw [List.pairwise_append]; exact ⟨h.sorted, by simp, fun x hx y hy => by simp at hy; subst hy; exact hle x hx⟩
  · intro x hx
    rcases List.mem_append.1 hx with hx | hx
    · exact h.ge x hx
    · simp at hx; subst hx; omega
  · intro x hx
    rcases List.mem_append.1 hx with hx | hx
    · have := h.le x hx; dsimp only; omega
    · simp at hx; subst hx; exact Nat.le_refl _
  · dsimp only; rw [List.length_append, List.length_singleton]; omega
  · dsimp only
    rw [N_succ, unset_bit]
    have := N_congr (p := s.hb + (fp >>> rvs - s.lastB)) hsame
    rw [this, hN]; simp
  · intro j hj
    dsimp only at hj ⊢
    rw [unset_bit, h.rest j (by omega)]
    have : j ≠ s.hb + (fp >>> rvs - s.lastB) := by omega
    simp [this]
  · intro t ht
    dsimp only at ht ⊢
    have ho := h.all t
    rw [C_append, if_neg (by omega), Nat.add_zero]
    refine ho.congr fun j hj => (hsame j ?_).symm
    have hC : C rvs base it t ≤ it.length := C_le _ _ _ _
    omega

theorem pick_none {old new : List Nat} (h : pick old new = none) : old = [] ∧ new = [] := by
  cases old <;> cases new <;> simp only [pick] at h
  · exact ⟨rfl, rfl⟩
  · cases h
  · cases h
  · split at h <;> cases h

/-- What `pick` returns. -/
theorem pick_some {old new old' new' : List Nat} {b : Bool} {fp : Nat} (h : pick old new = some (b, fp, old', new')) (ho : old.Pairwise (· ≤ ·)) (hn : new.Pairwise (· ≤ ·)) :
    (∀ x ∈ old, fp ≤ x) ∧ (∀ x ∈ new, fp ≤ x) ∧ ((b = true ∧ old = fp :: old' ∧ new' = new) ∨ (b = false ∧ new = fp :: new' ∧ old' = old)) := by
  cases old with
  | nil =>
    cases new with
    | nil => cases h
    | cons y new =>
      simp only [pick, Option.some.injEq, Prod.mk.injEq] at h
      obtain ⟨rfl, rfl, rfl, rfl⟩ := h
      refine ⟨fun x hx => (by cases hx), fun x hx => ?_, .inr ⟨rfl, rfl, rfl⟩⟩
      rcases List.mem_cons.1 hx with rfl | hx
      · exact Nat.le_refl _
      · exact (List.pairwise_cons.1 hn).1 x hx
  | cons a old =>
    have ha : ∀ x ∈ a :: old, a ≤ x := fun x hx => by
      rcases List.mem_cons.1 hx with rfl | hx
      · exact Nat.le_refl _
      · exact (List.pairwise_cons.1 ho).1 x hx
    cases new with
    | nil =>
      simp only [pick, Option.some.injEq, Prod.mk.injEq] at h
      obtain ⟨rfl, rfl, rfl, rfl⟩ := h
      exact ⟨ha, fun x hx => (by cases hx), .inl ⟨rfl, rfl, rfl⟩⟩
    | cons y new =>
      have hy : ∀ x ∈ y :: new, y ≤ x := fun x hx => by
        rcases List.mem_cons.1 hx with rfl | hx
        · exact Nat.le_refl _
        · exact (List.pairwise_cons.1 hn).1 x hx
      simp only [pick] at h
      split at h <;> rename_i hle <;> simp only [Option.some.injEq, Prod.mk.injEq] at h <;> obtain ⟨rfl, rfl, rfl, rfl⟩ := h
      · exact ⟨ha, fun x hx => Nat.le_trans hle (hy x hx), .inl ⟨rfl, rfl, rfl⟩⟩
      · exact ⟨fun x hx => Nat.le_trans (by omega) (ha x hx), hy, .inr ⟨rfl, rfl, rfl⟩⟩

theorem mergeLoop_spec {vs rvs base endB : Nat} (hend : endB ≤ 2 ^ 32) : ∀ (fuel : Nat) (old new : List Nat) (s : Merge) (it : List Nat) (old' : List Nat) (s' : Merge),
    mergeLoop vs rvs endB fuel old new s = some (old', s') → MInv rvs base endB it s → old.Pairwise (· ≤ ·) → new.Pairwise (· ≤ ·) →
    (∀ x ∈ old, s.lastB ≤ x >>> rvs) → (∀ x ∈ new, s.lastB ≤ x >>> rvs ∧ x >>> rvs < endB) → (∀ x ∈ it, ∀ y ∈ old, x ≤ y) → (∀ x ∈ it, ∀ y ∈ new, x ≤ y) →
    ∃ it', MInv rvs base endB it' s' ∧ (∀ x, x ∈ it' ↔ x ∈ it ∨ x ∈ new ∨ (x ∈ old ∧ x >>> rvs < endB)) ∧ old'.Pairwise (· ≤ ·) ∧
      (∀ x, x ∈ old' ↔ x ∈ old ∧ endB ≤ x >>> rvs) := by
  intro fuel
  induction fuel with
  | zero =>
    intro old new s it old' s' h hI ho hn h1 h2 h3 h4
    unfold mergeLoop at h
    cases hp : pick old new with
    | some x => rw [hp] at h; cases h
    | none =>
      rw [hp] at h; cases h
      obtain ⟨rfl, rfl⟩ := pick_none hp
      exact ⟨it, hI, fun x => by simp, by simp, fun x => by simp⟩
  | succ fuel ih =>
    intro old new s it old' s' h hI ho hn h1 h2 h3 h4
    unfold mergeLoop at h
    cases hp : pick old new with
    | none =>
      rw [hp] at h; cases h
      obtain ⟨rfl, rfl⟩ := pick_none hp
      exact ⟨it, hI, fun x => by simp, by simp, fun x => by simp⟩
    | some r =>
      obtain ⟨b, fp, o1, n1⟩ := r
      rw [hp] at h
      simp only at h
      obtain ⟨p1, p2, p3⟩ := pick_some hp ho hn
      unfold getBucket at h
      split at h
      · cases h
      simp only [Option.bind_some] at h
      split at h
      · rename_i hge
        split at h
        · rename_i hb
          cases h
          rcases p3 with ⟨_, hold, hnew⟩ | ⟨hb', _⟩
          · have hall : ∀ x ∈ old, endB ≤ x >>> rvs := fun x hx => Nat.le_trans hge (shift_mono (p1 x hx) _)
            have hnil : new = [] := by
              cases hn' : new with
              | nil => rfl
              | cons y l =>
                have hy : y ∈ new := by rw [hn']; simp
                have := (h2 y hy).2
                have := shift_mono (p2 y hy) rvs
                omega
            refine ⟨it, ⟨hI.dst, hI.sorted, hI.ge, hI.le, hI.last, hI.hb, hI.cnt, hI.rest, hI.one⟩, fun x => ?_, ho, fun x => ⟨fun hx => ⟨hx, hall x hx⟩, fun hx => hx.1⟩⟩
            rw [hnil]
            constructor
            · exact .inl
            · rintro (hx | hx | ⟨hx, hlt⟩)
              · exact hx
              · cases hx
              · have := hall x hx; omega
          · rw [hb'] at hb; cases hb
        · cases h
      · rename_i hlt
        split at h
        · cases h
        have hbl : s.lastB ≤ fp >>> rvs := by
          rcases p3 with ⟨_, hold, _⟩ | ⟨_, hnew, _⟩
          · exact h1 fp (by rw [hold]; simp)
          · exact (h2 fp (by rw [hnew]; simp)).1
        have hu : u32 (fp >>> rvs + 2 ^ 32 - s.lastB) = fp >>> rvs - s.lastB := by
          unfold u32
          rw [show fp >>> rvs + 2 ^ 32 - s.lastB = fp >>> rvs - s.lastB + 2 ^ 32 by omega, Nat.add_mod_right]
          exact Nat.mod_eq_of_lt (by omega)
        rw [hu] at h
        have hfp : ∀ x ∈ it, x ≤ fp := by
          intro x hx
          rcases p3 with ⟨_, hold, _⟩ | ⟨_, hnew, _⟩
          · exact h3 x hx fp (by rw [hold]; simp)
          · exact h4 x hx fp (by rw [hnew]; simp)
        have hI' := hI.add (nu := if s.lastFp >>> vs ≠ fp >>> vs then s.nu + 1 else s.nu) hfp hbl (by omega)
        have hit : ∀ x ∈ it ++ [fp], ∀ y, fp ≤ y → x ≤ y := by
          intro x hx y hy
          rcases List.mem_append.1 hx with hx | hx
          · exact Nat.le_trans (hfp x hx) hy
          · simp at hx; subst hx; exact hy
        have ho1 : o1.Pairwise (· ≤ ·) ∧ ∀ x ∈ o1, x ∈ old := by
          rcases p3 with ⟨_, hold, _⟩ | ⟨_, _, hold⟩
          · rw [hold] at ho ⊢; exact ⟨(List.pairwise_cons.1 ho).2, fun x hx => by simp [hx]⟩
          · rw [hold]; exact ⟨ho, fun x hx => hx⟩
        have hn1 : n1.Pairwise (· ≤ ·) ∧ ∀ x ∈ n1, x ∈ new := by
          rcases p3 with ⟨_, _, hnew⟩ | ⟨_, hnew, _⟩
          · rw [hnew]; exact ⟨hn, fun x hx => hx⟩
          · rw [hnew] at hn ⊢; exact ⟨(List.pairwise_cons.1 hn).2, fun x hx => by simp [hx]⟩
        obtain ⟨it', r1, r2, r3, r4⟩ := ih o1 n1 _ _ _ _ h hI' ho1.1 hn1.1
          (fun x hx => shift_mono (p1 x (ho1.2 x hx)) _) (fun x hx => ⟨shift_mono (p2 x (hn1.2 x hx)) _, (h2 x (hn1.2 x hx)).2⟩)
          (fun x hx y hy => hit x hx y (p1 y (ho1.2 y hy))) (fun x hx y hy => hit x hx y (p2 y (hn1.2 y hy)))
        refine ⟨it', r1, fun x => ?_, r3, fun x => ?_⟩
        · rw [r2, List.mem_append, List.mem_singleton]
          rcases p3 with ⟨_, hold, hnew⟩ | ⟨_, hnew, hold⟩
          · rw [hold, hnew]
            simp only [List.mem_cons]
            constructor
            · rintro ((hx | rfl) | hx | hx)
              · exact .inl hx
              · exact .inr (.inr ⟨.inl rfl, by omega⟩)
              · exact .inr (.inl hx)
              · exact .inr (.inr ⟨.inr hx.1, hx.2⟩)
            · rintro (hx | hx | ⟨rfl | hx, hx2⟩)
              · exact .inl (.inl hx)
              · exact .inr (.inl hx)
              · exact .inl (.inr rfl)
              · exact .inr (.inr ⟨hx, hx2⟩)
          · rw [hold, hnew]
            simp only [List.mem_cons]
            constructor
            · rintro ((hx | rfl) | hx | hx)
              · exact .inl hx
              · exact .inr (.inl (.inl rfl))
              · exact .inr (.inl (.inr hx))
              · exact .inr (.inr hx)
            · rintro (hx | (rfl | hx) | hx)
              · exact .inl (.inl hx)
              · exact .inl (.inr rfl)
              · exact .inr (.inl hx)
              · exact .inr (.inr hx)
        · rw [r4]
          rcases p3 with ⟨_, hold, _⟩ | ⟨_, _, hold⟩
          · rw [hold]
            simp only [List.mem_cons]
            constructor
            · rintro ⟨hx, hx2⟩; exact ⟨.inr hx, hx2⟩
            · rintro ⟨rfl | hx, hx2⟩
              · omega
              · exact ⟨hx, hx2⟩
          · rw [hold]

end Splinter.Filter
