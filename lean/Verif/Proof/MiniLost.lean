import Verif.Props.Mini
/-!
# Histories of references in which some get lost

Like `Mini.Hist`, but an outstanding range may be forgotten in part: what was referenced for range `r` is from then on
only known as a reference for the smaller range `r'`. The counts of the extents that only `r` touches are never given back.
-/
namespace Splinter.Mini

variable {K : Type} [LinearOrder K]

/-- Forgotten parts that touch the extent. -/
def leaks (lost : List ((K × K) × (K × K))) (s : Seg K) : Nat := lost.countP fun x => touch x.1.1 x.1.2 s && !touch x.2.1 x.2.2 s

inductive HistL (ents : List (Ent K)) (n : Nat) (exts : Nat → List (Nat × K)) (bot top : K) :
    (Nat → Nat) → List (K × K) → List ((K × K) × (K × K)) → Prop
  | new (refs : Nat → Nat) : (∀ s ∈ allSegs n exts, refs s.ext = 2) → HistL ents n exts bot top refs [(bot, top)] []
  | hold {refs refs' live lost} (a b : K) : HistL ents n exts bot top refs live lost → a ≤ b →
      (∀ k, a ≤ k → k ≤ b → ∃ r ∈ live, r.1 ≤ k ∧ k ≤ r.2) → incRange ents a b refs = some refs' →
      HistL ents n exts bot top refs' ((a, b) :: live) lost
  | cut {refs refs' l1 l2 lost} (a b m : K) : HistL ents n exts bot top refs (l1 ++ (a, b) :: l2) lost → a ≤ m → m ≤ b →
      incRange ents m m refs = some refs' → HistL ents n exts bot top refs' (l1 ++ (a, m) :: (m, b) :: l2) lost
  | shrink {refs l1 l2 lost} (r r' : K × K) : HistL ents n exts bot top refs (l1 ++ r :: l2) lost → r'.1 ≤ r'.2 →
      r.1 ≤ r'.1 → r'.2 ≤ r.2 → HistL ents n exts bot top refs (l1 ++ r' :: l2) ((r, r') :: lost)
  | drop {refs refs' l1 l2 lost c} (a b : K) : HistL ents n exts bot top refs (l1 ++ (a, b) :: l2) lost →
      decRange ents a b refs = some (refs', c) → HistL ents n exts bot top refs' (l1 ++ l2) lost

def CountedL (refs : Nat → Nat) (live : List (K × K)) (lost : List ((K × K) × (K × K))) (s : Seg K) : Prop :=
  holders live s + leaks lost s ≤ 254 ∧
    refs s.ext = if holders live s + leaks lost s = 0 then 0 else holders live s + leaks lost s + 1

theorem leaks_cons (x : (K × K) × (K × K)) (l : List ((K × K) × (K × K))) (s : Seg K) :
    leaks (x :: l) s = leaks l s + (touch x.1.1 x.1.2 s && !touch x.2.1 x.2.2 s).toNat := by
  unfold leaks
  rw [List.countP_cons]
  cases (touch x.1.1 x.1.2 s && !touch x.2.1 x.2.2 s) <;> rfl

section
variable {ents : List (Ent K)} {n : Nat} {exts : Nat → List (Nat × K)} {bot top : K}

theorem histL_inv (h : Layout ents n exts) (hbt : bot ≤ top) (hall : ∀ s ∈ allSegs n exts, touch bot top s = true) {refs : Nat → Nat}
    {live : List (K × K)} {lost : List ((K × K) × (K × K))} (hh : HistL ents n exts bot top refs live lost) :
    (∀ r ∈ live, r.1 ≤ r.2) ∧ ∀ s ∈ allSegs n exts, CountedL refs live lost s := by
  induction hh with
  | new refs hr =>
    refine ⟨fun r hr => by rw [List.mem_singleton] at hr; subst hr; exact hbt, fun s hs => ?_⟩
    unfold CountedL
    rw [holders_cons, hall s hs, hr s hs]
    simp [holders, leaks]
  | @hold refs refs' live lost a b _ h2 hcov hi ih =>
    have hpos : ∀ s ∈ allSegs n exts, touch a b s = true → holders live s ≠ 0 := fun s hs ht => by
      obtain ⟨k, hk1, hk2, hk⟩ := (touch_iff h2 s (allSegs_ok h s hs)).1 ht
      obtain ⟨r, hr, hr1, hr2⟩ := hcov k hk1 hk2
      exact holders_pos hr ((touch_iff (ih.1 r hr) s (allSegs_ok h s hs)).2 ⟨k, hr1, hr2, hk⟩)
    refine ⟨fun x hx => ?_, fun s hs => ?_⟩
    · rcases List.mem_cons.1 hx with rfl | hx
      · exact h2
      · exact ih.1 x hx
    · have sp := incRange_spec h h2 refs fun s hs ht => by
        have c := ih.2 s hs
        have := hpos s hs ht
        rw [CountedL, if_neg (by omega)] at c
        omega
      have e1 := sp.1 refs' hi s hs
      have e2 : ¬ ∃ s ∈ allSegs n exts, touch a b s = true ∧ refs s.ext = 255 := fun hx => by
        have := sp.2.2 hx; rw [hi] at this; cases this
      have c := ih.2 s hs
      unfold CountedL at c ⊢
      rw [holders_cons]
      cases ht : touch a b s with
      | false => rw [ht] at e1; simpa [e1] using c
      | true =>
        have hp := hpos s hs ht
        rw [if_neg (by omega)] at c
        have : refs s.ext ≠ 255 := fun hx => e2 ⟨s, hs, ht, hx⟩
        rw [ht] at e1
        simp only [Bool.toNat_true] at e1 ⊢
        rw [if_neg (by omega), e1]
        omega
  | @cut refs refs' l1 l2 lost a b m _ h1 h2 hi ih =>
    refine ⟨fun x hx => ?_, fun s hs => ?_⟩
    · rw [List.mem_append, List.mem_cons, List.mem_cons] at hx
      rcases hx with hx | rfl | rfl | hx
      · exact ih.1 x (by simp [hx])
      · exact h1
      · exact h2
      · exact ih.1 x (by simp [hx])
    · have sp := incRange_spec h (le_refl m) refs fun s hs ht => by
        have c := ih.2 s hs
        have := holders_pos (r := (a, b)) (live := l1 ++ (a, b) :: l2) (by simp) (touch_mono h1 h2 ht)
        rw [CountedL, if_neg (by omega)] at c
        omega
      have e1 := sp.1 refs' hi s hs
      have e2 : ¬ ∃ s ∈ allSegs n exts, touch m m s = true ∧ refs s.ext = 255 := fun hx => by
        have := sp.2.2 hx; rw [hi] at this; cases this
      have c := ih.2 s hs
      have sp2 := touch_split h1 h2 s (allSegs_ok h s hs)
      unfold CountedL at c ⊢
      have hc : holders (l1 ++ (a, m) :: (m, b) :: l2) s = holders (l1 ++ (a, b) :: l2) s + (touch m m s).toNat := by
        simp only [holders_append, holders_cons]; omega
      rw [hc]
      cases ht : touch m m s with
      | false => rw [ht] at e1; simpa [e1] using c
      | true =>
        have hp := holders_pos (r := (a, b)) (live := l1 ++ (a, b) :: l2) (by simp) (touch_mono h1 h2 ht)
        rw [if_neg (by omega)] at c
        have : refs s.ext ≠ 255 := fun hx => e2 ⟨s, hs, ht, hx⟩
        rw [ht] at e1
        simp only [Bool.toNat_true] at e1 ⊢
        rw [if_neg (by omega), e1]
        omega
  | @shrink refs l1 l2 lost r r' _ h1 h2 h3 ih =>
    refine ⟨fun x hx => ?_, fun s hs => ?_⟩
    · rw [List.mem_append, List.mem_cons] at hx
      rcases hx with hx | rfl | hx
      · exact ih.1 x (by simp [hx])
      · exact h1
      · exact ih.1 x (by simp [hx])
    · have c := ih.2 s hs
      have ht : touch r'.1 r'.2 s = true → touch r.1 r.2 s = true := touch_mono h2 h3
      have e : holders (l1 ++ r' :: l2) s + leaks ((r, r') :: lost) s = holders (l1 ++ r :: l2) s + leaks lost s := by
        simp only [holders_append, holders_cons, leaks_cons]
        cases h4 : touch r'.1 r'.2 s with
        | true => rw [ht h4]; simp
        | false => cases touch r.1 r.2 s <;> simp <;> omega
      unfold CountedL at c ⊢
      rw [e]
      exact c
  | @drop refs refs' l1 l2 lost c a b _ hd ih =>
    refine ⟨fun x hx => ih.1 x ?_, fun s hs => ?_⟩
    · rw [List.mem_append] at hx ⊢; rw [List.mem_cons]; tauto
    · obtain ⟨refs'', c', d1, d2, _⟩ := decRange_spec h (ih.1 (a, b) (by simp)) refs fun s hs ht => by
        have c := ih.2 s hs
        have := holders_pos (r := (a, b)) (live := l1 ++ (a, b) :: l2) (by simp) ht
        rw [CountedL, if_neg (by omega)] at c
        omega
      rw [hd] at d1
      simp only [Option.some.injEq, Prod.mk.injEq] at d1
      obtain ⟨rfl, rfl⟩ := d1
      have c := ih.2 s hs
      have e := d2 s hs
      unfold CountedL at c ⊢
      simp only [holders_append, holders_cons] at c ⊢
      cases ht : touch a b s with
      | false => rw [ht] at e c; simp only [Bool.false_eq_true, if_false, Bool.toNat_false, Nat.add_zero] at e c; rw [e]; exact c
      | true =>
        rw [ht] at e c
        simp only [if_true, Bool.toNat_true] at e c
        rw [if_neg (by omega)] at c
        rw [e]
        refine ⟨by omega, ?_⟩
        split <;> split <;> omega

/-- Releasing an outstanding range does not fail. -/
theorem releaseL_ok (h : Layout ents n exts) (hbt : bot ≤ top) (hall : ∀ s ∈ allSegs n exts, s.touched (bot, top)) {refs : Nat → Nat}
    {l1 l2 : List (K × K)} {lost : List ((K × K) × (K × K))} {a b : K} (hh : HistL ents n exts bot top refs (l1 ++ (a, b) :: l2) lost) :
    ∃ refs' c, decRange ents a b refs = some (refs', c) := by
  have inv := histL_inv h hbt (fun s hs => (touch_iff hbt s (allSegs_ok h s hs)).2 (hall s hs)) hh
  obtain ⟨refs', c, d1, _, d3⟩ := decRange_spec h (inv.1 (a, b) (by simp)) refs fun s hs ht => by
    have c := inv.2 s hs
    have := holders_pos (r := (a, b)) (live := l1 ++ (a, b) :: l2) (by simp) ht
    rw [CountedL, if_neg (by omega)] at c
    omega
  exact ⟨refs', c, d1⟩

/-- Referencing fails only when some extent has 254 holders already, lost ones included. -/
theorem referenceL_ok (h : Layout ents n exts) (hbt : bot ≤ top) (hall : ∀ s ∈ allSegs n exts, s.touched (bot, top)) {refs : Nat → Nat}
    {live : List (K × K)} {lost : List ((K × K) × (K × K))} (hh : HistL ents n exts bot top refs live lost) {a b : K} (h2 : a ≤ b)
    (hcov : ∀ k, a ≤ k → k ≤ b → ∃ r ∈ live, r.1 ≤ k ∧ k ≤ r.2) (hf : incRange ents a b refs = none) : ∃ s ∈ allSegs n exts, holders live s + leaks lost s = 254 := by
  have inv := histL_inv h hbt (fun s hs => (touch_iff hbt s (allSegs_ok h s hs)).2 (hall s hs)) hh
  have hpos : ∀ s ∈ allSegs n exts, touch a b s = true → holders live s ≠ 0 := fun s hs ht => by
    obtain ⟨k, hk1, hk2, hk⟩ := (touch_iff h2 s (allSegs_ok h s hs)).1 ht
    obtain ⟨r, hr, hr1, hr2⟩ := hcov k hk1 hk2
    exact holders_pos hr ((touch_iff (inv.1 r hr) s (allSegs_ok h s hs)).2 ⟨k, hr1, hr2, hk⟩)
  have sp := incRange_spec h h2 refs fun s hs ht => by
    have c := inv.2 s hs
    have := hpos _ (by assumption) ht
    rw [CountedL, if_neg (by omega)] at c
    omega
  obtain ⟨s, hs, ht, h255⟩ := sp.2.1 hf
  have c := inv.2 s hs
  have := hpos _ (by assumption) ht
  rw [CountedL, if_neg (by omega)] at c
  exact ⟨s, hs, by omega⟩

end

end Splinter.Mini
