import Verif.Proof.SplitPoints
/-! # Where a trunk leaf is split: the boundaries -/
set_option linter.unusedSectionVars false
namespace Splinter.SplitPoints

variable {K : Type} [LinearOrder K]

def Item.bytes (x : Item K) : Nat := (x.stats.getD ⟨0, 0⟩).bytes

def sumBytes (l : List (Item K)) : Nat := (l.map Item.bytes).sum

/-- `out` cuts `l` into parts; all but the last have at least `target` bytes. -/
inductive Cut (target : Nat) : List (Item K) → List (Stats × Option K) → Prop
  | nil : Cut target [] []
  | last {l s} : l ≠ [] → Cut target l [(s, none)]
  | cons {pre y rest s out} : target ≤ sumBytes pre → (∀ w, (∀ x ∈ pre, x.bytes ≤ w) → 0 < target → sumBytes pre < target + w) →
      Cut target (y :: rest) out → out ≠ [] → Cut target (pre ++ y :: rest) ((s, some y.key) :: out)

theorem fill_spec (target : Nat) : ∀ (l : List (Item K)) (last : Bool) (acc : Stats),
    ∃ pre, l = pre ++ (fill target last acc l).2 ∧ (fill target last acc l).1.bytes = acc.bytes + sumBytes pre ∧
      (last = true → (fill target last acc l).2 = []) ∧
      ((fill target last acc l).2 ≠ [] → target ≤ (fill target last acc l).1.bytes ∧
        ∀ w, (∀ x ∈ pre, x.bytes ≤ w) → acc.bytes < target + w → (fill target last acc l).1.bytes < target + w)
  | [], last, acc => ⟨[], rfl, by simp [fill, sumBytes], fun _ => rfl, fun h => absurd rfl h⟩
  | x :: l, last, acc => by
    unfold fill
    by_cases hc : acc.bytes < target ∨ last = true
    · rw [if_pos hc]
      obtain ⟨pre, h1, h2, h3, h4⟩ := fill_spec target l last (acc.add (x.stats.getD ⟨0, 0⟩))
      refine ⟨x :: pre, by rw [List.cons_append, ← h1], ?_, h3, fun hne => ⟨(h4 hne).1, fun w hw ha => ?_⟩⟩
      · rw [h2]; simp [Stats.add, sumBytes, Item.bytes, Nat.add_assoc]
      · refine (h4 hne).2 w (fun y hy => hw y (List.mem_cons_of_mem _ hy)) ?_
        have hx := hw x (by simp)
        have hlast : ¬ last = true := fun hl => hne (h3 hl)
        have : acc.bytes < target := hc.resolve_right hlast
        show acc.bytes + x.bytes < target + w
        omega
    · rw [if_neg hc]
      push Not at hc
      exact ⟨[], rfl, by simp [sumBytes], fun hl => absurd hl hc.2, fun _ => ⟨hc.1, fun w _ ha => ha⟩⟩

theorem choose_ne {target n : Nat} {l : List (Item K)} (hl : l ≠ []) (hn : 1 ≤ n) : choose target n l ≠ [] := by
  obtain ⟨n, rfl⟩ : ∃ m, n = m + 1 := ⟨n - 1, by omega⟩
  cases l with
  | nil => exact absurd rfl hl
  | cons x l =>
    unfold choose
    simp only
    split <;> simp

theorem choose_length (target : Nat) : ∀ (n : Nat) (l : List (Item K)), (choose target n l).length ≤ n
  | 0, _ => by simp [choose]
  | n + 1, [] => by simp [choose]
  | n + 1, x :: l => by
    unfold choose
    simp only
    split
    · simp
    · have := choose_length target n (fill target (decide (n = 0)) ⟨0, 0⟩ (x :: l)).2
      simp only [List.length_cons]
      omega

theorem choose_cut (target : Nat) : ∀ (n : Nat) (l : List (Item K)), 1 ≤ n → Cut target l (choose target n l)
  | 0, _, h => absurd h (by omega)
  | n + 1, [], _ => by unfold choose; exact .nil
  | n + 1, x :: l, _ => by
    unfold choose
    obtain ⟨pre, h1, h2, h3, h4⟩ := fill_spec target (x :: l) (decide (n = 0)) ⟨0, 0⟩
    simp only
    split
    · exact .last (by simp)
    · next y rest hr =>
      have hn : n ≠ 0 := fun hn => by
        have := h3 (by simpa using hn)
        rw [hr] at this; cases this
      have ih := choose_cut target n (fill target (decide (n = 0)) ⟨0, 0⟩ (x :: l)).2 (by omega)
      obtain ⟨h5, h6⟩ := h4 (by rw [hr]; simp)
      rw [hr] at h1 ih ⊢
      rw [h2] at h5 h6
      conv => arg 2; rw [h1]
      refine .cons ?_ (fun w hw hp => ?_) ih (choose_ne (by simp) (by omega))
      · simpa using h5
      · have := h6 w hw (by simp; omega)
        simpa using this

theorem sumBytes_append (a b : List (Item K)) : sumBytes (a ++ b) = sumBytes a + sumBytes b := by simp [sumBytes]

theorem sumBytes_le {w : Nat} : ∀ {l : List (Item K)}, (∀ x ∈ l, x.bytes ≤ w) → sumBytes l ≤ l.length * w
  | [], _ => by simp [sumBytes]
  | x :: l, h => by
    have := sumBytes_le (l := l) fun y hy => h y (List.mem_cons_of_mem _ hy)
    have h1 := h x (by simp)
    simp only [sumBytes, List.map_cons, List.sum_cons, List.length_cons, Nat.succ_mul] at *
    omega

theorem sumBytes_sublist {a b : List (Item K)} (h : a.Sublist b) : sumBytes a ≤ sumBytes b := by
  induction h with
  | slnil => exact Nat.le_refl _
  | cons x _ ih => simp only [sumBytes, List.map_cons, List.sum_cons] at *; omega
  | cons_cons x _ ih => simp only [sumBytes, List.map_cons, List.sum_cons] at *; omega

/-! ### Leaves -/

/-- The boundaries of leaves fit together. -/
inductive Tiles (hi : Option K) : K → List (Leaf K) → Prop
  | last {lo b} : (∀ h, hi = some h → lo < h) → Tiles hi lo [⟨lo, hi, b⟩]
  | cons {lo k b ls} : lo < k → Tiles hi k ls → Tiles hi lo (⟨lo, some k, b⟩ :: ls)

/-- At most `D` items have the same key. -/
def Dup (D : Nat) (l : List (Item K)) : Prop := ∀ k, (l.filter (fun x => decide (x.key = k))).length ≤ D

theorem Dup.sublist {D : Nat} {a b : List (Item K)} (h : Dup D b) (hs : a.Sublist b) : Dup D a := fun k =>
  Nat.le_trans (hs.filter _).length_le (h k)

/-- Many bytes go by only if the key moves on. -/
theorem key_moves {D w target : Nat} {pre : List (Item K)} {lo : K} {y : Item K} {rest : List (Item K)} (hd : Dup D (pre ++ y :: rest))
    (hw : ∀ x ∈ pre, x.bytes ≤ w) (hD : D * w < target) (ht : target ≤ sumBytes pre) (hlo : ∀ x ∈ pre, lo ≤ x.key) (hy : ∀ x ∈ pre, x.key ≤ y.key) :
    lo < y.key := by
  by_contra hc
  have hall : ∀ x ∈ pre, x.key = lo := fun x hx => le_antisymm (le_trans (hy x hx) (not_lt.mp hc)) (hlo x hx)
  have h1 : pre.filter (fun x => decide (x.key = lo)) = pre := List.filter_eq_self.mpr fun x hx => decide_eq_true (hall x hx)
  have h2 := hd.sublist (List.sublist_append_left pre _) lo
  rw [h1] at h2
  have h3 := sumBytes_le hw
  have h4 := Nat.mul_le_mul_right w h2
  omega

theorem cut_tiles {D w target : Nat} {hi : Option K} {l : List (Item K)} {out : List (Stats × Option K)} (hc : Cut target l out) :
    ∀ {lo : K}, out ≠ [] → Dup D l → (∀ x ∈ l, x.bytes ≤ w) → D * w < target → (∀ x ∈ l, lo ≤ x.key) →
      l.Pairwise (fun a b => a.key ≤ b.key) → (∀ x ∈ l, ∀ h, hi = some h → x.key < h) → (∀ h, hi = some h → lo < h) → Tiles hi lo (makeLeaves lo hi out) := by
  induction hc with
  | nil => intro lo h; exact absurd rfl h
  | last _ => intro lo _ _ _ _ _ _ _ hlo; exact .last hlo
  | @cons pre y rest s out ht _ hc hne ih =>
    intro lo _ hd hw hD hlo hs hhi hlh
    have hp := List.pairwise_append.mp hs
    have hy := key_moves hd (fun x hx => hw x (List.mem_append_left _ hx)) hD ht (fun x hx => hlo x (List.mem_append_left _ hx))
      (fun x hx => hp.2.2 x hx y (by simp))
    cases out with
    | nil => exact absurd rfl hne
    | cons o out =>
      unfold makeLeaves
      refine .cons hy (ih (by simp) (hd.sublist (List.sublist_append_right _ _)) (fun x hx => hw x (List.mem_append_right _ hx)) hD ?_ hp.2.1
        (fun x hx => hhi x (List.mem_append_right _ hx)) (hhi y (by simp)))
      intro x hx
      rcases List.mem_cons.mp hx with rfl | hx
      · exact le_refl _
      · exact (List.pairwise_cons.mp hp.2.1).1 x hx

/-- Bytes of the items from `p` to `q`. -/
def itemsIn (p q : K) (l : List (Item K)) : Nat := sumBytes (l.filter fun x => decide (p ≤ x.key ∧ x.key < q))

theorem itemsIn_append (p q : K) (a b : List (Item K)) : itemsIn p q (a ++ b) = itemsIn p q a + itemsIn p q b := by
  simp [itemsIn, sumBytes]

theorem eqBytes_le {D w : Nat} {l : List (Item K)} (hd : Dup D l) (hw : ∀ x ∈ l, x.bytes ≤ w) (k : K) :
    sumBytes (l.filter fun x => decide (x.key = k)) ≤ D * w :=
  Nat.le_trans (sumBytes_le fun x hx => hw x (List.mem_filter.mp hx).1) (Nat.mul_le_mul_right w (hd k))

theorem itemsIn_none {p q : K} {l : List (Item K)} (h : ∀ x ∈ l, q ≤ x.key) : itemsIn p q l = 0 := by
  unfold itemsIn
  rw [List.filter_eq_nil_iff.mpr]
  · rfl
  · intro x hx hc
    exact absurd (of_decide_eq_true hc).2 (not_lt.mpr (h x hx))

/-- Every leaf but the last gets about `target` bytes of what the iterator yields. -/
theorem cut_sizes {D w target : Nat} {hi : Option K} {l : List (Item K)} {out : List (Stats × Option K)} (hc : Cut target l out) :
    ∀ {lo : K} {before : List (Item K)}, Dup D (before ++ l) → (∀ x ∈ before ++ l, x.bytes ≤ w) → 0 < target → (∀ x ∈ before, x.key ≤ lo) → (∀ x ∈ l, lo ≤ x.key) →
      l.Pairwise (fun a b => a.key ≤ b.key) → ∀ a ∈ (makeLeaves lo hi out).dropLast, ∀ q, a.hi = some q →
        target ≤ itemsIn a.lo q (before ++ l) + D * w ∧ itemsIn a.lo q (before ++ l) < target + w + D * w := by
  induction hc with
  | nil => intro lo before _ _ _ _ _ _ a ha; simp [makeLeaves] at ha
  | last _ => intro lo before _ _ _ _ _ _ a ha; simp [makeLeaves] at ha
  | @cons pre y rest s out ht hu hc hne ih =>
    intro lo before hd hw hpos hb hl hs a ha q hq
    have hp := List.pairwise_append.mp hs
    cases out with
    | nil => exact absurd rfl hne
    | cons o out =>
      have hne' : makeLeaves y.key hi (o :: out) ≠ [] := by
        rcases o with ⟨s', k'⟩
        cases k' <;> cases out <;> simp [makeLeaves]
      unfold makeLeaves at ha
      rw [List.dropLast_cons_of_ne_nil hne'] at ha
      rcases List.mem_cons.mp ha with rfl | ha
      · simp only [Option.some.injEq] at hq
        subst hq
        simp only
        have hrest : itemsIn lo y.key (y :: rest) = 0 := itemsIn_none fun x hx => by
          rcases List.mem_cons.mp hx with rfl | hx
          · exact le_refl _
          · exact (List.pairwise_cons.mp hp.2.1).1 x hx
        rw [itemsIn_append, itemsIn_append, hrest, Nat.add_zero]
        constructor
        · -- what is not counted has the key of the boundary
          have h1 : sumBytes pre ≤ itemsIn lo y.key pre + sumBytes (pre.filter fun x => decide (x.key = y.key)) := by
            have : ∀ m : List (Item K), (∀ x ∈ m, lo ≤ x.key ∧ x.key ≤ y.key) →
                sumBytes m ≤ itemsIn lo y.key m + sumBytes (m.filter fun x => decide (x.key = y.key)) := by
              intro m
              induction m with
              | nil => simp [sumBytes]
              | cons x m ihm =>
                intro hm
                have ihm := ihm fun z hz => hm z (List.mem_cons_of_mem _ hz)
                have hx := hm x (by simp)
                unfold itemsIn at ihm ⊢
                rcases lt_or_eq_of_le hx.2 with h | h
                · rw [List.filter_cons_of_pos (by simp [hx.1, h]), List.filter_cons_of_neg (by simp [ne_of_lt h])]
                  simp only [sumBytes, List.map_cons, List.sum_cons] at ihm ⊢; omega
                · rw [List.filter_cons_of_neg (by simp [h]), List.filter_cons_of_pos (by simp [h])]
                  simp only [sumBytes, List.map_cons, List.sum_cons] at ihm ⊢; omega
            exact this pre fun x hx => ⟨hl x (List.mem_append_left _ hx), hp.2.2 x hx y (by simp)⟩
          have h2 := eqBytes_le (hd.sublist ((List.sublist_append_left pre _).trans (List.sublist_append_right before _)))
            (fun x hx => hw x (List.mem_append_right _ (List.mem_append_left _ hx))) y.key
          omega
        · have h1 : itemsIn lo y.key pre ≤ sumBytes pre := sumBytes_sublist List.filter_sublist
          have h2 := hu w (fun x hx => hw x (List.mem_append_right _ (List.mem_append_left _ hx))) hpos
          have h3 : itemsIn lo y.key before ≤ sumBytes (before.filter fun x => decide (x.key = lo)) := by
            refine sumBytes_sublist ?_
            have : before.filter (fun x => decide (lo ≤ x.key ∧ x.key < y.key)) = (before.filter fun x => decide (x.key = lo)).filter (fun x => decide (lo ≤ x.key ∧ x.key < y.key)) := by
              rw [List.filter_filter]
              refine List.filter_congr fun x hx => ?_
              have := hb x hx
              by_cases hc : lo ≤ x.key
              · simp [le_antisymm this hc]
              · simp [hc]
            rw [this]
            exact List.filter_sublist
          have h4 := eqBytes_le (hd.sublist (List.sublist_append_left before _)) (fun x hx => hw x (List.mem_append_left _ hx)) lo
          omega
      · have hassoc : before ++ (pre ++ y :: rest) = (before ++ pre) ++ y :: rest := by simp
        rw [hassoc] at hd hw ⊢
        refine ih hd hw hpos ?_ ?_ hp.2.1 a ha q hq
        · intro x hx
          rcases List.mem_append.mp hx with hx | hx
          · refine le_trans (hb x hx) (hl y (by simp))
          · exact hp.2.2 x hx y (by simp)
        · intro x hx
          rcases List.mem_cons.mp hx with rfl | hx
          · exact le_refl _
          · exact (List.pairwise_cons.mp hp.2.1).1 x hx

end Splinter.SplitPoints
