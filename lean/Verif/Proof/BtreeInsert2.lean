import Verif.Proof.BtreeInsert
/-!
Putting a tuple into a sorted list of tuples, and splitting the list.
-/
namespace Splinter.BtreeIns
open Btree Search

variable {K M : Type} [LinearOrder K] [Inhabited K]

/-- What the spec of a tuple says about a sorted leaf. -/
inductive Fits (mrg : K → M → M → M) (k : K) (m : M) (es : List (K × M)) (s : Spec M)
    (X Y : List (K × M)) : Prop
  | new (e : es = X ++ Y) (f : s.found = false) (i : s.idx = X.length) (v : s.msg = m)
  | old (o : M) (e : es = X ++ (k, o) :: Y) (f : s.found = true) (i : s.idx = X.length)
      (v : s.msg = mrg k o m)

theorem mkSpec_spec {mrg : K → M → M → M} {es : List (K × M)} {k : K} {m : M}
    (hs : es.Pairwise fun x y => x.1 < y.1) :
    ∃ s X Y, mkSpec mrg es k m = some s ∧ (∀ x ∈ X, x.1 < k) ∧ (∀ y ∈ Y, k < y.1) ∧
      Fits mrg k m es s X Y := by
  have hks : (es.map (·.1)).Pairwise (· < ·) := by rw [List.pairwise_map]; exact hs
  obtain ⟨c, h1, h2, h3, h4, h5, h6⟩ := find_split (t := k) hks
  rw [List.length_map] at h2
  rw [← List.map_take] at h3
  rw [← List.map_drop] at h4
  have h3 : ∀ x ∈ es.take c, x.1 ≤ k := fun x hx => h3 _ (List.mem_map_of_mem hx)
  have h4 : ∀ x ∈ es.drop c, k < x.1 := fun x hx => h4 _ (List.mem_map_of_mem hx)
  unfold mkSpec
  by_cases hf : (btreeFind (es.map (·.1)) k).2 = true
  · obtain ⟨c0, hc⟩ := h5.1 hf
    simp only [hf, if_true]
    have hlt : c - 1 < es.length := by omega
    rw [List.getElem?_map, List.getElem?_eq_getElem hlt] at hc
    simp only [Option.map_some, Option.some.injEq] at hc
    have hi : (btreeFind (es.map (·.1)) k).1.toNat = c - 1 := by omega
    rw [hi, List.getElem?_eq_getElem hlt]
    have hsp : es = es.take (c - 1) ++ es[c - 1] :: es.drop c := by
      have := List.drop_eq_getElem_cons hlt
      rw [show c - 1 + 1 = c by omega] at this
      rw [← this, List.take_append_drop]
    refine ⟨_, es.take (c - 1), es.drop c, rfl, ?_, h4, .old es[c - 1].2 ?_ rfl ?_ rfl⟩
    · intro x hx
      rw [hsp, List.pairwise_append] at hs
      exact hc ▸ hs.2.2 x hx _ List.mem_cons_self
    · have hp : es[c - 1] = (k, es[c - 1].2) := Prod.ext hc rfl
      rw [← hp]; exact hsp
    · simp only [List.length_take]; omega
  · simp only [hf]
    refine ⟨_, es.take c, es.drop c, rfl, ?_, h4, .new (by simp) rfl ?_ rfl⟩
    · intro x hx
      refine lt_of_le_of_ne (h3 x hx) fun he => hf (h6.2 ?_)
      rw [← he]
      exact List.mem_map_of_mem (List.mem_of_mem_take hx)
    · simp only [List.length_take]; omega

theorem insertIdx_mid {α : Type} (a : α) (Y : List α) : ∀ (X : List α) (n : Nat), n = X.length →
    (X ++ Y).insertIdx n a = X ++ a :: Y := by
  intro X
  induction X with
  | nil => intro n h; subst h; simp
  | cons x X ih => intro n h; subst h; simp [ih]

omit [LinearOrder K] [Inhabited K] in
theorem Fits.apply {mrg : K → M → M → M} {k : K} {m : M} {es : List (K × M)} {s : Spec M}
    {X Y : List (K × M)} (h : Fits mrg k m es s X Y) :
    BtreeIns.apply es k s = X ++ (k, s.msg) :: Y := by
  cases h with
  | new e f i v => simp [BtreeIns.apply, f, i, e, insertIdx_mid]
  | old o e f i v => simp [BtreeIns.apply, f, i, e]

omit [LinearOrder K] [Inhabited K] in
theorem splitLeafBodies_spec {mrg : K → M → M → M} {k : K} {m : M} {es : List (K × M)} {s : Spec M}
    {X Y l r : List (K × M)} {split : Nat} {left : Bool} {piv : K} (h : Fits mrg k m es s X Y)
    (hp : planOk s split left = true) (hr : r ≠ [])
    (he : splitLeafBodies es k s split left = some (l, r, piv)) :
    l ++ r = X ++ (k, s.msg) :: Y ∧ r.head?.map (·.1) = some piv := by
  unfold splitLeafBodies at he
  unfold planOk at hp
  cases left with
  | true =>
    simp only [if_true, Bool.true_eq_false, and_false, if_false] at he hp
    cases h with
    | new e f i v =>
      simp only [f, Bool.false_eq_true, if_false, decide_eq_true_eq, false_and, rightCopy] at he hp
      split at he
      · cases he
      · rename_i pv hpv
        simp only [Option.some.injEq, Prod.mk.injEq] at he
        obtain ⟨rfl, rfl, rfl⟩ := he
        rw [i] at hp ⊢
        have ht : es.take split = X ++ Y.take (split - X.length) := by
          rw [e, List.take_append, List.take_of_length_le hp]
        have hd : es.drop split = Y.drop (split - X.length) := by
          rw [e, List.drop_append, List.drop_eq_nil_of_le hp, List.nil_append]
        refine ⟨?_, ?_⟩
        · rw [ht, insertIdx_mid _ _ _ _ rfl, hd]; simp
        · rw [List.head?_drop]; exact hpv
    | old o e f i v =>
      simp only [f, if_true, decide_eq_true_eq, true_and, rightCopy] at he hp
      split at he
      · cases he
      · rename_i pv hpv
        rw [if_pos hp, if_neg (by omega)] at he
        simp only [Option.some.injEq, Prod.mk.injEq] at he
        obtain ⟨rfl, rfl, rfl⟩ := he
        rw [i] at hp ⊢
        obtain ⟨j, rfl⟩ : ∃ j, split = X.length + 1 + j := ⟨split - (X.length + 1), by omega⟩
        have ht : es.take (X.length + 1 + j) = X ++ (k, o) :: Y.take j := by
          rw [e, List.take_append, List.take_of_length_le (by omega),
            show X.length + 1 + j - X.length = j + 1 by omega, List.take_succ_cons]
        have hd : es.drop (X.length + 1 + j) = Y.drop j := by
          rw [e, List.drop_append, List.drop_eq_nil_of_le (by omega), List.nil_append,
            show X.length + 1 + j - X.length = j + 1 by omega, List.drop_succ_cons]
        refine ⟨?_, ?_⟩
        · rw [ht, hd]; simp
        · rw [List.head?_drop]; exact hpv
  | false =>
    simp only [Bool.false_eq_true, if_false, and_true, decide_eq_true_eq] at he hp
    cases h with
    | new e f i v =>
      simp only [f, and_true, false_and, if_false, rightCopy, Bool.false_eq_true] at he
      split at he
      · cases he
      · rename_i pv hpv
        simp only [Option.some.injEq, Prod.mk.injEq] at he
        obtain ⟨rfl, rfl, rfl⟩ := he
        rw [i] at hp hpv ⊢
        have ht : es.take split = X.take split := by
          rw [e, List.take_append_of_le_length hp]
        have hd : es.drop split = X.drop split ++ Y := by
          rw [e, List.drop_append_of_le_length hp]
        have hins : (es.drop split).insertIdx (X.length - split) (k, s.msg) =
            X.drop split ++ (k, s.msg) :: Y := by
          rw [hd, insertIdx_mid _ _ _ _ (by simp)]
        rw [hins, ht]
        refine ⟨by rw [← List.append_assoc, List.take_append_drop], ?_⟩
        by_cases hsp : split = X.length
        · simp only [hsp, if_true] at hpv
          simp [hsp]; simpa using hpv
        · simp only [hsp, if_false] at hpv
          have : split < X.length := by omega
          rw [List.head?_append, List.head?_drop]
          rw [e, List.getElem?_append_left this] at hpv
          obtain ⟨y, hy, rfl⟩ := Option.map_eq_some_iff.1 hpv
          simp [hy]
    | old o e f i v =>
      simp only [f, Bool.true_eq_false, and_false, if_false, true_and, rightCopy] at he
      split at he
      · cases he
      · rename_i pv hpv
        simp only [if_pos hp, Option.some.injEq, Prod.mk.injEq] at he
        obtain ⟨rfl, rfl, rfl⟩ := he
        rw [i] at hp ⊢
        have ht : es.take split = X.take split := by
          rw [e, List.take_append_of_le_length hp]
        have hd : es.drop split = X.drop split ++ (k, o) :: Y := by
          rw [e, List.drop_append_of_le_length hp]
        have hins : ((es.drop split).eraseIdx (X.length - split)).insertIdx (X.length - split) (k, s.msg) =
            X.drop split ++ (k, s.msg) :: Y := by
          rw [hd, List.eraseIdx_append_of_length_le (by simp),
            insertIdx_mid _ _ _ _ (by simp)]; simp
        rw [hins, ht]
        refine ⟨by rw [← List.append_assoc, List.take_append_drop], ?_⟩
        by_cases hsp : split = X.length
        · rw [e, hsp] at hpv
          simp at hpv
          simp [hsp, hpv]
        · have : split < X.length := by omega
          rw [List.head?_append, List.head?_drop]
          rw [e, List.getElem?_append_left this] at hpv
          obtain ⟨y, hy, rfl⟩ := Option.map_eq_some_iff.1 hpv
          simp [hy]

end Splinter.BtreeIns
