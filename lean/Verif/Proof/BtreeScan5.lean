import Verif.Proof.BtreeScan4
import Verif.Proof.BtreeIter
/-!
One step of a scan.
-/
namespace Splinter.BtreeIns
open Btree Search

section
variable {K M : Type} [LinearOrder K]

/-- Counting a predicate that only holds on a first part. -/
theorem count_split {es : List (K × M)} {p : K × M → Bool} (hs : es.Pairwise fun x y => x.1 < y.1)
    (hp : ∀ x y : K × M, x.1 < y.1 → p y = true → p x = true) :
    (∀ x ∈ es.take (es.countP p), p x = true) ∧ ∀ x ∈ es.drop (es.countP p), p x = false := by
  induction es with
  | nil => simp
  | cons a es ih =>
    rw [List.pairwise_cons] at hs
    obtain ⟨i1, i2⟩ := ih hs.2
    by_cases ha : p a = true
    · rw [List.countP_cons_of_pos ha, List.take_succ_cons, List.drop_succ_cons]
      refine ⟨?_, i2⟩
      intro x hx
      rcases List.mem_cons.1 hx with rfl | hx
      · exact ha
      · exact i1 x hx
    · have h0 : es.countP p = 0 := by
        rw [List.countP_eq_zero]
        intro y hy hpy
        exact ha (hp a y (hs.1 y hy) hpy)
      rw [List.countP_cons_of_neg ha, h0]
      refine ⟨by simp, ?_⟩
      rw [h0] at i2
      intro x hx
      rcases List.mem_cons.1 (by simpa using hx) with rfl | hx
      · simpa using ha
      · exact i2 x (by simpa using hx)

variable [Inhabited K]

/-- Where a scan starts in a leaf. -/
theorem start_idx {es : List (K × M)} (hs : es.Pairwise fun x y => x.1 < y.1) (start : K) (strict : Bool) :
    ∃ r : Nat, findKey es start (if strict then .gt else .ge) = r ∧ r ≤ es.length ∧ cntLt es start ≤ r ∧
      (∀ x ∈ es.take r, ¬ From start strict x.1) ∧ ∀ x ∈ es.drop r, From start strict x.1 := by
  rw [findKey_eq hs]
  cases strict with
  | true =>
    refine ⟨cntLe es start, rfl, List.countP_le_length, ?_, ?_⟩
    · exact List.countP_mono_left (fun x _ h => by simp at h ⊢; exact h.le)
    · obtain ⟨h1, h2⟩ := count_split (p := fun x => decide (x.1 ≤ start)) hs
        (fun x y h1 h2 => by simp at h2 ⊢; exact h1.le.trans h2)
      refine ⟨fun x hx => ?_, fun x hx => ?_⟩
      · have := h1 x hx; simp [From] at this ⊢; exact this
      · have := h2 x hx; simp [From] at this ⊢; exact this
  | false =>
    refine ⟨cntLt es start, rfl, List.countP_le_length, le_rfl, ?_⟩
    obtain ⟨h1, h2⟩ := count_split (p := fun x => decide (x.1 < start)) hs
      (fun x y h1 h2 => by simp at h2 ⊢; exact h1.trans h2)
    refine ⟨fun x hx => ?_, fun x hx => ?_⟩
    · have := h1 x hx; simp [From] at this ⊢; exact this
    · have := h2 x hx; simp [From] at this ⊢; exact this

/-- Where a scan ends in a leaf. -/
theorem end_idx [BoundedOrder K] {es : List (K × M)} (hs : es.Pairwise fun x y => x.1 < y.1) (hi : K) :
    ∃ r : Nat, endIdx es hi = r ∧ r ≤ es.length ∧ (∀ x ∈ es.take r, UpTo hi x.1) ∧
      ∀ x ∈ es.drop r, hi ≠ ⊤ ∧ hi ≤ x.1 := by
  unfold endIdx
  split
  · rename_i h
    exact ⟨es.length, rfl, le_rfl, fun x _ => .inl h, by simp⟩
  · rename_i h
    rw [findKey_eq hs]
    obtain ⟨h1, h2⟩ := count_split (p := fun x => decide (x.1 < hi)) hs
      (fun x y h1 h2 => by simp at h2 ⊢; exact h1.trans h2)
    refine ⟨cntLt es hi, rfl, List.countP_le_length, fun x hx => ?_, fun x hx => ⟨h, ?_⟩⟩
    · have := h1 x hx; simp at this; exact .inr this
    · have := h2 x hx; simpa using this

end

variable {K M : Type} [LinearOrder K] [BoundedOrder K] [Inhabited K] {st : Store K M} {root H : Nat}
  {lv : Nat → List (K × Nat)} {gen : Nat → Nat}

theorem descend_spec (S : Skel st root H lv) {g a : Nat} {k b : K} (hg : g < H) (hat : At lv (g + 1) k b a) :
    ∃ c b', descend st a k = some c ∧ At lv g k b' c := by
  obtain ⟨n, es, e1, e2, e3, e4, e5, e6, e7⟩ := (S.page (g + 1) hg _ (S.mem hat)).index (by omega)
  simp only at e1 e5 e6 e7
  have hs : (es.map (·.key)).Pairwise (· < ·) := by
    have hs := S.sorted g (by omega)
    obtain ⟨A, B, e, _⟩ := hat
    rw [S.kids g hg, e, List.flatMap_append, List.flatMap_cons, List.pairwise_append,
      List.pairwise_append, e6] at hs
    have := hs.2.1.1
    rw [List.pairwise_map] at this ⊢
    exact this
  obtain ⟨A', x, B', f1, f2, f3, f4⟩ := childIdx_split (t := k) hs e4
  have hx : es[childIdx es k]? = some x := by rw [f2, f1]; simp
  have hd := S.down (c := x.child) (b' := x.key) hg hat (A' := A'.map fun e => (e.key, e.child))
    (B' := B'.map fun e => (e.key, e.child)) (by rw [e6, f1]; simp) (by simpa using f3)
    (by intro q hq; obtain ⟨y, hy, rfl⟩ := List.mem_map.1 hq; exact f4 y hy)
  exact ⟨x.child, x.key, by simp [descend, e5, hx], hd⟩

theorem root_page (S : Skel st root H lv) : ∃ n, st root = some n ∧ n.height = H := by
  obtain ⟨n, e1, e2, _⟩ := S.page H le_rfl (⊥, root) (by rw [S.top]; simp)
  exact ⟨n, e1, e2⟩

/-- A tuple is in the tree if it is in the leaf of its key. -/
theorem mem_leaf (T : Whole st root H lv) {A B : List (K × Nat)} {b k : K} {a : Nat} {v : M}
    (e : lv 0 = A ++ (b, a) :: B) (h1 : A ≠ [] → b ≤ k) (h2 : ∀ q ∈ B, k < q.1) :
    (k, v) ∈ items st lv ↔ (k, v) ∈ cont st a := by
  obtain ⟨l1, l2, _⟩ := T.skel.leaf_split T.leaves e h1 h2
  unfold items
  rw [e, List.flatMap_append, List.flatMap_cons, List.mem_append, List.mem_append]
  constructor
  · rintro (h | h | h)
    · exact absurd (l1 _ h) (lt_irrefl _)
    · exact h
    · exact absurd (l2 _ h) (lt_irrefl _)
  · exact fun h => .inr (.inl h)

theorem leaf_page (T : Whole st root H lv) {A B : List (K × Nat)} {b : K} {a : Nat}
    (e : lv 0 = A ++ (b, a) :: B) :
    ∃ n, st a = some n ∧ n.body = .leaf (cont st a) ∧ leafOf st a = some (cont st a) ∧
      n.next = (B.map (·.2)).head?.getD 0 ∧ (cont st a).Pairwise (fun x y => x.1 < y.1) := by
  obtain ⟨n, es, e1, e2, e3, e4, e5, e6⟩ := (T.skel.page 0 (Nat.zero_le _) (b, a) (by rw [e]; simp)).leaf
  simp only at e1 e4 e5
  refine ⟨n, e1, by rw [e5]; exact e3, by rw [e5]; exact e4, ?_, ?_⟩
  · have hc := T.leaves.chain
    rw [e, List.map_append, List.map_cons, linked_append] at hc
    obtain ⟨n', h1, _, h3⟩ := hc.2.1
    rw [e1] at h1
    cases h1
    exact h3
  · have hs := T.leaves.sorted
    rw [e, List.flatMap_append, List.flatMap_cons, List.pairwise_append, List.pairwise_append] at hs
    exact hs.2.1.1

/-- Keys of a leaf are before the separator behind it. -/
theorem leaf_lt (T : Whole st root H lv) {A B : List (K × Nat)} {b : K} {a : Nat}
    (e : lv 0 = A ++ (b, a) :: B) {x : K × M} (hx : x ∈ cont st a) : ∀ q ∈ B, x.1 < q.1 := by
  obtain ⟨A', B', e', _, h⟩ := at_of_mem T (q := (b, a)) (by rw [e]; simp) hx
  have hnd := T.skel.nodup 0 (Nat.zero_le _)
  rw [e] at hnd
  have := (split_same hnd (e'.symm.trans e) rfl).2.2
  rwa [this] at h

/-- The leaf of a greater key is the same or behind. -/
theorem later (S : Skel st root H lv) {A B : List (K × Nat)} {b be k hi : K} {c a : Nat}
    (e : lv 0 = A ++ (b, c) :: B) (h1 : A ≠ [] → b ≤ k) (hk : k ≤ hi) (h : At lv 0 hi be a) :
    (c = a ∧ ∀ q ∈ B, hi < q.1) ∨ (c ≠ a ∧ (be, a) ∈ B ∧ be ≤ hi) := by
  obtain ⟨A2, B2, e2, g1, g2⟩ := h
  have hs := S.sorted 0 (Nat.zero_le _)
  have hnd := S.nodup 0 (Nat.zero_le _)
  by_cases hca : c = a
  · subst hca
    rw [e] at hnd
    have := (split_same hnd (e2.symm.trans e) rfl).2.2
    exact .inl ⟨rfl, this ▸ g2⟩
  · right
    have hs1 := hs
    have hs2 := hs
    rw [e, List.pairwise_append, List.pairwise_cons] at hs1
    rw [e2, List.pairwise_append, List.pairwise_cons] at hs2
    have m1 : (be, a) ∈ A ++ (b, c) :: B := by rw [← e, e2]; simp
    have m2 : (b, c) ∈ A2 ++ (be, a) :: B2 := by rw [← e2, e]; simp
    have hB : (be, a) ∈ B := by
      rcases List.mem_append.1 m1 with h | h
      · have hlt := hs1.2.2 _ h (b, c) (by simp)
        simp only at hlt
        have : (b, c) ∈ B2 := by
          rcases List.mem_append.1 m2 with h' | h'
          · exact absurd (hs2.2.2 _ h' (be, a) (by simp)) (not_lt.2 hlt.le)
          · rcases List.mem_cons.1 h' with h' | h'
            · simp only [Prod.mk.injEq] at h'; exact absurd h'.2 hca
            · exact h'
        have h3 := g2 _ this
        have h4 := h1 (by rintro rfl; simp at h)
        exact absurd h3 (not_lt.2 (h4.trans hk))
      · rcases List.mem_cons.1 h with h | h
        · simp only [Prod.mk.injEq] at h; exact absurd h.2.symm hca
        · exact h
    refine ⟨hca, hB, g1 ?_⟩
    rintro rfl
    have hlt := hs1.2.1.1 _ hB
    simp only [List.nil_append] at m2
    rcases List.mem_cons.1 m2 with h | h
    · simp only [Prod.mk.injEq] at h; exact hca h.2
    · exact absurd (hs2.2.1.1 _ h) (not_lt.2 (le_of_lt hlt))

/-- The separator of a leaf that is not the first is its first key. -/
theorem first_key (T : Whole st root H lv) {A B : List (K × Nat)} {b : K} {a : Nat}
    (e : lv 0 = A ++ (b, a) :: B) (hA : A ≠ []) : ∃ v es, cont st a = (b, v) :: es := by
  have hs := T.skel.sorted 0 (Nat.zero_le _)
  rw [e, List.pairwise_append, List.pairwise_cons] at hs
  obtain ⟨_, _, h⟩ := T.skel.leaf_split T.leaves (k := b) e (fun _ => le_rfl) hs.2.1.1
  obtain ⟨x, hx, rfl⟩ := h hA
  cases hc : cont st a with
  | nil => rw [hc] at hx; simp at hx
  | cons y es =>
    rw [hc] at hx
    simp only [List.head?_cons, Option.some.injEq] at hx
    exact ⟨y.2, es, by rw [← hx]⟩

theorem mem_tail {l : List (K × Nat)} {q : K × Nat} (h : q ∈ l.tail) : ∃ A B, l = A ++ q :: B ∧ A ≠ [] := by
  cases l with
  | nil => simp at h
  | cons z l =>
    obtain ⟨A, B, e⟩ := List.append_of_mem (by simpa using h)
    exact ⟨z :: A, B, by rw [e]; rfl, by simp⟩

/-- The next key of a scan in a leaf: no key of the tree is between. -/
theorem next_none {mrg : K → M → M → M} {hist : List (K × M)} (T : Whole st root H lv)
    (hv : ∀ k v, (k, v) ∈ items st lv ↔ valueOf mrg k hist = some v) {A B : List (K × Nat)} {b : K} {c n : Nat}
    (e : lv 0 = A ++ (b, c) :: B) {k : K} {v : M} (hk : A ≠ [] → b ≤ k)
    (hF : ∀ f ∈ (((cont st c)[n]?).map (·.1)).or (B.head?.map (·.1)), k < f)
    (hval : valueOf mrg k hist = some v) : (k, v) ∈ (cont st c).take n := by
  obtain ⟨_, _, _, _, _, hso⟩ := leaf_page T e
  have hs := T.skel.sorted 0 (Nat.zero_le _)
  rw [e, List.pairwise_append, List.pairwise_cons] at hs
  have hB : ∀ q ∈ B, k < q.1 := by
    apply behind hs.2.1.2
    intro f hf
    cases hn : (cont st c)[n]? with
    | none => rw [hn] at hF; exact hF f (by simpa using hf)
    | some y =>
      rw [hn] at hF
      have h1 := hF y.1 (by simp)
      have h2 := leaf_lt T e (List.mem_of_getElem? hn)
      exact h1.trans (head_behind h2 f hf)
  have hm := (mem_leaf T e hk hB).1 ((hv k v).2 hval)
  obtain ⟨j, hj⟩ := List.mem_iff_getElem?.1 hm
  rw [List.mem_iff_getElem?]
  refine ⟨j, ?_⟩
  rw [List.getElem?_take, if_pos, hj]
  by_contra hjn
  have hjl := (List.getElem?_eq_some_iff.1 hj).1
  have hnl : n < (cont st c).length := by omega
  rw [List.getElem?_eq_getElem hnl] at hF
  have h1 := hF _ (by simp; rfl)
  have h3 : (cont st c)[j] = (k, v) := (List.getElem?_eq_some_iff.1 hj).2
  rcases Nat.lt_or_eq_of_le (not_lt.1 hjn) with h | h
  · have := List.pairwise_iff_getElem.1 hso n j hnl hjl h
    rw [h3] at this
    exact absurd h1 (not_lt.2 this.le)
  · subst h
    rw [h3] at h1
    exact lt_irrefl _ h1

end Splinter.BtreeIns
