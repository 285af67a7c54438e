import Mathlib.Tactic.Order
import Verif.Proof.Pack
/-!
The iterator of a tree, seen as a position in the list of its tuples.
-/
namespace Splinter.Btree
open Search

variable {K M : Type} [LinearOrder K] [BoundedOrder K] [Inhabited K]

/-- Number of tuples below a key. -/
def cntLt (l : List (K × M)) (k : K) : Nat := l.countP fun x => decide (x.1 < k)
/-- Number of tuples up to a key. -/
def cntLe (l : List (K × M)) (k : K) : Nat := l.countP fun x => decide (x.1 ≤ k)

/-- Number of tuples in a list of leaves. -/
def sz (st : Store K M) (A : List Nat) : Nat := (A.flatMap (cont st)).length

/-- What the iterator needs of a tree: leaves in a list, and a search that finds the
right leaf. -/
structure Tree (st : Store K M) (root : Nat) (L : List Nat) (items : List (K × M)) : Prop where
  nodup : L.Nodup
  nz : ∀ b ∈ L, b ≠ 0
  chain : Linked st 0 L 0
  leaf : ∀ b ∈ L, leafOf st b = some (cont st b)
  ne : ∀ b ∈ L, cont st b = [] → L = [b]
  flat : items = L.flatMap (cont st)
  sorted : items.Pairwise (fun x y => x.1 < y.1)
  find : ∀ t : K, ∃ LA b LB z, lookupNode st root t 0 = some (b, z) ∧ L = LA ++ b :: LB ∧
    (∀ x ∈ LA.flatMap (cont st), x.1 < t) ∧ (∀ x ∈ LB.flatMap (cont st), t < x.1) ∧
    (LA ≠ [] → ∀ x ∈ (cont st b).head?, x.1 ≤ t)

omit [BoundedOrder K] [Inhabited K] in
theorem cnt_mono {l : List (K × M)} {j k : K} (h : j ≤ k) : cntLt l j ≤ cntLt l k :=
  List.countP_mono_left fun x _ hx => by
    simp only [decide_eq_true_eq] at *; exact lt_of_lt_of_le hx h

omit [BoundedOrder K] [Inhabited K] in
theorem cntLt_le_cntLe {l : List (K × M)} {j k : K} (h : j ≤ k) : cntLt l j ≤ cntLe l k :=
  List.countP_mono_left fun x _ hx => by
    simp only [decide_eq_true_eq] at *; exact le_trans (le_of_lt hx) h

omit [BoundedOrder K] [Inhabited K] in
theorem cntLe_le_cntLt {l : List (K × M)} {j k : K} (h : j < k) : cntLe l j ≤ cntLt l k :=
  List.countP_mono_left fun x _ hx => by
    simp only [decide_eq_true_eq] at *; exact lt_of_le_of_lt hx h

omit [BoundedOrder K] [Inhabited K] in
theorem cntLt_split {A es B : List (K × M)} {k : K} (hA : ∀ x ∈ A, x.1 < k) (hB : ∀ x ∈ B, k < x.1) :
    cntLt (A ++ (es ++ B)) k = A.length + cntLt es k := by
  unfold cntLt
  rw [List.countP_append, List.countP_append, List.countP_eq_length.2 (by simpa using hA),
    (List.countP_eq_zero (l := B)).2 (by
      intro x hx; simp only [decide_eq_true_eq, not_lt]; exact le_of_lt (hB x hx))]
  rfl

omit [BoundedOrder K] [Inhabited K] in
theorem cntLe_split {A es B : List (K × M)} {k : K} (hA : ∀ x ∈ A, x.1 < k) (hB : ∀ x ∈ B, k < x.1) :
    cntLe (A ++ (es ++ B)) k = A.length + cntLe es k := by
  unfold cntLe
  rw [List.countP_append, List.countP_append, List.countP_eq_length.2 (by
      intro x hx; simp only [decide_eq_true_eq]; exact le_of_lt (hA x hx)),
    (List.countP_eq_zero (l := B)).2 (by
      intro x hx; simp only [decide_eq_true_eq, not_le]; exact hB x hx)]
  rfl

omit [LinearOrder K] [BoundedOrder K] [Inhabited K] in
theorem countP_at {l : List (K × M)} {p : K × M → Bool} {r : Nat} (hr : r ≤ l.length)
    (h1 : ∀ x ∈ l.take r, p x = true) (h2 : ∀ x ∈ l.drop r, p x = false) : l.countP p = r := by
  rw [List.countP_eq_length_filter, filter_split h1 h2]
  simp; omega

omit [BoundedOrder K] in
/-- The binary search in a leaf, in terms of counts. -/
theorem find_cnt {es : List (K × M)} {t : K} (hs : es.Pairwise (fun x y => x.1 < y.1)) :
    (btreeFind (es.map (·.1)) t).1 = (cntLe es t : Int) - 1 ∧
    ((btreeFind (es.map (·.1)) t).2 = true → cntLe es t = cntLt es t + 1) ∧
    ((btreeFind (es.map (·.1)) t).2 = false → cntLe es t = cntLt es t) := by
  obtain ⟨r, h1, h2, h3⟩ := leaf_split (t := t) hs
  rcases h3 with ⟨e, ⟨m, hm⟩, h3⟩ | ⟨e, h3⟩
  · obtain ⟨hr, hm⟩ := List.getElem?_eq_some_iff.1 hm
    have a : cntLe es t = r + 1 := by
      apply countP_at hr
      · intro x hx
        rw [List.take_add_one, List.mem_append] at hx
        simp only [decide_eq_true_eq]
        rcases hx with hx | hx
        · exact le_of_lt (h1 x hx)
        · rw [List.getElem?_eq_getElem hr, hm] at hx
          simp only [Option.toList_some, List.mem_singleton] at hx
          rw [hx]
      · intro x hx; simp only [decide_eq_false_iff_not, not_le]; exact h3 x hx
    have b : cntLt es t = r := by
      apply countP_at h2
      · intro x hx; simpa using h1 x hx
      · intro x hx
        rw [List.drop_eq_getElem_cons hr, hm] at hx
        simp only [decide_eq_false_iff_not, not_lt]
        rcases List.mem_cons.1 hx with rfl | hx
        · exact le_refl _
        · exact le_of_lt (h3 x hx)
    rw [e, a, b]
    exact ⟨by simp, fun _ => rfl, by simp⟩
  · have a : cntLe es t = r := by
      apply countP_at h2
      · intro x hx; simp only [decide_eq_true_eq]; exact le_of_lt (h1 x hx)
      · intro x hx; simp only [decide_eq_false_iff_not, not_le]; exact h3 x hx
    have b : cntLt es t = r := by
      apply countP_at h2
      · intro x hx; simpa using h1 x hx
      · intro x hx; simp only [decide_eq_false_iff_not, not_lt]; exact le_of_lt (h3 x hx)
    rw [e, a, b]
    exact ⟨rfl, by simp, fun _ => rfl⟩

/-- Position the iterator starts from, in terms of counts. -/
def startAt (l : List (K × M)) (t : K) : Cmp → Int
  | .lt => (cntLt l t : Int) - 1
  | .le => (cntLe l t : Int) - 1
  | .ge => cntLt l t
  | .gt => cntLe l t

omit [BoundedOrder K] in
theorem findKey_eq {es : List (K × M)} {t : K} {c : Cmp} (hs : es.Pairwise (fun x y => x.1 < y.1)) :
    findKey es t c = startAt es t c := by
  obtain ⟨h1, h2, h3⟩ := find_cnt (t := t) hs
  unfold findKey position startAt
  rw [h1]
  cases hf : (btreeFind (es.map (·.1)) t).2 with
  | true => have := h2 hf; cases c <;> simp <;> omega
  | false => have := h3 hf; cases c <;> simp <;> omega

omit [BoundedOrder K] [Inhabited K] in
theorem startAt_split {A es B : List (K × M)} {k : K} (c : Cmp) (hA : ∀ x ∈ A, x.1 < k)
    (hB : ∀ x ∈ B, k < x.1) : startAt (A ++ (es ++ B)) k c = A.length + startAt es k c := by
  cases c <;> simp only [startAt, cntLt_split hA hB, cntLe_split hA hB] <;> omega

/-- The iterator `t` is at position `p` of the tuples, `lo` is the first and `hi` is one past
the last position it may report. -/
structure Rep (st : Store K M) (L : List Nat) (t : Iter K) (p lo hi : Int) : Prop where
  ex : ∃ A b B A' e B', L = A ++ b :: B ∧ L = A' ++ e :: B' ∧ t.curr = b ∧ t.endAddr = e ∧
    p = sz st A + t.idx ∧ hi = sz st A' + t.endIdx ∧ 0 ≤ t.endIdx ∧ t.endIdx ≤ (cont st e).length ∧
    A.length ≤ A'.length ∧ (A.length < A'.length → t.idx < (cont st b).length) ∧
    ((t.minIdx = lo - sz st A ∧ sz st A ≤ lo) ∨
      (t.minIdx = -1 ∧ A ≠ [] ∧ lo ≤ sz st A ∧ 0 ≤ t.idx))
  low : lo - 1 ≤ p
  lohi : lo ≤ hi
  high : p ≤ hi
  pos : 0 ≤ lo

omit [LinearOrder K] [BoundedOrder K] [Inhabited K] in
theorem sz_append {st : Store K M} {A B : List Nat} : sz st (A ++ B) = sz st A + sz st B := by
  simp [sz]

omit [LinearOrder K] [BoundedOrder K] [Inhabited K] in
theorem sz_cons {st : Store K M} {b : Nat} {B : List Nat} :
    sz st (b :: B) = (cont st b).length + sz st B := by simp [sz]

/-- Two ways to split a list without duplicates at one element. -/
theorem split_unique {L A B A' B' : List Nat} {b : Nat} (nd : L.Nodup) (h : L = A ++ b :: B)
    (h' : L = A' ++ b :: B') : A = A' ∧ B = B' := by
  induction A generalizing L A' with
  | nil =>
    cases A' with
    | nil => simp_all
    | cons a A' =>
      subst h
      simp only [List.nil_append, List.cons_append, List.cons.injEq] at h'
      obtain ⟨rfl, h2⟩ := h'
      simp [h2] at nd
  | cons a A ih =>
    cases A' with
    | nil =>
      subst h'
      simp only [List.nil_append, List.cons_append, List.cons.injEq] at h
      obtain ⟨rfl, h2⟩ := h
      simp [h2] at nd
    | cons a' A' =>
      subst h
      simp only [List.cons_append, List.cons.injEq] at h'
      obtain ⟨rfl, h2⟩ := h'
      have := ih (List.nodup_cons.1 nd).2 rfl h2
      exact ⟨by rw [this.1], this.2⟩

/-- Splits at different lengths. -/
theorem split_lt {L A B A' B' : List Nat} {b e : Nat} (h : L = A ++ b :: B) (h' : L = A' ++ e :: B')
    (hl : A.length < A'.length) : ∃ C, A' = A ++ b :: C ∧ B = C ++ e :: B' := by
  subst h
  have hp : A ++ [b] <+: A' := by
    apply List.prefix_of_prefix_length_le (l₃ := A ++ b :: B) ⟨B, by simp⟩ ⟨e :: B', h'.symm⟩
    simp; omega
  obtain ⟨C, rfl⟩ := hp
  refine ⟨C, by simp, ?_⟩
  simpa using h'

variable {st : Store K M} {root : Nat} {L : List Nat} {items : List (K × M)}

theorem Tree.same (T : Tree st root L items) {A b B A' e B'} (h : L = A ++ b :: B)
    (h' : L = A' ++ e :: B') : b = e ↔ A.length = A'.length := by
  constructor
  · intro hb; subst hb; rw [(split_unique T.nodup h h').1]
  · intro hl
    subst h
    have := List.append_inj h' hl
    simpa using congrArg List.head? this.2

theorem Tree.canNext (T : Tree st root L items) {t : Iter K} {p lo hi : Int} (R : Rep st L t p lo hi)
    (hl : lo ≤ p ∨ lo < hi) : t.canNext = true ↔ p < hi := by
  obtain ⟨⟨A, b, B, A', e, B', h1, h2, h3, h4, h5, h6, h7, h8, h9, h10, h11⟩, l1, l2, l3, l4⟩ := R
  have hsame := T.same h1 h2
  unfold Iter.canNext
  simp only [h3, h4, Bool.or_eq_true, bne_iff_ne, ne_eq, Bool.and_eq_true, decide_eq_true_eq]
  by_cases hb : b = e
  · have hA := (split_unique T.nodup (hb ▸ h1) h2).1
    subst hA
    simp only [hb, not_true_eq_false, false_or]
    rcases h11 with ⟨h11, h12⟩ | ⟨h11, h12, h13, h14⟩
    · omega
    · omega
  · have hlt : A.length < A'.length := by
      rcases Nat.lt_or_ge A.length A'.length with h | h
      · exact h
      · exact absurd (hsame.2 (by omega)) hb
    obtain ⟨C, hC, _⟩ := split_lt h1 h2 hlt
    have hz : sz st A' = sz st A + ((cont st b).length + sz st C) := by rw [hC, sz_append, sz_cons]
    have := h10 hlt
    simp only [hb, not_false_eq_true, true_or, true_iff]
    omega

theorem Tree.canPrev (T : Tree st root L items) {t : Iter K} {p lo hi : Int} (R : Rep st L t p lo hi)
    (hl : lo < hi) : t.canPrev = true ↔ lo ≤ p := by
  obtain ⟨⟨A, b, B, A', e, B', h1, h2, h3, h4, h5, h6, h7, h8, h9, h10, h11⟩, l1, l2, l3, l4⟩ := R
  have hsame := T.same h1 h2
  unfold Iter.canPrev
  simp only [h3, h4, Bool.or_eq_true, bne_iff_ne, ne_eq, Bool.and_eq_true, decide_eq_true_eq]
  by_cases hb : b = e
  · have hA := (split_unique T.nodup (hb ▸ h1) h2).1
    subst hA
    simp only [hb, not_true_eq_false, or_false]
    rcases h11 with ⟨h11, h12⟩ | ⟨h11, h12, h13, h14⟩
    · omega
    · omega
  · simp only [hb, not_false_eq_true, or_true, and_true]
    rcases h11 with ⟨h11, h12⟩ | ⟨h11, h12, h13, h14⟩
    · omega
    · omega

/-- An empty range: nothing is ever current. -/
theorem Tree.canCurr_empty (T : Tree st root L items) {t : Iter K} {p lo hi : Int}
    (R : Rep st L t p lo hi) (hl : lo = hi) : ¬ (t.canNext = true ∧ t.canPrev = true) := by
  obtain ⟨⟨A, b, B, A', e, B', h1, h2, h3, h4, h5, h6, h7, h8, h9, h10, h11⟩, l1, l2, l3, l4⟩ := R
  have hsame := T.same h1 h2
  unfold Iter.canPrev Iter.canNext
  simp only [h3, h4, Bool.or_eq_true, bne_iff_ne, ne_eq, Bool.and_eq_true, decide_eq_true_eq]
  by_cases hb : b = e
  · have hA := (split_unique T.nodup (hb ▸ h1) h2).1
    subst hA
    simp only [hb, not_true_eq_false, or_false, false_or]
    rcases h11 with ⟨h11, h12⟩ | ⟨h11, h12, h13, h14⟩
    · omega
    · omega
  · have hlt : A.length < A'.length := by
      rcases Nat.lt_or_ge A.length A'.length with h | h
      · exact h
      · exact absurd (hsame.2 (by omega)) hb
    obtain ⟨C, hC, _⟩ := split_lt h1 h2 hlt
    have hz : sz st A' = sz st A + ((cont st b).length + sz st C) := by rw [hC, sz_append, sz_cons]
    have := h10 hlt
    rcases h11 with ⟨h11, h12⟩ | ⟨h11, h12, h13, h14⟩
    · omega
    · omega

/-- The current tuple is the one at the position. -/
theorem Tree.curr (T : Tree st root L items) {t : Iter K} {p lo hi : Int} (R : Rep st L t p lo hi)
    (hl : lo ≤ p) (hh : p < hi) : ∃ x, t.curr? st = some x ∧ items[p.toNat]? = some x := by
  obtain ⟨⟨A, b, B, A', e, B', h1, h2, h3, h4, h5, h6, h7, h8, h9, h10, h11⟩, l1, l2, l3, l4⟩ := R
  have hidx : t.idx < (cont st b).length := by
    by_cases hb : A.length < A'.length
    · exact h10 hb
    · have := (T.same h1 h2).2 (by omega)
      subst this
      have hA := (split_unique T.nodup h1 h2).1
      subst hA
      omega
  have h0 : 0 ≤ t.idx := by
    rcases h11 with ⟨h11, h12⟩ | ⟨h11, h12, h13, h14⟩ <;> omega
  have hbL : b ∈ L := by rw [h1]; simp
  unfold Iter.curr?
  rw [h3, T.leaf b hbL]
  have hn : t.idx.toNat < (cont st b).length := by omega
  simp only [Option.bind_eq_bind, Option.bind_some, if_neg (Int.not_lt.2 h0), List.getElem?_eq_getElem hn]
  refine ⟨_, rfl, ?_⟩
  have hp : p.toNat = sz st A + t.idx.toNat := by omega
  rw [hp, T.flat, h1, List.flatMap_append, List.flatMap_cons, List.getElem?_append_right (by simp [sz])]
  have : sz st A + t.idx.toNat - (A.flatMap (cont st)).length = t.idx.toNat := by simp [sz]
  rw [this, List.getElem?_append_left hn, List.getElem?_eq_getElem hn]

/-- Fields of `linked` at an element. -/
theorem Tree.node (T : Tree st root L items) {A : List Nat} {b : Nat} {B : List Nat}
    (h : L = A ++ b :: B) : ∃ n, st b = some n ∧ n.prev = A.getLast?.getD 0 ∧
      n.next = B.head?.getD 0 ∧ n.body = .leaf (cont st b) := by
  have hc := T.chain
  rw [h, linked_append] at hc
  obtain ⟨_, ⟨n, n1, n2, n3⟩, _⟩ := hc
  refine ⟨n, n1, n2, n3, ?_⟩
  have := T.leaf b (by rw [h]; simp)
  unfold leafOf at this
  rw [n1] at this
  obtain ⟨_, _, _, bd⟩ := n
  cases bd with
  | leaf es => simp only [Option.some.injEq] at this; rw [← this]
  | index es => simp at this

theorem Tree.nextLeaf (T : Tree st root L items) {A : List Nat} {b c : Nat} {B : List Nat}
    (h : L = A ++ b :: c :: B) {t : Iter K} (ht : t.curr = b) :
    nextLeaf st t = some { t with curr := c, idx := 0, minIdx := -1 } := by
  obtain ⟨n, n1, _, n3, _⟩ := T.node h
  obtain ⟨m, m1, _⟩ := T.node (A := A ++ [b]) (b := c) (B := B) (by rw [h]; simp)
  unfold Btree.nextLeaf
  rw [ht, n1]
  simp only [List.head?_cons, Option.getD_some] at n3
  simp [n3, m1]

/-- Moving forward. -/
theorem Tree.next (T : Tree st root L items) {t : Iter K} {p lo hi : Int} (R : Rep st L t p lo hi)
    (hh : p < hi) : ∃ t', next st t = some t' ∧ Rep st L t' (p + 1) lo hi ∧
      t'.minKey = t.minKey ∧ t'.maxKey = t.maxKey ∧ t'.root = t.root := by
  obtain ⟨⟨A, b, B, A', e, B', h1, h2, h3, h4, h5, h6, h7, h8, h9, h10, h11⟩, l1, l2, l3, l4⟩ := R
  have hbL : b ∈ L := by rw [h1]; simp
  unfold Btree.next
  simp only [h3, T.leaf b hbL, Option.bind_eq_bind, Option.bind_some]
  split
  · rename_i hc
    obtain ⟨hc1, hc2⟩ := hc
    have hlt : A.length < A'.length := by
      rcases Nat.lt_or_ge A.length A'.length with h | h
      · exact h
      · exfalso
        have hbe := (T.same h1 h2).2 (by omega)
        subst hbe
        unfold Iter.canNext at hc2
        simp only [h4, bne_self_eq_false, Bool.false_or, Bool.and_eq_true, decide_eq_true_eq] at hc2
        omega
    obtain ⟨C, hC, hB⟩ := split_lt h1 h2 hlt
    obtain ⟨c, B1, hB1⟩ : ∃ c B1, B = c :: B1 := by
      cases C with
      | nil => exact ⟨e, B', by simpa using hB⟩
      | cons c C => exact ⟨c, C ++ e :: B', by simpa using hB⟩
    subst hB1
    rw [T.nextLeaf h1 rfl]
    have hcne : cont st c ≠ [] := by
      intro hn
      have := T.ne c (by rw [h1]; simp) hn
      rw [h1] at this
      have := congrArg List.length this
      simp at this
      omega
    have hz : sz st (A ++ [b]) = sz st A + (cont st b).length := by
      rw [sz_append, sz_cons]; simp [sz]
    refine ⟨_, rfl, ⟨⟨A ++ [b], c, B1, A', e, B', by rw [h1]; simp, h2, rfl, h4, ?_, h6, h7, h8, ?_, ?_, ?_⟩,
      ?_, l2, ?_, l4⟩, rfl, rfl, rfl⟩
    · simp only; omega
    · simp; omega
    · intro _
      have := List.length_pos_iff.2 hcne
      simp only
      omega
    · right
      refine ⟨rfl, by simp, ?_, by simp⟩
      omega
    · omega
    · omega
  · rename_i hc
    refine ⟨_, rfl, ⟨⟨A, b, B, A', e, B', h1, h2, rfl, h4, ?_, h6, h7, h8, h9, ?_, ?_⟩, by omega, l2, by omega, l4⟩,
      rfl, rfl, rfl⟩
    · simp only; omega
    · intro hlt
      simp only
      have := h10 hlt
      have hcn : ¬ (t.idx + 1 = ((cont st b).length : Int)) := by
        intro h
        apply hc
        refine ⟨h, ?_⟩
        unfold Iter.canNext
        have : b ≠ e := fun hb => by have := (T.same h1 h2).1 hb; omega
        simp [h4, this]
      omega
    · rcases h11 with ⟨h11, h12⟩ | ⟨h11, h12, h13, h14⟩
      · left; exact ⟨h11, h12⟩
      · right; exact ⟨h11, h12, h13, by simp only; omega⟩

omit [BoundedOrder K] [Inhabited K] in
theorem sorted_lt {l m : List (K × M)} (h : (l ++ m).Pairwise (fun x y => x.1 < y.1)) :
    ∀ x ∈ l, ∀ y ∈ m, x.1 < y.1 := (List.pairwise_append.1 h).2.2

/-- The lower bound as seen in one leaf: what `btree_iterator_prev_leaf` computes. -/
theorem Tree.prevLeaf (T : Tree st root L items) {A : List Nat} {a b : Nat} {B : List Nat}
    (h : L = A ++ a :: b :: B) {t : Iter K} (ht : t.curr = b)
    (hlo : cntLt items t.minKey ≤ sz st (A ++ [a])) :
    ∃ m, prevLeaf st t = some { t with curr := a, idx := ((cont st a).length : Int) - 1, minIdx := m } ∧
      ((m = cntLt items t.minKey - sz st A ∧ sz st A ≤ cntLt items t.minKey) ∨
      (m = -1 ∧ A ≠ [] ∧ cntLt items t.minKey ≤ sz st A)) := by
  obtain ⟨n, n1, n2, n3, n4⟩ := T.node (A := A) (b := a) (B := b :: B) h
  obtain ⟨m, m1, m2, _⟩ := T.node (A := A ++ [a]) (b := b) (B := B) (by rw [h]; simp)
  have haL : a ∈ L := by rw [h]; simp
  have hane : cont st a ≠ [] := by
    intro hn
    have := T.ne a haL hn
    rw [h] at this
    have := congrArg List.length this
    simp at this
    omega
  obtain ⟨x, es, hx⟩ : ∃ x es, cont st a = x :: es := by
    cases hc : cont st a with
    | nil => exact absurd hc hane
    | cons x es => exact ⟨x, es, rfl⟩
  have hI : items = A.flatMap (cont st) ++ (cont st a ++ (b :: B).flatMap (cont st)) := by
    rw [T.flat, h, List.flatMap_append, List.flatMap_cons]
  have hS := T.sorted
  rw [hI] at hS
  have hSa : (cont st a).Pairwise (fun x y => x.1 < y.1) :=
    (List.pairwise_append.1 (List.pairwise_append.1 hS).2.1).1
  have hxm : x ∈ cont st a := by rw [hx]; simp
  have hA0 : n.prev = 0 ↔ A = [] := by
    rw [n2]
    constructor
    · intro h0
      by_contra hA
      have hl := List.getLast?_eq_some_getLast hA
      rw [hl] at h0
      exact T.nz (A.getLast hA) (by rw [h]; simp) h0
    · rintro rfl; rfl
  unfold Btree.prevLeaf
  simp only [List.getLast?_append, List.getLast?_singleton, Option.some_or, Option.getD_some] at m2
  simp only [List.head?_cons, Option.getD_some] at n3
  obtain ⟨nh, nn, np, nb⟩ := n
  simp only at n2 n3 n4 hA0
  subst n4
  subst nn
  rw [ht, m1]
  simp only [Option.bind_eq_bind, Option.bind_some, m2, n1]
  rw [if_neg (by simp)]
  simp only [hx, List.getElem?_cons_zero, Option.bind_some]
  refine ⟨_, rfl, ?_⟩
  by_cases hmin : t.minKey < x.1
  · have hle : cntLt items t.minKey ≤ sz st A := by
      rw [hI]
      unfold cntLt
      rw [List.countP_append, (List.countP_eq_zero (l := cont st a ++ _)).2 ?_]
      · exact List.countP_le_length
      · intro y hy
        simp only [decide_eq_true_eq, not_lt]
        apply le_of_lt
        rcases List.mem_append.1 hy with hy | hy
        · rw [hx] at hy hSa
          rcases List.mem_cons.1 hy with rfl | hy
          · exact hmin
          · exact lt_trans hmin ((List.pairwise_cons.1 hSa).1 y hy)
        · exact lt_trans hmin (sorted_lt (List.pairwise_append.1 hS).2.1 x hxm y hy)
    simp only [hmin, if_true, and_true]
    by_cases hp : np = 0
    · have hAn := hA0.1 hp
      subst hAn
      have : sz st [] = 0 := rfl
      left
      rw [if_pos hp]
      omega
    · right
      rw [if_neg hp]
      exact ⟨rfl, fun hA => hp (hA0.2 hA), hle⟩
  · have hk : findKey (x :: es) t.minKey .ge = cntLt (cont st a) t.minKey := by
      rw [← hx, findKey_eq hSa]; rfl
    have hcnt : cntLt items t.minKey = sz st A + cntLt (cont st a) t.minKey := by
      have hAl : ∀ y ∈ A.flatMap (cont st), y.1 < t.minKey := fun y hy =>
        lt_of_lt_of_le (sorted_lt hS y hy x (by simp [hxm])) (not_lt.1 hmin)
      have h1 : cntLt items t.minKey = sz st A + (cntLt (cont st a) t.minKey +
          cntLt ((b :: B).flatMap (cont st)) t.minKey) := by
        rw [hI]
        unfold cntLt
        rw [List.countP_append, List.countP_append, List.countP_eq_length.2 (by simpa using hAl)]
        rfl
      rw [h1]
      by_cases hz : cntLt ((b :: B).flatMap (cont st)) t.minKey = 0
      · rw [hz]; rfl
      · exfalso
        obtain ⟨y, hy, hyk⟩ := List.countP_pos_iff.1 (Nat.pos_of_ne_zero hz)
        simp only [decide_eq_true_eq] at hyk
        have : cntLt (cont st a) t.minKey = (cont st a).length := by
          unfold cntLt
          rw [List.countP_eq_length]
          intro w hw
          simp only [decide_eq_true_eq]
          exact lt_trans (sorted_lt (List.pairwise_append.1 hS).2.1 w hw y hy) hyk
        rw [sz_append, sz_cons] at hlo
        have : sz st [] = 0 := rfl
        omega
    left
    simp only [hmin, if_false, hk]
    rw [if_neg (by omega)]
    omega

/-- Moving backward. -/
theorem Tree.prev (T : Tree st root L items) {t : Iter K} {p lo hi : Int} (R : Rep st L t p lo hi)
    (hl : lo ≤ p) (hlo : lo = cntLt items t.minKey) :
    ∃ t', prev st t = some t' ∧ Rep st L t' (p - 1) lo hi ∧
      t'.minKey = t.minKey ∧ t'.maxKey = t.maxKey ∧ t'.root = t.root := by
  obtain ⟨⟨A, b, B, A', e, B', h1, h2, h3, h4, h5, h6, h7, h8, h9, h10, h11⟩, l1, l2, l3, l4⟩ := R
  unfold Btree.prev
  simp only
  split
  · rename_i hc
    rcases h11 with ⟨h11, h12⟩ | ⟨h11, h12, h13, h14⟩
    · omega
    obtain ⟨A0, a, hA⟩ : ∃ A0 a, A = A0 ++ [a] :=
      ⟨A.dropLast, A.getLast h12, (List.dropLast_append_getLast h12).symm⟩
    subst hA
    obtain ⟨m, e1, e2⟩ := T.prevLeaf (A := A0) (a := a) (b := b) (B := B) (by rw [h1]; simp)
      (t := { t with idx := t.idx - 1 }) h3 (by simp only; omega)
    rw [e1]
    have hz : sz st (A0 ++ [a]) = sz st A0 + (cont st a).length := by
      rw [sz_append, sz_cons]; simp [sz]
    have hane : 0 < (cont st a).length := by
      rw [List.length_pos_iff]
      intro hn
      have := T.ne a (by rw [h1]; simp) hn
      rw [h1] at this
      have := congrArg List.length this
      simp at this
      omega
    simp only [List.length_append, List.length_singleton] at h9 h10
    refine ⟨_, rfl, ⟨⟨A0, a, b :: B, A', e, B', by rw [h1]; simp, h2, rfl, h4, ?_, h6, h7, h8, by omega, ?_, ?_⟩,
      by omega, l2, by omega, l4⟩, rfl, rfl, rfl⟩
    · simp only; omega
    · intro _; simp only; omega
    · rcases e2 with ⟨e2, e3⟩ | ⟨e2, e3, e4⟩
      · left; simp only at e2 e3 ⊢; omega
      · right; simp only at e2 e4 ⊢; exact ⟨e2, e3, by omega, by omega⟩
  · rename_i hc
    refine ⟨_, rfl, ⟨⟨A, b, B, A', e, B', h1, h2, h3, h4, ?_, h6, h7, h8, h9, ?_, ?_⟩, by omega, l2, by omega, l4⟩,
      rfl, rfl, rfl⟩
    · simp only; omega
    · intro hlt; simp only; have := h10 hlt; omega
    · rcases h11 with ⟨h11, h12⟩ | ⟨h11, h12, h13, h14⟩
      · left; exact ⟨h11, h12⟩
      · right; refine ⟨h11, h12, h13, ?_⟩; simp only at hc ⊢; omega

/-- One past the last position an iterator with upper bound `k` may report. -/
def hiOf (l : List (K × M)) (k : K) : Nat := if k = ⊤ then l.length else cntLt l k

omit [Inhabited K] in
theorem cntLt_le_hi {l : List (K × M)} {j k : K} (h : j ≤ k) : cntLt l j ≤ hiOf l k := by
  unfold hiOf
  split
  · exact List.countP_le_length
  · exact cnt_mono h

theorem Tree.at (T : Tree st root L items) {A : List Nat} {b : Nat} {B : List Nat}
    (h : L = A ++ b :: B) : items = A.flatMap (cont st) ++ (cont st b ++ B.flatMap (cont st)) ∧
      (cont st b).Pairwise (fun x y => x.1 < y.1) := by
  have hI : items = A.flatMap (cont st) ++ (cont st b ++ B.flatMap (cont st)) := by
    rw [T.flat, h, List.flatMap_append, List.flatMap_cons]
  have hS := T.sorted
  rw [hI] at hS
  exact ⟨hI, (List.pairwise_append.1 (List.pairwise_append.1 hS).2.1).1⟩

/-- `btree_iterator_find_end`. -/
theorem Tree.findEnd (T : Tree st root L items) {t : Iter K} (ht : t.root = root) :
    ∃ A' e B' i, findEnd st t = some { t with endAddr := e, endIdx := i } ∧ L = A' ++ e :: B' ∧
      (hiOf items t.maxKey : Int) = sz st A' + i ∧ 0 ≤ i ∧ i ≤ (cont st e).length ∧
      (∀ x ∈ B'.flatMap (cont st), t.maxKey < x.1) := by
  obtain ⟨A, b, B, z, f1, f2, f3, f4, f5⟩ := T.find t.maxKey
  obtain ⟨hI, hS⟩ := T.at f2
  refine ⟨A, b, B, if t.maxKey = ⊤ then (cont st b).length else findKey (cont st b) t.maxKey .ge, ?_, f2, ?_, ?_, ?_, f4⟩
  · unfold Btree.findEnd
    rw [ht, f1]
    simp only [Option.bind_eq_bind, Option.bind_some, T.leaf b (by rw [f2]; simp)]
  · unfold hiOf
    split
    · rename_i htop
      have : B.flatMap (cont st) = [] := by
        rw [List.eq_nil_iff_forall_not_mem]
        intro x hx
        have := f4 x hx
        rw [htop] at this
        exact not_top_lt this
      rw [hI, this]
      simp [sz]
    · rw [findKey_eq hS, hI, cntLt_split f3 f4]
      simp [sz, startAt]
  · split
    · simp
    · rw [findKey_eq hS]; simp [startAt]
  · split
    · simp
    · rw [findKey_eq hS]
      have : cntLt (cont st b) t.maxKey ≤ (cont st b).length := List.countP_le_length
      simp only [startAt]
      omega

omit [BoundedOrder K] [Inhabited K] in
theorem startAt_bounds {es : List (K × M)} {k : K} (c : Cmp) :
    -1 ≤ startAt es k c ∧ startAt es k c ≤ es.length ∧
      (startAt es k c = es.length → c = .ge ∨ c = .gt) := by
  have h1 : cntLt es k ≤ es.length := List.countP_le_length
  have h2 : cntLe es k ≤ es.length := List.countP_le_length
  cases c <;> simp only [startAt] <;> refine ⟨by omega, by omega, ?_⟩ <;> intro h <;> simp <;> omega

/-- The lower bound in the leaf the search arrived at. -/
theorem Tree.minIdx (T : Tree st root L items) {A : List Nat} {b : Nat} {B : List Nat}
    (h : L = A ++ b :: B) {k : K} (hB : ∀ x ∈ B.flatMap (cont st), k < x.1) {n : Node K M}
    (hn : st b = some n) :
    let r := btreeFind ((cont st b).map (·.1)) k
    let tmp := position .ge r
    let m : Int := if !r.2 ∧ tmp = 0 then tmp - 1 else tmp
    let m : Int := if m = -1 ∧ n.prev = 0 then 0 else m
    ((m = cntLt items k - sz st A ∧ sz st A ≤ cntLt items k) ∨
      (m = -1 ∧ A ≠ [] ∧ cntLt items k ≤ sz st A)) := by
  obtain ⟨hI, hS⟩ := T.at h
  intro r tmp m m'
  obtain ⟨n', n1, n2, _⟩ := T.node h
  have hn' : n' = n := by rw [hn] at n1; exact (Option.some.inj n1).symm
  subst hn'
  have hA0 : n'.prev = 0 ↔ A = [] := by
    rw [n2]
    constructor
    · intro h0
      by_contra hA
      rw [List.getLast?_eq_some_getLast hA] at h0
      exact T.nz (A.getLast hA) (by rw [h]; simp) h0
    · rintro rfl; rfl
  have hk : tmp = cntLt (cont st b) k := by
    have := findKey_eq (t := k) (c := .ge) hS
    exact this
  obtain ⟨c1, c2, c3⟩ := find_cnt (t := k) hS
  by_cases hAl : ∀ x ∈ A.flatMap (cont st), x.1 < k
  · have hc : cntLt items k = sz st A + cntLt (cont st b) k := by rw [hI, cntLt_split hAl hB]; rfl
    by_cases hf : r.2 = true
    · have hm : m = tmp := by simp only [m, hf]; simp
      have : m' = tmp := by simp only [m', hm]; rw [if_neg (by omega)]
      left
      omega
    · by_cases h0 : tmp = 0
      · have hm : m = -1 := by simp only [m, h0]; simp [hf]
        by_cases hA : A = []
        · have : m' = 0 := by simp only [m', hm]; rw [if_pos ⟨trivial, hA0.2 hA⟩]
          left
          omega
        · have : m' = -1 := by simp only [m', hm]; rw [if_neg (fun h => hA (hA0.1 h.2))]
          right
          exact ⟨this, hA, by omega⟩
      · have hm : m = tmp := by simp only [m]; rw [if_neg (fun h => h0 h.2)]
        have : m' = tmp := by simp only [m', hm]; rw [if_neg (by omega)]
        left
        omega
  · simp only [not_forall, not_lt] at hAl
    obtain ⟨x, hx, hxk⟩ := hAl
    have hSS := T.sorted
    rw [hI] at hSS
    have hes : ∀ y ∈ cont st b, k < y.1 := fun y hy =>
      lt_of_le_of_lt hxk (sorted_lt hSS x hx y (by simp [hy]))
    have z1 : cntLt (cont st b) k = 0 := by
      unfold cntLt
      rw [List.countP_eq_zero]
      intro y hy
      simp only [decide_eq_true_eq, not_lt]
      exact le_of_lt (hes y hy)
    have z2 : cntLe (cont st b) k = 0 := by
      unfold cntLe
      rw [List.countP_eq_zero]
      intro y hy
      simp only [decide_eq_true_eq, not_le]
      exact hes y hy
    have hf : r.2 = false := by
      by_contra hf
      have := c2 (by simpa using hf)
      omega
    have hm : m = -1 := by simp only [m, hk, z1, hf]; simp
    have hA : A ≠ [] := by rintro rfl; simp at hx
    have : m' = -1 := by simp only [m', hm]; rw [if_neg (fun h => hA (hA0.1 h.2))]
    right
    refine ⟨this, hA, ?_⟩
    rw [hI]
    unfold cntLt at *
    rw [List.countP_append, List.countP_append, z1, (List.countP_eq_zero (l := B.flatMap _)).2 (by
      intro y hy; simp only [decide_eq_true_eq, not_lt]; exact le_of_lt (hB y hy))]
    simp only [Nat.add_zero]
    exact List.countP_le_length

/-- `find_btree_node_and_get_idx_bounds`. -/
theorem Tree.findBounds (T : Tree st root L items) {t : Iter K} (ht : t.root = root) {target : K}
    {c : Cmp} (h1 : t.minKey ≤ target) (h2 : target ≤ t.maxKey)
    (hc : startAt items target c ≤ hiOf items t.maxKey) :
    ∃ t' lo, findBounds st t target c = some t' ∧
      Rep st L t' (startAt items target c) lo (hiOf items t.maxKey) ∧
      t'.minKey = t.minKey ∧ t'.maxKey = t.maxKey ∧ t'.root = t.root ∧
      (lo = cntLt items t.minKey ∨
        ((c = .ge ∨ c = .gt) ∧ lo = startAt items target c ∧ (cntLt items t.minKey : Int) ≤ lo)) := by
  subst ht
  obtain ⟨A, b, B, z, f1, f2, f3, f4, f5⟩ := T.find target
  obtain ⟨hI, hS⟩ := T.at f2
  obtain ⟨A', e, B', i, g1, g2, g3, g4, g5, g6⟩ := T.findEnd (t := { t with curr := b }) rfl
  obtain ⟨n, n1, n2, n3, n4⟩ := T.node f2
  have hBk : ∀ x ∈ B.flatMap (cont st), t.minKey < x.1 := fun x hx => lt_of_le_of_lt h1 (f4 x hx)
  have hm := T.minIdx f2 hBk n1
  have hord : A.length ≤ A'.length := by
    by_contra hlt
    obtain ⟨C, hC, hB⟩ := split_lt g2 f2 (by omega)
    have hbne : cont st b ≠ [] := by
      intro h
      have := T.ne b (by rw [f2]; simp) h
      rw [f2] at this
      have := congrArg List.length this
      simp at this
      omega
    obtain ⟨x, es, hx⟩ : ∃ x es, cont st b = x :: es := by
      cases hc : cont st b with
      | nil => exact absurd hc hbne
      | cons x es => exact ⟨x, es, rfl⟩
    have h3 := f5 (by rw [hC]; simp) x (by rw [hx]; simp)
    have h4 := g6 x (by
      rw [hB, List.flatMap_append, List.flatMap_cons, hx]; simp)
    exact absurd (lt_of_lt_of_le h4 (le_trans h3 h2)) (lt_irrefl _)
  have hst : startAt items target c = sz st A + startAt (cont st b) target c := by
    rw [hI, startAt_split c f3 f4]; rfl
  obtain ⟨b1, b2, b3⟩ := startAt_bounds (es := cont st b) (k := target) c
  have hlo1 : (cntLt items t.minKey : Int) - 1 ≤ startAt items target c := by
    have := cnt_mono (l := items) h1
    have := cntLt_le_cntLe (l := items) h1
    cases c <;> simp only [startAt] <;> omega
  have hlo2 := cntLt_le_hi (l := items) (le_trans h1 h2)
  unfold Btree.findBounds
  rw [f1]
  obtain ⟨nh, nx, np, nb⟩ := n
  simp only at n2 n3 n4 hm
  subst n4
  simp only [Option.bind_eq_bind, Option.bind_some, g1, n1]
  generalize hmm : (if ((if (!(btreeFind ((cont st b).map (·.1)) t.minKey).2) = true ∧
      position .ge (btreeFind ((cont st b).map (·.1)) t.minKey) = 0 then
      position .ge (btreeFind ((cont st b).map (·.1)) t.minKey) - 1 else
      position .ge (btreeFind ((cont st b).map (·.1)) t.minKey)) = -1 ∧ np = 0) then (0 : Int) else
      (if (!(btreeFind ((cont st b).map (·.1)) t.minKey).2) = true ∧
      position .ge (btreeFind ((cont st b).map (·.1)) t.minKey) = 0 then
      position .ge (btreeFind ((cont st b).map (·.1)) t.minKey) - 1 else
      position .ge (btreeFind ((cont st b).map (·.1)) t.minKey))) = m at hm ⊢
  rw [findKey_eq hS]
  have hbe := T.same f2 g2
  by_cases hmv : b ≠ e ∧ startAt (cont st b) target c = ((cont st b).length : Int)
  · have hlt : A.length < A'.length := by
      rcases Nat.lt_or_ge A.length A'.length with h | h
      · exact h
      · exact absurd (hbe.2 (by omega)) hmv.1
    obtain ⟨C, hC, hB⟩ := split_lt f2 g2 hlt
    obtain ⟨d, B1, hB1⟩ : ∃ d B1, B = d :: B1 := by
      cases C with
      | nil => exact ⟨e, B', by simpa using hB⟩
      | cons d C => exact ⟨d, C ++ e :: B', by simpa using hB⟩
    subst hB1
    rw [if_pos hmv, T.nextLeaf f2 rfl]
    simp only [Option.bind_some]
    rw [if_neg (by omega)]
    have hz : sz st (A ++ [b]) = sz st A + (cont st b).length := by
      rw [sz_append, sz_cons]; simp [sz]
    have hdne : 0 < (cont st d).length := by
      rw [List.length_pos_iff]
      intro h
      have := T.ne d (by rw [f2]; simp) h
      rw [f2] at this
      have := congrArg List.length this
      simp at this
      omega
    have hz2 : sz st (A ++ [b]) ≤ sz st A' := by
      rw [hC, sz_append, sz_append, sz_cons, sz_cons]
      have : sz st [] = 0 := rfl
      omega
    have hcm : cntLt items t.minKey ≤ sz st (A ++ [b]) := by
      rw [hz, hI]
      unfold cntLt
      rw [List.countP_append, List.countP_append, (List.countP_eq_zero (l := List.flatMap _ (d :: B1))).2 (by
        intro y hy; simp only [decide_eq_true_eq, not_lt]; exact le_of_lt (hBk y hy))]
      have a1 : List.countP (fun x : K × M => decide (x.1 < t.minKey)) (A.flatMap (cont st)) ≤ sz st A :=
        List.countP_le_length
      have a2 : List.countP (fun x : K × M => decide (x.1 < t.minKey)) (cont st b) ≤ (cont st b).length :=
        List.countP_le_length
      omega
    refine ⟨_, (sz st (A ++ [b]) : Int), rfl, ⟨⟨A ++ [b], d, B1, A', e, B', by rw [f2]; simp, g2, rfl, rfl, ?_, g3,
      g4, g5, by simp; omega, ?_, ?_⟩, ?_, ?_, ?_, by omega⟩, rfl, rfl, rfl, Or.inr ⟨b3 hmv.2, ?_, by omega⟩⟩
    · simp only; omega
    · intro _; simp only; omega
    · left; simp
    · omega
    · omega
    · omega
    · omega
  · rw [if_neg hmv]
    have hR4 : A.length < A'.length → startAt (cont st b) target c < (cont st b).length := by
      intro hlt
      have : b ≠ e := fun h => by have := hbe.1 h; omega
      have : startAt (cont st b) target c ≠ (cont st b).length := fun h => hmv ⟨this, h⟩
      omega
    by_cases hpv : m = -1 ∧ startAt (cont st b) target c = -1
    · rw [if_pos hpv]
      rcases hm with ⟨hm1, hm2⟩ | ⟨hm1, hm2, hm3⟩
      · omega
      obtain ⟨A0, a, hA⟩ : ∃ A0 a, A = A0 ++ [a] :=
        ⟨A.dropLast, A.getLast hm2, (List.dropLast_append_getLast hm2).symm⟩
      subst hA
      obtain ⟨m', e1, e2⟩ := T.prevLeaf (A := A0) (a := a) (b := b) (B := B) (by rw [f2]; simp)
        (t := { t with curr := b, endAddr := e, endIdx := i, minIdx := m, idx := startAt (cont st b) target c })
        rfl (by simp only; omega)
      rw [e1]
      have hz : sz st (A0 ++ [a]) = sz st A0 + (cont st a).length := by
        rw [sz_append, sz_cons]; simp [sz]
      have hane : 0 < (cont st a).length := by
        rw [List.length_pos_iff]
        intro hn
        have := T.ne a (by rw [f2]; simp) hn
        rw [f2] at this
        have := congrArg List.length this
        simp at this
        omega
      simp only [List.length_append, List.length_singleton] at hord
      refine ⟨_, (cntLt items t.minKey : Int), rfl, ⟨⟨A0, a, b :: B, A', e, B', by rw [f2]; simp, g2, rfl, rfl, ?_, g3,
        g4, g5, by omega, ?_, ?_⟩, hlo1, by omega, hc, by omega⟩, rfl, rfl, rfl, Or.inl rfl⟩
      · simp only; omega
      · intro _; simp only; omega
      · rcases e2 with ⟨e2, e3⟩ | ⟨e2, e3, e4⟩
        · left; simp only at e2 e3 ⊢; omega
        · right; simp only at e2 e4 ⊢; exact ⟨e2, e3, by omega, by omega⟩
    · rw [if_neg hpv]
      refine ⟨_, (cntLt items t.minKey : Int), rfl, ⟨⟨A, b, B, A', e, B', f2, g2, rfl, rfl, hst, g3,
        g4, g5, hord, hR4, ?_⟩, hlo1, by omega, hc, by omega⟩, rfl, rfl, rfl, Or.inl rfl⟩
      rcases hm with ⟨hm1, hm2⟩ | ⟨hm1, hm2, hm3⟩
      · left; simp only; omega
      · right; simp only; exact ⟨hm1, hm2, by omega, by omega⟩


/-- The order of leaves of a well formed tree makes it a `Tree`. -/
theorem tree_of_holds {E : Entry K → List (K × M) → Prop} {h : Nat} {s : Sub K M}
    (H : Holds E st h root s) (hF : ∀ e l, E e l → l.head?.map (·.1) = some e.key)
    (hne : h ≠ 0 → s.items ≠ []) (nd : s.leaves.Nodup) (nz : ∀ b ∈ s.leaves, b ≠ 0)
    (hc : Linked st 0 s.leaves 0) : Tree st root s.leaves s.items := by
  have cn := H.cont
  refine ⟨nd, nz, hc, ?_, ?_, cn.1, H.sorted, ?_⟩
  · intro b hb
    obtain ⟨n, es, n1, _, n3⟩ := cn.2 b hb
    have hl : leafOf st b = some es := by
      unfold leafOf; rw [n1]; obtain ⟨_, _, _, x⟩ := n; simp only at n3; subst n3; rfl
    simp [cont, hl]
  · intro b hb h0
    cases h with
    | zero =>
      obtain ⟨_, _, _, _, _, e5, _⟩ := H
      rw [e5] at hb ⊢
      simp only [List.mem_singleton] at hb
      rw [hb]
    | succ h => exact absurd h0 (H.cont_ne (hne (by omega)) b hb)
  · intro t
    obtain ⟨LA, b, LB, z, d1, d2, d3, d4, _, d6⟩ := descend_spec (ksz := fun _ => 0)
      (msz := fun _ => 0) (t := t) H hne .zero
    exact ⟨LA, b, LB, z, by rw [lookupNode_eq H, d1], d2, d3, d4, d6 hF⟩

/-- Keys after the clamping in `btree_iterator_init`. -/
def clampHi (lo hi : K) : K := if hi < lo then lo else hi
def clampStart (lo hi start : K) : K :=
  let s := if start < lo then lo else start
  if clampHi lo hi < s then clampHi lo hi else s

omit [BoundedOrder K] [Inhabited K] in
theorem clamp_ok (lo hi start : K) : lo ≤ clampStart lo hi start ∧ clampStart lo hi start ≤ clampHi lo hi := by
  unfold clampStart clampHi
  simp only
  split <;> split <;> (try split) <;> constructor <;> order

theorem Tree.init (T : Tree st root L items) (lo hi start : K) (c : Cmp)
    (hc : startAt items (clampStart lo hi start) c ≤ hiOf items (clampHi lo hi)) :
    ∃ t l, init st root lo hi start c = some t ∧
      Rep st L t (startAt items (clampStart lo hi start) c) l (hiOf items (clampHi lo hi)) ∧
      t.minKey = lo ∧ t.maxKey = clampHi lo hi ∧ t.root = root ∧
      (l = cntLt items lo ∨
        ((c = .ge ∨ c = .gt) ∧ l = startAt items (clampStart lo hi start) c ∧ (cntLt items lo : Int) ≤ l)) := by
  obtain ⟨h1, h2⟩ := clamp_ok lo hi start
  obtain ⟨t, l, e1, e2, e3, e4, e5, e6⟩ := T.findBounds (t := ⟨root, lo, clampHi lo hi, 0, 0, 0, 0, 0⟩) rfl
    (target := clampStart lo hi start) (c := c) h1 h2 hc
  exact ⟨t, l, e1, e2, e3, e4, e5, e6⟩

theorem Tree.forward (T : Tree st root L items) : ∀ (f : Nat) {t : Iter K} {p lo hi : Int},
    Rep st L t p lo hi → lo ≤ p → hi - p ≤ f → hi ≤ items.length →
    forward st f t = some ((items.take hi.toNat).drop p.toNat, true) := by
  intro f
  induction f with
  | zero =>
    intro t p lo hi R hl hf _
    have hcn := T.canNext R (Or.inl hl)
    have : t.canNext = false := by
      cases h : t.canNext with
      | false => rfl
      | true => have := hcn.1 h; omega
    simp only [Btree.forward, this]
    rw [List.drop_eq_nil_of_le (by simp; omega)]
    rfl
  | succ f ih =>
    intro t p lo hi R hl hf hle
    have hcn := T.canNext R (Or.inl hl)
    simp only [Btree.forward]
    by_cases hp : p < hi
    · obtain ⟨x, hx1, hx2⟩ := T.curr R hl hp
      obtain ⟨t', n1, n2, _⟩ := T.next R hp
      rw [if_pos (hcn.2 hp), hx1]
      simp only [Option.bind_eq_bind, Option.bind_some, n1]
      rw [ih n2 (by omega) (by omega) hle]
      simp only [Option.bind_some, Option.some.injEq, Prod.mk.injEq, and_true]
      have h0 := R.pos
      obtain ⟨hlt, hx2⟩ := List.getElem?_eq_some_iff.1 hx2
      rw [List.drop_eq_getElem_cons (i := p.toNat) (by simp; omega)]
      have e : (p + 1).toNat = p.toNat + 1 := by omega
      rw [e, List.getElem_take, hx2]
    · have : t.canNext = false := by
        cases h : t.canNext with
        | false => rfl
        | true => exact absurd (hcn.1 h) hp
      rw [if_neg (by simp [this])]
      rw [List.drop_eq_nil_of_le (by simp; omega)]

theorem Tree.canCurr (T : Tree st root L items) {t : Iter K} {p lo hi : Int} (R : Rep st L t p lo hi) :
    t.canCurr = true ↔ lo ≤ p ∧ p < hi := by
  unfold Iter.canCurr
  rw [Bool.and_eq_true]
  rcases Int.lt_or_eq_of_le R.lohi with h | h
  · rw [T.canNext R (Or.inr h), T.canPrev R h, and_comm]
  · constructor
    · intro hc; exact absurd hc (T.canCurr_empty R h)
    · intro hc; omega

theorem Tree.backward (T : Tree st root L items) : ∀ (f : Nat) {t : Iter K} {p lo hi : Int},
    Rep st L t p lo hi → p < hi → lo = cntLt items t.minKey → p + 1 - lo ≤ f →
    backward st f t = some (((items.take (p + 1).toNat).drop lo.toNat).reverse, true) := by
  intro f
  induction f with
  | zero =>
    intro t p lo hi R hp hlo hf
    have hcn := T.canCurr R
    have : t.canCurr = false := by
      cases h : t.canCurr with
      | false => rfl
      | true => have := hcn.1 h; omega
    simp only [Btree.backward, this]
    rw [List.drop_eq_nil_of_le (by simp; omega)]
    rfl
  | succ f ih =>
    intro t p lo hi R hp hlo hf
    have hcn := T.canCurr R
    simp only [Btree.backward]
    by_cases hl : lo ≤ p
    · obtain ⟨x, hx1, hx2⟩ := T.curr R hl hp
      obtain ⟨t', n1, n2, n3, _⟩ := T.prev R hl hlo
      rw [if_pos (hcn.2 ⟨hl, hp⟩), hx1]
      simp only [Option.bind_eq_bind, Option.bind_some, n1]
      rw [ih n2 (by omega) (by rw [n3]; exact hlo) (by omega)]
      simp only [Option.bind_some, Option.some.injEq, Prod.mk.injEq, and_true]
      have h0 := R.pos
      obtain ⟨hlt, hx2⟩ := List.getElem?_eq_some_iff.1 hx2
      have e : (p + 1).toNat = p.toNat + 1 := by omega
      have e' : (p - 1 + 1).toNat = p.toNat := by omega
      rw [e, e', List.take_add_one, List.getElem?_eq_getElem hlt, hx2, Option.toList_some,
        List.drop_append_of_le_length (by simp; omega), List.reverse_append]
      rfl
    · have : t.canCurr = false := by
        cases h : t.canCurr with
        | false => rfl
        | true => exact absurd (hcn.1 h).1 hl
      rw [if_neg (by simp [this])]
      rw [List.drop_eq_nil_of_le (by simp; omega)]
      rfl

/-- A move on positions. -/
def posMove (lo hi p : Int) : Move → Int
  | .next => if p < hi then p + 1 else p
  | .prev => if lo ≤ p then p - 1 else p

theorem Tree.moves (T : Tree st root L items) : ∀ (ms : List Move) {t : Iter K} {p lo hi : Int},
    Rep st L t p lo hi → lo < hi → lo = cntLt items t.minKey →
    ∃ t', t.moves st ms = some t' ∧ Rep st L t' (ms.foldl (posMove lo hi) p) lo hi ∧
      t'.minKey = t.minKey := by
  intro ms
  induction ms with
  | nil => intro t p lo hi R _ _; exact ⟨t, rfl, R, rfl⟩
  | cons m ms ih =>
    intro t p lo hi R hlh hlo
    have step : ∃ t', t.move st m = some t' ∧ Rep st L t' (posMove lo hi p m) lo hi ∧
        t'.minKey = t.minKey := by
      cases m with
      | next =>
        simp only [Iter.move, posMove]
        by_cases hp : p < hi
        · rw [if_pos ((T.canNext R (Or.inr hlh)).2 hp), if_pos hp]
          obtain ⟨t', a, b, c, _⟩ := T.next R hp
          exact ⟨t', a, b, c⟩
        · rw [if_neg (fun h => hp ((T.canNext R (Or.inr hlh)).1 h)), if_neg hp]
          exact ⟨t, rfl, R, rfl⟩
      | prev =>
        simp only [Iter.move, posMove]
        by_cases hp : lo ≤ p
        · rw [if_pos ((T.canPrev R hlh).2 hp), if_pos hp]
          obtain ⟨t', a, b, c, _⟩ := T.prev R hp hlo
          exact ⟨t', a, b, c⟩
        · rw [if_neg (fun h => hp ((T.canPrev R hlh).1 h)), if_neg hp]
          exact ⟨t, rfl, R, rfl⟩
    obtain ⟨t1, a, b, c⟩ := step
    obtain ⟨t2, d, e, f⟩ := ih b hlh (by rw [c]; exact hlo)
    exact ⟨t2, by simp [Iter.moves, a, d], e, f.trans c⟩

/-! ### Counts and filters of sorted lists -/

omit [BoundedOrder K] [Inhabited K] in
theorem take_cnt {l : List (K × M)} (hs : l.Pairwise (fun x y => x.1 < y.1)) {p : K × M → Bool}
    (hp : ∀ x y : K × M, x.1 < y.1 → p y = true → p x = true) :
    l.take (l.countP p) = l.filter p ∧ l.drop (l.countP p) = l.filter fun x => !p x := by
  induction l with
  | nil => simp
  | cons x l ih =>
    rw [List.pairwise_cons] at hs
    obtain ⟨i1, i2⟩ := ih hs.2
    by_cases hx : p x = true
    · rw [List.countP_cons_of_pos hx]
      simp [hx, i1, i2]
    · have : ∀ y ∈ l, ¬ p y = true := fun y hy h => hx (hp x y (hs.1 y hy) h)
      have hz : l.countP p = 0 := List.countP_eq_zero.2 this
      rw [List.countP_cons_of_neg hx, hz]
      simp only [List.take_zero, List.drop_zero, List.filter_cons, hx, Bool.false_eq_true, if_false,
        Bool.not_eq_true] at *
      refine ⟨(List.filter_eq_nil_iff.2 (by simpa using this)).symm, ?_⟩
      simp only [Bool.not_false, if_true, List.cons.injEq, true_and]
      exact (List.filter_eq_self.2 (by simpa using this)).symm

end Splinter.Btree
