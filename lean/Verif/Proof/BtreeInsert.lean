import Mathlib.Data.List.Nodup
import Verif.Model.BtreeInsert
import Verif.Proof.BtreeIter
/-!
Levels of a tree: the pages of one height from left to right, each with the key its
parent has for it. The entries of the pages of a level are the level below.
-/
namespace Splinter.BtreeIns
open Btree Search

variable {K M : Type}

/-- Children of an index page with their separators. -/
def kids (st : Store K M) (a : Nat) : List (K × Nat) :=
  ((entsOf st a).getD []).map fun e => (e.key, e.child)

/-- Page `a` exists and has height `h`; only leaves may be empty. -/
def Page (st : Store K M) (h a : Nat) : Prop :=
  ∃ n, st a = some n ∧ n.height = h ∧
    ((h = 0 ∧ ∃ es, n.body = .leaf es) ∨ (0 < h ∧ ∃ es, n.body = .index es ∧ es ≠ []))

theorem entsOf_eq {st : Store K M} {a : Nat} {n : Node K M} {es : List (Entry K)}
    (h : st a = some n) (hb : n.body = .index es) : entsOf st a = some es := by
  obtain ⟨_, _, _, b⟩ := n
  simp only at hb
  subst hb
  simp [entsOf, h]

theorem leafOf_eq {st : Store K M} {a : Nat} {n : Node K M} {es : List (K × M)}
    (h : st a = some n) (hb : n.body = .leaf es) : leafOf st a = some es := by
  obtain ⟨_, _, _, b⟩ := n
  simp only at hb
  subst hb
  simp [leafOf, h]

theorem entsOf_some {st : Store K M} {a : Nat} {es : List (Entry K)}
    (h : entsOf st a = some es) : ∃ n, st a = some n ∧ n.body = .index es := by
  unfold entsOf at h
  split at h
  · rename_i e; simp only [Option.some.injEq] at h; subst h; exact ⟨_, e, rfl⟩
  · cases h

theorem leafOf_some {st : Store K M} {a : Nat} {es : List (K × M)}
    (h : leafOf st a = some es) : ∃ n, st a = some n ∧ n.body = .leaf es := by
  unfold leafOf at h
  split at h
  · rename_i e; simp only [Option.some.injEq] at h; subst h; exact ⟨_, e, rfl⟩
  · cases h

theorem Page.index {st : Store K M} {h a : Nat} (P : Page st h a) (hh : h ≠ 0) :
    ∃ n es, st a = some n ∧ n.height = h ∧ n.body = .index es ∧ es ≠ [] ∧ entsOf st a = some es ∧
      kids st a = es.map (fun e => (e.key, e.child)) ∧ firstKey st a = es.head?.map (·.key) := by
  obtain ⟨n, e1, e2, h3⟩ := P
  rcases h3 with ⟨h0, _⟩ | ⟨_, es, e3, e4⟩
  · exact absurd h0 hh
  · have he := entsOf_eq e1 e3
    refine ⟨n, es, e1, e2, e3, e4, he, by simp [kids, he], ?_⟩
    obtain ⟨_, _, _, b⟩ := n
    simp only at e3
    subst e3
    simp [firstKey, e1]

theorem Page.leaf {st : Store K M} {a : Nat} (P : Page st 0 a) :
    ∃ n es, st a = some n ∧ n.height = 0 ∧ n.body = .leaf es ∧ leafOf st a = some es ∧
      cont st a = es ∧ firstKey st a = es.head?.map (·.1) := by
  obtain ⟨n, e1, e2, h3⟩ := P
  rcases h3 with ⟨_, es, e3⟩ | ⟨h0, _⟩
  · have he := leafOf_eq e1 e3
    refine ⟨n, es, e1, e2, e3, he, by simp [cont, he], ?_⟩
    obtain ⟨_, _, _, b⟩ := n
    simp only at e3
    subst e3
    simp [firstKey, e1]
  · omega

/-! Two stores that agree on a page up to its links. -/

theorem same_kids {st st' : Store K M} {a : Nat} (h : (st' a).map core = (st a).map core) :
    kids st' a = kids st a ∧ cont st' a = cont st a ∧ firstKey st' a = firstKey st a ∧
      (∀ g, Page st g a → Page st' g a) := by
  cases h1 : st a with
  | none =>
    have h2 : st' a = none := by rw [h1] at h; simpa using h
    refine ⟨by simp [kids, entsOf, h1, h2], by simp [cont, leafOf, h1, h2], by simp [firstKey, h1, h2], ?_⟩
    intro g ⟨n, e, _⟩
    rw [h1] at e; cases e
  | some n =>
    rw [h1] at h
    obtain ⟨n', h2, c⟩ := Option.map_eq_some_iff.1 (by simpa using h)
    obtain ⟨a1, a2, a3, a4⟩ := n
    obtain ⟨b1, b2, b3, b4⟩ := n'
    simp only [core, Prod.mk.injEq] at c
    obtain ⟨rfl, rfl⟩ := c
    refine ⟨by cases b4 <;> simp [kids, entsOf, h1, h2], by cases b4 <;> simp [cont, leafOf, h1, h2],
      by cases b4 <;> simp [firstKey, h1, h2], ?_⟩
    intro g ⟨n, e, e2, e3⟩
    rw [h1] at e
    cases e
    exact ⟨_, h2, e2, e3⟩

variable [LinearOrder K]

/-- The pages of a tree of height `H`, level by level. -/
structure Skel [BoundedOrder K] (st : Store K M) (root H : Nat) (lv : Nat → List (K × Nat)) : Prop where
  top : lv H = [(⊥, root)]
  page : ∀ h ≤ H, ∀ q ∈ lv h, Page st h q.2
  kids : ∀ h < H, lv h = (lv (h + 1)).flatMap fun q => kids st q.2
  nodup : ∀ h ≤ H, ((lv h).map (·.2)).Nodup
  nz : ∀ h ≤ H, ∀ q ∈ lv h, q.2 ≠ 0
  sorted : ∀ h ≤ H, (lv h).Pairwise fun x y => x.1 < y.1
  first : ∀ h ≤ H, ∀ A q B, lv h = A ++ q :: B → ∀ f ∈ firstKey st q.2, q.1 ≤ f ∧ (A ≠ [] → q.1 = f)

/-- What the leaves hold. -/
structure Leaves (st : Store K M) (H : Nat) (l : List (K × Nat)) : Prop where
  sorted : (l.flatMap fun q => cont st q.2).Pairwise fun x y => x.1 < y.1
  chain : Linked st 0 (l.map (·.2)) 0
  ne : H ≠ 0 → ∀ q ∈ l, cont st q.2 ≠ []

/-- Page `a` is where the search for `k` passes level `h`; `b` is its separator. -/
def At (lv : Nat → List (K × Nat)) (h : Nat) (k b : K) (a : Nat) : Prop :=
  ∃ A B, lv h = A ++ (b, a) :: B ∧ (A ≠ [] → b ≤ k) ∧ ∀ q ∈ B, k < q.1

variable [BoundedOrder K]

theorem Skel.mem {st : Store K M} {root H h a : Nat} {lv : Nat → List (K × Nat)} {k b : K}
    (_S : Skel st root H lv) (h1 : At lv h k b a) : (b, a) ∈ lv h := by
  obtain ⟨A, B, e, _⟩ := h1
  rw [e]; simp

theorem Skel.root {st : Store K M} {root H : Nat} {lv : Nat → List (K × Nat)}
    (S : Skel st root H lv) (k : K) : At lv H k ⊥ root :=
  ⟨[], [], by simp [S.top], by simp, by simp⟩

/-- Addresses on different levels are different. -/
theorem Skel.level {st : Store K M} {root H g h a : Nat} {lv : Nat → List (K × Nat)}
    (S : Skel st root H lv) (hg : g ≤ H) (hh : h ≤ H) (x : a ∈ (lv g).map (·.2))
    (y : a ∈ (lv h).map (·.2)) : g = h := by
  obtain ⟨q, hq, rfl⟩ := List.mem_map.1 x
  obtain ⟨r, hr, e⟩ := List.mem_map.1 y
  obtain ⟨n, e1, e2, _⟩ := S.page g hg q hq
  obtain ⟨n', e1', e2', _⟩ := S.page h hh r hr
  rw [e, e1] at e1'
  cases e1'
  omega

/-- The keys below a page are not below its separator. -/
theorem Skel.kids_ge {st : Store K M} {root H h : Nat} {lv : Nat → List (K × Nat)}
    (S : Skel st root H lv) (hh : h < H) {q : K × Nat} (hq : q ∈ lv (h + 1)) :
    ∀ x ∈ BtreeIns.kids st q.2, q.1 ≤ x.1 := by
  obtain ⟨A, B, e⟩ := List.append_of_mem hq
  obtain ⟨n, es, e1, e2, e3, e4, e5, e6, e7⟩ := (S.page (h + 1) hh q hq).index (by omega)
  have hs := S.sorted h (by omega)
  rw [S.kids h hh, e, List.flatMap_append, List.flatMap_cons, List.pairwise_append,
    List.pairwise_append, e6] at hs
  rw [e6]
  cases es with
  | nil => exact absurd rfl e4
  | cons e0 es =>
    have hf := (S.first (h + 1) hh A q B e e0.key (by rw [e7]; simp)).1
    have h2 := hs.2.1.1
    simp only [List.map_cons, List.pairwise_cons] at h2
    intro x hx
    rcases List.mem_cons.1 hx with rfl | hx
    · exact hf
    · exact hf.trans (h2.1 x hx).le

/-- The items of a leaf are not below its separator. -/
theorem Skel.cont_ge {st : Store K M} {root H : Nat} {lv : Nat → List (K × Nat)}
    (S : Skel st root H lv) (L : Leaves st H (lv 0)) {q : K × Nat} (hq : q ∈ lv 0) :
    ∀ x ∈ cont st q.2, q.1 ≤ x.1 := by
  obtain ⟨A, B, e⟩ := List.append_of_mem hq
  obtain ⟨n, es, e1, e2, e3, e4, e5, e6⟩ := (S.page 0 (Nat.zero_le _) q hq).leaf
  have hs := L.sorted
  rw [e, List.flatMap_append, List.flatMap_cons, List.pairwise_append, List.pairwise_append, e5] at hs
  rw [e5]
  cases es with
  | nil => simp
  | cons e0 es =>
    have hf := (S.first 0 (Nat.zero_le _) A q B e e0.1 (by rw [e6]; simp)).1
    have h2 := hs.2.1.1
    simp only [List.pairwise_cons] at h2
    intro x hx
    rcases List.mem_cons.1 hx with rfl | hx
    · exact hf
    · exact hf.trans (h2.1 x hx).le

/-- Going to the child whose separator is the last one not above the key. -/
theorem Skel.down {st : Store K M} {root H h a : Nat} {lv : Nat → List (K × Nat)} {k b b' : K}
    (S : Skel st root H lv) (hh : h < H) (h1 : At lv (h + 1) k b a) {A' B' : List (K × Nat)} {c : Nat}
    (hk : BtreeIns.kids st a = A' ++ (b', c) :: B') (h2 : A' ≠ [] → b' ≤ k) (h3 : ∀ q ∈ B', k < q.1) :
    At lv h k b' c := by
  obtain ⟨A, B, e, e1, e2⟩ := h1
  have hm : (b, a) ∈ lv (h + 1) := by rw [e]; simp
  refine ⟨A.flatMap (fun q => BtreeIns.kids st q.2) ++ A', B' ++ B.flatMap (fun q => BtreeIns.kids st q.2), ?_, ?_, ?_⟩
  · rw [S.kids h hh, e, List.flatMap_append, List.flatMap_cons, hk]
    simp
  · intro hne
    by_cases hA' : A' = []
    · subst hA'
      have hA : A ≠ [] := by rintro rfl; simp at hne
      have hf := (S.first (h + 1) hh A (b, a) B e b' (by
        obtain ⟨n, es, _, _, _, _, _, e6, e7⟩ := (S.page (h + 1) hh _ hm).index (by omega)
        simp only at e6 e7
        rw [e7]
        rw [e6] at hk
        cases es with
        | nil => simp at hk
        | cons x es => simp at hk ⊢; exact hk.1.1)).2 hA
      simp only at hf
      exact hf ▸ e1 hA
    · exact h2 hA'
  · intro q hq
    rcases List.mem_append.1 hq with hq | hq
    · exact h3 q hq
    · obtain ⟨r, hr, hq⟩ := List.mem_flatMap.1 hq
      exact lt_of_lt_of_le (e2 r hr) (S.kids_ge hh (by rw [e]; simp [hr]) q hq)

/-- At the leaf of a key: what is to the left is below the key, what is to the right is above. -/
theorem Skel.leaf_split {st : Store K M} {root H : Nat} {lv : Nat → List (K × Nat)} {k b : K} {a : Nat}
    (S : Skel st root H lv) (L : Leaves st H (lv 0)) {A B : List (K × Nat)}
    (e : lv 0 = A ++ (b, a) :: B) (h1 : A ≠ [] → b ≤ k) (h2 : ∀ q ∈ B, k < q.1) :
    (∀ x ∈ A.flatMap (fun q => cont st q.2), x.1 < k) ∧
    (∀ x ∈ B.flatMap (fun q => cont st q.2), k < x.1) ∧
    (A ≠ [] → ∃ x, (cont st a).head? = some x ∧ x.1 = b) := by
  have hm : (b, a) ∈ lv 0 := by rw [e]; simp
  have hhead : A ≠ [] → ∃ x, (cont st a).head? = some x ∧ x.1 = b := by
    intro hA
    have hH : H ≠ 0 := by
      rintro rfl
      rw [S.top] at e
      cases A with
      | nil => exact hA rfl
      | cons x A => simp at e
    have hne := L.ne hH _ hm
    obtain ⟨n, es, e1, e2, e3, e4, e5, e6⟩ := (S.page 0 (Nat.zero_le _) _ hm).leaf
    simp only at e5 e6 hne
    rw [e5] at hne ⊢
    cases es with
    | nil => exact absurd rfl hne
    | cons x es =>
      have := (S.first 0 (Nat.zero_le _) A (b, a) B e x.1 (by simp only; rw [e6]; simp)).2 hA
      exact ⟨x, rfl, this.symm⟩
  refine ⟨?_, ?_, hhead⟩
  · intro x hx
    have hA : A ≠ [] := by rintro rfl; simp at hx
    obtain ⟨y, hy, hb⟩ := hhead hA
    have hs := L.sorted
    rw [e, List.flatMap_append, List.flatMap_cons, List.pairwise_append] at hs
    have := hs.2.2 x hx y (List.mem_append_left _ (List.mem_of_head? hy))
    exact lt_of_lt_of_le (hb ▸ this) (h1 hA)
  · intro x hx
    obtain ⟨q, hq, hx⟩ := List.mem_flatMap.1 hx
    exact lt_of_lt_of_le (h2 q hq) (S.cont_ge L (by rw [e]; simp [hq]) x hx)

variable [Inhabited K]

/-- `btree_lookup_node` goes through the pages of the key. -/
theorem Skel.descend {st : Store K M} {root H : Nat} {lv : Nat → List (K × Nat)} (S : Skel st root H lv)
    (k : K) : ∀ {h a : Nat} {b : K} (_ : h ≤ H) (_ : At lv h k b a) (z : Stats),
      ∃ b' c z', Btree.descend st k h a z = some (c, z') ∧ At lv 0 k b' c := by
  intro h
  induction h with
  | zero => intro a b _ h1 z; exact ⟨b, a, z, rfl, h1⟩
  | succ h ih =>
    intro a b hh h1 z
    obtain ⟨n, es, e1, e2, e3, e4, e5, e6, e7⟩ := (S.page (h + 1) hh _ (S.mem h1)).index (by omega)
    simp only at e1 e5 e6 e7
    have hs : (es.map (·.key)).Pairwise (· < ·) := by
      have hs := S.sorted h (by omega)
      obtain ⟨A, B, e, _⟩ := h1
      rw [S.kids h hh, e, List.flatMap_append, List.flatMap_cons, List.pairwise_append,
        List.pairwise_append, e6] at hs
      have := hs.2.1.1
      rw [List.pairwise_map] at this ⊢
      exact this
    obtain ⟨A', x, B', f1, f2, f3, f4⟩ := childIdx_split (t := k) hs e4
    have hd := S.down (c := x.child) (b' := x.key) hh h1 (A' := A'.map fun e => (e.key, e.child))
      (B' := B'.map fun e => (e.key, e.child)) (by rw [e6, f1]; simp) (by simpa using f3)
      (by intro q hq; obtain ⟨y, hy, rfl⟩ := List.mem_map.1 hq; exact f4 y hy)
    obtain ⟨b', c, z', g1, g2⟩ := ih (by omega) hd (accIndex es (childIdx es k) z)
    refine ⟨b', c, z', ?_, g2⟩
    have hx : es[childIdx es k]? = some x := by rw [f2, f1]; simp
    have : n.body = .index es := e3
    obtain ⟨_, _, _, bd⟩ := n
    simp only at this
    subst this
    simp only [Btree.descend, e1, Option.bind_eq_bind, Option.bind_some, hx]
    exact g1

/-- A tree given by its levels is a tree for the reading functions. -/
theorem Skel.tree {st : Store K M} {root H : Nat} {lv : Nat → List (K × Nat)} (S : Skel st root H lv)
    (L : Leaves st H (lv 0)) :
    Tree st root ((lv 0).map (·.2)) ((lv 0).flatMap fun q => cont st q.2) := by
  refine ⟨S.nodup 0 (Nat.zero_le _), ?_, L.chain, ?_, ?_, by rw [List.flatMap_map], L.sorted, ?_⟩
  · intro b hb
    obtain ⟨q, hq, rfl⟩ := List.mem_map.1 hb
    exact S.nz 0 (Nat.zero_le _) q hq
  · intro b hb
    obtain ⟨q, hq, rfl⟩ := List.mem_map.1 hb
    obtain ⟨n, es, _, _, _, e4, e5, _⟩ := (S.page 0 (Nat.zero_le _) q hq).leaf
    rw [e5, e4]
  · intro b hb h0
    obtain ⟨q, hq, rfl⟩ := List.mem_map.1 hb
    by_cases hH : H = 0
    · subst hH
      rw [S.top] at hq ⊢
      simp only [List.mem_singleton] at hq
      subst hq
      rfl
    · exact absurd h0 (L.ne hH q hq)
  · intro t
    obtain ⟨n, e1, e2, _⟩ := S.page H le_rfl (⊥, root) (by rw [S.top]; simp)
    obtain ⟨b', c, z', g1, A, B, g2, g3, g4⟩ := S.descend t le_rfl (S.root t) .zero
    obtain ⟨l1, l2, l3⟩ := S.leaf_split L g2 g3 g4
    refine ⟨A.map (·.2), c, B.map (·.2), z', ?_, by rw [g2]; simp, by rw [List.flatMap_map]; exact l1,
      by rw [List.flatMap_map]; exact l2, ?_⟩
    · simp only at e1
      simp only [lookupNode, e1, Option.bind_eq_bind, Option.bind_some, e2, Nat.sub_zero, g1]
    · intro hA x hx
      have hA : A ≠ [] := by rintro rfl; simp at hA
      obtain ⟨y, hy, hb⟩ := l3 hA
      rw [hy] at hx
      simp only [Option.mem_def, Option.some.injEq] at hx
      subst hx
      exact hb ▸ g3 hA

end Splinter.BtreeIns
