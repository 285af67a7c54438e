import Verif.Proof.BtreeScan
/-!
The leaf of a key before and after a step of an insert, and generations.
-/
namespace Splinter.BtreeIns
open Btree Search

variable {K M : Type} [LinearOrder K]

/-- The leaf of a key is unique. -/
theorem At.unique {lv : Nat → List (K × Nat)} {h : Nat} {k b b' : K} {a a' : Nat}
    (hs : (lv h).Pairwise fun x y => x.1 < y.1) (h1 : At lv h k b a) (h2 : At lv h k b' a') :
    b = b' ∧ a = a' := by
  obtain ⟨A, B, e, eA, eB⟩ := h1
  obtain ⟨A', B', e', eA', eB'⟩ := h2
  have hs' := hs
  rw [e, List.pairwise_append] at hs
  rw [e', List.pairwise_append] at hs'
  have h : A ++ (b, a) :: B = A' ++ (b', a') :: B' := e.symm.trans e'
  rcases List.append_eq_append_iff.1 h with ⟨C, c1, c2⟩ | ⟨C, c1, c2⟩
  · cases C with
    | nil => simp at c2; exact ⟨c2.1.1, c2.1.2⟩
    | cons z C =>
      simp only [List.cons_append, List.cons.injEq] at c2
      have h1 := eB (b', a') (by rw [c2.2]; simp)
      have h2 := eA' (by rw [c1]; simp)
      exact absurd h1 (not_lt.2 h2)
  · cases C with
    | nil => simp at c2; exact ⟨c2.1.1.symm, c2.1.2.symm⟩
    | cons z C =>
      simp only [List.cons_append, List.cons.injEq] at c2
      have h1 := eB' (b, a) (by rw [c2.2]; simp)
      have h2 := eA (by rw [c1]; simp)
      exact absurd h1 (not_lt.2 h2)

/-- Some page of a level is that of the key. -/
theorem At.exists {lv : Nat → List (K × Nat)} {h : Nat} (k : K) (hne : lv h ≠ [])
    (hs : (lv h).Pairwise fun x y => x.1 < y.1) : ∃ b a, At lv h k b a := by
  unfold At
  generalize lv h = l at hne hs
  induction l with
  | nil => exact absurd rfl hne
  | cons q l ih =>
    obtain ⟨b, a⟩ := q
    rw [List.pairwise_cons] at hs
    by_cases hl : l = []
    · subst hl
      exact ⟨b, a, [], [], rfl, by simp, by simp⟩
    · obtain ⟨b', a', A, B, e, eA, eB⟩ := ih hl hs.2
      by_cases hA : A = []
      · subst hA
        by_cases hk : b' ≤ k
        · exact ⟨b', a', [(b, a)], B, by rw [e]; rfl, fun _ => hk, eB⟩
        · refine ⟨b, a, [], l, rfl, by simp, ?_⟩
          rw [not_le] at hk
          rw [e] at hs ⊢
          intro q hq
          rcases List.mem_cons.1 hq with rfl | hq
          · exact hk
          · exact eB q hq
      · exact ⟨b', a', (b, a) :: A, B, by rw [e]; rfl, fun _ => eA hA, eB⟩

variable [BoundedOrder K]

theorem Skel.ne {st : Store K M} {root H : Nat} {lv : Nat → List (K × Nat)} (S : Skel st root H lv) :
    ∀ h ≤ H, lv h ≠ [] := by
  intro h hh
  obtain ⟨d, hd⟩ := Nat.exists_eq_add_of_le hh
  induction d generalizing h with
  | zero => rw [Nat.add_zero] at hd; subst hd; rw [S.top]; simp
  | succ d ih =>
    have h1 := ih (h + 1) (by omega) (by omega)
    rw [S.kids h (by omega)]
    cases hl : lv (h + 1) with
    | nil => exact absurd hl h1
    | cons q l =>
      obtain ⟨n, es, _, _, _, e4, _, e6, _⟩ := (S.page (h + 1) (by omega) q (by rw [hl]; simp)).index (by omega)
      simp only [List.flatMap_cons, ne_eq, List.append_eq_nil_iff, not_and_or]
      left
      rw [e6]
      simpa using e4

/-- A leaf that is not written keeps its place and the separator behind it. -/
theorem held_next {st st' : Store K M} {root H H' : Nat} {W : List Nat} {lv lv' : Nat → List (K × Nat)}
    (S : Skel st root H lv) (S' : Skel st' root H' lv') (X : Ext root W st H lv st' H' lv')
    {A B : List (K × Nat)} {b : K} {a : Nat} (e : lv 0 = A ++ (b, a) :: B) (ha : a ∉ W) :
    ∃ A' b' B', lv' 0 = A' ++ (b', a) :: B' ∧ B'.head?.map (·.1) = B.head?.map (·.1) ∧
      (A ≠ [] → A' ≠ [] ∧ b' = b) := by
  have hs := S.sorted 0 (Nat.zero_le _)
  have hs' := S'.sorted 0 (Nat.zero_le _)
  have hnd' := S'.nodup 0 (Nat.zero_le _)
  have hsB : ∀ q ∈ B, b < q.1 := by
    rw [e, List.pairwise_append, List.pairwise_cons] at hs
    exact fun q hq => hs.2.1.1 q hq
  have key : ∀ k, b ≤ k → (∀ q ∈ B, k < q.1) → ∃ A' b' B', lv' 0 = A' ++ (b', a) :: B' ∧ ∀ q ∈ B', k < q.1 := by
    intro k h1 h2
    obtain ⟨b', _, A', B', e', _, h4⟩ := X.path 0 (Nat.zero_le _) k b a ha ⟨A, B, e, fun _ => h1, h2⟩
    exact ⟨A', b', B', e', h4⟩
  obtain ⟨A', b', B', e', h4⟩ := key b le_rfl hsB
  have htail : ∀ q ∈ B, q ∈ (lv' 0).tail := by
    intro q hq
    apply X.leaf
    rw [e]
    cases A with
    | nil => simpa using hq
    | cons z A => simp [hq]
  have hA : A ≠ [] → A' ≠ [] ∧ b' = b := by
    intro hA
    have hm : (b, a) ∈ (lv' 0).tail := by
      apply X.leaf
      rw [e]
      cases A with
      | nil => exact absurd rfl hA
      | cons z A => simp
    have hne : A' ≠ [] := by
      rintro rfl
      rw [e'] at hm hnd'
      simp only [List.nil_append, List.tail_cons] at hm
      rw [List.nil_append, List.map_cons, List.nodup_cons] at hnd'
      exact hnd'.1 (List.mem_map.2 ⟨_, hm, rfl⟩)
    refine ⟨hne, ?_⟩
    obtain ⟨C, D, hcd⟩ := List.append_of_mem (List.mem_of_mem_tail hm)
    have hnd2 := hnd'
    rw [e'] at hnd'
    have := split_same hnd' (hcd.symm.trans e') rfl
    simpa using (congrArg Prod.fst this.1).symm
  refine ⟨A', b', B', e', ?_, hA⟩
  -- the first separator behind
  have hBB : ∀ q ∈ B, q ∈ B' := by
    intro q hq
    have h1 := htail q hq
    have h2 := hsB q hq
    rw [e'] at h1
    have h3 : q ∈ A' ++ (b', a) :: B' := List.mem_of_mem_tail h1
    rw [e', List.pairwise_append, List.pairwise_cons] at hs'
    obtain ⟨b2, hb2, A2, B2, e2, _, h42⟩ := X.path 0 (Nat.zero_le _) b b a ha ⟨A, B, e, fun _ => le_rfl, hsB⟩
    rw [e'] at hnd'
    have h6 := split_same hnd' (e2.symm.trans e') rfl
    simp only [Prod.mk.injEq, and_true] at h6
    have hbb : b' ≤ b := h6.1 ▸ hb2
    rcases List.mem_append.1 h3 with h | h
    · exact absurd (hs'.2.2 q h (b', a) List.mem_cons_self) (not_lt.2 (hbb.trans h2.le))
    · rcases List.mem_cons.1 h with rfl | h
      · exact absurd h2 (not_lt.2 hbb)
      · exact h
  have hnew : ∀ q ∈ B', ∃ r ∈ B, r.1 ≤ q.1 := by
    intro q hq
    by_contra hcon
    simp only [not_exists, not_and, not_le] at hcon
    obtain ⟨A2, b2, B2, e2, h2⟩ := key q.1 (h4 q hq).le hcon
    rw [e'] at hnd'
    have h6 := split_same hnd' (e2.symm.trans e') rfl
    rw [h6.2.2] at h2
    exact lt_irrefl _ (h2 q hq)
  rw [e', List.pairwise_append, List.pairwise_cons] at hs'
  rw [e, List.pairwise_append, List.pairwise_cons] at hs
  cases hB : B with
  | nil =>
    cases hB' : B' with
    | nil => rfl
    | cons q B' =>
      obtain ⟨r, hr, _⟩ := hnew q (by rw [hB']; simp)
      rw [hB] at hr; simp at hr
  | cons r B2 =>
    cases hB' : B' with
    | nil => have := hBB r (by rw [hB]; simp); rw [hB'] at this; simp at this
    | cons q B2' =>
      simp only [List.head?_cons, Option.map_some, Option.some.injEq]
      rw [hB] at hs
      rw [hB'] at hs'
      obtain ⟨r', hr', hle⟩ := hnew q (by rw [hB']; simp)
      have h7 : r.1 ≤ r'.1 := by
        rw [hB] at hr'
        rcases List.mem_cons.1 hr' with rfl | h
        · exact le_rfl
        · exact ((List.pairwise_cons.1 hs.2.1.2).1 r' h).le
      have h8 : q.1 ≤ r.1 := by
        have := hBB r (by rw [hB]; simp)
        rw [hB'] at this
        rcases List.mem_cons.1 this with rfl | h
        · exact le_rfl
        · exact ((List.pairwise_cons.1 hs'.2.1.2).1 r h).le
      exact le_antisymm h8 (h7.trans hle)

/-- The end of the range of a leaf, in terms of the separator behind it. -/
theorem behind {B : List (K × Nat)} {k : K} (hs : B.Pairwise fun x y => x.1 < y.1)
    (h : ∀ f ∈ B.head?.map (·.1), k < f) : ∀ q ∈ B, k < q.1 := by
  cases B with
  | nil => simp
  | cons r B =>
    rw [List.pairwise_cons] at hs
    have := h r.1 (by simp)
    intro q hq
    rcases List.mem_cons.1 hq with rfl | hq
    · exact this
    · exact this.trans (hs.1 q hq)

theorem head_behind {B : List (K × Nat)} {k : K} (h : ∀ q ∈ B, k < q.1) : ∀ f ∈ B.head?.map (·.1), k < f := by
  cases B with
  | nil => simp
  | cons r B => simp [h r (by simp)]

/-- A leaf that is not written and is the leaf of a key now was so before. -/
theorem held_back {st st' : Store K M} {root H H' : Nat} {W : List Nat} {lv lv' : Nat → List (K × Nat)}
    (S : Skel st root H lv) (S' : Skel st' root H' lv') (X : Ext root W st H lv st' H' lv')
    {k b' : K} {a : Nat} (hm : a ∈ (lv 0).map (·.2)) (ha : a ∉ W) (h : At lv' 0 k b' a) :
    ∃ b, At lv 0 k b a := by
  obtain ⟨⟨b, a'⟩, hq, rfl⟩ := List.mem_map.1 hm
  obtain ⟨A, B, e⟩ := List.append_of_mem hq
  obtain ⟨A', b2, B', e', h1, h2⟩ := held_next S S' X e ha
  obtain ⟨A2, B2, e2, h3, h4⟩ := h
  have hnd' := S'.nodup 0 (Nat.zero_le _)
  rw [e'] at hnd'
  have h6 := split_same hnd' (e2.symm.trans e') rfl
  simp only [Prod.mk.injEq, and_true] at h6
  obtain ⟨rfl, rfl, rfl⟩ := h6
  refine ⟨b, A, B, e, ?_, ?_⟩
  · intro hA
    obtain ⟨h7, rfl⟩ := h2 hA
    exact h3 h7
  · have hs := S.sorted 0 (Nat.zero_le _)
    rw [e, List.pairwise_append, List.pairwise_cons] at hs
    apply behind hs.2.1.2
    rw [← h1]
    exact head_behind h4

variable [Inhabited K]

/-! ### Generations -/

omit [BoundedOrder K] [LinearOrder K] [Inhabited K] in
theorem alloced_spec {st st' : Store K M} {a : Nat} : alloced st st' a = true ↔ st a = none ∧ st' a ≠ none := by
  unfold alloced
  simp [Option.isSome_iff_ne_none]

/-- A split of a leaf was given a new page. -/
theorem both_fresh {mrg : K → M → M → M} {sole : List Nat → Bool} {st st' : Store K M} {root now : Nat}
    {k : K} {m : M} {p i ch : Nat} {s : Spec M} {pc' : Pc M} {c : Choice}
    (he : thrStep mrg sole st root now k m (.both p i ch s) c = some (st', pc', true)) :
    splitLeaf st p i ch c.new k s c.split c.left = some st' := by
  simp only [thrStep] at he
  split at he
  · simp at he
  · split at he
    · simp at he
    · split at he
      · cases he
      · rename_i n _
        cases hs : sole (p :: ch :: if n.next = 0 then [] else [n.next]) with
        | false => simp [hs] at he
        | true =>
          rw [hs] at he
          obtain ⟨st1, h1, h2⟩ := Option.map_eq_some_iff.1 he
          simp only [Prod.mk.injEq] at h2
          rw [← h2.1]
          exact h1

/-- The generation of a page does not go down. -/
theorem genStep_mono {mrg : K → M → M → M} {sole : List Nat → Bool} {st st' : Store K M} {root now : Nat}
    {k : K} {m : M} {pc pc' : Pc M} {c : Choice} {eff : Bool} {gen : Nat → Nat} {a : Nat}
    (he : thrStep mrg sole st root now k m pc c = some (st', pc', eff)) (ha : st a ≠ none) :
    gen a ≤ genStep root st st' gen pc c eff a := by
  have bmp : ∀ x, gen a ≤ bump gen x a := by
    intro x; unfold bump setAt; split
    · rename_i h; subst h; omega
    · exact le_rfl
  have stn : ∀ (g : Nat → Nat) v, st c.new = none → setAt g c.new v a = g a := by
    intro g v h
    unfold setAt
    rw [if_neg]
    rintro rfl
    exact ha h
  cases pc with
  | rootLeaf s =>
    simp only [genStep]
    split
    · exact bmp _
    · split
      · rename_i h; rw [stn _ _ (alloced_spec.1 h).1]
      · exact le_rfl
  | rootIx =>
    simp only [genStep]
    split
    · rename_i h; rw [stn _ _ (alloced_spec.1 h).1]
    · exact le_rfl
  | «at» p i ch h =>
    simp only [genStep]
    split
    · rename_i h; rw [stn _ _ (alloced_spec.1 h).1]; exact bmp _
    · exact le_rfl
  | ready ch s =>
    simp only [genStep]
    split
    · exact bmp _
    · exact le_rfl
  | defrag ch s =>
    simp only [genStep]
    split
    · exact bmp _
    · exact le_rfl
  | both p i ch s =>
    simp only [genStep]
    split
    · rename_i h
      subst h
      have hf := splitLeaf_fresh (both_fresh he)
      have hb := bmp ch
      split
      · unfold bump
        unfold setAt
        simp only
        have : a ≠ c.new := by rintro rfl; exact ha hf
        simp only [this, if_false]
        split
        · rename_i h; subst h; simp; omega
        · exact le_rfl
      · have : a ≠ c.new := by rintro rfl; exact ha hf
        have e : bump (setAt (bump gen ch) c.new (gen ch + 1)) c.new a = bump gen ch a := by
          show setAt (setAt (bump gen ch) c.new (gen ch + 1)) c.new _ a = _
          simp [setAt, this]
        rw [e]; exact hb
    · exact le_rfl
  | _ => exact le_rfl

/-- The leaf a tuple went to has a new generation. -/
theorem genStep_target {mrg : K → M → M → M} {sole : List Nat → Bool} {st st' : Store K M} {root now : Nat}
    {k : K} {m : M} {pc pc' : Pc M} {c : Choice} {gen : Nat → Nat} {t : Nat}
    (he : thrStep mrg sole st root now k m pc c = some (st', pc', true)) (ht : pc.target root = some t)
    (hn : st t ≠ none) : gen t < genStep root st st' gen pc c true t := by
  cases pc with
  | rootLeaf s =>
    simp only [Pc.target, Option.some.injEq] at ht
    subst ht
    simp [genStep, bump, setAt]
  | ready ch s =>
    simp only [Pc.target, Option.some.injEq] at ht
    subst ht
    simp [genStep, bump, setAt]
  | defrag ch s =>
    simp only [Pc.target, Option.some.injEq] at ht
    subst ht
    simp [genStep, bump, setAt]
  | both p i ch s =>
    simp only [Pc.target, Option.some.injEq] at ht
    subst ht
    have hf := splitLeaf_fresh (both_fresh he)
    have : ch ≠ c.new := by rintro rfl; exact hn hf
    simp only [genStep, if_true]
    split <;> simp [bump, setAt, this]
    omega
  | _ => simp [Pc.target] at ht

/-- The generation of a leaf that was split off. -/
theorem genStep_new {mrg : K → M → M → M} {sole : List Nat → Bool} {st st' : Store K M} {root now : Nat}
    {k : K} {m : M} {pc pc' : Pc M} {c : Choice} {eff : Bool} {gen : Nat → Nat} {t : Nat}
    (he : thrStep mrg sole st root now k m pc c = some (st', pc', eff)) (ht : pc.target root = some t)
    (hn : st t ≠ none) (h1 : st c.new = none) (h2 : st' c.new ≠ none) :
    gen t ≤ genStep root st st' gen pc c eff c.new ∧ (eff = true → gen t < genStep root st st' gen pc c eff c.new) := by
  have htn : t ≠ c.new := by rintro rfl; exact hn h1
  have put : ∀ {a : Nat} {y : Body K M} {p q : Pc M} {e e' : Bool},
      some (putBody st a y, p, e) = some (st', q, e') → False := by
    intro a y p q e e' h'
    simp only [Option.some.injEq, Prod.mk.injEq] at h'
    rw [← h'.1] at h2; exact h2 (putBody_none h1)
  have hal : alloced st st' c.new = true := alloced_spec.2 ⟨h1, h2⟩
  cases pc with
  | rootLeaf s =>
    simp only [Pc.target, Option.some.injEq] at ht
    subst ht
    simp only [genStep]
    cases eff with
    | false => simp [hal, setAt]
    | true =>
      exfalso
      simp only [thrStep] at he
      repeat' split at he
      all_goals first
        | exact put he
        | cases he
        | simp at he
  | ready ch s =>
    exfalso
    simp only [thrStep] at he
    repeat' split at he
    all_goals first
      | exact put he
      | cases he
      | skip
    exact h2 h1
  | defrag ch s =>
    exfalso
    simp only [thrStep] at he
    repeat' split at he
    all_goals first
      | exact put he
      | cases he
  | both p i ch s =>
    simp only [Pc.target, Option.some.injEq] at ht
    subst ht
    simp only [genStep]
    cases eff with
    | false =>
      exfalso
      simp only [thrStep] at he
      split at he
      · simp only [Option.some.injEq, Prod.mk.injEq] at he
        exact h2 (he.1 ▸ h1)
      · split at he
        · simp only [Option.some.injEq, Prod.mk.injEq] at he
          exact h2 (he.1 ▸ h1)
        · split at he
          · cases he
          · rename_i n _
            cases hs : sole (p :: ch :: if n.next = 0 then [] else [n.next]) with
            | false => simp [hs] at he
            | true => rw [hs] at he; simp at he
    | true =>
      simp only [if_true]
      split <;> simp [bump, setAt, Ne.symm htn]
      omega
  | _ => simp [Pc.target] at ht

end Splinter.BtreeIns
