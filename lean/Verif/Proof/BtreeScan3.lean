import Verif.Proof.BtreeScan2
/-!
Generations of the leaf of a key.
-/
namespace Splinter.BtreeIns
open Btree Search

variable {K M : Type} [LinearOrder K] [BoundedOrder K] [Inhabited K]

/-- The generation of the leaf of a key does not go down. -/
theorem gen_leaf {mrg : K → M → M → M} {sole : List Nat → Bool} {st st' : Store K M} {root now H H' : Nat}
    {lv lv' : Nat → List (K × Nat)} {k : K} {m : M} {pc pc' : Pc M} {c : Choice} {eff : Bool} {gen : Nat → Nat}
    {W : List Nat} (T : Whole st root H lv) (T' : Whole st' root H' lv') (X : Ext root W st H lv st' H' lv')
    (hW : ∀ a ∈ W, a ∈ (lv 0).map (·.2) → pc.target root = some a ∧ (eff = true ∨ H = 0))
    (he : thrStep mrg sole st root now k m pc c = some (st', pc', eff)) {k' b' : K} {a' : Nat}
    (h : At lv' 0 k' b' a') : ∃ b a, At lv 0 k' b a ∧ gen a ≤ genStep root st st' gen pc c eff a' := by
  have S := T.skel
  have S' := T'.skel
  obtain ⟨b, a, hat⟩ := At.exists (lv := lv) (h := 0) k' (S.ne 0 (Nat.zero_le _)) (S.sorted 0 (Nat.zero_le _))
  have ham := S.mem hat
  have han : st a ≠ none := by
    obtain ⟨n, e, _⟩ := S.page 0 (Nat.zero_le _) _ ham
    simp only at e
    rw [e]; simp
  refine ⟨b, a, hat, ?_⟩
  by_cases haW : a ∈ W
  · obtain ⟨ht, _⟩ := hW a haW (List.mem_map.2 ⟨_, ham, rfl⟩)
    have ha'm := S'.mem h
    rcases X.old _ ha'm with ho | ⟨hn, _⟩
    · simp only at ho
      by_cases haa : a' = a
      · subst haa; exact genStep_mono he han
      · have ha'W : a' ∉ W := by
          intro hx
          have := (hW a' hx ho).1
          rw [ht] at this
          simp only [Option.some.injEq] at this
          exact haa this.symm
        obtain ⟨b2, h2⟩ := held_back S S' X ho ha'W h
        exact absurd ((At.unique (S.sorted 0 (Nat.zero_le _)) h2 hat).2) haa
    · simp only at hn
      have hn' : st' a' ≠ none := by
        obtain ⟨n, e, _⟩ := S'.page 0 (Nat.zero_le _) _ ha'm
        simp only at e
        rw [e]; simp
      have hac : a' = c.new := by
        by_contra hx
        exact hn' (thrStep_new he hn hx)
      subst hac
      exact (genStep_new he ht han hn hn').1
  · obtain ⟨b2, _, h2⟩ := X.path 0 (Nat.zero_le _) k' b a haW hat
    obtain ⟨_, rfl⟩ := At.unique (S'.sorted 0 (Nat.zero_le _)) h2 h
    exact genStep_mono he han

/-- A leaf that holds a key is the leaf of the key. -/
theorem at_of_mem {st : Store K M} {root H : Nat} {lv : Nat → List (K × Nat)} (T : Whole st root H lv)
    {q : K × Nat} (hq : q ∈ lv 0) {x : K × M} (hx : x ∈ cont st q.2) : At lv 0 x.1 q.1 q.2 := by
  have S := T.skel
  obtain ⟨A, B, e⟩ := List.append_of_mem hq
  refine ⟨A, B, e, fun _ => S.cont_ge T.leaves hq x hx, ?_⟩
  intro r hr
  obtain ⟨C, D, hB⟩ := List.append_of_mem hr
  have e2 : lv 0 = (A ++ q :: C) ++ r :: D := by rw [e, hB]; simp
  have hs := S.sorted 0 (Nat.zero_le _)
  rw [e2, List.pairwise_append, List.pairwise_cons] at hs
  obtain ⟨_, _, h3⟩ := S.leaf_split T.leaves (a := r.2) (b := r.1) (k := r.1) e2 (fun _ => le_rfl) hs.2.1.1
  obtain ⟨y, hy, hyb⟩ := h3 (by simp)
  have hs2 := T.leaves.sorted
  rw [e2, List.flatMap_append, List.pairwise_append] at hs2
  have := hs2.2.2 x (by rw [List.mem_flatMap]; exact ⟨q, by simp, hx⟩) y
    (by rw [List.mem_flatMap]; exact ⟨r, by simp, List.mem_of_head? hy⟩)
  rw [hyb] at this
  exact this

omit [BoundedOrder K] [Inhabited K] in
/-- The side of a split the tuple went to. -/
theorem splitLeafBodies_side {mrg : K → M → M → M} {k : K} {m : M} {es : List (K × M)} {s : Spec M}
    {X Y l r : List (K × M)} {split : Nat} {left : Bool} {piv : K} (h : Fits mrg k m es s X Y)
    (hp : planOk s split left = true)
    (he : splitLeafBodies es k s split left = some (l, r, piv)) :
    (k, s.msg) ∈ if left then l else r := by
  have hlen : s.idx ≤ es.length := by
    cases h with
    | new e f i v => rw [e, i]; simp
    | old o e f i v => rw [e, i]; simp
  have hlen2 : s.found = true → s.idx < es.length := by
    cases h with
    | new e f i v => simp [f]
    | old o e f i v => rw [e, i]; simp
  unfold splitLeafBodies at he
  unfold planOk at hp
  simp only at he
  split at he
  · cases he
  · cases left with
    | true =>
      simp only [if_true] at he hp ⊢
      split at he
      · rename_i hf
        simp only [Option.some.injEq, Prod.mk.injEq] at he
        rw [← he.1]
        apply List.mem_iff_getElem?.2
        refine ⟨s.idx, ?_⟩
        rw [List.getElem?_set_self]
        have := hlen2 hf.1
        simp; omega
      · simp only [Option.some.injEq, Prod.mk.injEq] at he
        rw [← he.1]
        have : s.idx ≤ (es.take split).length := by
          split at hp <;> simp at hp ⊢ <;> omega
        rw [List.mem_insertIdx this]
        exact .inl rfl
    | false =>
      simp only [Bool.false_eq_true, if_false, decide_eq_true_eq, Option.some.injEq, Prod.mk.injEq] at he hp ⊢
      rw [← he.2.1]
      have : s.idx - split ≤ (rightCopy es s split).length := by
        unfold rightCopy
        split
        · rename_i hf
          have := hlen2 hf.1
          rw [List.length_eraseIdx_of_lt (by simp; omega)]
          simp; omega
        · simp; omega
      rw [List.mem_insertIdx this]
      exact .inl rfl

/-- An insert hands back a generation not below the one its leaf had, and below the one the
leaf of its key has then. -/
theorem gen_put {mrg : K → M → M → M} {sole : List Nat → Bool} {st st' : Store K M} {root now H H' : Nat}
    {lv lv' : Nat → List (K × Nat)} {k : K} {m : M} {pc pc' : Pc M} {c : Choice} {gen : Nat → Nat}
    {W : List Nat} (T : Whole st root H lv) (T' : Whole st' root H' lv') (X : Ext root W st H lv st' H' lv')
    (hok : TOk mrg st root H lv k m pc) (hput : Put mrg k m (items st lv) (items st' lv'))
    (hW : ∀ a ∈ W, a ∈ (lv 0).map (·.2) → pc.target root = some a ∧ (true = true ∨ H = 0))
    (ht : ∃ t ∈ W, pc.target root = some t ∧ ∃ b ≤ k, At lv 0 k b t)
    (he : thrStep mrg sole st root now k m pc c = some (st', pc', true)) :
    (∃ b a, At lv 0 k b a ∧ gen a ≤ genOut root gen pc) ∧
    ∀ b' a', At lv' 0 k b' a' → genOut root gen pc < genStep root st st' gen pc c true a' := by
  have S := T.skel
  have S' := T'.skel
  obtain ⟨t, htW, htt, b, hb, hat⟩ := ht
  have htn : st t ≠ none := by
    obtain ⟨n, e, _⟩ := S.page 0 (Nat.zero_le _) _ (S.mem hat)
    simp only at e
    rw [e]; simp
  -- a step that adds no page leaves the key where it was
  have hstay : (∀ x, st x = none → st' x = none) → ∀ b' a', At lv' 0 k b' a' → a' = t := by
    intro hno b' a' h
    have ha'm := S'.mem h
    rcases X.old _ ha'm with ho | ⟨hn, _⟩
    · simp only at ho
      by_contra haa
      have ha'W : a' ∉ W := by
        intro hx
        have := (hW a' hx ho).1
        rw [htt] at this
        simp only [Option.some.injEq] at this
        exact haa this.symm
      obtain ⟨b2, h2⟩ := held_back S S' X ho ha'W h
      exact haa (At.unique (S.sorted 0 (Nat.zero_le _)) h2 hat).2
    · simp only at hn
      obtain ⟨n, e, _⟩ := S'.page 0 (Nat.zero_le _) _ ha'm
      simp only at e
      rw [hno a' hn] at e
      cases e
  have put : ∀ {a : Nat} {y : Body K M} {p q : Pc M} {e e' : Bool},
      some (putBody st a y, p, e) = some (st', q, e') → ∀ x, st x = none → st' x = none := by
    intro a y p q e e' h' x hx
    simp only [Option.some.injEq, Prod.mk.injEq] at h'
    rw [← h'.1]; exact putBody_none hx
  cases pc with
  | rootLeaf s =>
    simp only [Pc.target, Option.some.injEq] at htt
    subst htt
    refine ⟨⟨b, root, hat, le_rfl⟩, ?_⟩
    intro b' a' h
    have : ∀ x, st x = none → st' x = none := by
      simp only [thrStep] at he
      repeat' split at he
      all_goals first
        | exact put he
        | cases he
        | simp at he
    obtain rfl := hstay this b' a' h
    simp [genOut, genStep, bump, setAt]
  | ready ch s =>
    simp only [Pc.target, Option.some.injEq] at htt
    subst htt
    refine ⟨⟨b, ch, hat, le_rfl⟩, ?_⟩
    intro b' a' h
    have : ∀ x, st x = none → st' x = none := by
      simp only [thrStep] at he
      repeat' split at he
      all_goals first
        | exact put he
        | cases he
    obtain rfl := hstay this b' a' h
    simp [genOut, genStep, bump, setAt]
  | defrag ch s =>
    simp only [Pc.target, Option.some.injEq] at htt
    subst htt
    refine ⟨⟨b, ch, hat, le_rfl⟩, ?_⟩
    intro b' a' h
    have : ∀ x, st x = none → st' x = none := by
      simp only [thrStep] at he
      repeat' split at he
      all_goals first
        | exact put he
        | cases he
    obtain rfl := hstay this b' a' h
    simp [genOut, genStep, bump, setAt]
  | both p i ch s =>
    simp only [Pc.target, Option.some.injEq] at htt
    subst htt
    refine ⟨⟨b, ch, hat, by simp [genOut]⟩, ?_⟩
    have hsp := both_fresh he
    have hf := splitLeaf_fresh hsp
    have hcn : ch ≠ c.new := by rintro rfl; exact htn hf
    -- the side the tuple went to holds it
    have hside : ((cont st' ch) ++ cont st' c.new).Pairwise (fun x y => x.1 < y.1) ∧
        (k, s.msg) ∈ if c.left then cont st' ch else cont st' c.new := by
      have hsp2 := hsp
      unfold splitLeaf at hsp2
      split at hsp2
      · rename_i n es hn hes
        split at hsp2
        · cases hsp2
        · rename_i l r piv hb
          split at hsp2
          · rename_i hc
            split at hsp2
            · cases hsp2
            · simp only [Option.some.injEq] at hsp2
              have hspec : mkSpec mrg es k m = some s := by
                have := hok.2.2
                simpa [cont, hes] using this
              have hso : es.Pairwise fun x y => x.1 < y.1 := by
                obtain ⟨A, B, e⟩ := List.append_of_mem (S.mem hat)
                have hs := T.leaves.sorted
                rw [e, List.flatMap_append, List.flatMap_cons, List.pairwise_append, List.pairwise_append] at hs
                have := hs.2.1.1
                simpa [cont, hes] using this
              obtain ⟨s', X', Y', g1, gX, gY, g2⟩ := mkSpec_spec (mrg := mrg) (k := k) (m := m) hso
              rw [hspec] at g1
              obtain rfl : s = s' := by injection g1
              have hm := splitLeafBodies_side g2 hc.2.1 hb
              have hlr := (splitLeafBodies_spec g2 hc.2.1 hc.2.2.2 hb).1
              have hc1 : cont st' ch = l := by rw [← hsp2]; simp [cont, leafOf, setAt]
              have hc2 : cont st' c.new = r := by rw [← hsp2]; simp [cont, leafOf, setAt, Ne.symm hcn]
              rw [hc1, hc2]
              refine ⟨?_, hm⟩
              rw [hlr, List.pairwise_append, List.pairwise_cons]
              have hXY : X'.Pairwise (fun x y => x.1 < y.1) ∧ Y'.Pairwise (fun x y => x.1 < y.1) := by
                cases g2 with
                | new e f i v =>
                  rw [e, List.pairwise_append] at hso
                  exact ⟨hso.1, hso.2.1⟩
                | old o e f i v =>
                  rw [e, List.pairwise_append, List.pairwise_cons] at hso
                  exact ⟨hso.1, hso.2.1.2⟩
              refine ⟨hXY.1, ⟨gY, hXY.2⟩, ?_⟩
              intro x hx y hy
              rcases List.mem_cons.1 hy with rfl | hy
              · exact gX x hx
              · exact (gX x hx).trans (gY y hy)
          · cases hsp2
      · cases hsp2
    intro b' a' h
    obtain ⟨hlr, hv⟩ := hside
    rw [List.pairwise_append] at hlr
    -- the leaf of the key holds it
    have hin : ∃ v, (k, v) ∈ cont st' a' := by
      have : ∃ v, (k, v) ∈ items st' lv' := by
        cases hput with
        | new X Y e e' hX hY => exact ⟨_, by rw [e']; simp; exact .inr (.inl rfl)⟩
        | old X Y o e e' hX hY => exact ⟨_, by rw [e']; simp; exact .inr (.inl rfl)⟩
      obtain ⟨v, hv⟩ := this
      obtain ⟨q, hq, hvq⟩ := List.mem_flatMap.1 hv
      have := at_of_mem T' hq hvq
      obtain ⟨_, rfl⟩ := At.unique (S'.sorted 0 (Nat.zero_le _)) h this
      exact ⟨v, hvq⟩
    obtain ⟨v, hin⟩ := hin
    have hac : a' = ch ∨ a' = c.new := by
      have ha'm := S'.mem h
      rcases X.old _ ha'm with ho | ⟨hn, _⟩
      · simp only at ho
        left
        by_contra haa
        have ha'W : a' ∉ W := by
          intro hx
          have := (hW a' hx ho).1
          simp only [Pc.target, Option.some.injEq] at this
          exact haa this.symm
        obtain ⟨b2, h2⟩ := held_back S S' X ho ha'W h
        exact haa (At.unique (S.sorted 0 (Nat.zero_le _)) h2 hat).2
      · simp only at hn
        right
        by_contra hx
        obtain ⟨n, e, _⟩ := S'.page 0 (Nat.zero_le _) _ ha'm
        simp only at e
        rw [thrStep_new he hn hx] at e
        cases e
    have haa : a' = if c.left then ch else c.new := by
      cases hl : c.left with
      | true =>
        simp only [hl, if_true] at hv ⊢
        rcases hac with h | rfl
        · exact h
        · exact absurd (hlr.2.2 _ hv _ hin) (lt_irrefl _)
      | false =>
        simp only [hl, Bool.false_eq_true, if_false] at hv ⊢
        rcases hac with rfl | h
        · exact absurd (hlr.2.2 _ hin _ hv) (lt_irrefl _)
        · exact h
    rw [haa]
    cases hl : c.left with
    | true => simp [genOut, genStep, bump, setAt, hl, hcn]
    | false => simp [genOut, genStep, bump, setAt, hl]
  | _ => simp [Pc.target] at htt

end Splinter.BtreeIns
