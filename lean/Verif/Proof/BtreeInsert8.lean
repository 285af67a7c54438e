import Verif.Proof.BtreeInsert7
/-!
The pages of a thread on its way down, and what makes room on that way.
-/
namespace Splinter.BtreeIns
open Btree Search

variable {K M : Type} [LinearOrder K] [BoundedOrder K]

/-- `c`, child `i` of page `p` at level `h`, is where the search for `k` goes. -/
def On (st : Store K M) (lv : Nat → List (K × Nat)) (h : Nat) (k : K) (p i c : Nat) : Prop :=
  ∃ b, b ≤ k ∧ At lv h k b p ∧ ∃ E1 f E2, kids st p = E1 ++ (f, c) :: E2 ∧ E1.length = i ∧ f ≤ k ∧
    ∀ q ∈ E2, k < q.1

theorem On.child {st : Store K M} {root H h p i c : Nat} {lv : Nat → List (K × Nat)} {k : K}
    (S : Skel st root H lv) (hh : h < H) (h1 : On st lv (h + 1) k p i c) :
    ∃ b, b ≤ k ∧ At lv h k b c := by
  obtain ⟨b, hb, hat, E1, f, E2, ek, _, hf, h2⟩ := h1
  exact ⟨f, hf, S.down hh hat ek (fun _ => hf) h2⟩

omit [BoundedOrder K] in
theorem On.ext {st st' : Store K M} {root H H' h p i c : Nat} {lv lv' : Nat → List (K × Nat)} {k : K}
    {W : List Nat} (x : Ext root W st H lv st' H' lv') (hh : h ≤ H) (hp : st p ≠ none) (hW : p ∉ W)
    (h1 : On st lv h k p i c) : On st' lv' h k p i c := by
  obtain ⟨b, hb, hat, E1, f, E2, ek, h3, hf, h2⟩ := h1
  obtain ⟨b', hb', hat'⟩ := x.path h hh k b p hW hat
  exact ⟨b', hb'.trans hb, hat', E1, f, E2, by rw [(x.same p hp hW).1]; exact ek, h3, hf, h2⟩

theorem On.page {st : Store K M} {root H h p i c : Nat} {lv : Nat → List (K × Nat)} {k : K}
    (S : Skel st root H lv) (hh : h ≤ H) (h1 : On st lv h k p i c) : Page st h p := by
  obtain ⟨b, hb, hat, _⟩ := h1
  exact S.page h hh _ (S.mem hat)

/-- Searching for the child in an index page. -/
theorem find_kids [Inhabited K] {st : Store K M} {root H h a : Nat} {lv : Nat → List (K × Nat)} {b k : K}
    {es : List (Entry K)} (S : Skel st root H lv) (hh : h < H) (hat : At lv (h + 1) k b a)
    (hes : entsOf st a = some es) :
    kids st a = es.map (fun e => (e.key, e.child)) ∧ kids st a ≠ [] ∧
    (((btreeFind (es.map (·.key)) k).1 < 0 ∧ ∀ q ∈ kids st a, k < q.1) ∨
     (0 ≤ (btreeFind (es.map (·.key)) k).1 ∧ ∃ E1 f c E2, kids st a = E1 ++ (f, c) :: E2 ∧
        E1.length = (btreeFind (es.map (·.key)) k).1.toNat ∧ f ≤ k ∧ (∀ q ∈ E1, q.1 ≤ k) ∧ ∀ q ∈ E2, k < q.1)) := by
  obtain ⟨n, es', e1, e2, e3, e4, e5, e6, e7⟩ := (S.page (h + 1) hh _ (S.mem hat)).index (by omega)
  simp only at e5 e6
  rw [hes] at e5
  obtain rfl : es = es' := by injection e5
  have hs : (es.map (·.key)).Pairwise (· < ·) := by
    have hs := S.sorted h (by omega)
    obtain ⟨A, B, e, _⟩ := hat
    rw [S.kids h hh, e, List.flatMap_append, List.flatMap_cons, List.pairwise_append,
      List.pairwise_append, e6] at hs
    have := hs.2.1.1
    rw [List.pairwise_map] at this ⊢
    exact this
  refine ⟨e6, by rw [e6]; simpa using e4, ?_⟩
  obtain ⟨c, h1, h2, h3, h4, h5, h6⟩ := find_split (t := k) hs
  rw [List.length_map] at h2
  rw [← List.map_take] at h3
  rw [← List.map_drop] at h4
  have h3 : ∀ x ∈ es.take c, x.key ≤ k := fun x hx => h3 _ (List.mem_map_of_mem hx)
  have h4 : ∀ x ∈ es.drop c, k < x.key := fun x hx => h4 _ (List.mem_map_of_mem hx)
  by_cases hc : c = 0
  · left
    subst hc
    refine ⟨by omega, ?_⟩
    intro q hq
    rw [e6] at hq
    obtain ⟨y, hy, rfl⟩ := List.mem_map.1 hq
    exact h4 y (by simpa using hy)
  · right
    have hlt : c - 1 < es.length := by omega
    have hsp : es = es.take (c - 1) ++ es[c - 1] :: es.drop c := by
      have := List.drop_eq_getElem_cons hlt
      rw [show c - 1 + 1 = c by omega] at this
      rw [← this, List.take_append_drop]
    refine ⟨by omega, (es.take (c - 1)).map (fun e => (e.key, e.child)), es[c - 1].key, es[c - 1].child,
      (es.drop c).map (fun e => (e.key, e.child)), ?_, ?_, ?_, ?_, ?_⟩
    · rw [e6]
      conv => lhs; rw [hsp]
      simp
    · simp; omega
    · refine h3 _ ?_
      rw [List.mem_take_iff_getElem]
      exact ⟨c - 1, by omega, rfl⟩
    · intro q hq
      obtain ⟨y, hy, rfl⟩ := List.mem_map.1 hq
      refine h3 y ?_
      rw [List.mem_take_iff_getElem] at hy ⊢
      obtain ⟨j, hj, rfl⟩ := hy
      exact ⟨j, by omega, rfl⟩
    · intro q hq
      obtain ⟨y, hy, rfl⟩ := List.mem_map.1 hq
      exact h4 y hy

/-- btree.c 1819–1846. -/
theorem fixRoot_spec [Inhabited K] {st st' : Store K M} {root H j : Nat} {lv : Nat → List (K × Nat)} {k : K}
    {es : List (Entry K)} {c : Choice} (T : Whole st root H lv) (hH : H ≠ 0) (hes : entsOf st root = some es)
    (he : fixRoot st root k (btreeFind (es.map (·.key)) k).1 c = some (st', j)) :
    ∃ H' lv' ch, Whole st' root H' lv' ∧ Ext root [root] st H lv st' H' lv' ∧ items st' lv' = items st lv ∧
      0 < H' ∧ On st' lv' H' k root j ch := by
  obtain ⟨h, rfl⟩ : ∃ h, H = h + 1 := ⟨H - 1, by omega⟩
  obtain ⟨hk0, hne, hfind⟩ := find_kids T.skel (Nat.lt_succ_self h) (T.skel.root k) hes
  unfold fixRoot at he
  rcases hfind with ⟨hneg, hall⟩ | ⟨hpos, E1, f, ch, E2, ek, ei, hf, hE1, hE2⟩
  · -- a new smallest key
    obtain ⟨⟨f, ch⟩, E, hE⟩ := List.exists_cons_of_ne_nil hne
    have hkf : k < f := hall (f, ch) (by rw [hE]; simp)
    have hkE : ∀ q ∈ E, k < q.1 := fun q hq => hall q (by rw [hE]; simp [hq])
    have hz : (btreeFind (es.map (·.key)) k).1.toNat = 0 := by omega
    simp only [hneg, decide_true, Bool.true_and, true_and, hz, ite_self] at he
    cases hset : c.set1 with
    | true =>
      simp only [hset, if_true, Bool.not_true, Bool.false_eq_true, if_false] at he
      split at he
      · cases he
      · rename_i st1 hst1
        obtain ⟨lv1, W1, X1, I1, k1, at1⟩ := setMin_spec T (Nat.lt_succ_self h) (T.skel.root k) bot_le hE hkf hst1
        split at he
        · cases he
        · rename_i st2 hst2
          simp only [Option.some.injEq, Prod.mk.injEq] at he
          obtain ⟨rfl, rfl⟩ := he
          by_cases hfull : c.full2 = true
          · rw [if_pos hfull] at hst2
            obtain ⟨lv2, f2, W2, X2, I2, hf2, k2⟩ := growRoot_spec W1 hst2
            have : f2 = k := by
              obtain ⟨_, es', _, _, _, _, _, g6, g7⟩ := (W1.skel.page (h + 1) le_rfl (⊥, root)
                (by rw [W1.skel.top]; simp)).index (by omega)
              simp only at g6 g7
              rw [g7] at hf2
              rw [k1] at g6
              cases es' with
              | nil => cases g6
              | cons y es' =>
                simp only [List.map_cons, List.cons.injEq, Prod.mk.injEq] at g6
                simp only [List.head?_cons, Option.map_some, Option.some.injEq] at hf2
                rw [← hf2, ← g6.1.1]
            subst this
            exact ⟨_, lv2, c.new, W2, X1.trans X2, I2.trans I1, by omega, ⊥, bot_le, W2.skel.root _,
              [], f2, [], by rw [k2]; simp, rfl, le_rfl, by simp⟩
          · rw [if_neg hfull] at hst2
            cases hst2
            exact ⟨_, lv1, ch, W1, X1, I1, by omega, ⊥, bot_le, at1, [], k, E, by rw [k1]; simp, rfl, le_rfl, hkE⟩
    | false =>
      simp only [hset, Bool.false_eq_true, if_false, Bool.not_false, if_true] at he
      split at he
      · cases he
      · rename_i st2 hst2
        obtain ⟨st3, hst3, hst3'⟩ := Option.map_eq_some_iff.1 he
        simp only [Prod.mk.injEq] at hst3'
        obtain ⟨rfl, rfl⟩ := hst3'
        by_cases hfull : c.full2 = true
        · rw [if_pos hfull] at hst2
          obtain ⟨lv2, f2, W2, X2, I2, hf2, k2⟩ := growRoot_spec T hst2
          have : f2 = f := by
            obtain ⟨_, es', _, _, _, _, _, g6, g7⟩ := (T.skel.page (h + 1) le_rfl (⊥, root)
              (by rw [T.skel.top]; simp)).index (by omega)
            simp only at g6 g7
            rw [g7] at hf2
            rw [hE] at g6
            cases es' with
            | nil => cases g6
            | cons y es' =>
              simp only [List.map_cons, List.cons.injEq, Prod.mk.injEq] at g6
              simp only [List.head?_cons, Option.map_some, Option.some.injEq] at hf2
              rw [← hf2, ← g6.1.1]
          subst this
          obtain ⟨lv3, W3, X3, I3, k3, at3⟩ := setMin_spec W2 (Nat.lt_succ_self _) (W2.skel.root k) bot_le k2 hkf hst3
          exact ⟨_, lv3, c.new, W3, X2.trans X3, I3.trans I2, by omega, ⊥, bot_le, at3,
            [], k, [], by rw [k3]; simp, rfl, le_rfl, by simp⟩
        · rw [if_neg hfull] at hst2
          cases hst2
          obtain ⟨lv1, W1, X1, I1, k1, at1⟩ := setMin_spec T (Nat.lt_succ_self h) (T.skel.root k) bot_le hE hkf hst3
          exact ⟨_, lv1, ch, W1, X1, I1, by omega, ⊥, bot_le, at1, [], k, E, by rw [k1]; simp, rfl, le_rfl, hkE⟩
  · have hn : ¬ (btreeFind (es.map (·.key)) k).1 < 0 := by omega
    simp only [hn, decide_false, Bool.false_and, false_and, if_false, Bool.false_eq_true] at he
    split at he
    · cases he
    · rename_i st2 hst2
      simp only [Option.some.injEq, Prod.mk.injEq] at he
      obtain ⟨rfl, rfl⟩ := he
      by_cases hfull : c.full2 = true
      · rw [if_pos hfull] at hst2
        rw [if_pos hfull]
        obtain ⟨lv2, f2, W2, X2, I2, hf2, k2⟩ := growRoot_spec T hst2
        have : f2 ≤ k := by
          obtain ⟨_, es', _, _, _, _, _, g6, g7⟩ := (T.skel.page (h + 1) le_rfl (⊥, root)
            (by rw [T.skel.top]; simp)).index (by omega)
          simp only at g6 g7
          rw [g7] at hf2
          rw [ek] at g6
          cases es' with
          | nil => simp at g6
          | cons y es' =>
            simp only [List.head?_cons, Option.map_some, Option.some.injEq] at hf2
            cases E1 with
            | nil => simp at g6; rw [← hf2, ← g6.1.1]; exact hf
            | cons z E1 =>
              simp at g6
              have := hE1 z (by simp)
              rw [g6.1] at this
              rw [← hf2]; exact this
        exact ⟨_, lv2, c.new, W2, X2, I2, by omega, ⊥, bot_le, W2.skel.root _,
          [], f2, [], by rw [k2]; simp, rfl, this, by simp⟩
      · rw [if_neg hfull] at hst2
        rw [if_neg hfull]
        cases hst2
        exact ⟨_, lv, ch, T, Ext.refl, rfl, by omega, ⊥, bot_le, T.skel.root k, E1, f, E2, ek, ei, hf, hE2⟩

/-- Splitting when the search goes to a given child. -/
theorem splitIndex_on {st st' : Store K M} {root H h p c new i j split q j2 ch : Nat}
    {lv : Nat → List (K × Nat)} {pb b k f : K} {PA PB E1 E2 F1 F2 : List (K × Nat)} (T : Whole st root H lv)
    (hh : h < H) (h0 : h ≠ 0) (ep : lv (h + 1) = PA ++ (pb, p) :: PB)
    (ek : kids st p = E1 ++ (b, c) :: E2) (hi : E1.length = i) (hat : At lv h k b c) (hb : b ≤ k)
    (hF : kids st c = F1 ++ (f, ch) :: F2) (hj : F1.length = j) (hF1 : ∀ x ∈ F1, x.1 ≤ k)
    (hF2 : ∀ x ∈ F2, k < x.1) (hf : f ≤ k ∨ j = 0)
    (he : splitIndex st p i c split new j = some (st', q, j2)) :
    ∃ lv', Whole st' root H lv' ∧ Ext root [p, c] st H lv st' H lv' ∧ items st' lv' = items st lv ∧
      ∃ b', b' ≤ k ∧ At lv' h k b' q ∧ ∃ F1' F2', kids st' q = F1' ++ (f, ch) :: F2' ∧ F1'.length = j2 ∧
        (∀ x ∈ F2', x ∈ F2) ∧ (f ≤ k ∨ F1' = []) := by
  obtain ⟨lv', piv, W, X, I, hs, hpiv, hl, hr⟩ := splitIndex_spec T hh h0 ep ek hi hat he
  refine ⟨lv', W, X, I, ?_⟩
  obtain ⟨⟨pk, pv⟩, hp1, rfl⟩ := Option.map_eq_some_iff.1 hpiv
  rw [hF] at hp1 hl hr
  by_cases hlt : j < split
  · obtain ⟨rfl, rfl, l3, l4⟩ := hl hlt
    rw [List.getElem?_append_right (by omega)] at hp1
    obtain ⟨d, hd⟩ : ∃ d, split = F1.length + (d + 1) := ⟨split - F1.length - 1, by omega⟩
    subst hd
    rw [show F1.length + (d + 1) - F1.length = d + 1 by omega, List.getElem?_cons_succ] at hp1
    have hk : k < pk := hF2 _ (List.mem_of_getElem? hp1)
    refine ⟨b, hb, l4 hk, F1, F2.take d, ?_, hj, fun x hx => List.mem_of_mem_take hx, ?_⟩
    · rw [l3, List.take_append, List.take_of_length_le (by omega),
        show F1.length + (d + 1) - F1.length = d + 1 by omega, List.take_succ_cons]
    · rcases hf with hf | hf
      · exact .inl hf
      · right
        exact List.length_eq_zero_iff.1 (by omega)
  · obtain ⟨rfl, rfl, r3, r4⟩ := hr (by omega)
    have hfk : f ≤ k := by
      rcases hf with hf | hf
      · exact hf
      · omega
    have hk : pk ≤ k := by
      by_cases hsl : split < F1.length
      · rw [List.getElem?_append_left hsl] at hp1
        exact hF1 _ (List.mem_of_getElem? hp1)
      · rw [List.getElem?_append_right (by omega), show split - F1.length = 0 by omega] at hp1
        simp at hp1
        rw [← hp1.1]; exact hfk
    refine ⟨pk, hk, r4 hk, F1.drop split, F2, ?_, by simp; omega, fun x hx => hx, .inl hfk⟩
    rw [r3, List.drop_append_of_le_length (by omega)]

/-- btree.c 1900–1952. -/
theorem fixChild_spec [Inhabited K] {st st' : Store K M} {root H h p i ch q j2 : Nat} {lv : Nat → List (K × Nat)}
    {k : K} {es : List (Entry K)} {c : Choice} (T : Whole st root H lv) (hh : h + 1 < H)
    (hon : On st lv (h + 2) k p i ch) (hes : entsOf st ch = some es)
    (he : fixChild st p i ch k (btreeFind (es.map (·.key)) k).1 c = some (st', q, j2)) :
    ∃ lv' d, Whole st' root H lv' ∧ Ext root [p, ch] st H lv st' H lv' ∧ items st' lv' = items st lv ∧
      On st' lv' (h + 1) k q j2 d := by
  obtain ⟨pb, hpb, ⟨PA, PB, ep, hPA, hPB⟩, E1, f, E2, ek, hi, hf, hE2⟩ := hon
  have hat : At lv (h + 1) k f ch := T.skel.down hh ⟨PA, PB, ep, hPA, hPB⟩ ek (fun _ => hf) hE2
  have hpm : (pb, p) ∈ lv (h + 2) := by rw [ep]; simp
  have hcm := T.skel.mem hat
  have hpc : p ≠ ch := by
    rintro rfl
    have := T.skel.level (a := p) hh (by omega : h + 1 ≤ H) (List.mem_map.2 ⟨_, hpm, rfl⟩) (List.mem_map.2 ⟨_, hcm, rfl⟩)
    omega
  have hpn : st p ≠ none := by
    obtain ⟨x, hx, _⟩ := T.skel.page (h + 2) hh _ hpm
    simp only at hx
    rw [hx]; simp
  obtain ⟨hk0, hne, hfind⟩ := find_kids T.skel (by omega : h < H) hat hes
  unfold fixChild at he
  rcases hfind with ⟨hneg, hall⟩ | ⟨hpos, F1, g, d, F2, ekc, ei, hg, hF1, hF2⟩
  · obtain ⟨⟨g, d⟩, F, hF⟩ := List.exists_cons_of_ne_nil hne
    have hkg : k < g := hall (g, d) (by rw [hF]; simp)
    have hkF : ∀ q ∈ F, k < q.1 := fun q hq => hall q (by rw [hF]; simp [hq])
    have hz : (btreeFind (es.map (·.key)) k).1.toNat = 0 := by omega
    simp only [hneg, decide_true, Bool.true_and, true_and, hz] at he
    cases hset : c.set1 with
    | true =>
      simp only [hset, if_true, Bool.not_true, Bool.false_eq_true, if_false] at he
      split at he
      · cases he
      · rename_i st1 hst1
        obtain ⟨lv1, W1, X1, I1, k1, at1⟩ := setMin_spec T (by omega : h < H) hat hf hF hkg hst1
        have X1' : Ext root [p, ch] st H lv st1 H lv1 := X1.weaken (by simp)
        have hother : On st1 lv1 (h + 1) k ch 0 d := ⟨f, hf, at1, [], k, F, by rw [k1]; simp, rfl, le_rfl, hkF⟩
        split at he
        · cases he
        · rename_i st2 q' j' hst2
          simp only [Option.some.injEq, Prod.mk.injEq] at he
          obtain ⟨rfl, rfl, rfl⟩ := he
          by_cases hfull : c.full2 = true
          · rw [if_pos hfull] at hst2
            by_cases hdf : c.dfr = true
            · rw [if_pos hdf] at hst2
              simp only [Option.some.injEq, Prod.mk.injEq] at hst2
              obtain ⟨rfl, rfl, rfl⟩ := hst2
              exact ⟨lv1, d, W1, X1', I1, hother⟩
            · rw [if_neg hdf] at hst2
              obtain ⟨pb', _, ⟨PA', PB', ep', _, _⟩⟩ := X1.path (h + 2) hh k pb p (by simpa using hpc) ⟨PA, PB, ep, hPA, hPB⟩
              obtain ⟨lv2, W2, X2, I2, b', hb', at2, G1, G2, g1, g2, g3, g4⟩ :=
                splitIndex_on (F1 := []) (f := k) (ch := d) (F2 := F) W1 hh (by omega) ep' (by rw [(X1.same p hpn (by simpa using hpc)).1]; exact ek) hi at1 hf
                  (by rw [k1]; simp) rfl (by simp) hkF (.inl le_rfl) hst2
              exact ⟨lv2, d, W2, X1'.trans X2, I2.trans I1, b', hb', at2, G1, k, G2, g1, g2, le_rfl,
                fun x hx => hkF x (g3 x hx)⟩
          · rw [if_neg hfull] at hst2
            simp only [Option.some.injEq, Prod.mk.injEq] at hst2
            obtain ⟨rfl, rfl, rfl⟩ := hst2
            exact ⟨lv1, d, W1, X1', I1, hother⟩
    | false =>
      simp only [hset, Bool.false_eq_true, if_false, Bool.not_false, if_true] at he
      split at he
      · cases he
      · rename_i st2 q' j' hst2
        obtain ⟨st3, hst3, hst3'⟩ := Option.map_eq_some_iff.1 he
        simp only [Prod.mk.injEq] at hst3'
        obtain ⟨rfl, rfl, rfl⟩ := hst3'
        have plain : st2 = st → q' = ch → j' = 0 → ∃ lv' d, Whole st3 root H lv' ∧
            Ext root [p, ch] st H lv st3 H lv' ∧ items st3 lv' = items st lv ∧ On st3 lv' (h + 1) k q' j' d := by
          rintro rfl rfl rfl
          obtain ⟨lv1, W1, X1, I1, k1, at1⟩ := setMin_spec T (by omega : h < H) hat hf hF hkg hst3
          exact ⟨lv1, d, W1, X1.weaken (by simp), I1, f, hf, at1, [], k, F, by rw [k1]; simp, rfl, le_rfl, hkF⟩
        by_cases hfull : c.full2 = true
        · rw [if_pos hfull] at hst2
          by_cases hdf : c.dfr = true
          · rw [if_pos hdf] at hst2
            simp only [Option.some.injEq, Prod.mk.injEq] at hst2
            exact plain hst2.1.symm hst2.2.1.symm hst2.2.2.symm
          · rw [if_neg hdf] at hst2
            obtain ⟨lv2, W2, X2, I2, b', hb', at2, G1, G2, g1, g2, g3, g4⟩ :=
              splitIndex_on (F1 := []) (f := g) (ch := d) (F2 := F) T hh (by omega) ep ek hi hat hf
                (by rw [hF]; simp) rfl (by simp) hkF (.inr rfl) hst2
            rcases g4 with g4 | g4
            · exact absurd hkg (not_lt.2 g4)
            subst g4
            have hq' : q' = ch := by
              obtain ⟨_, _, _, _, _, hs0, _, hl, _⟩ := splitIndex_spec T hh (by omega) ep ek hi hat hst2
              exact (hl hs0).1
            subst hq'
            obtain ⟨lv3, W3, X3, I3, k3, at3⟩ := setMin_spec W2 (by omega : h < H) at2 hb' g1 hkg hst3
            exact ⟨lv3, d, W3, X2.trans (X3.weaken (by simp)), I3.trans I2, b', hb', at3, [], k, G2,
              by rw [k3]; simp, by simpa using g2, le_rfl, fun x hx => hkF x (g3 x hx)⟩
        · rw [if_neg hfull] at hst2
          simp only [Option.some.injEq, Prod.mk.injEq] at hst2
          exact plain hst2.1.symm hst2.2.1.symm hst2.2.2.symm
  · have hn : ¬ (btreeFind (es.map (·.key)) k).1 < 0 := by omega
    simp only [hn, decide_false, Bool.false_and, false_and, if_false, Bool.false_eq_true] at he
    split at he
    · cases he
    · rename_i st2 q' j' hst2
      simp only [Option.some.injEq, Prod.mk.injEq] at he
      obtain ⟨rfl, rfl, rfl⟩ := he
      have plain : st2 = st → q' = ch → j' = (btreeFind (es.map (·.key)) k).1.toNat →
          ∃ lv' d, Whole st2 root H lv' ∧ Ext root [p, ch] st H lv st2 H lv' ∧ items st2 lv' = items st lv ∧
            On st2 lv' (h + 1) k q' j' d := by
        rintro rfl rfl rfl
        exact ⟨lv, d, T, Ext.refl, rfl, f, hf, hat, F1, g, F2, ekc, ei, hg, hF2⟩
      by_cases hfull : c.full2 = true
      · rw [if_pos hfull] at hst2
        by_cases hdf : c.dfr = true
        · rw [if_pos hdf] at hst2
          simp only [Option.some.injEq, Prod.mk.injEq] at hst2
          exact plain hst2.1.symm hst2.2.1.symm hst2.2.2.symm
        · rw [if_neg hdf] at hst2
          obtain ⟨lv2, W2, X2, I2, b', hb', at2, G1, G2, g1, g2, g3, g4⟩ :=
            splitIndex_on T hh (by omega) ep ek hi hat hf ekc ei hF1 hF2 (.inl hg) hst2
          exact ⟨lv2, d, W2, X2, I2, b', hb', at2, G1, g, G2, g1, g2, hg, fun x hx => hF2 x (g3 x hx)⟩
      · rw [if_neg hfull] at hst2
        simp only [Option.some.injEq, Prod.mk.injEq] at hst2
        exact plain hst2.1.symm hst2.2.1.symm hst2.2.2.symm

end Splinter.BtreeIns
