import Verif.Proof.LeafSplit
/-!
# C11: splitting and defragmenting a leaf
-/
namespace Splinter.Page

/-- The bound that `btree_config_init` (btree.c:3884-3898) asserts for the largest entry and its
table slot: at most half of the page without its header. -/
def HalfPage (ps : Nat) (e : Tuple) : Prop := 2 * (6 + e.key.length + e.data.length + 2) ≤ ps - 37

/-- Prev and next links of a page, and its height. -/
def prevAddr (m : Mem) : Nat := rdN m 0 8
def nextAddr (m : Mem) : Nat := rdN m 8 8
def height (m : Mem) : UInt8 := m 32

theorem HalfPage.wt {ps : Nat} {e : Tuple} (h : HalfPage ps e) : 2 * wt e ≤ ps - 37 := h

set_option maxHeartbeats 1000000 in
/-- C11: splitting any well-formed leaf for any new or replaced tuple never fails an assertion;
the tuples of the left page followed by those of the right page are the tuples of the leaf with the
new one in place; neither page is empty; the key given to the parent is the first key of the right
page (or, when the replaced tuple becomes the first of the right page, the key it had); and the
two pages are linked to each other and to the old right neighbour. -/
theorem splitLeaf_spec {ps : Nat} {m r0 : Mem} {s : Spec} {la ra : Nat} (w : WF leafFmt ps m)
    (hs : SpecOk (entries leafFmt m) s) (hsmall : ∀ e ∈ s.tup :: entries leafFmt m, HalfPage ps e)
    (htwo : 2 ≤ (newEntries (entries leafFmt m) s).length) (hla : la < 2 ^ 64) (hra : ra < 2 ^ 64) :
    ∃ l r piv, splitLeaf ps m r0 s la ra = some (l, r, piv) ∧ WF leafFmt ps l ∧ WF leafFmt ps r ∧
      entries leafFmt l ++ entries leafFmt r = newEntries (entries leafFmt m) s ∧
      entries leafFmt l ≠ [] ∧
      (∃ e, (entries leafFmt r).head? = some e ∧
        (piv = e.key ∨ (s.old = .stillExists ∧ e = s.tup ∧ ∃ o, (entries leafFmt m)[s.idx]? = some o ∧ piv = o.key))) ∧
      prevAddr l = prevAddr m ∧ nextAddr l = ra ∧ prevAddr r = la ∧ nextAddr r = nextAddr m ∧
      height l = height m ∧ height r = height m := by
  have hfit := wts_entries w
  have hps := w.small
  have h37 : 37 ≤ ps := by omega
  obtain ⟨es, hes⟩ : ∃ es, es = entries leafFmt m := ⟨_, rfl⟩
  have hlen : es.length = numEntries m := by rw [hes, entries_length]
  have hidx : s.idx ≤ es.length := hes ▸ hs.idx_le
  obtain ⟨N, hN⟩ : ∃ N, N = newEntries es s := ⟨_, rfl⟩
  have hs' : SpecOk es s := by rw [hes]; exact hs
  have hNe : N = es.take s.idx ++ s.tup :: es.drop (tailFrom s) := hN ▸ newEntries_eq hs'
  have hlenT : (es.take s.idx).length = s.idx := by rw [List.length_take]; omega
  -- the plan
  have hplan := buildPlan_spec hs
  simp only at hplan
  rw [← hes, ← hN] at hplan htwo
  obtain ⟨p, hp⟩ : ∃ p, p = greedy (N.map wt).sum 0 (N.map wt) := ⟨_, rfl⟩
  rw [← hp] at hplan
  have hmem : ∀ e ∈ N, 2 * wt e ≤ ps - 37 := by
    intro e he
    refine (hsmall e ?_).wt
    rw [hNe] at he
    rcases List.mem_append.1 he with h | h
    · rw [← hes]; exact List.mem_cons_of_mem _ (List.mem_of_mem_take h)
    · rcases List.mem_cons.1 h with rfl | h
      · exact List.mem_cons_self
      · rw [← hes]; exact List.mem_cons_of_mem _ (List.mem_of_mem_drop h)
  have hsumle : (N.map wt).sum ≤ wts es + wt s.tup := by
    have h1 : (N.map wt).sum = wts (es.take s.idx) + (wt s.tup + wts (es.drop (tailFrom s))) := by
      rw [hNe]; simp [wts]
    have h2 : wts es = wts (es.take s.idx) + wts (es.drop s.idx) := by rw [← wts_append, List.take_append_drop]
    have h3 : wts (es.drop (tailFrom s)) ≤ wts (es.drop s.idx) := by
      unfold tailFrom
      split
      · have : es.drop s.idx = (es.drop s.idx).take 1 ++ es.drop (s.idx + 1) := by
          conv => lhs; rw [← List.take_append_drop 1 (es.drop s.idx), List.drop_drop]
        rw [this, wts_append]; omega
      · exact Nat.le_refl _
    omega
  have htup := (hsmall s.tup List.mem_cons_self).wt
  rw [← hes] at hfit
  obtain ⟨b1, b2, b3, b4⟩ := greedy_bounds (H := ps - 37) (xs := N.map wt)
    (by
      intro x hx
      obtain ⟨e, he, rfl⟩ := List.mem_map.1 hx
      exact ⟨wt_pos e, hmem e he⟩)
    (by omega) (by rw [List.length_map]; exact htwo)
  rw [← hp] at b1 b2 b3 b4
  rw [List.length_map] at b2
  rw [← List.map_take] at b3
  rw [← List.map_drop] at b4
  have b3 : wts (N.take p) + 37 ≤ ps := by unfold wts; omega
  have b4 : wts (N.drop p) + 37 ≤ ps := by unfold wts; omega
  have hlne : N.take p ≠ [] := by
    intro h
    have := congrArg List.length h
    rw [List.length_take, List.length_nil] at this
    omega
  have hhead : (N.drop p).head? = some N[p] := by
    rw [List.head?_drop, List.getElem?_eq_getElem b2]
  -- the fresh right page
  obtain ⟨r1, hr1⟩ : ∃ r1, r1 = reset ps (wrN (bumpGen (wr r0 0 (rd m 0 37))) 0 8 la) := ⟨_, rfl⟩
  obtain ⟨q1, q2, q3, q4⟩ := reset_spec leafFmt (wrN (bumpGen (wr r0 0 (rd m 0 37))) 0 8 la) h37 hps
  have q5 := reset_packed (wrN (bumpGen (wr r0 0 (rd m 0 37))) 0 8 la) h37 hps
  rw [← hr1] at q1 q2 q3 q4 q5
  have hhdr : ∀ i, (8 ≤ i ∧ i < 24) ∨ i = 32 → r1 i = m i := by
    intro i hi
    rw [q4 i (by omega), wrN_out (by omega), bumpGen_out (by omega), wr_in (by omega) (by rw [rd_length]; omega)]
    simp [rd]
    rw [List.getElem?_range (by omega)]; rfl
  have hprev : prevAddr r1 = la := by
    unfold prevAddr
    rw [rdN_congr (m := wrN (bumpGen (wr r0 0 (rd m 0 37))) 0 8 la) (fun i _ _ => q4 i (by omega)), rdN_wrN,
      Nat.mod_eq_of_lt (by simpa using hla)]
  have hright : ∀ r, SameHdr r1 r → prevAddr r = la ∧ nextAddr r = nextAddr m ∧ height r = height m := by
    intro r h
    refine ⟨?_, ?_, ?_⟩
    · rw [← hprev]; exact rdN_congr (fun i _ _ => h i (by omega))
    · exact rdN_congr (fun i _ _ => (h i (by omega)).trans (hhdr i (by omega)))
    · exact (h 32 (by omega)).trans (hhdr 32 (by omega))
  -- the truncated left page
  obtain ⟨t0, t1, _, t3⟩ := wf_congr (m' := wrN m 8 8 ra) w (fun i hi => wrN_out (by omega))
  have hleftpage : ∀ q, q ≤ numEntries m → ∃ l1, bumpGen (truncate ps (wrN m 8 8 ra) q) = l1 ∧ WF leafFmt ps l1 ∧
      entries leafFmt l1 = es.take q ∧
      ∀ l, SameHdr l1 l → prevAddr l = prevAddr m ∧ nextAddr l = ra ∧ height l = height m := by
    intro q hq
    obtain ⟨u1, u2, u3⟩ := truncate_spec (n := q) t0 (by rw [t3]; exact hq)
    obtain ⟨v1, v2, _⟩ := wf_congr (m' := bumpGen (truncate ps (wrN m 8 8 ra) q)) u1 (fun i hi => bumpGen_out (by omega))
    refine ⟨_, rfl, v1, by rw [v2, u2, t1, hes], fun l hl => ?_⟩
    have hb : ∀ i, i < 24 ∨ i = 32 → l i = wrN m 8 8 ra i := by
      intro i hi
      rw [hl i hi, bumpGen_out (by omega), u3 i (by omega)]
    refine ⟨?_, ?_, ?_⟩
    · exact rdN_congr (fun i _ _ => (hb i (by omega)).trans (wrN_out (by omega)))
    · unfold nextAddr
      rw [rdN_congr (m := wrN m 8 8 ra) (fun i _ _ => hb i (by omega)), rdN_wrN, Nat.mod_eq_of_lt (by simpa using hra)]
    · exact (hb 32 (by omega)).trans (wrN_out (by omega))
  unfold splitLeaf
  simp only
  rw [hplan]
  by_cases hside : s.idx < p
  · -- the tuple goes to the left page
    have hd : decide (s.idx < p) = true := by simpa using hside
    obtain ⟨q, hq⟩ : ∃ q, q = if s.idx < p ∧ s.old ≠ .stillExists then p - 1 else p := ⟨_, rfl⟩
    rw [hd, ← hq]
    have hqt : q = tailFrom s + (p - s.idx - 1) := by
      rw [hq]; unfold tailFrom
      by_cases ho : s.old = .stillExists
      · rw [if_neg (by simp [ho]), if_pos ho]; omega
      · rw [if_pos ⟨hside, ho⟩, if_neg ho]; omega
    have hdropN : N.drop p = es.drop q := by
      rw [hNe, List.drop_append, hlenT, List.drop_eq_nil_of_le (by omega), List.nil_append,
        show p - s.idx = (p - s.idx - 1) + 1 by omega, List.drop_succ_cons, List.drop_drop, hqt]
    have hqlen : q < es.length := by
      have : (N.drop p).length = (es.drop q).length := by rw [hdropN]
      rw [List.length_drop, List.length_drop] at this
      omega
    have hsq : SpecOk (es.take q) s := by
      refine ⟨hs.1, ?_⟩
      rw [List.length_take]
      unfold tailFrom at hqt
      rcases hs'.2 with ⟨a, b⟩ | ⟨a, b⟩
      · rw [if_pos a] at hqt; exact .inl ⟨a, by omega⟩
      · rw [if_neg (by simp [a])] at hqt; exact .inr ⟨a, by omega⟩
    have htakeN : newEntries (es.take q) s = N.take p := by
      rw [newEntries_eq hsq, hNe, List.take_append, hlenT, List.take_of_length_le (l := es.take s.idx) (by omega),
        show p - s.idx = (p - s.idx - 1) + 1 by omega, List.take_succ_cons, List.take_take, List.drop_take]
      have h1 : s.idx ≤ tailFrom s := by unfold tailFrom; split <;> omega
      rw [show min s.idx q = s.idx by omega, show q - tailFrom s = p - s.idx - 1 by omega]
    -- right page
    have hk : keep s.idx s.old es q = es.drop q := by
      unfold keep
      refine if_neg (fun h => ?_)
      unfold tailFrom at hqt
      rw [if_pos h.1] at hqt
      omega
    have hx : s.old = .stillExists → s.idx < numEntries m := by
      intro ho
      rcases hs'.2 with ⟨h1, h2⟩ | ⟨h1, h2⟩
      · omega
      · rw [ho] at h1; cases h1
    obtain ⟨r, c1, c2, c3, c4, c5⟩ := copyFrom_spec (src := m) (idx := s.idx) q 0 s.old r1 (by omega) q1 q5
      (by rw [← entries_length leafFmt, q2]; rfl) hx (by rw [q2, ← hes, hk, wts_nil, ← hdropN]; omega)
    rw [q2, List.nil_append, ← hes, hk] at c4
    have hold : (if s.old = .stillExists ∧ q ≤ s.idx then Old.removed else s.old) = s.old := by
      refine if_neg (fun h => ?_)
      unfold tailFrom at hqt
      rw [if_pos h.1] at hqt
      omega
    rw [hold] at c1
    have hbr : buildRight ps m la s (q, true) r0 = some (r, s) := by
      unfold buildRight
      simp only
      rw [← hr1, c1]
      rfl
    rw [hbr]
    simp only
    obtain ⟨l1, e1, e2, e3, e4⟩ := hleftpage q (by omega)
    have hl1n : numEntries l1 = q := by rw [← entries_length leafFmt, e3, List.length_take]; omega
    -- performing the spec on the left page, after a defragmentation if needed
    have hleft : ∃ l2 s2, cleanupLeft ps m s (q, true) ra = some (l2, s2) ∧ ∃ l, tryPerform l2 s2 = some (l, true) ∧
        WF leafFmt ps l ∧ entries leafFmt l = N.take p ∧ SameHdr l1 l := by
      unfold cleanupLeft
      simp only
      rw [e1]
      by_cases hc : canPerform l1 s = true
      · rw [if_neg (by simp [hc])]
        obtain ⟨l, x1, x2, x3, x4⟩ := tryPerform_spec e2 hs.1 (by have := hsq.idx_le; rw [← e3, entries_length] at this; exact this)
          (by
            intro ho
            rcases hsq.2 with ⟨h1, h2⟩ | ⟨h1, h2⟩
            · rw [← e3, entries_length] at h2; exact h2
            · rw [ho] at h1; cases h1) hc
        exact ⟨l1, s, rfl, l, x1, x2, by rw [x3, e3, htakeN], x4⟩
      · rw [if_pos ⟨trivial, by simpa using hc⟩]
        obtain ⟨z1, z2, z3, z4⟩ := reset_spec leafFmt l1 h37 hps
        obtain ⟨l2, x1, l, x2, x3, x4, x5⟩ := refill_spec (ps := ps) (src := l1) (r := reset ps l1) (s := s) (i := 0)
          (by rw [e3]; exact hsq) (Nat.zero_le _) z1 (reset_packed l1 h37 hps) z2
          (by rw [e3, htakeN, List.drop_zero]; exact b3)
        refine ⟨l2, skipped s 0, ?_, l, x2, x3, by rw [x4, e3, htakeN, List.drop_zero], fun x hx => (x5 x hx).trans (z4 x (by omega))⟩
        unfold defragment
        rw [x1]
        unfold skipped
        simp
    obtain ⟨l2, s2, y1, l, y2, y3, y4, y5⟩ := hleft
    rw [y1]
    simp only
    rw [y2]
    refine ⟨l, r, _, rfl, y3, c2, ?_, ?_, ?_, ?_⟩
    · rw [y4, c4, ← hdropN, List.take_append_drop, hN, hes]
    · rw [y4]; exact hlne
    · rw [c4, ← hdropN]
      refine ⟨_, hhead, .inl ?_⟩
      unfold splittingPivot
      rw [if_neg (by simp)]
      have h1 : (es.drop q).head? = some es[q] := by rw [List.head?_drop, List.getElem?_eq_getElem hqlen]
      rw [← hdropN, hhead] at h1
      injection h1 with h1
      rw [h1]
      simp only [hes]
      rw [entries_getElem]
    · obtain ⟨a1, a2, a3⟩ := e4 l y5
      obtain ⟨a4, a5, a6⟩ := hright r (fun i hi => c5 i (by omega))
      exact ⟨a1, a2, a4, a5, a3, a6⟩
  · -- the tuple goes to the right page
    have hd : decide (s.idx < p) = false := by simpa using hside
    rw [if_neg (fun h => hside h.1), hd]
    have hpi : p ≤ s.idx := by omega
    obtain ⟨r', x1, r, x2, x3, x4, x5⟩ := refill_spec (ps := ps) (src := m) (r := r1) (s := s) (i := p) hs hpi q1 q5 q2
      (by rw [← hes, ← hN]; exact b4)
    have hbr : buildRight ps m la s (p, false) r0 = some (r, skipped s p) := by
      unfold buildRight
      simp only
      rw [← hr1, x1]
      simp only
      have : ({ idx := s.idx - p, old := (skipped s p).old, tup := s.tup } : Spec) = skipped s p := rfl
      rw [this, x2]
      simp
    rw [hbr]
    simp only
    obtain ⟨l1, e1, e2, e3, e4⟩ := hleftpage p (by omega)
    have hcl : cleanupLeft ps m (skipped s p) (p, false) ra = some (l1, skipped s p) := by
      unfold cleanupLeft
      simp only
      rw [e1]
      simp
    rw [hcl]
    simp only
    have htakeN : es.take p = N.take p := by
      rw [hNe, List.take_append_of_le_length (by omega), List.take_take]
      congr 1; omega
    refine ⟨l1, r, _, by simp; rfl, e2, x3, ?_, ?_, ?_, ?_⟩
    · rw [e3, x4, htakeN, ← hes, ← hN, List.take_append_drop]
    · rw [e3, htakeN]; exact hlne
    · rw [x4, ← hes, ← hN]
      refine ⟨_, hhead, ?_⟩
      unfold splittingPivot
      simp only
      by_cases hpe : p = s.idx
      · have htup : N[p] = s.tup := by
          have : N[p]? = some s.tup := by
            rw [hNe, List.getElem?_append_right (by omega), hlenT, hpe]; simp
          rw [List.getElem?_eq_getElem b2] at this
          injection this
        by_cases ho : s.old = .stillExists
        · rw [if_neg (by simp [ho])]
          right
          have hlt : s.idx < es.length := by
            rcases hs'.2 with ⟨h1, h2⟩ | ⟨h1, h2⟩
            · exact h2
            · rw [ho] at h1; cases h1
          refine ⟨ho, htup, es[s.idx], List.getElem?_eq_getElem hlt, ?_⟩
          simp only [hes, hpe]
          rw [entries_getElem]
        · rw [if_pos ⟨hpe, ho, trivial⟩]
          left; rw [htup]
      · rw [if_neg (fun h => hpe h.1)]
        left
        have hlt : p < es.length := by omega
        have : N[p]? = some es[p] := by
          rw [hNe, List.getElem?_append_left (by omega), List.getElem?_take, if_pos (by omega), List.getElem?_eq_getElem hlt]
        rw [List.getElem?_eq_getElem b2] at this
        injection this with this
        rw [this]
        simp only [hes]
        rw [entries_getElem]
    · obtain ⟨a1, a2, a3⟩ := e4 l1 (fun _ _ => rfl)
      obtain ⟨a4, a5, a6⟩ := hright r x5
      exact ⟨a1, a2, a4, a5, a3, a6⟩

/-- The same keys as far as an order is concerned. -/
def SameRank (lt : Bytes → Bytes → Prop) (a b : Bytes) : Prop := ∀ x, lt x a ↔ lt x b

/-- C11, keys: if the tuples are in increasing order of their keys, every key of the left page is
below the key given to the parent and no key of the right page is. The order is any strict order; a
replaced tuple has the same rank as the one it replaces. -/
theorem splitLeaf_separates {ps : Nat} {m r0 l r : Mem} {s : Spec} {la ra : Nat} {piv : Bytes}
    {lt : Bytes → Bytes → Prop} (irrefl : ∀ a, ¬ lt a a) (asymm : ∀ a b, lt a b → ¬ lt b a) (w : WF leafFmt ps m)
    (hs : SpecOk (entries leafFmt m) s) (hsmall : ∀ e ∈ s.tup :: entries leafFmt m, HalfPage ps e)
    (htwo : 2 ≤ (newEntries (entries leafFmt m) s).length) (hla : la < 2 ^ 64) (hra : ra < 2 ^ 64)
    (hsame : s.old = .stillExists → ∀ o, (entries leafFmt m)[s.idx]? = some o → SameRank lt o.key s.tup.key)
    (hsort : (newEntries (entries leafFmt m) s).Pairwise (fun a b => lt a.key b.key))
    (h : splitLeaf ps m r0 s la ra = some (l, r, piv)) :
    (∀ e ∈ entries leafFmt l, lt e.key piv) ∧ (∀ e ∈ entries leafFmt r, ¬ lt e.key piv) := by
  obtain ⟨l', r', piv', e1, _, _, e2, _, ⟨e, e3, e4⟩, _⟩ := splitLeaf_spec (r0 := r0) w hs hsmall htwo hla hra
  rw [h] at e1
  simp only [Option.some.injEq, Prod.mk.injEq] at e1
  obtain ⟨rfl, rfl, rfl⟩ := e1
  obtain ⟨t, ht⟩ : ∃ t, entries leafFmt r = e :: t := by
    cases hr : entries leafFmt r with
    | nil => rw [hr] at e3; cases e3
    | cons a t => rw [hr] at e3; injection e3 with e3; exact ⟨t, by rw [e3]⟩
  rw [← e2, ht, List.pairwise_append] at hsort
  obtain ⟨_, p2, p3⟩ := hsort
  rw [List.pairwise_cons] at p2
  have hrank : ∀ x, lt x piv ↔ lt x e.key := by
    rcases e4 with rfl | ⟨h1, rfl, o, h2, rfl⟩
    · exact fun _ => Iff.rfl
    · exact hsame h1 o h2
  refine ⟨fun x hx => (hrank _).2 (p3 x hx e List.mem_cons_self), fun x hx => ?_⟩
  rw [hrank]
  rw [ht] at hx
  rcases List.mem_cons.1 hx with rfl | hx
  · exact irrefl _
  · exact asymm _ _ (p2.1 x hx)

/-- Tuples within the inline limits (`MAX_INLINE_KEY_SIZE`, `MAX_INLINE_MESSAGE_SIZE`, btree.h:73-74). -/
def Inline (ps : Nat) (e : Tuple) : Prop := e.key.length ≤ ps / 8 ∧ e.data.length ≤ 35 * ps / 100

theorem Inline.half {ps : Nat} {e : Tuple} (h : Inline ps e) (hp : 2048 ≤ ps) : HalfPage ps e := by
  obtain ⟨h1, h2⟩ := h
  unfold HalfPage
  omega

/-- What `btree_defragment_or_split_child_leaf` leaves: one page with the new tuples, or two
non-empty ones and their separator. -/
def LeafDone (ps : Nat) (m : Mem) (s : Spec) : LeafResult → Prop
  | .one m' => WF leafFmt ps m' ∧ entries leafFmt m' = newEntries (entries leafFmt m) s ∧
      prevAddr m' = prevAddr m ∧ nextAddr m' = nextAddr m ∧ height m' = height m
  | .two l r piv => WF leafFmt ps l ∧ WF leafFmt ps r ∧
      entries leafFmt l ++ entries leafFmt r = newEntries (entries leafFmt m) s ∧ entries leafFmt l ≠ [] ∧
      (∃ e, (entries leafFmt r).head? = some e ∧
        (piv = e.key ∨ (s.old = .stillExists ∧ e = s.tup ∧ ∃ o, (entries leafFmt m)[s.idx]? = some o ∧ piv = o.key)))

theorem caps_le_wts (l : List Tuple) : 6 * l.length ≤ (l.map leafFmt.cap).sum := by
  induction l with
  | nil => exact Nat.le_refl _
  | cons e l ih =>
    have : 6 ≤ leafFmt.cap e := by unfold leafFmt; simp only; omega
    simp only [List.length_cons, List.map_cons, List.sum_cons]; omega

/-- The bytes counted before deciding between defragmenting and splitting. -/
theorem live_new {m : Mem} {s : Spec} (hs : SpecOk (entries leafFmt m) s) :
    liveBytes m s (numEntries m) + leafFmt.cap s.tup = ((newEntries (entries leafFmt m) s).map leafFmt.cap).sum := by
  have h1 := liveBytes_eq m s (numEntries m) (Nat.le_refl _)
  have h2 : (entries leafFmt m).take (numEntries m) = entries leafFmt m := by
    rw [List.take_of_length_le]; rw [entries_length]
  rw [h2] at h1
  have h3 := wts_keep hs (Nat.zero_le _)
  rw [List.drop_zero] at h3
  have h4 := newEntries_eq hs
  have h5 : wts (newEntries (entries leafFmt m) s) =
      wts ((entries leafFmt m).take s.idx) + (wt s.tup + wts ((entries leafFmt m).drop (tailFrom s))) := by
    rw [h4, wts_append, wts_cons]
  have h6 : wts (entries leafFmt m) = wts ((entries leafFmt m).take s.idx) + wts ((entries leafFmt m).drop s.idx) := by
    rw [← wts_append, List.take_append_drop]
  have h7 := wts_le_add (l := newEntries (entries leafFmt m) s)
  have h8 : (newEntries (entries leafFmt m) s).length = numEntries m + (if s.old = .stillExists then 0 else 1) := by
    unfold newEntries
    rcases hs.2 with ⟨a, b⟩ | ⟨a, b⟩
    · rw [if_pos a, if_pos a, List.length_set, entries_length]; rfl
    · rw [if_neg (by simp [a]), if_neg (by simp [a]), List.length_insertIdx, if_pos b, entries_length]
  rcases hs.2 with ⟨a, b⟩ | ⟨a, b⟩
  · have h9 : (entries leafFmt m).drop s.idx = entry leafFmt m s.idx :: (entries leafFmt m).drop (s.idx + 1) := by
      rw [List.drop_eq_getElem_cons b, entries_getElem]
    rw [entries_length] at b
    rw [h9, wts_cons] at h6
    unfold tailFrom at h5
    simp only [a, b, and_self, if_true] at h1 h5 h8
    have : wt s.tup = leafFmt.cap s.tup + 2 := rfl
    omega
  · have hn : s.old ≠ .stillExists := by simp [a]
    unfold tailFrom at h5
    simp only [hn, false_and, if_false] at h1 h5 h8
    have : wt s.tup = leafFmt.cap s.tup + 2 := rfl
    omega

theorem spaceRequired_le (m : Mem) (s : Spec) :
    spaceRequired m s ≤ liveBytes m s (numEntries m) + leafFmt.cap s.tup + 23 := by
  unfold spaceRequired
  simp only
  have hone : ∀ (c : Prop) [Decidable c], (if c then 0 else 1) * 23 ≤ 23 := by
    intro c _; split <;> omega
  exact Nat.add_le_add_left (hone _) _

/-- C11 for `btree_defragment_or_split_child_leaf`: for tuples within the inline limits, whichever
way is taken, no assertion fails and the tuples are those of the leaf with the new one in place;
a split gives two non-empty pages. The misplaced parentheses in `total_space_required` do no harm. -/
theorem defragmentOrSplit_spec {ps : Nat} {m r0 : Mem} {s : Spec} {la ra : Nat} (hp : 2048 ≤ ps) (w : WF leafFmt ps m)
    (hs : SpecOk (entries leafFmt m) s) (hin : ∀ e ∈ s.tup :: entries leafFmt m, Inline ps e)
    (hla : la < 2 ^ 64) (hra : ra < 2 ^ 64) :
    ∃ res, defragmentOrSplit ps m r0 s la ra = some res ∧ LeafDone ps m s res := by
  have hlive := live_new hs
  have hcaps := caps_le_wts (newEntries (entries leafFmt m) s)
  unfold defragmentOrSplit
  by_cases hc : spaceRequired m s < ps / 2
  · rw [if_pos hc]
    have hw : wts (newEntries (entries leafFmt m) s) + 37 ≤ ps := by
      rw [wts_le_add]
      unfold spaceRequired at hc
      simp only at hc
      omega
    have h37 : 37 ≤ ps := by omega
    obtain ⟨z1, z2, z3, z4⟩ := reset_spec leafFmt m h37 w.small
    obtain ⟨l2, x1, l, x2, x3, x4, x5⟩ := refill_spec (ps := ps) (src := m) (r := reset ps m) (s := s) (i := 0)
      hs (Nat.zero_le _) z1 (reset_packed m h37 w.small) z2 (by rw [List.drop_zero]; exact hw)
    have hd : defragment ps m s = some (l2, skipped s 0) := by
      unfold defragment
      rw [x1]
      unfold skipped
      simp
    rw [hd]
    simp only
    rw [x2]
    have hh : ∀ i, i < 24 ∨ i = 32 → l i = m i := fun i hi => (x5 i hi).trans (z4 i (by omega))
    exact ⟨.one l, rfl, x3, by rw [x4, List.drop_zero], rdN_congr (fun i _ _ => hh i (by omega)),
      rdN_congr (fun i _ _ => hh i (by omega)), hh 32 (by omega)⟩
  · rw [if_neg hc]
    have htwo : 2 ≤ (newEntries (entries leafFmt m) s).length := by
      have hmem : s.tup ∈ newEntries (entries leafFmt m) s := by rw [newEntries_eq hs]; simp
      obtain ⟨k1, k2⟩ := hin s.tup List.mem_cons_self
      match hl : newEntries (entries leafFmt m) s, hmem with
      | [x], hmem =>
        exfalso
        have hx : s.tup = x := by simpa using hmem
        rw [hl, ← hx] at hlive
        simp only [List.map_cons, List.map_nil, List.sum_cons, List.sum_nil, Nat.add_zero] at hlive
        have hcap : leafFmt.cap s.tup = 6 + s.tup.key.length + s.tup.data.length := rfl
        have := spaceRequired_le m s
        omega
      | x :: y :: t, _ => simp
    obtain ⟨l, r, piv, h1, h2, h3, h4, h5, h6, _⟩ := splitLeaf_spec (r0 := r0) w hs (fun e he => (hin e he).half hp) htwo hla hra
    rw [h1]
    exact ⟨.two l r piv, rfl, h2, h3, h4, h5, h6⟩

/-! ### Instances -/

/-- A leaf of 200 bytes with three tuples. -/
def smallLeaf : Option Mem := do
  let (m, _) ← insertLeaf (reset 200 (fun _ => 0)) 0 ⟨[20], 1, List.replicate 30 7⟩
  let (m, _) ← insertLeaf m 0 ⟨[10], 1, List.replicate 30 8⟩
  let (m, _) ← insertLeaf m 2 ⟨[30], 1, List.replicate 30 9⟩
  some m

/-- Splitting it for a new tuple and for a larger replacement, on either side. -/
example : (smallLeaf.bind (fun m => splitLeaf 200 m (fun _ => 1) ⟨3, .didNotExist, ⟨[40], 1, List.replicate 40 1⟩⟩ 4096 8192)).map
    (fun x => ((entries leafFmt x.1).map (·.key), (entries leafFmt x.2.1).map (·.key), x.2.2, nextAddr x.1, prevAddr x.2.1)) =
    some ([[10], [20]], [[30], [40]], [30], 8192, 4096) := by decide +kernel
example : (smallLeaf.bind (fun m => splitLeaf 200 m (fun _ => 1) ⟨0, .stillExists, ⟨[10], 1, List.replicate 60 1⟩⟩ 4096 8192)).map
    (fun x => ((entries leafFmt x.1).map (·.key), (entries leafFmt x.2.1).map (·.key), x.2.2)) =
    some ([[10]], [[20], [30]], [20]) := by decide +kernel

/-- The hypotheses of `splitLeaf_spec` hold for it. -/
example : ∃ m, smallLeaf = some m ∧ WF leafFmt 200 m ∧
    SpecOk (entries leafFmt m) ⟨3, .didNotExist, ⟨[40], 1, List.replicate 40 1⟩⟩ ∧
    (∀ e ∈ (⟨[40], 1, List.replicate 40 1⟩ : Tuple) :: entries leafFmt m, HalfPage 200 e) := by
  have ok : ∀ k v : UInt8, TupleOk ⟨[k], 1, List.replicate 30 v⟩ := fun k v => ⟨by simp, by simp, by simp⟩
  obtain ⟨w0, e0, _, _⟩ := reset_spec leafFmt (ps := 200) (fun _ => 0) (by decide) (by decide)
  obtain ⟨⟨m1, h1⟩, c1⟩ := insertLeaf_spec (k := 0) w0 (Nat.zero_le _) (ok 20 7)
  have hs : ∃ m, smallLeaf = some m := Option.isSome_iff_exists.1 (by decide +kernel)
  rcases h1 with ⟨h1, _⟩ | ⟨h1, w1, e1, _⟩
  · exact absurd (c1.1 (by decide +kernel)) (by rw [h1]; simp)
  rw [e0] at e1
  have n1 : numEntries m1 = 1 := by rw [← entries_length leafFmt, e1]; rfl
  obtain ⟨⟨m2, h2⟩, c2⟩ := insertLeaf_spec (k := 0) w1 (Nat.zero_le _) (ok 10 8)
  have f1 : smallLeaf = (do
      let (m, _) ← insertLeaf m1 0 ⟨[10], 1, List.replicate 30 8⟩
      let (m, _) ← insertLeaf m 2 ⟨[30], 1, List.replicate 30 9⟩
      some m) := by unfold smallLeaf; rw [h1]; rfl
  have l1 : (smallLeaf.map (fun m => (entries leafFmt m).length)) = some 3 := by decide +kernel
  rcases h2 with ⟨h2, rfl⟩ | ⟨h2, w2, e2, _⟩
  · exfalso
    rw [f1, h2] at l1
    obtain ⟨⟨m3, h3⟩, _⟩ := insertLeaf_spec (k := 1) w1 (by omega) (ok 30 9)
    have hbad : insertLeaf m2 2 ⟨[30], 1, List.replicate 30 9⟩ ≠ none := by
      unfold insertLeaf
      obtain ⟨⟨m4, h4⟩, _⟩ := setLeaf_spec (k := numEntries m2) w1 (Nat.le_refl _) (ok 30 9)
      rcases h4 with ⟨h4, _⟩ | ⟨h4, _⟩ <;> rw [h4] <;> simp
    have hn : smallLeaf.map numEntries = some 3 := by decide +kernel
    rw [f1, h2] at hn
    have c2' : canSetLeaf m2 (numEntries m2) ⟨[10], 1, List.replicate 30 8⟩ = true := by
      have : (insertLeaf (reset 200 (fun _ => 0)) 0 ⟨[20], 1, List.replicate 30 7⟩).map
          (fun x => canSetLeaf x.1 (numEntries x.1) ⟨[10], 1, List.replicate 30 8⟩) = some true := by decide +kernel
      rw [h1] at this
      simpa using this
    exact absurd (c2.1 c2') (by rw [h2]; simp)
  · rw [e1] at e2
    have n2 : numEntries m2 = 2 := by rw [← entries_length leafFmt, e2]; rfl
    obtain ⟨⟨m3, h3⟩, _⟩ := insertLeaf_spec (k := 2) w2 (by omega) (ok 30 9)
    have f2 : smallLeaf = (do
        let (m, _) ← insertLeaf m2 2 ⟨[30], 1, List.replicate 30 9⟩
        some m) := by rw [f1, h2]; rfl
    rcases h3 with ⟨h3, rfl⟩ | ⟨h3, w3, e3, _⟩
    · exfalso
      rw [f2, h3] at l1
      simp [entries_length, n2] at l1
    · refine ⟨m3, by rw [f2, h3]; rfl, w3, ⟨⟨by simp, by simp, by simp⟩, .inr ⟨rfl, ?_⟩⟩, ?_⟩
      · rw [e3, e2]; simp
      · rw [e3, e2]
        intro e he
        simp at he
        unfold HalfPage
        rcases he with rfl | rfl | rfl | rfl <;> simp

/-- Orders meeting the hypotheses of `splitLeaf_separates` exist: the byte order. -/
example : (∀ a : Bytes, ¬ a < a) ∧ (∀ a b : Bytes, a < b → ¬ b < a) :=
  ⟨fun a => List.lt_irrefl a, fun _ _ h => List.lt_asymm h⟩

/-- The limits of `defragmentOrSplit_spec` at the default page size. -/
example : Inline 4096 ⟨List.replicate 512 0, 1, List.replicate 1433 0⟩ := by
  unfold Inline; rw [List.length_replicate, List.length_replicate]; decide

end Splinter.Page
