import Verif.Proof.BtreeInsert5
/-!
`btree_split_child_index` and `btree_split_child_leaf`.
-/
namespace Splinter.BtreeIns
open Btree Search

variable {K M : Type} [LinearOrder K] [BoundedOrder K]

omit [LinearOrder K] [BoundedOrder K] in
theorem addPivot_spec {st st' : Store K M} {p i : Nat} {piv : K} {new : Nat} {E1 E2 : List (K × Nat)}
    {b : K} {c g : Nat} (hp : Page st (g + 1) p) (ek : kids st p = E1 ++ (b, c) :: E2) (hi : E1.length = i)
    (he : addPivot st p i piv new = some st') :
    (∀ x, x ≠ p → st' x = st x) ∧ Page st' (g + 1) p ∧ kids st' p = E1 ++ (b, c) :: (piv, new) :: E2 ∧
      ((st' p).map fun n => (n.prev, n.next)) = (st p).map fun n => (n.prev, n.next) := by
  obtain ⟨n, es, e1, e2, e3, e4, e5, e6, _⟩ := hp.index (by omega)
  simp only [addPivot, e5, Option.some.injEq] at he
  rw [ek] at e6
  obtain ⟨es1, es2, rfl, h1, h2⟩ := List.map_eq_append_iff.1 e6.symm
  obtain ⟨x, es3, rfl, h3, h4⟩ := List.map_eq_cons_iff.1 h2
  have hins : (es1 ++ x :: es3).insertIdx (i + 1) (⟨piv, new, unknown⟩ : Entry K) =
      es1 ++ x :: ⟨piv, new, unknown⟩ :: es3 := by
    have := insertIdx_mid (⟨piv, new, unknown⟩ : Entry K) es3 (es1 ++ [x]) (i + 1) (by
      rw [← hi, ← h1]; simp)
    simpa using this
  rw [hins] at he
  have hself : st' p = some { n with body := .index (es1 ++ x :: ⟨piv, new, unknown⟩ :: es3) } := by
    rw [← he]; exact putBody_self e1
  refine ⟨fun y hy => by rw [← he]; exact putBody_ne hy,
    ⟨_, hself, e2, .inr ⟨by omega, _, rfl, by simp⟩⟩, ?_, by rw [hself, e1]; rfl⟩
  simp only [kids, entsOf_eq hself rfl, Option.getD_some, List.map_append, List.map_cons, h1, h3, h4]

/-- Searching on after a split. -/
theorem At.split_left {lv : Nat → List (K × Nat)} {h : Nat} {k b piv : K} {c new : Nat} {A B : List (K × Nat)}
    (hnd : ((lv h).map (·.2)).Nodup) (e : lv h = A ++ (b, c) :: B) (h1 : At lv h k b c) :
    (k < piv → At (upd lv h (A ++ (b, c) :: (piv, new) :: B)) h k b c) ∧
    (piv ≤ k → At (upd lv h (A ++ (b, c) :: (piv, new) :: B)) h k piv new) := by
  obtain ⟨A', B', q1, q2, q3⟩ := h1
  rw [e] at hnd
  obtain ⟨_, rfl, rfl⟩ := split_same hnd (q1.symm.trans e) rfl
  constructor
  · intro hk
    refine ⟨A', (piv, new) :: B', upd_self, q2, ?_⟩
    intro q hq
    rcases List.mem_cons.1 hq with rfl | hq
    · exact hk
    · exact q3 q hq
  · intro hk
    exact ⟨A' ++ [(b, c)], B', by rw [upd_self]; simp, fun _ => hk, q3⟩

/-- Other pages stay on the path of a key when a page is split. -/
theorem At.split_other {lv : Nat → List (K × Nat)} {g h : Nat} {k b b' piv : K} {c new a : Nat}
    {A B : List (K × Nat)} (hnd : ((lv h).map (·.2)).Nodup) (hs : (lv h).Pairwise fun x y => x.1 < y.1)
    (e : lv h = A ++ (b, c) :: B) (hb : b < piv) (hn : ∀ q ∈ B, piv < q.1) (ha : g = h → a ≠ c)
    (h1 : At lv g k b' a) : At (upd lv h (A ++ (b, c) :: (piv, new) :: B)) g k b' a := by
  by_cases hg : g = h
  · subst hg
    obtain ⟨A', B', q1, q2, q3⟩ := h1
    have := q1.symm.trans e
    rcases List.append_eq_append_iff.1 this with ⟨C, c1, c2⟩ | ⟨C, c1, c2⟩
    · cases C with
      | nil => simp at c2; exact absurd c2.1.2 (ha rfl)
      | cons z C =>
        simp only [List.cons_append, List.cons.injEq] at c2
        obtain ⟨rfl, rfl⟩ := c2
        refine ⟨A', C ++ (b, c) :: (piv, new) :: B, by rw [upd_self, c1]; simp, q2, ?_⟩
        intro q hq
        simp only [List.mem_append, List.mem_cons] at hq
        rcases hq with hq | rfl | rfl | hq
        · exact q3 q (by simp [hq])
        · exact q3 _ (by simp)
        · exact (q3 (b, c) (by simp)).trans hb
        · exact q3 q (by simp [hq])
    · cases C with
      | nil => simp at c2; exact absurd c2.1.2.symm (ha rfl)
      | cons z C =>
        simp only [List.cons_append, List.cons.injEq] at c2
        obtain ⟨rfl, rfl⟩ := c2
        refine ⟨A ++ (b, c) :: (piv, new) :: C, B', by rw [upd_self]; simp, fun _ => q2 (by rw [c1]; simp), q3⟩
  · obtain ⟨A', B', q1, q2, q3⟩ := h1
    exact ⟨A', B', by rw [upd_ne hg]; exact q1, q2, q3⟩

/-- `btree_split_child_index`. -/
theorem splitIndex_spec {st st' : Store K M} {root H h p c new i j split q j2 : Nat}
    {lv : Nat → List (K × Nat)} {pb b k : K} {PA PB E1 E2 : List (K × Nat)} (T : Whole st root H lv)
    (hh : h < H) (h0 : h ≠ 0) (ep : lv (h + 1) = PA ++ (pb, p) :: PB)
    (ek : kids st p = E1 ++ (b, c) :: E2) (hi : E1.length = i) (hat : At lv h k b c)
    (he : splitIndex st p i c split new j = some (st', q, j2)) :
    ∃ lv' piv, Whole st' root H lv' ∧ Ext root [p, c] st H lv st' H lv' ∧ items st' lv' = items st lv ∧
      0 < split ∧ ((kids st c)[split]?).map (·.1) = some piv ∧
      (j < split → q = c ∧ j2 = j ∧ kids st' q = (kids st c).take split ∧ (k < piv → At lv' h k b q)) ∧
      (split ≤ j → q = new ∧ j2 = j - split ∧ kids st' q = (kids st c).drop split ∧
        (piv ≤ k → At lv' h k piv q)) := by
  obtain ⟨S, L⟩ := T
  have hcm := S.mem hat
  have hpm : (pb, p) ∈ lv (h + 1) := by rw [ep]; simp
  obtain ⟨n, es, e1, e2, e3, e4, e5, e6, e7⟩ := (S.page h (by omega) _ hcm).index h0
  simp only at e1 e5 e6 e7
  have hpc : p ≠ c := by
    rintro rfl
    have := S.level (a := p) hh (by omega : h ≤ H) (List.mem_map.2 ⟨_, hpm, rfl⟩) (List.mem_map.2 ⟨_, hcm, rfl⟩)
    omega
  unfold splitIndex at he
  rw [e1, e5] at he
  simp only at he
  split at he
  · cases he
  · rename_i e hes
    split at he
    · rename_i hfr
      obtain ⟨hfr, hsp⟩ := hfr
      simp only [isFresh, Bool.and_eq_true, Option.isNone_iff_eq_none, bne_iff_ne, ne_eq] at hfr
      split at he
      · cases he
      · rename_i st1 hst1
        obtain ⟨a1, a2, a3, a4⟩ := addPivot_spec (S.page (h + 1) hh _ hpm) ek hi hst1
        simp only at a1 a2 a3
        have hnp : new ≠ p := by
          rintro rfl
          obtain ⟨x, hx, _⟩ := S.page (h + 1) hh _ hpm
          rw [hfr.1] at hx; cases hx
        have hnc : new ≠ c := by rintro rfl; rw [hfr.1] at e1; cases e1
        obtain ⟨st3, hst3⟩ : ∃ st3, st3 = putBody (setAt st1 new (some { n with body := .index (es.drop split) })) c
            (.index (es.take split)) := ⟨_, rfl⟩
        rw [← hst3] at he
        have hc3 : st3 c = some { n with body := .index (es.take split) } := by
          rw [hst3]; apply putBody_self
          simp [setAt, Ne.symm hnc, a1 c (Ne.symm hpc), e1]
        have hn3 : st3 new = some { n with body := .index (es.drop split) } := by
          rw [hst3, putBody_ne hnc]; simp [setAt]
        have hp3 : st3 p = st1 p := by
          rw [hst3, putBody_ne hpc]; simp [setAt, Ne.symm hnp]
        have ho3 : ∀ x, x ≠ p → x ≠ c → x ≠ new → st3 x = st x := by
          intro x x1 x2 x3
          rw [hst3, putBody_ne x2]; simp [setAt, x3, a1 x x1]
        have hcp : (st3 p).map core = (st1 p).map core := by rw [hp3]
        obtain ⟨k1, _, _, k4⟩ := same_kids hcp
        have hlt : split < es.length := by
          rw [List.getElem?_eq_some_iff] at hes; exact hes.1
        have hdn : es.drop split ≠ [] := by
          intro h'; rw [List.drop_eq_nil_iff] at h'; omega
        have htn : es.take split ≠ [] := by
          intro h'; rw [List.take_eq_nil_iff] at h'
          rcases h' with h' | h'
          · omega
          · exact e4 h'
        have hPc : Page st3 h c := ⟨_, hc3, e2, .inr ⟨by omega, _, rfl, htn⟩⟩
        have hPn : Page st3 h new := ⟨_, hn3, e2, .inr ⟨by omega, _, rfl, hdn⟩⟩
        have hkc : kids st3 c = (kids st c).take split := by
          rw [e6]; simp [kids, entsOf_eq hc3 rfl]
        have hkn : kids st3 new = (kids st c).drop split := by
          rw [e6]; simp [kids, entsOf_eq hn3 rfl]
        have hfn : firstKey st3 new = some e.key := by
          obtain ⟨_, es', _, _, _, _, g5, _, g7⟩ := hPn.index h0
          rw [entsOf_eq hn3 rfl] at g5
          cases g5
          rw [g7, List.head?_drop, hes]; rfl
        have hfc : firstKey st3 c = firstKey st c := by
          obtain ⟨_, es', _, _, _, _, g5, _, g7⟩ := hPc.index h0
          rw [entsOf_eq hc3 rfl] at g5
          cases g5
          rw [g7, e7, List.head?_take, if_neg (by omega)]
        obtain ⟨h', rfl⟩ : ∃ h', h = h' + 1 := ⟨h - 1, by omega⟩
        -- order of the separators below
        obtain ⟨A, hA⟩ : ∃ A, A = PA.flatMap (fun q => kids st q.2) ++ E1 := ⟨_, rfl⟩
        obtain ⟨B, hB⟩ : ∃ B, B = E2 ++ PB.flatMap (fun q => kids st q.2) := ⟨_, rfl⟩
        have hlow : lv (h' + 1) = A ++ (b, c) :: B := by
          rw [S.kids (h' + 1) hh, ep, List.flatMap_append, List.flatMap_cons, ek, hA, hB]; simp
        have hso := S.sorted h' (by omega)
        rw [S.kids h' (by omega), hlow, List.flatMap_append, List.flatMap_cons, List.pairwise_append,
          List.pairwise_append] at hso
        have hmem : (e.key, e.child) ∈ (kids st c).drop split := by
          rw [e6, ← List.map_drop]
          refine List.mem_map.2 ⟨e, List.mem_of_getElem? (l := es.drop split) (i := 0) ?_, rfl⟩
          rw [List.getElem?_drop]; simpa using hes
        have hbpiv : b < e.key := by
          cases es with
          | nil => exact absurd rfl e4
          | cons x es =>
            have hf := (S.first (h' + 1) (by omega) A (b, c) B hlow x.key (by simp only; rw [e7]; simp)).1
            have hp := hso.2.1.1
            rw [← List.take_append_drop split (kids st c), List.pairwise_append] at hp
            refine lt_of_le_of_lt hf (hp.2.2 (x.key, x.child) ?_ _ hmem)
            rw [e6, List.map_cons]
            obtain ⟨s', rfl⟩ : ∃ s', split = s' + 1 := ⟨split - 1, by omega⟩
            simp
        have hnext : ∀ q ∈ B, e.key < q.1 := by
          intro y hy
          obtain ⟨B1, B2, rfl⟩ := List.append_of_mem hy
          have hym : y ∈ lv (h' + 1) := by rw [hlow]; simp
          obtain ⟨_, ys, _, _, _, y4, _, y6, y7⟩ := (S.page (h' + 1) (by omega) y hym).index (by omega)
          cases ys with
          | nil => exact absurd rfl y4
          | cons z ys =>
            have hz := (S.first (h' + 1) (by omega) (A ++ (b, c) :: B1) y B2 (by rw [hlow]; simp) z.key
              (by rw [y7]; simp)).2 (by simp)
            rw [hz]
            exact hso.2.1.2.2 _ (List.mem_of_mem_drop hmem) (z.key, z.child)
              (List.mem_flatMap.2 ⟨y, hy, by rw [y6]; simp⟩)
        obtain ⟨A', B', r1, r2, r3, r4⟩ := S.split (st' := st3) (new := new) (piv := e.key) hh ep ek hfr.1 hfr.2
          (fun x x1 x2 x3 => by rw [ho3 x x1 x2 x3]) (k4 _ a2) (by rw [k1, a3]) hPc hPn
          (by
            intro f hf
            rw [hfc] at hf
            have := S.first (h' + 1) (by omega) A (b, c) B hlow f hf
            refine ⟨this.1, fun hor => this.2 ?_⟩
            rw [hA]
            rcases hor with h1 | h1
            · simp [h1]
            · intro h2
              obtain ⟨h2, _⟩ := List.append_eq_nil_iff.1 h2
              cases PA with
              | nil => exact h1 rfl
              | cons z PA =>
                obtain ⟨_, zs, _, _, _, z4, _, z6, _⟩ := (S.page (h' + 1 + 1) hh z (by rw [ep]; simp)).index (by omega)
                rw [List.flatMap_cons, List.append_eq_nil_iff, z6] at h2
                exact z4 (by simpa using h2.1))
          hfn hbpiv (by rw [← hB]; exact hnext)
          (fun _ => by rw [hkc, hkn, List.take_append_drop])
        rw [← hA] at r2
        rw [← hB] at r3
        subst r2 r3
        have hnd := S.nodup (h' + 1) (by omega)
        obtain ⟨sl, sr⟩ := hat.split_left (piv := e.key) (new := new) hnd hlow
        have hl00 : upd lv (h' + 1) (A' ++ (b, c) :: (e.key, new) :: B') 0 = lv 0 := upd_ne (by omega)
        have hleaf : ∀ x ∈ lv 0, st3 x.2 = st x.2 := by
          intro x hx
          refine ho3 x.2 (fun h1 => ?_) (fun h1 => ?_) (fun h1 => ?_)
          · have := S.level (a := p) (Nat.zero_le _) hh (h1 ▸ List.mem_map_of_mem hx) (List.mem_map.2 ⟨_, hpm, rfl⟩)
            omega
          · have := S.level (a := c) (Nat.zero_le _) (by omega : h' + 1 ≤ H) (h1 ▸ List.mem_map_of_mem hx)
              (List.mem_map.2 ⟨_, hcm, rfl⟩)
            omega
          · obtain ⟨y, hy, _⟩ := S.page 0 (Nat.zero_le _) x hx
            rw [h1, hfr.1] at hy; cases hy
        have hcont : ∀ x ∈ lv 0, cont st3 x.2 = cont st x.2 := fun x hx => by simp [cont, leafOf, hleaf x hx]
        have hst' : st' = st3 := by
          split at he <;> (simp only [Option.some.injEq, Prod.mk.injEq] at he; exact he.1.symm)
        refine ⟨upd lv (h' + 1) (A' ++ (b, c) :: (e.key, new) :: B'), e.key, ⟨by rw [hst']; exact r4, ?_⟩, ?_, ?_, hsp, ?_, ?_, ?_⟩
        · rw [hst', hl00]
          refine ⟨?_, ?_, ?_⟩
          · rw [flatMap_same hcont]; exact L.sorted
          · refine linked_congr (fun y hy => ?_) L.chain
            obtain ⟨x, hx, rfl⟩ := List.mem_map.1 hy
            rw [hleaf x hx]
          · intro hH x hx
            rw [hcont x hx]; exact L.ne hH x hx
        · rw [hst']
          refine ⟨?_, ?_, ?_, le_rfl, .inl rfl, by rw [hl00]; exact fun _ h => h,
            by rw [hl00]; exact fun _ h => .inl (List.mem_map_of_mem h)⟩
          · intro x hx hW
            simp only [List.mem_cons, List.not_mem_nil, or_false, not_or] at hW
            have hxn : x ≠ new := by rintro rfl; exact hx hfr.1
            have := same_kids (st := st) (st' := st3) (a := x) (by rw [ho3 x hW.1 hW.2 hxn])
            exact ⟨this.1, this.2.1⟩
          · intro x hx
            by_cases x1 : x = p
            · rw [x1, hp3]
              obtain ⟨y, hy, _⟩ := a2
              rw [hy]; simp
            · by_cases x2 : x = c
              · rw [x2, hc3]; simp
              · by_cases x3 : x = new
                · rw [x3, hn3]; simp
                · rw [ho3 x x1 x2 x3]; exact hx
          · intro g hg k' b' a ha h1
            simp only [List.mem_cons, List.not_mem_nil, or_false, not_or] at ha
            exact ⟨b', le_rfl, At.split_other hnd (S.sorted _ (by omega)) hlow hbpiv hnext (fun _ => ha.2) h1⟩
        · rw [hst']
          unfold items
          rw [hl00]
          exact flatMap_same hcont
        · rw [e6, List.getElem?_map, hes]; rfl
        · intro hj
          rw [if_pos hj] at he
          simp only [Option.some.injEq, Prod.mk.injEq] at he
          obtain ⟨rfl, rfl, rfl⟩ := he
          exact ⟨rfl, rfl, hkc, sl⟩
        · intro hj
          rw [if_neg (by omega)] at he
          simp only [Option.some.injEq, Prod.mk.injEq] at he
          obtain ⟨rfl, rfl, rfl⟩ := he
          exact ⟨rfl, rfl, hkn, sr⟩
    · cases he

end Splinter.BtreeIns
