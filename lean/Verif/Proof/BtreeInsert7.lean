import Verif.Proof.BtreeInsert6
/-!
`btree_split_child_leaf`.
-/
namespace Splinter.BtreeIns
open Btree Search

variable {K M : Type}

/-- A page put into a chain of leaves after `c`. -/
theorem linked_insert {st st' : Store K M} {A B : List Nat} {c new z p : Nat} {n n' x : Node K M}
    (hl : Linked st p (A ++ c :: B) z) (hc : st c = some n) (hc' : st' c = some n') (hx : st' new = some x)
    (h1 : n'.prev = n.prev) (h2 : n'.next = new) (h3 : x.prev = c) (h4 : x.next = n.next)
    (hA : ∀ a ∈ A, (st' a).map (fun n => (n.prev, n.next)) = (st a).map (fun n => (n.prev, n.next)))
    (hd : ∀ d B', B = d :: B' → (st' d).map (fun n => (n.prev, n.next)) = (st d).map (fun n => (new, n.next)))
    (hB : ∀ d B', B = d :: B' → ∀ a ∈ B', (st' a).map (fun n => (n.prev, n.next)) = (st a).map (fun n => (n.prev, n.next))) :
    Linked st' p (A ++ c :: new :: B) z := by
  rw [linked_append] at hl ⊢
  obtain ⟨l1, ⟨n0, l2, l3, l4⟩, l5⟩ := hl
  rw [hc] at l2
  cases l2
  refine ⟨linked_congr hA (by simpa using l1), ⟨n', hc', h1.trans l3, by simpa using h2⟩, ⟨x, hx, h3, h4.trans l4⟩, ?_⟩
  cases B with
  | nil => trivial
  | cons d B' =>
    obtain ⟨⟨m, m1, m2, m3⟩, m4⟩ := l5
    have := hd d B' rfl
    rw [m1] at this
    obtain ⟨m', q1, q2⟩ := Option.map_eq_some_iff.1 this
    simp only [Prod.mk.injEq] at q2
    exact ⟨⟨m', q1, q2.1, q2.2.trans m3⟩, linked_congr (hB d B' rfl) m4⟩

theorem mem_insert {α : Type} {A B : List α} {x y q : α} (h : q ∈ A ++ x :: y :: B) :
    q = y ∨ q ∈ A ++ x :: B := by
  simp only [List.mem_append, List.mem_cons] at h ⊢
  rcases h with h | h | h | h
  · exact .inr (.inl h)
  · exact .inr (.inr (.inl h))
  · exact .inl h
  · exact .inr (.inr (.inr h))

theorem mem_tail_insert {α : Type} {A B : List α} {x y : α} :
    ∀ q ∈ (A ++ x :: B).tail, q ∈ (A ++ x :: y :: B).tail := by
  intro q hq
  cases A with
  | nil => exact List.mem_cons_of_mem _ hq
  | cons z A =>
    simp only [List.cons_append, List.tail_cons, List.mem_append, List.mem_cons] at hq ⊢
    rcases hq with h | h | h
    · exact .inl h
    · exact .inr (.inl h)
    · exact .inr (.inr (.inr h))

variable [LinearOrder K] [BoundedOrder K] [Inhabited K]

/-- `btree_split_child_leaf`. -/
theorem splitLeaf_spec {mrg : K → M → M → M} {st st' : Store K M} {root H p c new i split : Nat} {left : Bool}
    {lv : Nat → List (K × Nat)} {pb b k : K} {m : M} {PA PB E1 E2 : List (K × Nat)} {es : List (K × M)}
    {s : Spec M} (T : Whole st root H lv) (hh : 0 < H) (ep : lv 1 = PA ++ (pb, p) :: PB)
    (ek : kids st p = E1 ++ (b, c) :: E2) (hi : E1.length = i) (hat : At lv 0 k b c) (hb : b ≤ k)
    (hes : leafOf st c = some es) (hs : mkSpec mrg es k m = some s)
    (he : splitLeaf st p i c new k s split left = some st') :
    ∃ lv', Whole st' root H lv' ∧ Ext root [p, c] st H lv st' H lv' ∧
      Put mrg k m (items st lv) (items st' lv') := by
  obtain ⟨S, L⟩ := T
  have hcm := S.mem hat
  have hpm : (pb, p) ∈ lv 1 := by rw [ep]; simp
  obtain ⟨n, es', e1, e2, e3, e4, e5, e6⟩ := (S.page 0 (by omega) _ hcm).leaf
  simp only at e1 e4 e5 e6
  rw [hes] at e4
  obtain rfl : es = es' := by injection e4
  have hpc : p ≠ c := by
    rintro rfl
    have := S.level (a := p) hh (Nat.zero_le H) (List.mem_map.2 ⟨_, hpm, rfl⟩) (List.mem_map.2 ⟨_, hcm, rfl⟩)
    omega
  obtain ⟨A, hA⟩ : ∃ A, A = PA.flatMap (fun q => kids st q.2) ++ E1 := ⟨_, rfl⟩
  obtain ⟨B, hB⟩ : ∃ B, B = E2 ++ PB.flatMap (fun q => kids st q.2) := ⟨_, rfl⟩
  have hlow : lv 0 = A ++ (b, c) :: B := by
    rw [S.kids 0 hh, ep, List.flatMap_append, List.flatMap_cons, ek, hA, hB]; simp
  have hnd := S.nodup 0 (Nat.zero_le _)
  have hnd' := hnd
  rw [hlow] at hnd'
  have hB1 : ∀ q ∈ B, k < q.1 := by
    obtain ⟨A', B', q1, q2, q3⟩ := hat
    obtain ⟨_, rfl, rfl⟩ := split_same hnd' (q1.symm.trans hlow) rfl
    exact q3
  obtain ⟨l1, l2, l3⟩ := S.leaf_split L hlow (fun _ => hb) hB1
  have hso := L.sorted
  rw [hlow, List.flatMap_append, List.flatMap_cons, e5, List.pairwise_append, List.pairwise_append] at hso
  obtain ⟨s', X, Y, g1, hX, hY, hF⟩ := mkSpec_spec (mrg := mrg) (m := m) (k := k) hso.2.1.1
  rw [hs] at g1
  obtain rfl : s = s' := by injection g1
  have hput := (hF.put hX hY).grow l1 l2
  unfold splitLeaf at he
  rw [e1, hes] at he
  simp only at he
  split at he
  · cases he
  · rename_i l r piv hbod
    split at he
    · rename_i hfr
      obtain ⟨hfr, hplan, hln, hrn⟩ := hfr
      simp only [isFresh, Bool.and_eq_true, Option.isNone_iff_eq_none, bne_iff_ne, ne_eq] at hfr
      obtain ⟨hlr, hhd⟩ := splitLeafBodies_spec hF hplan hrn hbod
      split at he
      · cases he
      · rename_i st1 hst1
        obtain ⟨a1, a2, a3, a4⟩ := addPivot_spec (S.page 1 hh _ hpm) ek hi hst1
        simp only at a1 a2 a3
        have hnn : ∀ g ≤ H, ∀ q ∈ lv g, q.2 ≠ new := by
          intro g hg q hq h'
          obtain ⟨x, hx, _⟩ := S.page g hg q hq
          rw [h', hfr.1] at hx; cases hx
        have hnp : new ≠ p := (hnn 1 hh _ hpm).symm
        have hnc : new ≠ c := (hnn 0 (Nat.zero_le _) _ hcm).symm
        have hp0 : ∀ q ∈ lv 0, q.2 ≠ p := by
          intro q hq h'
          have := S.level (a := p) (Nat.zero_le _) hh (h' ▸ List.mem_map_of_mem hq) (List.mem_map.2 ⟨_, hpm, rfl⟩)
          omega
        have hmid := mid_ne hnd'
        -- the page after the leaf
        have hch := L.chain
        rw [hlow, List.map_append, List.map_cons] at hch
        have hch2 := hch
        rw [linked_append] at hch2
        obtain ⟨_, ⟨n0, c1, c2, c3⟩, _⟩ := hch2
        simp only at c1 c2 c3
        rw [e1] at c1
        cases c1
        have hnext : n.next = 0 ∨ ∃ d B', B = d :: B' ∧ n.next = d.2 ∧ d.2 ≠ 0 := by
          cases B with
          | nil => left; simpa using c3
          | cons d B' =>
            right
            refine ⟨d, B', rfl, by simpa using c3, S.nz 0 (Nat.zero_le _) d (by rw [hlow]; simp)⟩
        have hnd2 : n.next ≠ p ∧ n.next ≠ c ∧ n.next ≠ new ∨ n.next = 0 := by
          rcases hnext with h | ⟨d, B', rfl, h, _⟩
          · exact .inr h
          · left
            rw [h]
            have hd : d ∈ lv 0 := by rw [hlow]; simp
            exact ⟨hp0 d hd, hmid d (by simp), hnn 0 (Nat.zero_le _) d hd⟩
        obtain ⟨st2, hst2⟩ : ∃ st2, st2 = (if n.next = 0 then st1
                     else setAt st1 n.next ((st1 n.next).map fun x => { x with prev := new })) := ⟨_, rfl⟩
        rw [← hst2] at he
        simp only [Option.some.injEq] at he
        have hs2 : ∀ x, x ≠ n.next ∨ n.next = 0 → st2 x = st1 x := by
          intro x hx
          rw [hst2]
          split
          · rfl
          · rename_i h0
            rcases hx with hx | hx
            · simp [setAt, hx]
            · exact absurd hx h0
        have hs2d : n.next ≠ 0 → st2 n.next = (st1 n.next).map fun x => { x with prev := new } := by
          intro h0; rw [hst2, if_neg h0]; simp [setAt]
        have hc3 : st' c = some { n with next := new, body := .leaf l } := by
          rw [← he]; simp [setAt]
        have hn3 : st' new = some { n with prev := c, body := .leaf r } := by
          rw [← he]; simp [setAt, hnc]
        have hst'2 : ∀ x, x ≠ c → x ≠ new → st' x = st2 x := by
          intro x x1 x2; rw [← he]; simp [setAt, x1, x2]
        have hp3 : st' p = st1 p := by
          rw [hst'2 p hpc (Ne.symm hnp), hs2]
          rcases hnd2 with h | h
          · exact .inl (Ne.symm h.1)
          · exact .inr h
        have hcore : ∀ x, x ≠ p → x ≠ c → x ≠ new → (st' x).map core = (st x).map core := by
          intro x x1 x2 x3
          rw [hst'2 x x2 x3]
          by_cases hx : x ≠ n.next ∨ n.next = 0
          · rw [hs2 x hx, a1 x x1]
          · simp only [not_or, ne_eq, Decidable.not_not] at hx
            obtain ⟨rfl, h0⟩ := hx
            rw [hs2d h0, a1 _ x1]
            cases st n.next <;> rfl
        have hcp : (st' p).map core = (st1 p).map core := by rw [hp3]
        obtain ⟨k1, _, _, k4⟩ := same_kids hcp
        have hPc : Page st' 0 c := ⟨_, hc3, e2, .inl ⟨rfl, _, rfl⟩⟩
        have hPn : Page st' 0 new := ⟨_, hn3, e2, .inl ⟨rfl, _, rfl⟩⟩
        have hcc : cont st' c = l := by simp [cont, leafOf_eq hc3 rfl]
        have hcn : cont st' new = r := by simp [cont, leafOf_eq hn3 rfl]
        have hfc : firstKey st' c = l.head?.map (·.1) := by
          obtain ⟨_, _, _, _, _, f4, _, f6⟩ := hPc.leaf
          rw [leafOf_eq hc3 rfl] at f4; cases f4; exact f6
        have hfn : firstKey st' new = some piv := by
          obtain ⟨_, _, _, _, _, f4, _, f6⟩ := hPn.leaf
          rw [leafOf_eq hn3 rfl] at f4; cases f4; rw [f6, hhd]
        have hsame : ∀ q ∈ A ++ B, cont st' q.2 = cont st q.2 := by
          intro q hq
          have hq0 : q ∈ lv 0 := by rw [hlow]; simp at hq ⊢; tauto
          exact (same_kids (hcore q.2 (hp0 q hq0) (hmid q hq) (hnn 0 (Nat.zero_le _) q hq0))).2.1
        -- items of the new level
        have hnewitems : ((A ++ (b, c) :: (piv, new) :: B).flatMap fun q => cont st' q.2) =
            (A.flatMap fun q => cont st q.2) ++ ((X ++ (k, s.msg) :: Y) ++ B.flatMap fun q => cont st q.2) := by
          rw [List.flatMap_append, List.flatMap_cons, List.flatMap_cons, hcc, hcn, ← hlr,
            flatMap_same (l := A) fun q hq => hsame q (by simp [hq]),
            flatMap_same (l := B) fun q hq => hsame q (by simp [hq])]
          simp
        have hP : Put mrg k m (items st lv)
            ((A ++ (b, c) :: (piv, new) :: B).flatMap fun q => cont st' q.2) := by
          rw [hnewitems]
          unfold items
          rw [hlow, List.flatMap_append, List.flatMap_cons, e5]
          exact hput
        have hsort := hP.sorted L.sorted
        have hsort2 := hsort
        rw [hnewitems, ← hlr, List.pairwise_append, List.pairwise_append, List.pairwise_append] at hsort2
        obtain ⟨_, ⟨⟨_, _, hlr3⟩, _, hrB⟩, _⟩ := hsort2
        obtain ⟨y, hy⟩ : ∃ y, r.head? = some y := by cases r with
          | nil => exact absurd rfl hrn
          | cons y r => exact ⟨y, rfl⟩
        have hyr := List.mem_of_head? hy
        rw [hy] at hhd
        simp only [Option.map_some, Option.some.injEq] at hhd
        obtain ⟨x0, hx0⟩ : ∃ x, l.head? = some x := by cases l with
          | nil => exact absurd rfl hln
          | cons x l => exact ⟨x, rfl⟩
        have hx0l := List.mem_of_head? hx0
        -- the first key of the left page
        have hfl : b ≤ x0.1 ∧ (A ≠ [] → b = x0.1) := by
          have hxx : (X ++ (k, s.msg) :: Y).head? = some x0 := by rw [← hlr, List.head?_append, hx0]; rfl
          cases hXh : X.head? with
          | some x =>
            rw [List.head?_append, hXh] at hxx
            simp only [Option.some_or, Option.some.injEq] at hxx
            subst hxx
            have : es.head? = some x := by
              cases hF with
              | new e f i v => rw [e, List.head?_append, hXh]; rfl
              | old o e f i v => rw [e, List.head?_append, hXh]; rfl
            exact S.first 0 (Nat.zero_le _) A (b, c) B hlow x.1 (by simp only; rw [e6, this]; simp)
          | none =>
            have hX0 : X = [] := by simpa using hXh
            subst hX0
            simp only [List.nil_append, List.head?_cons, Option.some.injEq] at hxx
            subst hxx
            refine ⟨hb, fun hA => ?_⟩
            obtain ⟨x, hx, hxb⟩ := l3 hA
            rw [e5] at hx
            cases hF with
            | new e f i v =>
              rw [e, List.nil_append] at hx
              exact absurd (hY x (List.mem_of_head? hx)) (not_lt.2 (hxb ▸ hb))
            | old o e f i v =>
              rw [e, List.nil_append, List.head?_cons] at hx
              cases hx
              exact hxb.symm
        have hbpiv : b < piv := by
          rw [← hhd]
          exact lt_of_le_of_lt hfl.1 (hlr3 x0 hx0l y hyr)
        have hnxt : ∀ q ∈ B, piv < q.1 := by
          intro q hq
          obtain ⟨B1, B2, hBq⟩ := List.append_of_mem hq
          have hqm : q ∈ lv 0 := by rw [hlow]; simp [hq]
          obtain ⟨_, zs, _, _, _, _, z5, z6⟩ := (S.page 0 (Nat.zero_le _) q hqm).leaf
          have hzn := L.ne (by omega) q hqm
          rw [z5] at hzn
          cases zs with
          | nil => exact absurd rfl hzn
          | cons z zs =>
            have hz := (S.first 0 (Nat.zero_le _) (A ++ (b, c) :: B1) q B2 (by rw [hlow, hBq]; simp) z.1
              (by rw [z6]; simp)).2 (by simp)
            rw [hz, ← hhd]
            exact hrB y (List.mem_append_right _ hyr) z (List.mem_flatMap.2 ⟨q, hq, by rw [z5]; simp⟩)
        obtain ⟨A', B', r1, r2, r3, r4⟩ := S.split (st' := st') (new := new) (piv := piv) hh ep ek hfr.1 hfr.2
          hcore (k4 _ a2) (by rw [k1, a3]) hPc hPn
          (by
            intro f hf
            rw [hfc, hx0] at hf
            simp only [Option.map_some, Option.mem_def, Option.some.injEq] at hf
            subst hf
            refine ⟨hfl.1, fun hor => hfl.2 ?_⟩
            rw [hA]
            rcases hor with h1 | h1
            · simp [h1]
            · intro h2
              obtain ⟨h2, _⟩ := List.append_eq_nil_iff.1 h2
              cases PA with
              | nil => exact h1 rfl
              | cons z PA =>
                obtain ⟨_, zs, _, _, _, z4, _, z6, _⟩ := (S.page 1 hh z (by rw [ep]; simp)).index (by omega)
                rw [List.flatMap_cons, List.append_eq_nil_iff, z6] at h2
                exact z4 (by simpa using h2.1))
          hfn hbpiv (by rw [← hB]; exact hnxt) (fun h => absurd rfl h)
        rw [← hA] at r2
        rw [← hB] at r3
        subst r2 r3
        refine ⟨upd lv 0 (A' ++ (b, c) :: (piv, new) :: B'), ⟨r4, ?_⟩, ⟨?_, ?_, ?_, le_rfl, .inl rfl, ?_, ?_⟩, ?_⟩
        · rw [upd_self]
          refine ⟨hsort, ?_, ?_⟩
          · simp only [List.map_append, List.map_cons]
            refine linked_insert hch e1 hc3 hn3 rfl rfl rfl rfl ?_ ?_ ?_
            · intro a ha
              obtain ⟨q, hq, rfl⟩ := List.mem_map.1 ha
              have hq0 : q ∈ lv 0 := by rw [hlow]; simp [hq]
              rw [hst'2 q.2 (hmid q (by simp [hq])) (hnn 0 (Nat.zero_le _) q hq0), hs2, a1 _ (hp0 q hq0)]
              rcases hnext with h | ⟨d, B'', rfl, h, _⟩
              · exact .inr h
              · left
                rw [h]
                intro hqd
                rw [List.map_append, List.nodup_append] at hnd'
                exact hnd'.2.2 q.2 (List.mem_map_of_mem hq) d.2 (by simp) hqd
            · intro d B'' hd
              obtain ⟨d', B3, rfl, rfl, rfl⟩ := List.map_eq_cons_iff.1 hd
              have hd0 : d' ∈ lv 0 := by rw [hlow]; simp
              have hnx : n.next = d'.2 := by simpa using c3
              rw [hst'2 _ (hmid d' (by simp)) (hnn 0 (Nat.zero_le _) d' hd0), ← hnx,
                hs2d (by rw [hnx]; exact S.nz 0 (Nat.zero_le _) d' hd0), a1 _ (by rw [hnx]; exact hp0 d' hd0)]
              cases st n.next <;> rfl
            · intro d B'' hd a ha
              obtain ⟨d', B3, rfl, rfl, rfl⟩ := List.map_eq_cons_iff.1 hd
              obtain ⟨q, hq, rfl⟩ := List.mem_map.1 ha
              have hq0 : q ∈ lv 0 := by rw [hlow]; simp [hq]
              have hnx : n.next = d'.2 := by simpa using c3
              rw [hst'2 q.2 (hmid q (by simp [hq])) (hnn 0 (Nat.zero_le _) q hq0), hs2, a1 _ (hp0 q hq0)]
              left
              rw [hnx]
              intro hqd
              rw [List.map_append, List.nodup_append] at hnd'
              have := hnd'.2.1
              simp only [List.map_cons, List.nodup_cons] at this
              exact this.2.1 (hqd ▸ List.mem_map_of_mem hq)
          · intro _ q hq
            simp only [List.mem_append, List.mem_cons] at hq
            rcases hq with hq | rfl | rfl | hq
            · rw [hsame q (by simp [hq])]; exact L.ne (by omega) q (by rw [hlow]; simp [hq])
            · rw [hcc]; exact hln
            · rw [hcn]; exact hrn
            · rw [hsame q (by simp [hq])]; exact L.ne (by omega) q (by rw [hlow]; simp [hq])
        · intro x hx hW
          simp only [List.mem_cons, List.not_mem_nil, or_false, not_or] at hW
          have hxn : x ≠ new := by rintro rfl; exact hx hfr.1
          have := same_kids (hcore x hW.1 hW.2 hxn)
          exact ⟨this.1, this.2.1⟩
        · intro x hx
          by_cases x1 : x = p
          · rw [x1, hp3]
            obtain ⟨y, hy, _⟩ := a2
            rw [hy]; simp
          · by_cases x2 : x = c
            · rw [x2, hc3]; simp
            · by_cases x3 : x = new
              · rw [x3, hn3]; simp
              · intro h'
                have := hcore x x1 x2 x3
                rw [h'] at this
                exact hx (by simpa using this.symm)
        · intro g hg k' b' a ha h1
          simp only [List.mem_cons, List.not_mem_nil, or_false, not_or] at ha
          exact ⟨b', le_rfl, At.split_other hnd (S.sorted _ (by omega)) hlow hbpiv hnxt (fun _ => ha.2) h1⟩
        · rw [upd_self, hlow]; exact mem_tail_insert
        · intro q hq
          rw [upd_self] at hq
          rcases mem_insert hq with rfl | hq
          · exact .inr ⟨hfr.1, c, by simp, List.mem_map_of_mem hcm⟩
          · rw [← hlow] at hq
            exact .inl (List.mem_map_of_mem hq)
        · unfold items at hP ⊢
          rw [upd_self]; exact hP
    · cases he

end Splinter.BtreeIns
