import Verif.Proof.BtreeScan5
/-!
One step of a scan keeps what it knows.
-/
namespace Splinter.BtreeIns
open Btree Search

variable {K M : Type} [LinearOrder K] [BoundedOrder K] [Inhabited K] {st : Store K M} {root H : Nat}
  {lv : Nat → List (K × Nat)} {gen : Nat → Nat} {mrg : K → M → M → M} {hist : List (K × M)}

omit [BoundedOrder K] [Inhabited K] in
theorem From.le {start k : K} {strict : Bool} (h : From start strict k) : start ≤ k := by
  unfold From at h
  cases strict with
  | true => exact le_of_lt (by simpa using h)
  | false => simpa using h

omit [BoundedOrder K] [Inhabited K] in
theorem From.of_lt {start k : K} {strict : Bool} (h : start < k) : From start strict k := by
  unfold From
  cases strict with
  | true => simpa using h
  | false => simpa using h.le

omit [BoundedOrder K] [Inhabited K] in
theorem From.trans {start k k' : K} {strict : Bool} (h : From start strict k) (h' : k ≤ k') : From start strict k' := by
  unfold From at h ⊢
  cases strict with
  | true => exact lt_of_lt_of_le (by simpa using h) h'
  | false => exact le_trans (by simpa using h) h'

/-- `find_btree_node_and_get_idx_bounds` once the end is known. -/
theorem bounds_spec (T : Whole st root H lv) (hv : ∀ k v, (k, v) ∈ items st lv ↔ valueOf mrg k hist = some v)
    {x : Scan K M} {c a : Nat} (h1 : x.lo ≤ x.start) (h2 : x.start ≤ x.hi) (h3 : x.born ≤ hist.length)
    (ho : x.out = []) {b be : K} (hc : At lv 0 x.start b c) (ha : At lv 0 x.hi be a) :
    ∃ pc', bounds st x root c a (endIdx (cont st a) x.hi) (gen a) = some pc' ∧
      SOk mrg st gen H lv hist { x with pc := pc' } := by
  have S := T.skel
  obtain ⟨A, B, e, hA, hB⟩ := hc
  obtain ⟨n, n1, n2, n3, n4, hso⟩ := leaf_page T e
  obtain ⟨r, r1, r2, r3, r4, r5⟩ := start_idx hso x.start x.strict
  have hlater := later S e hA h2 ha
  -- nothing is passed over
  have hseen : Seen mrg hist x (((cont st c)[r]?.map (·.1)).or (B.head?.map (·.1))) := by
    constructor
    · rw [ho]
      apply Swept.empty h3
      rintro k ⟨k1, k2, k3⟩
      cases hval : valueOf mrg k hist with
      | none => rfl
      | some v =>
        exfalso
        exact r4 _ (next_none T hv e (fun h => (hA h).trans k1.le) k3 hval) k1
    · intro f hf
      cases hr : (cont st c)[r]? with
      | none =>
        rw [hr] at hf
        simp only [Option.map_none, Option.none_or] at hf
        exact From.of_lt (head_behind hB f hf)
      | some y =>
        rw [hr] at hf
        simp only [Option.map_some, Option.some_or, Option.mem_def, Option.some.injEq] at hf
        rw [← hf]
        apply r5
        rw [List.mem_iff_getElem?]
        exact ⟨0, by rw [List.getElem?_drop]; simpa using hr⟩
  obtain ⟨A2, B2, e2, g1, g2⟩ := ha
  have hendg : ∀ t : Iter K, t.endAddr = a → t.endIdx = endIdx (cont st a) x.hi → EndG st gen lv x.hi t (gen a) := by
    rintro t rfl h
    exact ⟨le_rfl, fun _ => ⟨A2, be, B2, e2, g2, h⟩⟩
  obtain ⟨hn, nx, pv, body⟩ := n
  simp only at n2 n4
  subst n2
  unfold bounds
  simp only [n1, r1]
  split
  · rename_i hcond
    obtain ⟨hca, hlen⟩ := hcond
    have hlen : r = (cont st c).length := by exact_mod_cast hlen
    rcases hlater with ⟨h, _⟩ | ⟨_, hb, hle⟩
    · exact absurd h hca
    refine ⟨_, rfl, h1, h2, h3, ?_⟩
    cases hBc : B with
    | nil => rw [hBc] at hb; simp at hb
    | cons q B3 =>
      simp only
      rw [hBc] at n4 hb
      simp only [List.map_cons, List.head?_cons, Option.getD_some] at n4
      subst n4
      have hs := S.sorted 0 (Nat.zero_le _)
      rw [e, hBc, List.pairwise_append, List.pairwise_cons, List.pairwise_cons] at hs
      refine ⟨q.1, be, ?_, trivial, le_rfl, ?_, ?_, hle, hendg _ rfl rfl, ?_⟩
      · rw [e, hBc]; cases A <;> simp
      · rw [e, hBc]; cases A <;> simp <;> (rcases List.mem_cons.1 hb with h | h; simp [← h]; simp [h])
      · rcases List.mem_cons.1 hb with h | h
        · rw [← h]
        · exact (hs.2.1.2.1 _ h).le
      · rw [hlen, hBc] at hseen
        have hseen : Seen mrg hist x (some q.1) := by simpa using hseen
        exact hseen
  · rename_i hcond
    refine ⟨_, rfl, h1, h2, h3, ?_⟩
    simp only
    refine ⟨A, b, B, e, by omega, by exact_mod_cast r2, ?_, hseen, ?_⟩
    · have hlo : findKey (cont st c) x.lo .ge = (cntLt (cont st c) x.lo : Int) := by rw [findKey_eq hso]; rfl
      have hmono : cntLt (cont st c) x.lo ≤ cntLt (cont st c) x.start :=
        List.countP_mono_left (fun y _ h => by simp at h ⊢; exact lt_of_lt_of_le h h1)
      unfold findKey at hlo
      rw [hlo]
      split
      · omega
      · split
        · omega
        · omega
    · rcases hlater with ⟨h, h'⟩ | ⟨hca, hb, hle⟩
      · subst h; exact .inl ⟨rfl, h', rfl⟩
      · refine .inr ⟨hca, ?_, be, hb, hle, hendg _ rfl rfl⟩
        have : ¬ ((r : Int) = ((cont st c).length : Int)) := fun h => hcond ⟨hca, h⟩
        omega

/-- The tuple of a scan and the next one. -/
theorem seen_next (T : Whole st root H lv) (hv : ∀ k v, (k, v) ∈ items st lv ↔ valueOf mrg k hist = some v)
    {x : Scan K M} (h3 : x.born ≤ hist.length) {A B : List (K × Nat)} {b : K} {c n : Nat}
    (e : lv 0 = A ++ (b, c) :: B) {y : K × M} (hy : (cont st c)[n]? = some y) (hup : UpTo x.hi y.1)
    (h : Seen mrg hist x (((cont st c)[n]?.map (·.1)).or (B.head?.map (·.1)))) (pc' : SPc K) :
    Seen mrg hist { x with pc := pc', out := x.out ++ [y] }
      (((cont st c)[n + 1]?.map (·.1)).or (B.head?.map (·.1))) := by
  obtain ⟨_, _, _, _, _, hso⟩ := leaf_page T e
  obtain ⟨hsw, hfr⟩ := h
  rw [hy] at hsw hfr
  simp only [Option.map_some, Option.some_or, Option.mem_def, Option.some.injEq, forall_eq'] at hfr
  have hyn : ∀ f ∈ ((cont st c)[n + 1]?.map (·.1)).or (B.head?.map (·.1)), y.1 < f := by
    intro f hf
    cases hr : (cont st c)[n + 1]? with
    | none =>
      rw [hr] at hf
      simp only [Option.map_none, Option.none_or] at hf
      exact head_behind (leaf_lt T e (List.mem_of_getElem? hy)) f hf
    | some z =>
      rw [hr] at hf
      simp only [Option.map_some, Option.some_or, Option.mem_def, Option.some.injEq] at hf
      rw [← hf]
      obtain ⟨l1, l2⟩ := List.getElem?_eq_some_iff.1 hy
      obtain ⟨l3, l4⟩ := List.getElem?_eq_some_iff.1 hr
      have := List.pairwise_iff_getElem.1 hso n (n + 1) l1 l3 (by omega)
      rwa [l2, l4] at this
  refine ⟨?_, fun f hf => hfr.trans (hyn f hf).le⟩
  have hyc := List.mem_of_getElem? hy
  have hby : b ≤ y.1 := T.skel.cont_ge T.leaves (q := (b, c)) (by rw [e]; simp) y hyc
  have hyi : valueOf mrg y.1 hist = some y.2 := by
    rw [← hv]
    exact (mem_leaf T e (fun _ => hby) (leaf_lt T e hyc)).2 hyc
  refine Swept.more (e := some y) (Q := fun k => From x.start x.strict k ∧ UpTo x.hi k ∧ y.1 ≤ k ∧
    ∀ f ∈ ((cont st c)[n + 1]?.map (·.1)).or (B.head?.map (·.1)), k < f) hsw h3 ?_ ?_ ?_
  · intro k
    unfold Done
    simp only [Option.map_some, Option.some_or, Option.mem_def, Option.some.injEq, forall_eq']
    constructor
    · rintro ⟨a1, a2, a3⟩
      rcases lt_or_ge k y.1 with h | h
      · exact .inl ⟨a1, a2, h⟩
      · exact .inr ⟨a1, a2, h, a3⟩
    · rintro (⟨a1, a2, a3⟩ | ⟨a1, a2, _, a3⟩)
      · exact ⟨a1, a2, fun f hf => a3.trans (hyn f hf)⟩
      · exact ⟨a1, a2, a3⟩
  · rintro k k' ⟨_, _, a⟩ ⟨_, _, a', _⟩
    exact lt_of_lt_of_le (a y.1 (by simp)) a'
  · intro k v
    constructor
    · intro h
      simp only [Option.some.injEq] at h
      subst h
      exact ⟨⟨hfr, hup, le_rfl, hyn⟩, hyi⟩
    · rintro ⟨⟨_, _, a3, a4⟩, a5⟩
      have hm := next_none T hv e (fun _ => hby.trans a3) a4 a5
      rw [List.take_add_one, hy, List.mem_append] at hm
      rcases hm with hm | hm
      · exfalso
        obtain ⟨j, hj⟩ := List.mem_iff_getElem?.1 hm
        rw [List.getElem?_take] at hj
        split at hj
        · rename_i hjn
          obtain ⟨l1, l2⟩ := List.getElem?_eq_some_iff.1 hy
          obtain ⟨l3, l4⟩ := List.getElem?_eq_some_iff.1 hj
          have := List.pairwise_iff_getElem.1 hso j n l3 l1 hjn
          rw [l2, l4] at this
          exact absurd a3 (not_le.2 this)
        · cases hj
      · simpa [eq_comm] using hm

/-- One step of a scan: it can always go on, and it keeps what it knows. -/
theorem scanStep_spec (T : Whole st root H lv) (hv : ∀ k v, (k, v) ∈ items st lv ↔ valueOf mrg k hist = some v)
    {x : Scan K M} (h : SOk mrg st gen H lv hist x) (hnd : ∀ n, x.pc ≠ .done n) (claim : Bool) :
    ∃ pc' e, scanStep st gen root hist.length x claim = some (pc', e) ∧
      SOk mrg st gen H lv hist { x with pc := pc', out := x.out ++ e.toList } := by
  have S := T.skel
  obtain ⟨rn, hr1, hr2⟩ := root_page S
  obtain ⟨h1, h2, h3, h4⟩ := h
  unfold scanStep
  cases hpc : x.pc with
  | find =>
    simp only [hpc] at h4
    refine ⟨_, _, by simp only [hr1, Option.map_some]; rfl, h1, h2, h3, ?_⟩
    simp only [h4, List.nil_append, Option.toList_none]
    exact ⟨trivial, hr2.le, ⊥, by rw [hr2]; exact S.root _⟩
  | down a g =>
    simp only [hpc] at h4
    obtain ⟨ho, hg, b, hat⟩ := h4
    cases g with
    | zero =>
      cases claim with
      | true => exact ⟨_, _, rfl, h1, h2, h3, by simp [ho]; exact ⟨b, hat⟩⟩
      | false => exact ⟨_, _, rfl, h1, h2, h3, by simp [ho]⟩
    | succ g =>
      obtain ⟨c, b', hd, hat'⟩ := descend_spec S hg hat
      refine ⟨_, _, by simp only [hd, Option.map_some]; rfl, h1, h2, h3, ?_⟩
      simp only [ho, List.nil_append, Option.toList_none]
      exact ⟨trivial, by omega, b', hat'⟩
  | claimed c =>
    simp only [hpc] at h4
    refine ⟨_, _, by simp only [hr1, Option.map_some]; rfl, h1, h2, h3, ?_⟩
    simp only [h4.1, List.nil_append, Option.toList_none]
    exact ⟨trivial, h4.2, hr2.le, ⊥, by rw [hr2]; exact S.root _⟩
  | look c a g =>
    simp only [hpc] at h4
    obtain ⟨ho, ⟨bc, hc⟩, hg, b, hat⟩ := h4
    cases g with
    | zero =>
      obtain ⟨A, B, e, _⟩ := id hat
      obtain ⟨n, n1, n2, n3, n4, hso⟩ := leaf_page T e
      obtain ⟨pc', hb, hok⟩ := bounds_spec (gen := gen) T hv h1 h2 h3 ho hc hat
      refine ⟨pc', none, by simp [n3, hb], ?_⟩
      simpa using hok
    | succ g =>
      obtain ⟨c', b', hd, hat'⟩ := descend_spec S hg hat
      refine ⟨_, _, by simp only [hd, Option.map_some]; rfl, h1, h2, h3, ?_⟩
      simp only [ho, List.nil_append, Option.toList_none]
      exact ⟨trivial, ⟨bc, hc⟩, by omega, b', hat'⟩
  | gap t eg =>
    simp only [hpc] at h4
    obtain ⟨b, be, g1, g2, g3, g4, g5, g6, g7, g8⟩ := h4
    obtain ⟨A, B, e, hA⟩ := mem_tail g1
    obtain ⟨n, n1, n2, n3, n4, hso⟩ := leaf_page T e
    simp only [n1]
    split
    · refine ⟨_, _, rfl, h1, h2, h3, ?_⟩
      simp only [Option.toList_none, List.append_nil]
      exact ⟨b, g1, g2, g3, g5.trans g6, g8⟩
    · rename_i hcond
      refine ⟨_, _, rfl, h1, h2, h3, ?_⟩
      simp only [Option.toList_none, List.append_nil]
      obtain ⟨v, es, hes⟩ := first_key T e hA
      refine ⟨A, b, B, e, by omega, by rw [hes]; simp; omega, by omega, ?_, ?_⟩
      · rw [g2, hes]
        exact g8
      · by_cases hce : t.curr = t.endAddr
        · left
          have hgen : gen t.endAddr = eg := by
            by_contra hne
            exact hcond ⟨hce, by rw [hce]; exact hne⟩
          obtain ⟨A', b', B', e', hB', hi'⟩ := g7.2 hgen
          have hnd := S.nodup 0 (Nat.zero_le _)
          rw [e] at hnd
          rw [← hce] at e' hi'
          have := (split_same hnd (e'.symm.trans e) rfl).2.2
          exact ⟨hce, this ▸ hB', hi'⟩
        · right
          refine ⟨hce, by rw [g2, hes]; simp, be, ?_, g6, g7⟩
          have hs := S.sorted 0 (Nat.zero_le _)
          rw [e, List.pairwise_append] at hs
          have hm := List.mem_of_mem_tail g4
          rw [e] at hm
          rcases List.mem_append.1 hm with h | h
          · exact absurd (hs.2.2 _ h (b, t.curr) (by simp)) (not_lt.2 g5)
          · rcases List.mem_cons.1 h with h | h
            · simp only [Prod.mk.injEq] at h; exact absurd h.2.symm hce
            · exact h
  | refind t =>
    simp only [hpc] at h4
    refine ⟨_, _, by simp only [hr1, Option.map_some]; rfl, h1, h2, h3, ?_⟩
    simp only [Option.toList_none, List.append_nil]
    exact ⟨h4, hr2.le, ⊥, by rw [hr2]; exact S.root _⟩
  | relook t a g =>
    simp only [hpc] at h4
    obtain ⟨hsv, hg, be, hat⟩ := h4
    cases g with
    | zero =>
      obtain ⟨b, g1, g2, g3, g4, g5⟩ := hsv
      obtain ⟨A, B, e, k1, k2⟩ := hat
      obtain ⟨n, n1, n2, n3, n4, hso⟩ := leaf_page T e
      refine ⟨_, _, by simp only [n3]; rfl, h1, h2, h3, ?_⟩
      simp only [Option.toList_none, List.append_nil]
      have hA : A ≠ [] := by
        rintro rfl
        rw [e] at g1
        exact absurd (k2 _ (by simpa using g1)) (not_lt.2 g4)
      have hs := S.sorted 0 (Nat.zero_le _)
      rw [e, List.pairwise_append] at hs
      refine ⟨b, be, g1, g2, g3, ?_, ?_, k1 hA, ⟨le_rfl, fun _ => ⟨A, be, B, e, k2, rfl⟩⟩, g5⟩
      · rw [e]; cases A
        · exact absurd rfl hA
        · simp
      · have hm := List.mem_of_mem_tail g1
        rw [e] at hm
        rcases List.mem_append.1 hm with h | h
        · exact (hs.2.2 _ h (be, a) (by simp)).le
        · rcases List.mem_cons.1 h with h | h
          · simp only [Prod.mk.injEq] at h; exact h.1.le
          · exact absurd (k2 _ h) (not_lt.2 g4)
    | succ g =>
      obtain ⟨c', b', hd, hat'⟩ := descend_spec S hg hat
      refine ⟨_, _, by simp only [hd, Option.map_some]; rfl, h1, h2, h3, ?_⟩
      simp only [Option.toList_none, List.append_nil]
      exact ⟨hsv, by omega, b', hat'⟩
  | «at» t eg =>
    simp only [hpc] at h4
    obtain ⟨A, b, B, e, g1, g2, g3, g4, g5⟩ := h4
    obtain ⟨n, n1, n2, n3, n4, hso⟩ := leaf_page T e
    obtain ⟨ei, ei1, ei2, ei3, ei4⟩ := end_idx hso x.hi
    obtain ⟨i, hi⟩ := Int.eq_ofNat_of_zero_le g1
    rw [hi] at g2 g3 g4
    have hcn : t.canNext = true ↔ (t.curr ≠ t.endAddr ∨ t.idx < t.endIdx) := by
      unfold Iter.canNext
      simp only [Bool.or_eq_true, bne_iff_ne, ne_eq, Bool.and_eq_true, decide_eq_true_eq]
      constructor
      · rintro (h | h)
        · exact .inl h
        · exact .inr h.1
      · rintro (h | h)
        · exact .inl h
        · exact .inr ⟨h, by omega⟩
    simp only
    by_cases hc : t.canNext = true
    · rw [if_pos hc]
      have hcn := hcn.1 hc
      have hlt : i < (cont st t.curr).length := by
        rcases g5 with ⟨k1, k2, k3⟩ | ⟨k1, k2, _⟩
        · rcases hcn with h | h
          · exact absurd k1 h
          · rw [k3, ei1, hi] at h
            omega
        · omega
      have hy : (cont st t.curr)[i]? = some (cont st t.curr)[i] := List.getElem?_eq_getElem hlt
      have hup : UpTo x.hi (cont st t.curr)[i].1 := by
        rcases g5 with ⟨k1, k2, k3⟩ | ⟨k1, k2, be, k3, k4, _⟩
        · rcases hcn with h | h
          · exact absurd k1 h
          · rw [k3, ei1, hi] at h
            apply ei3
            rw [List.mem_iff_getElem?]
            exact ⟨i, by rw [List.getElem?_take, if_pos (by omega)]; exact hy⟩
        · right
          exact lt_of_lt_of_le (leaf_lt T e (List.mem_of_getElem? hy) _ k3) k4
      have hcur : t.curr? st = some (cont st t.curr)[i] := by
        unfold Iter.curr?
        simp only [n3, Option.bind_eq_bind, Option.bind_some]
        rw [if_neg (by omega), hi]
        simpa using hy
      have hsn := fun pc' => seen_next T hv h3 e hy hup (by simpa using g4) pc'
      rw [hcur, n1, n3]
      simp only
      split
      · rename_i hcond
        obtain ⟨hlen, hcn'⟩ := hcond
        rcases g5 with ⟨k1, k2, k3⟩ | ⟨k1, k2, be, k3, k4, k5⟩
        · exfalso
          unfold Iter.canNext at hcn'
          simp only [Bool.or_eq_true, bne_iff_ne, ne_eq, Bool.and_eq_true, decide_eq_true_eq] at hcn'
          rcases hcn' with h | h
          · exact h k1
          · rw [k3, ei1] at h
            omega
        · refine ⟨_, _, rfl, h1, h2, h3, ?_⟩
          simp only [Option.toList_some]
          cases hB : B with
          | nil => rw [hB] at k3; simp at k3
          | cons q B2 =>
            rw [hB] at n4 k3
            simp only [List.map_cons, List.head?_cons, Option.getD_some] at n4
            have hs := S.sorted 0 (Nat.zero_le _)
            rw [e, hB, List.pairwise_append, List.pairwise_cons, List.pairwise_cons] at hs
            refine ⟨q.1, be, ?_, trivial, by simp, ?_, ?_, k4, k5, ?_⟩
            · rw [n4, e, hB]; cases A <;> simp
            · rw [e, hB]; cases A <;> simp <;> (rcases List.mem_cons.1 k3 with h | h; simp [← h]; simp [h])
            · rcases List.mem_cons.1 k3 with h | h
              · rw [← h]
              · exact (hs.2.1.2.1 _ h).le
            · have := hsn (.gap { t with curr := n.next, idx := 0, minIdx := -1 } eg)
              rw [hi] at hlen
              have hl : i + 1 = (cont st t.curr).length := by exact_mod_cast hlen
              rw [hl, hB] at this
              simpa using this
      · rename_i hcond
        refine ⟨_, _, rfl, h1, h2, h3, ?_⟩
        simp only [Option.toList_some]
        refine ⟨A, b, B, e, by omega, by rw [hi]; omega, by rw [hi]; omega, ?_, ?_⟩
        · have := hsn (.at { t with idx := t.idx + 1 } eg)
          rw [hi]
          have e1 : ((i : Int) + 1).toNat = i + 1 := by omega
          rw [hi] at this
          simpa [e1] using this
        · rcases g5 with k | ⟨k1, k2, be, k3, k4, k5⟩
          · exact .inl k
          · refine .inr ⟨k1, ?_, be, k3, k4, k5⟩
            have hcn' : ({ t with idx := t.idx + 1 } : Iter K).canNext = true := by
              unfold Iter.canNext
              simp [k1]
            have : ¬ (t.idx + 1 = ((cont st t.curr).length : Int)) := fun h => hcond ⟨h, hcn'⟩
            omega
    · rw [if_neg hc]
      have hcn := fun h => hc (hcn.2 h)
      refine ⟨_, _, rfl, h1, h2, h3, ?_⟩
      simp only [Option.toList_none, List.append_nil]
      refine ⟨h3, le_rfl, g4.1.congr ?_⟩
      intro k
      unfold Done
      refine ⟨?_, fun h => ⟨h.1, h.2.1⟩⟩
      rintro ⟨a1, a2⟩
      refine ⟨a1, a2, ?_⟩
      have hce : t.curr = t.endAddr := by
        by_contra hx
        exact hcn (.inl hx)
      have hge : t.endIdx ≤ t.idx := by
        by_contra hx
        exact hcn (.inr (by omega))
      rcases g5 with ⟨k1, k2, k3⟩ | ⟨k1, _⟩
      · rw [k3, ei1, hi] at hge
        have hge : ei ≤ i := by omega
        intro f hf
        cases hr : (cont st t.curr)[i]? with
        | none =>
          have hr' : (cont st t.curr)[(i : Int).toNat]? = none := by simpa using hr
          rw [hr'] at hf
          simp only [Option.map_none, Option.none_or] at hf
          have h5 := head_behind k2 f hf
          rcases a2 with a2 | a2
          · rw [a2] at h5; exact absurd h5 not_top_lt
          · exact a2.trans h5
        | some y =>
          have hr' : (cont st t.curr)[(i : Int).toNat]? = some y := by simpa using hr
          rw [hr'] at hf
          simp only [Option.map_some, Option.some_or, Option.mem_def, Option.some.injEq] at hf
          rw [← hf]
          have h6 := ei4 y (by
            rw [List.mem_iff_getElem?]
            exact ⟨i - ei, by rw [List.getElem?_drop, show ei + (i - ei) = i by omega]; exact hr⟩)
          rcases a2 with a2 | a2
          · exact absurd a2 h6.1
          · exact lt_of_lt_of_le a2 h6.2
      · exact absurd hce k1
  | done n => exact absurd hpc (hnd n)

end Splinter.BtreeIns
