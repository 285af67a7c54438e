import Verif.Proof.BtreeScan6
/-!
The invariant of a tree with inserts, lookups and scans.
-/
namespace Splinter.BtreeIns
open Btree Search

variable {K M : Type} [LinearOrder K] [BoundedOrder K] [Inhabited K]

structure SInv (mrg : K → M → M → M) (root : Nat) (s : SSys K M) : Prop where
  tree : ∃ H lv, Whole s.base.st root H lv ∧ (∀ x ∈ s.base.thr, Know mrg s.base.st root H lv x) ∧
    (∀ k v, (k, v) ∈ items s.base.st lv ↔ valueOf mrg k s.base.hist = some v) ∧
    (∀ x ∈ s.scans, SOk mrg s.base.st s.gen H lv s.base.hist x) ∧
    ∀ (i : Nat) k m g, s.base.hist[i]? = some (k, m) → s.glog[i]? = some g → ∀ b a, At lv 0 k b a → g < s.gen a
  len : s.glog.length = s.base.hist.length
  order : ∀ (i j : Nat) k m m' g g', i < j → s.base.hist[i]? = some (k, m) → s.base.hist[j]? = some (k, m') →
    s.glog[i]? = some g → s.glog[j]? = some g' → g < g'

theorem sinv_create {mrg : K → M → M → M} {root : Nat} (hr : root ≠ 0) : SInv mrg root (screate root : SSys K M) := by
  obtain ⟨H, lv, T, hk, hv⟩ := (inv_create (K := K) (M := M) (mrg := mrg) hr).tree
  refine ⟨⟨H, lv, T, hk, hv, by simp [screate], by simp [screate]⟩, by simp [screate, create], by simp [screate]⟩

theorem scanFree_spec {scans : List (Scan K M)} {l : List Nat} (h : scanFree scans l = true) {x : Scan K M}
    (hx : x ∈ scans) : ∀ a ∈ x.pc.reads, a ∉ l := by
  unfold scanFree at h
  rw [List.all_eq_true] at h
  have := h x hx
  rw [List.all_eq_true] at this
  intro a ha hl
  have h2 := this a ha
  simp [List.contains_eq_mem, hl] at h2

theorem sinv_insert {mrg : K → M → M → M} {root : Nat} {s : SSys K M} {t : Nat} {c : Choice} {x : Thr K M} {m : M}
    {st' : Store K M} {pc' : Pc M} {eff : Bool} (I : SInv mrg root s) (hx : s.base.thr[t]? = some x)
    (hm : x.msg = some m)
    (he : thrStep mrg (fun l => soleReader root s.base.thr t l && scanFree s.scans l) s.base.st root
      s.base.hist.length x.key m x.pc c = some (st', pc', eff)) :
    SInv mrg root {
      base := ⟨st', s.base.thr.set t { x with pc := pc' },
        if eff then s.base.hist ++ [(x.key, m)] else s.base.hist⟩
      gen := genStep root s.base.st st' s.gen x.pc c eff
      glog := if eff then s.glog ++ [genOut root s.gen x.pc] else s.glog
      scans := s.scans } := by
  obtain ⟨⟨H, lv, T, hk, hv, hsc, hg⟩, hlen, hord⟩ := I
  have hxm : x ∈ s.base.thr := List.mem_of_getElem? hx
  have hlt : t < s.base.thr.length := (List.getElem?_eq_some_iff.1 hx).1
  have hkx := hk x hxm
  unfold Know at hkx
  simp only [hm] at hkx
  obtain ⟨H', lv', W, T', X, hW, hTok, heff, hneff, hwr, htg⟩ := thrStep_spec T hkx he
  have hC : Calm root W s.base.st st' s.gen (genStep root s.base.st st' s.gen x.pc c eff) H H' lv lv' := by
    refine ⟨T.skel, T'.skel, X, fun a ha => genStep_mono he ha, ?_⟩
    intro hH a ha hal
    obtain ⟨h1, h2⟩ := hwr a ha hal
    rcases h2 with h2 | h2
    · subst h2
      obtain ⟨q, hq, rfl⟩ := List.mem_map.1 hal
      exact genStep_target he h1 (leaf_some T.skel (b := q.1) hq)
    · exact absurd h2 hH
  have hhist : ∃ l, (if eff then s.base.hist ++ [(x.key, m)] else s.base.hist) = s.base.hist ++ l := by
    cases eff
    · exact ⟨[], by simp⟩
    · exact ⟨_, rfl⟩
  refine ⟨⟨H', lv', T', ?_, ?_, ?_, ?_⟩, ?_, ?_⟩
  · intro y hy
    simp only at hy ⊢
    have : y = { x with pc := pc' } ∨ ∃ t', t' ≠ t ∧ s.base.thr[t']? = some y := by
      obtain ⟨t', hy⟩ := List.mem_iff_getElem?.1 hy
      rw [List.getElem?_set] at hy
      split at hy
      · rename_i h
        simp only [Option.some.injEq, hlt, if_true] at hy
        exact .inl hy.symm
      · rename_i h
        exact .inr ⟨t', fun h' => h h'.symm, hy⟩
    rcases this with rfl | ⟨t', ht', hy'⟩
    · unfold Know
      simp only [hm]
      exact hTok
    · have hreads : ∀ a ∈ y.pc.reads root, a ∉ W := by
        intro a ha haW
        rcases hW with rfl | ⟨l, hl, hsub⟩
        · simp at haW
        · simp only [Bool.and_eq_true] at hl
          exact sole_spec hl.1 hy' ht' a ha (hsub a haW)
      have := hk y (List.mem_of_getElem? hy')
      unfold Know at this ⊢
      split
      · rename_i hm'
        simp only [hm'] at this
        exact this.ext T X hreads
      · rename_i hm'
        simp only [hm'] at this
        exact this.ext X hreads
  · cases eff with
    | false =>
      simp only [Bool.false_eq_true, if_false]
      rw [(hneff rfl).1]
      exact hv
    | true =>
      simp only [if_true]
      exact (heff rfl).1.value hv
  · intro y hy
    simp only
    obtain ⟨l, hl⟩ := hhist
    rw [hl]
    apply (hsc y hy).ext l hC
    intro a ha haW
    rcases hW with rfl | ⟨l, hl, hsub⟩
    · simp at haW
    · simp only [Bool.and_eq_true] at hl
      exact scanFree_spec hl.2 hy a ha (hsub a haW)
  · have hold : ∀ (i : Nat) k m g, s.base.hist[i]? = some (k, m) → s.glog[i]? = some g →
        ∀ b a, At lv' 0 k b a → g < genStep root s.base.st st' s.gen x.pc c eff a := by
      intro i k m g h1 h2 b a hat
      obtain ⟨b', a', hat', hle⟩ := gen_leaf (gen := s.gen) T T' X hwr he hat
      exact lt_of_lt_of_le (hg i k m g h1 h2 b' a' hat') hle
    intro i k m' g h1 h2 b a hat
    cases eff with
    | false => exact hold i k m' g (by simpa using h1) (by simpa using h2) b a hat
    | true =>
      simp only [if_true] at h1 h2
      by_cases hi : i < s.base.hist.length
      · rw [List.getElem?_append_left hi] at h1
        rw [List.getElem?_append_left (by omega)] at h2
        exact hold i k m' g h1 h2 b a hat
      · have hi' : i = s.base.hist.length := by
          have := (List.getElem?_eq_some_iff.1 h1).1
          simp at this; omega
        subst hi'
        simp only [List.getElem?_append_right le_rfl, Nat.sub_self, List.getElem?_cons_zero, Option.some.injEq,
          Prod.mk.injEq] at h1
        rw [← hlen] at h2
        simp only [List.getElem?_append_right le_rfl, Nat.sub_self, List.getElem?_cons_zero, Option.some.injEq] at h2
        obtain ⟨rfl, rfl⟩ := h1
        rw [← h2]
        exact (gen_put (gen := s.gen) T T' X hkx (heff rfl).1 (by simpa using hwr) (htg rfl) he).2 b a hat
  · cases eff <;> simp [hlen]
  · intro i j k m1 m2 g g' hij h1 h2 h3 h4
    cases eff with
    | false =>
      simp only [Bool.false_eq_true, if_false] at h1 h2 h3 h4
      exact hord i j k m1 m2 g g' hij h1 h2 h3 h4
    | true =>
      simp only [if_true] at h1 h2 h3 h4
      have hj := (List.getElem?_eq_some_iff.1 h2).1
      simp only [List.length_append, List.length_singleton] at hj
      have hil : i < s.base.hist.length := by omega
      rw [List.getElem?_append_left hil] at h1
      rw [List.getElem?_append_left (by omega)] at h3
      by_cases hjl : j < s.base.hist.length
      · rw [List.getElem?_append_left hjl] at h2
        rw [List.getElem?_append_left (by omega)] at h4
        exact hord i j k m1 m2 g g' hij h1 h2 h3 h4
      · have hj' : j = s.base.hist.length := by omega
        subst hj'
        simp only [List.getElem?_append_right le_rfl, Nat.sub_self, List.getElem?_cons_zero, Option.some.injEq,
          Prod.mk.injEq] at h2
        rw [← hlen] at h4
        simp only [List.getElem?_append_right le_rfl, Nat.sub_self, List.getElem?_cons_zero, Option.some.injEq] at h4
        obtain ⟨rfl, rfl⟩ := h2
        rw [← h4]
        obtain ⟨b, a, hat, hle⟩ :=
          (gen_put (gen := s.gen) T T' X hkx (heff rfl).1 (by simpa using hwr) (htg rfl) he).1
        exact lt_of_lt_of_le (hg i _ _ g h1 h3 b a hat) hle

/-- A step of the tree that changes no page and takes no effect. -/
theorem sinv_quiet {mrg : K → M → M → M} {root : Nat} {s : SSys K M} {thr : List (Thr K M)} (I : SInv mrg root s)
    (h : ∀ H lv, Whole s.base.st root H lv → (∀ x ∈ s.base.thr, Know mrg s.base.st root H lv x) →
      ∀ x ∈ thr, Know mrg s.base.st root H lv x) :
    SInv mrg root { s with base := { s.base with thr := thr } } := by
  obtain ⟨⟨H, lv, T, hk, hv, hsc, hg⟩, hlen, hord⟩ := I
  exact ⟨⟨H, lv, T, h H lv T hk, hv, hsc, hg⟩, hlen, hord⟩

theorem know_call {mrg : K → M → M → M} {st : Store K M} {root H : Nat} {lv : Nat → List (K × Nat)} {x : Thr K M}
    (hp : (∃ m, x.msg = some m ∧ x.pc = .idle) ∨ (x.msg = none ∧ x.pc = .lidle)) : Know mrg st root H lv x := by
  unfold Know
  rcases hp with ⟨m, h1, h2⟩ | ⟨h1, h2⟩
  · simp only [h1, h2]; trivial
  · simp only [h1, h2]; trivial

theorem newScan_ok {mrg : K → M → M → M} {st : Store K M} {gen : Nat → Nat} {H : Nat} {lv : Nat → List (K × Nat)}
    {hist : List (K × M)} {lo hi start : K} {strict : Bool} :
    SOk mrg st gen H lv hist (newScan lo hi start strict hist.length) := by
  have h1 : lo ≤ (if hi < lo then lo else hi) := by
    split
    · exact le_rfl
    · rename_i h; exact not_lt.1 h
  have h2 : lo ≤ (if start < lo then lo else start) := by
    split
    · exact le_rfl
    · rename_i h; exact not_lt.1 h
  have h3 : ∀ hi' start' : K, lo ≤ hi' → lo ≤ start' →
      lo ≤ (if hi' < start' then hi' else start') ∧ (if hi' < start' then hi' else start') ≤ hi' := by
    intro hi' start' a b
    split
    · exact ⟨a, le_rfl⟩
    · rename_i h; exact ⟨b, not_lt.1 h⟩
  exact ⟨(h3 _ _ h1 h2).1, (h3 _ _ h1 h2).2, le_rfl, rfl⟩

theorem sinv_step {mrg : K → M → M → M} {root : Nat} {s s' : SSys K M} {a : SAct K M} (I : SInv mrg root s)
    (h : sstep mrg root s a = some s') : SInv mrg root s' := by
  cases a with
  | insert k m =>
    simp only [sstep, step, Option.map_some, Option.some.injEq] at h
    subst h
    refine sinv_quiet (s := s) I ?_
    intro H lv T hk x hx
    rcases List.mem_append.1 hx with hx | hx
    · exact hk x hx
    · simp only [List.mem_singleton] at hx
      subst hx
      exact know_call (.inl ⟨m, rfl, rfl⟩)
  | lookup k =>
    simp only [sstep, step, Option.map_some, Option.some.injEq] at h
    subst h
    refine sinv_quiet (s := s) I ?_
    intro H lv T hk x hx
    rcases List.mem_append.1 hx with hx | hx
    · exact hk x hx
    · simp only [List.mem_singleton] at hx
      subst hx
      exact know_call (.inr ⟨rfl, rfl⟩)
  | go t c =>
    simp only [sstep] at h
    split at h
    · cases h
    · rename_i x hx
      split at h
      · rename_i m hm
        split at h
        · cases h
        · rename_i st' pc' eff he
          simp only [Option.some.injEq] at h
          rw [← h]
          have := sinv_insert I hx hm he
          simpa [hm] using this
      · rename_i hm
        obtain ⟨b, h1, rfl⟩ := Option.map_eq_some_iff.1 h
        simp only [step, hx, hm] at h1
        split at h1
        · cases h1
        · rename_i pc' he
          simp only [Option.some.injEq] at h1
          subst h1
          refine sinv_quiet (s := s) I ?_
          intro H lv T hk y hy
          rcases List.mem_or_eq_of_mem_set hy with hy | hy
          · exact hk y hy
          · have hkx := hk x (List.mem_of_getElem? hx)
            unfold Know at hkx
            simp only [hm] at hkx
            subst hy
            unfold Know
            simp only
            rcases lookStep_spec T hkx he with ⟨h, _⟩ | ⟨r, h, _⟩
            · exact h
            · rw [h]; trivial
  | scan lo hi start strict =>
    simp only [sstep, Option.some.injEq] at h
    subst h
    obtain ⟨⟨H, lv, T, hk, hv, hsc, hg⟩, hlen, hord⟩ := I
    refine ⟨⟨H, lv, T, hk, hv, ?_, hg⟩, hlen, hord⟩
    intro x hx
    rcases List.mem_append.1 hx with hx | hx
    · exact hsc x hx
    · simp only [List.mem_singleton] at hx
      subst hx
      exact newScan_ok
  | iter i claim =>
    simp only [sstep] at h
    split at h
    · cases h
    · rename_i x hx
      split at h
      · cases h
      · rename_i pc' e he
        simp only [Option.some.injEq] at h
        subst h
        obtain ⟨⟨H, lv, T, hk, hv, hsc, hg⟩, hlen, hord⟩ := I
        refine ⟨⟨H, lv, T, hk, hv, ?_, hg⟩, hlen, hord⟩
        intro y hy
        rcases List.mem_or_eq_of_mem_set hy with hy | hy
        · exact hsc y hy
        · have hnd : ∀ n, x.pc ≠ .done n := by
            intro n hn
            rw [scanStep, hn] at he
            cases he
          obtain ⟨pc2, e2, h1, h2⟩ := scanStep_spec T hv (hsc x (List.mem_of_getElem? hx)) hnd claim
          rw [he] at h1
          simp only [Option.some.injEq, Prod.mk.injEq] at h1
          obtain ⟨rfl, rfl⟩ := h1
          rw [hy]
          exact h2

theorem sreachable_inv {mrg : K → M → M → M} {root : Nat} (hr : root ≠ 0) {s : SSys K M}
    (h : SReachable mrg root s) : SInv mrg root s := by
  induction h with
  | create => exact sinv_create hr
  | step _ h ih => exact sinv_step ih h

end Splinter.BtreeIns
