import Verif.Proof.TrunkOps3
/-!
Splits of leaves preserve the invariant.
-/
namespace Splinter.Trunk
open Splinter.Merge (SortedRun)
open Splinter.Spec (msgsOf actAll eval act UpdateSem Implements)
set_option linter.unusedSectionVars false

variable {K V F C : Type} [LinearOrder K] {ops : FilterOps K F} {L : FilterLaws ops} {sem : UpdateSem K V}
  {cfg : DataCfg K V} {lo hi : K} {s s' : State K V F} {hist : K → List (Msg V)}

theorem pairwise_mem {α : Type} {R : α → α → Prop} (hs : ∀ a b, R a b → R b a) : ∀ {l : List α}, l.Pairwise R →
    ∀ a ∈ l, ∀ b ∈ l, a = b ∨ R a b
  | [], _, a, ha, _, _ => by cases ha
  | x :: l, h, a, ha, b, hb => by
    have h1 := List.pairwise_cons.mp h
    rcases List.mem_cons.mp ha with e1 | ha <;> rcases List.mem_cons.mp hb with e2 | hb
    · exact .inl (e1.trans e2.symm)
    · exact .inr (e1 ▸ h1.1 b hb)
    · exact .inr (hs _ _ (e2 ▸ h1.1 a ha))
    · exact pairwise_mem hs h1.2 a ha b hb

/-- Ranges of the new leaves determine them. -/
theorem triples_unique {ks : List K} {id : Nat} {clo chi k : K} (hp : (clo :: ks ++ [chi]).Pairwise (· < ·))
    {t u : Nat × K × K} (ht : t ∈ triples id clo chi ks) (hu : u ∈ triples id clo chi ks) (t1 : t.2.1 ≤ k)
    (t2 : k < t.2.2) (u1 : u.2.1 ≤ k) (u2 : k < u.2.2) : t = u := by
  have h := (triples_mem ks id clo chi hp).2
  have h' : (triples id clo chi ks).Pairwise (fun a b => a.2.2 ≤ b.2.1 ∨ b.2.2 ≤ a.2.1) := h.imp (fun x => .inl x.2)
  rcases pairwise_mem (fun a b => Or.symm) h' t ht u hu with e | e | e
  · exact e
  · exact absurd (lt_of_lt_of_le t2 (le_trans e u1)) (lt_irrefl _)
  · exact absurd (lt_of_lt_of_le u2 (le_trans e t1)) (lt_irrefl _)

theorem Inv.splitLeaf (I : Inv L sem lo hi s hist) {k : K} {ks : List K} (k1 : lo ≤ k) (k2 : k < hi)
    (hs : doSplitLeaf ops s k ks = some s') : Inv L sem lo hi s' hist := by
  unfold doSplitLeaf at hs
  split at hs
  · cases hs
  rename_i c hc
  split at hs
  · cases hs
  rename_i root' hu
  obtain rfl := Option.some.inj hs
  have g := I.good
  obtain ⟨hjh, nd, nd', nlo, nhi, u1, u2, u3, u4, u5, u6, u7, u8, u9, u10⟩ := upd_spec _ _ _ _ _ _ _ _ g k1 k2 hu
  simp only [atIndex] at u7
  obtain ⟨f1, clo, chi, cd, f2, f3, f4, f5, f6, f7, f8, f9, f10, f11⟩ := Good.splitChildLeaf u2 ops u3 u4 u7
  have g' := u8 f1
  have hcd : c = cd.info := by
    have := u1.1 0 (by omega)
    rw [hc, f8] at this
    exact Option.some.inj this
  subst hcd
  have hgen : leafGen k s.h s.root = cd.nextGen := u1.2.1.trans f9
  have hclo : cd.info.lo = clo := f7.node.hmin
  have hchi : cd.info.hi = chi := f7.node.hmax
  have hend : cd.info.endB = cd.endB := rfl
  have hidc : cd.info.id = cd.id := rfl
  obtain ⟨tm1, tm2⟩ := triples_mem ks s.nextId clo chi f6
  have hview : ∀ k', clo ≤ k' → k' < chi → ∃ pre l1 l1' l2 t, view s.h s.root k' = pre ++ [l1, l2] ∧
      view s.h root' k' = pre ++ [l1', l2.rebundled ops cd.nextGen t.1 t.2.1 t.2.2] ∧ SameBut l1 l1' ∧ l1.whole = [] ∧
      l1.bundles = [] ∧ t ∈ triples s.nextId clo chi ks ∧ t.2.1 ≤ k' ∧ k' < t.2.2 ∧ l2.ht = 0 ∧ l2.id = cd.id ∧
      l2.endB = cd.endB := by
    intro k' a1 a2
    obtain ⟨l1, l1', l2, i, lo', hi', e1, e2, e3, e4, e5, e6, e7, e8, e9⟩ := f11 k' a1 a2
    obtain ⟨pre, p1, p2, p3⟩ := u10 k' (le_trans f4 a1) (lt_of_lt_of_le a2 f5)
    rw [e1] at p2
    rw [e9] at p3
    obtain ⟨l, r', h1, h2, h3, h4, _⟩ := head_facts f7 a1 a2
    rw [e2] at h1
    obtain ⟨rfl, _⟩ := List.cons.inj h1
    exact ⟨pre, l1, l1', l2, (i, lo', hi'), p2, p3, e8, e6, e7, e3, e4, e5, h2, h3, h4⟩
  have hout : ∀ k', lo ≤ k' → k' < hi → ¬ (clo ≤ k' ∧ k' < chi) → view s.h root' k' = view s.h s.root k' := by
    intro k' a1 a2 a3
    by_cases hh : nlo ≤ k' ∧ k' < nhi
    · obtain ⟨pre, p1, p2, p3⟩ := u10 k' hh.1 hh.2
      rw [p2, p3, f10 k' hh.1 hh.2 a3]
    · exact u9 k' a1 a2 hh
  have hplo : lo ≤ clo := le_trans u5 f4
  have hphi : chi ≤ hi := le_trans f5 u6
  rw [leafReqs_eq, hclo, hchi, hgen, hend, hidc]
  have hnewmem : ∀ x ∈ (triples s.nextId clo chi ks).map (fun t =>
      (⟨0, cd.endB, t.1, t.2.1, t.2.2, [(cd.nextGen, t.2.1, t.2.2)], [0], .created⟩ : Req K V)),
      ∃ t ∈ triples s.nextId clo chi ks, x = ⟨0, cd.endB, t.1, t.2.1, t.2.2, [(cd.nextGen, t.2.1, t.2.2)], [0], .created⟩ := by
    intro x hx
    obtain ⟨t, ht, rfl⟩ := List.mem_map.mp hx
    exact ⟨t, ht, rfl⟩
  refine ⟨I.pos, g', I.memsNe, I.mems, ?_, ?_, ?_, ?_, ?_, ?_⟩
  · intro k' a1 a2 l hl
    have hall := I.lvls k' a1 a2
    simp only at hl
    by_cases hh : clo ≤ k' ∧ k' < chi
    · obtain ⟨pre, l1, l1', l2, t, e1, e2, e3, e4, e5, e6⟩ := hview k' hh.1 hh.2
      rw [e2] at hl
      rw [e1] at hall
      simp only [List.mem_append, List.mem_cons, List.not_mem_nil, or_false] at hl hall
      rcases hl with h | rfl | rfl
      · exact hall l (.inl h)
      · have := hall l1 (by simp)
        exact ⟨by rw [e3.filter, e3.whole]; exact this.filter, by rw [e3.bundles]; exact this.sbs⟩
      · exact (hall l2 (by simp)).rebundled _ _ _ _
    · rw [hout k' a1 a2 hh] at hl
      exact hall l hl
  · intro k' a1 a2 l hl
    have hall := I.ids k' a1 a2
    simp only at hl ⊢
    by_cases hh : clo ≤ k' ∧ k' < chi
    · obtain ⟨pre, l1, l1', l2, t, e1, e2, e3, e4, e5, e6, _⟩ := hview k' hh.1 hh.2
      rw [e2] at hl
      rw [e1] at hall
      simp only [List.mem_append, List.mem_cons, List.not_mem_nil, or_false] at hl hall
      rcases hl with h | rfl | rfl
      · have := hall l (.inl h); omega
      · have := hall l1 (by simp); rw [e3.id]; omega
      · have := (tm1 t e6).2.1
        show t.1 < _; omega
    · rw [hout k' a1 a2 hh] at hl
      have := hall l hl; omega
  · intro x hx
    simp only at hx ⊢
    rcases List.mem_append.mp hx with h | h
    · have := I.rids x (List.mem_of_mem_filter h); omega
    · obtain ⟨t, ht, rfl⟩ := hnewmem x h
      have := (tm1 t ht).2.1
      show t.1 < _; omega
  · intro x hx
    simp only at hx ⊢
    rcases List.mem_append.mp hx with h | h
    · obtain ⟨hxr, hxk⟩ := List.mem_filter.mp h
      have okx := I.reqs x hxr
      refine okx.keep (Nat.le_refl _) ?_
      intro k' b1 b2 l' hl' he hid
      have a1 := le_trans okx.lo b1
      have a2 := lt_of_lt_of_le b2 okx.hi
      by_cases hh : clo ≤ k' ∧ k' < chi
      · obtain ⟨pre, l1, l1', l2, t, e1, e2, e3, e4, e5, e6, e7, e8, e9, e10, e11⟩ := hview k' hh.1 hh.2
        rw [e2] at hl'
        rw [e1]
        simp only [List.mem_append, List.mem_cons, List.not_mem_nil, or_false] at hl'
        rcases hl' with h | rfl | rfl
        · exact ⟨l', by simp [h], he, hid, fun _ => Keeps.refl _ _ _⟩
        · exact ⟨l1, by simp, e3.ht.symm.trans he, fun a b => e3.id.symm.trans (hid a b), fun _ => e3.keeps e5⟩
        · exfalso
          have hx0 : x.ht = 0 := by rw [← he]; exact e9
          by_cases hc : x.phase = .created
          · obtain ⟨_, cc⟩ := okx.created hc
            obtain ⟨_, _, q3⟩ := cc k' b1 b2 l2 (by rw [e1]; simp) (e9.trans hx0.symm)
            have hxid : x.id = cd.id := by rw [← q3 hx0]; exact e10
            unfold keepReq at hxk
            rw [hc] at hxk
            simp [hx0, hxid] at hxk
          · have hh1 := hid hc hx0
            have hh2 : t.1 = x.id := hh1
            have := (tm1 t e6).1
            have := I.rids x hxr
            omega
      · rw [hout k' a1 a2 hh] at hl'
        exact ⟨l', hl', he, hid, fun _ => Keeps.refl _ _ _⟩
    · obtain ⟨t, ht, rfl⟩ := hnewmem x h
      obtain ⟨t1, t2, t3, t4, t5⟩ := tm1 t ht
      have key : ∀ k', t.2.1 ≤ k' → k' < t.2.2 → ∀ l' ∈ view s.h root' k', l'.ht = 0 →
          ∃ l2 : Lvl K V F, l' = l2.rebundled ops cd.nextGen t.1 t.2.1 t.2.2 ∧ l2.endB = cd.endB := by
        intro k' b1 b2 l' hl' he
        have a1 := le_trans t3 b1
        have a2 := lt_of_lt_of_le b2 t5
        obtain ⟨pre, l1, l1', l2, u, e1, e2, e3, e4, e5, e6, e7, e8, e9, e10, e11⟩ := hview k' a1 a2
        obtain rfl := triples_unique f6 ht e6 b1 b2 e7 e8
        refine ⟨l2, ?_, e11⟩
        exact view_unique s.h root' lo hi k' g' (le_trans hplo a1) (lt_of_lt_of_le a2 hphi) l' hl' _
          (by rw [e2]; simp) (he.trans e9.symm)
      refine { lo := le_trans hplo t3, hi := le_trans t5 hphi, lt := t4, ht := Nat.zero_le _, gens := by simp,
               rngs := by simp, len := rfl, phase := ?_, noLt := ?_, rng := ?_, live := ?_, fresh := ?_, bound := ?_, created := ?_ }
      · show ∀ i, i < _ → _
        intro i hi'
        simp only [List.length_singleton] at hi'
        have : i = 0 := by omega
        subst this; rfl
      · intro k' b1 b2 l hl ha
        obtain ⟨l2, rfl, h2⟩ := key k' b1 b2 l hl ha.1
        show cd.endB < l2.endB + 1
        omega
      · intro k' b1 b2 l hl ha b _ _
        obtain ⟨l2, rfl, h2⟩ := key k' b1 b2 l hl ha.1
        exact List.mem_singleton.mpr rfl
      · intro k' _ _ l _ _ b _ _
        trivial
      · intro k' _ _ hp
        exact hp.elim
      · intro k' b1 b2 l hl ha
        obtain ⟨l2, rfl, h2⟩ := key k' b1 b2 l hl ha.1
        exact ⟨le_refl _, le_refl _, fun _ => le_refl _⟩
      · intro _
        refine ⟨I.pos, fun k' b1 b2 l hl he => ?_⟩
        obtain ⟨l2, rfl, h2⟩ := key k' b1 b2 l hl he
        exact ⟨rfl, rfl, fun _ => rfl⟩
  · simp only
    rw [List.pairwise_append]
    refine ⟨I.apart.filter _, ?_, ?_⟩
    · rw [List.pairwise_map]
      refine tm2.imp ?_
      intro a b hab _ _
      exact .inl hab.2
    · intro x hx y hy
      obtain ⟨t, ht, rfl⟩ := hnewmem y hy
      have h1 := I.rids x (List.mem_of_mem_filter hx)
      have h2 := (tm1 t ht).1
      intro e1 e2
      exact .inr (.inr ⟨e1, by show x.id ≠ t.1; omega⟩)
  · intro k' a1 a2
    have hval := I.value k' a1 a2
    simp only
    by_cases hh : clo ≤ k' ∧ k' < chi
    · obtain ⟨pre, l1, l1', l2, t, e1, e2, e3, e4, e5, e6, _⟩ := hview k' hh.1 hh.2
      rw [e1] at hval
      rw [← hval, e2]
      congr 3
      rw [viewBranches_append, viewBranches_append, viewBranches_cons, viewBranches_cons, viewBranches_cons,
        viewBranches_cons, rebundled_branches, e3.branches]
    · rw [hout k' a1 a2 hh]
      exact hval

end Splinter.Trunk
