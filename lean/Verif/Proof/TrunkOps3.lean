import Verif.Proof.TrunkOps2
/-!
Splits of index nodes and of the root preserve the invariant.
-/
namespace Splinter.Trunk
open Splinter.Merge (SortedRun)
open Splinter.Spec (msgsOf actAll eval act UpdateSem Implements)
set_option linter.unusedSectionVars false

variable {K V F C : Type} [LinearOrder K] {ops : FilterOps K F} {L : FilterLaws ops} {sem : UpdateSem K V}
  {cfg : DataCfg K V} {lo hi : K} {s s' : State K V F} {hist : K → List (Msg V)}

/-- The level of a half of a split node. -/
def HalfLvl (j idL idR : Nat) (clo mid chi : K) (k : K) (l2 l' : Lvl K V F) : Prop :=
  l2.ht = j ∧ clo ≤ k ∧ k < chi ∧ l2.nlo = clo ∧ l2.nhi = chi ∧
  ((k < mid ∧ l' = { l2 with id := idL, nlo := clo, nhi := mid }) ∨
   (mid ≤ k ∧ l' = { l2 with id := idR, nlo := mid, nhi := chi }))

theorem splitReq_cases (j : Nat) (clo mid chi : K) (r : Req K V) :
    (splitReq j clo mid chi r = [r] ∧ (r.phase = .created → ¬ (r.ht = j ∧ r.start = clo ∧ r.stop = chi))) ∨
    (r.phase = .created ∧ r.ht = j ∧ r.start = clo ∧ r.stop = chi ∧
      splitReq j clo mid chi r = [{ r with stop := mid }, { r with start := mid }]) := by
  unfold splitReq
  split
  · rename_i hp
    split
    · rename_i h; exact .inr ⟨hp, h.1, h.2.1, h.2.2, rfl⟩
    · rename_i h; exact .inl ⟨rfl, fun _ => h⟩
  · rename_i hp; exact .inl ⟨rfl, fun h => absurd h hp⟩

/-- A half of a request that has not started. -/
theorem ReqOk.half {h h' : Nat} {v v' : K → List (Lvl K V F)} {r : Req K V} {j idL idR : Nat} {clo mid chi : K}
    (ok : ReqOk sem lo hi h v r) (hh : h ≤ h') (hj : j ≠ 0) (hp : r.phase = .created) (e1 : r.ht = j)
    (e2 : r.start = clo) (e3 : r.stop = chi) (c1 : clo < mid) (c2 : mid < chi)
    (hv : ∀ k, clo ≤ k → k < chi → ∀ l' ∈ v' k, l'.ht = j → ∃ l2 ∈ v k, HalfLvl j idL idR clo mid chi k l2 l') :
    ReqOk sem lo hi h' v' { r with stop := mid } ∧ ReqOk sem lo hi h' v' { r with start := mid } := by
  have hpi := ok.phase
  unfold PhaseInv at hpi
  rw [hp] at hpi
  obtain ⟨hc1, hc2⟩ := ok.created hp
  have key : ∀ k, clo ≤ k → k < chi → ∀ l' ∈ v' k, l'.ht = j → r.no < l'.endB ∧
      (∀ b ∈ l'.bundles, b.no = r.no → (l'.gen, l'.plo, l'.phi) ∈ r.rngs) ∧
      (k < mid → l'.nlo = clo ∧ l'.nhi = mid) ∧ (mid ≤ k → l'.nlo = mid ∧ l'.nhi = chi) := by
    intro k k1 k2 l' hl' e
    obtain ⟨l2, hl2, h1, _, _, _, _, h2⟩ := hv k k1 k2 l' hl' e
    have k1' : r.start ≤ k := by rw [e2]; exact k1
    have k2' : k < r.stop := by rw [e3]; exact k2
    have ha : r.at l2 := ⟨h1.trans e1.symm, fun h0 => absurd (e1.symm.trans h0) hj⟩
    rcases h2 with ⟨h2, rfl⟩ | ⟨h2, rfl⟩
    · exact ⟨ok.noLt k k1' k2' l2 hl2 ha, ok.rng k k1' k2' l2 hl2 ha, fun _ => ⟨rfl, rfl⟩,
        fun h3 => absurd h2 (not_lt.mpr h3)⟩
    · exact ⟨ok.noLt k k1' k2' l2 hl2 ha, ok.rng k k1' k2' l2 hl2 ha, fun h3 => absurd h2 (not_le.mpr h3),
        fun _ => ⟨rfl, rfl⟩⟩
  have hn0 : r.ht ≠ 0 := by rw [e1]; exact hj
  constructor
  · refine { lo := ok.lo, hi := le_trans (le_of_lt c2) (by rw [← e3]; exact ok.hi), lt := by rw [← e2] at c1; exact c1,
             ht := Nat.le_trans ok.ht hh, gens := ok.gens, rngs := ok.rngs, len := ok.len, phase := ?_, noLt := ?_,
             rng := ?_, live := ?_, fresh := ?_, bound := ?_, created := ?_ }
    · unfold PhaseInv; simp only [hp]; exact hpi
    · intro k k1 k2 l hl ha
      simp only [e2] at k1
      exact (key k k1 (lt_trans k2 c2) l hl (ha.1.trans e1)).1
    · intro k k1 k2 l hl ha
      simp only [e2] at k1
      exact (key k k1 (lt_trans k2 c2) l hl (ha.1.trans e1)).2.1
    · intro k _ _ l _ _ b _ _
      unfold PhaseOk; simp only [hp]
    · intro k _ _ hpe
      unfold Req.pending at hpe; simp only [hp] at hpe
    · intro k k1 k2 l hl ha
      simp only [e2] at k1 ⊢
      obtain ⟨a1, a2⟩ := (key k k1 (lt_trans k2 c2) l hl (ha.1.trans e1)).2.2.1 k2
      refine ⟨le_of_eq a1.symm, le_of_eq a2, fun _ => ?_⟩
      unfold Req.cur; simp only [hp, e2]; exact le_of_eq a1.symm
    · intro _
      refine ⟨Nat.lt_of_lt_of_le hc1 hh, fun k k1 k2 l hl he => ?_⟩
      simp only [e2] at k1 ⊢
      obtain ⟨a1, a2⟩ := (key k k1 (lt_trans k2 c2) l hl (he.trans e1)).2.2.1 k2
      exact ⟨a1, a2, fun h0 => absurd h0 hn0⟩
  · refine { lo := le_trans ok.lo (by rw [e2]; exact le_of_lt c1), hi := ok.hi, lt := by rw [← e3] at c2; exact c2,
             ht := Nat.le_trans ok.ht hh, gens := ok.gens, rngs := ok.rngs, len := ok.len, phase := ?_, noLt := ?_,
             rng := ?_, live := ?_, fresh := ?_, bound := ?_, created := ?_ }
    · unfold PhaseInv; simp only [hp]; exact hpi
    · intro k k1 k2 l hl ha
      simp only [e3] at k2
      exact (key k (le_trans (le_of_lt c1) k1) k2 l hl (ha.1.trans e1)).1
    · intro k k1 k2 l hl ha
      simp only [e3] at k2
      exact (key k (le_trans (le_of_lt c1) k1) k2 l hl (ha.1.trans e1)).2.1
    · intro k _ _ l _ _ b _ _
      unfold PhaseOk; simp only [hp]
    · intro k _ _ hpe
      unfold Req.pending at hpe; simp only [hp] at hpe
    · intro k k1 k2 l hl ha
      simp only [e3] at k2 ⊢
      obtain ⟨a1, a2⟩ := (key k (le_trans (le_of_lt c1) k1) k2 l hl (ha.1.trans e1)).2.2.2 k1
      refine ⟨le_of_eq a1.symm, le_of_eq a2, fun _ => ?_⟩
      unfold Req.cur; simp only [hp]; exact le_of_eq a1.symm
    · intro _
      refine ⟨Nat.lt_of_lt_of_le hc1 hh, fun k k1 k2 l hl he => ?_⟩
      simp only [e3] at k2 ⊢
      obtain ⟨a1, a2⟩ := (key k (le_trans (le_of_lt c1) k1) k2 l hl (he.trans e1)).2.2.2 k1
      exact ⟨a1, a2, fun h0 => absurd h0 hn0⟩

theorem Apart.sub {a b a' b' : Req K V} (h : Apart a b) (e1 : a'.ht = a.ht) (e2 : a'.no = a.no) (e3 : a'.id = a.id)
    (e4 : a.start ≤ a'.start) (e5 : a'.stop ≤ a.stop) (f1 : b'.ht = b.ht) (f2 : b'.no = b.no) (f3 : b'.id = b.id)
    (f4 : b.start ≤ b'.start) (f5 : b'.stop ≤ b.stop) : Apart a' b' := by
  intro h1 h2
  rcases h (by rw [← e1, ← f1, h1]) (by rw [← e2, ← f2, h2]) with t | t | t
  · exact .inl (le_trans e5 (le_trans t f4))
  · exact .inr (.inl (le_trans f5 (le_trans t e4)))
  · exact .inr (.inr ⟨e1.trans t.1, by rw [e3, f3]; exact t.2⟩)

theorem SameBut.keeps {r : Req K V} {k : K} {l l' : Lvl K V F} (h : SameBut l l') (hb : l.bundles = []) :
    Keeps r k l l' where
  ht := h.ht
  id _ := h.id
  endB h' := by rw [h.endB]; exact h'
  live b hb' := by rw [h.bundles, hb] at hb'; cases hb'
  fresh _ h' := by rw [h.bundles]; exact h'
  sub := ⟨le_of_eq h.nlo.symm, le_of_eq h.nhi⟩
  range _ := ⟨h.nlo, h.nhi⟩

theorem HalfLvl.keeps {r : Req K V} {k : K} {l l' : Lvl K V F} {j idL idR : Nat} {clo mid chi : K}
    (h : HalfLvl j idL idR clo mid chi k l l') (c1 : clo < mid) (c2 : mid < chi) (hr : r.ht ≠ 0)
    (hp : r.phase ≠ .created) : Keeps r k l l' := by
  obtain ⟨_, _, _, h1, h2, h | h⟩ := h <;> obtain ⟨_, rfl⟩ := h
  · exact ⟨rfl, fun h0 => absurd h0 hr, fun h => h, fun b hb _ => ⟨hb, rfl, rfl, rfl, fun _ a b => ⟨a, b⟩⟩,
      fun _ h => h, ⟨le_of_eq h1, by rw [h2]; exact le_of_lt c2⟩, fun h => absurd h hp⟩
  · exact ⟨rfl, fun h0 => absurd h0 hr, fun h => h, fun b hb _ => ⟨hb, rfl, rfl, rfl, fun _ a b => ⟨a, b⟩⟩,
      fun _ h => h, ⟨by rw [h1]; exact le_of_lt c1, le_of_eq h2.symm⟩, fun h => absurd h hp⟩

theorem HalfLvl.ok {k : K} {l l' : Lvl K V F} {j idL idR : Nat} {clo mid chi : K}
    (h : HalfLvl j idL idR clo mid chi k l l') (ok : LvlOk L k l) : LvlOk L k l' := by
  obtain ⟨_, _, _, _, _, h | h⟩ := h <;> obtain ⟨_, rfl⟩ := h <;> exact ⟨ok.filter, ok.sbs⟩

/-- Common part of the index and root splits. -/
theorem Inv.split (I : Inv L sem lo hi s hist) {j : Nat} {clo mid chi : K} (hj : j ≠ 0) (hm : s'.mems = s.mems)
    (hh : s.h ≤ s'.h) (hid : s'.nextId = s.nextId + 2) (g' : Good s'.h s'.root lo hi) (c1 : clo < mid) (c2 : mid < chi)
    (hl : ∀ k, lo ≤ k → k < hi → ∀ l' ∈ view s'.h s'.root k,
      l' ∈ view s.h s.root k ∨
      (∃ l ∈ view s.h s.root k, SameBut l l' ∧ l.whole = [] ∧ l.bundles = []) ∨
      (l'.whole = [] ∧ l'.bundles = [] ∧ l'.filter = ops.empty ∧ s.h < l'.ht ∧ l'.id < s.nextId) ∨
      ∃ l2 ∈ view s.h s.root k, HalfLvl j s.nextId (s.nextId + 1) clo mid chi k l2 l')
    (hin : ∀ k, clo ≤ k → k < chi → ∀ l' ∈ view s'.h s'.root k, l'.ht = j →
      ∃ l2 ∈ view s.h s.root k, HalfLvl j s.nextId (s.nextId + 1) clo mid chi k l2 l')
    (hb : ∀ k, lo ≤ k → k < hi → viewBranches (view s'.h s'.root k) = viewBranches (view s.h s.root k))
    (hr : s'.reqs = s.reqs.flatMap (splitReq j clo mid chi)) : Inv L sem lo hi s' hist := by
  refine ⟨Nat.le_trans I.pos hh, g', by rw [hm]; exact I.memsNe, by rw [hm]; exact I.mems, ?_, ?_, ?_, ?_, ?_, ?_⟩
  · intro k k1 k2 l' hl'
    have hall := I.lvls k k1 k2
    rcases hl k k1 k2 l' hl' with h | ⟨l, h1, h2, h3, h4⟩ | ⟨h1, h2, h3, h4, h5⟩ | ⟨l2, h1, h2⟩
    · exact hall l' h
    · have := hall l h1
      exact ⟨by rw [h2.filter, h2.whole]; exact this.filter, by rw [h2.bundles]; exact this.sbs⟩
    · refine ⟨by rw [h3, h1]; exact soundW_empty k _ L.bounded_empty, by rw [h2]; simp⟩
    · exact h2.ok (hall l2 h1)
  · intro k k1 k2 l' hl'
    have hall := I.ids k k1 k2
    rw [hid]
    rcases hl k k1 k2 l' hl' with h | ⟨l, h1, h2, h3, h4⟩ | ⟨h1, h2, h3, h4, h5⟩ | ⟨l2, h1, h2⟩
    · have := hall l' h; omega
    · have := hall l h1; rw [h2.id]; omega
    · omega
    · obtain ⟨_, _, _, _, _, h | h⟩ := h2 <;> obtain ⟨_, rfl⟩ := h
      · show s.nextId < _; omega
      · show s.nextId + 1 < _; omega
  · intro x hx
    rw [hr] at hx
    obtain ⟨r, hr1, hr2⟩ := List.mem_flatMap.mp hx
    have hri := I.rids r hr1
    rw [hid]
    rcases splitReq_cases j clo mid chi r with ⟨e, _⟩ | ⟨_, _, _, _, e⟩ <;> rw [e] at hr2
    · rw [List.mem_singleton] at hr2; subst hr2; omega
    · simp only [List.mem_cons, List.not_mem_nil, or_false] at hr2
      rcases hr2 with rfl | rfl
      · show r.id < _; omega
      · show r.id < _; omega
  · intro x hx
    rw [hr] at hx
    obtain ⟨r, hr1, hr2⟩ := List.mem_flatMap.mp hx
    have okr := I.reqs r hr1
    rcases splitReq_cases j clo mid chi r with ⟨e, hne⟩ | ⟨q1, q2, q3, q4, e⟩ <;> rw [e] at hr2
    · rw [List.mem_singleton] at hr2; subst hr2
      refine okr.keep hh ?_
      intro k k1 k2 l' hl' he hi'
      have b1 := le_trans okr.lo k1
      have b2 := lt_of_lt_of_le k2 okr.hi
      rcases hl k b1 b2 l' hl' with h | ⟨l, h1, h2, h3, h4⟩ | ⟨h1, h2, h3, h4, h5⟩ | ⟨l2, h1, h2⟩
      · exact ⟨l', h, he, hi', fun _ => Keeps.refl _ _ _⟩
      · exact ⟨l, h1, h2.ht.symm.trans he, fun a b => h2.id.symm.trans (hi' a b), fun _ => h2.keeps h4⟩
      · have := okr.ht; omega
      · have hl2 : l2.ht = x.ht := by
          have : l'.ht = l2.ht := by
            obtain ⟨_, _, _, _, _, h | h⟩ := h2 <;> obtain ⟨_, rfl⟩ := h <;> rfl
          rw [← this]; exact he
        have hx0 : x.ht ≠ 0 := by rw [← hl2, h2.1]; exact hj
        have hxc : x.phase ≠ .created := by
          intro hc
          obtain ⟨_, cc⟩ := okr.created hc
          obtain ⟨a1, a2, _⟩ := cc k k1 k2 l2 h1 hl2
          exact hne hc ⟨hl2.symm.trans h2.1, by rw [← a1]; exact h2.2.2.2.1, by rw [← a2]; exact h2.2.2.2.2.1⟩
        exact ⟨l2, h1, hl2, fun _ h0 => absurd h0 hx0, fun _ => h2.keeps c1 c2 hx0 hxc⟩
    · obtain ⟨o1, o2⟩ := okr.half hh hj q1 q2 q3 q4 c1 c2 hin
      simp only [List.mem_cons, List.not_mem_nil, or_false] at hr2
      rcases hr2 with rfl | rfl
      · exact o1
      · exact o2
  · rw [hr, List.pairwise_flatMap]
    constructor
    · intro r hr1
      rcases splitReq_cases j clo mid chi r with ⟨e, _⟩ | ⟨_, _, _, _, e⟩ <;> rw [e]
      · exact List.pairwise_singleton _ _
      · refine List.pairwise_pair.mpr ?_
        intro _ _
        exact .inl (le_refl _)
    · refine I.apart.imp ?_
      have piece : ∀ r x : Req K V, x ∈ splitReq j clo mid chi r → x.ht = r.ht ∧ x.no = r.no ∧ x.id = r.id ∧
          r.start ≤ x.start ∧ x.stop ≤ r.stop := by
        intro r x hx
        rcases splitReq_cases j clo mid chi r with ⟨e, _⟩ | ⟨_, _, q3, q4, e⟩ <;> rw [e] at hx
        · rw [List.mem_singleton] at hx; subst hx; exact ⟨rfl, rfl, rfl, le_refl _, le_refl _⟩
        · simp only [List.mem_cons, List.not_mem_nil, or_false] at hx
          rcases hx with rfl | rfl
          · exact ⟨rfl, rfl, rfl, le_refl _, by rw [q4]; exact le_of_lt c2⟩
          · exact ⟨rfl, rfl, rfl, by rw [q3]; exact le_of_lt c1, le_refl _⟩
      intro a b hab x hx y hy
      obtain ⟨x1, x2, x3, x4, x5⟩ := piece a x hx
      obtain ⟨y1, y2, y3, y4, y5⟩ := piece b y hy
      exact hab.sub x1 x2 x3 x4 x5 y1 y2 y3 y4 y5
  · intro k k1 k2
    rw [hb k k1 k2, hm]
    exact I.value k k1 k2

theorem half_branches {k : K} {l l' : Lvl K V F} {j idL idR : Nat} {clo mid chi : K}
    (h : HalfLvl j idL idR clo mid chi k l l') : l'.branches = l.branches := by
  obtain ⟨_, _, _, _, _, h | h⟩ := h <;> obtain ⟨_, rfl⟩ := h <;> rfl

theorem SameBut.branches {l l' : Lvl K V F} (h : SameBut l l') : l'.branches = l.branches := by
  unfold Lvl.branches; rw [h.whole, h.bundles]

theorem Inv.splitIndex (I : Inv L sem lo hi s hist) {j : Nat} {k : K} (k1 : lo ≤ k) (k2 : k < hi)
    (hs : doSplitIndex s j k = some s') : Inv L sem lo hi s' hist := by
  unfold doSplitIndex at hs
  split at hs
  · cases hs
  rename_i c hc
  split at hs
  · cases hs
  rename_i hj
  split at hs
  · cases hs
  rename_i root' hu
  split at hs
  · cases hs
  rename_i m hmid
  obtain rfl := Option.some.inj hs
  have g := I.good
  obtain ⟨hjh, nd, nd', nlo, nhi, u1, u2, u3, u4, u5, u6, u7, u8, u9, u10⟩ := upd_spec _ _ _ _ _ _ _ _ g k1 k2 hu
  simp only [atIndex] at u7
  obtain ⟨f1, clo, mid, chi, cd, f2, f3, f4, f5, f6, f7, _, f8, f9, f10, f11, f12, f13⟩ :=
    Good.splitChildIndex u2 u3 u4 u7
  have g' := u8 f1
  have hcd : c = cd.info := by
    have := u1.1 j (by omega)
    rw [hc, f8] at this
    exact Option.some.inj this
  subst hcd
  have hmid' : m.1.key = mid := by
    rw [hmid] at f11
    simpa using f11
  have hview : ∀ k', clo ≤ k' → k' < chi → ∃ pre l1 l1' l2 l2' r, view s.h s.root k' = pre ++ l1 :: l2 :: r ∧
      view s.h root' k' = pre ++ l1' :: l2' :: r ∧ SameBut l1 l1' ∧ l1.whole = [] ∧ l1.bundles = [] ∧
      HalfLvl j s.nextId (s.nextId + 1) clo mid chi k' l2 l2' := by
    intro k' a1 a2
    obtain ⟨l1, l1', l2, l2', r, e1, e2, e3, e4, e5, e6, e7, e8⟩ := f13 k' a1 a2
    obtain ⟨pre, p1, p2, p3⟩ := u10 k' (le_trans f4 a1) (lt_of_lt_of_le a2 f5)
    rw [e1] at p2
    rw [e7] at p3
    obtain ⟨l, r', h1, h2, _⟩ := head_facts u2 (le_trans f4 a1) (lt_of_lt_of_le a2 f5)
    rw [e1] at h1
    obtain ⟨rfl, _⟩ := List.cons.inj h1
    have hch := view_chain s.h s.root lo hi k' g (le_trans u5 (le_trans f4 a1))
      (lt_of_lt_of_le a2 (le_trans f5 u6)) pre l1 l2 r p2
    exact ⟨pre, l1, l1', l2, l2', r, p2, p3, e6, e4, e5, by omega, a1, a2, e2, e3, e8⟩
  have hout : ∀ k', lo ≤ k' → k' < hi → ¬ (clo ≤ k' ∧ k' < chi) → view s.h root' k' = view s.h s.root k' := by
    intro k' a1 a2 a3
    by_cases hh : nlo ≤ k' ∧ k' < nhi
    · obtain ⟨pre, p1, p2, p3⟩ := u10 k' hh.1 hh.2
      rw [p2, p3, f12 k' hh.1 hh.2 a3]
    · exact u9 k' a1 a2 hh
  refine I.split (s' := { s with root := root', nextId := s.nextId + 2, reqs := s.reqs.flatMap (splitReq j cd.info.lo m.1.key cd.info.hi) })
    (j := j) (clo := clo) (mid := mid) (chi := chi) hj rfl (Nat.le_refl _) rfl g' f6 f7 ?_ ?_ ?_ ?_
  · intro k' a1 a2 l' hl'
    by_cases hh : clo ≤ k' ∧ k' < chi
    · obtain ⟨pre, l1, l1', l2, l2', r, e1, e2, e3, e4, e5, e6⟩ := hview k' hh.1 hh.2
      simp only at hl'
      rw [e2] at hl'
      rw [e1]
      simp only [List.mem_append, List.mem_cons] at hl'
      rcases hl' with h | rfl | rfl | h
      · exact .inl (by simp [h])
      · exact .inr (.inl ⟨l1, by simp, e3, e4, e5⟩)
      · exact .inr (.inr (.inr ⟨l2, by simp, e6⟩))
      · exact .inl (by simp [h])
    · simp only at hl'
      rw [hout k' a1 a2 hh] at hl'
      exact .inl hl'
  · intro k' a1 a2 l' hl' he
    obtain ⟨pre, l1, l1', l2, l2', r, e1, e2, e3, e4, e5, e6⟩ := hview k' a1 a2
    have hht : l2'.ht = j := by
      obtain ⟨t, _, _, _, _, h | h⟩ := e6 <;> obtain ⟨_, rfl⟩ := h <;> exact t
    have : l' = l2' := view_unique s.h root' lo hi k' g' (le_trans u5 (le_trans f4 a1))
      (lt_of_lt_of_le a2 (le_trans f5 u6)) l' hl' l2' (by rw [e2]; simp) (he.trans hht.symm)
    subst this
    exact ⟨l2, by rw [e1]; simp, e6⟩
  · intro k' a1 a2
    by_cases hh : clo ≤ k' ∧ k' < chi
    · obtain ⟨pre, l1, l1', l2, l2', r, e1, e2, e3, e4, e5, e6⟩ := hview k' hh.1 hh.2
      simp only
      rw [e2, e1, viewBranches_append, viewBranches_append, viewBranches_cons, viewBranches_cons,
        viewBranches_cons, viewBranches_cons, e3.branches, half_branches e6]
    · simp only
      rw [hout k' a1 a2 hh]
  · simp only [f9, f10, hmid']

theorem Inv.splitRoot (I : Inv L sem lo hi s hist) (hs : doSplitRoot ops s = some s') :
    Inv L sem lo hi s' hist := by
  unfold doSplitRoot at hs
  split at hs
  · cases hs
  rename_i root' hu
  obtain rfl := Option.some.inj hs
  have g := I.good
  have hlt := g.node.lt
  obtain ⟨n1, n2, n3⟩ := Good.newRoot g ops
  unfold Trunk.splitRoot at hu
  rw [← n2 lo] at hu
  obtain ⟨f1, clo, mid, chi, cd, f2, f3, f4, f5, f6, f7, f7', f8, f9, f10, f11, f12, f13⟩ :=
    Good.splitChildIndex n1 (le_refl lo) hlt hu
  have hclo : clo = lo := le_antisymm f2 f4
  have hcr : ∀ k', clo ≤ k' → k' < chi → ∃ l1 l1' l2 l2' r, view s.h s.root k' = l2 :: r ∧
      view (s.h + 1) root' k' = l1' :: l2' :: r ∧ l1.whole = [] ∧ l1.bundles = [] ∧ SameBut l1 l1' ∧
      l1.filter = ops.empty ∧ l1.ht = s.h + 1 ∧ l1.id = s.root.id ∧ l1.plo = lo ∧ l1.phi = hi ∧
      HalfLvl s.h s.nextId (s.nextId + 1) clo mid chi k' l2 l2' := by
    intro k' a1 a2
    obtain ⟨l1, l1', l2, l2', r, e1, e2, e3, e4, e5, e6, e7, e8⟩ := f13 k' a1 a2
    rw [n3 k'] at e1
    obtain ⟨e9, e10⟩ := List.cons.inj e1
    obtain ⟨l, r', h1, h2, _⟩ := head_facts g (le_trans f4 a1) (lt_of_lt_of_le a2 f5)
    rw [e10] at h1
    obtain ⟨rfl, _⟩ := List.cons.inj h1
    exact ⟨l1, l1', l2, l2', r, e10, e7, e4, e5, e6, by rw [← e9], by rw [← e9], by rw [← e9], by rw [← e9],
      by rw [← e9], h2, a1, a2, e2, e3, e8⟩
  have hchi : chi = hi := by
    obtain ⟨l1, l1', l2, l2', r, e1, e2, e3, e4, e5, e6, e7, e8, e9, e10, e11⟩ := hcr lo f2 f3
    obtain ⟨l, r', h1, h2, h3, h4, h5, h6, _⟩ := head_facts g (le_refl lo) hlt
    rw [e1] at h1
    obtain ⟨rfl, _⟩ := List.cons.inj h1
    rw [← h6]; exact e11.2.2.2.2.1.symm
  subst hclo hchi
  refine I.split (s' := { s with h := s.h + 1, root := root', nextId := s.nextId + 2 })
    (j := s.h) (clo := clo) (mid := mid) (chi := chi) f7' rfl (Nat.le_succ _) rfl f1 f6 f7 ?_ ?_ ?_ ?_
  · intro k' a1 a2 l' hl'
    obtain ⟨l1, l1', l2, l2', r, e1, e2, e3, e4, e5, e6, e7, e8, e9, e10, e11⟩ := hcr k' a1 a2
    simp only at hl'
    rw [e2] at hl'
    rw [e1]
    rcases List.mem_cons.mp hl' with rfl | h
    · refine .inr (.inr (.inl ⟨e5.whole.trans e3, e5.bundles.trans e4, e5.filter.trans e6, ?_, ?_⟩))
      · rw [e5.ht, e7]; omega
      · rw [e5.id, e8]
        obtain ⟨l, r', h1, h2, h3, _⟩ := head_facts g (le_refl clo) hlt
        rw [← h3]
        exact I.ids clo (le_refl _) hlt l (by rw [h1]; simp)
    · rcases List.mem_cons.mp h with rfl | h
      · exact .inr (.inr (.inr ⟨l2, List.mem_cons_self, e11⟩))
      · exact .inl (List.mem_cons_of_mem _ h)
  · intro k' a1 a2 l' hl' he
    obtain ⟨l1, l1', l2, l2', r, e1, e2, e3, e4, e5, e6, e7, e8, e9, e10, e11⟩ := hcr k' a1 a2
    have hht : l2'.ht = s.h := by
      obtain ⟨t, _, _, _, _, h | h⟩ := e11 <;> obtain ⟨_, rfl⟩ := h <;> exact t
    have : l' = l2' := view_unique (s.h + 1) root' clo chi k' f1 a1 a2 l' hl' l2' (by rw [e2]; simp) (he.trans hht.symm)
    subst this
    exact ⟨l2, by rw [e1]; simp, e11⟩
  · intro k' a1 a2
    obtain ⟨l1, l1', l2, l2', r, e1, e2, e3, e4, e5, e6, e7, e8, e9, e10, e11⟩ := hcr k' a1 a2
    simp only
    rw [e2, e1, viewBranches_cons, viewBranches_cons, viewBranches_cons, e5.branches, half_branches e11]
    have : l1.branches = [] := by unfold Lvl.branches; rw [e3, e4]; rfl
    rw [this, List.append_nil]
  · simp only
    have : ∀ (l : List (Req K V)), (∀ r ∈ l, r.phase = .created → r.ht < s.h) →
        l.flatMap (splitReq s.h clo mid chi) = l := by
      intro l
      induction l with
      | nil => intro _; rfl
      | cons a l ih =>
        intro h
        rw [List.flatMap_cons, ih (fun r hr => h r (List.mem_cons_of_mem _ hr))]
        rcases splitReq_cases s.h clo mid chi a with ⟨e, _⟩ | ⟨q1, q2, _⟩
        · rw [e]; rfl
        · have := h a List.mem_cons_self q1
          omega
    exact (this s.reqs (fun r hr hc => ((I.reqs r hr).created hc).1)).symm

end Splinter.Trunk
