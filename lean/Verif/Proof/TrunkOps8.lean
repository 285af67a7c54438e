import Verif.Proof.TrunkOps7
/-!
Replacing a bundle by its compaction, and building filters.
-/
namespace Splinter.Trunk
open Splinter.Merge (SortedRun)
open Splinter.Spec (msgsOf actAll eval act UpdateSem Implements)
set_option linter.unusedSectionVars false

variable {K V F C : Type} [LinearOrder K] {ops : FilterOps K F} {L : FilterLaws ops} {sem : UpdateSem K V}
  {cfg : DataCfg K V} {lo hi : K} {s s' : State K V F} {hist : K → List (Msg V)}

/-- The node a request works on next. -/
theorem locate (I : Inv L sem lo hi s hist) {r : Req K V} (hr : r ∈ s.reqs) (p1 : r.start ≤ r.cur)
    (p2 : r.cur < r.stop) {n : NodeInfo K V F} (hn : nodeAt r.ht r.cur s.h s.root = some n)
    (hid : ¬ (r.ht = 0 ∧ n.id ≠ r.id)) :
    ∃ (nd : Node K V F (Sub K V F r.ht)) (nhi : K), n = nd.info ∧ Good r.ht nd r.cur nhi ∧ r.cur < nhi ∧ nhi ≤ r.stop ∧
      n.hi = nhi ∧
      (∀ k, r.cur ≤ k → k < nhi → ∃ pre p c ph rs, view s.h s.root k = pre ++ mkLvl r.ht nd p ph :: rs ∧
        routeL nd.maxKey k nd.pivots = some (p, c, ph) ∧ r.at (mkLvl r.ht nd p ph) ∧
        (∀ x ∈ pre, r.ht < x.ht) ∧ (∀ x ∈ rs, x.ht < r.ht)) ∧
      (∀ k, nhi ≤ k → k < r.stop → ∀ l ∈ view s.h s.root k, r.at l → nhi ≤ l.nlo) := by
  have okr := I.reqs r hr
  have g := I.good
  have c1 := le_trans okr.lo p1
  have c2 := lt_of_lt_of_le p2 okr.hi
  obtain ⟨nd, nlo, nhi, e1, e2, e3, e4, e5, e6, e7⟩ := nodeAt_spec r.ht r.cur s.h s.root lo hi g c1 c2 okr.ht
  rw [hn] at e1
  obtain rfl := Option.some.inj e1
  have hid' : r.ht = 0 → nd.id = r.id := fun h0 => by
    by_contra hne; exact hid ⟨h0, hne⟩
  have hall : ∀ k, nlo ≤ k → k < nhi → ∃ pre p c ph rs, view s.h s.root k = pre ++ mkLvl r.ht nd p ph :: rs ∧
        routeL nd.maxKey k nd.pivots = some (p, c, ph) ∧ r.at (mkLvl r.ht nd p ph) ∧
        (∀ x ∈ pre, r.ht < x.ht) ∧ (∀ x ∈ rs, x.ht < r.ht) := by
    intro k k1 k2
    obtain ⟨p, c, ph, rest, h1, h2, h3⟩ := view_cons r.ht nd nlo nhi k e2 k1 k2
    obtain ⟨pre, q1, q2⟩ := e7 k k1 k2
    exact ⟨pre, p, c, ph, rest, by rw [q2, h2], h1, ⟨rfl, hid'⟩, q1, h3⟩
  obtain ⟨pre, p, c, ph, rs, h1, h2, h3, h4, h5⟩ := hall r.cur e3 e4
  have hmem : mkLvl r.ht nd p ph ∈ view s.h s.root r.cur := by rw [h1]; simp
  obtain ⟨b1, b2, b3⟩ := okr.bound r.cur p1 p2 _ hmem h3
  have hlo : (mkLvl r.ht nd p ph).nlo = nlo := e2.node.hmin
  have hhi : (mkLvl r.ht nd p ph).nhi = nhi := e2.node.hmax
  have hnlo : nlo = r.cur := le_antisymm e3 (hlo ▸ b3 (le_refl _))
  subst hnlo
  refine ⟨nd, nhi, rfl, e2, e4, hhi ▸ b2, e2.node.hmax, hall, ?_⟩
  intro k k1 k2 l hl ha
  rw [← hhi]
  have := view_sep (l := mkLvl r.ht nd p ph) g c1 c2 (le_trans c1 (le_trans (le_of_lt e4) k1)) (lt_of_lt_of_le k2 okr.hi) hmem hl
    ha.1.symm (by rw [hhi]; exact k1)
  exact this

theorem countTo_full {out : Branch K V} {lo hi cur : K} (h : hi ≤ cur) : countTo out lo hi cur = countIn out lo hi := by
  unfold countTo countIn
  congr 1
  apply List.filter_congr
  intro x _
  by_cases h1 : x.1 < hi
  · simp [h1, lt_of_lt_of_le h1 h]
  · simp [h1]

/-- The counts after a node was passed. -/
theorem record_counts (I : Inv L sem lo hi s hist) {r : Req K V} (hr : r ∈ s.reqs) {out : Branch K V} {full : Bool}
    {cur : K} (hp : r.phase = .compacted out full cur)
    {nd : Node K V F (Sub K V F r.ht)} {nhi : K} (gn : Good r.ht nd cur nhi) (hc : cur < nhi) (hn : nhi ≤ r.stop)
    (hv : ∀ k, cur ≤ k → k < nhi → ∃ pre p c ph rs, view s.h s.root k = pre ++ mkLvl r.ht nd p ph :: rs ∧
        routeL nd.maxKey k nd.pivots = some (p, c, ph) ∧ r.at (mkLvl r.ht nd p ph) ∧
        (∀ x ∈ pre, r.ht < x.ht) ∧ (∀ x ∈ rs, x.ht < r.ht)) :
    ∀ (i : Nat) g, r.rngs[i]? = some g →
      (nd.bundles.any (fun b => b.no == r.no) = true →
        (r.record nd.info out).cnts[i]? = some (countTo out g.2.1 g.2.2 nhi)) ∧
      (nd.bundles.any (fun b => b.no == r.no) = false → r.cnts[i]? = some (countTo out g.2.1 g.2.2 nhi)) := by
  intro i g hg
  have okr := I.reqs r hr
  have hph := okr.phase
  unfold PhaseInv at hph
  rw [hp] at hph
  obtain ⟨p1, p2, p4⟩ := hph
  have hcnt := p4.counts i g hg
  -- an output key in this node's range makes its pivot live
  have hlive : ∀ x ∈ out, cur ≤ x.1 → x.1 < nhi → ∃ p c ph, routeL nd.maxKey x.1 nd.pivots = some (p, c, ph) ∧
      (p, ph) ∈ nd.info.pivots ∧ (p.gen, p.key, ph) ∈ r.rngs ∧ p.key ≤ x.1 ∧ x.1 < ph ∧
      ∃ b ∈ nd.bundles.drop p.bskip, b.no = r.no := by
    intro x hx x1 x2
    obtain ⟨pre, p, c, ph, rs, h1, h2, h3, h4, h5⟩ := hv x.1 x1 x2
    obtain ⟨q1, q2, q3, _⟩ := pivots_mem gn.node x1 x2 h2
    have hmem : mkLvl r.ht nd p ph ∈ view s.h s.root x.1 := by rw [h1]; simp
    have k1 := le_trans p1 x1
    have k2 := lt_of_lt_of_le x2 hn
    obtain ⟨b, hb, hbn⟩ := okr.fresh x.1 k1 k2 (by
      unfold Req.pending; rw [hp]
      exact ⟨x1, by rw [get_of_mem p4.sorted hx]; simp⟩) _ hmem h3
    exact ⟨p, c, ph, h2, q1, okr.rng x.1 k1 k2 _ hmem h3 b hb hbn, q2, q3, b, hb, hbn⟩
  -- if no live pivot of this node has the range, the count does not change
  have hsame : (∀ x ∈ out, cur ≤ x.1 → x.1 < nhi → g.2.1 ≤ x.1 → x.1 < g.2.2 → False) →
      countTo out g.2.1 g.2.2 cur = countTo out g.2.1 g.2.2 nhi := by
    intro hno
    unfold countTo
    congr 1
    apply List.filter_congr
    intro x hx
    simp only [decide_eq_decide]
    constructor
    · rintro ⟨a, b, c⟩; exact ⟨a, b, lt_trans c hc⟩
    · rintro ⟨a, b, c⟩
      refine ⟨a, b, ?_⟩
      by_contra hcc
      exact hno x hx (not_lt.mp hcc) c a b
  have hgm := List.mem_of_getElem? hg
  constructor
  · intro hany
    obtain ⟨b, hb, hbn⟩ := findIdx_spec hany
    -- live pivots of this node have their range in the request
    have hx : ∀ x ∈ nd.info.pivots, x.1.bskip ≤ nd.bundles.findIdx (fun b => b.no == r.no) →
        (x.1.gen, x.1.key, x.2) ∈ r.rngs ∧ x.2 ≤ nhi := by
      intro x hx hsk
      have hrg := (withHi_ranges (mx := nd.maxKey) (l := nd.pivots) (by rw [gn.node.hmax]; exact gn.node.sorted)).2 x hx
      rw [← keyAt_zero, gn.node.hmin, gn.node.hmax] at hrg
      have k1 := hrg.1
      have k2 := lt_of_lt_of_le hrg.2.1 hrg.2.2
      obtain ⟨pre, p, c, ph, rs, h1, h2, h3, h4, h5⟩ := hv x.1.key k1 k2
      obtain ⟨q1, q2, q3, q4⟩ := pivots_mem gn.node k1 k2 h2
      have hxe := q4 x hx (le_refl _) hrg.2.1
      have hmem : mkLvl r.ht nd p ph ∈ view s.h s.root x.1.key := by rw [h1]; simp
      refine ⟨?_, hrg.2.2⟩
      have hbd := (live_iff gn.node (m := x.1.bskip) hb hbn).2 hsk
      subst hxe
      exact okr.rng _ (le_trans p1 k1) (lt_of_lt_of_le k2 hn) _ hmem h3 b hbd hbn
    unfold Req.record
    simp only
    by_cases hex : ∃ x ∈ nd.info.pivots, x.1.bskip ≤ nd.info.bundles.findIdx (fun b => b.no == r.no) ∧ r.pos x.1.gen = i
    · have hw : ∀ x ∈ nd.info.pivots, x.1.bskip ≤ nd.info.bundles.findIdx (fun b => b.no == r.no) → r.pos x.1.gen = i →
          countIn out x.1.key x.2 = countTo out g.2.1 g.2.2 nhi := by
        intro x hxm hsk hpos
        obtain ⟨hm, hle⟩ := hx x hxm hsk
        have := pos_of_mem okr.gens hm
        simp only [hpos] at this
        rw [hg] at this
        obtain rfl := Option.some.inj this
        exact (countTo_full hle).symm
      refine foldl_set_some _ _ _ _ _ _ _ ?_ hex hw
      rw [okr.len]
      exact (List.getElem?_eq_some_iff.mp hg).1
    · have hno : ∀ x ∈ nd.info.pivots, x.1.bskip ≤ nd.info.bundles.findIdx (fun b => b.no == r.no) → r.pos x.1.gen ≠ i :=
        fun x hx hsk hpos => hex ⟨x, hx, hsk, hpos⟩
      refine (foldl_set_none _ _ _ _ _ _ hno).trans ?_
      rw [hcnt, hsame]
      intro x hxo x1 x2 x3 x4
      obtain ⟨p, c, ph, a1, a2, a3, a4, a5, b', hb', hbn'⟩ := hlive x hxo x1 x2
      have hge : (p.gen, p.key, ph) = g := rngs_unique okr.rngs a3 hgm a4 a5 x3 x4
      have hpos := pos_of_mem okr.gens a3
      refine hno (p, ph) a2 ((live_iff gn.node hb hbn).1 b' hb' hbn').2 ?_
      -- the position of the generation is `i`
      have hgi := List.getElem?_eq_some_iff.mp hg
      have hpi := List.getElem?_eq_some_iff.mp hpos
      obtain ⟨j1, j2⟩ := hgi
      obtain ⟨j3, j4⟩ := hpi
      have : (r.rngs.map (·.1))[r.pos p.gen]'(by simpa using j3) = (r.rngs.map (·.1))[i]'(by simpa using j1) := by
        rw [List.getElem_map, List.getElem_map, j2, j4, hge]
      exact (List.getElem_inj okr.gens).mp this
  · intro hany
    rw [hcnt, hsame]
    intro x hxo x1 x2 _ _
    obtain ⟨p, c, ph, a1, a2, a3, a4, a5, b', hb', hbn'⟩ := hlive x hxo x1 x2
    have := List.any_eq_false.mp hany b' (List.mem_of_mem_drop hb')
    simp [hbn'] at this

theorem Apart.shrink {a b : Req K V} (h : Apart a b) {nlo : K} {ph : Phase K V} (hs : b.start ≤ nlo) :
    Apart a { b with start := nlo, phase := ph } := by
  intro h1 h2
  rcases h h1 h2 with h' | h' | h'
  · exact .inl (le_trans h' hs)
  · exact .inr (.inl h')
  · exact .inr (.inr h')

theorem apart_shrink {l : List (Req K V)} (hl : l.Pairwise Apart) {i : Nat} {r : Req K V} (hr : l[i]? = some r) {nlo : K}
    {ph : Phase K V} (hs : r.start ≤ nlo) : (l.set i { r with start := nlo, phase := ph }).Pairwise Apart := by
  rw [List.pairwise_iff_getElem] at hl ⊢
  intro a b ha hb hab
  rw [List.length_set] at ha hb
  obtain ⟨hi1, hi2⟩ := List.getElem?_eq_some_iff.mp hr
  have h0 := hl a b ha hb hab
  rw [List.getElem_set, List.getElem_set]
  split
  · rename_i e
    subst e
    rw [if_neg (by omega)]
    rw [hi2] at h0
    exact (h0.symm.shrink hs).symm
  · split
    · rename_i e
      subst e
      rw [hi2] at h0
      exact h0.shrink hs
    · exact h0

theorem Inv.shrinkReq (I : Inv L sem lo hi s hist) {i : Nat} {r : Req K V} (hr : s.reqs[i]? = some r) {nlo : K}
    {ph : Phase K V} (hs : r.start ≤ nlo)
    (ok : ReqOk sem lo hi s.h (view s.h s.root) { r with start := nlo, phase := ph }) :
    Inv L sem lo hi { s with reqs := s.reqs.set i { r with start := nlo, phase := ph } } hist := by
  refine ⟨I.pos, I.good, I.memsNe, I.mems, I.lvls, I.ids, fun x hx => ?_, fun x hx => ?_, apart_shrink I.apart hr hs, I.value⟩
  · rcases List.mem_or_eq_of_mem_set hx with h | rfl
    · exact I.rids x h
    · exact I.rids r (List.mem_of_getElem? hr)
  · rcases List.mem_or_eq_of_mem_set hx with h | rfl
    · exact I.reqs x h
    · exact ok

/-- A bundle that vanishes is the newest of its node. -/
def VanishLegal (s : State K V F) (i : Nat) : Prop :=
  ∀ r full cur, s.reqs[i]? = some r → r.phase = .compacted [] full cur →
    ∀ n, nodeAt r.ht cur s.h s.root = some n → (r.ht = 0 → n.id = r.id) →
      n.bundles.any (fun b => b.no == r.no) = true → n.endB = r.no + 1

theorem Inv.vanish (I : Inv L sem lo hi s hist) {i : Nat} {r : Req K V} (hr : s.reqs[i]? = some r) {full : Bool} {cur : K}
    (hp : r.phase = .compacted [] full cur) (p1 : r.start ≤ cur) (p2 : cur < r.stop)
    {nd : Node K V F (Sub K V F r.ht)} {nhi : K} (hn : nodeAt r.ht cur s.h s.root = some nd.info)
    (gn : Good r.ht nd cur nhi) (hlt : cur < nhi) (hle : nhi ≤ r.stop)
    (hv : ∀ k, cur ≤ k → k < nhi → ∃ pre p c ph rs, view s.h s.root k = pre ++ mkLvl r.ht nd p ph :: rs ∧
        routeL nd.maxKey k nd.pivots = some (p, c, ph) ∧ r.at (mkLvl r.ht nd p ph) ∧
        (∀ x ∈ pre, r.ht < x.ht) ∧ (∀ x ∈ rs, x.ht < r.ht))
    (hsep : ∀ k, nhi ≤ k → k < r.stop → ∀ l ∈ view s.h s.root k, r.at l → nhi ≤ l.nlo)
    (hany : nd.bundles.any (fun b => b.no == r.no) = true) (hend : nd.endB = r.no + 1)
    {root' : Node K V F (Sub K V F s.h)} (hu : upd r.ht cur (fun _ n => some (n.vanish r.no)) s.h s.root = some root') :
    Inv L sem lo hi { s with root := root', reqs :=
      (if nhi < r.stop then s.reqs.set i { r with start := nhi, phase := .compacted [] full nhi }
      else s.reqs.eraseIdx i) } hist := by
  have hrm := List.mem_of_getElem? hr
  have okr := I.reqs r hrm
  obtain ⟨u0, md, md', mlo, mhi, ⟨_, _, u1⟩, u2, u3, u4, u5, u6, u7, u8, u9, u10⟩ :=
    upd_spec r.ht cur _ s.h s.root root' lo hi I.good (le_trans okr.lo p1) (lt_of_lt_of_le p2 okr.hi) hu
  rw [hn] at u1
  have hinfo := Option.some.inj u1
  obtain rfl := Option.some.inj u7
  obtain rfl : mlo = cur := by
    rw [← u2.node.hmin, ← gn.node.hmin]; exact (congrArg NodeInfo.lo hinfo).symm
  obtain rfl : mhi = nhi := by
    rw [← u2.node.hmax, ← gn.node.hmax]; exact (congrArg NodeInfo.hi hinfo).symm
  have hmb : md.bundles = nd.bundles := (congrArg NodeInfo.bundles hinfo).symm
  have hme : md.endB = r.no + 1 := (congrArg NodeInfo.endB hinfo).symm.trans hend
  obtain ⟨gm, hgm⟩ := u2.vanish hme (by rw [hmb]; exact hany)
  have hloc : Local s root' lo hi r.ht mlo mhi (fun l => l.vanish r.no) := by
    refine ⟨u5, u6, u8 gm, u9, ?_, fun _ => ⟨rfl, rfl⟩⟩
    intro k k1 k2
    obtain ⟨pre, q1, q2, q3⟩ := u10 k k1 k2
    obtain ⟨l, rs, h1, h2, _, _, _, _, _, h3⟩ := head_facts u2 k1 k2
    exact ⟨pre, l, rs, q1, by rw [q2, h1], by rw [q3, hgm k k1 k2 l rs h1], h2, h3⟩
  have hat : ∀ k, mlo ≤ k → k < mhi → ∀ l ∈ view s.h s.root k, l.ht = r.ht → r.at l ∧ l.endB = r.no + 1 := by
    intro k k1 k2 l hl he
    obtain ⟨pre, p, c, ph, rs, h1, h2, h3, _⟩ := hv k k1 k2
    have : l = mkLvl r.ht nd p ph := view_unique s.h s.root lo hi k I.good (le_trans u5 k1) (lt_of_lt_of_le k2 u6) l hl _
      (by rw [h1]; simp) (he.trans h3.1.symm)
    rw [this]; exact ⟨h3, hend⟩
  have hother : ∀ x q, q ≠ i → s.reqs[q]? = some x → ReqOk sem lo hi s.h (view s.h root') x := by
    intro x q hne hq
    refine hloc.keep I (List.mem_of_getElem? hq) ?_
    intro k k1 k2 k3 k4 l hl he hxe hidx
    refine keeps_vanish (hat k k1 k2 l hl he).2 ?_
    exact other_no I hr hq hne (le_trans p1 k1) (lt_of_lt_of_le k2 hle) k3 k4 hl (he.trans hxe.symm)
      (hat k k1 k2 l hl he).1 hidx
  refine hloc.inv I ?_ ?_ ?_ ?_ ?_
  · intro k k1 k2 l hl he hok
    exact hok.vanish r.no
  · intro k k1 k2 pre l rs hvk he hrs
    have hl : l ∈ view s.h s.root k := by rw [hvk]; simp
    have hwf := view_wf s.h s.root lo hi k I.good (le_trans u5 k1) (lt_of_lt_of_le k2 u6) l hl
    refine vanish_value (full := full) hwf.nos ?_ (by rw [he]; exact hrs) ?_
    · intro b hb
      have := hwf.noLt b hb
      rw [(hat k k1 k2 l hl he).2] at this
      omega
    · intro b hb hno
      have := okr.live k (le_trans p1 k1) (lt_of_lt_of_le k2 hle) l hl (hat k k1 k2 l hl he).1 b hb hno
      unfold PhaseOk at this
      rw [hp] at this
      simp only at this
      rw [if_pos k1] at this
      exact this
  · intro x hx
    split at hx
    · rcases mem_set_cases hx with rfl | ⟨q, _, hq⟩
      · exact I.rids r hrm
      · exact I.rids x (List.mem_of_getElem? hq)
    · exact I.rids x (List.mem_of_mem_eraseIdx hx)
  · intro x hx
    split at hx
    · rename_i hst
      rcases mem_set_cases hx with rfl | ⟨q, hne, hq⟩
      · refine okr.shrink (v := view s.h s.root) hp hlt hst ?_ hsep
        intro k k1 k2
        exact u9 k (le_trans u5 (le_trans (le_of_lt hlt) k1)) (lt_of_lt_of_le k2 okr.hi)
          (fun h => absurd (lt_of_lt_of_le h.2 k1) (lt_irrefl _))
      · exact hother x q hne hq
    · obtain ⟨q, hq⟩ := List.getElem?_of_mem hx
      rw [List.getElem?_eraseIdx] at hq
      split at hq
      · exact hother x q (by omega) hq
      · exact hother x (q + 1) (by omega) hq
  · split
    · exact apart_shrink I.apart hr (le_trans p1 (le_of_lt hlt))
    · exact I.apart.sublist (List.eraseIdx_sublist _ _)

theorem Inv.replace (I : Inv L sem lo hi s hist) {i : Nat} (hleg : VanishLegal s i) (hs : doReplace s i = some s') :
    Inv L sem lo hi s' hist := by
  unfold doReplace at hs
  split at hs
  · cases hs
  rename_i r hr
  have hrm := List.mem_of_getElem? hr
  have okr := I.reqs r hrm
  split at hs
  swap
  · cases hs
  rename_i out full cur hp
  have hcur : r.cur = cur := by unfold Req.cur; rw [hp]
  have hph := okr.phase
  unfold PhaseInv at hph
  rw [hp] at hph
  obtain ⟨p1, p2, p4⟩ := hph
  split at hs
  · cases hs
  rename_i n hn
  split at hs
  · obtain rfl := Option.some.inj hs
    exact I.erase i
  rename_i hid
  obtain ⟨nd, nhi, rfl, gn, hlt, hle, hhi, hv, hsep⟩ := locate I hrm (by rw [hcur]; exact p1) (by rw [hcur]; exact p2)
    (by rw [hcur]; exact hn) hid
  rw [hcur] at gn hlt hv
  have hcnts := record_counts I hrm hp gn hlt hle hv
  simp only [hhi] at hs
  split at hs
  · rename_i hemp
    obtain rfl := List.isEmpty_iff.mp hemp
    split at hs
    · rename_i hany
      split at hs
      · cases hs
      rename_i root' hu
      obtain rfl := Option.some.inj hs
      exact I.vanish hr hp p1 p2 hn gn hlt hle hv hsep hany
        (hleg r full cur hr hp _ hn (fun h0 => by by_contra hne; exact hid ⟨h0, hne⟩) hany) hu
    · split at hs
      · cases hs
      obtain rfl := Option.some.inj hs
      split
      · rename_i hst
        exact I.shrinkReq hr (le_trans p1 (le_of_lt hlt)) (okr.shrink hp hlt hst (fun _ _ _ => rfl) hsep)
      · exact I.erase i
  have hlen : (r.record nd.info out).cnts.length = r.cnts.length := foldl_set_length _ _ _ _ _
  split at hs
  · rename_i hany
    split at hs
    · cases hs
    rename_i root' hu
    obtain rfl := Option.some.inj hs
    obtain ⟨u0, md, md', mlo, mhi, ⟨_, _, u1⟩, u2, u3, u4, u5, u6, u7, u8, u9, u10⟩ :=
      upd_spec r.ht cur _ s.h s.root root' lo hi I.good (le_trans okr.lo p1) (lt_of_lt_of_le p2 okr.hi) hu
    rw [hn] at u1
    have hinfo := Option.some.inj u1
    obtain rfl := Option.some.inj u7
    obtain rfl : mlo = cur := by
      rw [← u2.node.hmin, ← gn.node.hmin]; exact (congrArg NodeInfo.lo hinfo).symm
    obtain rfl : mhi = nhi := by
      rw [← u2.node.hmax, ← gn.node.hmax]; exact (congrArg NodeInfo.hi hinfo).symm
    obtain ⟨gm, hgm⟩ := u2.replaceBundle (no := r.no) (out := out) p4.sorted
    have hloc : Local s root' lo hi r.ht mlo mhi (fun l => l.replaceBundle r.no out) := by
      refine ⟨u5, u6, u8 gm, u9, ?_, fun _ => ⟨rfl, rfl⟩⟩
      intro k k1 k2
      obtain ⟨pre, q1, q2, q3⟩ := u10 k k1 k2
      obtain ⟨l, rs, h1, h2, _, _, _, _, _, h3⟩ := head_facts u2 k1 k2
      exact ⟨pre, l, rs, q1, by rw [q2, h1], by rw [q3, hgm k k1 k2 l rs h1], h2, h3⟩
    have hat : ∀ k, mlo ≤ k → k < mhi → ∀ l ∈ view s.h s.root k, l.ht = r.ht → r.at l := by
      intro k k1 k2 l hl he
      obtain ⟨pre, p, c, ph, rs, h1, h2, h3, _⟩ := hv k k1 k2
      have : l = mkLvl r.ht nd p ph := view_unique s.h s.root lo hi k I.good (le_trans u5 k1) (lt_of_lt_of_le k2 u6) l hl _
        (by rw [h1]; simp) (he.trans h3.1.symm)
      rw [this]; exact h3
    have hcomp : ∀ k, mlo ≤ k → k < mhi → ∀ l ∈ view s.h s.root k, l.ht = r.ht → ∀ b ∈ l.bundles, b.no = r.no →
        CompOk sem k out full l b := by
      intro k k1 k2 l hl he b hb hno
      have := okr.live k (le_trans p1 k1) (lt_of_lt_of_le k2 hle) l hl (hat k k1 k2 l hl he) b hb hno
      unfold PhaseOk at this
      rw [hp] at this
      simp only at this
      rw [if_pos k1] at this
      exact this
    refine hloc.inv I ?_ ?_ ?_ ?_ ?_
    · intro k k1 k2 l hl he hok
      exact hok.replaceBundle r.no out (fun b hb hno => (hcomp k k1 k2 l hl he b hb hno).sub)
    · intro k k1 k2 pre l rs hvk he hrs
      have hl : l ∈ view s.h s.root k := by rw [hvk]; simp
      have hwf := view_wf s.h s.root lo hi k I.good (le_trans u5 k1) (lt_of_lt_of_le k2 u6) l hl
      exact replace_value hwf.nos (by rw [he]; exact hrs) (hcomp k k1 k2 l hl he)
    · intro x hx
      rcases mem_set_cases hx with rfl | ⟨q, _, hq⟩
      · exact I.rids r hrm
      · exact I.rids x (List.mem_of_getElem? hq)
    · intro x hx
      rcases mem_set_cases hx with rfl | ⟨q, hne, hq⟩
      · refine okr.advance (v := view s.h s.root) hp hlt hle ?_ ?_ hsep hlen (fun i g hg => (hcnts i g hg).1 hany)
        · intro k k1 k2 hk
          exact u9 k (le_trans okr.lo k1) (lt_of_lt_of_le k2 okr.hi) hk
        · intro k k1 k2 l' hl' he
          obtain ⟨l, hl, a1, a2, _, a4⟩ := hloc.level (le_trans u5 k1) (lt_of_lt_of_le k2 u6) hl'
          have := a4 (a1 ▸ he) k1 k2
          subst this
          refine ⟨l, hl, rfl, rfl, rfl, rfl, rfl, rfl, rfl, rfl, ?_⟩
          intro b hb hno
          simp only [Lvl.replaceBundle, List.mem_map] at hb
          obtain ⟨b0, hb0, rfl⟩ := hb
          rw [repl_no] at hno
          refine ⟨⟨b0, hb0, hno⟩, b0.sbs.flatMap (·.filters), ?_⟩
          unfold repl
          rw [if_pos (by simpa using hno)]
          rfl
      · refine hloc.keep I (List.mem_of_getElem? hq) ?_
        intro k k1 k2 k3 k4 l hl he hxe hidx
        refine keeps_replace ?_
        exact other_no I hr hq hne (le_trans p1 k1) (lt_of_lt_of_le k2 hle) k3 k4 hl (he.trans hxe.symm)
          (hat k k1 k2 l hl he) hidx
    · exact apart_set I.apart hr rfl
  · rename_i hany
    split at hs
    · cases hs
    obtain rfl := Option.some.inj hs
    have hany' : nd.bundles.any (fun b => b.no == r.no) = false := by
      exact Bool.eq_false_iff.mpr hany
    refine I.setReq hr rfl ?_
    refine okr.advance (v := view s.h s.root) (cs := r.cnts) hp hlt hle (fun _ _ _ _ => rfl) ?_ hsep rfl (fun i g hg => (hcnts i g hg).2 hany')
    intro k k1 k2 l hl he
    refine ⟨l, hl, rfl, rfl, rfl, rfl, rfl, rfl, rfl, rfl, ?_⟩
    intro b hb hno
    obtain ⟨pre, p, c, ph, rs, h1, h2, h3, _⟩ := hv k k1 k2
    have : l = mkLvl r.ht nd p ph := view_unique s.h s.root lo hi k I.good (le_trans (le_trans okr.lo p1) k1)
      (lt_of_lt_of_le k2 (le_trans hle okr.hi)) l hl _ (by rw [h1]; simp) (he.trans h3.1.symm)
    subst this
    have := List.any_eq_false.mp hany' b (List.mem_of_mem_drop hb)
    simp [hno] at this

/-- Past one node while building filters. -/
theorem ReqOk.advanceF {h : Nat} {v : K → List (Lvl K V F)} {r : Req K V} {out : Branch K V} {cur nhi : K}
    (ok : ReqOk sem lo hi h v r) (hp : r.phase = .filters out cur) (hc : cur < nhi) (hn : nhi < r.stop)
    (hsep : ∀ k, nhi ≤ k → k < r.stop → ∀ l ∈ v k, r.at l → nhi ≤ l.nlo) :
    ReqOk sem lo hi h v { r with phase := .filters out nhi } := by
  have hph := ok.phase
  unfold PhaseInv at hph
  rw [hp] at hph
  obtain ⟨p1, p2, p4⟩ := hph
  refine { lo := ok.lo, hi := ok.hi, lt := ok.lt, ht := ok.ht, gens := ok.gens, rngs := ok.rngs, len := ok.len,
           phase := ⟨le_trans p1 (le_of_lt hc), hn, ⟨p4.sorted, p4.cover, p4.counts⟩⟩, noLt := ok.noLt, rng := ok.rng,
           live := ?_, fresh := ?_, bound := ?_, created := fun h => by cases h }
  · intro k k1 k2 l hl ha b hb hno hk
    have := ok.live k k1 k2 l hl ha b hb hno
    unfold PhaseOk at this
    rw [hp] at this
    exact this (le_trans (le_of_lt hc) hk)
  · intro k k1 k2 hpend; exact hpend.elim
  · intro k k1 k2 l hl ha
    obtain ⟨b1, b2, b3⟩ := ok.bound k k1 k2 l hl ha
    exact ⟨b1, b2, fun hk => hsep k hk k2 l hl ha⟩

theorem Inv.filters (I : Inv L sem lo hi s hist) {i : Nat} (hs : doFilters ops s i = some s') :
    Inv L sem lo hi s' hist := by
  unfold doFilters at hs
  split at hs
  · cases hs
  rename_i r hr
  have hrm := List.mem_of_getElem? hr
  have okr := I.reqs r hrm
  split at hs
  swap
  · cases hs
  rename_i out cur hp
  have hcur : r.cur = cur := by unfold Req.cur; rw [hp]
  have hph := okr.phase
  unfold PhaseInv at hph
  rw [hp] at hph
  obtain ⟨p1, p2, p4⟩ := hph
  split at hs
  · cases hs
  rename_i n hn
  simp only at hs
  split at hs
  · obtain rfl := Option.some.inj hs
    exact I.erase i
  rename_i hid
  obtain ⟨nd, nhi, rfl, gn, hlt, hle, hhi, hv, hsep⟩ := locate I hrm (by rw [hcur]; exact p1) (by rw [hcur]; exact p2)
    (by rw [hcur]; exact hn) hid
  rw [hcur] at gn hlt hv
  simp only [hhi] at hs
  split at hs
  swap
  · obtain rfl := Option.some.inj hs
    split
    · rename_i hst
      exact I.setReq hr rfl (okr.advanceF hp hlt hst hsep)
    · exact I.erase i
  split at hs
  · cases hs
  rename_i b0 rest hbs
  split at hs
  · obtain rfl := Option.some.inj hs
    exact I
  rename_i hb0
  rw [not_not] at hb0
  split at hs
  · cases hs
  rename_i root' hu
  obtain rfl := Option.some.inj hs
  obtain ⟨u0, md, md', mlo, mhi, ⟨_, _, u1⟩, u2, u3, u4, u5, u6, u7, u8, u9, u10⟩ :=
    upd_spec r.ht cur _ s.h s.root root' lo hi I.good (le_trans okr.lo p1) (lt_of_lt_of_le p2 okr.hi) hu
  rw [hn] at u1
  have hinfo := Option.some.inj u1
  obtain rfl := Option.some.inj u7
  obtain rfl : mlo = cur := by
    rw [← u2.node.hmin, ← gn.node.hmin]; exact (congrArg NodeInfo.lo hinfo).symm
  obtain rfl : mhi = nhi := by
    rw [← u2.node.hmax, ← gn.node.hmax]; exact (congrArg NodeInfo.hi hinfo).symm
  have hmb : md.bundles = b0 :: rest := by
    have := congrArg NodeInfo.bundles hinfo
    rw [hbs] at this
    exact this.symm
  obtain ⟨gm, hgm⟩ := u2.filtered ops (r.slice (out.map (·.1))) hmb
  rw [hb0] at hgm
  have hsame : ∀ l : Lvl K V F, (l.filtered ops (r.slice (out.map (·.1))) r.no).ht = l.ht ∧
      (l.filtered ops (r.slice (out.map (·.1))) r.no).id = l.id := by
    intro l
    unfold Lvl.filtered
    split
    · exact ⟨rfl, rfl⟩
    · split <;> exact ⟨rfl, rfl⟩
  have hloc : Local s root' lo hi r.ht mlo mhi (fun l => l.filtered ops (r.slice (out.map (·.1))) r.no) := by
    refine ⟨u5, u6, u8 gm, u9, ?_, hsame⟩
    intro k k1 k2
    obtain ⟨pre, q1, q2, q3⟩ := u10 k k1 k2
    obtain ⟨l, rs, h1, h2, _, _, _, _, _, h3⟩ := head_facts u2 k1 k2
    exact ⟨pre, l, rs, q1, by rw [q2, h1], by rw [q3, hgm k k1 k2 l rs h1], h2, h3⟩
  have hat : ∀ k, mlo ≤ k → k < mhi → ∀ l ∈ view s.h s.root k, l.ht = r.ht → r.at l := by
    intro k k1 k2 l hl he
    obtain ⟨pre, p, c, ph, rs, h1, h2, h3, _⟩ := hv k k1 k2
    have : l = mkLvl r.ht nd p ph := view_unique s.h s.root lo hi k I.good (le_trans u5 k1) (lt_of_lt_of_le k2 u6) l hl _
      (by rw [h1]; simp) (he.trans h3.1.symm)
    rw [this]; exact h3
  have hnos : ∀ k, mlo ≤ k → k < mhi → ∀ l ∈ view s.h s.root k, (l.bundles.map (·.no)).Pairwise (· < ·) :=
    fun k k1 k2 l hl => (view_wf s.h s.root lo hi k I.good (le_trans u5 k1) (lt_of_lt_of_le k2 u6) l hl).nos
  have hrok : ReqOk sem lo hi s.h (view s.h root') r := by
    refine hloc.keep I hrm ?_
    intro k k1 k2 _ _ l hl _ _ _
    refine keeps_filtered (hnos k k1 k2 l hl) (.inr ?_)
    unfold Req.pending
    rw [hp]
    exact id
  have hother : ∀ x q, q ≠ i → s.reqs[q]? = some x → ReqOk sem lo hi s.h (view s.h root') x := by
    intro x q hne hq
    refine hloc.keep I (List.mem_of_getElem? hq) ?_
    intro k k1 k2 k3 k4 l hl he hxe hidx
    refine keeps_filtered (hnos k k1 k2 l hl) (.inl ?_)
    exact other_no I hr hq hne (le_trans p1 k1) (lt_of_lt_of_le k2 hle) k3 k4 hl (he.trans hxe.symm)
      (hat k k1 k2 l hl he) hidx
  refine hloc.inv I ?_ ?_ ?_ ?_ ?_
  · intro k k1 k2 l hl he hok
    refine hok.filtered _ _ ?_
    intro b hb hno
    have r1 := le_trans p1 k1
    have r2 := lt_of_lt_of_le k2 hle
    have hlv := okr.live k r1 r2 l hl (hat k k1 k2 l hl he) b hb hno
    unfold PhaseOk at hlv
    rw [hp] at hlv
    obtain ⟨fs, hfs⟩ := hlv k1
    refine ⟨out, fs, hfs, fun hg => ?_⟩
    have hrg := okr.rng k r1 r2 l hl (hat k k1 k2 l hl he) b hb hno
    have := slice_mem p4 okr.gens okr.rngs okr.len hrg
    simp only at this
    rw [this, List.mem_filter]
    obtain ⟨x, hx, hxk⟩ := Branch.get_ne hg
    have hwf := view_wf s.h s.root lo hi k I.good (le_trans u5 k1) (lt_of_lt_of_le k2 u6) l hl
    exact ⟨List.mem_map.mpr ⟨x, hx, hxk⟩, by simp [inRng, hwf.plo, hwf.phi]⟩
  · intro k k1 k2 pre l rs hvk he hrs
    rw [viewBranches_cons, viewBranches_cons, filtered_branches]
  · intro x hx
    split at hx
    · rcases mem_set_cases hx with rfl | ⟨q, _, hq⟩
      · exact I.rids r hrm
      · exact I.rids x (List.mem_of_getElem? hq)
    · exact I.rids x (List.mem_of_mem_eraseIdx hx)
  · intro x hx
    split at hx
    · rename_i hst
      rcases mem_set_cases hx with rfl | ⟨q, hne, hq⟩
      · refine hrok.advanceF hp hlt hst ?_
        intro k k1 k2 l' hl' ha
        have hk : ¬ (mlo ≤ k ∧ k < mhi) := fun h => absurd (lt_of_lt_of_le h.2 k1) (lt_irrefl _)
        have k0 : mlo ≤ k := le_trans (le_of_lt hlt) k1
        rw [u9 k (le_trans u5 k0) (lt_of_lt_of_le k2 okr.hi) hk] at hl'
        exact hsep k k1 k2 l' hl' ha
      · exact hother x q hne hq
    · obtain ⟨q, hq⟩ := List.getElem?_of_mem hx
      rw [List.getElem?_eraseIdx] at hq
      split at hq
      · exact hother x q (by omega) hq
      · exact hother x (q + 1) (by omega) hq
  · split
    · exact apart_set I.apart hr rfl
    · exact I.apart.sublist (List.eraseIdx_sublist _ _)

end Splinter.Trunk
