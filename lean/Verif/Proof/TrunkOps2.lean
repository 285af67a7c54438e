import Verif.Proof.TrunkOps1
/-!
New requests; incorporation and flushes preserve the invariant.
-/
namespace Splinter.Trunk
open Splinter.Merge (SortedRun)
open Splinter.Spec (msgsOf actAll eval act UpdateSem Implements)
set_option linter.unusedSectionVars false

variable {K V F C : Type} [LinearOrder K] {ops : FilterOps K F} {L : FilterLaws ops} {sem : UpdateSem K V}
  {cfg : DataCfg K V} {lo hi : K} {s s' : State K V F} {hist : K → List (Msg V)}

/-- Consecutive levels: the child covers the pivot's range. -/
theorem view_chain : ∀ (h : Nat) (n : Node K V F (Sub K V F h)) (lo hi k : K), Good h n lo hi → lo ≤ k → k < hi →
    ∀ a l1 l2 b, view h n k = a ++ l1 :: l2 :: b → l2.nlo = l1.plo ∧ l2.nhi = l1.phi ∧ l1.ht = l2.ht + 1
  | 0, n, lo, hi, k, g, h1, h2, a, l1, l2, b, e => by
    obtain ⟨p, c, ph, hr⟩ := g.node.route (k := k)
    simp only [view, hr] at e
    have := congrArg List.length e
    simp at this
    omega
  | h + 1, n, lo, hi, k, g, h1, h2, a, l1, l2, b, e => by
    obtain ⟨p, c, ph, hr⟩ := g.node.route (k := k)
    have hrg := g.node.range h1 h2 hr
    have gc := g.2 k p c ph h1 h2 hr
    simp only [view, hr] at e
    cases a with
    | nil =>
      simp only [List.nil_append, List.cons.injEq] at e
      obtain ⟨e1, e2⟩ := e
      obtain ⟨p', c', ph', rest, hr', hv', _⟩ := view_cons h c p.key ph k gc hrg.2.1 hrg.2.2.1
      rw [hv'] at e2
      obtain ⟨e3, _⟩ := List.cons.inj e2
      subst e1 e3
      exact ⟨gc.node.hmin, gc.node.hmax, rfl⟩
    | cons x a =>
      simp only [List.cons_append, List.cons.injEq] at e
      exact view_chain h c p.key ph k gc hrg.2.1 hrg.2.2.1 a l1 l2 b e.2

/-- Facts about the head of a node's view. -/
theorem head_facts {j : Nat} {nd : Node K V F (Sub K V F j)} {nlo nhi k : K} (g : Good j nd nlo nhi) (k1 : nlo ≤ k)
    (k2 : k < nhi) : ∃ l r, view j nd k = l :: r ∧ l.ht = j ∧ l.id = nd.id ∧ l.endB = nd.endB ∧ l.nlo = nlo ∧
      l.nhi = nhi ∧ (l.gen, l.plo, l.phi) ∈ (newReq j nd.info nd.endB : Req K V).rngs ∧ (∀ x ∈ r, x.ht < j) := by
  have ok := g.node
  obtain ⟨p, c, ph, rest, hr, hv, hlt⟩ := view_cons j nd nlo nhi k g k1 k2
  refine ⟨_, _, hv, rfl, rfl, rfl, ok.hmin, ok.hmax, ?_, hlt⟩
  have hs : SortedP nd.maxKey nd.pivots := by rw [ok.hmax]; exact ok.sorted
  have hm := (withHi_mem (mx := nd.maxKey) (k := k) hs (by rw [← keyAt_zero, ok.hmin]; exact k1) (by rw [ok.hmax]; exact k2) (p := p) (ph := ph)).mpr ⟨c, hr⟩
  exact List.mem_map.mpr ⟨(p, ph), hm.1, rfl⟩

theorem newReq_gens {nd : Node K V F C} {nlo nhi : K} (ok : NodeOk nd nlo nhi) (j no : Nat) :
    (((newReq j nd.info no : Req K V).rngs).map (·.1)).Nodup ∧
    (newReq j nd.info no : Req K V).rngs.Pairwise (fun a b => a.2.2 ≤ b.2.1) := by
  unfold newReq Node.info
  simp only
  constructor
  · rw [List.map_map]
    have : (withHi nd.maxKey nd.pivots).map ((fun x => x.1) ∘ fun x => (x.1.gen, x.1.key, x.2)) =
        nd.pivots.map (·.1.gen) := by
      have := congrArg (List.map (fun p : PData K F => p.gen)) (withHi_fst nd.maxKey nd.pivots)
      rw [List.map_map, List.map_map] at this
      exact this
    rw [this]
    exact ok.gens
  · rw [List.pairwise_map]
    exact (withHi_ranges (by rw [ok.hmax]; exact ok.sorted)).1

theorem keeps_addBundle {r : Req K V} {k : K} {l : Lvl K V F} (hn : r.no < l.endB) (sbs : List (SB K V F)) :
    Keeps r k l (l.addBundle sbs) where
  ht := rfl
  id _ := rfl
  endB h := Nat.lt_of_lt_of_le h (Nat.le_succ _)
  live b hb hno := by
    simp only [Lvl.addBundle, List.mem_append, List.mem_singleton] at hb
    rcases hb with hb | rfl
    · refine ⟨hb, rfl, rfl, rfl, fun _ h1 h2 => ⟨h1, ?_⟩⟩
      simp only [Lvl.addBundle, List.head?_append, h2, Option.some_or]
    · simp only at hno; omega
  fresh _ h := by
    obtain ⟨b, hb, hno⟩ := h
    exact ⟨b, List.mem_append_left _ hb, hno⟩
  sub := ⟨le_refl _, le_refl _⟩
  range _ := ⟨rfl, rfl⟩

/-- The level of height `j` at a key. -/
theorem level_eq {h j : Nat} {n : Node K V F (Sub K V F h)} {nd : Node K V F (Sub K V F j)} {pre r : List (Lvl K V F)} {k : K}
    {l0 l : Lvl K V F} (g : Good h n lo hi) (k1 : lo ≤ k) (k2 : k < hi) (hv : view h n k = pre ++ view j nd k)
    (h0 : view j nd k = l0 :: r) (e0 : l0.ht = j) (hl : l ∈ view h n k) (he : l.ht = j) : l = l0 := by
  refine view_unique h n lo hi k g k1 k2 l hl l0 ?_ (he.trans e0.symm)
  rw [hv, h0]; simp

/-- A new bundle's request fits. -/
theorem newReq_ok {h j : Nat} {nd : Node K V F (Sub K V F j)} {nlo nhi : K} {v' : K → List (Lvl K V F)}
    (g : Good j nd nlo nhi) (hlo : lo ≤ nlo) (hhi : nhi ≤ hi) (hj : j < h)
    (hv : ∀ k, nlo ≤ k → k < nhi → ∀ l' ∈ v' k, l'.ht = j → ∃ l0 r0 sbs, view j nd k = l0 :: r0 ∧ l' = l0.addBundle sbs) :
    ReqOk sem lo hi h v' (newReq j nd.info nd.endB) := by
  have ok := g.node
  have est : (newReq j nd.info nd.endB : Req K V).start = nlo := ok.hmin
  have esp : (newReq j nd.info nd.endB : Req K V).stop = nhi := ok.hmax
  have key : ∀ k, nlo ≤ k → k < nhi → ∀ l' ∈ v' k, l'.ht = j → nd.endB < l'.endB ∧ l'.id = nd.id ∧ l'.nlo = nlo ∧
      l'.nhi = nhi ∧ (l'.gen, l'.plo, l'.phi) ∈ (newReq j nd.info nd.endB : Req K V).rngs := by
    intro k k1 k2 l' hl' e
    obtain ⟨l0, r0, sbs, h0, rfl⟩ := hv k k1 k2 l' hl' e
    obtain ⟨l, r, e1, e2, e3, e4, e5, e6, e7, _⟩ := head_facts g k1 k2
    rw [h0] at e1
    obtain ⟨rfl, rfl⟩ := List.cons.inj e1
    exact ⟨by show _ < l0.endB + 1; omega, e3, e5, e6, e7⟩
  refine { lo := by rw [est]; exact hlo, hi := by rw [esp]; exact hhi, lt := by rw [est, esp]; exact ok.lt,
           ht := Nat.le_of_lt hj, gens := (newReq_gens ok _ _).1, rngs := (newReq_gens ok _ _).2,
           len := by simp [newReq], phase := ?_, noLt := ?_, rng := ?_, live := ?_, fresh := ?_, bound := ?_, created := ?_ }
  · show ∀ i, i < _ → _
    intro i hi'
    simp only [newReq, List.length_map] at hi' ⊢
    rw [List.getElem?_map, List.getElem?_eq_getElem hi']; rfl
  · intro k k1 k2 l hl ha
    rw [est] at k1; rw [esp] at k2
    exact (key k k1 k2 l hl ha.1).1
  · intro k k1 k2 l hl ha b _ _
    rw [est] at k1; rw [esp] at k2
    exact (key k k1 k2 l hl ha.1).2.2.2.2
  · intro k k1 k2 l hl ha b _ _
    trivial
  · intro k _ _ hp
    exact hp.elim
  · intro k k1 k2 l hl ha
    rw [est] at k1; rw [esp] at k2
    obtain ⟨a1, a2, a3, a4, a5⟩ := key k k1 k2 l hl ha.1
    refine ⟨by rw [est, a3], by rw [esp, a4], fun _ => ?_⟩
    show (newReq j nd.info nd.endB : Req K V).start ≤ _
    rw [est, a3]
  · intro _
    refine ⟨hj, fun k k1 k2 l hl e => ?_⟩
    rw [est] at k1; rw [esp] at k2
    obtain ⟨a1, a2, a3, a4, a5⟩ := key k k1 k2 l hl e
    exact ⟨a3.trans est.symm, a4.trans esp.symm, fun _ => a2⟩

/-- Requests that exist do not meet a request for a new bundle. -/
theorem apart_new {h : Nat} {n : Node K V F (Sub K V F h)} (g : Good h n lo hi) {r q : Req K V}
    (ok : ReqOk sem lo hi h (view h n) r) (hlo : lo ≤ q.start) (hhi : q.stop ≤ hi) (hqh : q.ht ≤ h)
    (hlt : q.start < q.stop)
    (hq : ∀ k, q.start ≤ k → k < q.stop → ∀ l ∈ view h n k, l.ht = q.ht → l.endB ≤ q.no ∧ (q.ht = 0 → l.id = q.id)) :
    Apart r q := by
  intro e1 e2
  by_contra hc
  simp only [not_or, not_le, not_and, not_not] at hc
  obtain ⟨c1, c2, c3⟩ := hc
  have hk1 : r.start ≤ max r.start q.start := le_max_left _ _
  have hk2 : q.start ≤ max r.start q.start := le_max_right _ _
  have hk3 : max r.start q.start < r.stop := max_lt ok.lt c1
  have hk4 : max r.start q.start < q.stop := max_lt c2 hlt
  generalize max r.start q.start = k at *
  obtain ⟨l, hl, he⟩ := view_has q.ht h n lo hi k g (le_trans hlo hk2) (lt_of_lt_of_le hk4 hhi) hqh
  obtain ⟨a1, a2⟩ := hq k hk2 hk4 l hl he
  have := ok.noLt k hk1 hk3 l hl ⟨he.trans e1.symm, fun h0 => (a2 (e1 ▸ h0)).trans (c3 h0).symm⟩
  omega

theorem pairwise_snoc {α : Type} {R : α → α → Prop} {l : List α} {a : α} (h : l.Pairwise R) (h' : ∀ x ∈ l, R x a) :
    (l ++ [a]).Pairwise R := by
  rw [List.pairwise_append]
  exact ⟨h, List.pairwise_singleton _ _, fun x hx y hy => by rw [List.mem_singleton] at hy; subst hy; exact h' x hx⟩

/-- Branch lists of a view whose levels `l1 :: l2` changed by a flush. -/
theorem flush_branches (pre r : List (Lvl K V F)) (l1 l2 : Lvl K V F) :
    viewBranches (pre ++ l1.cleared ops :: l2.addBundle l1.flushSbs :: r) =
      viewBranches (pre ++ l1 :: l2 :: r) := by
  rw [viewBranches_append, viewBranches_append, viewBranches_cons, viewBranches_cons, viewBranches_cons,
    viewBranches_cons, cleared_branches, addBundle_branches, flushSbs_branches]
  simp

/-! ### Incorporation -/

theorem Inv.incorporate (I : Inv L sem lo hi s hist) (hs : doIncorporate ops s = some s') :
    Inv L sem lo hi s' hist := by
  unfold doIncorporate at hs
  split at hs
  · cases hs
  · cases hs
  rename_i a b r hm
  simp only at hs
  split at hs
  · cases hs
  rename_i hne
  obtain rfl := Option.some.inj hs
  generalize hold : (b :: r).getLast (by simp) = old at hne
  have hsplit : b :: r = (b :: r).dropLast ++ [old] := by rw [← hold]; exact (List.dropLast_append_getLast _).symm
  generalize hdl : (b :: r).dropLast = dl at hsplit
  have g := I.good
  have ok := g.node
  have holdm : old ∈ s.mems := by rw [hm, hsplit]; simp
  obtain ⟨hso, hro⟩ := I.mems old holdm
  generalize hf : ops.add ops.empty (old.map (·.1)) 0 = f
  have hsbs : ∀ sb ∈ [(⟨true, [old], [f]⟩ : SB K V F)], ∀ br ∈ sb.branches, SortedRun br := by
    intro sb hsb br hbr
    rw [List.mem_singleton] at hsb; subst hsb
    simp only [List.mem_singleton] at hbr; subst hbr
    exact hso
  obtain ⟨g', hv⟩ := g.addBundle hsbs
  have hview : ∀ k, lo ≤ k → k < hi → ∃ l r, view s.h s.root k = l :: r ∧
      view s.h (s.root.addBundle [⟨true, [old], [f]⟩]) k = l.addBundle [⟨true, [old], [f]⟩] :: r ∧ l.ht = s.h ∧
      l.endB = s.root.endB ∧ (l.gen, l.plo, l.phi) ∈ (newReq s.h s.root.info s.root.endB : Req K V).rngs ∧
      (∀ x ∈ r, x.ht < s.h) := by
    intro k k1 k2
    obtain ⟨l, r, e1, e2, e3, e4, e5, e6, e7, e8⟩ := head_facts g k1 k2
    exact ⟨l, r, e1, hv k k1 k2 l r e1, e2, e4, e7, e8⟩
  have est : s.root.info.lo = lo := ok.hmin
  have esp : s.root.info.hi = hi := ok.hmax
  generalize hq : ({ newReq s.h s.root.info s.root.endB with
      cnts := s.root.info.pivots.map (fun x => countIn old x.1.key x.2)
      phase := .filters old (newReq (K := K) (V := V) s.h s.root.info s.root.endB).start } : Req K V) = q
  have hqr : q.rngs = (newReq s.h s.root.info s.root.endB : Req K V).rngs := by rw [← hq]
  have hqs : q.start = lo := by rw [← hq]; exact est
  have hqp : q.stop = hi := by rw [← hq]; exact esp
  have hqh : q.ht = s.h := by rw [← hq]; rfl
  have hqn : q.no = s.root.endB := by rw [← hq]; rfl
  have hqph : q.phase = .filters old lo := by rw [← hq]; simp only; rw [← est]; rfl
  have hqc : q.cnts = s.root.info.pivots.map (fun x => countIn old x.1.key x.2) := by rw [← hq]
  have hqid : q.id = s.root.id := by rw [← hq]; rfl
  have hcover : ∀ k, lo ≤ k → k < hi → ∃ gg ∈ q.rngs, gg.2.1 ≤ k ∧ k < gg.2.2 := by
    intro k k1 k2
    obtain ⟨l, r, e1, _, _, _, e7, _⟩ := hview k k1 k2
    have hwf := view_wf s.h s.root lo hi k g k1 k2 l (by rw [e1]; exact List.mem_cons_self)
    exact ⟨_, by rw [hqr]; exact e7, hwf.plo, hwf.phi⟩
  refine ⟨I.pos, g', by simp, ?_, ?_, ?_, ?_, ?_, ?_, ?_⟩
  · intro m hm'
    apply I.mems m
    rw [hm, hsplit]
    rcases List.mem_cons.mp hm' with h | h
    · rw [h]; exact List.mem_cons_self
    · exact List.mem_cons_of_mem _ (List.mem_append_left _ h)
  · intro k k1 k2 l hl
    obtain ⟨l0, r0, e1, e2, _⟩ := hview k k1 k2
    simp only at hl
    rw [e2] at hl
    have hall := I.lvls k k1 k2
    rw [e1] at hall
    rcases List.mem_cons.mp hl with rfl | hl
    · refine (hall l0 List.mem_cons_self).addBundle ?_
      intro sb hsb
      rw [List.mem_singleton] at hsb; subst hsb
      unfold SBOk
      simp only [if_true]
      refine ⟨old, rfl, fun hg => ⟨f, List.mem_singleton.mpr rfl, ?_⟩⟩
      obtain ⟨x, hx, hxk⟩ := Branch.get_ne hg
      have hmem : k ∈ old.map (·.1) := List.mem_map.mpr ⟨x, hx, hxk⟩
      have := L.has_vals (L.has_new (L.bounded_empty 0) hmem)
      rw [hf] at this
      exact List.ne_nil_of_mem this
    · exact hall l (List.mem_cons_of_mem _ hl)
  · intro k k1 k2 l hl
    obtain ⟨l0, r0, e1, e2, _⟩ := hview k k1 k2
    simp only at hl
    rw [e2] at hl
    have hall := I.ids k k1 k2
    rw [e1] at hall
    rcases List.mem_cons.mp hl with rfl | hl
    · exact hall l0 List.mem_cons_self
    · exact hall l (List.mem_cons_of_mem _ hl)
  · intro x hx
    simp only at hx
    rcases List.mem_append.mp hx with h | h
    · exact I.rids x h
    · rw [List.mem_singleton] at h; subst h
      rw [hqid]
      obtain ⟨l, r, e1, e2, e3, _⟩ := head_facts g (le_refl lo) ok.lt
      rw [← e3]
      exact I.ids lo (le_refl _) ok.lt l (by rw [e1]; exact List.mem_cons_self)
  · intro x hx
    simp only at hx ⊢
    rcases List.mem_append.mp hx with h | h
    · have okx := I.reqs x h
      refine okx.keep (Nat.le_refl _) ?_
      intro k k1 k2 l' hl' he hid
      obtain ⟨l0, r0, e1, e2, e3, e4, _, e6⟩ := hview k (le_trans okx.lo k1) (lt_of_lt_of_le k2 okx.hi)
      rw [e2] at hl'
      rw [e1]
      rcases List.mem_cons.mp hl' with rfl | hl'
      · exact ⟨l0, List.mem_cons_self, he, hid, fun hn => keeps_addBundle hn _⟩
      · exact ⟨l', List.mem_cons_of_mem _ hl', he, hid, fun _ => Keeps.refl _ _ _⟩
    · rw [List.mem_singleton] at h; subst h
      have hlvl : ∀ k, lo ≤ k → k < hi → ∀ l ∈ view s.h (s.root.addBundle [⟨true, [old], [f]⟩]) k, l.ht = s.h →
          ∃ l0 ∈ view s.h s.root k, l = l0.addBundle [⟨true, [old], [f]⟩] ∧ l0.endB = s.root.endB ∧
            (l.gen, l.plo, l.phi) ∈ x.rngs := by
        intro k k1 k2 l hl he
        obtain ⟨l0, r0, e1, e2, e3, e4, e5, e6⟩ := hview k k1 k2
        rw [e2] at hl
        rcases List.mem_cons.mp hl with rfl | hl
        · exact ⟨l0, by rw [e1]; exact List.mem_cons_self, rfl, e4, by rw [hqr]; exact e5⟩
        · have := e6 l hl; omega
      refine { lo := by rw [hqs], hi := by rw [hqp], lt := by rw [hqs, hqp]; exact ok.lt, ht := by rw [hqh],
               gens := by rw [hqr]; exact (newReq_gens ok _ _).1, rngs := by rw [hqr]; exact (newReq_gens ok _ _).2,
               len := by rw [hqr, hqc]; simp [newReq], phase := ?_, noLt := ?_, rng := ?_, live := ?_,
               fresh := ?_, bound := ?_, created := ?_ }
      · unfold PhaseInv
        rw [hqph]
        simp only
        refine ⟨by rw [hqs], by rw [hqp]; exact ok.lt, hso, ?_, ?_⟩
        · intro y hy
          obtain ⟨y1, y2⟩ := hro y hy
          exact ⟨by rw [hqs]; exact y1, by rw [hqp]; exact y2, hcover y.1 y1 y2⟩
        · intro i gg hgg
          rw [hqr] at hgg
          simp only [newReq, List.getElem?_map] at hgg
          rw [hqc, List.getElem?_map]
          obtain ⟨z, hz, rfl⟩ := Option.map_eq_some_iff.mp hgg
          rw [hz]
          simp only [Option.map_some, countIn, countTo, Option.some.injEq]
          congr 1
          apply List.filter_congr
          intro y hy
          have hy2 : y.1 < x.stop := by rw [hqp]; exact (hro y hy).2
          simp [hy2]
      · intro k k1 k2 l hl ha
        rw [hqs] at k1; rw [hqp] at k2
        obtain ⟨l0, _, rfl, e4, _⟩ := hlvl k k1 k2 l hl (ha.1.trans hqh)
        rw [hqn, ← e4]
        exact Nat.lt_succ_self _
      · intro k k1 k2 l hl ha bb _ _
        rw [hqs] at k1; rw [hqp] at k2
        obtain ⟨l0, _, _, _, e5⟩ := hlvl k k1 k2 l hl (ha.1.trans hqh)
        exact e5
      · intro k k1 k2 l hl ha bb hb hno
        rw [hqs] at k1; rw [hqp] at k2
        obtain ⟨l0, hl0, rfl, e4, _⟩ := hlvl k k1 k2 l hl (ha.1.trans hqh)
        unfold PhaseOk
        rw [hqph]
        simp only
        intro _
        simp only [Lvl.addBundle, List.mem_append, List.mem_singleton] at hb
        rcases hb with hb | rfl
        · have := (view_wf s.h s.root lo hi k g k1 k2 l0 hl0).noLt bb hb
          rw [hno, hqn, e4] at this
          exact absurd this (Nat.lt_irrefl _)
        · exact ⟨[f], rfl⟩
      · intro k _ _ hp
        unfold Req.pending at hp
        rw [hqph] at hp
        exact hp.elim
      · intro k k1 k2 l hl ha
        rw [hqs] at k1; rw [hqp] at k2
        obtain ⟨l0, hl0, rfl, _⟩ := hlvl k k1 k2 l hl (ha.1.trans hqh)
        obtain ⟨l1, r1, e1, e2, e3, e4, e5, e6, _⟩ := head_facts g k1 k2
        have : l0 = l1 := view_unique s.h s.root lo hi k g k1 k2 l0 hl0 l1 (by rw [e1]; simp) (by rw [e2]; exact ha.1.trans hqh)
        subst this
        refine ⟨by rw [hqs]; exact le_of_eq e5.symm, by rw [hqp]; exact le_of_eq e6, fun _ => ?_⟩
        unfold Req.cur
        rw [hqph]
        exact le_of_eq e5.symm
      · intro hc
        rw [hqph] at hc
        cases hc
  · simp only
    refine pairwise_snoc I.apart fun x hx => ?_
    refine apart_new g (I.reqs x hx) (by rw [hqs]) (by rw [hqp]) (by rw [hqh]) (by rw [hqs, hqp]; exact ok.lt) ?_
    intro k k1 k2 l hl he
    rw [hqs] at k1; rw [hqp] at k2
    obtain ⟨l0, r0, e1, e2, e3, e4, e5, e6⟩ := hview k k1 k2
    rw [e1] at hl
    rcases List.mem_cons.mp hl with rfl | hl
    · exact ⟨by rw [hqn, e4], fun h0 => absurd (hqh.symm.trans h0) (by have := I.pos; omega)⟩
    · have := e6 l hl; omega
  · intro k k1 k2
    obtain ⟨l0, r0, e1, e2, _⟩ := hview k k1 k2
    have hval := I.value k k1 k2
    simp only
    rw [e2]
    rw [e1, hm, hsplit] at hval
    rw [← hval]
    congr 2
    rw [viewBranches_cons, viewBranches_cons, addBundle_branches]
    simp

/-! ### Flush -/

/-- The flush does not take a bundle from under a merge with tuples that has yet to be
installed there (see the fingerprint-bounds finding in DESIGN.md). -/
def FlushLegal (s : State K V F) (j : Nat) (k : K) : Prop :=
  ∀ r ∈ s.reqs, r.ht = j + 1 → ∀ out full cur, r.phase = .compacted out full cur → out ≠ [] →
    ∀ n, nodeAt (j + 1) k s.h s.root = some n → ∀ x ∈ n.pivots, x.1.key ≤ k → k < x.2 →
      (∃ b ∈ n.bundles.drop x.1.bskip, b.no = r.no) → x.2 ≤ cur ∨ x.2 ≤ r.start ∨ r.stop ≤ x.1.key

theorem Inv.flush (I : Inv L sem lo hi s hist) {j : Nat} {k : K} (k1 : lo ≤ k) (k2 : k < hi)
    (hleg : FlushLegal s j k) (hs : doFlush ops s j k = some s') : Inv L sem lo hi s' hist := by
  unfold doFlush at hs
  split at hs
  · cases hs
  rename_i c hc
  split at hs
  · cases hs
  rename_i root' hu
  obtain rfl := Option.some.inj hs
  have g := I.good
  obtain ⟨hj, nd, nd', nlo, nhi, u1, u2, u3, u4, u5, u6, u7, u8, u9, u10⟩ := upd_spec _ _ _ _ _ _ _ _ g k1 k2 hu
  simp only [atIndex] at u7
  obtain ⟨f1, plo, phi, f2, f3, f4, f5, f6, f7⟩ := Good.flush u2 ops u3 u4 u7
  have g' := u8 f1
  -- the child
  obtain ⟨cd, clo, chi, c1, c2, c3, c4, c5, c6, c7⟩ := nodeAt_spec j k s.h s.root lo hi g k1 k2 (by omega)
  rw [hc] at c1
  obtain rfl := Option.some.inj c1
  -- the view
  have hin : ∀ k', plo ≤ k' → k' < phi → ∃ pre l1 l2 r, view s.h s.root k' = pre ++ l1 :: l2 :: r ∧
      view s.h root' k' = pre ++ l1.cleared ops :: l2.addBundle l1.flushSbs :: r ∧
      l1.plo = plo ∧ l1.phi = phi ∧ l1.ht = j + 1 ∧ l2.ht = j := by
    intro k' a1 a2
    obtain ⟨l1, l2, r, e1, e2, e3, e4, e5⟩ := f7 k' a1 a2
    obtain ⟨pre, p1, p2, p3⟩ := u10 k' (le_trans f4 a1) (lt_of_lt_of_le a2 f5)
    rw [e1] at p2
    rw [e5] at p3
    obtain ⟨l, r', h1, h2, _⟩ := head_facts u2 (le_trans f4 a1) (lt_of_lt_of_le a2 f5)
    rw [e1] at h1
    obtain ⟨rfl, _⟩ := List.cons.inj h1
    have hch := view_chain s.h s.root lo hi k' g (le_trans u5 (le_trans f4 a1))
      (lt_of_lt_of_le a2 (le_trans f5 u6)) pre l1 l2 r p2
    exact ⟨pre, l1, l2, r, p2, p3, e2, e3, h2, by omega⟩
  have hout : ∀ k', lo ≤ k' → k' < hi → ¬ (plo ≤ k' ∧ k' < phi) → view s.h root' k' = view s.h s.root k' := by
    intro k' a1 a2 a3
    by_cases hh : nlo ≤ k' ∧ k' < nhi
    · obtain ⟨pre, p1, p2, p3⟩ := u10 k' hh.1 hh.2
      rw [p2, p3, f6 k' hh.1 hh.2 a3]
    · exact u9 k' a1 a2 hh
  have hplo : lo ≤ plo := le_trans u5 f4
  have hphi : phi ≤ hi := le_trans f5 u6
  -- the child covers the pivot
  have hcr : clo = plo ∧ chi = phi := by
    obtain ⟨pre, l1, l2, r, e1, e2, e3, e4, e5, e6⟩ := hin k f2 f3
    obtain ⟨l, r', h1, h2, h3, h4, h5, h6, h7, h8⟩ := head_facts c2 c3 c4
    obtain ⟨pre', q1, q2⟩ := c7 k c3 c4
    have hl2 : l2 = l := level_eq g k1 k2 q2 h1 h2 (by rw [e1]; simp) e6
    subst hl2
    have hch := view_chain s.h s.root lo hi k g k1 k2 pre l1 l2 r e1
    rw [← h5, ← h6, hch.1, hch.2.1]
    exact ⟨e3, e4⟩
  obtain ⟨rfl, rfl⟩ := hcr
  refine ⟨I.pos, g', I.memsNe, I.mems, ?_, ?_, ?_, ?_, ?_, ?_⟩
  · intro k' a1 a2 l hl
    have hall := I.lvls k' a1 a2
    by_cases hh : clo ≤ k' ∧ k' < chi
    · obtain ⟨pre, l1, l2, r, e1, e2, _⟩ := hin k' hh.1 hh.2
      simp only at hl
      rw [e2] at hl
      rw [e1] at hall
      simp only [List.mem_append, List.mem_cons] at hl hall
      rcases hl with hl | rfl | rfl | hl
      · exact hall l (.inl hl)
      · exact LvlOk.cleared
      · exact (hall l2 (by simp)).addBundle (SBOk.flushed (hall l1 (by simp)))
      · exact hall l (by simp [hl])
    · simp only at hl
      rw [hout k' a1 a2 hh] at hl
      exact hall l hl
  · intro k' a1 a2 l hl
    have hall := I.ids k' a1 a2
    by_cases hh : clo ≤ k' ∧ k' < chi
    · obtain ⟨pre, l1, l2, r, e1, e2, _⟩ := hin k' hh.1 hh.2
      simp only at hl
      rw [e2] at hl
      rw [e1] at hall
      simp only [List.mem_append, List.mem_cons] at hl hall
      rcases hl with hl | rfl | rfl | hl
      · exact hall l (.inl hl)
      · exact hall l1 (by simp)
      · exact hall l2 (by simp)
      · exact hall l (by simp [hl])
    · simp only at hl
      rw [hout k' a1 a2 hh] at hl
      exact hall l hl
  · intro x hx
    rcases List.mem_append.mp hx with h | h
    · exact I.rids x h
    · rw [List.mem_singleton] at h; subst h
      obtain ⟨l, r', h1, h2, h3, _⟩ := head_facts c2 c3 c4
      obtain ⟨pre', q1, q2⟩ := c7 k c3 c4
      have := I.ids k k1 k2 l (by rw [q2, h1]; simp)
      rw [h3] at this
      exact this
  · intro x hx
    rcases List.mem_append.mp hx with h | h
    · have okx := I.reqs x h
      refine okx.keep (Nat.le_refl _) ?_
      intro k' b1 b2 l' hl' he hid
      simp only at hl'
      have a1 := le_trans okx.lo b1
      have a2 := lt_of_lt_of_le b2 okx.hi
      by_cases hh : clo ≤ k' ∧ k' < chi
      · obtain ⟨pre, l1, l2, r, e1, e2, e3, e4, e5, e6⟩ := hin k' hh.1 hh.2
        rw [e2] at hl'
        rw [e1]
        simp only [List.mem_append, List.mem_cons] at hl'
        rcases hl' with hl' | rfl | rfl | hl'
        · exact ⟨l', by simp [hl'], he, hid, fun _ => Keeps.refl _ _ _⟩
        · refine ⟨l1, by simp, he, hid, fun _ => ?_⟩
          refine ⟨rfl, fun _ => rfl, fun h => h, fun b hb => (by cases hb), ?_, ⟨le_refl _, le_refl _⟩, fun _ => ⟨rfl, rfl⟩⟩
          intro hp hb
          exfalso
          unfold Req.pending at hp
          split at hp
          swap
          · exact hp
          rename_i out full cur hph
          have hxh : x.ht = j + 1 := by rw [← he]; exact e5
          -- the pivot in the node
          obtain ⟨p, cc, ph, rest, hr, hv, _⟩ := view_cons (j + 1) nd nlo nhi k u2 u3 u4
          obtain ⟨m1, m2, m3, m4, m5, m6⟩ := f7 k f2 f3
          rw [m4] at hv
          obtain ⟨n1, _⟩ := List.cons.inj hv
          have hpk : p.key = clo := by rw [← m5, n1]; rfl
          have hpp : ph = chi := by rw [← m6.1, n1]; rfl
          obtain ⟨pp, cc', ph', rest', hr', hv', _⟩ := view_cons (j + 1) nd nlo nhi k' u2 (le_trans f4 hh.1) (lt_of_lt_of_le hh.2 f5)
          have hrr := u2.node.congr u3 u4 hr (k' := k') (by rw [hpk]; exact hh.1) (by rw [hpp]; exact hh.2)
          rw [hrr] at hr'
          obtain ⟨rfl, h2⟩ := Prod.mk.inj (Option.some.inj hr')
          obtain ⟨rfl, rfl⟩ := Prod.mk.inj h2
          have hl1 : l1 = mkLvl (j + 1) nd p ph := by
            obtain ⟨pre0, p1, p2, p3⟩ := u10 k' (le_trans f4 hh.1) (lt_of_lt_of_le hh.2 f5)
            exact level_eq g a1 a2 p2 hv' rfl (by rw [e1]; simp) e5
          have hs' : SortedP nd.maxKey nd.pivots := by rw [u2.node.hmax]; exact u2.node.sorted
          have hm := (withHi_mem (mx := nd.maxKey) (k := k) hs' (by rw [← keyAt_zero, u2.node.hmin]; exact u3) (by rw [u2.node.hmax]; exact u4) (p := p) (ph := ph)).mpr ⟨_, hr⟩
          have := hleg x h hxh out full cur hph (by rintro rfl; exact hp.2 rfl) nd.info u1.2.2 (p, ph) hm.1 (by rw [hpk]; exact f2) (by rw [hpp]; exact f3)
            (by rw [hl1] at hb; exact hb)
          simp only at this
          rw [hpk, hpp] at this
          rcases this with t | t | t
          · exact absurd (lt_of_lt_of_le hh.2 (le_trans t hp.1)) (lt_irrefl _)
          · exact absurd (lt_of_lt_of_le hh.2 (le_trans t b1)) (lt_irrefl _)
          · exact absurd (lt_of_lt_of_le b2 (le_trans t hh.1)) (lt_irrefl _)
        · exact ⟨l2, by simp, he, hid, fun hn => keeps_addBundle hn _⟩
        · exact ⟨l', by simp [hl'], he, hid, fun _ => Keeps.refl _ _ _⟩
      · rw [hout k' a1 a2 hh] at hl'
        exact ⟨l', hl', he, hid, fun _ => Keeps.refl _ _ _⟩
    · rw [List.mem_singleton] at h; subst h
      refine newReq_ok c2 c5 c6 (by simp only; omega) ?_
      intro k' a1 a2 l' hl' he
      obtain ⟨pre, l1, l2, r, e1, e2, e3, e4, e5, e6⟩ := hin k' a1 a2
      obtain ⟨l, r', h1, h2, h3, h4, h5, h6, h7, h8⟩ := head_facts c2 a1 a2
      obtain ⟨pre', q1, q2⟩ := c7 k' a1 a2
      have b1 := le_trans hplo a1
      have b2 := lt_of_lt_of_le a2 hphi
      have hl2 : l2 = l := level_eq g b1 b2 q2 h1 h2 (by rw [e1]; simp) e6
      subst hl2
      refine ⟨l2, r', l1.flushSbs, h1, ?_⟩
      exact view_unique s.h root' lo hi k' g' b1 b2 l' hl' _ (by rw [e2]; simp) (he.trans e6.symm)
  · refine pairwise_snoc I.apart fun x hx => ?_
    have est : (newReq j cd.info cd.endB : Req K V).start = clo := c2.node.hmin
    have esp : (newReq j cd.info cd.endB : Req K V).stop = chi := c2.node.hmax
    refine apart_new g (I.reqs x hx) (by show lo ≤ (newReq j cd.info cd.endB : Req K V).start; rw [est]; exact c5)
      (by show (newReq j cd.info cd.endB : Req K V).stop ≤ hi; rw [esp]; exact c6) (by show j ≤ s.h; omega)
      (by show (newReq j cd.info cd.endB : Req K V).start < (newReq j cd.info cd.endB : Req K V).stop; rw [est, esp]; exact c2.node.lt) ?_
    intro k' a1 a2 l hl he
    change (newReq j cd.info cd.endB : Req K V).start ≤ k' at a1
    change k' < (newReq j cd.info cd.endB : Req K V).stop at a2
    rw [est] at a1
    rw [esp] at a2
    obtain ⟨l0, r', h1, h2, h3, h4, _⟩ := head_facts c2 a1 a2
    obtain ⟨pre', q1, q2⟩ := c7 k' a1 a2
    have hl2 : l = l0 := level_eq g (le_trans hplo a1) (lt_of_lt_of_le a2 hphi) q2 h1 h2 hl he
    subst hl2
    exact ⟨Nat.le_of_eq h4, fun _ => h3⟩
  · intro k' a1 a2
    have hval := I.value k' a1 a2
    by_cases hh : clo ≤ k' ∧ k' < chi
    · obtain ⟨pre, l1, l2, r, e1, e2, _⟩ := hin k' hh.1 hh.2
      simp only
      rw [e2, flush_branches, ← e1]
      exact hval
    · simp only
      rw [hout k' a1 a2 hh]
      exact hval

end Splinter.Trunk
