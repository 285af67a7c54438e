import Verif.Proof.TrunkOps6
/-!
The two rounds that walk a compaction over the nodes of its range.
-/
namespace Splinter.Trunk
open Splinter.Merge (SortedRun)
open Splinter.Spec (msgsOf actAll eval act UpdateSem Implements)
set_option linter.unusedSectionVars false

variable {K V F C : Type} [LinearOrder K] {ops : FilterOps K F} {L : FilterLaws ops} {sem : UpdateSem K V}
  {cfg : DataCfg K V} {lo hi : K} {s s' : State K V F} {hist : K → List (Msg V)}

/-- One node of height `j` with range `[nlo, nhi)` changes; its levels change by `G`. -/
structure Local (s : State K V F) (root' : Node K V F (Sub K V F s.h)) (lo hi : K) (j : Nat) (nlo nhi : K)
    (G : Lvl K V F → Lvl K V F) : Prop where
  hlo : lo ≤ nlo
  hhi : nhi ≤ hi
  good : Good s.h root' lo hi
  out : ∀ k, lo ≤ k → k < hi → ¬ (nlo ≤ k ∧ k < nhi) → view s.h root' k = view s.h s.root k
  inn : ∀ k, nlo ≤ k → k < nhi → ∃ pre l rs, (∀ x ∈ pre, j < x.ht) ∧ view s.h s.root k = pre ++ l :: rs ∧
    view s.h root' k = pre ++ G l :: rs ∧ l.ht = j ∧ (∀ x ∈ rs, x.ht < j)
  same : ∀ l, (G l).ht = l.ht ∧ (G l).id = l.id

theorem Local.level {root' : Node K V F (Sub K V F s.h)} {j : Nat} {nlo nhi : K} {G : Lvl K V F → Lvl K V F}
    (c : Local s root' lo hi j nlo nhi G) {k : K} (k1 : lo ≤ k) (k2 : k < hi) {l' : Lvl K V F}
    (hl : l' ∈ view s.h root' k) : ∃ l ∈ view s.h s.root k, l'.ht = l.ht ∧ l'.id = l.id ∧
      (l' = l ∨ (l' = G l ∧ l.ht = j ∧ nlo ≤ k ∧ k < nhi)) ∧ (l.ht = j → nlo ≤ k → k < nhi → l' = G l) := by
  by_cases hk : nlo ≤ k ∧ k < nhi
  · obtain ⟨pre, l, rs, h1, h2, h3, h4, h5⟩ := c.inn k hk.1 hk.2
    rw [h3] at hl
    rw [h2]
    rcases List.mem_append.mp hl with h | h
    · have := h1 l' h
      exact ⟨l', by simp [h], rfl, rfl, .inl rfl, fun e => by omega⟩
    · rcases List.mem_cons.mp h with rfl | h
      · exact ⟨l, by simp, (c.same l).1, (c.same l).2, .inr ⟨rfl, h4, hk⟩, fun _ _ _ => rfl⟩
      · have := h5 l' h
        exact ⟨l', by simp [h], rfl, rfl, .inl rfl, fun e => by omega⟩
  · rw [c.out k k1 k2 hk] at hl
    exact ⟨l', hl, rfl, rfl, .inl rfl, fun _ a b => absurd ⟨a, b⟩ hk⟩

theorem Local.inv (I : Inv L sem lo hi s hist) {root' : Node K V F (Sub K V F s.h)} {j : Nat} {nlo nhi : K}
    {G : Lvl K V F → Lvl K V F} (c : Local s root' lo hi j nlo nhi G)
    (hG : ∀ k, nlo ≤ k → k < nhi → ∀ l ∈ view s.h s.root k, l.ht = j → LvlOk L k l → LvlOk L k (G l))
    (hval : ∀ k, nlo ≤ k → k < nhi → ∀ pre l rs, view s.h s.root k = pre ++ l :: rs → l.ht = j → (∀ x ∈ rs, x.ht < j) →
      actAll sem k (msgsOf k (viewBranches (G l :: rs))) none = actAll sem k (msgsOf k (viewBranches (l :: rs))) none)
    {reqs' : List (Req K V)} (hrid : ∀ x ∈ reqs', x.id < s.nextId)
    (hreq : ∀ x ∈ reqs', ReqOk sem lo hi s.h (view s.h root') x) (hap : reqs'.Pairwise Apart) :
    Inv L sem lo hi { s with root := root', reqs := reqs' } hist := by
  refine ⟨I.pos, c.good, I.memsNe, I.mems, ?_, ?_, hrid, hreq, hap, ?_⟩
  · intro k k1 k2 l' hl'
    obtain ⟨l, hl, h1, h2, h3, _⟩ := c.level k1 k2 hl'
    rcases h3 with rfl | ⟨rfl, h4, h5, h6⟩
    · exact I.lvls k k1 k2 _ hl
    · exact hG k h5 h6 l hl h4 (I.lvls k k1 k2 _ hl)
  · intro k k1 k2 l' hl'
    obtain ⟨l, hl, h1, h2, h3, _⟩ := c.level k1 k2 hl'
    rw [h2]; exact I.ids k k1 k2 l hl
  · intro k k1 k2
    rw [← I.value k k1 k2]
    simp only
    by_cases hk : nlo ≤ k ∧ k < nhi
    · obtain ⟨pre, l, rs, h1, h2, h3, h4, h5⟩ := c.inn k hk.1 hk.2
      have := hval k hk.1 hk.2 pre l rs h2 h4 h5
      rw [h2, h3]
      simp only [viewBranches_append, msgsOf_append, actAll_append]
      rw [this]
    · rw [c.out k k1 k2 hk]

theorem Local.keep (I : Inv L sem lo hi s hist) {root' : Node K V F (Sub K V F s.h)} {j : Nat} {nlo nhi : K}
    {G : Lvl K V F → Lvl K V F} (c : Local s root' lo hi j nlo nhi G) {x : Req K V} (hx : x ∈ s.reqs)
    (hk : ∀ k, nlo ≤ k → k < nhi → x.start ≤ k → k < x.stop → ∀ l ∈ view s.h s.root k, l.ht = j → x.ht = j →
      (x.phase ≠ .created → x.ht = 0 → l.id = x.id) → Keeps x k l (G l)) :
    ReqOk sem lo hi s.h (view s.h root') x := by
  have okx := I.reqs x hx
  refine okx.keep (Nat.le_refl _) ?_
  intro k k1 k2 l' hl' he hid
  obtain ⟨l, hl, h1, h2, h3, _⟩ := c.level (le_trans okx.lo k1) (lt_of_lt_of_le k2 okx.hi) hl'
  refine ⟨l, hl, h1 ▸ he, fun a b => h2 ▸ hid a b, fun _ => ?_⟩
  rcases h3 with rfl | ⟨rfl, h4, h5, h6⟩
  · exact Keeps.refl _ _ _
  · exact hk k h5 h6 k1 k2 l hl h4 (by rw [← he, h1, h4]) (fun a b => h2 ▸ hid a b)

/-- Another request at the same level has another bundle. -/
theorem other_no (I : Inv L sem lo hi s hist) {i q : Nat} {r x : Req K V} (hr : s.reqs[i]? = some r) (hx : s.reqs[q]? = some x)
    (hne : q ≠ i) {k : K} (k1 : r.start ≤ k) (k2 : k < r.stop) (k3 : x.start ≤ k) (k4 : k < x.stop) {l : Lvl K V F}
    (hl : l ∈ view s.h s.root k) (h1 : l.ht = x.ht) (h2 : r.at l)
    (h3 : x.phase ≠ .created → x.ht = 0 → l.id = x.id) : x.no ≠ r.no := by
  intro e
  have okx := I.reqs x (List.mem_of_getElem? hx)
  rcases apart_ne I.apart hr hx hne (h1.symm.trans h2.1) e with h | h | ⟨h0, h⟩
  · exact absurd (lt_of_lt_of_le k4 (le_trans h k1)) (lt_irrefl _)
  · exact absurd (lt_of_lt_of_le k2 (le_trans h k3)) (lt_irrefl _)
  · apply h
    have hid : l.id = x.id := by
      by_cases hc : x.phase = .created
      · exact ((okx.created hc).2 k k3 k4 l hl h1).2.2 h0
      · exact h3 hc h0
    rw [← hid]
    exact h2.2 (by rw [← h2.1, h1, h0])

theorem keeps_replace {x : Req K V} {k : K} {l : Lvl K V F} {no : Nat} {out : Branch K V} (h : x.no ≠ no) :
    Keeps x k l (l.replaceBundle no out) where
  ht := rfl
  id _ := rfl
  endB h := h
  live b hb hno := by
    simp only [Lvl.replaceBundle, List.mem_map] at hb
    obtain ⟨b0, hb0, rfl⟩ := hb
    rw [repl_no] at hno
    have e : repl no out b0 = b0 := by
      unfold repl
      rw [if_neg]
      simp only [beq_iff_eq]
      omega
    rw [e]
    refine ⟨hb0, rfl, rfl, rfl, fun _ h1 h2 => ⟨h1, ?_⟩⟩
    simp only [Lvl.replaceBundle, List.head?_map, h2, Option.map_some, e]
  fresh _ hb := by
    obtain ⟨b, hb, e⟩ := hb
    exact ⟨repl no out b, List.mem_map.mpr ⟨b, hb, rfl⟩, by rw [repl_no]; exact e⟩
  sub := ⟨le_refl _, le_refl _⟩
  range _ := ⟨rfl, rfl⟩

theorem keeps_vanish {x : Req K V} {k : K} {l : Lvl K V F} {no : Nat} (hend : l.endB = no + 1) (h : x.no ≠ no) :
    Keeps x k l (l.vanish no) where
  ht := rfl
  id _ := rfl
  endB h' := by
    show x.no < l.endB - 1
    omega
  live b hb hno := by
    obtain ⟨hb, hn⟩ := List.mem_filter.mp hb
    refine ⟨hb, rfl, rfl, rfl, fun _ h1 h2 => ⟨h1, ?_⟩⟩
    cases hbs : l.bundles with
    | nil => rw [hbs] at h2; cases h2
    | cons c r =>
      rw [hbs, List.head?_cons, Option.some.injEq] at h2
      subst h2
      simp only [Lvl.vanish, hbs, List.filter_cons, hn, if_true, List.head?_cons]
  fresh _ hb := by
    obtain ⟨b, hb, e⟩ := hb
    exact ⟨b, List.mem_filter.mpr ⟨hb, by simpa [e] using h⟩, e⟩
  sub := ⟨le_refl _, le_refl _⟩
  range _ := ⟨rfl, rfl⟩

theorem keeps_filtered {x : Req K V} {k : K} {l : Lvl K V F} {no : Nat} {sl : Nat → List K}
    (hw : (l.bundles.map (·.no)).Pairwise (· < ·)) (h : x.no ≠ no ∨ ¬ x.pending k) :
    Keeps x k l (l.filtered ops sl no) := by
  unfold Lvl.filtered
  split
  · exact Keeps.refl _ _ _
  rename_i b0 r hb
  split
  swap
  · exact Keeps.refl _ _ _
  rename_i hno
  rw [hb, List.map_cons, List.pairwise_cons] at hw
  have hlt : ∀ b ∈ r, b0.no < b.no := fun b hb => hw.1 b.no (List.mem_map_of_mem hb)
  exact {
    ht := rfl
    id := fun _ => rfl
    endB h := h
    live := by
      intro b hbm hbn
      simp only at hbm
      refine ⟨by rw [hb]; exact List.mem_cons_of_mem _ hbm, rfl, rfl, rfl, fun _ _ h2 => ?_⟩
      rw [hb, List.head?_cons, Option.some.injEq] at h2
      subst h2
      exact absurd (hlt _ hbm) (Nat.lt_irrefl _)
    fresh := by
      intro hp hex
      rcases h with h | h
      · obtain ⟨b, hbm, hbn⟩ := hex
        rw [hb] at hbm
        rcases List.mem_cons.mp hbm with rfl | hbm
        · exact absurd (hbn.symm.trans hno) h
        · exact ⟨b, hbm, hbn⟩
      · exact absurd hp h
    sub := ⟨le_refl _, le_refl _⟩
    range := fun _ => ⟨rfl, rfl⟩ }

/-- The value seen through a level whose bundle was replaced. -/
theorem replace_value {k : K} {l : Lvl K V F} {rs : List (Lvl K V F)} {no : Nat} {out : Branch K V} {full : Bool}
    (hw : (l.bundles.map (·.no)).Pairwise (· < ·)) (hrs : ∀ x ∈ rs, x.ht < l.ht)
    (hc : ∀ b ∈ l.bundles, b.no = no → CompOk sem k out full l b) :
    actAll sem k (msgsOf k (viewBranches (l.replaceBundle no out :: rs))) none =
      actAll sem k (msgsOf k (viewBranches (l :: rs))) none := by
  have hid : ∀ bs : List (Bundle K V F), (∀ b ∈ bs, b.no ≠ no) → bs.map (repl no out) = bs := by
    intro bs hbs
    conv_rhs => rw [← List.map_id bs]
    apply List.map_congr_left
    intro b hb
    unfold repl
    rw [if_neg (by simpa using hbs b hb)]
    rfl
  have hcb : ∀ b : Bundle K V F, b.no = no → (repl no out b).branches = [out] := by
    intro b hb
    unfold repl
    rw [if_pos (by simpa using hb)]
    rfl
  by_cases hex : ∃ b ∈ l.bundles, b.no = no
  swap
  · have : l.replaceBundle no out = l := by
      unfold Lvl.replaceBundle
      rw [hid l.bundles (fun b hb hn => hex ⟨b, hb, hn⟩)]
    rw [this]
  rw [viewBranches_cons, viewBranches_cons]
  simp only [msgsOf_append, actAll_append]
  cases full with
  | false =>
    have key : ∀ (bs : List (Bundle K V F)), (∀ b ∈ bs, b ∈ l.bundles) → ∀ v,
        actAll sem k (msgsOf k ((bs.map (repl no out)).flatMap (·.branches))) v =
          actAll sem k (msgsOf k (bs.flatMap (·.branches))) v := by
      intro bs
      induction bs with
      | nil => intros; rfl
      | cons b bs ih =>
        intro hsub v
        simp only [List.map_cons, List.flatMap_cons, msgsOf_append, actAll_append]
        rw [ih (fun b hb => hsub b (List.mem_cons_of_mem _ hb))]
        congr 1
        by_cases hb : b.no = no
        · rw [hcb b hb, (hc b (hsub b List.mem_cons_self) hb).inter rfl]
        · unfold repl
          rw [if_neg (by simpa using hb)]
    unfold Lvl.branches
    simp only [msgsOf_append, actAll_append]
    exact key l.bundles (fun _ h => h) _
  | true =>
    obtain ⟨b, hb, hbn⟩ := hex
    obtain ⟨f1, f2, f3, f4⟩ := (hc b hb hbn).full rfl
    have hr : rs = [] := by
      cases rs with
      | nil => rfl
      | cons x _ => have := hrs x List.mem_cons_self; omega
    subst hr
    obtain ⟨rest, hbr⟩ : ∃ rest, l.bundles = b :: rest := by
      cases hbs : l.bundles with
      | nil => rw [hbs] at f3; cases f3
      | cons c rest => rw [hbs] at f3; simp only [List.head?_cons, Option.some.injEq] at f3; exact ⟨rest, by rw [f3]⟩
    rw [hbr, List.map_cons, List.pairwise_cons] at hw
    have hrest := hid rest (fun c hc' hn => by
      have := hw.1 c.no (List.mem_map_of_mem hc'); omega)
    unfold Lvl.branches Lvl.replaceBundle
    simp only [f2, hbr, List.map_cons, hrest, List.flatMap_cons, List.nil_append, msgsOf_append, actAll_append, hcb b hbn]
    congr 1
    exact f4.symm

/-- The value seen through a level whose newest bundle vanished. -/
theorem vanish_value {k : K} {l : Lvl K V F} {rs : List (Lvl K V F)} {no : Nat} {full : Bool}
    (hw : (l.bundles.map (·.no)).Pairwise (· < ·)) (hlast : ∀ b ∈ l.bundles, b.no ≤ no) (hrs : ∀ x ∈ rs, x.ht < l.ht)
    (hc : ∀ b ∈ l.bundles, b.no = no → CompOk sem k [] full l b) :
    actAll sem k (msgsOf k (viewBranches (l.vanish no :: rs))) none =
      actAll sem k (msgsOf k (viewBranches (l :: rs))) none := by
  have hid : ∀ bs : List (Bundle K V F), (∀ b ∈ bs, b.no ≠ no) → bs.filter (fun b => b.no != no) = bs := by
    intro bs hbs
    rw [List.filter_eq_self]
    intro b hb
    simpa using hbs b hb
  have hnone : msgsOf k ([[]] : List (Branch K V)) = [] := rfl
  by_cases hex : ∃ b ∈ l.bundles, b.no = no
  swap
  · rw [viewBranches_cons, viewBranches_cons]
    unfold Lvl.branches Lvl.vanish
    simp only
    rw [hid l.bundles (fun b hb hn => hex ⟨b, hb, hn⟩)]
  obtain ⟨b, hb, hbn⟩ := hex
  obtain ⟨pre, suf, e⟩ := List.append_of_mem hb
  rw [e, List.map_append, List.map_cons, List.pairwise_append, List.pairwise_cons] at hw
  have hsuf : suf = [] := by
    cases suf with
    | nil => rfl
    | cons c suf =>
      have h1 := hw.2.1.1 c.no (by simp)
      have h2 := hlast c (by rw [e]; simp)
      omega
  subst hsuf
  have hpre : ∀ c ∈ pre, c.no ≠ no := fun c hcm => by
    have := hw.2.2 c.no (List.mem_map_of_mem hcm) b.no (List.mem_cons_self ..)
    omega
  rw [viewBranches_cons, viewBranches_cons]
  have hbr : l.branches = (l.vanish no).branches ++ b.branches := by
    unfold Lvl.branches Lvl.vanish
    simp only
    rw [e, List.filter_append, hid pre hpre]
    simp [hbn]
  rw [hbr]
  simp only [msgsOf_append, actAll_append]
  have hcb := hc b hb hbn
  cases full with
  | false =>
    rw [hcb.inter rfl, hnone]
    rfl
  | true =>
    obtain ⟨f1, f2, f3, f4⟩ := hcb.full rfl
    have hr : rs = [] := by
      cases rs with
      | nil => rfl
      | cons x _ => have := hrs x List.mem_cons_self; omega
    subst hr
    have hp : pre = [] := by
      cases pre with
      | nil => rfl
      | cons c pre =>
        rw [e] at f3
        simp only [List.cons_append, List.head?_cons, Option.some.injEq] at f3
        exact absurd (f3 ▸ hbn) (hpre c (List.mem_cons_self ..))
    subst hp
    have : (l.vanish no).branches = [] := by
      unfold Lvl.branches Lvl.vanish
      simp [e, f2, hbn]
    rw [this]
    rw [hnone] at f4
    exact f4.symm

/-- A request without output moves past one node of its range. -/
theorem ReqOk.shrink {h : Nat} {v v' : K → List (Lvl K V F)} {r : Req K V} {full : Bool} {cur nhi : K}
    (ok : ReqOk sem lo hi h v r) (hp : r.phase = .compacted [] full cur) (hc : cur < nhi) (hn : nhi < r.stop)
    (hout : ∀ k, nhi ≤ k → k < r.stop → v' k = v k)
    (hsep : ∀ k, nhi ≤ k → k < r.stop → ∀ l ∈ v k, r.at l → nhi ≤ l.nlo) :
    ReqOk sem lo hi h v' { r with start := nhi, phase := .compacted [] full nhi } := by
  have hph := ok.phase
  unfold PhaseInv at hph
  rw [hp] at hph
  obtain ⟨p1, p2, p4⟩ := hph
  have hs : r.start ≤ nhi := le_trans p1 (le_of_lt hc)
  refine { lo := le_trans ok.lo hs, hi := ok.hi, lt := hn, ht := ok.ht, gens := ok.gens, rngs := ok.rngs, len := ok.len,
           phase := ⟨le_refl _, hn, ⟨p4.sorted, fun x hx => (by cases hx), p4.counts⟩⟩, noLt := ?_, rng := ?_,
           live := ?_, fresh := ?_, bound := ?_, created := fun h => by cases h }
  · intro k k1 k2 l hl ha
    rw [hout k k1 k2] at hl
    exact ok.noLt k (le_trans hs k1) k2 l hl ha
  · intro k k1 k2 l hl ha
    rw [hout k k1 k2] at hl
    exact ok.rng k (le_trans hs k1) k2 l hl ha
  · intro k k1 k2 l hl ha b hb hno
    rw [hout k k1 k2] at hl
    have := ok.live k (le_trans hs k1) k2 l hl ha b hb hno
    unfold PhaseOk at this ⊢
    rw [hp] at this
    simp only at this ⊢
    have k1' : nhi ≤ k := k1
    rw [if_pos (le_trans (le_of_lt hc) k1')] at this
    rw [if_pos k1']
    exact this
  · intro k _ _ hpend
    exact absurd rfl hpend.2
  · intro k k1 k2 l hl ha
    rw [hout k k1 k2] at hl
    exact ⟨hsep k k1 k2 l hl ha, (ok.bound k (le_trans hs k1) k2 l hl ha).2.1, fun _ => hsep k k1 k2 l hl ha⟩

/-- A request moves past one node of its range. -/
theorem ReqOk.advance {h : Nat} {v v' : K → List (Lvl K V F)} {r : Req K V} {out : Branch K V} {full : Bool} {cur nhi : K}
    (ok : ReqOk sem lo hi h v r) (hp : r.phase = .compacted out full cur) (hc : cur < nhi) (hn : nhi ≤ r.stop)
    (hout : ∀ k, r.start ≤ k → k < r.stop → ¬ (cur ≤ k ∧ k < nhi) → v' k = v k)
    (hin : ∀ k, cur ≤ k → k < nhi → ∀ l' ∈ v' k, l'.ht = r.ht → ∃ l ∈ v k, l'.ht = l.ht ∧ l'.id = l.id ∧ l'.endB = l.endB ∧
      l'.gen = l.gen ∧ l'.plo = l.plo ∧ l'.phi = l.phi ∧ l'.nlo = l.nlo ∧ l'.nhi = l.nhi ∧
      ∀ b ∈ l'.bundles, b.no = r.no → (∃ b0 ∈ l.bundles, b0.no = r.no) ∧ ∃ fs, b.sbs = [⟨true, [out], fs⟩])
    (hsep : ∀ k, nhi ≤ k → k < r.stop → ∀ l ∈ v k, r.at l → nhi ≤ l.nlo)
    {cs : List Nat} (hlen : cs.length = r.cnts.length)
    (hcnt : ∀ (i : Nat) g, r.rngs[i]? = some g → cs[i]? = some (countTo out g.2.1 g.2.2 nhi)) :
    ReqOk sem lo hi h v' { r with cnts := cs, phase := if nhi < r.stop then .compacted out full nhi else .filters out r.start } := by
  have hph := ok.phase
  unfold PhaseInv at hph
  rw [hp] at hph
  obtain ⟨p1, p2, p4⟩ := hph
  have key : ∀ k, r.start ≤ k → k < r.stop → ∀ l' ∈ v' k, l'.ht = r.ht → ∃ l ∈ v k, l'.ht = l.ht ∧ l'.id = l.id ∧
      l'.endB = l.endB ∧ l'.gen = l.gen ∧ l'.plo = l.plo ∧ l'.phi = l.phi ∧ l'.nlo = l.nlo ∧ l'.nhi = l.nhi ∧
      (∀ b ∈ l'.bundles, b.no = r.no → ∃ b0 ∈ l.bundles, b0.no = r.no) ∧ ((cur ≤ k ∧ k < nhi) → ∀ b ∈ l'.bundles, b.no = r.no → ∃ fs, b.sbs = [⟨true, [out], fs⟩]) ∧
      (¬ (cur ≤ k ∧ k < nhi) → l' = l) := by
    intro k k1 k2 l' hl' he
    by_cases hk : cur ≤ k ∧ k < nhi
    · obtain ⟨l, hl, a1, a2, a3, a4, a5, a6, a7, a8, a9⟩ := hin k hk.1 hk.2 l' hl' he
      exact ⟨l, hl, a1, a2, a3, a4, a5, a6, a7, a8, fun b hb hno => (a9 b hb hno).1, fun _ b hb hno => (a9 b hb hno).2,
        fun h => absurd hk h⟩
    · rw [hout k k1 k2 hk] at hl'
      exact ⟨l', hl', rfl, rfl, rfl, rfl, rfl, rfl, rfl, rfl, fun b hb hno => ⟨b, hb, hno⟩, fun h => absurd h hk, fun _ => rfl⟩
  have hdone : ∀ k, r.start ≤ k → k < r.stop → k < nhi → ∀ l' ∈ v' k, r.at l' → ∀ b ∈ l'.bundles, b.no = r.no →
      ∃ fs, b.sbs = [⟨true, [out], fs⟩] := by
    intro k k1 k2 k3 l' hl' ha b hb hno
    obtain ⟨l, hl, a1, a2, a3, a4, a5, a6, a7, a8, a9, a10, a11⟩ := key k k1 k2 l' hl' ha.1
    by_cases hk : cur ≤ k
    · exact a10 ⟨hk, k3⟩ b hb hno
    · obtain rfl := a11 (fun h => hk h.1)
      have := ok.live k k1 k2 l' hl ha b hb hno
      unfold PhaseOk at this
      rw [hp] at this
      simp only at this
      rw [if_neg hk] at this
      exact this
  have hat : ∀ l l' : Lvl K V F, l'.ht = l.ht → l'.id = l.id → r.at l' → r.at l := by
    intro l l' h1 h2 ha
    exact ⟨h1 ▸ ha.1, fun h0 => h2 ▸ ha.2 h0⟩
  refine { lo := ok.lo, hi := ok.hi, lt := ok.lt, ht := ok.ht, gens := ok.gens, rngs := ok.rngs, len := hlen.trans ok.len,
           phase := ?_, noLt := ?_, rng := ?_, live := ?_, fresh := ?_, bound := ?_, created := ?_ }
  · unfold PhaseInv
    by_cases hlt : nhi < r.stop
    · simp only [if_pos hlt]
      exact ⟨le_trans p1 (le_of_lt hc), hlt, ⟨p4.sorted, p4.cover, hcnt⟩⟩
    · have : nhi = r.stop := le_antisymm hn (not_lt.mp hlt)
      simp only [if_neg hlt]
      exact ⟨le_refl _, ok.lt, ⟨p4.sorted, p4.cover, fun i g hg => by rw [← this]; exact hcnt i g hg⟩⟩
  · intro k k1 k2 l' hl' ha
    obtain ⟨l, hl, a1, a2, a3, _⟩ := key k k1 k2 l' hl' ha.1
    rw [a3]
    exact ok.noLt k k1 k2 l hl (hat l l' a1 a2 ha)
  · intro k k1 k2 l' hl' ha b hb hno
    obtain ⟨l, hl, a1, a2, a3, a4, a5, a6, a7, a8, a9, a10, a11⟩ := key k k1 k2 l' hl' ha.1
    obtain ⟨b0, hb0, hn0⟩ := a9 b hb hno
    rw [a4, a5, a6]
    exact ok.rng k k1 k2 l hl (hat l l' a1 a2 ha) b0 hb0 hn0
  · intro k k1 k2 l' hl' ha b hb hno
    unfold PhaseOk
    by_cases hlt : nhi < r.stop
    · simp only [if_pos hlt]
      split
      · rename_i hk
        obtain ⟨l, hl, a1, a2, a3, a4, a5, a6, a7, a8, a9, a10, a11⟩ := key k k1 k2 l' hl' ha.1
        obtain rfl := a11 (fun h => absurd (lt_of_lt_of_le h.2 hk) (lt_irrefl _))
        have := ok.live k k1 k2 l' hl ha b hb hno
        unfold PhaseOk at this
        rw [hp] at this
        simp only at this
        rw [if_pos (le_trans (le_of_lt hc) hk)] at this
        exact this
      · rename_i hk
        exact hdone k k1 k2 (not_le.mp hk) l' hl' ha b hb hno
    · simp only [if_neg hlt]
      intro _
      exact hdone k k1 k2 (lt_of_lt_of_le k2 (not_lt.mp hlt)) l' hl' ha b hb hno
  · intro k k1 k2 hpend l' hl' ha
    unfold Req.pending at hpend
    by_cases hlt : nhi < r.stop
    · simp only [if_pos hlt] at hpend
      obtain ⟨l, hl, a1, a2, a3, a4, a5, a6, a7, a8, a9, a10, a11⟩ := key k k1 k2 l' hl' ha.1
      obtain rfl := a11 (fun h => absurd (lt_of_lt_of_le h.2 hpend.1) (lt_irrefl _))
      refine ok.fresh k k1 k2 ?_ l' hl ha
      unfold Req.pending
      rw [hp]
      exact ⟨le_trans (le_of_lt hc) hpend.1, hpend.2⟩
    · simp only [if_neg hlt] at hpend
  · intro k k1 k2 l' hl' ha
    obtain ⟨l, hl, a1, a2, a3, a4, a5, a6, a7, a8, a9, a10, a11⟩ := key k k1 k2 l' hl' ha.1
    obtain ⟨b1, b2, b3⟩ := ok.bound k k1 k2 l hl (hat l l' a1 a2 ha)
    rw [a7, a8]
    refine ⟨b1, b2, ?_⟩
    unfold Req.cur
    by_cases hlt : nhi < r.stop
    · simp only [if_pos hlt]
      intro hk
      exact hsep k hk k2 l hl (hat l l' a1 a2 ha)
    · simp only [if_neg hlt]
      intro _; exact b1
  · intro hcr
    by_cases hlt : nhi < r.stop
    · simp only [if_pos hlt] at hcr; cases hcr
    · simp only [if_neg hlt] at hcr; cases hcr

end Splinter.Trunk
