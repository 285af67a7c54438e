import Verif.Proof.TrunkView
/-!
Effect of the node operations on well-formedness and on the view of each key.
-/
namespace Splinter.Trunk
open Splinter.Merge (SortedRun)
set_option linter.unusedSectionVars false

variable {K V F C : Type} [LinearOrder K]

/-- Levels below a node. -/
def rest : (h : Nat) → Sub K V F h → K → List (Lvl K V F)
  | 0, _, _ => []
  | h + 1, c, k => view h c k

def GoodC : (h : Nat) → Sub K V F h → K → K → Prop
  | 0, _, _, _ => True
  | h + 1, c, lo, hi => Good h c lo hi

theorem view_eq {h : Nat} {n : Node K V F (Sub K V F h)} {k : K} {p c ph}
    (hr : routeL n.maxKey k n.pivots = some (p, c, ph)) : view h n k = mkLvl h n p ph :: rest h c k := by
  cases h <;> simp [view, hr, rest]

theorem good_iff {h : Nat} {n : Node K V F (Sub K V F h)} {lo hi : K} :
    Good h n lo hi ↔ NodeOk n lo hi ∧ (h = 0 → LeafOk n) ∧
      ∀ k p c ph, lo ≤ k → k < hi → routeL n.maxKey k n.pivots = some (p, c, ph) → GoodC h c p.key ph := by
  cases h with
  | zero => simp [Good, GoodC]
  | succ h => simp [Good, GoodC]

/-- Same pivots, children and bounds, other contents. -/
theorem Good.remap {h : Nat} {n n' : Node K V F (Sub K V F h)} {lo hi : K} (g : Good h n lo hi)
    (f : PData K F → PData K F) (hf : ∀ p, (f p).key = p.key) (hm : n'.maxKey = n.maxKey)
    (hp : n'.pivots = n.pivots.map (fun x => (f x.1, x.2))) (ok : NodeOk n' lo hi)
    (hl : h = 0 → LeafOk n') :
    Good h n' lo hi ∧ ∀ k, lo ≤ k → k < hi → ∀ p c ph, routeL n.maxKey k n.pivots = some (p, c, ph) →
      routeL n'.maxKey k n'.pivots = some (f p, c, ph) := by
  have hr : ∀ k, routeL n'.maxKey k n'.pivots =
      (routeL n.maxKey k n.pivots).map (fun r => (f r.1, r.2.1, r.2.2)) := by
    intro k
    rw [hm, hp]
    exact routeL_map n.maxKey k (fun x => (f x.1, x.2)) (fun x => hf x.1) n.pivots
  refine ⟨good_iff.mpr ⟨ok, hl, ?_⟩, ?_⟩
  · intro k p c ph h1 h2 e
    rw [hr] at e
    obtain ⟨⟨p0, c0, ph0⟩, e1, e2⟩ := Option.map_eq_some_iff.mp e
    simp only [Prod.mk.injEq] at e2
    obtain ⟨rfl, rfl, rfl⟩ := e2
    rw [hf]
    exact (good_iff.mp g).2.2 k p0 c0 ph0 h1 h2 e1
  · intro k h1 h2 p c ph e
    rw [hr, e]; rfl

/-! ### addBundle -/

theorem NodeOk.addBundle {n : Node K V F C} {lo hi : K} (ok : NodeOk n lo hi) {sbs : List (SB K V F)}
    (hs : ∀ sb ∈ sbs, ∀ br ∈ sb.branches, SortedRun br) : NodeOk (n.addBundle sbs) lo hi := by
  constructor
  · exact ok.hmax
  · exact ok.hmin
  · exact ok.ne
  · exact ok.sorted
  · exact ok.wskip
  · intro x hx
    have := ok.bskip x hx
    simp only [Node.addBundle, List.length_append, List.length_singleton]
    omega
  · exact ok.skip
  · exact ok.gens
  · exact ok.genLt
  · simp only [Node.addBundle, List.map_append, List.map_cons, List.map_nil]
    rw [List.pairwise_append]
    refine ⟨ok.nos, List.pairwise_singleton _ _, ?_⟩
    intro a ha b hb
    obtain ⟨x, hx, rfl⟩ := List.mem_map.mp ha
    simp only [List.mem_singleton] at hb
    rw [hb]; exact ok.noLt x hx
  · intro b hb
    simp only [Node.addBundle, List.mem_append, List.mem_singleton] at hb ⊢
    rcases hb with hb | rfl
    · have := ok.noLt b hb; omega
    · exact Nat.lt_succ_self _
  · exact ok.runsW
  · intro b hb
    simp only [Node.addBundle, List.mem_append, List.mem_singleton] at hb
    rcases hb with hb | rfl
    · exact ok.runsB b hb
    · exact hs

/-- Level after a bundle is added. -/
def Lvl.addBundle (l : Lvl K V F) (sbs : List (SB K V F)) : Lvl K V F :=
  { l with bundles := l.bundles ++ [⟨l.endB, sbs⟩], endB := l.endB + 1 }

theorem mkLvl_addBundle {ht : Nat} {n : Node K V F C} {p : PData K F} {ph : K} {sbs : List (SB K V F)}
    (hb : p.bskip ≤ n.bundles.length) :
    mkLvl ht (n.addBundle sbs) p ph = (mkLvl ht n p ph).addBundle sbs := by
  unfold mkLvl Lvl.addBundle Node.addBundle Node.keyAt
  simp only [Lvl.mk.injEq, true_and]
  rw [List.drop_append_of_le_length hb]

theorem Good.addBundle {h : Nat} {n : Node K V F (Sub K V F h)} {lo hi : K} (g : Good h n lo hi)
    {sbs : List (SB K V F)} (hs : ∀ sb ∈ sbs, ∀ br ∈ sb.branches, SortedRun br) :
    Good h (n.addBundle sbs) lo hi ∧ ∀ k, lo ≤ k → k < hi → ∀ l r, view h n k = l :: r →
      view h (n.addBundle sbs) k = l.addBundle sbs :: r := by
  have ok := g.node
  obtain ⟨g', hr⟩ := g.remap (n' := n.addBundle sbs) id (fun _ => rfl) rfl (by simp [Node.addBundle])
    (ok.addBundle hs) (fun h0 => (good_iff.mp g).2.1 h0)
  refine ⟨g', fun k h1 h2 l r hv => ?_⟩
  obtain ⟨p, c, ph, e⟩ := ok.route (k := k)
  rw [view_eq e] at hv
  have e' := hr k h1 h2 p c ph e
  rw [view_eq e']
  have hb := ok.bskip _ (ok.range h1 h2 e).1
  simp only [List.cons.injEq] at hv
  rw [← hv.1, ← hv.2, id, mkLvl_addBundle hb]

/-! ### replaceBundle -/

/-- Bundle after compaction. -/
def Bundle.compacted (b : Bundle K V F) (out : Branch K V) : Bundle K V F :=
  ⟨b.no, [⟨true, [out], b.sbs.flatMap (·.filters)⟩]⟩

def repl (no : Nat) (out : Branch K V) (b : Bundle K V F) : Bundle K V F :=
  if b.no == no then b.compacted out else b

theorem repl_no (no : Nat) (out : Branch K V) (b : Bundle K V F) : (repl no out b).no = b.no := by
  unfold repl; split <;> rfl

theorem Node.replaceBundle_eq (n : Node K V F C) (no : Nat) (out : Branch K V) :
    n.replaceBundle no out = { n with bundles := n.bundles.map (repl no out) } := rfl

def Lvl.replaceBundle (l : Lvl K V F) (no : Nat) (out : Branch K V) : Lvl K V F :=
  { l with bundles := l.bundles.map (repl no out) }

theorem NodeOk.replaceBundle {n : Node K V F C} {lo hi : K} (ok : NodeOk n lo hi) {no : Nat}
    {out : Branch K V} (hs : SortedRun out) : NodeOk (n.replaceBundle no out) lo hi := by
  rw [Node.replaceBundle_eq]
  have hnos : (n.bundles.map (repl no out)).map (·.no) = n.bundles.map (·.no) := by
    simp [repl_no]
  constructor
  · exact ok.hmax
  · exact ok.hmin
  · exact ok.ne
  · exact ok.sorted
  · exact ok.wskip
  · intro x hx; simpa using ok.bskip x hx
  · exact ok.skip
  · exact ok.gens
  · exact ok.genLt
  · show (List.map (·.no) (n.bundles.map (repl no out))).Pairwise (· < ·)
    rw [hnos]; exact ok.nos
  · intro b hb
    obtain ⟨b0, h0, rfl⟩ := List.mem_map.mp hb
    rw [repl_no]; exact ok.noLt b0 h0
  · exact ok.runsW
  · intro b hb sb hsb br hbr
    obtain ⟨b0, h0, rfl⟩ := List.mem_map.mp hb
    unfold repl at hsb
    split at hsb
    · simp only [Bundle.compacted, List.mem_singleton] at hsb
      subst hsb
      simp only [List.mem_singleton] at hbr
      rw [hbr]; exact hs
    · exact ok.runsB b0 h0 sb hsb br hbr

theorem Good.replaceBundle {h : Nat} {n : Node K V F (Sub K V F h)} {lo hi : K} (g : Good h n lo hi)
    {no : Nat} {out : Branch K V} (hs : SortedRun out) :
    Good h (n.replaceBundle no out) lo hi ∧ ∀ k, lo ≤ k → k < hi → ∀ l r, view h n k = l :: r →
      view h (n.replaceBundle no out) k = l.replaceBundle no out :: r := by
  have ok := g.node
  obtain ⟨g', hr⟩ := g.remap (n' := n.replaceBundle no out) id (fun _ => rfl) rfl
    (by simp [Node.replaceBundle]) (ok.replaceBundle hs) (fun h0 => (good_iff.mp g).2.1 h0)
  refine ⟨g', fun k h1 h2 l r hv => ?_⟩
  obtain ⟨p, c, ph, e⟩ := ok.route (k := k)
  rw [view_eq e] at hv
  rw [view_eq (hr k h1 h2 p c ph e)]
  simp only [List.cons.injEq] at hv
  rw [← hv.1, ← hv.2]
  congr 1
  unfold mkLvl Lvl.replaceBundle
  rw [Node.replaceBundle_eq]
  unfold Node.keyAt
  simp only [Lvl.mk.injEq, true_and, id]
  rw [List.map_drop]

/-! ### vanish -/

def Lvl.vanish (l : Lvl K V F) (no : Nat) : Lvl K V F :=
  { l with bundles := l.bundles.filter (fun b => b.no != no), endB := l.endB - 1 }

/-- What vanishing of the newest bundle does to a pivot. -/
def vp (i : Nat) (p : PData K F) : PData K F := if i < p.bskip then { p with bskip := p.bskip - 1 } else p

/-- The newest bundle is the last one. -/
theorem NodeOk.newest {n : Node K V F C} {lo hi : K} (ok : NodeOk n lo hi) {no : Nat} (hend : n.endB = no + 1)
    (hl : n.bundles.any (fun b => b.no == no) = true) :
    ∃ pre b, n.bundles = pre ++ [b] ∧ b.no = no ∧ (∀ c ∈ pre, c.no < no) ∧ n.bundleIdx no = pre.length := by
  obtain ⟨b, hb, hno⟩ := List.any_eq_true.mp hl
  simp only [beq_iff_eq] at hno
  obtain ⟨pre, suf, e⟩ := List.append_of_mem hb
  have hp := ok.nos
  rw [e, List.map_append, List.map_cons, List.pairwise_append, List.pairwise_cons] at hp
  have hpre : ∀ c ∈ pre, c.no < no := fun c hc => by
    rw [← hno]; exact hp.2.2 c.no (List.mem_map_of_mem hc) b.no (List.mem_cons_self ..)
  have hsuf : suf = [] := by
    cases suf with
    | nil => rfl
    | cons c suf =>
      have h1 := hp.2.1.1 c.no (by simp)
      have h2 := ok.noLt c (by rw [e]; simp)
      omega
  subst hsuf
  refine ⟨pre, b, e, hno, hpre, ?_⟩
  unfold Node.bundleIdx
  rw [e, List.findIdx_append, List.findIdx_eq_length_of_false (fun c hc => by have := hpre c hc; simp; omega)]
  simp [hno]

theorem Node.vanish_newest {n : Node K V F C} {no : Nat} {pre : List (Bundle K V F)} {b : Bundle K V F}
    (e : n.bundles = pre ++ [b]) (hi : n.bundleIdx no = pre.length) :
    n.vanish no = { n with bundles := pre, endB := n.endB - 1,
                           pivots := n.pivots.map (fun x => (vp pre.length x.1, x.2)) } := by
  unfold Node.vanish
  simp only [hi]
  rw [e]
  simp [movedBundles]
  exact fun _ _ _ => rfl

theorem vp_key (i : Nat) (p : PData K F) : (vp i p).key = p.key ∧ (vp i p).wskip = p.wskip ∧ (vp i p).gen = p.gen ∧
    (vp i p).filter = p.filter := by
  unfold vp; split <;> exact ⟨rfl, rfl, rfl, rfl⟩

theorem NodeOk.vanish {n : Node K V F C} {lo hi : K} (ok : NodeOk n lo hi) {no : Nat} (hend : n.endB = no + 1)
    (hl : n.bundles.any (fun b => b.no == no) = true) : NodeOk (n.vanish no) lo hi := by
  obtain ⟨pre, b, e, hno, hpre, hidx⟩ := ok.newest hend hl
  rw [Node.vanish_newest e hidx]
  have hmap : ∀ {x : PData K F × C}, x ∈ n.pivots.map (fun x => (vp pre.length x.1, x.2)) →
      ∃ y ∈ n.pivots, x = (vp pre.length y.1, y.2) := fun hx => by
    obtain ⟨y, h1, h2⟩ := List.mem_map.mp hx; exact ⟨y, h1, h2.symm⟩
  have hbs := ok.bskip
  constructor
  · exact ok.hmax
  · have := ok.hmin
    unfold Node.keyAt at this ⊢
    simp only [List.getElem?_map]
    cases h : n.pivots[0]? with
    | none => rw [h] at this; exact this
    | some x => rw [h] at this; rw [← this]; exact (vp_key _ _).1
  · simp [ok.ne]
  · obtain ⟨h1, h2⟩ := ok.sorted
    refine ⟨?_, ?_⟩
    · simpa [List.map_map, Function.comp_def, (vp_key _ _).1] using h1
    · intro x hx
      obtain ⟨y, hy, rfl⟩ := hmap hx
      simp only [(vp_key _ _).1]
      exact h2 y hy
  · intro x hx
    obtain ⟨y, hy, rfl⟩ := hmap hx
    simp only [(vp_key _ _).2.1]
    exact ok.wskip y hy
  · intro x hx
    obtain ⟨y, hy, rfl⟩ := hmap hx
    have := hbs y hy
    rw [e] at this
    simp only [List.length_append, List.length_singleton] at this
    simp only [vp]
    split
    · show y.1.bskip - 1 ≤ pre.length
      omega
    · show y.1.bskip ≤ pre.length
      omega
  · intro x hx h0
    obtain ⟨y, hy, rfl⟩ := hmap hx
    simp only [(vp_key _ _).2.1]
    refine ok.skip y hy ?_
    simp only [vp] at h0
    split at h0
    · have h0 : 0 < y.1.bskip - 1 := h0
      omega
    · exact h0
  · have := ok.gens
    simpa [List.map_map, Function.comp_def, (vp_key _ _).2.2.1] using this
  · intro x hx
    obtain ⟨y, hy, rfl⟩ := hmap hx
    simp only [(vp_key _ _).2.2.1]
    exact ok.genLt y hy
  · have := ok.nos
    rw [e, List.map_append, List.pairwise_append] at this
    exact this.1
  · intro c hc
    have := hpre c hc
    show c.no < n.endB - 1
    omega
  · exact ok.runsW
  · intro c hc
    exact ok.runsB c (by rw [e]; exact List.mem_append_left _ hc)

theorem Good.vanish {h : Nat} {n : Node K V F (Sub K V F h)} {lo hi : K} (g : Good h n lo hi)
    {no : Nat} (hend : n.endB = no + 1) (hl : n.bundles.any (fun b => b.no == no) = true) :
    Good h (n.vanish no) lo hi ∧ ∀ k, lo ≤ k → k < hi → ∀ l r, view h n k = l :: r →
      view h (n.vanish no) k = l.vanish no :: r := by
  have ok := g.node
  obtain ⟨pre, b, e, hno, hpre, hidx⟩ := ok.newest hend hl
  have ev := Node.vanish_newest e hidx
  obtain ⟨g', hr⟩ := g.remap (n' := n.vanish no) (vp pre.length) (fun _ => (vp_key _ _).1) (by rw [ev]) (by rw [ev])
    (ok.vanish hend hl) (fun h0 => by
      obtain ⟨p, c, h1, h2, h3⟩ := (good_iff.mp g).2.1 h0
      rw [ev]
      exact ⟨vp pre.length p, c, by simp [h1], by rw [(vp_key _ _).2.1]; exact h2, by simp [vp, h3]⟩)
  refine ⟨g', fun k h1 h2 l r hv => ?_⟩
  obtain ⟨p, c, ph, er⟩ := ok.route (k := k)
  rw [view_eq er] at hv
  rw [view_eq (hr k h1 h2 p c ph er)]
  simp only [List.cons.injEq] at hv
  rw [← hv.1, ← hv.2]
  congr 1
  have hk0 : (n.vanish no).keyAt 0 = n.keyAt 0 := by rw [ok.hmin, (ok.vanish hend hl).hmin]
  have hbs := ok.bskip _ (ok.range h1 h2 er).1
  unfold mkLvl Lvl.vanish
  simp only [Lvl.mk.injEq, hk0, (vp_key _ _).1, (vp_key _ _).2.1, (vp_key _ _).2.2.1, (vp_key _ _).2.2.2, true_and]
  rw [ev]
  refine ⟨rfl, rfl, rfl, rfl, ?_⟩
  simp only at hbs ⊢
  rw [e] at hbs ⊢
  simp only [List.length_append, List.length_singleton] at hbs
  have hf : ∀ l : List (Bundle K V F), (∀ c ∈ l, c ∈ pre) → l.filter (fun b => b.no != no) = l := by
    intro l hl
    rw [List.filter_eq_self]
    intro c hc
    have := hpre c (hl c hc)
    simp; omega
  by_cases hc : pre.length < p.bskip
  · have : p.bskip = pre.length + 1 := by omega
    simp [vp, this]
  · rw [List.drop_append_of_le_length (by omega), List.filter_append, hf _ (fun c hc => List.mem_of_mem_drop hc)]
    simp [vp, hc, hno]

/-! ### filters -/

/-- What building filters does to a pivot. -/
def bf (ops : FilterOps K F) (wl : Nat) (slice : Nat → List K) (p : PData K F) : PData K F :=
  if p.bskip = 0 then
    (if (slice p.gen).isEmpty then p
     else { p with filter := ops.add p.filter (slice p.gen) (wl - p.wskip) })
  else p

/-- What clearing the first bundle does to a pivot. -/
def cb (nb : Nat) (p : PData K F) : PData K F :=
  if p.bskip = 0 then p else { p with bskip := p.bskip - 1, wskip := p.wskip + nb }

theorem bf_key (ops : FilterOps K F) (wl : Nat) (slice : Nat → List K) (p : PData K F) :
    (bf ops wl slice p).key = p.key ∧ (bf ops wl slice p).bskip = p.bskip ∧
    (bf ops wl slice p).wskip = p.wskip ∧ (bf ops wl slice p).gen = p.gen := by
  unfold bf; split
  · split <;> exact ⟨rfl, rfl, rfl, rfl⟩
  · exact ⟨rfl, rfl, rfl, rfl⟩

theorem cb_key (nb : Nat) (p : PData K F) : (cb nb p).key = p.key ∧ (cb nb p).gen = p.gen := by
  unfold cb; split <;> exact ⟨rfl, rfl⟩

/-- Level after the filters of bundle `no` are built, if it is live at that level. -/
def Lvl.filtered (ops : FilterOps K F) (slice : Nat → List K) (no : Nat) (l : Lvl K V F) : Lvl K V F :=
  match l.bundles with
  | [] => l
  | b :: r =>
    if b.no = no then
      { l with
        whole := l.whole ++ b.sbs.flatMap (·.branches)
        bundles := r
        filter := if (slice l.gen).isEmpty then l.filter
          else ops.add l.filter (slice l.gen) l.whole.length }
    else l

theorem filtered_node (ops : FilterOps K F) (slice : Nat → List K) (n : Node K V F C)
    {b : Bundle K V F} {r : List (Bundle K V F)} (hb : n.bundles = b :: r) :
    (n.buildFilters ops slice).clearBundle =
      { n with
        whole := n.whole ++ b.sbs.flatMap (·.branches)
        bundles := r
        pivots := n.pivots.map (fun x =>
          (cb (b.sbs.flatMap (·.branches)).length (bf ops n.whole.length slice x.1), x.2)) } := by
  unfold Node.clearBundle Node.buildFilters
  simp only [hb, List.map_map]
  congr 1

theorem Good.filtered {h : Nat} {n : Node K V F (Sub K V F h)} {lo hi : K} (g : Good h n lo hi)
    (ops : FilterOps K F) (slice : Nat → List K) {b : Bundle K V F} {r : List (Bundle K V F)}
    (hb : n.bundles = b :: r) :
    Good h (n.buildFilters ops slice).clearBundle lo hi ∧
    ∀ k, lo ≤ k → k < hi → ∀ l rs, view h n k = l :: rs →
      view h (n.buildFilters ops slice).clearBundle k = l.filtered ops slice b.no :: rs := by
  have ok := g.node
  rw [filtered_node ops slice n hb]
  generalize hbs : b.sbs.flatMap (·.branches) = bs
  let f : PData K F → PData K F := fun p => cb bs.length (bf ops n.whole.length slice p)
  have hfk : ∀ p, (f p).key = p.key := fun p => by
    show (cb _ _).key = _; rw [(cb_key _ _).1, (bf_key _ _ _ _).1]
  have hfg : ∀ p, (f p).gen = p.gen := fun p => by
    show (cb _ _).gen = _; rw [(cb_key _ _).2, (bf_key _ _ _ _).2.2.2]
  have hfw : ∀ p, (f p).wskip = if p.bskip = 0 then p.wskip else p.wskip + bs.length := fun p => by
    show (cb _ _).wskip = _
    obtain ⟨_, e2, e3, _⟩ := bf_key ops n.whole.length slice p
    unfold cb; rw [e2, ← e3]; split <;> rfl
  have hfb : ∀ p, (f p).bskip = p.bskip - 1 := fun p => by
    show (cb _ _).bskip = _
    obtain ⟨_, e2, e3, _⟩ := bf_key ops n.whole.length slice p
    unfold cb; rw [e2]; split
    · rename_i h; rw [e2, h]
    · rfl
  have hnode : NodeOk ({ n with whole := n.whole ++ bs, bundles := r, pivots := n.pivots.map (fun x => (f x.1, x.2)) } : Node K V F (Sub K V F h)) lo hi := by
    have hmem : ∀ x ∈ n.pivots.map (fun x => (f x.1, x.2)), ∃ y ∈ n.pivots, x.1 = f y.1 := by
      intro x hx
      obtain ⟨y, hy, rfl⟩ := List.mem_map.mp hx
      exact ⟨y, hy, rfl⟩
    constructor
    · exact ok.hmax
    · rw [keyAt_zero]
      exact (hd_map _ (fun x => (f x.1, x.2)) (fun x => hfk x.1) _).trans ((keyAt_zero n).symm.trans ok.hmin)
    · simpa using ok.ne
    · exact ok.sorted.map _ (fun x => hfk x.1)
    · intro x hx
      obtain ⟨y, hy, e⟩ := hmem x hx
      have := ok.wskip y hy
      rw [e, hfw]
      simp only [List.length_append]
      split <;> omega
    · intro x hx
      obtain ⟨y, hy, e⟩ := hmem x hx
      have := ok.bskip y hy
      rw [hb] at this
      simp only [List.length_cons] at this
      rw [e, hfb]
      show _ ≤ r.length
      omega
    · intro x hx
      obtain ⟨y, hy, e⟩ := hmem x hx
      have h3 := ok.skip y hy
      rw [e, hfb, hfw]
      intro hpos
      rw [if_neg (by omega), h3 (by omega)]
      simp
    · show (List.map (·.1.gen) (n.pivots.map (fun x => (f x.1, x.2)))).Nodup
      have : List.map (·.1.gen) (n.pivots.map (fun x => (f x.1, x.2))) = n.pivots.map (·.1.gen) := by
        simp [hfg]
      rw [this]; exact ok.gens
    · intro x hx
      obtain ⟨y, hy, e⟩ := hmem x hx
      rw [e, hfg]; exact ok.genLt y hy
    · have := ok.nos
      rw [hb, List.map_cons] at this
      exact (List.pairwise_cons.mp this).2
    · intro b' hb'
      exact ok.noLt b' (by rw [hb]; exact List.mem_cons_of_mem _ hb')
    · intro br hbr
      rcases List.mem_append.mp hbr with h' | h'
      · exact ok.runsW br h'
      · rw [← hbs] at h'
        obtain ⟨sb, hsb, h''⟩ := List.mem_flatMap.mp h'
        exact ok.runsB b (by rw [hb]; exact List.mem_cons_self) sb hsb br h''
    · intro b' hb'
      exact ok.runsB b' (by rw [hb]; exact List.mem_cons_of_mem _ hb')
  obtain ⟨g', hr⟩ := g.remap (n' := { n with whole := n.whole ++ bs, bundles := r, pivots := n.pivots.map (fun x => (f x.1, x.2)) }) f hfk rfl rfl hnode (by
      intro h0
      obtain ⟨p, c, e1, e2, e3⟩ := (good_iff.mp g).2.1 h0
      refine ⟨f p, c, by simp [e1], ?_, ?_⟩
      · rw [hfw, e3]; simp [e2]
      · rw [hfb, e3])
  refine ⟨g', fun k h1 h2 l rs hv => ?_⟩
  obtain ⟨p, c, ph, e⟩ := ok.route (k := k)
  rw [view_eq e] at hv
  refine (view_eq (hr k h1 h2 p c ph e)).trans ?_
  simp only [List.cons.injEq] at hv
  rw [← hv.1, ← hv.2]
  congr 1
  obtain ⟨hpm, _⟩ := ok.range h1 h2 e
  have hw := ok.wskip _ hpm
  have hbk := ok.bskip _ hpm
  have hsk := ok.skip _ hpm
  have hka : (Node.keyAt ({ n with whole := n.whole ++ bs, bundles := r, pivots := n.pivots.map (fun x => (f x.1, x.2)) } : Node K V F (Sub K V F h)) 0) = n.keyAt 0 := by
    rw [hnode.hmin, ok.hmin]
  by_cases h0 : p.bskip = 0
  · have hlb : (mkLvl h n p ph).bundles = b :: r := by simp [mkLvl, h0, hb]
    unfold Lvl.filtered
    rw [hlb]
    simp only [if_true]
    unfold mkLvl
    rw [hka, hfk, hfg, hfw, hfb, hbs]
    simp only [h0, if_true, Lvl.mk.injEq, true_and, Nat.zero_sub, List.drop_zero, and_true]
    refine ⟨?_, ?_⟩
    · show (cb _ _).filter = _
      unfold cb
      rw [(bf_key _ _ _ _).2.1, if_pos h0]
      unfold bf
      rw [if_pos h0]
      split
      · rfl
      · simp
    · rw [List.drop_append_of_le_length hw]
  · have hp0 : 0 < p.bskip := Nat.pos_of_ne_zero h0
    have hne : ∀ b' ∈ (mkLvl h n p ph).bundles, b'.no ≠ b.no := by
      intro b' hb'
      have hn := ok.nos
      simp only [mkLvl] at hb'
      rw [hb] at hb' hn
      obtain ⟨q, hq⟩ := Nat.exists_eq_succ_of_ne_zero h0
      rw [hq] at hb'
      simp only [List.drop_succ_cons] at hb'
      have := (List.pairwise_cons.mp hn).1 b'.no (List.mem_map_of_mem (List.mem_of_mem_drop hb'))
      exact Nat.ne_of_gt this
    have hfl : (mkLvl h n p ph).filtered ops slice b.no = mkLvl h n p ph := by
      unfold Lvl.filtered
      split
      · rfl
      · rename_i b' r' heq
        rw [if_neg (hne b' (by rw [heq]; exact List.mem_cons_self))]
    rw [hfl]
    unfold mkLvl
    rw [hka, hfk, hfg, hfw, hfb]
    simp only [h0, if_false, Lvl.mk.injEq, true_and]
    refine ⟨?_, ?_, ?_⟩
    · show (cb _ _).filter = _
      unfold cb
      rw [(bf_key _ _ _ _).2.1, if_neg h0]
      unfold bf
      rw [if_neg h0]
    · have := hsk hp0
      simp only at this
      rw [this]
      simp
    · rw [hb]
      obtain ⟨q, hq⟩ := Nat.exists_eq_succ_of_ne_zero h0
      rw [hq]; simp

/-! ### resetStart -/

theorem foldl_min_le (l : List Nat) : ∀ m, l.foldl min m ≤ m ∧ ∀ x ∈ l, l.foldl min m ≤ x := by
  induction l with
  | nil => intro m; simp
  | cons a l ih =>
    intro m
    obtain ⟨h1, h2⟩ := ih (min m a)
    simp only [List.foldl_cons]
    refine ⟨by omega, fun x hx => ?_⟩
    rcases List.mem_cons.mp hx with rfl | hx
    · omega
    · exact h2 x hx

theorem NodeOk.resetStart {n : Node K V F C} {lo hi : K} (ok : NodeOk n lo hi) :
    NodeOk n.resetStart lo hi ∧ n.resetStart.maxKey = n.maxKey ∧ n.resetStart.id = n.id ∧
    n.resetStart.endB = n.endB ∧ n.resetStart.nextGen = n.nextGen ∧
    ∀ k p c ph, routeL n.maxKey k n.pivots = some (p, c, ph) → lo ≤ k → k < hi →
      ∃ p', routeL n.maxKey k n.resetStart.pivots = some (p', c, ph) ∧ p'.key = p.key ∧
        ∀ ht, mkLvl ht n.resetStart p' ph = mkLvl ht n p ph := by
  unfold Node.resetStart
  obtain ⟨w1, w2⟩ := foldl_min_le (n.pivots.map (·.1.wskip)) n.whole.length
  obtain ⟨b1, b2⟩ := foldl_min_le (n.pivots.map (·.1.bskip)) n.bundles.length
  generalize (n.pivots.map (·.1.wskip)).foldl min n.whole.length = w at *
  generalize (n.pivots.map (·.1.bskip)).foldl min n.bundles.length = b at *
  simp only
  let f : PData K F → PData K F := fun p => { p with wskip := p.wskip - w, bskip := p.bskip - b }
  have hw : ∀ x ∈ n.pivots, w ≤ x.1.wskip := fun x hx => w2 _ (List.mem_map_of_mem hx)
  have hb : ∀ x ∈ n.pivots, b ≤ x.1.bskip := fun x hx => b2 _ (List.mem_map_of_mem hx)
  have hmem : ∀ x ∈ n.pivots.map (fun x => (f x.1, x.2)), ∃ y ∈ n.pivots, x.1 = f y.1 := by
    intro x hx
    obtain ⟨y, hy, rfl⟩ := List.mem_map.mp hx
    exact ⟨y, hy, rfl⟩
  have hnode : NodeOk ({ n with whole := n.whole.drop w, bundles := n.bundles.drop b, pivots := n.pivots.map (fun x => (f x.1, x.2)) } : Node K V F C) lo hi := by
    constructor
    · exact ok.hmax
    · rw [keyAt_zero]
      exact (hd_map _ (fun x => (f x.1, x.2)) (fun x => rfl) _).trans ((keyAt_zero n).symm.trans ok.hmin)
    · simpa using ok.ne
    · exact ok.sorted.map (fun x => (f x.1, x.2)) (fun x => rfl)
    · intro x hx
      obtain ⟨y, hy, e⟩ := hmem x hx
      have := ok.wskip y hy
      rw [e]
      show y.1.wskip - w ≤ (n.whole.drop w).length
      rw [List.length_drop]; omega
    · intro x hx
      obtain ⟨y, hy, e⟩ := hmem x hx
      have := ok.bskip y hy
      rw [e]
      show y.1.bskip - b ≤ (n.bundles.drop b).length
      rw [List.length_drop]; omega
    · intro x hx
      obtain ⟨y, hy, e⟩ := hmem x hx
      have := ok.skip y hy
      rw [e]
      intro hpos
      have hpos' : 0 < y.1.bskip - b := hpos
      show y.1.wskip - w = (n.whole.drop w).length
      rw [List.length_drop, this (by omega)]
    · show (List.map (·.1.gen) (n.pivots.map (fun x => (f x.1, x.2)))).Nodup
      have : List.map (·.1.gen) (n.pivots.map (fun x => (f x.1, x.2))) = n.pivots.map (·.1.gen) := by
        simp [f]
      rw [this]; exact ok.gens
    · intro x hx
      obtain ⟨y, hy, e⟩ := hmem x hx
      rw [e]; exact ok.genLt y hy
    · show (List.map (·.no) (n.bundles.drop b)).Pairwise (· < ·)
      rw [List.map_drop]
      exact List.Pairwise.sublist (List.drop_sublist _ _) ok.nos
    · intro x hx; exact ok.noLt x (List.mem_of_mem_drop hx)
    · intro x hx; exact ok.runsW x (List.mem_of_mem_drop hx)
    · intro x hx; exact ok.runsB x (List.mem_of_mem_drop hx)
  refine ⟨hnode, trivial, trivial, trivial, trivial, ?_⟩
  intro k p c ph e k1 k2
  refine ⟨f p, ?_, rfl, fun ht => ?_⟩
  · have := routeL_map n.maxKey k (fun x : PData K F × C => (f x.1, x.2)) (fun _ => rfl) n.pivots
    rw [e] at this
    exact this
  · obtain ⟨hpm, _⟩ := ok.range k1 k2 e
    have h1 := hw _ hpm
    have h2 := hb _ hpm
    have e1 : (Node.keyAt ({ n with whole := n.whole.drop w, bundles := n.bundles.drop b, pivots := n.pivots.map (fun x => (f x.1, x.2)) } : Node K V F C) 0) = n.keyAt 0 := by
      rw [hnode.hmin, ok.hmin]
    show ({ ht := ht, .. } : Lvl K V F) = { ht := ht, .. }
    simp only [Lvl.mk.injEq, true_and]
    refine ⟨e1, rfl, rfl, rfl, ?_, ?_⟩
    · rw [List.drop_drop]; congr 1
      show w + (p.wskip - w) = p.wskip
      simp only at h1; omega
    · rw [List.drop_drop]; congr 1
      show b + (p.bskip - b) = p.bskip
      simp only at h2; omega

theorem Good.resetStart {h : Nat} {n : Node K V F (Sub K V F h)} {lo hi : K} (g : Good h n lo hi)
    (hh : h ≠ 0) : Good h n.resetStart lo hi ∧ ∀ k, lo ≤ k → k < hi → view h n.resetStart k = view h n k := by
  obtain ⟨o1, o2, _, _, _, o6⟩ := g.node.resetStart
  refine ⟨good_iff.mpr ⟨o1, fun h0 => absurd h0 hh, ?_⟩, ?_⟩
  · intro k p c ph k1 k2 e
    obtain ⟨p0, c0, ph0, e0⟩ := g.node.route (k := k)
    obtain ⟨p', e1, e2, _⟩ := o6 k p0 c0 ph0 e0 k1 k2
    rw [o2, e1] at e
    cases e
    rw [e2]
    exact (good_iff.mp g).2.2 k p0 _ _ k1 k2 e0
  · intro k k1 k2
    obtain ⟨p0, c0, ph0, e0⟩ := g.node.route (k := k)
    obtain ⟨p', e1, e2, e3⟩ := o6 k p0 c0 ph0 e0 k1 k2
    rw [view_eq e0, view_eq (by rw [o2]; exact e1), e3]

end Splinter.Trunk
