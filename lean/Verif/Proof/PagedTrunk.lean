import Verif.Model.PagedTrunk
import Verif.Proof.NodeArrReads
/-!
# Pages of a whole tree represent its nodes

`RepT`: a tree of pages represents a tree of nodes. Operations keep it.
-/
namespace Splinter.Trunk.Paged

open NodeArr (Hdr PRec maxBu maxSb maxF Rep RepAt PivRep Node.nBr Node.nSb Node.nF brsOf flsOf sbsOf)

variable {K V F : Type} {H : Nat}

/-- Subbundles that are not compacted have a filter. -/
def NodeOk {C : Type} (n : Node K V F C) : Prop := ∀ sb ∈ sbsOf n.bundles, sb.compacted = false → sb.filters ≠ []

/-- A leaf has one pivot, for which everything is live. -/
def LeafOk {C : Type} (n : Node K V F C) : Prop := ∃ p c, n.pivots = [(p, c)] ∧ p.wskip = 0 ∧ p.bskip = 0

/-- The pages represent the nodes. -/
def RepT (H : Nat) : (h : Nat) → Node K V F (Sub K V F h) → Tree (Branch K V) F → Prop
  | 0, n, t => Rep H t.page n ∧ NodeOk n ∧ LeafOk n
  | h + 1, n, t => Rep H t.page n ∧ NodeOk n ∧ List.Forall₂ (fun c u => RepT H h c u) (n.pivots.map (·.2)) t.kids

theorem RepT.rep {h : Nat} {n : Node K V F (Sub K V F h)} {t : Tree (Branch K V) F} (r : RepT H h n t) : Rep H t.page n := by
  cases h <;> exact r.1

theorem RepT.ok {h : Nat} {n : Node K V F (Sub K V F h)} {t : Tree (Branch K V) F} (r : RepT H h n t) : NodeOk n := by
  cases h <;> exact r.2.1

/-! ### Single nodes -/

section Nodes
variable {C D : Type} {a : Hdr (Branch K V) F} {n : Node K V F C}

theorem PivRep.congr {b0 u0 : Nat} {W : List (Branch K V)} {Bs : List (Bundle K V F)} {x : PRec F} {p q : PData K F}
    (P : PivRep H b0 u0 W Bs x p) (h1 : q.wskip = p.wskip) (h2 : q.bskip = p.bskip) (h3 : q.filter = p.filter) :
    PivRep H b0 u0 W Bs x q where
  startBr := by rw [h1, h2]; exact P.startBr
  startBu := by rw [h2]; exact P.startBu
  filter := by rw [h3]; exact P.filter
  wle := by rw [h1]; exact P.wle
  ble := by rw [h2]; exact P.ble
  order := by rw [h1, h2]; exact P.order

/-- Other pivots on the same page. -/
theorem withPivots {b0 s0 f0 u0 : Nat} (R : RepAt H b0 s0 f0 u0 a n) {m : Node K V F D} (hw : m.whole = n.whole)
    (hb : m.bundles = n.bundles) (he : m.endB = n.endB) {l : List (PRec F)}
    (hp : List.Forall₂ (fun x y => PivRep H b0 u0 n.whole n.bundles x y.1) l m.pivots) :
    RepAt H b0 s0 f0 u0 { a with pivots := l } m where
  core := by rw [hw, hb]; exact ⟨R.core.br, R.core.sb, R.core.fl, R.core.frac⟩
  bu := by rw [hb]; exact R.bu
  no := by rw [hb]; exact R.no
  endB := by rw [he, hb]; exact R.endB
  piv := by rw [hw, hb]; exact hp
  full := by rw [hb]; exact R.full
  fullSb := by rw [hb]; exact R.fullSb

/-- Children, keys and generations are not in the arrays. -/
theorem Rep.congr (R : Rep H a n) {m : Node K V F D} (hw : m.whole = n.whole) (hb : m.bundles = n.bundles)
    (he : m.endB = n.endB) (hp : m.pivots.map (fun y => (y.1.wskip, y.1.bskip, y.1.filter)) =
      n.pivots.map (fun y => (y.1.wskip, y.1.bskip, y.1.filter))) : Rep H a m := by
  obtain ⟨b0, s0, f0, u0, R⟩ := R
  refine ⟨b0, s0, f0, u0, withPivots R hw hb he ?_⟩
  have hl : m.pivots.length = n.pivots.length := by simpa using congrArg List.length hp
  have hv := R.piv
  rw [List.forall₂_iff_get] at hv ⊢
  refine ⟨by rw [hv.1, hl], fun i h1 h2 => ?_⟩
  have hi : i < n.pivots.length := by omega
  refine PivRep.congr (hv.2 i h1 hi) ?_ ?_ ?_ <;>
  · have := congrArg (fun l => l[i]?) hp
    simp only [List.getElem?_map, List.getElem?_eq_getElem h2, List.getElem?_eq_getElem hi, Option.map_some,
      Option.some.injEq, Prod.mk.injEq] at this
    simp only [List.get_eq_getElem]
    first | exact this.1 | exact this.2.1 | exact this.2.2

theorem Rep.pivots_length (r : Rep H a n) : a.pivots.length = n.pivots.length := by
  obtain ⟨_, _, _, _, R⟩ := r
  exact R.piv.length_eq

theorem fresh_rep (h0 : 0 < H) (h1 : H ≤ 65536) (zb : Branch K V) (zf e : F) (k mk : K) (id g ng : Nat) (c : C) :
    Rep H (fresh zb zf e) (⟨id, mk, ng, 0, [], [], [(⟨k, 0, 0, e, g⟩, c)]⟩ : Node K V F C) := by
  obtain ⟨b0, s0, f0, u0, R⟩ := NodeArr.blank_rep (C := C) h0 h1 zb zf k mk id g ng c
  have hp := R.piv
  obtain ⟨P, -⟩ := List.forall₂_cons.mp hp
  refine ⟨b0, s0, f0, u0, withPivots R (m := ⟨id, mk, ng, 0, [], [], [(⟨k, 0, 0, e, g⟩, c)]⟩) rfl rfl rfl (l := [⟨0, 0, e⟩])
    (.cons ⟨P.startBr, P.startBu, rfl, P.wle, P.ble, P.order⟩ .nil)⟩

/-- A bundle of the node has its number on the page. -/
theorem live_of_mem (R : Rep H a n) {b : Bundle K V F} (hb : b ∈ n.bundles) : b.no < n.endB ∧ n.endB ≤ b.no + maxBu := by
  obtain ⟨b0, s0, f0, u0, R⟩ := R
  obtain ⟨pre, post, e⟩ := List.append_of_mem hb
  have := (R.no_ne e).1
  have hl := R.bu.lt
  have h2 := R.endB
  rw [NodeArr.length_buRecs] at hl
  have h3 : n.bundles.length = pre.length + (post.length + 1) := by rw [e]; simp
  omega

theorem buLive_iff (R : Rep H a n) {no : Nat} (h : n.bundles.any (fun b => b.no == no) = true ∨ (no < n.endB ∧ n.endB ≤ no + maxBu)) :
    NodeArr.buLive a (no % maxBu) = n.bundles.any (fun b => b.no == no) := by
  have hy : no < n.endB ∧ n.endB ≤ no + maxBu := by
    rcases h with h | h
    · obtain ⟨b, hb, e⟩ := List.any_eq_true.mp h
      have e : b.no = no := by simpa using e
      subst e
      exact live_of_mem R hb
    · exact h
  exact NodeArr.buLive_spec R hy.1 hy.2

theorem first_iff (R : Rep H a n) {no : Nat} {b : Bundle K V F} {rest : List (Bundle K V F)} (e : n.bundles = b :: rest)
    (h : n.bundles.any (fun b => b.no == no) = true) : a.startBu = no % maxBu ↔ b.no = no := by
  obtain ⟨c, hc, e2⟩ := List.any_eq_true.mp h
  have e2 : c.no = no := by simpa using e2
  subst e2
  have hl := live_of_mem R hc
  obtain ⟨b0, s0, f0, u0, R⟩ := R
  obtain ⟨pre, post, e3⟩ := List.append_of_mem hc
  have h1 := (R.no_ne e3).1
  have h2 := (R.no_ne (pre := []) e).1
  have h3 := R.endB
  have hlt := R.bu.lt
  rw [NodeArr.length_buRecs] at hlt
  have h4 : n.bundles.length = pre.length + (post.length + 1) := by rw [e3]; simp
  simp only [List.length_nil, Nat.add_zero] at h2
  rw [R.bu.s, h2, h1]
  unfold NodeArr.maxBu at *
  omega

/-! ### Children -/

theorem kids_resetStart (n : Node K V F C) : n.resetStart.pivots.map (·.2) = n.pivots.map (·.2) := by
  simp [Node.resetStart, List.map_map, Function.comp_def]

theorem kids_pivotClear (ops : FilterOps K F) (n : Node K V F C) (i : Nat) :
    (n.pivotClear ops i).pivots.map (·.2) = n.pivots.map (·.2) := by
  unfold Node.pivotClear
  split
  · rfl
  · rename_i p c hp
    have : (n.pivots.set i ({ p with wskip := n.whole.length, bskip := n.bundles.length, filter := ops.empty }, c)).map (·.2) =
        n.pivots.map (·.2) := by
      rw [List.map_set]
      obtain ⟨hi, e⟩ := List.getElem?_eq_some_iff.mp hp
      apply List.ext_getElem?
      intro m
      rw [List.getElem?_set]
      split
      · rename_i hm
        subst hm
        simp [hi, e]
      · rfl
    dsimp only
    split
    · rw [kids_resetStart]; exact this
    · exact this

theorem kids_clearBundle (n : Node K V F C) : n.clearBundle.pivots.map (·.2) = n.pivots.map (·.2) := by
  unfold Node.clearBundle
  split
  · rfl
  · simp [List.map_map, Function.comp_def]

theorem kids_buildFilters (ops : FilterOps K F) (n : Node K V F C) (s : Nat → List K) :
    (n.buildFilters ops s).pivots.map (·.2) = n.pivots.map (·.2) := by
  simp [Node.buildFilters, List.map_map, Function.comp_def]

theorem kids_vanish (n : Node K V F C) (no : Nat) : (n.vanish no).pivots.map (·.2) = n.pivots.map (·.2) := by
  simp [Node.vanish, List.map_map, Function.comp_def]

theorem kids_addPivots (key : Node K V F C → K) : ∀ (cs : List (Node K V F C)) (p : PData K F) (g : Nat),
    (addPivots p g key cs).1.map (·.2) = cs
  | [], _, _ => rfl
  | [c], _, _ => rfl
  | c :: c' :: cs, p, g => by
    have := kids_addPivots key (c' :: cs) { p with key := key c' } (g + 1)
    simp [addPivots, this]

/-! ### Filters of subbundles -/

theorem mem_sbsOf {l : List (Bundle K V F)} {sb : SB K V F} : sb ∈ sbsOf l ↔ ∃ b ∈ l, sb ∈ b.sbs := by simp [sbsOf]

theorem NodeOk.congr (h : NodeOk n) {m : Node K V F D} (e : m.bundles = n.bundles) : NodeOk m := by
  unfold NodeOk; rw [e]; exact h

theorem NodeOk.addBundle (h : NodeOk n) {sbs : List (SB K V F)} (h2 : ∀ sb ∈ sbs, sb.compacted = false → sb.filters ≠ []) :
    NodeOk (n.addBundle sbs) := by
  intro sb hs
  simp only [Node.addBundle, sbsOf, List.flatMap_append, List.flatMap_cons, List.flatMap_nil, List.append_nil,
    List.mem_append] at hs
  rcases hs with hs | hs
  · exact h sb hs
  · exact h2 sb hs

theorem NodeOk.flushSbs (h : NodeOk n) (q : PData K F) : ∀ sb ∈ flushSbs n q, sb.compacted = false → sb.filters ≠ [] := by
  intro sb hs hc
  unfold Trunk.flushSbs at hs
  rcases List.mem_append.mp hs with hs | hs
  · split at hs
    · cases hs
    · rw [List.mem_singleton.mp hs]; simp
  · obtain ⟨b, hb, hs⟩ := List.mem_flatMap.mp hs
    exact h sb (mem_sbsOf.mpr ⟨b, List.mem_of_mem_drop hb, hs⟩) hc

theorem NodeOk.resetStart (h : NodeOk n) : NodeOk n.resetStart := by
  intro sb hs
  obtain ⟨b, hb, hs⟩ := mem_sbsOf.mp hs
  exact h sb (mem_sbsOf.mpr ⟨b, List.mem_of_mem_drop hb, hs⟩)

theorem NodeOk.pivotClear (h : NodeOk n) (ops : FilterOps K F) (i : Nat) : NodeOk (n.pivotClear ops i) := by
  unfold Node.pivotClear
  split
  · exact h
  · dsimp only
    split
    · exact NodeOk.resetStart (NodeOk.congr h rfl)
    · exact NodeOk.congr h rfl

theorem NodeOk.replaceBundle (h : NodeOk n) (no : Nat) (out : Branch K V) : NodeOk (n.replaceBundle no out) := by
  intro sb hs
  obtain ⟨b, hb, hs⟩ := mem_sbsOf.mp hs
  obtain ⟨b', hb', rfl⟩ := List.mem_map.mp hb
  split at hs
  · rw [List.mem_singleton.mp hs]; simp
  · exact h sb (mem_sbsOf.mpr ⟨b', hb', hs⟩)

theorem NodeOk.clearBundle (h : NodeOk n) : NodeOk n.clearBundle := by
  intro sb hs
  unfold Node.clearBundle at hs
  split at hs
  · exact h sb hs
  · rename_i b rest hb
    refine h sb ?_
    rw [hb]
    obtain ⟨b', hb', hs⟩ := mem_sbsOf.mp hs
    exact mem_sbsOf.mpr ⟨b', List.mem_cons_of_mem _ hb', hs⟩

theorem NodeOk.rebundle (h : NodeOk n) (ops : FilterOps K F) : NodeOk (Trunk.rebundle ops n) := by
  intro sb hs
  unfold Trunk.rebundle at hs
  split at hs
  · simp only [sbsOf, List.flatMap_cons, List.flatMap_nil, List.append_nil, List.mem_append] at hs
    rcases hs with hs | hs
    · split at hs
      · cases hs
      · rw [List.mem_singleton.mp hs]; simp
    · exact h sb hs
  · exact h sb hs

/-- The newest bundle, found by its number. -/
theorem newest (R : Rep H a n) {no : Nat} (h : n.bundles.any (fun b => b.no == no) = true) (he : n.endB = no + 1) :
    ∃ pre b, n.bundles = pre ++ [b] ∧ b.no = no ∧ n.bundles.drop (n.bundleIdx no + 1) = [] := by
  obtain ⟨b, hb, e2⟩ := List.any_eq_true.mp h
  have e2 : b.no = no := by simpa using e2
  subst e2
  obtain ⟨b0, s0, f0, u0, R⟩ := R
  obtain ⟨pre, post, e⟩ := List.append_of_mem hb
  obtain ⟨h1, h2, -⟩ := R.no_ne e
  have h3 := R.endB
  have h4 : n.bundles.length = pre.length + (post.length + 1) := by rw [e]; simp
  have h5 : post = [] := by apply List.eq_nil_of_length_eq_zero; omega
  subst h5
  refine ⟨pre, b, e, rfl, ?_⟩
  unfold Node.bundleIdx
  have h6 : List.findIdx (fun y => y.no == b.no) pre = pre.length := by
    rw [List.findIdx_eq_length]
    intro y hy
    simpa using h2 y hy
  rw [List.drop_eq_nil_iff, e, List.findIdx_append, h6]
  simp

theorem NodeOk.vanish (h : NodeOk n) {no : Nat} (hd : n.bundles.drop (n.bundleIdx no + 1) = []) : NodeOk (n.vanish no) := by
  intro sb hs
  unfold Node.vanish at hs
  simp only [hd, movedBundles, List.append_nil] at hs
  obtain ⟨b, hb, hs⟩ := mem_sbsOf.mp hs
  exact h sb (mem_sbsOf.mpr ⟨b, List.mem_of_mem_take hb, hs⟩)

/-! ### Leaves -/

theorem LeafOk.clearBundle (h : LeafOk n) : LeafOk n.clearBundle := by
  obtain ⟨p, c, e, h1, h2⟩ := h
  unfold Node.clearBundle
  split
  · exact ⟨p, c, e, h1, h2⟩
  · exact ⟨p, c, by simp [e, h2], h1, h2⟩

theorem LeafOk.buildFilters (h : LeafOk n) (ops : FilterOps K F) (s : Nat → List K) : LeafOk (n.buildFilters ops s) := by
  obtain ⟨p, c, e, h1, h2⟩ := h
  unfold Node.buildFilters
  refine ⟨_, c, by rw [e]; rfl, ?_, ?_⟩ <;> simp only [h2, if_true] <;> split <;> first | assumption | rfl

theorem LeafOk.vanish (h : LeafOk n) (no : Nat) : LeafOk (n.vanish no) := by
  obtain ⟨p, c, e, h1, h2⟩ := h
  exact ⟨p, c, by simp [Node.vanish, e, h2], h1, h2⟩

theorem LeafOk.rebundle (h : LeafOk n) (ops : FilterOps K F) : LeafOk (Trunk.rebundle ops n) := by
  obtain ⟨p, c, e, h1, h2⟩ := h
  unfold Trunk.rebundle
  rw [e]
  exact ⟨_, c, rfl, rfl, rfl⟩

end Nodes

/-! ### Working at a node of the tree -/

variable [LinearOrder K]

/-- The located node has the property. -/
def At (j : Nat) (k : K) (Q : (h : Nat) → Node K V F (Sub K V F h) → Prop) : (h : Nat) → Node K V F (Sub K V F h) → Prop
  | 0, n => if j = 0 then Q 0 n else True
  | h + 1, n =>
    if h + 1 = j then Q (h + 1) n
    else
      match n.pivots[n.find k]? with
      | none => True
      | some (_, c) => At j k Q h c

theorem at_all {j : Nat} {k : K} {Q : (h : Nat) → Node K V F (Sub K V F h) → Prop} (hq : ∀ n, Q j n) :
    ∀ (h : Nat) (n : Node K V F (Sub K V F h)), At j k Q h n
  | 0, n => by
    unfold At
    by_cases hj : j = 0
    · subst hj; rw [if_pos rfl]; exact hq n
    · rw [if_neg hj]; trivial
  | h + 1, n => by
    unfold At
    by_cases hj : h + 1 = j
    · subst hj; rw [if_pos rfl]; exact hq n
    · rw [if_neg hj]
      cases n.pivots[n.find k]? with
      | none => trivial
      | some x => exact at_all hq h x.2

theorem at_info {j : Nat} {k : K} {i : NodeInfo K V F} : ∀ (h : Nat) (n : Node K V F (Sub K V F h)), nodeAt j k h n = some i →
    At j k (fun _ m => m.info = i) h n
  | 0, n, e => by
    unfold nodeAt at e
    unfold At
    by_cases hj : j = 0
    · rw [if_pos hj] at *; exact Option.some.inj e
    · rw [if_neg hj]; trivial
  | h + 1, n, e => by
    unfold nodeAt at e
    unfold At
    by_cases hj : h + 1 = j
    · rw [if_pos hj] at *; exact Option.some.inj e
    · rw [if_neg hj] at *
      cases hp : n.pivots[n.find k]? with
      | none => trivial
      | some x =>
        rw [hp] at e
        exact at_info h x.2 e

theorem upd_same {j : Nat} {k : K} {i : NodeInfo K V F} : ∀ (h : Nat) (n : Node K V F (Sub K V F h)), nodeAt j k h n = some i →
    upd j k (fun _ n => some n) h n = some n
  | 0, n, e => by
    unfold nodeAt at e
    unfold upd
    by_cases hj : j = 0
    · rw [if_pos hj]
    · rw [if_neg hj] at e; cases e
  | h + 1, n, e => by
    unfold nodeAt at e
    unfold upd
    by_cases hj : h + 1 = j
    · rw [if_pos hj]
    · rw [if_neg hj] at *
      cases hp : n.pivots[n.find k]? with
      | none => rw [hp] at e; cases e
      | some x =>
        rw [hp] at e
        simp only [upd_same h x.2 e]
        obtain ⟨hi, e2⟩ := List.getElem?_eq_some_iff.mp hp
        have : n.pivots.set (n.find k) (x.1, x.2) = n.pivots := by
          show n.pivots.set (n.find k) x = n.pivots
          rw [← e2, List.set_getElem_self]
        rw [this]

theorem forall₂_get {α β : Type} {P : α → β → Prop} {l : List α} {r : List β} (h : List.Forall₂ P l r) {i : Nat} {x : α}
    (hx : l[i]? = some x) : ∃ y, r[i]? = some y ∧ P x y := by
  rw [List.forall₂_iff_get] at h
  obtain ⟨hi, e⟩ := List.getElem?_eq_some_iff.mp hx
  have hi2 : i < r.length := by rw [← h.1]; exact hi
  refine ⟨r[i], List.getElem?_eq_getElem hi2, ?_⟩
  have := h.2 i hi hi2
  simp only [List.get_eq_getElem, e] at this
  exact this

theorem forall₂_set {α β : Type} {P : α → β → Prop} : ∀ {l : List α} {r : List β}, List.Forall₂ P l r → ∀ (i : Nat) {x : α} {y : β},
    P x y → List.Forall₂ P (l.set i x) (r.set i y)
  | _, _, .nil, _, _, _, _ => .nil
  | _, _, .cons _ t, 0, _, _, h => .cons h t
  | _, _, .cons g t, i + 1, _, _, h => .cons g (forall₂_set t i h)

/-- Lifting from a node to the tree. -/
theorem upd_rep {j : Nat} {k : K} {Q : (h : Nat) → Node K V F (Sub K V F h) → Prop}
    {f : (h : Nat) → Node K V F (Sub K V F h) → Option (Node K V F (Sub K V F h))}
    {g : (h : Nat) → Node K V F (Sub K V F h) → Tree (Branch K V) F → Option (Tree (Branch K V) F)}
    (hf : ∀ n t n', RepT H j n t → Q j n → f j n = some n' → ∃ t', g j n t = some t' ∧ RepT H j n' t') :
    ∀ (h : Nat) (n n' : Node K V F (Sub K V F h)) (t : Tree (Branch K V) F), RepT H h n t → At j k Q h n →
      upd j k f h n = some n' → ∃ t', updT j k g h n t = some t' ∧ RepT H h n' t'
  | 0, n, n', t, r, q, e => by
    unfold upd at e
    unfold updT
    unfold At at q
    by_cases hj : j = 0
    · subst hj; rw [if_pos rfl] at *; exact hf n t n' r q e
    · rw [if_neg hj] at e; cases e
  | h + 1, n, n', t, r, q, e => by
    unfold upd at e
    unfold updT
    unfold At at q
    by_cases hj : h + 1 = j
    · subst hj; rw [if_pos rfl] at *; exact hf n t n' r q e
    · rw [if_neg hj] at *
      cases hp : n.pivots[n.find k]? with
      | none => rw [hp] at e; cases e
      | some x =>
        rw [hp] at e q
        dsimp only at e q
        cases hu : upd j k f h x.2 with
        | none => rw [hu] at e; cases e
        | some c' =>
          rw [hu] at e
          obtain rfl := Option.some.inj e
          obtain ⟨r1, r2, r3⟩ := r
          obtain ⟨u, hu2, hr⟩ := forall₂_get r3 (i := n.find k) (x := x.2) (by rw [List.getElem?_map, hp]; rfl)
          obtain ⟨u', hu3, hr'⟩ := upd_rep hf h x.2 c' u hr q hu
          rw [hu2]
          dsimp only
          rw [hu3]
          refine ⟨_, rfl, Rep.congr r1 rfl rfl rfl ?_, NodeOk.congr r2 rfl, ?_⟩
          · dsimp only
            rw [List.map_set]
            obtain ⟨hi, e2⟩ := List.getElem?_eq_some_iff.mp hp
            apply List.ext_getElem?
            intro m
            rw [List.getElem?_set]
            split
            · rename_i hm
              subst hm
              simp [hi, e2]
            · rfl
          · dsimp only [Tree.kids]
            rw [List.map_set]
            exact forall₂_set r3 _ hr'

end Splinter.Trunk.Paged
