import Verif.Proof.NodeArrReads
/-!
# C47: pages of trunk nodes represent the nodes' lists

A store of trunk nodes, once as pages (circular arrays and cursors) and once as lists (the
nodes of `Model/Trunk.lean`, children given by address). Any sequence of node operations
keeps the two in step, and lookups read the same branches.
-/
namespace Splinter.Trunk.NodeArr

variable {K V F : Type}

/-- Nodes by address. -/
abbrev Pages (K V F : Type) := Nat → Hdr (Branch K V) F
abbrev Nodes (K V F : Type) := Nat → Node K V F Nat

/-- Operations on nodes, with everything policy and merging decide as parameters. -/
inductive Op (K V F : Type)
  | install (x : Nat) (b : Branch K V) (f : F)
  | flush (p i c : Nat)
  | replace (x no : Nat) (out : Branch K V)
  | vanish (x : Nat)
  | build (x : Nat) (slice : Nat → List K)
  | clear (x : Nat)
  | rebundle (x : Nat)
  | split (x y idL idR : Nat)

/-- The operation on pages. `none`: an assertion fails or there is no room. -/
def onPages (H : Nat) (ops : FilterOps K F) (ns : Nodes K V F) (g : Pages K V F) : Op K V F → Option (Pages K V F)
  | .install x b f => (install H (g x) b f).map (upd g x)
  | .flush p i c => (flushInto H ops.empty (g p) (g c) i).map fun r => upd (upd g p r.1) c r.2
  | .replace x no out => (replaceBundle H (g x) (no % maxBu) out).map (upd g x)
  | .vanish x => (vanish H (g x) (Ring.sub maxBu (g x).endBu 1)).map (upd g x)
  | .build x slice => some (upd g x (buildFilters H ops.add (g x) ((ns x).pivots.map fun y => slice y.1.gen)))
  | .clear x => some (upd g x (clearBundle (g x)))
  | .rebundle x => (rebundle H ops.empty (g x)).map (upd g x)
  | .split x y _ _ =>
    let t := (g x).pivots.length / 2
    match resetStart H { g x with pivots := (g x).pivots.take t }, resetStart H { g x with pivots := (g x).pivots.drop t } with
    | some l, some r => some (upd (upd g x l) y r)
    | _, _ => none

/-- The operation on lists. -/
def onNodes (ops : FilterOps K F) (ns : Nodes K V F) : Op K V F → Nodes K V F
  | .install x b f => upd ns x ((ns x).addBundle [⟨true, [b], [f]⟩])
  | .flush p i c =>
    match (ns p).pivots[i]? with
    | none => ns
    | some q => upd (upd ns p ((ns p).pivotClear ops i)) c ((ns c).addBundle (flushSbs (ns p) q.1))
  | .replace x no out => upd ns x ((ns x).replaceBundle no out)
  | .vanish x => upd ns x ((ns x).vanish ((ns x).endB - 1))
  | .build x slice => upd ns x ((ns x).buildFilters ops slice)
  | .clear x => upd ns x (ns x).clearBundle
  | .rebundle x => upd ns x (Trunk.rebundle ops (ns x))
  | .split x y idL idR =>
    match splitIndex (ns x) idL idR with
    | none => ns
    | some (l, r) => upd (upd ns x l) y r

/-- When the operation is used. `fits` is the part the code does not check: there is
room for the filters. -/
def Allowed (ns : Nodes K V F) : Op K V F → Prop
  | .install x _ _ => Node.nF (ns x) + 1 < maxF
  | .flush p i c => p ≠ c ∧ ∃ q, (ns p).pivots[i]? = some q ∧ flushSbs (ns p) q.1 ≠ [] ∧
      Node.nF (ns c) + (flsOf (flushSbs (ns p) q.1)).length < maxF
  | .replace x no _ => ∃ b ∈ (ns x).bundles, b.no = no
  | .vanish x => (ns x).bundles ≠ []
  | .build x _ => (ns x).bundles ≠ []
  | .clear x => (ns x).bundles ≠ []
  | .rebundle x => ((ns x).whole ≠ [] ∨ (ns x).bundles ≠ []) ∧
      ∃ p c, (ns x).pivots = [(p, c)] ∧ p.wskip = 0 ∧ p.bskip = 0
  | .split x y _ _ => x ≠ y ∧ 2 ≤ (ns x).pivots.length

/-- Pages represent nodes. -/
def AllRep (H : Nat) (g : Pages K V F) (ns : Nodes K V F) : Prop := ∀ x, Rep H (g x) (ns x)

theorem AllRep.upd {H : Nat} {g : Pages K V F} {ns : Nodes K V F} (h : AllRep H g ns) {x : Nat} {a : Hdr (Branch K V) F}
    {n : Node K V F Nat} (r : Rep H a n) : AllRep H (upd g x a) (upd ns x n) := by
  intro y
  unfold NodeArr.upd
  split
  · exact r
  · exact h y

theorem Rep.pivots_length {H : Nat} {a : Hdr (Branch K V) F} {C : Type} {n : Node K V F C} (r : Rep H a n) :
    a.pivots.length = n.pivots.length := by
  obtain ⟨_, _, _, _, R⟩ := r
  exact R.piv.length_eq

/-- One operation keeps pages and lists in step. -/
theorem step_rep {H : Nat} {ops : FilterOps K F} {g g' : Pages K V F} {ns : Nodes K V F} (h : AllRep H g ns) (o : Op K V F)
    (ha : Allowed ns o) (hg : onPages H ops ns g o = some g') : AllRep H g' (onNodes ops ns o) := by
  cases o with
  | install x b f =>
    have hs := install_spec (h x) b f ha
    obtain ⟨a', e1, e2⟩ := Option.map_eq_some_iff.mp hg
    subst e2
    split at hs
    · obtain ⟨a2, e3, e4⟩ := hs
      rw [e1] at e3
      cases e3
      exact h.upd e4
    · rw [e1] at hs; cases hs
  | flush p i c =>
    obtain ⟨hpc, q, hq, hne, hf⟩ := ha
    obtain ⟨⟨a', ca'⟩, e1, e2⟩ := Option.map_eq_some_iff.mp hg
    subst e2
    have hroom : ∃ y, (g p).pivots[i]? = some y ∧ roomToFlush H (g p) (g c) y = true := by
      unfold flushInto at e1
      split at e1
      · cases e1
      · rename_i y hy
        refine ⟨y, hy, ?_⟩
        split at e1
        · cases e1
        · rename_i hr
          simpa using hr
    obtain ⟨a2, ca2, f1, f2, f3⟩ := flushInto_spec (ops := ops) (h p) (h c) hq hne hf hroom
    rw [e1] at f1
    cases f1
    simp only [onNodes, hq]
    exact (h.upd f2).upd f3
  | replace x no out =>
    obtain ⟨b, hb, rfl⟩ := ha
    obtain ⟨a', e1, e2⟩ := Option.map_eq_some_iff.mp hg
    subst e2
    obtain ⟨a2, f1, f2⟩ := replaceBundle_spec (h x) hb out
    rw [e1] at f1
    cases f1
    exact h.upd f2
  | vanish x =>
    obtain ⟨a', e1, e2⟩ := Option.map_eq_some_iff.mp hg
    subst e2
    have e : (ns x).bundles = (ns x).bundles.dropLast ++ [(ns x).bundles.getLast ha] := (List.dropLast_append_getLast ha).symm
    have hno : ((ns x).bundles.getLast ha).no = (ns x).endB - 1 ∧
        ((ns x).bundles.getLast ha).no % maxBu = Ring.sub maxBu (g x).endBu 1 := by
      obtain ⟨b0, s0, f0, u0, R⟩ := h x
      have hn := (R.no_ne e).1
      have hl : (ns x).bundles.length = (ns x).bundles.dropLast.length + 1 := by rw [e]; simp
      rw [hn, R.endB, hl]
      refine ⟨by omega, ?_⟩
      rw [R.bu.e, length_buRecs, hl, ← Nat.add_assoc, Ring.sub_spec (by decide) (by decide) _ 1 (by decide)]
    obtain ⟨a2, f1, f2⟩ := vanish_newest (h x) e
    rw [hno.2, e1] at f1
    cases f1
    rw [hno.1] at f2
    exact h.upd f2
  | build x slice =>
    cases hg
    exact h.upd (buildFilters_spec (h x) ha slice)
  | clear x =>
    cases hg
    exact h.upd (clearBundle_spec (h x) ha)
  | rebundle x =>
    obtain ⟨hne, p, c, hp, hw, hb⟩ := ha
    obtain ⟨a', e1, e2⟩ := Option.map_eq_some_iff.mp hg
    subst e2
    have hs := rebundle_spec (ops := ops) (h x) hp hw hb hne
    split at hs
    · obtain ⟨a2, e3, e4⟩ := hs
      rw [e1] at e3
      cases e3
      exact h.upd e4
    · rw [e1] at hs; cases hs
  | split x y idL idR =>
    obtain ⟨hxy, hl⟩ := ha
    have hlen := (h x).pivots_length
    obtain ⟨q, hq⟩ : ∃ q, (ns x).pivots[(ns x).pivots.length / 2]? = some q := ⟨_, List.getElem?_eq_getElem (by omega)⟩
    obtain ⟨l, l1, l2⟩ := pivots_spec (h x) (id := idL) (k := q.1.key) (Or.inl ⟨rfl, rfl⟩)
    obtain ⟨r, r1, r2⟩ := pivots_spec (h x) (id := idR) (k := (ns x).maxKey) (Or.inr ⟨rfl, rfl⟩)
    simp only [onPages, hlen, l1, r1, Option.some.injEq] at hg
    subst hg
    unfold onNodes splitIndex
    simp only [hq]
    rw [if_neg (by omega)]
    exact (h.upd l2).upd r2

/-- Subbundles that are not compacted have a filter. -/
def Filtered (ns : Nodes K V F) : Prop := ∀ x, ∀ sb ∈ sbsOf (ns x).bundles, sb.compacted = false → sb.filters ≠ []

theorem Filtered.upd {ns : Nodes K V F} (h : Filtered ns) {x : Nat} {n : Node K V F Nat}
    (hn : ∀ sb ∈ sbsOf n.bundles, sb.compacted = false → sb.filters ≠ []) : Filtered (upd ns x n) := by
  intro y
  unfold NodeArr.upd
  split
  · exact hn
  · exact h y

theorem mem_sbsOf {l : List (Bundle K V F)} {sb : SB K V F} : sb ∈ sbsOf l ↔ ∃ b ∈ l, sb ∈ b.sbs := by
  simp [sbsOf]

theorem Filtered.resetStart {C : Type} {n : Node K V F C} (h : ∀ sb ∈ sbsOf n.bundles, sb.compacted = false → sb.filters ≠ []) :
    ∀ sb ∈ sbsOf n.resetStart.bundles, sb.compacted = false → sb.filters ≠ [] := by
  intro sb hs
  obtain ⟨b, hb, hs⟩ := mem_sbsOf.mp hs
  exact h sb (mem_sbsOf.mpr ⟨b, List.mem_of_mem_drop hb, hs⟩)

theorem step_filtered {H : Nat} {ops : FilterOps K F} {g : Pages K V F} {ns : Nodes K V F} (h : AllRep H g ns) (hf : Filtered ns)
    (o : Op K V F) (ha : Allowed ns o) : Filtered (onNodes ops ns o) := by
  have hfl : ∀ p q, ∀ sb ∈ flushSbs (ns p) q, sb.compacted = false → sb.filters ≠ [] := by
    intro p q sb hs hc
    unfold flushSbs at hs
    rcases List.mem_append.mp hs with hs | hs
    · split at hs
      · cases hs
      · rw [List.mem_singleton.mp hs]; simp
    · obtain ⟨b, hb, hs⟩ := List.mem_flatMap.mp hs
      exact hf p sb (mem_sbsOf.mpr ⟨b, List.mem_of_mem_drop hb, hs⟩) hc
  have hadd : ∀ (n : Node K V F Nat) sbs, (∀ sb ∈ sbsOf n.bundles, sb.compacted = false → sb.filters ≠ []) →
      (∀ sb ∈ sbs, sb.compacted = false → sb.filters ≠ []) →
      ∀ sb ∈ sbsOf (n.addBundle sbs).bundles, sb.compacted = false → sb.filters ≠ [] := by
    intro n sbs h1 h2 sb hs
    simp only [Node.addBundle, sbsOf, List.flatMap_append, List.flatMap_cons, List.flatMap_nil, List.append_nil,
      List.mem_append] at hs
    rcases hs with hs | hs
    · exact h1 sb hs
    · exact h2 sb hs
  cases o with
  | install x b f => exact hf.upd (hadd _ _ (hf x) (by simp))
  | flush p i c =>
    obtain ⟨hpc, q, hq, hne, -⟩ := ha
    simp only [onNodes, hq]
    refine (hf.upd ?_).upd (hadd _ _ (hf c) (hfl p q.1))
    unfold Node.pivotClear
    simp only [hq]
    split
    · exact Filtered.resetStart (hf p)
    · exact hf p
  | replace x no out =>
    refine hf.upd fun sb hs => ?_
    obtain ⟨b, hb, hs⟩ := mem_sbsOf.mp hs
    obtain ⟨b', hb', rfl⟩ := List.mem_map.mp hb
    split at hs
    · rw [List.mem_singleton.mp hs]; simp
    · exact hf x sb (mem_sbsOf.mpr ⟨b', hb', hs⟩)
  | vanish x =>
    refine hf.upd fun sb hs => ?_
    have hd : (ns x).bundles.drop ((ns x).bundleIdx ((ns x).endB - 1) + 1) = [] := by
      obtain ⟨b0, s0, f0, u0, R⟩ := h x
      obtain ⟨pre, b, e⟩ : ∃ pre b, (ns x).bundles = pre ++ [b] := ⟨_, _, (List.dropLast_append_getLast ha).symm⟩
      obtain ⟨hn, hn1, -⟩ := R.no_ne e
      have hl : (ns x).bundles.length = pre.length + 1 := by rw [e]; simp
      have hno : b.no = (ns x).endB - 1 := by rw [hn, R.endB, hl]; omega
      rw [← hno]
      unfold Node.bundleIdx
      have h2 : List.findIdx (fun y => y.no == b.no) pre = pre.length := by
        rw [List.findIdx_eq_length]
        intro y hy
        simpa using hn1 y hy
      rw [List.drop_eq_nil_iff, e, List.findIdx_append, h2]
      simp
    unfold Node.vanish at hs
    simp only [hd, movedBundles, List.append_nil] at hs
    obtain ⟨b, hb, hs⟩ := mem_sbsOf.mp hs
    exact hf x sb (mem_sbsOf.mpr ⟨b, List.mem_of_mem_take hb, hs⟩)
  | build x slice => exact hf.upd (hf x)
  | clear x =>
    refine hf.upd fun sb hs => ?_
    unfold Node.clearBundle at hs
    split at hs
    · exact hf x sb hs
    · rename_i b rest hb
      refine hf x sb ?_
      rw [hb]
      obtain ⟨b', hb', hs⟩ := mem_sbsOf.mp hs
      exact mem_sbsOf.mpr ⟨b', List.mem_cons_of_mem _ hb', hs⟩
  | rebundle x =>
    refine hf.upd fun sb hs => ?_
    unfold Trunk.rebundle at hs
    split at hs
    · simp only [sbsOf, List.flatMap_cons, List.flatMap_nil, List.append_nil, List.mem_append] at hs
      rcases hs with hs | hs
      · split at hs
        · cases hs
        · rw [List.mem_singleton.mp hs]; simp
      · exact hf x sb hs
    · exact hf x sb hs
  | split x y idL idR =>
    unfold onNodes splitIndex
    obtain ⟨-, hl⟩ := ha
    obtain ⟨q, hq⟩ : ∃ q, (ns x).pivots[(ns x).pivots.length / 2]? = some q := ⟨_, List.getElem?_eq_getElem (by omega)⟩
    simp only [hq]
    rw [if_neg (by omega)]
    refine Filtered.upd (hf.upd ?_) ?_
    · exact Filtered.resetStart (n := { ns x with id := idL, maxKey := _, pivots := _ }) (hf x)
    · exact Filtered.resetStart (n := { ns x with id := idR, pivots := _ }) (hf x)

/-- A sequence of operations on pages and lists. -/
def runPages (H : Nat) (ops : FilterOps K F) : Nodes K V F → Pages K V F → List (Op K V F) → Option (Pages K V F)
  | _, g, [] => some g
  | ns, g, o :: r =>
    match onPages H ops ns g o with
    | none => none
    | some g' => runPages H ops (onNodes ops ns o) g' r

def runNodes (ops : FilterOps K F) (ns : Nodes K V F) (l : List (Op K V F)) : Nodes K V F := l.foldl (onNodes ops) ns

def AllAllowed (ops : FilterOps K F) : Nodes K V F → List (Op K V F) → Prop
  | _, [] => True
  | ns, o :: r => Allowed ns o ∧ AllAllowed ops (onNodes ops ns o) r

/-- C47 (partial: the filters fit, and only the newest bundle of a node vanishes): pages
and lists stay in step. -/
theorem run_rep_partial {H : Nat} {ops : FilterOps K F} : ∀ (l : List (Op K V F)) {g g' : Pages K V F} {ns : Nodes K V F},
    AllRep H g ns → AllAllowed ops ns l → runPages H ops ns g l = some g' → AllRep H g' (runNodes ops ns l)
  | [], _, _, _, h, _, hg => by cases hg; exact h
  | o :: r, g, g', ns, h, ha, hg => by
    unfold runPages at hg
    split at hg
    · cases hg
    · rename_i g1 e
      exact run_rep_partial r (step_rep h o ha.1 e) ha.2 hg

theorem run_filtered {H : Nat} {ops : FilterOps K F} : ∀ (l : List (Op K V F)) {g g' : Pages K V F} {ns : Nodes K V F},
    AllRep H g ns → Filtered ns → AllAllowed ops ns l → runPages H ops ns g l = some g' → Filtered (runNodes ops ns l)
  | [], _, _, _, _, hf, _, _ => hf
  | o :: r, g, g', ns, h, hf, ha, hg => by
    unfold runPages at hg
    split at hg
    · cases hg
    · rename_i g1 e
      exact run_filtered r (step_rep h o ha.1 e) (step_filtered h hf o ha.1) ha.2 hg

/-- Nodes as created. -/
def freshPages (zb : Branch K V) (zf : F) : Pages K V F := fun _ => blank zb zf ⟨0, 0, zf⟩
def freshNodes (k mk : K) (zf : F) : Nodes K V F := fun x => ⟨x, mk, 0, 0, [], [], [(⟨k, 0, 0, zf, 0⟩, 0)]⟩

theorem fresh_rep {H : Nat} (h0 : 0 < H) (h1 : H ≤ 65536) (zb : Branch K V) (zf : F) (k mk : K) :
    AllRep H (freshPages zb zf) (freshNodes k mk zf) := fun _ => blank_rep h0 h1 zb zf k mk _ _ _ _

/-- C47: lookups through the arrays. Each pivot of a node reads the branches that the list
model names, in that order, when the list model names a branch for every value the filters
report (`l`). -/
theorem lookup_reads_partial {H : Nat} {ops : FilterOps K F} {g g' : Pages K V F} {ns : Nodes K V F} (os : List (Op K V F))
    (h : AllRep H g ns) (ha : AllAllowed ops ns os) (hg : runPages H ops ns g os = some g') {x i : Nat}
    {q : PData K F × Nat} (hq : (runNodes ops ns os x).pivots[i]? = some q) (k : K)
    (hf : Filtered ns) :
    ∃ r, (g' x).pivots[i]? = some r ∧ ∀ l, pivotProbes ops (runNodes ops ns os x) q.1 k = l.map some →
      pivotReads H ops.vals (g' x) r k = l := by
  obtain ⟨b0, s0, f0, u0, R⟩ := run_rep_partial os h ha hg x
  obtain ⟨r, hr, P⟩ := R.pivot hq
  refine ⟨r, hr, fun l hl => ?_⟩
  have := pivotReads_spec (ops := ops) R (run_filtered os h hf ha hg x) P k
  rw [hl, List.forall₂_map_right_iff] at this
  have h2 : List.Forall₂ Eq (pivotReads H ops.vals (g' x) r k) l := this.imp fun _ _ h => h _ rfl
  exact List.forall₂_eq_eq_eq ▸ h2

/-- C47: a flush copies exactly the live whole branches and subbundles of the pivot. -/
theorem flush_copies_partial {H : Nat} {ops : FilterOps K F} {g g' : Pages K V F} {ns : Nodes K V F} (os : List (Op K V F))
    (h : AllRep H g ns) (ha : AllAllowed ops ns os) (hg : runPages H ops ns g os = some g') {x i : Nat}
    {q : PData K F × Nat} (hq : (runNodes ops ns os x).pivots[i]? = some q) :
    ∃ r, (g' x).pivots[i]? = some r ∧ readFlush H (g' x) r = some ((flushSbs (runNodes ops ns os x) q.1).map ofSB) := by
  obtain ⟨b0, s0, f0, u0, R⟩ := run_rep_partial os h ha hg x
  obtain ⟨r, hr, P⟩ := R.pivot hq
  exact ⟨r, hr, P.readFlush R⟩

/-- C47: a bundle's number, reduced modulo 12 on the page, says whether the bundle is
there, for the twelve newest numbers. -/
theorem bundle_live_partial {H : Nat} {ops : FilterOps K F} {g g' : Pages K V F} {ns : Nodes K V F} (os : List (Op K V F))
    (h : AllRep H g ns) (ha : AllAllowed ops ns os) (hg : runPages H ops ns g os = some g') {x no : Nat}
    (h1 : no < (runNodes ops ns os x).endB) (h2 : (runNodes ops ns os x).endB ≤ no + maxBu) :
    buLive (g' x) (no % maxBu) = (runNodes ops ns os x).bundleLive no :=
  buLive_spec (run_rep_partial os h ha hg x) h1 h2

/-! ### Examples and counterexamples -/

namespace Demo

/-- Keys and filters are numbers; filter `f` reports value 0 for key `f`. -/
def ops : FilterOps Nat Nat := ⟨0, fun f _ _ => f, fun f k => if f = k ∧ k ≠ 0 then [0] else []⟩

def br (k : Nat) : Branch Nat Unit := [(k, ⟨.insert, ()⟩)]

/-- `m` new branches in node 0, which are flushed into node 1 and compacted there. -/
def round (m r : Nat) : List (Op Nat Unit Nat) :=
  (List.range' (r * m + 1) m).map (fun k => .install 0 (br k) k) ++
    [.flush 0 0 1, .replace 1 r ((List.range' (r * m + 1) m).flatMap br)]

def ns0 : Nodes Nat Unit Nat := freshNodes 0 1000 0
def g0 : Pages Nat Unit Nat := freshPages [] 0

/-- `Allowed`, decided. -/
def allowedB (ns : Nodes Nat Unit Nat) : Op Nat Unit Nat → Bool
  | .install x _ _ => decide (Node.nF (ns x) + 1 < maxF)
  | .flush p i c => decide (p ≠ c) && ((ns p).pivots[i]?).any fun q =>
      !(flushSbs (ns p) q.1).isEmpty && decide (Node.nF (ns c) + (flsOf (flushSbs (ns p) q.1)).length < maxF)
  | .replace x no _ => (ns x).bundles.any fun b => b.no == no
  | .vanish x => !(ns x).bundles.isEmpty
  | .build x _ => !(ns x).bundles.isEmpty
  | .clear x => !(ns x).bundles.isEmpty
  | .rebundle x => (!(ns x).whole.isEmpty || !(ns x).bundles.isEmpty) &&
      decide ((ns x).pivots.length = 1) && ((ns x).pivots.all fun q => decide (q.1.wskip = 0) && decide (q.1.bskip = 0))
  | .split x y _ _ => decide (x ≠ y) && decide (2 ≤ (ns x).pivots.length)

theorem allowedB_spec {ns : Nodes Nat Unit Nat} {o : Op Nat Unit Nat} (h : allowedB ns o = true) : Allowed ns o := by
  cases o with
  | install => simpa [allowedB, Allowed] using h
  | flush p i c =>
    simp only [allowedB, Bool.and_eq_true, decide_eq_true_eq, Option.any_eq_true_iff_get] at h
    obtain ⟨h1, h2, h3, h4⟩ := h
    obtain ⟨q, hq⟩ := Option.isSome_iff_exists.mp h2
    simp only [hq, Option.get_some] at h3 h4
    exact ⟨h1, q, hq, by simpa using h3, h4⟩
  | replace x no out => simpa [allowedB, Allowed] using h
  | vanish x => simpa [allowedB, Allowed] using h
  | build x s => simpa [allowedB, Allowed] using h
  | clear x => simpa [allowedB, Allowed] using h
  | rebundle x =>
    simp only [allowedB, Bool.and_eq_true, decide_eq_true_eq] at h
    obtain ⟨⟨h1, h2⟩, h3⟩ := h
    refine ⟨by simpa using h1, ?_⟩
    obtain ⟨q, hq⟩ := List.length_eq_one_iff.mp h2
    rw [hq] at h3
    simp only [List.all_cons, List.all_nil, Bool.and_true, Bool.and_eq_true, decide_eq_true_eq] at h3
    exact ⟨q.1, q.2, hq, h3.1, h3.2⟩
  | split x y l r => simpa [allowedB, Allowed] using h

def allAllowedB : Nodes Nat Unit Nat → List (Op Nat Unit Nat) → Bool
  | _, [] => true
  | ns, o :: r => allowedB ns o && allAllowedB (onNodes ops ns o) r

theorem allAllowedB_spec : ∀ (l : List (Op Nat Unit Nat)) {ns : Nodes Nat Unit Nat}, allAllowedB ns l = true → AllAllowed ops ns l
  | [], _, _ => trivial
  | o :: r, ns, h => by
    simp only [allAllowedB, Bool.and_eq_true] at h
    exact ⟨allowedB_spec h.1, allAllowedB_spec r h.2⟩

/-- A long run: two rounds of eleven incorporations, a flush and a compaction each, filters
built and the bundle given up, a leaf put into one bundle, a bundle that vanishes. -/
def long : List (Op Nat Unit Nat) :=
  round 11 0 ++ [Op.build 1 (fun _ => [7]), Op.clear 1] ++ round 11 1 ++ [Op.rebundle 1] ++
    [Op.install 0 (br 50) 50, Op.install 0 (br 51) 51, Op.vanish 0]

example : AllRep 48 g0 ns0 ∧ Filtered ns0 ∧ AllAllowed ops ns0 long ∧ (runPages 48 ops ns0 g0 long).isSome = true :=
  ⟨fresh_rep (by decide) (by decide) _ _ _ _, by intro x; simp [ns0, freshNodes, sbsOf], allAllowedB_spec _ (by decide +kernel), by decide +kernel⟩

/-- The page of the child after `n` rounds. -/
def child (n : Nat) : Option (Hdr (Branch Nat Unit) Nat) :=
  (runPages 48 ops ns0 g0 ((List.range n).flatMap (round 11))).map (· 1)

end Demo

/-- Negation of C47 without "the filters fit" (trunk.c 2255–2273, 4604–4619): three times,
eleven bundles are flushed into a node, where they are compacted. Every check for room
succeeds. The filter array, of which 33 cells would be needed, wraps around, and key 5,
which the lists have, is not found on the page. -/
theorem flush_overwrites_filters :
    (Demo.child 3).map (fun a => pivotReads 48 Demo.ops.vals a ⟨0, 0, 0⟩ 5) = some [] ∧
    (pivotProbes Demo.ops (runNodes Demo.ops Demo.ns0 ((List.range 3).flatMap (Demo.round 11)) 1) ⟨0, 0, 0, 0, 0⟩ 5).map
      (Option.map fun b => b.map Prod.fst) = [some [1, 2, 3, 4, 5, 6, 7, 8, 9, 10, 11]] := by
  constructor <;> decide +kernel

/-- With two rounds the same key is found. -/
example : (Demo.child 2).map (fun a => (pivotReads 48 Demo.ops.vals a ⟨0, 0, 0⟩ 5).map (·.map Prod.fst)) =
    some [[1, 2, 3, 4, 5, 6, 7, 8, 9, 10, 11]] := by decide +kernel

/-- Numbers of bundles are reused after twelve: bundle 0 is gone, but `trunk_bundle_live`
says that it is there (trunk.c 2183–2190, used for a late compaction in 5384). -/
theorem bundle_number_reused :
    let os := (List.range' 1 4).flatMap fun r => (List.range' (r * 3) 3).map (fun k => Op.install 0 (Demo.br k) k) ++ [.flush 0 0 r]
    let os := os ++ [.install 0 (Demo.br 99) 99]
    Demo.allAllowedB Demo.ns0 os = true ∧
    (runPages 48 Demo.ops Demo.ns0 Demo.g0 os).map (fun g => buLive (g 0) 0) = some true ∧
    (runNodes Demo.ops Demo.ns0 os 0).bundleLive 0 = false ∧ 0 < (runNodes Demo.ops Demo.ns0 os 0).endB := by
  decide +kernel

end Splinter.Trunk.NodeArr
