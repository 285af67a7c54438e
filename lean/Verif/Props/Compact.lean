import Verif.Proof.Compact
import Verif.Proof.TrunkOps5
import Verif.Props.TrunkPages

/-!
# C05, C14: compaction on pages

The branches of a bundle are trees of pages. Reading them with skiperators, merging and packing gives a
tree of pages that holds exactly what `Model/Trunk.lean` takes for the output of the compaction.
-/
namespace Splinter.Compact
open Splinter.Btree Splinter.Trunk
open Splinter.Merge (SortedRun)
open Splinter.Spec (UpdateSem Implements)

variable {K V F : Type} [LinearOrder K] [BoundedOrder K] [Inhabited K]

omit [BoundedOrder K] [Inhabited K] in
theorem pivotsOf_ordered {C : Type} (hi : K) (idx : Nat) : ∀ (l : List (PData K F × C)), SortedP hi l →
    Ordered hi ((withHi hi l).map fun x => (x.1.key, decide (x.1.bskip ≤ idx))) ∧
    ∀ k, liveAt hi k ((withHi hi l).map fun x => (x.1.key, decide (x.1.bskip ≤ idx))) =
      (withHi hi l).any fun x => decide (x.1.bskip ≤ idx ∧ x.1.key ≤ k ∧ k < x.2)
  | [], _ => ⟨trivial, fun _ => rfl⟩
  | [x], h => by
    refine ⟨⟨h.2 x (List.mem_singleton_self _), trivial⟩, fun k => ?_⟩
    simp [withHi, liveAt, hd, Bool.decide_and, Bool.and_assoc]
    rfl
  | x :: y :: r, h => by
    obtain ⟨h1, h2⟩ := pivotsOf_ordered hi idx (y :: r) h.tail
    have hhd : hd hi ((withHi hi (y :: r)).map fun x => (x.1.key, decide (x.1.bskip ≤ idx))) = y.1.key := by
      cases r <;> rfl
    have hxy : x.1.key < y.1.key := (List.pairwise_cons.mp h.1).1 _ (by simp)
    refine ⟨⟨by rw [hhd]; exact hxy, h1⟩, fun k => ?_⟩
    have := h2 k
    simp only [Bool.decide_and] at this
    simp only [withHi, List.map_cons, liveAt, List.any_cons, Bool.decide_and, Bool.and_assoc, this]
    rw [hhd]

/-- A skiperator delivers exactly the tuples of its branch whose keys lie in pivots for which the
bundle is live, in order. -/
theorem skip_live {C : Type} {nd : Trunk.Node K V F C} {lo hi : K} (ok : NodeOk nd lo hi) (idx : Nat)
    {st : Store K (Msg V)} {root : Nat} {L : List Nat} {b : Branch K V} (T : Tree st root L b)
    (hreal : ∀ x ∈ b, x.1 < ⊤) {fuel : Nat} (hf : b.length ≤ fuel) :
    readBranch st hi (pivotsOf nd.info idx) fuel root = some (b.filter fun x => nd.info.liveKey idx x.1) := by
  have e : nd.info.pivots = withHi hi nd.pivots := by
    show withHi nd.maxKey nd.pivots = _
    rw [ok.hmax]
  obtain ⟨h1, h2⟩ := pivotsOf_ordered hi idx nd.pivots ok.sorted
  unfold pivotsOf
  rw [e, skip_reads T hreal h1 hf]
  congr 1
  apply List.filter_congr
  intro x _
  rw [h2 x.1, NodeInfo.liveKey, e]

/-- **C05, C14**: compaction on pages. For a well-formed node with a bundle whose branches are stored as
trees, compaction neither fails to read a page nor to merge. If packing succeeds, the new tree holds
exactly the output of the compaction of `Model/Trunk.lean`, for which C05 is proved; its tuples are
counted and its fingerprints are those of its keys, in order. -/
theorem compact_on_pages {sem : UpdateSem K V} {cfg : DataCfg K V} (H : Implements cfg sem) {C : Type}
    {nd : Trunk.Node K V F C} {lo hi : K} (ok : NodeOk nd lo hi) (ht : Nat) {no : Nat} {b : Bundle K V F}
    (hb : nd.bundles[nd.bundles.findIdx (fun b => b.no == no)]? = some b)
    {st : Store K (Msg V)} {root : Branch K V → Nat}
    (T : ∀ br ∈ b.sbs.flatMap (·.branches), ∃ L, Tree st (root br) L br)
    (hreal : ∀ br ∈ b.sbs.flatMap (·.branches), ∀ x ∈ br, x.1 < ⊤)
    {P : Env K (Msg V)} (inj : ∀ i j, P.page i = P.page j → i = j) (nz : ∀ i, P.page i ≠ 0)
    {fuel : Nat} (hf : ∀ br ∈ b.sbs.flatMap (·.branches), br.length ≤ fuel) :
    ∃ out full, compactOut cfg ht nd.info no = some (out, full) ∧
      compact cfg full P st hi (pivotsOf nd.info (nd.bundles.findIdx (fun b => b.no == no))) fuel
        ((b.sbs.flatMap (·.branches)).map root) = some (pack P out) ∧
      ∀ t, pack P out = .ok t → t.numTuples = out.length ∧ (∀ g, P.hash = some g → t.fps = out.map fun x => g x.1) ∧
        (out = [] → t.root = 0) ∧ (out ≠ [] → ∃ L, Tree t.store t.root L out) := by
  generalize hidx : nd.bundles.findIdx (fun b => b.no == no) = idx at *
  have hsort : ∀ br ∈ b.sbs.flatMap (·.branches), SortedRun br := by
    intro br h
    obtain ⟨sb, h1, h2⟩ := List.mem_flatMap.mp h
    exact ok.runsB b (List.mem_of_getElem? hb) sb h1 br h2
  generalize hbs : b.sbs.flatMap (·.branches) = bs at *
  have hread : (bs.map root).mapM (readBranch st hi (pivotsOf nd.info idx) fuel) =
      some (bs.map fun br => br.filter fun x => nd.info.liveKey idx x.1) := by
    clear hbs hsort
    induction bs with
    | nil => rfl
    | cons br bs ih =>
      obtain ⟨L, T0⟩ := T br (List.mem_cons_self ..)
      rw [List.map_cons, List.mapM_cons, skip_live ok idx T0 (hreal br (List.mem_cons_self ..))
        (hf br (List.mem_cons_self ..)), ih (fun x h => T x (List.mem_cons_of_mem _ h))
        (fun x h => hreal x (List.mem_cons_of_mem _ h)) (fun x h => hf x (List.mem_cons_of_mem _ h))]
      rfl
  generalize hins : (bs.map fun br => br.filter fun x => nd.info.liveKey idx x.1) = ins at *
  have hs : ∀ x ∈ ins.map (fun r => (r, 1)), SortedRun x.1 := by
    intro x hx
    obtain ⟨r, h1, rfl⟩ := List.mem_map.mp hx
    rw [← hins] at h1
    obtain ⟨br, h2, rfl⟩ := List.mem_map.mp h1
    exact List.Pairwise.sublist List.filter_sublist (hsort br h2)
  have hp : ∀ x ∈ ins.map (fun r => (r, 1)), 1 ≤ x.2 := by
    intro x hx
    obtain ⟨r, h1, rfl⟩ := List.mem_map.mp hx
    exact Nat.le_refl _
  have hfu : ((ins.map (fun r => (r, 1))).map (fun x => x.1.length)).sum < (ins.map (·.length)).sum + 1 := by
    rw [List.map_map]
    exact Nat.lt_succ_self _
  have hm : ∀ full : Bool, ∃ out, Merge.mergeAll cfg (if full then .full else .intermediate) (ins.map (fun r => (r, 1)))
      ((ins.map (·.length)).sum + 1) = .ok out ∧ out.Pairwise (fun a b => a.1 < b.1) := by
    intro full
    cases full with
    | true =>
      obtain ⟨out, h1, h2, _⟩ := Merge.merge_full_spec H _ hs hp _ hfu
      exact ⟨out, h1, h2⟩
    | false =>
      obtain ⟨out, h1, h2, _⟩ := Merge.merge_intermediate_spec H _ hs hp _ hfu
      exact ⟨out, h1, h2⟩
  obtain ⟨out, h1, h2⟩ := hm (ht == 0 && idx == 0 && nd.info.whole.isEmpty)
  refine ⟨out, (ht == 0 && idx == 0 && nd.info.whole.isEmpty), ?_, ?_, ?_⟩
  · unfold compactOut
    simp only [show nd.info.bundles = nd.bundles from rfl, hidx, hb, hbs, hins, h1]
  · unfold compact
    simp only [hread, Option.bind_eq_bind, Option.bind_some, h1]
  · intro t e
    obtain ⟨e1, _, _, e4, e5⟩ := pack_totals inj h2 e
    exact ⟨e1, e4, e5, fun hne => packed_tree inj nz h2 hne e⟩

/-! ### Instance -/
namespace Ex
open Splinter.Trunk.Pages.Ex (cfg cfg_implements)

def b1 : Branch (Fin 64) Nat := [(10, ⟨.insert, 1⟩), (30, ⟨.insert, 5⟩), (45, ⟨.insert, 2⟩), (60, ⟨.delete, 0⟩)]
def b2 : Branch (Fin 64) Nat := [(30, ⟨.update, 4⟩), (41, ⟨.update, 3⟩), (61, ⟨.update, 1⟩)]

/-- Three pivots; the bundle is not live for the middle one. -/
def nd : Trunk.Node (Fin 64) Nat Unit Unit :=
  { id := 0, maxKey := 62, nextGen := 3, endB := 1, whole := [],
    bundles := [⟨0, [⟨true, [b1, b2], []⟩]⟩],
    pivots := [(⟨0, 0, 0, (), 0⟩, ()), (⟨40, 0, 1, (), 1⟩, ()), (⟨60, 0, 0, (), 2⟩, ())] }

theorem nd_ok : NodeOk nd 0 62 := by
  refine ⟨by decide, by decide, by decide, ⟨by decide, by decide⟩, by decide, by decide, by decide, by decide, by decide,
    by decide, by decide, by simp [nd], ?_⟩
  intro b hb sb hsb br hbr
  obtain rfl := List.mem_singleton.mp hb
  obtain rfl := List.mem_singleton.mp hsb
  rcases (List.mem_cons.mp hbr).imp_right (List.mem_singleton.mp ·) with rfl | rfl
  · show b1.Pairwise _; decide
  · show b2.Pairwise _; decide

/-- The first branch has three leaves, the second one. -/
def st : Store (Fin 64) (Msg Nat)
  | 1 => some ⟨1, 0, 0, .index [⟨0, 2, .zero⟩, ⟨30, 3, .zero⟩, ⟨60, 4, .zero⟩]⟩
  | 2 => some ⟨0, 3, 0, .leaf (b1.take 1)⟩
  | 3 => some ⟨0, 4, 2, .leaf ((b1.drop 1).take 2)⟩
  | 4 => some ⟨0, 0, 3, .leaf (b1.drop 3)⟩
  | 5 => some ⟨0, 0, 0, .leaf b2⟩
  | _ => none

def root (b : Branch (Fin 64) Nat) : Nat := if b.length = 4 then 1 else 5

theorem tree1 : Tree st 1 [2, 3, 4] b1 where
  nodup := by decide
  nz := by decide
  chain := ⟨⟨_, rfl, rfl, rfl⟩, ⟨_, rfl, rfl, rfl⟩, ⟨_, rfl, rfl, rfl⟩, trivial⟩
  leaf := by decide
  ne := by decide
  flat := by decide
  sorted := by decide
  find t := by
    have h : ∀ t, (lookupNode st 1 t 0).isSome ∧ (t < 30 → (lookupNode st 1 t 0).map (·.1) = some 2) ∧
        (30 ≤ t → t < 60 → (lookupNode st 1 t 0).map (·.1) = some 3) ∧
        (60 ≤ t → (lookupNode st 1 t 0).map (·.1) = some 4) := by decide +kernel
    obtain ⟨h0, h1, h2, h3⟩ := h t
    obtain ⟨⟨b, z⟩, hz⟩ := Option.isSome_iff_exists.mp h0
    rw [hz] at h1 h2 h3 ⊢
    by_cases c1 : t < 30
    · obtain rfl : b = 2 := by simpa using h1 c1
      refine ⟨[], 2, [3, 4], z, rfl, rfl, by simp, ?_, by simp⟩
      clear hz h0 h1 h2 h3; revert t; decide +kernel
    · by_cases c2 : t < 60
      · obtain rfl : b = 3 := by simpa using h2 (not_lt.mp c1) c2
        refine ⟨[2], 3, [4], z, rfl, rfl, ?_, ?_, ?_⟩ <;> clear hz h0 h1 h2 h3 <;> revert t <;> decide +kernel
      · obtain rfl : b = 4 := by simpa using h3 (not_lt.mp c2)
        refine ⟨[2, 3], 4, [], z, rfl, rfl, ?_, ?_, ?_⟩ <;> clear hz h0 h1 h2 h3 <;> revert t <;> decide +kernel

theorem tree2 : Tree st 5 [5] b2 where
  nodup := by decide
  nz := by decide
  chain := ⟨⟨_, rfl, rfl, rfl⟩, trivial⟩
  leaf := by decide
  ne := by decide
  flat := by decide
  sorted := by decide
  find t := by
    have h : ∀ t, (lookupNode st 5 t 0).map (·.1) = some 5 := by decide +kernel
    obtain ⟨⟨b, z⟩, h1, h2⟩ := Option.map_eq_some_iff.mp (h t)
    exact ⟨[], 5, [], z, h1.trans (by rw [show b = 5 from h2]), rfl, by simp, by simp, by simp⟩

def env : Env (Fin 64) (Msg Nat) where
  leafFits := fun l _ => l.length < 2
  indexFits := fun l _ => l.length < 2
  ksz := fun k => k.1
  msz := fun m => m.data
  bad := fun _ => false
  hash := some fun k => k.1 * 7
  maxTuples := 100
  page := fun i => i + 6
  share := fun a b => a / 2 == b / 2

/-- The hypotheses of `compact_on_pages` hold, and packing succeeds: the new tree has
the four tuples of live pivots, and the messages of key 30 are one. -/
example : ∃ t, compact cfg false env st 62 (pivotsOf nd.info 0) 4 [1, 5] = some (.ok t) ∧ t.numTuples = 4 ∧
    ∃ L, Tree t.store t.root L [(10, ⟨.insert, 1⟩), (30, ⟨.insert, 9⟩), (60, ⟨.delete, 0⟩), (61, ⟨.update, 1⟩)] := by
  obtain ⟨out, full, h1, h2, h3⟩ := compact_on_pages (no := 0) cfg_implements nd_ok 1 (st := st) (root := root) rfl
    (fun br h => by
      rcases (List.mem_cons.mp h).imp_right (List.mem_singleton.mp ·) with rfl | rfl
      · exact ⟨_, tree1⟩
      · exact ⟨_, tree2⟩)
    (by decide) (P := env) (fun i j h => Nat.add_right_cancel h) (fun i => Nat.succ_ne_zero _) (fuel := 4) (by decide)
  have e : compactOut cfg 1 nd.info 0 =
      some ([(10, ⟨.insert, 1⟩), (30, ⟨.insert, 9⟩), (60, ⟨.delete, 0⟩), (61, ⟨.update, 1⟩)], false) := by decide +kernel
  rw [e] at h1
  obtain ⟨rfl, rfl⟩ := Prod.mk.inj (Option.some.inj h1)
  obtain ⟨a, _, _, d⟩ := h3 _ rfl
  exact ⟨_, h2, a, d (by simp)⟩

end Ex

end Splinter.Compact
