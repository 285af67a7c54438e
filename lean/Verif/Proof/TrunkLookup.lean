import Verif.Proof.TrunkOps8
/-!
Lookups and whole runs.
-/
namespace Splinter.Trunk
open Splinter.Merge (SortedRun)
open Splinter.Spec (msgsOf actAll eval act UpdateSem Implements report)
set_option linter.unusedSectionVars false

variable {K V F C : Type} [LinearOrder K] {ops : FilterOps K F} {L : FilterLaws ops} {sem : UpdateSem K V}
  {cfg : DataCfg K V} {lo hi : K} {s s' : State K V F} {hist : K → List (Msg V)}

/-- Reading `ps` in order finds the messages of the branches `bs` (oldest first). -/
def Found (k : K) (ps : List (Option (Branch K V))) (bs : List (Branch K V)) : Prop :=
  (∀ p ∈ ps, p ≠ none) ∧ ps.filterMap (fun p => p.bind (fun b => b.get k)) = bs.reverse.filterMap (fun b => b.get k)

theorem Found.append {k : K} {ps qs : List (Option (Branch K V))} {as bs : List (Branch K V)} (h1 : Found k ps as)
    (h2 : Found k qs bs) : Found k (ps ++ qs) (bs ++ as) := by
  refine ⟨?_, ?_⟩
  · intro p hp
    rcases List.mem_append.mp hp with h | h
    · exact h1.1 p h
    · exact h2.1 p h
  · rw [List.filterMap_append, h1.2, h2.2, List.reverse_append, List.filterMap_append]

theorem Found.nil {k : K} : Found k ([] : List (Option (Branch K V))) [] := ⟨by simp, rfl⟩

theorem Found.flatMap {k : K} {α : Type} (ps : α → List (Option (Branch K V))) (bs : α → List (Branch K V)) :
    ∀ (l : List α), (∀ x ∈ l, Found k (ps x) (bs x)) → Found k (l.reverse.flatMap ps) (l.flatMap bs)
  | [], _ => Found.nil
  | x :: l, h => by
    rw [List.reverse_cons, List.flatMap_append, List.flatMap_cons]
    refine (Found.flatMap ps bs l (fun y hy => h y (List.mem_cons_of_mem _ hy))).append ?_
    simp only [List.flatMap_cons, List.flatMap_nil, List.append_nil]
    exact h x List.mem_cons_self

theorem snocInd {α : Type} {P : List α → Prop} (h0 : P []) (h1 : ∀ l a, P l → P (l ++ [a])) : ∀ l, P l := by
  intro l
  have : ∀ l : List α, P l.reverse := by
    intro l
    induction l with
    | nil => exact h0
    | cons a l ih => rw [List.reverse_cons]; exact h1 _ _ ih
  rw [← l.reverse_reverse]; exact this _

/-- Descending indices that include every hit. -/
theorem found_vals {k : K} : ∀ (bs : List (Branch K V)) (vs : List Nat), vs.Pairwise (· > ·) → (∀ v ∈ vs, v < bs.length) →
    (∀ i b, bs[i]? = some b → b.get k ≠ none → i ∈ vs) → Found k (vs.map (fun v => bs[v]?)) bs := by
  intro bs
  induction bs using snocInd with
  | h0 =>
    intro vs _ hb _
    cases vs with
    | nil => exact Found.nil
    | cons v vs => exact absurd (hb v List.mem_cons_self) (by simp)
  | h1 bs b ih =>
    intro vs hp hb hh
    have key : ∀ us : List Nat, us.Pairwise (· > ·) → (∀ v ∈ us, v < bs.length) →
        (∀ i c, bs[i]? = some c → c.get k ≠ none → i ∈ us) → Found k (us.map (fun v => (bs ++ [b])[v]?)) bs := by
      intro us h1 h2 h3
      have : us.map (fun v => (bs ++ [b])[v]?) = us.map (fun v => bs[v]?) := by
        apply List.map_congr_left
        intro v hv
        rw [List.getElem?_append_left (h2 v hv)]
      rw [this]
      exact ih us h1 h2 h3
    have hlast : (bs ++ [b])[bs.length]? = some b := by simp
    by_cases hm : bs.length ∈ vs
    · obtain ⟨us, hu⟩ : ∃ us, vs = bs.length :: us := by
        cases vs with
        | nil => cases hm
        | cons v us =>
          rcases List.mem_cons.mp hm with h | h
          · exact ⟨us, by rw [h]⟩
          · have h1 := (List.pairwise_cons.mp hp).1 _ h
            have h2 := hb v List.mem_cons_self
            simp at h2; omega
      subst hu
      have hp' := List.pairwise_cons.mp hp
      rw [List.map_cons, hlast, ← List.singleton_append]
      have h1 : Found k [some b] [b] := ⟨by simp, rfl⟩
      refine h1.append (key us hp'.2 (fun v hv => hp'.1 v hv) ?_)
      intro i c hi hg
      have := hh i c (by rw [List.getElem?_append_left (List.getElem?_eq_some_iff.mp hi).1]; exact hi) hg
      rcases List.mem_cons.mp this with h | h
      · have := (List.getElem?_eq_some_iff.mp hi).1; omega
      · exact h
    · have hno : b.get k = none := by
        by_contra hc
        exact hm (hh _ b hlast hc)
      have := key vs hp (fun v hv => by
        have h1 := hb v hv
        simp at h1
        have : v ≠ bs.length := fun e => hm (e ▸ hv)
        omega) (fun i c hi hg => hh i c (by rw [List.getElem?_append_left (List.getElem?_eq_some_iff.mp hi).1]; exact hi) hg)
      refine ⟨this.1, this.2.trans ?_⟩
      rw [List.reverse_append, List.filterMap_append]
      simp [hno]

theorem found_filter {k : K} {f : F} {bs : List (Branch K V)} (h : SoundW L k f bs) :
    Found k (filterProbes ops f bs k) bs :=
  found_vals bs _ (L.vals_desc f k) (fun _ hv => L.bounded_vals h.bounded hv)
    (fun i b hi hg => L.has_vals (h.has i b hi hg))

theorem found_sb {k : K} {sb : SB K V F} (h : SBOk L k sb) : Found k (sbProbes ops sb k) sb.branches := by
  unfold SBOk at h
  unfold sbProbes
  split
  · rename_i hc
    rw [if_pos hc] at h
    obtain ⟨br, e, hg⟩ := h
    unfold compactedProbes
    rw [e]
    split
    · exact ⟨by simp, rfl⟩
    · rename_i hany
      refine ⟨by simp, ?_⟩
      have : br.get k = none := by
        by_contra hne
        obtain ⟨f, hf, hv⟩ := hg hne
        apply hany
        rw [List.any_eq_true]
        refine ⟨f, hf, ?_⟩
        cases hvs : ops.vals f k with
        | nil => exact absurd hvs hv
        | cons => rfl
      simp [this]
  · rename_i hc
    rw [if_neg hc] at h
    obtain ⟨f, e, hs⟩ := h
    rw [e]
    exact found_filter hs

/-- Probes of a level. -/
def lvlProbes (ops : FilterOps K F) (k : K) (l : Lvl K V F) : List (Option (Branch K V)) :=
  l.bundles.reverse.flatMap (fun b => bundleProbes ops b k) ++ filterProbes ops l.filter l.whole k

theorem found_lvl {k : K} {l : Lvl K V F} (h : LvlOk L k l) : Found k (lvlProbes ops k l) l.branches := by
  refine Found.append ?_ (found_filter h.filter)
  refine Found.flatMap (fun b => bundleProbes ops b k) (fun b => b.branches) l.bundles ?_
  intro b hb
  exact Found.flatMap (fun sb => sbProbes ops sb k) (fun sb => sb.branches) b.sbs (fun sb hsb => found_sb (h.sbs b hb sb hsb))

theorem probes_eq (ops : FilterOps K F) : ∀ (h : Nat) (n : Node K V F (Sub K V F h)) (lo hi k : K), Good h n lo hi →
    lo ≤ k → k < hi → probes ops h n k = (view h n k).flatMap (lvlProbes ops k)
  | 0, n, lo, hi, k, g, h1, h2 => by
    obtain ⟨p, c, hp, _, _⟩ := g.2
    simp only [probes, view, hp, routeL, List.getElem?_cons_zero, List.flatMap_cons, List.flatMap_nil, List.append_nil]
    rfl
  | h + 1, n, lo, hi, k, g, h1, h2 => by
    obtain ⟨p, c, ph, hr⟩ := g.node.route (k := k)
    have hrg := g.node.range h1 h2 hr
    obtain ⟨a, b, e1, e2, _⟩ := g.node.find h1 h2 hr
    have hf : n.pivots[n.find k]? = some (p, c) := by rw [e2, e1]; simp
    simp only [probes, view, hr, hf, List.flatMap_cons]
    rw [probes_eq ops h c p.key ph k (g.2 k p c ph h1 h2 hr) hrg.2.1 hrg.2.2.1]
    rfl

theorem found_view {k : K} : ∀ (v : List (Lvl K V F)), (∀ l ∈ v, LvlOk L k l) →
    Found k (v.flatMap (lvlProbes ops k)) (viewBranches v)
  | [], _ => Found.nil
  | l :: v, h => by
    rw [List.flatMap_cons, viewBranches_cons]
    exact (found_lvl (h l List.mem_cons_self)).append (found_view v (fun x hx => h x (List.mem_cons_of_mem _ hx)))

theorem runProbes_eq (k : K) : ∀ (ps : List (Option (Branch K V))) (acc : Option (Msg V)), (∀ p ∈ ps, p ≠ none) →
    runProbes cfg k acc ps = match accumulateAll cfg k acc (ps.filterMap (fun p => p.bind (fun b => b.get k))) with
      | none => .error .mergeFailed
      | some a => .ok a
  | [], acc, _ => rfl
  | none :: ps, acc, h => absurd rfl (h none List.mem_cons_self)
  | some b :: ps, acc, h => by
    have ih := fun acc => runProbes_eq k ps acc (fun p hp => h p (List.mem_cons_of_mem _ hp))
    unfold runProbes
    cases hg : b.get k with
    | none =>
      simp only [List.filterMap_cons, Option.bind_some, hg]
      exact ih acc
    | some m =>
      simp only [List.filterMap_cons, Option.bind_some, hg]
      unfold accumulateAll
      cases ha : accumulate cfg k acc m with
      | none => rfl
      | some o =>
        cases o with
        | none => exact ih none
        | some a =>
          simp only
          by_cases hd : a.definitive = true
          · simp only [hd, if_true]
          · simp only [hd, Bool.false_eq_true, if_false]
            exact ih (some a)

/-- A lookup in a state that fits a history reports the value of the history. -/
theorem Inv.lookup (I : Inv L sem lo hi s hist) (H : Implements cfg sem) {k : K} (k1 : lo ≤ k) (k2 : k < hi) :
    lookup cfg ops s k = .ok (report (eval sem k (hist k))) := by
  have h1 : Found k (s.mems.map some) s.mems.reverse := by
    refine ⟨by simp, ?_⟩
    rw [List.reverse_reverse, List.filterMap_map]
    rfl
  have h2 := found_view (L := L) (view s.h s.root k) (I.lvls k k1 k2)
  rw [← probes_eq ops s.h s.root lo hi k I.good k1 k2] at h2
  have h3 := h1.append h2
  have hsp := lookupMsgs_spec H k (List.filterMap (fun b => b.get k) (viewBranches (view s.h s.root k) ++ s.mems.reverse).reverse)
  rw [← List.filterMap_reverse, List.reverse_reverse] at hsp
  have hv := I.value k k1 k2
  rw [msgsOf_eq] at hv
  have he : eval sem k (List.filterMap (fun b => b.get k) (viewBranches (view s.h s.root k) ++ s.mems.reverse)) =
      eval sem k (hist k) := hv
  rw [he] at hsp
  unfold Trunk.lookup
  rw [runProbes_eq k _ _ h3.1, h3.2]
  unfold lookupMsgs at hsp
  generalize accumulateAll cfg k none _ = o at hsp
  cases o with
  | none =>
    simp only at hsp
    cases hh : eval sem k (hist k) <;> rw [hh] at hsp <;> cases hsp
  | some a => exact congrArg _ hsp

end Splinter.Trunk
