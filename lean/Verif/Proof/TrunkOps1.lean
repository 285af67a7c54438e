import Verif.Proof.TrunkInv
/-!
Inserts, rotation, incorporation and flushes preserve the invariant.
-/
namespace Splinter.Trunk
open Splinter.Merge (SortedRun)
open Splinter.Spec (msgsOf actAll eval act UpdateSem Implements)
set_option linter.unusedSectionVars false

variable {K V F C : Type} [LinearOrder K] {ops : FilterOps K F} {L : FilterLaws ops} {sem : UpdateSem K V}
  {cfg : DataCfg K V} {lo hi : K} {s s' : State K V F} {hist : K → List (Msg V)}

theorem msgsOf_eq (k : K) (bs : List (Branch K V)) : msgsOf k bs = bs.filterMap (fun b => b.get k) := rfl

theorem msgsOf_congr {k : K} {b b' : Branch K V} (h : b.get k = b'.get k) : msgsOf k [b] = msgsOf k [b'] := by
  rw [msgsOf_eq, msgsOf_eq, List.filterMap_cons, List.filterMap_cons, h]

theorem msgsOf_one {k : K} {b : Branch K V} {m : Msg V} (h : b.get k = some m) : msgsOf k [b] = [m] := by
  rw [msgsOf_eq, List.filterMap_cons, h]; rfl

theorem SortedRun.mem_get {b : Branch K V} (hs : SortedRun b) {k : K} {m : Msg V} (hm : (k, m) ∈ b) :
    b.get k = some m := by
  unfold Branch.get
  induction b with
  | nil => cases hm
  | cons x b ih =>
    have h1 := List.pairwise_cons.mp hs
    rcases List.mem_cons.mp hm with h | h
    · subst h; simp
    · have hlt := h1.1 _ h
      rw [List.find?_cons_of_neg (by simpa using ne_of_lt hlt)]
      exact ih h1.2 h

theorem Branch.get_mem {b : Branch K V} {k : K} {m : Msg V} (hg : b.get k = some m) : (k, m) ∈ b := by
  unfold Branch.get at hg
  obtain ⟨x, hx, rfl⟩ := Option.map_eq_some_iff.mp hg
  have h1 := List.mem_of_find?_eq_some hx
  have h2 := List.find?_some hx
  simp only [decide_eq_true_eq] at h2
  subst h2
  exact h1

theorem Branch.get_ne {b : Branch K V} {k : K} (hg : b.get k ≠ none) : ∃ x ∈ b, x.1 = k := by
  obtain ⟨m, hm⟩ := Option.ne_none_iff_exists'.mp hg
  exact ⟨_, Branch.get_mem hm, rfl⟩

theorem get_of_mem {b : Branch K V} (hs : SortedRun b) {x : K × Msg V} (hx : x ∈ b) : b.get x.1 = some x.2 :=
  SortedRun.mem_get hs hx

/-- Insertion keeps the order and composes the effect at the key. -/
theorem memInsert_spec (H : Implements cfg sem) (k : K) (m : Msg V) : ∀ (b : Branch K V), SortedRun b →
    ∃ b', memInsert cfg k m b = some b' ∧ SortedRun b' ∧ (∀ x ∈ b', x.1 = k ∨ x ∈ b) ∧
      (∀ k', k' ≠ k → b'.get k' = b.get k') ∧
      (∃ m', b'.get k = some m' ∧ ∀ v, act sem k m' v = act sem k m (actAll sem k (msgsOf k [b]) v))
  | [], _ => by
    refine ⟨[(k, m)], rfl, List.pairwise_singleton _ _, by simp, ?_, m, ?_, fun v => rfl⟩
    · intro k' hk'
      unfold Branch.get
      rw [List.find?_cons_of_neg (by simpa using Ne.symm hk')]
    · unfold Branch.get; simp
  | (k', m') :: r, hs => by
    have h1 := List.pairwise_cons.mp hs
    unfold memInsert
    by_cases hlt : k < k'
    · rw [if_pos hlt]
      refine ⟨_, rfl, List.pairwise_cons.mpr ⟨?_, hs⟩, ?_, ?_, m, ?_, ?_⟩
      · intro x hx
        rcases List.mem_cons.mp hx with rfl | hx
        · exact hlt
        · exact lt_trans hlt (h1.1 x hx)
      · intro x hx
        rcases List.mem_cons.mp hx with rfl | hx
        · exact .inl rfl
        · exact .inr hx
      · intro q hq
        unfold Branch.get
        rw [List.find?_cons_of_neg (by simpa using Ne.symm hq)]
      · unfold Branch.get; simp
      · intro v
        have : Branch.get ((k', m') :: r) k = none := by
          by_contra hne
          obtain ⟨x, hx, rfl⟩ := Branch.get_ne hne
          rcases List.mem_cons.mp hx with rfl | hx
          · exact lt_irrefl _ hlt
          · exact lt_asymm hlt (h1.1 x hx)
        rw [msgsOf_eq]
        simp [this, actAll]
    · rw [if_neg hlt]
      by_cases heq : k = k'
      · rw [if_pos heq]
        subst heq
        obtain ⟨x, hx, hact⟩ := Splinter.dataMergeTuples_act H k m' m
        refine ⟨(k, x) :: r, by rw [hx]; rfl, List.pairwise_cons.mpr ⟨h1.1, h1.2⟩, ?_, ?_, x, ?_, ?_⟩
        · intro y hy
          rcases List.mem_cons.mp hy with rfl | hy
          · exact .inl rfl
          · exact .inr (List.mem_cons_of_mem _ hy)
        · intro q hq
          unfold Branch.get
          rw [List.find?_cons_of_neg (by simpa using Ne.symm hq), List.find?_cons_of_neg (by simpa using Ne.symm hq)]
        · unfold Branch.get; simp
        · intro v
          have : Branch.get ((k, m') :: r) k = some m' := by unfold Branch.get; simp
          rw [msgsOf_eq]
          simp only [List.filterMap_cons, this, List.filterMap_nil, actAll, List.foldl_cons, List.foldl_nil]
          exact hact v
      · rw [if_neg heq]
        have hgt : k' < k := lt_of_le_of_ne (not_lt.mp hlt) (Ne.symm heq)
        obtain ⟨b', e, a1, a2, a3, m1, a4, a5⟩ := memInsert_spec H k m r h1.2
        refine ⟨(k', m') :: b', by rw [e]; rfl, List.pairwise_cons.mpr ⟨?_, a1⟩, ?_, ?_, m1, ?_, ?_⟩
        · intro x hx
          rcases a2 x hx with rfl | hx
          · exact hgt
          · exact h1.1 x hx
        · intro x hx
          rcases List.mem_cons.mp hx with rfl | hx
          · exact .inr List.mem_cons_self
          · rcases a2 x hx with h | h
            · exact .inl h
            · exact .inr (List.mem_cons_of_mem _ h)
        · intro q hq
          have := a3 q hq
          unfold Branch.get at this ⊢
          by_cases e' : k' = q
          · subst e'; simp
          · rw [List.find?_cons_of_neg (by simpa using e'), List.find?_cons_of_neg (by simpa using e')]
            exact this
        · unfold Branch.get at a4 ⊢
          rw [List.find?_cons_of_neg (by simpa using Ne.symm heq)]
          exact a4
        · intro v
          rw [a5 v]
          have : Branch.get ((k', m') :: r) k = Branch.get r k := by
            unfold Branch.get
            rw [List.find?_cons_of_neg (by simpa using Ne.symm heq)]
          rw [msgsOf_congr this]

/-- The written messages after an insert. -/
def addHist (hist : K → List (Msg V)) (k : K) (m : Msg V) : K → List (Msg V) :=
  fun k' => if k' = k then hist k' ++ [m] else hist k'

theorem Inv.insert (I : Inv L sem lo hi s hist) (H : Implements cfg sem) {k : K} (k1 : lo ≤ k) (k2 : k < hi) (m : Msg V)
    {b r b'} (hm : s.mems = b :: r) (hb' : memInsert cfg k m b = some b') :
    Inv L sem lo hi { s with mems := b' :: r } (addHist hist k m) := by
  have hb := I.mems b (by rw [hm]; exact List.mem_cons_self)
  obtain ⟨b1, e, a1, a2, a3, m1, a4, a5⟩ := memInsert_spec H k m b hb.1
  rw [hb'] at e
  obtain rfl := Option.some.inj e
  refine ⟨I.pos, I.good, by simp, ?_, I.lvls, I.ids, I.rids, I.reqs, I.apart, ?_⟩
  · intro x hx
    rcases List.mem_cons.mp hx with rfl | hx
    · refine ⟨a1, fun y hy => ?_⟩
      rcases a2 y hy with h | h
      · rw [h]; exact ⟨k1, k2⟩
      · exact hb.2 y h
    · exact I.mems x (by rw [hm]; exact List.mem_cons_of_mem _ hx)
  · intro q q1 q2
    have hv := I.value q q1 q2
    rw [hm, List.reverse_cons, ← List.append_assoc, msgsOf_append, actAll_append] at hv
    simp only [List.reverse_cons, ← List.append_assoc]
    rw [msgsOf_append, actAll_append]
    unfold addHist
    split
    · rename_i hq
      subst hq
      rw [actAll_append, ← hv]
      have : msgsOf q [b'] = [m1] := msgsOf_one a4
      rw [this]
      simp only [actAll, List.foldl_cons, List.foldl_nil]
      exact a5 _
    · rename_i hq
      have : msgsOf q [b'] = msgsOf q [b] := msgsOf_congr (a3 q hq)
      rw [this]
      exact hv

theorem Inv.rotate (I : Inv L sem lo hi s hist) : Inv L sem lo hi { s with mems := [] :: s.mems } hist := by
  refine ⟨I.pos, I.good, by simp, ?_, I.lvls, I.ids, I.rids, I.reqs, I.apart, ?_⟩
  · intro x hx
    rcases List.mem_cons.mp hx with rfl | hx
    · exact ⟨List.Pairwise.nil, by simp⟩
    · exact I.mems x hx
  · intro q q1 q2
    have hv := I.value q q1 q2
    simp only [List.reverse_cons, ← List.append_assoc]
    rw [msgsOf_append, actAll_append]
    have : msgsOf q [([] : Branch K V)] = [] := by rw [msgsOf_eq]; simp [Branch.get]
    rw [this]
    exact hv

/-- The empty leaf and root of a new store. -/
def leaf0 (ops : FilterOps K F) (lo hi : K) : Node K V F Unit :=
  ⟨1, hi, 1, 0, [], [], [(⟨lo, 0, 0, ops.empty, 0⟩, ())]⟩

theorem emptyNode_ok (ops : FilterOps K F) (hlt : lo < hi) (i : Nat) (c : C) :
    NodeOk (⟨i, hi, 1, 0, [], [], [(⟨lo, 0, 0, ops.empty, 0⟩, c)]⟩ : Node K V F C) lo hi := by
  constructor <;> simp [Node.keyAt, SortedP, hlt]

theorem inv_init (hlt : lo < hi) : Inv L sem lo hi (init ops lo hi : State K V F) (fun _ => []) := by
  have hv : ∀ k, view 1 (init ops lo hi : State K V F).root k =
      [⟨1, 0, 0, lo, hi, lo, hi, 0, ops.empty, [], []⟩, ⟨0, 1, 0, lo, hi, lo, hi, 0, ops.empty, [], []⟩] :=
    fun k => rfl
  refine ⟨Nat.le_refl _, ?_, by simp [init], ?_, ?_, ?_, by simp [init], by simp [init], by simp [init], ?_⟩
  · refine ⟨emptyNode_ok ops hlt _ _, fun k p c ph k1 k2 hr => ?_⟩
    have h0 : routeL hi k (init ops lo hi : State K V F).root.pivots =
        some ((⟨lo, 0, 0, ops.empty, 0⟩ : PData K F), (leaf0 ops lo hi : Node K V F Unit), hi) := rfl
    have := Option.some.inj (hr.symm.trans h0)
    obtain ⟨rfl, h2⟩ := Prod.mk.inj this
    obtain ⟨rfl, rfl⟩ := Prod.mk.inj h2
    exact ⟨emptyNode_ok ops hlt _ _, _, _, rfl, rfl, rfl⟩
  · intro m hm
    simp only [init, List.mem_singleton] at hm
    subst hm
    exact ⟨List.Pairwise.nil, by simp⟩
  · intro k _ _ l hl
    change l ∈ view 1 _ k at hl
    rw [hv] at hl
    simp only [List.mem_cons, List.not_mem_nil, or_false] at hl
    rcases hl with rfl | rfl <;> exact ⟨soundW_empty k _ L.bounded_empty, by simp⟩
  · intro k _ _ l hl
    change l ∈ view 1 _ k at hl
    rw [hv] at hl
    simp only [List.mem_cons, List.not_mem_nil, or_false] at hl
    rcases hl with rfl | rfl <;> simp [init]
  · intro k _ _
    have : viewBranches (view (init ops lo hi : State K V F).h (init ops lo hi : State K V F).root k) = [] := by
      change viewBranches (view 1 _ k) = []
      rw [hv]; rfl
    rw [this]
    rfl

end Splinter.Trunk
