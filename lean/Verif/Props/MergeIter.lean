import Verif.Proof.MergeSetup
import Mathlib.Order.Nat
import Verif.Props.Message
/-!
# C05: merging sorted runs

Specification: the messages a key has in the runs (`Spec.msgsOf`, oldest run
first) and what they mean (`Spec.act`, `Spec.eval` from `Verif.Props.Message`).
-/
namespace Splinter
namespace Spec
variable {K V : Type} [DecidableEq K]

/-- Messages of key `k`, oldest run first. -/
def msgsOf (k : K) (runs : List (List (K × Msg V))) : List (Msg V) :=
  runs.filterMap fun r => (r.find? fun x => x.1 = k).map (·.2)

/-- Effect of a list of messages, oldest first, on a value. -/
def actAll (sem : UpdateSem K V) (k : K) (ms : List (Msg V)) (v : Option V) : Option V :=
  ms.foldl (fun v m => act sem k m v) v

end Spec

namespace Merge
open Splinter Spec
set_option linter.unusedSectionVars false
variable {K V : Type} [LinearOrder K]

/-- A run: keys strictly ascending. -/
def SortedRun (r : List (K × Msg V)) : Prop := r.Pairwise (fun a b => a.1 < b.1)

/-- What an input positioned at index `p` (1 = first item) still delivers. -/
def fromPos (x : List (K × Msg V) × Nat) : List (K × Msg V) := x.1.drop (x.2 - 1)

/-- Create a merge iterator and read it to the end with `next`. -/
def mergeAll (cfg : DataCfg K V) (mode : Mode) (inputs : List (List (K × Msg V) × Nat)) (fuel : Nat) :
    Except Err (List (K × Msg V)) :=
  match create cfg mode inputs with
  | .error e => .error e
  | .ok m => drain next fuel m

/-! ### Link between pending messages and the specification -/

private def pairsFrom (k : K) : Nat → List (List (K × Msg V)) → List (Nat × Msg V)
  | _, [] => []
  | i, r :: rs =>
    match r.find? fun x => x.1 = k with
    | some x => (i, x.2) :: pairsFrom k (i + 1) rs
    | none => pairsFrom k (i + 1) rs

private theorem pairsFrom_snd (k : K) (runs : List (List (K × Msg V))) : ∀ i,
    (pairsFrom k i runs).map (·.2) = msgsOf k runs := by
  induction runs with
  | nil => intro i; rfl
  | cons r rs ih =>
    intro i
    unfold pairsFrom msgsOf
    cases h : r.find? (fun x => decide (x.1 = k)) with
    | none => simp [h]; exact ih (i + 1)
    | some x => simp [h]; exact ih (i + 1)

private theorem find_iff (k : K) (r : List (K × Msg V)) (hs : SortedRun r) (d : Msg V) :
    (∃ x, r.find? (fun x => decide (x.1 = k)) = some x ∧ x.2 = d) ↔ (k, d) ∈ r := by
  constructor
  · rintro ⟨x, h1, h2⟩
    have h3 := List.find?_some h1
    have h4 := List.mem_of_find?_eq_some h1
    simp at h3
    rw [← h3, ← h2]; exact h4
  · intro h
    cases hf : r.find? (fun x => decide (x.1 = k)) with
    | none =>
      have := List.find?_eq_none.mp hf _ h
      simp at this
    | some x =>
      refine ⟨x, rfl, ?_⟩
      have h3 := List.find?_some hf
      have h4 := List.mem_of_find?_eq_some hf
      simp at h3
      by_contra hne
      have hne' : x ≠ (k, d) := fun e => hne (by rw [e])
      have key := List.pairwise_iff_getElem.mp hs
      obtain ⟨i, hi, hxi⟩ := List.getElem_of_mem h4
      obtain ⟨j, hj, hxj⟩ := List.getElem_of_mem h
      rcases Nat.lt_trichotomy i j with hij | hij | hij
      · have := key i j hi hj hij
        rw [hxi, hxj, h3] at this; exact lt_irrefl _ this
      · subst hij; exact hne' (hxi.symm.trans hxj)
      · have := key j i hj hi hij
        rw [hxi, hxj, h3] at this; exact lt_irrefl _ this

private theorem pairsFrom_mem (k : K) (runs : List (List (K × Msg V))) (hs : ∀ r ∈ runs, SortedRun r) :
    ∀ i s d, (s, d) ∈ pairsFrom k i runs ↔ ∃ j r, s = i + j ∧ runs[j]? = some r ∧ (k, d) ∈ r := by
  induction runs with
  | nil => intro i s d; simp [pairsFrom]
  | cons r rs ih =>
    intro i s d
    have ih' := ih (fun x hx => hs x (List.mem_cons_of_mem _ hx)) (i + 1) s d
    have hf := find_iff k r (hs r List.mem_cons_self) d
    have hsplit : (∃ j r', s = i + j ∧ (r :: rs)[j]? = some r' ∧ (k, d) ∈ r') ↔
        (s = i ∧ (k, d) ∈ r) ∨ ∃ j r', s = i + 1 + j ∧ rs[j]? = some r' ∧ (k, d) ∈ r' := by
      constructor
      · rintro ⟨j, r', h1, h2, h3⟩
        cases j with
        | zero => simp at h2; subst h2; exact .inl ⟨by omega, h3⟩
        | succ j => exact .inr ⟨j, r', by omega, by simpa using h2, h3⟩
      · rintro (⟨h1, h2⟩ | ⟨j, r', h1, h2, h3⟩)
        · exact ⟨0, r, by omega, rfl, h2⟩
        · exact ⟨j + 1, r', by omega, by simpa using h2, h3⟩
    rw [hsplit, ← ih', ← hf]
    cases h : r.find? (fun x => decide (x.1 = k)) with
    | none => simp [pairsFrom, h]
    | some x =>
      simp only [pairsFrom, h, List.mem_cons, Prod.mk.injEq, Option.some.injEq, exists_eq_left']
      constructor
      · rintro (⟨h1, h2⟩ | h')
        · exact .inl ⟨h1, h2.symm⟩
        · exact .inr h'
      · rintro (⟨h1, h2⟩ | h')
        · exact .inl ⟨h1, h2.symm⟩
        · exact .inr h'

private theorem pairsFrom_sorted (k : K) (runs : List (List (K × Msg V))) :
    ∀ i, (pairsFrom k i runs).Pairwise (fun a b => a.1 < b.1) ∧ ∀ x ∈ pairsFrom k i runs, i ≤ x.1 := by
  induction runs with
  | nil => intro i; simp [pairsFrom]
  | cons r rs ih =>
    intro i
    obtain ⟨h1, h2⟩ := ih (i + 1)
    unfold pairsFrom
    cases h : r.find? (fun x => decide (x.1 = k)) with
    | none => exact ⟨h1, fun x hx => by have := h2 x hx; omega⟩
    | some x =>
      simp only
      refine ⟨List.pairwise_cons.mpr ⟨fun y hy => by have := h2 y hy; simp; omega, h1⟩, ?_⟩
      intro y hy
      rcases List.mem_cons.mp hy with rfl | hy
      · exact Nat.le_refl _
      · have := h2 y hy; omega

/-- The pending messages of `k`, newest first, are the specification's. -/
theorem newest_msgsOf (k : K) (runs : List (List (K × Msg V))) (hs : ∀ r ∈ runs, SortedRun r)
    (P : Nat → Msg V → Prop) (hP : ∀ s d, P s d ↔ ∃ r, runs[s]? = some r ∧ (k, d) ∈ r) :
    (∃ ms, Newest P ms) ∧ ∀ ms, Newest P ms → ms.map (·.2) = (msgsOf k runs).reverse := by
  have hN : Newest P (pairsFrom k 0 runs).reverse := by
    refine ⟨?_, ?_⟩
    · rw [List.pairwise_reverse]; exact (pairsFrom_sorted k runs 0).1
    · intro s d
      rw [List.mem_reverse, pairsFrom_mem k runs hs, hP]
      constructor
      · rintro ⟨j, r, h1, h2⟩; exact ⟨r, by rw [h1, Nat.zero_add]; exact h2.1, h2.2⟩
      · rintro ⟨r, h⟩; exact ⟨s, r, by omega, h⟩
  refine ⟨⟨_, hN⟩, fun ms h => ?_⟩
  rw [h.unique hN, List.map_reverse, pairsFrom_snd]

/-- Initial state of `create`. -/
private def initArr (inputs : List (List (K × Msg V) × Nat)) : List (OItor K V) :=
  inputs.mapIdx fun i x =>
    { seq := i, items := x.1, pos := x.2, currKey := none, currData := none, nextEq := false }

private theorem has_init (inputs : List (List (K × Msg V) × Nat)) (hp : ∀ x ∈ inputs, 1 ≤ x.2)
    (s : Nat) (k : K) (d : Msg V) :
    Has true (initArr inputs) s k d ↔ ∃ r, (inputs.map fromPos)[s]? = some r ∧ (k, d) ∈ r := by
  unfold Has initArr
  constructor
  · rintro ⟨o, ho, rfl, hv⟩
    rw [List.mem_mapIdx] at ho
    obtain ⟨i, hi, rfl⟩ := ho
    refine ⟨fromPos inputs[i], by simp [hi], ?_⟩
    have := hp _ (List.getElem_mem hi)
    simp only [view, if_true] at hv
    rw [if_neg (by omega)] at hv
    exact hv
  · rintro ⟨r, hr, hm⟩
    simp only [List.getElem?_map, Option.map_eq_some_iff] at hr
    obtain ⟨x, hx, rfl⟩ := hr
    obtain ⟨hs, rfl⟩ := List.getElem?_eq_some_iff.mp hx
    refine ⟨_, List.mem_mapIdx.mpr ⟨s, hs, rfl⟩, rfl, ?_⟩
    have := hp _ (List.getElem_mem hs)
    simp only [view, if_true]
    rw [if_neg (by omega)]
    exact hm

private theorem initArr_ready (inputs : List (List (K × Msg V) × Nat))
    (hs : ∀ x ∈ inputs, SortedRun x.1) : Ready true (initArr inputs) where
  runs o ho := by
    unfold initArr at ho
    rw [List.mem_mapIdx] at ho
    obtain ⟨i, hi, rfl⟩ := ho
    have h := hs _ (List.getElem_mem hi)
    simp only [view, if_true, dlt]
    split
    · exact List.Pairwise.nil
    · exact List.Pairwise.sublist (List.drop_sublist _ _) h
  seqs := by
    have : (initArr inputs).map (·.seq) = List.range inputs.length := by
      unfold initArr
      apply List.ext_getElem <;> simp
    rw [this]; exact List.nodup_range
  bound o ho := by
    unfold initArr at ho ⊢
    rw [List.mem_mapIdx] at ho
    obtain ⟨i, hi, rfl⟩ := ho
    simpa using hi
  flags o ho := by
    unfold initArr at ho
    rw [List.mem_mapIdx] at ho
    obtain ⟨i, hi, rfl⟩ := ho
    rfl

private theorem remItems_init (inputs : List (List (K × Msg V) × Nat)) :
    remItems true (initArr inputs) ≤ (inputs.map (fun x => x.1.length)).sum := by
  have : ∀ (inputs : List (List (K × Msg V) × Nat)) (f : Nat → Nat),
      remItems true (inputs.mapIdx fun i x => ({ seq := f i, items := x.1, pos := x.2, currKey := none, currData := none, nextEq := false } : OItor K V)) ≤ (inputs.map (fun x => x.1.length)).sum := by
    intro inputs
    induction inputs with
    | nil => intro f; simp [remItems]
    | cons x xs ih =>
      intro f
      have := ih (fun i => f (i + 1))
      simp only [remItems, List.mapIdx_cons, List.map_cons, List.sum_cons] at this ⊢
      have h : (view true ({ seq := f 0, items := x.1, pos := x.2, currKey := none, currData := none, nextEq := false } : OItor K V)).length ≤ x.1.length := by
        simp only [view, if_true]; split <;> simp
      omega
  exact this inputs id

/-- Raw form of the traversal theorem, any callbacks. -/
theorem mergeAll_post (cfg : DataCfg K V) (mode : Mode) (hmode : mode ≠ .raw)
    (inputs : List (List (K × Msg V) × Nat)) (hs : ∀ x ∈ inputs, SortedRun x.1)
    (fuel : Nat) (hfuel : (inputs.map (fun x => x.1.length)).sum < fuel) :
    Post cfg (mergeAll cfg mode inputs fuel)
      (DrainSpec cfg (mode = .full) (mode ≠ .full) true (fun s k d => Has true (initArr inputs) s k d)) := by
  unfold mergeAll create
  have h := setup_spec
    { cfg := cfg, mergeMessages := mode ≠ .raw, finalizeUpdates := mode = .full
      emitDeletes := mode ≠ .full, canPrev := false, canNext := false, numRemaining := 0
      arr := initArr inputs, currKey := none, currData := none, forwards := true, discarded := 0 }
    (by simpa using hmode) (initArr_ready inputs hs)
  revert h
  unfold initArr
  generalize setup (K := K) (V := V) _ = x
  intro h
  cases x with
  | error e => exact h
  | ok m =>
    obtain ⟨⟨a1, a2, a3, a4, a5⟩, hO⟩ := h
    have hd := drain_spec next true (fun m hm => by simp [next, hm]) fuel m _ _ a5 hO
      (Nat.lt_of_le_of_lt (remItems_init inputs) hfuel)
    rw [a1, a3, a4] at hd
    exact hd

/-! ### Meaning of the combined message -/

variable {cfg : DataCfg K V} {sem : UpdateSem K V}

private theorem mergeDown_act (H : Implements cfg sem) (k : K) (ms : List (Msg V)) : ∀ acc,
    ∃ m, mergeDown cfg k acc ms = some m ∧
      ∀ v, act sem k m v = act sem k acc (ms.foldr (fun m v => act sem k m v) v) := by
  induction ms with
  | nil => intro acc; exact ⟨acc, rfl, fun _ => rfl⟩
  | cons d ds ih =>
    intro acc
    obtain ⟨a, h1, h2⟩ := dataMergeTuples_act H k d acc
    obtain ⟨m, h3, h4⟩ := ih a
    refine ⟨m, by simp [mergeDown, h1, h3], fun v => ?_⟩
    rw [h4, h2]; rfl

private theorem act_def {k : K} {m : Msg V} (h : m.type ≠ .update) (v w : Option V) :
    act sem k m v = act sem k m w := by
  unfold act; cases hm : m.type <;> simp_all

private theorem outMsg_inter (H : Implements cfg sem) (k : K) (ms : List (Msg V)) (hne : ms ≠ []) :
    ∃ m, outMsg cfg false k ms = some m ∧
      ∀ v, act sem k m v = ms.foldr (fun m v => act sem k m v) v := by
  obtain ⟨d, ds, rfl⟩ := List.exists_cons_of_ne_nil hne
  obtain ⟨m, h1, h2⟩ := mergeDown_act H k ds d
  exact ⟨m, by simp [outMsg, h1], h2⟩

private theorem outMsg_full (H : Implements cfg sem) (k : K) (ms : List (Msg V)) (hne : ms ≠ []) :
    ∃ m, outMsg cfg true k ms = some m ∧ m.type ≠ .update ∧
      ∀ v, act sem k m v = ms.foldr (fun m v => act sem k m v) none := by
  obtain ⟨d, ds, rfl⟩ := List.exists_cons_of_ne_nil hne
  obtain ⟨m, h1, h2⟩ := mergeDown_act H k ds d
  have h2' := h2 none
  cases ht : m.type with
  | insert =>
    refine ⟨m, by simp [outMsg, h1, ht], by simp [ht], fun v => ?_⟩
    rw [act_def (by simp [ht]) v none]; exact h2'
  | delete =>
    refine ⟨m, by simp [outMsg, h1, ht, dataMergeTuplesFinal, Msg.definitive], by simp [ht], fun v => ?_⟩
    rw [act_def (by simp [ht]) v none]; exact h2'
  | update =>
    obtain ⟨f, h3, h4, h5⟩ := H.final k m.data
    refine ⟨f, by simp [outMsg, h1, ht, dataMergeTuplesFinal, Msg.definitive, h3], h4, fun v => ?_⟩
    rw [h5]
    have : act sem k m none = sem.apply k m.data none := by simp [act, ht]
    rw [← this]; exact h2'

theorem total_of_implements (H : Implements cfg sem) : Total cfg := by
  intro k
  refine ⟨fun old acc => ?_, fun a => ?_⟩
  · obtain ⟨m, h, _⟩ := dataMergeTuples_act H k old acc; simp [h]
  · unfold dataMergeTuplesFinal
    split
    · simp
    · obtain ⟨m, h, _⟩ := H.final k a.data; simp [h]

private theorem foldr_reverse (k : K) (ms : List (Msg V)) (v : Option V) :
    ms.reverse.foldr (fun m v => act sem k m v) v = actAll sem k ms v := by
  simp [actAll]

private theorem fromPos_sorted {inputs : List (List (K × Msg V) × Nat)}
    (hs : ∀ x ∈ inputs, SortedRun x.1) : ∀ r ∈ inputs.map fromPos, SortedRun r := by
  intro r hr
  obtain ⟨x, hx, rfl⟩ := List.mem_map.mp hr
  exact List.Pairwise.sublist (List.drop_sublist _ _) (hs x hx)

private theorem msgsOf_ne_nil (k : K) (runs : List (List (K × Msg V))) :
    msgsOf k runs ≠ [] ↔ ∃ r ∈ runs, k ∈ r.map (·.1) := by
  unfold msgsOf
  rw [ne_eq, List.filterMap_eq_nil_iff]
  constructor
  · intro h
    by_contra hn
    apply h
    intro r hr
    have : r.find? (fun x => decide (x.1 = k)) = none := by
      rw [List.find?_eq_none]
      intro x hx he
      apply hn
      simp at he
      exact ⟨r, hr, by rw [← he]; exact List.mem_map_of_mem hx⟩
    simp [this]
  · rintro ⟨r, hr, hk⟩ h
    have h' := h r hr
    simp only [Option.map_eq_none_iff, List.find?_eq_none] at h'
    obtain ⟨x, hx, hxk⟩ := List.mem_map.mp hk
    exact h' x hx (by simpa using hxk)

/-- C05, compaction merges that keep tombstones (`MERGE_INTERMEDIATE`): each key
present in some run is reported once, in ascending order, with a message whose
effect is that of all its messages applied oldest first.  Runs may start at any
position. -/
theorem merge_intermediate_spec (H : Implements cfg sem) (inputs : List (List (K × Msg V) × Nat))
    (hs : ∀ x ∈ inputs, SortedRun x.1) (hp : ∀ x ∈ inputs, 1 ≤ x.2)
    (fuel : Nat) (hfuel : (inputs.map (fun x => x.1.length)).sum < fuel) :
    ∃ out, mergeAll cfg .intermediate inputs fuel = .ok out ∧
      out.Pairwise (fun a b => a.1 < b.1) ∧
      (∀ k, k ∈ out.map (·.1) ↔ ∃ r ∈ inputs.map fromPos, k ∈ r.map (·.1)) ∧
      ∀ k m, (k, m) ∈ out → ∀ v, act sem k m v = actAll sem k (msgsOf k (inputs.map fromPos)) v := by
  have h := mergeAll_post cfg .intermediate (by simp) inputs hs fuel hfuel
  revert h
  generalize mergeAll cfg .intermediate inputs fuel = x
  intro h
  cases x with
  | error e => exact absurd (total_of_implements H) h.2
  | ok out =>
    refine ⟨out, rfl, h.1, ?_, ?_⟩
    · intro k
      obtain ⟨⟨ms, hms⟩, hall⟩ := newest_msgsOf k (inputs.map fromPos) (fromPos_sorted hs) _
        (fun s d => has_init inputs hp s k d)
      rw [← msgsOf_ne_nil]
      constructor
      · intro hk
        obtain ⟨⟨k', m⟩, hx, rfl⟩ := List.mem_map.mp hk
        obtain ⟨ms', h1, h2, _⟩ := (h.2 k' m).mp hx
        have := hall ms' h2
        intro e
        rw [e] at this
        simp at this; exact h1 this
      · intro hne
        have hmn : ms.map (·.2) ≠ [] := by rw [hall ms hms]; simpa using hne
        obtain ⟨m, h1, _⟩ := outMsg_inter H k _ hmn
        exact List.mem_map.mpr ⟨(k, m), (h.2 k m).mpr ⟨ms, by simpa using hmn, hms, by simpa using h1,
          by simp [dropped]⟩, rfl⟩
    · intro k m hm v
      obtain ⟨ms, h1, h2, h3, _⟩ := (h.2 k m).mp hm
      obtain ⟨_, hall⟩ := newest_msgsOf k (inputs.map fromPos) (fromPos_sorted hs) _
        (fun s d => has_init inputs hp s k d)
      obtain ⟨m', h4, h5⟩ := outMsg_inter H k (ms.map (·.2)) (by simpa using h1)
      simp only [reduceCtorEq, decide_false] at h3
      rw [h3] at h4; cases h4
      rw [h5, hall ms h2, foldr_reverse]

/-- C05 with finalisation and tombstone elision (`MERGE_FULL`): the output is,
in ascending order, exactly the keys whose messages leave a value, as inserts of
that value. -/
theorem merge_full_spec (H : Implements cfg sem) (inputs : List (List (K × Msg V) × Nat))
    (hs : ∀ x ∈ inputs, SortedRun x.1) (hp : ∀ x ∈ inputs, 1 ≤ x.2)
    (fuel : Nat) (hfuel : (inputs.map (fun x => x.1.length)).sum < fuel) :
    ∃ out, mergeAll cfg .full inputs fuel = .ok out ∧
      out.Pairwise (fun a b => a.1 < b.1) ∧
      ∀ k m, (k, m) ∈ out ↔
        m.type = .insert ∧ eval sem k (msgsOf k (inputs.map fromPos)) = some m.data := by
  have h := mergeAll_post cfg .full (by simp) inputs hs fuel hfuel
  revert h
  generalize mergeAll cfg .full inputs fuel = x
  intro h
  cases x with
  | error e => exact absurd (total_of_implements H) h.2
  | ok out =>
    refine ⟨out, rfl, h.1, ?_⟩
    intro k m
    obtain ⟨⟨ms, hms⟩, hall⟩ := newest_msgsOf k (inputs.map fromPos) (fromPos_sorted hs) _
      (fun s d => has_init inputs hp s k d)
    have hfold : (ms.map (·.2)).foldr (fun m v => act sem k m v) none =
        eval sem k (msgsOf k (inputs.map fromPos)) := by
      rw [hall ms hms, foldr_reverse]; rfl
    rw [h.2 k m]
    simp only [decide_true]
    constructor
    · rintro ⟨ms', h1, h2, h3, h4⟩
      have := h2.unique hms
      subst this
      obtain ⟨m', h5, h6, h7⟩ := outMsg_full H k (ms'.map (·.2)) (by simpa using h1)
      rw [h5] at h3; cases h3
      have hne : m.type ≠ .delete := by simpa [dropped] using h4
      have hti : m.type = .insert := by cases hh : m.type <;> simp_all
      refine ⟨hti, ?_⟩
      rw [← hfold, ← h7 none]; simp [act, hti]
    · rintro ⟨hti, hev⟩
      have hne : ms ≠ [] := by
        rintro rfl
        rw [← hfold] at hev; simp at hev
      obtain ⟨m', h5, h6, h7⟩ := outMsg_full H k (ms.map (·.2)) (by simpa using hne)
      have h8 := h7 none
      rw [hfold, hev] at h8
      have : m' = m := by
        cases hh : m'.type with
        | insert =>
          simp [act, hh] at h8
          cases m'; cases m; simp_all
        | delete => simp [act, hh] at h8
        | update => exact absurd hh h6
      subst this
      exact ⟨ms, hne, hms, h5, by simp [dropped, hti]⟩

/-! ### Raw mode -/

/-- Order of reports in raw mode: key, then newest run first. -/
def rawLt (a b : Nat × K × Msg V) : Prop := a.2.1 < b.2.1 ∨ (a.2.1 = b.2.1 ∧ b.1 < a.1)

private theorem drain_raw (fuel : Nat) : ∀ (m : MIter K V) (L D : List (OItor K V)),
    m.mergeMessages = false → m.forwards = true → m.arr = L ++ D → m.numRemaining = L.length →
    LInv true L D → remItems true m.arr < fuel →
    (∀ o L', L = o :: L' → m.canCurr = true ∧ m.currKey = o.currKey ∧ m.currData = o.currData) →
    (L = [] → m.canCurr = false) →
    ∃ T : List (Nat × K × Msg V), drain next fuel m = .ok (T.map (·.2)) ∧ T.Pairwise rawLt ∧
      ∀ s k d, (s, k, d) ∈ T ↔ Has true m.arr s k d := by
  induction fuel with
  | zero => intro m L D _ _ _ _ _ h; omega
  | succ fuel ih =>
    intro m L D hmm hfw harr hn H hrem hcur hend
    cases L with
    | nil =>
      refine ⟨[], by simp [drain, hend rfl], List.Pairwise.nil, ?_⟩
      intro s k d
      simp only [List.not_mem_nil, false_iff]
      rintro ⟨o, ho, _, hv⟩
      rw [harr] at ho
      rw [H.dead o (by simpa using ho)] at hv; simp at hv
    | cons o L =>
      obtain ⟨c1, c2, c3⟩ := hcur o L rfl
      obtain ⟨k, d, hk, hd, hhas, hmin, huniq⟩ := head_has H.pre
      obtain ⟨L2, D2, g1, g2, g3, g4, _, g5⟩ :=
        advanceResort_spec { m with currKey := none, currData := none } o L D
          (by simpa using harr) (by simpa using hn) (by rw [← hfw] at H; exact H)
      simp only [hfw] at g2 g4 g5
      have hge := totalItems_ge m (by rw [harr]; simp)
      rw [hfw] at hge
      rw [harr] at hrem hge
      simp only [List.cons_append] at hrem hge
      obtain ⟨n, hn'⟩ : ∃ n, totalItems m = n + 1 := ⟨totalItems m - 1, by omega⟩
      have hnext : ∃ m', next m = .ok m' ∧ m'.mergeMessages = false ∧ m'.forwards = true ∧
          m'.arr = L2 ++ D2 ∧ m'.numRemaining = L2.length ∧
          (∀ o L', L2 = o :: L' → m'.canCurr = true ∧ m'.currKey = o.currKey ∧ m'.currData = o.currData) ∧
          (L2 = [] → m'.canCurr = false) := by
        unfold next
        rw [if_pos hfw, hn', advanceHelper_succ, g1]
        simp only [searchFrom, advanceOneLoop]
        cases L2 with
        | nil =>
          simp only [List.length_nil, if_true, hfw, Bool.false_eq_true, if_false]
          exact ⟨_, rfl, hmm, rfl, rfl, rfl, by intro o L' h; simp at h, fun _ => rfl⟩
        | cons o2 L2 =>
          simp only [List.length_cons, Nat.add_one_ne_zero, if_false, List.cons_append, hmm,
            Bool.not_false, if_true, Bool.false_eq_true]
          refine ⟨_, rfl, rfl, hfw, rfl, rfl, ?_, by simp⟩
          intro o L' h
          cases h
          exact ⟨c1, rfl, rfl⟩
      obtain ⟨m', n1, n2, n3, n4, n5, n6, n7⟩ := hnext
      obtain ⟨T, t1, t2, t3⟩ := ih m' L2 D2 n2 n3 n4 n5 g2 (by rw [n4]; omega) n6 n7
      refine ⟨(o.seq, k, d) :: T, ?_, ?_, ?_⟩
      · rw [drain]
        have hc : m.cur = some (k, d) := by simp [MIter.cur, c2, c3, hk, hd]
        simp only [c1, if_true, hc, n1, t1, List.map_cons]
      · rw [List.pairwise_cons]
        refine ⟨?_, t2⟩
        rintro ⟨s', k', d'⟩ hx
        rw [t3, n4, g5] at hx
        rcases hmin s' k' d' hx.1 with h | h
        · exact .inl (by simpa [dlt] using h)
        · refine .inr ⟨h.1.symm, ?_⟩
          have : s' ≠ o.seq := fun e => hx.2 ⟨e, by rw [hk, h.1]⟩
          have := h.2
          simp; omega
      · intro s' k' d'
        rw [List.mem_cons, t3, n4, g5, harr, hk]
        simp only [Prod.mk.injEq, List.cons_append]
        constructor
        · rintro (⟨rfl, rfl, rfl⟩ | h)
          · exact hhas
          · exact h.1
        · intro h
          by_cases hs : s' = o.seq ∧ k' = k
          · obtain ⟨rfl, rfl⟩ := hs
            exact .inl ⟨rfl, rfl, huniq d' h⟩
          · exact .inr ⟨h, fun e => hs ⟨e.1, (Option.some.inj e.2).symm⟩⟩

/-- C05 for `MERGE_RAW`: every message of every run is reported, ordered by key
and, within a key, newest run first. -/
theorem merge_raw_spec (cfg : DataCfg K V) (inputs : List (List (K × Msg V) × Nat))
    (hs : ∀ x ∈ inputs, SortedRun x.1) (hp : ∀ x ∈ inputs, 1 ≤ x.2)
    (fuel : Nat) (hfuel : (inputs.map (fun x => x.1.length)).sum < fuel) :
    ∃ T : List (Nat × K × Msg V), mergeAll cfg .raw inputs fuel = .ok (T.map (·.2)) ∧
      T.Pairwise rawLt ∧
      ∀ s k d, (s, k, d) ∈ T ↔ ∃ r, (inputs.map fromPos)[s]? = some r ∧ (k, d) ∈ r := by
  unfold mergeAll create
  obtain ⟨n, arr', cp, cn, h1, h2, h3, h4, h5, h6, h7⟩ :=
    arrange_spec true (initArr inputs) (initArr_ready inputs hs)
  unfold setup
  unfold initArr at h1
  simp only [h1]
  revert h2 h3 h5 h6 h7
  generalize initFlags (sortBy (mergeLe true) (arr'.take n)) = L
  intro h2 h3 h5 h6 h7
  have hfin : ∀ m : MIter K V, m.mergeMessages = false → m.forwards = true →
      m.arr = L ++ arr'.drop n → m.numRemaining = L.length →
      (∀ o L', L = o :: L' → m.canCurr = true ∧ m.currKey = o.currKey ∧ m.currData = o.currData) →
      (L = [] → m.canCurr = false) →
      ∃ T : List (Nat × K × Msg V), drain next fuel m = .ok (T.map (·.2)) ∧ T.Pairwise rawLt ∧
      ∀ s k d, (s, k, d) ∈ T ↔ ∃ r, (inputs.map fromPos)[s]? = some r ∧ (k, d) ∈ r := by
    intro m m1 m2 m3 m4 m5 m6
    obtain ⟨T, t1, t2, t3⟩ := drain_raw fuel m L _ m1 m2 m3 m4 h2
      (by rw [m3, h7]; exact Nat.lt_of_le_of_lt (remItems_init inputs) hfuel) m5 m6
    refine ⟨T, t1, t2, fun s k d => ?_⟩
    rw [t3, m3, h6, has_init inputs hp]
  unfold advanceOneLoop
  cases hL : L with
  | nil =>
    have hn0 : n = 0 := by rw [← h3, hL]; rfl
    subst hn0
    simp only [if_true, Bool.false_eq_true, if_false]
    apply hfin
    · rfl
    · rfl
    · simp [hL]
    · simp [hL]
    · intro o L' h; rw [hL] at h; simp at h
    · intro _; rfl
  | cons o L' =>
    have hn1 : n = L'.length + 1 := by rw [← h3, hL]; rfl
    obtain ⟨rfl, rfl⟩ := h4 (by omega)
    simp only [hn1, Nat.add_one_ne_zero, if_false, List.cons_append, ne_eq, not_true_eq_false,
      decide_false, Bool.not_false, if_true, Bool.false_eq_true]
    apply hfin
    · rfl
    · rfl
    · simp [hL, hn1]
    · simp [hL]
    · intro o2 L2 h; rw [hL] at h; cases h; exact ⟨rfl, rfl, rfl⟩
    · intro h; rw [hL] at h; simp at h

/-- C05, safety for arbitrary callbacks: the only possible failure is a failing
callback; no NULL key, out-of-range access or endless loop is reachable. -/
theorem merge_only_callback_errors (cfg : DataCfg K V) (mode : Mode) (hmode : mode ≠ .raw)
    (inputs : List (List (K × Msg V) × Nat)) (hs : ∀ x ∈ inputs, SortedRun x.1)
    (fuel : Nat) (hfuel : (inputs.map (fun x => x.1.length)).sum < fuel) (e : Err)
    (h : mergeAll cfg mode inputs fuel = .error e) : e = .mergeFailed := by
  have hp := mergeAll_post cfg mode hmode inputs hs fuel hfuel
  rw [h] at hp
  exact hp.1

end Merge

/-! Concrete instances of the hypotheses. -/

/-- Three overlapping runs with a delete over an insert and stacked updates. -/
def mergeExample : List (List (Nat × Msg Nat) × Nat) :=
  [([(1, ⟨.insert, 10⟩), (5, ⟨.insert, 50⟩), (9, ⟨.insert, 90⟩)], 1),
   ([(5, ⟨.delete, 0⟩), (7, ⟨.update, 1⟩)], 1),
   ([(1, ⟨.update, 3⟩), (7, ⟨.update, 4⟩)], 1)]

example := Merge.merge_full_spec counter_implements mergeExample
    (by simp [mergeExample, Merge.SortedRun]) (by simp [mergeExample]) 20 (by simp [mergeExample])
example := Merge.merge_raw_spec counterCfg mergeExample
    (by simp [mergeExample, Merge.SortedRun]) (by simp [mergeExample]) 20 (by simp [mergeExample])
example := Merge.merge_intermediate_spec counter_implements mergeExample
    (by simp [mergeExample, Merge.SortedRun]) (by simp [mergeExample]) 20 (by simp [mergeExample])

end Splinter
