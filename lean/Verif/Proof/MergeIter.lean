import Verif.Proof.MergeSearch
import Mathlib.Tactic.Tauto
import Mathlib.Data.List.Perm.Subperm
/-! Lemmas about the merge iterator model (src/merge.c): array invariant. -/
namespace Splinter.Merge
open Splinter
variable {K V : Type} [LinearOrder K]

/-! ### What an input still has to deliver -/

/-- Items the input still delivers in the direction of travel. -/
def view (fwd : Bool) (o : OItor K V) : List (K × Msg V) :=
  if fwd then (if o.pos = 0 then [] else o.items.drop (o.pos - 1))
  else (if o.items.length < o.pos then [] else (o.items.take o.pos).reverse)

omit [LinearOrder K] in
theorem canCurr_iff (fwd : Bool) (o : OItor K V) : o.canCurr = true ↔ view fwd o ≠ [] := by
  have h0 : o.canCurr = true ↔ 0 < o.pos ∧ o.pos ≤ o.items.length := by
    unfold OItor.canCurr OItor.canNext OItor.canPrev
    cases h : o.items with
    | nil => simp; omega
    | cons a l => simp; tauto
  rw [h0]; unfold view
  cases fwd
  · simp only [Bool.false_eq_true, if_false]
    by_cases h : o.items.length < o.pos
    · simp [h]
    · simp only [h, if_false, ne_eq, List.reverse_eq_nil_iff, List.take_eq_nil_iff]
      cases h' : o.items with
      | nil => simp_all
      | cons a l => simp_all; omega
  · simp only [if_true]
    by_cases h : o.pos = 0
    · simp [h]
    · simp only [h, if_false, ne_eq, List.drop_eq_nil_iff]; omega

omit [LinearOrder K] in
theorem view_head (fwd : Bool) (o : OItor K V) (h : view fwd o ≠ []) :
    (view fwd o).head? = o.curr := by
  have hc := (canCurr_iff fwd o).mpr h
  have h0 : 0 < o.pos ∧ o.pos ≤ o.items.length := by
    unfold OItor.canCurr OItor.canNext OItor.canPrev at hc
    simp at hc; exact ⟨hc.2.1, hc.1.1⟩
  unfold view OItor.curr
  cases fwd
  · simp only [Bool.false_eq_true, if_false]
    rw [if_neg (by omega), if_neg (by omega), List.head?_reverse, List.getLast?_take,
      if_neg (by omega)]
    rw [List.getElem?_eq_getElem (by omega)]; simp
  · simp only [if_true]
    rw [if_neg (by omega), if_neg (by omega), List.head?_drop]

omit [LinearOrder K] in
theorem view_step (fwd : Bool) (o : OItor K V) (h : view fwd o ≠ []) :
    view fwd (o.step fwd) = (view fwd o).tail := by
  have hc := (canCurr_iff fwd o).mpr h
  have h0 : 0 < o.pos ∧ o.pos ≤ o.items.length := by
    unfold OItor.canCurr OItor.canNext OItor.canPrev at hc
    simp at hc; exact ⟨hc.2.1, hc.1.1⟩
  unfold view OItor.step
  cases fwd
  · simp only [Bool.false_eq_true, if_false]
    rw [if_neg (by omega), if_neg (by omega), List.tail_reverse, List.dropLast_eq_take, List.take_take,
      List.length_take]
    congr 2; omega
  · simp only [if_true]
    rw [if_neg (by omega), if_neg (by omega), List.tail_drop]
    congr 1; omega

/-- `arr` still holds message `d` for key `k` in input number `s`. -/
def Has (fwd : Bool) (arr : List (OItor K V)) (s : Nat) (k : K) (d : Msg V) : Prop :=
  ∃ o ∈ arr, o.seq = s ∧ (k, d) ∈ view fwd o

/-- Number of items still to be delivered. -/
def remItems (fwd : Bool) (arr : List (OItor K V)) : Nat :=
  (arr.map (fun o => (view fwd o).length)).sum

/-- The `next_key_equal` bits of the live inputs are right. -/
def Flags : List (OItor K V) → Prop
  | [] => True
  | [a] => a.nextEq = false
  | a :: b :: r => a.nextEq = decide (a.currKey = b.currKey) ∧ Flags (b :: r)

/-- Invariant of the array of inputs: `L` live, `D` exhausted. -/
structure LInv0 (fwd : Bool) (L D : List (OItor K V)) : Prop where
  live : ∀ o ∈ L, ∃ kd r, view fwd o = kd :: r ∧ o.currKey = some kd.1 ∧ o.currData = some kd.2
  dead : ∀ o ∈ D, view fwd o = []
  sorted : L.Pairwise (ILt fwd)
  runs : ∀ o ∈ L ++ D, (view fwd o).Pairwise (fun a b => dlt fwd a.1 b.1)
  seqs : ((L ++ D).map (·.seq)).Nodup
  bound : ∀ o ∈ L ++ D, o.seq < (L ++ D).length

/-- `LInv0` plus the flags. -/
structure LInv (fwd : Bool) (L D : List (OItor K V)) : Prop extends LInv0 fwd L D where
  flags : Flags L

theorem Flags.tail {a : OItor K V} {l : List (OItor K V)} (h : Flags (a :: l)) : Flags l := by
  cases l with
  | nil => trivial
  | cons b r => exact h.2

omit [LinearOrder K] in
theorem setFlag_append (A B : List (OItor K V)) (i : Nat) (b : Bool) (h : i < A.length) :
    setFlag (A ++ B) i b = setFlag A i b ++ B := by
  unfold setFlag
  induction A generalizing i with
  | nil => simp at h
  | cons a A ih =>
    cases i with
    | zero => simp
    | succ i => simp only [List.cons_append, List.modify_succ_cons]; rw [ih i (by simpa using h)]

/-- Everything but the flag. -/
def core (o : OItor K V) : OItor K V := { o with nextEq := false }

omit [LinearOrder K] in
theorem core_setFlag (A : List (OItor K V)) (i : Nat) (b : Bool) :
    (setFlag A i b).map core = A.map core := by
  unfold setFlag
  induction A generalizing i with
  | nil => simp
  | cons a A ih =>
    cases i with
    | zero => simp [core]
    | succ i => simp [ih]

omit [LinearOrder K] in
theorem setFlag_length (A : List (OItor K V)) (i : Nat) (b : Bool) :
    (setFlag A i b).length = A.length := by simp [setFlag]

theorem sameAt_core (key : OItor K V) (A : List (OItor K V)) (i : Nat) :
    sameAt (core key) A i = sameAt key A i := rfl

/-- The flag updates done when `o` is inserted between `A` and `B`. -/
def insFlags (A B : List (OItor K V)) (o : OItor K V) (pe ne : Bool) : List (OItor K V) :=
  let arr := A ++ o :: B
  let arr := if A.length = 0 then arr else setFlag arr (A.length - 1) pe
  setFlag arr A.length ne

theorem insFlags_flags (A B : List (OItor K V)) (o : OItor K V) (pe ne : Bool)
    (hf : Flags (A ++ B))
    (hpe : ∀ a, A.getLast? = some a → pe = decide (a.currKey = o.currKey))
    (hne : ne = B.head?.elim false fun b => decide (o.currKey = b.currKey)) :
    Flags (insFlags A B o pe ne) := by
  induction A with
  | nil =>
    simp only [insFlags, List.nil_append, List.length_nil, if_true, setFlag]
    cases B with
    | nil => simpa [Flags] using hne
    | cons b B => exact ⟨by simpa using hne, hf⟩
  | cons a A ih =>
    cases A with
    | nil =>
      simp only [insFlags, List.nil_append, List.length_nil, setFlag, List.cons_append,
        List.length_cons]
      have hpe' := hpe a rfl
      cases B with
      | nil => simp [Flags, hpe', hne]
      | cons b B => simp [Flags, hpe', hne]; exact hf.2
    | cons a' A =>
      have ih' := ih hf.2 (by intro x hx; exact hpe x (by simpa using hx))
      have heq : insFlags (a :: a' :: A) B o pe ne = a :: insFlags (a' :: A) B o pe ne := by
        simp [insFlags, setFlag]
      rw [heq]
      have hne' : ∃ c l, insFlags (a' :: A) B o pe ne = c :: l ∧ c.currKey = a'.currKey := by
        cases A with
        | nil => exact ⟨{ a' with nextEq := pe }, { o with nextEq := ne } :: B,
            by simp [insFlags, setFlag], rfl⟩
        | cons a'' A => exact ⟨a', insFlags (a'' :: A) B o pe ne,
            by simp [insFlags, setFlag], rfl⟩
      obtain ⟨c, l, h1, h2⟩ := hne'
      rw [h1] at ih' ⊢
      exact ⟨by rw [h2]; exact hf.1, ih'⟩

omit [LinearOrder K] in
theorem insFlags_core (A B : List (OItor K V)) (o : OItor K V) (pe ne : Bool) :
    (insFlags A B o pe ne).map core = (A ++ o :: B).map core := by
  unfold insFlags
  simp only [core_setFlag]
  split <;> simp [core_setFlag]

omit [LinearOrder K] in
theorem core_mem {L L' : List (OItor K V)} (h : L'.map core = L.map core) {o : OItor K V}
    (ho : o ∈ L') : ∃ o' ∈ L, core o' = core o := by
  have : core o ∈ L.map core := h ▸ List.mem_map_of_mem ho
  simpa using this

theorem LInv0.congr {fwd : Bool} {L L' D : List (OItor K V)} (h : L'.map core = L.map core)
    (H : LInv0 fwd L D) : LInv0 fwd L' D where
  live o ho := by
    obtain ⟨o', h1, h2⟩ := core_mem h ho
    obtain ⟨kd, r, h3, h4, h5⟩ := H.live o' h1
    have e1 : view fwd o' = view fwd o := show view fwd (core o') = view fwd (core o) by rw [h2]
    have e2 : o'.currKey = o.currKey := show (core o').currKey = (core o).currKey by rw [h2]
    have e3 : o'.currData = o.currData := show (core o').currData = (core o).currData by rw [h2]
    exact ⟨kd, r, e1 ▸ h3, e2 ▸ h4, e3 ▸ h5⟩
  dead := H.dead
  sorted := by
    have h1 : (L.map core).Pairwise (ILt fwd) := List.pairwise_map.mpr H.sorted
    rw [← h] at h1
    exact (List.pairwise_map (f := core)).mp h1
  runs o ho := by
    rcases List.mem_append.mp ho with h1 | h1
    · obtain ⟨o', h2, h3⟩ := core_mem h h1
      have e1 : view fwd o' = view fwd o := show view fwd (core o') = view fwd (core o) by rw [h3]
      rw [← e1]; exact H.runs o' (List.mem_append_left _ h2)
    · exact H.runs o (List.mem_append_right _ h1)
  seqs := by
    have e : L'.map (·.seq) = L.map (·.seq) := by
      have := congrArg (List.map OItor.seq) h
      simp only [List.map_map] at this
      exact this
    have := H.seqs
    rw [List.map_append] at this ⊢
    rw [e]; exact this
  bound o ho := by
    have hl : L'.length = L.length := by simpa using congrArg List.length h
    have e : ∃ o' ∈ L ++ D, o'.seq = o.seq := by
      rcases List.mem_append.mp ho with h1 | h1
      · obtain ⟨o', h2, h3⟩ := core_mem h h1
        exact ⟨o', List.mem_append_left _ h2,
          show (core o').seq = (core o).seq by rw [h3]⟩
      · exact ⟨o, List.mem_append_right _ h1, rfl⟩
    obtain ⟨o', h2, h3⟩ := e
    have := H.bound o' h2
    simp only [List.length_append] at this ⊢
    omega

omit [LinearOrder K] in
theorem Has.congr {fwd : Bool} {L L' : List (OItor K V)} (h : L'.map core = L.map core)
    {s : Nat} {k : K} {d : Msg V} (H : Has fwd L' s k d) : Has fwd L s k d := by
  obtain ⟨o, h1, h2, h3⟩ := H
  obtain ⟨o', h4, h5⟩ := core_mem h h1
  have e1 : view fwd o' = view fwd o := show view fwd (core o') = view fwd (core o) by rw [h5]
  have e2 : o'.seq = o.seq := show (core o').seq = (core o).seq by rw [h5]
  exact ⟨o', h4, e2 ▸ h2, e1 ▸ h3⟩

omit [LinearOrder K] in
theorem Has.congr_iff {fwd : Bool} {L L' : List (OItor K V)} (h : L'.map core = L.map core)
    {s : Nat} {k : K} {d : Msg V} : Has fwd L' s k d ↔ Has fwd L s k d :=
  ⟨Has.congr h, Has.congr h.symm⟩

omit [LinearOrder K] in
theorem Has.perm {fwd : Bool} {L L' : List (OItor K V)} (h : L.Perm L')
    {s : Nat} {k : K} {d : Msg V} : Has fwd L s k d ↔ Has fwd L' s k d := by
  unfold Has
  constructor
  · rintro ⟨o, h1, h2⟩; exact ⟨o, h.mem_iff.mp h1, h2⟩
  · rintro ⟨o, h1, h2⟩; exact ⟨o, h.mem_iff.mpr h1, h2⟩

omit [LinearOrder K] in
theorem Has.append {fwd : Bool} {L L' : List (OItor K V)}
    {s : Nat} {k : K} {d : Msg V} : Has fwd (L ++ L') s k d ↔ Has fwd L s k d ∨ Has fwd L' s k d := by
  unfold Has
  constructor
  · rintro ⟨o, h1, h2⟩
    rcases List.mem_append.mp h1 with h | h
    · exact .inl ⟨o, h, h2⟩
    · exact .inr ⟨o, h, h2⟩
  · rintro (⟨o, h1, h2⟩ | ⟨o, h1, h2⟩)
    · exact ⟨o, List.mem_append_left _ h1, h2⟩
    · exact ⟨o, List.mem_append_right _ h1, h2⟩

omit [LinearOrder K] in
theorem Has.cons {fwd : Bool} {o : OItor K V} {L : List (OItor K V)}
    {s : Nat} {k : K} {d : Msg V} :
    Has fwd (o :: L) s k d ↔ (o.seq = s ∧ (k, d) ∈ view fwd o) ∨ Has fwd L s k d := by
  simp [Has]

/-- Replacing the first input by its successor state removes exactly its current
item. -/
theorem has_advance {fwd : Bool} {o o' : OItor K V} {R : List (OItor K V)} {kd : K × Msg V}
    {r : List (K × Msg V)} (hs : ((o :: R).map (·.seq)).Nodup) (hv : view fwd o = kd :: r)
    (hr : (kd :: r).Pairwise (fun a b => dlt fwd a.1 b.1))
    (h1 : o'.seq = o.seq) (h2 : view fwd o' = r) (s : Nat) (k : K) (d : Msg V) :
    Has fwd (o' :: R) s k d ↔ Has fwd (o :: R) s k d ∧ ¬ (s = o.seq ∧ k = kd.1) := by
  rw [Has.cons, Has.cons, h1, h2, hv]
  have hnot : Has fwd R s k d → s ≠ o.seq := by
    rintro ⟨x, hx, hxs, _⟩ e
    simp only [List.map_cons, List.nodup_cons] at hs
    exact hs.1 (by rw [← e, ← hxs]; exact List.mem_map_of_mem hx)
  have hr' := List.pairwise_cons.mp hr
  constructor
  · rintro (⟨rfl, h⟩ | h)
    · refine ⟨.inl ⟨rfl, List.mem_cons_of_mem _ h⟩, ?_⟩
      rintro ⟨-, rfl⟩
      exact dlt_irrefl (hr'.1 (_, d) h)
    · exact ⟨.inr h, fun e => hnot h e.1⟩
  · rintro ⟨(⟨rfl, h⟩ | h), hn⟩
    · rcases List.mem_cons.mp h with h | h
      · exact absurd ⟨rfl, by rw [← h]⟩ hn
      · exact .inl ⟨rfl, h⟩
    · exact .inr h

theorem advanceResort_spec (m : MIter K V) (o : OItor K V) (L D : List (OItor K V))
    (harr : m.arr = o :: L ++ D) (hn : m.numRemaining = L.length + 1)
    (H : LInv m.forwards (o :: L) D) :
    ∃ L' D', advanceResort m = .ok { m with arr := L' ++ D', numRemaining := L'.length } ∧
      LInv m.forwards L' D' ∧ (L' ++ D').length = (o :: (L ++ D)).length ∧
      remItems m.forwards (L' ++ D') + 1 = remItems m.forwards (o :: (L ++ D)) ∧
      ((∀ b L1, L = b :: L1 → b.currKey = o.currKey →
          ∃ c L1', L' = c :: L1' ∧ core c = core b)) ∧
      ∀ s k d, Has m.forwards (L' ++ D') s k d ↔
        Has m.forwards (o :: (L ++ D)) s k d ∧ ¬ (s = o.seq ∧ o.currKey = some k) := by
  obtain ⟨kd, r, hv, hk, hd⟩ := H.live o List.mem_cons_self
  have hvne : view m.forwards o ≠ [] := by simp [hv]
  have hruns := H.runs o (by simp)
  rw [hv] at hruns
  have hseqs := H.seqs
  have hstep := view_step m.forwards o hvne
  rw [hv, List.tail_cons] at hstep
  have hhas : ∀ (o' : OItor K V), o'.seq = o.seq → view m.forwards o' = r → ∀ X : List (OItor K V),
      X.Perm (o' :: (L ++ D)) → ∀ s k d, Has m.forwards X s k d ↔
        Has m.forwards (o :: (L ++ D)) s k d ∧ ¬ (s = o.seq ∧ o.currKey = some k) := by
    intro o' h1 h2 X hX s k d
    rw [Has.perm hX, has_advance (o := o) (kd := kd) (r := r) (by simpa using hseqs) hv hruns h1 h2,
      hk]
    simp [eq_comm]
  have hrem : ∀ (o' : OItor K V), view m.forwards o' = r → ∀ X : List (OItor K V),
      X.Perm (o' :: (L ++ D)) →
      remItems m.forwards X + 1 = remItems m.forwards (o :: (L ++ D)) := by
    intro o' h2 X hX
    unfold remItems
    rw [(hX.map _).sum_nat]
    simp only [List.map_cons, List.sum_cons, h2, hv, List.length_cons]
    omega
  have hbound : ∀ (o' : OItor K V), o'.seq = o.seq → ∀ X : List (OItor K V),
      X.Perm (o' :: (L ++ D)) → ∀ x ∈ X, x.seq < X.length := by
    intro o' h2 X hX x hx
    rw [hX.length_eq]
    rcases List.mem_cons.mp (hX.mem_iff.mp hx) with rfl | hx
    · rw [h2]; exact H.bound o (by simp)
    · exact H.bound x (by rw [List.cons_append]; exact List.mem_cons_of_mem _ hx)
  have hrun' := (List.pairwise_cons.mp hruns).2
  have hsortL := (List.pairwise_cons.mp H.sorted).2
  unfold advanceResort
  simp only [harr, List.cons_append, hn, Nat.add_one_ne_zero, if_false, Nat.add_sub_cancel]
  set o1 : OItor K V := ({ o with nextEq := false, currKey := none, currData := none }).step m.forwards with ho1
  have hv1 : view m.forwards o1 = r := by rw [← hstep]; rfl
  have hs1 : o1.seq = o.seq := rfl
  by_cases hc : o1.canCurr = true
  · have hrne : r ≠ [] := by
      have := (canCurr_iff m.forwards o1).mp hc; rwa [hv1] at this
    obtain ⟨kd', r', hr'⟩ := List.exists_cons_of_ne_nil hrne
    have hcur : o1.curr = some kd' := by
      rw [← view_head m.forwards o1 (by rw [hv1]; exact hrne), hv1, hr']; rfl
    have hv2 : view m.forwards o1.setCurr = r := by rw [← hv1]; rfl
    have hk2 : o1.setCurr.currKey = some kd'.1 := by simp [OItor.setCurr, hcur]
    have hd2 : o1.setCurr.currData = some kd'.2 := by simp [OItor.setCurr, hcur]
    have hs2 : o1.setCurr.seq = o.seq := rfl
    have hne2 : o1.setCurr.nextEq = false := rfl
    have hlive2 : ∃ kd r, view m.forwards o1.setCurr = kd :: r ∧ o1.setCurr.currKey = some kd.1 ∧
        o1.setCurr.currData = some kd.2 := ⟨kd', r', by rw [hv2, hr'], hk2, hd2⟩
    simp only [hc, Bool.not_true, Bool.false_eq_true, if_false]
    by_cases hL : L.length = 0
    · have hL0 : L = [] := List.length_eq_zero_iff.mp hL
      subst hL0
      refine ⟨[o1.setCurr], D, by simp, ?_, by simp,
        hrem _ hv2 _ (List.Perm.refl _), by simp, hhas _ hs2 hv2 _ (List.Perm.refl _)⟩
      refine { live := ?_, dead := H.dead, sorted := by simp, runs := ?_, seqs := ?_,
               bound := hbound _ hs2 _ (List.Perm.refl _), flags := hne2 }
      · intro x hx; simp at hx; subst hx; exact hlive2
      · intro x hx
        rcases List.mem_append.mp hx with hx | hx
        · simp at hx; subst hx; rw [hv2]; exact hrun'
        · exact H.runs x (by simp [hx])
      · simpa [hs2] using hseqs
    · have hL1 : (L ++ D).take L.length = L := by simp
      simp only [Nat.add_eq_right, hL, if_false, hL1]
      have hkeys : ∀ e ∈ L, e.currKey ≠ none := by
        intro e he
        obtain ⟨kd, r, _, h, _⟩ := H.live e (List.mem_cons_of_mem _ he)
        simp [h]
      have hseqne : ∀ e ∈ L, o1.setCurr.seq ≠ e.seq := by
        intro e he heq
        simp only [List.cons_append, List.map_cons, List.nodup_cons] at hseqs
        exact hseqs.1 (by rw [← hs2, heq]; exact List.mem_map_of_mem (List.mem_append_left _ he))
      obtain ⟨j, h1, h2, h3, h4⟩ := bsearchInsert_spec m.forwards o1.setCurr L kd'.1 hk2
        (by intro e; simp [e] at hL) hkeys hseqne hsortL
      rw [h1]
      simp only
      have htake : (L ++ D).take j = L.take j := by
        rw [List.take_append_of_le_length h2]
      have hdrop : (L ++ D).drop j = L.drop j ++ D := by
        rw [List.drop_append_of_le_length h2]
      have hjl : (L.take j).length = j := by simp; omega
      set pe := (decide (0 < j) && sameAt o1.setCurr L (j - 1)) with hpe
      set ne := sameAt o1.setCurr L j with hne
      have hres : setFlag (if j = 0 then (L ++ D).take j ++ o1.setCurr :: (L ++ D).drop j
            else setFlag ((L ++ D).take j ++ o1.setCurr :: (L ++ D).drop j) (j - 1) pe) j ne
          = insFlags (L.take j) (L.drop j) o1.setCurr pe ne ++ D := by
        unfold insFlags
        rw [htake, hdrop, hjl]
        simp only
        by_cases hj : j = 0
        · simp only [hj, if_true]
          rw [← setFlag_append]
          · simp
          · simp
        · simp only [hj, if_false]
          rw [← setFlag_append _ _ _ _ (by rw [setFlag_length]; simp; omega),
            ← setFlag_append _ _ _ _ (by simp; omega)]
          simp
      have hres' : (match L.take j ++ o1.setCurr :: L.drop j with | _ => True) := trivial
      clear hres'
      have hlen : (insFlags (L.take j) (L.drop j) o1.setCurr pe ne).length = L.length + 1 := by
        have := congrArg List.length (insFlags_core (L.take j) (L.drop j) o1.setCurr pe ne)
        simp at this; rw [this]; omega
      have hcore := insFlags_core (L.take j) (L.drop j) o1.setCurr pe ne
      have hperm : (L.take j ++ o1.setCurr :: L.drop j ++ D).Perm (o1.setCurr :: (L ++ D)) := by
        have : (L.take j ++ o1.setCurr :: L.drop j).Perm (o1.setCurr :: L) := by
          have h := List.perm_middle (a := o1.setCurr) (l₁ := L.take j) (l₂ := L.drop j)
          rwa [List.take_append_drop] at h
        exact this.append_right D
      refine ⟨insFlags (L.take j) (L.drop j) o1.setCurr pe ne, D, ?_, ?_, ?_, ?_, ?_, ?_⟩
      · rw [← hres, hlen, ← hn]
      · have h0 : LInv0 m.forwards (L.take j ++ o1.setCurr :: L.drop j) D := by
          refine { live := ?_, dead := H.dead, sorted := ?_, runs := ?_, seqs := ?_,
                   bound := hbound _ hs2 _ hperm }
          · intro x hx
            rcases List.mem_append.mp hx with hx | hx
            · exact H.live x (List.mem_cons_of_mem _ (List.mem_of_mem_take hx))
            · rcases List.mem_cons.mp hx with hx | hx
              · subst hx; exact hlive2
              · exact H.live x (List.mem_cons_of_mem _ (List.mem_of_mem_drop hx))
          · have hsp : (L.take j ++ L.drop j).Pairwise (ILt m.forwards) := by
              rw [List.take_append_drop]; exact hsortL
            rw [List.pairwise_append] at hsp ⊢
            refine ⟨hsp.1, ?_, ?_⟩
            · rw [List.pairwise_cons]
              refine ⟨?_, hsp.2.1⟩
              intro x hx
              obtain ⟨i, hi, rfl⟩ := List.getElem_of_mem hx
              rw [List.getElem_drop]
              exact h4 _ (by simp at hi; omega) (by omega)
            · intro a ha b hb
              rcases List.mem_cons.mp hb with hb | hb
              · subst hb
                obtain ⟨i, hi, rfl⟩ := List.getElem_of_mem ha
                rw [List.getElem_take]
                simp at hi
                exact h3 i (by omega) (by omega)
              · exact hsp.2.2 a ha b hb
          · intro x hx
            rcases List.mem_cons.mp (hperm.mem_iff.mp hx) with hx | hx
            · subst hx; rw [hv2]; exact hrun'
            · exact H.runs x (by simpa using Or.inr (List.mem_append.mp hx))
          · have := (hperm.map (·.seq)).nodup_iff.mpr (by simpa [hs2] using hseqs)
            exact this
        refine { toLInv0 := h0.congr hcore, flags := ?_ }
        apply insFlags_flags
        · rw [List.take_append_drop]; exact H.flags.tail
        · intro a ha
          rw [List.getLast?_take] at ha
          by_cases hj : j = 0
          · simp [hj] at ha
          · rw [if_neg hj, List.getElem?_eq_getElem (by omega)] at ha
            simp only [Option.some_or, Option.some.injEq] at ha
            rw [hpe]; simp only [sameAt, List.getElem?_eq_getElem (show j - 1 < L.length by omega), ha]
            simp [Nat.pos_of_ne_zero hj, eq_comm]
        · rw [hne]; unfold sameAt; rw [List.head?_drop]
          cases L[j]? <;> rfl
      · simp [hlen]; omega
      · rw [← hrem _ hv2 _ hperm]
        unfold remItems
        congr 2
        have : ∀ X : List (OItor K V), X.map (fun o => (view m.forwards o).length) =
            (X.map core).map (fun o => (view m.forwards o).length) := by
          intro X; rw [List.map_map]; rfl
        rw [this, this (_ ++ D), List.map_append, hcore]; simp
      · intro b L1 hb hkb
        have hj0 : j ≠ 0 := by
          intro hj
          have := h4 0 (by simp [hb]) (by omega)
          obtain ⟨x, y, hx, hy, hxy⟩ := this
          rw [hk2] at hx; cases hx
          simp only [hb, List.getElem_cons_zero] at hy
          rw [hkb, hk] at hy; cases hy
          have hlt : dlt m.forwards kd.1 kd'.1 := by
            rw [hr'] at hruns
            exact (List.pairwise_cons.mp hruns).1 _ List.mem_cons_self
          rcases hxy with h | h
          · exact dlt_asymm h hlt
          · rw [h.1] at hlt; exact dlt_irrefl hlt
        obtain ⟨j', rfl⟩ := Nat.exists_eq_succ_of_ne_zero hj0
        rw [hb, List.take_succ_cons, List.cons_append, List.map_cons] at hcore
        rw [List.map_eq_cons_iff] at hcore
        obtain ⟨c, l, h5, h6, h7⟩ := hcore
        exact ⟨c, l, by rw [← h5, hb]; rfl, h6⟩
      · intro s k d
        rw [Has.congr_iff (L := L.take j ++ o1.setCurr :: L.drop j ++ D)
          (by rw [List.map_append, hcore]; simp)]
        exact hhas _ hs2 hv2 _ hperm s k d
  · have hr0 : r = [] := by
      by_contra h
      exact hc ((canCurr_iff m.forwards o1).mpr (by rw [hv1]; exact h))
    simp only [hc, Bool.not_false, if_true]
    refine ⟨L, o1 :: D, by simp, ?_, by simp; omega,
      hrem _ hv1 _ List.perm_middle, ?_, ?_⟩
    · refine { live := fun x hx => H.live x (List.mem_cons_of_mem _ hx), dead := ?_,
               sorted := hsortL, runs := ?_, seqs := ?_,
               bound := hbound _ hs1 _ List.perm_middle, flags := H.flags.tail }
      · intro x hx
        rcases List.mem_cons.mp hx with hx | hx
        · subst hx; rw [hv1, hr0]
        · exact H.dead x hx
      · intro x hx
        rcases List.mem_append.mp hx with hx | hx
        · exact H.runs x (by simp [hx])
        · rcases List.mem_cons.mp hx with hx | hx
          · subst hx; rw [hv1]; exact hrun'
          · exact H.runs x (by simp [hx])
      · have hp : (L ++ o1 :: D).Perm (o1 :: (L ++ D)) := List.perm_middle
        exact (hp.map (·.seq)).nodup_iff.mpr (by simpa [hs1] using hseqs)
    · intro b L1 hb _
      exact ⟨b, L1, hb, rfl⟩
    · exact hhas _ hs1 hv1 _ List.perm_middle

end Splinter.Merge
