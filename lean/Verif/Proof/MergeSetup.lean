import Verif.Proof.MergeDrain
/-! Lemmas about the merge iterator model (src/merge.c): `setup_ordered_iterators`. -/
namespace Splinter.Merge
open Splinter
set_option linter.unusedSectionVars false
variable {K V : Type} [LinearOrder K]

/-- Input state without the cached key and data. -/
def bare (o : OItor K V) : OItor K V := { o with currKey := none, currData := none }

theorem bare_setCurr (o : OItor K V) : bare o.setCurr = bare o := rfl

/-- The cache of a live input is right. -/
def Cached (o : OItor K V) : Prop :=
  o.canCurr = true ∧ o.currKey = o.curr.map (·.1) ∧ o.currData = o.curr.map (·.2)

theorem moveDead_spec (fuel : Nat) : ∀ (i n : Nat) (arr : List (OItor K V)) (cp cn : Bool),
    n - i ≤ fuel → i ≤ n → n ≤ arr.length →
    (∀ j o, j < i → arr[j]? = some o → Cached o) →
    (∀ j o, n ≤ j → arr[j]? = some o → o.canCurr = false) →
    (0 < i → cp = true ∧ cn = true) →
    ∃ n' arr' cp' cn', moveDead i n arr cp cn = (n', arr', cp', cn') ∧
      n' ≤ arr'.length ∧ (arr'.map bare).Perm (arr.map bare) ∧
      (∀ o ∈ arr'.take n', Cached o) ∧ (∀ o ∈ arr'.drop n', o.canCurr = false) ∧
      (0 < n' → cp' = true ∧ cn' = true) := by
  induction fuel with
  | zero =>
    intro i n arr cp cn hf hin hn hlo hhi hc
    have : i = n := by omega
    subst this
    rw [moveDead]
    simp only [Nat.lt_irrefl, if_false]
    refine ⟨_, _, _, _, rfl, hn, List.Perm.refl _, ?_, ?_, hc⟩
    · intro o ho
      obtain ⟨j, hj, rfl⟩ := List.getElem_of_mem ho
      rw [List.length_take] at hj
      exact hlo j _ (by omega) (by rw [List.getElem_take, List.getElem?_eq_getElem])
    · intro o ho
      obtain ⟨j, hj, rfl⟩ := List.getElem_of_mem ho
      simp at hj
      exact hhi (i + j) _ (by omega) (by rw [List.getElem_drop, List.getElem?_eq_getElem])
  | succ fuel ih =>
    intro i n arr cp cn hf hin hn hlo hhi hc
    by_cases hlt : i < n
    · rw [moveDead]
      have hi : i < arr.length := by omega
      simp only [hlt, if_true, List.getElem?_eq_getElem hi]
      by_cases hcc : arr[i].canCurr = true
      · simp only [hcc, Bool.not_true, Bool.false_eq_true, if_false]
        obtain ⟨n', arr', cp', cn', h1, h2, h3, h4, h5, h6⟩ :=
          ih (i + 1) n (arr.set i arr[i].setCurr) (cp || arr[i].canPrev) (cn || arr[i].canNext)
            (by omega) (by omega) (by simpa using hn)
            (by
              intro j o hj ho
              by_cases hji : j = i
              · subst hji
                rw [List.getElem?_set_self hi] at ho
                cases ho
                exact ⟨hcc, rfl, rfl⟩
              · rw [List.getElem?_set_ne (by omega)] at ho
                exact hlo j o (by omega) ho)
            (by
              intro j o hj ho
              rw [List.getElem?_set_ne (by omega)] at ho
              exact hhi j o hj ho)
            (by
              intro _
              unfold OItor.canCurr at hcc
              simp at hcc; simp [hcc])
        refine ⟨n', arr', cp', cn', h1, h2, ?_, h4, h5, h6⟩
        rw [List.map_set, bare_setCurr] at h3
        have : (arr.map bare).set i (bare arr[i]) = arr.map bare := by
          rw [← List.getElem_map bare (l := arr) (h := by simpa using hi)]
          exact List.set_getElem_self _
        rwa [this] at h3
      · simp only [hcc, Bool.not_false, if_true]
        have hn1 : n - 1 < arr.length := by omega
        simp only [List.getElem?_eq_getElem hn1]
        have hcc' : arr[i].canCurr = false := by simpa using hcc
        obtain ⟨n', arr', cp', cn', h1, h2, h3, h4, h5, h6⟩ :=
          ih i (n - 1) ((arr.set (n - 1) arr[i]).set i arr[n-1]) (cp || arr[i].canPrev) (cn || arr[i].canNext)
            (by omega) (by omega) (by simp; omega)
            (by
              intro j o hj ho
              rw [List.getElem?_set_ne (by omega), List.getElem?_set_ne (by omega)] at ho
              exact hlo j o hj ho)
            (by
              intro j o hj ho
              by_cases hjn : j = n - 1
              · subst hjn
                by_cases hin' : i = n - 1
                · subst hin'
                  rw [List.getElem?_set_self (by simpa using hi)] at ho
                  cases ho; exact hcc'
                · rw [List.getElem?_set_ne (by omega), List.getElem?_set_self (by omega)] at ho
                  cases ho; exact hcc'
              · rw [List.getElem?_set_ne (by omega), List.getElem?_set_ne (by omega)] at ho
                exact hhi j o (by omega) ho)
            (by intro h; simp [hc h])
        refine ⟨n', arr', cp', cn', h1, h2, ?_, h4, h5, h6⟩
        refine h3.trans (List.Perm.map _ ?_)
        exact List.set_set_perm hn1 hi
    · have : i = n := by omega
      subst this
      exact ih i i arr cp cn (by omega) (by omega) hn hlo hhi hc

theorem insertBy_perm (le : OItor K V → OItor K V → Bool) (a : OItor K V) (l : List (OItor K V)) :
    (insertBy le a l).Perm (a :: l) := by
  induction l with
  | nil => exact List.Perm.refl _
  | cons b l ih =>
    unfold insertBy
    split
    · exact List.Perm.refl _
    · exact (ih.cons b).trans (List.Perm.swap a b l)

theorem sortBy_perm (le : OItor K V → OItor K V → Bool) (l : List (OItor K V)) :
    (sortBy le l).Perm l := by
  induction l with
  | nil => exact List.Perm.refl _
  | cons a l ih => exact (insertBy_perm le a _).trans (ih.cons a)

theorem sortBy_sorted (fwd : Bool) (l : List (OItor K V)) (hk : ∀ o ∈ l, o.currKey ≠ none)
    (hs : (l.map (·.seq)).Nodup) : (sortBy (mergeLe fwd) l).Pairwise (ILt fwd) := by
  induction l with
  | nil => exact List.Pairwise.nil
  | cons a l ih =>
    have ih' := ih (fun o ho => hk o (List.mem_cons_of_mem _ ho)) (List.nodup_cons.mp hs).2
    have hp := sortBy_perm (mergeLe fwd) l
    obtain ⟨x, hx⟩ := Option.ne_none_iff_exists'.mp (hk a List.mem_cons_self)
    have hrest : ∀ o ∈ sortBy (mergeLe fwd) l, o.currKey ≠ none ∧ a.seq ≠ o.seq := by
      intro o ho
      have ho' := hp.mem_iff.mp ho
      refine ⟨hk o (List.mem_cons_of_mem _ ho'), fun e => ?_⟩
      exact (List.nodup_cons.mp hs).1 (by show a.seq ∈ _; rw [e]; exact List.mem_map_of_mem ho')
    show (insertBy (mergeLe fwd) a (sortBy (mergeLe fwd) l)).Pairwise (ILt fwd)
    revert ih' hrest
    generalize sortBy (mergeLe fwd) l = r
    intro ih' hrest
    induction r with
    | nil => simp [insertBy]
    | cons b r ihr =>
      obtain ⟨h1, h2⟩ := hrest b List.mem_cons_self
      obtain ⟨y, hy⟩ := Option.ne_none_iff_exists'.mp h1
      have ihc := List.pairwise_cons.mp ih'
      unfold insertBy
      rcases bsearchComp_spec fwd a b x y hx hy h2 with ⟨g1, g2⟩ | ⟨g1, g2⟩
      · have : mergeLe fwd a b = true := by simp [mergeLe, g1]
        simp only [this, if_true, List.pairwise_cons]
        refine ⟨?_, ihc.1, ihc.2⟩
        intro c hc
        rcases List.mem_cons.mp hc with rfl | hc
        · exact g2
        · exact ILt_trans g2 (ihc.1 c hc)
      · have : mergeLe fwd a b = false := by simp [mergeLe, g1]
        simp only [this, Bool.false_eq_true, if_false, List.pairwise_cons]
        refine ⟨?_, ihr ihc.2 (fun o ho => hrest o (List.mem_cons_of_mem _ ho))⟩
        intro c hc
        rcases List.mem_cons.mp ((insertBy_perm _ _ _).mem_iff.mp hc) with rfl | hc
        · exact g2
        · exact ihc.1 c hc

theorem initFlags_core (l : List (OItor K V)) : (initFlags l).map core = l.map core := by
  induction l with
  | nil => rfl
  | cons a l ih =>
    cases l with
    | nil => rfl
    | cons b r => simp only [initFlags, List.map_cons] at ih ⊢; rw [ih]; rfl

theorem initFlags_flags (l : List (OItor K V)) (h : ∀ o, l.getLast? = some o → o.nextEq = false) :
    Flags (initFlags l) := by
  induction l with
  | nil => trivial
  | cons a l ih =>
    cases l with
    | nil => exact h a rfl
    | cons b r =>
      have ih' := ih (by intro o ho; exact h o (by simpa using ho))
      obtain ⟨c, t, hc, hck⟩ : ∃ c t, initFlags (b :: r) = c :: t ∧ c.currKey = b.currKey := by
        cases r with
        | nil => exact ⟨b, [], rfl, rfl⟩
        | cons b' r => exact ⟨_, _, rfl, rfl⟩
      simp only [initFlags]
      rw [hc] at ih' ⊢
      exact ⟨by simp [hck], ih'⟩

/-- What `setup` needs of the inputs. -/
structure Ready (fwd : Bool) (arr : List (OItor K V)) : Prop where
  runs : ∀ o ∈ arr, (view fwd o).Pairwise (fun a b => dlt fwd a.1 b.1)
  seqs : (arr.map (·.seq)).Nodup
  bound : ∀ o ∈ arr, o.seq < arr.length
  flags : ∀ o ∈ arr, o.nextEq = false

theorem Has.bare_iff {fwd : Bool} {L L' : List (OItor K V)} (h : (L'.map bare).Perm (L.map bare))
    {s : Nat} {k : K} {d : Msg V} : Has fwd L' s k d ↔ Has fwd L s k d := by
  have e : ∀ X : List (OItor K V), Has fwd X s k d ↔ Has fwd (X.map bare) s k d := by
    intro X
    unfold Has
    constructor
    · rintro ⟨o, h1, h2, h3⟩; exact ⟨bare o, List.mem_map_of_mem h1, h2, h3⟩
    · rintro ⟨o, h1, h2, h3⟩
      obtain ⟨o', h4, rfl⟩ := List.mem_map.mp h1
      exact ⟨o', h4, h2, h3⟩
  rw [e L', e L, Has.perm h]

theorem remItems_bare {fwd : Bool} {L L' : List (OItor K V)} (h : (L'.map bare).Perm (L.map bare)) :
    remItems fwd L' = remItems fwd L := by
  have e : ∀ X : List (OItor K V), remItems fwd X = remItems fwd (X.map bare) := by
    intro X; unfold remItems; rw [List.map_map]; rfl
  rw [e L', e L]
  unfold remItems
  exact (h.map _).sum_nat

/-- The array after `setup`'s rearrangement. -/
theorem arrange_spec (fwd : Bool) (arr : List (OItor K V)) (hR : Ready fwd arr) :
    ∃ n arr' cp cn, moveDead 0 arr.length arr false false = (n, arr', cp, cn) ∧
      let L := initFlags (sortBy (mergeLe fwd) (arr'.take n))
      LInv fwd L (arr'.drop n) ∧ L.length = n ∧ (0 < n → cp = true ∧ cn = true) ∧
      ((L ++ arr'.drop n).map bare).length = arr.length ∧
      (∀ s k d, Has fwd (L ++ arr'.drop n) s k d ↔ Has fwd arr s k d) ∧
      remItems fwd (L ++ arr'.drop n) = remItems fwd arr := by
  obtain ⟨n, arr', cp, cn, h1, h2, h3, h4, h5, h6⟩ :=
    moveDead_spec arr.length 0 arr.length arr false false (by omega) (by omega) (by omega)
      (by intro j o h; omega)
      (by intro j o h ho; rw [List.getElem?_eq_none h] at ho; simp at ho) (by omega)
  refine ⟨n, arr', cp, cn, h1, ?_⟩
  have hlen : arr'.length = arr.length := by simpa using h3.length_eq
  -- transfer the static facts to arr'
  have hmem : ∀ o ∈ arr', ∃ o' ∈ arr, bare o' = bare o := by
    intro o ho
    have := h3.mem_iff.mp (List.mem_map_of_mem ho)
    simpa using this
  have hruns : ∀ o ∈ arr', (view fwd o).Pairwise (fun a b => dlt fwd a.1 b.1) := by
    intro o ho
    obtain ⟨o', h, e⟩ := hmem o ho
    have : view fwd o' = view fwd o := show view fwd (bare o') = view fwd (bare o) by rw [e]
    rw [← this]; exact hR.runs o' h
  have hflags : ∀ o ∈ arr', o.nextEq = false := by
    intro o ho
    obtain ⟨o', h, e⟩ := hmem o ho
    have : o'.nextEq = o.nextEq := show (bare o').nextEq = (bare o).nextEq by rw [e]
    rw [← this]; exact hR.flags o' h
  have hbound : ∀ o ∈ arr', o.seq < arr'.length := by
    intro o ho
    obtain ⟨o', h, e⟩ := hmem o ho
    have : o'.seq = o.seq := show (bare o').seq = (bare o).seq by rw [e]
    rw [← this, hlen]; exact hR.bound o' h
  have hseqs : (arr'.map (·.seq)).Nodup := by
    have e : ∀ X : List (OItor K V), X.map (·.seq) = (X.map bare).map (·.seq) := by
      intro X; rw [List.map_map]; rfl
    rw [e arr']
    exact (h3.map _).nodup_iff.mpr (by rw [← e]; exact hR.seqs)
  set S := sortBy (mergeLe fwd) (arr'.take n) with hS
  have hSp : S.Perm (arr'.take n) := sortBy_perm _ _
  have hp : (S ++ arr'.drop n).Perm arr' := by
    have := hSp.append_right (arr'.drop n)
    rwa [List.take_append_drop] at this
  have hkeysome : ∀ o ∈ arr'.take n, o.currKey ≠ none := by
    intro o ho
    obtain ⟨g1, g2, _⟩ := h4 o ho
    rw [g2, ← view_head fwd o ((canCurr_iff fwd o).mp g1)]
    have := (canCurr_iff fwd o).mp g1
    obtain ⟨a, l, e⟩ := List.exists_cons_of_ne_nil this
    simp [e]
  have h0 : LInv0 fwd S (arr'.drop n) := by
    refine { live := ?_, dead := ?_, sorted := ?_, runs := ?_, seqs := ?_, bound := ?_ }
    · intro o ho
      obtain ⟨g1, g2, g3⟩ := h4 o (hSp.mem_iff.mp ho)
      have hv := (canCurr_iff fwd o).mp g1
      obtain ⟨a, l, e⟩ := List.exists_cons_of_ne_nil hv
      have := view_head fwd o hv
      rw [e] at this
      simp at this
      exact ⟨a, l, e, by rw [g2, ← this]; rfl, by rw [g3, ← this]; rfl⟩
    · intro o ho
      have := h5 o ho
      by_contra hne
      rw [(canCurr_iff fwd o).mpr hne] at this
      simp at this
    · exact sortBy_sorted fwd _ hkeysome
        (hseqs.sublist ((List.take_sublist n arr').map _))
    · intro o ho; exact hruns o (hp.mem_iff.mp ho)
    · exact (hp.map _).nodup_iff.mpr hseqs
    · intro o ho
      rw [hp.length_eq]; exact hbound o (hp.mem_iff.mp ho)
  have hcore := initFlags_core S
  have hIlen : (initFlags S).length = n := by
    have := congrArg List.length hcore
    simp at this
    rw [this, hSp.length_eq]; simp; omega
  have hbp : ((initFlags S ++ arr'.drop n).map core).Perm (arr'.map core) := by
    rw [List.map_append, hcore, ← List.map_append]
    exact hp.map _
  have hHas : ∀ s k d, Has fwd (initFlags S ++ arr'.drop n) s k d ↔ Has fwd arr s k d := by
    intro s k d
    rw [Has.congr_iff (L := S ++ arr'.drop n) (by rw [List.map_append, hcore]; simp), Has.perm hp,
      Has.bare_iff h3]
  refine ⟨{ toLInv0 := h0.congr hcore, flags := initFlags_flags S ?_ }, hIlen, h6, ?_, hHas, ?_⟩
  · intro o ho
    exact hflags o (hp.mem_iff.mp (List.mem_append_left _ (List.mem_of_getLast? ho)))
  · simp [hIlen]; omega
  · rw [← remItems_bare h3]
    have e : ∀ X : List (OItor K V), remItems fwd X = remItems fwd (X.map core) := by
      intro X; unfold remItems; rw [List.map_map]; rfl
    rw [e, e arr']
    unfold remItems
    exact (hbp.map _).sum_nat

theorem setup_spec (m : MIter K V) (hmm : m.mergeMessages = true) (hR : Ready m.forwards m.arr) :
    Post m.cfg (setup m) fun m' => SameMode m m' ∧
      OutOk m' (fun s k d => Has m.forwards m.arr s k d) (remItems m.forwards m.arr) := by
  obtain ⟨n, arr', cp, cn, h1, h2, h3, h4, h5, h6, h7⟩ := arrange_spec m.forwards m.arr hR
  unfold setup
  rw [h1]
  simp only
  revert h2 h3 h5 h6 h7
  generalize initFlags (sortBy (mergeLe m.forwards) (arr'.take n)) = L
  intro h2 h3 h5 h6 h7
  have hs := search_spec (totalItems { m with canPrev := cp, canNext := cn, numRemaining := n, arr := L ++ arr'.drop n })
    { m with canPrev := cp, canNext := cn, numRemaining := n, arr := L ++ arr'.drop n } L (arr'.drop n)
    hmm ?_ rfl h3.symm h2 ?_
  · unfold searchFrom at hs
    have he : (fun s k d => Has m.forwards (L ++ arr'.drop n) s k d) =
        (fun s k d => Has m.forwards m.arr s k d) := by
      funext s k d; exact propext (h6 s k d)
    simp only [he, h7] at hs
    exact hs
  · cases L with
    | nil => right; rfl
    | cons a l =>
      left
      obtain ⟨rfl, rfl⟩ := h4 (by rw [← h3]; simp)
      rfl
  · by_cases hne : L ++ arr'.drop n = []
    · simp [hne, remItems]
    · have := totalItems_ge { m with canPrev := cp, canNext := cn, numRemaining := n, arr := L ++ arr'.drop n } hne
      simp only at this ⊢
      omega

end Splinter.Merge
