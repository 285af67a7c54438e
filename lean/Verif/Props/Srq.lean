import Verif.Proof.Srq
/-!
# C29: the space-reclamation queue always yields a highest-priority element

The specification is a partial map from element numbers to elements (`content`), stated here by what
each operation does to it.
-/
namespace Splinter.Srq

inductive Op where
  | insert (d : Data)
  | extract
  | delete (idx : Nat)
  | update (idx prio : Nat)

/-- The queue after one operation; `none` if an assertion fails or the search for a number hangs. -/
def apply (M : Nat) (q : Queue) : Op → Option Queue
  | .insert d => (insert M q d).map Prod.fst
  | .extract => some (extractMax q).1
  | .delete i => (delete q i).map Prod.fst
  | .update i p => update q i p

inductive Reachable (M : Nat) : Queue → Prop
  | init : Reachable M init
  | step {q q' : Queue} (o : Op) : Reachable M q → apply M q o = some q' → Reachable M q'

structure Inv (M : Nat) (q : Queue) : Prop where
  cons : Cons M (fun _ => False) q
  full : Full q
  num : q.num ≤ M
  hand : q.hand < M
  out : ∀ i, M ≤ i → q.index i = none

theorem inv_index {M : Nat} {q : Queue} (inv : Inv M q) {i p : Nat} (h : q.index i = some p) :
    p < q.num ∧ (q.heap p).idx = i ∧ i < M ∧ content q i = some (q.heap p) := by
  obtain ⟨a, b⟩ := inv.cons.bwd i p id h
  refine ⟨a, b, ?_, by unfold content; rw [h]; rfl⟩
  rw [← b]; exact (inv.cons.fwd p a).2.1

theorem content_some {M : Nat} {q : Queue} (inv : Inv M q) {i : Nat} {d : Data} (h : content q i = some d) :
    ∃ p, q.index i = some p ∧ q.heap p = d ∧ p < q.num ∧ d.idx = i := by
  unfold content at h
  obtain ⟨p, hp, hd⟩ := Option.map_eq_some_iff.1 h
  obtain ⟨a, b, _⟩ := inv_index inv hp
  exact ⟨p, hp, hd, a, by rw [← hd]; exact b⟩

theorem out_of_content {M : Nat} {q q' : Queue} (h : ∀ i, M ≤ i → content q i = none) (hc : ∀ i, M ≤ i → content q' i = content q i) :
    ∀ i, M ≤ i → q'.index i = none := by
  intro i hi
  have := (hc i hi).trans (h i hi)
  unfold content at this
  exact Option.map_eq_none_iff.1 this

theorem out_content {M : Nat} {q : Queue} (inv : Inv M q) : ∀ i, M ≤ i → content q i = none := by
  intro i hi; unfold content; rw [inv.out i hi]; rfl

theorem insert_ok {M : Nat} {q : Queue} (inv : Inv M q) (d : Data) (hn : q.num ≠ M) :
    ∃ q' i, insert M q d = some (q', i) ∧ Inv M q' ∧ content q i = none ∧ i < M ∧
      (∀ j, content q' j = if j = i then some { d with idx := i } else content q j) ∧ q'.num = q.num + 1 := by
  obtain ⟨i, hi⟩ := newIndex_exists inv.cons inv.hand (by have := inv.num; omega)
  obtain ⟨i1, i2⟩ := newIndex_some hi inv.hand
  unfold insert
  rw [if_neg hn, hi]
  obtain ⟨q1, hq1⟩ : ∃ q1 : Queue, q1 = ⟨upd q.heap q.num { d with idx := i }, upd q.index i (some q.num), q.num + 1, i⟩ := ⟨_, rfl⟩
  have n1 : q1.num = q.num + 1 := by rw [hq1]
  have c1 : Cons M (fun _ => False) q1 := by
    subst hq1
    constructor
    · intro p hp
      have hp : p < q.num + 1 := hp
      show ¬ False ∧ (upd q.heap q.num _ p).idx < M ∧ upd q.index i (some q.num) (upd q.heap q.num _ p).idx = some p
      by_cases hpe : p = q.num
      · subst hpe; rw [upd_self, upd_self]; exact ⟨id, i2, rfl⟩
      · rw [upd_ne _ _ hpe]
        obtain ⟨a, b, c⟩ := inv.cons.fwd p (by omega)
        refine ⟨id, b, ?_⟩
        rw [upd_ne]
        · exact c
        · intro h; rw [h, i1] at c; cases c
    · intro j p _ hj
      replace hj : upd q.index i (some q.num) j = some p := hj
      show p < q.num + 1 ∧ (upd q.heap q.num _ p).idx = j
      by_cases hji : j = i
      · subst hji; rw [upd_self] at hj; injection hj with hj; subst hj
        rw [upd_self]; exact ⟨by omega, rfl⟩
      · rw [upd_ne _ _ hji] at hj
        obtain ⟨a, b⟩ := inv.cons.bwd j p id hj
        rw [upd_ne _ _ (by omega)]
        exact ⟨by omega, b⟩
  have s1 : ∀ j, content q1 j = if j = i then some { d with idx := i } else content q j := by
    intro j
    subst hq1
    unfold content
    show (upd q.index i (some q.num) j).map (upd q.heap q.num _) = _
    by_cases hji : j = i
    · subst hji; rw [upd_self, if_pos rfl, Option.map_some, upd_self]
    · rw [upd_ne _ _ hji, if_neg hji]
      cases hx : q.index j with
      | none => rfl
      | some p =>
        obtain ⟨a, b⟩ := inv.cons.bwd j p id hx
        rw [Option.map_some, Option.map_some, upd_ne _ _ (by omega)]
  have h1 : Hole q1 q.num := by
    have hpr : ∀ j, j ≠ q.num → pr q1 j = pr q j := by
      intro j hj; subst hq1; unfold pr; show (upd q.heap q.num _ j).prio = _; rw [upd_ne _ _ hj]
    refine ⟨fun j j0 jn j1 j2 => ?_, fun h0 c c0 cn cp => ?_⟩
    · unfold Ord; rw [hpr j j1, hpr _ j2]; exact inv.full j j0 (by omega)
    · have : parent c < c := by unfold parent; omega
      omega
  have hf := up_full h1 (fun c c0 cn cp => by have : parent c < c := by { unfold parent; omega }
                                              omega)
  have hk := up_keeps c1 (pos := q.num) (by omega)
  have hs : ∀ j, content (rebalanceUp q1 q.num) j = if j = i then some { d with idx := i } else content q j :=
    fun j => (hk.same j id).trans (s1 j)
  refine ⟨rebalanceUp q1 q.num, i, by rw [hq1], ⟨hk.cons, hf, ?_, ?_, ?_⟩, by unfold content; rw [i1]; rfl, i2, hs, by rw [hk.num, n1]⟩
  · rw [hk.num, n1]; have := inv.num; omega
  · rw [hk.hand, hq1]; exact i2
  · refine out_of_content (out_content inv) (fun j hj => ?_)
    rw [hs, if_neg (by omega)]

theorem minus_of_cons {M : Nat} {q : Queue} (hc : Cons M (fun _ => False) q) {pos : Nat} (hp : pos < q.num) : Minus M q pos := by
  refine ⟨fun p hpp hne => ?_, fun i p _ h => hc.bwd i p id h⟩
  obtain ⟨_, b, c⟩ := hc.fwd p hpp
  refine ⟨?_, b, c⟩
  intro h
  rw [h, (hc.fwd pos hp).2.2] at c
  injection c with c
  exact hne c.symm

theorem extract_ok {M : Nat} {q : Queue} (inv : Inv M q) (hn : q.num ≠ 0) :
    ∃ q' d, extractMax q = (q', some d) ∧ Inv M q' ∧ content q d.idx = some d ∧ q.heap 0 = d ∧
      (∀ j, content q' j = if j = d.idx then none else content q j) ∧ q'.num = q.num - 1 := by
  unfold extractMax
  rw [if_neg hn]
  dsimp only
  obtain ⟨z1, z2, z3⟩ := inv.cons.fwd 0 (by omega)
  obtain ⟨d, hd⟩ : ∃ d, d = q.heap 0 := ⟨_, rfl⟩
  rw [← hd] at z2 z3 ⊢
  obtain ⟨q0, hq0⟩ : ∃ q0 : Queue, q0 = { q with index := upd q.index d.idx none } := ⟨_, rfl⟩
  rw [← hq0]
  have hheap : q0.heap = q.heap := by rw [hq0]
  have hnum : q0.num = q.num := by rw [hq0]
  have hhand : q0.hand = q.hand := by rw [hq0]
  have hidx : q0.index = upd q.index d.idx none := by rw [hq0]
  have hm0 := minus_of_cons inv.cons (pos := 0) (by omega)
  have hm : Minus M q0 0 := by
    refine ⟨?_, ?_⟩
    · intro p hp hne
      rw [hnum] at hp
      rw [hheap, hidx]
      obtain ⟨a, b, c⟩ := hm0.fwd p hp hne
      exact ⟨a, b, by rw [upd_ne _ _ (by rw [hd]; exact a)]; exact c⟩
    · intro i p hi h
      rw [hheap] at hi
      rw [hidx, upd_ne _ _ (by rw [hd]; exact hi)] at h
      rw [hnum, hheap]
      exact hm0.bwd i p hi h
  obtain ⟨m1, m2, m3, m4, m5, m6⟩ := moveTail_spec hm (by omega)
  have hd0 : (q0.heap 0).idx = d.idx := by rw [hheap, hd]
  rw [hd0] at m1 m4 m5
  have hmi : (moveTail q0 0).index d.idx = none := by
    by_cases h0 : 0 = q0.num - 1
    · unfold moveTail
      rw [if_neg (by simp; omega)]
      show q0.index d.idx = none
      rw [hidx, upd_self]
    · rw [m5 h0, hidx, upd_self]
  have hfull : Full q0 := by
    intro j j0 jn
    rw [hnum] at jn
    have := inv.full j j0 jn
    unfold Ord pr at *
    rw [hheap]; exact this
  have hhole := moveTail_hole hfull (pos := 0) (by omega) m2 m6
  have hf := down_full hhole (fun h => by omega)
  have hk := down_keeps m1 (pos := 0) (by omega)
  have hdi : (rebalanceDown (moveTail q0 0) 0).index d.idx = none := by rw [hk.ex _ rfl, hmi]
  have hs : ∀ j, content (rebalanceDown (moveTail q0 0) 0) j = if j = d.idx then none else content q j := by
    intro j
    by_cases hj : j = d.idx
    · rw [if_pos hj, hj]; unfold content; rw [hdi]; rfl
    · rw [if_neg hj, hk.same j hj, m4 j hj]
      unfold content
      rw [hheap, hidx, upd_ne _ _ hj]
  refine ⟨_, d, rfl, ⟨⟨?_, ?_⟩, hf, ?_, ?_, ?_⟩, by unfold content; rw [z3, hd]; rfl, rfl, hs, by rw [hk.num, m2, hnum]⟩
  · intro p hp
    obtain ⟨_, b, c⟩ := hk.cons.fwd p hp
    exact ⟨id, b, c⟩
  · intro i p _ h
    refine hk.cons.bwd i p ?_ h
    rintro rfl
    rw [hdi] at h; cases h
  · rw [hk.num, m2, hnum]; have := inv.num; omega
  · rw [hk.hand, m3, hhand]; exact inv.hand
  · refine out_of_content (out_content inv) (fun j hj => ?_)
    rw [hs, if_neg (by omega)]

theorem delete_ok {M : Nat} {q : Queue} (inv : Inv M q) {idx : Nat} {d : Data} (h : content q idx = some d) :
    ∃ q', delete q idx = some (q', d) ∧ Inv M q' ∧ (∀ j, content q' j = if j = idx then none else content q j) ∧ q'.num = q.num - 1 := by
  obtain ⟨pos, hp, hd, hpn, hdi⟩ := content_some inv h
  have hidx : (q.heap pos).idx = idx := by rw [hd]; exact hdi
  unfold delete
  rw [hp]
  dsimp only
  obtain ⟨m1, m2, m3, m4, m5, m6⟩ := moveTail_spec (minus_of_cons inv.cons hpn) hpn
  rw [hidx] at m1 m4 m5
  have hhole := moveTail_hole inv.full hpn m2 m6
  have hfix : Keeps M (· = idx) (moveTail q pos) (fixup (moveTail q pos) pos) ∧ Full (fixup (moveTail q pos) pos) := by
    unfold fixup
    by_cases hne : pos ≠ (moveTail q pos).num
    · rw [if_pos hne]
      have hk := up_keeps m1 (pos := pos) (by rw [m2] at hne ⊢; omega)
      obtain ⟨a, b⟩ := up_hole hhole
      exact ⟨hk.trans (down_keeps hk.cons (by rw [hk.num, m2]; rw [m2] at hne; omega)), down_full a b⟩
    · rw [if_neg hne]
      refine ⟨Keeps.refl m1, fun j j0 jn => ?_⟩
      have hcp : parent j < j := by unfold parent; omega
      exact hhole.1 j j0 jn (by omega) (by omega)
  obtain ⟨hk, hf⟩ := hfix
  generalize fixup (moveTail q pos) pos = q1 at *
  have hs : ∀ j, content { q1 with index := upd q1.index idx none } j = if j = idx then none else content q j := by
    intro j
    by_cases hj : j = idx
    · rw [if_pos hj, hj]; unfold content; dsimp only; rw [upd_self]; rfl
    · rw [if_neg hj, ← m4 j hj, ← hk.same j hj]
      unfold content; dsimp only; rw [upd_ne _ _ hj]
  refine ⟨{ q1 with index := upd q1.index idx none }, by rw [hd], ⟨⟨?_, ?_⟩, hf, ?_, ?_, ?_⟩, hs, by show q1.num = _; rw [hk.num, m2]⟩
  · intro p hpp
    obtain ⟨a, b, c⟩ := hk.cons.fwd p hpp
    refine ⟨id, b, ?_⟩
    show upd q1.index idx none _ = _
    rw [upd_ne _ _ a]; exact c
  · intro i p _ hi
    replace hi : upd q1.index idx none i = some p := hi
    by_cases hii : i = idx
    · rw [hii, upd_self] at hi; cases hi
    · rw [upd_ne _ _ hii] at hi
      exact hk.cons.bwd i p hii hi
  · show q1.num ≤ M; rw [hk.num, m2]; have := inv.num; omega
  · show q1.hand < M; rw [hk.hand, m3]; exact inv.hand
  · refine out_of_content (out_content inv) (fun j hj => ?_)
    rw [hs, if_neg]
    rintro rfl
    rw [out_content inv j hj] at h; cases h

theorem update_ok {M : Nat} {q : Queue} (inv : Inv M q) {idx : Nat} {d : Data} (h : content q idx = some d) (prio : Nat) :
    ∃ q', update q idx prio = some q' ∧ Inv M q' ∧
      (∀ j, content q' j = if j = idx then some { d with prio := prio % 2 ^ 32 } else content q j) ∧ q'.num = q.num := by
  obtain ⟨pos, hp, hd, hpn, hdi⟩ := content_some inv h
  unfold update
  rw [hp]
  dsimp only
  rw [hd]
  obtain ⟨q1, hq1⟩ : ∃ q1 : Queue, q1 = { q with heap := upd q.heap pos { d with prio := prio % 2 ^ 32 } } := ⟨_, rfl⟩
  rw [← hq1]
  have hnum : q1.num = q.num := by rw [hq1]
  have hhand : q1.hand = q.hand := by rw [hq1]
  have hix : q1.index = q.index := by rw [hq1]
  have hhp : ∀ p, q1.heap p = if p = pos then { d with prio := prio % 2 ^ 32 } else q.heap p := by intro p; rw [hq1]; rfl
  have hid : ∀ p, (q1.heap p).idx = (q.heap p).idx := by
    intro p; rw [hhp]; split
    · rename_i h; rw [h, hd]
    · rfl
  have c1 : Cons M (fun _ => False) q1 := by
    refine ⟨fun p hpp => ?_, fun i p _ hi => ?_⟩
    · rw [hid, hix]; exact inv.cons.fwd p (by omega)
    · rw [hid, hnum]; rw [hix] at hi; exact inv.cons.bwd i p id hi
  have hpr : ∀ j, j ≠ pos → pr q1 j = pr q j := by intro j hj; unfold pr; rw [hhp, if_neg hj]
  have h1 : Hole q1 pos := by
    refine ⟨fun j j0 jn j1 j2 => ?_, fun h0 c c0 cn cp => ?_⟩
    · unfold Ord; rw [hpr j j1, hpr _ j2]; exact inv.full j j0 (by omega)
    · have hcp : parent c < c := by unfold parent; omega
      have hpp : parent pos < pos := by unfold parent; omega
      rw [hpr c (by omega), hpr _ (by omega)]
      exact (full_hole inv.full pos).1.2 h0 c c0 (by omega) cp
  have hk1 := up_keeps c1 (pos := pos) (by omega)
  obtain ⟨a, b⟩ := up_hole h1
  have hk := hk1.trans (down_keeps hk1.cons (pos := pos) (by rw [hk1.num, hnum]; omega))
  have hf := down_full a b
  have hs : ∀ j, content (rebalanceDown (rebalanceUp q1 pos) pos) j =
      if j = idx then some { d with prio := prio % 2 ^ 32 } else content q j := by
    intro j
    rw [hk.same j id]
    unfold content
    rw [hix]
    by_cases hj : j = idx
    · rw [if_pos hj, hj, hp, Option.map_some, hhp, if_pos rfl]
    · rw [if_neg hj]
      cases hx : q.index j with
      | none => rfl
      | some p =>
        rw [Option.map_some, Option.map_some, hhp, if_neg]
        rintro rfl
        have := (inv.cons.bwd j p id hx).2
        rw [hd, hdi] at this
        exact hj this.symm
  refine ⟨_, rfl, ⟨hk.cons, hf, ?_, ?_, ?_⟩, hs, by rw [hk.num, hnum]⟩
  · rw [hk.num, hnum]; exact inv.num
  · rw [hk.hand, hhand]; exact inv.hand
  · refine out_of_content (out_content inv) (fun j hj => ?_)
    rw [hs, if_neg]
    rintro rfl
    rw [out_content inv j hj] at h; cases h

theorem reachable_inv {M : Nat} (hM : 0 < M) {q : Queue} (h : Reachable M q) : Inv M q := by
  induction h with
  | init =>
    refine ⟨⟨fun p hp => absurd hp (Nat.not_lt_zero p), fun i p _ hi => by cases hi⟩, fun j _ hj => absurd hj (Nat.not_lt_zero j),
      Nat.zero_le _, hM, fun _ _ => rfl⟩
  | @step q q' o _ hs ih =>
    cases o with
    | insert d =>
      by_cases hn : q.num = M
      · simp [apply, insert, hn] at hs
      · obtain ⟨q1, i, e, inv, _⟩ := insert_ok ih d hn
        simp only [apply, e, Option.map_some, Option.some.injEq] at hs
        exact hs ▸ inv
    | extract =>
      simp only [apply, Option.some.injEq] at hs
      by_cases hn : q.num = 0
      · rw [extractMax, if_pos hn] at hs; exact hs ▸ ih
      · obtain ⟨q1, d, e, inv, _⟩ := extract_ok ih hn
        rw [e] at hs; exact hs ▸ inv
    | delete i =>
      cases hx : content q i with
      | none =>
        have hx : q.index i = none := Option.map_eq_none_iff.1 hx
        simp [apply, delete, hx] at hs
      | some d =>
        obtain ⟨q1, e, inv, _⟩ := delete_ok ih hx
        simp only [apply, e, Option.map_some, Option.some.injEq] at hs
        exact hs ▸ inv
    | update i p =>
      cases hx : content q i with
      | none =>
        have hx : q.index i = none := Option.map_eq_none_iff.1 hx
        simp [apply, update, hx] at hs
      | some d =>
        obtain ⟨q1, e, inv, _⟩ := update_ok ih hx p
        simp only [apply, e, Option.some.injEq] at hs
        exact hs ▸ inv

/-- C29, extraction: after any sequence of operations, extracting reports "not found" exactly when the
queue is empty, and otherwise returns an element of the queue whose priority is at least that of every
other, and removes that element only. -/
theorem srq_extract_spec {M : Nat} (hM : 0 < M) {q : Queue} (h : Reachable M q) :
    match extractMax q with
    | (q', none) => q' = q ∧ ∀ i, content q i = none
    | (q', some d) => content q d.idx = some d ∧ (∀ i e, content q i = some e → e.prio ≤ d.prio) ∧
        ∀ i, content q' i = if i = d.idx then none else content q i := by
  have inv := reachable_inv hM h
  by_cases hn : q.num = 0
  · rw [extractMax, if_pos hn]
    refine ⟨rfl, fun i => ?_⟩
    cases hx : content q i with
    | none => rfl
    | some d => obtain ⟨p, _, _, hp, _⟩ := content_some inv hx; omega
  · obtain ⟨q1, d, e, _, h1, h2, h3, _⟩ := extract_ok inv hn
    rw [e]
    refine ⟨h1, fun i e he => ?_, h3⟩
    obtain ⟨p, _, hp, hpn, _⟩ := content_some inv he
    rw [← h2, ← hp]
    exact full_root inv.full p hpn

theorem full_all {M : Nat} {q : Queue} (inv : Inv M q) (hn : q.num = M) : ∀ i, i < M → content q i ≠ none := by
  have himg : (Finset.range M).image (fun p => (q.heap p).idx) = Finset.range M := by
    apply Finset.eq_of_subset_of_card_le
    · intro i hi
      obtain ⟨p, hp, rfl⟩ := Finset.mem_image.1 hi
      exact Finset.mem_range.2 (inv.cons.fwd p (by rw [hn]; exact Finset.mem_range.1 hp)).2.1
    · rw [Finset.card_image_of_injOn]
      intro a ha b hb hab
      have h1 := (inv.cons.fwd a (by rw [hn]; exact Finset.mem_range.1 ha)).2.2
      have h2 := (inv.cons.fwd b (by rw [hn]; exact Finset.mem_range.1 hb)).2.2
      replace hab : (q.heap a).idx = (q.heap b).idx := hab
      rw [hab, h2] at h1
      injection h1 with h1
      exact h1.symm
  intro i hi h
  have : i ∈ (Finset.range M).image (fun p => (q.heap p).idx) := by rw [himg]; exact Finset.mem_range.2 hi
  obtain ⟨p, hp, hpi⟩ := Finset.mem_image.1 this
  have h1 := (inv.cons.fwd p (by rw [hn]; exact Finset.mem_range.1 hp)).2.2
  unfold content at h
  replace hpi : (q.heap p).idx = i := hpi
  rw [← hpi, h1] at h
  cases h

/-- C29, insertion: while some number below `M` is unused it succeeds, gives the element a number no
other element has, and changes nothing else. -/
theorem srq_insert_spec {M : Nat} (hM : 0 < M) {q : Queue} (h : Reachable M q) (d : Data) (hfree : ∃ i, i < M ∧ content q i = none) :
    ∃ q' i, insert M q d = some (q', i) ∧ content q i = none ∧
      ∀ j, content q' j = if j = i then some { d with idx := i } else content q j := by
  have hn : q.num ≠ M := by
    intro hn
    obtain ⟨i, hi, hc⟩ := hfree
    exact full_all (reachable_inv hM h) hn i hi hc
  obtain ⟨q1, i, e, _, h1, _, h3, _⟩ := insert_ok (reachable_inv hM h) d hn
  exact ⟨q1, i, e, h1, h3⟩

/-- C29, deletion: deleting the number of a queued element returns that element and removes it only. -/
theorem srq_delete_spec {M : Nat} (hM : 0 < M) {q : Queue} (h : Reachable M q) {idx : Nat} {d : Data} (hd : content q idx = some d) :
    ∃ q', delete q idx = some (q', d) ∧ ∀ j, content q' j = if j = idx then none else content q j := by
  obtain ⟨q1, e, _, h1, _⟩ := delete_ok (reachable_inv hM h) hd
  exact ⟨q1, e, h1⟩

/-- C29, re-prioritising: only that element changes. The new priority is the caller's reduced modulo
2^32, the parameter being `uint32`. -/
theorem srq_update_spec {M : Nat} (hM : 0 < M) {q : Queue} (h : Reachable M q) {idx : Nat} {d : Data} (hd : content q idx = some d)
    (prio : Nat) :
    ∃ q', update q idx prio = some q' ∧
      ∀ j, content q' j = if j = idx then some { d with prio := prio % 2 ^ 32 } else content q j := by
  obtain ⟨q1, e, _, h1, _⟩ := update_ok (reachable_inv hM h) hd prio
  exact ⟨q1, e, h1⟩

/-- The queue after a list of operations. -/
def run (M : Nat) (q : Queue) : List Op → Option Queue
  | [] => some q
  | o :: os => (apply M q o).bind (fun q' => run M q' os)

theorem run_reachable {M : Nat} {q q' : Queue} (h : Reachable M q) (os : List Op) (hr : run M q os = some q') : Reachable M q' := by
  induction os generalizing q with
  | nil => injection hr with hr; exact hr ▸ h
  | cons o os ih =>
    obtain ⟨q1, h1, h2⟩ := Option.bind_eq_some_iff.1 hr
    exact ih (.step o h h1) h2

/-- Four insertions, a deletion from the middle and a re-prioritisation, in a queue of five numbers. -/
def sample : List Op :=
  [.insert ⟨10, 0, 5, 0⟩, .insert ⟨20, 0, 9, 0⟩, .insert ⟨30, 0, 7, 0⟩, .insert ⟨40, 0, 6, 0⟩, .delete 2, .update 0 8, .update 1 3]

example : ∃ q, Reachable 5 q ∧ (extractMax q).2 = some ⟨10, 0, 8, 0⟩ ∧ content q 2 = none ∧ content q 3 = some ⟨40, 0, 6, 3⟩ :=
  have h : ((run 5 init sample).map fun q => ((extractMax q).2, content q 2, content q 3)) =
      some (some ⟨10, 0, 8, 0⟩, none, some ⟨40, 0, 6, 3⟩) := by decide +kernel
  match hr : run 5 init sample with
  | none => by rw [hr] at h; cases h
  | some q => by
    rw [hr] at h
    simp only [Option.map_some, Option.some.injEq, Prod.mk.injEq] at h
    exact ⟨q, run_reachable .init _ hr, h⟩

/-- A priority of 2^32 or more is cut off when an element is re-prioritised, although insertion keeps it:
the element with by far the most to reclaim is then no longer extracted first. -/
theorem srq_update_truncates : ∃ q q' : Queue, Reachable 5 q ∧ content q 0 = some ⟨10, 0, 2 ^ 32, 0⟩ ∧
    update q 0 (2 ^ 32 + 1) = some q' ∧ (extractMax q').2 = some ⟨20, 0, 9, 1⟩ := by
  have h : ((run 5 init [.insert ⟨10, 0, 2 ^ 32, 0⟩, .insert ⟨20, 0, 9, 0⟩]).map fun q =>
      (content q 0, (update q 0 (2 ^ 32 + 1)).map fun q' => (extractMax q').2)) =
      some (some ⟨10, 0, 2 ^ 32, 0⟩, some (some ⟨20, 0, 9, 1⟩)) := by decide +kernel
  match hr : run 5 init [.insert ⟨10, 0, 2 ^ 32, 0⟩, .insert ⟨20, 0, 9, 0⟩] with
  | none => rw [hr] at h; cases h
  | some q =>
    rw [hr] at h
    simp only [Option.map_some, Option.some.injEq, Prod.mk.injEq] at h
    obtain ⟨h1, h2⟩ := h
    obtain ⟨q', h3, h4⟩ := Option.map_eq_some_iff.1 h2
    exact ⟨q, q', run_reachable .init _ hr, h1, h3, h4⟩

end Splinter.Srq
