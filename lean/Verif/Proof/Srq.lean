import Verif.Model.Srq
import Mathlib.Data.Finset.Card
import Mathlib.Order.Nat
/-! Heap order and index consistency of the space-reclamation queue. -/
namespace Splinter.Srq

theorem upd_self {α : Type} (f : Nat → α) (t : Nat) (p : α) : upd f t p t = p := if_pos rfl
theorem upd_ne {α : Type} (f : Nat → α) {t j : Nat} (p : α) (h : j ≠ t) : upd f t p j = f j := if_neg h

/-- The element number `i` refers to. -/
def content (q : Queue) (i : Nat) : Option Data := (q.index i).map q.heap

/-- The two arrays agree, element numbers `ex` aside. -/
structure Cons (M : Nat) (ex : Nat → Prop) (q : Queue) : Prop where
  fwd : ∀ p, p < q.num → ¬ ex (q.heap p).idx ∧ (q.heap p).idx < M ∧ q.index (q.heap p).idx = some p
  bwd : ∀ i p, ¬ ex i → q.index i = some p → p < q.num ∧ (q.heap p).idx = i

/-- `q'` holds the same elements as `q`. -/
structure Keeps (M : Nat) (ex : Nat → Prop) (q q' : Queue) : Prop where
  cons : Cons M ex q'
  num : q'.num = q.num
  hand : q'.hand = q.hand
  same : ∀ i, ¬ ex i → content q' i = content q i
  ex : ∀ i, ex i → q'.index i = q.index i

theorem Keeps.trans {M : Nat} {ex : Nat → Prop} {a b c : Queue} (h1 : Keeps M ex a b) (h2 : Keeps M ex b c) : Keeps M ex a c :=
  ⟨h2.cons, h2.num.trans h1.num, h2.hand.trans h1.hand, fun i hi => (h2.same i hi).trans (h1.same i hi),
    fun i hi => (h2.ex i hi).trans (h1.ex i hi)⟩

theorem Keeps.refl {M : Nat} {ex : Nat → Prop} {q : Queue} (h : Cons M ex q) : Keeps M ex q q :=
  ⟨h, rfl, rfl, fun _ _ => rfl, fun _ _ => rfl⟩

theorem swap_heap (q : Queue) {l r : Nat} (j : Nat) :
    (swap q l r).heap j = if j = r then q.heap l else if j = l then q.heap r else q.heap j := rfl

theorem swap_index (q : Queue) {l r : Nat} (hne : l ≠ r) (i : Nat) :
    (swap q l r).index i = if i = (q.heap l).idx then some r else if i = (q.heap r).idx then some l else q.index i := by
  have h1 : upd (upd q.heap l (q.heap r)) r (q.heap l) l = q.heap r := by rw [upd_ne _ _ hne, upd_self]
  have h2 : upd (upd q.heap l (q.heap r)) r (q.heap l) r = q.heap l := upd_self _ _ _
  simp only [swap, updateIndex, h1, h2]
  rfl

theorem swap_keeps {M : Nat} {ex : Nat → Prop} {q : Queue} (hc : Cons M ex q) {l r : Nat} (hl : l < q.num) (hr : r < q.num) (hne : l ≠ r) :
    Keeps M ex q (swap q l r) := by
  obtain ⟨l1, l2, l3⟩ := hc.fwd l hl
  obtain ⟨r1, r2, r3⟩ := hc.fwd r hr
  have hid : (q.heap l).idx ≠ (q.heap r).idx := by
    intro h; rw [h, r3] at l3; injection l3 with l3; exact hne l3.symm
  refine ⟨⟨?_, ?_⟩, rfl, rfl, ?_, ?_⟩
  · intro p hp
    rw [swap_num] at hp
    rw [swap_heap]
    by_cases h1 : p = r
    · rw [if_pos h1, swap_index q hne, if_pos rfl]
      exact ⟨l1, l2, by rw [h1]⟩
    · rw [if_neg h1]
      by_cases h2 : p = l
      · rw [if_pos h2, swap_index q hne, if_neg hid.symm, if_pos rfl]
        exact ⟨r1, r2, by rw [h2]⟩
      · rw [if_neg h2]
        obtain ⟨p1, p2, p3⟩ := hc.fwd p hp
        refine ⟨p1, p2, ?_⟩
        rw [swap_index q hne, if_neg, if_neg, p3]
        · intro h; rw [h, r3] at p3; injection p3 with p3; exact h1 p3.symm
        · intro h; rw [h, l3] at p3; injection p3 with p3; exact h2 p3.symm
  · intro i p hi hip
    rw [swap_index q hne] at hip
    rw [swap_num, swap_heap]
    split at hip
    · rename_i h; injection hip with hip; subst hip
      rw [if_pos rfl]; exact ⟨hr, h.symm⟩
    · rename_i h0
      split at hip
      · rename_i h; injection hip with hip; subst hip
        rw [if_neg hne, if_pos rfl]; exact ⟨hl, h.symm⟩
      · rename_i h1
        obtain ⟨p1, p2⟩ := hc.bwd i p hi hip
        rw [if_neg, if_neg]
        · exact ⟨p1, p2⟩
        · rintro rfl; exact h0 p2.symm
        · rintro rfl; exact h1 p2.symm
  · intro i hi
    unfold content
    rw [swap_index q hne]
    by_cases h1 : i = (q.heap l).idx
    · rw [if_pos h1, h1, l3]
      simp only [Option.map_some, swap_heap, if_true]
    · rw [if_neg h1]
      by_cases h2 : i = (q.heap r).idx
      · rw [if_pos h2, h2, r3]
        simp only [Option.map_some, swap_heap, if_neg hne, if_true]
      · rw [if_neg h2]
        cases hx : q.index i with
        | none => rfl
        | some p =>
          obtain ⟨p1, p2⟩ := hc.bwd i p hi hx
          simp only [Option.map_some, swap_heap]
          rw [if_neg, if_neg]
          · rintro rfl; exact h1 p2.symm
          · rintro rfl; exact h2 p2.symm
  · intro i hi
    rw [swap_index q hne, if_neg, if_neg]
    · rintro rfl; exact r1 hi
    · rintro rfl; exact l1 hi

/-! ### Heap order -/

def pr (q : Queue) (j : Nat) : Nat := (q.heap j).prio

theorem swap_pr (q : Queue) (l r j : Nat) : pr (swap q l r) j = if j = r then pr q l else if j = l then pr q r else pr q j := by
  unfold pr
  rw [swap_heap]
  split
  · rfl
  · split <;> rfl

def Ord (q : Queue) (j : Nat) : Prop := pr q j ≤ pr q (parent j)

def Full (q : Queue) : Prop := ∀ j, 0 < j → j < q.num → Ord q j

/-- In order except between `pos` and its neighbours. -/
def Hole (q : Queue) (pos : Nat) : Prop :=
  (∀ j, 0 < j → j < q.num → j ≠ pos → parent j ≠ pos → Ord q j) ∧
  (0 < pos → ∀ c, 0 < c → c < q.num → parent c = pos → pr q c ≤ pr q (parent pos))

theorem hasPriority_iff (q : Queue) (l r : Nat) : hasPriority q l r = true ↔ pr q r < pr q l := by
  unfold hasPriority pr; rw [decide_eq_true_eq]

theorem up_step {q : Queue} {pos : Nat} (h0 : pos ≠ 0) (hp : pr q (parent pos) < pr q pos) (h : Hole q pos) :
    Hole (swap q (parent pos) pos) (parent pos) ∧
    ∀ c, 0 < c → c < q.num → parent c = parent pos → Ord (swap q (parent pos) pos) c := by
  obtain ⟨h1, h2⟩ := h
  have hpp : parent pos < pos := by unfold parent; omega
  refine ⟨⟨?_, ?_⟩, ?_⟩
  · intro j j0 jn j1 j2
    rw [swap_num] at jn
    have jp : j ≠ pos := by rintro rfl; exact j2 rfl
    have jpj : parent j < j := by unfold parent; omega
    unfold Ord
    rw [swap_pr, swap_pr, if_neg jp, if_neg j1]
    by_cases hj : parent j = pos
    · rw [if_pos hj]; exact h2 (by omega) j j0 jn hj
    · rw [if_neg hj, if_neg j2]; exact h1 j j0 jn jp hj
  · intro hpar c c0 cn cp
    rw [swap_num] at cn
    have hq : parent (parent pos) < parent pos := by unfold parent at *; omega
    have ho := h1 (parent pos) hpar (by have : c < q.num := cn; by_cases hh : c = pos; · omega
                                        · unfold parent at *; omega) (by omega) (by omega)
    unfold Ord at ho
    have hcp : parent c < c := by unfold parent; omega
    rw [swap_pr, swap_pr, if_neg (show parent (parent pos) ≠ pos by omega), if_neg (show parent (parent pos) ≠ parent pos by omega)]
    by_cases hc : c = pos
    · rw [if_pos hc]; exact ho
    · rw [if_neg hc, if_neg (show c ≠ parent pos by omega)]
      have := h1 c c0 cn hc (by omega)
      unfold Ord at this
      rw [cp] at this
      omega
  · intro c c0 cn cp
    have hcp : parent c < c := by unfold parent; omega
    unfold Ord
    rw [swap_pr, swap_pr, cp, if_neg (show parent pos ≠ pos by omega), if_pos rfl]
    by_cases hc : c = pos
    · rw [if_pos hc]; omega
    · rw [if_neg hc, if_neg (show c ≠ parent pos by omega)]
      have := h1 c c0 cn hc (by omega)
      unfold Ord at this
      rw [cp] at this
      omega

theorem up_full {q : Queue} {pos : Nat} (h : Hole q pos) (hc : ∀ c, 0 < c → c < q.num → parent c = pos → Ord q c) :
    Full (rebalanceUp q pos) := by
  fun_induction rebalanceUp q pos with
  | case1 q pos hh ih =>
    obtain ⟨h0, h1⟩ := hh
    rw [hasPriority_iff] at h1
    obtain ⟨a, b⟩ := up_step h0 h1 h
    exact ih a b
  | case2 q pos hh =>
    intro j j0 jn
    by_cases hj : j = pos
    · subst hj
      rw [hasPriority_iff] at hh
      unfold Ord
      by_contra hlt
      exact hh ⟨by omega, by omega⟩
    · by_cases hp : parent j = pos
      · exact hc j j0 jn hp
      · exact h.1 j j0 jn hj hp

theorem full_hole {q : Queue} (h : Full q) (pos : Nat) : Hole q pos ∧ (0 < pos → pos < q.num → Ord q pos) := by
  refine ⟨⟨fun j j0 jn _ _ => h j j0 jn, ?_⟩, fun h0 hn => h pos h0 hn⟩
  intro h0 c c0 cn cp
  have h1 := h c c0 cn
  have h2 := h pos h0 (by have : parent c < c := by unfold parent; omega
                          omega)
  unfold Ord at h1 h2
  rw [cp] at h1
  omega

/-- After `srq_rebalance_up` from a hole, only the order below the hole may still be violated. -/
theorem up_hole {q : Queue} {pos : Nat} (h : Hole q pos) :
    Hole (rebalanceUp q pos) pos ∧ (0 < pos → pos < (rebalanceUp q pos).num → Ord (rebalanceUp q pos) pos) := by
  rw [rebalanceUp]
  split
  · rename_i hh
    obtain ⟨h0, h1⟩ := hh
    rw [hasPriority_iff] at h1
    obtain ⟨a, b⟩ := up_step h0 h1 h
    exact full_hole (up_full a b) pos
  · rename_i hh
    refine ⟨h, fun h0 _ => ?_⟩
    rw [hasPriority_iff] at hh
    unfold Ord
    by_contra hlt
    exact hh ⟨by omega, by omega⟩

theorem parent_cases {c pos : Nat} (h0 : 0 < c) (h : parent c = pos) : c = lchild pos ∨ c = rchild pos := by
  unfold parent at h; unfold lchild rchild; omega

theorem downChild_spec {q : Queue} {pos : Nat} (h : downGo q pos = true) :
    parent (downChild q pos) = pos ∧ 0 < downChild q pos ∧ pr q pos < pr q (downChild q pos) ∧
    ∀ c, 0 < c → c < q.num → parent c = pos → pr q c ≤ pr q (downChild q pos) := by
  unfold downGo at h
  rw [Bool.or_eq_true, Bool.and_eq_true, Bool.and_eq_true, decide_eq_true_eq, decide_eq_true_eq, hasPriority_iff, hasPriority_iff] at h
  unfold downChild
  split
  · rename_i h2
    rw [Bool.or_eq_true, decide_eq_true_eq, hasPriority_iff] at h2
    refine ⟨by unfold parent lchild; omega, by unfold lchild; omega, by omega, ?_⟩
    intro c c0 cn cp
    rcases parent_cases c0 cp with rfl | rfl <;> omega
  · rename_i h2
    rw [Bool.or_eq_true, decide_eq_true_eq, hasPriority_iff] at h2
    refine ⟨by unfold parent rchild; omega, by unfold rchild; omega, by omega, ?_⟩
    intro c c0 cn cp
    rcases parent_cases c0 cp with rfl | rfl <;> omega

theorem down_full {q : Queue} {pos : Nat} (h : Hole q pos) (ho : 0 < pos → pos < q.num → Ord q pos) : Full (rebalanceDown q pos) := by
  fun_induction rebalanceDown q pos with
  | case1 q pos hh ih =>
    obtain ⟨h1, h2⟩ := h
    obtain ⟨c1, c0, c2, c3⟩ := downChild_spec hh
    obtain ⟨c4, c5⟩ := downChild_lt hh
    generalize downChild q pos = c at *
    refine ih ⟨?_, ?_⟩ ?_
    · intro j j0 jn j1 j2
      rw [swap_num] at jn
      have jpj : parent j < j := by unfold parent; omega
      unfold Ord
      rw [swap_pr, swap_pr, if_neg j1, if_neg j2]
      by_cases hj : j = pos
      · subst hj
        rw [if_pos rfl, if_neg (by omega)]
        exact h2 j0 c c0 c5 c1
      · rw [if_neg hj]
        by_cases hp : parent j = pos
        · rw [if_pos hp]; exact c3 j j0 jn hp
        · rw [if_neg hp]; exact h1 j j0 jn hj hp
    · intro _ g g0 gn gp
      rw [swap_num] at gn
      have gpg : parent g < g := by unfold parent; omega
      rw [swap_pr, swap_pr, c1, if_neg (show g ≠ c by omega), if_neg (show g ≠ pos by omega), if_neg (show pos ≠ c by omega), if_pos rfl]
      have := h1 g g0 gn (by omega) (by omega)
      unfold Ord at this
      rw [gp] at this
      exact this
    · intro _ _
      unfold Ord
      rw [swap_pr, swap_pr, c1, if_pos rfl, if_neg (show pos ≠ c by omega), if_pos rfl]
      omega
  | case2 q pos hh =>
    intro j j0 jn
    by_cases hj : j = pos
    · subst hj; exact ho j0 jn
    · by_cases hp : parent j = pos
      · unfold downGo at hh
        rw [Bool.or_eq_true, Bool.and_eq_true, Bool.and_eq_true, decide_eq_true_eq, decide_eq_true_eq, hasPriority_iff, hasPriority_iff]
          at hh
        unfold Ord
        rw [hp]
        rcases parent_cases j0 hp with rfl | rfl <;> omega
      · exact h.1 j j0 jn hj hp

theorem full_root {q : Queue} (h : Full q) (j : Nat) (hj : j < q.num) : pr q j ≤ pr q 0 := by
  induction j using Nat.strongRecOn with
  | ind j ih =>
    by_cases h0 : j = 0
    · rw [h0]
    · have h1 := h j (by omega) hj
      have h2 : parent j < j := by unfold parent; omega
      have h3 := ih (parent j) h2 (by omega)
      unfold Ord at h1
      omega

theorem up_keeps {M : Nat} {ex : Nat → Prop} {q : Queue} {pos : Nat} (hc : Cons M ex q) (hp : pos < q.num) :
    Keeps M ex q (rebalanceUp q pos) := by
  fun_induction rebalanceUp q pos with
  | case1 q pos hh ih =>
    have hlt : parent pos < pos := by unfold parent; omega
    have hk := swap_keeps hc (l := parent pos) (r := pos) (by omega) hp (by omega)
    exact hk.trans (ih hk.cons (by rw [hk.num]; omega))
  | case2 q pos hh => exact Keeps.refl hc

theorem down_keeps {M : Nat} {ex : Nat → Prop} {q : Queue} {pos : Nat} (hc : Cons M ex q) (hp : pos < q.num ∨ q.num = 0) :
    Keeps M ex q (rebalanceDown q pos) := by
  fun_induction rebalanceDown q pos with
  | case1 q pos hh ih =>
    have h2 := downChild_lt hh
    have hk := swap_keeps hc (l := pos) (r := downChild q pos) (by omega) (by omega) (by omega)
    exact hk.trans (ih hk.cons (by rw [hk.num]; omega))
  | case2 q pos hh => exact Keeps.refl hc

/-! ### Removing the element at a position -/

/-- Consistent up to the element at `pos`, whose number is `idx`. -/
structure Minus (M : Nat) (q : Queue) (pos : Nat) : Prop where
  fwd : ∀ p, p < q.num → p ≠ pos → (q.heap p).idx ≠ (q.heap pos).idx ∧ (q.heap p).idx < M ∧ q.index (q.heap p).idx = some p
  bwd : ∀ i p, i ≠ (q.heap pos).idx → q.index i = some p → p < q.num ∧ (q.heap p).idx = i

theorem moveTail_spec {M : Nat} {q : Queue} {pos : Nat} (hm : Minus M q pos) (hp : pos < q.num) :
    Cons M (· = (q.heap pos).idx) (moveTail q pos) ∧ (moveTail q pos).num = q.num - 1 ∧ (moveTail q pos).hand = q.hand ∧
    (∀ i, i ≠ (q.heap pos).idx → content (moveTail q pos) i = content q i) ∧
    (pos ≠ q.num - 1 → (moveTail q pos).index (q.heap pos).idx = q.index (q.heap pos).idx) ∧
    (∀ j, j ≠ pos → (moveTail q pos).heap j = q.heap j) := by
  unfold moveTail
  by_cases h0 : q.num - 1 = 0
  · rw [if_neg (by simpa using h0)]
    have hpos : pos = 0 := by omega
    refine ⟨⟨fun p hpp => ?_, fun i p hi hip => ?_⟩, rfl, rfl, fun _ _ => rfl, fun _ => rfl, fun _ _ => rfl⟩
    · exact absurd hpp (by show ¬ p < q.num - 1; omega)
    · obtain ⟨a, b⟩ := hm.bwd i p hi hip
      have : p = pos := by omega
      subst this
      exact absurd b.symm hi
  · rw [if_pos (by simpa using h0)]
    obtain ⟨n, hn⟩ : ∃ n, q.num = n + 1 := ⟨q.num - 1, by omega⟩
    simp only [updateIndex, upd_self, hn, Nat.add_sub_cancel]
    by_cases ht : pos = n
    · subst ht
      have hheap : upd q.heap pos (q.heap pos) = q.heap := by
        funext j; unfold upd; split
        · rename_i h; rw [h]
        · rfl
      rw [hheap]
      refine ⟨⟨fun p hpp => ?_, fun i p hi hip => ?_⟩, trivial, trivial, fun i hi => ?_, fun h => absurd rfl h, fun _ _ => rfl⟩
      · have hpp : p < pos := hpp
        obtain ⟨a, b, c⟩ := hm.fwd p (by omega) (by omega)
        exact ⟨a, b, by show upd _ _ _ _ = _; rw [upd_ne _ _ a]; exact c⟩
      · replace hip : upd q.index (q.heap pos).idx (some pos) i = some p := hip
        rw [upd_ne _ _ hi] at hip
        obtain ⟨a, b⟩ := hm.bwd i p hi hip
        refine ⟨?_, b⟩
        show p < pos
        have : p ≠ pos := by rintro rfl; exact hi b.symm
        omega
      · unfold content
        show (upd _ _ _ _ : Option Nat).map q.heap = _
        rw [upd_ne _ _ hi]
    · obtain ⟨t1, t2, t3⟩ := hm.fwd n (by omega) (by omega)
      refine ⟨⟨fun p hpp => ?_, fun i p hi hip => ?_⟩, trivial, trivial, fun i hi => ?_, fun _ => ?_, fun j hj => ?_⟩
      · have hpp : p < n := hpp
        by_cases hpe : p = pos
        · subst hpe
          simp only [upd_self]
          exact ⟨t1, t2, trivial⟩
        · simp only [upd_ne _ _ hpe]
          obtain ⟨a, b, c⟩ := hm.fwd p (by omega) hpe
          refine ⟨a, b, ?_⟩
          rw [upd_ne]
          · exact c
          · intro h; rw [h, t3] at c; injection c with c; omega
      · replace hip : upd q.index (q.heap n).idx (some pos) i = some p := hip
        show p < n ∧ (upd q.heap pos (q.heap n) p).idx = i
        by_cases hi' : i = (q.heap n).idx
        · rw [hi', upd_self] at hip
          injection hip with hip; subst hip
          rw [upd_self]; exact ⟨by omega, hi'.symm⟩
        · rw [upd_ne _ _ hi'] at hip
          obtain ⟨a, b⟩ := hm.bwd i p hi hip
          have h1 : p ≠ pos := by rintro rfl; exact hi b.symm
          have h2 : p ≠ n := by rintro rfl; exact hi' b.symm
          rw [upd_ne _ _ h1]
          exact ⟨by omega, b⟩
      · unfold content
        show (upd q.index (q.heap n).idx (some pos) i).map (upd q.heap pos (q.heap n)) = _
        by_cases hi' : i = (q.heap n).idx
        · subst hi'; rw [upd_self, t3]; simp only [Option.map_some, upd_self]
        · rw [upd_ne _ _ hi']
          cases hx : q.index i with
          | none => rfl
          | some p =>
            obtain ⟨a, b⟩ := hm.bwd i p hi hx
            have h1 : p ≠ pos := by rintro rfl; exact hi b.symm
            simp only [Option.map_some, upd_ne _ _ h1]
      · show upd q.index (q.heap n).idx (some pos) (q.heap pos).idx = _
        rw [upd_ne _ _ (Ne.symm t1)]
      · show upd q.heap pos (q.heap n) j = _
        rw [upd_ne _ _ hj]

theorem moveTail_hole {q : Queue} {pos : Nat} (hf : Full q) (hp : pos < q.num) (hnum : (moveTail q pos).num = q.num - 1)
    (hh : ∀ j, j ≠ pos → (moveTail q pos).heap j = q.heap j) : Hole (moveTail q pos) pos := by
  have hpr : ∀ j, j ≠ pos → pr (moveTail q pos) j = pr q j := by intro j hj; unfold pr; rw [hh j hj]
  refine ⟨fun j j0 jn j1 j2 => ?_, fun h0 c c0 cn cp => ?_⟩
  · unfold Ord
    rw [hpr j j1, hpr _ j2]
    exact hf j j0 (by omega)
  · have hcp : parent c < c := by unfold parent; omega
    have hpp : parent pos < pos := by unfold parent; omega
    rw [hpr c (by omega), hpr _ (by omega)]
    exact (full_hole hf pos).1.2 h0 c c0 (by omega) cp

/-! ### Finding a number -/

theorem newIndex_some {M : Nat} {index : Nat → Option Nat} {hand fuel i : Nat} (h : newIndex M index hand fuel = some i) (hh : hand < M) :
    index i = none ∧ i < M := by
  induction fuel generalizing hand with
  | zero => cases h
  | succ n ih =>
    unfold newIndex at h
    split at h
    · exact ih h (Nat.mod_lt _ (by omega))
    · rename_i hs
      injection h with h
      subst h
      exact ⟨by simpa using hs, hh⟩

theorem newIndex_none {M : Nat} {index : Nat → Option Nat} {hand fuel : Nat} (h : newIndex M index hand fuel = none) (hh : hand < M) :
    ∀ k, k < fuel → (index ((hand + k) % M)).isSome = true := by
  induction fuel generalizing hand with
  | zero => intro k hk; omega
  | succ n ih =>
    intro k hk
    unfold newIndex at h
    split at h
    · rename_i hs
      cases k with
      | zero => rw [Nat.add_zero, Nat.mod_eq_of_lt hh]; exact hs
      | succ k =>
        have := ih h (Nat.mod_lt _ (by omega)) k (by omega)
        rw [Nat.mod_add_mod, Nat.add_assoc, Nat.add_comm 1 k] at this
        exact this
    · cases h

theorem newIndex_exists {M : Nat} {q : Queue} (hc : Cons M (fun _ => False) q) (hh : q.hand < M) (hn : q.num < M) :
    ∃ i, newIndex M q.index q.hand M = some i := by
  cases h : newIndex M q.index q.hand M with
  | some i => exact ⟨i, rfl⟩
  | none =>
    exfalso
    have hall : ∀ i, i < M → (q.index i).isSome = true := by
      intro i hi
      have := newIndex_none h hh ((i + M - q.hand) % M) (Nat.mod_lt _ (by omega))
      rw [Nat.add_mod_mod, show q.hand + (i + M - q.hand) = i + M by omega, Nat.add_mod_right, Nat.mod_eq_of_lt hi] at this
      exact this
    have hcard := Finset.card_le_card_of_injOn (s := Finset.range M) (t := Finset.range q.num) (fun i => (q.index i).getD 0) ?_ ?_
    · rw [Finset.card_range, Finset.card_range] at hcard; omega
    · intro i hi
      have hi := hall i (Finset.mem_range.1 hi)
      obtain ⟨p, hp⟩ := Option.isSome_iff_exists.1 hi
      show (q.index i).getD 0 ∈ _
      rw [hp]
      exact Finset.mem_coe.2 (Finset.mem_range.2 (hc.bwd i p id hp).1)
    · intro i hi j hj hij
      obtain ⟨p, hp⟩ := Option.isSome_iff_exists.1 (hall i (Finset.mem_range.1 hi))
      obtain ⟨p', hp'⟩ := Option.isSome_iff_exists.1 (hall j (Finset.mem_range.1 hj))
      simp only [hp, hp', Option.getD_some] at hij
      subst hij
      rw [← (hc.bwd i p id hp).2, ← (hc.bwd j p id hp').2]

end Splinter.Srq
