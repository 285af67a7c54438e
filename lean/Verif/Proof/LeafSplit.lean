import Verif.Props.Page
import Verif.Model.LeafSplit
import Mathlib.Order.Interval.Finset.Nat
import Mathlib.Algebra.BigOperators.Group.Finset.Basic
import Mathlib.Algebra.BigOperators.Fin
/-!
Splitting a leaf: space accounting, the splitting plan, and copying of entries.
-/
namespace Splinter.Page

/-! ### Space -/

/-- Space an entry takes: its bytes and its slot in the offset table. -/
def wt (e : Tuple) : Nat := leafFmt.cap e + 2

def wts (l : List Tuple) : Nat := (l.map wt).sum

theorem wts_nil : wts [] = 0 := rfl
theorem wts_cons (e : Tuple) (l : List Tuple) : wts (e :: l) = wt e + wts l := by simp [wts]
theorem wts_append (a b : List Tuple) : wts (a ++ b) = wts a + wts b := by simp [wts]

theorem wt_pos (e : Tuple) : 8 ≤ wt e := by unfold wt leafFmt; simp only; omega

/-- Disjoint intervals inside `[lo, hi)` have total length at most `hi - lo`. -/
theorem sum_disjoint (n lo hi : Nat) (o s : Nat → Nat) (hlo : ∀ i, i < n → lo ≤ o i) (hhi : ∀ i, i < n → o i + s i ≤ hi)
    (hd : ∀ i j, i < n → j < n → i ≠ j → o i + s i ≤ o j ∨ o j + s j ≤ o i) :
    ((List.range n).map s).sum ≤ hi - lo := by
  have h1 : ((List.range n).map s).sum = ∑ i ∈ Finset.range n, s i := by
    induction n with
    | zero => rfl
    | succ n ih =>
      rw [List.range_succ, Finset.sum_range_succ, List.map_append, List.sum_append,
        ih (fun i h => hlo i (by omega)) (fun i h => hhi i (by omega)) (fun i j h1 h2 => hd i j (by omega) (by omega))]
      simp
  have h2 : ∑ i ∈ Finset.range n, s i = ((Finset.range n).biUnion (fun i => Finset.Ico (o i) (o i + s i))).card := by
    rw [Finset.card_biUnion]
    · refine Finset.sum_congr rfl (fun i _ => ?_)
      rw [Nat.card_Ico]; omega
    · intro i hi j hj hij
      have hi := Finset.mem_range.1 hi
      have hj := Finset.mem_range.1 hj
      rw [Function.onFun, Finset.disjoint_left]
      intro x hx hx'
      rw [Finset.mem_Ico] at hx hx'
      rcases hd i j hi hj hij with h | h <;> omega
  have h3 : (Finset.range n).biUnion (fun i => Finset.Ico (o i) (o i + s i)) ⊆ Finset.Ico lo hi := by
    intro x hx
    rw [Finset.mem_biUnion] at hx
    obtain ⟨i, hi, hx⟩ := hx
    have hi := Finset.mem_range.1 hi
    rw [Finset.mem_Ico] at hx ⊢
    have := hlo i hi
    have := hhi i hi
    omega
  have h4 := Finset.card_le_card h3
  rw [Nat.card_Ico] at h4
  omega

theorem cap_entry (m : Mem) (i : Nat) : leafFmt.cap (entry leafFmt m i) = entrySize m i := leaf_laws.cap_read m _

theorem wts_le_add {l : List Tuple} : wts l = (l.map leafFmt.cap).sum + 2 * l.length := by
  induction l with
  | nil => rfl
  | cons e l ih => rw [wts_cons, ih, wt]; simp; omega

/-- The entries of a well-formed page fit between header and page end. -/
theorem wts_entries {ps : Nat} {m : Mem} (w : WF leafFmt ps m) : wts (entries leafFmt m) + 37 ≤ ps := by
  have h1 := sum_disjoint (numEntries m) (nextEntry m) ps (offset m) (entrySize m) w.low w.high
    w.apart
  have h2 : ((entries leafFmt m).map leafFmt.cap).sum = ((List.range (numEntries m)).map (entrySize m)).sum := by
    unfold entries
    rw [List.map_map]
    congr 1
    exact List.map_congr_left (fun i _ => cap_entry m i)
  rw [wts_le_add, entries_length, h2]
  have := w.room
  have := w.next
  unfold tableEnd at *
  omega

theorem entry_ok (m : Mem) (i : Nat) : TupleOk (entry leafFmt m i) := leaf_laws.valid_read m _

theorem entries_ok {m : Mem} : ∀ e ∈ entries leafFmt m, TupleOk e := by
  intro e he
  unfold entries at he
  rw [List.mem_map] at he
  obtain ⟨i, _, rfl⟩ := he
  exact entry_ok m i

/-- No space is lost on the page. -/
def Packed (ps : Nat) (m : Mem) : Prop := nextEntry m + wts (entries leafFmt m) = ps + 2 * numEntries m

theorem canSet_num {m : Mem} {e : Tuple} :
    canSetLeaf m (numEntries m) e = true ↔ tableEnd (numEntries m + 1) + leafFmt.cap e ≤ nextEntry m := by
  unfold canSetLeaf
  rw [if_neg (by omega), if_neg (by omega)]
  simp only [Nat.lt_irrefl, if_false]
  split
  · constructor
    · intro h; cases h
    · intro h; omega
  · constructor
    · intro; omega
    · intro; rfl

theorem Packed.can {ps : Nat} {m : Mem} {e : Tuple} (h : Packed ps m)
    (hf : wts (entries leafFmt m) + wt e + 37 ≤ ps) : canSetLeaf m (numEntries m) e = true := by
  rw [canSet_num]
  unfold Packed at h
  unfold wt at hf
  unfold tableEnd
  omega

/-- Appending an entry to a packed page with room. -/
theorem append_spec {ps : Nat} {m : Mem} {e : Tuple} (w : WF leafFmt ps m) (hp : Packed ps m) (hv : TupleOk e)
    (hf : wts (entries leafFmt m) + wt e + 37 ≤ ps) :
    ∃ m', setLeaf m (numEntries m) e = some (m', true) ∧ WF leafFmt ps m' ∧ Packed ps m' ∧
      entries leafFmt m' = entries leafFmt m ++ [e] ∧ Frame ps m m' := by
  have hc := canSet_num.1 (hp.can hf)
  have e1 : setLeaf m (numEntries m) e = place leafFmt m (numEntries m) e := by
    unfold setLeaf; rw [if_neg (by omega), if_pos (Nat.le_refl _)]
  obtain ⟨m', p1, p2, p3, p4, p5⟩ := place_outcome leaf_laws (m0 := m) (w.toX (numEntries m)) (Nat.le_refl _) hv rfl
    (fun _ _ _ => rfl) (fun _ _ => rfl) (by rw [newNum_of_le (Nat.le_refl _), if_neg (by omega)]; exact hc)
  rw [setAt, entries_length, if_neg (by omega)] at p3
  refine ⟨m', e1.trans p1, p2, ?_, p3, p5⟩
  have hn := congrArg List.length p3
  rw [List.length_append, entries_length, entries_length] at hn
  unfold Packed at hp ⊢
  rw [p3, p4, wts_append, wts_cons, wts_nil, hn]
  unfold wt tableEnd at *
  simp only [List.length_cons, List.length_nil] at *
  omega

/-- Entries `i …` of a list without the one at `idx`, if it is being replaced. -/
def keep (idx : Nat) (old : Old) (l : List Tuple) (i : Nat) : List Tuple :=
  if old = .stillExists ∧ i ≤ idx then (l.drop i).eraseIdx (idx - i) else l.drop i

theorem copyFrom_spec {ps : Nat} {src : Mem} {idx : Nat} (i dst : Nat) (old : Old) (r : Mem)
    (hi : i ≤ numEntries src) (w : WF leafFmt ps r) (hp : Packed ps r) (hd : dst = numEntries r)
    (hx : old = .stillExists → idx < numEntries src)
    (hf : wts (entries leafFmt r) + wts (keep idx old (entries leafFmt src) i) + 37 ≤ ps) :
    ∃ r', copyFrom src idx (numEntries src) i dst old r =
        some (r', if old = .stillExists ∧ i ≤ idx then .removed else old) ∧
      WF leafFmt ps r' ∧ Packed ps r' ∧
      entries leafFmt r' = entries leafFmt r ++ keep idx old (entries leafFmt src) i ∧ Frame ps r r' := by
  obtain ⟨n, hn⟩ : ∃ n, n = numEntries src - i := ⟨_, rfl⟩
  induction n generalizing i dst old r with
  | zero =>
    have hin : i = numEntries src := by omega
    have hlen : (entries leafFmt src).drop i = [] := by
      rw [List.drop_eq_nil_iff, entries_length]; omega
    have hneg : ¬ (old = .stillExists ∧ i ≤ idx) := by
      rintro ⟨h1, h2⟩
      have := hx h1
      omega
    rw [copyFrom, if_neg (by omega), if_neg hneg]
    refine ⟨r, rfl, w, hp, ?_, fun _ _ => rfl⟩
    rw [keep, if_neg hneg, hlen, List.append_nil]
  | succ n ih =>
    have hin : i < numEntries src := by omega
    have hlt : i < (entries leafFmt src).length := by rw [entries_length]; exact hin
    have hdrop : (entries leafFmt src).drop i = entry leafFmt src i :: (entries leafFmt src).drop (i + 1) := by
      rw [List.drop_eq_getElem_cons hlt, entries_getElem]
    rw [copyFrom, if_pos hin]
    by_cases hs : old = .stillExists ∧ i = idx
    · obtain ⟨rfl, rfl⟩ := hs
      have hk : keep i .stillExists (entries leafFmt src) i = keep i .removed (entries leafFmt src) (i + 1) := by
        unfold keep
        rw [if_pos ⟨rfl, Nat.le_refl _⟩, if_neg (by simp), hdrop]
        simp
      rw [if_pos ⟨rfl, rfl⟩, hk]
      rw [hk] at hf
      obtain ⟨r', h1, h2⟩ := ih (i + 1) dst .removed r (by omega) w hp hd (by simp) hf (by omega)
      refine ⟨r', ?_, h2⟩
      rw [h1, if_neg (by simp), if_pos ⟨rfl, Nat.le_refl _⟩]
    · have hk : keep idx old (entries leafFmt src) i =
          entry leafFmt src i :: keep idx old (entries leafFmt src) (i + 1) := by
        unfold keep
        rw [hdrop]
        by_cases h1 : old = .stillExists ∧ i ≤ idx
        · have h2 : i + 1 ≤ idx := by
            have : i ≠ idx := fun h => hs ⟨h1.1, h⟩
            omega
          rw [if_pos h1, if_pos ⟨h1.1, h2⟩]
          have : idx - i = (idx - (i + 1)) + 1 := by omega
          rw [this, List.eraseIdx_cons_succ]
        · rw [if_neg h1, if_neg (fun h => h1 ⟨h.1, by omega⟩)]
      rw [if_neg hs]
      rw [hk, wts_cons] at hf
      obtain ⟨r1, a1, a2, a3, a4, a5⟩ := append_spec w hp (entry_ok src i) (by omega)
      rw [hd, a1]
      have hl := congrArg List.length a4
      rw [List.length_append, entries_length, entries_length] at hl
      obtain ⟨r', h1, h2, h3, h4, h5⟩ := ih (i + 1) (numEntries r + 1) old r1 (by omega) a2 a3 (by simp at hl; omega) hx
        (by rw [a4, wts_append, wts_cons, wts_nil]; omega) (by omega)
      refine ⟨r', ?_, h2, h3, ?_, fun x hx => (h5 x hx).trans (a5 x hx)⟩
      · simp only
        rw [h1]
        congr 2
        by_cases h6 : old = .stillExists ∧ i ≤ idx
        · rw [if_pos h6, if_pos ⟨h6.1, by
            have : i ≠ idx := fun h => hs ⟨h6.1, h⟩
            omega⟩]
        · rw [if_neg h6, if_neg (fun h => h6 ⟨h.1, by omega⟩)]
      · rw [h4, a4, hk, List.append_assoc]; rfl

/-! ### The plan -/

/-- How many entries of a list with the given weights the plan moves to the left. -/
def greedy (total left : Nat) : List Nat → Nat
  | [] => 0
  | x :: xs => if left + x < (total + x) / 2 then greedy total (left + x) xs + 1 else 0

theorem greedy_le (t l : Nat) (xs : List Nat) : greedy t l xs ≤ xs.length := by
  induction xs generalizing l with
  | nil => exact Nat.le_refl _
  | cons x xs ih =>
    rw [greedy]
    split
    · have := ih (l + x); simp; omega
    · simp

theorem greedy_append (t l : Nat) (xs ys : List Nat) :
    greedy t l (xs ++ ys) = if greedy t l xs = xs.length then xs.length + greedy t (l + xs.sum) ys else greedy t l xs := by
  induction xs generalizing l with
  | nil => simp [greedy]
  | cons x xs ih =>
    rw [List.cons_append, greedy, greedy]
    split
    · rw [ih (l + x), List.length_cons, List.sum_cons, Nat.add_assoc l]
      by_cases h : greedy t (l + x) xs = xs.length
      · rw [if_pos h, if_pos (by omega)]; omega
      · rw [if_neg h, if_neg (by omega)]
    · rw [if_neg (by simp)]

/-- The last weight moved to the left. -/
theorem greedy_last (t l : Nat) (xs : List Nat) (h : 0 < greedy t l xs) :
    ∃ x ∈ xs, x ≤ (xs.take (greedy t l xs)).sum ∧ l + (xs.take (greedy t l xs)).sum < (t + x) / 2 := by
  induction xs generalizing l with
  | nil => simp [greedy] at h
  | cons x xs ih =>
    rw [greedy] at h ⊢
    split
    · rename_i hx
      by_cases h0 : 0 < greedy t (l + x) xs
      · obtain ⟨y, hy, h1, h2⟩ := ih (l + x) h0
        refine ⟨y, List.mem_cons_of_mem _ hy, ?_, ?_⟩ <;> rw [List.take_succ_cons, List.sum_cons] <;> omega
      · have : greedy t (l + x) xs = 0 := by omega
        rw [this]
        exact ⟨x, List.mem_cons_self, by simp, by simpa using hx⟩
    · rename_i hx
      rw [if_neg hx] at h; omega

/-- The first weight that stays. -/
theorem greedy_stop (t l : Nat) (xs : List Nat) (h : greedy t l xs < xs.length) :
    ∃ x ∈ xs, (t + x) / 2 ≤ l + (xs.take (greedy t l xs)).sum + x := by
  induction xs generalizing l with
  | nil => simp at h
  | cons x xs ih =>
    rw [greedy] at h ⊢
    split
    · rename_i hx
      rw [if_pos hx, List.length_cons] at h
      obtain ⟨y, hy, h1⟩ := ih (l + x) (by omega)
      refine ⟨y, List.mem_cons_of_mem _ hy, ?_⟩
      rw [List.take_succ_cons, List.sum_cons]; omega
    · rename_i hx
      exact ⟨x, List.mem_cons_self, by simp; omega⟩

theorem le_sum {xs : List Nat} {x : Nat} (h : x ∈ xs) : x ≤ xs.sum := by
  induction xs with
  | nil => cases h
  | cons y ys ih =>
    rw [List.sum_cons]
    rcases List.mem_cons.1 h with rfl | h
    · omega
    · have := ih h; omega

/-- What the plan guarantees for weights of at most half the page, of which at most
one page and a half is to be distributed. -/
theorem greedy_bounds {H : Nat} {xs : List Nat} (hx : ∀ x ∈ xs, 8 ≤ x ∧ 2 * x ≤ H) (ht : 2 * xs.sum ≤ 3 * H) (h2 : 2 ≤ xs.length) :
    0 < greedy xs.sum 0 xs ∧ greedy xs.sum 0 xs < xs.length ∧
    (xs.take (greedy xs.sum 0 xs)).sum ≤ H ∧ (xs.drop (greedy xs.sum 0 xs)).sum ≤ H := by
  have hsum : (xs.take (greedy xs.sum 0 xs)).sum + (xs.drop (greedy xs.sum 0 xs)).sum = xs.sum := by
    rw [← List.sum_append, List.take_append_drop]
  have hle := greedy_le xs.sum 0 xs
  have hpos : 0 < greedy xs.sum 0 xs := by
    match xs, h2, hx with
    | x :: y :: ys, _, hx =>
      rw [greedy]
      have h1 := (hx y (by simp)).1
      rw [if_pos (by simp only [List.sum_cons]; omega)]
      omega
  obtain ⟨x, hxm, h3, h4⟩ := greedy_last _ _ _ hpos
  have hlt : greedy xs.sum 0 xs < xs.length := by
    refine Nat.lt_of_le_of_ne hle (fun h => ?_)
    rw [h, List.take_length] at h4
    have := le_sum hxm
    omega
  obtain ⟨y, hym, h5⟩ := greedy_stop _ _ _ hlt
  have := hx x hxm
  have := hx y hym
  refine ⟨hpos, hlt, by omega, by omega⟩

theorem planMore_spec (m : Mem) (mx t l sp : Nat) (h1 : sp ≤ mx) (h2 : mx ≤ numEntries m) :
    planMore m mx t l sp =
      let ws := ((((entries leafFmt m).take mx).drop sp).map wt)
      (l + (ws.take (greedy t l ws)).sum, sp + greedy t l ws) := by
  obtain ⟨n, hn⟩ : ∃ n, n = mx - sp := ⟨_, rfl⟩
  induction n generalizing sp l with
  | zero =>
    have : ((entries leafFmt m).take mx).drop sp = [] := by
      rw [List.drop_eq_nil_iff, List.length_take]; omega
    rw [planMore, if_neg (by omega), this]
    simp [greedy]
  | succ n ih =>
    have hlt : sp < ((entries leafFmt m).take mx).length := by rw [List.length_take, entries_length]; omega
    have hdrop : ((entries leafFmt m).take mx).drop sp =
        entry leafFmt m sp :: ((entries leafFmt m).take mx).drop (sp + 1) := by
      rw [List.drop_eq_getElem_cons hlt, List.getElem_take, entries_getElem]
    have hw : wt (entry leafFmt m sp) = entrySize m sp + 2 := by rw [wt, cap_entry]
    rw [planMore, hdrop]
    simp only [List.map_cons, greedy, hw, mostOnLeft]
    have e1 : l + 2 + entrySize m sp = l + (entrySize m sp + 2) := by omega
    have e2 : t + 2 + entrySize m sp = t + (entrySize m sp + 2) := by omega
    simp only [e1, e2]
    by_cases h : l + (entrySize m sp + 2) < (t + (entrySize m sp + 2)) / 2
    · rw [if_pos ⟨by omega, by simpa using h⟩, if_pos h, ih (l + (entrySize m sp + 2)) (sp + 1) (by omega) (by omega)]
      simp only [List.take_succ_cons, List.sum_cons]
      congr 1 <;> omega
    · rw [if_neg (by simp [h]), if_neg h]
      simp

/-- The tuples of the leaf after the spec has been performed. -/
def newEntries (l : List Tuple) (s : Spec) : List Tuple :=
  if s.old = .stillExists then l.set s.idx s.tup else l.insertIdx s.idx s.tup

/-- A spec made for this leaf (`btree_create_leaf_incorporate_spec`, btree.c:575-609). -/
def SpecOk (l : List Tuple) (s : Spec) : Prop :=
  TupleOk s.tup ∧ ((s.old = .stillExists ∧ s.idx < l.length) ∨ (s.old = .didNotExist ∧ s.idx ≤ l.length))

/-- Entries behind the tuple of the spec. -/
def tailFrom (s : Spec) : Nat := if s.old = .stillExists then s.idx + 1 else s.idx

theorem insertIdx_take_drop {α : Type} {l : List α} {i : Nat} {x : α} (h : i ≤ l.length) :
    l.insertIdx i x = l.take i ++ x :: l.drop i := by
  induction l generalizing i with
  | nil =>
    have : i = 0 := by simpa using h
    subst this; rfl
  | cons y l ih =>
    cases i with
    | zero => rfl
    | succ i =>
      rw [List.insertIdx_succ_cons, ih (by simpa using h)]
      rfl

theorem newEntries_eq {l : List Tuple} {s : Spec} (h : SpecOk l s) :
    newEntries l s = l.take s.idx ++ s.tup :: l.drop (tailFrom s) := by
  unfold newEntries tailFrom
  rcases h.2 with ⟨h1, h2⟩ | ⟨h1, h2⟩
  · rw [if_pos h1, if_pos h1, List.set_eq_take_append_cons_drop, if_pos h2]
  · rw [if_neg (by simp [h1]), if_neg (by simp [h1])]
    exact insertIdx_take_drop h2

theorem liveBytes_eq (m : Mem) (s : Spec) (n : Nat) (hn : n ≤ numEntries m) :
    liveBytes m s n + 2 * (n - if s.old = .stillExists ∧ s.idx < n then 1 else 0) +
      (if s.old = .stillExists ∧ s.idx < n then wt (entry leafFmt m s.idx) else 0) = wts ((entries leafFmt m).take n) := by
  induction n with
  | zero => simp [liveBytes, wts]
  | succ n ih =>
    have hlt : n < (entries leafFmt m).length := by rw [entries_length]; omega
    rw [List.take_add_one, List.getElem?_eq_getElem hlt, entries_getElem, wts_append, ← ih (by omega)]
    simp only [Option.toList_some, wts_cons, wts_nil]
    have hw : wt (entry leafFmt m n) = entrySize m n + 2 := by rw [wt, cap_entry]
    rw [hw, liveBytes]
    by_cases hs : s.old = .stillExists
    · by_cases hc : n = s.idx
      · subst hc
        simp [hs, hw]
      · by_cases hc2 : s.idx < n
        · have : s.idx < n + 1 := by omega
          simp [hs, hc, hc2, this]; omega
        · have : ¬ s.idx < n + 1 := by omega
          simp [hs, hc, hc2, this]; omega
    · simp [hs]; omega

/-- The plan in terms of the new list of entries. -/
theorem buildPlan_spec {m : Mem} {s : Spec} (h : SpecOk (entries leafFmt m) s) :
    let ws := (newEntries (entries leafFmt m) s).map wt
    let p := greedy ws.sum 0 ws
    buildPlan m s = (if s.idx < p ∧ s.old ≠ .stillExists then p - 1 else p, decide (s.idx < p)) := by
  intro ws p
  have hidx : s.idx ≤ numEntries m := by
    have := h.2
    rw [entries_length] at this
    omega
  have hne := newEntries_eq h
  have hws : ws = ((entries leafFmt m).take s.idx).map wt ++ (wt s.tup :: ((entries leafFmt m).drop (tailFrom s)).map wt) := by
    show (newEntries _ s).map wt = _
    rw [hne]; simp
  have htot : leafFmt.cap s.tup + liveBytes m s (numEntries m) +
      (numEntries m + (if s.old = .stillExists then 0 else 1)) * 2 = ws.sum := by
    have h1 := liveBytes_eq m s (numEntries m) (Nat.le_refl _)
    have h2 : (entries leafFmt m).take (numEntries m) = entries leafFmt m := by
      rw [List.take_of_length_le]; rw [entries_length]
    rw [h2] at h1
    have h3 : ws.sum = wts ((entries leafFmt m).take s.idx) + wt s.tup + wts ((entries leafFmt m).drop (tailFrom s)) := by
      rw [hws]; simp [wts]; omega
    have h4 : wts (entries leafFmt m) = wts ((entries leafFmt m).take s.idx) + wts ((entries leafFmt m).drop s.idx) := by
      rw [← wts_append, List.take_append_drop]
    rcases h.2 with ⟨h5, h6⟩ | ⟨h5, h6⟩
    · have h7 : (entries leafFmt m).drop s.idx = entry leafFmt m s.idx :: (entries leafFmt m).drop (s.idx + 1) := by
        rw [List.drop_eq_getElem_cons h6, entries_getElem]
      rw [entries_length] at h6
      rw [h7, wts_cons] at h4
      unfold tailFrom at h3
      simp only [h5, h6, and_self, if_true] at h1 h3 ⊢
      rw [h3]
      unfold wt at h1 h4 ⊢
      omega
    · have hn : s.old ≠ .stillExists := by simp [h5]
      unfold tailFrom at h3
      simp only [hn, false_and, if_false] at h1 h3 ⊢
      rw [h3]
      unfold wt
      omega
  obtain ⟨A, hA⟩ : ∃ A, A = ((entries leafFmt m).take s.idx).map wt := ⟨_, rfl⟩
  obtain ⟨B, hB⟩ : ∃ B, B = ((entries leafFmt m).drop (tailFrom s)).map wt := ⟨_, rfl⟩
  have hAl : A.length = s.idx := by rw [hA, List.length_map, List.length_take, entries_length]; omega
  have hp : p = greedy ws.sum 0 (A ++ (wt s.tup :: B)) := by
    show greedy ws.sum 0 ws = _
    rw [hA, hB, ← hws]
  have hm1 : mostOnLeft ws.sum (0 + (A.take (greedy ws.sum 0 A)).sum) (leafFmt.cap s.tup) =
      decide ((A.take (greedy ws.sum 0 A)).sum + wt s.tup < (ws.sum + wt s.tup) / 2) := by
    unfold mostOnLeft wt
    congr 1
    rw [show 0 + (A.take (greedy ws.sum 0 A)).sum + 2 + leafFmt.cap s.tup =
      (A.take (greedy ws.sum 0 A)).sum + (leafFmt.cap s.tup + 2) by omega,
      show ws.sum + 2 + leafFmt.cap s.tup = ws.sum + (leafFmt.cap s.tup + 2) by omega]
  unfold buildPlan
  simp only
  rw [htot, planMore_spec m s.idx ws.sum 0 0 (Nat.zero_le _) hidx]
  simp only [List.drop_zero, ← hA]
  rw [hm1]
  rw [greedy_append, greedy, hAl] at hp
  have hg := greedy_le ws.sum 0 A
  by_cases h1 : greedy ws.sum 0 A = s.idx
  · have h2 : A.take s.idx = A := by rw [List.take_of_length_le]; omega
    rw [h1, h2]
    rw [if_pos h1] at hp
    by_cases h3 : A.sum + wt s.tup < (ws.sum + wt s.tup) / 2
    · rw [if_pos ⟨by omega, by simpa using h3⟩]
      rw [if_pos (by omega)] at hp
      have h4 : s.idx < p := by omega
      have h5 : (if s.old = .stillExists then 0 + s.idx + 1 else 0 + s.idx) = tailFrom s := by
        unfold tailFrom; split <;> omega
      have h6 : tailFrom s ≤ numEntries m := by
        have := h.2
        rw [entries_length] at this
        unfold tailFrom
        rcases this with ⟨a, b⟩ | ⟨a, b⟩
        · rw [if_pos a]; omega
        · rw [if_neg (by simp [a])]; omega
      have h7 : (entries leafFmt m).take (numEntries m) = entries leafFmt m := by
        rw [List.take_of_length_le]; rw [entries_length]
      rw [h5, planMore_spec m _ _ _ _ h6 (Nat.le_refl _), h7]
      simp only [← hB]
      have h8 : 0 + A.sum + 2 + leafFmt.cap s.tup = 0 + A.sum + wt s.tup := by unfold wt; omega
      rw [h8]
      have h9 : decide (s.idx < p) = true := by simpa using h4
      rw [h9]
      congr 1
      rw [hp]
      unfold tailFrom
      by_cases ho : s.old = .stillExists
      · rw [if_pos ho, if_neg (by simp [ho])]; omega
      · rw [if_neg ho, if_pos ⟨by omega, ho⟩]; omega
    · rw [if_neg (by simp [h3])]
      rw [if_neg (by omega)] at hp
      have h4 : ¬ s.idx < p := by omega
      rw [if_neg (fun h => h4 h.1)]
      simp [h4]; omega
  · rw [if_neg (fun h => h1 (by omega))]
    rw [if_neg h1] at hp
    have h4 : ¬ s.idx < p := by omega
    rw [if_neg (fun h => h4 h.1)]
    simp [h4]; omega

/-! ### Pages -/

/-- Entries do not depend on the fixed header fields. -/
theorem wf_congr {ps : Nat} {m m' : Mem} (w : WF leafFmt ps m) (h : ∀ i, 33 ≤ i → m' i = m i) :
    WF leafFmt ps m' ∧ entries leafFmt m' = entries leafFmt m ∧ nextEntry m' = nextEntry m ∧
      numEntries m' = numEntries m := by
  have h1 : nextEntry m' = nextEntry m := rdN_congr (fun i _ _ => h i (by omega))
  have h2 : numEntries m' = numEntries m := rdN_congr (fun i _ _ => h i (by omega))
  have h3 : ∀ i, offset m' i = offset m i := fun i => rdN_congr (fun x _ _ => h x (by omega))
  have hr := w.room
  unfold tableEnd at hr
  have hlow : ∀ i, i < numEntries m → ∀ x, offset m i ≤ x → m' x = m x := by
    intro i hi x hx
    have := w.low i hi
    exact h x (by omega)
  have h4 : ∀ i, i < numEntries m → leafFmt.size m' (offset m i) = leafFmt.size m (offset m i) :=
    fun i hi => leaf_laws.size_congr m m' _ (fun x hx _ => hlow i hi x hx)
  refine ⟨⟨w.small, ?_, ?_, ?_, ?_, ?_⟩, ?_, h1, h2⟩
  · rw [h1, h2]; exact w.room
  · rw [h1]; exact w.next
  · intro i hi; rw [h2] at hi; rw [h1, h3]; exact w.low i hi
  · intro i hi; rw [h2] at hi; rw [h3, h4 i hi]; exact w.high i hi
  · intro i j hi hj hij
    rw [h2] at hi hj
    rw [h3, h3, h4 i hi, h4 j hj]; exact w.apart i j hi hj hij
  · apply List.ext_getElem
    · rw [entries_length, entries_length, h2]
    · intro i hi hi'
      rw [entries_length] at hi'
      rw [entries_getElem, entries_getElem]
      unfold entry
      rw [h3]
      exact leaf_laws.read_congr m m' _ (fun x hx _ => hlow i hi' x hx)

theorem minOffset_le (m : Mem) (n b : Nat) : minOffset m n b ≤ b ∧ ∀ i, i < n → minOffset m n b ≤ offset m i := by
  induction n with
  | zero => exact ⟨Nat.le_refl _, fun i hi => absurd hi (by omega)⟩
  | succ n ih =>
    rw [minOffset]
    refine ⟨by split <;> omega, fun i hi => ?_⟩
    by_cases h : i = n
    · subst h; split <;> omega
    · have := ih.2 i (by omega)
      split <;> omega

theorem le_minOffset (m : Mem) (n b a : Nat) (h1 : a ≤ b) (h2 : ∀ i, i < n → a ≤ offset m i) : a ≤ minOffset m n b := by
  induction n with
  | zero => exact h1
  | succ n ih =>
    rw [minOffset]
    have := ih (fun i hi => h2 i (by omega))
    have := h2 n (by omega)
    split <;> omega

theorem truncate_spec {ps : Nat} {m : Mem} {n : Nat} (w : WF leafFmt ps m) (hn : n ≤ numEntries m) :
    WF leafFmt ps (truncate ps m n) ∧ entries leafFmt (truncate ps m n) = (entries leafFmt m).take n ∧
      Frame ps m (truncate ps m n) := by
  obtain ⟨a, ha⟩ : ∃ a, a = minOffset m n ps := ⟨_, rfl⟩
  have hm := minOffset_le m n ps
  have hg := le_minOffset m n ps (nextEntry m) w.next (fun i hi => w.low i (by omega))
  rw [← ha] at hm hg
  have hr := w.room
  have hs := w.small
  have hnx := w.next
  unfold tableEnd at hr
  obtain ⟨m', hm'⟩ : ∃ m', m' = truncate ps m n := ⟨_, rfl⟩
  have hdef : m' = wrN (wrN m 35 2 n) 33 2 a := by rw [hm', ha]; rfl
  have h1 : nextEntry m' = a := by rw [hdef]; exact rdN_wrN2 (by omega)
  have h2 : numEntries m' = n := by
    unfold numEntries
    rw [hdef, rdN_wrN_out (by omega)]; exact rdN_wrN2 (by omega)
  have hout : ∀ i, i < 33 ∨ 37 ≤ i → m' i = m i := by
    intro i hi
    rw [hdef, wrN_out (by omega), wrN_out (by omega)]
  have h3 : ∀ i, offset m' i = offset m i := fun i => rdN_congr (fun x _ _ => hout x (by omega))
  have hlow : ∀ i, i < numEntries m → ∀ x, offset m i ≤ x → m' x = m x := by
    intro i hi x hx
    have := w.low i hi
    exact hout x (by omega)
  have h4 : ∀ i, i < numEntries m → leafFmt.size m' (offset m i) = leafFmt.size m (offset m i) :=
    fun i hi => leaf_laws.size_congr m m' _ (fun x hx _ => hlow i hi x hx)
  rw [← hm']
  refine ⟨⟨hs, ?_, ?_, ?_, ?_, ?_⟩, ?_, fun i hi => hout i (by omega)⟩
  · rw [h1, h2]; unfold tableEnd; omega
  · rw [h1]; exact hm.1
  · intro i hi; rw [h2] at hi; rw [h1, h3]; exact hm.2 i hi
  · intro i hi; rw [h2] at hi; rw [h3, h4 i (by omega)]; exact w.high i (by omega)
  · intro i j hi hj hij
    rw [h2] at hi hj
    rw [h3, h3, h4 i (by omega), h4 j (by omega)]; exact w.apart i j (by omega) (by omega) hij
  · apply List.ext_getElem
    · rw [entries_length, List.length_take, entries_length, h2]; omega
    · intro i hi hi'
      rw [entries_length, h2] at hi
      rw [entries_getElem, List.getElem_take, entries_getElem]
      unfold entry
      rw [h3]
      exact leaf_laws.read_congr m m' _ (fun x hx _ => hlow i (by omega) x hx)

theorem bumpGen_out {m : Mem} {i : Nat} (h : i < 24 ∨ 32 ≤ i) : bumpGen m i = m i := wrN_out (by omega)

/-- Links and height of a page. -/
def SameHdr (m m' : Mem) : Prop := ∀ i, i < 24 ∨ i = 32 → m' i = m i

theorem tryPerform_spec {ps : Nat} {m : Mem} {s : Spec} (w : WF leafFmt ps m) (hv : TupleOk s.tup)
    (hi : s.idx ≤ numEntries m) (hs : s.old = .stillExists → s.idx < numEntries m) (hc : canPerform m s = true) :
    ∃ m', tryPerform m s = some (m', true) ∧ WF leafFmt ps m' ∧
      entries leafFmt m' = newEntries (entries leafFmt m) s ∧ SameHdr m m' := by
  have key : ∀ (r : Option (Mem × Bool)) (l : List Tuple), Outcome leafFmt ps m l r → (∃ m', r = some (m', true)) →
      ∃ m', r = some (m', true) ∧ WF leafFmt ps (bumpGen m') ∧ entries leafFmt (bumpGen m') = l ∧ SameHdr m (bumpGen m') := by
    rintro r l ⟨m1, h⟩ ⟨m2, h2⟩
    rcases h with ⟨h, _⟩ | ⟨h, h3, h4, h5⟩
    · rw [h2] at h; cases h
    · rw [h2] at h
      obtain rfl : m2 = m1 := by injection h with h; injection h
      obtain ⟨c1, c2, _⟩ := wf_congr (m' := bumpGen m2) h3 (fun i hi => bumpGen_out (by omega))
      refine ⟨m2, h2, c1, c2.trans h4, fun i hi => ?_⟩
      rw [bumpGen_out (by omega)]
      exact h5 i (by omega)
  unfold tryPerform newEntries
  unfold canPerform at hc
  cases ho : s.old with
  | stillExists =>
    rw [ho] at hc
    obtain ⟨o1, o2⟩ := setLeaf_spec w hi hv
    obtain ⟨m', h1, h2⟩ := key _ _ o1 (o2.1 hc)
    rw [setAt, entries_length, if_pos (hs ho)] at h2
    exact ⟨bumpGen m', by simp only [h1], by simpa using h2⟩
  | didNotExist =>
    rw [ho] at hc
    obtain ⟨o1, o2⟩ := insertLeaf_spec w hi hv
    obtain ⟨m', h1, h2⟩ := key _ _ o1 (o2.1 hc)
    exact ⟨bumpGen m', by simp only [h1], by simpa using h2⟩
  | removed =>
    rw [ho] at hc
    obtain ⟨o1, o2⟩ := insertLeaf_spec w hi hv
    obtain ⟨m', h1, h2⟩ := key _ _ o1 (o2.1 hc)
    exact ⟨bumpGen m', by simp only [h1], by simpa using h2⟩

/-! ### Putting it together -/

theorem SpecOk.idx_le {l : List Tuple} {s : Spec} (h : SpecOk l s) : s.idx ≤ l.length := by
  have := h.2; omega

theorem keep_eq {l : List Tuple} {s : Spec} (h : SpecOk l s) {i : Nat} (hi : i ≤ s.idx) :
    keep s.idx s.old l i = (l.take s.idx).drop i ++ l.drop (tailFrom s) := by
  unfold keep tailFrom
  rw [List.drop_take]
  rcases h.2 with ⟨h1, h2⟩ | ⟨h1, h2⟩
  · rw [if_pos ⟨h1, hi⟩, if_pos h1, List.eraseIdx_eq_take_drop_succ, List.drop_drop]
    congr 2; omega
  · rw [if_neg (by simp [h1]), if_neg (by simp [h1])]
    conv => lhs; rw [← List.take_append_drop (s.idx - i) (l.drop i), List.drop_drop]
    congr 2; omega

theorem drop_new {l : List Tuple} {s : Spec} (h : SpecOk l s) {i : Nat} (hi : i ≤ s.idx) :
    (newEntries l s).drop i = (l.take s.idx).drop i ++ s.tup :: l.drop (tailFrom s) := by
  have := h.idx_le
  rw [newEntries_eq h, List.drop_append_of_le_length]
  rw [List.length_take]; omega

/-- The spec after the old entry has been skipped. -/
def skipped (s : Spec) (i : Nat) : Spec :=
  { s with old := if s.old = .stillExists ∧ i ≤ s.idx then .removed else s.old, idx := s.idx - i }

theorem new_keep {l : List Tuple} {s : Spec} (h : SpecOk l s) {i : Nat} (hi : i ≤ s.idx) :
    newEntries (keep s.idx s.old l i) (skipped s i) = (newEntries l s).drop i := by
  have hl := h.idx_le
  have ho : (skipped s i).old ≠ .stillExists := by
    unfold skipped
    simp only
    split
    · simp
    · intro h'; rename_i hn; exact hn ⟨h', hi⟩
  have hlen : ((l.take s.idx).drop i).length = s.idx - i := by
    rw [List.length_drop, List.length_take]; omega
  unfold newEntries
  rw [if_neg ho]
  show (keep s.idx s.old l i).insertIdx (s.idx - i) s.tup = _
  rw [insertIdx_take_drop (by rw [keep_eq h hi, List.length_append]; omega), keep_eq h hi,
    List.take_left' hlen, List.drop_left' hlen]
  exact (drop_new h hi).symm

theorem wts_keep {l : List Tuple} {s : Spec} (h : SpecOk l s) {i : Nat} (hi : i ≤ s.idx) :
    wts (keep s.idx s.old l i) + wt s.tup = wts ((newEntries l s).drop i) := by
  rw [keep_eq h hi, drop_new h hi, wts_append, wts_append, wts_cons]; omega

/-- Copying the entries and then performing the spec. -/
theorem refill_spec {ps : Nat} {src r : Mem} {s : Spec} {i : Nat} (h : SpecOk (entries leafFmt src) s) (hi : i ≤ s.idx)
    (w : WF leafFmt ps r) (hp : Packed ps r) (he : entries leafFmt r = [])
    (hf : wts ((newEntries (entries leafFmt src) s).drop i) + 37 ≤ ps) :
    ∃ r', copyFrom src s.idx (numEntries src) i 0 s.old r = some (r', (skipped s i).old) ∧
      ∃ r'', tryPerform r' (skipped s i) = some (r'', true) ∧ WF leafFmt ps r'' ∧
        entries leafFmt r'' = (newEntries (entries leafFmt src) s).drop i ∧ SameHdr r r'' := by
  have hl := h.idx_le
  rw [entries_length] at hl
  have hw := wts_keep h hi
  have hn : 0 = numEntries r := by rw [← entries_length leafFmt, he]; rfl
  have hx : s.old = .stillExists → s.idx < numEntries src := by
    intro ho
    rcases h.2 with ⟨h1, h2⟩ | ⟨h1, h2⟩
    · rw [entries_length] at h2; exact h2
    · rw [ho] at h1; cases h1
  obtain ⟨r', c1, c2, c3, c4, c5⟩ := copyFrom_spec (idx := s.idx) i 0 s.old r (by omega) w hp hn hx
    (by rw [he, wts_nil]; omega)
  rw [he, List.nil_append] at c4
  refine ⟨r', c1, ?_⟩
  have ho : (skipped s i).old ≠ .stillExists := by
    unfold skipped
    simp only
    split
    · simp
    · intro h'; rename_i hn; exact hn ⟨h', hi⟩
  have hcan : canPerform r' (skipped s i) = true := by
    have : canSetLeaf r' (numEntries r') s.tup = true := c3.can (by rw [c4]; omega)
    unfold canPerform
    cases hc : (skipped s i).old with
    | stillExists => exact absurd hc ho
    | didNotExist => exact this
    | removed => exact this
  have hlen : s.idx - i ≤ numEntries r' := by
    rw [← entries_length leafFmt, c4, keep_eq h hi, List.length_append, List.length_drop, List.length_take, entries_length]
    omega
  obtain ⟨r'', t1, t2, t3, t4⟩ := tryPerform_spec (s := skipped s i) c2 h.1 hlen (fun h' => absurd h' ho) hcan
  refine ⟨r'', t1, t2, ?_, fun x hx => (t4 x hx).trans (c5 x (by omega))⟩
  rw [t3, c4, new_keep h hi]

theorem reset_packed {ps : Nat} (m : Mem) (h1 : 37 ≤ ps) (h2 : ps < 65536) : Packed ps (reset ps m) := by
  obtain ⟨_, e1, e2, _⟩ := reset_spec leafFmt m h1 h2
  have hn : numEntries (reset ps m) = 0 := by rw [← entries_length leafFmt, e1]; rfl
  unfold Packed
  rw [e1, e2, hn]; rfl

end Splinter.Page
