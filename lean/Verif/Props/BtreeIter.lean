import Verif.Proof.BtreeIter
import Verif.Props.Pack
/-!
The iterator of one tree (supports C04, C06, C39): a cursor over the tuples in range.
The specification is a plain list: the tuples of the stream filtered by the range, and a
position in it.
-/
namespace Splinter.Btree

variable {K M : Type} [LinearOrder K] [BoundedOrder K] [Inhabited K]

/-- Is the key below the upper bound? The bound `⊤` excludes nothing. -/
def below (hi : K) (x : K × M) : Bool := decide (hi = ⊤) || decide (x.1 < hi)

omit [BoundedOrder K] [Inhabited K] in
theorem clampHi_eq (lo hi : K) : clampHi lo hi = max lo hi := by
  unfold clampHi; split
  · rw [max_eq_left (le_of_lt ‹_›)]
  · rw [max_eq_right (not_lt.1 ‹_›)]

omit [BoundedOrder K] [Inhabited K] in
theorem clampStart_eq (lo hi start : K) :
    clampStart lo hi start = min (max lo start) (max lo hi) := by
  unfold clampStart
  have : (if start < lo then lo else start) = max lo start := clampHi_eq lo start
  simp only [this, clampHi_eq]
  split
  · rw [min_eq_right (le_of_lt ‹_›)]
  · rw [min_eq_left (not_lt.1 ‹_›)]

/-- A packed tree as the iterator sees it. -/
theorem packed_tree {P : Env K M} (inj : ∀ i j, P.page i = P.page j → i = j) (nz : ∀ i, P.page i ≠ 0)
    {xs : List (K × M)} (hs : xs.Pairwise (fun x y => x.1 < y.1)) (hne : xs ≠ []) {t : Packed K M}
    (e : pack P xs = .ok t) : ∃ L, Tree t.store t.root L xs := by
  obtain ⟨_, _, _, _, _, h⟩ := pack_spec inj hs e
  obtain ⟨_, h, s, _, H, hi, nd, hp, hl⟩ := h hne
  have sub : ∀ {h a : Nat} {s : Sub K M}, Holds (PE P) t.store h a s → s.leaves.Sublist s.fp := by
    intro h
    induction h with
    | zero => intro a s H; obtain ⟨_, _, _, _, _, e5, e6⟩ := H; rw [e5, e6]
    | succ h ih =>
      intro a s H
      obtain ⟨_, cs, _, _, e3, e4, e5, e6, e7, e8⟩ := H
      rw [e7, e8]
      apply List.Sublist.cons
      clear e7 e8 e3 e5 e6
      induction cs with
      | nil => simp
      | cons c cs ihc =>
        rw [List.flatMap_cons, List.flatMap_cons]
        exact (ih (e4 c (by simp)).1).append (ihc fun x hx => e4 x (by simp [hx]))
  refine ⟨s.leaves, ?_⟩
  rw [← hi]
  refine tree_of_holds H (fun _ _ h => h.1) (fun _ => by rw [hi]; exact hne) (nd.sublist (sub H)) ?_ hl
  intro b hb
  obtain ⟨i, rfl⟩ := hp b (H.leaves_fp b hb)
  exact nz i

section
variable {st : Store K M} {root : Nat} {L : List Nat} {items : List (K × M)}

theorem hiOf_eq (T : Tree st root L items) (k : K) : items.take (hiOf items k) = items.filter (below k) ∧
    items.countP (below k) = hiOf items k := by
  have hc : items.countP (below k) = hiOf items k := by
    unfold hiOf below
    split
    · rename_i h; simp [h]
    · rename_i h; simp [h, cntLt]
  refine ⟨?_, hc⟩
  rw [← hc]
  refine (take_cnt T.sorted ?_).1
  intro x y hxy hy
  simp only [below, Bool.or_eq_true, decide_eq_true_eq] at *
  rcases hy with hy | hy
  · exact Or.inl hy
  · exact Or.inr (lt_trans hxy hy)

omit [Inhabited K] in
theorem countP_filter_below {q : K × M → Bool} {k : K}
    (h : ∀ x, q x = true → below k x = true) : (items.filter (below k)).countP q = items.countP q := by
  rw [List.countP_filter]
  apply List.countP_congr
  intro x _
  simp only [Bool.and_eq_true]
  exact ⟨fun h => h.1, fun hx => ⟨hx, h x hx⟩⟩

omit [Inhabited K] [BoundedOrder K] in
theorem sorted_filter (hs : items.Pairwise (fun x y => x.1 < y.1)) (q : K × M → Bool) :
    (items.filter q).Pairwise (fun x y => x.1 < y.1) := hs.sublist List.filter_sublist

/-- **C04** (one tree): an iterator opened at `start` (inclusive) and advanced while it can
be reports exactly the tuples from `start` up to the upper bound, in order. -/
theorem scan_ge (T : Tree st root L items) (lo hi start : K) {n : Nat} (hn : items.length ≤ n) :
    ∃ t, init st root lo hi start .ge = some t ∧
      forward st n t = some (items.filter (fun x =>
        decide (min (max lo start) (max lo hi) ≤ x.1) && below (max lo hi) x), true) := by
  rw [← clampStart_eq, ← clampHi_eq]
  obtain ⟨h1, h2⟩ := clamp_ok lo hi start
  have hle := cntLt_le_hi (l := items) h2
  obtain ⟨t, l, e1, e2, _, _, _, e6⟩ := T.init lo hi start .ge (by simp only [startAt]; omega)
  refine ⟨t, e1, ?_⟩
  have hll : l ≤ startAt items (clampStart lo hi start) .ge := by
    have := cnt_mono (l := items) h1
    rcases e6 with e6 | ⟨_, e6, _⟩
    · simp only [startAt]; omega
    · omega
  have hhl : hiOf items (clampHi lo hi) ≤ items.length := by
    rw [← (hiOf_eq T _).2]; exact List.countP_le_length
  rw [T.forward n e2 hll (by simp only [startAt]; omega) (by omega)]
  simp only [startAt, Int.toNat_natCast, Option.some.injEq, Prod.mk.injEq, and_true]
  rw [(hiOf_eq T _).1]
  have hcp : cntLt items (clampStart lo hi start) =
      (items.filter (below (clampHi lo hi))).countP fun x => decide (x.1 < clampStart lo hi start) := by
    rw [countP_filter_below]
    · rfl
    · intro x hx
      simp only [below, Bool.or_eq_true, decide_eq_true_eq] at *
      exact Or.inr (lt_of_lt_of_le hx h2)
  rw [hcp, (take_cnt (sorted_filter T.sorted _) ?_).2, List.filter_filter]
  · apply List.filter_congr
    intro x _
    simp [← not_lt]
  · intro x y hxy hy
    simp only [decide_eq_true_eq] at *
    exact lt_trans hxy hy

/-- **C04** (one tree): the same with the start excluded; the start must be below the upper
bound (see `gt_at_max`). -/
theorem scan_gt (T : Tree st root L items) (lo hi start : K) {n : Nat} (hn : items.length ≤ n)
    (hlt : min (max lo start) (max lo hi) < max lo hi ∨ max lo hi = ⊤) :
    ∃ t, init st root lo hi start .gt = some t ∧
      forward st n t = some (items.filter (fun x =>
        decide (min (max lo start) (max lo hi) < x.1) && below (max lo hi) x), true) := by
  rw [← clampStart_eq, ← clampHi_eq] at *
  obtain ⟨h1, h2⟩ := clamp_ok lo hi start
  have imp : ∀ x : K × M, x.1 ≤ clampStart lo hi start → below (clampHi lo hi) x = true := by
    intro x hx
    simp only [below, Bool.or_eq_true, decide_eq_true_eq]
    rcases hlt with h | h
    · exact Or.inr (lt_of_le_of_lt hx h)
    · exact Or.inl h
  have hle : cntLe items (clampStart lo hi start) ≤ hiOf items (clampHi lo hi) := by
    rw [← (hiOf_eq T _).2]
    exact List.countP_mono_left fun x _ hx => imp x (by simpa using hx)
  obtain ⟨t, l, e1, e2, _, _, _, e6⟩ := T.init lo hi start .gt (by simp only [startAt]; omega)
  refine ⟨t, e1, ?_⟩
  have hll : l ≤ startAt items (clampStart lo hi start) .gt := by
    have := cntLt_le_cntLe (l := items) h1
    rcases e6 with e6 | ⟨_, e6, _⟩
    · simp only [startAt]; omega
    · omega
  have hhl : hiOf items (clampHi lo hi) ≤ items.length := by
    rw [← (hiOf_eq T _).2]; exact List.countP_le_length
  rw [T.forward n e2 hll (by simp only [startAt]; omega) (by omega)]
  simp only [startAt, Int.toNat_natCast, Option.some.injEq, Prod.mk.injEq, and_true]
  rw [(hiOf_eq T _).1]
  have hcp : cntLe items (clampStart lo hi start) =
      (items.filter (below (clampHi lo hi))).countP fun x => decide (x.1 ≤ clampStart lo hi start) := by
    rw [countP_filter_below]
    · rfl
    · intro x hx
      exact imp x (by simpa using hx)
  rw [hcp, (take_cnt (sorted_filter T.sorted _) ?_).2, List.filter_filter]
  · apply List.filter_congr
    intro x _
    simp [← not_le]
  · intro x y hxy hy
    simp only [decide_eq_true_eq] at *
    exact le_trans (le_of_lt hxy) hy

/-- Is the key wanted by a backward scan that starts at `s`? -/
def upTo : Search.Cmp → K → K × M → Bool
  | .lt, s, x => decide (x.1 < s)
  | _, s, x => decide (x.1 ≤ s)

/-- **C39** (one tree): an iterator opened at the last key not above `start` (`le`) or below
it (`lt`) and moved backward while it has a current tuple reports exactly the tuples from
there down to the lower bound, in descending order. For `le` the start must be below the
upper bound. -/
theorem scan_back (T : Tree st root L items) (lo hi start : K) {c : Search.Cmp} (hc : c = .le ∨ c = .lt)
    {n : Nat} (hn : items.length ≤ n)
    (hlt : c = .le → min (max lo start) (max lo hi) < max lo hi ∨ max lo hi = ⊤) :
    ∃ t, init st root lo hi start c = some t ∧
      backward st n t = some ((items.filter (fun x =>
        decide (lo ≤ x.1) && upTo c (min (max lo start) (max lo hi)) x)).reverse, true) := by
  rw [← clampStart_eq, ← clampHi_eq] at *
  obtain ⟨h1, h2⟩ := clamp_ok lo hi start
  have imp : ∀ x : K × M, upTo c (clampStart lo hi start) x = true → below (clampHi lo hi) x = true := by
    intro x hx
    simp only [below, Bool.or_eq_true, decide_eq_true_eq]
    rcases hc with rfl | rfl
    · simp only [upTo, decide_eq_true_eq] at hx
      rcases hlt rfl with h | h
      · exact Or.inr (lt_of_le_of_lt hx h)
      · exact Or.inl h
    · simp only [upTo, decide_eq_true_eq] at hx
      exact Or.inr (lt_of_lt_of_le hx h2)
  have hst : startAt items (clampStart lo hi start) c =
      (items.countP (upTo c (clampStart lo hi start)) : Int) - 1 := by
    rcases hc with rfl | rfl <;> rfl
  have hle : items.countP (upTo c (clampStart lo hi start)) ≤ hiOf items (clampHi lo hi) := by
    rw [← (hiOf_eq T _).2]
    exact List.countP_mono_left fun x _ hx => imp x hx
  obtain ⟨t, l, e1, e2, e3, _, _, e6⟩ := T.init lo hi start c (by omega)
  have e6 : l = cntLt items lo := by
    rcases e6 with e6 | ⟨e6, _⟩
    · exact e6
    · rcases hc with rfl | rfl <;> simp at e6
  refine ⟨t, e1, ?_⟩
  have hll : items.countP (upTo c (clampStart lo hi start)) ≤ items.length := List.countP_le_length
  rw [T.backward n e2 (by omega) (by rw [e3]; exact e6) (by omega)]
  have e : (startAt items (clampStart lo hi start) c + 1).toNat =
      items.countP (upTo c (clampStart lo hi start)) := by omega
  rw [e, e6, Int.toNat_natCast]
  simp only [Option.some.injEq, Prod.mk.injEq, and_true, List.reverse_inj]
  have mono : ∀ x y : K × M, x.1 < y.1 → upTo c (clampStart lo hi start) y = true →
      upTo c (clampStart lo hi start) x = true := by
    intro x y hxy hy
    rcases hc with rfl | rfl <;> simp only [upTo, decide_eq_true_eq] at *
    · exact le_trans (le_of_lt hxy) hy
    · exact lt_trans hxy hy
  have hD : items.drop (cntLt items lo) = items.filter fun x => decide (lo ≤ x.1) := by
    unfold cntLt
    rw [(take_cnt T.sorted (fun x y hxy hy => by simp only [decide_eq_true_eq] at *; exact lt_trans hxy hy)).2]
    apply List.filter_congr
    intro x _
    simp [← not_lt]
  rw [(take_cnt T.sorted mono).1]
  have key : ∀ (l : List (K × M)), l.Pairwise (fun x y => x.1 < y.1) →
      (∀ x : K × M, decide (x.1 < lo) = true → upTo c (clampStart lo hi start) x = true) →
      (l.filter (upTo c (clampStart lo hi start))).drop (l.countP fun x => decide (x.1 < lo)) =
        l.filter fun x => decide (lo ≤ x.1) && upTo c (clampStart lo hi start) x := by
    intro l hl himp
    have : l.countP (fun x => decide (x.1 < lo)) =
        (l.filter (upTo c (clampStart lo hi start))).countP fun x => decide (x.1 < lo) := by
      rw [List.countP_filter]
      apply List.countP_congr
      intro x _
      simp only [Bool.and_eq_true]
      exact ⟨fun h => ⟨h, himp x h⟩, fun h => h.1⟩
    rw [this, (take_cnt (sorted_filter hl _) (fun x y hxy hy => by
      simp only [decide_eq_true_eq] at *; exact lt_trans hxy hy)).2, List.filter_filter]
    apply List.filter_congr
    intro x _
    simp [← not_lt]
  refine key items T.sorted ?_
  intro x hx
  simp only [decide_eq_true_eq] at hx
  rcases hc with rfl | rfl <;> simp only [upTo, decide_eq_true_eq]
  · exact le_trans (le_of_lt hx) h1
  · exact lt_of_lt_of_le hx h1

/-- A position in a list of `n` tuples, from -1 (before the first) to `n` (after the last),
after one call. -/
def cursor (n : Nat) (i : Int) : Move → Int
  | .next => if i < n then i + 1 else i
  | .prev => if 0 ≤ i then i - 1 else i

/-- The tuples an iterator with these bounds covers. -/
def range (lo hi : K) (items : List (K × M)) : List (K × M) :=
  items.filter fun x => decide (lo ≤ x.1) && below (max lo hi) x

/-- Where the iterator starts in the range. -/
def firstPos (start : K) (R : List (K × M)) : Search.Cmp → Int
  | .lt => (R.countP fun x => decide (x.1 < start) : Nat) - 1
  | .le => (R.countP fun x => decide (x.1 ≤ start) : Nat) - 1
  | .ge => (R.countP fun x => decide (x.1 < start) : Nat)
  | .gt => (R.countP fun x => decide (x.1 ≤ start) : Nat)

theorem range_at (T : Tree st root L items) (lo hi : K) :
    range lo hi items = (items.take (hiOf items (max lo hi))).drop (cntLt items lo) ∧
    (range lo hi items).length + cntLt items lo = hiOf items (max lo hi) := by
  have h : range lo hi items = (items.take (hiOf items (max lo hi))).drop (cntLt items lo) := by
    rw [(hiOf_eq T _).1]
    have hcp : cntLt items lo =
        (items.filter (below (max lo hi))).countP fun x => decide (x.1 < lo) := by
      rw [countP_filter_below]
      · rfl
      · intro x hx
        simp only [below, Bool.or_eq_true, decide_eq_true_eq] at *
        exact Or.inr (lt_of_lt_of_le hx (le_max_left _ _))
    rw [hcp, (take_cnt (sorted_filter T.sorted _) ?_).2, List.filter_filter]
    · apply List.filter_congr
      intro x _
      simp [← not_lt]
    · intro x y hxy hy
      simp only [decide_eq_true_eq] at *
      exact lt_trans hxy hy
  refine ⟨h, ?_⟩
  have h1 := cntLt_le_hi (l := items) (le_max_left lo hi)
  have hhl : hiOf items (max lo hi) ≤ items.length := by
    rw [← (hiOf_eq T _).2]; exact List.countP_le_length
  rw [h]
  simp
  omega

omit [Inhabited K] in
theorem countP_range {q : K × M → Bool} {lo hi : K} (hq : ∀ x : K × M, x.1 < lo → q x = true)
    (hb : ∀ x, q x = true → below (max lo hi) x = true) :
    (range lo hi items).countP q + cntLt items lo = items.countP q := by
  unfold range cntLt
  rw [List.countP_filter]
  induction items with
  | nil => rfl
  | cons x l ih =>
    have h1 := hq x
    have h2 := hb x
    simp only [List.countP_cons]
    by_cases a : x.1 < lo
    · have b : ¬ lo ≤ x.1 := not_le.2 a
      simp [a, b, h1 a]; omega
    · have b : lo ≤ x.1 := not_lt.1 a
      by_cases c : q x = true
      · simp [a, b, c, h2 c]; omega
      · simp [a, b, c]; omega

/-- **C06** (one tree): after any sequence of `next` and `prev` calls, each made when the
iterator allows it, the iterator is a cursor over the tuples in range: it allows exactly
the calls the cursor allows and its current tuple is the one under the cursor. This holds
for an iterator opened with `le` or `lt`, or with `ge` at its lower bound; `prev_misses`
shows that it fails for other starts. -/
theorem iter_cursor (T : Tree st root L items) (lo hi start : K) {c : Search.Cmp}
    (hc : c = .le ∨ c = .lt ∨ (c = .ge ∧ start ≤ lo))
    (hlt : c = .le → min (max lo start) (max lo hi) < max lo hi ∨ max lo hi = ⊤)
    (hR : range lo hi items ≠ []) (ms : List Move) :
    ∃ t t', init st root lo hi start c = some t ∧ t.moves st ms = some t' ∧
      let R := range lo hi items
      let j := ms.foldl (cursor R.length) (firstPos (min (max lo start) (max lo hi)) R c)
      (t'.canNext = true ↔ j < R.length) ∧ (t'.canPrev = true ↔ 0 ≤ j) ∧
      (t'.canCurr = true → 0 ≤ j ∧ ∃ x, t'.curr? st = some x ∧ R[j.toNat]? = some x) := by
  obtain ⟨r1, r2⟩ := range_at T lo hi
  have hRl := List.length_pos_iff.2 hR
  have hcs : clampStart lo hi start = min (max lo start) (max lo hi) := clampStart_eq ..
  have hch : clampHi lo hi = max lo hi := clampHi_eq ..
  obtain ⟨h1, h2⟩ := clamp_ok lo hi start
  have hge : c = .ge → clampStart lo hi start = lo := by
    intro h
    have hs : start ≤ lo := by
      rcases hc with rfl | rfl | hc
      · simp at h
      · simp at h
      · exact hc.2
    rw [hcs, max_eq_left hs, min_eq_left (le_max_left _ _)]
  rw [hch] at h2
  have hpos : startAt items (clampStart lo hi start) c =
      firstPos (clampStart lo hi start) (range lo hi items) c + cntLt items lo := by
    rcases hc with rfl | rfl | ⟨rfl, hs⟩
    · have := countP_range (items := items) (q := fun x => decide (x.1 ≤ clampStart lo hi start)) (lo := lo) (hi := hi)
        (fun x hx => by simp only [decide_eq_true_eq]; exact le_trans (le_of_lt hx) h1)
        (fun x hx => by
          simp only [below, Bool.or_eq_true, decide_eq_true_eq] at hx ⊢
          rcases hlt rfl with h | h
          · rw [← hcs] at h; exact Or.inr (lt_of_le_of_lt hx h)
          · exact Or.inl h)
      simp only [startAt, firstPos, cntLe]
      omega
    · have := countP_range (items := items) (q := fun x => decide (x.1 < clampStart lo hi start)) (lo := lo) (hi := hi)
        (fun x hx => by simp only [decide_eq_true_eq]; exact lt_of_lt_of_le hx h1)
        (fun x hx => by
          simp only [below, Bool.or_eq_true, decide_eq_true_eq] at *
          exact Or.inr (lt_of_lt_of_le hx h2))
      simp only [startAt, firstPos]
      unfold cntLt at *
      omega
    · have := countP_range (items := items) (q := fun x => decide (x.1 < clampStart lo hi start)) (lo := lo) (hi := hi)
        (fun x hx => by simp only [decide_eq_true_eq]; exact lt_of_lt_of_le hx h1)
        (fun x hx => by
          simp only [below, Bool.or_eq_true, decide_eq_true_eq] at *
          exact Or.inr (lt_of_lt_of_le hx h2))
      simp only [startAt, firstPos]
      unfold cntLt at *
      omega
  have hfp : firstPos (clampStart lo hi start) (range lo hi items) c ≤ (range lo hi items).length := by
    have a1 : (range lo hi items).countP (fun x => decide (x.1 < clampStart lo hi start)) ≤
      (range lo hi items).length := List.countP_le_length
    have a2 : (range lo hi items).countP (fun x => decide (x.1 ≤ clampStart lo hi start)) ≤
      (range lo hi items).length := List.countP_le_length
    cases c <;> simp only [firstPos] <;> omega
  obtain ⟨t, l, e1, e2, e3, _, _, e6⟩ := T.init lo hi start c (by rw [hch]; omega)
  have e6 : l = cntLt items lo := by
    rcases e6 with e6 | ⟨e6, e7, e8⟩
    · exact e6
    · have : c = .ge := by
        rcases hc with rfl | rfl | hc
        · simp at e6
        · simp at e6
        · exact hc.1
      subst this
      rw [e7, hge rfl]; rfl
  rw [hch] at e2
  obtain ⟨t', m1, m2, m3⟩ := T.moves ms e2 (by omega) (by rw [e3]; exact e6)
  refine ⟨t, t', e1, m1, ?_⟩
  have hfold : ∀ (ms : List Move) (i : Int),
      ms.foldl (posMove l (hiOf items (max lo hi))) (i + cntLt items lo) =
      ms.foldl (cursor (range lo hi items).length) i + cntLt items lo := by
    intro ms
    induction ms with
    | nil => intro i; rfl
    | cons m ms ih =>
      intro i
      simp only [List.foldl_cons]
      rw [← ih]
      congr 1
      cases m <;> simp only [posMove, cursor] <;> split <;> split <;> omega
  rw [← hcs]
  rw [hpos, hfold] at m2
  intro R j
  have hlh : l < hiOf items (max lo hi) := by omega
  have cn := T.canNext m2 (Or.inr hlh)
  have cp := T.canPrev m2 hlh
  refine ⟨?_, ?_, ?_⟩
  · rw [cn]
    show j + _ < _ ↔ _
    simp only [R]
    omega
  · rw [cp]
    show _ ≤ j + _ ↔ _
    omega
  · intro hcur
    rw [T.canCurr m2] at hcur
    have hj : l ≤ j + cntLt items lo ∧ j + cntLt items lo < hiOf items (max lo hi) := hcur
    obtain ⟨x, x1, x2⟩ := T.curr m2 hcur.1 hcur.2
    refine ⟨by omega, x, x1, ?_⟩
    have x2 : items[(j + cntLt items lo).toNat]? = some x := x2
    simp only [R]
    rw [r1, List.getElem?_drop, List.getElem?_take_of_lt (by omega), ← x2]
    congr 1
    omega

/-- **C06** (one tree): moving forward and back returns to the same tuple. -/
theorem iter_turn (T : Tree st root L items) (lo hi start : K) {c : Search.Cmp}
    (hc : c = .le ∨ c = .lt ∨ (c = .ge ∧ start ≤ lo))
    (hlt : c = .le → min (max lo start) (max lo hi) < max lo hi ∨ max lo hi = ⊤)
    (hR : range lo hi items ≠ []) (ms : List Move) {t t' t'' : Iter K}
    (h0 : init st root lo hi start c = some t) (h1 : t.moves st ms = some t') (hcur : t'.canCurr = true)
    (h2 : t.moves st (ms ++ [.next, .prev]) = some t'') :
    t''.canCurr = true ∧ t''.curr? st = t'.curr? st ∧ (t'.curr? st).isSome := by
  obtain ⟨u, u', a1, a2, a3, a4, a5⟩ := iter_cursor T lo hi start hc hlt hR ms
  obtain ⟨v, v', b1, b2, b3, b4, b5⟩ := iter_cursor T lo hi start hc hlt hR (ms ++ [.next, .prev])
  have : u = t := by rw [h0] at a1; exact (Option.some.inj a1).symm
  subst this
  have : v = u := by rw [h0] at b1; exact (Option.some.inj b1).symm
  subst this
  have : u' = t' := by rw [h1] at a2; exact (Option.some.inj a2).symm
  subst this
  have : v' = t'' := by rw [h2] at b2; exact (Option.some.inj b2).symm
  subst this
  obtain ⟨c1, x, x1, x2⟩ := a5 hcur
  have hn := a3.1 (by simp only [Iter.canCurr, Bool.and_eq_true] at hcur; exact hcur.1)
  rw [List.foldl_append] at b3 b4 b5
  simp only [List.foldl_cons, List.foldl_nil, cursor] at b3 b4 b5
  rw [if_pos hn, if_pos (by omega)] at b3 b4 b5
  have hcv : v'.canCurr = true := by
    simp only [Iter.canCurr, Bool.and_eq_true]
    exact ⟨b3.2 (by omega), b4.2 (by omega)⟩
  obtain ⟨_, y, y1, y2⟩ := b5 hcv
  refine ⟨hcv, ?_, by rw [x1]; rfl⟩
  rw [y1, x1, ← y2, ← x2]
  congr 1
  omega

end

/-- **C04/C39**: the scan theorems for the tree `btree_pack` built. -/
theorem pack_scan {P : Env K M} (inj : ∀ i j, P.page i = P.page j → i = j) (nz : ∀ i, P.page i ≠ 0)
    {xs : List (K × M)} (hs : xs.Pairwise (fun x y => x.1 < y.1)) (hne : xs ≠ []) {t : Packed K M}
    (e : pack P xs = .ok t) :
    (∃ i, init t.store t.root ⊥ ⊤ ⊥ .ge = some i ∧ forward t.store xs.length i = some (xs, true)) ∧
    (∃ i, init t.store t.root ⊥ ⊤ ⊤ .le = some i ∧
      backward t.store xs.length i = some (xs.reverse, true)) := by
  obtain ⟨L, T⟩ := packed_tree inj nz hs hne e
  constructor
  · obtain ⟨i, h1, h2⟩ := scan_ge T ⊥ ⊤ ⊥ (Nat.le_refl _)
    refine ⟨i, h1, ?_⟩
    rw [h2]
    congr 2
    rw [List.filter_eq_self]
    intro x _
    simp [below]
  · obtain ⟨i, h1, h2⟩ := scan_back T ⊥ ⊤ ⊤ (c := .le) (Or.inl rfl) (Nat.le_refl _)
      (fun _ => Or.inr (by simp))
    refine ⟨i, h1, ?_⟩
    rw [h2]
    congr 3
    rw [List.filter_eq_self]
    intro x _
    simp [upTo]

/-! ### Where the iterator is wrong -/

/-- The hypotheses hold for the example tree: a scan of it, and moves back and forth. -/
example : ∃ t, pack exEnv exStream = .ok t ∧ (∀ i, exEnv.page i ≠ 0) ∧
    (init t.store t.root 3 30 3 .ge).bind (forward t.store 20) =
      some ([(3, 30), (4, 40), (9, 90), (11, 5), (12, 6), (20, 7), (21, 8)], true) ∧
    range 3 30 exStream ≠ [] := by
  refine ⟨_, rfl, fun i => Nat.succ_ne_zero i, ?_, ?_⟩ <;> decide +kernel

/-- **C06/C39 fail for other starts.** The tree holds 4, 9 in one leaf and 11, 12 in the
next. An iterator over all keys opened at the first key ≥ 10 is at 11, but `prev` ends it
there: `find_btree_node_and_get_idx_bounds` takes the leaf it came from for irrelevant. -/
theorem prev_misses : ∃ t, pack exEnv exStream = .ok t ∧ (9, 90) ∈ exStream ∧
    (init t.store t.root 0 63 10 .ge).map (fun i => (i.canCurr, i.curr? t.store)) =
      some (true, some (11, 5)) ∧
    ((init t.store t.root 0 63 10 .ge).bind (·.moves t.store [.prev])).map (·.canPrev) = some false := by
  refine ⟨_, rfl, ?_, ?_, ?_⟩ <;> decide +kernel

/-- Opened above a key that is the upper bound, the iterator stands two past the last tuple
in range: one `prev` does not make a tuple current although there is one. -/
theorem gt_at_max : ∃ t, pack exEnv exStream = .ok t ∧
    ((init t.store t.root 0 3 3 .gt).bind (·.moves t.store [.prev])).map (·.canCurr) = some false ∧
    range 0 3 exStream = [(1, 10)] := by
  refine ⟨_, rfl, ?_, ?_⟩ <;> decide +kernel

/-- `btree_iterator_seek` looks up entry `end_idx - 1` in the current leaf, though `end_idx`
belongs to the last leaf. Here it is -1 (the model's `none`) for a key that is in range. -/
theorem seek_reads_outside : ∃ t, pack exEnv exStream = .ok t ∧
    (init t.store t.root 0 11 3 .ge).map (fun i => (i.endIdx, i.curr? t.store, seek t.store i 4 .ge)) =
      some (0, some (3, 30), none) := by
  refine ⟨_, rfl, ?_⟩
  decide +kernel

end Splinter.Btree
