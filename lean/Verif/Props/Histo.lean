import Verif.Model.Histo
/-!
# C65: a histogram counts each datum in its bucket
-/
namespace Splinter.Histo

/-- The bucket of a datum by what `platform_histo_print` says (platform.c 580-592): not above its limit, and above the limit before it. -/
structure Right (lims : List Int) (d : Int) (c : Nat) : Prop where
  len : c ≤ lims.length
  le : ∀ x, lims[c]? = some x → d ≤ x
  gt : ∀ j x, j + 1 = c → lims[j]? = some x → x < d

/-- Limits rise. -/
def Sorted (lims : List Int) : Prop := ∀ (i j : Nat) (x y : Int), i < j → lims[i]? = some x → lims[j]? = some y → x < y

/-- The full statement: each datum is counted in its bucket. Refuted below. -/
def Counts : Prop := ∀ lims d c, Sorted lims → Right lims d c → bucket lims d = some c

theorem Right.iff {lims : List Int} (hs : Sorted lims) {d : Int} {c : Nat} (h : Right lims d c) {j : Nat} {x : Int} (hx : lims[j]? = some x) : x < d ↔ j < c := by
  have hj : j < lims.length := (List.getElem?_eq_some_iff.mp hx).1
  constructor
  · intro hxd
    apply Classical.byContradiction
    intro hjc
    have hc : c < lims.length := by omega
    have h1 := h.le lims[c] (List.getElem?_eq_getElem hc)
    by_cases hcj : c = j
    · subst hcj
      rw [List.getElem?_eq_getElem hc] at hx
      simp only [Option.some.injEq] at hx
      omega
    · have := hs c j _ x (by omega) (List.getElem?_eq_getElem hc) hx
      omega
  · intro hjc
    have hc : c - 1 < lims.length := by have := h.len; omega
    have h1 := h.gt (c - 1) lims[c - 1] (by omega) (List.getElem?_eq_getElem hc)
    by_cases hcj : j = c - 1
    · subst hcj
      rw [List.getElem?_eq_getElem hc] at hx
      simp only [Option.some.injEq] at hx
      omega
    · have := hs j (c - 1) x _ (by omega) hx (List.getElem?_eq_getElem hc)
      omega

/-- There is one bucket for a datum. -/
theorem right_unique {lims : List Int} (hs : Sorted lims) {d : Int} {c c' : Nat} (h : Right lims d c) (h' : Right lims d c') : c = c' := by
  have key : ∀ {a b : Nat}, Right lims d a → Right lims d b → ¬ a < b := by
    intro a b ha hb hlt
    have hl : a < lims.length := by have := hb.len; omega
    have h1 := (hb.iff hs (List.getElem?_eq_getElem hl)).mpr hlt
    have h2 := (ha.iff hs (List.getElem?_eq_getElem hl)).mp h1
    omega
  have := key h h'
  have := key h' h
  omega

theorem right_exists (lims : List Int) (d : Int) : ∃ c, Right lims d c := by
  induction lims with
  | nil => exact ⟨0, by simp, by simp, by simp⟩
  | cons x l ih =>
    by_cases hx : x < d
    · obtain ⟨c, h⟩ := ih
      refine ⟨c + 1, by have := h.len; simp only [List.length_cons]; omega, fun y hy => h.le y (by simpa using hy), ?_⟩
      intro j y hj hy
      match j with
      | 0 => simp only [List.getElem?_cons_zero, Option.some.injEq] at hy; omega
      | j + 1 => exact h.gt j y (by omega) (by simpa using hy)
    · refine ⟨0, by simp, ?_, fun j y hj => by omega⟩
      intro y hy
      simp only [List.getElem?_cons_zero, Option.some.injEq] at hy
      omega

theorem search_near {lims : List Int} (hs : Sorted lims) {d : Int} {c : Nat} (h : Right lims d c) (fuel : Nat) (lo hi : Int) (h0 : 0 ≤ lo) (h1 : hi ≤ lims.length) (h2 : lo ≤ c) (h3 : (c : Int) ≤ hi + 1)
    (h4 : lo ≤ lims.length) (h5 : hi - lo < fuel) (h6 : 0 < fuel) : ∃ b, search lims fuel lo hi d = some b ∧ b ≤ lims.length ∧ (c = b ∨ c = b + 1) := by
  induction fuel generalizing lo hi with
  | zero => omega
  | succ fuel ih =>
    unfold search
    split
    · next hlt =>
      dsimp only
      have hm : (lo + (hi - lo) / 2).toNat < lims.length := by omega
      rw [List.getElem?_eq_getElem hm]
      have hiff := h.iff hs (List.getElem?_eq_getElem hm)
      dsimp only
      split
      · next hx =>
        have := hiff.mp hx
        exact ih (lo + (hi - lo) / 2 + 1) hi (by omega) h1 (by omega) h3 (by omega) (by omega) (by omega)
      · next hx =>
        have : ¬ (lo + (hi - lo) / 2).toNat < c := fun hc => hx (hiff.mpr hc)
        exact ih lo (lo + (hi - lo) / 2 - 1) h0 (by omega) h2 (by omega) h4 (by omega) (by omega)
    · exact ⟨lo.toNat, rfl, by omega, by omega⟩

/-- **C65** (partial). An insert never reads outside of the limits, and the datum is counted in its bucket or in the one before. The full statement is `Counts`. -/
theorem counts_partial (lims : List Int) (hs : Sorted lims) (d : Int) (c : Nat) (h : Right lims d c) : ∃ b, bucket lims d = some b ∧ b ≤ lims.length ∧ (c = b ∨ c = b + 1) := by
  have := h.len
  exact search_near hs h _ 0 _ (by omega) (by omega) (by omega) (by omega) (by omega) (by omega) (by omega)

/-- With one limit or none each datum is counted in its bucket. -/
theorem counts_small (lims : List Int) (hl : lims.length ≤ 1) (d : Int) (c : Nat) (h : Right lims d c) : bucket lims d = some c := by
  match lims, hl with
  | [], _ =>
    have := h.len
    have : c = 0 := by simpa using this
    subst this
    rfl
  | [x], _ =>
    have hlen := h.len
    simp only [List.length_singleton] at hlen
    have hc : c = 0 ∨ c = 1 := by omega
    rcases hc with rfl | rfl
    · have := h.le x rfl
      have hn : ¬ x < d := by omega
      simp [bucket, search, hn]
    · have := h.gt 0 x rfl rfl
      simp [bucket, search, this]

/-- Once the upper end has gone below the bucket of the datum, the search ends there. -/
theorem search_below {lims : List Int} (hs : Sorted lims) {d : Int} {c : Nat} (h : Right lims d c) (fuel : Nat) (lo hi : Int) (h0 : 0 ≤ lo) (h1 : lo ≤ hi) (h2 : hi + 1 = c) (h5 : hi - lo < fuel) :
    search lims fuel lo hi d = some (c - 1) := by
  induction fuel generalizing lo with
  | zero => omega
  | succ fuel ih =>
    have hlen := h.len
    unfold search
    split
    · next hlt =>
      dsimp only
      have hm : (lo + (hi - lo) / 2).toNat < lims.length := by omega
      rw [List.getElem?_eq_getElem hm]
      have hx := (h.iff hs (List.getElem?_eq_getElem hm)).mpr (by omega)
      dsimp only
      rw [if_pos hx]
      exact ih _ (by omega) (by omega) (by omega)
    · simp only [Option.some.injEq]; omega

/-- With two limits or more, each datum that belongs to the bucket in the middle is counted in the one before. -/
theorem middle_misplaced (lims : List Int) (hs : Sorted lims) (hl : 2 ≤ lims.length) (d : Int) (h : Right lims d (lims.length / 2)) : bucket lims d = some (lims.length / 2 - 1) := by
  unfold bucket search
  rw [if_pos (by omega)]
  dsimp only
  have hm : ((0 : Int) + ((lims.length : Int) - 0) / 2).toNat < lims.length := by omega
  rw [List.getElem?_eq_getElem hm]
  have hx := h.iff hs (List.getElem?_eq_getElem hm)
  have hn : ¬ lims[((0 : Int) + ((lims.length : Int) - 0) / 2).toNat] < d := by
    intro hc
    have := hx.mp hc
    omega
  dsimp only
  rw [if_neg hn]
  exact search_below hs h _ _ _ (by omega) (by omega) (by omega) (by omega)

/-- `latency_histo_buckets` (trunk.c 26-42). -/
def latency : List Int := [1, 10, 100, 500, 1000, 5000, 10000, 100000, 500000, 1000000, 5000000, 10000000, 100000000, 1000000000, 10000000000]

/-- With the limits of the trunk: a latency of 50 microseconds is counted as one of not more than 10. -/
theorem latency_misplaced : bucket latency 50000 = some 6 ∧ Right latency 50000 7 := by
  refine ⟨by decide +kernel, by decide, ?_, ?_⟩
  · intro x hx
    simp [latency] at hx
    omega
  · intro j x hj hx
    have : j = 6 := by omega
    subst this
    simp [latency] at hx
    omega

theorem not_counts : ¬ Counts := by
  intro h
  have hs : Sorted [10, 20] := by
    intro i j x y hij hi hj
    match i, j with
    | 0, 1 => simp at hi hj; omega
    | 0, j + 2 => simp at hj
    | i + 1, j + 2 => simp at hj
    | _, 0 => omega
    | i + 1, 1 => omega
  have hr : Right [10, 20] 15 1 := by
    refine ⟨by decide, fun x hx => by simp at hx; omega, ?_⟩
    intro j x hj hx
    have : j = 0 := by omega
    subst this
    simp at hx
    omega
  have := h _ _ _ hs hr
  revert this
  decide

/-! ### Everything but the buckets -/

/-- A histogram after some inserts. -/
structure Made (lims : List Int) (l : List Int) (h : Histo) : Prop where
  same : h.lims = lims
  len : h.count.length = lims.length + 1
  num : h.num = l.length
  sum : h.count.sum = l.length
  total : h.total = l.sum
  min : l ≠ [] → h.min ∈ l ∧ ∀ x ∈ l, h.min ≤ x
  max : l ≠ [] → h.max ∈ l ∧ ∀ x ∈ l, x ≤ h.max

theorem sum_modify (l : List Nat) (b : Nat) (hb : b < l.length) : (l.modify b (· + 1)).sum = l.sum + 1 := by
  induction l generalizing b with
  | nil => simp at hb
  | cons x l ih =>
    cases b with
    | zero => simp [List.modify_cons]; omega
    | succ b =>
      have := ih b (by simpa using hb)
      simp only [List.modify_succ_cons, List.sum_cons, this]
      omega

theorem insert_made {lims : List Int} (hs : Sorted lims) {l : List Int} {h : Histo} (hm : Made lims l h) (d : Int) : ∃ h', insert h d = some h' ∧ Made lims (l ++ [d]) h' := by
  obtain ⟨c, hc⟩ := right_exists lims d
  obtain ⟨b, hb, hbl, -⟩ := counts_partial lims hs d c hc
  have hlt : b < h.count.length := by rw [hm.len]; omega
  unfold insert
  rw [hm.same, hb]
  dsimp only
  rw [if_pos hlt]
  refine ⟨_, rfl, ?_⟩
  constructor
  · rfl
  · simp [hm.len]
  · simp [hm.num]
  · simp [sum_modify _ _ hlt, hm.sum]
  · simp [hm.total]
  · intro _
    dsimp only
    have hn := hm.num
    by_cases hl : l = []
    · subst hl; simp at hn; simp [hn]
    · obtain ⟨h1, h2⟩ := hm.min hl
      have hne : h.num ≠ 0 := by rw [hn]; exact fun h => hl (List.length_eq_zero_iff.mp h)
      rw [if_neg hne]
      constructor
      · split
        · exact List.mem_append_left _ h1
        · simp
      · intro x hx
        rcases List.mem_append.mp hx with hx | hx
        · have := h2 x hx; split <;> omega
        · rw [List.mem_singleton.mp hx]; split <;> omega
  · intro _
    dsimp only
    have hn := hm.num
    by_cases hl : l = []
    · subst hl; simp at hn; simp [hn]
    · obtain ⟨h1, h2⟩ := hm.max hl
      have hne : h.num ≠ 0 := by rw [hn]; exact fun h => hl (List.length_eq_zero_iff.mp h)
      rw [if_neg hne]
      constructor
      · split
        · exact List.mem_append_left _ h1
        · simp
      · intro x hx
        rcases List.mem_append.mp hx with hx | hx
        · have := h2 x hx; split <;> omega
        · rw [List.mem_singleton.mp hx]; split <;> omega

theorem create_made (lims : List Int) : Made lims [] (create lims) := by
  constructor <;> simp [create]

/-- The least and greatest of an empty histogram are neutral: no datum of 64 bits is above its least or below its greatest. -/
theorem create_bounds (lims : List Int) (d : Int) (h1 : -2 ^ 63 ≤ d) (h2 : d < 2 ^ 63) : d ≤ (create lims).min ∧ (create lims).max ≤ d := by
  constructor <;> simp [create] <;> omega

example : (2 ^ 63 - 1 : Int) ≤ (create latency).min := (create_bounds latency (2 ^ 63 - 1) (by decide) (by decide)).1

theorem insertAll_made {lims : List Int} (hs : Sorted lims) (l m : List Int) {h : Histo} (hm : Made lims m h) : ∃ h', insertAll h l = some h' ∧ Made lims (m ++ l) h' := by
  induction l generalizing m h with
  | nil => exact ⟨h, rfl, by simpa using hm⟩
  | cons d l ih =>
    obtain ⟨h1, e1, m1⟩ := insert_made hs hm d
    obtain ⟨h2, e2, m2⟩ := ih (m ++ [d]) m1
    refine ⟨h2, ?_, by simpa using m2⟩
    simp only [insertAll, List.foldlM_cons, e1] at e2 ⊢
    exact e2

/-- **C65** (2). Inserts never fail, and the number of data, their sum, least and greatest are right; each datum is counted once. -/
theorem histo_made (lims : List Int) (hs : Sorted lims) (l : List Int) : ∃ h, insertAll (create lims) l = some h ∧ Made lims l h := by
  simpa using insertAll_made hs l [] (create_made lims)

theorem zip_modify (a b : List Nat) (k : Nat) (h : a.length = b.length) : List.zipWith (· + ·) a (b.modify k (· + 1)) = (List.zipWith (· + ·) a b).modify k (· + 1) := by
  induction a generalizing b k with
  | nil => cases b <;> simp at h ⊢
  | cons x a ih =>
    cases b with
    | nil => simp at h
    | cons y b =>
      cases k with
      | zero => simp [List.modify_cons]; omega
      | succ k =>
        have := ih b k (by simpa using h)
        simp [this]

theorem zip_zero (a : List Nat) (n : Nat) (h : a.length = n) : List.zipWith (· + ·) a (List.replicate n 0) = a := by
  induction a generalizing n with
  | nil => simp
  | cons x a ih =>
    subst h
    simp only [List.length_cons, List.replicate_succ, List.zipWith_cons_cons, Nat.add_zero]
    rw [ih _ rfl]

theorem insert_eq {h : Histo} {d : Int} {b : Nat} (hb : bucket h.lims d = some b) (hl : b < h.count.length) :
    insert h d = some { h with count := h.count.modify b (· + 1), num := h.num + 1, total := h.total + d,
                               min := if h.num = 0 then d else if h.min < d then h.min else d,
                               max := if h.num = 0 then d else if d < h.max then h.max else d } := by
  unfold insert
  rw [hb]
  exact if_pos hl

theorem merge_eq {f g : Histo} (h0 : g.num ≠ 0) (hl : f.count.length = g.count.length) (hs : f.lims = g.lims) :
    mergeIn f g = some { f with min := if g.min < f.min ∨ f.num = 0 then g.min else f.min,
                                max := if f.max < g.max ∨ f.num = 0 then g.max else f.max,
                                total := f.total + g.total, num := f.num + g.num,
                                count := List.zipWith (· + ·) f.count g.count } := by
  unfold mergeIn
  rw [if_neg h0]
  exact if_pos ⟨hl, hs⟩

/-- A merge and then an insert into the first is the same as an insert into the second and then the merge. -/
theorem merge_insert {lims : List Int} (hs : Sorted lims) {l m : List Int} {f g : Histo} (hf : Made lims l f) (hg : Made lims m g) (d : Int) {g' k : Histo} (hgg : insert g d = some g') (hk : mergeIn f g = some k)
    (h0 : m = [] → g = create lims) : mergeIn f g' = insert k d := by
  obtain ⟨c, hc⟩ := right_exists lims d
  obtain ⟨b, hb, hbl, -⟩ := counts_partial lims hs d c hc
  have hfl := hf.len
  have hgl := hg.len
  have hlim : f.lims = g.lims := by rw [hf.same, hg.same]
  rw [insert_eq (by rw [hg.same]; exact hb) (by omega)] at hgg
  simp only [Option.some.injEq] at hgg
  subst hgg
  rw [merge_eq (g := { g with count := _, num := _, min := _, max := _, total := _ }) (Nat.succ_ne_zero _) (by simp; omega) hlim]
  by_cases hm : g.num = 0
  · have hgc := h0 (List.length_eq_zero_iff.mp (by rw [← hg.num]; exact hm))
    unfold mergeIn at hk
    rw [if_pos hm] at hk
    simp only [Option.some.injEq] at hk
    subst hk
    rw [insert_eq (by rw [hf.same]; exact hb) (by omega)]
    have hz : List.zipWith (· + ·) f.count (g.count.modify b (· + 1)) = f.count.modify b (· + 1) := by
      rw [zip_modify _ _ _ (by omega)]
      congr 1
      rw [hgc]
      exact zip_zero _ _ hfl
    have ht : g.total = 0 := by rw [hgc]; rfl
    simp only [hz, ht, hm, if_true, Option.some.injEq, Histo.mk.injEq, true_and]
    refine ⟨?_, ?_, ?_⟩
    all_goals grind
  · rw [merge_eq hm (by omega) hlim] at hk
    simp only [Option.some.injEq] at hk
    subst hk
    rw [insert_eq (by rw [← hb, ← hf.same]) (by simp; omega)]
    simp only [zip_modify _ _ b (show f.count.length = g.count.length by omega), Option.some.injEq, Histo.mk.injEq, true_and]
    refine ⟨by omega, ?_, ?_, by omega⟩
    all_goals grind

/-- **C65** (3). Merging the histograms of two threads gives exactly the histogram of all their data. -/
theorem merge_all (lims : List Int) (hs : Sorted lims) (l m : List Int) (f g : Histo) (hf : insertAll (create lims) l = some f) (hg : insertAll (create lims) m = some g) :
    mergeIn f g = insertAll (create lims) (l ++ m) := by
  have hfm : Made lims l f := by obtain ⟨h, e, hm⟩ := histo_made lims hs l; rw [hf] at e; cases e; exact hm
  have app : insertAll (create lims) (l ++ m) = insertAll f m := by
    unfold insertAll at hf ⊢
    rw [List.foldlM_append, hf]
    rfl
  rw [app]
  have gen : ∀ (m2 m1 : List Int) (g1 k : Histo), Made lims m1 g1 → (m1 = [] → g1 = create lims) → mergeIn f g1 = some k → insertAll g1 m2 = some g → mergeIn f g = insertAll k m2 := by
    intro m2
    induction m2 with
    | nil => intro m1 g1 k _ _ hk hi; cases hi; exact hk
    | cons d m2 ih =>
      intro m1 g1 k hm1 h0 hk hi
      obtain ⟨g2, e2, hm2⟩ := insert_made hs hm1 d
      have hmi := merge_insert hs hfm hm1 d e2 hk h0
      simp only [insertAll, List.foldlM_cons, e2] at hi
      have hk2 : ∃ k2, mergeIn f g2 = some k2 := by
        unfold mergeIn
        rw [if_neg (by rw [hm2.num]; simp), if_pos ⟨by rw [hfm.len, hm2.len], by rw [hfm.same, hm2.same]⟩]
        exact ⟨_, rfl⟩
      obtain ⟨k2, hk2⟩ := hk2
      rw [ih (m1 ++ [d]) g2 k2 hm2 (fun h => by simp at h) hk2 hi]
      rw [hmi] at hk2
      simp only [insertAll, List.foldlM_cons, hk2]
      rfl
  exact gen m [] (create lims) f (create_made lims) (fun _ => rfl) (by simp [mergeIn, create]) hg

/-! ### The memory of a histogram -/

/-- A histogram fits in the memory it gets only for some numbers of buckets: the size of the handle is taken for that of the structure. -/
theorem fits_iff (n : Nat) : needed n ≤ allocated n ↔ n % 8 ≤ 2 := by
  unfold needed allocated
  omega

/-- The histograms of the trunk have 16 buckets and fit, with 16 bytes to spare. -/
theorem latency_fits : needed (latency.length + 1) + 16 = allocated (latency.length + 1) := by decide

/-- With up to two buckets more they still fit, with a third they do not. -/
theorem more_buckets : ¬ needed (latency.length + 4) ≤ allocated (latency.length + 4) := by decide

/-! ### Examples -/

theorem latency_sorted : Sorted latency := by
  have hb : ∀ i j : Fin latency.length, i < j → latency[i] < latency[j] := by decide +kernel
  intro i j x y hij hi hj
  obtain ⟨hil, rfl⟩ := List.getElem?_eq_some_iff.mp hi
  obtain ⟨hjl, rfl⟩ := List.getElem?_eq_some_iff.mp hj
  exact hb ⟨i, hil⟩ ⟨j, hjl⟩ hij

example : (insertAll (create latency) [3, 2000, 700000]).map (fun h => (h.num, h.min, h.max, h.total)) = some (3, 3, 700000, 702003) := by decide +kernel

example : bucket latency 50000 = some (latency.length / 2 - 1) := middle_misplaced latency latency_sorted (by decide) 50000 latency_misplaced.2

example : (insertAll (create [10, 20]) [5, 15, 25]).map (·.count) = some [2, 0, 1] := by decide +kernel

end Splinter.Histo
