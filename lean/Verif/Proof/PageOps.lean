import Verif.Proof.Page
/-!
Well-formed slotted pages and the functions that write entries.
-/
namespace Splinter.Page
set_option linter.unusedSectionVars false

variable {E : Type} {f : Format E} {Valid : E → Prop}

/-- Well-formed apart from entry `k`. -/
structure WFx (f : Format E) (ps : Nat) (m : Mem) (k : Nat) : Prop where
  small : ps < 65536
  room : tableEnd (numEntries m) ≤ nextEntry m
  next : nextEntry m ≤ ps
  low : ∀ i, i < numEntries m → i ≠ k → nextEntry m ≤ offset m i
  high : ∀ i, i < numEntries m → i ≠ k → offset m i + f.size m (offset m i) ≤ ps
  apart : ∀ i j, i < numEntries m → j < numEntries m → i ≠ k → j ≠ k → i ≠ j →
    offset m i + f.size m (offset m i) ≤ offset m j ∨ offset m j + f.size m (offset m j) ≤ offset m i

/-- Well-formed page of `ps` bytes: the offset table ends before the entries start, entries
lie inside the page and do not overlap. -/
structure WF (f : Format E) (ps : Nat) (m : Mem) : Prop where
  small : ps < 65536
  room : tableEnd (numEntries m) ≤ nextEntry m
  next : nextEntry m ≤ ps
  low : ∀ i, i < numEntries m → nextEntry m ≤ offset m i
  high : ∀ i, i < numEntries m → offset m i + f.size m (offset m i) ≤ ps
  apart : ∀ i j, i < numEntries m → j < numEntries m → i ≠ j →
    offset m i + f.size m (offset m i) ≤ offset m j ∨ offset m j + f.size m (offset m j) ≤ offset m i

theorem WF.toX {ps : Nat} {m : Mem} (h : WF f ps m) (k : Nat) : WFx f ps m k :=
  ⟨h.small, h.room, h.next, fun i h1 _ => h.low i h1, fun i h1 _ => h.high i h1,
   fun i j h1 h2 _ _ h3 => h.apart i j h1 h2 h3⟩

/-- Only the page's own counters, offset table and entry area may change. -/
def Frame (ps : Nat) (m m' : Mem) : Prop := ∀ i, i < 33 ∨ ps ≤ i → m' i = m i

/-- The number of entries after entry `k` is set. -/
def newNum (m : Mem) (k : Nat) : Nat := if k < numEntries m then numEntries m else k + 1

theorem place_spec (L : Laws f Valid) {ps : Nat} {m : Mem} {k : Nat} {e : E} (w : WFx f ps m k)
    (hk : k ≤ numEntries m) (hv : Valid e) (hfit : tableEnd (newNum m k) + f.cap e ≤ nextEntry m) :
    ∃ m', place f m k e = some (m', true) ∧ WF f ps m' ∧ numEntries m' = newNum m k ∧
      nextEntry m' = nextEntry m - f.cap e ∧ entry f m' k = e ∧
      (∀ i, i < numEntries m → i ≠ k → entry f m' i = entry f m i) ∧
      Frame ps m m' := by
  have hps := w.small
  have hnx := w.next
  have hcap := L.cap_pos e
  have hn : newNum m k = if k < numEntries m then numEntries m else k + 1 := rfl
  have hkn : k < newNum m k := by rw [hn]; split <;> omega
  have hnn : numEntries m ≤ newNum m k := by rw [hn]; split <;> omega
  have hnn' : ∀ i, i < newNum m k → i ≠ k → i < numEntries m := by
    intro i h1 h2; rw [hn] at h1; split at h1 <;> omega
  unfold tableEnd at hfit
  obtain ⟨a, ha⟩ : ∃ a, a = nextEntry m - f.cap e := ⟨_, rfl⟩
  obtain ⟨n, hne⟩ : ∃ n, n = newNum m k := ⟨_, rfl⟩
  rw [← hne] at hfit hkn hnn hnn'
  obtain ⟨m', hm'⟩ : ∃ m', m' = wrN (wrN (wrN (f.fill m a e) (37 + 2 * k) 2 a) 35 2 n) 33 2 a := ⟨_, rfl⟩
  have hpl : place f m k e = some (m', true) := by
    unfold place
    simp only
    rw [← hn, ← hne, if_neg (by unfold tableEnd; omega), ← ha, if_pos (by unfold tableEnd; omega), hm']
  have hnum : numEntries m' = n := by
    unfold numEntries
    rw [hm', rdN_wrN_out (by omega), rdN_wrN2 (by omega)]
  have hnext : nextEntry m' = a := by
    unfold nextEntry
    rw [hm', rdN_wrN2 (by omega)]
  have hin : ∀ i, (i < 33 ∨ (37 ≤ i ∧ (i < 37 + 2 * k ∨ 37 + 2 * k + 2 ≤ i) ∧ (i < a ∨ a + f.cap e ≤ i))) → m' i = m i := by
    intro i hi
    rw [hm', wrN_out (by omega), wrN_out (by omega), wrN_out (by omega), L.fill_out m a e i hv (by omega)]
  have hfillA : ∀ i, a ≤ i → i < a + f.cap e → m' i = f.fill m a e i := by
    intro i h1 h2
    rw [hm', wrN_out (by omega), wrN_out (by omega), wrN_out (by omega)]
  have hoffk : offset m' k = a := by
    unfold offset
    rw [hm', rdN_wrN_out (by omega), rdN_wrN_out (by omega), rdN_wrN2 (by omega)]
  have hoffi : ∀ i, i < n → i ≠ k → offset m' i = offset m i := by
    intro i h1 h2
    unfold offset
    exact rdN_congr (fun x h3 h4 => hin x (by omega))
  have hsz0 := L.fill_size m a e hv
  have hsizek : f.size m' a = f.cap e := by
    rw [L.size_congr (f.fill m a e) m' a (fun i h1 h2 => hfillA i h1 (by omega)), hsz0]
  have hentk : entry f m' k = e := by
    unfold entry
    rw [hoffk, L.read_congr (f.fill m a e) m' a (fun i h1 h2 => hfillA i h1 (by omega)), L.fill_read m a e hv]
  have hkeep : ∀ i, i < numEntries m → i ≠ k → ∀ x, offset m i ≤ x → m' x = m x := by
    intro i h1 h2 x h3
    have := w.low i h1 h2
    exact hin x (by omega)
  have hsizei : ∀ i, i < numEntries m → i ≠ k → f.size m' (offset m i) = f.size m (offset m i) := by
    intro i h1 h2
    exact L.size_congr m m' _ (fun x h3 _ => hkeep i h1 h2 x h3)
  refine ⟨m', hpl, ?_, hnum.trans hne, hnext.trans ha, hentk, ?_, ?_⟩
  · constructor
    · exact hps
    · rw [hnum, hnext]; unfold tableEnd; omega
    · omega
    · intro i hi
      rw [hnum] at hi
      rw [hnext]
      by_cases hik : i = k
      · subst hik; rw [hoffk]; exact Nat.le_refl _
      · rw [hoffi i hi hik]
        have := w.low i (hnn' i hi hik) hik
        omega
    · intro i hi
      rw [hnum] at hi
      by_cases hik : i = k
      · subst hik; rw [hoffk, hsizek]; omega
      · have hi' := hnn' i hi hik
        rw [hoffi i hi hik, hsizei i hi' hik]
        exact w.high i hi' hik
    · intro i j hi hj hij
      rw [hnum] at hi hj
      by_cases hik : i = k
      · subst hik
        have hj' := hnn' j hj (fun h => hij h.symm)
        rw [hoffk, hsizek, hoffi j hj (fun h => hij h.symm)]
        have := w.low j hj' (fun h => hij h.symm)
        left; omega
      · have hi' := hnn' i hi hik
        by_cases hjk : j = k
        · subst hjk
          rw [hoffk, hsizek, hoffi i hi hik]
          have := w.low i hi' hik
          right; omega
        · have hj' := hnn' j hj hjk
          rw [hoffi i hi hik, hoffi j hj hjk, hsizei i hi' hik, hsizei j hj' hjk]
          exact w.apart i j hi' hj' hik hjk hij
  · intro i h1 h2
    unfold entry
    rw [hoffi i (by omega) h2]
    exact L.read_congr m m' _ (fun x h3 _ => hkeep i h1 h2 x h3)
  · intro i hi
    refine hin i ?_
    have hr := w.room
    unfold tableEnd at hr
    omega

/-- The page does not change when the entry does not fit. -/
theorem place_full {m : Mem} {k : Nat} {e : E} (h : nextEntry m < tableEnd (newNum m k) + f.cap e) :
    place f m k e = some (m, false) := by
  unfold place
  exact if_pos h

/-- Overwriting an entry in place with one that is not larger. -/
theorem fill_spec (L : Laws f Valid) {ps : Nat} {m : Mem} {k : Nat} {e : E} (w : WF f ps m)
    (hk : k < numEntries m) (hv : Valid e) (hfit : f.cap e ≤ f.size m (offset m k)) :
    WF f ps (f.fill m (offset m k) e) ∧ numEntries (f.fill m (offset m k) e) = numEntries m ∧
      entry f (f.fill m (offset m k) e) k = e ∧
      (∀ i, i < numEntries m → i ≠ k → entry f (f.fill m (offset m k) e) i = entry f m i) ∧
      Frame ps m (f.fill m (offset m k) e) := by
  have hl := w.low k hk
  have hh := w.high k hk
  have hr := w.room
  unfold tableEnd at hr
  obtain ⟨a, ha⟩ : ∃ a, a = offset m k := ⟨_, rfl⟩
  rw [← ha] at hl hh hfit ⊢
  obtain ⟨m', hm'⟩ : ∃ m', m' = f.fill m a e := ⟨_, rfl⟩
  have hout : ∀ i, i < a ∨ a + f.cap e ≤ i → m' i = m i := fun i hi => by rw [hm']; exact L.fill_out m a e i hv hi
  have hnum : numEntries m' = numEntries m := rdN_congr (fun i h1 h2 => hout i (by omega))
  have hnext : nextEntry m' = nextEntry m := rdN_congr (fun i h1 h2 => hout i (by omega))
  have hoff : ∀ i, i < numEntries m → offset m' i = offset m i := by
    intro i hi
    exact rdN_congr (fun x h1 h2 => hout x (by omega))
  have hszk : f.size m' a = f.cap e := by rw [hm']; exact L.fill_size m a e hv
  have hkeep : ∀ i, i < numEntries m → i ≠ k → ∀ x, offset m i ≤ x → x < offset m i + f.size m (offset m i) → m' x = m x := by
    intro i h1 h2 x h3 h4
    have := w.apart i k h1 hk h2
    rw [← ha] at this
    exact hout x (by omega)
  have hszi : ∀ i, i < numEntries m → i ≠ k → f.size m' (offset m i) = f.size m (offset m i) :=
    fun i h1 h2 => L.size_congr m m' _ (hkeep i h1 h2)
  rw [← hm']
  refine ⟨⟨w.small, ?_, ?_, ?_, ?_, ?_⟩, hnum, ?_, ?_, ?_⟩
  · rw [hnum, hnext]; unfold tableEnd; omega
  · rw [hnext]; exact w.next
  · intro i hi
    rw [hnum] at hi
    rw [hnext, hoff i hi]; exact w.low i hi
  · intro i hi
    rw [hnum] at hi
    rw [hoff i hi]
    by_cases hik : i = k
    · subst hik; rw [← ha, hszk]; omega
    · rw [hszi i hi hik]; exact w.high i hi
  · intro i j hi hj hij
    rw [hnum] at hi hj
    rw [hoff i hi, hoff j hj]
    have h := w.apart i j hi hj hij
    by_cases hik : i = k
    · subst hik
      have hjk : j ≠ i := fun h => hij h.symm
      rw [hszi j hj hjk, ← ha, hszk]
      rw [← ha] at h; omega
    · by_cases hjk : j = k
      · subst hjk
        rw [hszi i hi hik, ← ha, hszk]
        rw [← ha] at h; omega
      · rw [hszi i hi hik, hszi j hj hjk]; exact h
  · unfold entry
    rw [hoff k hk, ← ha, hm']; exact L.fill_read m a e hv
  · intro i h1 h2
    unfold entry
    rw [hoff i h1]
    exact L.read_congr m m' _ (hkeep i h1 h2)
  · intro i hi
    have := w.next
    exact hout i (by omega)

/-- Table entries after `rotate`. -/
theorem rotate_spec (L : Laws f Valid) {ps : Nat} {m : Mem} {k n : Nat} (w : WF f ps m)
    (hn : numEntries m = n + 1) (hk : k ≤ n) :
    WF f ps (rotate m k) ∧ numEntries (rotate m k) = n + 1 ∧ nextEntry (rotate m k) = nextEntry m ∧
      entry f (rotate m k) k = entry f m n ∧
      (∀ i, i < k → entry f (rotate m k) i = entry f m i) ∧
      (∀ i, k ≤ i → i < n → entry f (rotate m k) (i + 1) = entry f m i) ∧
      Frame ps m (rotate m k) := by
  have hr := w.room
  have hps := w.small
  have hnp := w.next
  rw [hn] at hr
  unfold tableEnd at hr
  obtain ⟨m', hm'⟩ : ∃ m', m' = rotate m k := ⟨_, rfl⟩
  have hdef : m' = wrN (wr m (37 + 2 * (k + 1)) (rd m (37 + 2 * k) ((n - k) * 2))) (37 + 2 * k) 2 (offset m n) := by
    rw [hm']; unfold rotate
    simp only [hn, Nat.add_sub_cancel]
    have : n + 1 - k - 1 = n - k := by omega
    rw [this]
  have hlen : (rd m (37 + 2 * k) ((n - k) * 2)).length = (n - k) * 2 := rd_length _ _ _
  have hout : ∀ i, i < 37 + 2 * k ∨ 37 + 2 * (n + 1) ≤ i → m' i = m i := by
    intro i hi
    rw [hdef, wrN_out (by omega), wr_out (by rw [hlen]; omega)]
  have hmov : ∀ i, 37 + 2 * (k + 1) ≤ i → i < 37 + 2 * (n + 1) → m' i = m (i - 2) := by
    intro i h1 h2
    rw [hdef, wrN_out (by omega), wr_in (by omega) (by rw [hlen]; omega)]
    rw [List.getD_eq_getElem?_getD, List.getElem?_eq_getElem (by rw [hlen]; omega)]
    simp only [rd, List.getElem_map, List.getElem_range, Option.getD_some]
    congr 1; omega
  have hnum : numEntries m' = n + 1 := by
    rw [← hn]; exact rdN_congr (fun i h1 h2 => hout i (by omega))
  have hnext : nextEntry m' = nextEntry m := rdN_congr (fun i h1 h2 => hout i (by omega))
  have hok : offset m' k = offset m n := by
    unfold offset
    rw [hdef, rdN_wrN2 (show offset m n < 65536 from rd2_lt _ _)]
    rfl
  have holt : ∀ i, i < k → offset m' i = offset m i := by
    intro i hi
    exact rdN_congr (fun x h1 h2 => hout x (by omega))
  have hogt : ∀ i, k ≤ i → i < n → offset m' (i + 1) = offset m i := by
    intro i h1 h2
    unfold offset rdN
    congr 1
    unfold rd
    apply List.map_congr_left
    intro x hx
    rw [List.mem_range] at hx
    rw [hmov _ (by omega) (by omega)]
    congr 1; omega
  -- where each slot came from
  have hsrc : ∀ i, i < n + 1 → ∃ j, j < n + 1 ∧ offset m' i = offset m j ∧
      ((i < k ∧ j = i) ∨ (i = k ∧ j = n) ∨ (k < i ∧ j + 1 = i)) := by
    intro i hi
    rcases Nat.lt_trichotomy i k with h | h | h
    · exact ⟨i, hi, holt i h, .inl ⟨h, rfl⟩⟩
    · subst h; exact ⟨n, by omega, hok, .inr (.inl ⟨rfl, rfl⟩)⟩
    · refine ⟨i - 1, by omega, ?_, .inr (.inr ⟨h, by omega⟩)⟩
      have := hogt (i - 1) (by omega) (by omega)
      rw [← this]; congr 1; omega
  have hkeep : ∀ j, j < n + 1 → ∀ x, offset m j ≤ x → m' x = m x := by
    intro j hj x hx
    have := w.low j (by omega)
    exact hout x (by omega)
  have hsz : ∀ j, j < n + 1 → f.size m' (offset m j) = f.size m (offset m j) :=
    fun j hj => L.size_congr m m' _ (fun x h1 _ => hkeep j hj x h1)
  have hrd : ∀ j, j < n + 1 → f.read m' (offset m j) = f.read m (offset m j) :=
    fun j hj => L.read_congr m m' _ (fun x h1 _ => hkeep j hj x h1)
  rw [← hm']
  refine ⟨⟨hps, ?_, ?_, ?_, ?_, ?_⟩, hnum, hnext, ?_, ?_, ?_, ?_⟩
  · rw [hnum, hnext]; unfold tableEnd; omega
  · rw [hnext]; exact hnp
  · intro i hi
    rw [hnum] at hi
    obtain ⟨j, hj, e, _⟩ := hsrc i hi
    rw [hnext, e]; exact w.low j (by omega)
  · intro i hi
    rw [hnum] at hi
    obtain ⟨j, hj, e, _⟩ := hsrc i hi
    rw [e, hsz j hj]; exact w.high j (by omega)
  · intro i i' hi hi' hne
    rw [hnum] at hi hi'
    obtain ⟨j, hj, e, c⟩ := hsrc i hi
    obtain ⟨j', hj', e', c'⟩ := hsrc i' hi'
    rw [e, e', hsz j hj, hsz j' hj']
    exact w.apart j j' (by omega) (by omega) (by omega)
  · unfold entry; rw [hok]; exact hrd n (by omega)
  · intro i hi; unfold entry; rw [holt i hi]; exact hrd i (by omega)
  · intro i h1 h2; unfold entry; rw [hogt i h1 h2]; exact hrd i (by omega)
  · intro i hi
    exact hout i (by omega)

end Splinter.Page
