import Verif.Model.Alloc
import Mathlib.Data.Finset.Card
import Mathlib.Data.Finset.Range

/-!
# C37: superblock slots

The specification is a partial map from table ids to addresses, maintained along every history of
registrations and removals. Ids are non-zero (0 is `INVALID_ALLOCATOR_ROOT_ID`) and an id is registered only
while it is not registered, removed only while it is: `alloc_super_addr` does not check this, see
`register_twice`.
-/
namespace Splinter.Alloc

theorem find_some {ids : List Nat} {id i : Nat} (h : find ids id = some i) : ids[i]? = some id ∧ ∀ j, j < i → ids[j]? ≠ some id := by
  rw [find, List.findIdx?_eq_some_iff_getElem] at h
  obtain ⟨hi, h1, h2⟩ := h
  refine ⟨by rw [List.getElem?_eq_getElem hi]; simpa using h1, fun j hj he => ?_⟩
  rw [List.getElem?_eq_getElem (by omega)] at he
  exact h2 j hj (by simpa using he)

theorem find_none {ids : List Nat} {id : Nat} (h : find ids id = none) (i : Nat) : ids[i]? ≠ some id := by
  intro hi
  rw [find, List.findIdx?_eq_none_iff] at h
  have := h id (List.mem_of_getElem? hi)
  simp at this

/-- Histories of registrations (`reg`) and removals, with the map they should produce. -/
inductive SReach (ps : Nat) : List Nat → (Nat → Option Nat) → Prop
  | init : SReach ps initIds fun _ => none
  | reg {ids ids' m a} (id : Nat) : SReach ps ids m → id ≠ 0 → m id = none → allocSuper ps ids id = some (ids', a) →
      SReach ps ids' (upd m id (some a))
  | unreg {ids ids' m} (id : Nat) : SReach ps ids m → m id ≠ none → removeSuper ids id = some ids' → SReach ps ids' (upd m id none)

structure SInv (ps : Nat) (ids : List Nat) (m : Nat → Option Nat) : Prop where
  len : ids.length = 30
  slot : ∀ (id i : Nat), id ≠ 0 → ids[i]? = some id → m id = some ((1 + i) * ps)
  one : ∀ (id i j : Nat), id ≠ 0 → ids[i]? = some id → ids[j]? = some id → i = j
  map : ∀ id a, m id = some a → id ≠ 0 ∧ ∃ i : Nat, ids[i]? = some id ∧ a = (1 + i) * ps

theorem sreach_inv {ps : Nat} {ids : List Nat} {m : Nat → Option Nat} (h : SReach ps ids m) : SInv ps ids m := by
  induction h with
  | init =>
    refine ⟨by simp [initIds], fun id i h0 hi => ?_, fun id i j h0 hi => ?_, fun id a h => by cases h⟩ <;>
    · have := List.mem_of_getElem? hi
      rw [initIds] at this
      exact absurd (List.eq_of_mem_replicate this) h0
  | @reg ids ids' m a id _ h0 hn ha ih =>
    unfold allocSuper at ha
    cases hf : find ids 0 with
    | none => rw [hf] at ha; cases ha
    | some k =>
      rw [hf] at ha
      simp only [Option.map_some, Option.some.injEq, Prod.mk.injEq] at ha
      obtain ⟨rfl, rfl⟩ := ha
      have hk := (find_some hf).1
      have hlt : k < ids.length := (List.getElem?_eq_some_iff.1 hk).1
      have get : ∀ (i x : Nat), (ids.set k id)[i]? = some x → (i = k ∧ x = id) ∨ (i ≠ k ∧ ids[i]? = some x) := by
        intro i x hx
        rw [List.getElem?_set] at hx
        by_cases e : k = i
        · subst e; rw [if_pos rfl, if_pos hlt] at hx; injection hx with hx; exact .inl ⟨rfl, hx.symm⟩
        · rw [if_neg e] at hx; exact .inr ⟨fun h => e h.symm, hx⟩
      refine ⟨by simp [ih.len], fun x i x0 hx => ?_, fun x i j x0 hi hj => ?_, fun x a hx => ?_⟩
      · rcases get i x hx with ⟨rfl, rfl⟩ | ⟨_, hx⟩
        · simp [upd]
        · have h1 := ih.slot x i x0 hx
          have : x ≠ id := fun h => by rw [h, hn] at h1; cases h1
          simp only [upd, if_neg this]; exact h1
      · rcases get i x hi with ⟨rfl, rfl⟩ | ⟨_, hi'⟩ <;> rcases get j _ hj with ⟨rfl, h2⟩ | ⟨_, hj'⟩
        · rfl
        · have := ih.slot _ _ x0 hj'; rw [hn] at this; cases this
        · subst h2; have := ih.slot _ _ x0 hi'; rw [hn] at this; cases this
        · exact ih.one x i j x0 hi' hj'
      · simp only [upd] at hx
        by_cases e : x = id
        · subst e
          rw [if_pos rfl] at hx
          injection hx with hx
          exact ⟨h0, k, by rw [List.getElem?_set, if_pos rfl, if_pos hlt], hx.symm⟩
        · rw [if_neg e] at hx
          obtain ⟨x0, i, hi, rfl⟩ := ih.map x a hx
          refine ⟨x0, i, ?_, rfl⟩
          rw [List.getElem?_set, if_neg]
          · exact hi
          · intro h; subst h; rw [hk] at hi; injection hi with hi; exact x0 hi.symm
  | @unreg ids ids' m id _ hn ha ih =>
    unfold removeSuper at ha
    cases hf : find ids id with
    | none => rw [hf] at ha; cases ha
    | some k =>
      rw [hf] at ha
      simp only [Option.map_some, Option.some.injEq] at ha
      subst ha
      have hk := (find_some hf).1
      have hlt : k < ids.length := (List.getElem?_eq_some_iff.1 hk).1
      have get : ∀ (i x : Nat), x ≠ 0 → (ids.set k 0)[i]? = some x → i ≠ k ∧ ids[i]? = some x := by
        intro i x x0 hx
        rw [List.getElem?_set] at hx
        by_cases e : k = i
        · subst e; rw [if_pos rfl, if_pos hlt] at hx; injection hx with hx; exact absurd hx.symm x0
        · rw [if_neg e] at hx; exact ⟨fun h => e h.symm, hx⟩
      refine ⟨by simp [ih.len], fun x i x0 hx => ?_, fun x i j x0 hi hj => ?_, fun x a hx => ?_⟩
      · obtain ⟨h1, h2⟩ := get i x x0 hx
        have : x ≠ id := fun h => by subst h; exact h1 (ih.one x i k x0 h2 hk)
        simp only [upd, if_neg this]; exact ih.slot x i x0 h2
      · exact ih.one x i j x0 (get i x x0 hi).2 (get j x x0 hj).2
      · simp only [upd] at hx
        by_cases e : x = id
        · rw [if_pos e] at hx; cases hx
        · rw [if_neg e] at hx
          obtain ⟨x0, i, hi, rfl⟩ := ih.map x a hx
          refine ⟨x0, i, ?_, rfl⟩
          rw [List.getElem?_set, if_neg]
          · exact hi
          · intro h; subst h; rw [hk] at hi; injection hi with hi; exact e hi.symm

/-- C37, lookup: an id that has been registered and not removed has the address it was given; any other id
has none. -/
theorem super_lookup {ps : Nat} {ids : List Nat} {m : Nat → Option Nat} (h : SReach ps ids m) (id : Nat) (h0 : id ≠ 0) :
    getSuper ps ids id = m id := by
  have inv := sreach_inv h
  unfold getSuper
  cases hf : find ids id with
  | some i => exact (inv.slot id i h0 (find_some hf).1).symm
  | none =>
    cases hm : m id with
    | none => rfl
    | some a => obtain ⟨_, i, hi, _⟩ := inv.map id a hm; exact absurd hi (find_none hf i)

/-- C37, no collision: addresses of different ids are at least a page apart, page aligned, behind the
allocator's own page and inside the first extent. -/
theorem super_disjoint {ps es : Nat} (hes : (1 + 30) * ps ≤ es) {ids : List Nat} {m : Nat → Option Nat} (h : SReach ps ids m)
    {id a : Nat} (ha : m id = some a) :
    ps ∣ a ∧ ps ≤ a ∧ a + ps ≤ es ∧ ∀ id' a', id' ≠ id → m id' = some a' → a + ps ≤ a' ∨ a' + ps ≤ a := by
  have inv := sreach_inv h
  obtain ⟨h0, i, hi, rfl⟩ := inv.map id a ha
  have hlt : i < 30 := by rw [← inv.len]; exact (List.getElem?_eq_some_iff.1 hi).1
  refine ⟨Nat.dvd_mul_left _ _, ?_, ?_, fun id' a' hne ha' => ?_⟩
  · rw [Nat.add_mul, Nat.one_mul]; omega
  · have : (1 + i + 1) * ps ≤ (1 + 30) * ps := Nat.mul_le_mul_right _ (by omega)
    rw [Nat.add_mul (1 + i), Nat.one_mul] at this
    omega
  · obtain ⟨_, j, hj, rfl⟩ := inv.map id' a' ha'
    have hij : i ≠ j := fun e => by subst e; rw [hi] at hj; injection hj with hj; exact hne hj.symm
    rcases Nat.lt_or_gt_of_ne hij with hl | hl
    · have : (1 + i + 1) * ps ≤ (1 + j) * ps := Nat.mul_le_mul_right _ (by omega)
      rw [Nat.add_mul (1 + i), Nat.one_mul] at this
      exact .inl this
    · have : (1 + j + 1) * ps ≤ (1 + i) * ps := Nat.mul_le_mul_right _ (by omega)
      rw [Nat.add_mul (1 + j), Nat.one_mul] at this
      exact .inr this

/-- C37, failure: registration fails exactly when 30 different ids are registered; it never has more. -/
theorem super_full {ps : Nat} {ids : List Nat} {m : Nat → Option Nat} (h : SReach ps ids m) (id : Nat) :
    (allocSuper ps ids id = none ↔ ∃ l : Finset Nat, l.card = 30 ∧ ∀ x ∈ l, m x ≠ none) ∧
    ∀ l : Finset Nat, (∀ x ∈ l, m x ≠ none) → l.card ≤ 30 := by
  have inv := sreach_inv h
  have bound : ∀ l : Finset Nat, (∀ x ∈ l, m x ≠ none) → ∃ l' ⊆ Finset.range 30, l'.card = l.card ∧ ∀ i ∈ l', ∃ x, x ≠ 0 ∧ ids[i]? = some x := by
    intro l hl
    have : ∀ x, x ∈ l → ∃ i : Nat, x ≠ 0 ∧ ids[i]? = some x := fun x hx => by
      cases hm : m x with
      | none => exact absurd hm (hl x hx)
      | some a => obtain ⟨x0, i, hi, _⟩ := inv.map x a hm; exact ⟨i, x0, hi⟩
    classical
    obtain ⟨f, hf⟩ : ∃ f : Nat → Nat, ∀ x ∈ l, x ≠ 0 ∧ ids[f x]? = some x :=
      ⟨fun x => if hx : x ∈ l then (this x hx).choose else 0, fun x hx => by simp only [dif_pos hx]; exact (this x hx).choose_spec⟩
    refine ⟨l.image f, ?_, ?_, ?_⟩
    · intro i hi
      obtain ⟨x, hx, rfl⟩ := Finset.mem_image.1 hi
      rw [Finset.mem_range, ← inv.len]
      exact (List.getElem?_eq_some_iff.1 (hf x hx).2).1
    · refine Finset.card_image_of_injOn fun x hx y hy hxy => ?_
      have h1 := (hf x hx).2
      rw [hxy, (hf y hy).2] at h1
      injection h1 with h1; exact h1.symm
    · intro i hi
      obtain ⟨x, hx, rfl⟩ := Finset.mem_image.1 hi
      exact ⟨x, hf x hx⟩
  refine ⟨⟨fun hn => ?_, fun ⟨l, hc, hl⟩ => ?_⟩, fun l hl => ?_⟩
  · have hf : find ids 0 = none := by
      unfold allocSuper at hn
      cases hf : find ids 0 with
      | none => rfl
      | some i => rw [hf] at hn; cases hn
    refine ⟨(Finset.range 30).image fun i => ids[i]?.getD 0, ?_, fun x hx => ?_⟩
    · rw [Finset.card_image_of_injOn, Finset.card_range]
      intro i hi j hj hij
      have hi' : i < ids.length := by rw [inv.len]; simpa using hi
      have hj' : j < ids.length := by rw [inv.len]; simpa using hj
      simp only [List.getElem?_eq_getElem hi', List.getElem?_eq_getElem hj', Option.getD_some] at hij
      have hi2 := List.getElem?_eq_getElem hi'
      have hj2 := List.getElem?_eq_getElem hj'
      rw [← hij] at hj2
      exact inv.one _ i j (fun h0 => find_none hf i (h0 ▸ hi2)) hi2 hj2
    · obtain ⟨i, hi, rfl⟩ := Finset.mem_image.1 hx
      have hi' : i < ids.length := by rw [inv.len]; simpa using hi
      have hi2 := List.getElem?_eq_getElem hi'
      simp only [hi2, Option.getD_some]
      rw [inv.slot _ i (fun h0 => find_none hf i (h0 ▸ hi2)) hi2]
      simp
  · obtain ⟨l', hs, hc', hl'⟩ := bound l hl
    have : l' = Finset.range 30 := Finset.eq_of_subset_of_card_le hs (by rw [hc', hc, Finset.card_range])
    unfold allocSuper
    cases hf : find ids 0 with
    | none => rfl
    | some i =>
      have h1 := (find_some hf).1
      have : i ∈ l' := by rw [this, Finset.mem_range, ← inv.len]; exact (List.getElem?_eq_some_iff.1 h1).1
      obtain ⟨x, x0, hx⟩ := hl' i this
      rw [h1] at hx; injection hx with hx; exact absurd hx.symm x0
  · obtain ⟨l', hs, hc', _⟩ := bound l hl
    rw [← hc']
    exact (Finset.card_le_card hs).trans (by simp)

/-- Removing a registered id does not fail. -/
theorem super_remove {ps : Nat} {ids : List Nat} {m : Nat → Option Nat} (h : SReach ps ids m) (id : Nat) (hm : m id ≠ none) :
    ∃ ids', removeSuper ids id = some ids' := by
  have inv := sreach_inv h
  cases hm' : m id with
  | none => exact absurd hm' hm
  | some a =>
    obtain ⟨_, i, hi, _⟩ := inv.map id a hm'
    unfold removeSuper
    cases hf : find ids id with
    | none => exact absurd hi (find_none hf i)
    | some j => exact ⟨_, rfl⟩

/-- A history: ids 7 and 9 registered, 7 removed, 11 registered in its place. -/
example : ∃ ids m, SReach 4096 ids m ∧ m 9 = some 8192 ∧ m 11 = some 4096 ∧ m 7 = none :=
  ⟨_, _, .reg 11 (.unreg 7 (.reg 9 (.reg 7 .init (by decide) rfl rfl) (by decide) rfl rfl) (by decide) rfl) (by decide) rfl rfl, by decide⟩

/-- Disagreement with C37 outside the stated use: registering an id that is already registered takes a second slot, and
one removal leaves the id registered, at another address. -/
theorem register_twice : ∃ i1 i2 i3, allocSuper 4096 initIds 7 = some (i1, 4096) ∧ allocSuper 4096 i1 7 = some (i2, 8192) ∧
    getSuper 4096 i2 7 = some 4096 ∧ removeSuper i2 7 = some i3 ∧ getSuper 4096 i3 7 = some 8192 :=
  ⟨_, _, _, rfl, rfl, rfl, rfl, rfl⟩

end Splinter.Alloc
