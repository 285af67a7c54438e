import Verif.Model.Slice
/-!
# C08: the default key order

Specification: Lean's own lexicographic order `<` on `List UInt8`
(shorter prefix first), extended with bottom and top.
-/
namespace Splinter

/-- Specification order on keys: `-∞ < every user key < +∞`, user keys
lexicographically. -/
inductive KeyLt : Key → Key → Prop where
  | negUser (b) : KeyLt .negInf (.user b)
  | negPos : KeyLt .negInf .posInf
  | userPos (a) : KeyLt (.user a) .posInf
  | user (a b : Bytes) (h : a < b) : KeyLt (.user a) (.user b)

/-- The lengths the code can meet without truncation of the length difference:
a C object is smaller than 2^31 bytes (user keys are limited to `max_key_size`,
itself far smaller). -/
def SmallLen (a : Bytes) : Prop := a.length < 2 ^ 31

private theorem toCInt_small {x : Int} (h0 : 0 ≤ x) (h1 : x < 2 ^ 31) : toCInt x = x := by
  unfold toCInt; rw [Int.bmod_eq_of_le] <;> omega

private theorem memcmp_self (a : Bytes) : memcmp a a = 0 := by
  induction a with
  | nil => rfl
  | cons x xs ih => simp [memcmp, ih]

private theorem u8_ne {a b : UInt8} (h : a ≠ b) : (a.toNat : Int) ≠ b.toNat := by
  intro e; apply h; apply UInt8.toNat_inj.mp; omega

private theorem memcmp_neg (a b : Bytes) (hne : memcmp a b ≠ 0) :
    (memcmp a b < 0 ↔ a < b) ∧ (0 < memcmp a b ↔ b < a) := by
  induction a generalizing b with
  | nil => simp [memcmp] at hne
  | cons x xs ih =>
    cases b with
    | nil => simp [memcmp] at hne
    | cons y ys =>
      by_cases h : x = y
      · subst h
        simp only [memcmp, if_true] at hne ⊢
        have := ih ys hne
        simp only [List.cons_lt_cons_iff]
        constructor
        · rw [this.1]; simp
        · rw [this.2]; simp
      · simp only [memcmp, h, if_false, List.cons_lt_cons_iff]
        have hn := u8_ne h
        rw [UInt8.lt_iff_toNat_lt, UInt8.lt_iff_toNat_lt]
        have h' : ¬ y = x := fun e => h e.symm
        simp only [h', false_and, or_false]
        omega

private theorem memcmp_zero (a b : Bytes) (h0 : memcmp a b = 0) :
    (a.length < b.length ↔ a < b) ∧ (b.length < a.length ↔ b < a) := by
  induction a generalizing b with
  | nil => cases b <;> simp
  | cons x xs ih =>
    cases b with
    | nil => simp
    | cons y ys =>
      by_cases h : x = y
      · subst h
        simp only [memcmp, if_true] at h0
        have := ih ys h0
        simp only [List.length_cons, List.cons_lt_cons_iff]
        constructor
        · rw [← this.1]; simp [UInt8.lt_irrefl]
        · rw [← this.2]; simp [UInt8.lt_irrefl]
      · simp only [memcmp, h, if_false] at h0
        have hn := u8_ne h
        omega

/-- C08a.  `slice_lex_cmp` decides the lexicographic order. -/
theorem sliceLexCmp_spec (a b : Bytes) (ha : SmallLen a) (hb : SmallLen b) :
    (sliceLexCmp a b < 0 ↔ a < b) ∧ (sliceLexCmp a b = 0 ↔ a = b) ∧
    (0 < sliceLexCmp a b ↔ b < a) := by
  unfold SmallLen at ha hb
  have irr : ∀ l : Bytes, ¬ l < l := fun l => List.lt_irrefl l
  have tri : ¬ a < b → ¬ b < a → a = b := fun h1 h2 =>
    List.le_antisymm (List.not_lt.mp h2) (List.not_lt.mp h1)
  have asym : a < b → ¬ b < a := fun h1 h2 => irr _ (List.lt_trans h1 h2)
  have key : (sliceLexCmp a b < 0 ↔ a < b) ∧ (0 < sliceLexCmp a b ↔ b < a) := by
    unfold sliceLexCmp
    by_cases hc : memcmp a b = 0
    · have hz := memcmp_zero a b hc
      simp only [hc, ne_eq, not_true_eq_false, if_false]
      by_cases hl : a.length < b.length
      · simp only [hl, if_true]
        have := hz.1.mp hl
        simp [this, asym this]
      · simp only [hl, if_false]
        rw [toCInt_small (by omega) (by omega)]
        rw [← hz.1, ← hz.2]; omega
    · simp only [ne_eq, hc, not_false_eq_true, if_true]
      exact memcmp_neg a b hc
  refine ⟨key.1, ?_, key.2⟩
  constructor
  · intro h; exact tri (fun h1 => by have := key.1.mpr h1; omega) (fun h1 => by have := key.2.mpr h1; omega)
  · intro h; subst h
    have h1 := key.1; have h2 := key.2
    have := irr a
    have h3 : ¬ sliceLexCmp a a < 0 := fun h => this (h1.mp h)
    have h4 : ¬ 0 < sliceLexCmp a a := fun h => this (h2.mp h)
    omega

example : SmallLen [1, 2] ∧ SmallLen [1, 2, 0] ∧ ([1, 2] : Bytes) < [1, 2, 0] := by
  refine ⟨?_, ?_, ?_⟩ <;> first | decide | simp [SmallLen]

/-- Where the truncation bites: a length difference of exactly 2^31 with a common
prefix is reported with the wrong sign (`a` longer than `b` compares below).
Unreachable through the public interface, which bounds key lengths. -/
theorem sliceLexCmp_truncation (a : Bytes) (ha : a.length = 2 ^ 31) :
    sliceLexCmp a [] < 0 ∧ ([] : Bytes) < a := by
  constructor
  · unfold sliceLexCmp
    have : memcmp a [] = 0 := by cases a <;> rfl
    simp only [this, ne_eq, not_true_eq_false, if_false, List.length_nil, Nat.not_lt_zero]
    rw [ha]; decide
  · cases a with
    | nil => simp at ha
    | cons x xs => simp

example : (List.replicate (2 ^ 31) (0 : UInt8)).length = 2 ^ 31 := List.length_replicate

/-- C08b.  The key comparison with infinities decides `KeyLt`, and equality is
equality of keys. -/
theorem dataKeyCompare_spec (k1 k2 : Key)
    (h1 : ∀ a, k1 = .user a → SmallLen a) (h2 : ∀ b, k2 = .user b → SmallLen b) :
    (dataKeyCompare sliceLexCmp k1 k2 < 0 ↔ KeyLt k1 k2) ∧
    (dataKeyCompare sliceLexCmp k1 k2 = 0 ↔ k1 = k2) ∧
    (0 < dataKeyCompare sliceLexCmp k1 k2 ↔ KeyLt k2 k1) := by
  have inv : ∀ a b, KeyLt (.user a) (.user b) ↔ a < b :=
    fun a b => ⟨fun h => by cases h; assumption, fun h => .user a b h⟩
  cases k1 with
  | user a =>
    cases k2 with
    | user b =>
      have := sliceLexCmp_spec a b (h1 a rfl) (h2 b rfl)
      simp only [dataKeyCompare, inv, Key.user.injEq]; exact this
    | negInf =>
      simp [dataKeyCompare, Key.kind]
      exact ⟨(by intro h; cases h), .negUser a⟩
    | posInf =>
      simp [dataKeyCompare, Key.kind]
      exact ⟨.userPos a, (by intro h; cases h)⟩
  | negInf =>
    cases k2 with
    | user b =>
      simp [dataKeyCompare, Key.kind]
      exact ⟨.negUser b, (by intro h; cases h)⟩
    | negInf =>
      simp [dataKeyCompare, Key.kind]; intro h; cases h
    | posInf =>
      simp [dataKeyCompare, Key.kind]
      exact ⟨.negPos, (by intro h; cases h)⟩
  | posInf =>
    cases k2 with
    | user b =>
      simp [dataKeyCompare, Key.kind]
      exact ⟨(by intro h; cases h), .userPos b⟩
    | negInf =>
      simp [dataKeyCompare, Key.kind]
      exact ⟨(by intro h; cases h), .negPos⟩
    | posInf =>
      simp [dataKeyCompare, Key.kind]; intro h; cases h

example : KeyLt .negInf (.user [7]) ∧ KeyLt (.user [7]) .posInf := ⟨.negUser _, .userPos _⟩

/-- C08c.  `KeyLt` is a strict total order (so the decided order is one). -/
theorem keyLt_strict_total :
    (∀ a, ¬ KeyLt a a) ∧ (∀ a b c, KeyLt a b → KeyLt b c → KeyLt a c) ∧
    (∀ a b, KeyLt a b ∨ a = b ∨ KeyLt b a) := by
  refine ⟨?_, ?_, ?_⟩
  · intro a h; cases h; rename_i h; exact List.lt_irrefl _ h
  · intro a b c h1 h2
    cases h1 <;> cases h2 <;> first | (exact .user _ _ (List.lt_trans ‹_› ‹_›)) | constructor
  · intro a b
    cases a with
    | negInf => cases b with
      | negInf => exact .inr (.inl rfl)
      | user b => exact .inl (.negUser b)
      | posInf => exact .inl .negPos
    | posInf => cases b with
      | negInf => exact .inr (.inr .negPos)
      | user b => exact .inr (.inr (.userPos b))
      | posInf => exact .inr (.inl rfl)
    | user a => cases b with
      | negInf => exact .inr (.inr (.negUser a))
      | posInf => exact .inl (.userPos a)
      | user b =>
        by_cases h1 : a < b
        · exact .inl (.user _ _ h1)
        · by_cases h2 : b < a
          · exact .inr (.inr (.user _ _ h2))
          · have : a = b := List.le_antisymm (List.not_lt.mp h2) (List.not_lt.mp h1)
            exact .inr (.inl (by rw [this]))

/-- C08d.  A proper prefix sorts first. -/
theorem sliceLexCmp_prefix (a s : Bytes) (hs : s ≠ []) (h : SmallLen (a ++ s)) :
    sliceLexCmp a (a ++ s) < 0 := by
  have ha : SmallLen a := by unfold SmallLen at *; simp at h; omega
  rw [(sliceLexCmp_spec a (a ++ s) ha h).1]
  clear h ha
  induction a with
  | nil => cases s with
    | nil => exact absurd rfl hs
    | cons x xs => simp
  | cons x xs ih => simpa [List.cons_lt_cons_iff] using ih

example : sliceLexCmp [97] ([97] ++ [0]) < 0 :=
  sliceLexCmp_prefix [97] [0] (by simp) (by simp [SmallLen])

end Splinter
