import Verif.Model.Parse
/-!
# C31: numeric option parsing
-/
namespace Splinter.Parse

/-! ## Specification -/
namespace Spec

/-- White space of the C locale. -/
def Ws (c : Nat) : Prop := c ∈ [32, 9, 10, 11, 12, 13]

/-- `c` is the character of digit `d` in base `b` (upper or lower case). -/
def Digit (b c d : Nat) : Prop :=
  d < b ∧ ((d < 10 ∧ c = 48 + d) ∨ (10 ≤ d ∧ (c = 97 + (d - 10) ∨ c = 65 + (d - 10))))

/-- The characters `cs` are the base-`b` digits `ds`. -/
def Digits (b : Nat) : List Nat → List Nat → Prop
  | [], [] => True
  | c :: cs, d :: ds => Digit b c d ∧ Digits b cs ds
  | _, _ => False

/-- Number denoted by digits, most significant first. -/
def value (b : Nat) (ds : List Nat) : Nat := ds.foldl (fun a d => a * b + d) 0

/-- `0x` hexadecimal, `0` octal, or decimal literal (src/util.c:188-190). -/
def Literal (cs : List Nat) (v : Nat) : Prop :=
  (∃ x rest ds, cs = 48 :: x :: rest ∧ (x = 120 ∨ x = 88) ∧ rest ≠ [] ∧
      Digits 16 rest ds ∧ v = value 16 ds) ∨
  (∃ rest ds, cs = 48 :: rest ∧ Digits 8 rest ds ∧ v = value 8 ds) ∨
  (∃ c rest ds, cs = c :: rest ∧ c ≠ 48 ∧ Digits 10 (c :: rest) ds ∧ v = value 10 ds)

/-- `str` is white space, an optional sign, a literal of value `v`, white space. -/
def Number (str : List Nat) (neg : Bool) (v : Nat) : Prop :=
  ∃ ws1 sign cs ws2, str = ws1 ++ sign ++ cs ++ ws2 ∧ (∀ c ∈ ws1, Ws c) ∧ (∀ c ∈ ws2, Ws c) ∧
    ((neg = false ∧ (sign = [] ∨ sign = [43])) ∨ (neg = true ∧ sign = [45])) ∧ Literal cs v

/-- A C string: bytes other than the terminator. -/
def CStr (str : List Nat) : Prop := ∀ c ∈ str, c ≠ 0 ∧ c < 256

end Spec
open Spec

/-! ## Lemmas -/

theorem isSpace_iff (c : Nat) : isSpace c = true ↔ Ws c := by
  simp only [isSpace, Ws, Bool.or_eq_true, beq_iff_eq, Bool.and_eq_true, decide_eq_true_eq,
    List.mem_cons, List.not_mem_nil, or_false]
  omega

theorem digit_iff (b c d : Nat) (hb : b ≤ 16) :
    (digit c = some d ∧ d < b) ↔ Digit b c d := by
  unfold digit Digit isDigit isAlpha isUpper
  by_cases h1 : 48 ≤ c ∧ c ≤ 57
  · simp only [h1, decide_true, Bool.and_self, if_true, Option.some.injEq]; omega
  · by_cases h2 : 65 ≤ c ∧ c ≤ 90
    · have h4 : ¬ (c ≤ 57) := by omega
      simp [h2, h4]; omega
    · by_cases h3 : 97 ≤ c ∧ c ≤ 122
      · have h4 : ¬ (c ≤ 57) := by omega
        have h5 : ¬ (c ≤ 90) := by omega
        simp [h4, h5, h3]; omega
      · have e1 : ¬ ((decide (48 ≤ c) && decide (c ≤ 57)) = true) := by simp; omega
        have e2 : ¬ (((decide (65 ≤ c) && decide (c ≤ 90)) || (decide (97 ≤ c) && decide (c ≤ 122))) = true) := by
          simp; omega
        rw [if_neg e1, if_neg e2]
        simp; omega

theorem skipSpaces_spec (w : List Nat) (hw : CStr w) :
    ∃ ws t, w = ws ++ t ∧ (∀ c ∈ ws, Ws c) ∧ skipSpaces (w ++ [0]) = some (t ++ [0]) ∧
      (∀ c t', t = c :: t' → ¬ Ws c) := by
  induction w with
  | nil => exact ⟨[], [], rfl, by simp, by simp [skipSpaces, isSpace], by simp⟩
  | cons c w ih =>
    have hw' : CStr w := fun x hx => hw x (by simp [hx])
    by_cases hc : isSpace c = true
    · obtain ⟨ws, t, h1, h2, h3, h4⟩ := ih hw'
      refine ⟨c :: ws, t, by simp [h1], ?_, by simpa [skipSpaces, hc] using h3, h4⟩
      intro x hx
      rcases List.mem_cons.1 hx with rfl | hx
      · exact (isSpace_iff _).1 hc
      · exact h2 x hx
    · refine ⟨[], c :: w, rfl, by simp, by simp [skipSpaces, hc], ?_⟩
      intro x t' h
      cases h
      rw [← isSpace_iff]; exact hc

def fold (b v : Nat) (ds : List Nat) : Nat := ds.foldl (fun a d => a * b + d) v

theorem fold_ge (b : Nat) (hb : 1 ≤ b) (ds : List Nat) : ∀ v, v ≤ fold b v ds := by
  induction ds with
  | nil => intro v; exact Nat.le_refl _
  | cons d ds ih =>
    intro v
    have h1 := ih (v * b + d)
    have h2 : v * 1 ≤ v * b := Nat.mul_le_mul_left v hb
    simp only [fold, List.foldl_cons] at h1 ⊢
    omega

theorem cut (v b d l : Nat) (hb : 1 ≤ b) (hd : d < b) :
    (v > l / b ∨ (v = l / b ∧ d > l % b)) ↔ l < v * b + d := by
  have h := Nat.div_add_mod l b
  have hm := Nat.mod_lt l (by omega : b > 0)
  constructor
  · rintro (h1 | ⟨h1, h2⟩)
    · have : (l / b + 1) * b ≤ v * b := Nat.mul_le_mul_right b h1
      rw [Nat.add_mul, Nat.mul_comm] at this
      omega
    · rw [h1, Nat.mul_comm]; omega
  · intro h1
    by_cases h2 : v ≤ l / b
    · by_cases h3 : v = l / b
      · right; refine ⟨h3, ?_⟩
        rw [h3, Nat.mul_comm] at h1; omega
      · have : (v + 1) * b ≤ l / b * b := Nat.mul_le_mul_right b (by omega)
        rw [Nat.add_mul, Nat.mul_comm (l / b)] at this
        omega
    · left; omega

theorem digit_not_space (b c d : Nat) (h : Digit b c d) : ¬ Ws c := by
  unfold Ws
  simp only [List.mem_cons, List.not_mem_nil, or_false]
  rcases h with ⟨_, h⟩; omega

theorem convLoop_spec (b l : Nat) (hb : 1 ≤ b) (hb16 : b ≤ 16) (hl : l < 2 ^ 64) (w : List Nat) :
    ∀ (v : Nat) (any : Bool), CStr w → v ≤ l →
      convLoop b l v any (w ++ [0]) ≠ .ub ∧
      ∀ v' any' r, convLoop b l v any (w ++ [0]) = .ok (v', any', r) ↔
        ∃ cs ds t, w = cs ++ t ∧ Digits b cs ds ∧ v' = fold b v ds ∧ v' ≤ l ∧
          (∀ c t', t = c :: t' → Ws c) ∧ r = t ++ [0] ∧ any' = (any || !cs.isEmpty) := by
  induction w with
  | nil =>
    intro v any _ hv
    refine ⟨by simp [convLoop], fun v' any' r => ?_⟩
    simp only [List.nil_append, convLoop, if_true, Res.ok.injEq, Prod.mk.injEq]
    constructor
    · rintro ⟨rfl, rfl, rfl⟩
      exact ⟨[], [], [], rfl, trivial, rfl, hv, by simp, rfl, by simp⟩
    · rintro ⟨cs, ds, t, h1, h2, h3, h4, h5, h6, h7⟩
      obtain ⟨rfl, rfl⟩ := List.nil_eq_append_iff.1 h1
      cases ds with
      | nil => subst h3 h6 h7; simp
      | cons d ds => exact absurd h2 (by simp [Digits])
  | cons c w ih =>
    intro v any hw hv
    have hw' : CStr w := fun x hx => hw x (by simp [hx])
    have hc0 : c ≠ 0 := (hw c (by simp)).1
    simp only [List.cons_append, convLoop, hc0, if_false]
    by_cases hs : isSpace c = true
    · have hws := (isSpace_iff c).1 hs
      refine ⟨by simp [hs], fun v' any' r => ?_⟩
      simp only [hs, if_true, Res.ok.injEq, Prod.mk.injEq]
      constructor
      · rintro ⟨rfl, rfl, rfl⟩
        refine ⟨[], [], c :: w, rfl, trivial, rfl, hv, ?_, rfl, by simp⟩
        intro x t' h; cases h; exact hws
      · rintro ⟨cs, ds, t, h1, h2, h3, h4, h5, h6, h7⟩
        cases cs with
        | nil =>
          cases ds with
          | nil =>
            simp only [List.nil_append] at h1
            subst h1 h3 h6 h7
            simp
          | cons d ds => exact absurd h2 (by simp [Digits])
        | cons x cs =>
          cases ds with
          | nil => exact absurd h2 (by simp [Digits])
          | cons d ds =>
            simp only [List.cons_append, List.cons.injEq] at h1
            exact absurd (h1.1 ▸ hws) (digit_not_space b x d h2.1)
    · have hnws : ¬ Ws c := fun h => hs ((isSpace_iff c).2 h)
      simp only [hs, Bool.false_eq_true, if_false]
      -- a successful right-hand side starts with a digit
      have hhead : ∀ cs ds t v', c :: w = cs ++ t → Digits b cs ds → v' = fold b v ds →
          (∀ c t', t = c :: t' → Ws c) →
          ∃ d cs' ds', cs = c :: cs' ∧ ds = d :: ds' ∧ Digit b c d ∧ Digits b cs' ds' ∧
            w = cs' ++ t ∧ v' = fold b (v * b + d) ds' := by
        intro cs ds t v' h1 h2 h3 h5
        cases cs with
        | nil =>
          simp only [List.nil_append] at h1
          exact absurd (h5 c w h1.symm) hnws
        | cons x cs =>
          cases ds with
          | nil => exact absurd h2 (by simp [Digits])
          | cons d ds =>
            simp only [List.cons_append, List.cons.injEq] at h1
            obtain ⟨rfl, rfl⟩ := h1
            exact ⟨d, cs, ds, rfl, rfl, h2.1, h2.2, rfl, h3⟩
      have hdlt : ∀ d, Digit b c d → c < 128 := by
        rintro d ⟨h1, h2⟩; omega
      by_cases ha : ¬ c < 128
      · simp only [ha, not_false_eq_true, if_true]
        refine ⟨by simp, fun v' any' r => ?_⟩
        simp only [reduceCtorEq, false_iff]
        rintro ⟨cs, ds, t, h1, h2, h3, h4, h5, h6, h7⟩
        obtain ⟨d, cs', ds', rfl, rfl, hd, _⟩ := hhead cs ds t v' h1 h2 h3 h5
        exact ha (hdlt d hd)
      · simp only [ha, if_false]
        cases hdig : digit c with
        | none =>
          refine ⟨by simp, fun v' any' r => ?_⟩
          simp only [reduceCtorEq, false_iff]
          rintro ⟨cs, ds, t, h1, h2, h3, h4, h5, h6, h7⟩
          obtain ⟨d, cs', ds', rfl, rfl, hd, _⟩ := hhead cs ds t v' h1 h2 h3 h5
          rw [← digit_iff b c d hb16, hdig] at hd
          simp at hd
        | some d =>
          have huniq : ∀ d', Digit b c d' → d' = d := by
            intro d' hd'
            rw [← digit_iff b c d' hb16, hdig] at hd'
            exact (Option.some.inj hd'.1).symm
          by_cases hdb : d ≥ b
          · simp only [hdb, if_true]
            refine ⟨by simp, fun v' any' r => ?_⟩
            simp only [reduceCtorEq, false_iff]
            rintro ⟨cs, ds, t, h1, h2, h3, h4, h5, h6, h7⟩
            obtain ⟨d', cs', ds', rfl, rfl, hd, _⟩ := hhead cs ds t v' h1 h2 h3 h5
            have := huniq d' hd
            have := hd.1
            omega
          · have hD : Digit b c d := (digit_iff b c d hb16).1 ⟨hdig, by omega⟩
            simp only [hdb, if_false]
            simp only [cut v b d l hb (by omega)]
            by_cases ho : l < v * b + d
            · simp only [ho, if_true]
              refine ⟨by simp, fun v' any' r => ?_⟩
              simp only [reduceCtorEq, false_iff]
              rintro ⟨cs, ds, t, h1, h2, h3, h4, h5, h6, h7⟩
              obtain ⟨d', cs', ds', rfl, rfl, hd, _, _, hv'⟩ := hhead cs ds t v' h1 h2 h3 h5
              rw [huniq d' hd] at hv'
              have := fold_ge b hb ds' (v * b + d)
              omega
            · simp only [ho, if_false]
              have e1 : v * b % 2 ^ 64 = v * b := Nat.mod_eq_of_lt (by omega)
              have e2 : (v * b + d) % 2 ^ 64 = v * b + d := Nat.mod_eq_of_lt (by omega)
              rw [e1, e2]
              obtain ⟨i1, i2⟩ := ih (v * b + d) true hw' (by omega)
              refine ⟨i1, fun v' any' r => ?_⟩
              rw [i2]
              constructor
              · rintro ⟨cs, ds, t, h1, h2, h3, h4, h5, h6, h7⟩
                exact ⟨c :: cs, d :: ds, t, by simp [h1], ⟨hD, h2⟩, h3, h4, h5, h6, by simp [h7]⟩
              · rintro ⟨cs, ds, t, h1, h2, h3, h4, h5, h6, h7⟩
                obtain ⟨d', cs', ds', rfl, rfl, hd, hds, hw2, hv'⟩ := hhead cs ds t v' h1 h2 h3 h5
                rw [huniq d' hd] at hv'
                exact ⟨cs', ds', t, hw2, hds, hv', h4, h5, h6, by simp [h7]⟩

/-- Base-`b` digits, then white space. -/
def Tail (b : Nat) (w : List Nat) (v : Nat) : Prop :=
  ∃ cs ds ws, w = cs ++ ws ∧ cs ≠ [] ∧ Digits b cs ds ∧ v = value b ds ∧ ∀ c ∈ ws, Ws c

theorem after_spec (neg : Bool) (b l : Nat) (hb : 1 ≤ b) (hb16 : b ≤ 16) (hl : l < 2 ^ 64)
    (w : List Nat) (hw : CStr w) (R : Res Nat) (hR : R = convert neg b l (w ++ [0])) :
    R ≠ .ub ∧ ∀ n, R = .ok n ↔
      ∃ v, Tail b w v ∧ v ≤ l ∧ n = if neg then (2 ^ 64 - v) % 2 ^ 64 else v := by
  unfold convert at hR
  obtain ⟨hub, hok⟩ := convLoop_spec b l hb hb16 hl w 0 false hw (by omega)
  have key : ∀ v, Tail b w v → v ≤ l →
      ∃ t, (∀ c ∈ t, Ws c) ∧ CStr t ∧ convLoop b l 0 false (w ++ [0]) = .ok (v, true, t ++ [0]) := by
    rintro v ⟨cs, ds, ws, h1, h2, h3, h4, h5⟩ hv
    refine ⟨ws, h5, fun c hc => hw c (by simp [h1, hc]), ?_⟩
    rw [hok]
    refine ⟨cs, ds, ws, h1, h3, h4, hv, ?_, rfl, by cases cs <;> simp_all⟩
    intro c t' e; exact h5 c (by simp [e])
  have skipWs : ∀ t, (∀ c ∈ t, Ws c) → skipSpaces (t ++ [0]) = some [0] := by
    intro t ht
    induction t with
    | nil => simp [skipSpaces, isSpace]
    | cons c t ih =>
      simp only [List.cons_append, skipSpaces, (isSpace_iff c).2 (ht c (by simp)), if_true]
      exact ih fun x hx => ht x (by simp [hx])
  cases hx : convLoop b l 0 false (w ++ [0]) with
  | ub => exact absurd hx hub
  | fail =>
    rw [hx] at hR; subst hR
    refine ⟨by simp, fun n => ?_⟩
    simp only [reduceCtorEq, false_iff]
    rintro ⟨v, hT, hv, _⟩
    obtain ⟨t, _, _, h⟩ := key v hT hv
    rw [hx] at h; cases h
  | ok x =>
    obtain ⟨v, any, s⟩ := x
    obtain ⟨cs, ds, t, h1, h2, h3, h4, h5, h6, h7⟩ := (hok v any s).1 hx
    have ht : CStr t := fun c hc => hw c (by simp [h1, hc])
    obtain ⟨ws, t2, g1, g2, g3, g4⟩ := skipSpaces_spec t ht
    rw [hx] at hR
    simp only [h6, g3] at hR
    have hkey : ∀ n, (∃ v, Tail b w v ∧ v ≤ l ∧ n = if neg then (2 ^ 64 - v) % 2 ^ 64 else v) →
        t2 = [] ∧ any = true ∧ n = if neg then (2 ^ 64 - v) % 2 ^ 64 else v := by
      rintro n ⟨v', hT, hv, hn⟩
      obtain ⟨t', ht', _, h⟩ := key v' hT hv
      rw [hx] at h
      simp only [Res.ok.injEq, Prod.mk.injEq] at h
      obtain ⟨rfl, rfl, h⟩ := h
      rw [h6] at h
      have : t = t' := List.append_cancel_right h
      subst this
      rw [skipWs t ht'] at g3
      simp only [Option.some.injEq] at g3
      refine ⟨?_, rfl, hn⟩
      have := congrArg List.length g3
      simp at this; exact this
    cases t2 with
    | nil =>
      simp only [List.nil_append, ne_eq, not_true_eq_false, if_false] at hR
      cases any with
      | false =>
        simp only [Bool.not_false, if_true] at hR
        subst hR
        refine ⟨by simp, fun n => ?_⟩
        simp only [reduceCtorEq, false_iff]
        intro h
        simpa using (hkey n h).2.1
      | true =>
        simp only [Bool.not_true, Bool.false_eq_true, if_false] at hR
        subst hR
        refine ⟨by simp, fun n => ?_⟩
        simp only [Res.ok.injEq]
        constructor
        · rintro rfl
          refine ⟨v, ⟨cs, ds, t, h1, ?_, h2, h3, ?_⟩, h4, rfl⟩
          · intro e; subst e; simp at h7
          · rw [g1]; simpa using g2
        · intro h; exact ((hkey n h).2.2).symm
    | cons c t2 =>
      have hc : c ≠ 0 := (ht c (by simp [g1])).1
      simp only [List.cons_append, ne_eq, hc, not_false_eq_true, if_true] at hR
      subst hR
      refine ⟨by simp, fun n => ?_⟩
      simp only [reduceCtorEq, false_iff]
      intro h
      simpa using (hkey n h).1

theorem not_ws_48 : ¬ Ws 48 := by simp [Ws]

theorem parseTail_spec (neg : Bool) (l : Nat) (hl : l < 2 ^ 64) (w : List Nat) (hw : CStr w) :
    parseTail neg l (w ++ [0]) ≠ .ub ∧ ∀ n, parseTail neg l (w ++ [0]) = .ok n ↔
      ∃ cs ws v, w = cs ++ ws ∧ (∀ c ∈ ws, Ws c) ∧ Literal cs v ∧ v ≤ l ∧
        n = if neg then (2 ^ 64 - v) % 2 ^ 64 else v := by
  cases w with
  | nil =>
    have h := after_spec neg 10 l (by omega) (by omega) hl [] hw
      (parseTail neg l ([] ++ [0])) (by simp [parseTail, detectBase])
    refine ⟨h.1, fun n => ?_⟩
    rw [h.2]
    constructor
    · rintro ⟨v, ⟨cs, ds, ws, h1, h2, _⟩, _⟩
      obtain ⟨rfl, rfl⟩ := List.nil_eq_append_iff.1 h1
      exact absurd rfl h2
    · rintro ⟨cs, ws, v, h1, _, hL, _⟩
      obtain ⟨rfl, rfl⟩ := List.nil_eq_append_iff.1 h1
      rcases hL with ⟨_, _, _, h, _⟩ | ⟨_, _, h, _⟩ | ⟨_, _, _, h, _⟩ <;> simp at h
  | cons c w =>
    have hw' : CStr w := fun x hx => hw x (by simp [hx])
    by_cases hc : c = 48
    · subst hc
      cases w with
      | nil =>
        have h := after_spec neg 8 l (by omega) (by omega) hl [48] hw
          (parseTail neg l ([48] ++ [0])) (by simp [parseTail, detectBase])
        refine ⟨h.1, fun n => ?_⟩
        rw [h.2]
        constructor
        · rintro ⟨v, ⟨cs, ds, ws, h1, h2, h3, h4, h5⟩, hv, hn⟩
          refine ⟨cs, ws, v, h1, h5, .inr (.inl ?_), hv, hn⟩
          cases cs with
          | nil => exact absurd rfl h2
          | cons x cs =>
            cases ds with
            | nil => exact absurd h3 (by simp [Digits])
            | cons d ds =>
              simp only [List.cons_append, List.cons.injEq] at h1
              obtain ⟨rfl, h1⟩ := h1
              have hd : d = 0 := by have := h3.1.2; omega
              subst hd
              exact ⟨cs, ds, rfl, h3.2, by rw [h4]; simp [value]⟩
        · rintro ⟨cs, ws, v, h1, h5, hL, hv, hn⟩
          rcases hL with ⟨x, rest, ds, h, _⟩ | ⟨rest, ds, h, hd, hv'⟩ | ⟨x, rest, ds, h, hx, _⟩
          · rw [h] at h1; simp at h1
          · subst h
            exact ⟨v, ⟨48 :: rest, 0 :: ds, ws, h1, by simp, ⟨⟨by omega, by omega⟩, hd⟩,
              by rw [hv']; simp [value], h5⟩, hv, hn⟩
          · rw [h] at h1; simp at h1; omega
      | cons x w =>
        have hw'' : CStr w := fun y hy => hw' y (by simp [hy])
        by_cases hx : x = 120 ∨ x = 88
        · have h := after_spec neg 16 l (by omega) (by omega) hl w hw''
            (parseTail neg l (48 :: x :: w ++ [0])) (by simp [parseTail, detectBase, hx])
          refine ⟨h.1, fun n => ?_⟩
          rw [h.2]
          constructor
          · rintro ⟨v, ⟨cs, ds, ws, h1, h2, h3, h4, h5⟩, hv, hn⟩
            exact ⟨48 :: x :: cs, ws, v, by simp [h1], h5,
              .inl ⟨x, cs, ds, rfl, hx, h2, h3, h4⟩, hv, hn⟩
          · rintro ⟨cs, ws, v, h1, h5, hL, hv, hn⟩
            rcases hL with ⟨y, rest, ds, h, hy, hne, hd, hv'⟩ | ⟨rest, ds, h, hd, hv'⟩ | ⟨y, rest, ds, h, hy, _⟩
            · subst h
              simp only [List.cons_append, List.cons.injEq, true_and] at h1
              exact ⟨v, ⟨rest, ds, ws, h1.2, hne, hd, hv', h5⟩, hv, hn⟩
            · subst h
              simp only [List.cons_append, List.cons.injEq, true_and] at h1
              exfalso
              cases rest with
              | nil =>
                have := h5 x (by rw [← show x :: w = ws by simpa using h1]; simp)
                simp only [Ws, List.mem_cons, List.not_mem_nil, or_false] at this
                omega
              | cons y rest =>
                cases ds with
                | nil => exact absurd hd (by simp [Digits])
                | cons d ds =>
                  simp only [List.cons_append, List.cons.injEq] at h1
                  have h8 := hd.1
                  rw [← h1.1] at h8
                  have := h8.1; have := h8.2; omega
            · subst h
              simp only [List.cons_append, List.cons.injEq] at h1
              exact absurd h1.1.symm hy
        · have h := after_spec neg 8 l (by omega) (by omega) hl (48 :: x :: w) hw
            (parseTail neg l (48 :: x :: w ++ [0])) (by simp [parseTail, detectBase, hx])
          refine ⟨h.1, fun n => ?_⟩
          rw [h.2]
          constructor
          · rintro ⟨v, ⟨cs, ds, ws, h1, h2, h3, h4, h5⟩, hv, hn⟩
            refine ⟨cs, ws, v, h1, h5, .inr (.inl ?_), hv, hn⟩
            cases cs with
            | nil => exact absurd rfl h2
            | cons y cs =>
              cases ds with
              | nil => exact absurd h3 (by simp [Digits])
              | cons d ds =>
                simp only [List.cons_append, List.cons.injEq] at h1
                obtain ⟨rfl, h1⟩ := h1
                have hd : d = 0 := by have := h3.1.2; omega
                subst hd
                exact ⟨cs, ds, rfl, h3.2, by rw [h4]; simp [value]⟩
          · rintro ⟨cs, ws, v, h1, h5, hL, hv, hn⟩
            rcases hL with ⟨y, rest, ds, h, hy, _⟩ | ⟨rest, ds, h, hd, hv'⟩ | ⟨y, rest, ds, h, hy, _⟩
            · subst h
              simp only [List.cons_append, List.cons.injEq, true_and] at h1
              rw [← h1.1] at hy
              exact absurd hy hx
            · subst h
              exact ⟨v, ⟨48 :: rest, 0 :: ds, ws, h1, by simp, ⟨⟨by omega, by omega⟩, hd⟩,
                by rw [hv']; simp [value], h5⟩, hv, hn⟩
            · subst h
              simp only [List.cons_append, List.cons.injEq] at h1
              exact absurd h1.1.symm hy
    · have h := after_spec neg 10 l (by omega) (by omega) hl (c :: w) hw
        (parseTail neg l (c :: w ++ [0])) (by simp [parseTail, detectBase, hc])
      refine ⟨h.1, fun n => ?_⟩
      rw [h.2]
      constructor
      · rintro ⟨v, ⟨cs, ds, ws, h1, h2, h3, h4, h5⟩, hv, hn⟩
        refine ⟨cs, ws, v, h1, h5, .inr (.inr ?_), hv, hn⟩
        cases cs with
        | nil => exact absurd rfl h2
        | cons y cs =>
          simp only [List.cons_append, List.cons.injEq] at h1
          exact ⟨y, cs, ds, rfl, h1.1 ▸ hc, h3, h4⟩
      · rintro ⟨cs, ws, v, h1, h5, hL, hv, hn⟩
        rcases hL with ⟨y, rest, ds, h, hy, _⟩ | ⟨rest, ds, h, hd, hv'⟩ | ⟨y, rest, ds, h, hy, hd, hv'⟩
        · subst h
          simp only [List.cons_append, List.cons.injEq] at h1
          exact absurd h1.1 hc
        · subst h
          simp only [List.cons_append, List.cons.injEq] at h1
          exact absurd h1.1 hc
        · subst h
          exact ⟨v, ⟨y :: rest, ds, ws, h1, by simp, hd, hv', h5⟩, hv, hn⟩

theorem literal_head {cs : List Nat} {v : Nat} (h : Literal cs v) :
    ∃ c t, cs = c :: t ∧ ¬ Ws c ∧ c ≠ 43 ∧ c ≠ 45 := by
  rcases h with ⟨x, rest, ds, h, _⟩ | ⟨rest, ds, h, _⟩ | ⟨c, rest, ds, h, _, hd, _⟩
  · exact ⟨_, _, h, not_ws_48, by omega, by omega⟩
  · exact ⟨_, _, h, not_ws_48, by omega, by omega⟩
  · cases ds with
    | nil => exact absurd hd (by simp [Digits])
    | cons d ds =>
      have hD := hd.1
      exact ⟨c, rest, h, digit_not_space _ _ _ hD, by have := hD.2; omega, by have := hD.2; omega⟩

/-- Skipping a maximal white-space prefix is unambiguous. -/
theorem ws_prefix_unique {a b s t : List Nat} (h : a ++ s = b ++ t) (ha : ∀ c ∈ a, Ws c)
    (hb : ∀ c ∈ b, Ws c) (hs : ∀ c s', s = c :: s' → ¬ Ws c) (ht : ∀ c t', t = c :: t' → ¬ Ws c) :
    s = t := by
  induction a generalizing b with
  | nil =>
    cases b with
    | nil => simpa using h
    | cons x b =>
      simp only [List.nil_append, List.cons_append] at h
      exact absurd (hb x (by simp)) (hs x _ h)
  | cons x a ih =>
    cases b with
    | nil =>
      simp only [List.nil_append, List.cons_append] at h
      exact absurd (ha x (by simp)) (ht x _ h.symm)
    | cons y b =>
      simp only [List.cons_append, List.cons.injEq] at h
      exact ih h.2 (fun c hc => ha c (by simp [hc])) (fun c hc => hb c (by simp [hc]))

/-! ## Property theorems -/

/-- C31 for the common core: for every string, the parser never reads past the
terminator, and it succeeds exactly on well-formed numbers within the limits. -/
theorem tryLimit_spec (str : List Nat) (hstr : CStr str) (nl pl : Nat) (hnl : nl < 2 ^ 64)
    (hpl : pl < 2 ^ 64) :
    tryLimit str nl pl ≠ .ub ∧
    ∀ n, tryLimit str nl pl = .ok n ↔
      ∃ neg v, Number str neg v ∧
        if neg then nl ≠ 0 ∧ v ≤ nl ∧ n = (2 ^ 64 - v) % 2 ^ 64 else v ≤ pl ∧ n = v := by
  obtain ⟨ws, t, h1, h2, h3, h4⟩ := skipSpaces_spec str hstr
  have ht : CStr t := fun c hc => hstr c (by simp [h1, hc])
  unfold tryLimit
  rw [h3]
  -- every reading of `str` as a number starts at `t`
  have hnum : ∀ neg v, Number str neg v ↔ ∃ sign cs ws2, t = sign ++ cs ++ ws2 ∧
      (∀ c ∈ ws2, Ws c) ∧
      ((neg = false ∧ (sign = [] ∨ sign = [43])) ∨ (neg = true ∧ sign = [45])) ∧ Literal cs v := by
    intro neg v
    constructor
    · rintro ⟨ws1, sign, cs, ws2, g1, g2, g3, g4, g5⟩
      refine ⟨sign, cs, ws2, ?_, g3, g4, g5⟩
      have : ws ++ t = ws1 ++ (sign ++ cs ++ ws2) := by rw [← h1, g1]; simp
      refine ws_prefix_unique this h2 g2 h4 ?_
      obtain ⟨c, cs', rfl, hc, _⟩ := literal_head g5
      intro c' t' e
      rcases g4 with ⟨_, rfl | rfl⟩ | ⟨_, rfl⟩
      · simp only [List.nil_append, List.cons_append, List.cons.injEq] at e
        exact e.1 ▸ hc
      · simp only [List.cons_append, List.cons.injEq] at e
        rw [← e.1]; simp [Ws]
      · simp only [List.cons_append, List.cons.injEq] at e
        rw [← e.1]; simp [Ws]
    · rintro ⟨sign, cs, ws2, g1, g2, g3, g4⟩
      exact ⟨ws, sign, cs, ws2, by rw [h1, g1]; simp, h2, g2, g3, g4⟩
  cases t with
  | nil =>
    obtain ⟨p1, p2⟩ := parseTail_spec false pl hpl [] (by intro c hc; simp at hc)
    simp only [List.nil_append] at p1 p2 ⊢
    rw [if_neg (by omega), if_neg (by omega)]
    refine ⟨p1, fun n => ?_⟩
    rw [p2]
    constructor
    · rintro ⟨cs, ws2, v, g1, g2, g3, g4, g5⟩
      exact ⟨false, v, (hnum _ _).2 ⟨[], cs, ws2, g1, g2, .inl ⟨rfl, .inl rfl⟩, g3⟩, by simpa using ⟨g4, g5⟩⟩
    · rintro ⟨neg, v, hN, hv⟩
      obtain ⟨sign, cs, ws2, g1, g2, g3, g4⟩ := (hnum _ _).1 hN
      obtain ⟨c, cs', rfl, _⟩ := literal_head g4
      simp at g1
  | cons c t =>
    have ht' : CStr t := fun x hx => ht x (by simp [hx])
    simp only [List.cons_append]
    by_cases hm : c = 45
    · subst hm
      simp only [if_true]
      have hneg : ∀ neg v, Number str neg v ↔ neg = true ∧ ∃ cs ws2, t = cs ++ ws2 ∧
          (∀ c ∈ ws2, Ws c) ∧ Literal cs v := by
        intro neg v
        rw [hnum]
        constructor
        · rintro ⟨sign, cs, ws2, g1, g2, g3, g4⟩
          obtain ⟨x, cs', rfl, _, hx1, hx2⟩ := literal_head g4
          rcases g3 with ⟨_, rfl | rfl⟩ | ⟨rfl, rfl⟩
          · simp only [List.nil_append, List.cons_append, List.cons.injEq] at g1
            exact absurd g1.1.symm hx2
          · simp only [List.cons_append, List.cons.injEq] at g1
            exact absurd g1.1 (by omega)
          · simp only [List.cons_append, List.nil_append, List.cons.injEq, true_and] at g1
            exact ⟨rfl, x :: cs', ws2, by simpa using g1, g2, g4⟩
        · rintro ⟨rfl, cs, ws2, g1, g2, g3⟩
          exact ⟨[45], cs, ws2, by simp [g1], g2, .inr ⟨rfl, rfl⟩, g3⟩
      by_cases hz : nl = 0
      · simp only [hz, if_true]
        refine ⟨by simp, fun n => ?_⟩
        simp only [reduceCtorEq, false_iff]
        rintro ⟨neg, v, hN, hv⟩
        obtain ⟨rfl, _⟩ := (hneg _ _).1 hN
        simp at hv
      · simp only [hz, if_false]
        obtain ⟨p1, p2⟩ := parseTail_spec true nl hnl t ht'
        refine ⟨p1, fun n => ?_⟩
        rw [p2]
        constructor
        · rintro ⟨cs, ws2, v, g1, g2, g3, g4, g5⟩
          exact ⟨true, v, (hneg _ _).2 ⟨rfl, cs, ws2, g1, g2, g3⟩, by simpa [hz] using ⟨g4, g5⟩⟩
        · rintro ⟨neg, v, hN, hv⟩
          obtain ⟨rfl, cs, ws2, g1, g2, g3⟩ := (hneg _ _).1 hN
          simp only [if_true] at hv
          exact ⟨cs, ws2, v, g1, g2, g3, hv.2.1, by simpa using hv.2.2⟩
    · simp only [hm, if_false]
      by_cases hp : c = 43
      · subst hp
        simp only [if_true]
        obtain ⟨p1, p2⟩ := parseTail_spec false pl hpl t ht'
        refine ⟨p1, fun n => ?_⟩
        rw [p2]
        constructor
        · rintro ⟨cs, ws2, v, g1, g2, g3, g4, g5⟩
          exact ⟨false, v, (hnum _ _).2 ⟨[43], cs, ws2, by simp [g1], g2, .inl ⟨rfl, .inr rfl⟩, g3⟩,
            by simpa using ⟨g4, g5⟩⟩
        · rintro ⟨neg, v, hN, hv⟩
          obtain ⟨sign, cs, ws2, g1, g2, g3, g4⟩ := (hnum _ _).1 hN
          obtain ⟨x, cs', rfl, _, hx1, hx2⟩ := literal_head g4
          rcases g3 with ⟨_, rfl | rfl⟩ | ⟨rfl, rfl⟩
          · simp only [List.nil_append, List.cons_append, List.cons.injEq] at g1
            exact absurd g1.1.symm hx1
          · subst neg
            simp only [List.cons_append, List.nil_append, List.cons.injEq, true_and] at g1
            simp only [Bool.false_eq_true, if_false] at hv
            exact ⟨x :: cs', ws2, v, by simpa using g1, g2, g4, hv.1, by simpa using hv.2⟩
          · simp only [List.cons_append, List.cons.injEq] at g1
            exact absurd g1.1 (by omega)
      · simp only [hp, if_false]
        obtain ⟨p1, p2⟩ := parseTail_spec false pl hpl (c :: t) ht
        simp only [List.cons_append] at p1 p2
        refine ⟨p1, fun n => ?_⟩
        rw [p2]
        constructor
        · rintro ⟨cs, ws2, v, g1, g2, g3, g4, g5⟩
          exact ⟨false, v, (hnum _ _).2 ⟨[], cs, ws2, by simp [g1], g2, .inl ⟨rfl, .inl rfl⟩, g3⟩,
            by simpa using ⟨g4, g5⟩⟩
        · rintro ⟨neg, v, hN, hv⟩
          obtain ⟨sign, cs, ws2, g1, g2, g3, g4⟩ := (hnum _ _).1 hN
          rcases g3 with ⟨rfl, rfl | rfl⟩ | ⟨rfl, rfl⟩
          · simp only [Bool.false_eq_true, if_false] at hv
            exact ⟨cs, ws2, v, by simpa using g1, g2, g4, hv.1, by simpa using hv.2⟩
          · simp only [List.cons_append, List.cons.injEq] at g1
            exact absurd g1.1 hp
          · simp only [List.cons_append, List.cons.injEq] at g1
            exact absurd g1.1 hm

/-- C31, `try_string_to_uint64`. -/
theorem tryUint64_spec (str : List Nat) (hstr : CStr str) :
    tryUint64 str ≠ .ub ∧
    ∀ n, tryUint64 str = .ok n ↔ Number str false n ∧ n < 2 ^ 64 := by
  obtain ⟨h1, h2⟩ := tryLimit_spec str hstr 0 (2 ^ 64 - 1) (by omega) (by omega)
  refine ⟨h1, fun n => ?_⟩
  unfold tryUint64
  rw [h2]
  constructor
  · rintro ⟨neg, v, hN, hv⟩
    cases neg with
    | true => simp at hv
    | false =>
      simp only [Bool.false_eq_true, if_false] at hv
      obtain ⟨hv, rfl⟩ := hv
      exact ⟨hN, by omega⟩
  · rintro ⟨hN, hv⟩
    exact ⟨false, n, hN, by simp only [Bool.false_eq_true, if_false, and_true]; omega⟩

/-- C31, `try_string_to_uint32/16/8`. -/
theorem tryUint_spec (bits : Nat) (hb : bits ≤ 64) (str : List Nat) (hstr : CStr str) :
    tryUint bits str ≠ .ub ∧
    ∀ n, tryUint bits str = .ok n ↔ Number str false n ∧ n < 2 ^ bits := by
  obtain ⟨h1, h2⟩ := tryUint64_spec str hstr
  have hp : 0 < 2 ^ bits := Nat.two_pow_pos bits
  have hle : 2 ^ bits ≤ 2 ^ 64 := Nat.pow_le_pow_right (by omega) hb
  unfold tryUint
  cases h : tryUint64 str with
  | ub => exact absurd h h1
  | fail =>
    refine ⟨by simp, fun n => ?_⟩
    simp only [reduceCtorEq, false_iff]
    rintro ⟨hN, hn⟩
    have := (h2 n).2 ⟨hN, by omega⟩
    rw [h] at this; cases this
  | ok t =>
    simp only
    have ht := (h2 t).1 h
    by_cases hc : t > 2 ^ bits - 1
    · simp only [hc, if_true]
      refine ⟨by simp, fun n => ?_⟩
      simp only [reduceCtorEq, false_iff]
      rintro ⟨hN, hn⟩
      have := (h2 n).2 ⟨hN, by omega⟩
      rw [h] at this
      simp only [Res.ok.injEq] at this
      omega
    · simp only [hc, if_false]
      refine ⟨by simp, fun n => ?_⟩
      simp only [Res.ok.injEq]
      constructor
      · rintro rfl; exact ⟨ht.1, by omega⟩
      · rintro ⟨hN, hn⟩
        have := (h2 n).2 ⟨hN, by omega⟩
        rw [h] at this
        simpa using this

/-- C31, `try_string_to_int64`: `n` is the signed value and lies in the range. -/
theorem tryInt64_spec (str : List Nat) (hstr : CStr str) :
    tryInt64 str ≠ .ub ∧
    ∀ n : Int, tryInt64 str = .ok n ↔
      ∃ neg v, Number str neg v ∧ n = (if neg then -(v : Int) else v) ∧
        -2 ^ 63 ≤ n ∧ n ≤ 2 ^ 63 - 1 := by
  obtain ⟨h1, h2⟩ := tryLimit_spec str hstr (2 ^ 63 - 1 + 1) (2 ^ 63 - 1) (by omega) (by omega)
  unfold tryInt64
  have conv : ∀ (neg : Bool) (v u : Nat),
      (if neg then (2 ^ 63 - 1 + 1) ≠ 0 ∧ v ≤ 2 ^ 63 - 1 + 1 ∧ u = (2 ^ 64 - v) % 2 ^ 64
        else v ≤ 2 ^ 63 - 1 ∧ u = v) →
      toInt64 u = (if neg then -(v : Int) else v) ∧ -2 ^ 63 ≤ toInt64 u ∧ toInt64 u ≤ 2 ^ 63 - 1 := by
    intro neg v u h
    unfold toInt64
    cases neg
    · simp only [Bool.false_eq_true, if_false] at h ⊢
      split <;> omega
    · simp only [if_true] at h ⊢
      split <;> omega
  have back : ∀ (neg : Bool) (v : Nat) (n : Int), n = (if neg then -(v : Int) else v) →
      -2 ^ 63 ≤ n → n ≤ 2 ^ 63 - 1 →
      ∃ u, (if neg then (2 ^ 63 - 1 + 1) ≠ 0 ∧ v ≤ 2 ^ 63 - 1 + 1 ∧ u = (2 ^ 64 - v) % 2 ^ 64
        else v ≤ 2 ^ 63 - 1 ∧ u = v) ∧ toInt64 u = n := by
    intro neg v n h1 h2 h3
    unfold toInt64
    cases neg
    · simp only [Bool.false_eq_true, if_false] at h1 ⊢
      exact ⟨v, by omega, by rw [if_pos] <;> omega⟩
    · simp only [if_true] at h1 ⊢
      refine ⟨(2 ^ 64 - v) % 2 ^ 64, by omega, ?_⟩
      split <;> omega
  cases h : tryLimit str (2 ^ 63 - 1 + 1) (2 ^ 63 - 1) with
  | ub => exact absurd h h1
  | fail =>
    refine ⟨by simp, fun n => ?_⟩
    simp only [reduceCtorEq, false_iff]
    rintro ⟨neg, v, hN, e, l1, l2⟩
    obtain ⟨u, hu, _⟩ := back neg v n e l1 l2
    have := (h2 u).2 ⟨neg, v, hN, hu⟩
    rw [h] at this; cases this
  | ok u =>
    refine ⟨by simp, fun n => ?_⟩
    simp only [Res.ok.injEq]
    constructor
    · rintro rfl
      obtain ⟨neg, v, hN, hu⟩ := (h2 u).1 h
      obtain ⟨c1, c2, c3⟩ := conv neg v u hu
      exact ⟨neg, v, hN, c1, c2, c3⟩
    · rintro ⟨neg, v, hN, e, l1, l2⟩
      obtain ⟨u', hu', e'⟩ := back neg v n e l1 l2
      have := (h2 u').2 ⟨neg, v, hN, hu'⟩
      rw [h] at this
      simp only [Res.ok.injEq] at this
      rw [this]; exact e'

/-- C31, `try_string_to_int32/16/8`. -/
theorem tryInt_spec (bits : Nat) (hb1 : 1 ≤ bits) (hb : bits ≤ 64) (str : List Nat)
    (hstr : CStr str) :
    tryInt bits str ≠ .ub ∧
    ∀ n : Int, tryInt bits str = .ok n ↔
      ∃ neg v, Number str neg v ∧ n = (if neg then -(v : Int) else v) ∧
        -2 ^ (bits - 1) ≤ n ∧ n ≤ 2 ^ (bits - 1) - 1 := by
  obtain ⟨h1, h2⟩ := tryInt64_spec str hstr
  have hle : (2 : Int) ^ (bits - 1) ≤ 2 ^ 63 := by
    have : 2 ^ (bits - 1) ≤ 2 ^ 63 := Nat.pow_le_pow_right (by omega : 2 > 0) (by omega)
    exact_mod_cast this
  unfold tryInt
  cases h : tryInt64 str with
  | ub => exact absurd h h1
  | fail =>
    refine ⟨by simp, fun n => ?_⟩
    simp only [reduceCtorEq, false_iff]
    rintro ⟨neg, v, hN, e, l1, l2⟩
    have := (h2 n).2 ⟨neg, v, hN, e, by omega, by omega⟩
    rw [h] at this; cases this
  | ok t =>
    simp only
    have ht := (h2 t).1 h
    by_cases hc : t > 2 ^ (bits - 1) - 1 ∨ t < -2 ^ (bits - 1)
    · simp only [hc, if_true]
      refine ⟨by simp, fun n => ?_⟩
      simp only [reduceCtorEq, false_iff]
      rintro ⟨neg, v, hN, e, l1, l2⟩
      have := (h2 n).2 ⟨neg, v, hN, e, by omega, by omega⟩
      rw [h] at this
      simp only [Res.ok.injEq] at this
      omega
    · simp only [hc, if_false]
      refine ⟨by simp, fun n => ?_⟩
      simp only [Res.ok.injEq]
      constructor
      · rintro rfl
        obtain ⟨neg, v, hN, e, _⟩ := ht
        exact ⟨neg, v, hN, e, by omega, by omega⟩
      · rintro ⟨neg, v, hN, e, l1, l2⟩
        have := (h2 n).2 ⟨neg, v, hN, e, by omega, by omega⟩
        rw [h] at this
        simpa using this

/-- The reading of a string as a number is unique, so "the value" is meaningful. -/
theorem number_unique (str : List Nat) (hstr : CStr str) {v w : Nat}
    (hv : Number str false v) (hw : Number str false w) (hv' : v < 2 ^ 64) (hw' : w < 2 ^ 64) :
    v = w := by
  have h1 := ((tryUint64_spec str hstr).2 v).2 ⟨hv, hv'⟩
  have h2 := ((tryUint64_spec str hstr).2 w).2 ⟨hw, hw'⟩
  rw [h1] at h2
  simpa using h2

/-! ## Concrete cases -/

/-- " -0x1F\n" -/
example : CStr [32, 45, 48, 120, 49, 70, 10] := by simp [CStr]
example : Number [32, 45, 48, 120, 49, 70, 10] true 31 :=
  ⟨[32], [45], [48, 120, 49, 70], [10], rfl, by simp [Ws], by simp [Ws], by simp,
    .inl ⟨120, [49, 70], [1, 15], rfl, by simp, by simp, by simp [Digits, Digit], rfl⟩⟩
example : tryInt64 [32, 45, 48, 120, 49, 70, 10] = .ok (-31) := by decide
/-- "256" does not fit 8 bits, "255" does. -/
example : tryUint 8 [50, 53, 54] = .fail ∧ tryUint 8 [50, 53, 53] = .ok 255 := by decide

end Splinter.Parse
