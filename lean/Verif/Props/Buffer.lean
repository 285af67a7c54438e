import Verif.Model.Buffer
import Verif.Props.Message
/-!
# C44 (hex rendering) and C35 (lookup results)
-/
namespace Splinter.Buf
open Splinter

/-! ## Specification of the rendering -/
namespace Spec

/-- ASCII code of a hexadecimal digit below 16. -/
def hexDigit (d : Nat) : Nat := if d < 10 then 48 + d else 97 + (d - 10)

/-- The full text: `0x` and two digits per byte. -/
def rendering (data : List Nat) : List Nat :=
  48 :: 120 :: data.flatMap fun x => [hexDigit (x / 16), hexDigit (x % 16)]

end Spec

theorem nibbles : ∀ x < 256, table.getD ((x &&& 0xF0) >>> 4) 0 = Spec.hexDigit (x / 16) ∧
    table.getD (x &&& 0x0F) 0 = Spec.hexDigit (x % 16) := by decide +kernel

theorem rendering_length (data : List Nat) : (Spec.rendering data).length = 2 + 2 * data.length := by
  unfold Spec.rendering
  induction data with
  | nil => rfl
  | cons x xs ih =>
    simp only [List.flatMap_cons, List.length_cons, List.length_append, List.length_nil] at ih ⊢
    omega

theorem set_next (P : List Nat) (orig : List Nat) (v : Nat) (h : P.length < orig.length) :
    (P ++ orig.drop P.length).set P.length v = (P ++ [v]) ++ orig.drop (P ++ [v]).length := by
  rw [List.set_append_right _ _ (Nat.le_refl _), Nat.sub_self, List.drop_eq_getElem_cons h,
    List.set_cons_zero]
  simp

theorem hexLoop_spec (orig : List Nat) (maxLen : Nat) (hm : maxLen ≤ orig.length) (data : List Nat) :
    ∀ (P : List Nat), (∀ x ∈ data, x < 256) → P.length ≤ maxLen →
      ∃ out n, hexLoop maxLen (P ++ orig.drop P.length) P.length data = some out ∧
        n ≤ (data.flatMap fun x => [Spec.hexDigit (x / 16), Spec.hexDigit (x % 16)]).length ∧
        out = (P ++ (data.flatMap fun x => [Spec.hexDigit (x / 16), Spec.hexDigit (x % 16)]).take n)
          ++ orig.drop (P.length + n) ∧ P.length + n ≤ maxLen ∧
        (maxLen - 1 ≤ P.length + n ∨
          n = (data.flatMap fun x => [Spec.hexDigit (x / 16), Spec.hexDigit (x % 16)]).length) := by
  induction data with
  | nil =>
    intro P _ hP
    exact ⟨_, 0, rfl, by simp, by simp, by simpa using hP, .inr (by simp)⟩
  | cons x xs ih =>
    intro P hx hP
    unfold hexLoop
    by_cases hc : P.length ≥ maxLen - 1
    · rw [if_pos hc]
      exact ⟨_, 0, rfl, by simp, by simp, by simpa using hP, .inl (by simpa using hc)⟩
    · rw [if_neg hc]
      obtain ⟨n1, n2⟩ := nibbles x (hx x (by simp))
      rw [n1, n2]
      have hlen : (P ++ orig.drop P.length).length = orig.length := by simp; omega
      have w1 : wr (P ++ orig.drop P.length) P.length (Spec.hexDigit (x / 16)) =
          some ((P ++ [Spec.hexDigit (x / 16)]) ++ orig.drop (P ++ [Spec.hexDigit (x / 16)]).length) := by
        unfold wr
        rw [if_pos (by omega), set_next P orig _ (by omega)]
      simp only [w1]
      have w2 : wr ((P ++ [Spec.hexDigit (x / 16)]) ++ orig.drop (P ++ [Spec.hexDigit (x / 16)]).length)
            (P.length + 1) (Spec.hexDigit (x % 16)) =
          some ((P ++ [Spec.hexDigit (x / 16), Spec.hexDigit (x % 16)]) ++
            orig.drop (P ++ [Spec.hexDigit (x / 16), Spec.hexDigit (x % 16)]).length) := by
        unfold wr
        have := set_next (P ++ [Spec.hexDigit (x / 16)]) orig (Spec.hexDigit (x % 16)) (by simp; omega)
        rw [if_pos (by simp; omega)]
        simp only [List.length_append, List.length_cons, List.length_nil, Nat.zero_add,
          List.append_assoc, List.cons_append, List.nil_append] at this ⊢
        rw [this]
      simp only [w2]
      obtain ⟨out, n, i1, i2, i3, i4, i5⟩ := ih (P ++ [Spec.hexDigit (x / 16), Spec.hexDigit (x % 16)])
        (fun y hy => hx y (by simp [hy])) (by simp; omega)
      simp only [List.length_append, List.length_cons, List.length_nil, Nat.zero_add] at i1 i3 i4 i5
      refine ⟨out, n + 2, by simpa using i1, by simp only [List.flatMap_cons, List.length_append, List.length_cons, List.length_nil]; omega, ?_, by omega, ?_⟩
      · rw [i3]
        have e : P.length + (1 + 1) + n = P.length + (n + 2) := by omega
        rw [e]
        simp only [List.flatMap_cons, List.cons_append, List.nil_append, List.take_succ_cons,
          List.append_assoc]
      · rcases i5 with h | h
        · left; omega
        · right; simp only [List.flatMap_cons, List.length_append, List.length_cons, List.length_nil]; omega

/-- C44.  For every source and every non-empty destination: nothing outside the
destination is written, the destination then starts with as much of the true
rendering as leaves room for the terminator, followed by the terminator, and the
bytes after it are untouched. -/
theorem hexEncode_spec (dst data : List Nat) (hd : ∀ x ∈ data, x < 256) (hne : dst ≠ []) :
    hexEncode dst data =
      some ((Spec.rendering data).take (min (Spec.rendering data).length (dst.length - 1)) ++ [0] ++
        dst.drop (min (Spec.rendering data).length (dst.length - 1) + 1)) := by
  have hl : dst.length ≠ 0 := fun h => hne (List.length_eq_zero_iff.1 h)
  rw [rendering_length]
  unfold hexEncode
  rw [if_neg hl]
  have key : ∀ m, m = (if 2 + 2 * data.length + 1 > dst.length then dst.length else 2 + 2 * data.length + 1) →
      m - 1 = min (2 + 2 * data.length) (dst.length - 1) ∧ m ≤ dst.length ∧ 1 ≤ m ∧
      (m < dst.length → m = 2 + 2 * data.length + 1) := by
    intro m hm; split at hm <;> omega
  simp only
  generalize hm : (if 2 + 2 * data.length + 1 > dst.length then dst.length else 2 + 2 * data.length + 1) = m
  obtain ⟨k1, k2, k3, k4⟩ := key m hm.symm
  rw [← k1]
  by_cases h1 : m = 1
  · rw [if_pos h1]; subst h1
    cases dst with
    | nil => exact absurd rfl hne
    | cons a dst => simp [wr]
  · rw [if_neg h1]
    have w0 : wr dst 0 48 = some ([48] ++ dst.drop 1) := by
      have := set_next [] dst 48 (by simp; omega)
      unfold wr; rw [if_pos (by omega)]; simpa using this
    have w1 : wr ([48] ++ dst.drop 1) 1 120 = some ([48, 120] ++ dst.drop 2) := by
      have := set_next [48] dst 120 (by simp; omega)
      unfold wr; rw [if_pos (by simp; omega)]; simpa using this
    simp only [w0, w1]
    obtain ⟨out, n, e1, e2, e3, e4, e5⟩ := hexLoop_spec dst m k2 data [48, 120] hd (by simp; omega)
    simp only [List.length_cons, List.length_nil, Nat.zero_add, Nat.reduceAdd] at e1 e3 e4 e5
    rw [e1]
    simp only
    have hfl : (data.flatMap fun x => [Spec.hexDigit (x / 16), Spec.hexDigit (x % 16)]).length = 2 * data.length := by
      have := rendering_length data
      simp only [Spec.rendering, List.length_cons] at this; omega
    rw [hfl] at e5 e2
    have hpre : [48, 120] ++ (data.flatMap fun x => [Spec.hexDigit (x / 16), Spec.hexDigit (x % 16)]).take n =
        (Spec.rendering data).take (2 + n) := by
      rw [Nat.add_comm]; rfl
    rw [hpre] at e3
    have hlen : ((Spec.rendering data).take (2 + n)).length = 2 + n := by
      rw [List.length_take, rendering_length]; omega
    subst e3
    unfold wr
    rw [if_pos (by simp only [List.length_append, hlen, List.length_drop]; omega)]
    congr 1
    -- the terminator lands on position `m - 1`, the last position of or just after the text
    have hcase : 2 + n = m - 1 ∨ 2 + n = m := by omega
    rcases hcase with h | h
    · have := set_next ((Spec.rendering data).take (m - 1)) dst 0
        (by rw [← h, hlen]; omega)
      rw [h] at hlen ⊢
      rw [hlen] at this
      rw [this]
      congr 2
      simp only [List.length_append, hlen, List.length_cons, List.length_nil]
    · rw [List.set_append_left _ _ (by rw [hlen]; omega)]
      rw [h]
      have hlt : m - 1 < (Spec.rendering data).length := by rw [rendering_length]; omega
      have : (Spec.rendering data).take m = (Spec.rendering data).take (m - 1) ++ [(Spec.rendering data)[m - 1]] := by
        have := List.take_append_getElem hlt
        rw [this]; congr 1; omega
      rw [this, List.set_append_right _ _ (by simp; omega)]
      have hl2 : ((Spec.rendering data).take (m - 1)).length = m - 1 := by
        rw [List.length_take]; omega
      rw [hl2]
      simp only [Nat.sub_self, List.set_cons_zero]
      congr 2; omega

/-- The destination then holds a terminated C string: its text contains no
terminator, so it ends exactly where the theorem says. -/
theorem rendering_no_nul (data : List Nat) : ∀ c ∈ Spec.rendering data, c ≠ 0 := by
  intro c hc
  simp only [Spec.rendering, List.mem_cons, List.mem_flatMap] at hc
  rcases hc with rfl | rfl | ⟨x, _, h⟩
  · omega
  · omega
  · simp only [List.not_mem_nil, or_false] at h
    unfold Spec.hexDigit at h
    rcases h with h | h <;> split at h <;> omega

example : hexEncode [1, 1, 1, 1, 1, 1] [171, 205] = some [48, 120, 97, 98, 99, 0] := by decide
example : hexEncode [1, 1, 1, 1, 1, 1, 1, 1, 1] [171, 205] = some [48, 120, 97, 98, 99, 100, 0, 1, 1] := by decide

/-! ## Writable buffers -/

/-- The logical length fits the memory. -/
def WB.WF (wb : WB) : Prop := ∀ l, wb.len = some l → l ≤ wb.buf.length

/-- Memory obtained from the allocator has the requested size. -/
def GoodAlloc (alloc : Alloc) : Prop := ∀ n l, alloc n = some l → l.length = n

/-- The allocator never fails. -/
def TotalAlloc (alloc : Alloc) : Prop := ∀ n, ∃ l, alloc n = some l

variable {alloc : Alloc}

theorem ensureSpace_spec (hg : GoodAlloc alloc) (wb : WB) (hw : wb.WF) (n : Nat) :
    (∀ wb', ensureSpace alloc wb n = some wb' →
      wb'.WF ∧ wb'.len = wb.len ∧ n ≤ wb'.buf.length ∧ wb.buf.length ≤ wb'.buf.length ∧
      toSlice wb' = toSlice wb) ∧
    (TotalAlloc alloc → ∃ wb', ensureSpace alloc wb n = some wb') := by
  unfold ensureSpace
  by_cases hc : n ≤ wb.buf.length
  · rw [if_pos hc]
    refine ⟨fun wb' h => ?_, fun _ => ⟨_, rfl⟩⟩
    cases h
    exact ⟨hw, rfl, hc, Nat.le_refl _, rfl⟩
  · rw [if_neg hc]
    simp only
    generalize hm : (if n < 2 * wb.buf.length then 2 * wb.buf.length else n) = m
    have hmn : n ≤ m := by split at hm <;> omega
    refine ⟨fun wb' h => ?_, fun ht => ?_⟩
    · cases ha : alloc m with
      | none => rw [ha] at h; simp at h
      | some fresh =>
        have hf := hg m fresh ha
        rw [ha] at h
        simp only [Option.some.injEq] at h
        subst h
        cases hl : wb.len with
        | none =>
          refine ⟨?_, rfl, ?_, ?_, by simp [toSlice, hl]⟩
          · intro l h'; simp [hl] at h'
          · simp only; split
            · simp; omega
            · omega
          · simp only; split
            · simp
            · omega
        | some l =>
          have hll := hw l hl
          refine ⟨?_, rfl, ?_, ?_, ?_⟩
          · intro l' h'
            simp only [hl, Option.some.injEq] at h'
            subst h'
            simp only; split
            · simp; omega
            · simp; omega
          · simp only; split
            · simp; omega
            · simp; omega
          · simp only; split
            · simp
            · simp; omega
          · simp only [toSlice, hl, Option.map_some]
            congr 1
            split
            · rw [List.take_append_of_le_length hll]
            · rw [List.take_append_of_le_length (by simp; omega), List.take_take]; simp
    · obtain ⟨l, hl⟩ := ht m
      rw [hl]; exact ⟨_, rfl⟩

/-- C35 (buffers): resizing keeps the common prefix of the contents. -/
theorem resize_spec (hg : GoodAlloc alloc) (wb : WB) (hw : wb.WF) (n : Nat) (wb' : WB)
    (h : resize alloc wb n = some wb') :
    wb'.WF ∧ wb'.len = some n ∧ n ≤ wb'.buf.length ∧ wb.buf.length ≤ wb'.buf.length ∧
    ∀ c, toSlice wb = some c → ∃ c', toSlice wb' = some c' ∧ c'.length = n ∧
      c'.take c.length = c.take n := by
  unfold resize at h
  cases he : ensureSpace alloc wb n with
  | none => rw [he] at h; simp at h
  | some w =>
    rw [he] at h
    simp only [Option.some.injEq] at h
    obtain ⟨h1, h2, h3, h4, h5⟩ := (ensureSpace_spec hg wb hw n).1 w he
    subst h
    refine ⟨?_, rfl, h3, h4, ?_⟩
    · intro l hl; simp only [Option.some.injEq] at hl; subst hl; exact h3
    · intro c hc
      refine ⟨w.buf.take n, rfl, by simp; omega, ?_⟩
      rw [← h5] at hc
      unfold toSlice at hc
      cases hl : w.len with
      | none => rw [hl] at hc; simp at hc
      | some l =>
        rw [hl] at hc
        simp only [Option.map_some, Option.some.injEq] at hc
        subst hc
        have := h1 l hl
        rw [List.length_take, List.take_take, List.take_take]
        congr 1; omega

/-- C35 (buffers): copying a slice in stores exactly its bytes, whatever the
buffer held and however small it was; it can only fail for lack of memory. -/
theorem copySlice_spec (hg : GoodAlloc alloc) (wb : WB) (hw : wb.WF) (src : List Nat) :
    (∀ wb', copySlice alloc wb src = some wb' → wb'.WF ∧ toSlice wb' = some src) ∧
    (TotalAlloc alloc → ∃ wb', copySlice alloc wb src = some wb') := by
  unfold copySlice
  cases hr : resize alloc wb src.length with
  | none =>
    refine ⟨by simp, fun ht => ?_⟩
    obtain ⟨w, hw2⟩ := (ensureSpace_spec hg wb hw src.length).2 ht
    simp [resize, hw2] at hr
  | some w =>
    obtain ⟨h1, h2, h3, _⟩ := resize_spec hg wb hw _ w hr
    simp only
    unfold memcpy
    rw [if_pos (by omega)]
    refine ⟨fun wb' h => ?_, fun _ => ⟨_, rfl⟩⟩
    simp only [Option.some.injEq] at h
    subst h
    constructor
    · intro l hl
      simp only [h2, Option.some.injEq] at hl
      subst hl; simp
    · simp [toSlice, h2]

/-- C35 (buffers): appending. -/
theorem append_spec (hg : GoodAlloc alloc) (wb : WB) (hw : wb.WF) (src : List Nat) :
    (∀ wb', append alloc wb src = some wb' →
      wb'.WF ∧ toSlice wb' = some ((toSlice wb).getD [] ++ src)) ∧
    (TotalAlloc alloc → ∃ wb', append alloc wb src = some wb') := by
  unfold append
  simp only
  cases hr : resize alloc wb (wb.len.getD 0 + src.length) with
  | none =>
    refine ⟨by simp, fun ht => ?_⟩
    obtain ⟨w, hw2⟩ := (ensureSpace_spec hg wb hw (wb.len.getD 0 + src.length)).2 ht
    simp [resize, hw2] at hr
  | some w =>
    obtain ⟨h1, h2, h3, _, h5⟩ := resize_spec hg wb hw _ w hr
    simp only
    unfold memcpy
    rw [if_pos (by omega)]
    refine ⟨fun wb' h => ?_, fun _ => ⟨_, rfl⟩⟩
    simp only [Option.some.injEq] at h
    subst h
    have hpre : w.buf.take (wb.len.getD 0) = (toSlice wb).getD [] := by
      cases hl : wb.len with
      | none => simp [toSlice, hl]
      | some l =>
        obtain ⟨c', hc1, hc2, hc3⟩ := h5 (wb.buf.take l) (by simp [toSlice, hl])
        have hll := hw l hl
        simp only [toSlice, h2, Option.map_some, Option.some.injEq, hl, Option.getD_some] at hc1 hc3 ⊢
        rw [← hc1, List.length_take, Nat.min_eq_left hll, List.take_take, List.take_take] at hc3
        have e1 : min l (l + src.length) = l := by omega
        have e2 : min (l + src.length) l = l := by omega
        rw [e1, e2] at hc3
        exact hc3
    constructor
    · intro l hl
      simp only [h2, Option.some.injEq] at hl
      subst hl
      simp only [List.length_append, List.length_take, List.length_drop]; omega
    · simp only [toSlice, h2, Option.map_some]
      congr 1
      rw [show (List.take (wb.len.getD 0) w.buf ++ src ++ List.drop (wb.len.getD 0 + src.length) w.buf)
        = (List.take (wb.len.getD 0) w.buf ++ src) ++ List.drop (wb.len.getD 0 + src.length) w.buf from rfl]
      rw [List.take_append_of_le_length (by simp only [List.length_append, List.length_take]; omega)]
      rw [List.take_of_length_le (by simp only [List.length_append, List.length_take]; omega)]
      rw [hpre]; rfl

/-! ## Lookup results -/

variable {K : Type}

/-- A result object between calls: consistent, and INVALID exactly when null. -/
def Acc.WF (a : Acc) : Prop := a.data.WF ∧ (a.type = none ↔ a.data.len = none)

theorem copyMessage_spec (hg : GoodAlloc alloc) (a : Acc) (hw : a.data.WF) (m : Msg (List Nat)) :
    (∀ a', a.copyMessage alloc m = some a' → a'.WF ∧ a'.toMessage = some m) ∧
    (TotalAlloc alloc → ∃ a', a.copyMessage alloc m = some a') := by
  unfold Acc.copyMessage
  obtain ⟨c1, c2⟩ := copySlice_spec hg a.data hw m.data
  cases hc : copySlice alloc a.data m.data with
  | none =>
    refine ⟨by simp, fun ht => ?_⟩
    obtain ⟨w, h⟩ := c2 ht
    rw [hc] at h; cases h
  | some w =>
    obtain ⟨d1, d2⟩ := c1 w hc
    refine ⟨fun a' h => ?_, fun _ => ⟨_, rfl⟩⟩
    simp only [Option.some.injEq] at h
    subst h
    refine ⟨⟨d1, ?_⟩, by simp [Acc.toMessage, d2]⟩
    simp only [reduceCtorEq, false_iff]
    intro h
    simp [toSlice, h] at d2

theorem toMessage_isNull (a : Acc) (hw : a.WF) :
    (a.isNull = true ↔ a.toMessage = none) := by
  unfold Acc.isNull Acc.toMessage toSlice
  have := hw.2
  cases hl : a.data.len with
  | none => simp
  | some l =>
    cases ht : a.type with
    | none => rw [ht, hl] at this; simp at this
    | some t => simp

theorem toMessage_definitive (a : Acc) (m : Msg (List Nat)) (h : a.toMessage = some m) :
    a.definitive = m.definitive := by
  unfold Acc.toMessage at h
  cases ht : a.type with
  | none => rw [ht] at h; simp at h
  | some t =>
    cases hs : toSlice a.data with
    | none => rw [ht, hs] at h; simp at h
    | some d =>
      rw [ht, hs] at h
      simp only [Option.some.injEq] at h
      subst h
      simp [Acc.definitive, Msg.definitive, ht]

/-- The byte-level accumulator follows the message-level one. -/
theorem accumulateInto_spec (hg : GoodAlloc alloc) (ht : TotalAlloc alloc)
    (cfg : DataCfg K (List Nat)) (k : K) (a : Acc) (hw : a.WF) (m : Msg (List Nat)) :
    match accumulate cfg k a.toMessage m with
    | none => accumulateInto alloc cfg k a m = none
    | some r => ∃ a', accumulateInto alloc cfg k a m = some a' ∧ a'.WF ∧ a'.toMessage = r := by
  unfold accumulateInto accumulate
  obtain ⟨n1, n2⟩ := toMessage_isNull a hw
  cases hm : a.toMessage with
  | none =>
    simp only [n2 hm, if_true]
    obtain ⟨c1, c2⟩ := copyMessage_spec hg a hw.1 m
    obtain ⟨a', h⟩ := c2 ht
    exact ⟨a', h, c1 a' h⟩
  | some x =>
    have hnn : ¬ (a.isNull = true) := fun h => by rw [n1 h] at hm; cases hm
    simp only [hnn, if_false]
    by_cases hd : x.definitive = true
    · simp only [dataMergeTuples, hd, if_true, Option.map_some]
      exact ⟨a, rfl, hw, hm⟩
    · simp only [hd, Bool.false_eq_true, if_false]
      cases hr : dataMergeTuples cfg k m x with
      | none => rfl
      | some r =>
        simp only [Option.map_some]
        obtain ⟨c1, c2⟩ := copyMessage_spec hg a hw.1 r
        obtain ⟨a', h⟩ := c2 ht
        exact ⟨a', h, c1 a' h⟩

theorem visitRuns_spec (hg : GoodAlloc alloc) (ht : TotalAlloc alloc)
    (cfg : DataCfg K (List Nat)) (k : K) (ms : List (Msg (List Nat))) :
    ∀ (a : Acc), a.WF →
    match accumulateAll cfg k a.toMessage ms with
    | none => visitRuns alloc cfg k a ms = none
    | some r => ∃ a', visitRuns alloc cfg k a ms = some a' ∧ a'.WF ∧ a'.toMessage = r := by
  induction ms with
  | nil => intro a hw; exact ⟨a, rfl, hw, rfl⟩
  | cons m ms ih =>
    intro a hw
    have h := accumulateInto_spec hg ht cfg k a hw m
    unfold accumulateAll visitRuns
    cases hacc : accumulate cfg k a.toMessage m with
    | none => rw [hacc] at h; simp only at h; simp [h]
    | some r =>
      rw [hacc] at h
      obtain ⟨a', h1, h2, h3⟩ := h
      simp only [h1]
      cases r with
      | none =>
        -- `accumulate` never yields an empty accumulator
        exfalso
        unfold accumulate at hacc
        cases hx : a.toMessage with
        | none => rw [hx] at hacc; simp at hacc
        | some x =>
          rw [hx] at hacc
          simp only at hacc
          cases hy : dataMergeTuples cfg k m x <;> rw [hy] at hacc <;> simp at hacc
      | some x =>
        simp only [toMessage_definitive a' x h3]
        by_cases hd : x.definitive = true
        · simp only [hd, if_true]; exact ⟨a', rfl, h2, h3⟩
        · simp only [hd, Bool.false_eq_true, if_false]
          have := ih a' h2
          rw [h3] at this; exact this

theorem setToNull_wf (a : Acc) : a.setToNull.WF ∧ a.setToNull.toMessage = none := by
  refine ⟨⟨?_, by simp [Acc.setToNull, setToNull]⟩, rfl⟩
  intro l h; simp [Acc.setToNull, setToNull] at h

/-- What the caller reads from a result object. -/
def read (a : Acc) : LookupOut (List Nat) :=
  match resultValue a with
  | some v => if resultFound a then .found v else .notFound
  | none => .notFound

open Splinter.Spec in
/-- C35.  Whatever the result object held before, and whatever buffer it was
initialised with, after a lookup it reports exactly the value of the key's
history (found/not found and the bytes), and it stays usable for the next lookup. -/
theorem lookupInto_spec (hg : GoodAlloc alloc) (ht : TotalAlloc alloc)
    {cfg : DataCfg K (List Nat)} {sem : UpdateSem K (List Nat)} (H : Implements cfg sem) (k : K)
    (ms : List (Msg (List Nat))) (a : Acc) :
    ∃ a', lookupInto alloc cfg k ms a = some a' ∧ a'.WF ∧
      read a' = report (eval sem k ms.reverse) ∧
      (resultFound a' = true ↔ eval sem k ms.reverse ≠ none) := by
  have hspec := lookupMsgs_spec H k ms
  unfold lookupMsgs at hspec
  obtain ⟨w0, m0⟩ := setToNull_wf a
  have hv := visitRuns_spec hg ht cfg k ms _ w0
  rw [m0] at hv
  unfold lookupInto
  have hfound : ∀ a' : Acc, a'.WF → read a' = report (eval sem k ms.reverse) →
      (resultFound a' = true ↔ eval sem k ms.reverse ≠ none) := by
    intro a' _ hr
    unfold read resultValue at hr
    cases hf : resultFound a' with
    | false =>
      rw [hf] at hr
      cases he : eval sem k ms.reverse with
      | none => simp
      | some v => rw [he] at hr; simp [report] at hr
    | true =>
      rw [hf] at hr
      simp only [Bool.not_true, Bool.false_eq_true, if_false] at hr
      cases he : eval sem k ms.reverse with
      | none =>
        rw [he] at hr
        unfold resultFound Acc.isNull at hf
        unfold toSlice at hr
        cases hl : a'.data.len with
        | none => rw [hl] at hf; simp at hf
        | some l => rw [hl] at hr; simp [report] at hr
      | some v => simp
  suffices h : ∃ a', lookupInto alloc cfg k ms a = some a' ∧ a'.WF ∧
      read a' = report (eval sem k ms.reverse) by
    obtain ⟨a', h1, h2, h3⟩ := h
    unfold lookupInto at h1
    exact ⟨a', h1, h2, h3, hfound a' h2 h3⟩
  unfold lookupInto
  cases hacc : accumulateAll cfg k none ms with
  | none =>
    rw [hacc] at hspec
    simp only [report] at hspec
    cases he : eval sem k ms.reverse <;> rw [he] at hspec <;> cases hspec
  | some r =>
    rw [hacc] at hv hspec
    obtain ⟨a1, v1, v2, v3⟩ := hv
    simp only [v1]
    simp only at hspec
    -- reading an accumulator that holds an insert
    have rdIns : ∀ (a2 : Acc) (m : Msg (List Nat)), a2.toMessage = some m → read a2 = .found m.data := by
      intro a2 m hm
      unfold Acc.toMessage at hm
      cases ht2 : a2.type with
      | none => rw [ht2] at hm; simp at hm
      | some t =>
        cases hs : toSlice a2.data with
        | none => rw [ht2, hs] at hm; simp at hm
        | some d =>
          rw [ht2, hs] at hm
          simp only [Option.some.injEq] at hm
          subst hm
          have hnn : resultFound a2 = true := by
            unfold resultFound Acc.isNull
            unfold toSlice at hs
            cases hl : a2.data.len with
            | none => rw [hl] at hs; simp at hs
            | some l => simp
          simp [read, resultValue, hnn, hs]
    have rdNull : ∀ a2 : Acc, read a2.setToNull = .notFound := fun a2 => rfl
    have typeOf : ∀ (a2 : Acc) (m : Msg (List Nat)), a2.toMessage = some m → a2.type = some m.type := by
      intro a2 m hm
      unfold Acc.toMessage at hm
      cases ht2 : a2.type with
      | none => rw [ht2] at hm; simp at hm
      | some t =>
        cases hs : toSlice a2.data with
        | none => rw [ht2, hs] at hm; simp at hm
        | some d =>
          rw [ht2, hs] at hm
          simp only [Option.some.injEq] at hm
          subst hm; rfl
    cases r with
    | none =>
      have hn := (toMessage_isNull a1 v2).2 v3
      simp only [hn, Bool.true_or, if_true, Bool.not_true, Bool.false_and, Bool.false_eq_true,
        if_false]
      refine ⟨a1, rfl, v2, ?_⟩
      rw [← hspec]
      unfold finishLookup read resultValue resultFound
      simp [hn]
    | some x =>
      have hn : a1.isNull = false := by
        cases h : a1.isNull with
        | false => rfl
        | true => rw [(toMessage_isNull a1 v2).1 h] at v3; cases v3
      have hdef := toMessage_definitive a1 x v3
      rw [← hspec]
      unfold finishLookup
      by_cases hd : x.definitive = true
      · simp only [hn, hdef, hd, Bool.or_true, if_true, Bool.not_false, Bool.true_and,
          dataMergeTuplesFinal, decide_eq_true_eq, typeOf a1 x v3, Option.some.injEq]
        by_cases hdel : x.type = .delete
        · simp only [hdel, if_true]
          exact ⟨_, rfl, (setToNull_wf a1).1, rdNull a1⟩
        · simp only [hdel, if_false]
          refine ⟨a1, rfl, v2, ?_⟩
          rw [rdIns a1 x v3]
          cases hx : x.type <;> simp_all
      · simp only [hn, hdef, hd, Bool.or_self, Bool.false_eq_true, if_false, v3]
        cases hf : dataMergeTuplesFinal cfg k x with
        | none =>
          exfalso
          unfold finishLookup at hspec
          simp only [hf, report] at hspec
          cases he : eval sem k ms.reverse <;> rw [he] at hspec <;> cases hspec
        | some y =>
          simp only
          obtain ⟨c1, c2⟩ := copyMessage_spec hg a1 v2.1 y
          obtain ⟨a2, hcp⟩ := c2 ht
          obtain ⟨d1, d2⟩ := c1 a2 hcp
          simp only [hcp]
          have hn2 : a2.isNull = false := by
            cases h : a2.isNull with
            | false => rfl
            | true => rw [(toMessage_isNull a2 d1).1 h] at d2; cases d2
          simp only [hn2, Bool.not_false, Bool.true_and, decide_eq_true_eq, typeOf a2 y d2,
            Option.some.injEq]
          by_cases hdel : y.type = .delete
          · simp only [hdel, if_true]
            exact ⟨_, rfl, (setToNull_wf a2).1, rdNull a2⟩
          · simp only [hdel, if_false]
            refine ⟨a2, rfl, d1, ?_⟩
            rw [rdIns a2 y d2]
            cases hy : y.type <;> simp_all

/-- A sequence of lookups through one result object: what is read after each. -/
def lookups (alloc : Alloc) (cfg : DataCfg K (List Nat)) :
    Acc → List (K × List (Msg (List Nat))) → Option (List (LookupOut (List Nat)))
  | _, [] => some []
  | a, (k, ms) :: rest =>
    match lookupInto alloc cfg k ms a with
    | none => none
    | some a' => (lookups alloc cfg a' rest).map (read a' :: ·)

open Splinter.Spec in
/-- C35, reuse: any sequence of lookups through one result object, starting from
any initial buffer, reads back each key's own history. -/
theorem lookups_reuse (hg : GoodAlloc alloc) (ht : TotalAlloc alloc)
    {cfg : DataCfg K (List Nat)} {sem : UpdateSem K (List Nat)} (H : Implements cfg sem)
    (qs : List (K × List (Msg (List Nat)))) :
    ∀ a : Acc, lookups alloc cfg a qs =
      some (qs.map fun q => report (eval sem q.1 q.2.reverse)) := by
  induction qs with
  | nil => intro a; rfl
  | cons q qs ih =>
    intro a
    obtain ⟨a', h1, _, h3, _⟩ := lookupInto_spec hg ht H q.1 q.2 a
    simp [lookups, h1, h3, ih a']

/-- A concrete instance: a 1-byte initial buffer, an update over an insert, then a
deleted key, then a short value. -/
example : lookups (fun n => some (List.replicate n 255)) appendCfg (resultInit [9])
    [(1, [⟨.update, [5, 6]⟩, ⟨.insert, [1, 2, 3]⟩]), (2, [⟨.delete, []⟩, ⟨.insert, [8]⟩]),
     (3, [⟨.insert, [7]⟩])] =
    some [.found [1, 2, 3, 5, 6], .notFound, .found [7]] :=
  lookups_reuse (by intro n l h; cases h; simp) (fun n => ⟨_, rfl⟩) append_implements _ _

end Splinter.Buf
