import Verif.Proof.FilterMerge
import Verif.Props.PackedArray
/-!
# Blocks of a filter: writing and reading
-/
namespace Splinter.Filter
open Splinter.PA (u32)
open Splinter.Log (Mem put le)

/-! ## Bytes and words -/

theorem le_get (v : Nat) : ∀ (n r : Nat) (h : r < (le n v).length), (le n v)[r] = v / 256 ^ r % 256 := by
  intro n
  induction n generalizing v with
  | zero => intro r h; simp [le] at h
  | succ n ih =>
    intro r h
    simp only [le]
    cases r with
    | zero => simp
    | succ r =>
      simp only [List.getElem_cons_succ]
      rw [ih, Nat.div_div_eq_div_mul, Nat.pow_succ, Nat.mul_comm]

theorem put_le_bit {m : Mem} {off n v j : Nat} (h : j < 8 * n) : bitAt (put m off (le n v)) off j = v.testBit j := by
  have hj : j / 8 < (le n v).length := by rw [Log.le_length]; omega
  unfold bitAt
  rw [Log.put_at hj, le_get, show (256 : Nat) = 2 ^ 8 from rfl, ← Nat.pow_mul, Nat.testBit_mod_two_pow, Nat.testBit_mod_two_pow, Nat.testBit_div_two_pow]
  have : j % 8 < 8 := Nat.mod_lt _ (by decide)
  simp only [this, decide_true, Bool.true_and]
  rw [show j % 8 + 8 * (j / 8) = j by omega]

theorem bitAt_congr {m m' : Mem} {off j : Nat} (h : m (off + j / 8) = m' (off + j / 8)) : bitAt m off j = bitAt m' off j := by
  unfold bitAt; rw [h]

theorem rd_congr {m m' : Mem} {n : Nat} : ∀ {off : Nat}, (∀ i, off ≤ i → i < off + n → m i = m' i) → rd m off n = rd m' off n := by
  induction n with
  | zero => intro off _; rfl
  | succ n ih =>
    intro off h
    rw [rd, rd, h off (Nat.le_refl _) (by omega), ih fun i h1 h2 => h i (by omega) (by omega)]

theorem rd_put_le {m : Mem} {off n v : Nat} (h : v < 256 ^ n) : rd (put m off (le n v)) off n = v := by
  apply Nat.eq_of_testBit_eq
  intro j
  rw [rd_testBit]
  by_cases hj : j < 8 * n
  · simp only [hj, decide_true, Bool.true_and]; exact put_le_bit hj
  · simp only [hj, decide_false, Bool.false_and]
    rw [Nat.testBit_lt_two_pow (Nat.lt_of_lt_of_le h _)]
    rw [show (256 : Nat) = 2 ^ 8 from rfl, ← Nat.pow_mul]
    exact Nat.pow_le_pow_right (by decide) (by omega)

theorem words_length (m : Mem) (n : Nat) : ∀ off, (words m off n).length = n := by
  induction n with
  | zero => intro off; rfl
  | succ n ih => intro off; simp [words, ih]

theorem words_getD (m : Mem) (n : Nat) : ∀ off k, k < n → (words m off n).getD k 0 = rd m (off + 4 * k) 4 := by
  induction n with
  | zero => intro off k h; omega
  | succ n ih =>
    intro off k h
    cases k with
    | zero => simp [words]
    | succ k => simp only [words, List.getD_cons_succ]; rw [ih _ k (by omega), show off + 4 + 4 * k = off + 4 * (k + 1) by omega]

theorem words_words (m : Mem) (n : Nat) : ∀ off, PA.Spec.Words (words m off n) := by
  induction n with
  | zero => intro off w hw; cases hw
  | succ n ih =>
    intro off w hw
    rcases List.mem_cons.1 hw with rfl | hw
    · exact rd_lt m 4 off
    · exact ih _ w hw

theorem words_bit {m : Mem} {off n j : Nat} (h : j < 32 * n) : PA.Spec.bit (words m off n) j = bitAt m off j := by
  unfold PA.Spec.bit
  rw [words_getD m n off _ (by omega), rd_testBit, bitAt_add]
  have : j % 32 < 8 * 4 := by omega
  simp only [this, decide_true, Bool.true_and]
  rw [show 8 * 4 * (j / 32) + j % 32 = j by omega]

theorem putWords_other (l : List Nat) : ∀ {m : Mem} {off i : Nat}, (i < off ∨ off + 4 * l.length ≤ i) → putWords m off l i = m i := by
  induction l with
  | nil => intro m off i _; rfl
  | cons w l ih =>
    intro m off i h
    simp only [List.length_cons] at h
    rw [putWords, ih (by omega), Log.put_other (by rw [Log.le_length]; omega)]

theorem putWords_bit (l : List Nat) : ∀ {m : Mem} {off j : Nat}, j < 32 * l.length → bitAt (putWords m off l) off j = PA.Spec.bit l j := by
  induction l with
  | nil => intro m off j h; simp at h
  | cons w l ih =>
    intro m off j h
    simp only [List.length_cons] at h
    by_cases hj : j < 32
    · rw [putWords, bitAt_congr (putWords_other l (.inl (by omega))), put_le_bit (by omega)]
      unfold PA.Spec.bit
      rw [show j / 32 = 0 by omega, show j % 32 = j by omega]; rfl
    · have := ih (m := put m off (le 4 w)) (off := off + 4) (j := j - 32) (by omega)
      rw [putWords]
      have e := bitAt_add (putWords (put m off (le 4 w)) (off + 4) l) off 4 1 (j - 32)
      rw [show off + 4 * 1 = off + 4 by omega, show 8 * 4 * 1 + (j - 32) = j by omega] at e
      rw [← e, this]
      unfold PA.Spec.bit
      rw [show j / 32 = (j - 32) / 32 + 1 by omega, show (j - 32) % 32 = j % 32 by omega]; rfl

/-! ## A block -/

theorem headerLength_eq (c : Cfg) (n : Nat) : headerLength c n = (n + c.isz - 1) / 8 + 4 + 2 := rfl

/-- Number of words of the remainders. -/
def nw (n rvs : Nat) : Nat := (n * rvs + 31) / 32

/-- A block at offset `off` holds the items `it` (with their buckets counted from `base`). -/
structure Body (c : Cfg) (m : Mem) (off rvs base : Nat) (it : List Nat) : Prop where
  num : rd m off 2 = it.length
  small : it.length ≤ 4071
  enc : Enc c.ps m (off + 2) c.isz (C rvs base it)
  fit : off + headerLength c it.length + 4 * nw it.length rvs ≤ c.ps
  pk : ∀ k (h : k < it.length) t, t < rvs → (it[k] % 2 ^ rvs).testBit t = bitAt m (off + headerLength c it.length) (k * rvs + t)

theorem item_bits {n rvs k t : Nat} (hk : k < n) (ht : t < rvs) : k * rvs + t < 32 * nw n rvs := by
  unfold nw
  have : (k + 1) * rvs ≤ n * rvs := Nat.mul_le_mul_right _ hk
  rw [Nat.add_mul, Nat.one_mul] at this
  omega

theorem Body.congr {c : Cfg} {m m' : Mem} {off rvs base : Nat} {it : List Nat} (h : Body c m off rvs base it) (hpos : 0 < c.isz)
    (hm : ∀ i, off ≤ i → i < off + headerLength c it.length + 4 * nw it.length rvs → m i = m' i) : Body c m' off rvs base it := by
  have hl := headerLength_eq c it.length
  refine ⟨?_, h.small, ⟨fun t ht => ?_, h.enc.mono, h.enc.in4, h.enc.in8⟩, h.fit, fun k hk t ht => ?_⟩
  · rw [← h.num]; exact (rd_congr fun i h1 h2 => hm i h1 (by omega)).symm
  · refine (h.enc.one t ht).congr fun j hj => bitAt_congr (hm _ (by omega) ?_)
    have := C_le rvs base it t
    omega
  · rw [h.pk k hk t ht]
    refine bitAt_congr (hm _ (by omega) ?_)
    have := item_bits hk ht
    omega

/-- Geometry that the configuration must have. -/
structure Good (c : Cfg) : Prop where
  isz : c.isz = 2 ^ c.L
  L : 4 ≤ c.L
  L32 : c.L < 32
  F : c.F ≤ 32
  ps : 8 ≤ c.ps

theorem Good.isz_pos {c : Cfg} (g : Good c) : 16 ≤ c.isz := by
  rw [g.isz]; exact Nat.le_trans (show 16 ≤ 2 ^ 4 by decide) (Nat.pow_le_pow_right (by decide) g.L)

theorem Good.isz_mod {c : Cfg} (g : Good c) : c.isz % 16 = 0 := by
  rw [g.isz, show c.L = c.L - 4 + 4 by have := g.L; omega, Nat.pow_add]; omega

/-- Lines of `emit` after choosing the page: contents of the page. -/
def writeBlock (c : Cfg) (m : Mem) (off rvs : Nat) (enc : Nat → Nat) (dst : List Nat) : Option Mem :=
  let es := (dst.length + c.isz - 1) / 8 + 4
  let m := put m off (le 2 dst.length)
  let m := put m (off + 2) ((List.range es).map (encByte enc))
  if dst.length ≠ 0 then packAt c m (off + (es + 2)) dst rvs else some m

theorem blockSize_eq {n rvs : Nat} (hn : n ≠ 0) (hr : rvs ≠ 0) (hn2 : n ≤ 4071) (hr2 : rvs ≤ 32) : blockSize n rvs = (n * rvs - 1) / 8 + 4 := by
  have h1 : 1 * 1 ≤ n * rvs := Nat.mul_le_mul (by omega) (by omega)
  have h2 : n * rvs ≤ 4071 * 32 := Nat.mul_le_mul hn2 hr2
  unfold blockSize u32
  generalize n * rvs = b at *
  have : (b + 2 ^ 64 - 1) % 2 ^ 64 = b - 1 := by omega
  rw [this]; omega

theorem blockSize_zero (rvs : Nat) : blockSize 0 rvs = 3 := by
  unfold blockSize u32; rw [Nat.zero_mul]

theorem blockSize_ge {n rvs : Nat} (hr : rvs ≠ 0) (hn2 : n ≤ 4071) (hr2 : rvs ≤ 32) : 4 * nw n rvs ≤ blockSize n rvs ∧ 3 ≤ blockSize n rvs ∧ (n ≠ 0 → 4 ≤ blockSize n rvs) := by
  by_cases hn : n = 0
  · subst hn; rw [blockSize_zero]; simp [nw]
  · rw [blockSize_eq hn hr hn2 hr2]
    unfold nw
    have h1 : 1 * 1 ≤ n * rvs := Nat.mul_le_mul (by omega) (by omega)
    omega

theorem encBytes_bit {m : Mem} {off es : Nat} {enc : Nat → Nat} {j : Nat} (h : j < 8 * es) :
    bitAt (put m off ((List.range es).map (encByte enc))) off j = encBit enc j := by
  unfold bitAt
  rw [Log.put_at (by simp; omega)]
  simp only [List.getElem_map, List.getElem_range]
  unfold encByte encBit
  rw [Nat.mod_mod, show (256 : Nat) = 2 ^ 8 from rfl, Nat.testBit_mod_two_pow, Nat.testBit_shiftRight]
  have : j % 8 < 8 := Nat.mod_lt _ (by decide)
  simp only [this, decide_true, Bool.true_and]
  rw [show j / 8 / 8 = j / 64 by omega, show 8 * (j / 8 % 8) + j % 8 = j % 64 by omega]

theorem writeBlock_other {c : Cfg} {m m' : Mem} {off rvs : Nat} {enc : Nat → Nat} {dst : List Nat} (h : writeBlock c m off rvs enc dst = some m') (hr2 : rvs ≤ 32)
    (hs : dst.length ≤ 4071) (hv : ∀ v ∈ dst, v < 2 ^ rvs) {i : Nat} (hi : i < off ∨ off + headerLength c dst.length + 4 * nw dst.length rvs ≤ i) : m' i = m i := by
  have hl := headerLength_eq c dst.length
  unfold writeBlock at h
  simp only at h
  split at h
  · unfold packAt at h
    simp only at h
    split at h
    · cases h
    rw [Option.map_eq_some_iff] at h
    obtain ⟨a, h1, rfl⟩ := h
    have hne : dst ≠ [] := by intro e; subst e; simp at *
    have hf : PA.Spec.Fits (words (put (put m off (le 2 dst.length)) (off + 2) ((List.range ((dst.length + c.isz - 1) / 8 + 4)).map (encByte enc))) (off + ((dst.length + c.isz - 1) / 8 + 4 + 2)) ((dst.length * rvs + 31) / 32)) rvs (0 + dst.length) := by
      unfold PA.Spec.Fits; rw [words_length, Nat.zero_add]; omega
    obtain ⟨a', p1, p2, _⟩ := PA.pack_spec _ rvs 0 dst (by omega) (by omega) (words_words _ _ _) hne hv hf
    rw [p1] at h1
    cases h1
    rw [words_length] at p2
    unfold nw at hi
    rw [putWords_other _ (by omega), Log.put_other (by simp; omega), Log.put_other (by rw [Log.le_length]; omega)]
  · cases h
    rw [Log.put_other (by simp; omega), Log.put_other (by rw [Log.le_length]; omega)]

theorem writeBlock_spec {c : Cfg} (g : Good c) {m m' : Mem} {off rvs base : Nat} {enc : Nat → Nat} {it : List Nat}
    (h : writeBlock c m off rvs enc (it.map (· % 2 ^ rvs)) = some m') (hr : rvs ≠ 0) (hr2 : rvs ≤ 32) (hs : it.length ≤ 4071)
    (hone : ∀ t, One (encBit enc) t (t + C rvs base it t)) (hfit : off + headerLength c it.length + blockSize it.length rvs ≤ c.ps) : Body c m' off rvs base it := by
  have hlen : (it.map (· % 2 ^ rvs)).length = it.length := by simp
  have hl := headerLength_eq c it.length
  have hpos := g.isz_pos
  have hmod := g.isz_mod
  obtain ⟨hb1, hb2, hb3⟩ := blockSize_ge (n := it.length) hr hs hr2
  have hbits : ∀ m'' : Mem, (∀ i, i < off + headerLength c it.length → m'' i = put (put m off (le 2 it.length)) (off + 2) ((List.range ((it.length + c.isz - 1) / 8 + 4)).map (encByte enc)) i) →
      rd m'' off 2 = it.length ∧ Enc c.ps m'' (off + 2) c.isz (C rvs base it) := by
    intro m'' hm
    constructor
    · rw [rd_congr (m' := put m off (le 2 it.length)) fun i h1 h2 => by rw [hm i (by omega), Log.put_other (by simp; omega)], rd_put_le (by omega)]
    · refine ⟨fun t ht => ?_, fun t _ => pre_le _ _ _ _, fun t ht => ?_, fun t ht => ?_⟩
      · refine (hone t).congr fun j hj => ?_
        have := C_le rvs base it t
        rw [bitAt_congr (hm _ (by omega)), encBytes_bit (by omega)]
      · have := C_le rvs base it t
        omega
      · have := C_le rvs base it t
        by_cases hn : it.length = 0
        · omega
        · have := hb3 hn; omega
  unfold writeBlock at h
  simp only [hlen] at h
  split at h
  · rename_i hn
    unfold packAt at h
    simp only [hlen] at h
    split at h
    · cases h
    rw [Option.map_eq_some_iff] at h
    obtain ⟨a, h1, rfl⟩ := h
    have hne : it.map (· % 2 ^ rvs) ≠ [] := by intro e; rw [← hlen, e] at hn; exact hn rfl
    have hf : PA.Spec.Fits (words (put (put m off (le 2 it.length)) (off + 2) ((List.range ((it.length + c.isz - 1) / 8 + 4)).map (encByte enc))) (off + ((it.length + c.isz - 1) / 8 + 4 + 2)) ((it.length * rvs + 31) / 32)) rvs (0 + (it.map (· % 2 ^ rvs)).length) := by
      unfold PA.Spec.Fits; rw [words_length, hlen, Nat.zero_add]; omega
    obtain ⟨a', p1, p2, p3, p4⟩ := PA.pack_spec _ rvs 0 (it.map (· % 2 ^ rvs)) (by omega) (by omega) (words_words _ _ _) hne
      (fun v hv => by obtain ⟨x, _, rfl⟩ := List.mem_map.1 hv; exact Nat.mod_lt _ (Nat.two_pow_pos _)) hf
    rw [p1] at h1
    cases h1
    rw [words_length] at p2
    obtain ⟨e1, e2⟩ := hbits (putWords (put (put m off (le 2 it.length)) (off + 2) ((List.range ((it.length + c.isz - 1) / 8 + 4)).map (encByte enc))) (off + ((it.length + c.isz - 1) / 8 + 4 + 2)) a)
      (fun i hi => putWords_other _ (by omega))
    refine ⟨e1, hs, e2, by omega, fun k hk t ht => ?_⟩
    have hib := item_bits hk ht
    rw [show off + headerLength c it.length = off + ((it.length + c.isz - 1) / 8 + 4 + 2) from rfl, putWords_bit _ (by rw [p2]; exact hib), p4]
    unfold PA.tgt
    have hkb : (k + 1) * rvs ≤ it.length * rvs := Nat.mul_le_mul_right _ hk
    rw [Nat.add_mul, Nat.one_mul] at hkb
    rw [hlen, Nat.zero_mul, if_pos (by omega), Nat.sub_zero, Nat.mul_comm k, Nat.mul_add_div (by omega), Nat.mul_add_mod, Nat.mod_eq_of_lt ht, Nat.div_eq_of_lt ht, Nat.add_zero,
      List.getD_eq_getElem?_getD, List.getElem?_map, List.getElem?_eq_getElem hk]
    rfl
  · rename_i hn
    have hn : it.length = 0 := by simpa using hn
    cases h
    obtain ⟨e1, e2⟩ := hbits _ (fun i _ => rfl)
    exact ⟨e1, hs, e2, by omega, fun k hk => by omega⟩

/-! ## Reading a block -/

theorem Body.elem {c : Cfg} {m : Mem} {off rvs base : Nat} {it : List Nat} (h : Body c m off rvs base it) {n : Nat} (hn : nw it.length rvs ≤ n) {k : Nat} (hk : k < it.length) :
    PA.Spec.Elem (words m (off + headerLength c it.length) n) rvs k (it[k] % 2 ^ rvs) := by
  refine ⟨Nat.mod_lt _ (Nat.two_pow_pos _), fun t ht => ?_⟩
  have := item_bits hk ht
  rw [words_bit (by omega)]
  exact h.pk k hk t ht

theorem Body.get {c : Cfg} {m : Mem} {off rvs base : Nat} {it : List Nat} (h : Body c m off rvs base it) (hr : 1 ≤ rvs) (hr2 : rvs ≤ 32) {n : Nat} (hn : nw it.length rvs ≤ n) {k : Nat}
    (hk : k < it.length) : PA.get (words m (off + headerLength c it.length) n) k rvs = some (it[k] % 2 ^ rvs) := by
  have hf : PA.Spec.Fits (words m (off + headerLength c it.length) n) rvs (k + 1) := by
    have h1 : (k + 1) * rvs ≤ it.length * rvs := Nat.mul_le_mul_right _ hk
    unfold PA.Spec.Fits; rw [words_length]; unfold nw at hn; omega
  obtain ⟨v, g1, g2⟩ := PA.get_spec _ rvs k hr hr2 (words_words _ _ _) hf
  rw [g1, PA.Elem.unique g2 (h.elem hn hk)]

theorem Body.unpack {c : Cfg} {m : Mem} {off rvs base : Nat} {it : List Nat} (h : Body c m off rvs base it) (hr : 1 ≤ rvs) (hr2 : rvs ≤ 32) (hne : it.length ≠ 0) :
    unpackAt c m (off + headerLength c it.length) it.length rvs = some (it.map (· % 2 ^ rvs)) := by
  have hfit := h.fit
  unfold unpackAt
  simp only
  rw [if_neg (by unfold nw at hfit; omega)]
  have hf : PA.Spec.Fits (words m (off + headerLength c it.length) ((it.length * rvs + 31) / 32)) rvs (0 + it.length) := by
    unfold PA.Spec.Fits; rw [words_length, Nat.zero_add]; omega
  obtain ⟨vs, u1, u2, u3⟩ := PA.unpack_spec _ rvs 0 it.length hr hr2 (words_words _ _ _) (by omega) hf
  rw [u1]
  congr 1
  apply List.ext_getElem?
  intro k
  by_cases hk : k < it.length
  · have i2 : vs[k]? = some vs[k] := List.getElem?_eq_getElem (by omega)
    have := u3 k _ i2
    rw [Nat.zero_add] at this
    rw [i2, List.getElem?_map, List.getElem?_eq_getElem hk, PA.Elem.unique this (h.elem (Nat.le_refl _) hk)]
    rfl
  · rw [List.getElem?_eq_none (by omega), List.getElem?_eq_none (by simp; omega)]

end Splinter.Filter
