import Verif.Model.Filter
import Verif.Proof.Log
import Mathlib.Tactic.Ring
/-!
# Reading the unary bucket encoding of a filter block
-/
namespace Splinter.Filter
open Splinter.PA (u32)
open Splinter.Log (Mem put le)

/-- Bit `j` of memory from `off` on. -/
def bitAt (m : Mem) (off j : Nat) : Bool := (m (off + j / 8) % 256).testBit (j % 8)

theorem rd_lt (m : Mem) (n : Nat) : ∀ off, rd m off n < 256 ^ n := by
  induction n with
  | zero => intro off; simp [rd]
  | succ n ih =>
    intro off
    have h1 := ih (off + 1)
    have h2 : m off % 256 < 256 := Nat.mod_lt _ (by decide)
    rw [rd, Nat.pow_succ]; omega

theorem rd_testBit (m : Mem) (n : Nat) : ∀ off t, (rd m off n).testBit t = (decide (t < 8 * n) && bitAt m off t) := by
  induction n with
  | zero => intro off t; simp [rd]
  | succ n ih =>
    intro off t
    have h2 : m off % 256 < 2 ^ 8 := Nat.mod_lt _ (by decide)
    rw [rd, Nat.add_comm, show 256 * rd m (off + 1) n = 2 ^ 8 * rd m (off + 1) n from rfl, Nat.testBit_two_pow_mul_add _ h2]
    by_cases ht : t < 8
    · have h3 : t < 8 * (n + 1) := by omega
      simp only [ht, h3, if_true, bitAt, decide_true, Bool.true_and]
      rw [show t / 8 = 0 by omega, show t % 8 = t by omega, Nat.add_zero]
    · rw [if_neg ht, ih]
      unfold bitAt
      rw [show off + 1 + (t - 8) / 8 = off + t / 8 by omega, show (t - 8) % 8 = t % 8 by omega]
      congr 1
      exact decide_eq_decide.2 (by omega)

/-! ## Counting ones -/

/-- Number of ones before position `p`. -/
def N (B : Nat → Bool) (p : Nat) : Nat := (List.range p).countP B

theorem N_succ (B : Nat → Bool) (p : Nat) : N B (p + 1) = N B p + (if B p then 1 else 0) := by
  simp [N, List.range_succ, List.countP_append, List.countP_cons]

theorem N_mono (B : Nat → Bool) {p q : Nat} (h : p ≤ q) : N B p ≤ N B q := by
  induction q, h using Nat.le_induction with
  | base => exact Nat.le_refl _
  | succ q _ ih => rw [N_succ]; omega

theorem N_congr {B B' : Nat → Bool} {p : Nat} (h : ∀ j, j < p → B j = B' j) : N B p = N B' p :=
  List.countP_congr fun x hx => by rw [h x (List.mem_range.1 hx)]

theorem N_add (B : Nat → Bool) (p n : Nat) : N B (p + n) = N B p + ((List.range n).filter fun t => B (p + t)).length := by
  induction n with
  | zero => simp
  | succ n ih =>
    rw [← Nat.add_assoc, N_succ, ih, List.range_succ, List.filter_append, List.length_append]
    by_cases h : B (p + n) <;> simp [h, Nat.add_assoc]

/-- The one number `t` is at position `p`. -/
def One (B : Nat → Bool) (t p : Nat) : Prop := B p = true ∧ N B p = t

theorem One.congr {B B' : Nat → Bool} {t p : Nat} (h : One B t p) (hb : ∀ j, j ≤ p → B j = B' j) : One B' t p :=
  ⟨(hb p (Nat.le_refl _)) ▸ h.1, (N_congr (p := p) fun j hj => hb j (Nat.le_of_lt hj)) ▸ h.2⟩

theorem One.after {B : Nat → Bool} {t p q : Nat} (h : One B t p) (hq : p < q) : t + 1 ≤ N B q := by
  have h1 := N_mono B (show p + 1 ≤ q from hq)
  rw [N_succ, h.1, h.2] at h1; simpa using h1

theorem One.before {B : Nat → Bool} {t p q : Nat} (h : One B t p) (hq : q ≤ p) : N B q ≤ t := h.2 ▸ N_mono B hq

theorem One.ge {B : Nat → Bool} {t p q : Nat} (h : One B t p) (hq : N B q ≤ t) : q ≤ p := by
  rcases Nat.lt_or_ge p q with h1 | h1
  · have := h.after h1; omega
  · exact h1

theorem One.lt {B : Nat → Bool} {t p q : Nat} (h : One B t p) (hq : t < N B q) : p < q := by
  rcases Nat.lt_or_ge p q with h1 | h1
  · exact h1
  · have := h.before h1; omega

theorem One.zero {B : Nat → Bool} {t p q x : Nat} (h : One B t p) (hq : N B q = t) (h1 : q ≤ x) (h2 : x < p) : B x = false := by
  cases hb : B x
  · rfl
  · have h3 := N_mono B h1
    have h4 := N_mono B (show x + 1 ≤ p from h2)
    rw [N_succ, hb, h.2] at h4
    simp at h4; omega

/-! ## Lowest set bits -/

theorem ctz_eq {n w e : Nat} (h1 : e < n) (h2 : w.testBit e = true) (h3 : ∀ j, j < e → w.testBit j = false) : ctz n w = some e := by
  unfold ctz
  rw [List.find?_range_eq_some]
  exact ⟨h2, List.mem_range.2 h1, fun j hj => by simp [h3 j hj]⟩

theorem clearLow_testBit {w e : Nat} (h2 : w.testBit e = true) (h3 : ∀ j, j < e → w.testBit j = false) (t : Nat) :
    (clearLow w).testBit t = (w.testBit t && decide (t ≠ e)) := by
  have hm : w % 2 ^ e = 0 := by
    apply Nat.eq_of_testBit_eq
    intro i
    rw [Nat.testBit_mod_two_pow, Nat.zero_testBit]
    by_cases hi : i < e
    · simp [h3 i hi]
    · simp [hi]
  obtain ⟨a, ha⟩ : ∃ a, w = 2 ^ e * (2 * a + 1) := by
    refine ⟨w / 2 ^ e / 2, ?_⟩
    have h4 : w / 2 ^ e % 2 = 1 := by
      rw [Nat.testBit_eq_decide_div_mod_eq] at h2; exact of_decide_eq_true h2
    have h5 : 2 * (w / 2 ^ e / 2) + 1 = w / 2 ^ e := by omega
    rw [h5]
    have := Nat.div_add_mod w (2 ^ e); omega
  have hpos := Nat.two_pow_pos e
  have hw1 : w - 1 = 2 ^ e * (2 * a) + (2 ^ e - 1) := by rw [ha, Nat.mul_add]; omega
  unfold clearLow
  rw [Nat.testBit_and, hw1, Nat.testBit_two_pow_mul_add _ (by omega : 2 ^ e - 1 < 2 ^ e)]
  rcases Nat.lt_trichotomy t e with h | h | h
  · simp [h3 t h]
  · subst h; simp
  · rw [if_neg (by omega)]
    have : w.testBit t = (2 * a).testBit (t - e) := by
      have h0 : w = 2 ^ e * (2 * a + 1) + 0 := ha
      rw [h0, Nat.testBit_two_pow_mul_add _ hpos, if_neg (by omega)]
      obtain ⟨d, hd⟩ : ∃ d, t - e = d + 1 := ⟨t - e - 1, by omega⟩
      rw [hd, Nat.testBit_succ, Nat.testBit_succ]
      congr 1; omega
    rw [this]
    have hne : t ≠ e := by omega
    simp [hne]

/-! ## Walking over words -/

/-- `w` holds the bits of word `k` (of `n` bytes) from position `q` on. -/
def Cur (m : Mem) (off n q k w : Nat) : Prop :=
  8 * n * k ≤ q ∧ q ≤ 8 * n * k + 8 * n ∧ ∀ t, w.testBit t = (decide (t < 8 * n ∧ q ≤ 8 * n * k + t) && bitAt m off (8 * n * k + t))

theorem bitAt_add (m : Mem) (off n k t : Nat) : bitAt m (off + n * k) t = bitAt m off (8 * n * k + t) := by
  unfold bitAt
  have h1 : (8 * n * k + t) / 8 = n * k + t / 8 := by rw [Nat.mul_assoc]; omega
  have h2 : (8 * n * k + t) % 8 = t % 8 := by rw [Nat.mul_assoc]; omega
  rw [h1, h2, Nat.add_assoc]

theorem cur_load (m : Mem) (off n k : Nat) : Cur m off n (8 * n * k) k (rd m (off + n * k) n) := by
  refine ⟨Nat.le_refl _, by omega, fun t => ?_⟩
  rw [rd_testBit, bitAt_add]
  congr 1
  exact decide_eq_decide.2 (by omega)

theorem cur_low {m : Mem} {off n q k w t p : Nat} (h : Cur m off n q k w) (hq : N (bitAt m off) q = t) (hp : One (bitAt m off) t p) (hk : p < 8 * n * k + 8 * n) :
    q ≤ p ∧ w ≠ 0 ∧ ctz (8 * n) w = some (p - 8 * n * k) ∧ Cur m off n (p + 1) k (clearLow w) := by
  obtain ⟨h1, h2, h3⟩ := h
  have hqp := hp.ge (Nat.le_of_eq hq)
  have hset : w.testBit (p - 8 * n * k) = true := by
    rw [h3, show 8 * n * k + (p - 8 * n * k) = p by omega, hp.1]; simp; omega
  have hlow : ∀ j, j < p - 8 * n * k → w.testBit j = false := by
    intro j hj
    rw [h3]
    by_cases hj2 : q ≤ 8 * n * k + j
    · rw [hp.zero hq hj2 (by omega)]; simp
    · simp [hj2]
  refine ⟨hqp, (fun h0 => by rw [h0, Nat.zero_testBit] at hset; cases hset), ctz_eq (by omega) hset hlow, by omega, by omega, fun t' => ?_⟩
  rw [clearLow_testBit hset hlow, h3]
  rcases Nat.lt_trichotomy (8 * n * k + t') p with hh | hh | hh
  · by_cases hj2 : q ≤ 8 * n * k + t'
    · rw [hp.zero hq hj2 hh]; simp
    · have : ¬ p + 1 ≤ 8 * n * k + t' := by omega
      simp [hj2, this]
  · have e1 : ¬ p + 1 ≤ 8 * n * k + t' := by omega
    have e2 : t' = p - 8 * n * k := by omega
    simp [e1, ← e2]
  · have e1 : p + 1 ≤ 8 * n * k + t' := by omega
    have e2 : t' ≠ p - 8 * n * k := by omega
    have e3 : q ≤ 8 * n * k + t' := by omega
    simp [e1, e2, e3]

theorem seek_spec {ps : Nat} {m : Mem} {off n t p : Nat} (hn : 0 < n) (hp : One (bitAt m off) t p) (hin : off + n * (p / (8 * n)) + n ≤ ps) :
    ∀ fuel k q w, Cur m off n q k w → N (bitAt m off) q = t → p / (8 * n) ≤ k + fuel →
      ∃ k' w', seek ps m off n fuel k w = some (k', w') ∧ k ≤ k' ∧ 8 * n * k' ≤ p ∧ p < 8 * n * k' + 8 * n ∧ Cur m off n (max q (8 * n * k')) k' w' ∧
        N (bitAt m off) (max q (8 * n * k')) = t := by
  intro fuel
  induction fuel with
  | zero =>
    intro k q w hc hq hf
    have h8 : 0 < 8 * n := by omega
    have hk : p < 8 * n * k + 8 * n := by
      have h1 := Nat.div_add_mod p (8 * n)
      have h2 := Nat.mod_lt p h8
      have h3 : 8 * n * (p / (8 * n)) ≤ 8 * n * k := Nat.mul_le_mul_left _ (by omega)
      omega
    obtain ⟨h1, h2, h3, h4⟩ := cur_low hc hq hp hk
    unfold seek
    rw [if_pos h2]
    have hmax : max q (8 * n * k) = q := by have := hc.1; omega
    exact ⟨k, w, rfl, Nat.le_refl _, by have := hc.1; omega, hk, hmax.symm ▸ hc, hmax.symm ▸ hq⟩
  | succ fuel ih =>
    intro k q w hc hq hf
    unfold seek
    by_cases h0 : w = 0
    · rw [if_neg (by simpa using h0)]
      have hz : ∀ x, q ≤ x → x < 8 * n * k + 8 * n → bitAt m off x = false := by
        intro x h1 h2
        have := hc.2.2 (x - 8 * n * k)
        have h3 := hc.1
        rw [h0, Nat.zero_testBit, show 8 * n * k + (x - 8 * n * k) = x by omega] at this
        have e : decide (x - 8 * n * k < 8 * n ∧ q ≤ x) = true := by simp; omega
        rw [e, Bool.true_and] at this; exact this.symm
      have hqp := hp.ge (Nat.le_of_eq hq)
      have hpk : 8 * n * k + 8 * n ≤ p := by
        rcases Nat.lt_or_ge p (8 * n * k + 8 * n) with h1 | h1
        · have := hz p hqp h1; rw [hp.1] at this; cases this
        · exact h1
      have hN : N (bitAt m off) (8 * n * (k + 1)) = t := by
        have e : 8 * n * (k + 1) = 8 * n * k + 8 * n := by rw [Nat.mul_add, Nat.mul_one]
        have h1 := hp.before (q := 8 * n * (k + 1)) (by omega)
        have h2 := N_mono (bitAt m off) (show q ≤ 8 * n * (k + 1) by have := hc.2.1; omega)
        omega
      have hkd : k + 1 ≤ p / (8 * n) := by
        rw [Nat.le_div_iff_mul_le (by omega), Nat.mul_comm, Nat.mul_add, Nat.mul_one]; exact hpk
      have hrd : rdIn ps m (off + n * (k + 1)) n = some (rd m (off + n * (k + 1)) n) := by
        unfold rdIn
        rw [if_pos]
        have : n * (k + 1) ≤ n * (p / (8 * n)) := Nat.mul_le_mul_left _ hkd
        omega
      rw [hrd]
      obtain ⟨k', w', h1, h2, h3, h4, h5, h6⟩ := ih (k + 1) (8 * n * (k + 1)) _ (cur_load m off n (k + 1)) hN (by omega)
      have hle : 8 * n * (k + 1) ≤ 8 * n * k' := Nat.mul_le_mul_left _ h2
      have e : 8 * n * (k + 1) = 8 * n * k + 8 * n := by rw [Nat.mul_add, Nat.mul_one]
      have hmax : max (8 * n * (k + 1)) (8 * n * k') = max q (8 * n * k') := by have := hc.2.1; omega
      exact ⟨k', w', h1, by omega, h3, h4, hmax ▸ h5, hmax ▸ h6⟩
    · rw [if_pos (by simpa using h0)]
      have hmax : max q (8 * n * k) = q := by have := hc.1; omega
      have hk : p < 8 * n * k + 8 * n := by
        rcases Nat.lt_or_ge p (8 * n * k + 8 * n) with h1 | h1
        · exact h1
        · exfalso
          apply h0
          apply Nat.eq_of_testBit_eq
          intro i
          rw [hc.2.2, Nat.zero_testBit]
          by_cases hi : i < 8 * n ∧ q ≤ 8 * n * k + i
          · rw [hp.zero hq hi.2 (by omega)]; simp
          · simp only [hi, decide_false, Bool.false_and]
      exact ⟨k, w, rfl, Nat.le_refl _, by have := hp.ge (Nat.le_of_eq hq); have := hc.1; omega, hk, hmax.symm ▸ hc, hmax.symm ▸ hq⟩

/-! ## Bucket counts and bounds -/

/-- Items in buckets before `t`, when `C t` is the number of items in buckets up to `t`. -/
def pre (C : Nat → Nat) (t : Nat) : Nat := if t = 0 then 0 else C (t - 1)

/-- The encoding of `isz` buckets, all readable inside of the page. -/
structure Enc (ps : Nat) (m : Mem) (off isz : Nat) (C : Nat → Nat) : Prop where
  one : ∀ t, t < isz → One (bitAt m off) t (t + C t)
  mono : ∀ t, t < isz → pre C t ≤ C t
  in4 : ∀ t, t < isz → off + 4 * ((t + C t) / 32) + 4 ≤ ps
  in8 : ∀ t, t < isz → off + 8 * ((t + C t) / 64) + 8 ≤ ps

theorem Enc.pos {ps : Nat} {m : Mem} {off isz : Nat} {C : Nat → Nat} (e : Enc ps m off isz C) {t : Nat} (ht : t < isz) : N (bitAt m off) (t + pre C t) = t := by
  unfold pre
  split
  · rename_i h; subst h; rfl
  · have h := e.one (t - 1) (by omega)
    have : t + C (t - 1) = t - 1 + C (t - 1) + 1 := by omega
    rw [this, N_succ, h.1, h.2]; simp; omega

theorem counts_spec {ps : Nat} {m : Mem} {off isz : Nat} {C : Nat → Nat} (e : Enc ps m off isz C) : ∀ n i k w, i + n ≤ isz →
    Cur m off 8 (i + pre C i) k w → counts ps m off n (i + pre C i - 64 * k) k w = some ((List.range' i n).map fun j => C j - pre C j) := by
  intro n
  induction n with
  | zero => intro i k w _ _; rfl
  | succ n ih =>
    intro i k w hi hc
    have hone := e.one i (by omega)
    have hin := e.in8 i (by omega)
    obtain ⟨k', w', h1, h2, h3, h4, h5, h6⟩ := seek_spec (n := 8) (by omega) hone hin ps k _ w hc (e.pos (by omega)) (by omega)
    obtain ⟨l1, _, l3, l4⟩ := cur_low h5 h6 hone h4
    unfold counts
    rw [h1]
    simp only [Option.bind_some]
    rw [show (64 : Nat) = 8 * 8 from rfl, l3]
    simp only [Option.bind_some]
    have hpre : i + 1 + pre C (i + 1) = i + C i + 1 := by unfold pre; rw [if_neg (by omega), Nat.add_sub_cancel]; omega
    have := ih (i + 1) k' (clearLow w') (by omega) (hpre.symm ▸ l4)
    rw [hpre] at this
    rw [show i + C i - 8 * 8 * k' + 1 = i + C i + 1 - 64 * k' by omega, this, List.range'_succ, List.map_cons, Option.map_some]
    congr 2
    have hc1 := hc.1
    have hc2 := hc.2.1
    have hmono := e.mono i (by omega)
    by_cases hk : k' = k
    · subst hk; simp only [if_true]; omega
    · simp only [hk, if_false]; omega

theorem bucketCounts_spec {c : Cfg} {m : Mem} {off : Nat} {C : Nat → Nat} (e : Enc c.ps m off c.isz C) (hpos : 0 < c.isz) :
    bucketCounts c m off = some ((List.range c.isz).map fun j => C j - pre C j) := by
  unfold bucketCounts rdIn
  have := e.in8 0 hpos
  rw [if_pos (by omega)]
  simp only [Option.bind_some]
  have h := counts_spec e c.isz 0 0 (rd m off 8) (by omega) (by simpa [pre] using cur_load m off 8 0)
  rw [List.range_eq_range']
  simpa [pre] using h

theorem pop_eq (m : Mem) (off k : Nat) : N (bitAt m off) (32 * (k + 1)) = N (bitAt m off) (32 * k) + pop (rd m (off + 4 * k) 4) := by
  rw [Nat.mul_add, Nat.mul_one, N_add]
  congr 1
  unfold pop
  congr 1
  apply List.filter_congr
  intro t ht
  rw [rd_testBit, bitAt_add]
  have := List.mem_range.1 ht
  simp [this]

theorem skip_spec {ps : Nat} {m : Mem} {off len t p : Nat} (hp : One (bitAt m off) t p) (hin : off + 4 * (p / 32) + 4 ≤ ps) (hlen : p / 8 < len) :
    ∀ fuel k, N (bitAt m off) (32 * k) ≤ t → p / 32 < k + fuel →
      skipWords ps m off len (t + 1) fuel k (N (bitAt m off) (32 * k)) = some (p / 32, N (bitAt m off) (32 * (p / 32))) := by
  intro fuel
  induction fuel with
  | zero => intro k h1 h2; have := hp.ge h1; omega
  | succ fuel ih =>
    intro k h1 h2
    have hk := hp.ge h1
    unfold skipWords rdIn
    rw [if_pos (by omega)]
    simp only [Option.bind_some]
    rw [← pop_eq]
    by_cases h3 : N (bitAt m off) (32 * (k + 1)) < t + 1
    · have := hp.ge (Nat.lt_succ_iff.1 h3)
      rw [if_pos ⟨by omega, h3⟩]
      exact ih (k + 1) (by omega) (by omega)
    · have := hp.lt (q := 32 * (k + 1)) (by omega)
      rw [if_neg (by omega), show p / 32 = k by omega]

theorem clearN_spec {ps : Nat} {m : Mem} {off isz k t : Nat} {C : Nat → Nat} (e : Enc ps m off isz C) (ht : t < isz) (hk : t + C t < 8 * 4 * k + 8 * 4) :
    ∀ n q w, Cur m off 4 q k w → N (bitAt m off) q + n = t → ∃ q', Cur m off 4 q' k (clearN n w) ∧ N (bitAt m off) q' = t := by
  intro n
  induction n with
  | zero => intro q w h1 h2; exact ⟨q, h1, by omega⟩
  | succ n ih =>
    intro q w h1 h2
    have ho := e.one (N (bitAt m off) q) (by omega)
    have hlt := ho.lt (q := t + C t) (by rw [(e.one t ht).2]; omega)
    obtain ⟨_, _, _, l4⟩ := cur_low h1 rfl ho (by omega)
    unfold clearN
    refine ih _ _ l4 ?_
    rw [N_succ, ho.1, ho.2]; simp; omega

theorem bounds_spec {ps : Nat} {m : Mem} {off len isz t : Nat} {C : Nat → Nat} (e : Enc ps m off isz C) (ht : t < isz) (hlen : (t + C t) / 8 < len) :
    bucketBounds ps m off len t = some (pre C t, C t) := by
  have hone := e.one t ht
  have hin := e.in4 t ht
  unfold bucketBounds
  by_cases h0 : t = 0
  · subst h0
    rw [if_pos rfl]
    unfold rdIn
    rw [if_pos (by omega)]
    simp only [Option.bind_some]
    obtain ⟨k', w', h1, h2, h3, h4, h5, h6⟩ := seek_spec (n := 4) (by omega) hone hin ps 0 0 (rd m off 4) (by simpa using cur_load m off 4 0) rfl (by omega)
    obtain ⟨l1, _, l3, l4⟩ := cur_low h5 h6 hone h4
    rw [h1]
    simp only [Option.bind_some]
    rw [show (32 : Nat) = 8 * 4 from rfl, l3]
    simp only [Option.map_some, pre, if_true]
    congr 2; omega
  · rw [if_neg h0]
    have hprev := e.one (t - 1) (by omega)
    have hm := e.mono t ht
    have hpre : pre C t = C (t - 1) := if_neg h0
    have hinp := e.in4 (t - 1) (by omega)
    have hsk := skip_spec (len := len) hprev hinp (by rw [hpre] at hm; omega) (ps + 1) 0 (by simp [N]) (by omega)
    rw [show t - 1 + 1 = t by omega] at hsk
    simp only [Nat.mul_zero, show N (bitAt m off) 0 = 0 from rfl] at hsk
    rw [hsk]
    simp only [Option.bind_some]
    obtain ⟨k, hk⟩ : ∃ k, k = (t - 1 + C (t - 1)) / 32 := ⟨_, rfl⟩
    rw [← hk]
    unfold rdIn
    rw [if_pos (by omega)]
    simp only [Option.bind_some]
    have hb := hprev.before (q := 32 * k) (by omega)
    obtain ⟨q', c1, c2⟩ := clearN_spec (k := k) e (show t - 1 < isz by omega) (by omega) (t - 1 - N (bitAt m off) (32 * k)) (32 * k) _ (cur_load m off 4 k) (by omega)
    obtain ⟨l1, _, l3, l4⟩ := cur_low c1 c2 hprev (by omega)
    rw [show (32 : Nat) = 8 * 4 from rfl] at *
    rw [l3]
    simp only [Option.bind_some]
    have hN : N (bitAt m off) (t - 1 + C (t - 1) + 1) = t := by rw [N_succ, hprev.1, hprev.2]; simp; omega
    obtain ⟨k', w', h1, h2, h3, h4, h5, h6⟩ := seek_spec (n := 4) (by omega) hone hin ps k _ _ l4 hN (by omega)
    obtain ⟨m1, _, m3, m4⟩ := cur_low h5 h6 hone h4
    rw [h1]
    simp only [Option.bind_some]
    rw [m3, hpre]
    simp only [Option.map_some]
    congr 2 <;> omega

end Splinter.Filter
