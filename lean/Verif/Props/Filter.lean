import Verif.Proof.FilterAdd
import Mathlib.Data.List.Perm.Subperm
import Mathlib.Data.List.Dedup
/-!
# C15: a routing filter never hides a present key

The property is about hashes: `A` lists what has been added, newest first, as pairs of hashes and value. Nothing in the statement refers to
blocks, buckets or remainders.
-/
namespace Splinter.Filter
open Splinter.Log (Mem)

/-- The filters that can come about: an empty one, adding hashes for a value not smaller than the earlier ones (trunk nodes number their branches
upwards) on freshly allocated pages, and any change of the device outside of the pages of the filter (among them a later filter being built). -/
inductive Reach (c : Cfg) : (Nat → Mem) → Filter → (Nat → Prop) → List (List Nat × Nat) → Prop
  | empty (dev) : Reach c dev emptyFilter (fun _ => False) []
  | add {dev dev' f f' U A hs temp value ext pgs} : Reach c dev f U A → Fresh c ext pgs → (∀ a, U a → ¬ IP c ext a ∧ a ∉ pgs) → (∀ h ∈ hs, h < 2 ^ 32) → temp.length = hs.length →
      (∀ p ∈ A, p.2 ≤ value) → hs.length + (A.map (·.1.length)).sum < 2 ^ 32 → add c dev f hs temp value ext pgs = some (dev', f') →
      Reach c dev' f' (fun a => IP c ext a ∨ a ∈ pgs) ((hs, value) :: A)
  | other {dev dev' f U A} : Reach c dev f U A → (∀ a, U a → dev' a = dev a) → Reach c dev' f U A

theorem Reach.filt {c : Cfg} (g : Good c) {dev : Nat → Mem} {f : Filter} {U : Nat → Prop} {A : List (List Nat × Nat)} (r : Reach c dev f U A) :
    Filt c dev f U (fun fp v => ∃ p ∈ A, v = p.2 ∧ ∃ h ∈ p.1, fp = h >>> (32 - c.F)) ∧ f.nfp = (A.map (·.1.length)).sum ∧ f.vs = (A.head?.map fun p => valueSize p.2).getD 0 := by
  induction r with
  | empty dev => exact ⟨.inl ⟨rfl, by simp⟩, rfl, rfl⟩
  | @add dev dev' f f' U A hs temp value ext pgs _ hf hU hhs ht hv hn ha ih =>
    obtain ⟨i1, i2, i3⟩ := ih
    have hvs : f.vs ≤ valueSize value := by
      rw [i3]
      cases A with
      | nil => exact Nat.zero_le _
      | cons p A => exact valueSize_mono (hv p (by simp))
    obtain ⟨a1, _, a3, a4, _⟩ := add_core g i1 hf hU hhs ht (by rw [i2]; exact hn) hvs ha
    refine ⟨?_, by rw [a3, i2]; simp, by rw [a4]; rfl⟩
    have e : (fun fp v => (∃ p ∈ A, v = p.2 ∧ ∃ h ∈ p.1, fp = h >>> (32 - c.F)) ∨ v = value ∧ ∃ h ∈ hs, fp = h >>> (32 - c.F)) =
        fun fp v => ∃ p ∈ (hs, value) :: A, v = p.2 ∧ ∃ h ∈ p.1, fp = h >>> (32 - c.F) := by
      funext fp v
      simp only [List.mem_cons, exists_eq_or_imp, eq_iff_iff]
      rw [or_comm]
    rw [← e]; exact a1
  | other _ hd ih =>
    obtain ⟨i1, i2, i3⟩ := ih
    refine ⟨?_, i2, i3⟩
    rcases i1 with h | ⟨lb, its, h⟩
    · exact .inl h
    · exact .inr ⟨lb, its, h.congr hd⟩

/-- C15, exactly: a lookup reports the values of the hashes that agree on the first `fingerprint_size` bits, and no other. -/
theorem lookup_exact {c : Cfg} (g : Good c) {dev : Nat → Mem} {f : Filter} {U : Nat → Prop} {A : List (List Nat × Nat)} (r : Reach c dev f U A) (h64 : ∀ p ∈ A, p.2 < 64) {h : Nat}
    (hh : h < 2 ^ 32) : ∃ fv, lookup c dev f h = some fv ∧ ∀ v, fv.testBit v = true ↔ ∃ p ∈ A, p.2 = v ∧ ∃ h' ∈ p.1, h' >>> (32 - c.F) = h >>> (32 - c.F) := by
  obtain ⟨hf, _, _⟩ := r.filt g
  rcases hf with ⟨rfl, hno⟩ | ⟨lb, its, hl⟩
  · refine ⟨0, by unfold lookup; rw [if_pos (show emptyFilter.addr = 0 from rfl)], fun v => ?_⟩
    simp only [Nat.zero_testBit, Bool.false_eq_true, false_iff]
    rintro ⟨p, hp, rfl, h', h1, h2⟩
    exact hno (h >>> (32 - c.F)) p.2 ⟨p, hp, rfl, h', h1, h2.symm⟩
  · obtain ⟨fv, h1, h2⟩ := lookup_spec g hl (fun fp v ⟨p, hp, e, _⟩ => e ▸ h64 p hp) hh
    refine ⟨fv, h1, fun v => ?_⟩
    rw [h2]
    constructor
    · rintro ⟨p, hp, e, h', h3, h4⟩; exact ⟨p, hp, e.symm, h', h3, h4.symm⟩
    · rintro ⟨p, hp, e, h', h3, h4⟩; exact ⟨p, hp, e.symm, h', h3, h4.symm⟩

/-- C15: no key is hidden. The full property has no conditions; here the additions must have come to an end (`add_overflow` and
`index_size_20_faults` show that they need not), `index_size` must be a power of two of at least 16, and the values below 64. -/
theorem never_hides_partial {c : Cfg} (g : Good c) {dev : Nat → Mem} {f : Filter} {U : Nat → Prop} {A : List (List Nat × Nat)} (r : Reach c dev f U A) (h64 : ∀ p ∈ A, p.2 < 64) {hs : List Nat}
    {v h : Nat} (hA : (hs, v) ∈ A) (hh : h ∈ hs) (hlt : h < 2 ^ 32) : ∃ fv, lookup c dev f h = some fv ∧ fv.testBit v = true := by
  obtain ⟨fv, h1, h2⟩ := lookup_exact g r h64 hlt
  exact ⟨fv, h1, (h2 v).2 ⟨_, hA, rfl, h, hh, rfl⟩⟩

/-- Adding to a filter leaves the device unchanged outside of the new pages, so the old filter can still be used. -/
theorem add_frame {c : Cfg} (g : Good c) {dev dev' : Nat → Mem} {f f' : Filter} {U : Nat → Prop} {A : List (List Nat × Nat)} (r : Reach c dev f U A) {hs temp : List Nat} {value ext : Nat}
    {pgs : List Nat} (hf : Fresh c ext pgs) (hU : ∀ a, U a → ¬ IP c ext a ∧ a ∉ pgs) (hhs : ∀ h ∈ hs, h < 2 ^ 32) (ht : temp.length = hs.length) (hv : ∀ p ∈ A, p.2 ≤ value)
    (hn : hs.length + (A.map (·.1.length)).sum < 2 ^ 32) (ha : add c dev f hs temp value ext pgs = some (dev', f')) : (∀ a, ¬ IP c ext a → a ∉ pgs → dev' a = dev a) ∧ Reach c dev' f U A := by
  obtain ⟨i1, i2, i3⟩ := r.filt g
  have hvs : f.vs ≤ valueSize value := by
    rw [i3]
    cases A with
    | nil => exact Nat.zero_le _
    | cons p A => exact valueSize_mono (hv p (by simp))
  obtain ⟨_, a2, _⟩ := add_core g i1 hf hU hhs ht (by rw [i2]; exact hn) hvs ha
  exact ⟨a2, .other r fun a hU' => a2 a (hU a hU').1 (hU a hU').2⟩

/-! ## Going through the values -/

/-- `nextValue` finds the largest value below the last one. -/
theorem nextValue_spec {found : Nat} {last : Option Nat} (hl : ∀ v ∈ last, v < 31) : ∃ r, nextValue found last = some r ∧
    match r with
    | none => ∀ u, (∀ v ∈ last, u < v) → found.testBit u = false
    | some w => found.testBit w = true ∧ (∀ v ∈ last, w < v) ∧ ∀ u, (∀ v ∈ last, u < v) → found.testBit u = true → u ≤ w := by
  have key : ∀ x : Nat, ∃ r, (if x = 0 then none else some x.log2) = r ∧ match r with
      | none => ∀ u, x.testBit u = false
      | some w => x.testBit w = true ∧ ∀ u, x.testBit u = true → u ≤ w := by
    intro x
    split
    · rename_i h; exact ⟨none, rfl, by simp [h]⟩
    · rename_i h
      refine ⟨_, rfl, Nat.testBit_log2 h, fun u hu => ?_⟩
      rw [Nat.le_log2 h]
      exact Nat.ge_two_pow_of_testBit hu
  unfold nextValue
  cases last with
  | none =>
    obtain ⟨r, h1, h2⟩ := key found
    refine ⟨r, by simp only [h1], ?_⟩
    cases r with
    | none => exact fun u _ => h2 u
    | some w => exact ⟨h2.1, by simp, fun u _ => h2.2 u⟩
  | some v =>
    have hv := hl v rfl
    simp only
    rw [if_neg (by omega)]
    obtain ⟨r, h1, h2⟩ := key (found &&& (2 ^ v - 1))
    have hb : ∀ u, (found &&& (2 ^ v - 1)).testBit u = (found.testBit u && decide (u < v)) := fun u => by rw [Nat.testBit_and, Nat.testBit_two_pow_sub_one]
    refine ⟨r, by simp only [h1], ?_⟩
    simp only [Option.mem_def, Option.some.injEq, forall_eq']
    cases r with
    | none =>
      intro u hu
      have := h2 u
      rw [hb] at this
      simpa [hu] using this
    | some w =>
      obtain ⟨h3, h4⟩ := h2
      rw [hb] at h3
      simp only [Bool.and_eq_true, decide_eq_true_eq] at h3
      refine ⟨h3.1, h3.2, fun u hu hf => h4 u ?_⟩
      rw [hb]; simp [hf, hu]

theorem values_from {found : Nat} (h31 : ∀ v, found.testBit v = true → v < 31) : ∀ (fuel : Nat) (last : Option Nat), (∀ v ∈ last, v < 31) →
    (match last with | none => 32 | some v => v + 1) ≤ fuel → ∃ l, values found fuel last = some l ∧ l.Pairwise (· > ·) ∧ ∀ u, u ∈ l ↔ found.testBit u = true ∧ ∀ v ∈ last, u < v := by
  intro fuel
  induction fuel with
  | zero => intro last _ hf; cases last <;> simp at hf
  | succ fuel ih =>
    intro last hl hf
    obtain ⟨r, h1, h2⟩ := nextValue_spec (found := found) hl
    rw [values, h1, Option.bind_some]
    cases r with
    | none => exact ⟨[], rfl, List.Pairwise.nil, fun u => ⟨fun h => absurd h List.not_mem_nil, fun h => by rw [h2 u h.2] at h; cases h.1⟩⟩
    | some w =>
      obtain ⟨w1, w2, w3⟩ := h2
      obtain ⟨l, i1, i2, i3⟩ := ih (some w) (fun v hv => by cases hv; exact h31 _ w1) (by
        cases last with
        | none => have := h31 _ w1; simp only at hf ⊢; omega
        | some v => have := w2 v rfl; simp only at hf ⊢; omega)
      simp only [i1, Option.map_some]
      refine ⟨_, rfl, List.pairwise_cons.2 ⟨fun u hu => ((i3 u).1 hu).2 w rfl, i2⟩, fun u => ?_⟩
      rw [List.mem_cons, i3]
      constructor
      · rintro (rfl | ⟨h3, h4⟩)
        · exact ⟨w1, w2⟩
        · exact ⟨h3, fun v hv => Nat.lt_trans (h4 w rfl) (w2 v hv)⟩
      · rintro ⟨h3, h4⟩
        rcases Nat.lt_or_eq_of_le (w3 u h4 h3) with h5 | h5
        · exact .inr ⟨h3, fun v hv => by cases hv; exact h5⟩
        · exact .inl h5

/-- The loop over the found values visits each of them once, the newest first (as long as they are below 31). -/
theorem values_spec {found : Nat} (h31 : ∀ v, found.testBit v = true → v < 31) : ∃ l, values found 32 none = some l ∧ l.Pairwise (· > ·) ∧ ∀ u, u ∈ l ↔ found.testBit u = true := by
  obtain ⟨l, h1, h2, h3⟩ := values_from h31 32 none (by simp) (Nat.le_refl _)
  exact ⟨l, h1, h2, fun u => by rw [h3]; simp⟩

/-- C15 for a lookup in a trunk node: every branch whose hashes were added and contain the hash of the key is searched, newest branch first. -/
theorem branches_searched {c : Cfg} (g : Good c) {dev : Nat → Mem} {f : Filter} {U : Nat → Prop} {A : List (List Nat × Nat)} (r : Reach c dev f U A) (h31 : ∀ p ∈ A, p.2 < 31) {h : Nat}
    (hh : h < 2 ^ 32) : ∃ fv l, lookup c dev f h = some fv ∧ values fv 32 none = some l ∧ l.Pairwise (· > ·) ∧ ∀ p ∈ A, h ∈ p.1 → p.2 ∈ l := by
  obtain ⟨fv, h1, h2⟩ := lookup_exact g r (fun p hp => Nat.lt_trans (h31 p hp) (by decide)) hh
  obtain ⟨l, h3, h4, h5⟩ := values_spec (found := fv) fun v hv => by
    obtain ⟨p, hp, rfl, _⟩ := (h2 v).1 hv
    exact h31 p hp
  exact ⟨fv, l, h1, h3, h4, fun p hp hin => (h5 _).2 ((h2 _).2 ⟨p, hp, rfl, h, hin, rfl⟩)⟩

/-- From value 31 on `routing_filter_get_next_value` shifts the `int` 1 out of its range. -/
theorem nextValue_31 (found v : Nat) (h : 31 ≤ v) : nextValue found (some v) = none := by
  unfold nextValue; simp [h]

/-! ## The limit that is not checked -/

/-- Nothing bounds the number of fingerprints with the same index; with more than 4071 different ones, `routing_filter_add` runs over its buffers
(in the code only debug builds check it). -/
theorem add_overflow {c : Cfg} (g : Good c) {dev : Nat → Mem} {hs temp : List Nat} {value ext : Nat} {pgs : List Nat} {lb i : Nat} (hf : Fresh c ext pgs) (hhs : ∀ h ∈ hs, h < 2 ^ 32)
    (ht : temp.length = hs.length) (hn : hs.length < 2 ^ 32) (hlb : logBuckets c hs.length = some lb) (hnd : (hs.map (· >>> (32 - c.F))).Nodup)
    (hi : ∀ h ∈ hs, h >>> (32 - c.F) >>> (c.F - lb + c.L) = i) (hmany : 4071 < hs.length) : add c dev emptyFilter hs temp value ext pgs = none := by
  cases ha : add c dev emptyFilter hs temp value ext pgs with
  | none => rfl
  | some r =>
    exfalso
    obtain ⟨dev', f'⟩ := r
    obtain ⟨h1, _, h3, h4, h5⟩ := add_core g (U := fun _ => False) (P := fun _ _ => False) (.inl ⟨rfl, by simp⟩) hf (by simp) hhs ht hn (Nat.zero_le _) ha
    rcases h1 with ⟨rfl, _⟩ | ⟨lb', its, hl⟩
    · exact hf.ne0 h5.symm
    have hlb' := hl.elb
    rw [h3, show emptyFilter.nfp = 0 from rfl, Nat.add_zero, hlb] at hlb'
    cases hlb'
    have hvl := value_lt value
    have hF := g.F
    have hidx : i < 2 ^ (lb - c.L) := by
      obtain ⟨h, hh⟩ : ∃ h, h ∈ hs := List.exists_mem_of_ne_nil _ (by rintro rfl; simp at hmany)
      have hb := hhs h hh
      have hL := hl.geL
      have hlF := hl.lbF
      rw [← hi h hh, ← Nat.shiftRight_add, Nat.shiftRight_eq_div_pow, Nat.div_lt_iff_lt_mul (Nat.two_pow_pos _), ← Nat.pow_add, show lb - c.L + (32 - c.F + (c.F - lb + c.L)) = 32 by omega]
      exact hb
    obtain ⟨pa, off, hat, _⟩ := hl.blk i hidx
    have hsub : (hs.map fun h => (h >>> (32 - c.F)) * 2 ^ f'.vs + value) ⊆ its i := by
      intro x hx
      obtain ⟨h, hh, rfl⟩ := List.mem_map.1 hx
      rw [hl.mem i hidx, h4]
      refine ⟨?_, .inr ⟨pair_mod hvl, h, hh, ?_⟩⟩
      · rw [Nat.add_assoc, pair_shift hvl]; exact hi h hh
      · have := pair_shift (fp := h >>> (32 - c.F)) (n := 0) hvl
        rwa [Nat.add_zero, Nat.shiftRight_zero] at this
    have hnd' : (hs.map fun h => (h >>> (32 - c.F)) * 2 ^ f'.vs + value).Nodup := by
      have e : (hs.map fun h => (h >>> (32 - c.F)) * 2 ^ f'.vs + value) = (hs.map (· >>> (32 - c.F))).map fun x => x * 2 ^ f'.vs + value := by
        rw [List.map_map]; rfl
      rw [e]
      refine hnd.map fun x y hxy => ?_
      exact Nat.eq_of_mul_eq_mul_right (Nat.two_pow_pos f'.vs) (Nat.add_right_cancel hxy)
    have hlen := (List.subperm_of_subset hnd' hsub).length_le
    have := hat.body.small
    rw [List.length_map] at hlen
    omega

/-! ## Concrete filters -/

namespace Ex

def c : Cfg := ⟨12, 16, 4, 256, 4⟩
def hsA : List Nat := (List.range 18).map fun i => i * 238609294
def hsB : List Nat := (List.range 14).map fun i => i * 238609294 + 50000000
def dev0 : Nat → Mem := fun _ _ => 0
def r1 := add c dev0 emptyFilter hsA (List.replicate 18 0) 0 1024 [4096, 4352]
def r2 := r1.bind fun (d, f) => add c d f hsB (List.replicate 14 0) 3 8192 [12288, 12544]

theorem good : Good c := ⟨by decide, by decide, by decide, by decide, by decide⟩

theorem not_ip {ext a : Nat} (h : a < ext ∨ ext + 1024 ≤ a) : ¬ IP c ext a := by
  rintro ⟨q, hq, rfl⟩
  simp only [c] at hq h
  omega

theorem fresh1 : Fresh c 1024 [4096, 4352] :=
  ⟨by decide, by decide, by decide, by decide, by decide, fun a ha => not_ip (by simp at ha; omega)⟩

theorem fresh2 : Fresh c 8192 [12288, 12544] :=
  ⟨by decide, by decide, by decide, by decide, by decide, fun a ha => not_ip (by simp at ha; omega)⟩

set_option maxRecDepth 100000 in
theorem r1_some : r1.isSome = true := by decide +kernel

set_option maxRecDepth 100000 in
theorem r2_some : r2.isSome = true := by decide +kernel

/-- A filter with 32 hashes for two values, where the second addition splits the index and widens the values. -/
theorem reach : ∃ dev f U, Reach c dev f U [(hsB, 3), (hsA, 0)] := by
  obtain ⟨⟨d2, f2⟩, h2⟩ := Option.isSome_iff_exists.1 r2_some
  unfold r2 at h2
  rw [Option.bind_eq_some_iff] at h2
  obtain ⟨⟨d1, f1⟩, h1, h2⟩ := h2
  have q1 : Reach c d1 f1 _ [(hsA, 0)] := .add (.empty dev0) fresh1 (by simp) (by decide) (by decide) (by simp) (by decide) h1
  refine ⟨d2, f2, _, .add q1 fresh2 ?_ (by decide) (by decide) (by decide) (by decide) h2⟩
  rintro a (⟨q, hq, rfl⟩ | ha)
  · simp only [c] at hq ⊢
    exact ⟨not_ip (by omega), by simp; omega⟩
  · simp only [List.mem_cons, List.not_mem_nil, or_false] at ha
    exact ⟨not_ip (by omega), by simp; omega⟩

example : ∃ dev f U, Reach c dev f U [(hsB, 3), (hsA, 0)] ∧ ∃ fv, lookup c dev f 288609294 = some fv ∧ fv.testBit 3 = true := by
  obtain ⟨dev, f, U, r⟩ := reach
  exact ⟨dev, f, U, r, never_hides_partial good r (by decide) (show (hsB, 3) ∈ [(hsB, 3), (hsA, 0)] by simp) (by decide) (by decide)⟩

example : ∃ dev f U, Reach c dev f U [(hsB, 3), (hsA, 0)] ∧ (∀ p ∈ [(hsB, 3), (hsA, 0)], p.2 < 31) := by
  obtain ⟨dev, f, U, r⟩ := reach
  exact ⟨dev, f, U, r, by decide⟩

set_option maxRecDepth 100000 in
/-- `num_unique` is not the number of different fingerprints: the first old fingerprint of the second half of a split index is counted twice. -/
theorem num_unique_wrong : r2.map (·.2.nuniq) = some 33 ∧ ((hsA ++ hsB).map (· >>> (32 - c.F))).dedup.length = 32 := by
  constructor <;> decide +kernel

set_option maxRecDepth 100000 in
/-- An `index_size` that is not a power of two is accepted by the configuration, but then the bucket numbers of the second index wrap. -/
theorem index_size_20_faults : let c : Cfg := ⟨12, 20, 4, 4096, 4⟩
    let hs := (List.range 40).map fun i => i * 2654435761 % 2 ^ 32
    (add c dev0 emptyFilter hs (List.replicate 40 0) 0 16384 [65536]).isNone = true := by decide +kernel

example : values 0b1000100000000000000000000001001 32 none = some [30, 26, 3, 0] := by decide +kernel

/-- Hashes that satisfy the conditions of `add_overflow` for page size 4096 and the default `index_size` 512 (`log_index_size` 9). -/
example : let c : Cfg := ⟨26, 512, 9, 4096, 32⟩
    let hs := (List.range 5000).map (· * 64)
    logBuckets c hs.length = some 12 ∧ (∀ h ∈ hs, h < 2 ^ 32) ∧ (∀ h ∈ hs, h >>> (32 - c.F) >>> (c.F - 12 + c.L) = 0) ∧ (hs.map (· >>> (32 - c.F))).Nodup ∧ 4071 < hs.length := by
  simp only [List.length_map, List.length_range]
  refine ⟨by decide +kernel, ?_, ?_, ?_, by decide⟩
  · intro h hh
    simp only [List.mem_map, List.mem_range] at hh
    obtain ⟨k, hk, rfl⟩ := hh
    omega
  · intro h hh
    simp only [List.mem_map, List.mem_range] at hh
    obtain ⟨k, hk, rfl⟩ := hh
    rw [← Nat.shiftRight_add, Nat.shiftRight_eq_div_pow]
    exact Nat.div_eq_of_lt (by omega)
  · rw [List.map_map]
    refine List.nodup_range.map fun x y hxy => ?_
    simp only [Function.comp_apply, Nat.shiftRight_eq_div_pow] at hxy
    omega

end Ex

end Splinter.Filter
