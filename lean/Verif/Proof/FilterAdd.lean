import Verif.Proof.FilterRead
import Verif.Proof.FilterSort
/-!
# `routing_filter_add`
-/
namespace Splinter.Filter
open Splinter.PA (u32)
open Splinter.Log (Mem put le)

theorem value_lt (v : Nat) : v < 2 ^ valueSize v := by
  unfold valueSize
  split
  · rename_i h; rw [h]; decide
  · exact Nat.lt_log2_self

theorem valueSize_mono {v w : Nat} (h : v ≤ w) : valueSize v ≤ valueSize w := by
  unfold valueSize
  split
  · exact Nat.zero_le _
  · rename_i h0
    rw [if_neg (by omega)]
    have : v.log2 ≤ w.log2 := by
      rw [Nat.le_log2 (by omega)]
      exact Nat.le_trans (Nat.log2_self_le h0) h
    omega

theorem prepare_eq {c : Cfg} {vs value h : Nat} (hF : c.F ≤ 32) (h32 : c.F + vs ≤ 32) (hv : value < 2 ^ vs) (hh : h < 2 ^ 32) :
    prepare c vs value h = (h >>> (32 - c.F)) * 2 ^ vs + value ∧ h >>> (32 - c.F) < 2 ^ c.F := by
  have hfpb : h >>> (32 - c.F) < 2 ^ c.F := by
    rw [Nat.shiftRight_eq_div_pow, Nat.div_lt_iff_lt_mul (Nat.two_pow_pos _), ← Nat.pow_add, show c.F + (32 - c.F) = 32 by omega]; exact hh
  refine ⟨?_, hfpb⟩
  have hx0 : h >>> (32 - c.F) <<< vs < 2 ^ 32 := by
    rw [Nat.shiftLeft_eq]
    calc _ < 2 ^ c.F * 2 ^ vs := Nat.mul_lt_mul_of_pos_right hfpb (Nat.two_pow_pos _)
      _ = 2 ^ (c.F + vs) := (Nat.pow_add _ _ _).symm
      _ ≤ 2 ^ 32 := Nat.pow_le_pow_right (by decide) h32
  unfold prepare
  rw [show u32 (h >>> (32 - c.F) <<< vs) = h >>> (32 - c.F) <<< vs from Nat.mod_eq_of_lt hx0, Nat.shiftLeft_eq, Nat.mul_comm, ← Nat.two_pow_add_eq_or_of_lt hv]

theorem pair_shift {fp v vs n : Nat} (hv : v < 2 ^ vs) : (fp * 2 ^ vs + v) >>> (vs + n) = fp >>> n := by
  rw [Nat.shiftRight_add, Nat.shiftRight_eq_div_pow _ vs, Nat.mul_comm, Nat.mul_add_div (Nat.two_pow_pos _), Nat.div_eq_of_lt hv, Nat.add_zero]

theorem pair_mod {fp v vs : Nat} (hv : v < 2 ^ vs) : (fp * 2 ^ vs + v) % 2 ^ vs = v := by
  rw [Nat.mul_comm, Nat.mul_add_mod, Nat.mod_eq_of_lt hv]

/-- The filter `f` holds the pairs `P` (an empty one holds none). -/
def Filt (c : Cfg) (dev : Nat → Mem) (f : Filter) (U : Nat → Prop) (P : Nat → Nat → Prop) : Prop :=
  (f = emptyFilter ∧ ∀ fp v, ¬ P fp v) ∨ ∃ lb its, Holds c dev f U P lb its

theorem add_core {c : Cfg} (g : Good c) {dev dev' : Nat → Mem} {f f' : Filter} {U : Nat → Prop} {P : Nat → Nat → Prop} {hs temp : List Nat} {value ext : Nat} {pgs : List Nat}
    (hP : Filt c dev f U P) (hf : Fresh c ext pgs) (hU : ∀ a, U a → ¬ IP c ext a ∧ a ∉ pgs) (hhs : ∀ h ∈ hs, h < 2 ^ 32) (ht : temp.length = hs.length)
    (hn : hs.length + f.nfp < 2 ^ 32) (hvs : f.vs ≤ valueSize value) (h : add c dev f hs temp value ext pgs = some (dev', f')) :
    Filt c dev' f' (fun a => IP c ext a ∨ a ∈ pgs) (fun fp v => P fp v ∨ v = value ∧ ∃ h ∈ hs, fp = h >>> (32 - c.F)) ∧
      (∀ a, ¬ IP c ext a → a ∉ pgs → dev' a = dev a) ∧ f'.nfp = hs.length + f.nfp ∧ f'.vs = valueSize value ∧ f'.addr = ext := by
  have hF32 := g.F
  have hL32 := g.L32
  unfold add at h
  rw [Option.bind_eq_some_iff] at h
  obtain ⟨⟨lo, orvs⟩, hop, h⟩ := h
  simp only at h
  rw [show u32 (hs.length + f.nfp) = hs.length + f.nfp from Nat.mod_eq_of_lt hn, Option.bind_eq_some_iff] at h
  obtain ⟨lb, hlb, h⟩ := h
  split at h
  · cases h
  rename_i hcond
  rw [Option.bind_eq_some_iff] at h
  obtain ⟨sorted, hsort, h⟩ := h
  rw [Option.bind_eq_some_iff] at h
  obtain ⟨cnts, hcnts, h⟩ := h
  rw [Option.bind_eq_some_iff] at h
  obtain ⟨a0, ha0, h⟩ := h
  rw [Option.map_eq_some_iff] at h
  obtain ⟨w', hold, h⟩ := h
  cases h
  have hv := value_lt value
  generalize valueSize value = vs at hv hvs hcond hsort hcnts hold ⊢
  have hc1 : lb ≤ c.F := by omega
  have hc2 : c.F + vs ≤ 32 := by omega
  have hc3 : c.F ≠ 0 := by omega
  have hc4 : vs + (c.F - lb) ≠ 0 := by omega
  clear hcond
  obtain ⟨rvs, hrvs⟩ : ∃ rvs, rvs = vs + (c.F - lb) := ⟨_, rfl⟩
  rw [← hrvs] at hc4 hcnts hold
  -- the geometry
  have hn0 : hs.length + f.nfp ≠ 0 := by
    intro e; unfold logBuckets at hlb; rw [if_pos e] at hlb; cases hlb
  have hlbd : lb = max (hs.length + f.nfp).log2 c.L := by
    unfold logBuckets at hlb; rw [if_neg hn0] at hlb; exact (Option.some.inj hlb).symm
  have hlog : (hs.length + f.nfp).log2 < 32 := (Nat.log2_lt hn0).2 hn
  have hL : c.L ≤ lb := by omega
  have hlb32 : lb < 32 := by omega
  have hlo : lo ≤ lb - c.L ∧ (Unit → f.addr ≠ 0 → ∃ lbo, logBuckets c f.nfp = some lbo ∧ lo = lbo - c.L ∧ orvs = f.vs + (c.F - lbo)) := by
    unfold oldParams at hop
    split at hop
    · rename_i e; cases hop; exact ⟨Nat.zero_le _, fun _ e' => absurd e e'⟩
    · rw [Option.bind_eq_some_iff] at hop
      obtain ⟨lbo, h1, hop⟩ := hop
      split at hop
      · cases hop
      · cases hop
        refine ⟨?_, fun _ _ => ⟨lbo, h1, rfl, rfl⟩⟩
        unfold logBuckets at h1
        split at h1
        · cases h1
        · rename_i h0
          cases h1
          have : f.nfp.log2 ≤ (hs.length + f.nfp).log2 := by
            rw [Nat.le_log2 hn0]; exact Nat.le_trans (Nat.log2_self_le h0) (Nat.le_add_left _ _)
          omega
  obtain ⟨hlo, hold'⟩ := hlo
  have hperd : 2 ^ (lb - c.L) / 2 ^ lo = 2 ^ (lb - c.L - lo) := Nat.pow_div hlo (by decide)
  rw [hperd] at hold
  have htp : 2 ^ lo * 2 ^ (lb - c.L - lo) = 2 ^ (lb - c.L) := by rw [← Nat.pow_add]; congr 1; omega
  have hisz32 : 2 ^ (lb - c.L) * c.isz < 2 ^ 32 := by
    rw [g.isz, ← Nat.pow_add, show lb - c.L + c.L = lb by omega]
    exact Nat.pow_lt_pow_right (by decide) hlb32
  -- the new fingerprints
  have hprep : ∀ h ∈ hs, prepare c vs value h = (h >>> (32 - c.F)) * 2 ^ vs + value ∧ h >>> (32 - c.F) < 2 ^ c.F := fun h hh => prepare_eq hF32 hc2 hv (hhs h hh)
  have hpb : ∀ x ∈ hs.map (prepare c vs value), x < 2 ^ (c.F + vs) := by
    intro x hx
    obtain ⟨h, hh, rfl⟩ := List.mem_map.1 hx
    rw [(hprep h hh).1, Nat.pow_add]
    have h1 := (hprep h hh).2
    have h2 := Nat.mul_le_mul_right (2 ^ vs) (show h >>> (32 - c.F) + 1 ≤ 2 ^ c.F from h1)
    rw [Nat.add_mul, Nat.one_mul] at h2
    omega
  obtain ⟨s1, s2⟩ := radixSort_spec (v := value) hsort (by rw [List.length_map]; exact ht) hpb
    (fun x hx => by obtain ⟨h, hh, rfl⟩ := List.mem_map.1 hx; rw [(hprep h hh).1]; exact pair_mod hv) hc3 hc2
  obtain ⟨d1, d2⟩ := dedup_spec sorted [] s2 List.Pairwise.nil (by simp)
  have hfps : ∀ x, x ∈ dedup sorted [] ↔ ∃ h ∈ hs, x = (h >>> (32 - c.F)) * 2 ^ vs + value := by
    intro x
    rw [d2, s1.mem_iff, List.mem_map]
    simp only [List.not_mem_nil, or_false]
    constructor
    · rintro ⟨h, hh, rfl⟩; exact ⟨h, hh, (hprep h hh).1⟩
    · rintro ⟨h, hh, rfl⟩; exact ⟨h, hh, (hprep h hh).1⟩
  have hfpb : ∀ x ∈ dedup sorted [], x < 2 ^ 32 := by
    intro x hx
    rw [d2] at hx
    simp only [List.not_mem_nil, or_false] at hx
    exact Nat.lt_of_lt_of_le (hpb x (s1.mem_iff.1 hx)) (Nat.pow_le_pow_right (by decide) hc2)
  -- the old fingerprints
  have hread : ∀ dv l oi, (∀ a, ¬ IP c ext a → a ∉ pgs → dv a = dev a) → oi < 2 ^ lo → readOld c dv f orvs vs oi = some l →
      l.Pairwise (· ≤ ·) ∧ ∀ x, x ∈ l ↔ (∃ fp v, P fp v ∧ x = fp * 2 ^ vs + v) ∧ x >>> (rvs + c.L) / 2 ^ (lb - c.L - lo) = oi := by
    intro dv l oi hdv hoi hl
    rcases hP with ⟨rfl, hno⟩ | ⟨lbo, its, hh⟩
    · unfold readOld at hl
      rw [if_pos (show emptyFilter.addr = 0 from rfl)] at hl
      cases hl
      exact ⟨List.Pairwise.nil, fun x => ⟨fun hx => absurd hx (List.not_mem_nil), fun ⟨⟨fp, v, h1, _⟩, _⟩ => absurd h1 (hno fp v)⟩⟩
    · replace hh := hh.congr (dev' := dv) fun a ha => hdv a (hU a ha).1 (hU a ha).2
      obtain ⟨lbo', e1, e2, e3⟩ := hold' () hh.ne0
      rw [hh.elb] at e1
      cases e1
      have hLo := hh.geL
      have hlboF := hh.lbF
      rw [e2] at hoi
      obtain ⟨pa, off, ha, h1, h2, _, _⟩ := hh.blk oi hoi
      rw [← e3] at ha
      have hmem := hh.mem oi hoi
      rw [← e3] at hmem
      have hr0 := hh.rvs
      have hf32 := hh.f32
      have hoi32 : (oi + 1) * c.isz ≤ 2 ^ 32 := by
        have h3 := Nat.mul_le_mul_right c.isz (show oi + 1 ≤ 2 ^ (lbo - c.L) from hoi)
        have h4 : 2 ^ (lbo - c.L) * c.isz ≤ 2 ^ 32 := by
          rw [g.isz, ← Nat.pow_add]
          exact Nat.pow_le_pow_right (by decide) (by omega)
        omega
      have hL4 := g.L
      have hrd := readOld_spec g ha h1 h2 hh.ne0 (hh.sorted oi hoi) (fun x hx => hh.bound hoi hx) (fun x hx => ((hmem x).1 hx).1) hf32 hc2 hoi32 hvs (by omega) (by omega) hl
      subst hrd
      refine ⟨?_, fun y => ?_⟩
      · rw [List.pairwise_map]
        refine (hh.sorted oi hoi).imp fun {x y} hxy => ?_
        have hle : x / 2 ^ f.vs ≤ y / 2 ^ f.vs := Nat.div_le_div_right hxy
        rcases Nat.lt_or_eq_of_le hle with hlt | heq
        · have h3 := Nat.mul_le_mul_right (2 ^ vs) (show x / 2 ^ f.vs + 1 ≤ y / 2 ^ f.vs from hlt)
          rw [Nat.add_mul, Nat.one_mul] at h3
          have h4 : x % 2 ^ f.vs < 2 ^ vs := Nat.lt_of_lt_of_le (Nat.mod_lt _ (Nat.two_pow_pos _)) (Nat.pow_le_pow_right (by decide) hvs)
          omega
        · have h3 := Nat.div_add_mod x (2 ^ f.vs)
          have h4 := Nat.div_add_mod y (2 ^ f.vs)
          rw [heq] at h3 ⊢
          omega
      · have hidx : ∀ fp v, v < 2 ^ vs → (fp * 2 ^ vs + v) >>> (rvs + c.L) / 2 ^ (lb - c.L - lo) = fp >>> (c.F - lbo + c.L) := by
          intro fp v hv
          rw [hrvs, Nat.add_assoc, pair_shift hv, ← Nat.shiftRight_eq_div_pow, ← Nat.shiftRight_add]
          congr 1; omega
        have hlev : ∀ v, v < 2 ^ f.vs → v < 2 ^ vs := fun v h => Nat.lt_of_lt_of_le h (Nat.pow_le_pow_right (by decide) hvs)
        rw [List.mem_map]
        constructor
        · rintro ⟨x, hx, rfl⟩
          obtain ⟨h3, h4⟩ := (hmem x).1 hx
          refine ⟨⟨_, _, h4, by rw [Nat.shiftRight_eq_div_pow]⟩, ?_⟩
          rw [hidx _ _ (hlev _ (Nat.mod_lt _ (Nat.two_pow_pos _))), ← h3, e3, Nat.add_assoc, Nat.shiftRight_add x f.vs, Nat.shiftRight_eq_div_pow x f.vs]
        · rintro ⟨⟨fp, v, h3, rfl⟩, h4⟩
          have hv' := (hh.dom _ _ h3).2
          rw [hidx _ _ (hlev _ hv')] at h4
          refine ⟨fp * 2 ^ f.vs + v, ?_, ?_⟩
          · rw [hmem]
            refine ⟨?_, ?_⟩
            · rw [e3, Nat.add_assoc, pair_shift hv', h4]
            · have := pair_shift (fp := fp) (n := 0) hv'
              rw [Nat.add_zero, Nat.shiftRight_zero] at this
              rw [this, pair_mod hv']; exact h3
          · have := pair_shift (fp := fp) (n := 0) hv'
            rw [Nat.add_zero, Nat.shiftRight_zero, Nat.shiftRight_eq_div_pow] at this
            rw [this, pair_mod hv']
  obtain ⟨its, w1, _, w3⟩ := oldIndices_spec g (dev0 := dev) (Q := fun x => ∃ fp v, P fp v ∧ x = fp * 2 ^ vs + v) (tot := 2 ^ lo) hf hc4 (by omega) (Nat.two_pow_pos _) (by rw [htp]; exact hisz32) hread
    (2 ^ lo) 0 cnts (dedup sorted []) _ (fun _ => []) w' hold (by omega) (by rw [htp, Nat.zero_mul]; exact hcnts)
    ⟨Nat.le_refl _, ha0, by simp, fun k hk => by rw [Nat.zero_mul] at hk; omega, fun _ _ _ => rfl⟩
    (fun j => by simp only [encBit]; rw [Nat.testBit_two_pow_sub_one]; simp; exact Nat.mod_lt _ (by decide)) (d1.imp fun h => Nat.le_of_lt h) hfpb (by simp)
  rw [htp] at w1 w3
  refine ⟨.inr ⟨lb, its, hf.ne0, hlb, hc1, hlb32, hc2, by rw [← hrvs]; exact hc4, fun i hi => ?_, fun i hi => (w3 i (by omega) hi).1, fun i hi x => ?_, fun fp v hpv => ?_⟩, w1.frame, rfl, rfl, rfl⟩
  · obtain ⟨pa, off, h1, h2, _⟩ := w1.blk i hi
    have hpa := List.mem_of_mem_take h2
    rw [hrvs] at h1
    exact ⟨pa, off, h1, hf.al _ hpa, hf.pos _ hpa, .inr hpa, .inl (ipage_ip h1.q)⟩
  · rw [(w3 i (by omega) hi).2, hfps, hrvs, and_comm]
    refine and_congr_right fun _ => ?_
    have hsplit := Nat.div_add_mod x (2 ^ vs)
    constructor
    · rintro (⟨h, hh, rfl⟩ | ⟨fp, v, hp, rfl⟩)
      · right
        have := pair_shift (fp := h >>> (32 - c.F)) (n := 0) hv
        rw [Nat.add_zero, Nat.shiftRight_zero] at this
        exact ⟨pair_mod hv, h, hh, this⟩
      · left
        have hv' : v < 2 ^ vs := by
          rcases hP with ⟨_, hno⟩ | ⟨_, _, hh⟩
          · exact absurd hp (hno _ _)
          · exact Nat.lt_of_lt_of_le (hh.dom _ _ hp).2 (Nat.pow_le_pow_right (by decide) hvs)
        have := pair_shift (fp := fp) (n := 0) hv'
        rw [Nat.add_zero, Nat.shiftRight_zero] at this
        show P _ _
        rw [this, pair_mod hv']; exact hp
    · have e : x = (x >>> vs) * 2 ^ vs + x % 2 ^ vs := by rw [Nat.shiftRight_eq_div_pow, Nat.mul_comm]; exact hsplit.symm
      rintro (hp | ⟨hv', h, hh, e2⟩)
      · exact .inr ⟨_, _, hp, e⟩
      · refine .inl ⟨h, hh, ?_⟩
        rw [e]
        show (x >>> vs) * 2 ^ vs + x % 2 ^ vs = _
        have e2' : x >>> vs = h >>> (32 - c.F) := e2
        have hv'' : x % 2 ^ vs = value := hv'
        rw [e2', hv'']
  · rcases hpv with hp | ⟨rfl, h, hh, rfl⟩
    · rcases hP with ⟨_, hno⟩ | ⟨_, _, hh⟩
      · exact absurd hp (hno _ _)
      · have := hh.dom _ _ hp
        exact ⟨this.1, Nat.lt_of_lt_of_le this.2 (Nat.pow_le_pow_right (by decide) hvs)⟩
    · exact ⟨(hprep h hh).2, hv⟩

end Splinter.Filter
