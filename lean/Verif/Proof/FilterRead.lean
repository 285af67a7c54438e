import Verif.Proof.FilterWrite
/-!
# Reading filters: one index of the old filter, and lookups
-/
namespace Splinter.Filter
open Splinter.PA (u32)
open Splinter.Log (Mem put le)

/-- A fingerprint put together from its bucket and the rest. -/
theorem or_bucket {x rvs : Nat} (h : x < 2 ^ 32) : (x % 2 ^ rvs) ||| u32 ((x >>> rvs) <<< rvs) = x := by
  have h1 : (x >>> rvs) <<< rvs = 2 ^ rvs * (x / 2 ^ rvs) := by rw [Nat.shiftRight_eq_div_pow, Nat.shiftLeft_eq, Nat.mul_comm]
  have h2 := Nat.div_add_mod x (2 ^ rvs)
  rw [h1, show u32 (2 ^ rvs * (x / 2 ^ rvs)) = 2 ^ rvs * (x / 2 ^ rvs) from Nat.mod_eq_of_lt (by omega), Nat.or_comm, ← Nat.two_pow_add_eq_or_of_lt (Nat.mod_lt _ (Nat.two_pow_pos _)), h2]

/-- The position of the items of bucket `t`. -/
theorem bucket_pos {rvs base : Nat} {it : List Nat} (hs : it.Pairwise (· ≤ ·)) (hge : ∀ x ∈ it, base ≤ x >>> rvs) {k t : Nat} (hk : k < it.length) :
    it[k] >>> rvs = base + t ↔ pre (C rvs base it) t ≤ k ∧ k < C rvs base it t := by
  have hs' : it.Pairwise fun x y => x >>> rvs ≤ y >>> rvs := hs.imp fun h => shift_mono h rvs
  have h1 := sorted_pos (· >>> rvs) (base + t) it hs' k hk
  have hg := hge _ (List.getElem_mem hk)
  have e1 : it.countP (fun x => decide (x >>> rvs ≤ base + t)) = C rvs base it t := rfl
  simp only [e1] at h1
  unfold pre
  split
  · rename_i h0
    subst h0
    rw [← h1]; omega
  · have h2 := sorted_pos (· >>> rvs) (base + (t - 1)) it hs' k hk
    have e2 : it.countP (fun x => decide (x >>> rvs ≤ base + (t - 1))) = C rvs base it (t - 1) := rfl
    simp only [e2] at h2
    rw [← h1, ← Nat.not_lt, ← h2]; omega

theorem orBuckets_spec {rvs base isz : Nat} {it : List Nat} (hs : it.Pairwise (· ≤ ·)) (hge : ∀ x ∈ it, base ≤ x >>> rvs) (hlt : ∀ x ∈ it, x >>> rvs < base + isz)
    (hb : ∀ x ∈ it, x < 2 ^ 32) : ∀ (n b : Nat), b + n = isz → 0 < isz →
    orBuckets base rvs b ((List.range' b n).map fun j => C rvs base it j - pre (C rvs base it) j) ((it.drop (pre (C rvs base it) b)).map (· % 2 ^ rvs)) =
      some (it.drop (pre (C rvs base it) b)) := by
  intro n
  induction n with
  | zero =>
    intro b hn hp
    have : it.drop (pre (C rvs base it) b) = [] := by
      rw [List.drop_eq_nil_iff]
      unfold pre
      rw [if_neg (by omega), C_all fun x hx => by have := hlt x hx; omega]
    simp [orBuckets, this]
  | succ n ih =>
    intro b hn hp
    have hle := C_le rvs base it b
    have hpre := pre_le rvs base it b
    have hnext : pre (C rvs base it) (b + 1) = C rvs base it b := by simp [pre]
    have hd : (it.drop (pre (C rvs base it) b)).drop (C rvs base it b - pre (C rvs base it) b) = it.drop (pre (C rvs base it) (b + 1)) := by
      rw [List.drop_drop, hnext]; congr 1; omega
    rw [List.range'_succ, List.map_cons, orBuckets]
    rw [if_neg (by rw [List.length_map, List.length_drop]; omega), ← List.map_drop, hd, ih (b + 1) (by omega) hp, Option.map_some, ← List.map_take, List.map_map]
    refine congrArg some ?_
    have hm : ((it.drop (pre (C rvs base it) b)).take (C rvs base it b - pre (C rvs base it) b)).map ((· ||| u32 ((base + b) <<< rvs)) ∘ (· % 2 ^ rvs)) =
        (it.drop (pre (C rvs base it) b)).take (C rvs base it b - pre (C rvs base it) b) := by
      refine (List.map_congr_left fun x hx => ?_).trans (List.map_id _)
      obtain ⟨j, hj, rfl⟩ := List.mem_iff_getElem.1 hx
      rw [List.length_take, List.length_drop] at hj
      simp only [List.getElem_take, List.getElem_drop, Function.comp_apply, id_eq]
      have h1 := (bucket_pos hs hge (k := pre (C rvs base it) b + j) (t := b) (by omega)).2 ⟨by omega, by omega⟩
      rw [← h1]
      exact or_bucket (hb _ (List.getElem_mem _))
    rw [hm, ← hd, List.take_append_drop]

theorem getHeader_at {c : Cfg} (_g : Good c) {dev : Nat → Mem} {ext rvs i : Nat} {it : List Nat} {pa off : Nat} (h : At c dev ext rvs i it pa off) (hpa : pa % c.ps = 0) (hne : pa ≠ 0) :
    getHeader c dev ext i = some (pa, off) := by
  unfold getHeader
  simp only
  rw [if_neg (by have := h.q; omega)]
  have he := h.ent
  unfold ipage ioff at he
  rw [he, if_neg (by omega)]
  have : (pa + off) % c.ps = off := by
    rw [Nat.add_mod, hpa, Nat.zero_add, Nat.mod_mod, Nat.mod_eq_of_lt h.lt]
  rw [this, Nat.add_sub_cancel]

/-- `widen` in arithmetic. -/
theorem widen_eq {F ovs vs x : Nat} (hx : x < 2 ^ (F + ovs)) (h : ovs ≤ vs) (h32 : F + vs ≤ 32) : widen ovs vs x = x / 2 ^ ovs * 2 ^ vs + x % 2 ^ ovs := by
  unfold widen
  simp only
  rw [Nat.and_two_pow_sub_one_eq_mod]
  have h1 := Nat.div_add_mod x (2 ^ ovs)
  have h2 : x - x % 2 ^ ovs = 2 ^ ovs * (x / 2 ^ ovs) := by omega
  have h3 : x / 2 ^ ovs < 2 ^ F := by
    rw [Nat.div_lt_iff_lt_mul (Nat.two_pow_pos _), ← Nat.pow_add]; exact hx
  have h4 : (2 ^ ovs * (x / 2 ^ ovs)) <<< (vs - ovs) = 2 ^ vs * (x / 2 ^ ovs) := by
    rw [Nat.shiftLeft_eq, Nat.mul_assoc, Nat.mul_comm (x / 2 ^ ovs), ← Nat.mul_assoc, ← Nat.pow_add, show ovs + (vs - ovs) = vs by omega]
  have h5 : 2 ^ vs * (x / 2 ^ ovs) < 2 ^ 32 := by
    calc 2 ^ vs * (x / 2 ^ ovs) < 2 ^ vs * 2 ^ F := Nat.mul_lt_mul_of_pos_left h3 (Nat.two_pow_pos _)
      _ = 2 ^ (F + vs) := by rw [← Nat.pow_add, Nat.add_comm]
      _ ≤ 2 ^ 32 := Nat.pow_le_pow_right (by decide) h32
  have h6 : x % 2 ^ ovs < 2 ^ vs := Nat.lt_of_lt_of_le (Nat.mod_lt _ (Nat.two_pow_pos _)) (Nat.pow_le_pow_right (by decide) h)
  rw [h2, h4, show u32 (2 ^ vs * (x / 2 ^ ovs)) = 2 ^ vs * (x / 2 ^ ovs) from Nat.mod_eq_of_lt h5, ← Nat.two_pow_add_eq_or_of_lt h6, Nat.mul_comm]

/-- The fingerprints of one index are read back, with the values in the new width. -/
theorem readOld_spec {c : Cfg} (g : Good c) {dev : Nat → Mem} {f : Filter} {orvs vs oi : Nat} {it l : List Nat} {pa off : Nat} (h : At c dev f.addr orvs oi it pa off) (hpa : pa % c.ps = 0)
    (hne : pa ≠ 0) (ha : f.addr ≠ 0) (hs : it.Pairwise (· ≤ ·)) (hb : ∀ x ∈ it, x < 2 ^ (c.F + f.vs)) (hi : ∀ x ∈ it, x >>> (orvs + c.L) = oi) (h32 : c.F + f.vs ≤ 32)
    (h32' : c.F + vs ≤ 32) (hoi : (oi + 1) * c.isz ≤ 2 ^ 32) (hvs : f.vs ≤ vs) (hr1 : 1 ≤ orvs) (hr2 : orvs ≤ 32) (hr : readOld c dev f orvs vs oi = some l) :
    l = it.map fun x => x / 2 ^ f.vs * 2 ^ vs + x % 2 ^ f.vs := by
  have hisz := g.isz_pos
  have hbody := h.body
  have hl := headerLength_eq c it.length
  have hfit := hbody.fit
  have hoi' : oi * c.isz + c.isz ≤ 2 ^ 32 := by rwa [Nat.add_mul, Nat.one_mul] at hoi
  unfold readOld at hr
  rw [if_neg ha, getHeader_at g h hpa hne] at hr
  simp only [Option.bind_some] at hr
  rw [show rdIn c.ps (dev pa) off 2 = some it.length by unfold rdIn; rw [if_pos (by omega), hbody.num], Option.bind_some, bucketCounts_spec hbody.enc (by omega), Option.bind_some] at hr
  split at hr
  · rename_i h0
    cases hr
    rw [List.length_eq_zero_iff.1 h0]; rfl
  · rename_i h0
    rw [if_neg (by have := hbody.small; omega), hbody.unpack hr1 hr2 h0, Option.bind_some, show u32 (oi * c.isz) = oi * c.isz from Nat.mod_eq_of_lt (by omega)] at hr
    have hge : ∀ x ∈ it, oi * c.isz ≤ x >>> orvs := fun x hx => by
      have := hi x hx
      rw [index_of_bucket c g] at this
      rw [← this]; exact Nat.div_mul_le_self _ _
    have hlt : ∀ x ∈ it, x >>> orvs < oi * c.isz + c.isz := fun x hx => by
      have := hi x hx
      rw [index_of_bucket c g] at this
      rw [← this]; exact Nat.lt_div_mul_add (by omega)
    have h232 : ∀ x ∈ it, x < 2 ^ 32 := fun x hx => Nat.lt_of_lt_of_le (hb x hx) (Nat.pow_le_pow_right (by decide) h32)
    have ho := orBuckets_spec hs hge hlt h232 c.isz 0 (by omega) (by omega)
    rw [show pre (C orvs (oi * c.isz) it) 0 = 0 from rfl, List.drop_zero, ← List.range_eq_range'] at ho
    rw [ho, Option.bind_some] at hr
    split at hr
    · rename_i e
      cases hr
      rw [e]
      refine ((List.map_congr_left fun x _ => ?_).trans (List.map_id _)).symm
      rw [Nat.mul_comm, Nat.div_add_mod]; rfl
    · rw [if_neg (by omega)] at hr
      cases hr
      exact List.map_congr_left fun x hx => widen_eq (hb x hx) hvs h32'

/-! ## Lookup -/

theorem collect_spec {ws it : List Nat} {rvs vs r : Nat} (hg : ∀ k (h : k < it.length), PA.get ws k rvs = some (it[k] % 2 ^ rvs)) (hvs : vs ≤ rvs)
    (h64 : ∀ x ∈ it, x % 2 ^ vs < 64) (start : Nat) : ∀ (n found : Nat), start + n ≤ it.length →
    ∃ fv, collect ws rvs vs r start n found = some fv ∧
      ∀ v, fv.testBit v = true ↔ found.testBit v = true ∨ ∃ k, ∃ (h : k < it.length), start ≤ k ∧ k < start + n ∧ (it[k] % 2 ^ rvs) >>> vs = r ∧ it[k] % 2 ^ vs = v := by
  intro n
  induction n with
  | zero => intro found _; exact ⟨found, rfl, fun v => ⟨.inl, fun h => h.elim id fun ⟨k, _, h1, h2, _⟩ => by omega⟩⟩
  | succ n ih =>
    intro found hn
    have hk : start + n < it.length := by omega
    have hv : (it[start + n] % 2 ^ rvs &&& (2 ^ vs - 1)) % 2 ^ 16 = it[start + n] % 2 ^ vs := by
      rw [Nat.and_two_pow_sub_one_eq_mod, Nat.mod_mod_of_dvd _ (Nat.pow_dvd_pow 2 hvs)]
      have := h64 _ (List.getElem_mem hk)
      exact Nat.mod_eq_of_lt (by omega)
    rw [collect, hg _ hk, Option.bind_some]
    simp only [hv]
    split
    · rename_i hr
      rw [if_pos (h64 _ (List.getElem_mem hk))]
      obtain ⟨fv, h1, h2⟩ := ih (found ||| 1 <<< (it[start + n] % 2 ^ vs)) (by omega)
      refine ⟨fv, h1, fun v => ?_⟩
      have hbit : (1 <<< (it[start + n] % 2 ^ vs)).testBit v = true ↔ it[start + n] % 2 ^ vs = v := by
        rw [Nat.one_shiftLeft, Nat.testBit_two_pow]; simp
      rw [h2, Nat.testBit_or, Bool.or_eq_true, hbit, or_assoc]
      refine or_congr_right ⟨?_, ?_⟩
      · rintro (h3 | ⟨k, h3, h4, h5, h6⟩)
        · exact ⟨start + n, hk, by omega, by omega, hr, h3⟩
        · exact ⟨k, h3, h4, by omega, h6⟩
      · rintro ⟨k, h3, h4, h5, h6, h7⟩
        by_cases e : k = start + n
        · subst e; exact .inl h7
        · exact .inr ⟨k, h3, h4, by omega, h6, h7⟩
    · rename_i hr
      obtain ⟨fv, h1, h2⟩ := ih found (by omega)
      refine ⟨fv, h1, fun v => ?_⟩
      rw [h2]
      refine or_congr_right ⟨?_, ?_⟩
      · rintro ⟨k, h3, h4, h5, h6⟩; exact ⟨k, h3, h4, by omega, h6⟩
      · rintro ⟨k, h3, h4, h5, h6, h7⟩
        by_cases e : k = start + n
        · subst e; exact absurd h6 hr
        · exact ⟨k, h3, h4, by omega, h6, h7⟩

/-- The filter on the device holds exactly the pairs `P`. `U` are its pages. -/
structure Holds (c : Cfg) (dev : Nat → Mem) (f : Filter) (U : Nat → Prop) (P : Nat → Nat → Prop) (lb : Nat) (its : Nat → List Nat) : Prop where
  ne0 : f.addr ≠ 0
  elb : logBuckets c f.nfp = some lb
  lbF : lb ≤ c.F
  lb32 : lb < 32
  f32 : c.F + f.vs ≤ 32
  rvs : f.vs + (c.F - lb) ≠ 0
  blk : ∀ i, i < 2 ^ (lb - c.L) → ∃ pa off, At c dev f.addr (f.vs + (c.F - lb)) i (its i) pa off ∧ pa % c.ps = 0 ∧ pa ≠ 0 ∧ U pa ∧ U (ipage c f.addr i)
  sorted : ∀ i, i < 2 ^ (lb - c.L) → (its i).Pairwise (· ≤ ·)
  mem : ∀ i, i < 2 ^ (lb - c.L) → ∀ x, x ∈ its i ↔ x >>> (f.vs + (c.F - lb) + c.L) = i ∧ P (x >>> f.vs) (x % 2 ^ f.vs)
  dom : ∀ fp v, P fp v → fp < 2 ^ c.F ∧ v < 2 ^ f.vs

theorem Holds.congr {c : Cfg} {dev dev' : Nat → Mem} {f : Filter} {U : Nat → Prop} {P : Nat → Nat → Prop} {lb : Nat} {its : Nat → List Nat} (h : Holds c dev f U P lb its)
    (hd : ∀ a, U a → dev' a = dev a) : Holds c dev' f U P lb its := by
  refine ⟨h.ne0, h.elb, h.lbF, h.lb32, h.f32, h.rvs, fun i hi => ?_, h.sorted, h.mem, h.dom⟩
  obtain ⟨pa, off, h1, h2, h3, h4, h5⟩ := h.blk i hi
  exact ⟨pa, off, ⟨by rw [hd _ h5]; exact h1.ent, h1.q, h1.lt, by rw [hd _ h4]; exact h1.body⟩, h2, h3, h4, h5⟩

theorem Holds.geL {c : Cfg} {dev : Nat → Mem} {f : Filter} {U : Nat → Prop} {P : Nat → Nat → Prop} {lb : Nat} {its : Nat → List Nat} (h : Holds c dev f U P lb its) : c.L ≤ lb := by
  have := h.elb
  unfold logBuckets at this
  split at this
  · cases this
  · cases this; exact Nat.le_max_right _ _

theorem Holds.bound {c : Cfg} {dev : Nat → Mem} {f : Filter} {U : Nat → Prop} {P : Nat → Nat → Prop} {lb : Nat} {its : Nat → List Nat} (h : Holds c dev f U P lb its) {i x : Nat}
    (hi : i < 2 ^ (lb - c.L)) (hx : x ∈ its i) : x < 2 ^ (c.F + f.vs) := by
  have h1 := (h.dom _ _ ((h.mem i hi x).1 hx).2).1
  rw [Nat.shiftRight_eq_div_pow, Nat.div_lt_iff_lt_mul (Nat.two_pow_pos _), ← Nat.pow_add] at h1
  exact h1

theorem lookup_spec {c : Cfg} (g : Good c) {dev : Nat → Mem} {f : Filter} {U : Nat → Prop} {P : Nat → Nat → Prop} {lb : Nat} {its : Nat → List Nat} (hh : Holds c dev f U P lb its)
    (h64 : ∀ fp v, P fp v → v < 64) {h : Nat} (hlt : h < 2 ^ 32) : ∃ fv, lookup c dev f h = some fv ∧ ∀ v, fv.testBit v = true ↔ P (h >>> (32 - c.F)) v := by
  have hL := hh.geL
  have hL4 := g.L
  have hF := hh.lbF
  have h32 := hh.f32
  have hisz := g.isz_pos
  obtain ⟨fp, hfp⟩ : ∃ fp, fp = h >>> (32 - c.F) := ⟨_, rfl⟩
  have hfpb : fp < 2 ^ c.F := by
    rw [hfp, Nat.shiftRight_eq_div_pow, Nat.div_lt_iff_lt_mul (Nat.two_pow_pos _), ← Nat.pow_add, show c.F + (32 - c.F) = 32 by omega]; exact hlt
  have hx0 : fp <<< f.vs < 2 ^ (c.F + f.vs) := by
    rw [Nat.shiftLeft_eq, Nat.pow_add]; exact Nat.mul_lt_mul_of_pos_right hfpb (Nat.two_pow_pos _)
  have hx1 : fp <<< f.vs < 2 ^ 32 := Nat.lt_of_lt_of_le hx0 (Nat.pow_le_pow_right (by decide) h32)
  unfold lookup
  rw [if_neg hh.ne0, hh.elb, ← hfp]
  simp only [Option.bind_some]
  rw [if_neg (by omega), show u32 (fp <<< f.vs) = fp <<< f.vs from Nat.mod_eq_of_lt hx1, Nat.add_comm (c.F - lb) f.vs]
  obtain ⟨rvs, hrvs⟩ : ∃ rvs, rvs = f.vs + (c.F - lb) := ⟨_, rfl⟩
  obtain ⟨x0, hx⟩ : ∃ x0, x0 = fp <<< f.vs := ⟨_, rfl⟩
  have hr0 := hh.rvs
  rw [← hrvs] at hr0 ⊢
  rw [← hx] at hx0 hx1 ⊢
  have hgb : getBucket x0 rvs = some (x0 >>> rvs) := by unfold getBucket; rw [if_neg (by omega)]
  have hgi : getIndex x0 (rvs + c.L) = some (x0 >>> (rvs + c.L)) := by
    unfold getIndex
    split
    · rename_i e; rw [Nat.shiftRight_eq_div_pow, e, Nat.div_eq_of_lt hx1]
    · rw [if_neg (by omega)]
  rw [hgb, hgi, Option.bind_some, Option.bind_some]
  have hidx : x0 >>> (rvs + c.L) < 2 ^ (lb - c.L) := by
    rw [Nat.shiftRight_eq_div_pow, Nat.div_lt_iff_lt_mul (Nat.two_pow_pos _), ← Nat.pow_add, show lb - c.L + (rvs + c.L) = c.F + f.vs by omega]; exact hx0
  obtain ⟨pa, off, ha, h1, h2, _, _⟩ := hh.blk _ hidx
  have hs := hh.sorted _ hidx
  have hm := hh.mem _ hidx
  have hbd := fun x => hh.bound (x := x) hidx
  rw [← hrvs] at ha hm
  have hfit := ha.body.fit
  obtain ⟨i, hi⟩ : ∃ i, i = x0 >>> (rvs + c.L) := ⟨_, rfl⟩
  rw [← hi] at ha hs hm hbd hfit ⊢
  generalize its i = it at *
  rw [getHeader_at g ha h1 h2]
  have hl := headerLength_eq c it.length
  simp only [Option.bind_some]
  rw [show rdIn c.ps (dev pa) off 2 = some it.length by unfold rdIn; rw [if_pos (by omega), ha.body.num], Option.bind_some]
  have ht : x0 >>> rvs % c.isz < c.isz := Nat.mod_lt _ (by omega)
  have hdm := Nat.div_add_mod (x0 >>> rvs) c.isz
  rw [← index_of_bucket c g, ← hi, Nat.mul_comm] at hdm
  obtain ⟨t, htd⟩ : ∃ t, t = x0 >>> rvs % c.isz := ⟨_, rfl⟩
  rw [← htd] at ht hdm ⊢
  have hCle := C_le rvs (i * c.isz) it t
  have hpre := pre_le rvs (i * c.isz) it t
  rw [bounds_spec ha.body.enc ht (by omega)]
  simp only [Option.bind_some]
  have hge : ∀ x ∈ it, i * c.isz ≤ x >>> rvs := fun x hx => by
    have := ((hm x).1 hx).1
    rw [index_of_bucket c g] at this
    rw [← this]; exact Nat.div_mul_le_self _ _
  -- a stored item has this fingerprint iff it is in the bucket and has the remainder
  have hkey : ∀ v, P fp v ↔ ∃ k, ∃ (h : k < it.length), pre (C rvs (i * c.isz) it) t ≤ k ∧ k < C rvs (i * c.isz) it t ∧ (it[k] % 2 ^ rvs) >>> f.vs = fp &&& (2 ^ (c.F - lb) - 1) ∧
      it[k] % 2 ^ f.vs = v := by
    have hrem : ∀ x : Nat, (x % 2 ^ rvs) >>> f.vs = (x >>> f.vs) % 2 ^ (c.F - lb) := fun x => by
      rw [Nat.shiftRight_eq_div_pow, Nat.shiftRight_eq_div_pow, hrvs, Nat.pow_add, Nat.mod_mul_right_div_self]
    have hbk : ∀ x : Nat, x >>> rvs = (x >>> f.vs) / 2 ^ (c.F - lb) := fun x => by
      rw [hrvs, Nat.shiftRight_add, Nat.shiftRight_eq_div_pow _ (c.F - lb)]
    have hx0v : x0 >>> f.vs = fp := by rw [hx, Nat.shiftLeft_shiftRight]
    have hfpd := Nat.div_add_mod fp (2 ^ (c.F - lb))
    intro v
    rw [Nat.and_two_pow_sub_one_eq_mod]
    constructor
    · intro hP
      have hv := (hh.dom _ _ hP).2
      have e1 : (fp * 2 ^ f.vs + v) >>> f.vs = fp := by
        rw [Nat.shiftRight_eq_div_pow, Nat.mul_comm, Nat.mul_add_div (Nat.two_pow_pos _), Nat.div_eq_of_lt hv, Nat.add_zero]
      have e2 : (fp * 2 ^ f.vs + v) % 2 ^ f.vs = v := by rw [Nat.mul_comm, Nat.mul_add_mod, Nat.mod_eq_of_lt hv]
      have hin : fp * 2 ^ f.vs + v ∈ it := by
        rw [hm]
        refine ⟨?_, by rw [e1, e2]; exact hP⟩
        rw [hi, index_of_bucket c g, index_of_bucket c g, hbk, hbk, e1, hx0v]
      obtain ⟨k, hk, e⟩ := List.mem_iff_getElem.1 hin
      have hp := (bucket_pos hs hge hk (t := t)).1 (by rw [e, hdm, hbk, hbk, e1, hx0v])
      exact ⟨k, hk, hp.1, hp.2, by rw [e, hrem, e1], by rw [e, e2]⟩
    · rintro ⟨k, hk, k1, k2, k3, k4⟩
      have hb := (bucket_pos hs hge hk (t := t)).2 ⟨k1, k2⟩
      rw [hrem] at k3
      rw [hdm, hbk, hbk, hx0v] at hb
      have hin := (hm _).1 (List.getElem_mem hk)
      have e : it[k] >>> f.vs = fp := by
        have := Nat.div_add_mod (it[k] >>> f.vs) (2 ^ (c.F - lb))
        rw [hb, k3, hfpd] at this
        exact this.symm
      rw [e, k4] at hin
      exact hin.2
  split
  · rename_i e
    refine ⟨0, rfl, fun v => ?_⟩
    rw [hkey]
    simp only [Nat.zero_testBit, Bool.false_eq_true, false_iff]
    rintro ⟨k, _, k1, k2, _⟩
    omega
  · have hn : nw it.length rvs ≤ (c.ps - (off + headerLength c it.length)) / 4 := by omega
    obtain ⟨fv, f1, f2⟩ := collect_spec (r := fp &&& (2 ^ (c.F - lb) - 1)) (fun k hk => ha.body.get (by omega) (by omega) hn hk) (show f.vs ≤ rvs by omega)
      (fun x hx => h64 _ _ ((hm x).1 hx).2) (pre (C rvs (i * c.isz) it) t) (C rvs (i * c.isz) it t - pre (C rvs (i * c.isz) it) t) 0 (by omega)
    refine ⟨fv, f1, fun v => ?_⟩
    rw [f2, hkey, show pre (C rvs (i * c.isz) it) t + (C rvs (i * c.isz) it t - pre (C rvs (i * c.isz) it) t) = C rvs (i * c.isz) it t by omega]
    simp

end Splinter.Filter
