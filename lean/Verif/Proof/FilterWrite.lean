import Verif.Proof.FilterBlock
import Mathlib.Data.List.Nodup
/-!
# The writer of `routing_filter_add`
-/
namespace Splinter.Filter
open Splinter.PA (u32)
open Splinter.Log (Mem put le)

/-- Page of the index that has entry `i`. -/
def ipage (c : Cfg) (ext i : Nat) : Nat := ext + c.ps * (i / (c.ps / 8))

/-- Offset of entry `i`. -/
def ioff (c : Cfg) (i : Nat) : Nat := 8 * (i % (c.ps / 8))

def IP (c : Cfg) (ext a : Nat) : Prop := ∃ q, q < c.ppe ∧ a = ext + c.ps * q

/-- What the allocator promises. -/
structure Fresh (c : Cfg) (ext : Nat) (pgs : List Nat) : Prop where
  ne0 : ext ≠ 0
  nodup : pgs.Nodup
  al : ∀ a ∈ pgs, a % c.ps = 0
  pos : ∀ a ∈ pgs, a ≠ 0
  lt : ∀ a ∈ pgs, a + c.ps ≤ 2 ^ 64
  nip : ∀ a ∈ pgs, ¬ IP c ext a

/-- A block of index `i` is stored at `(pa, off)`. -/
structure At (c : Cfg) (dev : Nat → Mem) (ext rvs i : Nat) (it : List Nat) (pa off : Nat) : Prop where
  ent : rd (dev (ipage c ext i)) (ioff c i) 8 = pa + off
  q : i / (c.ps / 8) < c.ppe
  lt : off < c.ps
  body : Body c (dev pa) off rvs (i * c.isz) it

structure WInv (c : Cfg) (dev0 : Nat → Mem) (ext : Nat) (pgs : List Nat) (rvs i : Nat) (its : Nat → List Nat) (w : W) : Prop where
  taken : 1 ≤ w.taken
  addr : pgs[w.taken - 1]? = some w.addr
  rem : w.off + w.rem = c.ps
  blk : ∀ k, k < i → ∃ pa off, At c w.dev ext rvs k (its k) pa off ∧ pa ∈ pgs.take w.taken ∧
    (pa = w.addr → off + headerLength c (its k).length + 4 * nw (its k).length rvs ≤ w.off)
  frame : ∀ a, ¬ IP c ext a → a ∉ pgs → w.dev a = dev0 a

theorem WInv.enc {c : Cfg} {dev0 : Nat → Mem} {ext : Nat} {pgs : List Nat} {rvs i : Nat} {its : Nat → List Nat} {w : W} (h : WInv c dev0 ext pgs rvs i its w) (e : Nat → Nat) (n : Nat) :
    WInv c dev0 ext pgs rvs i its { w with enc := e, nu := n } := ⟨h.taken, h.addr, h.rem, h.blk, h.frame⟩

theorem nextPage_inv {c : Cfg} {dev0 : Nat → Mem} {ext : Nat} {pgs : List Nat} {rvs i : Nat} {its : Nat → List Nat} {w w' : W} {size : Nat} (hf : Fresh c ext pgs)
    (h : WInv c dev0 ext pgs rvs i its w) (hn : nextPage c pgs size w = some w') : WInv c dev0 ext pgs rvs i its w' ∧ w'.enc = w.enc ∧ w'.nu = w.nu ∧ w'.dev = w.dev := by
  unfold nextPage at hn
  split at hn
  · rw [Option.map_eq_some_iff] at hn
    obtain ⟨a, ha, rfl⟩ := hn
    refine ⟨⟨by simp, by simpa using ha, by simp, fun k hk => ?_, h.frame⟩, rfl, rfl, rfl⟩
    obtain ⟨pa, off, h1, h2, h3⟩ := h.blk k hk
    refine ⟨pa, off, h1, ?_, fun e => ?_⟩
    · rw [List.take_add_one]; exact List.mem_append_left _ h2
    · exfalso
      simp only at e
      subst e
      obtain ⟨j, hj, e⟩ := List.mem_iff_getElem.1 h2
      rw [List.getElem_take] at e
      rw [List.length_take] at hj
      obtain ⟨hl, e2⟩ := List.getElem?_eq_some_iff.1 ha
      have := (List.Nodup.getElem_inj_iff hf.nodup).1 (e.trans e2.symm)
      omega
  · cases hn; exact ⟨h, rfl, rfl, rfl⟩

theorem ipage_ip {c : Cfg} {ext i : Nat} (h : i / (c.ps / 8) < c.ppe) : IP c ext (ipage c ext i) := ⟨_, h, rfl⟩

theorem entry_ne {c : Cfg} (g : Good c) {ext i k : Nat} (hne : k ≠ i) (hp : ipage c ext k = ipage c ext i) : ioff c k + 8 ≤ ioff c i ∨ ioff c i + 8 ≤ ioff c k := by
  have h8 := g.ps
  have hq : k / (c.ps / 8) = i / (c.ps / 8) := by
    unfold ipage at hp
    exact Nat.eq_of_mul_eq_mul_left (show 0 < c.ps by omega) (by omega)
  have : k % (c.ps / 8) ≠ i % (c.ps / 8) := by
    intro hm
    have h1 := Nat.div_add_mod k (c.ps / 8)
    have h2 := Nat.div_add_mod i (c.ps / 8)
    rw [hq, hm, h2] at h1
    exact hne h1.symm
  unfold ioff
  omega

theorem emit_spec {c : Cfg} (g : Good c) {dev0 : Nat → Mem} {ext : Nat} {pgs : List Nat} {rvs i : Nat} {its : Nat → List Nat} {w w' : W} {it : List Nat} (hf : Fresh c ext pgs)
    (hr : rvs ≠ 0) (hr2 : rvs ≤ 32) (h : WInv c dev0 ext pgs rvs i its w) (hone : ∀ t, One (encBit w.enc) t (t + C rvs (i * c.isz) it t))
    (hrest : ∀ j, it.length + c.isz - 1 ≤ j → encBit w.enc j = true) (he : emit c ext pgs rvs i (it.map (· % 2 ^ rvs)) w = some w') :
    WInv c dev0 ext pgs rvs (i + 1) (upd its i it) w' ∧ (∀ j, encBit w'.enc j = true) ∧ w'.nu = w.nu ∧ i / (c.ps / 8) < c.ppe := by
  have h8 := g.ps
  have hlen : (it.map (· % 2 ^ rvs)).length = it.length := by simp
  have hisz := g.isz_pos
  unfold emit at he
  simp only [hlen] at he
  rw [Option.bind_eq_some_iff] at he
  obtain ⟨w1, hn, he⟩ := he
  obtain ⟨hw, e1, e2, e3⟩ := nextPage_inv hf h hn
  rw [← e1] at hone hrest
  rw [← e2]
  clear hn h e1 e2 e3
  split at he
  · cases he
  rename_i hc
  rw [not_or, not_or] at hc
  obtain ⟨hc1, hc2, hc3⟩ := hc
  rw [Option.map_eq_some_iff] at he
  obtain ⟨m, hm, rfl⟩ := he
  have hq : i / (c.ps / 8) < c.ppe := by omega
  have hmem : w1.addr ∈ pgs := List.mem_of_getElem? hw.addr
  have hne : ∀ k, k / (c.ps / 8) < c.ppe → ipage c ext k ≠ w1.addr := fun k hk e => hf.nip _ hmem (e ▸ ipage_ip hk)
  have hs : it.length ≤ 4071 := by omega
  obtain ⟨hb1, hb2, hb3⟩ := blockSize_ge (n := it.length) hr hs hr2
  have hwb : writeBlock c (w1.dev w1.addr) w1.off rvs w1.enc (it.map (· % 2 ^ rvs)) = some m := by
    have hu : ∀ v, upd w1.dev (ext + c.ps * (i / (c.ps / 8))) v w1.addr = w1.dev w1.addr := fun v => if_neg fun e => hne i hq e.symm
    rw [hu] at hm
    unfold writeBlock
    simp only [hlen]
    exact hm
  have hrem := hw.rem
  have hl := headerLength_eq c it.length
  have hother : ∀ j, j < w1.off → m j = w1.dev w1.addr j := fun j hj =>
    writeBlock_other hwb hr2 (by rw [hlen]; exact hs) (fun v hv => by obtain ⟨x, _, rfl⟩ := List.mem_map.1 hv; exact Nat.mod_lt _ (Nat.two_pow_pos _)) (.inl hj)
  have hbody := writeBlock_spec g (base := i * c.isz) hwb hr hr2 hs hone (by omega)
  have hip : ipage c ext i = ext + c.ps * (i / (c.ps / 8)) := rfl
  have hio : ioff c i = 8 * (i % (c.ps / 8)) := rfl
  rw [← hip, ← hio]
  refine ⟨⟨hw.taken, hw.addr, ?_, fun k hk => ?_, fun a h1 h2 => ?_⟩, fun j => ?_, rfl, hq⟩
  · show w1.off + ((it.length + c.isz - 1) / 8 + 4 + 2) + blockSize it.length rvs + (w1.rem - ((it.length + c.isz - 1) / 8 + 4 + 2 + blockSize it.length rvs)) = c.ps
    omega
  · by_cases hki : k = i
    · subst hki
      refine ⟨w1.addr, w1.off, ⟨?_, hq, by omega, ?_⟩, ?_, fun _ => ?_⟩
      · simp only [upd, hne k hq, if_false, if_true]
        refine rd_put_le ?_
        have := hf.lt _ hmem
        have : (256 : Nat) ^ 8 = 2 ^ 64 := by norm_num
        omega
      · simp only [upd, if_true]; exact hbody
      · have ht := hw.taken
        have ha := hw.addr
        show w1.addr ∈ pgs.take w1.taken
        refine List.mem_of_getElem? (i := w1.taken - 1) ?_
        rw [List.getElem?_take]; simp only [show w1.taken - 1 < w1.taken by omega, if_true, ha]
      · simp only [upd, if_true]
        omega
    · obtain ⟨pa, off, ha, h2, h3⟩ := hw.blk k (by omega)
      have hpa : pa ∈ pgs := List.mem_of_mem_take h2
      have hne2 : pa ≠ ipage c ext i := fun e => hf.nip _ hpa (e ▸ ipage_ip hq)
      refine ⟨pa, off, ⟨?_, ha.q, ha.lt, ?_⟩, h2, fun e => ?_⟩
      · rw [← ha.ent]
        simp only [upd, hne k ha.q, if_false]
        split
        · rename_i hp
          refine rd_congr fun j h4 h5 => ?_
          have := entry_ne g hki hp
          rw [← hp]
          exact Log.put_other (by rw [Log.le_length]; omega)
        · rfl
      · have hb : (upd its i it) k = its k := by simp [upd, hki]
        rw [hb]
        by_cases hp : pa = w1.addr
        · have h3 := h3 hp
          simp only [upd, hp, if_true]
          rw [hp] at ha
          exact ha.body.congr (by omega) fun j h4 h5 => (hother j (by omega)).symm
        · simp only [upd, hp, if_false, hne2]
          exact ha.body
      · have hb : (upd its i it) k = its k := by simp [upd, hki]
        rw [hb]
        have := h3 e
        show _ ≤ w1.off + ((it.length + c.isz - 1) / 8 + 4 + 2) + blockSize it.length rvs
        omega
  · have h3 : a ≠ w1.addr := fun e => h2 (e ▸ hmem)
    have h4 : a ≠ ipage c ext i := fun e => h1 (e ▸ ipage_ip hq)
    simp only [upd, h3, h4, if_false]
    exact hw.frame a h1 h2
  · show encBit (resetEnc w1.enc ((it.length + c.isz - 1) / 8 + 4)) j = true
    rw [resetEnc_bit]
    by_cases hj : j < 8 * ((it.length + c.isz - 1) / 8 + 4)
    · simp [hj]
    · rw [hrest j (by omega)]; rfl

/-! ## The counts of the new fingerprints -/

theorem runLen_spec {irvs i : Nat} : ∀ {l : List Nat} {n : Nat}, runLen irvs i l = some n → (∀ x ∈ l, x < 2 ^ 32) → l.Pairwise (· ≤ ·) → (∀ x ∈ l, i ≤ x >>> irvs) →
    (∀ x ∈ l.take n, x >>> irvs = i) ∧ ∀ x ∈ l.drop n, i + 1 ≤ x >>> irvs := by
  intro l
  induction l with
  | nil => intro n _ _ _ _; simp
  | cons a l ih =>
    intro n h hb hs hi
    rw [runLen, Option.bind_eq_some_iff] at h
    obtain ⟨k, hk, h⟩ := h
    have hka : k = a >>> irvs := by
      unfold getIndex at hk
      split at hk
      · rename_i e
        cases hk
        rw [Nat.shiftRight_eq_div_pow, e, Nat.div_eq_of_lt (hb a (by simp))]
      · split at hk
        · cases hk
        · cases hk; rfl
    have hia := hi a (by simp)
    split at h
    · rename_i hki
      rw [Option.map_eq_some_iff] at h
      obtain ⟨n', h1, rfl⟩ := h
      obtain ⟨i1, i2⟩ := ih h1 (fun x hx => hb x (by simp [hx])) (List.pairwise_cons.1 hs).2 fun x hx => hi x (by simp [hx])
      refine ⟨fun x hx => ?_, fun x hx => i2 x (by simpa using hx)⟩
      rw [List.take_succ_cons] at hx
      rcases List.mem_cons.1 hx with rfl | hx
      · omega
      · exact i1 x hx
    · cases h
      refine ⟨by simp, fun x hx => ?_⟩
      rw [List.drop_zero] at hx
      rcases List.mem_cons.1 hx with rfl | hx
      · omega
      · have := shift_mono ((List.pairwise_cons.1 hs).1 x hx) irvs
        omega

theorem indexCounts_cons {irvs n i : Nat} {l cnts : List Nat} (h : indexCounts irvs (n + 1) i l = some cnts) : ∃ k cnts', cnts = k :: cnts' ∧ runLen irvs i l = some k ∧
    indexCounts irvs n (i + 1) (l.drop k) = some cnts' := by
  rw [indexCounts, Option.bind_eq_some_iff] at h
  obtain ⟨k, hk, h⟩ := h
  rw [Option.map_eq_some_iff] at h
  obtain ⟨c', h1, rfl⟩ := h
  exact ⟨k, c', rfl, hk, h1⟩

theorem index_of_bucket (c : Cfg) (g : Good c) (x rvs : Nat) : x >>> (rvs + c.L) = (x >>> rvs) / c.isz := by
  rw [Nat.shiftRight_add, Nat.shiftRight_eq_div_pow _ c.L, g.isz]

theorem newIndices_spec {c : Cfg} (g : Good c) {dev0 : Nat → Mem} {ext : Nat} {pgs : List Nat} {vs rvs : Nat} (hf : Fresh c ext pgs) (hr : rvs ≠ 0) (hr2 : rvs ≤ 32) (m : Nat) :
    ∀ (k i : Nat) (cnts fps old : List Nat) (w : W) (its : Nat → List Nat) (cnts' fps' : List Nat) (w' : W),
    newIndices c ext pgs vs rvs k i cnts fps old w = some (cnts', fps', w') → indexCounts (rvs + c.L) (k + m) i fps = some cnts → WInv c dev0 ext pgs rvs i its w →
    (∀ j, encBit w.enc j = true) → fps.Pairwise (· ≤ ·) → (∀ x ∈ fps, x < 2 ^ 32) → (∀ x ∈ fps, i ≤ x >>> (rvs + c.L)) → old.Pairwise (· ≤ ·) → (∀ x ∈ old, i ≤ x >>> (rvs + c.L)) →
    (i + k) * c.isz < 2 ^ 32 →
    ∃ its', WInv c dev0 ext pgs rvs (i + k) its' w' ∧ (∀ j, encBit w'.enc j = true) ∧ (∀ j, j < i → its' j = its j) ∧
      (∀ j, i ≤ j → j < i + k → (its' j).Pairwise (· ≤ ·) ∧ ∀ x, x ∈ its' j ↔ (x ∈ fps ∨ x ∈ old) ∧ x >>> (rvs + c.L) = j) ∧
      indexCounts (rvs + c.L) m (i + k) fps' = some cnts' ∧ fps'.Pairwise (· ≤ ·) ∧ ∀ x, x ∈ fps' ↔ x ∈ fps ∧ i + k ≤ x >>> (rvs + c.L) := by
  have hisz := g.isz_pos
  intro k
  induction k with
  | zero =>
    intro i cnts fps old w its cnts' fps' w' h hc hw he hs hb hi ho hoi _
    rw [newIndices] at h
    cases h
    rw [Nat.zero_add] at hc
    exact ⟨its, hw, he, fun _ _ => rfl, fun j h1 h2 => by omega, hc, hs, fun x => ⟨fun hx => ⟨hx, hi x hx⟩, fun hx => hx.1⟩⟩
  | succ k ih =>
    intro i cnts fps old w its cnts' fps' w' h hc hw he hs hb hi ho hoi hlt
    rw [show k + 1 + m = (k + m) + 1 by omega] at hc
    obtain ⟨n, cnts2, rfl, hrun, hc2⟩ := indexCounts_cons hc
    obtain ⟨t1, t2⟩ := runLen_spec hrun hb hs hi
    have e1 : (i + (k + 1)) * c.isz = (i + 1) * c.isz + k * c.isz := by rw [← Nat.add_mul]; congr 1; omega
    have e2 : (i + 1) * c.isz = i * c.isz + c.isz := by rw [Nat.add_mul, Nat.one_mul]
    rw [newIndices] at h
    simp only at h
    rw [show u32 ((i + 1) * c.isz) = (i + 1) * c.isz from Nat.mod_eq_of_lt (by omega), show u32 (i * c.isz) = i * c.isz from Nat.mod_eq_of_lt (by omega), Option.bind_eq_some_iff] at h
    obtain ⟨⟨old2, s⟩, hm, h⟩ := h
    rw [Option.bind_eq_some_iff] at h
    obtain ⟨w2, hem, h⟩ := h
    have hB : ∀ x j, j * c.isz ≤ x >>> rvs ↔ j ≤ x >>> (rvs + c.L) := fun x j => by
      rw [index_of_bucket c g, Nat.le_div_iff_mul_le (by omega)]
    have hB2 : ∀ x j, x >>> rvs < j * c.isz ↔ x >>> (rvs + c.L) < j := fun x j => by
      rw [← Nat.not_le, hB, Nat.not_le]
    obtain ⟨it, mi, mm, ms, mo⟩ := mergeLoop_spec (base := i * c.isz) (by omega) _ _ _ _ [] _ _ hm
      ⟨rfl, List.Pairwise.nil, by simp, by simp, ⟨Nat.le_refl _, show i * c.isz < _ by omega⟩, by simp, by simp [N], fun j _ => he j, fun t ht => by simp at ht⟩
      ho (hs.sublist (List.take_sublist _ _)) (fun x hx => (hB x i).2 (hoi x hx))
      (fun x hx => ⟨(hB x i).2 (Nat.le_of_eq (t1 x hx).symm), (hB2 x (i + 1)).2 (by rw [t1 x hx]; omega)⟩) (by simp) (by simp)
    rw [mi.dst] at hem
    have hl1 := mi.last
    have hl2 := mi.hb
    obtain ⟨w1, w2e, _⟩ := emit_spec g hf hr hr2 (hw.enc s.enc s.nu) mi.all (fun j hj => mi.rest j (by omega)) hem
    obtain ⟨its', i1, i2, i3, i4, i5, i6, i7⟩ := ih (i + 1) cnts2 (fps.drop n) old2 w2 (upd its i it) cnts' fps' w' h hc2 w1 w2e (hs.sublist (List.drop_sublist _ _))
      (fun x hx => hb x (List.mem_of_mem_drop hx)) t2 ms (fun x hx => (hB x _).1 ((mo x).1 hx).2) (by rw [show i + 1 + k = i + (k + 1) by omega]; exact hlt)
    rw [show i + 1 + k = i + (k + 1) by omega] at i1 i4 i5 i7
    have hsplit : ∀ x, x ∈ fps ↔ x ∈ fps.take n ∨ x ∈ fps.drop n := fun x => by
      rw [← List.mem_append, List.take_append_drop]
    refine ⟨its', i1, i2, fun j hj => ?_, fun j h1 h2 => ?_, i5, i6, fun x => ?_⟩
    · rw [i3 j (by omega)]; simp [upd, show j ≠ i by omega]
    · by_cases hji : j = i
      · subst hji
        rw [i3 j (by omega)]
        simp only [upd, if_true]
        refine ⟨mi.sorted, fun x => ?_⟩
        rw [mm, hsplit]
        constructor
        · rintro (hx | hx | ⟨hx, h3⟩)
          · cases hx
          · exact ⟨.inl (.inl hx), t1 x hx⟩
          · exact ⟨.inr hx, by have := (hB2 x _).1 h3; have := hoi x hx; omega⟩
        · rintro ⟨(hx | hx) | hx, h3⟩
          · exact .inr (.inl hx)
          · have := t2 x hx; omega
          · exact .inr (.inr ⟨hx, (hB2 x _).2 (by omega)⟩)
      · obtain ⟨j1, j2⟩ := i4 j (by omega) h2
        refine ⟨j1, fun x => ?_⟩
        rw [j2, hsplit, mo, hB]
        constructor
        · rintro ⟨hx | ⟨hx, _⟩, h3⟩
          · exact ⟨.inl (.inr hx), h3⟩
          · exact ⟨.inr hx, h3⟩
        · rintro ⟨(hx | hx) | hx, h3⟩
          · have := t1 x hx; omega
          · exact ⟨.inl hx, h3⟩
          · exact ⟨.inr ⟨hx, by omega⟩, h3⟩
    · rw [i7, hsplit]
      constructor
      · rintro ⟨hx, h3⟩; exact ⟨.inr hx, h3⟩
      · rintro ⟨hx | hx, h3⟩
        · have := t1 x hx; omega
        · exact ⟨hx, h3⟩

theorem oldIndices_spec {c : Cfg} (g : Good c) {dev0 : Nat → Mem} {ext : Nat} {pgs : List Nat} {f : Filter} {orvs vs rvs per : Nat} (hf : Fresh c ext pgs) (hr : rvs ≠ 0) (hr2 : rvs ≤ 32)
    {Q : Nat → Prop} {tot : Nat} (hper : 0 < per) (htot : (tot * per) * c.isz < 2 ^ 32)
    (hread : ∀ dev l oi, (∀ a, ¬ IP c ext a → a ∉ pgs → dev a = dev0 a) → oi < tot → readOld c dev f orvs vs oi = some l →
      l.Pairwise (· ≤ ·) ∧ ∀ x, x ∈ l ↔ Q x ∧ x >>> (rvs + c.L) / per = oi) :
    ∀ (k oi : Nat) (cnts fps : List Nat) (w : W) (its : Nat → List Nat) (w' : W), oldIndices c ext pgs f orvs vs rvs per k oi cnts fps w = some w' → oi + k = tot →
    indexCounts (rvs + c.L) (k * per) (oi * per) fps = some cnts → WInv c dev0 ext pgs rvs (oi * per) its w →
    (∀ j, encBit w.enc j = true) → fps.Pairwise (· ≤ ·) → (∀ x ∈ fps, x < 2 ^ 32) → (∀ x ∈ fps, oi * per ≤ x >>> (rvs + c.L)) →
    ∃ its', WInv c dev0 ext pgs rvs (tot * per) its' w' ∧ (∀ j, j < oi * per → its' j = its j) ∧
      ∀ j, oi * per ≤ j → j < tot * per → (its' j).Pairwise (· ≤ ·) ∧ ∀ x, x ∈ its' j ↔ (x ∈ fps ∨ Q x) ∧ x >>> (rvs + c.L) = j := by
  intro k
  induction k with
  | zero =>
    intro oi cnts fps w its w' h hk hc hw he hs hb hi
    rw [oldIndices] at h
    cases h
    rw [Nat.add_zero] at hk
    subst hk
    exact ⟨its, hw, fun _ _ => rfl, fun j h1 h2 => by omega⟩
  | succ k ih =>
    intro oi cnts fps w its w' h hk hc hw he hs hb hi
    rw [oldIndices, Option.bind_eq_some_iff] at h
    obtain ⟨old, hro, h⟩ := h
    rw [Option.bind_eq_some_iff] at h
    obtain ⟨⟨cnts2, fps2, w2⟩, hn, h⟩ := h
    obtain ⟨r1, r2⟩ := hread w.dev old oi hw.frame (by omega) hro
    have hdiv : ∀ x : Nat, x >>> (rvs + c.L) / per = oi ↔ oi * per ≤ x >>> (rvs + c.L) ∧ x >>> (rvs + c.L) < oi * per + per := fun x => by
      rw [Nat.div_eq_iff hper]; omega
    have e0 : (oi + 1) * per = oi * per + per := by rw [Nat.add_mul, Nat.one_mul]
    have e1 : (oi + 1) * per ≤ tot * per := Nat.mul_le_mul_right _ (by omega)
    have e2 := Nat.mul_le_mul_right c.isz e1
    rw [e0] at e2
    rw [show (k + 1) * per = per + k * per by rw [Nat.add_mul, Nat.one_mul, Nat.add_comm]] at hc
    obtain ⟨its1, i1, i2, i3, i4, i5, i6, i7⟩ := newIndices_spec g hf hr hr2 (k * per) per (oi * per) cnts fps old w its cnts2 fps2 w2 hn hc hw he hs hb hi r1
      (fun x hx => ((hdiv x).1 ((r2 x).1 hx).2).1) (by omega)
    rw [← e0] at i1 i4 i5 i7
    obtain ⟨its', j1, j2, j3⟩ := ih (oi + 1) cnts2 fps2 w2 its1 w' h (by omega) i5 i1 i2 i6 (fun x hx => hb x ((i7 x).1 hx).1) (fun x hx => ((i7 x).1 hx).2)
    refine ⟨its', j1, fun j hj => by rw [j2 j (by omega), i3 j hj], fun j h1 h2 => ?_⟩
    by_cases hj : j < (oi + 1) * per
    · rw [j2 j hj]
      obtain ⟨k1, k2⟩ := i4 j h1 hj
      refine ⟨k1, fun x => ?_⟩
      rw [k2, r2, hdiv]
      constructor
      · rintro ⟨hx | hx, h3⟩
        · exact ⟨.inl hx, h3⟩
        · exact ⟨.inr hx.1, h3⟩
      · rintro ⟨hx | hx, h3⟩
        · exact ⟨.inl hx, h3⟩
        · exact ⟨.inr ⟨hx, by omega⟩, h3⟩
    · obtain ⟨k1, k2⟩ := j3 j (by omega) h2
      refine ⟨k1, fun x => ?_⟩
      rw [k2, i7]
      constructor
      · rintro ⟨hx | hx, h3⟩
        · exact ⟨.inl hx.1, h3⟩
        · exact ⟨.inr hx, h3⟩
      · rintro ⟨hx | hx, h3⟩
        · exact ⟨.inl ⟨hx, by omega⟩, h3⟩
        · exact ⟨.inr hx, h3⟩

end Splinter.Filter
