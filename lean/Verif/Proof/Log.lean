import Verif.Model.Log

/-! # Proofs about the log -/
namespace Splinter.Log

/-! ## Bytes -/

theorem le_length (n v : Nat) : (le n v).length = n := by
  induction n generalizing v with
  | zero => rfl
  | succ n ih => simp [le, ih]

theorem unle_le (n v : Nat) : unle (le n v) = v % 256 ^ n := by
  induction n generalizing v with
  | zero => simp [le, unle, Nat.mod_one]
  | succ n ih => rw [le, unle, ih, Nat.pow_succ, Nat.mul_comm (256 ^ n) 256, Nat.mod_mul]

theorem put_other {m : Mem} {off i : Nat} {l : List Nat} (h : i < off ∨ off + l.length ≤ i) : put m off l i = m i := by
  unfold put; rw [if_neg (by omega)]

theorem put_at {m : Mem} {off i : Nat} {l : List Nat} (h : i < l.length) : put m off l (off + i) = l[i] := by
  unfold put
  rw [if_pos (by omega), Nat.add_sub_cancel_left, List.getD_eq_getElem?_getD, List.getElem?_eq_getElem h]
  rfl

theorem get_length (m : Mem) (off n : Nat) : (get m off n).length = n := by simp [get]

theorem get_shift {m m' : Mem} {off off' n : Nat} (h : ∀ i, i < n → m' (off' + i) = m (off + i)) : get m' off' n = get m off n := by
  unfold get
  apply List.map_congr_left
  intro i hi
  exact h i (List.mem_range.1 hi)

theorem get_congr {m m' : Mem} {off n : Nat} (h : ∀ i, off ≤ i → i < off + n → m' i = m i) : get m' off n = get m off n :=
  get_shift fun i hi => h _ (by omega) (by omega)

theorem get_put (m : Mem) (off : Nat) (l : List Nat) {n : Nat} (hn : n = l.length) : get (put m off l) off n = l := by
  subst hn
  apply List.ext_getElem
  · exact get_length _ _ _
  · intro i h1 h2
    simp only [get, List.getElem_map, List.getElem_range]
    exact put_at h2

theorem get_put_other {m : Mem} {off off' n : Nat} {l : List Nat} (h : off' + n ≤ off ∨ off + l.length ≤ off') : get (put m off l) off' n = get m off' n :=
  get_congr fun _ _ _ => put_other (by omega)

theorem put_get_at {m m' : Mem} {off off' n i : Nat} (h : i < n) : put m' off' (get m off n) (off' + i) = m (off + i) := by
  rw [put_at (by rw [get_length]; exact h)]
  simp [get]

/-! ## Entries -/

def Rec.ok (r : Rec) : Prop := r.gen < invalidGen ∧ r.key.length < 65536 ∧ r.msg.length < 65536 ∧ r.cls < 4

theorem decode_shift {m m' : Mem} {off off' : Nat} (h : ∀ i, i < sizeAt m off → m' (off' + i) = m (off + i)) :
    sizeAt m' off' = sizeAt m off ∧ decode m' off' = decode m off := by
  have h14 : 14 ≤ sizeAt m off := Nat.le_add_right 14 _
  have hk : klenAt m' off' = klenAt m off := congrArg unle (get_shift fun i hi => by have := h (8 + i) (by omega); simpa [Nat.add_assoc] using this)
  have hm : mlenAt m' off' = mlenAt m off := congrArg unle (get_shift fun i hi => by have := h (11 + i) (by omega); simpa [Nat.add_assoc] using this)
  have hg : genAt m' off' = genAt m off := congrArg unle (get_shift fun i hi => h i (by omega))
  refine ⟨by unfold sizeAt; rw [hk, hm], ?_⟩
  unfold decode
  rw [hk, hm, hg, h 13 (by omega)]
  have e1 : get m' (off' + 14) (klenAt m off) = get m (off + 14) (klenAt m off) :=
    get_shift fun i hi => by have := h (14 + i) (by unfold sizeAt; omega); simpa [Nat.add_assoc] using this
  have e2 : get m' (off' + 14 + klenAt m off) (mlenAt m off) = get m (off + 14 + klenAt m off) (mlenAt m off) :=
    get_shift fun i hi => by have := h (14 + klenAt m off + i) (by unfold sizeAt; omega); simpa [Nat.add_assoc] using this
  rw [e1, e2]

theorem decode_congr {m m' : Mem} {off : Nat} (h : ∀ i, off ≤ i → i < off + sizeAt m off → m' i = m i) : sizeAt m' off = sizeAt m off ∧ decode m' off = decode m off :=
  decode_shift fun i hi => h _ (by omega) (by omega)

theorem write_klen {m : Mem} {off : Nat} {r : Rec} (hr : r.ok) :
    klenAt (put (put (put (put (put (put m off (le 8 r.gen)) (off + 8) (le 2 r.key.length)) (off + 13) [0]) (off + 14) r.key) (off + 11) (le 2 r.msg.length)) (off + 13) [r.cls % 256]) off
      = r.key.length := by
  unfold klenAt
  rw [get_put_other (.inl (by omega)), get_put_other (.inl (by omega)), get_put_other (.inl (by omega)), get_put_other (.inl (by omega)),
    get_put _ _ _ (le_length _ _).symm, unle_le, Nat.mod_eq_of_lt hr.2.1]

theorem write_spec {m : Mem} {off : Nat} {r : Rec} (hr : r.ok) : sizeAt (writeEntry m off r) off = r.size ∧ decode (writeEntry m off r) off = r := by
  unfold writeEntry
  simp only
  rw [write_klen hr]
  obtain ⟨m5, hm5⟩ : ∃ x, x = put (put (put (put (put m off (le 8 r.gen)) (off + 8) (le 2 r.key.length)) (off + 13) [0]) (off + 14) r.key) (off + 11) (le 2 r.msg.length) := ⟨_, rfl⟩
  rw [← hm5]
  have hk : klenAt (put (put m5 (off + 13) [r.cls % 256]) (off + 14 + r.key.length) r.msg) off = r.key.length := by
    have := write_klen (m := m) (off := off) hr
    rw [← hm5] at this
    rw [← this]
    exact congrArg unle (get_put_other (.inl (by omega)))
  have hm : mlenAt (put (put m5 (off + 13) [r.cls % 256]) (off + 14 + r.key.length) r.msg) off = r.msg.length := by
    unfold mlenAt
    rw [get_put_other (.inl (by omega)), get_put_other (.inl (by omega)), hm5, get_put _ _ _ (le_length _ _).symm, unle_le, Nat.mod_eq_of_lt hr.2.2.1]
  have hg : genAt (put (put m5 (off + 13) [r.cls % 256]) (off + 14 + r.key.length) r.msg) off = r.gen := by
    unfold genAt
    have hlt : r.gen < 256 ^ 8 := Nat.lt_of_lt_of_le hr.1 (by decide)
    rw [get_put_other (.inl (by omega)), get_put_other (.inl (by omega)), hm5, get_put_other (.inl (by omega)), get_put_other (.inl (by omega)), get_put_other (.inl (by omega)),
      get_put_other (.inl (by omega)), get_put _ _ _ (le_length _ _).symm, unle_le, Nat.mod_eq_of_lt hlt]
  refine ⟨by unfold sizeAt; rw [hk, hm]; rfl, ?_⟩
  unfold decode
  rw [hk, hm, hg]
  have e1 : get (put (put m5 (off + 13) [r.cls % 256]) (off + 14 + r.key.length) r.msg) (off + 14) r.key.length = r.key := by
    rw [get_put_other (.inl (by omega)), get_put_other (.inr (by simp)), hm5, get_put_other (.inr (by rw [le_length]; omega)), get_put _ _ _ rfl]
  have e2 : put (put m5 (off + 13) [r.cls % 256]) (off + 14 + r.key.length) r.msg (off + 13) % 4 = r.cls := by
    rw [put_other (.inl (by omega)), show off + 13 = off + 13 + 0 from rfl, put_at (by simp)]
    have := hr.2.2.2
    show r.cls % 256 % 4 = r.cls
    omega
  rw [e1, e2, get_put _ _ _ rfl]

theorem write_other {m : Mem} {off i : Nat} {r : Rec} (hr : r.ok) (h : i < off ∨ off + r.size ≤ i) : writeEntry m off r i = m i := by
  unfold Rec.size at h
  unfold writeEntry
  rw [write_klen hr]
  rw [put_other (by omega), put_other (by simp; omega), put_other (by rw [le_length]; omega), put_other (by omega), put_other (by simp; omega), put_other (by rw [le_length]; omega),
    put_other (by rw [le_length]; omega)]

/-- `m` has the encoded records from `off` to `e`. -/
def Enc (m : Mem) : Nat → List Rec → Nat → Prop
  | off, [], e => off = e
  | off, r :: l, e => decode m off = r ∧ sizeAt m off = r.size ∧ Enc m (off + r.size) l e

theorem Enc.le {m : Mem} {off e : Nat} {l : List Rec} (h : Enc m off l e) : off ≤ e := by
  induction l generalizing off with
  | nil => exact Nat.le_of_eq h
  | cons r l ih => have := ih h.2.2; omega

theorem Enc.end {m : Mem} {off e : Nat} {l : List Rec} (h : Enc m off l e) : e = off + (l.map Rec.size).sum := by
  induction l generalizing off with
  | nil => exact h.symm
  | cons r l ih => rw [ih h.2.2, List.map_cons, List.sum_cons]; omega

theorem Enc.congr {m m' : Mem} {off e : Nat} {l : List Rec} (h : Enc m off l e) (hm : ∀ i, off ≤ i → i < e → m' i = m i) : Enc m' off l e := by
  induction l generalizing off with
  | nil => exact h
  | cons r l ih =>
    obtain ⟨h1, h2, h3⟩ := h
    have hle := h3.le
    obtain ⟨e1, e2⟩ := decode_congr (m := m) (m' := m') (off := off) (fun i a b => hm i a (by omega))
    exact ⟨e2.trans h1, e1.trans h2, ih h3 fun i a b => hm i (by omega) b⟩

theorem Enc.snoc {m : Mem} {off e : Nat} {l : List Rec} {r : Rec} (h : Enc m off l e) (h1 : decode m e = r) (h2 : sizeAt m e = r.size) : Enc m off (l ++ [r]) (e + r.size) := by
  induction l generalizing off with
  | nil => cases h; exact ⟨h1, h2, rfl⟩
  | cons x l ih => exact ⟨h.1, h.2.1, ih h.2.2⟩

/-! ## Pages -/

/-- A page in use: header and records up to `off`. -/
structure Page (c : Cfg) (p : Nat) (m : Mem) (l : List Rec) (off : Nat) : Prop where
  enc : Enc m 34 l off
  magic : unle (get m 16 8) = c.magic
  next : nextExt m = c.ext (p / c.P + 1)
  num : unle (get m 32 2) = l.length
  le : off ≤ c.PS
  ok : ∀ r ∈ l, r.ok

structure Good (c : Cfg) : Prop where
  /-- the lengths in an entry have 16 bits -/
  ps : c.PS ≤ 65536
  P : 0 < c.P
  hlen : ∀ l, (c.H l).length = 16
  magic : c.magic < 2 ^ 64
  E : 0 < c.E
  ext : ∀ k, k < c.E → c.ext k < 2 ^ 64
  ext0 : ∀ k, k < c.E → c.ext k ≠ 0
  /-- extents are aligned and distinct -/
  aligned : ∀ k, k < c.E → c.ext k % (c.P * c.PS) = 0
  inj : ∀ j k, j < c.E → k < c.E → c.ext j = c.ext k → j = k

def Rec.fits (c : Cfg) (r : Rec) : Prop := r.gen < invalidGen ∧ r.cls < 4 ∧ 34 + r.size ≤ c.PS

theorem fits_ok {c : Cfg} {r : Rec} (g : Good c) (h : r.fits c) : r.ok := by
  obtain ⟨h1, h2, h3⟩ := h
  have := g.ps
  unfold Rec.size at h3
  exact ⟨h1, by omega, by omega, h2⟩

theorem page_new {c : Cfg} (g : Good c) (p : Nat) (m : Mem) (hps : 34 ≤ c.PS) (hp : p / c.P + 1 < c.E) : Page c p (newPage c p m) [] 34 := by
  unfold newPage
  refine ⟨rfl, ?_, ?_, ?_, hps, fun r h => (by cases h)⟩
  · rw [get_put_other (.inl (by omega)), get_put_other (.inl (by omega)), get_put _ _ _ (le_length _ _).symm, unle_le, Nat.mod_eq_of_lt (Nat.lt_of_lt_of_le g.magic (by decide))]
  · unfold nextExt
    rw [get_put_other (.inl (by omega)), get_put _ _ _ (le_length _ _).symm, unle_le, Nat.mod_eq_of_lt (Nat.lt_of_lt_of_le (g.ext _ hp) (by decide))]
  · rw [get_put _ _ _ (le_length _ _).symm, unle_le]; rfl

theorem count_le {m : Mem} {off e : Nat} {l : List Rec} (h : Enc m off l e) : off + 14 * l.length ≤ e := by
  induction l generalizing off with
  | nil => exact Nat.le_of_eq h
  | cons r l ih => have := ih h.2.2; unfold Rec.size at this; simp; omega

theorem page_store {c : Cfg} (g : Good c) {p off : Nat} {m : Mem} {l : List Rec} {r : Rec} (h : Page c p m l off) (hr : r.ok) (hf : off + r.size ≤ c.PS) :
    Page c p (store m off r) (l ++ [r]) (off + r.size) := by
  have h34 := h.enc.le
  have hw : ∀ i, i < off → writeEntry m off r i = m i := fun i hi => write_other hr (.inl hi)
  have hhdr : ∀ o n, o + n ≤ 34 → get (writeEntry m off r) o n = get m o n := fun o n ho => get_congr fun i _ _ => hw i (by omega)
  have hn : unle (get m 32 2) + 1 = l.length + 1 := by rw [h.num]
  have hcnt := count_le h.enc
  have hps := g.ps
  have hsz : 14 ≤ r.size := Nat.le_add_right 14 _
  unfold store
  simp only
  rw [hhdr 32 2 (by omega), hn]
  obtain ⟨e1, e2⟩ := write_spec (m := m) (off := off) hr
  have hn34 : ∀ i, 34 ≤ i → put (writeEntry m off r) 32 (le 2 (l.length + 1)) i = writeEntry m off r i := fun i hi => put_other (.inr (by rw [le_length]; omega))
  obtain ⟨e3, e4⟩ := decode_congr (m := writeEntry m off r) (m' := put (writeEntry m off r) 32 (le 2 (l.length + 1))) (off := off) (fun i hi _ => hn34 i (by omega))
  refine ⟨?_, ?_, ?_, ?_, hf, ?_⟩
  · exact (h.enc.congr fun i a b => (hn34 i a).trans (hw i b)).snoc (e4.trans e2) (e3.trans e1)
  · rw [get_put_other (.inl (by omega)), hhdr _ _ (by omega), h.magic]
  · unfold nextExt
    rw [get_put_other (.inl (by omega)), hhdr _ _ (by omega)]; exact h.next
  · rw [get_put _ _ _ (le_length _ _).symm, unle_le, List.length_append, Nat.mod_eq_of_lt]
    · rfl
    · show l.length + 1 < 65536
      omega
  · intro x hx
    rw [List.mem_append, List.mem_singleton] at hx
    rcases hx with hx | rfl
    · exact h.ok x hx
    · exact hr

/-- A page that has been completed. -/
structure Done (c : Cfg) (p : Nat) (m : Mem) (l : List Rec) (off : Nat) : Prop where
  page : Page c p m l off
  stop : c.PS - off < 14 ∨ genAt m off = invalidGen
  valid : valid c m = true

theorem page_finish {c : Cfg} (g : Good c) {p off : Nat} {m : Mem} {l : List Rec} (h : Page c p m l off) : Done c p (finish c m off) l off := by
  have h34 := h.enc.le
  have hle := h.le
  unfold finish
  simp only
  obtain ⟨m1, hm1⟩ : ∃ x, x = if 14 ≤ c.PS - off then put m off (le 8 invalidGen) else m := ⟨_, rfl⟩
  rw [← hm1]
  have h1 : ∀ i, i < off → m1 i = m i := fun i hi => by
    rw [hm1]; split
    · exact put_other (.inl hi)
    · rfl
  have h2 : ∀ i, 16 ≤ i → put m1 0 (c.H (get m1 16 (c.PS - 16))) i = m1 i := fun i hi => put_other (.inr (by rw [g.hlen]; omega))
  have h3 : ∀ o n, 16 ≤ o → o + n ≤ off → get (put m1 0 (c.H (get m1 16 (c.PS - 16)))) o n = get m o n := fun o n a b =>
    get_congr fun i c d => (h2 i (by omega)).trans (h1 i (by omega))
  have hmag : unle (get (put m1 0 (c.H (get m1 16 (c.PS - 16)))) 16 8) = c.magic := by rw [h3 _ _ (by omega) (by omega)]; exact h.magic
  refine ⟨⟨h.enc.congr fun i a b => (h2 i (by omega)).trans (h1 i b), hmag, ?_, ?_, hle, h.ok⟩, ?_, ?_⟩
  · unfold nextExt; rw [h3 _ _ (by omega) (by omega)]; exact h.next
  · rw [h3 _ _ (by omega) (by omega)]; exact h.num
  · by_cases hc : 14 ≤ c.PS - off
    · right
      unfold genAt
      rw [get_congr (m := m1) (fun i a b => h2 i (by omega)), hm1, if_pos hc, get_put _ _ _ (le_length _ _).symm, unle_le]
      decide
    · left; omega
  · unfold Log.valid
    rw [hmag, get_put _ _ _ (g.hlen _).symm, get_congr (m := m1) (m' := put m1 0 (c.H (get m1 16 (c.PS - 16)))) (off := 16) (n := c.PS - 16) (fun i a b => h2 i a)]
    simp

/-! ## Reading -/

/-- Copying the entries of a completed page. -/
theorem copyPage_done {c : Cfg} {cap num : Nat} {m : Mem} {l : List Rec} {off e : Nat} (h : Enc m off l e) (he : e ≤ c.PS) (ho : ∀ r ∈ l, r.ok)
    (hstop : c.PS - e < 14 ∨ genAt m e = invalidGen) (x : Copy) (hcap : x.cur + (e - off) ≤ cap) (hnum : x.entries.length + l.length ≤ num)
    (hx : ∀ o ∈ x.entries, o + sizeAt x.contents o ≤ x.cur) :
    ∃ y, copyPage c cap num m off x = some y ∧ y.cur = x.cur + (e - off) ∧ y.entries.length = x.entries.length + l.length ∧ (∀ o ∈ y.entries, o + sizeAt y.contents o ≤ y.cur) ∧
      y.entries.map (decode y.contents) = x.entries.map (decode x.contents) ++ l := by
  induction l generalizing off x with
  | nil =>
    cases h
    unfold copyPage
    rw [if_neg (by omega), dif_pos hstop]
    exact ⟨x, rfl, by omega, by simp, hx, by simp⟩
  | cons r l ih =>
    obtain ⟨h1, h2, h3⟩ := h
    have hle := h3.le
    have hok := ho r List.mem_cons_self
    have hsz : 14 ≤ r.size := Nat.le_add_right 14 _
    have hgen : genAt m off ≠ invalidGen := by
      have : genAt m off = r.gen := congrArg Rec.gen h1
      have := hok.1
      omega
    obtain ⟨ct, hct⟩ : ∃ z, z = put x.contents x.cur (get m off r.size) := ⟨_, rfl⟩
    obtain ⟨e1, e2⟩ := decode_shift (m := m) (m' := ct) (off := off) (off' := x.cur) (fun i hi => by rw [hct]; exact put_get_at (by omega))
    have hold : ∀ o ∈ x.entries, sizeAt ct o = sizeAt x.contents o ∧ decode ct o = decode x.contents o := fun o hin =>
      decode_congr fun i a b => by rw [hct]; exact put_other (.inl (by have := hx o hin; omega))
    rw [List.length_cons] at hnum
    obtain ⟨y, hy1, hy2, hy3, hy4, hy5⟩ := ih (off := off + r.size) h3 (fun x hx => ho x (List.mem_cons_of_mem _ hx)) ⟨ct, x.cur + sizeAt ct x.cur, x.entries ++ [x.cur]⟩
      (by show x.cur + sizeAt ct x.cur + _ ≤ _; rw [e1, h2]; omega) (by simp; omega) (by
        intro o hin
        show o + sizeAt ct o ≤ x.cur + sizeAt ct x.cur
        rw [List.mem_append, List.mem_singleton] at hin
        rcases hin with hin | rfl
        · have := hx o hin
          rw [(hold o hin).1]; omega
        · exact Nat.le_refl _)
    refine ⟨y, ?_, ?_, ?_, hy4, ?_⟩
    · rw [copyPage, if_neg (by omega), dif_neg (by simp only [not_or]; exact ⟨by omega, hgen⟩)]
      simp only
      rw [h2, if_neg (by omega), ← hct]
      exact hy1
    · rw [hy2]; show x.cur + sizeAt ct x.cur + _ = _; rw [e1, h2]; omega
    · rw [hy3]; simp; omega
    · rw [hy5, List.map_append]
      have : x.entries.map (decode ct) = x.entries.map (decode x.contents) := List.map_congr_left fun o hin => (hold o hin).2
      simp [this, e2, h1]

theorem copyPages_done {c : Cfg} {cap num : Nat} {dev : Nat → Mem} {l : List Nat} {R : Nat → List Rec} {O : Nat → Nat} {q : Nat → Nat} (h : ∀ a ∈ l, Done c (q a) (dev a) (R a) (O a)) (x : Copy)
    (hcap : x.cur + l.length * c.PS ≤ cap) (hnum : x.entries.length + (l.map fun a => (R a).length).sum ≤ num) (hx : ∀ o ∈ x.entries, o + sizeAt x.contents o ≤ x.cur) :
    ∃ y, copyPages c cap num dev l x = some y ∧ y.entries.map (decode y.contents) = x.entries.map (decode x.contents) ++ l.flatMap R := by
  induction l generalizing x with
  | nil => exact ⟨x, rfl, by simp⟩
  | cons a l ih =>
    have hd := h a List.mem_cons_self
    have hoff := hd.page.enc.le
    have hle := hd.page.le
    rw [List.length_cons, Nat.add_mul, Nat.one_mul] at hcap
    rw [List.map_cons, List.sum_cons] at hnum
    obtain ⟨y, hy1, hy2, hy3, hy4, hy5⟩ := copyPage_done (cap := cap) (num := num) hd.page.enc hle hd.page.ok hd.stop x (by omega) (by omega) hx
    obtain ⟨z, hz1, hz2⟩ := ih (fun b hb => h b (List.mem_cons_of_mem _ hb)) y (by omega) (by omega) hy4
    refine ⟨z, by rw [copyPages, hy1]; exact hz1, ?_⟩
    rw [hz2, hy5, List.flatMap_cons, List.append_assoc]

theorem scan_all {c : Cfg} {dev : Nat → Mem} {k j : Nat} (hj : j ≤ c.P) (hP : 0 < c.P) (hv : ∀ i, i < c.P → c.P - j ≤ i → valid c (dev (c.addr (k * c.P + i))) = true) :
    scan c dev (c.ext k) j = ((List.range' (k * c.P + (c.P - j)) j).map c.addr, true) := by
  have ha : ∀ i, i < c.P → c.addr (k * c.P + i) = c.ext k + i * c.PS := fun i hi => by
    unfold Cfg.addr
    rw [Nat.mul_comm k, Nat.mul_add_div hP, Nat.div_eq_of_lt hi, Nat.mul_add_mod, Nat.mod_eq_of_lt hi, Nat.add_zero]
  induction j with
  | zero => rfl
  | succ j ih =>
    have h1 := hv (c.P - (j + 1)) (by omega) (Nat.le_refl _)
    rw [ha _ (by omega)] at h1
    simp only [scan]
    rw [if_pos h1, ih (by omega) (fun i a b => hv i a (by omega)), List.range'_succ, List.map_cons, ha _ (by omega)]
    simp only [show k * c.P + (c.P - (j + 1)) + 1 = k * c.P + (c.P - j) by omega]

theorem scan_stop {c : Cfg} {dev : Nat → Mem} {k r j : Nat} (hj : j ≤ c.P) (hP : 0 < c.P) (hr : r < c.P) (hrj : c.P - j ≤ r) (hv : ∀ i, i < r → c.P - j ≤ i → valid c (dev (c.addr (k * c.P + i))) = true)
    (hn : valid c (dev (c.addr (k * c.P + r))) = false) : scan c dev (c.ext k) j = ((List.range' (k * c.P + (c.P - j)) (r - (c.P - j))).map c.addr, false) := by
  have ha : ∀ i, i < c.P → c.addr (k * c.P + i) = c.ext k + i * c.PS := fun i hi => by
    unfold Cfg.addr
    rw [Nat.mul_comm k, Nat.mul_add_div hP, Nat.div_eq_of_lt hi, Nat.mul_add_mod, Nat.mod_eq_of_lt hi, Nat.add_zero]
  induction j with
  | zero => omega
  | succ j ih =>
    simp only [scan]
    by_cases e : r = c.P - (j + 1)
    · rw [e, ha _ (by omega)] at hn
      rw [if_neg (by rw [hn]; simp), e, Nat.sub_self]
      rfl
    · have h1 := hv (c.P - (j + 1)) (by omega) (Nat.le_refl _)
      rw [ha _ (by omega)] at h1
      rw [if_pos h1, ih (by omega) (by omega) (fun i a b => hv i a (by omega)), show r - (c.P - (j + 1)) = (r - (c.P - j)) + 1 by omega, List.range'_succ, List.map_cons, ha _ (by omega)]
      simp only [show k * c.P + (c.P - (j + 1)) + 1 = k * c.P + (c.P - j) by omega]

/-- The walk finds the pages up to the first that is not valid. -/
theorem walk_eq {c : Cfg} (g : Good c) {live : Nat → Bool} {dev : Nat → Mem} {n : Nat} (hv : ∀ p, p < n → valid c (dev (c.addr p)) = true) (hx : ∀ p, p < n → nextExt (dev (c.addr p)) = c.ext (p / c.P + 1))
    (hn : valid c (dev (c.addr n)) = false) (hl : ∀ k, k * c.P ≤ n → live (c.ext k) = true) (hE : n / c.P < c.E) {fuel : Nat} {k : Nat} (hk : k * c.P ≤ n) (hf : n / c.P < k + fuel) :
    walk c live dev fuel (c.ext k) = some ((List.range' (k * c.P) (n - k * c.P)).map c.addr) := by
  have hP := g.P
  induction fuel generalizing k with
  | zero =>
    exfalso
    have := (Nat.le_div_iff_mul_le hP).2 hk
    omega
  | succ fuel ih =>
    unfold walk
    rw [if_neg (by rw [hl k hk]; simp [g.ext0 k (Nat.lt_of_le_of_lt ((Nat.le_div_iff_mul_le hP).2 hk) hE)])]
    simp only
    by_cases hc : (k + 1) * c.P ≤ n
    · rw [Nat.add_mul, Nat.one_mul] at hc
      rw [scan_all (Nat.le_refl _) hP (fun i a _ => hv _ (by omega))]
      simp only [if_true]
      have hlast : c.ext k + (c.P - 1) * c.PS = c.addr (k * c.P + (c.P - 1)) := by
        unfold Cfg.addr
        rw [Nat.mul_comm k, Nat.mul_add_div hP, Nat.div_eq_of_lt (by omega), Nat.mul_add_mod, Nat.mod_eq_of_lt (by omega), Nat.add_zero]
      rw [hlast, hx _ (by omega), Nat.mul_comm k, Nat.mul_add_div hP, Nat.div_eq_of_lt (by omega : c.P - 1 < c.P), Nat.add_zero, Nat.mul_comm c.P k]
      rw [ih (k := k + 1) (by rw [Nat.add_mul, Nat.one_mul]; exact hc) (by omega)]
      rw [Option.map_some, ← List.map_append, Nat.sub_self, Nat.add_zero, Nat.add_mul, Nat.one_mul, List.range'_append_1, show c.P + (n - (k * c.P + c.P)) = n - k * c.P by omega]
    · rw [Nat.add_mul, Nat.one_mul] at hc
      have e : n = k * c.P + (n - k * c.P) := by omega
      rw [scan_stop (r := n - k * c.P) (Nat.le_refl _) hP (by omega) (by omega) (fun i a _ => hv _ (by omega)) (by rw [← e]; exact hn)]
      simp

/-! ## All executions -/

/-- Writes by the threads in `T`, of records that fit a page, starting with arbitrary device contents. -/
inductive Reachable (c : Cfg) (T : Nat → Prop) : State → Prop
  | init (dev : Nat → Mem) : Reachable c T ⟨dev, 0, fun _ => none, fun _ => .idle, [], fun _ => false⟩
  | write {s s' : State} (t : Nat) (r : Rec) : Reachable c T s → T t → r.fits c → step c s t (.write r) = .ok s' → Reachable c T s'
  | go {s s' : State} (t : Nat) : Reachable c T s → step c s t .go = .ok s' → Reachable c T s'

/-- The records written to a page. -/
def recsOf (s : State) (p : Nat) : List Rec := (s.hist.filter (·.1 = p)).map (·.2.2)

def PC.isNew : PC → Bool
  | .new _ => true
  | _ => false

structure Inv (c : Cfg) (s : State) : Prop where
  cur : ∀ t p off, s.thr t = some (p, off) → p < s.n ∧ (s.full p = false → Page c p (s.dev (c.addr p)) (recsOf s p) off)
  own : ∀ t u p off off', s.thr t = some (p, off) → s.thr u = some (p, off') → t = u
  busy : ∀ t p off, s.thr t = some (p, off) → s.full p = (s.pc t).isNew
  full : ∀ p, s.full p = true → p < s.n ∧ ∃ off, Done c p (s.dev (c.addr p)) (recsOf s p) off
  opn : ∀ p, p < s.n → s.full p = false → ∃ t off, s.thr t = some (p, off)
  hist : ∀ e ∈ s.hist, e.1 < s.n
  new : ∀ t r, s.pc t = .new r → r.fits c
  bound : ∀ p, p < s.n → p / c.P + 1 < c.E
  put : ∀ t r, s.pc t = .put r → r.fits c ∧ ∃ p off, s.thr t = some (p, off) ∧ off + r.size ≤ c.PS

theorem addr_inj {c : Cfg} (g : Good c) (hps : 0 < c.PS) {p q : Nat} (hp : p / c.P < c.E) (hq : q / c.P < c.E) (h : c.addr p = c.addr q) : p = q := by
  have hP := g.P
  have hd : ∀ x, x / c.P < c.E → c.addr x / (c.P * c.PS) * (c.P * c.PS) = c.ext (x / c.P) ∧ c.addr x % (c.P * c.PS) = x % c.P * c.PS := fun x hx => by
    have h1 : x % c.P * c.PS < c.P * c.PS := Nat.mul_lt_mul_of_pos_right (Nat.mod_lt _ hP) hps
    have h2 := g.aligned (x / c.P) hx
    have h3 := Nat.div_add_mod (c.ext (x / c.P)) (c.P * c.PS)
    have hm : c.addr x % (c.P * c.PS) = x % c.P * c.PS := by
      unfold Cfg.addr
      rw [Nat.add_mod, h2, Nat.zero_add, Nat.mod_mod, Nat.mod_eq_of_lt h1]
    have h4 := Nat.div_add_mod (c.addr x) (c.P * c.PS)
    refine ⟨?_, hm⟩
    rw [hm] at h4
    unfold Cfg.addr at h4 ⊢
    rw [Nat.mul_comm]
    omega
  obtain ⟨a1, a2⟩ := hd p hp
  obtain ⟨b1, b2⟩ := hd q hq
  rw [h] at a1 a2
  have e1 := g.inj _ _ hp hq (a1.symm.trans b1)
  have e2 := Nat.eq_of_mul_eq_mul_right hps (a2.symm.trans b2)
  rw [← Nat.div_add_mod p c.P, ← Nat.div_add_mod q c.P, e1, e2]

theorem upd_same {α : Type} (f : Nat → α) (k : Nat) (v : α) : upd f k v k = v := if_pos rfl
theorem upd_other {α : Type} (f : Nat → α) {k j : Nat} (v : α) (h : j ≠ k) : upd f k v j = f j := if_neg h

theorem inv_init (c : Cfg) (dev : Nat → Mem) : Inv c ⟨dev, 0, fun _ => none, fun _ => .idle, [], fun _ => false⟩ := by
  constructor <;> intros <;> simp_all

theorem inv_write {c : Cfg} (g : Good c) {s s' : State} {t : Nat} {r : Rec} (h : Inv c s) (hf : r.fits c) (hs : step c s t (.write r) = .ok s') : Inv c s' := by
  have hps : 0 < c.PS := by have := hf.2.2; omega
  obtain ⟨h1, h2, h3, h4, h5, h6, h7, h9, h8⟩ := h
  have hlt : ∀ p, p < s.n → p / c.P < c.E := fun p hp => by have := h9 p hp; omega
  have haddr : ∀ p q, p < s.n → q < s.n → p ≠ q → c.addr p ≠ c.addr q := fun p q hp hq e hh => e (addr_inj g hps (hlt p hp) (hlt q hq) hh)
  unfold step at hs
  split at hs
  case h_4 => cases hs
  case h_2 e => cases e
  case h_3 e => cases e
  rename_i r' hp e
  cases e
  split at hs
  · rename_i ht
    cases hs
    refine ⟨h1, h2, ?_, h4, h5, h6, ?_, h9, ?_⟩ <;> try dsimp only
    · intro u p off hu
      by_cases e : u = t
      · subst e; rw [ht] at hu; cases hu
      · rw [upd_other _ _ e]; exact h3 u p off hu
    · intro u r' hu
      by_cases e : u = t
      · subst e; rw [upd_same] at hu; cases hu; exact hf
      · rw [upd_other _ _ e] at hu; exact h7 u r' hu
    · intro u r' hu
      by_cases e : u = t
      · subst e; rw [upd_same] at hu; cases hu
      · rw [upd_other _ _ e] at hu; exact h8 u r' hu
  · rename_i p off ht
    have hnf : s.full p = false := by rw [h3 t p off ht, hp]; rfl
    have hpg := (h1 t p off ht).2 hnf
    split at hs
    · cases hs
      have hd := page_finish g hpg
      refine ⟨?_, h2, ?_, ?_, ?_, h6, ?_, h9, ?_⟩ <;> try dsimp only
      · intro u q o hu
        refine ⟨(h1 u q o hu).1, fun hfull => ?_⟩
        by_cases e : q = p
        · subst e; rw [upd_same] at hfull; cases hfull
        · rw [upd_other _ _ e] at hfull
          have := (h1 u q o hu).2 hfull
          show Page c q (upd s.dev _ _ _) _ _
          rw [upd_other _ _ (haddr q p (h1 u q o hu).1 (h1 t p off ht).1 e)]
          exact this
      · intro u q o hu
        by_cases e : u = t
        · subst e; rw [ht] at hu; cases hu; rw [upd_same, upd_same]; rfl
        · have hq : q ≠ p := fun e' => by subst e'; exact e (h2 u t q o off hu ht)
          rw [upd_other _ _ hq, upd_other _ _ e]
          exact h3 u q o hu
      · intro q hq
        by_cases e : q = p
        · subst e
          refine ⟨(h1 t q off ht).1, off, ?_⟩
          show Done c q (upd s.dev _ _ _) _ _
          rw [upd_same]
          exact hd
        · have hq' : s.full q = true := by rw [← upd_other s.full true e]; exact hq
          obtain ⟨a, o, b⟩ := h4 q hq'
          refine ⟨a, o, ?_⟩
          show Done c q (upd s.dev _ _ _) _ _
          rw [upd_other _ _ (haddr q p a (h1 t p off ht).1 e)]
          exact b
      · intro q hq hfq
        have e : q ≠ p := fun e => by subst e; rw [upd_same] at hfq; cases hfq
        exact h5 q hq (by rw [← upd_other s.full true e]; exact hfq)
      · intro u r' hu
        by_cases e : u = t
        · subst e; rw [upd_same] at hu; cases hu; exact hf
        · rw [upd_other _ _ e] at hu; exact h7 u r' hu
      · intro u r' hu
        by_cases e : u = t
        · subst e; rw [upd_same] at hu; cases hu
        · rw [upd_other _ _ e] at hu; exact h8 u r' hu
    · rename_i hsz
      cases hs
      have hle := hpg.le
      refine ⟨h1, h2, ?_, h4, h5, h6, ?_, h9, ?_⟩ <;> try dsimp only
      · intro u q o hu
        by_cases e : u = t
        · subst e; rw [ht] at hu; cases hu; rw [upd_same]; exact hnf
        · rw [upd_other _ _ e]; exact h3 u q o hu
      · intro u r' hu
        by_cases e : u = t
        · subst e; rw [upd_same] at hu; cases hu
        · rw [upd_other _ _ e] at hu; exact h7 u r' hu
      · intro u r' hu
        by_cases e : u = t
        · subst e; rw [upd_same] at hu; cases hu; exact ⟨hf, p, off, ht, by omega⟩
        · rw [upd_other _ _ e] at hu; exact h8 u r' hu

theorem recsOf_append (s s' : State) (p t : Nat) (r : Rec) (h : s'.hist = s.hist ++ [(p, t, r)]) (q : Nat) : recsOf s' q = if q = p then recsOf s q ++ [r] else recsOf s q := by
  unfold recsOf
  rw [h, List.filter_append, List.map_append]
  split
  · rename_i e; subst e; simp
  · rename_i e
    rw [List.filter_cons_of_neg (by simpa using fun h => e h.symm)]
    simp

theorem inv_go {c : Cfg} (g : Good c) {s s' : State} {t : Nat} (h : Inv c s) (hs : step c s t .go = .ok s') : Inv c s' := by
  obtain ⟨h1, h2, h3, h4, h5, h6, h7, h9, h8⟩ := h
  unfold step at hs
  split at hs
  · rename_i e; cases e
  · -- a new page
    rename_i r hp _
    split at hs
    · cases hs
    rename_i hE
    have hbound : ∀ p, p < s.n + 1 → p / c.P + 1 < c.E := fun p hp => by
      by_cases e : p = s.n
      · rw [e]; omega
      · exact h9 p (by omega)
    have hlt : ∀ p, p < s.n + 1 → p / c.P < c.E := fun p hp => by
      by_cases e : p = s.n
      · rw [e]; omega
      · have := h9 p (by omega); omega
    have hf := h7 t r hp
    have hps : 0 < c.PS := by have := hf.2.2; omega
    have haddr : ∀ q, q < s.n → c.addr q ≠ c.addr s.n := fun q hq hh => by have := addr_inj g hps (hlt q (by omega)) (hlt s.n (by omega)) hh; omega
    have hnil : recsOf s s.n = [] := by
      unfold recsOf
      rw [List.map_eq_nil_iff, List.filter_eq_nil_iff]
      intro e he
      have := h6 e he
      simp; omega
    have hnf : s.full s.n = false := by
      cases hh : s.full s.n
      · rfl
      · have := (h4 _ hh).1; omega
    cases hs
    refine ⟨?_, ?_, ?_, ?_, ?_, ?_, ?_, hbound, ?_⟩ <;> try dsimp only
    · intro u q o hu
      show q < s.n + 1 ∧ (s.full q = false → Page c q (upd s.dev _ _ _) (recsOf s q) o)
      by_cases e : u = t
      · subst e
        rw [upd_same] at hu; cases hu
        rw [upd_same, hnil]
        exact ⟨Nat.lt_succ_self _, fun _ => page_new g _ _ (by have := hf.2.2; omega) (by omega)⟩
      · rw [upd_other _ _ e] at hu
        have := h1 u q o hu
        refine ⟨by omega, fun hfq => ?_⟩
        rw [upd_other _ _ (haddr q this.1)]
        exact this.2 hfq
    · intro u v q o o' hu hv
      by_cases e : u = t <;> by_cases e' : v = t
      · rw [e, e']
      · subst e
        rw [upd_same] at hu; rw [upd_other _ _ e'] at hv; cases hu
        have := (h1 v _ _ hv).1; omega
      · subst e'
        rw [upd_same] at hv; rw [upd_other _ _ e] at hu; cases hv
        have := (h1 u _ _ hu).1; omega
      · rw [upd_other _ _ e] at hu; rw [upd_other _ _ e'] at hv
        exact h2 u v q o o' hu hv
    · intro u q o hu
      by_cases e : u = t
      · subst e; rw [upd_same] at hu; cases hu; rw [upd_same]; exact hnf
      · rw [upd_other _ _ e] at hu ⊢
        exact h3 u q o hu
    · intro q hq
      obtain ⟨a, o, b⟩ := h4 q hq
      refine ⟨Nat.lt_succ_of_lt a, o, ?_⟩
      show Done c q (upd s.dev _ _ _) _ _
      rw [upd_other _ _ (haddr q a)]
      exact b
    · intro q hq hfq
      have hq : q < s.n + 1 := hq
      by_cases e : q = s.n
      · exact ⟨t, 34, by show upd s.thr t _ t = _; rw [upd_same, e]⟩
      · obtain ⟨u, o, hu⟩ := h5 q (by omega) hfq
        by_cases e' : u = t
        · -- the old page of this thread is complete
          exfalso
          subst e'
          have := h3 u q o hu
          rw [hfq, hp] at this
          cases this
        · exact ⟨u, o, by show upd s.thr t _ u = _; rw [upd_other _ _ e']; exact hu⟩
    · intro e he; exact Nat.lt_succ_of_lt (h6 e he)
    · intro u r' hu
      by_cases e : u = t
      · subst e; rw [upd_same] at hu; cases hu
      · rw [upd_other _ _ e] at hu; exact h7 u r' hu
    · intro u r' hu
      by_cases e : u = t
      · subst e; rw [upd_same] at hu; cases hu
        exact ⟨hf, s.n, 34, upd_same _ _ _, hf.2.2⟩
      · rw [upd_other _ _ e] at hu
        obtain ⟨a, p, off, b, d⟩ := h8 u r' hu
        exact ⟨a, p, off, by show upd s.thr t _ u = _; rw [upd_other _ _ e]; exact b, d⟩
  · -- store
    rename_i r hp _
    obtain ⟨hf, p', off', ht', hsz⟩ := h8 t r hp
    have hps : 0 < c.PS := by have := hf.2.2; omega
    have hlt : ∀ p, p < s.n → p / c.P < c.E := fun p hp => by have := h9 p hp; omega
    have haddr : ∀ q, q < s.n → q ≠ p' → c.addr q ≠ c.addr p' := fun q hq e hh => e (addr_inj g hps (hlt q hq) (hlt p' (h1 t p' off' ht').1) hh)
    rw [ht'] at hs
    simp only at hs
    rw [if_neg (by omega)] at hs
    cases hs
    have hnf : s.full p' = false := by rw [h3 t p' off' ht', hp]; rfl
    have hpg := (h1 t p' off' ht').2 hnf
    have hnew := page_store g hpg (fits_ok g hf) hsz
    have hrec := fun q => recsOf_append s { s with dev := upd s.dev (c.addr p') (store (s.dev (c.addr p')) off' r), thr := upd s.thr t (some (p', off' + r.size)), pc := upd s.pc t .idle, hist := s.hist ++ [(p', t, r)] } p' t r rfl q
    refine ⟨?_, ?_, ?_, ?_, ?_, ?_, ?_, h9, ?_⟩ <;> try dsimp only
    · intro u q o hu
      rw [hrec q]
      show q < s.n ∧ (s.full q = false → Page c q (upd s.dev _ _ _) _ o)
      by_cases e : u = t
      · subst e
        rw [upd_same] at hu; cases hu
        rw [upd_same, if_pos rfl]
        exact ⟨(h1 u _ _ ht').1, fun _ => hnew⟩
      · rw [upd_other _ _ e] at hu
        have hq : q ≠ p' := fun e' => by subst e'; exact e (h2 u t q o off' hu ht')
        rw [upd_other _ _ (haddr q (h1 u q o hu).1 hq), if_neg hq]
        exact h1 u q o hu
    · intro u v q o o' hu hv
      have hh : ∀ w o, upd s.thr t (some (p', off' + r.size)) w = some (q, o) → ∃ o, s.thr w = some (q, o) := fun w o hw => by
        by_cases e : w = t
        · subst e; rw [upd_same] at hw; cases hw; exact ⟨_, ht'⟩
        · rw [upd_other _ _ e] at hw; exact ⟨_, hw⟩
      obtain ⟨_, a⟩ := hh u o hu
      obtain ⟨_, b⟩ := hh v o' hv
      exact h2 u v q _ _ a b
    · intro u q o hu
      by_cases e : u = t
      · subst e; rw [upd_same] at hu; cases hu; rw [upd_same]; exact hnf
      · rw [upd_other _ _ e] at hu ⊢
        exact h3 u q o hu
    · intro q hq
      have hqp : q ≠ p' := fun e => by subst e; have : s.full q = true := hq; rw [hnf] at this; cases this
      obtain ⟨a, o, b⟩ := h4 q hq
      refine ⟨a, o, ?_⟩
      rw [hrec q, if_neg hqp]
      show Done c q (upd s.dev _ _ _) _ _
      rw [upd_other _ _ (haddr q a hqp)]
      exact b
    · intro q hq hfq
      obtain ⟨u, o, hu⟩ := h5 q hq hfq
      by_cases e : u = t
      · subst e; rw [ht'] at hu; cases hu; exact ⟨u, _, upd_same _ _ _⟩
      · exact ⟨u, o, by show upd s.thr t _ u = _; rw [upd_other _ _ e]; exact hu⟩
    · intro e he
      have he : e ∈ s.hist ++ [(p', t, r)] := he
      rw [List.mem_append, List.mem_singleton] at he
      rcases he with he | rfl
      · exact h6 e he
      · exact (h1 t _ _ ht').1
    · intro u r' hu
      by_cases e : u = t
      · subst e; rw [upd_same] at hu; cases hu
      · rw [upd_other _ _ e] at hu; exact h7 u r' hu
    · intro u r' hu
      by_cases e : u = t
      · subst e; rw [upd_same] at hu; cases hu
      · rw [upd_other _ _ e] at hu
        obtain ⟨a, p, off, b, d⟩ := h8 u r' hu
        exact ⟨a, p, off, by show upd s.thr t _ u = _; rw [upd_other _ _ e]; exact b, d⟩
  · cases hs

theorem reach_inv {c : Cfg} (g : Good c) {T : Nat → Prop} {s : State} (h : Reachable c T s) : Inv c s := by
  induction h with
  | init dev => exact inv_init c dev
  | write t r _ _ hf hs ih => exact inv_write g ih hf hs
  | go t _ hs ih => exact inv_go g ih hs

/-! ## One writer -/

structure Single (t : Nat) (s : State) : Prop where
  only : ∀ u, u ≠ t → s.thr u = none ∧ s.pc u = .idle
  none : s.thr t = none → s.n = 0
  last : ∀ p off, s.thr t = some (p, off) → p + 1 = s.n
  sorted : s.hist.Pairwise (fun a b => a.1 ≤ b.1)

theorem single_step {c : Cfg} {t u : Nat} {a : Act} {s s' : State} (hi : Inv c s) (h : Single t s) (hu : ∀ r, a = .write r → u = t) (hs : step c s u a = .ok s') : Single t s' := by
  obtain ⟨h1, h2, h3, h4⟩ := h
  have e : u = t := by
    apply Decidable.byContradiction
    intro e
    obtain ⟨-, b⟩ := h1 u e
    unfold step at hs
    rw [b] at hs
    cases a with
    | write r => exact e (hu r rfl)
    | go => cases hs
  subst e
  unfold step at hs
  split at hs
  · split at hs
    · cases hs
      exact ⟨fun v hv => ⟨(h1 v hv).1, by show upd _ _ _ _ = _; rw [upd_other _ _ hv]; exact (h1 v hv).2⟩, h2, h3, h4⟩
    · split at hs
      · cases hs
        exact ⟨fun v hv => ⟨(h1 v hv).1, by show upd _ _ _ _ = _; rw [upd_other _ _ hv]; exact (h1 v hv).2⟩, h2, h3, h4⟩
      · cases hs
        exact ⟨fun v hv => ⟨(h1 v hv).1, by show upd _ _ _ _ = _; rw [upd_other _ _ hv]; exact (h1 v hv).2⟩, h2, h3, h4⟩
  · split at hs
    · cases hs
    · cases hs
      refine ⟨fun v hv => ?_, fun hn => ?_, fun p off hp => ?_, h4⟩
      · refine ⟨?_, ?_⟩
        · show upd _ _ _ _ = _; rw [upd_other _ _ hv]; exact (h1 v hv).1
        · show upd _ _ _ _ = _; rw [upd_other _ _ hv]; exact (h1 v hv).2
      · have hn : upd s.thr u (some (s.n, 34)) u = none := hn
        rw [upd_same] at hn; cases hn
      · have hp : upd s.thr u (some (s.n, 34)) u = some (p, off) := hp
        rw [upd_same] at hp; cases hp; rfl
  · split at hs
    · cases hs
    · split at hs
      · cases hs
      · rename_i p off ht _
        cases hs
        refine ⟨fun v hv => ?_, fun hn => ?_, fun q o hp => ?_, ?_⟩
        · refine ⟨?_, ?_⟩
          · show upd _ _ _ _ = _; rw [upd_other _ _ hv]; exact (h1 v hv).1
          · show upd _ _ _ _ = _; rw [upd_other _ _ hv]; exact (h1 v hv).2
        · rename_i r _ _ _
          have hn : upd s.thr u (some (p, off + r.size)) u = none := hn
          rw [upd_same] at hn; cases hn
        · rename_i r _ _ _
          have hp : upd s.thr u (some (p, off + r.size)) u = some (q, o) := hp
          rw [upd_same] at hp; cases hp
          exact h3 _ _ ht
        · show (s.hist ++ [_]).Pairwise _
          rw [List.pairwise_append]
          refine ⟨h4, by simp, fun x hx y hy => ?_⟩
          rw [List.mem_singleton] at hy
          subst hy
          have := hi.hist x hx
          have := h3 _ _ ht
          show x.1 ≤ p
          omega
  · cases hs

theorem reach_single {c : Cfg} (g : Good c) {t : Nat} {s : State} (h : Reachable c (· = t) s) : Single t s := by
  induction h with
  | init dev => exact ⟨fun _ _ => ⟨rfl, rfl⟩, fun _ => rfl, fun _ _ h => (by cases h), List.Pairwise.nil⟩
  | write u r h hu hf hs ih => exact single_step (reach_inv g h) ih (fun _ _ => hu) hs
  | go u h hs ih => exact single_step (reach_inv g h) ih (fun _ h => (by cases h)) hs

/-- Completed pages are the first ones. -/
theorem single_full {c : Cfg} (g : Good c) {t : Nat} {s : State} (h : Reachable c (· = t) s) : ∃ k, k ≤ s.n ∧ ∀ p, s.full p = true ↔ p < k := by
  have hi := reach_inv g h
  obtain ⟨h1, h2, h3, -⟩ := reach_single g h
  cases ht : s.thr t with
  | none =>
    have := h2 ht
    exact ⟨0, Nat.zero_le _, fun p => ⟨fun hp => by have := (hi.full p hp).1; omega, fun h => (by cases h)⟩⟩
  | some x =>
    obtain ⟨p, off⟩ := x
    have hp := h3 p off ht
    have hb := hi.busy t p off ht
    have hprev : ∀ q, q < p → s.full q = true := fun q hq => by
      cases hf : s.full q
      · obtain ⟨u, o, hu⟩ := hi.opn q (by omega) hf
        by_cases e : u = t
        · subst e; rw [ht] at hu; cases hu; omega
        · rw [(h1 u e).1] at hu; cases hu
      · rfl
    cases hf : s.full p
    · refine ⟨p, by omega, fun q => ⟨fun hq => ?_, hprev q⟩⟩
      have h5 := (hi.full q hq).1
      have : q ≠ p := fun e => by rw [e, hf] at hq; cases hq
      omega
    · refine ⟨s.n, Nat.le_refl _, fun q => ⟨fun hq => (hi.full q hq).1, fun hq => ?_⟩⟩
      by_cases e : q = p
      · rw [e]; exact hf
      · exact hprev q (by omega)

theorem flat_sorted {l : List (Nat × Nat × Rec)} (h : l.Pairwise (fun a b => a.1 ≤ b.1)) (k : Nat) :
    (List.range k).flatMap (fun p => (l.filter (·.1 = p)).map (·.2.2)) = (l.filter (·.1 < k)).map (·.2.2) := by
  induction k with
  | zero => rw [List.filter_eq_nil_iff.2 (by simp)]; rfl
  | succ k ih =>
    rw [List.range_succ, List.flatMap_append, ih, List.flatMap_singleton, ← List.map_append]
    congr 1
    clear ih
    induction l with
    | nil => rfl
    | cons x l ih =>
      rw [List.pairwise_cons] at h
      have ih := ih h.2
      by_cases e1 : x.1 < k
      · rw [List.filter_cons_of_pos (by simpa using e1), List.filter_cons_of_neg (by simp; omega), List.filter_cons_of_pos (by simp; omega), List.cons_append, ih]
      · have hnil : l.filter (·.1 < k) = [] := List.filter_eq_nil_iff.2 fun y hy => by have := h.1 y hy; simp; omega
        have hnil' : (x :: l).filter (·.1 < k) = [] := by rw [List.filter_cons_of_neg (by simpa using e1), hnil]
        rw [hnil'] 
        rw [hnil] at ih
        by_cases e2 : x.1 = k
        · rw [List.filter_cons_of_pos (by simpa using e2), List.filter_cons_of_pos (by simp; omega), List.nil_append]
          rw [List.nil_append] at ih
          rw [ih]
        · rw [List.filter_cons_of_neg (by simpa using e2), List.filter_cons_of_neg (by simp; omega)]
          exact ih

end Splinter.Log
