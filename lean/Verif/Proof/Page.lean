import Verif.Model.Page
/-!
Memory lemmas and the laws of the two entry formats.
-/
namespace Splinter.Page

theorem wr_in {m : Mem} {a i : Nat} {bs : Bytes} (h1 : a ≤ i) (h2 : i < a + bs.length) :
    wr m a bs i = bs.getD (i - a) 0 := if_pos ⟨h1, h2⟩

theorem wr_out {m : Mem} {a i : Nat} {bs : Bytes} (h : i < a ∨ a + bs.length ≤ i) : wr m a bs i = m i :=
  if_neg (by omega)

theorem le_length (n v : Nat) : (le n v).length = n := by
  induction n generalizing v with
  | zero => rfl
  | succ n ih => simp [le, ih]

theorem ofLe_le (n v : Nat) : ofLe (le n v) = v % 256 ^ n := by
  induction n generalizing v with
  | zero => simp [le, ofLe, Nat.mod_one]
  | succ n ih =>
    simp only [le, ofLe, ih]
    have : (UInt8.ofNat (v % 256)).toNat = v % 256 := by simp
    rw [this, Nat.pow_succ, Nat.mul_comm (256 ^ n) 256, Nat.mod_mul]

theorem rd_length (m : Mem) (a n : Nat) : (rd m a n).length = n := by simp [rd]

theorem rd_congr {m m' : Mem} {a n : Nat} (h : ∀ i, a ≤ i → i < a + n → m' i = m i) : rd m' a n = rd m a n := by
  unfold rd
  apply List.map_congr_left
  intro i hi
  rw [List.mem_range] at hi
  exact h _ (by omega) (by omega)

theorem rdN_congr {m m' : Mem} {a n : Nat} (h : ∀ i, a ≤ i → i < a + n → m' i = m i) : rdN m' a n = rdN m a n := by
  unfold rdN; rw [rd_congr h]

theorem rd_wr (m : Mem) (a : Nat) (bs : Bytes) : rd (wr m a bs) a bs.length = bs := by
  apply List.ext_getElem
  · simp [rd]
  · intro i h1 h2
    simp only [rd, List.getElem_map, List.getElem_range]
    rw [wr_in (by omega) (by omega)]
    have : a + i - a = i := by omega
    rw [this, List.getD_eq_getElem?_getD, List.getElem?_eq_getElem h2]; rfl

theorem rd_wr_out {m : Mem} {a b n : Nat} {bs : Bytes} (h : b + n ≤ a ∨ a + bs.length ≤ b) :
    rd (wr m a bs) b n = rd m b n :=
  rd_congr (fun i h1 h2 => wr_out (by omega))

theorem rdN_wrN (m : Mem) (a n v : Nat) : rdN (wrN m a n v) a n = v % 256 ^ n := by
  unfold rdN wrN
  have h := rd_wr m a (le n v)
  rw [le_length] at h
  rw [h, ofLe_le]

theorem rdN_wrN2 {m : Mem} {a v : Nat} (h : v < 65536) : rdN (wrN m a 2 v) a 2 = v := by
  rw [rdN_wrN]; exact Nat.mod_eq_of_lt h

theorem wrN_out {m : Mem} {a n v i : Nat} (h : i < a ∨ a + n ≤ i) : wrN m a n v i = m i :=
  wr_out (by rw [le_length]; exact h)

theorem rdN_wrN_out {m : Mem} {a n v b l : Nat} (h : b + l ≤ a ∨ a + n ≤ b) :
    rdN (wrN m a n v) b l = rdN m b l :=
  rdN_congr (fun i h1 h2 => wrN_out (by omega))

theorem rdN_wr_out {m : Mem} {a b l : Nat} {bs : Bytes} (h : b + l ≤ a ∨ a + bs.length ≤ b) :
    rdN (wr m a bs) b l = rdN m b l :=
  rdN_congr (fun i h1 h2 => wr_out (by omega))

theorem rd_wrN_out {m : Mem} {a n v b l : Nat} (h : b + l ≤ a ∨ a + n ≤ b) :
    rd (wrN m a n v) b l = rd m b l :=
  rd_congr (fun i h1 h2 => wrN_out (by omega))

theorem ofLe_lt (bs : Bytes) : ofLe bs < 256 ^ bs.length := by
  induction bs with
  | nil => simp [ofLe]
  | cons b bs ih =>
    have := b.toNat_lt
    simp only [ofLe, List.length_cons, Nat.pow_succ]
    omega

theorem rdN_lt (m : Mem) (a n : Nat) : rdN m a n < 256 ^ n := by
  have := ofLe_lt (rd m a n)
  rwa [rd_length] at this

theorem rd2_lt (m : Mem) (a : Nat) : rdN m a 2 < 65536 := rdN_lt m a 2

/-! ### Laws of a format -/

/-- Storing an entry writes only its own bytes and makes it readable; reading looks
only at the bytes of the entry. -/
structure Laws {E : Type} (f : Format E) (Valid : E → Prop) : Prop where
  cap_pos : ∀ e, 0 < f.cap e
  size_pos : ∀ m a, 0 < f.size m a
  fill_out : ∀ m a e i, Valid e → (i < a ∨ a + f.cap e ≤ i) → f.fill m a e i = m i
  fill_read : ∀ m a e, Valid e → f.read (f.fill m a e) a = e
  fill_size : ∀ m a e, Valid e → f.size (f.fill m a e) a = f.cap e
  size_congr : ∀ m m' a, (∀ i, a ≤ i → i < a + f.size m a → m' i = m i) → f.size m' a = f.size m a
  read_congr : ∀ m m' a, (∀ i, a ≤ i → i < a + f.size m a → m' i = m i) → f.read m' a = f.read m a
  cap_read : ∀ m a, f.cap (f.read m a) = f.size m a
  valid_read : ∀ m a, Valid (f.read m a)

/-- Tuples whose lengths and type fit the fields. -/
def TupleOk (t : Tuple) : Prop := t.key.length < 65536 ∧ t.data.length < 65536 ∧ t.type < 4

theorem tuple_bytes {m : Mem} {a : Nat} {t : Tuple} (h : TupleOk t) :
    rdN (copyTupleToOndiskTuple m a t) a 2 = t.key.length ∧
    rdN (copyTupleToOndiskTuple m a t) (a + 3) 2 = t.data.length ∧
    rdN (copyTupleToOndiskTuple m a t) (a + 5) 1 = t.type ∧
    rd (copyTupleToOndiskTuple m a t) (a + 6) t.key.length = t.key ∧
    rd (copyTupleToOndiskTuple m a t) (a + 6 + t.key.length) t.data.length = t.data ∧
    ∀ i, i < a ∨ a + (6 + t.key.length + t.data.length) ≤ i → copyTupleToOndiskTuple m a t i = m i := by
  obtain ⟨h1, h2, h3⟩ := h
  have hk : rdN (wrN (wrN (wr (wrN (wrN m a 2 t.key.length) (a + 5) 1 0) (a + 6) t.key) (a + 3) 2 t.data.length)
      (a + 5) 1 t.type) a 2 = t.key.length := by
    rw [rdN_wrN_out (by omega), rdN_wrN_out (by omega), rdN_wr_out (by omega), rdN_wrN_out (by omega), rdN_wrN2 h1]
  unfold copyTupleToOndiskTuple copyMessageToOndiskTuple
  simp only [hk]
  refine ⟨?_, ?_, ?_, ?_, ?_, ?_⟩
  · rw [rdN_wr_out (by omega), hk]
  · rw [rdN_wr_out (by omega), rdN_wrN_out (by omega), rdN_wrN2 h2]
  · rw [rdN_wr_out (by omega), rdN_wrN]; omega
  · rw [rd_wr_out (by omega), rd_wrN_out (by omega), rd_wrN_out (by omega), rd_wr]
  · rw [rd_wr]
  · intro i hi
    rw [wr_out (by omega), wrN_out (by omega), wrN_out (by omega), wr_out (by omega), wrN_out (by omega),
      wrN_out (by omega)]

theorem leaf_laws : Laws leafFmt TupleOk where
  cap_pos e := by show 0 < 6 + _ + _; omega
  size_pos m a := by show 0 < 6 + _; omega
  fill_out m a e i h hi := (tuple_bytes h).2.2.2.2.2 i hi
  fill_read m a e h := by
    obtain ⟨h1, h2, h3, h4, h5, _⟩ := tuple_bytes (m := m) (a := a) h
    show ondiskTuple _ a = e
    unfold ondiskTuple ondiskTupleKey ondiskTupleMessageClass ondiskTupleMessageData leafFmt
    simp only [h1, h2, h3, h4, h5]
    rw [Nat.mod_eq_of_lt h.2.2]
  fill_size m a e h := by
    obtain ⟨h1, h2, _⟩ := tuple_bytes (m := m) (a := a) h
    show 6 + (rdN _ a 2 + rdN _ (a + 3) 2) = 6 + _ + _
    unfold leafFmt
    simp only [h1, h2]; omega
  size_congr m m' a h := by
    have e1 : rdN m' a 2 = rdN m a 2 := rdN_congr (fun i h1 h2 => h i h1 (by show _ < a + (6 + _); omega))
    have e2 : rdN m' (a + 3) 2 = rdN m (a + 3) 2 :=
      rdN_congr (fun i h1 h2 => h i (by omega) (by show _ < a + (6 + _); omega))
    show 6 + (rdN m' a 2 + rdN m' (a + 3) 2) = 6 + (rdN m a 2 + rdN m (a + 3) 2)
    rw [e1, e2]
  read_congr m m' a h := by
    have e1 : rdN m' a 2 = rdN m a 2 := rdN_congr (fun i h1 h2 => h i h1 (by show _ < a + (6 + _); omega))
    have e2 : rdN m' (a + 3) 2 = rdN m (a + 3) 2 :=
      rdN_congr (fun i h1 h2 => h i (by omega) (by show _ < a + (6 + _); omega))
    have e3 : rdN m' (a + 5) 1 = rdN m (a + 5) 1 :=
      rdN_congr (fun i h1 h2 => h i (by omega) (by show _ < a + (6 + _); omega))
    show ondiskTuple m' a = ondiskTuple m a
    unfold ondiskTuple ondiskTupleKey ondiskTupleMessageClass ondiskTupleMessageData
    rw [e1, e2, e3]
    rw [rd_congr (m := m) (m' := m') (a := a + 6) (n := rdN m a 2)
        (fun i h1 h2 => h i (by omega) (by show _ < a + (6 + (rdN m a 2 + rdN m (a + 3) 2)); omega)),
      rd_congr (m := m) (m' := m') (a := a + 6 + rdN m a 2) (n := rdN m (a + 3) 2)
        (fun i h1 h2 => h i (by omega) (by show _ < a + (6 + (rdN m a 2 + rdN m (a + 3) 2)); omega))]
  cap_read m a := by
    show 6 + (rd _ _ _).length + (rd _ _ _).length = 6 + (rdN m a 2 + rdN m (a + 3) 2)
    rw [rd_length, rd_length]; omega
  valid_read m a := by
    refine ⟨?_, ?_, ?_⟩
    · show (rd _ _ _).length < _; rw [rd_length]; exact rd2_lt _ _
    · show (rd _ _ _).length < _; rw [rd_length]; exact rd2_lt _ _
    · show _ % 4 < 4; omega

/-- Keys an on-disk key can hold. -/
def KeyOk : Key → Prop
  | .user b => b.length < 65534
  | _ => True

theorem key_bytes {m : Mem} {a : Nat} {k : Key} (h : KeyOk k) :
    ondiskKeyToKey (copyKeyToOndiskKey m a k) a = k ∧
    sizeofOndiskKeyData (copyKeyToOndiskKey m a k) a = keyLength k ∧
    ∀ i, i < a ∨ a + (3 + keyLength k) ≤ i → copyKeyToOndiskKey m a k i = m i := by
  cases k with
  | user b =>
    have h : b.length < 65534 := h
    have e : rdN (copyKeyToOndiskKey m a (.user b)) a 2 = b.length := by
      show rdN (wr _ (a + 3) b) a 2 = _
      rw [rdN_wr_out (by omega), rdN_wrN2 (by omega)]
    refine ⟨?_, ?_, ?_⟩
    · unfold ondiskKeyToKey
      rw [e, if_neg (by unfold odkNegInf; omega), if_neg (by unfold odkPosInf; omega)]
      show Key.user (rd (wr _ (a + 3) b) (a + 3) b.length) = _
      rw [rd_wr]
    · unfold sizeofOndiskKeyData
      rw [e, if_neg (by unfold odkNegInf odkPosInf; omega)]; rfl
    · intro i hi
      have : keyLength (.user b) = b.length := rfl
      rw [this] at hi
      show wr (wrN (wrN m (a + 2) 1 0) a 2 b.length) (a + 3) b i = m i
      rw [wr_out (by omega), wrN_out (by omega), wrN_out (by omega)]
  | negInf =>
    have e : rdN (copyKeyToOndiskKey m a .negInf) a 2 = odkNegInf := rdN_wrN2 (by decide)
    refine ⟨?_, ?_, ?_⟩
    · unfold ondiskKeyToKey; rw [e, if_pos rfl]
    · unfold sizeofOndiskKeyData; rw [e, if_pos (.inl rfl)]; rfl
    · intro i hi
      have : keyLength .negInf = 0 := rfl
      rw [this] at hi
      show wrN (wrN m (a + 2) 1 0) a 2 _ i = m i
      rw [wrN_out (by omega), wrN_out (by omega)]
  | posInf =>
    have e : rdN (copyKeyToOndiskKey m a .posInf) a 2 = odkPosInf := rdN_wrN2 (by decide)
    refine ⟨?_, ?_, ?_⟩
    · unfold ondiskKeyToKey; rw [e, if_neg (by decide), if_pos rfl]
    · unfold sizeofOndiskKeyData; rw [e, if_pos (.inr rfl)]; rfl
    · intro i hi
      have : keyLength .posInf = 0 := rfl
      rw [this] at hi
      show wrN (wrN m (a + 2) 1 0) a 2 _ i = m i
      rw [wrN_out (by omega), wrN_out (by omega)]

theorem key_congr {m m' : Mem} {a : Nat} (h : ∀ i, a ≤ i → i < a + (3 + sizeofOndiskKeyData m a) → m' i = m i) :
    sizeofOndiskKeyData m' a = sizeofOndiskKeyData m a ∧ ondiskKeyToKey m' a = ondiskKeyToKey m a := by
  have e1 : rdN m' a 2 = rdN m a 2 := rdN_congr (fun i h1 h2 => h i h1 (by omega))
  constructor
  · unfold sizeofOndiskKeyData; rw [e1]
  · unfold ondiskKeyToKey
    rw [e1]
    split
    · rfl
    · rename_i h1
      split
      · rfl
      · rename_i h2
        rw [rd_congr (m := m) (m' := m')]
        intro i q1 q2
        refine h i (by omega) ?_
        unfold sizeofOndiskKeyData
        rw [if_neg (by rintro (h | h); exact h1 h; exact h2 h)]; omega

theorem key_read (m : Mem) (a : Nat) : keyLength (ondiskKeyToKey m a) = sizeofOndiskKeyData m a ∧
    KeyOk (ondiskKeyToKey m a) := by
  have := rd2_lt m a
  unfold ondiskKeyToKey sizeofOndiskKeyData
  split
  · rename_i h; rw [if_pos (.inl h)]; exact ⟨rfl, trivial⟩
  · rename_i h1
    split
    · rename_i h; rw [if_pos (.inr h)]; exact ⟨rfl, trivial⟩
    · rename_i h2
      rw [if_neg (by rintro (h | h); exact h1 h; exact h2 h)]
      refine ⟨rd_length _ _ _, ?_⟩
      show (rd _ _ _).length < _
      rw [rd_length]
      unfold odkNegInf at h1; unfold odkPosInf at h2; omega

/-- Index entries whose fields fit. -/
def IndexOk (e : Index) : Prop :=
  KeyOk e.pivot ∧ e.addr < 2 ^ 64 ∧ e.kvs < 2 ^ 32 ∧ e.keyBytes < 2 ^ 32 ∧ e.msgBytes < 2 ^ 32

theorem index_laws : Laws indexFmt IndexOk where
  cap_pos e := by show 0 < 23 + _; omega
  size_pos m a := by show 0 < 23 + _; omega
  fill_out m a e i h hi := by
    have hi : i < a ∨ a + (23 + keyLength e.pivot) ≤ i := hi
    show wrN (wrN (wrN (wrN (copyKeyToOndiskKey m (a + 20) e.pivot) a 8 e.addr) (a + 8) 4 e.kvs) (a + 12) 4 e.keyBytes)
      (a + 16) 4 e.msgBytes i = m i
    rw [wrN_out (by omega), wrN_out (by omega), wrN_out (by omega), wrN_out (by omega)]
    exact (key_bytes h.1).2.2 i (by omega)
  fill_read m a e h := by
    obtain ⟨h0, h1, h2, h3, h4⟩ := h
    show readIndex (wrN (wrN (wrN (wrN (copyKeyToOndiskKey m (a + 20) e.pivot) a 8 e.addr) (a + 8) 4 e.kvs) (a + 12) 4
      e.keyBytes) (a + 16) 4 e.msgBytes) a = e
    unfold readIndex
    rw [(key_congr (m := copyKeyToOndiskKey m (a + 20) e.pivot) (fun i q1 q2 => by
      rw [wrN_out (by omega), wrN_out (by omega), wrN_out (by omega), wrN_out (by omega)])).2, (key_bytes h0).1]
    generalize copyKeyToOndiskKey m (a + 20) e.pivot = m0
    have e1 : rdN (wrN (wrN (wrN (wrN m0 a 8 e.addr) (a + 8) 4 e.kvs) (a + 12) 4 e.keyBytes) (a + 16) 4 e.msgBytes) a 8
        = e.addr := by
      rw [rdN_wrN_out (by omega), rdN_wrN_out (by omega), rdN_wrN_out (by omega), rdN_wrN, Nat.mod_eq_of_lt (by omega)]
    have e2 : rdN (wrN (wrN (wrN (wrN m0 a 8 e.addr) (a + 8) 4 e.kvs) (a + 12) 4 e.keyBytes) (a + 16) 4 e.msgBytes) (a + 8) 4
        = e.kvs := by
      rw [rdN_wrN_out (by omega), rdN_wrN_out (by omega), rdN_wrN, Nat.mod_eq_of_lt (by omega)]
    have e3 : rdN (wrN (wrN (wrN (wrN m0 a 8 e.addr) (a + 8) 4 e.kvs) (a + 12) 4 e.keyBytes) (a + 16) 4 e.msgBytes) (a + 12) 4
        = e.keyBytes := by
      rw [rdN_wrN_out (by omega), rdN_wrN, Nat.mod_eq_of_lt (by omega)]
    have e4 : rdN (wrN (wrN (wrN (wrN m0 a 8 e.addr) (a + 8) 4 e.kvs) (a + 12) 4 e.keyBytes) (a + 16) 4 e.msgBytes) (a + 16) 4
        = e.msgBytes := by
      rw [rdN_wrN, Nat.mod_eq_of_lt (by omega)]
    rw [e1, e2, e3, e4]
  fill_size m a e h := by
    show 23 + sizeofOndiskKeyData (wrN (wrN (wrN (wrN (copyKeyToOndiskKey m (a + 20) e.pivot) a 8 e.addr) (a + 8) 4 e.kvs)
      (a + 12) 4 e.keyBytes) (a + 16) 4 e.msgBytes) (a + 20) = 23 + keyLength e.pivot
    rw [(key_congr (m := copyKeyToOndiskKey m (a + 20) e.pivot) (fun i q1 q2 => by
      rw [wrN_out (by omega), wrN_out (by omega), wrN_out (by omega), wrN_out (by omega)])).1, (key_bytes h.1).2.1]
  size_congr m m' a h := by
    have h : ∀ i, a ≤ i → i < a + (23 + sizeofOndiskKeyData m (a + 20)) → m' i = m i := h
    show 23 + _ = 23 + _
    rw [(key_congr (m := m) (m' := m') (fun i q1 q2 => h i (by omega) (by omega))).1]
  read_congr m m' a h := by
    have h : ∀ i, a ≤ i → i < a + (23 + sizeofOndiskKeyData m (a + 20)) → m' i = m i := h
    show readIndex m' a = readIndex m a
    unfold readIndex
    rw [(key_congr (m := m) (m' := m') (fun i q1 q2 => h i (by omega) (by omega))).2,
      rdN_congr (fun i q1 q2 => h i (by omega) (by omega)),
      rdN_congr (m := m) (a := a + 8) (fun i q1 q2 => h i (by omega) (by omega)),
      rdN_congr (m := m) (a := a + 12) (fun i q1 q2 => h i (by omega) (by omega)),
      rdN_congr (m := m) (a := a + 16) (fun i q1 q2 => h i (by omega) (by omega))]
  cap_read m a := by
    show 23 + keyLength (ondiskKeyToKey _ _) = 23 + _
    rw [(key_read m (a + 20)).1]
  valid_read m a :=
    ⟨(key_read m (a + 20)).2, rdN_lt m a 8, rdN_lt m (a + 8) 4, rdN_lt m (a + 12) 4, rdN_lt m (a + 16) 4⟩

end Splinter.Page
