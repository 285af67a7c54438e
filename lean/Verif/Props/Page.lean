import Verif.Proof.PageOps
import Verif.Model.Message
/-!
# C09 and C10: on-disk records and slotted pages

The specification of a page is the list of its entries; setting, appending and
inserting an entry are `List.set`, `++` and `List.insertIdx`.
-/
namespace Splinter.Page

/-! ### C09 -/

/-- Type numbers of user messages (include/splinterdb/data.h:29-36). -/
def typeCode : MType → Nat
  | .insert => 1
  | .update => 2
  | .delete => 3

/-- C09, keys: infinite keys and user keys up to 65533 bytes are read back unchanged,
and nothing outside the record is written. -/
theorem ondisk_key_roundtrip (m : Mem) (a : Nat) {k : Key} (h : KeyOk k) :
    ondiskKeyToKey (copyKeyToOndiskKey m a k) a = k ∧
    sizeofOndiskKeyData (copyKeyToOndiskKey m a k) a = keyLength k ∧
    ∀ i, i < a ∨ a + 3 + keyLength k ≤ i → copyKeyToOndiskKey m a k i = m i := by
  obtain ⟨h1, h2, h3⟩ := key_bytes (m := m) (a := a) h
  exact ⟨h1, h2, fun i hi => h3 i (by omega)⟩

/-- C09: within the limit no user key is read back as an infinite key or as another key. -/
theorem ondisk_key_injective {m m' : Mem} {a a' : Nat} {k k' : Key} (h : KeyOk k) (h' : KeyOk k')
    (e : ondiskKeyToKey (copyKeyToOndiskKey m a k) a = ondiskKeyToKey (copyKeyToOndiskKey m' a' k') a') : k = k' := by
  rw [(key_bytes h).1, (key_bytes h').1] at e
  exact e

/-- The limit is exact: one byte more is read back as the largest key. -/
theorem ondisk_key_limit (m : Mem) (a : Nat) {b : Bytes} (h : b.length = 65534) :
    ondiskKeyToKey (copyKeyToOndiskKey m a (.user b)) a = .posInf := by
  have e : rdN (copyKeyToOndiskKey m a (.user b)) a 2 = 65534 := by
    show rdN (wr _ (a + 3) b) a 2 = _
    rw [rdN_wr_out (by omega), rdN_wrN, h]
  unfold ondiskKeyToKey
  rw [e]; rfl

/-- Two bytes more: the smallest key. -/
theorem ondisk_key_limit' (m : Mem) (a : Nat) {b : Bytes} (h : b.length = 65535) :
    ondiskKeyToKey (copyKeyToOndiskKey m a (.user b)) a = .negInf := by
  have e : rdN (copyKeyToOndiskKey m a (.user b)) a 2 = 65535 := by
    show rdN (wr _ (a + 3) b) a 2 = _
    rw [rdN_wr_out (by omega), rdN_wrN, h]
  unfold ondiskKeyToKey
  rw [e]; rfl

/-- C09, tuples: key bytes, message type and message bytes are read back unchanged. -/
theorem ondisk_tuple_roundtrip (m : Mem) (a : Nat) (k d : Bytes) (t : MType) (hk : k.length < 65536)
    (hd : d.length < 65536) :
    let m' := copyTupleToOndiskTuple m a ⟨k, typeCode t, d⟩
    ondiskTupleKey m' a = k ∧ ondiskTupleMessageClass m' a = typeCode t ∧ ondiskTupleMessageData m' a = d ∧
      sizeofOndiskTupleData m' a = k.length + d.length ∧
      ∀ i, i < a ∨ a + 6 + k.length + d.length ≤ i → m' i = m i := by
  have ok : TupleOk ⟨k, typeCode t, d⟩ := ⟨hk, hd, by cases t <;> simp [typeCode]⟩
  have h := leaf_laws.fill_read m a _ ok
  obtain ⟨h1, h2, h3, h4, h5, h6⟩ := tuple_bytes (m := m) (a := a) ok
  have e := Tuple.mk.inj h
  refine ⟨e.1, e.2.1, e.2.2, ?_, fun i hi => h6 i (by simp only; omega)⟩
  unfold sizeofOndiskTupleData
  rw [h1, h2]

/-- Instances: a two-byte key at address 5, a tuple with an empty message. -/
example : ondiskKeyToKey (copyKeyToOndiskKey (fun _ => 7) 5 (.user [255, 0])) 5 = .user [255, 0] :=
  (ondisk_key_roundtrip _ _ (by show _ < _; decide)).1
example : ondiskTuple (copyTupleToOndiskTuple (fun _ => 7) 5 ⟨[1, 2, 3], typeCode .delete, []⟩) 5 =
    ⟨[1, 2, 3], 3, []⟩ := leaf_laws.fill_read _ _ _ ⟨by decide, by decide, by decide⟩
example : ∃ b : Bytes, b.length = 65534 := ⟨List.replicate 65534 0, List.length_replicate⟩
example : ∃ b : Bytes, b.length = 65535 := ⟨List.replicate 65535 0, List.length_replicate⟩
/-- Type numbers are told apart. -/
theorem typeCode_injective {s t : MType} (h : typeCode s = typeCode t) : s = t := by
  cases s <;> cases t <;> first | rfl | cases h

/-! ### C10 -/

variable {E : Type} {f : Format E} {Valid : E → Prop}

theorem entries_length (f : Format E) (m : Mem) : (entries f m).length = numEntries m := by simp [entries]

theorem entries_getElem {m : Mem} {i : Nat} (h : i < (entries f m).length) : (entries f m)[i] = entry f m i := by
  simp [entries]

theorem entries_set {m m' : Mem} {k : Nat} {e : E} (hn : numEntries m' = numEntries m)
    (hk : k < numEntries m → entry f m' k = e)
    (ho : ∀ i, i < numEntries m → i ≠ k → entry f m' i = entry f m i) : entries f m' = (entries f m).set k e := by
  apply List.ext_getElem
  · rw [List.length_set, entries_length, entries_length, hn]
  · intro i h1 h2
    rw [entries_length, hn] at h1
    rw [entries_getElem, List.getElem_set]
    split
    · rename_i h; subst h; exact hk h1
    · rename_i h; rw [entries_getElem]; exact ho i h1 (fun e => h e.symm)

theorem entries_snoc {m m' : Mem} {e : E} (hn : numEntries m' = numEntries m + 1)
    (hk : entry f m' (numEntries m) = e)
    (ho : ∀ i, i < numEntries m → entry f m' i = entry f m i) : entries f m' = entries f m ++ [e] := by
  apply List.ext_getElem
  · rw [List.length_append, entries_length, entries_length, hn]; rfl
  · intro i h1 h2
    rw [entries_length, hn] at h1
    rw [entries_getElem, List.getElem_append]
    split
    · rename_i h; rw [entries_getElem]; rw [entries_length] at h; exact ho i h
    · rename_i h
      rw [entries_length] at h
      have : i = numEntries m := by omega
      subst this
      simp [hk]

/-- What setting entry `k` of a list means; `k` may be one past the end. -/
def setAt (l : List E) (k : Nat) (e : E) : List E := if k < l.length then l.set k e else l ++ [e]

/-- Outcome of setting or inserting an entry: no assertion fails; if it does not fit the page
is unchanged, otherwise the page is well-formed, its entries are `l`, and no byte of the
fixed header (before `next_entry`) or outside the page changed. -/
def Outcome (f : Format E) (ps : Nat) (m : Mem) (l : List E) (r : Option (Mem × Bool)) : Prop :=
  ∃ m', (r = some (m', false) ∧ m' = m) ∨ (r = some (m', true) ∧ WF f ps m' ∧ entries f m' = l ∧
    (∀ i, i < 33 ∨ ps ≤ i → m' i = m i))

theorem newNum_of_le {m : Mem} {k : Nat} (hk : k ≤ numEntries m) :
    newNum m k = if k < numEntries m then numEntries m else numEntries m + 1 := by
  unfold newNum; split
  · rfl
  · have : k = numEntries m := by omega
    rw [this]

theorem place_outcome (L : Laws f Valid) {ps : Nat} {m m0 : Mem} {k : Nat} {e : E} (w : WFx f ps m k)
    (hk : k ≤ numEntries m) (hv : Valid e) (hn0 : numEntries m0 = numEntries m)
    (h0 : ∀ i, i < numEntries m → i ≠ k → entry f m i = entry f m0 i)
    (hf : ∀ i, i < 33 ∨ ps ≤ i → m i = m0 i)
    (hfit : tableEnd (newNum m k) + f.cap e ≤ nextEntry m) :
    ∃ m', place f m k e = some (m', true) ∧ WF f ps m' ∧ entries f m' = setAt (entries f m0) k e ∧
      nextEntry m' = nextEntry m - f.cap e ∧ (∀ i, i < 33 ∨ ps ≤ i → m' i = m0 i) := by
  obtain ⟨m', h1, h2, h3, h4, h5, h6, h7⟩ := place_spec L w hk hv hfit
  refine ⟨m', h1, h2, ?_, h4, fun i hi => (h7 i hi).trans (hf i hi)⟩
  rw [newNum_of_le hk] at h3
  unfold setAt
  rw [entries_length, hn0]
  split
  · rename_i h
    rw [if_pos h] at h3
    exact entries_set (h3.trans hn0.symm) (fun _ => h5) (fun i hi hne => (h6 i (by omega) hne).trans (h0 i (by omega) hne))
  · rename_i h
    rw [if_neg h] at h3
    have hkn : k = numEntries m := by omega
    subst hkn
    refine entries_snoc (by rw [h3, hn0]) (by rw [hn0]; exact h5) (fun i hi => ?_)
    rw [hn0] at hi
    exact (h6 i hi (by omega)).trans (h0 i hi (by omega))

/-- C10 for `btree_set_leaf_entry`: for every well-formed page, position and tuple, either the
entry does not fit and nothing changes, or exactly entry `k` becomes the tuple.
`btree_can_set_leaf_entry` predicts which. -/
theorem setLeaf_spec {ps : Nat} {m : Mem} {k : Nat} {e : Tuple} (w : WF leafFmt ps m) (hk : k ≤ numEntries m)
    (hv : TupleOk e) :
    Outcome leafFmt ps m (setAt (entries leafFmt m) k e) (setLeaf m k e) ∧
    (canSetLeaf m k e = true ↔ ∃ m', setLeaf m k e = some (m', true)) := by
  have hnot : ¬ numEntries m < k := by omega
  by_cases h1 : k < numEntries m ∧ leafFmt.cap e ≤ leafFmt.size m (offset m k)
  · obtain ⟨f1, f2, f3, f4, f5⟩ := fill_spec leaf_laws w h1.1 hv h1.2
    have e1 : setLeaf m k e = some (leafFmt.fill m (offset m k) e, true) := by
      unfold setLeaf; exact if_pos h1
    refine ⟨⟨_, .inr ⟨e1, f1, ?_, f5⟩⟩, ?_⟩
    · unfold setAt
      rw [entries_length, if_pos h1.1]
      exact entries_set f2 (fun _ => f3) f4
    · rw [e1]
      constructor
      · exact fun _ => ⟨_, rfl⟩
      · intro _; unfold canSetLeaf; rw [if_neg hnot, if_pos h1]
  · have e1 : setLeaf m k e = place leafFmt m k e := by
      unfold setLeaf; rw [if_neg h1, if_pos hk]
    have e2 : canSetLeaf m k e = if nextEntry m < tableEnd (newNum m k) + leafFmt.cap e then false else true := by
      unfold canSetLeaf newNum; rw [if_neg hnot, if_neg h1]
    rw [e1, e2]
    by_cases h2 : nextEntry m < tableEnd (newNum m k) + leafFmt.cap e
    · rw [place_full h2, if_pos h2]
      exact ⟨⟨m, .inl ⟨rfl, rfl⟩⟩, by simp⟩
    · obtain ⟨m', p1, p2, p3, p4, p5⟩ := place_outcome leaf_laws (m0 := m) (w.toX k) hk hv rfl (fun _ _ _ => rfl)
        (fun _ _ => rfl) (by omega)
      rw [if_neg h2]
      exact ⟨⟨m', .inr ⟨p1, p2, p3, p5⟩⟩, fun _ => ⟨m', p1⟩, fun _ => rfl⟩

/-- C10 for `btree_set_index_entry`. -/
theorem setIndex_spec {ps : Nat} {m : Mem} {k : Nat} {e : Index} (w : WF indexFmt ps m) (hk : k ≤ numEntries m)
    (hv : IndexOk e) : Outcome indexFmt ps m (setAt (entries indexFmt m) k e) (setIndex m k e) := by
  have base : Outcome indexFmt ps m (setAt (entries indexFmt m) k e) (place indexFmt m k e) := by
    by_cases h2 : nextEntry m < tableEnd (newNum m k) + indexFmt.cap e
    · rw [place_full h2]; exact ⟨m, .inl ⟨rfl, rfl⟩⟩
    · obtain ⟨m', p1, p2, p3, p4, p5⟩ := place_outcome index_laws (m0 := m) (w.toX k) hk hv rfl (fun _ _ _ => rfl)
        (fun _ _ => rfl) (by omega)
      exact ⟨m', .inr ⟨p1, p2, p3, p5⟩⟩
  unfold setIndex
  rw [if_pos hk]
  by_cases hlt : k < numEntries m
  · rw [if_pos hlt]
    simp only
    split
    · rename_i h
      -- the old entry is the physically first one: its space is given back
      have hr := w.room
      have hh := w.high k hlt
      have hs := index_laws.size_pos m (offset m k)
      have hsm := w.small
      unfold tableEnd at hr
      obtain ⟨m1, hm1⟩ : ∃ m1, m1 = wrN m 33 2 (nextEntry m + indexFmt.size m (offset m k)) := ⟨_, rfl⟩
      rw [← hm1]
      have hout : ∀ i, i < 33 ∨ 35 ≤ i → m1 i = m i := fun i hi => by rw [hm1]; exact wrN_out (by omega)
      have hnum : numEntries m1 = numEntries m := rdN_congr (fun i _ _ => hout i (by omega))
      have hnext : nextEntry m1 = nextEntry m + indexFmt.size m (offset m k) := by
        have hb : nextEntry m + indexFmt.size m (offset m k) < 65536 := by rw [h.1]; omega
        rw [hm1]
        exact rdN_wrN2 hb
      have hoff : ∀ i, offset m1 i = offset m i := fun i => rdN_congr (fun x _ _ => hout x (by omega))
      have hkeep : ∀ i, i < numEntries m → ∀ x, offset m i ≤ x → m1 x = m x := by
        intro i hi x hx
        have := w.low i hi
        exact hout x (by omega)
      have hsz : ∀ i, i < numEntries m → indexFmt.size m1 (offset m i) = indexFmt.size m (offset m i) :=
        fun i hi => index_laws.size_congr m m1 _ (fun x h1 _ => hkeep i hi x h1)
      have hrd : ∀ i, i < numEntries m → entry indexFmt m1 i = entry indexFmt m i := by
        intro i hi
        unfold entry
        rw [hoff]
        exact index_laws.read_congr m m1 _ (fun x h1 _ => hkeep i hi x h1)
      have wx : WFx indexFmt ps m1 k := by
        refine ⟨hsm, ?_, ?_, ?_, ?_, ?_⟩
        · rw [hnum, hnext]; unfold tableEnd; omega
        · rw [hnext, h.1]; exact hh
        · intro i hi hne
          rw [hnum] at hi
          rw [hnext, hoff]
          have h1 := w.low i hi
          have h2 := w.apart i k hi hlt hne
          have h3 := index_laws.size_pos m (offset m i)
          omega
        · intro i hi hne
          rw [hnum] at hi
          rw [hoff, hsz i hi]; exact w.high i hi
        · intro i j hi hj _ _ hij
          rw [hnum] at hi hj
          rw [hoff, hoff, hsz i hi, hsz j hj]; exact w.apart i j hi hj hij
      have hfit : tableEnd (newNum m1 k) + indexFmt.cap e ≤ nextEntry m1 := by
        rw [newNum_of_le (by rw [hnum]; exact hk), hnum, if_pos hlt, hnext]; exact h.2
      obtain ⟨m', p1, p2, p3, p4, p5⟩ := place_outcome index_laws (m0 := m) wx (by rw [hnum]; exact hk) hv hnum.symm
        (fun i hi _ => hrd i (by rw [hnum] at hi; exact hi))
        (fun i hi => by
          have := w.next
          exact hout i (by omega)) hfit
      exact ⟨m', .inr ⟨p1, p2, p3, p5⟩⟩
    · split
      · rename_i h
        obtain ⟨f1, f2, f3, f4, f5⟩ := fill_spec index_laws w hlt hv h
        refine ⟨_, .inr ⟨rfl, f1, ?_, f5⟩⟩
        unfold setAt
        rw [entries_length, if_pos hlt]
        exact entries_set f2 (fun _ => f3) f4
      · exact base
  · rw [if_neg hlt]; exact base

theorem rotate_entries (L : Laws f Valid) {ps : Nat} {m m' : Mem} {k : Nat} {e : E} (w : WF f ps m')
    (he : entries f m' = entries f m ++ [e]) (hk : k ≤ numEntries m) :
    WF f ps (rotate m' k) ∧ nextEntry (rotate m' k) = nextEntry m' ∧
    entries f (rotate m' k) = (entries f m).insertIdx k e ∧
      ∀ i, i < 33 ∨ ps ≤ i → rotate m' k i = m' i := by
  have hn : numEntries m' = numEntries m + 1 := by
    have := congrArg List.length he
    rw [List.length_append, entries_length, entries_length] at this
    exact this
  obtain ⟨r1, r2, r0, r3, r4, r5, r6⟩ := rotate_spec L w hn hk
  have hold : ∀ i, i < numEntries m → entry f m' i = entry f m i := by
    intro i hi
    have h1 : i < (entries f m').length := by rw [entries_length]; omega
    rw [← entries_getElem (f := f) h1, List.getElem_of_eq he, List.getElem_append_left (by rw [entries_length]; exact hi),
      entries_getElem]
  have hlast : entry f m' (numEntries m) = e := by
    have h1 : numEntries m < (entries f m').length := by rw [entries_length]; omega
    rw [← entries_getElem (f := f) h1, List.getElem_of_eq he, List.getElem_append_right (by rw [entries_length]; omega)]
    simp
  refine ⟨r1, r0, ?_, r6⟩
  apply List.ext_getElem
  · rw [entries_length, r2, List.length_insertIdx, entries_length, if_pos hk]
  · intro i h1 h2
    rw [entries_length, r2] at h1
    rw [entries_getElem, List.getElem_insertIdx]
    split
    · rename_i h; rw [r4 i h, hold i (by omega), entries_getElem]
    · split
      · rename_i h; subst h; rw [r3, hlast]
      · rename_i h h'
        have hi : i = (i - 1) + 1 := by omega
        rw [entries_getElem, hi, r5 (i - 1) (by omega) (by omega), hold (i - 1) (by omega)]
        rfl

/-- C10 for `btree_insert_leaf_entry`: the tuple becomes entry `k`, later entries move up by one. -/
theorem insertLeaf_spec {ps : Nat} {m : Mem} {k : Nat} {e : Tuple} (w : WF leafFmt ps m) (hk : k ≤ numEntries m)
    (hv : TupleOk e) :
    Outcome leafFmt ps m ((entries leafFmt m).insertIdx k e) (insertLeaf m k e) ∧
    (canSetLeaf m (numEntries m) e = true ↔ ∃ m', insertLeaf m k e = some (m', true)) := by
  obtain ⟨⟨m', h⟩, hcan⟩ := setLeaf_spec w (Nat.le_refl _) hv
  rcases h with ⟨h1, rfl⟩ | ⟨h1, h2, h3, h4⟩
  · have e1 : insertLeaf m' k e = some (m', false) := by unfold insertLeaf; rw [h1]
    refine ⟨⟨m', .inl ⟨e1, rfl⟩⟩, ?_⟩
    rw [hcan, h1, e1]
  · have e1 : insertLeaf m k e = some (rotate m' k, true) := by unfold insertLeaf; rw [h1]
    rw [setAt, entries_length, if_neg (by omega)] at h3
    obtain ⟨r1, _, r2, r3⟩ := rotate_entries leaf_laws h2 h3 hk
    refine ⟨⟨_, .inr ⟨e1, r1, r2, fun i hi => (r3 i hi).trans (h4 i hi)⟩⟩, ?_⟩
    rw [hcan, h1, e1]; simp

/-- C10 for `btree_insert_index_entry`. -/
theorem insertIndex_spec {ps : Nat} {m : Mem} {k : Nat} {e : Index} (w : WF indexFmt ps m) (hk : k ≤ numEntries m)
    (hv : IndexOk e) : Outcome indexFmt ps m ((entries indexFmt m).insertIdx k e) (insertIndex m k e) := by
  obtain ⟨m', h⟩ := setIndex_spec w (Nat.le_refl _) hv
  rcases h with ⟨h1, rfl⟩ | ⟨h1, h2, h3, h4⟩
  · exact ⟨m', .inl ⟨by unfold insertIndex; rw [h1], rfl⟩⟩
  · rw [setAt, entries_length, if_neg (by omega)] at h3
    obtain ⟨r1, _, r2, r3⟩ := rotate_entries index_laws h2 h3 hk
    exact ⟨_, .inr ⟨by unfold insertIndex; rw [h1], r1, r2, fun i hi => (r3 i hi).trans (h4 i hi)⟩⟩

/-- An emptied page is well-formed (pages larger than the header). -/
theorem reset_spec (f : Format E) {ps : Nat} (m : Mem) (h1 : 37 ≤ ps) (h2 : ps < 65536) :
    WF f ps (reset ps m) ∧ entries f (reset ps m) = [] ∧ nextEntry (reset ps m) = ps ∧
      ∀ i, i < 33 ∨ 37 ≤ i → reset ps m i = m i := by
  have hnum : numEntries (reset ps m) = 0 := by
    unfold numEntries reset; rw [rdN_wrN_out (by omega), rdN_wrN2 (by omega)]
  have hnext : nextEntry (reset ps m) = ps := by
    unfold nextEntry reset; rw [rdN_wrN2 h2]
  refine ⟨⟨h2, ?_, ?_, ?_, ?_, ?_⟩, ?_, hnext, ?_⟩
  · rw [hnum, hnext]; exact h1
  · omega
  · intro i hi; omega
  · intro i hi; omega
  · intro i j hi; omega
  · unfold entries; rw [hnum]; rfl
  · intro i hi; unfold reset; rw [wrN_out (by omega), wrN_out (by omega)]

/-- A page of 65536 bytes, which `MAX_PAGE_SIZE` (btree.h:66) allows: `next_entry` wraps to 0
and no entry fits. -/
theorem page_65536_holds_nothing (m : Mem) (e : Tuple) : setLeaf (reset 65536 m) 0 e = some (reset 65536 m, false) := by
  have hnum : numEntries (reset 65536 m) = 0 := by
    unfold numEntries reset; rw [rdN_wrN_out (by omega), rdN_wrN2 (by omega)]
  have hnext : nextEntry (reset 65536 m) = 0 := by
    unfold nextEntry reset; rw [rdN_wrN]
  unfold setLeaf
  rw [hnum, if_neg (by omega), if_pos (Nat.le_refl _)]
  exact place_full (by rw [hnext]; unfold tableEnd; omega)

/-- Instance: a page of 64 bytes takes two tuples, inserted out of order, and then is full. -/
example : (do
    let (m, _) ← insertLeaf (reset 64 (fun _ => 0xaa)) 0 ⟨[5], 1, [50]⟩
    let (m, a) ← insertLeaf m 0 ⟨[3], 3, []⟩
    let (m, b) ← insertLeaf m 1 ⟨[4], 1, [1, 2, 3]⟩
    let (m, c) ← setLeaf m 1 ⟨[5], 2, [9]⟩
    some (a, b, c, entries leafFmt m)) = some (true, false, true, [⟨[3], 3, []⟩, ⟨[5], 2, [9]⟩]) := by
  decide +kernel

/-- Instance of the hypotheses of the theorems above. -/
example : WF leafFmt 4096 (reset 4096 (fun _ => 0)) ∧ WF indexFmt 4096 (reset 4096 (fun _ => 0)) ∧
    0 ≤ numEntries (reset 4096 (fun _ => 0)) ∧ TupleOk ⟨[1], 2, [3]⟩ ∧
    IndexOk ⟨.user [1], 4096, 1, 1, 1⟩ :=
  ⟨(reset_spec _ _ (by decide) (by decide)).1, (reset_spec _ _ (by decide) (by decide)).1, Nat.zero_le _,
   ⟨by decide, by decide, by decide⟩, ⟨by show _ < _; decide, by decide, by decide, by decide, by decide⟩⟩

end Splinter.Page
