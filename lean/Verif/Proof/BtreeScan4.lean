import Verif.Proof.BtreeScan3
import Verif.Props.BtreeScanSpec
/-!
What a scan knows, and that inserts do not disturb it.
-/
namespace Splinter.BtreeIns
open Btree Search

section
variable {K M : Type} [LinearOrder K] {mrg : K → M → M → M} {hist : List (K × M)} {n0 n1 : Nat} {P : K → Prop}
  {out : List (K × M)}

theorem Swept.grow (h : Swept mrg hist n0 n1 P out) (l : List (K × M)) {n1' : Nat} (hn : n1 ≤ n1')
    (hl : n1 ≤ hist.length) : Swept mrg (hist ++ l) n0 n1' P out := by
  obtain ⟨h1, τ, h2, h3, h4⟩ := h
  refine ⟨h1, τ, fun k hk => ⟨(h2 k hk).1, (h2 k hk).2.trans hn⟩, h3, ?_⟩
  intro k v
  rw [h4]
  constructor
  · rintro ⟨a, b⟩
    exact ⟨a, by rw [List.take_append_of_le_length ((h2 k a).2.trans hl)]; exact b⟩
  · rintro ⟨a, b⟩
    exact ⟨a, by rw [List.take_append_of_le_length ((h2 k a).2.trans hl)] at b; exact b⟩

theorem Swept.congr (h : Swept mrg hist n0 n1 P out) {P' : K → Prop} (hp : ∀ k, P' k ↔ P k) :
    Swept mrg hist n0 n1 P' out := by
  obtain ⟨h1, τ, h2, h3, h4⟩ := h
  exact ⟨h1, τ, fun k hk => h2 k ((hp k).1 hk), fun k k' hk hk' => h3 k k' ((hp k).1 hk) ((hp k').1 hk'),
    fun k v => by rw [h4, hp]⟩

theorem Swept.empty (hn : n0 ≤ hist.length) (h : ∀ k, P k → valueOf mrg k hist = none) :
    Swept mrg hist n0 hist.length P [] := by
  refine ⟨by simp, fun _ => hist.length, fun _ _ => ⟨hn, le_rfl⟩, fun _ _ _ _ _ => le_rfl, ?_⟩
  intro k v
  rw [List.take_length]
  constructor
  · simp
  · rintro ⟨a, b⟩
    rw [h k a] at b; cases b

/-- Looking at some more keys. -/
theorem Swept.more (h : Swept mrg hist n0 hist.length P out) (hn : n0 ≤ hist.length) {P' Q : K → Prop}
    {e : Option (K × M)} (hp : ∀ k, P' k ↔ P k ∨ Q k) (hlt : ∀ k k', P k → Q k' → k < k')
    (hq : ∀ k v, e = some (k, v) ↔ Q k ∧ valueOf mrg k hist = some v) :
    Swept mrg hist n0 hist.length P' (out ++ e.toList) := by
  classical
  obtain ⟨h1, τ, h2, h3, h4⟩ := h
  have hQP : ∀ k, Q k → ¬ P k := fun k q p => lt_irrefl _ (hlt k k p q)
  refine ⟨?_, fun k => if P k then τ k else hist.length, ?_, ?_, ?_⟩
  · rw [List.pairwise_append]
    refine ⟨h1, by cases e <;> simp, ?_⟩
    rintro ⟨k, v⟩ hx ⟨k', v'⟩ hy
    simp only [Option.mem_toList, Option.mem_def] at hy
    exact hlt k k' ((h4 k v).1 hx).1 ((hq k' v').1 hy).1
  · intro k hk
    simp only
    split
    · rename_i h; exact h2 k h
    · exact ⟨hn, le_rfl⟩
  · intro k k' hk hk' hle
    simp only
    split
    · rename_i h
      split
      · rename_i h'; exact h3 k k' h h' hle
      · exact (h2 k h).2
    · rename_i h
      split
      · rename_i h'
        rcases (hp k).1 hk with hk | hk
        · exact absurd hk h
        · exact absurd (hlt k' k h' hk) (not_lt.2 hle)
      · exact le_rfl
  · intro k v
    rw [List.mem_append, Option.mem_toList, h4, hp]
    by_cases h : P k
    · simp only [h, if_true, true_and, true_or]
      constructor
      · rintro (h' | h')
        · exact h'
        · exact absurd h (hQP k ((hq k v).1 h').1)
      · exact .inl
    · simp only [h, false_and, false_or, if_false, List.take_length, Option.mem_def]
      exact hq k v

end

variable {K M : Type} [LinearOrder K] [BoundedOrder K] [Inhabited K]

/-- The keys a scan is done with when the next one may be `F`. -/
def Done (x : Scan K M) (F : Option K) (k : K) : Prop :=
  From x.start x.strict k ∧ UpTo x.hi k ∧ ∀ f ∈ F, k < f

/-- What a scan has reported when the next key may be `F`. -/
def Seen (mrg : K → M → M → M) (hist : List (K × M)) (x : Scan K M) (F : Option K) : Prop :=
  Swept mrg hist x.born hist.length (Done x F) x.out ∧ ∀ f ∈ F, From x.start x.strict f

/-- If the end page has still the generation, the end is right. -/
def EndG (st : Store K M) (gen : Nat → Nat) (lv : Nat → List (K × Nat)) (hi : K) (t : Iter K) (eg : Nat) : Prop :=
  eg ≤ gen t.endAddr ∧ (gen t.endAddr = eg → ∃ A b B, lv 0 = A ++ (b, t.endAddr) :: B ∧ (∀ q ∈ B, hi < q.1) ∧
    t.endIdx = endIdx (cont st t.endAddr) hi)

/-- What one scan knows. -/
def SOk (mrg : K → M → M → M) (st : Store K M) (gen : Nat → Nat) (H : Nat) (lv : Nat → List (K × Nat))
    (hist : List (K × M)) (x : Scan K M) : Prop :=
  x.lo ≤ x.start ∧ x.start ≤ x.hi ∧ x.born ≤ hist.length ∧
  match x.pc with
  | .find => x.out = []
  | .down a h => x.out = [] ∧ h ≤ H ∧ ∃ b, At lv h x.start b a
  | .claimed c => x.out = [] ∧ ∃ b, At lv 0 x.start b c
  | .look c a h => x.out = [] ∧ (∃ b, At lv 0 x.start b c) ∧ h ≤ H ∧ ∃ b, At lv h x.hi b a
  | .gap t eg => ∃ b be, (b, t.curr) ∈ (lv 0).tail ∧ t.idx = 0 ∧ t.minIdx ≤ 0 ∧ (be, t.endAddr) ∈ (lv 0).tail ∧
      b ≤ be ∧ be ≤ x.hi ∧ EndG st gen lv x.hi t eg ∧ Seen mrg hist x (some b)
  | .refind t => ∃ b, (b, t.curr) ∈ (lv 0).tail ∧ t.idx = 0 ∧ t.minIdx ≤ 0 ∧ b ≤ x.hi ∧ Seen mrg hist x (some b)
  | .relook t a h => (∃ b, (b, t.curr) ∈ (lv 0).tail ∧ t.idx = 0 ∧ t.minIdx ≤ 0 ∧ b ≤ x.hi ∧
      Seen mrg hist x (some b)) ∧ h ≤ H ∧ ∃ b, At lv h x.hi b a
  | .at t eg => ∃ A b B, lv 0 = A ++ (b, t.curr) :: B ∧ 0 ≤ t.idx ∧ t.idx ≤ (cont st t.curr).length ∧
      t.minIdx ≤ t.idx ∧
      Seen mrg hist x ((((cont st t.curr)[t.idx.toNat]?).map (·.1)).or (B.head?.map (·.1))) ∧
      ((t.curr = t.endAddr ∧ (∀ q ∈ B, x.hi < q.1) ∧ t.endIdx = endIdx (cont st t.curr) x.hi) ∨
       (t.curr ≠ t.endAddr ∧ t.idx < (cont st t.curr).length ∧ ∃ be, (be, t.endAddr) ∈ B ∧ be ≤ x.hi ∧
          EndG st gen lv x.hi t eg))
  | .done n => x.born ≤ n ∧ n ≤ hist.length ∧
      Swept mrg hist x.born n (fun k => From x.start x.strict k ∧ UpTo x.hi k) x.out

theorem Seen.grow {mrg : K → M → M → M} {hist : List (K × M)} {x : Scan K M} {F : Option K}
    (h : Seen mrg hist x F) (l : List (K × M)) : Seen mrg (hist ++ l) x F :=
  ⟨h.1.grow l (by simp) le_rfl, h.2⟩

/-- What a step of an insert keeps for scans. -/
structure Calm (root : Nat) (W : List Nat) (st st' : Store K M) (gen gen' : Nat → Nat) (H H' : Nat)
    (lv lv' : Nat → List (K × Nat)) : Prop where
  old : Skel st root H lv
  new : Skel st' root H' lv'
  ext : Ext root W st H lv st' H' lv'
  mono : ∀ a, st a ≠ none → gen a ≤ gen' a
  wrote : H ≠ 0 → ∀ a ∈ W, a ∈ (lv 0).map (·.2) → gen a < gen' a

variable {root H H' : Nat} {W : List Nat} {st st' : Store K M} {gen gen' : Nat → Nat} {lv lv' : Nat → List (K × Nat)}

theorem leaf_some {st : Store K M} {root H : Nat} {lv : Nat → List (K × Nat)} (S : Skel st root H lv) {b : K} {a : Nat}
    (h : (b, a) ∈ lv 0) : st a ≠ none := by
  obtain ⟨n, e, _⟩ := S.page 0 (Nat.zero_le _) _ h
  simp only at e
  rw [e]; simp

theorem tail_high {st : Store K M} {root H : Nat} {lv : Nat → List (K × Nat)} (S : Skel st root H lv) {q : K × Nat}
    (h : q ∈ (lv 0).tail) : H ≠ 0 := by
  rintro rfl
  rw [S.top] at h
  simp at h

theorem EndG.ext {t : Iter K} {eg : Nat} {hi be : K} (C : Calm root W st st' gen gen' H H' lv lv')
    (ht : (be, t.endAddr) ∈ (lv 0).tail) (h : EndG st gen lv hi t eg) : EndG st' gen' lv' hi t eg := by
  obtain ⟨h1, h2⟩ := h
  have hm := List.mem_of_mem_tail ht
  have hn := leaf_some C.old hm
  have hmo := C.mono _ hn
  refine ⟨h1.trans hmo, ?_⟩
  intro he
  have hW : t.endAddr ∉ W := by
    intro hx
    have := C.wrote (tail_high C.old ht) _ hx (List.mem_map.2 ⟨_, hm, rfl⟩)
    omega
  obtain ⟨A, b, B, e, hB, hi'⟩ := h2 (by omega)
  obtain ⟨A', b', B', e', hh, _⟩ := held_next C.old C.new C.ext e hW
  refine ⟨A', b', B', e', ?_, ?_⟩
  · have hs := C.new.sorted 0 (Nat.zero_le _)
    rw [e', List.pairwise_append, List.pairwise_cons] at hs
    apply behind hs.2.1.2
    rw [hh]
    exact head_behind hB
  · rw [(C.ext.same _ hn hW).2]; exact hi'

/-- A scan is not disturbed by a write of pages it has not read locked. -/
theorem SOk.ext {mrg : K → M → M → M} {hist : List (K × M)} {x : Scan K M} (l : List (K × M))
    (C : Calm root W st st' gen gen' H H' lv lv') (hW : ∀ a ∈ x.pc.reads, a ∉ W)
    (h : SOk mrg st gen H lv hist x) : SOk mrg st' gen' H' lv' (hist ++ l) x := by
  obtain ⟨h1, h2, h3, h4⟩ := h
  refine ⟨h1, h2, by simp; omega, ?_⟩
  have X := C.ext
  have hpath : ∀ {g k a}, g ≤ H → a ∉ W → (∃ b, At lv g k b a) → ∃ b, At lv' g k b a := by
    intro g k a hg ha ⟨b, hb⟩
    obtain ⟨b', _, h⟩ := X.path g hg k b a ha hb
    exact ⟨b', h⟩
  cases hpc : x.pc with
  | find => simp only [hpc] at h4 ⊢; exact h4
  | down a g =>
    simp only [hpc] at h4 ⊢
    exact ⟨h4.1, h4.2.1.trans X.mono, hpath h4.2.1 (hW a (by simp [hpc, SPc.reads])) h4.2.2⟩
  | claimed c =>
    simp only [hpc] at h4 ⊢
    exact ⟨h4.1, hpath (Nat.zero_le _) (hW c (by simp [hpc, SPc.reads])) h4.2⟩
  | look c a g =>
    simp only [hpc] at h4 ⊢
    exact ⟨h4.1, hpath (Nat.zero_le _) (hW c (by simp [hpc, SPc.reads])) h4.2.1, h4.2.2.1.trans X.mono,
      hpath h4.2.2.1 (hW a (by simp [hpc, SPc.reads])) h4.2.2.2⟩
  | gap t eg =>
    simp only [hpc] at h4 ⊢
    obtain ⟨b, be, g1, g2, g3, g4, g5, g6, g7, g8⟩ := h4
    exact ⟨b, be, X.leaf _ g1, g2, g3, X.leaf _ g4, g5, g6, g7.ext C g4, g8.grow l⟩
  | refind t =>
    simp only [hpc] at h4 ⊢
    obtain ⟨b, g1, g2, g3, g4, g5⟩ := h4
    exact ⟨b, X.leaf _ g1, g2, g3, g4, g5.grow l⟩
  | relook t a g =>
    simp only [hpc] at h4 ⊢
    obtain ⟨⟨b, g1, g2, g3, g4, g5⟩, g6, g7⟩ := h4
    exact ⟨⟨b, X.leaf _ g1, g2, g3, g4, g5.grow l⟩, g6.trans X.mono,
      hpath g6 (hW a (by simp [hpc, SPc.reads])) g7⟩
  | «at» t eg =>
    simp only [hpc] at h4 ⊢
    obtain ⟨A, b, B, e, g1, g2, g3, g4, g5⟩ := h4
    have hcW : t.curr ∉ W := hW _ (by simp [hpc, SPc.reads])
    have hn := leaf_some C.old (b := b) (a := t.curr) (by rw [e]; simp)
    obtain ⟨A', b', B', e', hh, _⟩ := held_next C.old C.new C.ext e hcW
    have hco := (X.same _ hn hcW).2
    refine ⟨A', b', B', e', g1, by rw [hco]; exact g2, g3, by rw [hco, hh]; exact g4.grow l, ?_⟩
    rw [hco]
    have hs := C.new.sorted 0 (Nat.zero_le _)
    rw [e', List.pairwise_append, List.pairwise_cons] at hs
    rcases g5 with ⟨k1, k2, k3⟩ | ⟨k1, k2, be, k3, k4, k5⟩
    · refine .inl ⟨k1, ?_, k3⟩
      apply behind hs.2.1.2
      rw [hh]
      exact head_behind k2
    · refine .inr ⟨k1, k2, be, ?_, k4, k5.ext C (be := be) ?_⟩
      · have h5 : (be, t.endAddr) ∈ lv' 0 := by
          apply List.mem_of_mem_tail
          apply X.leaf
          rw [e]
          cases A <;> simp [k3]
        -- it is behind `curr`
        rw [e'] at h5
        have h6 : ∃ f ∈ B'.head?.map (·.1), f ≤ be := by
          rw [hh]
          cases hB : B with
          | nil => rw [hB] at k3; simp at k3
          | cons r B2 =>
            have hs0 := C.old.sorted 0 (Nat.zero_le _)
            rw [e, hB, List.pairwise_append, List.pairwise_cons, List.pairwise_cons] at hs0
            refine ⟨r.1, by simp, ?_⟩
            rw [hB] at k3
            rcases List.mem_cons.1 k3 with h | h
            · rw [← h]
            · exact (hs0.2.1.2.1 _ h).le
        obtain ⟨f, hf, hfb⟩ := h6
        have h7 : ∃ r ∈ B', r.1 = f := by
          cases B' with
          | nil => simp at hf
          | cons r B2 => simp at hf; exact ⟨r, by simp, hf⟩
        obtain ⟨r, hr, rfl⟩ := h7
        rcases List.mem_append.1 h5 with h | h
        · exact absurd (hs.2.2 _ h r (by simp [hr])) (not_lt.2 hfb)
        · rcases List.mem_cons.1 h with h | h
          · simp only [Prod.mk.injEq] at h
            exact absurd h.2.symm k1
          · exact h
      · rw [e]
        cases A <;> simp [k3]
  | done n =>
    simp only [hpc] at h4 ⊢
    exact ⟨h4.1, by simp; omega, h4.2.2.grow l le_rfl h4.2.1⟩

end Splinter.BtreeIns
