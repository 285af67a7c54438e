import Verif.Model.Relieve

/-
C67: a full node is relieved.
-/

namespace Splinter.Relieve

/-! ### Statement -/

/-- What holds of the counts of a node: its first branch is the first of its
pivots', bytes belong to tuples and tuples to branches. -/
structure Good (n : Node) : Prop where
  start : n.start = firstLive n.stop n.pivots
  le : ∀ p, p ∈ n.pivots → p.start ≤ n.stop
  bytes : ∀ p, p ∈ n.pivots → 0 < p.bytes → 0 < p.tuples
  tuples : ∀ p, p ∈ n.pivots → 0 < p.tuples → p.start < n.stop

/-- A pivot that has been flushed. -/
def done (stop : Nat) : Pivot := { tuples := 0, bytes := 0, start := stop }

/-- The pivots that have tuples. -/
def loaded (l : List Pivot) : Nat := l.countP (fun p => decide (0 < p.tuples))

/-- The pivots of `m` are pivots of `n` or flushed. -/
def Kept (n m : Node) : Prop := ∀ p, p ∈ m.pivots → p ∈ n.pivots ∨ p = done n.stop

/-! ### One flush -/

theorem firstLive_le (stop : Nat) (l : List Pivot) {p : Pivot} (h : p ∈ l) :
    firstLive stop l ≤ p.start := by
  induction l with
  | nil => cases h
  | cons q l ih =>
    simp only [firstLive]
    rcases List.mem_cons.mp h with rfl | h
    · exact Nat.min_le_left _ _
    · exact Nat.le_trans (Nat.min_le_right _ _) (ih h)

theorem le_firstLive (stop m : Nat) (l : List Pivot) (h0 : m ≤ stop)
    (h : ∀ p, p ∈ l → m ≤ p.start) : m ≤ firstLive stop l := by
  induction l with
  | nil => exact h0
  | cons q l ih =>
    simp only [firstLive]
    exact Nat.le_min.mpr ⟨h q (by simp), ih (fun p hp => h p (by simp [hp]))⟩

theorem firstLive_top (stop : Nat) (l : List Pivot) : firstLive stop l ≤ stop := by
  induction l with
  | nil => exact Nat.le_refl _
  | cons q l ih => exact Nat.le_trans (Nat.min_le_right _ _) ih

/-- The node after a flush of the pivot between `a` and `b`. -/
theorem flush_eq {n : Node} {a b : List Pivot} {p : Pivot} (hn : Good n)
    (hp : n.pivots = a ++ p :: b) (hs : p.start < n.stop) (k : Nat) :
    ∃ m, flush k a.length n = some m ∧ Good m ∧ m.stop = n.stop ∧
      m.pivots = a ++ done n.stop :: (List.replicate k (done n.stop) ++ b) := by
  have hi : n.pivots[a.length]? = some p := by rw [hp]; simp
  have hset : n.pivots.set a.length (done n.stop) = a ++ done n.stop :: b := by
    rw [hp]; simp
  have hfl : flush k a.length n = some
      { pivots := a ++ done n.stop :: (List.replicate k (done n.stop) ++ b)
        start := if p.start = n.start then firstLive n.stop (a ++ done n.stop :: b) else n.start
        stop := n.stop } := by
    unfold flush
    simp only [hi]
    rw [if_neg (by omega)]
    simp only [clearPivot]
    have hd : ({ tuples := 0, bytes := 0, start := n.stop } : Pivot) = done n.stop := rfl
    rw [hd, hset]
    congr 2
    rw [List.take_append, List.drop_append]
    simp [List.drop_eq_nil_of_le, List.take_of_length_le]
  have hmem : ∀ q, q ∈ a ++ done n.stop :: (List.replicate k (done n.stop) ++ b) →
      q ∈ n.pivots ∨ q = done n.stop := by
    intro q hq
    rw [hp]
    simp only [List.mem_append, List.mem_cons, List.mem_replicate] at hq ⊢
    grind
  refine ⟨_, hfl, ⟨?_, ?_, ?_, ?_⟩, rfl, rfl⟩
  · simp only
    have key : ∀ m, firstLive n.stop (a ++ done n.stop :: (List.replicate k (done n.stop) ++ b)) = m ↔
        firstLive n.stop (a ++ done n.stop :: b) = m := by
      have : firstLive n.stop (a ++ done n.stop :: (List.replicate k (done n.stop) ++ b)) =
          firstLive n.stop (a ++ done n.stop :: b) := by
        apply Nat.le_antisymm
        · apply le_firstLive
          · exact firstLive_top _ _
          · intro q hq; apply firstLive_le; simp only [List.mem_append, List.mem_cons] at hq ⊢; grind
        · apply le_firstLive
          · exact firstLive_top _ _
          · intro q hq
            simp only [List.mem_append, List.mem_cons, List.mem_replicate] at hq
            apply firstLive_le
            simp only [List.mem_append, List.mem_cons]
            grind
      intro m; rw [this]
    rw [(key _).mpr rfl]
    split
    · rfl
    · rename_i hne
      have h1 := hn.start
      rw [hp] at h1
      apply Nat.le_antisymm
      · apply le_firstLive
        · rw [h1]; exact firstLive_top _ _
        · intro q hq
          simp only [List.mem_append, List.mem_cons] at hq
          rcases hq with hq | rfl | hq
          · rw [h1]; apply firstLive_le; simp [hq]
          · simp only [done]; rw [h1]; exact firstLive_top _ _
          · rw [h1]; apply firstLive_le; simp [hq]
      · -- the first branch is that of another pivot
        rw [h1]
        have hlt : firstLive n.stop (a ++ done n.stop :: b) ≤ p.start ∨
            p.start < firstLive n.stop (a ++ done n.stop :: b) := by omega
        have hple : firstLive n.stop (a ++ p :: b) ≤ p.start :=
          firstLive_le _ _ (by simp)
        rcases hlt with hlt | hlt
        · apply le_firstLive
          · exact firstLive_top _ _
          · intro q hq
            simp only [List.mem_append, List.mem_cons] at hq
            rcases hq with hq | rfl | hq
            · apply firstLive_le; simp [hq]
            · exact hlt
            · apply firstLive_le; simp [hq]
        · exfalso
          apply hne
          rw [h1]
          apply Nat.le_antisymm _ hple
          apply le_firstLive
          · omega
          · intro q hq
            simp only [List.mem_append, List.mem_cons] at hq
            rcases hq with hq | rfl | hq
            · have := firstLive_le n.stop (a ++ done n.stop :: b) (p := q) (by simp [hq]); omega
            · exact Nat.le_refl _
            · have := firstLive_le n.stop (a ++ done n.stop :: b) (p := q) (by simp [hq]); omega
  · intro q hq
    rcases hmem q hq with h | rfl
    · exact hn.le q h
    · exact Nat.le_refl _
  · intro q hq hb
    rcases hmem q hq with h | rfl
    · exact hn.bytes q h hb
    · exact absurd hb (by simp [done])
  · intro q hq hb
    rcases hmem q hq with h | rfl
    · exact hn.tuples q h hb
    · exact absurd hb (by simp [done])

theorem loaded_append (a b : List Pivot) : loaded (a ++ b) = loaded a + loaded b := by
  simp [loaded, List.countP_append]

theorem loaded_done (stop k : Nat) : loaded (List.replicate k (done stop)) = 0 := by
  simp [loaded, done, List.countP_replicate]

theorem loaded_cons (p : Pivot) (b : List Pivot) :
    loaded (p :: b) = loaded b + if 0 < p.tuples then 1 else 0 := by
  simp [loaded, List.countP_cons]

theorem loaded_flush (a b : List Pivot) (p : Pivot) (stop k : Nat) :
    loaded (a ++ done stop :: (List.replicate k (done stop) ++ b)) +
      (if 0 < p.tuples then 1 else 0) = loaded (a ++ p :: b) := by
  simp only [loaded_append, loaded_cons, loaded_done]
  simp [done]
  omega

/-! ### The loop over the pivots -/

/-- What the loop knows when it has passed the pivots `a`. -/
structure Inv (c : Cfg) (a : List Pivot) (s : Loop) : Prop where
  good : Good s.node
  few : ∀ q, q ∈ a → s.node.stop - q.start ≤ c.maxBranches
  none : s.fullest = none → ∀ q, q ∈ a → q.tuples = 0
  some : ∀ j, s.fullest = some j → j < a.length ∧ ∀ q, q ∈ a → q.tuples ≤ tuplesAt s.node j

/-- The loop ends from here. -/
def Ends (c : Cfg) (sp : Nat → Nat) (stop : Nat) (b : List Pivot) : Prop :=
  ∀ (a : List Pivot) (s : Loop), s.node.pivots = a ++ b → s.node.stop = stop → Inv c a s →
    ∃ F s', (∀ fuel, F ≤ fuel → scan c sp fuel a.length s = some s') ∧
      Inv c s'.node.pivots s' ∧ s'.node.stop = stop ∧ Kept s.node s'.node ∧
      loaded s'.node.pivots ≤ loaded s.node.pivots

theorem Kept.refl (n : Node) : Kept n n := fun _ h => Or.inl h

theorem Kept.trans {n m k : Node} (h : Kept n m) (hs : m.stop = n.stop) (h' : Kept m k) :
    Kept n k := by
  intro p hp
  rcases h' p hp with h1 | h1
  · exact h p h1
  · right; rw [h1, hs]

theorem tuplesAt_append {n : Node} {a b : List Pivot} (h : n.pivots = a ++ b) {j : Nat}
    (hj : j < a.length) : tuplesAt n j = (a[j]).tuples := by
  simp [tuplesAt, h, List.getElem?_append_left hj, List.getElem?_eq_getElem hj]

theorem ends_nil (c : Cfg) (sp : Nat → Nat) (stop : Nat) : Ends c sp stop [] := by
  intro a s hp hs hi
  rw [List.append_nil] at hp
  refine ⟨1, s, ?_, by rw [hp]; exact hi, hs, Kept.refl _, Nat.le_refl _⟩
  intro fuel hf
  obtain ⟨f, rfl⟩ : ∃ f, fuel = f + 1 := ⟨fuel - 1, by omega⟩
  unfold scan
  have : s.node.pivots[a.length]? = none := by rw [hp]; simp
  simp only [this]

theorem ends_pass (c : Cfg) (sp : Nat → Nat) (stop : Nat) (p : Pivot) (b : List Pivot)
    (h : Ends c sp stop b) (hn : stop - p.start ≤ c.maxBranches) :
    Ends c sp stop (p :: b) := by
  intro a s hp hs hi
  have hget : s.node.pivots[a.length]? = some p := by rw [hp]; simp
  have hta : tuplesAt s.node a.length = p.tuples := by simp [tuplesAt, hget]
  have hi' : Inv c (a ++ [p]) { s with fullest := fuller s.node a.length s.fullest } := by
    refine ⟨hi.good, ?_, ?_, ?_⟩
    · intro q hq
      rcases List.mem_append.mp hq with hq | hq
      · exact hi.few q hq
      · simp at hq; subst hq; simp only [hs]; exact hn
    · intro h0
      simp only [fuller] at h0
      split at h0
      · cases h0
      · split at h0 <;> cases h0
    · intro j hj
      simp only [fuller] at hj
      split at hj
      · rename_i h0
        cases hj
        refine ⟨by simp, ?_⟩
        intro q hq
        simp only [hta]
        rcases List.mem_append.mp hq with hq | hq
        · rw [hi.none h0 q hq]; omega
        · simp at hq; subst hq; exact Nat.le_refl _
      · rename_i j' h0
        obtain ⟨h1, h2⟩ := hi.some j' h0
        split at hj
        · rename_i hlt
          cases hj
          refine ⟨by simp, ?_⟩
          intro q hq
          simp only [hta]
          rcases List.mem_append.mp hq with hq | hq
          · have := h2 q hq; omega
          · simp at hq; subst hq; exact Nat.le_refl _
        · rename_i hlt
          cases hj
          refine ⟨by simp; omega, ?_⟩
          intro q hq
          rcases List.mem_append.mp hq with hq | hq
          · exact h2 q hq
          · simp at hq; subst hq; show q.tuples ≤ tuplesAt s.node _; omega
  obtain ⟨F, s', e1, e2⟩ := h (a ++ [p])
    { s with fullest := fuller s.node a.length s.fullest } (by simp only [hp]; simp) hs hi'
  refine ⟨F + 1, s', ?_, e2⟩
  intro fuel hf
  obtain ⟨f, rfl⟩ : ∃ f, fuel = f + 1 := ⟨fuel - 1, by omega⟩
  unfold scan
  simp only [hget]
  rw [if_neg (by simp only [needsFlush, hs]; simp; omega)]
  have := e1 f (by omega)
  simpa using this

theorem ends_done (c : Cfg) (sp : Nat → Nat) (stop k : Nat) (b : List Pivot)
    (h : Ends c sp stop b) : Ends c sp stop (List.replicate k (done stop) ++ b) := by
  induction k with
  | zero => simpa using h
  | succ k ih =>
    rw [List.replicate_succ, List.cons_append]
    exact ends_pass c sp stop _ _ ih (by simp [done])

theorem ends_all (c : Cfg) (sp : Nat → Nat) (stop : Nat) (b : List Pivot) :
    Ends c sp stop b := by
  induction b with
  | nil => exact ends_nil c sp stop
  | cons p b ih =>
    by_cases hn : stop - p.start ≤ c.maxBranches
    · exact ends_pass c sp stop p b ih hn
    · intro a s hp hs hi
      have hget : s.node.pivots[a.length]? = some p := by rw [hp]; simp
      obtain ⟨m, f1, f2, f3, f4⟩ := flush_eq hi.good hp (by omega) (sp s.count)
      have hmem : ∀ q, q ∈ m.pivots → q ∈ s.node.pivots ∨ q = done s.node.stop := by
        intro q hq
        rw [f4] at hq
        rw [hp]
        simp only [List.mem_append, List.mem_cons, List.mem_replicate] at hq ⊢
        grind
      have hi' : Inv c (a ++ [done stop]) { s with node := m, count := s.count + 1 } := by
        refine ⟨f2, ?_, ?_, ?_⟩
        · intro q hq
          simp only [f3]
          rcases List.mem_append.mp hq with hq | hq
          · exact hi.few q hq
          · simp at hq; subst hq; simp [done, hs]
        · intro h0 q hq
          rcases List.mem_append.mp hq with hq | hq
          · exact hi.none h0 q hq
          · simp at hq; subst hq; rfl
        · intro j hj
          obtain ⟨h1, h2⟩ := hi.some j hj
          refine ⟨by simp; omega, ?_⟩
          have ht : tuplesAt m j = tuplesAt s.node j := by
            rw [tuplesAt_append hp h1, tuplesAt_append f4 h1]
          intro q hq
          simp only [ht]
          rcases List.mem_append.mp hq with hq | hq
          · exact h2 q hq
          · simp at hq; subst hq; simp [done]
      obtain ⟨F, s', e1, e2, e3, e4, e5⟩ := ends_done c sp stop (sp s.count) b ih (a ++ [done stop]) _
        (by simp only [f4, hs]; simp) (by simp only [f3, hs]) hi'
      refine ⟨F + 1, s', ?_, e2, e3, Kept.trans hmem f3 e4, ?_⟩
      · intro fuel hf
        obtain ⟨f, rfl⟩ : ∃ f, fuel = f + 1 := ⟨fuel - 1, by omega⟩
        unfold scan
        simp only [hget]
        rw [if_pos (by simp only [needsFlush, hs]; simp; omega)]
        simp only [f1]
        have := e1 f (by omega)
        simpa using this
      · simp only at e5
        have := loaded_flush a b p s.node.stop (sp s.count)
        rw [← f4, ← hp] at this
        omega

/-! ### One call and the loop around it -/

theorem full_bytes {c : Cfg} {n : Node} (hn : Good n)
    (hf : ∀ q, q ∈ n.pivots → n.stop - q.start ≤ c.maxBranches) :
    n.stop - n.start ≤ c.maxBranches := by
  have : n.stop - c.maxBranches ≤ n.start := by
    rw [hn.start]
    apply le_firstLive
    · omega
    · intro q hq; have := hf q hq; omega
  omega

theorem bytes_pos {l : List Pivot} (h : 0 < bytes l) : ∃ p, p ∈ l ∧ 0 < p.bytes := by
  induction l with
  | nil => simp [bytes] at h
  | cons p l ih =>
    by_cases hp : 0 < p.bytes
    · exact ⟨p, by simp, hp⟩
    · simp only [bytes, List.map_cons, List.sum_cons] at h
      obtain ⟨q, h1, h2⟩ := ih (by unfold bytes; omega)
      exact ⟨q, by simp [h1], h2⟩

/-- **C67.** One call on a node: no assertion fails, whatever the children do. After
it no pivot has more live branches than allowed, and the node is not full or has
one loaded pivot less. Pivots are kept or flushed. -/
theorem flushFullest_ok (c : Cfg) (sp : Nat → Nat) {n : Node} (hn : Good n) (count : Nat) :
    ∃ F m count', (∀ fuel, F ≤ fuel → flushFullest c sp fuel n count = some (m, count')) ∧
      Good m ∧ m.stop = n.stop ∧ Kept n m ∧ m.stop - m.start ≤ c.maxBranches ∧
      (isFull c m = false ∨ loaded m.pivots < loaded n.pivots) := by
  obtain ⟨F, s, e1, e2, e3, e4, e5⟩ := ends_all c sp n.stop n.pivots []
    { node := n, fullest := none, count := count } rfl rfl
    ⟨hn, by simp, by simp, by intro j hj; cases hj⟩
  have hb := full_bytes e2.good e2.few
  cases hfull : isFull c s.node with
  | false =>
    refine ⟨F, s.node, s.count, ?_, e2.good, e3, e4, hb, Or.inl hfull⟩
    intro fuel hf
    unfold flushFullest
    have := e1 fuel hf
    simp only [List.length_nil] at this
    simp only [this, hfull]
    rfl
  | true =>
    have hby : c.maxBytes < bytes s.node.pivots := by
      unfold isFull at hfull
      rw [if_neg (by omega)] at hfull
      simpa using hfull
    obtain ⟨q, q1, q2⟩ := bytes_pos (Nat.lt_of_le_of_lt (Nat.zero_le _) hby)
    have q3 := e2.good.bytes q q1 q2
    cases hfu : s.fullest with
    | none => have := e2.none hfu q q1; omega
    | some j =>
      obtain ⟨j1, j2⟩ := e2.some j hfu
      have j3 := j2 q q1
      obtain ⟨a, b, hab, hal⟩ : ∃ a b, s.node.pivots = a ++ s.node.pivots[j] :: b ∧ a.length = j :=
        ⟨s.node.pivots.take j, s.node.pivots.drop (j + 1),
          by rw [List.getElem_cons_drop, List.take_append_drop],
          by rw [List.length_take]; omega⟩
      have hta : tuplesAt s.node j = (s.node.pivots[j]).tuples := by
        simp [tuplesAt, List.getElem?_eq_getElem j1]
      have hpos : 0 < (s.node.pivots[j]).tuples := by omega
      obtain ⟨m, f1, f2, f3, f4⟩ := flush_eq e2.good hab
        (e2.good.tuples _ (List.getElem_mem j1) hpos) (sp s.count)
      rw [hal] at f1
      have hkm : Kept s.node m := by
        intro x hx
        rw [f4] at hx
        rw [hab]
        simp only [List.mem_append, List.mem_cons, List.mem_replicate] at hx ⊢
        grind
      refine ⟨F, m, s.count + 1, ?_, f2, by rw [f3, e3], e4.trans e3 hkm, ?_, Or.inr ?_⟩
      · intro fuel hf
        unfold flushFullest
        have := e1 fuel hf
        simp only [List.length_nil] at this
        simp only [this, hfull, hfu, f1]
        rfl
      · apply full_bytes f2
        intro x hx
        rw [f3]
        rcases hkm x hx with h | rfl
        · exact e2.few x h
        · simp [done]
      · have := loaded_flush a b (s.node.pivots[j]) s.node.stop (sp s.count)
        rw [← f4, ← hab, if_pos hpos] at this
        simp only at e5
        omega

/-- **C67.** A full node is relieved: the loop ends after at most one round more than
there are loaded pivots, no assertion fails, and the node is not full then. -/
theorem relieve_ok (c : Cfg) (sp : Nat → Nat) : ∀ (r : Nat) {n : Node}, Good n →
    loaded n.pivots < r → ∀ count, ∃ F m count',
      (∀ fuel, F ≤ fuel → relieve c sp (r + 1) fuel n count = some (m, count')) ∧
      Good m ∧ m.stop = n.stop ∧ Kept n m ∧ isFull c m = false := by
  intro r
  induction r with
  | zero => intro n _ h; omega
  | succ r ih =>
    intro n hn hl count
    cases hf : isFull c n with
    | false =>
      refine ⟨0, n, count, ?_, hn, rfl, Kept.refl _, hf⟩
      intro fuel _
      unfold relieve
      rw [hf]
      rfl
    | true =>
      obtain ⟨F, m, c1, e1, e2, e3, e4, e5, e6⟩ := flushFullest_ok c sp hn count
      rcases e6 with e6 | e6
      · refine ⟨F, m, c1, ?_, e2, e3, e4, e6⟩
        intro fuel hfu
        unfold relieve
        rw [hf, if_pos rfl, e1 fuel hfu]
        simp only
        unfold relieve
        rw [e6]
        rfl
      · obtain ⟨F', m', c2, i1, i2, i3, i4, i5⟩ := ih e2 (by omega) c1
        refine ⟨max F F', m', c2, ?_, i2, by rw [i3, e3], e4.trans e3 i4, i5⟩
        intro fuel hfu
        unfold relieve
        rw [hf, if_pos rfl, e1 fuel (by omega)]
        simp only
        exact i1 fuel (by omega)

/-- A node that is not full is left alone. -/
theorem relieve_id (c : Cfg) (sp : Nat → Nat) (r fuel : Nat) {n : Node} (count : Nat)
    (h : isFull c n = false) : relieve c sp (r + 1) fuel n count = some (n, count) := by
  unfold relieve
  rw [h]
  rfl

/-- Full means too many branches or too many bytes. -/
theorem full_iff (c : Cfg) (n : Node) :
    isFull c n = true ↔ c.maxBranches < n.stop - n.start ∨ c.maxBytes < bytes n.pivots := by
  unfold isFull
  split
  · rename_i h; simp [h]
  · rename_i h; simp [h]

/-- While the bytes are within bounds only pivots with too many branches are
flushed: the others are all there afterwards. -/
theorem scan_keeps (c : Cfg) (sp : Nat → Nat) (fuel : Nat) : ∀ (i : Nat) (s s' : Loop),
    scan c sp fuel i s = some s' → ∀ p, p ∈ s.node.pivots →
    s.node.stop - p.start ≤ c.maxBranches → p ∈ s'.node.pivots := by
  induction fuel with
  | zero => intro i s s' h; cases h
  | succ fuel ih =>
    intro i s s' h p hp hs
    unfold scan at h
    split at h
    · cases h; exact hp
    · rename_i q hq
      split at h
      · rename_i hnf
        split at h
        · cases h
        · rename_i n hn
          have hne : p ≠ q := by
            intro he
            subst he
            simp [needsFlush] at hnf
            omega
          unfold flush at hn
          rw [hq] at hn
          simp only at hn
          split at hn
          · cases hn
          · cases hn
            refine ih _ _ _ h p ?_ hs
            simp only [clearPivot, List.mem_append]
            have hmem : p ∈ s.node.pivots.set i { tuples := 0, bytes := 0, start := s.node.stop } := by
              obtain ⟨j, hj, rfl⟩ := List.getElem_of_mem hp
              have hji : j ≠ i := by
                intro he
                subst he
                rw [List.getElem?_eq_getElem hj] at hq
                exact hne (Option.some.inj hq)
              rw [List.mem_iff_getElem]
              exact ⟨j, by simpa using hj, by rw [List.getElem_set_ne (Ne.symm hji)]⟩
            rw [← List.take_append_drop (i + 1) (s.node.pivots.set i _), List.mem_append] at hmem
            rcases hmem with h1 | h1
            · exact Or.inl h1
            · exact Or.inr (Or.inr h1)
      · exact ih _ _ _ h p hp hs

/-! ### How many pivots there are afterwards -/

/-- Pivots with live branches. -/
def live (n : Node) : Nat := n.pivots.countP (fun p => decide (p.start ≠ n.stop))

/-- The pivots added by the first flushes. -/
def total (sp : Nat → Nat) : Nat → Nat
  | 0 => 0
  | i + 1 => total sp i + sp i

theorem flush_shape {n m : Node} {k i : Nat} (h : flush k i n = some m) :
    m.stop = n.stop ∧ m.pivots.length = n.pivots.length + k ∧ live m + 1 = live n := by
  unfold flush at h
  split at h
  · cases h
  · rename_i p hp
    split at h
    · cases h
    · rename_i hs
      cases h
      have hi : i < n.pivots.length := (List.getElem?_eq_some_iff.mp hp).1
      have hpi : n.pivots[i] = p := (List.getElem?_eq_some_iff.mp hp).2
      have hcut : n.pivots = n.pivots.take i ++ p :: n.pivots.drop (i + 1) := by
        rw [← hpi, List.getElem_cons_drop, List.take_append_drop]
      refine ⟨rfl, ?_, ?_⟩
      · simp only [clearPivot, List.length_append, List.length_replicate, List.length_take,
          List.length_drop, List.length_set]
        omega
      · have hset : ∀ q : Pivot, n.pivots.set i q =
            n.pivots.take i ++ q :: n.pivots.drop (i + 1) := by
          intro q
          rw [List.set_eq_take_append_cons_drop, if_pos hi]
        have ht : ∀ q : Pivot, (n.pivots.take i ++ q :: n.pivots.drop (i + 1)).take (i + 1) =
            n.pivots.take i ++ [q] := by
          intro q
          rw [List.take_append]
          have : (n.pivots.take i).length = i := by rw [List.length_take]; omega
          rw [this]
          simp [List.take_take]
        have hd : ∀ q : Pivot, (n.pivots.take i ++ q :: n.pivots.drop (i + 1)).drop (i + 1) =
            n.pivots.drop (i + 1) := by
          intro q
          rw [List.drop_append]
          have : (n.pivots.take i).length = i := by rw [List.length_take]; omega
          rw [this]
          simp
          omega
        have hl : live n = (n.pivots.take i).countP (fun p => decide (p.start ≠ n.stop)) +
            ((n.pivots.drop (i + 1)).countP (fun p => decide (p.start ≠ n.stop)) + 1) := by
          unfold live
          conv => lhs; rw [hcut]
          rw [List.countP_append, List.countP_cons, if_pos (by simpa using hs)]
        rw [hl]
        simp only [live, clearPivot, hset, ht, hd, List.countP_append, List.countP_replicate]
        simp
        omega

theorem scan_shape (c : Cfg) (sp : Nat → Nat) (fuel : Nat) : ∀ (i : Nat) (s s' : Loop),
    scan c sp fuel i s = some s' →
    s'.node.pivots.length + total sp s.count = s.node.pivots.length + total sp s'.count ∧
      live s'.node + s'.count = live s.node + s.count := by
  induction fuel with
  | zero => intro i s s' h; cases h
  | succ fuel ih =>
    intro i s s' h
    unfold scan at h
    split at h
    · cases h; exact ⟨rfl, rfl⟩
    · split at h
      · split at h
        · cases h
        · rename_i n hn
          obtain ⟨_, h2, h3⟩ := flush_shape hn
          obtain ⟨i1, i2⟩ := ih _ _ _ h
          simp only [total] at i1 i2
          exact ⟨by omega, by omega⟩
      · exact ih _ { s with fullest := fuller s.node i s.fullest } _ h

theorem flushFullest_shape {c : Cfg} {sp : Nat → Nat} {fuel : Nat} {n m : Node} {k k' : Nat}
    (h : flushFullest c sp fuel n k = some (m, k')) :
    m.pivots.length + total sp k = n.pivots.length + total sp k' ∧
      live m + k' = live n + k := by
  unfold flushFullest at h
  split at h
  · cases h
  · rename_i s hs
    obtain ⟨a1, a2⟩ := scan_shape c sp fuel _ _ _ hs
    simp only at a1 a2
    split at h
    · split at h
      · cases h
      · split at h
        · cases h
        · rename_i n' hn
          cases h
          obtain ⟨_, h2, h3⟩ := flush_shape hn
          simp only [total]
          exact ⟨by omega, by omega⟩
    · cases h; exact ⟨a1, a2⟩

/-- Relieving a node flushes each pivot with live branches at most once, and adds to
the node exactly the pivots from the splits of these flushes. -/
theorem relieve_shape (c : Cfg) (sp : Nat → Nat) (r : Nat) : ∀ {fuel : Nat} {n m : Node}
    {k k' : Nat}, relieve c sp r fuel n k = some (m, k') →
    m.pivots.length + total sp k = n.pivots.length + total sp k' ∧
      live m + k' = live n + k := by
  induction r with
  | zero => intro fuel n m k k' h; cases h
  | succ r ih =>
    intro fuel n m k k' h
    unfold relieve at h
    split at h
    · split at h
      · cases h
      · rename_i n1 k1 h1
        obtain ⟨a1, a2⟩ := flushFullest_shape h1
        obtain ⟨b1, b2⟩ := ih h
        exact ⟨by omega, by omega⟩
    · cases h; exact ⟨rfl, rfl⟩

/-- If no flush adds more than `b` pivots, the number stays within this bound. -/
theorem relieve_bound (c : Cfg) {sp : Nat → Nat} {b : Nat} (hb : ∀ i, sp i ≤ b) {r fuel : Nat}
    {n m : Node} {k : Nat} (h : relieve c sp r fuel n 0 = some (m, k)) :
    m.pivots.length ≤ n.pivots.length + b * live n := by
  obtain ⟨h1, h2⟩ := relieve_shape c sp r h
  have ht : ∀ j, total sp j ≤ b * j := by
    intro j
    induction j with
    | zero => simp [total]
    | succ j ih =>
      have := hb j
      simp only [total, Nat.mul_succ]
      omega
  have h3 := ht k
  have h4 : b * k ≤ b * live n := Nat.mul_le_mul_left b (by omega)
  simp only [total] at h1
  omega

/-- The limit on the pivot keys of a node, one more than its pivots, that
`trunk_split_leaf` asserts (trunk.c:5902-5908), for a fanout (trunk.c:9659). -/
def maxKeys (fanout : Nat) : Nat := fanout + 6

/-- A node with the default fanout of 8 in which all pivots have one branch more than
the default limit of 24. -/
def wide : Node := { pivots := List.replicate 8 ⟨25, 25, 0⟩, start := 0, stop := 25 }

theorem wide_good : Good wide := by
  have hm : ∀ p, p ∈ wide.pivots → p = ⟨25, 25, 0⟩ := fun p hp => by
    simp only [wide, List.mem_replicate] at hp; exact hp.2
  refine ⟨by decide, ?_, ?_, ?_⟩
  · intro p hp; rw [hm p hp]; decide
  · intro p hp _; rw [hm p hp]; decide
  · intro p hp _; rw [hm p hp]; decide

/-- All eight pivots are flushed at once. If each child is a leaf and splits in two, the
node would have 16 pivots and 17 keys; the limit is 14, and its assertion fails on the
way. -/
theorem wide_exceeds : ∃ m, relieve ⟨24, 1000⟩ (fun _ => 1) 3 20 wide 0 = some (m, 8) ∧
    m.pivots.length = 16 ∧ maxKeys 8 < m.pivots.length + 1 :=
  ⟨{ pivots := List.replicate 16 ⟨0, 0, 25⟩, start := 25, stop := 25 },
    by decide +kernel, by decide, by decide⟩

/-- With a fanout of at most 4 and splits in two at most the limit is kept, even in the
form in which it is asserted, which counts the leaf that is split twice: the number of
new leaves, one of them the old one, and the keys before. -/
theorem narrow_keeps (c : Cfg) {sp : Nat → Nat} (hb : ∀ i, sp i ≤ 1) {fanout r fuel : Nat}
    (hf : fanout ≤ 4) {n m : Node} {k : Nat} (hn : n.pivots.length ≤ fanout)
    (h : relieve c sp r fuel n 0 = some (m, k)) : m.pivots.length + 2 ≤ maxKeys fanout := by
  have h1 := relieve_bound c hb h
  have h2 : live n ≤ n.pivots.length := List.countP_le_length
  unfold maxKeys
  omega

/-! ### Counts that do not agree -/

/-- A node with bytes but no tuples in its second pivot. -/
def uncounted : Node := { pivots := [⟨0, 0, 5⟩, ⟨0, 10, 0⟩], start := 0, stop := 5 }

/-- If bytes are counted for a pivot without tuples, the wrong pivot is chosen, it has
nothing to flush, and the assertion fails. -/
theorem uncounted_fails : isFull ⟨10, 3⟩ uncounted = true ∧
    ∀ sp fuel count, flushFullest ⟨10, 3⟩ sp fuel uncounted count = none := by
  refine ⟨by decide, ?_⟩
  intro sp fuel count
  match fuel with
  | 0 => rfl
  | 1 => rfl
  | 2 => rfl
  | fuel + 3 => rfl

/-! ### Witness -/

/-- Four pivots, one with too many branches, and too many bytes. -/
def demo : Node :=
  { pivots := [⟨5, 50, 7⟩, ⟨9, 90, 0⟩, ⟨8, 80, 6⟩, ⟨3, 40, 8⟩], start := 0, stop := 9 }

example : Good demo :=
  ⟨by decide, by decide, by decide, by decide⟩

example : isFull ⟨4, 60⟩ demo = true ∧
    relieve ⟨4, 60⟩ (fun i => i + 1) 6 20 demo 0 =
      some ({ pivots := [⟨0, 0, 9⟩, ⟨0, 0, 9⟩, ⟨0, 0, 9⟩, ⟨0, 0, 9⟩, ⟨0, 0, 9⟩, ⟨0, 0, 9⟩, ⟨0, 0, 9⟩,
        ⟨0, 0, 9⟩, ⟨0, 0, 9⟩, ⟨3, 40, 8⟩], start := 8, stop := 9 }, 3) := by
  decide +kernel

end Splinter.Relieve
