import Verif.Proof.TrunkCow

/-! # Proofs about changing the trunk under running lookups: the invariant -/
namespace Splinter.Trunk.Cow

variable {R α : Type}

/-- Somebody may still write the page. -/
def Own (s : State R) (a : Nat) : Prop := ∃ w, (s.writers w).own = some a

/-- The first `n + 1` pages of an old path are final and in no newer path. -/
def PrefixOk (p : Nat → List Nat) (s : State R) (v n : Nat) : Prop :=
  ∀ i, i ≤ n → ∀ a, (p v)[i]? = some a → ¬ Own s a ∧ ∀ u, v < u → u ≤ s.ver → a ∉ p u

/-- A page being written is in the paths made since, and in no other. -/
def CurOk (p : Nat → List Nat) (s : State R) (cur v : Nat) : Prop :=
  cur < s.next ∧ ∀ u, u ≤ s.ver → (cur ∈ p u ↔ v < u)

def GcOk (p : Nat → List Nat) (s : State R) (n v : Nat) (gc : Gc) : Prop :=
  ∀ a left, gc = .at a left → left ≤ n ∧ (p v)[n - left]? = some a ∧
    ∀ i r, s.readers i = some r → r.entry = v → n - left < r.depth

structure ReaderOk (p : Nat → List Nat) (s : State R) (r : Reader R) : Prop where
  entry : r.entry ≤ s.ver
  here : (p r.entry)[r.depth]? = some r.addr
  free : ∀ i, i ≤ r.depth → ∀ a, (p r.entry)[i]? = some a → ¬ Own s a
  got : r.acc ++ r.todo = content s.heap ((p r.entry).take (r.depth + 1))
  last : ∃ d, (s.heap r.addr).refs = d ++ r.todo

def WriterOk (p : Nat → List Nat) (s : State R) : Writer R → Prop
  | .idle => True
  | .claimed => True
  | .building acc nxt k => acc = content s.heap ((p s.ver).take k) ∧ nxt = (p s.ver)[k]? ∧
      k ≤ (p s.ver).length ∧ ∀ i, i < k → ∀ a, (p s.ver)[i]? = some a → ¬ Own s a
  | .copied old new => old = s.root ∧ s.heap new = s.heap s.root ∧ new < s.next ∧
      (∀ u, u ≤ s.ver → new ∉ p u) ∧ ¬ Own s s.root
  | .walking old cur n v => v < s.ver ∧ s.hist v = old ∧ CurOk p s cur v ∧ PrefixOk p s v n ∧
      ∃ o, (p v)[n]? = some o ∧ s.heap cur = s.heap o
  | .modified old n held dead gc v => v < s.ver ∧ s.hist v = old ∧
      (∀ cur, held = some cur → CurOk p s cur v) ∧ PrefixOk p s v n ∧
      (∃ o, (p v)[n]? = some o ∧ ∀ x ∈ dead, x ∈ (s.heap o).refs) ∧
      (∀ u, v < u → u ≤ s.ver → ∀ x ∈ dead, x ∉ content s.heap (p u)) ∧ GcOk p s n v gc

/-- What the pages of all paths are like. -/
structure TreeOk (V : List R → α) (p : Nat → List Nat) (s : State R) : Prop where
  root : s.root = s.hist s.ver
  path : ∀ v, v ≤ s.ver → Path s.heap (s.hist v) (p v)
  bound : ∀ v, v ≤ s.ver → ∀ a ∈ p v, a < s.next
  nodup : ∀ v, v ≤ s.ver → (content s.heap (p v)).Nodup
  used : ∀ v, v ≤ s.ver → ∀ x ∈ content s.heap (p v), x ∈ s.used
  says : ∀ v, v ≤ s.ver → ∀ q, V (q ++ content s.heap (p v)) = V (q ++ s.said v)

structure ClaimOk (s : State R) : Prop where
  flag : ∀ w, (s.writers w).claiming = true → s.claim = true
  one : ∀ w w', (s.writers w).claiming = true → (s.writers w').claiming = true → w = w'
  crash : s.crashed = false

structure Inv (V : List R → α) (p : Nat → List Nat) (s : State R) : Prop where
  tree : TreeOk V p s
  claims : ClaimOk s
  owns : ∀ w w' a, (s.writers w).own = some a → (s.writers w').own = some a → w = w'
  readers : ∀ i r, s.readers i = some r → ReaderOk p s r
  writers : ∀ w, WriterOk p s (s.writers w)

theorem own_lt {p : Nat → List Nat} {s : State R} {w : Writer R} (h : WriterOk p s w) {a : Nat}
    (e : w.own = some a) : a < s.next := by
  cases w <;> simp only [Writer.own, reduceCtorEq, Option.some.injEq] at e
  case copied => subst e; exact h.2.2.1
  case walking => subst e; exact h.2.2.1.1
  case modified => subst e; exact (h.2.2.1 _ rfl).1

theorem Inv.own_lt {V : List R → α} {p : Nat → List Nat} {s : State R} (I : Inv V p s) {a : Nat}
    (h : Own s a) : a < s.next := by
  obtain ⟨w, e⟩ := h; exact Cow.own_lt (I.writers w) e

theorem not_own {s : State R} {a : Nat} (h : ¬ Locked s a) : ¬ Own s a :=
  fun ⟨w, e⟩ => h ⟨w, .inl e⟩

/-- How a step of writer `w` may change what the others rely on. -/
structure Moved (p p' : Nat → List Nat) (s s' : State R) (w : Nat) : Prop where
  others : ∀ w', w' ≠ w → s'.writers w' = s.writers w'
  own : ∀ a, (s'.writers w).own = some a → (s.writers w).own = some a ∨ s.next ≤ a
  next : s.next ≤ s'.next
  ver : s.ver ≤ s'.ver
  hist : ∀ v : Nat, v ≤ s.ver → s'.hist v = s.hist v
  stay : ∀ v, v ≤ s.ver → ∀ i : Nat, (∀ j : Nat, j < i → ∀ a, (p v)[j]? = some a → ¬ Own s a) →
    (p' v)[i]? = (p v)[i]?
  back : ∀ u, u ≤ s'.ver → ∀ a ∈ p' u, (u ≤ s.ver ∧ a ∈ p u) ∨ (s.ver < u ∧ a ∈ p s.ver) ∨
    s.next ≤ a ∨ (s.writers w).own = some a
  fwd : ∀ w' a, w' ≠ w → (s.writers w').own = some a → ∀ u, u ≤ s'.ver →
    (u ≤ s.ver → a ∈ p u → a ∈ p' u) ∧ (s.ver < u → a ∈ p s.ver → a ∈ p' u)
  heap : ∀ a, a < s.next → (s.writers w).own ≠ some a → s'.heap a = s.heap a
  cont : ∀ u, u ≤ s'.ver → ∀ x ∈ s.used, x ∈ content s'.heap (p' u) →
    (u ≤ s.ver ∧ x ∈ content s.heap (p u)) ∨ (s.ver < u ∧ x ∈ content s.heap (p s.ver))
  readers : s'.readers = s.readers
  quiet : (s'.ver = s.ver ∧ s'.root = s.root) ∨ ∀ w', w' ≠ w → (s.writers w').claiming = false

section
variable {V : List R → α} {p p' : Nat → List Nat} {s s' : State R} {w : Nat}

theorem Moved.own_back (T : Moved p p' s s' w) {a : Nat} (h : Own s' a) : Own s a ∨ s.next ≤ a := by
  obtain ⟨w', e⟩ := h
  by_cases hw : w' = w
  · subst hw
    rcases T.own a e with h | h
    · exact .inl ⟨_, h⟩
    · exact .inr h
  · rw [T.others _ hw] at e; exact .inl ⟨_, e⟩

/-- A page that nobody wrote before, and that was there, nobody writes now. -/
theorem Moved.final (T : Moved p p' s s' w) {a : Nat} (h : ¬ Own s a) (hl : a < s.next) : ¬ Own s' a := by
  intro h'
  rcases T.own_back h' with h1 | h1
  · exact h h1
  · omega

/-- The final pages of a path, and the next one, stay where they are. -/
theorem Moved.keep (T : Moved p p' s s' w) {v n : Nat} (hv : v ≤ s.ver)
    (hf : ∀ i, i < n → ∀ a, (p v)[i]? = some a → ¬ Own s a) (i : Nat) (hi : i ≤ n) :
    (p' v)[i]? = (p v)[i]? := T.stay v hv i fun j hj => hf j (by omega)

theorem Moved.take (T : Moved p p' s s' w) {v n : Nat} (hv : v ≤ s.ver)
    (hf : ∀ i, i < n → ∀ a, (p v)[i]? = some a → ¬ Own s a) : (p' v).take n = (p v).take n := by
  apply List.ext_getElem?
  intro i
  rw [List.getElem?_take, List.getElem?_take]
  split
  · exact T.keep hv hf i (by omega)
  · rfl

theorem Moved.content (T : Moved p p' s s' w) (I : Inv V p s) {v n : Nat} (hv : v ≤ s.ver)
    (hf : ∀ i, i < n → ∀ a, (p v)[i]? = some a → ¬ Own s a) :
    content s'.heap ((p' v).take n) = content s.heap ((p v).take n) := by
  rw [T.take hv hf]
  apply content_congr
  intro a ha
  obtain ⟨i, hi, e⟩ := List.getElem_of_mem ha
  have e' : (p v)[i]? = some a := by
    have := List.getElem?_eq_getElem hi
    rw [e, List.getElem?_take] at this
    split at this
    · exact this
    · cases this
  have hin : i < n := by simp at hi; omega
  rw [T.heap a (I.tree.bound v hv a (List.mem_of_getElem? e'))]
  intro h; exact hf i hin a e' ⟨w, h⟩

theorem Moved.reader (T : Moved p p' s s' w) (I : Inv V p s) {r : Reader R} (h : ReaderOk p s r) :
    ReaderOk p' s' r := by
  have hf : ∀ i, i < r.depth + 1 → ∀ a, (p r.entry)[i]? = some a → ¬ Own s a :=
    fun i hi => h.free i (by omega)
  refine ⟨Nat.le_trans h.entry T.ver, ?_, ?_, ?_, ?_⟩
  · rw [T.keep h.entry hf _ (by omega)]; exact h.here
  · intro i hi a e
    rw [T.keep h.entry hf _ (by omega)] at e
    exact T.final (h.free i hi a e) (I.tree.bound _ h.entry a (List.mem_of_getElem? e))
  · rw [T.content I h.entry hf]; exact h.got
  · rw [T.heap r.addr (I.tree.bound _ h.entry _ (List.mem_of_getElem? h.here))
      (fun e => h.free _ (Nat.le_refl _) _ h.here ⟨w, e⟩)]
    exact h.last

theorem Moved.prefixOk (T : Moved p p' s s' w) (I : Inv V p s) {v n : Nat} (hv : v < s.ver)
    (h : PrefixOk p s v n) : PrefixOk p' s' v n := by
  intro i hi a e
  rw [T.keep (n := n + 1) (by omega) (fun j hj b hb => (h j (by omega) b hb).1) i (by omega)] at e
  have hb := I.tree.bound v (by omega) a (List.mem_of_getElem? e)
  refine ⟨T.final (h i hi a e).1 hb, fun u hu hu' hm => ?_⟩
  rcases T.back u hu' a hm with ⟨h1, h2⟩ | ⟨h1, h2⟩ | h1 | h1
  · exact (h i hi a e).2 u hu h1 h2
  · exact (h i hi a e).2 s.ver (by omega) (by omega) h2
  · omega
  · exact (h i hi a e).1 ⟨w, h1⟩

theorem Moved.curOk (T : Moved p p' s s' w) (I : Inv V p s) {w' v a : Nat} (hw : w' ≠ w)
    (e : (s.writers w').own = some a) (hv : v < s.ver) (h : CurOk p s a v) : CurOk p' s' a v := by
  refine ⟨Nat.lt_of_lt_of_le h.1 T.next, fun u hu => ⟨fun hm => ?_, fun hu' => ?_⟩⟩
  · rcases T.back u hu a hm with ⟨h1, h2⟩ | ⟨h1, h2⟩ | h1 | h1
    · exact (h.2 u h1).mp h2
    · omega
    · have := h.1; omega
    · exact (hw (I.owns _ _ _ e h1)).elim
  · rcases Nat.lt_or_ge s.ver u with h1 | h1
    · exact (T.fwd w' a hw e u hu).2 h1 ((h.2 s.ver (by omega)).mpr hv)
    · exact (T.fwd w' a hw e u hu).1 h1 ((h.2 u h1).mpr hu')

theorem Moved.writer (T : Moved p p' s s' w) (I : Inv V p s) {w' : Nat} (hw : w' ≠ w) :
    WriterOk p' s' (s'.writers w') := by
  rw [T.others w' hw]
  have W := I.writers w'
  have hq := T.quiet
  cases hst : s.writers w' with
  | idle => trivial
  | claimed => trivial
  | building acc nxt k =>
    rw [hst] at W
    obtain ⟨h1, h2, h3, h4⟩ := W
    rcases hq with ⟨hver, _⟩ | hq
    · simp only [WriterOk]
      rw [hver]
      have hk := T.keep (Nat.le_refl _) h4
      refine ⟨by rw [T.content I (Nat.le_refl _) h4]; exact h1, by rw [hk k (by omega)]; exact h2, ?_, ?_⟩
      · have := congrArg List.length (T.take (Nat.le_refl _) h4)
        simp at this; omega
      · intro i hi a e
        rw [hk i (by omega)] at e
        exact T.final (h4 i hi a e) (I.tree.bound _ (Nat.le_refl _) a (List.mem_of_getElem? e))
    · have := hq w' hw
      rw [hst] at this; simp [Writer.claiming] at this
  | copied old new =>
    rw [hst] at W
    obtain ⟨h1, h2, h3, h4, h5⟩ := W
    rcases hq with ⟨hver, hroot⟩ | hq
    · simp only [WriterOk]
      rw [hver, hroot]
      have hnew : (s.writers w').own = some new := by rw [hst]; rfl
      have hrl : s.root < s.next := by
        have h6 := (I.tree.path s.ver (Nat.le_refl _)).head
        rw [← I.tree.root] at h6
        exact I.tree.bound s.ver (Nat.le_refl _) _ (List.mem_of_getElem? h6)
      refine ⟨h1, ?_, Nat.lt_of_lt_of_le h3 T.next, ?_, T.final h5 hrl⟩
      · rw [T.heap new h3 (fun h => hw (I.owns _ _ _ hnew h)), T.heap s.root hrl (fun h => h5 ⟨w, h⟩)]
        exact h2
      · intro u hu hm
        rcases T.back u (by omega) new hm with ⟨h6, h7⟩ | ⟨h6, h7⟩ | h6 | h6
        · exact h4 u h6 h7
        · omega
        · omega
        · exact hw (I.owns _ _ _ hnew h6)
    · have := hq w' hw
      rw [hst] at this; simp [Writer.claiming] at this
  | walking old cur n v =>
    rw [hst] at W
    obtain ⟨h1, h2, h3, h4, o, h5, h6⟩ := W
    have hcur : (s.writers w').own = some cur := by rw [hst]; rfl
    refine ⟨Nat.lt_of_lt_of_le h1 T.ver, by rw [T.hist v (by omega)]; exact h2,
      T.curOk I hw hcur h1 h3, T.prefixOk I h1 h4, o, ?_, ?_⟩
    · rw [T.keep (n := n + 1) (by omega) (fun j hj b hb => (h4 j (by omega) b hb).1) n (by omega)]
      exact h5
    · rw [T.heap cur h3.1 (fun h => hw (I.owns _ _ _ hcur h)),
        T.heap o (I.tree.bound v (by omega) _ (List.mem_of_getElem? h5))
          (fun h => (h4 n (by omega) o h5).1 ⟨w, h⟩)]
      exact h6
  | modified old n held dead gc v =>
    rw [hst] at W
    obtain ⟨h1, h2, h3, h4, ⟨o, h5, h6⟩, h7, h8⟩ := W
    have hk := T.keep (n := n + 1) (by omega : v ≤ s.ver) (fun j hj b hb => (h4 j (by omega) b hb).1)
    refine ⟨Nat.lt_of_lt_of_le h1 T.ver, by rw [T.hist v (by omega)]; exact h2, ?_, T.prefixOk I h1 h4,
      ⟨o, by rw [hk n (by omega)]; exact h5, ?_⟩, ?_, ?_⟩
    · intro cur e
      exact T.curOk I hw (by rw [hst]; exact e) h1 (h3 cur e)
    · rw [T.heap o (I.tree.bound v (by omega) _ (List.mem_of_getElem? h5))
          (fun h => (h4 n (by omega) o h5).1 ⟨w, h⟩)]
      exact h6
    · intro u hu hu' x hx hm
      have hxu : x ∈ s.used := I.tree.used v (by omega) x
        (mem_content.mpr ⟨o, List.mem_of_getElem? h5, h6 x hx⟩)
      rcases T.cont u hu' x hxu hm with ⟨h9, h10⟩ | ⟨h9, h10⟩
      · exact h7 u hu h9 x hx h10
      · exact h7 s.ver h1 (by omega) x hx h10
    · intro a left e
      obtain ⟨h9, h10, h11⟩ := h8 a left e
      refine ⟨h9, by rw [hk _ (by omega)]; exact h10, ?_⟩
      rw [T.readers]; exact h11

theorem Moved.inv (T : Moved p p' s s' w) (I : Inv V p s) (ht : TreeOk V p' s') (hc : ClaimOk s')
    (hw : WriterOk p' s' (s'.writers w)) : Inv V p' s' := by
  refine ⟨ht, hc, ?_, ?_, ?_⟩
  · have key : ∀ w1 a, w1 ≠ w → (s'.writers w).own = some a → (s'.writers w1).own = some a → False := by
      intro w1 a h1 h2 h3
      rw [T.others w1 h1] at h3
      rcases T.own a h2 with h4 | h4
      · exact h1 (I.owns _ _ _ h3 h4)
      · have := I.own_lt ⟨w1, h3⟩; omega
    intro w1 w2 a h1 h2
    by_cases e1 : w1 = w
    · by_cases e2 : w2 = w
      · rw [e1, e2]
      · subst e1; exact (key w2 a e2 h1 h2).elim
    · by_cases e2 : w2 = w
      · subst e2; exact (key w1 a e1 h2 h1).elim
      · rw [T.others w1 e1] at h1; rw [T.others w2 e2] at h2
        exact I.owns _ _ _ h1 h2
  · intro i r e
    rw [T.readers] at e
    exact T.reader I (I.readers i r e)
  · intro w1
    by_cases e1 : w1 = w
    · subst e1; exact hw
    · exact T.writer I e1

end
end Splinter.Trunk.Cow
