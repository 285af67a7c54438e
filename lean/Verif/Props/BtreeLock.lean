import Verif.Proof.BtreeLock2
/-!
# C55: threads in one memtable tree never wait for each other in a circle

Inserts, lookups and iterators over one memtable, any number of each at once: from every state they
can get into, all of them can be brought to their ends, whatever is in the tree.
-/
namespace Splinter.BtreeLock

/-- From every state the threads can get into, a scheduler can bring every operation to its
end, whatever the tree decides: no thread waits for ever. An iterator that rests may have to
be closed. -/
theorem tree_threads_finish {ht : Nat → Nat} (hh : AllHeights ht) {s : Sys} (h : Reach false ht s) :
    Force false ht Quiet s :=
  force_quiet hh _ s (inv_reach h) (Nat.le_refl _)

/-- As long as an operation is not finished, some thread can move or an iterator rests. -/
theorem tree_no_deadlock {ht : Nat → Nat} (hh : AllHeights ht) {s : Sys} (h : Reach false ht s)
    (hq : ¬ Quiet s) : (∃ i t, Step false ht s i t) ∨ ∃ (i l g : Nat), s.ths[i]? = some (.rest l g) := by
  cases tree_threads_finish hh h with
  | here hp => exact absurd hp hq
  | go i h1 _ => exact Or.inl ⟨i, h1⟩
  | close i l g h1 _ => exact Or.inr ⟨i, l, g, h1⟩

/-- A thread that is not an iterator at rest and holds a page waits only for threads that can
get on: among the threads that hold pages one is not stuck. -/
theorem tree_holder_moves {ht : Nat → Nat} (hh : AllHeights ht) {s : Sys} (h : Reach false ht s)
    (ha : ∃ (i : Nat) (q : Pc), s.ths[i]? = some q ∧ q.holds ≠ []) :
    ∃ (i : Nat) (q : Pc), s.ths[i]? = some q ∧ q.holds ≠ [] ∧
      ((∃ t, Step false ht s i t) ∨ ∃ l g, q = .rest l g) := by
  obtain ⟨i, q, hi, hne⟩ := ha
  have hact : ∀ q : Pc, q.holds ≠ [] ↔ q.active = true := by intro q; simp [Pc.active]
  obtain ⟨j, p, hj, hp, hs⟩ := not_all_stuck (inv_reach h) ⟨i, q, hi, (hact q).mp hne⟩
  refine ⟨j, p, hj, (hact p).mpr hp, ?_⟩
  by_cases hr : ∃ l g, p = .rest l g
  · exact Or.inr hr
  · exact Or.inl (can_step hh hj ((inv_reach h).ok hj) hs (by rintro rfl; simp [Pc.active, Pc.holds] at hp)
      (fun l g e => hr ⟨l, g, e⟩))

/-- Two threads that hold a page both hold it for reading, or one of them does. -/
theorem tree_locks_exclusive {ht : Nat → Nat} {s : Sys} (h : Reach false ht s) {i j : Nat} {p q : Pc}
    {a : Nat} {m m' : Mode} (hij : i ≠ j) (hi : s.ths[i]? = some p) (hj : s.ths[j]? = some q)
    (hm : (a, m) ∈ p.holds) (hm' : (a, m') ∈ q.holds) : m = .r ∨ m' = .r :=
  (inv_reach h).compat hij hi hj hm hm'

/-! ## Examples and what does not hold -/

theorem Reach.go {bad ht s i q q' e} (h : Reach bad ht s) (hi : s.ths[i]? = some q)
    (hn : Next bad ht s i q q' e) : Reach bad ht (s.put i q' e) := .step h (.mk hi hn)

/-- Page 1 is a leaf, page 2 has height 1, and so on. -/
def exHt (a : Nat) : Nat := a - 1

example : AllHeights exHt := fun h => ⟨h + 1, by simp, by simp [exHt]⟩

/-- An iterator that looks for its end, with a claim on leaf 1, and an insert that has come to
leaf 1. -/
theorem ex_iter {bad : Bool} : Reach bad exHt ⟨1, 0, [.root (.stop 1), .pair 0 1, .idle]⟩ := by
  have r : Reach bad exHt ⟨1, 0, [.idle, .idle, .idle]⟩ := .init (by simp)
  have r : Reach bad exHt ⟨1, 0, [.root .start, .idle, .idle]⟩ := .call r (.op (i := 0) (k := .start) rfl (by simp))
  have r : Reach bad exHt ⟨1, 0, [.desc .start 0, .idle, .idle]⟩ := r.go (i := 0) rfl (.rootRead (by simp) (by decide))
  have r : Reach bad exHt ⟨1, 0, [.down .start 0 1, .idle, .idle]⟩ :=
    r.go (i := 0) rfl (.descDown (by decide) (by decide) (by decide))
  have r : Reach bad exHt ⟨1, 0, [.free [(0, .r)] (.desc .start 1), .idle, .idle]⟩ :=
    r.go (i := 0) rfl (.downRead (by simp) (by decide))
  have r : Reach bad exHt ⟨1, 0, [.free [] (.desc .start 1), .idle, .idle]⟩ := r.go (i := 0) rfl .free
  have r : Reach bad exHt ⟨1, 0, [.desc .start 1, .idle, .idle]⟩ := r.go (i := 0) rfl .freed
  have r : Reach bad exHt ⟨1, 0, [.leafL .start 1, .idle, .idle]⟩ := r.go (i := 0) rfl (.descLeaf (by simp) (by decide))
  have r : Reach bad exHt ⟨1, 0, [.root (.stop 1), .idle, .idle]⟩ := r.go (i := 0) rfl (.startClaim (by decide))
  have r : Reach bad exHt ⟨1, 0, [.root (.stop 1), .root .ins, .idle]⟩ := .call r (.op (i := 1) (k := .ins) rfl (by simp))
  have r : Reach bad exHt ⟨1, 0, [.root (.stop 1), .top, .idle]⟩ := r.go (i := 1) rfl (.rootIns (by decide))
  have r : Reach bad exHt ⟨1, 0, [.root (.stop 1), .desc .ins 0, .idle]⟩ := r.go (i := 1) rfl (.topOn (by decide))
  have r : Reach bad exHt ⟨1, 0, [.root (.stop 1), .down .ins 0 1, .idle]⟩ :=
    r.go (i := 1) rfl (.descDown (by decide) (by decide) (by decide))
  exact r.go (i := 1) rfl (.downIns (by decide))

/-- The iterator of `ex_iter` gets to its first tuple. -/
theorem ex_rest {bad : Bool} {q : Pc} (hq : ∀ a, (a, Mode.w) ∉ q.holds)
    (r : Reach bad exHt ⟨1, 0, [.root (.stop 1), q, .idle]⟩) : Reach bad exHt ⟨1, 0, [.rest 1 0, q, .idle]⟩ := by
  have hr : ∀ (x : Pc) (a : Nat), (Sys.mk 1 0 [x, q, .idle]).readable 0 a = true := by
    intro x a
    by_contra hc
    obtain ⟨j, p, h1, h2, h3⟩ := not_readable (by simpa using hc)
    match j, h1, h2 with
    | 1, _, h2 => cases h2; exact hq a h3
    | 2, _, h2 => cases h2; simp [Pc.holds] at h3
  have r : Reach bad exHt ⟨1, 0, [.desc (.stop 1) 0, q, .idle]⟩ := r.go (i := 0) rfl (.rootRead (by simp) (hr _ _))
  have r : Reach bad exHt ⟨1, 0, [.down (.stop 1) 0 1, q, .idle]⟩ :=
    r.go (i := 0) rfl (.descDown (by simp [hgt]) (by decide) (by simp [hgt, exHt]))
  have r : Reach bad exHt ⟨1, 0, [.free [(0, .r)] (.desc (.stop 1) 1), q, .idle]⟩ :=
    r.go (i := 0) rfl (.downRead (by simp) (hr _ _))
  have r : Reach bad exHt ⟨1, 0, [.free [] (.desc (.stop 1) 1), q, .idle]⟩ := r.go (i := 0) rfl .free
  have r : Reach bad exHt ⟨1, 0, [.desc (.stop 1) 1, q, .idle]⟩ := r.go (i := 0) rfl .freed
  have r : Reach bad exHt ⟨1, 0, [.leafL (.stop 1) 1, q, .idle]⟩ := r.go (i := 0) rfl (.descLeaf (by simp) (by simp [hgt, exHt]))
  have r : Reach bad exHt ⟨1, 0, [.free [(1, .r), (1, .c)] (.found 1 0), q, .idle]⟩ := r.go (i := 0) rfl .stop
  have r : Reach bad exHt ⟨1, 0, [.free [(1, .c)] (.found 1 0), q, .idle]⟩ := r.go (i := 0) rfl .free
  have r : Reach bad exHt ⟨1, 0, [.free [] (.found 1 0), q, .idle]⟩ := r.go (i := 0) rfl .free
  have r : Reach bad exHt ⟨1, 0, [.found 1 0, q, .idle]⟩ := r.go (i := 0) rfl .freed
  exact r.go (i := 0) rfl .foundRest

/-- What the header documents as a known issue (splinterdb.h 309–312): an insert into the leaf an
iterator rests on waits, and no thread can move, until the iterator is moved or closed. A
thread that inserts beside its own iterator waits for ever. -/
theorem rest_blocks_insert : ∃ s, Reach false exHt s ∧ s.ths = [.rest 1 0, .lockLeaf 1, .idle] ∧
    ∀ i, Waits false exHt s i := by
  refine ⟨⟨1, 0, [.rest 1 0, .lockLeaf 1, .idle]⟩, ?_, rfl, ?_⟩
  · have r := ex_rest (bad := false) (by simp [Pc.holds]) ex_iter
    have r : Reach false exHt ⟨1, 0, [.rest 1 0, .free [(0, .r)] (.leaf 1), .idle]⟩ :=
      r.go (i := 1) rfl (.pairLeaf (by decide))
    have r : Reach false exHt ⟨1, 0, [.rest 1 0, .free [] (.leaf 1), .idle]⟩ := r.go (i := 1) rfl .free
    have r : Reach false exHt ⟨1, 0, [.rest 1 0, .leaf 1, .idle]⟩ := r.go (i := 1) rfl .freed
    exact r.go (i := 1) rfl (.leafClaim (by decide))
  · rintro i ⟨_, ⟨hi, hn⟩⟩
    match i, hi with
    | 0, hi => cases hi; cases hn
    | 1, hi =>
      cases hi
      cases hn with
      | lockLeaf h => exact absurd h (by decide)
    | 2, hi => cases hi; cases hn
    | i + 3, hi => simp at hi

/-- Once the iterator is closed the insert ends. -/
example : Force false exHt Quiet ⟨1, 0, [.rest 1 0, .lockLeaf 1, .idle]⟩ := by
  refine tree_threads_finish (fun h => ⟨h + 1, by simp, by simp [exHt]⟩) ?_
  have r := ex_rest (bad := false) (by simp [Pc.holds]) ex_iter
  have r : Reach false exHt ⟨1, 0, [.rest 1 0, .free [(0, .r)] (.leaf 1), .idle]⟩ :=
    r.go (i := 1) rfl (.pairLeaf (by decide))
  have r : Reach false exHt ⟨1, 0, [.rest 1 0, .free [] (.leaf 1), .idle]⟩ := r.go (i := 1) rfl .free
  have r : Reach false exHt ⟨1, 0, [.rest 1 0, .leaf 1, .idle]⟩ := r.go (i := 1) rfl .freed
  exact r.go (i := 1) rfl (.leafClaim (by decide))

/-- The states of an insert that needs the claim on its parent, page 0. -/
def exRetry : List Pc :=
  [.root .ins, .top, .desc .ins 0, .down .ins 0 1, .pair 0 1, .free [(0, .r), (1, .r)] (.root .ins),
   .free [(1, .r)] (.root .ins), .free [] (.root .ins)]

theorem exRetry_never {s : Sys} (h : Force true exHt Returned s) :
    ∀ q ∈ exRetry, s ≠ ⟨1, 0, [.idle, .lost 0, q]⟩ := by
  induction h with
  | here hp =>
    rintro q hq rfl
    have := hp q (by simp)
    simp only [exRetry, List.mem_cons, List.not_mem_nil, or_false] at hq
    rcases hq with rfl | rfl | rfl | rfl | rfl | rfl | rfl | rfl <;> simp at this
  | close i l g hi _ _ =>
    rintro q hq rfl
    simp only [exRetry, List.mem_cons, List.not_mem_nil, or_false] at hq
    match i, hi with
    | 0, hi => cases hi
    | 1, hi => cases hi
    | 2, hi => rcases hq with rfl | rfl | rfl | rfl | rfl | rfl | rfl | rfl <;> cases hi
    | i + 3, hi => simp at hi
  | go i hex _ ih =>
    rintro q hq rfl
    match i, hex with
    | 0, hex => obtain ⟨_, ⟨hi, hn⟩⟩ := hex; cases hi; cases hn
    | 1, hex => obtain ⟨_, ⟨hi, hn⟩⟩ := hex; cases hi; cases hn
    | i + 3, hex => obtain ⟨_, ⟨hi, hn⟩⟩ := hex; simp at hi
    | 2, hex =>
      simp only [exRetry, List.mem_cons, List.not_mem_nil, or_false] at hq
      rcases hq with rfl | rfl | rfl | rfl | rfl | rfl | rfl | rfl
      · exact ih _ (.mk rfl (.rootIns (by decide))) .top (by simp [exRetry]) rfl
      · exact ih _ (.mk rfl (.topOn (by decide))) (.desc .ins 0) (by simp [exRetry]) rfl
      · exact ih _ (.mk rfl (.descDown (z := 1) (by decide) (by decide) (by decide))) (.down .ins 0 1)
          (by simp [exRetry]) rfl
      · exact ih _ (.mk rfl (.downIns (by decide))) (.pair 0 1) (by simp [exRetry]) rfl
      · exact ih _ (.mk rfl (.pairFail (by decide))) (.free [(0, .r), (1, .r)] (.root .ins)) (by simp [exRetry]) rfl
      · exact ih _ (.mk rfl .free) (.free [(1, .r)] (.root .ins)) (by simp [exRetry]) rfl
      · exact ih _ (.mk rfl .free) (.free [] (.root .ins)) (by simp [exRetry]) rfl
      · exact ih _ (.mk rfl .freed) (.root .ins) (by simp [exRetry]) rfl

/-- An insert whose merge callback fails after it had to let its leaf go returns without
giving back the claim on the parent (btree.c 2031–2036). From then on an insert that has to split
a leaf under that parent never ends: no schedule brings it to its end. -/
theorem failed_merge_blocks_splits : ∃ s, Reach true exHt s ∧ s.ths = [.idle, .lost 0, .root .ins] ∧
    ¬ Force true exHt Returned s := by
  refine ⟨⟨1, 0, [.idle, .lost 0, .root .ins]⟩, ?_, rfl, fun h => exRetry_never h _ (by simp [exRetry]) rfl⟩
  have r : Reach true exHt ⟨1, 0, [.root (.stop 1), .pair 0 1, .idle]⟩ := ex_iter
  have r : Reach true exHt ⟨1, 0, [.root (.stop 1), .pairC false 0 1, .idle]⟩ := r.go (i := 1) rfl (.pairClaim (by decide))
  have r : Reach true exHt ⟨1, 0, [.root (.stop 1), .spin 0 1, .idle]⟩ :=
    r.go (i := 1) rfl (.leafSpin (by decide) (by decide))
  have r := ex_rest (by simp [Pc.holds]) r
  have r : Reach true exHt ⟨1, 0, [.free [(1, .r)] .idle, .spin 0 1, .idle]⟩ := .call r (.close (i := 0) rfl)
  have r : Reach true exHt ⟨1, 0, [.free [] .idle, .spin 0 1, .idle]⟩ := r.go (i := 0) rfl .free
  have r : Reach true exHt ⟨1, 0, [.idle, .spin 0 1, .idle]⟩ := r.go (i := 0) rfl .freed
  have r : Reach true exHt ⟨1, 0, [.idle, .pairC true 0 1, .idle]⟩ := r.go (i := 1) rfl (.spin (by decide))
  have r : Reach true exHt ⟨1, 0, [.idle, .free [(1, .c)] (.lost 0), .idle]⟩ :=
    r.go (i := 1) rfl (.leafErr rfl (by decide) (by decide))
  have r : Reach true exHt ⟨1, 0, [.idle, .free [] (.lost 0), .idle]⟩ := r.go (i := 1) rfl .free
  have r : Reach true exHt ⟨1, 0, [.idle, .lost 0, .idle]⟩ := r.go (i := 1) rfl .freed
  exact .call r (.op (i := 2) (k := .ins) rfl (by simp))

/-- The states of `ex_iter` can be brought to an end: the iterator that holds a claim on leaf 1
and the insert beside it. -/
example : Force false exHt Quiet ⟨1, 0, [.root (.stop 1), .pair 0 1, .idle]⟩ :=
  tree_threads_finish (fun h => ⟨h + 1, by simp, by simp [exHt]⟩) ex_iter

end Splinter.BtreeLock
