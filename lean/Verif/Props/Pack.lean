import Mathlib.Order.Fin.Basic
import Verif.Proof.Pack
/-!
C14: bulk loading stores exactly the input sequence. C40: ranks and counts of a packed
tree are exact.

The specification is the list of tuples itself: membership, first match, filtering and
length of plain lists, and `walk`, the in-order traversal of the pages below the root.
-/
namespace Splinter.Btree

variable {K M : Type} [LinearOrder K]

/-- **C14**: an in-order traversal of the tree `btree_pack` built, from its root page,
lists exactly the tuples of the stream. `walk` is undefined if a page is missing or of
the wrong kind, so the tree is complete as well. -/
theorem pack_traversal {P : Env K M} (inj : ∀ i j, P.page i = P.page j → i = j) {xs : List (K × M)}
    (hs : xs.Pairwise (fun x y => x.1 < y.1)) (hne : xs ≠ []) {t : Packed K M} (e : pack P xs = .ok t) :
    ∃ n, t.store t.root = some n ∧ walk t.store n.height t.root = some xs := by
  obtain ⟨_, _, _, _, _, h⟩ := pack_spec inj hs e
  obtain ⟨_, h, s, _, H, hi, _⟩ := h hne
  have hw := walk_holds H
  have hn : ∃ n, t.store t.root = some n ∧ n.height = h := by
    cases h with
    | zero => obtain ⟨n, h1, h2, _⟩ := H; exact ⟨n, h1, h2⟩
    | succ h => obtain ⟨n, _, h1, h2, _⟩ := H; exact ⟨n, h1, h2⟩
  obtain ⟨n, h1, h2⟩ := hn
  exact ⟨n, h1, by rw [h2, hw, hi]⟩

theorem key_unique {xs : List (K × M)} (hs : xs.Pairwise (fun x y => x.1 < y.1)) {x y : K × M}
    (hx : x ∈ xs) (hy : y ∈ xs) (e : x.1 = y.1) : x = y := by
  induction xs with
  | nil => simp at hx
  | cons z xs ih =>
    rw [List.pairwise_cons] at hs
    rcases List.mem_cons.1 hx with h1 | h1 <;> rcases List.mem_cons.1 hy with h2 | h2
    · rw [h1, h2]
    · subst h1; exact absurd e (ne_of_lt (hs.1 _ h2))
    · subst h2; exact absurd e (ne_of_gt (hs.1 _ h1))
    · exact ih hs.2 h1 h2

/-- **C14**: a point lookup in the packed tree finds the message the stream has for the
key, and finds nothing for a key not in the stream. -/
theorem pack_lookup [BoundedOrder K] [Inhabited K] {P : Env K M}
    (inj : ∀ i j, P.page i = P.page j → i = j) {xs : List (K × M)}
    (hs : xs.Pairwise (fun x y => x.1 < y.1)) (hne : xs ≠ []) {t : Packed K M} (e : pack P xs = .ok t)
    (k : K) : (∀ m, (k, m) ∈ xs → lookup t.store t.root k = some (some m)) ∧
      ((∀ m, (k, m) ∉ xs) → lookup t.store t.root k = some none) := by
  obtain ⟨_, _, _, _, _, h⟩ := pack_spec inj hs e
  obtain ⟨_, h, s, _, H, hi, _⟩ := h hne
  rw [lookup_holds H (fun _ => by rw [hi]; exact hne) k, hi]
  constructor
  · intro m hm
    cases hf : xs.find? fun x => decide (x.1 = k) with
    | none => exact absurd (List.find?_eq_none.1 hf _ hm) (by simp)
    | some y =>
      have h1 := List.mem_of_find?_eq_some hf
      have h2 : y.1 = k := by simpa using List.find?_some hf
      have : y = (k, m) := by
        exact key_unique hs h1 hm h2
      simp [this]
  · intro hm
    have : xs.find? (fun x => decide (x.1 = k)) = none := by
      rw [List.find?_eq_none]
      intro x hx h
      simp only [decide_eq_true_eq] at h
      exact hm x.2 (by rw [← h]; exact hx)
    simp [this]

/-- **C14**: the reported totals are those of the stream: the number of tuples, the byte
counts (as `uint64`), and one fingerprint per key in stream order when fingerprints were
asked for. -/
theorem pack_totals {P : Env K M} (inj : ∀ i j, P.page i = P.page j → i = j) {xs : List (K × M)}
    (hs : xs.Pairwise (fun x y => x.1 < y.1)) {t : Packed K M} (e : pack P xs = .ok t) :
    t.numTuples = xs.length ∧
    ((xs.map fun x => P.ksz x.1).sum < 2 ^ 64 → t.keyBytes = (xs.map fun x => P.ksz x.1).sum) ∧
    ((xs.map fun x => P.msz x.2).sum < 2 ^ 64 → t.msgBytes = (xs.map fun x => P.msz x.2).sum) ∧
    (∀ g, P.hash = some g → t.fps = xs.map fun x => g x.1) ∧ (xs = [] → t.root = 0) := by
  obtain ⟨h1, h2, h3, h4, h5, _⟩ := pack_spec inj hs e
  refine ⟨h1, fun h => ?_, fun h => ?_, fun g hg => ?_, h5⟩
  · rw [h2, Nat.mod_eq_of_lt h]
  · rw [h3, Nat.mod_eq_of_lt h]
  · rw [h4, hg]

/-- **C14**: the pages of the packed tree are distinct pages among those allocated for it,
and its leaves form one doubly linked list from the first to the last leaf, in which the
tuples appear in stream order. -/
theorem pack_pages {P : Env K M} (inj : ∀ i j, P.page i = P.page j → i = j) {xs : List (K × M)}
    (hs : xs.Pairwise (fun x y => x.1 < y.1)) (hne : xs ≠ []) {t : Packed K M} (e : pack P xs = .ok t) :
    ∃ leaves : List Nat, leaves.Nodup ∧ (∀ b ∈ leaves, ∃ i, b = P.page i) ∧
      Linked t.store 0 leaves 0 ∧
      ∃ ess : List (List (K × M)), leaves.map (leafOf t.store) = ess.map some ∧ ess.flatten = xs ∧
        ∀ es ∈ ess, es ≠ [] := by
  obtain ⟨_, _, _, _, _, h⟩ := pack_spec inj hs e
  obtain ⟨_, h, s, _, H, hi, nd, hp, hl⟩ := h hne
  have hc := H.cont
  have hcn := H.cont_ne (by rw [hi]; exact hne)
  have sub : ∀ {h a : Nat} {s : Sub K M}, Holds (PE P) t.store h a s → s.leaves.Sublist s.fp := by
    intro h
    induction h with
    | zero => intro a s H; obtain ⟨_, _, _, _, _, e5, e6⟩ := H; rw [e5, e6]
    | succ h ih =>
      intro a s H
      obtain ⟨_, cs, _, _, e3, e4, e5, e6, e7, e8⟩ := H
      rw [e7, e8]
      apply List.Sublist.cons
      clear e7 e8 e3 e5 e6
      induction cs with
      | nil => simp
      | cons c cs ihc =>
        rw [List.flatMap_cons, List.flatMap_cons]
        exact (ih (e4 c (by simp)).1).append (ihc fun x hx => e4 x (by simp [hx]))
  refine ⟨s.leaves, nd.sublist (sub H), fun b hb => hp b (H.leaves_fp b hb), hl,
    s.leaves.map (cont t.store), ?_, ?_, ?_⟩
  · rw [List.map_map]
    apply List.map_congr_left
    intro b hb
    obtain ⟨n, es, n1, _, n3⟩ := hc.2 b hb
    have hl : leafOf t.store b = some es := by
      unfold leafOf; rw [n1]; obtain ⟨_, _, _, x⟩ := n; simp only at n3; subst n3; rfl
    simp [cont, hl]
  · rw [← List.flatMap_def, ← hc.1, hi]
  · intro es hes
    obtain ⟨b, hb, rfl⟩ := List.mem_map.1 hes
    exact hcn b hb

omit [LinearOrder K] in
theorem sum_filter_le (f : K × M → Nat) (p : K × M → Bool) (xs : List (K × M)) :
    ((xs.filter p).map f).sum ≤ (xs.map f).sum := by
  induction xs with
  | nil => simp
  | cons x xs ih => cases h : p x <;> simp [h] <;> omega

/-- Number of tuples with `lo ≤ key < hi`. -/
def countIn (lo hi : K) (xs : List (K × M)) : Nat :=
  (xs.filter fun x => decide (lo ≤ x.1) && decide (x.1 < hi)).length

/-- Total of `f` over tuples with `lo ≤ key < hi`. -/
def sumIn (f : K × M → Nat) (lo hi : K) (xs : List (K × M)) : Nat :=
  ((xs.filter fun x => decide (lo ≤ x.1) && decide (x.1 < hi)).map f).sum

/-- **C40**: the rank of a key in a packed tree is the number of keys below it, with their
byte totals; each counter is exact while the tree's total for it is below
`BTREE_UNKNOWN_COUNTER`. -/
theorem rank_exact_partial [BoundedOrder K] [Inhabited K] {P : Env K M}
    (inj : ∀ i j, P.page i = P.page j → i = j) {xs : List (K × M)}
    (hs : xs.Pairwise (fun x y => x.1 < y.1)) (hne : xs ≠ []) {t : Packed K M} (e : pack P xs = .ok t)
    (k : K) : ∃ q, getRank P.ksz P.msz t.store t.root k = some q ∧
      (xs.length < UNK → q.kvs = (xs.filter fun x => decide (x.1 < k)).length) ∧
      ((xs.map fun x => P.ksz x.1).sum < UNK →
        q.kb = ((xs.filter fun x => decide (x.1 < k)).map fun x => P.ksz x.1).sum) ∧
      ((xs.map fun x => P.msz x.2).sum < UNK →
        q.mb = ((xs.filter fun x => decide (x.1 < k)).map fun x => P.msz x.2).sum) := by
  obtain ⟨_, _, _, _, _, h⟩ := pack_spec inj hs e
  obtain ⟨_, h, s, _, H, hi, _⟩ := h hne
  obtain ⟨q, h1, h2, h3, h4⟩ := getRank_holds (fun _ _ h => h.2) H (fun _ => by rw [hi]; exact hne) k
  rw [hi] at h2 h3 h4
  refine ⟨q, h1, fun h => h2 ?_, fun h => h3 ?_, fun h => h4 ?_⟩
  · exact Nat.lt_of_le_of_lt (List.length_filter_le _ _) h
  · exact Nat.lt_of_le_of_lt (sum_filter_le _ _ _) h
  · exact Nat.lt_of_le_of_lt (sum_filter_le _ _ _) h

omit [LinearOrder K] in
theorem sum_filter_add (f : K × M → Nat) (p q : K × M → Bool) (hpq : ∀ x, p x = true → q x = true)
    (xs : List (K × M)) : ((xs.filter q).map f).sum =
      ((xs.filter p).map f).sum + ((xs.filter fun x => !p x && q x).map f).sum := by
  induction xs with
  | nil => rfl
  | cons x xs ih =>
    have := hpq x
    cases h1 : p x <;> cases h2 : q x <;> simp_all <;> omega

omit [LinearOrder K] in
theorem length_filter_eq (p : K × M → Bool) (xs : List (K × M)) :
    (xs.filter p).length = ((xs.filter p).map fun _ => 1).sum := by simp

/-- **C40**: the count reported for a key range of a packed tree is the number of keys in
it, with the byte totals, while the tree's totals are below `BTREE_UNKNOWN_COUNTER`. -/
theorem count_exact_partial [BoundedOrder K] [Inhabited K] {P : Env K M}
    (inj : ∀ i j, P.page i = P.page j → i = j) {xs : List (K × M)}
    (hs : xs.Pairwise (fun x y => x.1 < y.1)) (hne : xs ≠ []) {t : Packed K M} (e : pack P xs = .ok t)
    (hu : xs.length < UNK) (lo hi : K) :
    ∃ q, countInRange P.ksz P.msz t.store t.root lo hi = some q ∧ q.kvs = countIn lo hi xs ∧
      ((xs.map fun x => P.ksz x.1).sum < UNK → q.kb = sumIn (fun x => P.ksz x.1) lo hi xs) ∧
      ((xs.map fun x => P.msz x.2).sum < UNK → q.mb = sumIn (fun x => P.msz x.2) lo hi xs) := by
  obtain ⟨m, m1, m2, m3, m4⟩ := rank_exact_partial inj hs hne e lo
  obtain ⟨s, s1, s2, s3, s4⟩ := rank_exact_partial inj hs hne e hi
  have m2 := m2 hu
  have s2 := s2 hu
  have hU : UNK < U32 := by decide
  have le : ∀ (f : K × M → Nat) (p : K × M → Bool), ((xs.filter p).map f).sum ≤ (xs.map f).sum :=
    fun f p => sum_filter_le f p xs
  unfold countInRange
  rw [m1, s1]
  simp only [Option.bind_eq_bind, Option.bind_some]
  rcases le_or_gt hi lo with hl | hl
  · have hle : s.kvs ≤ m.kvs := by
      rw [m2, s2]
      exact List.Sublist.length_le (List.monotone_filter_right xs fun x hx => by
        simp only [decide_eq_true_eq] at *; exact lt_of_lt_of_le hx hl)
    have emp : xs.filter (fun x => decide (lo ≤ x.1) && decide (x.1 < hi)) = [] := by
      rw [List.filter_eq_nil_iff]
      intro x _
      simp only [Bool.and_eq_true, decide_eq_true_eq, not_and, not_lt]
      intro h; exact le_trans hl h
    rw [if_neg (by omega)]
    exact ⟨_, rfl, by simp [Stats.zero, countIn, emp], fun _ => by simp [Stats.zero, sumIn, emp],
      fun _ => by simp [Stats.zero, sumIn, emp]⟩
  · have key : ∀ f : K × M → Nat, ((xs.filter fun x => decide (x.1 < hi)).map f).sum =
        ((xs.filter fun x => decide (x.1 < lo)).map f).sum + sumIn f lo hi xs := by
      intro f
      rw [sum_filter_add f (fun x => decide (x.1 < lo)) (fun x => decide (x.1 < hi))
        (fun x hx => by simp only [decide_eq_true_eq] at *; exact lt_trans hx hl) xs]
      congr 1
      unfold sumIn
      congr 3
      funext x
      simp [← not_lt]
    have kc : s.kvs = m.kvs + countIn lo hi xs := by
      rw [m2, s2, length_filter_eq, key, ← length_filter_eq, countIn, length_filter_eq fun x => decide (lo ≤ x.1) && decide (x.1 < hi)]
      rfl
    have sublt : ∀ a b c : Nat, a = b + c → a < UNK → sub32 a b = c := by
      intro a b c h1 h2
      unfold sub32
      rw [Nat.mod_eq_of_lt (a := b) (by omega), h1]
      have : b + c + U32 - b = c + U32 := by omega
      rw [this, Nat.add_mod_right, Nat.mod_eq_of_lt (by omega)]
    have hsk : s.kvs < UNK := by
      rw [s2]; exact Nat.lt_of_le_of_lt (List.length_filter_le _ _) hu
    by_cases h0 : m.kvs < s.kvs
    · rw [if_pos h0]
      refine ⟨_, rfl, sublt _ _ _ kc hsk, fun h => ?_, fun h => ?_⟩
      · refine sublt _ _ _ ?_ ?_
        · rw [m3 h, s3 h, key]
        · rw [s3 h]; exact Nat.lt_of_le_of_lt (le _ _) h
      · refine sublt _ _ _ ?_ ?_
        · rw [m4 h, s4 h, key]
        · rw [s4 h]; exact Nat.lt_of_le_of_lt (le _ _) h
    · rw [if_neg h0]
      have hz : countIn lo hi xs = 0 := by omega
      have emp := List.length_eq_zero_iff.1 hz
      exact ⟨_, rfl, by simp [Stats.zero, hz], fun _ => by simp [Stats.zero, sumIn, emp],
        fun _ => by simp [Stats.zero, sumIn, emp]⟩

/-! ### A concrete instance -/

/-- Two tuples per leaf, two entries per index page, two pages per extent. -/
def exEnv : Env (Fin 64) Nat where
  leafFits := fun l _ => l.length < 2
  indexFits := fun l _ => l.length < 2
  ksz := fun k => k.1
  msz := id
  bad := fun _ => false
  hash := some fun k => k.1 * 7
  maxTuples := 100
  page := fun i => i + 1
  share := fun a b => a / 2 == b / 2

def exStream : List (Fin 64 × Nat) :=
  [(1, 10), (3, 30), (4, 40), (9, 90), (11, 5), (12, 6), (20, 7), (21, 8), (30, 9), (33, 1), (35, 2)]

/-- Packing the eleven tuples makes a tree of height 3, so the theorems apply to it. -/
example : ∃ t, pack exEnv exStream = .ok t ∧ (t.store t.root).map (·.height) = some 3 ∧
    exStream.Pairwise (fun x y => x.1 < y.1) ∧ exStream ≠ [] ∧ (∀ i j, exEnv.page i = exEnv.page j → i = j) := by
  refine ⟨_, rfl, ?_, ?_, ?_, ?_⟩
  · decide +kernel
  · decide +kernel
  · decide
  · intro i j h; exact Nat.succ.inj h

/-- The count of a range of this tree. -/
example : ∃ t, pack exEnv exStream = .ok t ∧
    countInRange exEnv.ksz exEnv.msz t.store t.root 4 21 = some ⟨5, 56, 148⟩ := by
  refine ⟨_, rfl, ?_⟩
  decide +kernel

/-- An empty stream gives no tree. -/
example : ∃ t, pack exEnv [] = .ok t ∧ t.root = 0 := ⟨_, rfl, rfl⟩

end Splinter.Btree
