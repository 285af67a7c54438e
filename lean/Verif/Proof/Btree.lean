import Mathlib.Tactic.Tauto
import Mathlib.Data.List.Basic
import Verif.Model.Btree
import Verif.Props.Search
/-!
What it means for a page and everything below it to be a search tree, and what the
reading functions do on such a tree.
-/
namespace Splinter.Btree
open Search

/-- What a subtree contains: its tuples in order, its leaves in order, all its pages. -/
structure Sub (K M : Type) where
  items : List (K × M)
  leaves : List Nat
  fp : List Nat

variable {K M : Type} [LinearOrder K]

/-- The separator of `q` is above everything in `p`. -/
def Sep (p q : Entry K × Sub K M) : Prop :=
  p.1.key < q.1.key ∧ ∀ x ∈ p.2.items, x.1 < q.1.key

/-- Page `a` with everything below it is a search tree of height `h` holding `s`. `E` is
what is known of an entry and the tuples below it. -/
def Holds (E : Entry K → List (K × M) → Prop) (st : Store K M) : Nat → Nat → Sub K M → Prop
  | 0, a, s => ∃ n, st a = some n ∧ n.height = 0 ∧ n.body = .leaf s.items ∧
      s.items.Pairwise (fun x y => x.1 < y.1) ∧ s.leaves = [a] ∧ s.fp = [a]
  | h + 1, a, s => ∃ n, ∃ cs : List (Entry K × Sub K M), st a = some n ∧ n.height = h + 1 ∧
      n.body = .index (cs.map (·.1)) ∧
      (∀ c ∈ cs, Holds E st h c.1.child c.2 ∧ E c.1 c.2.items ∧ c.2.items ≠ [] ∧
        ∀ x ∈ c.2.items, c.1.key ≤ x.1) ∧
      cs.Pairwise Sep ∧ s.items = cs.flatMap (·.2.items) ∧
      s.leaves = cs.flatMap (·.2.leaves) ∧ s.fp = a :: cs.flatMap (·.2.fp)

/-- The part of a page `Holds` looks at. -/
def core (n : Node K M) : Nat × Body K M := (n.height, n.body)

theorem Holds.mem_fp {E : Entry K → List (K × M) → Prop} {st : Store K M} {h a : Nat}
    {s : Sub K M} (H : Holds E st h a s) : a ∈ s.fp := by
  cases h with
  | zero => obtain ⟨_, _, _, _, _, _, e⟩ := H; simp [e]
  | succ h => obtain ⟨_, _, _, _, _, _, _, _, _, e⟩ := H; simp [e]

theorem holds_congr {E : Entry K → List (K × M) → Prop} {st st' : Store K M} :
    ∀ {h a : Nat} {s : Sub K M}, (∀ b ∈ s.fp, (st' b).map core = (st b).map core) →
      Holds E st h a s → Holds E st' h a s := by
  intro h
  induction h with
  | zero =>
    intro a s hs H
    obtain ⟨n, e1, e2, e3, e4, e5, e6⟩ := H
    have := hs a (by simp [e6])
    rw [e1] at this
    obtain ⟨n', e1', c⟩ := Option.map_eq_some_iff.1 this
    simp only [core, Prod.mk.injEq] at c
    exact ⟨n', e1', c.1.trans e2, c.2.trans e3, e4, e5, e6⟩
  | succ h ih =>
    intro a s hs H
    obtain ⟨n, cs, e1, e2, e3, e4, e5, e6, e7, e8⟩ := H
    have := hs a (by simp [e8])
    rw [e1] at this
    obtain ⟨n', e1', c⟩ := Option.map_eq_some_iff.1 this
    simp only [core, Prod.mk.injEq] at c
    refine ⟨n', cs, e1', c.1.trans e2, c.2.trans e3, ?_, e5, e6, e7, e8⟩
    intro x hx
    obtain ⟨g1, g2⟩ := e4 x hx
    refine ⟨ih ?_ g1, g2⟩
    intro b hb
    apply hs
    rw [e8]
    exact List.mem_cons_of_mem _ (List.mem_flatMap.2 ⟨x, hx, hb⟩)

theorem Holds.mono {E E' : Entry K → List (K × M) → Prop} {st : Store K M}
    (hE : ∀ e l, E e l → E' e l) :
    ∀ {h a : Nat} {s : Sub K M}, Holds E st h a s → Holds E' st h a s := by
  intro h
  induction h with
  | zero => intro a s H; exact H
  | succ h ih =>
    intro a s H
    obtain ⟨n, cs, e1, e2, e3, e4, e5⟩ := H
    exact ⟨n, cs, e1, e2, e3, fun c hc => ⟨ih (e4 c hc).1, hE _ _ (e4 c hc).2.1, (e4 c hc).2.2⟩, e5⟩

/-- The tuples of a tree are strictly sorted. -/
theorem Holds.sorted {E : Entry K → List (K × M) → Prop} {st : Store K M} :
    ∀ {h a : Nat} {s : Sub K M}, Holds E st h a s → s.items.Pairwise (fun x y => x.1 < y.1) := by
  intro h
  induction h with
  | zero => intro a s H; obtain ⟨_, _, _, _, e, _⟩ := H; exact e
  | succ h ih =>
    intro a s H
    obtain ⟨n, cs, e1, e2, e3, e4, e5, e6, e7, e8⟩ := H
    rw [e6]
    clear e6 e3 e1 e7 e8
    induction cs with
    | nil => simp
    | cons c cs ihc =>
      rw [List.flatMap_cons, List.pairwise_append]
      rw [List.pairwise_cons] at e5
      refine ⟨ih (e4 c (by simp)).1, ihc (fun x hx => e4 x (by simp [hx])) e5.2, ?_⟩
      intro x hx y hy
      obtain ⟨d, hd, hyd⟩ := List.mem_flatMap.1 hy
      exact lt_of_lt_of_le ((e5.1 d hd).2 x hx) ((e4 d (by simp [hd])).2.2.2 y hyd)

/-- Every leaf of a tree is a page of it. -/
theorem Holds.leaves_fp {E : Entry K → List (K × M) → Prop} {st : Store K M} :
    ∀ {h a : Nat} {s : Sub K M}, Holds E st h a s → ∀ b ∈ s.leaves, b ∈ s.fp := by
  intro h
  induction h with
  | zero => intro a s H b hb; obtain ⟨_, _, _, _, _, e, f⟩ := H; rw [f, ← e]; exact hb
  | succ h ih =>
    intro a s H b hb
    obtain ⟨n, cs, _, _, _, e4, _, _, e7, e8⟩ := H
    rw [e7] at hb
    obtain ⟨c, hc, hbc⟩ := List.mem_flatMap.1 hb
    rw [e8]
    exact List.mem_cons_of_mem _ (List.mem_flatMap.2 ⟨c, hc, ih (e4 c hc).1 b hbc⟩)

/-- Tuples of a leaf page. -/
def cont (st : Store K M) (b : Nat) : List (K × M) := (leafOf st b).getD []

theorem Holds.leafOf {E : Entry K → List (K × M) → Prop} {st : Store K M} {a : Nat}
    {s : Sub K M} (H : Holds E st 0 a s) : Btree.leafOf st a = some s.items := by
  obtain ⟨n, e1, _, e3, _⟩ := H
  unfold Btree.leafOf
  rw [e1]
  obtain ⟨_, _, _, b⟩ := n
  simp only at e3
  subst e3
  rfl

/-- The tuples are those of the leaves, one leaf after the other; leaves are leaf pages. -/
theorem Holds.cont {E : Entry K → List (K × M) → Prop} {st : Store K M} :
    ∀ {h a : Nat} {s : Sub K M}, Holds E st h a s →
      s.items = s.leaves.flatMap (cont st) ∧
      ∀ b ∈ s.leaves, ∃ n es, st b = some n ∧ n.height = 0 ∧ n.body = .leaf es := by
  intro h
  induction h with
  | zero =>
    intro a s H
    have e := H.leafOf
    obtain ⟨n, e1, e2, e3, _, e4, _⟩ := H
    rw [e4]
    simp only [List.flatMap_cons, List.flatMap_nil, List.append_nil, Btree.cont, e, Option.getD_some,
      List.mem_singleton, forall_eq, true_and]
    exact ⟨n, _, e1, e2, e3⟩
  | succ h ih =>
    intro a s H
    obtain ⟨n, cs, _, _, _, e4, _, e6, e7, _⟩ := H
    rw [e6, e7]
    constructor
    · rw [List.flatMap_assoc]
      apply List.flatMap_congr
      intro c hc
      exact (ih (e4 c hc).1).1
    · intro b hb
      obtain ⟨c, hc, hbc⟩ := List.mem_flatMap.1 hb
      exact (ih (e4 c hc).1).2 b hbc

/-- In a tree above the leaf level no leaf is empty. -/
theorem Holds.cont_ne {E : Entry K → List (K × M) → Prop} {st : Store K M} :
    ∀ {h a : Nat} {s : Sub K M}, Holds E st h a s → s.items ≠ [] →
      ∀ b ∈ s.leaves, Btree.cont st b ≠ [] := by
  intro h
  induction h with
  | zero =>
    intro a s H hs
    have e := H.leafOf
    obtain ⟨n, e1, e2, e3, _, e4, _⟩ := H
    rw [e4]
    simp only [Btree.cont, List.mem_singleton, forall_eq, e, Option.getD_some]
    exact hs
  | succ h ih =>
    intro a s H hs
    obtain ⟨n, cs, _, _, _, e4, _, e6, e7, _⟩ := H
    rw [e7]
    intro b hb
    obtain ⟨c, hc, hbc⟩ := List.mem_flatMap.1 hb
    exact ih (e4 c hc).1 (e4 c hc).2.2.1 b hbc

/-! ### Searching a page -/

/-- Number of keys at or below the target. -/
theorem find_split [Inhabited K] {ks : List K} {t : K} (hs : ks.Pairwise (· < ·)) :
    ∃ c : Nat, (btreeFind ks t).1 = (c : Int) - 1 ∧ c ≤ ks.length ∧
      (∀ x ∈ ks.take c, x ≤ t) ∧ (∀ x ∈ ks.drop c, t < x) ∧
      ((btreeFind ks t).2 = true ↔ 0 < c ∧ ks[c - 1]? = some t) ∧
      ((btreeFind ks t).2 = true ↔ t ∈ ks) := by
  have h := btreeFind_spec ks t hs
  generalize btreeFind ks t = r at *
  obtain ⟨i, f⟩ := r
  obtain ⟨h1, h2, h3, h4, h5⟩ := h
  simp only at *
  have e3 : ∀ (j : Nat) (hj : j < ks.length), ((j : Int) ≤ i ↔ ks[j] ≤ t) := fun j hj =>
    h3 j _ (List.getElem?_eq_getElem hj)
  refine ⟨(i + 1).toNat, by omega, by omega, ?_, ?_, ?_, h4⟩
  · intro x hx
    obtain ⟨j, hj, rfl⟩ := List.mem_iff_getElem.1 hx
    rw [List.length_take] at hj
    rw [List.getElem_take]
    exact (e3 j (by omega)).1 (by omega)
  · intro x hx
    obtain ⟨j, hj, rfl⟩ := List.mem_iff_getElem.1 hx
    rw [List.length_drop] at hj
    rw [List.getElem_drop]
    exact not_le.1 fun hle => by have := (e3 ((i + 1).toNat + j) (by omega)).2 hle; omega
  · constructor
    · intro hf
      have q := h5 hf
      obtain ⟨j, hj, ej⟩ := List.mem_iff_getElem.1 (h4.1 hf)
      have := (e3 j hj).2 (le_of_eq ej)
      have e : (i + 1).toNat - 1 = i.toNat := by omega
      exact ⟨by omega, by rw [e]; exact q⟩
    · intro hc
      exact h4.2 (List.mem_of_getElem? hc.2)

/-- The child `btree_lookup_node` goes to. -/
theorem childIdx_split [BoundedOrder K] [Inhabited K] {es : List (Entry K)} {t : K}
    (hs : (es.map (·.key)).Pairwise (· < ·)) (hne : es ≠ []) :
    ∃ A e B, es = A ++ e :: B ∧ childIdx es t = A.length ∧ (A ≠ [] → e.key ≤ t) ∧
      ∀ b ∈ B, t < b.key := by
  have hl : 0 < es.length := List.length_pos_iff.2 hne
  have split : ∀ i, i < es.length → ∃ e, es = es.take i ++ e :: es.drop (i + 1) := by
    intro i hi
    exact ⟨es[i], by rw [← List.drop_eq_getElem_cons hi, List.take_append_drop]⟩
  unfold childIdx
  by_cases htop : t = ⊤
  · obtain ⟨e, he⟩ := split (es.length - 1) (by omega)
    refine ⟨_, e, _, he, ?_, ?_, ?_⟩
    · simp only [htop, if_true, List.length_take]
      split <;> omega
    · intro _; rw [htop]; exact le_top
    · intro b hb
      rw [Nat.sub_add_cancel hl] at hb
      simp at hb
  · obtain ⟨c, h1, h2, h3, h4, _⟩ := find_split (t := t) hs
    rw [List.length_map] at h2
    obtain ⟨e, he⟩ := split (c - 1) (by omega)
    have hc : (c - 1) + 1 = c ∨ c = 0 := by omega
    refine ⟨_, e, _, he, ?_, ?_, ?_⟩
    · simp only [htop, if_false, List.length_take, h1]
      split <;> omega
    · intro hA
      have : c - 1 ≠ 0 := by
        intro h0
        rw [h0] at hA
        simp at hA
      apply h3
      rw [← List.map_take]
      apply List.mem_map_of_mem
      apply List.mem_iff_getElem.2
      refine ⟨c - 1, by rw [List.length_take]; omega, ?_⟩
      rw [List.getElem_take]
      have := congrArg (fun l => l[c - 1]?) he
      rw [List.getElem?_append_right (by rw [List.length_take]; omega)] at this
      rw [List.length_take, show c - 1 - min (c - 1) es.length = 0 by omega] at this
      rw [List.getElem?_eq_getElem (by omega)] at this
      simpa using this
    · intro b hb
      apply h4
      rw [← List.map_drop]
      apply List.mem_map_of_mem
      rcases hc with hc | hc
      · rw [hc] at hb; exact hb
      · subst hc
        exact List.mem_of_mem_drop hb

/-! ### Counters -/

/-- The counters agree with a list of tuples, each while it stays below the value that
stands for "unknown". -/
def SOk (ksz : K → Nat) (msz : M → Nat) (s : Stats) (l : List (K × M)) : Prop :=
  (l.length < UNK → s.kvs = l.length) ∧
  ((l.map fun x => ksz x.1).sum < UNK → s.kb = (l.map fun x => ksz x.1).sum) ∧
  ((l.map fun x => msz x.2).sum < UNK → s.mb = (l.map fun x => msz x.2).sum)

theorem addUnk_eq {a b : Nat} (h : a + b < UNK) : addUnk a b = a + b := by
  have : UNK < U32 := by decide
  unfold addUnk
  rw [if_pos (by omega), Nat.mod_eq_of_lt (by omega)]

omit [LinearOrder K] in
theorem SOk.nil {ksz : K → Nat} {msz : M → Nat} : SOk ksz msz .zero ([] : List (K × M)) := by
  simp [SOk, Stats.zero]

omit [LinearOrder K] in
theorem SOk.acc {ksz : K → Nat} {msz : M → Nat} {s t : Stats} {l m : List (K × M)}
    (h1 : SOk ksz msz s l) (h2 : SOk ksz msz t m) : SOk ksz msz (s.acc t) (l ++ m) := by
  obtain ⟨a1, a2, a3⟩ := h1
  obtain ⟨b1, b2, b3⟩ := h2
  simp only [SOk, Stats.acc, List.length_append, List.map_append, List.sum_append]
  refine ⟨fun h => ?_, fun h => ?_, fun h => ?_⟩
  · rw [a1 (by omega), b1 (by omega), addUnk_eq h]
  · rw [a2 (by omega), b2 (by omega), addUnk_eq h]
  · rw [a3 (by omega), b3 (by omega), addUnk_eq h]

omit [LinearOrder K] in
theorem SOk.accIndex {E : Entry K → List (K × M) → Prop} {ksz : K → Nat} {msz : M → Nat}
    (hE : ∀ e l, E e l → SOk ksz msz e.stats l) (cs : List (Entry K × Sub K M))
    (hc : ∀ c ∈ cs, E c.1 c.2.items) : ∀ {s : Stats} {l : List (K × M)}, SOk ksz msz s l →
      SOk ksz msz ((cs.map (·.1)).foldl (fun s e => s.acc e.stats) s)
        (l ++ cs.flatMap (·.2.items)) := by
  induction cs with
  | nil => intro s l h; simpa using h
  | cons c cs ih =>
    intro s l h
    rw [List.map_cons, List.foldl_cons, List.flatMap_cons, ← List.append_assoc]
    exact ih (fun x hx => hc x (by simp [hx])) (h.acc (hE _ _ (hc c (by simp))))

omit [LinearOrder K] in
theorem SOk.accLeaf {ksz : K → Nat} {msz : M → Nat} (es : List (K × M)) (i : Nat)
    (hi : i ≤ es.length) {s : Stats} {l : List (K × M)} (h : SOk ksz msz s l) :
    SOk ksz msz (accLeaf ksz msz es i s) (l ++ es.take i) := by
  have hU : UNK < U32 := by decide
  have key : ∀ (m : List (K × M)) (s : Stats) (l : List (K × M)), SOk ksz msz s l →
      let s' := m.foldl (fun s e => { s with kb := addUnk s.kb (ksz e.1), mb := addUnk s.mb (msz e.2) }) s
      s'.kvs = s.kvs ∧
      (((l ++ m).map fun x => ksz x.1).sum < UNK → s'.kb = ((l ++ m).map fun x => ksz x.1).sum) ∧
      (((l ++ m).map fun x => msz x.2).sum < UNK → s'.mb = ((l ++ m).map fun x => msz x.2).sum) := by
    intro m
    induction m with
    | nil => intro s l h; simpa using h.2
    | cons x m ih =>
      intro s l h
      have := ih { s with kb := addUnk s.kb (ksz x.1), mb := addUnk s.mb (msz x.2), kvs := s.kvs + 1 } (l ++ [x]) (by
        obtain ⟨a1, a2, a3⟩ := h
        simp only [SOk, List.length_append, List.map_append, List.sum_append, List.length_singleton,
          List.map_cons, List.map_nil, List.sum_cons, List.sum_nil, Nat.add_zero]
        refine ⟨fun h => ?_, fun h => ?_, fun h => ?_⟩
        · rw [a1 (by omega)]
        · rw [a2 (by omega), addUnk_eq h]
        · rw [a3 (by omega), addUnk_eq h])
      have frame : ∀ (m : List (K × M)) (a b c d : Nat),
          let f := fun (s : Stats) (e : K × M) => ({ s with kb := addUnk s.kb (ksz e.1), mb := addUnk s.mb (msz e.2) } : Stats)
          (m.foldl f ⟨a, c, d⟩).kvs = a ∧
          (m.foldl f ⟨a, c, d⟩).kb = (m.foldl f ⟨b, c, d⟩).kb ∧
          (m.foldl f ⟨a, c, d⟩).mb = (m.foldl f ⟨b, c, d⟩).mb := by
        intro m
        induction m with
        | nil => intro a b c d; simp
        | cons y m ih => intro a b c d; exact ih a b _ _
      rw [List.append_assoc] at this
      simp only [List.singleton_append] at this
      simp only [List.foldl_cons]
      have f1 := frame m (s.kvs) (s.kvs + 1) (addUnk s.kb (ksz x.1)) (addUnk s.mb (msz x.2))
      simp only at f1
      obtain ⟨f1, f2, f3⟩ := f1
      refine ⟨f1, ?_, ?_⟩
      · rw [f2]; exact this.2.1
      · rw [f3]; exact this.2.2
  obtain ⟨k1, k2, k3⟩ := key (es.take i) s l h
  unfold Btree.accLeaf
  simp only
  refine ⟨fun hl => ?_, k2, k3⟩
  simp only [List.length_append, List.length_take, Nat.min_eq_left hi] at hl ⊢
  simp only [k1]
  rw [h.1 (by omega), Nat.mod_eq_of_lt (by omega)]

/-! ### Descending -/

/-- `btree_lookup_node` down to the leaves: everything before the leaf it finds is below
the target, everything after it is above. -/
theorem descend_spec [BoundedOrder K] [Inhabited K] {E : Entry K → List (K × M) → Prop}
    {ksz : K → Nat} {msz : M → Nat} {st : Store K M} {t : K} :
    ∀ {h a : Nat} {s : Sub K M}, Holds E st h a s → (h ≠ 0 → s.items ≠ []) → ∀ z : Stats,
      ∃ LA b LB s', descend st t h a z = some (b, s') ∧ s.leaves = LA ++ b :: LB ∧
        (∀ x ∈ LA.flatMap (cont st), x.1 < t) ∧ (∀ x ∈ LB.flatMap (cont st), t < x.1) ∧
        ((∀ e l, E e l → SOk ksz msz e.stats l) → ∀ pre, SOk ksz msz z pre →
          SOk ksz msz s' (pre ++ LA.flatMap (cont st))) ∧
        ((∀ e l, E e l → l.head?.map (·.1) = some e.key) → LA ≠ [] →
          ∀ x ∈ (cont st b).head?, x.1 ≤ t) := by
  intro h
  induction h with
  | zero =>
    intro a s H hne z
    obtain ⟨n, e1, e2, e3, _, e4, _⟩ := H
    exact ⟨[], a, [], z, rfl, by simp [e4], by simp, by simp, fun _ pre hp => by simpa using hp,
      fun _ h => absurd rfl h⟩
  | succ h ih =>
    intro a s H hne z
    obtain ⟨n, cs, e1, e2, e3, e4, e5, e6, e7, e8⟩ := H
    have hcs : cs.map (·.1) ≠ [] := by
      intro h0
      rw [List.map_eq_nil_iff] at h0
      subst h0
      simp at e6
      exact hne (by omega) e6
    have hsort : ((cs.map (·.1)).map (·.key)).Pairwise (· < ·) := by
      rw [List.map_map, List.pairwise_map]
      exact e5.imp fun h => h.1
    obtain ⟨A, e, B, f1, f2, f3, f4⟩ := childIdx_split (t := t) hsort hcs
    obtain ⟨cA, cR, rfl, gA, gR⟩ := List.map_eq_append_iff.1 f1
    obtain ⟨c, cB, rfl, gc, gB⟩ := List.map_eq_cons_iff.1 gR
    have hc := e4 c (by simp)
    obtain ⟨LA, b, LB, s', i1, i2, i3, i4, i5, i6⟩ :=
      ih hc.1 (fun _ => hc.2.2.1) (accIndex ((cA ++ c :: cB).map (·.1)) A.length z)
    have hAcont : ∀ d : List (Entry K × Sub K M), (∀ x ∈ d, Holds E st h x.1.child x.2) →
        (d.flatMap (·.2.leaves)).flatMap (cont st) = d.flatMap (·.2.items) := by
      intro d hd
      rw [List.flatMap_assoc]
      apply List.flatMap_congr
      intro x hx
      exact (hd x hx).cont.1.symm
    have hA := hAcont cA fun x hx => (e4 x (by simp [hx])).1
    have hB := hAcont cB fun x hx => (e4 x (by simp [hx])).1
    rw [List.pairwise_append, List.pairwise_cons] at e5
    refine ⟨cA.flatMap (·.2.leaves) ++ LA, b, LB ++ cB.flatMap (·.2.leaves), s', ?_, ?_, ?_, ?_, ?_, ?_⟩
    · have hA' : A.length = cA.length := by rw [← gA, List.length_map]
      simp only [descend, e1, e3, Option.bind_eq_bind, Option.bind_some, f2]
      rw [List.getElem?_map, List.getElem?_append_right (by omega), hA', Nat.sub_self]
      simp only [List.getElem?_cons_zero, Option.map_some, Option.bind_some]
      rw [← hA']
      exact i1
    · rw [e7, List.flatMap_append, List.flatMap_cons, i2]
      simp
    · intro x hx
      rw [List.flatMap_append, hA, List.mem_append] at hx
      rcases hx with hx | hx
      · obtain ⟨d, hd, hxd⟩ := List.mem_flatMap.1 hx
        have := (e5.2.2 d hd c (by simp)).2 x hxd
        refine lt_of_lt_of_le this ?_
        rw [gc]
        apply f3
        rw [← gA]
        exact fun h0 => by rw [List.map_eq_nil_iff] at h0; simp [h0] at hd
      · exact i3 x hx
    · intro x hx
      rw [List.flatMap_append, hB, List.mem_append] at hx
      rcases hx with hx | hx
      · exact i4 x hx
      · obtain ⟨d, hd, hxd⟩ := List.mem_flatMap.1 hx
        refine lt_of_lt_of_le (f4 d.1 ?_) ((e4 d (by simp [hd])).2.2.2 x hxd)
        rw [← gB]
        exact List.mem_map_of_mem hd
    · intro hE pre hp
      rw [List.flatMap_append, hA, ← List.append_assoc]
      apply i5 hE
      have : accIndex ((cA ++ c :: cB).map (·.1)) A.length z =
          (cA.map (·.1)).foldl (fun s e => s.acc e.stats) z := by
        unfold accIndex
        rw [← gA, List.map_append, List.take_left']
        simp
      rw [this]
      exact SOk.accIndex hE cA (fun x hx => (e4 x (by simp [hx])).2.1) hp
    · intro hF hne' x hx
      by_cases hLA : LA = []
      · subst hLA
        have hk : e.key ≤ t := by
          apply f3
          rw [← gA]
          intro h0
          rw [List.map_eq_nil_iff] at h0
          simp [h0] at hne'
        have hh := hF _ _ hc.2.1
        rw [hc.1.cont.1, i2, List.nil_append, List.flatMap_cons] at hh
        have hx' : (cont st b).head? = some x := hx
        rw [List.head?_append, hx', Option.some_or, Option.map_some, Option.some.injEq] at hh
        rw [hh, gc]
        exact hk
      · exact i6 hF hLA x hx

theorem lookupNode_eq [BoundedOrder K] [Inhabited K] {E : Entry K → List (K × M) → Prop}
    {st : Store K M} {h a : Nat} {s : Sub K M} (H : Holds E st h a s) (t : K) :
    lookupNode st a t 0 = descend st t h a .zero := by
  unfold lookupNode
  cases h with
  | zero => obtain ⟨n, e1, e2, _⟩ := H; simp [e1, e2]
  | succ h => obtain ⟨n, cs, e1, e2, _⟩ := H; simp [e1, e2]

/-! ### Reading functions on a tree -/

omit [LinearOrder K] in
theorem filter_split {l : List (K × M)} {p : K × M → Bool} {r : Nat}
    (h1 : ∀ x ∈ l.take r, p x = true) (h2 : ∀ x ∈ l.drop r, p x = false) :
    l.filter p = l.take r := by
  conv_lhs => rw [← List.take_append_drop r l]
  rw [List.filter_append, List.filter_eq_self.2 h1, List.filter_eq_nil_iff.2 (by
    intro x hx; simp [h2 x hx]), List.append_nil]

/-- Positions in a leaf around a key: the tuples below it, then the tuple with it if there is
one, then the tuples above it. -/
theorem leaf_split [Inhabited K] {es : List (K × M)} {t : K}
    (hs : es.Pairwise (fun x y => x.1 < y.1)) :
    ∃ r : Nat, (∀ x ∈ es.take r, x.1 < t) ∧ r ≤ es.length ∧
      (((btreeFind (es.map (·.1)) t) = ((r : Int), true) ∧ (∃ m, es[r]? = some (t, m)) ∧
          ∀ x ∈ es.drop (r + 1), t < x.1) ∨
        ((btreeFind (es.map (·.1)) t) = ((r : Int) - 1, false) ∧ (∀ x ∈ es.drop r, t < x.1))) := by
  have hk : (es.map (·.1)).Pairwise (· < ·) := List.pairwise_map.2 hs
  obtain ⟨c, h1, h2, h3, h4, h5, h6⟩ := find_split (t := t) hk
  rw [List.length_map] at h2
  have g3 : ∀ x ∈ es.take c, x.1 ≤ t := fun x hx =>
    h3 _ (by rw [← List.map_take]; exact List.mem_map_of_mem hx)
  have g4 : ∀ x ∈ es.drop c, t < x.1 := fun x hx =>
    h4 _ (by rw [← List.map_drop]; exact List.mem_map_of_mem hx)
  generalize hb : btreeFind (es.map (·.1)) t = b at *
  obtain ⟨i, f⟩ := b
  simp only at *
  cases f with
  | true =>
    obtain ⟨hc, hm⟩ := h5.1 rfl
    have hm' : ∃ m, es[c - 1]? = some (t, m) := by
      rw [List.getElem?_map] at hm
      obtain ⟨⟨k, m⟩, e1, e2⟩ := Option.map_eq_some_iff.1 hm
      simp only at e2
      subst e2
      exact ⟨m, e1⟩
    refine ⟨c - 1, ?_, by omega, Or.inl ⟨?_, hm', ?_⟩⟩
    · intro x hx
      obtain ⟨j, hj, rfl⟩ := List.mem_iff_getElem.1 hx
      rw [List.length_take] at hj
      rw [List.getElem_take]
      obtain ⟨m, em⟩ := hm'
      have hlt : c - 1 < es.length := by omega
      rw [List.getElem?_eq_getElem hlt, Option.some.injEq] at em
      have := List.pairwise_iff_getElem.1 hs j (c - 1) (by omega) hlt (by omega)
      rw [em] at this
      exact this
    · rw [h1]; congr 1; omega
    · rw [Nat.sub_add_cancel hc]; exact g4
  | false =>
    refine ⟨c, ?_, h2, Or.inr ⟨by rw [h1], g4⟩⟩
    intro x hx
    refine lt_of_le_of_ne (g3 x hx) fun he => ?_
    have : t ∈ es.map (·.1) := by
      rw [← he]; exact List.mem_map_of_mem (List.mem_of_mem_take hx)
    exact absurd (h6.2 this) (by simp)

theorem lookup_holds [BoundedOrder K] [Inhabited K] {E : Entry K → List (K × M) → Prop}
    {st : Store K M} {h a : Nat} {s : Sub K M} (H : Holds E st h a s)
    (hne : h ≠ 0 → s.items ≠ []) (t : K) :
    lookup st a t = some ((s.items.find? fun x => decide (x.1 = t)).map (·.2)) := by
  obtain ⟨LA, b, LB, s', d1, d2, d3, d4, _⟩ :=
    descend_spec (ksz := fun _ => 0) (msz := fun _ => 0) (t := t) H hne .zero
  have hc := H.cont
  obtain ⟨n, es, n1, n2, n3⟩ := hc.2 b (by rw [d2]; simp)
  have hl : leafOf st b = some es := by
    unfold Btree.leafOf; rw [n1]; obtain ⟨_, _, _, x⟩ := n; simp only at n3; subst n3; rfl
  have hcb : Btree.cont st b = es := by simp [Btree.cont, hl]
  have hi : s.items = LA.flatMap (Btree.cont st) ++ (es ++ LB.flatMap (Btree.cont st)) := by
    rw [hc.1, d2, List.flatMap_append, List.flatMap_cons, hcb]
  have hso := H.sorted
  rw [hi, List.pairwise_append, List.pairwise_append] at hso
  have hes := hso.2.1.1
  unfold lookup
  rw [lookupNode_eq H, d1]
  simp only [Option.bind_eq_bind, Option.bind_some, hl]
  have fA : (LA.flatMap (Btree.cont st)).find? (fun x => decide (x.1 = t)) = none := by
    rw [List.find?_eq_none]; intro x hx; simp [ne_of_lt (d3 x hx)]
  have fB : (LB.flatMap (Btree.cont st)).find? (fun x => decide (x.1 = t)) = none := by
    rw [List.find?_eq_none]; intro x hx; simp [ne_of_gt (d4 x hx)]
  rw [hi, List.find?_append, List.find?_append, fA, fB, Option.none_or, Option.or_none]
  obtain ⟨r, r1, r2, ⟨r3, ⟨m, r4⟩, r5⟩ | ⟨r3, r4⟩⟩ := leaf_split (t := t) hes
  · rw [r3]
    simp only [if_true, Int.toNat_natCast, r4, Option.bind_some]
    have : es = es.take r ++ (t, m) :: es.drop (r + 1) := by
      obtain ⟨hr, e⟩ := List.getElem?_eq_some_iff.1 r4
      rw [← e, ← List.drop_eq_getElem_cons hr, List.take_append_drop]
    rw [this, List.find?_append, List.find?_eq_none.2 (by
      intro x hx; simp [ne_of_lt (r1 x hx)])]
    simp
  · rw [r3]
    have : es.find? (fun x => decide (x.1 = t)) = none := by
      rw [List.find?_eq_none]
      intro x hx
      rw [← List.take_append_drop r es, List.mem_append] at hx
      rcases hx with hx | hx
      · simp [ne_of_lt (r1 x hx)]
      · simp [ne_of_gt (r4 x hx)]
    rw [this]
    simp

theorem getRank_holds [BoundedOrder K] [Inhabited K] {E : Entry K → List (K × M) → Prop}
    {ksz : K → Nat} {msz : M → Nat} (hE : ∀ e l, E e l → SOk ksz msz e.stats l)
    {st : Store K M} {h a : Nat} {s : Sub K M} (H : Holds E st h a s)
    (hne : h ≠ 0 → s.items ≠ []) (t : K) :
    ∃ q, getRank ksz msz st a t = some q ∧
      SOk ksz msz q (s.items.filter fun x => decide (x.1 < t)) := by
  obtain ⟨LA, b, LB, s', d1, d2, d3, d4, d5, _⟩ :=
    descend_spec (ksz := ksz) (msz := msz) (t := t) H hne .zero
  have hc := H.cont
  obtain ⟨n, es, n1, n2, n3⟩ := hc.2 b (by rw [d2]; simp)
  have hl : leafOf st b = some es := by
    unfold Btree.leafOf; rw [n1]; obtain ⟨_, _, _, x⟩ := n; simp only at n3; subst n3; rfl
  have hcb : Btree.cont st b = es := by simp [Btree.cont, hl]
  have hi : s.items = LA.flatMap (Btree.cont st) ++ (es ++ LB.flatMap (Btree.cont st)) := by
    rw [hc.1, d2, List.flatMap_append, List.flatMap_cons, hcb]
  have hso := H.sorted
  rw [hi, List.pairwise_append, List.pairwise_append] at hso
  have hes := hso.2.1.1
  have d5 := d5 hE [] SOk.nil
  rw [List.nil_append] at d5
  unfold getRank
  rw [lookupNode_eq H, d1]
  simp only [Option.bind_eq_bind, Option.bind_some, hl]
  refine ⟨_, rfl, ?_⟩
  rw [hi, List.filter_append, List.filter_append]
  have fA : (LA.flatMap (Btree.cont st)).filter (fun x => decide (x.1 < t)) =
      LA.flatMap (Btree.cont st) := List.filter_eq_self.2 (by intro x hx; simpa using d3 x hx)
  have fB : (LB.flatMap (Btree.cont st)).filter (fun x => decide (x.1 < t)) = [] :=
    List.filter_eq_nil_iff.2 (by intro x hx; simpa using le_of_lt (d4 x hx))
  rw [fA, fB, List.append_nil]
  obtain ⟨r, r1, r2, r3⟩ := leaf_split (t := t) hes
  have hr : (if (btreeFind (es.map (·.1)) t).2 = true then (btreeFind (es.map (·.1)) t).1
      else (btreeFind (es.map (·.1)) t).1 + 1).toNat = r := by
    rcases r3 with ⟨r3, _⟩ | ⟨r3, _⟩ <;> rw [r3] <;> simp
  rw [hr]
  have hf : es.filter (fun x => decide (x.1 < t)) = es.take r := by
    apply filter_split
    · intro x hx; simpa using r1 x hx
    · intro x hx
      simp only [decide_eq_false_iff_not, not_lt]
      rcases r3 with ⟨_, ⟨m, r4⟩, r5⟩ | ⟨_, r4⟩
      · obtain ⟨hr, e⟩ := List.getElem?_eq_some_iff.1 r4
        rw [List.drop_eq_getElem_cons hr, e, List.mem_cons] at hx
        rcases hx with rfl | hx
        · exact le_refl _
        · exact le_of_lt (r5 x hx)
      · exact le_of_lt (r4 x hx)
  rw [hf]
  exact SOk.accLeaf es r r2 d5

/-- In-order traversal of the pages. -/
def walk (st : Store K M) : (h a : Nat) → Option (List (K × M))
  | 0, a => leafOf st a
  | h + 1, a =>
    match st a with
    | some ⟨_, _, _, .index es⟩ => (es.mapM fun e => walk st h e.child).map List.flatten
    | _ => none

theorem walk_holds {E : Entry K → List (K × M) → Prop} {st : Store K M} :
    ∀ {h a : Nat} {s : Sub K M}, Holds E st h a s → walk st h a = some s.items := by
  intro h
  induction h with
  | zero => intro a s H; exact H.leafOf
  | succ h ih =>
    intro a s H
    obtain ⟨n, cs, e1, e2, e3, e4, e5, e6, e7, e8⟩ := H
    obtain ⟨_, _, _, b⟩ := n
    simp only at e3
    subst e3
    simp only [walk, e1]
    have : (cs.map (·.1)).mapM (fun e => walk st h e.child) = some (cs.map (·.2.items)) := by
      clear e1 e6 e5 e7 e8 e2
      induction cs with
      | nil => rfl
      | cons c cs ihc =>
        rw [List.map_cons, List.mapM_cons, ihc (fun x hx => e4 x (by simp [hx])),
          ih (e4 c (by simp)).1]
        rfl
    rw [this, e6, List.flatMap_def]
    rfl

end Splinter.Btree
