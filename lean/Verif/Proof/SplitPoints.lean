import Verif.Model.SplitPoints
import Mathlib.Data.List.Basic
import Mathlib.Tactic.Linarith
/-! # Where a trunk leaf is split: lemmas -/
namespace Splinter.SplitPoints

variable {K : Type} [LinearOrder K]

/-- A tree as `btree_pack` builds it: no empty nodes, keys increase. -/
structure Wf (nodes : List (List (Page K))) : Prop where
  ne : nodes ≠ []
  full : ∀ n ∈ nodes, n ≠ []
  sorted : nodes.flatten.Pairwise (fun p q => p.key < q.key)

/-! ### The iterator -/

theorem lowerIdx_append {a b : List (Page K)} {k : K} (h : ∀ p ∈ a, p.key < k) : lowerIdx (a ++ b) k = a.length + lowerIdx b k := by
  unfold lowerIdx
  rw [List.takeWhile_append_of_pos (by simpa using h), List.length_append]

theorem lowerIdx_append_le {a b : List (Page K)} {k : K} (h : ∀ p ∈ b, k ≤ p.key) : lowerIdx (a ++ b) k = lowerIdx a k := by
  induction a with
  | nil =>
    cases b with
    | nil => rfl
    | cons p b => simp [lowerIdx, h p (by simp)]
  | cons x a ih =>
    unfold lowerIdx at ih ⊢
    rw [List.cons_append, List.takeWhile_cons, List.takeWhile_cons]
    split
    · simpa using ih
    · rfl

theorem startPlace_eq : ∀ {nodes : List (List (Page K))}, (∀ n ∈ nodes, n ≠ []) → nodes.flatten.Pairwise (fun p q => p.key < q.key) → ∀ lo : K,
    startPlace nodes lo = lowerIdx nodes.flatten lo
  | [], _, _, lo => by simp [startPlace, nodeFor, place, lowerIdx]
  | [n], _, _, lo => by
    unfold startPlace nodeFor place
    rw [List.takeWhile_cons]
    split <;> simp
  | n :: n' :: ns, hf, hs, lo => by
    have hs' : (n' :: ns).flatten.Pairwise (fun p q => p.key < q.key) := by
      rw [List.flatten_cons, List.pairwise_append] at hs; exact hs.2.1
    have hlt : ∀ a ∈ n, ∀ b ∈ (n' :: ns).flatten, a.key < b.key := by
      rw [List.flatten_cons, List.pairwise_append] at hs; exact hs.2.2
    have ih := startPlace_eq (fun m hm => hf m (List.mem_cons_of_mem _ hm)) hs' lo
    obtain ⟨p', r', rfl⟩ : ∃ p' r', n' = p' :: r' := by
      cases n' with
      | nil => exact absurd rfl (hf [] (by simp))
      | cons a b => exact ⟨a, b, rfl⟩
    obtain ⟨p, r, rfl⟩ : ∃ p r, n = p :: r := by
      cases n with
      | nil => exact absurd rfl (hf [] (by simp))
      | cons a b => exact ⟨a, b, rfl⟩
    by_cases hp' : p'.key ≤ lo
    · have hp : p.key ≤ lo := le_of_lt (lt_of_lt_of_le (hlt p (by simp) p' (by simp)) hp')
      have h1 : nodeFor ((p :: r) :: (p' :: r') :: ns) lo = nodeFor ((p' :: r') :: ns) lo + 1 := by
        simp [nodeFor, startsBy, hp, hp']
      rw [List.flatten_cons, lowerIdx_append (fun a ha => lt_of_lt_of_le (hlt a ha p' (by simp)) hp'), ← ih]
      unfold startPlace place
      rw [h1]
      simp
      omega
    · have h1 : nodeFor ((p :: r) :: (p' :: r') :: ns) lo = 0 := by
        by_cases hp : p.key ≤ lo <;> simp [nodeFor, startsBy, hp, hp']
      rw [List.flatten_cons, lowerIdx_append_le]
      · unfold startPlace place
        rw [h1]; simp
      · intro b hb
        rw [List.flatten_cons] at hb
        rcases List.mem_append.mp hb with hb | hb
        · rcases List.mem_cons.mp hb with rfl | hb
          · exact le_of_lt (not_le.mp hp')
          · have : p'.key < b.key := by
              rw [List.flatten_cons, List.pairwise_append] at hs'
              exact (List.pairwise_cons.mp hs'.1).1 b hb
            exact le_of_lt (lt_trans (not_le.mp hp') this)
        · have : p'.key < b.key := by
            rw [List.flatten_cons, List.pairwise_append] at hs'
            exact hs'.2.2 p' (by simp) b hb
          exact le_of_lt (lt_trans (not_le.mp hp') this)

theorem endPlace_none {nodes : List (List (Page K))} (h : nodes ≠ []) (lo : K) : endPlace nodes lo none = nodes.flatten.length := by
  unfold endPlace place
  obtain ⟨a, b, rfl⟩ : ∃ a b, nodes = a ++ [b] := ⟨_, _, (List.dropLast_append_getLast h).symm⟩
  simp

theorem lt_of_endPlace {nodes : List (List (Page K))} (hw : Wf nodes) {lo h : K} (hle : lo ≤ h) {p : Page K}
    (hp : p ∈ (nodes.flatten.take (endPlace nodes lo (some h))).drop (startPlace nodes lo)) : p.key < h := by
  have hmono : nodeFor nodes lo ≤ nodeFor nodes h := by
    unfold nodeFor
    apply Nat.sub_le_sub_right
    have : ∀ l : List (List (Page K)), (l.takeWhile (startsBy lo)).length ≤ (l.takeWhile (startsBy h)).length := by
      intro l
      induction l with
      | nil => simp
      | cons n l ih =>
        rw [List.takeWhile_cons, List.takeWhile_cons]
        by_cases h1 : startsBy lo n = true
        · have h2 : startsBy h n = true := by
            cases n with
            | nil => rfl
            | cons a b =>
              have h1 : a.key ≤ lo := of_decide_eq_true h1
              exact decide_eq_true (le_trans h1 hle)
          simpa [h1, h2] using ih
        · simp [h1]
    exact this nodes
  rcases Nat.lt_or_eq_of_le hmono with hlt | heq
  · -- the end node starts above `lo`
    generalize he : nodeFor nodes h = e at hlt
    have htw : e + 1 ≤ (nodes.takeWhile (startsBy h)).length := by unfold nodeFor at he; omega
    have hen : e < nodes.length := lt_of_lt_of_le htw (List.takeWhile_sublist _).length_le
    have hsplit : nodes = nodes.take e ++ nodes[e] :: nodes.drop (e + 1) := by
      rw [← List.drop_eq_getElem_cons hen, List.take_append_drop]
    obtain ⟨q, r, hq⟩ : ∃ q r, nodes[e] = q :: r := by
      have := hw.full nodes[e] (List.getElem_mem hen)
      cases hx : nodes[e] with
      | nil => exact absurd hx this
      | cons a b => exact ⟨a, b, rfl⟩
    have hqh : q.key ≤ h := by
      have : startsBy h nodes[e] = true := by
        have hm : nodes[e] ∈ nodes.takeWhile (startsBy h) := by
          have h1 : (nodes.takeWhile (startsBy h))[e]'(by omega) = nodes[e] := by
            have := List.takeWhile_prefix (startsBy h) (l := nodes)
            exact this.getElem _
          rw [← h1]; exact List.getElem_mem _
        exact List.all_eq_true.mp List.all_takeWhile _ hm
      rw [hq] at this
      exact of_decide_eq_true this
    have hqlo : lo < q.key := by
      by_contra hc
      have hall : ∀ n ∈ nodes.take (e + 1), startsBy lo n = true := by
        intro n hn
        cases n with
        | nil => rfl
        | cons a b =>
          refine decide_eq_true (le_trans ?_ (not_lt.mp hc))
          rw [List.take_succ_eq_append_getElem hen, List.mem_append] at hn
          rcases hn with hn | hn
          · have hs := hw.sorted
            rw [hsplit, List.flatten_append, List.pairwise_append] at hs
            exact le_of_lt (hs.2.2 a (List.mem_flatten.mpr ⟨_, hn, by simp⟩) q (by rw [hq]; simp))
          · rw [List.mem_singleton, hq] at hn
            injection hn with hn; rw [hn]
      have h2 : e + 1 ≤ (nodes.takeWhile (startsBy lo)).length := by
        conv_rhs => rw [← List.take_append_drop (e + 1) nodes]
        rw [List.takeWhile_append_of_pos hall, List.length_append, List.length_take]
        omega
      unfold nodeFor at hlt
      omega
    have hl0 : lowerIdx (nodes.getD e []) lo = 0 := by
      rw [List.getD_eq_getElem?_getD, List.getElem?_eq_getElem hen, Option.getD_some, hq]
      simp [lowerIdx, le_of_lt hqlo]
    have hplace : endPlace nodes lo (some h) = (nodes.take e).flatten.length := by
      simp only [endPlace, place, he, hl0, Nat.add_zero]
    have hp' := List.mem_of_mem_drop hp
    rw [hplace] at hp'
    have htake : nodes.flatten.take (nodes.take e).flatten.length = (nodes.take e).flatten := by
      conv_lhs => rw [hsplit, List.flatten_append]
      have : (nodes.take e ++ nodes[e] :: nodes.drop (e + 1)).take e = nodes.take e := by rw [← hsplit]
      rw [this, List.take_left' rfl]
    rw [htake] at hp'
    have hs := hw.sorted
    rw [hsplit, List.flatten_append, List.pairwise_append] at hs
    exact lt_of_lt_of_le (hs.2.2 p hp' q (by rw [hq]; simp)) hqh
  · have hpl : endPlace nodes lo (some h) = startPlace nodes lo := by
      simp only [endPlace, startPlace, heq]
    rw [hpl, List.drop_take] at hp
    simp at hp

/-- In sorted lists, dropping what is below is filtering. -/
theorem drop_lowerIdx : ∀ {l : List (Page K)}, l.Pairwise (fun p q => p.key < q.key) → ∀ lo : K,
    l.drop (lowerIdx l lo) = l.filter (fun p => decide (lo ≤ p.key))
  | [], _, _ => rfl
  | x :: l, h, lo => by
    have h' := List.pairwise_cons.mp h
    by_cases hx : x.key < lo
    · have h1 : lowerIdx (x :: l) lo = lowerIdx l lo + 1 := by simp [lowerIdx, hx]
      rw [h1, List.drop_succ_cons, drop_lowerIdx h'.2, List.filter_cons_of_neg (by simpa using hx)]
    · have h1 : lowerIdx (x :: l) lo = 0 := by simp [lowerIdx, not_lt.mp hx]
      rw [h1, List.drop_zero]
      refine (List.filter_eq_self.mpr fun a ha => ?_).symm
      rcases List.mem_cons.mp ha with rfl | ha
      · simpa using hx
      · simpa using le_trans (not_lt.mp hx) (le_of_lt (h'.1 a ha))

/-- The pages whose index entries a rough iterator yields. -/
def roughPages (nodes : List (List (Page K))) (lo : K) (hi : Option K) : List (Page K) :=
  (nodes.flatten.take (endPlace nodes lo hi)).drop (startPlace nodes lo)

theorem roughPages_none {nodes : List (List (Page K))} (hw : Wf nodes) (lo : K) :
    roughPages nodes lo none = nodes.flatten.filter (fun p => decide (lo ≤ p.key)) := by
  unfold roughPages
  rw [endPlace_none hw.ne, List.take_length, startPlace_eq hw.full hw.sorted, drop_lowerIdx hw.sorted]

theorem roughPages_sublist {nodes : List (List (Page K))} (hw : Wf nodes) (lo : K) (hi : Option K) :
    (roughPages nodes lo hi).Sublist (nodes.flatten.filter (fun p => decide (lo ≤ p.key))) := by
  unfold roughPages
  rw [← drop_lowerIdx hw.sorted, ← startPlace_eq hw.full hw.sorted]
  exact (List.take_sublist _ _).drop _

/-! ### Tuples of pages -/

variable (klen : K → Nat)

/-- Bytes of the tuples from `p` to `q`. -/
def bytesIn (p q : K) (ts : List (Tuple K)) : Nat := ((ts.filter (fun t => decide (p ≤ t.1 ∧ t.1 < q))).map (size klen)).sum

def Page.bytes (p : Page K) : Nat := (p.stats klen).bytes

/-- Bytes of the pages whose first key is from `p` to `q`. -/
def pageBytes (p q : K) (ps : List (Page K)) : Nat := ((ps.filter (fun x => decide (p ≤ x.key ∧ x.key < q))).map (Page.bytes klen)).sum

theorem bytesIn_le (p q : K) (ts : List (Tuple K)) : bytesIn klen p q ts ≤ (ts.map (size klen)).sum := by
  induction ts with
  | nil => simp [bytesIn]
  | cons t ts ih =>
    unfold bytesIn at ih ⊢
    rw [List.filter_cons]
    split <;> simp only [List.map_cons, List.sum_cons] <;> omega

theorem bytesIn_append (p q : K) (a b : List (Tuple K)) : bytesIn klen p q (a ++ b) = bytesIn klen p q a + bytesIn klen p q b := by
  simp [bytesIn]

theorem bytesIn_none {p q : K} {ts : List (Tuple K)} (h : ∀ t ∈ ts, t.1 < p ∨ q ≤ t.1) : bytesIn klen p q ts = 0 := by
  unfold bytesIn
  rw [List.filter_eq_nil_iff.mpr]
  · rfl
  · intro t ht hc
    have hc := of_decide_eq_true hc
    rcases h t ht with h | h
    · exact absurd hc.1 (not_le.mpr h)
    · exact absurd hc.2 (not_lt.mpr h)

theorem bytesIn_all {p q : K} {ts : List (Tuple K)} (h : ∀ t ∈ ts, p ≤ t.1 ∧ t.1 < q) : bytesIn klen p q ts = (ts.map (size klen)).sum := by
  unfold bytesIn
  rw [List.filter_eq_self.mpr]
  intro t ht
  exact decide_eq_true (h t ht)

/-- Tuples of the pages of a tree are in order. -/
def TSorted (ps : List (Page K)) : Prop := (ps.flatMap Page.tuples).Pairwise (fun a b => a.1 < b.1)

theorem TSorted.tail {x : Page K} {ps : List (Page K)} (h : TSorted (x :: ps)) : TSorted ps := by
  unfold TSorted at *
  rw [List.flatMap_cons, List.pairwise_append] at h
  exact h.2.1

theorem TSorted.key_le {x : Page K} {ps : List (Page K)} (h : TSorted (x :: ps)) : ∀ t ∈ x.tuples, x.key ≤ t.1 := by
  unfold TSorted at h
  rw [List.flatMap_cons, List.pairwise_append] at h
  intro t ht
  rcases List.mem_cons.mp ht with rfl | ht
  · exact le_refl _
  · exact le_of_lt ((List.pairwise_cons.mp h.1).1 t ht)

theorem TSorted.lt {x : Page K} {ps : List (Page K)} (h : TSorted (x :: ps)) : ∀ t ∈ x.tuples, ∀ y ∈ ps, t.1 < y.key := by
  unfold TSorted at h
  rw [List.flatMap_cons, List.pairwise_append] at h
  exact fun t ht y hy => h.2.2 t ht y.hd (List.mem_flatMap.mpr ⟨y, hy, by simp [Page.tuples]⟩)

theorem TSorted.pages : ∀ {ps : List (Page K)}, TSorted ps → ps.Pairwise (fun p q => p.key < q.key)
  | [], _ => .nil
  | x :: ps, h => List.pairwise_cons.mpr ⟨fun y hy => h.lt x.hd (by simp [Page.tuples]) y hy, h.tail.pages⟩

theorem pageBytes_cons (p q : K) (x : Page K) (ps : List (Page K)) :
    pageBytes klen p q (x :: ps) = (if p ≤ x.key ∧ x.key < q then x.bytes klen else 0) + pageBytes klen p q ps := by
  unfold pageBytes
  rw [List.filter_cons]
  split <;> rename_i h
  · rw [if_pos (of_decide_eq_true h)]; simp
  · rw [if_neg (fun hc => h (decide_eq_true hc))]; simp

theorem bytesIn_cons (p q : K) (x : Page K) (ps : List (Page K)) :
    bytesIn klen p q ((x :: ps).flatMap Page.tuples) = bytesIn klen p q x.tuples + bytesIn klen p q (ps.flatMap Page.tuples) := by
  rw [List.flatMap_cons, bytesIn_append]

theorem pageBytes_none {p q : K} {ps : List (Page K)} (h : ∀ x ∈ ps, x.key < p ∨ q ≤ x.key) : pageBytes klen p q ps = 0 := by
  unfold pageBytes
  rw [List.filter_eq_nil_iff.mpr]
  · rfl
  · intro t ht hc
    have hc := of_decide_eq_true hc
    rcases h t ht with h | h
    · exact absurd hc.1 (not_le.mpr h)
    · exact absurd hc.2 (not_lt.mpr h)

/-- If all pages begin at `p` or later, none of them reaches in from before. -/
theorem bytesIn_le_pages_ge : ∀ {ps : List (Page K)}, TSorted ps → ∀ {p q : K}, (∀ x ∈ ps, p ≤ x.key) →
    bytesIn klen p q (ps.flatMap Page.tuples) ≤ pageBytes klen p q ps
  | [], _, _, _, _ => by simp [bytesIn]
  | x :: ps, h, p, q, hp => by
    have ih := bytesIn_le_pages_ge h.tail (p := p) (q := q) (fun y hy => hp y (List.mem_cons_of_mem _ hy))
    rw [bytesIn_cons, pageBytes_cons]
    by_cases hq : x.key < q
    · rw [if_pos ⟨hp x (by simp), hq⟩]
      have := bytesIn_le klen p q x.tuples
      have h2 : x.bytes klen = (x.tuples.map (size klen)).sum := rfl
      omega
    · rw [bytesIn_none klen (ts := x.tuples) (fun t ht => .inr (le_trans (not_lt.mp hq) (h.key_le t ht)))]
      omega

theorem bytesIn_le_pages {w : Nat} : ∀ {ps : List (Page K)}, TSorted ps → (∀ x ∈ ps, x.bytes klen ≤ w) → ∀ p q : K,
    bytesIn klen p q (ps.flatMap Page.tuples) ≤ pageBytes klen p q ps + w
  | [], _, _, _, _ => by simp [bytesIn]
  | x :: ps, h, hw, p, q => by
    by_cases hx : p ≤ x.key
    · refine Nat.le_trans (bytesIn_le_pages_ge klen h fun y hy => ?_) (Nat.le_add_right _ _)
      rcases List.mem_cons.mp hy with rfl | hy
      · exact hx
      · exact le_trans hx (le_of_lt (h.lt x.hd (by simp [Page.tuples]) y hy))
    · rw [bytesIn_cons, pageBytes_cons, if_neg (fun hc => hx hc.1)]
      by_cases hps : ∀ y ∈ ps, p ≤ y.key
      · have h1 := bytesIn_le_pages_ge klen h.tail (q := q) hps
        have h2 := bytesIn_le klen p q x.tuples
        have h3 := hw x (by simp)
        have h4 : x.bytes klen = (x.tuples.map (size klen)).sum := rfl
        omega
      · have h1 := bytesIn_le_pages h.tail (fun y hy => hw y (List.mem_cons_of_mem _ hy)) p q
        rw [bytesIn_none klen (ts := x.tuples)]
        · omega
        · intro t ht
          push Not at hps
          obtain ⟨y, hy, hlt⟩ := hps
          exact .inl (lt_trans (h.lt t ht y hy) hlt)

theorem pages_le_bytesIn {w : Nat} : ∀ {ps : List (Page K)}, TSorted ps → (∀ x ∈ ps, x.bytes klen ≤ w) → ∀ p q : K,
    pageBytes klen p q ps ≤ bytesIn klen p q (ps.flatMap Page.tuples) + w
  | [], _, _, _, _ => by simp [pageBytes]
  | x :: ps, h, hw, p, q => by
    have ih := pages_le_bytesIn h.tail (fun y hy => hw y (List.mem_cons_of_mem _ hy)) p q
    rw [bytesIn_cons, pageBytes_cons]
    by_cases hx : p ≤ x.key ∧ x.key < q
    · rw [if_pos hx]
      by_cases hps : ∀ y ∈ ps, q ≤ y.key
      · have h1 := pageBytes_none klen (p := p) (q := q) (ps := ps) (fun y hy => .inr (hps y hy))
        have h3 := hw x (by simp)
        omega
      · push Not at hps
        obtain ⟨y, hy, hlt⟩ := hps
        have h1 := bytesIn_all klen (p := p) (q := q) (ts := x.tuples) (fun t ht => ⟨le_trans hx.1 (h.key_le t ht), lt_trans (h.lt t ht y hy) hlt⟩)
        have h4 : x.bytes klen = (x.tuples.map (size klen)).sum := rfl
        omega
    · rw [if_neg hx]; omega

end Splinter.SplitPoints
