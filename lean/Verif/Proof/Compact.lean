import Verif.Model.Compact
import Verif.Props.BtreeIter

/-!
What skiperators deliver (`Model/Compact.lean`).
-/
namespace Splinter.Compact
open Splinter.Btree

variable {K M : Type} [LinearOrder K]

/-- First key of the list, or the upper bound. -/
def hd (hi : K) : List (K × Bool) → K
  | [] => hi
  | x :: _ => x.1

theorem hd_cons (hi : K) (x : K × Bool) (r : List (K × Bool)) : hd hi (x :: r) = x.1 := rfl

/-- Is the key in the range of a live pivot? -/
def liveAt (hi k : K) : List (K × Bool) → Bool
  | [] => false
  | x :: r => (x.2 && decide (x.1 ≤ k) && decide (k < hd hi r)) || liveAt hi k r

/-- Pivots in order, below the bound. -/
def Ordered (hi : K) : List (K × Bool) → Prop
  | [] => True
  | x :: r => x.1 < hd hi r ∧ Ordered hi r

theorem Ordered.hd_le {hi : K} : ∀ {pv : List (K × Bool)}, Ordered hi pv → hd hi pv ≤ hi
  | [], _ => le_refl _
  | _ :: r, h => le_trans (le_of_lt h.1) (Ordered.hd_le (pv := r) h.2)

theorem liveAt_ge {hi k : K} : ∀ {pv : List (K × Bool)}, Ordered hi pv → liveAt hi k pv = true → hd hi pv ≤ k
  | [], _, h => by simp [liveAt] at h
  | x :: r, ho, h => by
    simp only [liveAt, Bool.or_eq_true, Bool.and_eq_true, decide_eq_true_eq] at h
    rcases h with h | h
    · exact h.1.2
    · exact le_trans (le_of_lt ho.1) (liveAt_ge ho.2 h)

theorem filter_two {l : List (K × M)} (hs : l.Pairwise (fun x y => x.1 < y.1)) (b : K) {p q : K × M → Bool}
    (hp : ∀ x, p x = true → x.1 < b) (hq : ∀ x, q x = true → b ≤ x.1) :
    l.filter p ++ l.filter q = l.filter (fun x => p x || q x) := by
  induction l with
  | nil => rfl
  | cons x l ih =>
    rw [List.pairwise_cons] at hs
    have ih := ih hs.2
    by_cases h1 : p x = true
    · have h2 : q x = false := by
        cases e : q x with
        | false => rfl
        | true => exact absurd (hp x h1) (not_lt.mpr (hq x e))
      simp only [List.filter_cons, h1, h2, Bool.or_false, if_true, List.cons_append, ih,
        Bool.false_eq_true, if_false]
    · by_cases h2 : q x = true
      · have h3 : l.filter p = [] := by
          rw [List.filter_eq_nil_iff]
          intro y hy hpy
          exact absurd (hp y hpy) (not_lt.mpr (le_trans (hq x h2) (le_of_lt (hs.1 y hy))))
        rw [h3, List.nil_append] at ih
        simp [List.filter_cons, h1, h2, ih, h3]
      · simp [List.filter_cons, h1, h2, ih]

/-- The tuples of a list in a range. -/
def within (l : List (K × M)) (r : K × K) : List (K × M) :=
  l.filter fun x => decide (r.1 ≤ x.1) && decide (x.1 < r.2)

theorem ranges_within (l : List (K × M)) (hs : l.Pairwise (fun x y => x.1 < y.1)) (hi : K) :
    ∀ pv : List (K × Bool), Ordered hi pv →
      (ranges hi pv none).flatMap (within l) = l.filter (fun x => liveAt hi x.1 pv) ∧
      ∀ a, a < hd hi pv → (ranges hi pv (some a)).flatMap (within l) =
        l.filter (fun x => (decide (a ≤ x.1) && decide (x.1 < hd hi pv)) || liveAt hi x.1 pv) := by
  intro pv
  induction pv with
  | nil =>
    intro _
    refine ⟨by simp [ranges, liveAt], fun a _ => ?_⟩
    simp only [ranges, List.flatMap_cons, List.flatMap_nil, List.append_nil, within, hd, liveAt, Bool.or_false]
    rfl
  | cons x r ih =>
    obtain ⟨k, b⟩ := x
    intro ho
    obtain ⟨h1, h2⟩ := ih ho.2
    have hk : k < hd hi r := ho.1
    cases b with
    | true =>
      constructor
      · rw [ranges, h2 k hk]
        simp [liveAt]
      · intro a ha
        have ha : a < k := ha
        rw [ranges, h2 a (lt_trans ha hk)]
        apply List.filter_congr
        intro y _
        simp only [liveAt, Bool.true_and, hd_cons, ← Bool.or_assoc]
        congr 1
        rcases lt_or_ge y.1 k with c | c
        · simp [c, lt_trans c hk, not_le.mpr c]
        · simp [c, not_lt.mpr c, le_trans (le_of_lt ha) c]
    | false =>
      constructor
      · rw [ranges, h1]
        simp [liveAt]
      · intro a ha
        have ha : a < k := ha
        rw [ranges, List.flatMap_cons, h1]
        unfold within
        rw [filter_two hs k]
        · simp only [liveAt, Bool.false_and, Bool.false_or, hd_cons]
          rfl
        · intro y hy
          simp only [Bool.and_eq_true, decide_eq_true_eq] at hy
          exact hy.2
        · intro y hy
          exact le_trans (le_of_lt hk) (liveAt_ge ho.2 hy)

theorem ranges_length (hi : K) : ∀ (pv : List (K × Bool)),
    (ranges hi pv none).length ≤ pv.length ∧ ∀ a, (ranges hi pv (some a)).length ≤ pv.length + 1
  | [] => ⟨by simp [ranges], by simp [ranges]⟩
  | (k, true) :: r => by
    obtain ⟨h1, h2⟩ := ranges_length hi r
    refine ⟨by simpa [ranges] using h2 k, fun a => ?_⟩
    have := h2 a
    simp only [ranges, List.length_cons]; omega
  | (k, false) :: r => by
    obtain ⟨h1, h2⟩ := ranges_length hi r
    refine ⟨by simp only [ranges, List.length_cons]; omega, fun a => ?_⟩
    simp only [ranges, List.length_cons]; omega

theorem ranges_lt (hi : K) : ∀ (pv : List (K × Bool)), Ordered hi pv →
    (∀ r ∈ ranges hi pv none, r.1 < r.2 ∧ r.2 ≤ hi) ∧
      ∀ a, a < hd hi pv → ∀ r ∈ ranges hi pv (some a), r.1 < r.2 ∧ r.2 ≤ hi
  | [], _ => ⟨by simp [ranges], by intro a ha r hr; simp [ranges] at hr; subst hr; exact ⟨ha, le_refl _⟩⟩
  | (k, true) :: r, ho => by
    obtain ⟨h1, h2⟩ := ranges_lt hi r ho.2
    exact ⟨h2 k ho.1, fun a ha => h2 a (lt_trans ha ho.1)⟩
  | (k, false) :: r, ho => by
    obtain ⟨h1, h2⟩ := ranges_lt hi r ho.2
    refine ⟨h1, fun a ha x hx => ?_⟩
    simp only [ranges, List.mem_cons] at hx
    rcases hx with rfl | hx
    · exact ⟨ha, le_trans (le_of_lt ho.1) ho.2.hd_le⟩
    · exact h1 x hx

variable [BoundedOrder K] [Inhabited K]

/-- An iterator that delivers these tuples and is then at its end. -/
inductive Yields (st : Store K M) : Iter K → List (K × M) → Prop
  | nil {t : Iter K} : t.canNext = false → Yields st t []
  | cons {t t' : Iter K} {x : K × M} {l : List (K × M)} : t.canNext = true → t.curr? st = some x →
      Btree.next st t = some t' → Yields st t' l → Yields st t (x :: l)

theorem yields_forward {st : Store K M} : ∀ {n : Nat} {t : Iter K} {l : List (K × M)},
    forward st n t = some (l, true) → Yields st t l := by
  intro n
  induction n with
  | zero =>
    intro t l h
    simp only [forward, Option.some.injEq, Prod.mk.injEq, Bool.not_eq_true'] at h
    obtain ⟨rfl, h⟩ := h
    exact .nil h
  | succ n ih =>
    intro t l h
    rw [forward] at h
    split at h
    · rename_i hc
      simp only [Option.bind_eq_bind, Option.bind_eq_some_iff] at h
      obtain ⟨x, hx, t', ht, r, hr, e⟩ := h
      simp only [Option.some.injEq, Prod.mk.injEq] at e
      obtain ⟨rfl, e⟩ := e
      exact .cons hc hx ht (ih (by rw [hr, ← e]))
    · rename_i hc
      simp only [Option.some.injEq, Prod.mk.injEq, and_true] at h
      subst h
      exact .nil (by simpa using hc)

/-- The iterators from `curr` on deliver these tuples. -/
structure SkipHas (st : Store K M) (s : Skip K) (l : List (K × M)) : Prop where
  ex : ∃ pre rest ls, s.its = pre ++ rest ∧ s.curr = pre.length ∧ List.Forall₂ (Yields st) rest ls ∧
    l = ls.flatten ∧ ∀ t ∈ rest.head?, t.canNext = true

theorem settle_none {its : List (Iter K)} {c : Nat} (h : its[c]? = none) : settle its c = c := by
  rw [settle]
  split
  · rfl
  · rename_i e; simp [h] at e

theorem settle_some {its : List (Iter K)} {c : Nat} {t : Iter K} (h : its[c]? = some t) :
    settle its c = if t.canNext then c else settle its (c + 1) := by
  rw [settle]
  split
  · rename_i e; simp [h] at e
  · rename_i t' e
    rw [h, Option.some.injEq] at e
    rw [e]

theorem settle_has {st : Store K M} : ∀ (rest : List (Iter K)) (ls : List (List (K × M))) (pre : List (Iter K)),
    List.Forall₂ (Yields st) rest ls → SkipHas st ⟨settle (pre ++ rest) pre.length, pre ++ rest⟩ ls.flatten := by
  intro rest
  induction rest with
  | nil =>
    intro ls pre h
    cases h
    rw [settle_none (by simp)]
    exact ⟨pre, [], [], by simp, by simp, .nil, rfl, by simp⟩
  | cons t rest ih =>
    intro ls pre h
    cases h with
    | @cons _ l _ ls h1 h2 =>
      rw [settle_some (t := t) (by simp)]
      by_cases hc : t.canNext = true
      · simp only [hc, if_true]
        exact ⟨pre, t :: rest, l :: ls, rfl, rfl, .cons h1 h2, rfl, by simpa using hc⟩
      · have hl : l = [] := by
          cases h1 with
          | nil => rfl
          | cons c => exact absurd c hc
        have := ih ls (pre ++ [t]) h2
        simp only [hc, hl, List.flatten_cons, List.nil_append]
        simpa using this

theorem SkipHas.forward {st : Store K M} : ∀ {n : Nat} {s : Skip K} {l : List (K × M)}, SkipHas st s l →
    l.length ≤ n → s.forward st n = some (l, true) := by
  have none : ∀ {s : Skip K}, SkipHas st s [] → s.canNext = false := by
    rintro s ⟨pre, rest, ls, e1, e2, hf, hl, hc⟩
    unfold Skip.canNext
    rw [e1, e2]
    cases hf with
    | nil => simp
    | @cons t l _ _ h1 _ =>
      have hc := hc t rfl
      cases h1 with
      | nil h => simp [h] at hc
      | cons => simp at hl
  intro n
  induction n with
  | zero =>
    intro s l h hn
    have : l = [] := List.length_eq_zero_iff.mp (Nat.le_zero.mp hn)
    subst this
    simp [Skip.forward, none h]
  | succ n ih =>
    intro s l h hn
    cases l with
    | nil => simp [Skip.forward, none h]
    | cons x l =>
      obtain ⟨pre, rest, ls, e1, e2, hf, hl, hc⟩ := h
      cases hf with
      | nil => simp at hl
      | @cons t l0 rest' ls' h1 h2 =>
        have hc := hc t rfl
        cases h1 with
        | nil h => simp [h] at hc
        | @cons _ t' x' l' _ hx hn' hy =>
          simp only [List.flatten_cons, List.cons_append, List.cons.injEq] at hl
          obtain ⟨rfl, rfl⟩ := hl
          have hg : s.its[s.curr]? = some t := by rw [e1, e2]; simp
          have hset : s.its.set s.curr t' = pre ++ t' :: rest' := by rw [e1, e2]; simp
          have hs := settle_has (t' :: rest') (l' :: ls') pre (.cons hy h2)
          rw [← hset, ← e2] at hs
          have hr := ih hs (by simpa using hn)
          rw [Skip.forward]
          simp only [Skip.canNext, hg, hc, if_true, Skip.curr?, hx, Skip.next, hn', Option.bind_eq_bind,
            Option.bind_some, hr]
          simp

/-- A skiperator delivers exactly the tuples in the ranges of live pivots, in order. -/
theorem skip_reads {st : Store K M} {root : Nat} {L : List Nat} {items : List (K × M)}
    (T : Tree st root L items) (hreal : ∀ x ∈ items, x.1 < ⊤) {hi : K} {pv : List (K × Bool)} (ho : Ordered hi pv)
    {fuel : Nat} (hf : items.length ≤ fuel) :
    readBranch st hi pv fuel root = some (items.filter fun x => liveAt hi x.1 pv) := by
  have hits : ∀ rs : List (K × K), (∀ r ∈ rs, r.1 < r.2) → ∃ its,
      rs.mapM (fun r => Btree.init st root r.1 r.2 r.1 .ge) = some its ∧
      List.Forall₂ (Yields st) its (rs.map (within items)) := by
    intro rs
    induction rs with
    | nil => intro _; exact ⟨[], rfl, .nil⟩
    | cons r rs ih =>
      intro h
      obtain ⟨its, h1, h2⟩ := ih fun x hx => h x (List.mem_cons_of_mem _ hx)
      have hlt := h r (List.mem_cons_self ..)
      obtain ⟨t, h3, h4⟩ := scan_ge T r.1 r.2 r.1 (Nat.le_refl _)
      refine ⟨t :: its, ?_, .cons ?_ h2⟩
      · rw [List.mapM_cons, h3, h1]; rfl
      · have : within items r = items.filter (fun x =>
            decide (min (max r.1 r.1) (max r.1 r.2) ≤ x.1) && below (max r.1 r.2) x) := by
          apply List.filter_congr
          intro x hx
          rw [max_self, max_eq_right (le_of_lt hlt), min_eq_left (le_of_lt hlt)]
          congr 1
          unfold below
          by_cases ht : r.2 = ⊤
          · rw [ht]; simp [hreal x hx]
          · simp [ht]
        rw [this]
        exact yields_forward h4
  obtain ⟨its, h1, h2⟩ := hits (ranges hi pv none) fun r hr => ((ranges_lt hi pv ho).1 r hr).1
  have h3 := settle_has its _ [] h2
  rw [List.nil_append, List.length_nil, ← List.flatMap_def, (ranges_within items T.sorted hi pv ho).1] at h3
  have h4 := h3.forward (n := fuel) (le_trans (List.length_filter_le _ _) hf)
  unfold readBranch Skip.init
  simp only [h1, Option.bind_eq_bind, Option.bind_some, h4, if_true]

end Splinter.Compact
