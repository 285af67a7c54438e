import Verif.Proof.SplitPoints2
import Verif.Model.Search
import Mathlib.Data.List.Sort
/-!
# C57: splitting a leaf

The leaves made by a split divide the leaf's key range into parts that are not empty, there are at most as many as
were asked for, and each but the last gets about the bytes asked for. This holds when no branch of the leaf is a single page
and leaves are much larger than pages. The theorems after it show what happens otherwise.
-/
namespace Splinter.SplitPoints

variable {K : Type} [LinearOrder K]

namespace Spec

/-- Below an upper bound that may be infinite. -/
def Below (k : K) : Option K → Prop
  | none => True
  | some h => k < h

/-- The leaves divide the range from `lo` to `hi`: none is empty, all are inside, every key of the range is in exactly one. -/
structure Divides (lo : K) (hi : Option K) (ls : List (Leaf K)) : Prop where
  nonempty : ∀ l ∈ ls, Below l.lo l.hi
  inside : ∀ l ∈ ls, ∀ k, l.lo ≤ k → Below k l.hi → lo ≤ k ∧ Below k hi
  covered : ∀ k, lo ≤ k → Below k hi → ∃ l ∈ ls, l.lo ≤ k ∧ Below k l.hi
  disjoint : ls.Pairwise (fun a b => ∀ k, ¬ (a.lo ≤ k ∧ Below k a.hi ∧ b.lo ≤ k ∧ Below k b.hi))

/-- All tuples of a branch. -/
def tuples : Tree K → List (Tuple K)
  | .page p => p.tuples
  | .index nodes => nodes.flatten.flatMap Page.tuples

/-- A branch of more than one page as packed from sorted tuples; its pages hold at most `w` bytes. -/
def Packed (klen : K → Nat) (w : Nat) : Tree K → Prop
  | .page _ => False
  | .index nodes => nodes ≠ [] ∧ (∀ n ∈ nodes, n ≠ []) ∧ (nodes.flatten.flatMap Page.tuples).Pairwise (fun a b => a.1 < b.1) ∧
      ∀ p ∈ nodes.flatten, (p.tuples.map (size klen)).sum ≤ w

/-- Bytes of the tuples from `p` up to `q` in some branches. -/
def bytesBetween (klen : K → Nat) (p q : K) (trees : List (Tree K)) : Nat :=
  (trees.map fun t => (((tuples t).filter (fun x => decide (p ≤ x.1 ∧ x.1 < q))).map (size klen)).sum).sum

end Spec
open Spec (Below Divides Packed bytesBetween)

/-! ### Lemmas -/

theorem Tiles.divides {hi : Option K} {lo : K} {ls : List (Leaf K)} (h : Tiles hi lo ls) : Divides lo hi ls ∧ ∀ l ∈ ls, lo ≤ l.lo := by
  induction h with
  | @last lo b h0 =>
    have hb : Below lo hi := by
      cases hi with
      | none => trivial
      | some h => exact h0 h rfl
    refine ⟨⟨?_, ?_, fun k h1 h2 => ⟨_, List.mem_singleton_self _, h1, h2⟩, List.pairwise_singleton _ _⟩, ?_⟩
    · intro l hl; rw [List.mem_singleton.mp hl]; exact hb
    · intro l hl k h1 h2; rw [List.mem_singleton.mp hl] at h1 h2; exact ⟨h1, h2⟩
    · intro l hl; rw [List.mem_singleton.mp hl]
  | @cons lo k b ls hlt hr ih =>
    obtain ⟨ih, ihlo⟩ := ih
    have hk : Below k hi := by
      cases hr with
      | last h0 =>
        cases hi with
        | none => trivial
        | some h => exact h0 h rfl
      | @cons _ k' b' ls' h1 h2 =>
        have := ih.nonempty ⟨k, some k', b'⟩ (by simp)
        exact (ih.inside ⟨k, some k', b'⟩ (by simp) k (le_refl _) this).2
    refine ⟨⟨?_, ?_, ?_, ?_⟩, ?_⟩
    · intro l hl
      rcases List.mem_cons.mp hl with rfl | hl
      · exact hlt
      · exact ih.nonempty l hl
    · intro l hl x h1 h2
      rcases List.mem_cons.mp hl with rfl | hl
      · refine ⟨h1, ?_⟩
        cases hi with
        | none => trivial
        | some h => exact lt_trans h2 hk
      · obtain ⟨h3, h4⟩ := ih.inside l hl x h1 h2
        exact ⟨le_trans (le_of_lt hlt) h3, h4⟩
    · intro x h1 h2
      by_cases hx : x < k
      · exact ⟨_, List.mem_cons_self, h1, hx⟩
      · obtain ⟨l, hl, h3⟩ := ih.covered x (not_lt.mp hx) h2
        exact ⟨l, List.mem_cons_of_mem _ hl, h3⟩
    · refine List.pairwise_cons.mpr ⟨fun l hl x hx => ?_, ih.disjoint⟩
      exact absurd hx.2.1 (not_lt.mpr (le_trans (ihlo l hl) hx.2.2.1))
    · intro l hl
      rcases List.mem_cons.mp hl with rfl | hl
      · exact le_refl _
      · exact le_trans (le_of_lt hlt) (ihlo l hl)

set_option linter.unusedSectionVars false
variable {klen : K → Nat} {w : Nat}

theorem Spec.Packed.nodes {t : Tree K} (h : Packed klen w t) : ∃ nodes, t = .index nodes ∧ Wf nodes ∧ TSorted nodes.flatten ∧ ∀ p ∈ nodes.flatten, p.bytes klen ≤ w := by
  cases t with
  | page p => exact h.elim
  | index nodes => exact ⟨nodes, rfl, ⟨h.1, h.2.1, TSorted.pages h.2.2.1⟩, h.2.2.1, h.2.2.2⟩

theorem rough_index (klen : K → Nat) (nodes : List (List (Page K))) (lo : K) (hi : Option K) :
    rough klen lo hi (.index nodes) = (roughPages nodes lo hi).map fun p => ⟨p.key, some (p.stats klen)⟩ := rfl

theorem rough_facts {t : Tree K} (h : Packed klen w t) {lo : K} {hi : Option K} (hlo : ∀ h, hi = some h → lo < h) :
    (∀ x ∈ rough klen lo hi t, lo ≤ x.key ∧ x.bytes ≤ w ∧ ∀ h, hi = some h → x.key < h) ∧
    (rough klen lo hi t).Pairwise (fun a b => a.key < b.key) := by
  obtain ⟨nodes, rfl, hw, hs, hb⟩ := Spec.Packed.nodes h
  have hsub := roughPages_sublist hw lo hi
  rw [rough_index]
  constructor
  · intro x hx
    obtain ⟨p, hp, rfl⟩ := List.mem_map.mp hx
    obtain ⟨h1, h2⟩ := List.mem_filter.mp (hsub.subset hp)
    refine ⟨of_decide_eq_true h2, hb p h1, fun h' hh => ?_⟩
    subst hh
    exact lt_of_endPlace hw (le_of_lt (hlo h' rfl)) hp
  · rw [List.pairwise_map]
    exact (hw.sorted.sublist List.filter_sublist).sublist hsub

theorem dup_flatten : ∀ {ls : List (List (Item K))}, (∀ l ∈ ls, l.Pairwise (fun a b => a.key < b.key)) → Dup ls.length ls.flatten
  | [], _, k => by simp
  | l :: ls, h, k => by
    have ih := dup_flatten (fun m hm => h m (List.mem_cons_of_mem _ hm)) k
    have h1 : (l.filter (fun x => decide (x.key = k))).length ≤ 1 := by
      have hp := (h l (by simp)).sublist (List.filter_sublist (p := fun x => decide (x.key = k)))
      have hk : ∀ x ∈ l.filter (fun x => decide (x.key = k)), x.key = k := fun x hx => of_decide_eq_true (List.mem_filter.mp hx).2
      generalize l.filter (fun x => decide (x.key = k)) = m at hp hk ⊢
      match m, hp, hk with
      | [], _, _ => simp
      | [_], _, _ => simp
      | a :: b :: r, hp, hk =>
        have ha : a.key = k := hk a (by simp)
        have hb : b.key = k := hk b (by simp)
        have := (List.pairwise_cons.mp hp).1 b (by simp)
        rw [ha, hb] at this
        exact absurd this (lt_irrefl _)
    rw [List.flatten_cons, List.filter_append, List.length_append, List.length_cons]
    omega

theorem Dup.perm {D : Nat} {a b : List (Item K)} (h : Dup D a) (hp : b.Perm a) : Dup D b := fun k => by
  rw [(hp.filter _).length_eq]; exact h k

theorem itemsIn_perm {p q : K} {a b : List (Item K)} (h : a.Perm b) : itemsIn p q a = itemsIn p q b :=
  ((h.filter _).map _).sum_nat

theorem itemsIn_flatten (p q : K) (ls : List (List (Item K))) : itemsIn p q ls.flatten = (ls.map (itemsIn p q)).sum := by
  induction ls with
  | nil => rfl
  | cons l ls ih => rw [List.flatten_cons, itemsIn_append, ih]; rfl

theorem itemsIn_pages (klen : K → Nat) (p q : K) (ps : List (Page K)) :
    itemsIn p q (ps.map fun p => (⟨p.key, some (p.stats klen)⟩ : Item K)) = pageBytes klen p q ps := by
  induction ps with
  | nil => rfl
  | cons x ps ih =>
    rw [pageBytes_cons, ← ih, List.map_cons]
    unfold itemsIn
    rw [List.filter_cons]
    split <;> rename_i h
    · rw [if_pos (of_decide_eq_true h)]; rfl
    · rw [if_neg (fun hc => h (decide_eq_true hc))]; simp

theorem pageBytes_filter (klen : K → Nat) {lo p q : K} (h : lo ≤ p) (ps : List (Page K)) :
    pageBytes klen p q (ps.filter fun x => decide (lo ≤ x.key)) = pageBytes klen p q ps := by
  unfold pageBytes
  rw [List.filter_filter]
  congr 2
  refine List.filter_congr fun x _ => ?_
  by_cases h1 : p ≤ x.key
  · simp [le_trans h h1]
  · simp [h1]

theorem pageBytes_sublist (klen : K → Nat) {p q : K} {a b : List (Page K)} (h : a.Sublist b) : pageBytes klen p q a ≤ pageBytes klen p q b := by
  induction h with
  | slnil => exact Nat.le_refl _
  | cons x _ ih => rw [pageBytes_cons]; omega
  | cons_cons x _ ih => rw [pageBytes_cons, pageBytes_cons]; omega

theorem tree_bytes {t : Tree K} (h : Packed klen w t) {lo : K} {hi : Option K} {p q : K} (hp : lo ≤ p) :
    itemsIn p q (rough klen lo hi t) ≤ (((Spec.tuples t).filter (fun x => decide (p ≤ x.1 ∧ x.1 < q))).map (size klen)).sum + w ∧
    (hi = none → (((Spec.tuples t).filter (fun x => decide (p ≤ x.1 ∧ x.1 < q))).map (size klen)).sum ≤ itemsIn p q (rough klen lo hi t) + w) := by
  obtain ⟨nodes, rfl, hw, hs, hb⟩ := Spec.Packed.nodes h
  rw [rough_index, itemsIn_pages]
  have h1 := pages_le_bytesIn klen hs hb p q
  have h2 := bytesIn_le_pages klen hs hb p q
  constructor
  · have h3 := pageBytes_sublist klen (p := p) (q := q) (roughPages_sublist hw lo hi)
    rw [pageBytes_filter klen hp] at h3
    exact Nat.le_trans h3 h1
  · rintro rfl
    rw [roughPages_none hw, pageBytes_filter klen hp]
    exact h2

theorem trees_bytes {lo : K} {hi : Option K} {p q : K} (hp : lo ≤ p) : ∀ {trees : List (Tree K)}, (∀ t ∈ trees, Packed klen w t) →
    ((trees.map (rough klen lo hi)).map (itemsIn p q)).sum ≤ bytesBetween klen p q trees + trees.length * w ∧
    (hi = none → bytesBetween klen p q trees ≤ ((trees.map (rough klen lo hi)).map (itemsIn p q)).sum + trees.length * w)
  | [], _ => by simp [bytesBetween]
  | t :: ts, h => by
    obtain ⟨h1, h2⟩ := tree_bytes (h t (by simp)) (lo := lo) (hi := hi) (q := q) hp
    obtain ⟨h3, h4⟩ := trees_bytes hp (fun x hx => h x (List.mem_cons_of_mem _ hx)) (lo := lo) (hi := hi) (q := q)
    unfold bytesBetween at h3 h4 ⊢
    simp only [List.map_cons, List.sum_cons, List.length_cons, Nat.succ_mul] at *
    exact ⟨by omega, fun hn => by have := h2 hn; have := h4 hn; omega⟩

/-- How many leaves are asked for, and how large. -/
theorem targets_spec {c : Cfg} {est tuples bytes n target : Nat} (h : targets c est tuples bytes = some (n, target)) :
    1 ≤ n ∧ target = bytes / n ∧ (2 < n → c.leafBytes ≤ target) := by
  unfold targets at h
  split at h
  · cases h
  · next hne =>
    push Not at hne
    simp only [Option.some.injEq, Prod.mk.injEq] at h
    obtain ⟨h1, h2⟩ := h
    rw [h1] at h2
    generalize he : (if est > tuples * 19 / 20 then tuples else est) = e at h1
    have hle : e ≤ tuples := by
      rw [← he]; split
      · exact Nat.le_refl _
      · next hx => have : tuples * 19 / 20 ≤ tuples := by omega
                   omega
    have hb : e * bytes / tuples ≤ bytes := by
      apply Nat.div_le_of_le_mul
      exact Nat.mul_le_mul_right _ hle
    refine ⟨?_, h2.symm, fun hn => ?_⟩
    · split at h1
      · split at h1 <;> omega
      · omega
    · split at h1
      · split at h1 <;> omega
      · rw [← h2]
        refine (Nat.le_div_iff_mul_le (by omega)).mpr ?_
        rw [← h1]
        exact Nat.le_trans (by rw [Nat.mul_comm]; exact Nat.div_mul_le_self _ _) hb

/-! ### The property -/

section
variable {c : Cfg} {est tuples bytes n target keys : Nat} {lo : K} {hi : Option K} {trees : List (Tree K)} {merged : List (Item K)} {leaves : List (Leaf K)}

private theorem merged_facts (hp : ∀ t ∈ trees, Packed klen w t) (hlo : ∀ h, hi = some h → lo < h) (hm : IsMerge (trees.map (rough klen lo hi)) merged) :
    Dup trees.length merged ∧ ∀ x ∈ merged, lo ≤ x.key ∧ x.bytes ≤ w ∧ ∀ h, hi = some h → x.key < h := by
  constructor
  · refine Dup.perm ?_ hm.1
    have := dup_flatten (ls := trees.map (rough klen lo hi)) (by
      intro l hl
      obtain ⟨t, ht, rfl⟩ := List.mem_map.mp hl
      exact (rough_facts (hp t ht) hlo).2)
    simpa using this
  · intro x hx
    obtain ⟨l, hl, hxl⟩ := List.mem_flatten.mp (hm.1.mem_iff.mp hx)
    obtain ⟨t, ht, rfl⟩ := List.mem_map.mp hl
    exact (rough_facts (hp t ht) hlo).1 x hxl

private theorem target_large (ht : targets c est tuples bytes = some (n, target)) (hn : n ≠ 1) (hc : trees.length * w < c.leafBytes)
    (hb : 2 * (trees.length * w + 1) ≤ bytes) : trees.length * w < target := by
  obtain ⟨h1, h2, h3⟩ := targets_spec ht
  by_cases h : n = 2
  · subst h; omega
  · have := h3 (by omega); omega

theorem makeLeaves_length (hi : Option K) : ∀ (lo : K) (ls : List (Stats × Option K)), (makeLeaves lo hi ls).length ≤ ls.length
  | _, [] => by simp [makeLeaves]
  | _, [_] => by simp [makeLeaves]
  | _, (_, some k) :: o :: rest => by
    have := makeLeaves_length hi k (o :: rest)
    simp only [makeLeaves, List.length_cons] at *
    omega
  | _, (_, none) :: _ :: _ => by simp [makeLeaves]

/-- C57. Whatever the estimate of the number of keys was: the leaves divide the range, there are at most as many as asked for, and their parent has room for them. -/
theorem split_divides_partial (hp : ∀ t ∈ trees, Packed klen w t) (hlo : ∀ h, hi = some h → lo < h) (hm : IsMerge (trees.map (rough klen lo hi)) merged)
    (ht : targets c est tuples bytes = some (n, target)) (hc : trees.length * w < c.leafBytes) (hb : 2 * (trees.length * w + 1) ≤ bytes)
    (hs : split c keys lo hi n target merged = some leaves) :
    Divides lo hi leaves ∧ leaves.length ≤ n ∧ leaves.length + keys ≤ max (keys + 1) c.maxPivotKeys := by
  have hn := (targets_spec ht).1
  have hone : ∀ b, Divides lo hi [(⟨lo, hi, b⟩ : Leaf K)] := fun b => (Tiles.last hlo : Tiles hi lo [⟨lo, hi, b⟩]).divides.1
  unfold split at hs
  split at hs
  · next h1 =>
    split at hs
    · cases hs; exact ⟨hone _, by simp [h1], by simp; omega⟩
    · cases hs
  · next h1 =>
    simp only at hs
    split at hs
    · next h2 =>
      simp only [Option.some.injEq] at hs
      split at hs
      · subst hs; exact ⟨hone _, by simp; omega, by simp; omega⟩
      · next h3 =>
        subst hs
        obtain ⟨hd, hf⟩ := merged_facts hp hlo hm
        have hl := makeLeaves_length hi lo (choose target n merged)
        have hl2 := choose_length target n merged
        refine ⟨?_, by omega, by omega⟩
        exact (cut_tiles (choose_cut target n merged hn) h3 hd (fun x hx => (hf x hx).2.1) (target_large ht h1 hc hb) (fun x hx => (hf x hx).1) hm.2
          (fun x hx => (hf x hx).2.2) hlo).divides.1
    · cases hs

/-- C57. Each new leaf but the last gets at least `target` bytes, but for two pages per branch; and in the last leaf of the trunk at most that, but for
two pages per branch and one. -/
theorem split_sizes_partial (hp : ∀ t ∈ trees, Packed klen w t) (hlo : ∀ h, hi = some h → lo < h) (hm : IsMerge (trees.map (rough klen lo hi)) merged)
    (ht : targets c est tuples bytes = some (n, target)) (hc : trees.length * w < c.leafBytes) (hb : 2 * (trees.length * w + 1) ≤ bytes)
    (hs : split c keys lo hi n target merged = some leaves) {a : Leaf K} (ha : a ∈ leaves.dropLast) {q : K} (hq : a.hi = some q) :
    target ≤ bytesBetween klen a.lo q trees + 2 * trees.length * w ∧
    (hi = none → bytesBetween klen a.lo q trees ≤ target + (2 * trees.length + 1) * w) := by
  have hn := (targets_spec ht).1
  have hdiv := (split_divides_partial hp hlo hm ht hc hb hs).1
  have hqa : Below a.lo (some q) := by
    have := hdiv.nonempty a (List.dropLast_subset _ ha)
    rw [hq] at this; exact this
  have hloa : lo ≤ a.lo := (hdiv.inside a (List.dropLast_subset _ ha) a.lo (le_refl _) (by rw [hq]; exact hqa)).1
  unfold split at hs
  split at hs
  · split at hs
    · cases hs; simp at ha
    · cases hs
  · next h1 =>
    simp only at hs
    split at hs
    · simp only [Option.some.injEq] at hs
      split at hs
      · subst hs; simp at ha
      · subst hs
        obtain ⟨hd, hf⟩ := merged_facts hp hlo hm
        have hbig := target_large ht h1 hc hb
        obtain ⟨h4, h5⟩ := cut_sizes (before := []) (choose_cut target n merged hn) (by simpa using hd) (fun x hx => (hf x (by simpa using hx)).2.1) (by omega)
          (by simp) (fun x hx => (hf x hx).1) hm.2 a ha q hq
        rw [List.nil_append, itemsIn_perm hm.1, itemsIn_flatten] at h4 h5
        obtain ⟨h6, h7⟩ := trees_bytes hloa hp (hi := hi) (q := q)
        refine ⟨?_, fun hh => ?_⟩
        · have : 2 * trees.length * w = trees.length * w + trees.length * w := by rw [Nat.mul_assoc]; omega
          omega
        · have := h7 hh
          have e1 : (2 * trees.length + 1) * w = trees.length * w + trees.length * w + w := by rw [Nat.succ_mul, Nat.mul_assoc]; omega
          omega
    · cases hs

/-- C57 fails for leaves before the last one: if each branch has its keys below a single node of height 1, no boundary is found, however many bytes there
are. The leaf is not split and keeps its node id. -/
theorem middle_leaf_not_split {h : K} (hn : n ≠ 1) (hk : keys ≤ c.maxPivotKeys)
    (hts : ∀ t ∈ trees, (∃ p, t = .page p) ∨ ∃ node, t = .index [node]) (hm : IsMerge (trees.map (rough klen lo (some h))) merged) :
    split c keys lo (some h) n target merged = some [⟨lo, some h, false⟩] := by
  have hnil : merged = [] := by
    have : (trees.map (rough klen lo (some h))).flatten = [] := by
      rw [List.flatten_eq_nil_iff]
      intro l hl
      obtain ⟨t, ht, rfl⟩ := List.mem_map.mp hl
      rcases hts t ht with ⟨p, rfl⟩ | ⟨node, rfl⟩
      · rfl
      · have h1 : ∀ k, nodeFor [node] k = 0 := fun k => by
          unfold nodeFor; rw [List.takeWhile_cons]; split <;> simp
        rw [rough_index]
        unfold roughPages
        rw [show endPlace [node] lo (some h) = startPlace [node] lo by simp [endPlace, startPlace, h1], List.drop_take]
        simp
    have := hm.1
    rw [‹(trees.map (rough klen lo (some h))).flatten = []›] at this
    exact this.eq_nil
  subst hnil
  unfold split
  rw [if_neg hn]
  have : choose target n ([] : List (Item K)) = [] := by cases n <;> rfl
  simp [this, hk]

end

/-! ### Examples -/

/-- A merge exists. -/
def merge (ls : List (List (Item K))) : List (Item K) := ls.flatten.insertionSort fun a b => a.key ≤ b.key

theorem isMerge_merge (ls : List (List (Item K))) : IsMerge ls (merge ls) := by
  have : Std.Total (fun a b : Item K => a.key ≤ b.key) := ⟨fun a b => le_total a.key b.key⟩
  have : IsTrans (Item K) (fun a b : Item K => a.key ≤ b.key) := ⟨fun _ _ _ h1 h2 => le_trans h1 h2⟩
  exact ⟨List.perm_insertionSort _ _, List.pairwise_insertionSort _ _⟩

/-- Two tuples of 10 bytes. -/
def demoPage (k : Nat) : Page Nat := ⟨(k, List.replicate 9 0), [(k + 1, List.replicate 9 0)]⟩

def klen1 : Nat → Nat := fun _ => 1

/-- Three nodes of four pages each; keys from `s`. -/
def demoTree (s : Nat) : Tree Nat := .index ((List.range 3).map fun i => (List.range 4).map fun j => demoPage (s + 10 * (4 * i + j)))

def demoCfg : Cfg := ⟨100, 1000, 10⟩

theorem demo_targets : targets demoCfg 48 48 480 = some (4, 120) := by decide

def demoMerged : List (Item Nat) := merge ([demoTree 100, demoTree 103].map (rough klen1 100 none))

theorem demo_split : split demoCfg 3 100 none 4 120 demoMerged = some [⟨100, some 130, true⟩, ⟨130, some 160, true⟩, ⟨160, some 190, true⟩, ⟨190, none, true⟩] := by
  decide +kernel

theorem demo_packed (s : Nat) : Packed klen1 20 (demoTree s) := by
  refine ⟨by simp, ?_, ?_, ?_⟩
  · intro n hn
    simp only [List.mem_map] at hn
    obtain ⟨i, _, rfl⟩ := hn
    simp
  · simp [demoPage, Page.tuples, List.range_succ]
    omega
  · intro p hp
    simp only [List.mem_flatten, List.mem_map] at hp
    obtain ⟨_, ⟨i, _, rfl⟩, hp⟩ := hp
    obtain ⟨j, _, rfl⟩ := List.mem_map.mp hp
    simp [demoPage, Page.tuples, size, klen1]

/-- Instance of `split_divides_partial` and `split_sizes_partial`. -/
example : Divides 100 none [⟨100, some 130, true⟩, ⟨130, some 160, true⟩, ⟨160, some 190, true⟩, ⟨190, none, true⟩] ∧
    bytesBetween klen1 130 160 [demoTree 100, demoTree 103] ≤ 120 + 5 * 20 := by
  have hp : ∀ t ∈ [demoTree 100, demoTree 103], Packed klen1 20 t := by
    intro t ht
    rcases List.mem_cons.mp ht with rfl | ht
    · exact demo_packed _
    · rw [List.mem_singleton.mp ht]; exact demo_packed _
  have hlo : ∀ h, (none : Option Nat) = some h → 100 < h := fun h hh => by cases hh
  exact ⟨(split_divides_partial hp hlo (isMerge_merge _) demo_targets (by decide) (by decide) demo_split).1,
    (split_sizes_partial hp hlo (isMerge_merge _) demo_targets (by decide) (by decide) demo_split (a := ⟨130, some 160, true⟩) (by decide) rfl).2 rfl⟩

/-- Instance of `middle_leaf_not_split`: a leaf four times as large as asked for. -/
example : split demoCfg 3 0 (some 1000) 4 120 [] = some [⟨0, some 1000, false⟩] :=
  middle_leaf_not_split (klen := klen1) (trees := [.index [(List.range 24).map fun j => demoPage (10 * j)]]) (by decide) (by decide)
    (fun t ht => .inr ⟨_, List.mem_singleton.mp ht⟩) ⟨List.Perm.of_eq (by rfl), .nil⟩

/-- A compaction of this leaf's old bundle that ends afterwards fails an assertion: all bundles were replaced by one, and the node id is the one of the request. If the
leaf had got a new id, the compaction's output would be discarded. -/
theorem unsplit_leaf_stops_compaction (id : Nat) : finishCompaction id id false = none ∧ ∀ new, id ≠ new → ∀ live, finishCompaction id new live = some false :=
  ⟨by simp [finishCompaction], fun new h live => by simp [finishCompaction, h]⟩

/-- The values of a branch of one page: 20 bytes of text. -/
def text : List UInt8 := List.replicate 20 65

/-- C57 fails if a branch of the last leaf is a single page. The leaf begins at 100; the page has keys 10 and 20 for its neighbours on the left and key 200. The first 20 bytes
of a value are taken for counters, the iterator does not skip what lies before the leaf, and the leaf is split at 20. -/
theorem boundary_before_leaf : (split demoCfg 3 100 none 2 120
    (merge ([demoTree 100, .page ⟨(10, text), [(20, text), (200, text)]⟩].map (rough klen1 100 none)))) =
      some [⟨100, some 20, true⟩, ⟨20, none, true⟩] := by decide +kernel

/-- The parent's pivots were 0 and 100; after this split they are 0, 100 and 20, and after a split of the new last leaf at 120 they are 0, 100, 20 and 120. `trunk_find_pivot` (C33)
took key 50 to child 0, and now takes it to child 2: what was inserted for key 50 before is not found. -/
theorem key_misrouted : Search.findPivot (fun i => [0, 100].getD i 500) 2 50 .le = 0 ∧
    Search.findPivot (fun i => [0, 100, 20, 120].getD i 500) 4 50 .le = 2 := by decide

/-- Values that begin with small numbers are not noticed: the page's bytes count nothing. -/
theorem value_bytes_counted : asStats text = some ⟨1094795585, 2189591170⟩ ∧ asStats (List.replicate 20 0) = some ⟨0, 0⟩ ∧ asStats [1, 2, 3] = none := by
  decide +kernel

/-- If pages are not small against leaves, two branches with a page beginning at the same key give the same boundary twice, and a leaf without keys. -/
theorem same_boundary_twice : (split demoCfg 3 100 none 4 15
    (merge ([demoTree 100, demoTree 100].map (rough klen1 100 none)))) =
      some [⟨100, some 100, true⟩, ⟨100, some 110, true⟩, ⟨110, some 110, true⟩, ⟨110, none, true⟩] := by decide +kernel

end Splinter.SplitPoints
