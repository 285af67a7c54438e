import Verif.Proof.TrunkRefs
/-!
# References of trunk nodes to branches (C48)

Full statement: in every state the trunk reaches by incorporation, flushes, splits, compactions, range iterators
and `trunk_destroy`, the count of an extent of a branch is the number of holders that need it, where a holder is a
pivot of a node for which the branch is live, with the pivot's range, or an iterator or compaction with its range. So
an extent is never freed while a lookup or an iterator can reach data in it, and it is freed when none can.

The first half holds (`extent_kept`, `count_exact`), and no release fails. The second does not: a compaction whose bundle
has been flushed from one of the nodes its node was split into, but not from all, forgets part of the references to its output
(`leak`). So `extent_freed_partial` and `destroyed_partial` are about extents of which nothing was lost, and `compact_tight` and
`compacted_tight` say when nothing is. Filters are not counted; `destroy_misses_filters` is a disagreement there.
-/
namespace Splinter.TrunkRefs
open Splinter.Mini

variable {K : Type} [LinearOrder K]

section
variable {L : Nat → List (Ent K)} {n : Nat → Nat} {exts : Nat → Nat → List (Nat × K)} {bot top : K} {W : List (Nat × (K × K) × (K × K))}

/-- What the theorems assume of branches: the meta entries are as `mini_alloc` leaves them (C18), with keys from `bot` to `top`. -/
structure Brs (L : Nat → List (Ent K)) (n : Nat → Nat) (exts : Nat → Nat → List (Nat × K)) (bot top : K) : Prop where
  le : bot ≤ top
  layout : ∀ b, Layout (L b) (n b) (exts b)
  keys : ∀ b, ∀ β < n b, ∀ x ∈ exts b β, bot ≤ x.2 ∧ x.2 ≤ top

/-- All holders: for each node, pivot and live branch one, and those that are not nodes. -/
def St.holders (s : St K) : List (Nat × K × K) :=
  (s.nodes.flatMap fun d => d.ranges.flatMap fun r => (d.brs.drop r.2.2).map fun b => (b, r.1, r.2.1)) ++ s.fly

omit [LinearOrder K] in
theorem holders_all (s : St K) : (s.holders : Multiset (Nat × K × K)) = s.all := by
  unfold St.holders St.all
  rw [← Multiset.coe_add]
  congr 1
  generalize s.nodes = l
  induction l with
  | nil => rfl
  | cons d l ih =>
    rw [List.flatMap_cons, ← Multiset.coe_add, ih, List.map_cons, List.sum_cons]
    congr 1
    unfold Nd.holds rows
    generalize d.ranges = rs
    induction rs with
    | nil => rfl
    | cons r rs ih =>
      rw [List.flatMap_cons, ← Multiset.coe_add, ih, List.map_cons, List.sum_cons]
      rfl

theorem Brs.touched (h : Brs L n exts bot top) (b : Nat) : ∀ s ∈ allSegs (n b) (exts b), s.touched (bot, top) := by
  intro s hs
  have hk := allSegs_keys hs
  have ho := allSegs_ok (h.layout b) s hs
  cases hl : s.lo with
  | none =>
    refine ⟨bot, le_rfl, h.le, fun l e => ?_, fun x hx => ?_⟩
    · rw [hl] at e; cases e
    obtain ⟨β, hβ, y, hy, rfl⟩ := hk.2.1 x hx
    exact (h.keys b β hβ y (List.mem_of_mem_tail hy)).1
  | some l =>
    obtain ⟨β, hβ, y, hy, rfl⟩ := hk.1 l hl
    have := h.keys b β hβ y (List.mem_of_mem_tail hy)
    exact ⟨y.2, this.1, this.2, fun l e => by rw [hl] at e; cases e; exact le_rfl, fun x hx => ho _ _ hl hx⟩

/-- References to an extent of branch `b` that were lost: some range that needed it was forgotten in part, and the rest does not need it. -/
noncomputable def St.leaks (s : St K) (b : Nat) (sg : Seg K) : Nat :=
  open Classical in s.lost.countP (fun x => decide (x.1 = b ∧ sg.touched x.2.1 ∧ ¬ sg.touched x.2.2))

theorem G.counts (hB : Brs L n exts bot top) {made : List Nat} {R : Refs} {H : Multiset (Nat × K × K)} (g : G L n exts bot top W made R H)
    (hW : ∀ x ∈ W, x.2.1.1 ≤ x.2.1.2 ∧ x.2.2.1 ≤ x.2.2.2) {b : Nat} (hb : b ∈ made) {sg : Seg K} (hs : sg ∈ allSegs (n b) (exts b)) :
    let c := open Classical in H.countP (fun x => x.1 = b ∧ sg.touched x.2) +
      W.countP (fun x => decide (x.1 = b ∧ sg.touched x.2.1 ∧ ¬ sg.touched x.2.2))
    c ≤ 254 ∧ R b sg.ext = if c = 0 then 0 else c + 1 := by
  classical
  intro c
  obtain ⟨live, hh, hl⟩ := g.2.1 b hb
  have inv := histL_inv (hB.layout b) hB.le (fun s hs => (touch_iff hB.le s (allSegs_ok (hB.layout b) s hs)).2 (hB.touched b s hs)) hh
  have ho := allSegs_ok (hB.layout b) sg hs
  have hc : c = Mini.holders live sg + Mini.leaks (lostOf b W) sg := by
    show _ + _ = _
    congr 1
    · unfold Mini.holders
      have e1 : live.countP (fun r => touch r.1 r.2 sg) = live.countP (fun r => decide (sg.touched r)) := by
        refine List.countP_congr fun r hr => ?_
        rw [touch_iff (inv.1 r hr) sg ho, decide_eq_true_eq]
      rw [e1, ← Multiset.coe_countP, hl, part, Multiset.countP_map, Multiset.filter_filter, Multiset.countP_eq_card_filter]
      congr 1
      refine Multiset.filter_congr fun x _ => and_comm
    · unfold Mini.leaks lostOf
      rw [List.countP_map, List.countP_filter]
      refine List.countP_congr fun x hx => ?_
      simp only [Function.comp, Bool.and_eq_true, Bool.not_eq_true', decide_eq_true_eq, ← Bool.not_eq_true,
        touch_iff (hW x hx).1 sg ho, touch_iff (hW x hx).2 sg ho]
      tauto
  have := inv.2 sg hs
  rw [hc]
  exact this

open Classical in
/-- C48: the count of an extent of a branch is one more than the number of holders of the branch whose range touches the
extent's keys and of lost references to it, or zero if there are none. There are never more than 254. -/
theorem count_exact (hB : Brs L n exts bot top) {s : St K} (h : Reach L n exts bot top s) {b : Nat} (hb : b ∈ s.made) {sg : Seg K}
    (hs : sg ∈ allSegs (n b) (exts b)) :
    let c := s.holders.countP (fun x => decide (x.1 = b ∧ sg.touched x.2)) + s.leaks b sg
    c ≤ 254 ∧ s.refs b sg.ext = if c = 0 then 0 else c + 1 := by
  have g := (reach_inv hB.le h).2
  have := G.counts hB g (lost_le hB.le h) hb hs
  rw [← holders_all, Multiset.coe_countP] at this
  exact this

/-- C48, kept: what a lookup or an iterator can reach is not freed. -/
theorem extent_kept (hB : Brs L n exts bot top) {s : St K} (h : Reach L n exts bot top s) {d : Nd K} (hd : d ∈ s.nodes)
    {a z : K} {k : Nat} (hr : (a, z, k) ∈ d.ranges) {b : Nat} (hb : b ∈ d.brs.drop k) {sg : Seg K} (hs : sg ∈ allSegs (n b) (exts b)) {x : K}
    (h1 : a ≤ x) (h2 : x ≤ z) (hx : sg.covers x) : 2 ≤ s.refs b sg.ext := by
  classical
  have hm : (b, a, z) ∈ s.holders := by
    unfold St.holders
    simp only [List.mem_append, List.mem_flatMap, List.mem_map]
    exact Or.inl ⟨d, hd, (a, z, k), hr, b, hb, rfl⟩
  have hmade : b ∈ s.made := by
    have := (reach_inv hB.le h).2.1 (b, a, z) (by rw [← holders_all, Multiset.mem_coe]; exact hm)
    exact this
  have := count_exact hB h hmade hs
  simp only at this
  have hpos : 0 < s.holders.countP (fun y => decide (y.1 = b ∧ sg.touched y.2)) :=
    List.countP_pos_iff.mpr ⟨_, hm, decide_eq_true ⟨rfl, x, h1, h2, hx⟩⟩
  rw [if_neg (by omega)] at this
  omega

/-- C48, partial, freed: what no holder needs and of which nothing was lost is free. Full statement: without `hw`. -/
theorem extent_freed_partial (hB : Brs L n exts bot top) {s : St K} (h : Reach L n exts bot top s) {b : Nat} (hb : b ∈ s.made) {sg : Seg K}
    (hs : sg ∈ allSegs (n b) (exts b)) (hd : ∀ d ∈ s.nodes, ∀ r ∈ d.ranges, b ∈ d.brs.drop r.2.2 → ¬ sg.touched (r.1, r.2.1))
    (hf : ∀ x ∈ s.fly, x.1 = b → ¬ sg.touched x.2) (hw : s.leaks b sg = 0) : s.refs b sg.ext = 0 := by
  classical
  have := count_exact hB h hb hs
  simp only at this
  rw [hw, add_zero, if_pos] at this
  · exact this.2
  · rw [List.countP_eq_zero]
    rintro ⟨b', r'⟩ hx ht
    have ht' := of_decide_eq_true ht
    obtain ⟨rfl, ht'⟩ := ht'
    simp only [St.holders, List.mem_append, List.mem_flatMap, List.mem_map] at hx
    rcases hx with ⟨d, hd', r, hr, b, hb', e⟩ | hx
    · cases e
      exact hd d hd' r hr hb' ht'
    · exact hf _ hx rfl ht'

/-- C48, partial: after `trunk_destroy` every extent of every branch is free, unless references to it were lost. -/
theorem destroyed_partial (hB : Brs L n exts bot top) {s : St K} (h : Reach L n exts bot top s) (h1 : s.nodes = []) (h2 : s.fly = []) {b : Nat}
    (hb : b ∈ s.made) {sg : Seg K} (hs : sg ∈ allSegs (n b) (exts b)) (hw : s.leaks b sg = 0) : s.refs b sg.ext = 0 :=
  extent_freed_partial hB h hb hs (by simp [h1]) (by simp [h2]) hw

/-- C48: a step of a compaction loses nothing if its node begins where the last one ended, or if the output's tuples are
from the node's lower bound on (as they are if the first of the nodes still has the bundle). -/
theorem compact_tight {lo a : K} {b : Nat} (hal : a ≤ lo) (hlt : lo ≤ top)
    (h : a = lo ∨ ∀ β < n b, ∀ x ∈ (exts b β).tail, lo ≤ x.2) {sg : Seg K} (hs : sg ∈ allSegs (n b) (exts b)) :
    ¬ (sg.touched (a, top) ∧ ¬ sg.touched (lo, top)) := by
  rcases h with rfl | h
  · exact fun h => h.2 h.1
  · exact fun h' => h'.2 ((touched_from hal hlt h sg hs).mp h'.1)

/-- C48: nor does the end of it, if the output's tuples are before the upper bound of the last node (as they are if the last of the
nodes still had the bundle). -/
theorem compacted_tight {hi : K} {b : Nat} (hht : hi ≤ top) (h : ∀ β < n b, ∀ x ∈ (exts b β).tail, x.2 < hi) {sg : Seg K}
    (hs : sg ∈ allSegs (n b) (exts b)) : ¬ (sg.touched (hi, top) ∧ ¬ sg.touched (hi, hi)) :=
  fun h' => h'.2 ((touched_to hht h sg hs).mp h'.1)

/-! ### No call fails -/

theorem G.zap_ok (hB : Brs L n exts bot top) {made : List Nat} {R : Refs} {b : Nat} {a z : K} {H : Multiset (Nat × K × K)}
    (g : G L n exts bot top W made R ((b, a, z) ::ₘ H)) : ∃ R', zapAt L b a z R = some R' ∧ G L n exts bot top W made R' H := by
  have hb := g.1 (b, a, z) (Multiset.mem_cons_self _ _)
  obtain ⟨live, hh, hl⟩ := g.2.1 b hb
  rw [part_cons_self] at hl
  obtain ⟨l1, l2, rfl, -⟩ := coe_cons_eq hl
  obtain ⟨r, c, h1⟩ := releaseL_ok (hB.layout b) hB.le (hB.touched b) hh
  have h2 : zapAt L b a z R = some (Mini.upd R b r) := by
    unfold zapAt
    rw [h1]
    rfl
  exact ⟨_, h2, G.drop g h2⟩

theorem each_ok {α : Type} {made : List Nat} {f : α → Refs → Option Refs} {A : α → Multiset (Nat × K × K)} :
    ∀ (l : List α) {R : Refs} {H : Multiset (Nat × K × K)},
    (∀ x ∈ l, ∀ R H, G L n exts bot top W made R (A x + H) → ∃ R', f x R = some R' ∧ G L n exts bot top W made R' H) →
    G L n exts bot top W made R ((l.map A).sum + H) → ∃ R', each f l R = some R' ∧ G L n exts bot top W made R' H
  | [], R, H, _, g => ⟨R, rfl, by simpa using g⟩
  | x :: l, R, H, hf, g => by
    rw [List.map_cons, List.sum_cons, add_assoc] at g
    obtain ⟨R1, h1, g1⟩ := hf x List.mem_cons_self _ _ g
    obtain ⟨R2, h2, g2⟩ := each_ok l (fun y hy => hf y (List.mem_cons_of_mem _ hy)) g1
    refine ⟨R2, ?_, g2⟩
    unfold each
    rw [h1]
    exact h2

theorem G.row_ok (hB : Brs L n exts bot top) {made : List Nat} {R : Refs} {bs : List Nat} {a z : K} {H : Multiset (Nat × K × K)}
    (g : G L n exts bot top W made R (rowOf bs a z + H)) : ∃ R', each (fun b => zapAt L b a z) bs R = some R' ∧ G L n exts bot top W made R' H := by
  rw [rowOf_sum] at g
  exact each_ok (A := fun b => {(b, a, z)}) bs (fun b _ R H g => G.zap_ok hB g) g

theorem G.gc_ok (hB : Brs L n exts bot top) {made : List Nat} {R : Refs} {bs : List Nat} {rs : List (K × K × Nat)} {H : Multiset (Nat × K × K)}
    (g : G L n exts bot top W made R ((rs.map (fun r => rowOf bs r.1 r.2.1)).sum + H)) :
    ∃ R', each (fun b => each (fun r => zapAt L b r.1 r.2.1) rs) bs R = some R' ∧ G L n exts bot top W made R' H := by
  have e : (rs.map (fun r => rowOf bs r.1 r.2.1)).sum = (bs.map (fun b => (rs.map (fun r => rowOf [b] r.1 r.2.1)).sum)).sum := by
    have := sum_swap bs (rs.map (fun r => (r.1, r.2.1)))
    simpa only [List.map_map, Function.comp_def] using this
  rw [e] at g
  exact each_ok (A := fun b => (rs.map (fun r => rowOf [b] r.1 r.2.1)).sum) bs (fun b _ R H g =>
    each_ok (A := fun r : K × K × Nat => rowOf [b] r.1 r.2.1) rs (fun r _ R H g => G.zap_ok hB g) g) g

/-- The number of lost references to an extent of branch `b`. -/
noncomputable def lk (W : List (Nat × (K × K) × (K × K))) (b : Nat) (sg : Seg K) : Nat := Mini.leaks (lostOf b W) sg

/-- The number of holders of branch `b` in `H` that need an extent. -/
noncomputable def cnt (b : Nat) (sg : Seg K) (H : Multiset (Nat × K × K)) : Nat :=
  open Classical in H.countP (fun x => x.1 = b ∧ sg.touched x.2)

theorem cnt_part (b : Nat) (sg : Seg K) (H : Multiset (Nat × K × K)) :
    cnt b sg H = open Classical in (part b H).countP (fun r => sg.touched r) := by
  classical
  unfold cnt part
  rw [Multiset.countP_map, Multiset.filter_filter, Multiset.countP_eq_card_filter]
  congr 1
  refine Multiset.filter_congr fun x _ => ?_
  exact and_comm

theorem cnt_holders (b : Nat) (sg : Seg K) (s : St K) :
    cnt b sg s.all = open Classical in s.holders.countP (fun x => decide (x.1 = b ∧ sg.touched x.2)) := by
  classical
  unfold cnt
  rw [← holders_all, Multiset.coe_countP]

theorem G.cut_ok (hB : Brs L n exts bot top) {made : List Nat} {R : Refs} {b : Nat} {a m z : K} {H : Multiset (Nat × K × K)}
    (g : G L n exts bot top W made R ((b, a, z) ::ₘ H)) (h1 : a ≤ m) (h2 : m ≤ z)
    (hc : ∀ sg ∈ allSegs (n b) (exts b), cnt b sg ((b, a, z) ::ₘ H) + lk W b sg < 254) :
    ∃ R', incAt L b m m R = some R' ∧ G L n exts bot top W made R' ((b, a, m) ::ₘ (b, m, z) ::ₘ H) := by
  classical
  cases hi : incAt L b m m R with
  | some R' => exact ⟨R', rfl, G.cut g h1 h2 hi⟩
  | none =>
    exfalso
    have hb := g.1 (b, a, z) (Multiset.mem_cons_self _ _)
    obtain ⟨live, hh, hl⟩ := g.2.1 b hb
    have inv := histL_inv (hB.layout b) hB.le (fun s hs => (touch_iff hB.le s (allSegs_ok (hB.layout b) s hs)).2 (hB.touched b s hs)) hh
    obtain ⟨sg, hs, h254⟩ := referenceL_ok (hB.layout b) hB.le (hB.touched b) hh (le_refl m) (fun k k1 k2 => ⟨(a, z), by
      rw [← Multiset.mem_coe, hl, part_cons_self]; exact Multiset.mem_cons_self _ _, h1.trans k1, k2.trans h2⟩) (by
        unfold incAt at hi
        simpa using hi)
    have := hc sg hs
    rw [cnt_part, ← hl, Multiset.coe_countP] at this
    have e1 : live.countP (fun r => touch r.1 r.2 sg) = live.countP (fun r => decide (sg.touched r)) := by
      refine List.countP_congr fun r hr => ?_
      rw [touch_iff (inv.1 r hr) sg (allSegs_ok (hB.layout b) sg hs), decide_eq_true_eq]
    unfold Mini.holders at h254
    unfold lk at this
    omega

theorem cnt_cons (b : Nat) (sg : Seg K) (x : Nat × K × K) (H : Multiset (Nat × K × K)) :
    cnt b sg (x ::ₘ H) = cnt b sg H + cnt b sg {x} := by
  classical
  unfold cnt
  rw [← Multiset.countP_add, ← Multiset.singleton_add, add_comm]

theorem cnt_cut (b c : Nat) (sg : Seg K) {a m z : K} (h1 : a ≤ m) (h2 : m ≤ z) (H : Multiset (Nat × K × K)) :
    cnt b sg ((c, a, m) ::ₘ (c, m, z) ::ₘ H) ≤ cnt b sg ((c, a, z) ::ₘ H) + 1 := by
  classical
  rw [cnt_cons, cnt_cons, cnt_cons (x := (c, a, z))]
  have one : ∀ x, cnt b sg {x} = if x.1 = b ∧ sg.touched x.2 then 1 else 0 := fun x => by
    unfold cnt
    rw [← Multiset.cons_zero, Multiset.countP_cons, Multiset.countP_zero, zero_add]
  rw [one, one, one]
  have t1 : sg.touched (a, m) → sg.touched (a, z) := fun ⟨k, k1, k2, k3⟩ => ⟨k, k1, k2.trans h2, k3⟩
  have t2 : sg.touched (m, z) → sg.touched (a, z) := fun ⟨k, k1, k2, k3⟩ => ⟨k, h1.trans k1, k2, k3⟩
  by_cases hb : c = b
  · simp only [hb, true_and]
    clear one
    split <;> split <;> split <;> simp_all
    omega
  · simp [hb]

theorem G.incKeys_ok (hB : Brs L n exts bot top) {made : List Nat} {b : Nat} : ∀ (ks : List K) {R : Refs} {a z : K} {H : Multiset (Nat × K × K)},
    (a :: ks ++ [z]).Pairwise (· ≤ ·) → G L n exts bot top W made R ((b, a, z) ::ₘ H) → ∀ N,
    (∀ c ∈ made, ∀ sg ∈ allSegs (n c) (exts c), cnt c sg ((b, a, z) ::ₘ H) + lk W c sg ≤ N) → N + ks.length ≤ 254 →
    ∃ R', TrunkRefs.incKeys L b ks R = some R' ∧ G L n exts bot top W made R' (tag b (pieces z a ks) + H) ∧
      ∀ c ∈ made, ∀ sg ∈ allSegs (n c) (exts c), cnt c sg (tag b (pieces z a ks) + H) + lk W c sg ≤ N + ks.length
  | [], R, a, z, H, _, g, N, hc, hN => ⟨R, rfl, g, fun c hcm sg hs => by
      have := hc c hcm sg hs
      simpa [tag, pieces] using this⟩
  | k :: ks, R, a, z, H, hp, g, N, hc, hN => by
    simp only [List.cons_append, List.pairwise_cons] at hp
    have h1 := hp.1 k (by simp)
    have h2 := hp.2.1 z (by simp)
    rw [List.length_cons] at hN
    have hbm := g.1 (b, a, z) (Multiset.mem_cons_self _ _)
    obtain ⟨R1, e1, g1⟩ := G.cut_ok hB g h1 h2 (fun sg hs => by have := hc b hbm sg hs; omega)
    have hc1 : ∀ c ∈ made, ∀ sg ∈ allSegs (n c) (exts c), cnt c sg ((b, k, z) ::ₘ (b, a, k) ::ₘ H) + lk W c sg ≤ N + 1 := fun c hcm sg hs => by
      rw [Multiset.cons_swap]
      have := cnt_cut c b sg h1 h2 H
      have := hc c hcm sg hs
      omega
    rw [Multiset.cons_swap] at g1
    obtain ⟨R2, e2, g2, hc2⟩ := G.incKeys_ok hB ks (by simpa using hp.2) g1 (N + 1) hc1 (by omega)
    have e : tag b (pieces z a (k :: ks)) + H = tag b (pieces z k ks) + (b, a, k) ::ₘ H := by
      simp only [tag, pieces, List.map_cons, ← Multiset.cons_coe, Multiset.cons_add, Multiset.add_cons]
    refine ⟨R2, ?_, by rw [e]; exact g2, fun c hcm sg hs => ?_⟩
    · unfold TrunkRefs.incKeys each
      rw [e1]
      exact e2
    · rw [e]
      have := hc2 c hcm sg hs
      simp only [List.length_cons]
      omega

theorem lk_leaks (hB : Brs L n exts bot top) {s : St K} (h : Reach L n exts bot top s) {b : Nat} {sg : Seg K} (hs : sg ∈ allSegs (n b) (exts b)) :
    lk s.lost b sg = s.leaks b sg := by
  classical
  unfold lk Mini.leaks lostOf St.leaks
  rw [List.countP_map, List.countP_filter]
  refine List.countP_congr fun x hx => ?_
  have hW := lost_le hB.le h x hx
  have ho := allSegs_ok (hB.layout b) sg hs
  simp only [Function.comp, Bool.and_eq_true, Bool.not_eq_true', decide_eq_true_eq, ← Bool.not_eq_true,
    touch_iff hW.1 sg ho, touch_iff hW.2 sg ho]
  tauto

theorem G.flush_ok (hB : Brs L n exts bot top) {made : List Nat} {c : Nd K} (hc : WF c) {a : K} (ha : c.keys.head? = some a) :
    ∀ (bs : List Nat) {R : Refs} {H : Multiset (Nat × K × K)}, G L n exts bot top W made R (rowOf bs a c.hi + H) → ∀ N,
    (∀ b ∈ made, ∀ sg ∈ allSegs (n b) (exts b), cnt b sg (rowOf bs a c.hi + H) + lk W b sg ≤ N) → N + bs.length * c.keys.tail.length ≤ 254 →
    ∃ R', TrunkRefs.flushRefs L c bs R = some R'
  | [], R, H, g, N, hN, hl => ⟨R, rfl⟩
  | b :: bs, R, H, g, N, hN, hl => by
    have e : rowOf (b :: bs) a c.hi + H = (b, a, c.hi) ::ₘ (rowOf bs a c.hi + H) := by
      rw [← Multiset.cons_add]
      rfl
    rw [e] at g hN
    rw [List.length_cons, Nat.succ_mul] at hl
    obtain ⟨R1, e1, g1, hN1⟩ := G.incKeys_ok hB c.keys.tail (sorted_head hc ha) g N hN (by omega)
    have e2 : tag b (pieces c.hi a c.keys.tail) + (rowOf bs a c.hi + H) = rowOf bs a c.hi + (tag b (pieces c.hi a c.keys.tail) + H) := by abel
    rw [e2] at g1 hN1
    obtain ⟨R2, e3⟩ := G.flush_ok hB hc ha bs g1 _ hN1 (by omega)
    refine ⟨R2, ?_⟩
    unfold TrunkRefs.flushRefs at e3 ⊢
    unfold each
    rw [e1]
    exact e3

/-- C48: the references for a flush are taken without failing, if no extent has so many holders that the cuts could
bring it beyond 254 (counts are 8 bits). -/
theorem flush_ok (hB : Brs L n exts bot top) {s : St K} (h : Reach L n exts bot top s) {p c : Nd K} {rest : List (Nd K)} {i k N : Nat}
    {a z : K} (hn : s.nodes.Perm (p :: c :: rest)) (hr : p.ranges[i]? = some (a, z, k)) (hk : c.keys.head? = some a) (hz : c.hi = z)
    (hN : ∀ b ∈ s.made, ∀ sg ∈ allSegs (n b) (exts b), s.refs b sg.ext ≤ N + 1) (hl : N + (p.brs.length - k) * (c.pivs.length - 1) ≤ 254) :
    ∃ R, flushRefs L c (p.brs.drop k) s.refs = some R ∧
      Reach L n exts bot top { s with nodes := p.clear i :: c.append (p.brs.drop k) :: rest, refs := R } := by
  classical
  obtain ⟨hw, g⟩ := reach_inv hB.le h
  have hc : WF c := hw c (hn.mem_iff.mpr (by simp))
  have hcn : ∀ b ∈ s.made, ∀ sg ∈ allSegs (n b) (exts b), cnt b sg s.all + lk s.lost b sg ≤ N := fun b hb sg hs => by
    have h1 := count_exact hB h hb hs
    simp only at h1
    rw [cnt_holders, lk_leaks hB h hs]
    have h2 := hN b hb sg hs
    split at h1 <;> omega
  unfold St.all at g hcn
  rw [nodes_perm hn] at g hcn
  simp only [List.map_cons, List.sum_cons] at g hcn
  rw [holds_clear hr, ← hz] at g hcn
  have e : (p.clear i).holds + rowOf (p.brs.drop k) a c.hi + (c.holds + (rest.map Nd.holds).sum) + (s.fly : Multiset _) =
      rowOf (p.brs.drop k) a c.hi + ((p.clear i).holds + c.holds + (rest.map Nd.holds).sum + (s.fly : Multiset _)) := by abel
  rw [e] at g hcn
  obtain ⟨R, h1⟩ := G.flush_ok hB hc hk _ g N hcn (by
    simpa [Nd.keys, List.length_drop, List.length_tail, List.length_map] using hl)
  exact ⟨R, h1, .step h (.flush hn hr hk hz h1)⟩

/-- C48: `trunk_node_destroy` does not fail. -/
theorem destroy_ok (hB : Brs L n exts bot top) {s : St K} (h : Reach L n exts bot top s) {d : Nd K} {rest : List (Nd K)}
    (hn : s.nodes.Perm (d :: rest)) : ∃ R, destroyRefs L d s.refs = some R ∧ Reach L n exts bot top { s with nodes := rest, refs := R } := by
  have g := (reach_inv hB.le h).2
  unfold St.all at g
  rw [nodes_perm hn, List.map_cons, List.sum_cons, add_assoc] at g
  obtain ⟨R, h1, -⟩ := each_ok (A := fun r : K × K × Nat => rowOf (d.brs.drop r.2.2) r.1 r.2.1) d.ranges (fun r _ R H g => G.row_ok hB g) g
  exact ⟨R, h1, .step h (.destroy hn h1)⟩

/-- C48: the end of an iterator, and throwing away the output of a compaction, do not fail. -/
theorem held_release_ok (hB : Brs L n exts bot top) {s : St K} (h : Reach L n exts bot top s) {fly : List (Nat × K × K)} {b : Nat} {a z : K}
    (hf : s.fly.Perm ((b, a, z) :: fly)) : ∃ R, zapAt L b a z s.refs = some R ∧ Reach L n exts bot top { s with fly := fly, refs := R } := by
  have g := (reach_inv hB.le h).2
  unfold St.all at g
  rw [Multiset.coe_eq_coe.mpr hf, ← Multiset.cons_coe, Multiset.add_cons] at g
  obtain ⟨R, h1, -⟩ := G.zap_ok hB g
  exact ⟨R, h1, .step h (.release hf h1)⟩

/-- C48: neither does the garbage collection of a bundle after a compaction whose output is empty. -/
theorem vanish_ok (hB : Brs L n exts bot top) {s : St K} (h : Reach L n exts bot top s) {d : Nd K} {rest : List (Nd K)} {b e : Nat}
    (hn : s.nodes.Perm (d :: rest)) (hbe : b < e) (he : e ≤ d.brs.length) (hp : ∀ p ∈ d.pivs, p.2 ≤ b ∨ e ≤ p.2) :
    ∃ R, gcRefs L d b ((d.brs.drop b).take (e - b)) s.refs = some R := by
  have g := (reach_inv hB.le h).2
  unfold St.all at g
  rw [nodes_perm hn, List.map_cons, List.sum_cons] at g
  have e1 := holds_replace (out := []) hbe he (by simp) hp
  have e2 : ((d.ranges.filter (fun r => decide (r.2.2 ≤ b))).map (fun r => rowOf [] r.1 r.2.1)).sum = 0 := by simp [rowOf]
  rw [e2, add_zero] at e1
  obtain ⟨R, h1, -⟩ := G.gc_ok (bs := (d.brs.drop b).take (e - b)) (rs := d.ranges.filter (fun r => decide (r.2.2 ≤ b)))
    (H := (d.replace b e []).holds + (rest.map Nd.holds).sum + (s.fly : Multiset _)) hB (by
      convert g using 1
      rw [← e1]
      abel)
  exact ⟨R, h1⟩

/-- C48: nor of one with output, once the references for the output are there. -/
theorem compact_ok (hB : Brs L n exts bot top) {s : St K} (h : Reach L n exts bot top s) {d : Nd K} {rest : List (Nd K)}
    {fly : List (Nat × K × K)} {lo a : K} {b e out : Nat} {R : Refs} (hn : s.nodes.Perm (d :: rest)) (hf : s.fly.Perm ((out, a, top) :: fly))
    (hk : d.keys.head? = some lo) (ha : a ≤ lo) (ht : d.hi ≤ top)
    (hbe : b < e) (he : e ≤ d.brs.length) (hp : ∀ p ∈ d.pivs, p.2 ≤ b ∨ e ≤ p.2) (h1 : replaceRefs L d b out s.refs = some R) :
    ∃ R', gcRefs L d b ((d.brs.drop b).take (e - b)) R = some R' := by
  obtain ⟨hw, g⟩ := reach_inv hB.le h
  have hd : WF d := hw d (hn.mem_iff.mpr (by simp))
  unfold St.all at g
  rw [nodes_perm hn, Multiset.coe_eq_coe.mpr hf, ← Multiset.cons_coe, Multiset.add_cons] at g
  have hlt : lo ≤ top := by
    have := sorted_head hd hk
    simp only [List.cons_append, List.pairwise_cons] at this
    exact (this.1 d.hi (by simp)).trans ht
  have g0 := G.shrink g (r' := (lo, top)) hlt ha le_rfl
  have g1 := G.replace hd hk ht g0 h1
  simp only [List.map_cons, List.sum_cons] at g1
  have e1 := holds_replace (out := [out]) hbe he (by simp) hp
  obtain ⟨R', h2, -⟩ := G.gc_ok (bs := (d.brs.drop b).take (e - b)) (rs := d.ranges.filter (fun r => decide (r.2.2 ≤ b)))
    (H := (out, d.hi, top) ::ₘ ((d.replace b e [out]).holds + (rest.map Nd.holds).sum + (fly : Multiset _))) hB (by
      convert g1 using 1
      rw [Multiset.add_cons, Multiset.add_cons]
      congr 1
      generalize ((d.ranges.filter (fun r => decide (r.2.2 ≤ b))).map (fun r => rowOf [out] r.1 r.2.1)).sum = X at *
      generalize ((d.ranges.filter (fun r => decide (r.2.2 ≤ b))).map (fun r => rowOf ((d.brs.drop b).take (e - b)) r.1 r.2.1)).sum = Y at *
      calc Y + ((d.replace b e [out]).holds + (rest.map Nd.holds).sum + (fly : Multiset _))
          = ((d.replace b e [out]).holds + Y) + ((rest.map Nd.holds).sum + (fly : Multiset _)) := by abel
        _ = _ := by rw [e1]; abel)
  exact ⟨R', h2⟩

end

/-! ### Filters in `trunk_node_destroy` -/

/-- C48, partial: if the filters do not wrap around the end of the array, `trunk_node_destroy` gives up each of them. -/
theorem destroy_filters_partial {start stop : Nat} (h1 : start ≤ stop) (h2 : stop < 24) :
    destroyFilters start stop = (List.range (stop - start)).map (start + ·) := by
  unfold destroyFilters
  rw [show (stop + 65536 - start) % 65536 = stop - start by omega]
  refine List.map_congr_left fun i hi => ?_
  rw [List.mem_range] at hi
  omega

/-- Disagreement: if they wrap, it goes beyond the array of 24 filters. -/
theorem destroy_misses_filters {start stop : Nat} (h1 : stop < start) (h2 : start < 24) : 24 ∈ destroyFilters start stop := by
  unfold destroyFilters
  rw [List.mem_map]
  exact ⟨24 - start, List.mem_range.mpr (by omega), by omega⟩

/-! ### Examples -/

/-- All branches are as `Mini.exEnts`: leaf extents 100, 101 and 102 with first keys 1, 6 and 9, and 103 for the root. -/
def exL : Nat → List (Ent Nat) := fun _ => exEnts
def exN : Nat → Nat := fun _ => 2
def exX : Nat → Nat → List (Nat × Nat) := fun _ => exExts

theorem exBrs : Brs exL exN exX 0 20 := ⟨by decide, fun _ => exLayout, fun _ => show ∀ β < 2, ∀ x ∈ exExts β, 0 ≤ x.2 ∧ x.2 ≤ 20 by decide⟩

/-- Branch 0 is made, incorporated, flushed to the leaf, the leaf is split at 7; branch 1 is incorporated and flushed to the
upper leaf and an iterator over 8 … 12 takes branch 0. -/
def exLeaf : Nd Nat := ⟨[], [(0, 0)], 20⟩
def exR0 : Refs := Mini.upd (fun _ _ => 0) 0 (fun _ => 2)
def exR1 : Refs := (splitRefs exL [7] [0] exR0).get (by decide)
def exR2 : Refs := Mini.upd exR1 1 (fun _ => 2)
def exR3 : Refs := (installRefs exL (⟨[], [(0, 0), (7, 0)], 20⟩ : Nd Nat) 1 exR2).get (by decide)
def exR4 : Refs := (incAt exL 0 8 12 exR3).get (by decide)

def exSt : St Nat :=
  ⟨[⟨[1], [(0, 0), (7, 1)], 20⟩, ⟨[0, 1], [(7, 0)], 20⟩, ⟨[0], [(0, 0)], 7⟩], [(0, 8, 12)], exR4, [1, 0], []⟩

theorem exReach : Reach exL exN exX 0 20 exSt := by
  have s1 : Reach exL exN exX 0 20 ⟨[exLeaf, exLeaf], [(0, 0, 20)], exR0, [0], []⟩ :=
    .step .init (.make (by decide) (fun _ _ _ _ => rfl))
  have s2 : Reach exL exN exX 0 20 ⟨[⟨[0], [(0, 0)], 20⟩, exLeaf], [], exR0, [0], []⟩ :=
    .step s1 (.install (d := exLeaf) (rest := [exLeaf]) (b := 0) (R := exR0) (.refl _) (.refl _) rfl rfl rfl)
  have s3 : Reach exL exN exX 0 20 ⟨[exLeaf, ⟨[0], [(0, 0)], 20⟩], [], exR0, [0], []⟩ :=
    .step s2 (.flush (p := ⟨[0], [(0, 0)], 20⟩) (c := exLeaf) (rest := []) (i := 0) (a := 0) (z := 20) (k := 0) (R := exR0) (.refl _) rfl rfl rfl rfl)
  have s4 : Reach exL exN exX 0 20 ⟨[⟨[0], [(0, 0)], 7⟩, ⟨[0], [(7, 0)], 20⟩, exLeaf], [], exR1, [0], []⟩ :=
    .step s3 (.splitLeaf (d := ⟨[0], [(0, 0)], 20⟩) (rest := [exLeaf]) (lo := 0) (ks := [7]) (R := exR1) (List.Perm.swap _ _ _) rfl (by decide)
      (Option.some_get _).symm)
  have s5 : Reach exL exN exX 0 20 ⟨[⟨[], [(0, 0), (7, 0)], 20⟩, ⟨[0], [(0, 0)], 7⟩, ⟨[0], [(7, 0)], 20⟩], [], exR1, [0], []⟩ :=
    .step s4 (.addPivot (d := exLeaf) (rest := [⟨[0], [(0, 0)], 7⟩, ⟨[0], [(7, 0)], 20⟩]) (i := 0) (a := 0) (z := 20) (k := 7)
      ((List.Perm.cons _ (List.Perm.swap _ _ _)).trans (List.Perm.swap _ _ _)) rfl (by decide) (by decide))
  have s6 := Reach.step s5 (.make (b := 1) (r := fun _ => 2) (by decide) (fun _ _ _ _ => rfl))
  have s7 := Reach.step s6 (.install (d := ⟨[], [(0, 0), (7, 0)], 20⟩) (rest := [⟨[0], [(0, 0)], 7⟩, ⟨[0], [(7, 0)], 20⟩]) (fly := []) (b := 1) (R := exR3)
    (.refl _) (.refl _) rfl rfl (Option.some_get _).symm)
  have s8 := Reach.step s7 (.flush (p := ⟨[1], [(0, 0), (7, 0)], 20⟩) (c := ⟨[0], [(7, 0)], 20⟩) (rest := [⟨[0], [(0, 0)], 7⟩]) (i := 1) (a := 7)
    (z := 20) (k := 0) (R := exR3) (List.Perm.cons _ (List.Perm.swap _ _ _)) rfl rfl rfl rfl)
  refine Reach.step s8 (.hold (b := 0) (a := 8) (z := 12) (R := exR4) (by decide) (fun k k1 k2 => ?_) (Option.some_get _).symm)
  exact ⟨⟨[0, 1], [(7, 0)], 20⟩, List.mem_cons_of_mem _ List.mem_cons_self, (7, 20, 0), List.mem_cons_self, List.mem_cons_self, show 7 ≤ k by omega, show k ≤ 20 by omega⟩

/-- The counts of branches 0 and 1 there. -/
example : (exSt.refs 0 100, exSt.refs 0 101, exSt.refs 0 102, exSt.refs 0 103) = (2, 4, 3, 4) ∧
    (exSt.refs 1 100, exSt.refs 1 101, exSt.refs 1 102, exSt.refs 1 103) = (2, 3, 2, 3) := by decide

/-- A compaction of the two branches of the upper leaf into branch 2, whose tuples are from 7 on: the steps are possible. -/
def exX2 : Nat → Nat → List (Nat × Nat)
  | 2, 0 => [(200, 7), (201, 9)]
  | 2, 1 => [(202, 7)]
  | 2, _ => []
  | _, β => exExts β

def exL2 : Nat → List (Ent Nat)
  | 2 => [⟨some 200, 0, 7⟩, ⟨some 202, 1, 7⟩, ⟨some 201, 0, 9⟩, ⟨none, 0, 11⟩, ⟨none, 1, 11⟩]
  | _ => exEnts

example : Brs exL2 exN exX2 0 20 := by
  refine ⟨by decide, fun b => ?_, fun b => ?_⟩
  · by_cases h : b = 2
    · subst h
      exact ⟨fun b hb => ⟨11, by revert b; decide⟩, by decide, by decide, by decide⟩
    · have e1 : exL2 b = exEnts := by unfold exL2; split <;> first | rfl | contradiction
      have e2 : exX2 b = exExts := by funext β; unfold exX2; split <;> first | rfl | contradiction
      rw [e1, e2]
      exact exLayout
  · by_cases h : b = 2
    · subst h; decide
    · have e2 : exX2 b = exExts := by funext β; unfold exX2; split <;> first | rfl | contradiction
      rw [e2]
      show ∀ β < 2, ∀ x ∈ exExts β, 0 ≤ x.2 ∧ x.2 ≤ 20
      decide

def exUpper : Nd Nat := ⟨[0, 1], [(7, 0)], 20⟩

example : (((replaceRefs exL2 exUpper 0 2 (Mini.upd exSt.refs 2 (fun _ => 2))).bind (gcRefs exL2 exUpper 0 [0, 1])).bind (zapAt exL2 2 20 20)).map
    (fun R => [R 0 100, R 0 101, R 0 102, R 0 103, R 1 100, R 1 101, R 1 102, R 1 103, R 2 200, R 2 201, R 2 202]) =
      some [2, 3, 2, 3, 2, 2, 0, 2, 2, 2, 2] := by decide

/-- The hypotheses of `flush_ok` hold in the example's last state but one, and those of `compact_ok` for its upper leaf. -/
example : exUpper.keys.head? = some 7 ∧ (∀ β < exN 2, ∀ x ∈ (exX2 2 β).tail, 7 ≤ x.2) ∧ (∀ p ∈ exUpper.pivs, p.2 ≤ 0 ∨ 2 ≤ p.2) ∧
    (exUpper.replace 0 2 [2]).brs = [2] := by decide

/-! ### A leak -/

deriving instance DecidableEq for Nd

/-- Branch 0 is in an index node with pivots 0 and 7. While it is compacted to branch 1, the node is split before 7 and the
right part flushed to its leaf. The bundle is live in the left part only, so the output goes there, and then its
reference for key 7 is given up. -/
def lkRoot : Nd Nat := ⟨[], [(0, 0)], 20⟩
def lkR1 : Refs := (flushRefs exL (⟨[], [(0, 0), (7, 0)], 20⟩ : Nd Nat) [0] exR0).get (by decide)
def lkR2 : Refs := Mini.upd lkR1 1 (fun _ => 2)
def lkI1 : Nd Nat := ⟨[0], [(0, 0)], 7⟩
def lkO : Nd Nat := ⟨[1], [(0, 0)], 7⟩
def lkI2 : Nd Nat := ⟨[0], [(7, 0)], 20⟩
def lkR3 : Refs := (replaceRefs exL lkI1 0 1 lkR2).get (by decide)
def lkR4 : Refs := (gcRefs exL lkI1 0 [0] lkR3).get (by decide)
def lkR5 : Refs := (zapAt exL 1 7 7 lkR4).get (by decide)
def lkR6 : Refs := (destroyRefs exL lkO lkR5).get (by decide)
def lkR7 : Refs := (destroyRefs exL lkI2 lkR6).get (by decide)

theorem destroyed' {nodes rest : List (Nd K)} {fly : List (Nat × K × K)} {R R' : Refs} {made : List Nat} {lost : List (Nat × (K × K) × (K × K))} {d : Nd K}
    {L : Nat → List (Ent K)} {n : Nat → Nat} {exts : Nat → Nat → List (Nat × K)} {bot top : K}
    (h : Reach L n exts bot top ⟨nodes, fly, R, made, lost⟩) (hp : nodes.Perm (d :: rest)) (hd : destroyRefs L d R = some R') :
    Reach L n exts bot top ⟨rest, fly, R', made, lost⟩ := .step h (.destroy hp hd)

/-- Disagreement: after `trunk_destroy` extent 102 of the output has a reference, and nothing refers to it. -/
theorem leak : ∃ s, Reach exL exN exX 0 20 s ∧ s.nodes = [] ∧ s.fly = [] ∧ 1 ∈ s.made ∧ s.refs 1 102 = 2 ∧ s.refs 1 101 = 0 := by
  have s1 : Reach exL exN exX 0 20 ⟨[lkRoot, exLeaf, exLeaf], [], fun _ _ => 0, [], []⟩ := .step .init (.newRoot (by decide))
  have s2 : Reach exL exN exX 0 20 ⟨[⟨[], [(0, 0)], 7⟩, ⟨[], [(7, 0)], 20⟩, lkRoot, exLeaf], [], fun _ _ => 0, [], []⟩ :=
    .step s1 (.splitLeaf (d := exLeaf) (rest := [lkRoot, exLeaf]) (lo := 0) (ks := [7]) (by decide) rfl (by decide) rfl)
  have s3 := Reach.step s2 (.addPivot (d := exLeaf) (rest := [lkRoot, ⟨[], [(0, 0)], 7⟩, ⟨[], [(7, 0)], 20⟩]) (i := 0) (a := 0) (z := 20) (k := 7)
    (by decide) rfl (by decide) (by decide))
  have s4 := Reach.step s3 (.make (b := 0) (r := fun _ => 2) (by decide) (fun _ _ _ _ => rfl))
  have s5 := Reach.step s4 (.install (d := lkRoot) (rest := [⟨[], [(0, 0), (7, 0)], 20⟩, ⟨[], [(0, 0)], 7⟩, ⟨[], [(7, 0)], 20⟩]) (fly := []) (b := 0) (R := exR0)
    (by decide) (.refl _) rfl rfl rfl)
  have s6 := Reach.step s5 (.flush (p := ⟨[0], [(0, 0)], 20⟩) (c := ⟨[], [(0, 0), (7, 0)], 20⟩) (rest := [⟨[], [(0, 0)], 7⟩, ⟨[], [(7, 0)], 20⟩])
    (i := 0) (a := 0) (z := 20) (k := 0) (R := lkR1) (by decide) rfl rfl rfl (Option.some_get _).symm)
  have s7 := Reach.step s6 (.make (b := 1) (r := fun _ => 2) (by decide) (fun _ _ _ _ => rfl))
  have s8 := Reach.step s7 (.splitIndex (d := ⟨[0], [(0, 0), (7, 0)], 20⟩) (rest := [lkRoot, ⟨[], [(0, 0)], 7⟩, ⟨[], [(7, 0)], 20⟩]) (t := 1) (p := (7, 0))
    (by decide) (by decide) rfl)
  have s9 := Reach.step s8 (.addPivot (d := lkRoot) (rest := [lkI1, lkI2, ⟨[], [(0, 0)], 7⟩, ⟨[], [(7, 0)], 20⟩]) (i := 0) (a := 0) (z := 20) (k := 7)
    (by decide) rfl (by decide) (by decide))
  have s10 := Reach.step s9 (.flush (p := lkI2) (c := ⟨[], [(7, 0)], 20⟩) (rest := [⟨[], [(0, 0), (7, 0)], 20⟩, lkI1, ⟨[], [(0, 0)], 7⟩])
    (i := 0) (a := 7) (z := 20) (k := 0) (R := lkR2) (by decide) rfl rfl rfl rfl)
  have s11 := Reach.step s10 (.compact (d := lkI1) (rest := [⟨[], [(7, 0)], 20⟩, lkI2, ⟨[], [(0, 0), (7, 0)], 20⟩, ⟨[], [(0, 0)], 7⟩]) (fly := [])
    (lo := 0) (b := 0) (e := 1) (out := 1) (a := 0) (R := lkR3) (R' := lkR4) (by decide) (.refl _) rfl (by decide) (by decide) (by decide) (by decide)
    (by decide) (Option.some_get _).symm (Option.some_get _).symm)
  have s12 : Reach exL exN exX 0 20 ⟨[lkO, ⟨[], [(7, 0)], 20⟩, lkI2, ⟨[], [(0, 0), (7, 0)], 20⟩, ⟨[], [(0, 0)], 7⟩], [], lkR5, [1, 0],
    [(1, (7, 20), (7, 7)), (1, (0, 20), (0, 20))]⟩ := Reach.step s11 (.compacted (fly := []) (out := 1) (hi := 7) (R := lkR5) (.refl _) (by decide) (Option.some_get _).symm)
  have h6 : destroyRefs exL lkO lkR5 = some lkR6 := (Option.some_get _).symm
  have h7 : destroyRefs exL lkI2 lkR6 = some lkR7 := (Option.some_get _).symm
  have s13 := destroyed' s12 (d := lkO) (rest := [lkI2, ⟨[], [(7, 0)], 20⟩, ⟨[], [(0, 0), (7, 0)], 20⟩, ⟨[], [(0, 0)], 7⟩])
    (R' := lkR6) (by decide) h6
  have s14 := destroyed' s13 (d := lkI2) (rest := [⟨[], [(7, 0)], 20⟩, ⟨[], [(0, 0), (7, 0)], 20⟩, ⟨[], [(0, 0)], 7⟩])
    (R' := lkR7) (by decide) h7
  have s15 := destroyed' s14 (d := ⟨[], [(7, 0)], 20⟩) (rest := [⟨[], [(0, 0), (7, 0)], 20⟩, ⟨[], [(0, 0)], 7⟩]) (R' := lkR7) (by decide) rfl
  have s16 := destroyed' s15 (d := ⟨[], [(0, 0), (7, 0)], 20⟩) (rest := [⟨[], [(0, 0)], 7⟩]) (R' := lkR7) (by decide) rfl
  have s17 := destroyed' s16 (d := ⟨[], [(0, 0)], 7⟩) (rest := []) (R' := lkR7) (by decide) rfl
  have e1 : lkR7 1 102 = 2 := by decide +kernel
  have e2 : lkR7 1 101 = 0 := by decide +kernel
  have fin : ∀ (R : Refs) (w), R 1 102 = 2 → R 1 101 = 0 → Reach exL exN exX 0 20 ⟨[], [], R, [1, 0], w⟩ →
      ∃ s, Reach exL exN exX 0 20 s ∧ s.nodes = [] ∧ s.fly = [] ∧ 1 ∈ s.made ∧ s.refs 1 102 = 2 ∧ s.refs 1 101 = 0 :=
    fun R w h1 h2 h => ⟨_, h, rfl, rfl, List.mem_cons_self, h1, h2⟩
  exact fin lkR7 _ e1 e2 s17

example : destroyFilters 3 6 = [3, 4, 5] := by decide

end Splinter.TrunkRefs
