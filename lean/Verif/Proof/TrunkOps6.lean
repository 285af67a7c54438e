import Verif.Proof.TrunkOps5
/-!
Tuple counts, fingerprint slices and the ranges of nodes.
-/
namespace Splinter.Trunk
open Splinter.Merge (SortedRun)
open Splinter.Spec (msgsOf actAll eval act UpdateSem Implements)
set_option linter.unusedSectionVars false

variable {K V F C : Type} [LinearOrder K] {ops : FilterOps K F} {L : FilterLaws ops} {sem : UpdateSem K V}
  {cfg : DataCfg K V} {lo hi : K} {s s' : State K V F} {hist : K → List (Msg V)}

/-! ### Ranges -/

/-- All keys of a node see the same node. -/
theorem view_same {h : Nat} {n : Node K V F (Sub K V F h)} {k : K} (g : Good h n lo hi) (k1 : lo ≤ k) (k2 : k < hi)
    {l : Lvl K V F} (hl : l ∈ view h n k) : l.nlo ≤ k ∧ k < l.nhi ∧ lo ≤ l.nlo ∧ l.nhi ≤ hi ∧
      ∀ k', l.nlo ≤ k' → k' < l.nhi → ∃ l' ∈ view h n k', l'.ht = l.ht ∧ l'.nlo = l.nlo ∧ l'.nhi = l.nhi ∧ l'.id = l.id := by
  obtain ⟨nd, nlo, nhi, e1, e2, e3, e4, e5, e6, e7⟩ :=
    nodeAt_spec l.ht k h n lo hi g k1 k2 (view_ht h n lo hi k g k1 k2 l hl)
  obtain ⟨l0, r', h1, h2, h3, h4, h5, h6, _⟩ := head_facts e2 e3 e4
  obtain ⟨pre, q1, q2⟩ := e7 k e3 e4
  have : l = l0 := level_eq g k1 k2 q2 h1 h2 hl rfl
  subst this
  rw [h5, h6]
  refine ⟨e3, e4, e5, e6, fun k' a1 a2 => ?_⟩
  obtain ⟨l1, r1, i1, i2, i3, i4, i5, i6, _⟩ := head_facts e2 a1 a2
  obtain ⟨pre, q1, q2⟩ := e7 k' a1 a2
  exact ⟨l1, by rw [q2, i1]; simp, i2, i5, i6, i3.trans h3.symm⟩

/-- Nodes of one height do not overlap. -/
theorem view_sep {h : Nat} {n : Node K V F (Sub K V F h)} {k k' : K} (g : Good h n lo hi) (k1 : lo ≤ k) (k2 : k < hi)
    (k1' : lo ≤ k') (k2' : k' < hi) {l l' : Lvl K V F} (hl : l ∈ view h n k) (hl' : l' ∈ view h n k')
    (he : l.ht = l'.ht) (hk : l.nhi ≤ k') : l.nhi ≤ l'.nlo := by
  obtain ⟨a1, a2, a3, a4, a5⟩ := view_same g k1 k2 hl
  obtain ⟨b1, b2, b3, b4, b5⟩ := view_same g k1' k2' hl'
  by_contra hc
  rw [not_le] at hc
  have m1 : l.nlo ≤ max l.nlo l'.nlo := le_max_left _ _
  have m2 : l'.nlo ≤ max l.nlo l'.nlo := le_max_right _ _
  have m3 : max l.nlo l'.nlo < l.nhi := max_lt (lt_of_le_of_lt a1 a2) hc
  generalize max l.nlo l'.nlo = m at *
  have m4 : m < l'.nhi := lt_of_lt_of_le m3 (le_trans hk (le_of_lt b2))
  obtain ⟨x, hx, x1, x2, x3, _⟩ := a5 m m1 m3
  obtain ⟨y, hy, y1, y2, y3, _⟩ := b5 m m2 m4
  have : x = y := view_unique h n lo hi m g (le_trans a3 m1) (lt_of_lt_of_le m3 a4) x hx y hy (by rw [x1, y1, he])
  subst this
  rw [← x3, y3] at hk
  exact absurd b2 (not_lt.mpr hk)

/-! ### Positions and slices -/

theorem pos_of_mem {r : Req K V} (hg : (r.rngs.map (·.1)).Nodup) {g : Nat × K × K} (h : g ∈ r.rngs) :
    r.rngs[r.pos g.1]? = some g := by
  unfold Req.pos
  have hx : ∃ x ∈ r.rngs, (x.1 == g.1) = true := ⟨g, h, by simp⟩
  have hlt := List.findIdx_lt_length_of_exists hx
  rw [List.getElem?_eq_getElem hlt]
  have hp := List.findIdx_getElem (w := hlt)
  obtain ⟨j, hj, hgj⟩ := List.getElem_of_mem h
  simp only [beq_iff_eq] at hp
  have : r.rngs.findIdx (fun x => x.1 == g.1) = j := by
    have h1 : (r.rngs.map (·.1))[r.rngs.findIdx (fun x => x.1 == g.1)]'(by simpa using hlt) = (r.rngs.map (·.1))[j]'(by simpa using hj) := by
      rw [List.getElem_map, List.getElem_map, hgj]; exact hp
    exact (List.getElem_inj hg).mp h1
  congr 1
  simp only [this]
  exact hgj

theorem pos_inv {r : Req K V} {i gen : Nat} {g : Nat × K × K} (h : r.rngs[i]? = some g) (hp : r.pos gen = i) :
    g.1 = gen := by
  unfold Req.pos at hp
  obtain ⟨h1, h2⟩ := List.getElem?_eq_some_iff.mp h
  subst hp
  have := List.findIdx_getElem (w := h1)
  rw [h2] at this
  simpa using this

theorem rngs_unique {rs : List (Nat × K × K)} (h : rs.Pairwise (fun a b => a.2.2 ≤ b.2.1)) {a b : Nat × K × K} {k : K}
    (ha : a ∈ rs) (hb : b ∈ rs) (a1 : a.2.1 ≤ k) (a2 : k < a.2.2) (b1 : b.2.1 ≤ k) (b2 : k < b.2.2) : a = b := by
  have h' : rs.Pairwise (fun a b => a.2.2 ≤ b.2.1 ∨ b.2.2 ≤ a.2.1) := h.imp .inl
  rcases pairwise_mem (fun a b => Or.symm) h' a ha b hb with e | e | e
  · exact e
  · exact absurd (lt_of_lt_of_le a2 (le_trans e b1)) (lt_irrefl _)
  · exact absurd (lt_of_lt_of_le b2 (le_trans e a1)) (lt_irrefl _)

/-- Keys in a range. -/
def inRng (g : Nat × K × K) (k : K) : Bool := decide (g.2.1 ≤ k ∧ k < g.2.2)

/-- Sorted keys covered by ordered ranges are the concatenation of the ranges. -/
theorem keys_split : ∀ (rs : List (Nat × K × K)) (ks : List K), ks.Pairwise (· < ·) →
    rs.Pairwise (fun a b => a.2.2 ≤ b.2.1) → (∀ k ∈ ks, ∃ g ∈ rs, inRng g k = true) →
    ks = rs.flatMap (fun g => ks.filter (inRng g))
  | [], ks, _, _, hc => by
    cases ks with
    | nil => rfl
    | cons k ks => obtain ⟨g, hg, _⟩ := hc k List.mem_cons_self; cases hg
  | g :: rs, ks, hs, hr, hc => by
    have hr' := List.pairwise_cons.mp hr
    have h1 : ∀ ks : List K, ks.Pairwise (· < ·) → (∀ k ∈ ks, ∃ g' ∈ g :: rs, inRng g' k = true) →
        ks = ks.filter (inRng g) ++ ks.filter (fun k => !inRng g k) := by
      intro ks
      induction ks with
      | nil => intros; rfl
      | cons k ks ih =>
        intro hs hc
        have hs' := List.pairwise_cons.mp hs
        by_cases hk : inRng g k = true
        · rw [List.filter_cons_of_pos hk, List.filter_cons_of_neg (by simp [hk]), List.cons_append,
            ← ih hs'.2 (fun k hk => hc k (List.mem_cons_of_mem _ hk))]
        · have hall : ∀ x ∈ k :: ks, inRng g x = false := by
            obtain ⟨g', hg', hin⟩ := hc k List.mem_cons_self
            have hge : g.2.2 ≤ k := by
              rcases List.mem_cons.mp hg' with rfl | hg'
              · exact absurd hin hk
              · have := hr'.1 g' hg'
                simp only [inRng, decide_eq_true_eq] at hin
                exact le_trans this hin.1
            intro x hx
            have : g.2.2 ≤ x := by
              rcases List.mem_cons.mp hx with rfl | hx
              · exact hge
              · exact le_trans hge (le_of_lt (hs'.1 x hx))
            simp only [inRng, decide_eq_false_iff_not, not_and, not_lt]
            exact fun _ => this
          have e1 : (k :: ks).filter (inRng g) = [] := by
            rw [List.filter_eq_nil_iff]; intro x hx; rw [hall x hx]; simp
          have e2 : (k :: ks).filter (fun k => !inRng g k) = k :: ks := by
            rw [List.filter_eq_self]; intro x hx; rw [hall x hx]; rfl
          rw [e1, e2]; rfl
    have h2 := h1 ks hs hc
    have h3 := keys_split rs (ks.filter (fun k => !inRng g k)) (hs.filter _) hr'.2 (by
      intro k hk
      obtain ⟨hk1, hk2⟩ := List.mem_filter.mp hk
      obtain ⟨g', hg', hin⟩ := hc k hk1
      rcases List.mem_cons.mp hg' with rfl | hg'
      · rw [hin] at hk2; cases hk2
      · exact ⟨g', hg', hin⟩)
    rw [List.flatMap_cons]
    conv_lhs => rw [h2, h3]
    congr 1
    apply List.flatMap_congr
    intro g' hg'
    rw [List.filter_filter]
    apply List.filter_congr
    intro k hk
    by_cases hin : inRng g' k = true
    · have : inRng g k = false := by
        have := hr'.1 g' hg'
        simp only [inRng, decide_eq_true_eq, decide_eq_false_iff_not, not_and, not_lt] at hin ⊢
        exact fun _ => le_trans this hin.1
      rw [hin, this]; rfl
    · simp only [Bool.not_eq_true] at hin
      rw [hin]; rfl

theorem flatMap_take_len {α β : Type} (f : α → List β) : ∀ (l : List α) (i : Nat),
    ((l.take i).flatMap f).length = ((l.map (fun a => (f a).length)).take i).sum
  | [], i => by simp
  | a :: l, 0 => by simp
  | a :: l, i + 1 => by simp [flatMap_take_len f l i]

/-- The slice taken for a generation is the part of the output in its range. -/
theorem slice_mem {r : Req K V} {out : Branch K V} (ok : OutOk r out r.stop) (hg : (r.rngs.map (·.1)).Nodup)
    (hp : r.rngs.Pairwise (fun a b => a.2.2 ≤ b.2.1)) (hlen : r.cnts.length = r.rngs.length)
    {g : Nat × K × K} (hm : g ∈ r.rngs) : r.slice (out.map (·.1)) g.1 = (out.map (·.1)).filter (inRng g) := by
  have hpos := pos_of_mem hg hm
  unfold Req.slice
  generalize r.pos g.1 = i at hpos
  have hc := ok.counts i g hpos
  rw [List.getD_eq_getElem?_getD, hc]
  simp only [Option.getD_some]
  have hcl : ∀ g, countTo out g.2.1 g.2.2 r.stop = ((out.map (·.1)).filter (inRng g)).length := by
    intro g
    unfold countTo
    rw [List.filter_map, List.length_map]
    congr 1
    apply List.filter_congr
    intro x hx
    have := (ok.cover x hx).2.1
    simp [inRng, this]
  have hcs : r.cnts = r.rngs.map (fun g => ((out.map (·.1)).filter (inRng g)).length) := by
    apply List.ext_getElem?
    intro j
    rw [List.getElem?_map]
    cases hj : r.rngs[j]? with
    | none =>
      rw [List.getElem?_eq_none_iff] at hj
      exact List.getElem?_eq_none (by omega)
    | some g' => rw [ok.counts j g' hj, hcl]; rfl
  have hsplit := keys_split r.rngs (out.map (·.1)) (by rw [List.pairwise_map]; exact ok.sorted) hp (by
    intro k hk
    obtain ⟨x, hx, rfl⟩ := List.mem_map.mp hk
    obtain ⟨_, _, g', hg', a, b⟩ := ok.cover x hx
    exact ⟨g', hg', by simp [inRng, a, b]⟩)
  generalize hks : out.map (·.1) = ks at *
  obtain ⟨h1, h2⟩ := List.getElem?_eq_some_iff.mp hpos
  have hdec : r.rngs = r.rngs.take i ++ g :: r.rngs.drop (i + 1) := by
    rw [← h2, List.getElem_cons_drop, List.take_append_drop]
  have hks2 : ks = (r.rngs.take i).flatMap (fun g => ks.filter (inRng g)) ++ (ks.filter (inRng g) ++
      (r.rngs.drop (i + 1)).flatMap (fun g => ks.filter (inRng g))) := by
    have := hsplit
    rw [hdec, List.flatMap_append, List.flatMap_cons] at this
    exact this
  have hsum : (r.cnts.take i).sum = ((r.rngs.take i).flatMap (fun g => ks.filter (inRng g))).length := by
    rw [flatMap_take_len, hcs]
  rw [hsum, hcl]
  generalize hA : (r.rngs.take i).flatMap (fun g => ks.filter (inRng g)) = A at *
  generalize (r.rngs.drop (i + 1)).flatMap (fun g => ks.filter (inRng g)) = B at *
  generalize hm : ks.filter (inRng g) = M at *
  rw [hks2, List.drop_left, List.take_left]

/-! ### Recording counts -/

theorem foldl_set_none {α : Type} (c : α → Prop) [DecidablePred c] (f : α → Nat) (v : α → Nat) :
    ∀ (xs : List α) (cs : List Nat) (i : Nat), (∀ x ∈ xs, c x → f x ≠ i) →
    (xs.foldl (fun cs x => if c x then cs.set (f x) (v x) else cs) cs)[i]? = cs[i]?
  | [], cs, i, _ => rfl
  | x :: xs, cs, i, h => by
    rw [List.foldl_cons, foldl_set_none c f v xs _ i (fun y hy => h y (List.mem_cons_of_mem _ hy))]
    split
    · rename_i hc
      rw [List.getElem?_set_ne (h x List.mem_cons_self hc)]
    · rfl

theorem foldl_set_length {α : Type} (c : α → Prop) [DecidablePred c] (f : α → Nat) (v : α → Nat) :
    ∀ (xs : List α) (cs : List Nat),
    (xs.foldl (fun cs x => if c x then cs.set (f x) (v x) else cs) cs).length = cs.length
  | [], cs => rfl
  | x :: xs, cs => by
    rw [List.foldl_cons, foldl_set_length c f v xs]
    split <;> simp

theorem foldl_set_some {α : Type} (c : α → Prop) [DecidablePred c] (f : α → Nat) (v : α → Nat) (w : Nat) :
    ∀ (xs : List α) (cs : List Nat) (i : Nat), i < cs.length → (∃ x ∈ xs, c x ∧ f x = i) →
    (∀ x ∈ xs, c x → f x = i → v x = w) →
    (xs.foldl (fun cs x => if c x then cs.set (f x) (v x) else cs) cs)[i]? = some w
  | [], cs, i, _, h, _ => by obtain ⟨x, hx, _⟩ := h; cases hx
  | x :: xs, cs, i, hi, h, hv => by
    rw [List.foldl_cons]
    by_cases hex : ∃ y ∈ xs, c y ∧ f y = i
    · refine foldl_set_some c f v w xs _ i ?_ hex (fun y hy => hv y (List.mem_cons_of_mem _ hy))
      split <;> simpa using hi
    · rw [foldl_set_none c f v xs _ i (fun y hy hc hf => hex ⟨y, hy, hc, hf⟩)]
      obtain ⟨y, hy, hc, hf⟩ := h
      rcases List.mem_cons.mp hy with rfl | hy
      · rw [if_pos hc, hf, List.getElem?_set_self hi, hv y List.mem_cons_self hc hf]
      · exact absurd ⟨y, hy, hc, hf⟩ hex

end Splinter.Trunk
