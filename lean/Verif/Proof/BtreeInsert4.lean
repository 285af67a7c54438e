import Verif.Proof.BtreeInsert3
/-!
Changing a smallest separator, growing the root, splitting a page.
-/
namespace Splinter.BtreeIns
open Btree Search

variable {K M : Type}

/-- A position in a list of pages without repetition. -/
theorem split_same {A B A' B' : List (K × Nat)} {q q' : K × Nat}
    (hnd : ((A ++ q :: B).map (·.2)).Nodup) (h : A' ++ q' :: B' = A ++ q :: B) (ha : q'.2 = q.2) :
    q' = q ∧ A' = A ∧ B' = B := by
  have hAB : ∀ x ∈ A ++ B, x.2 ≠ q.2 := by
    rw [List.map_append, List.map_cons, List.nodup_append, List.nodup_cons] at hnd
    intro x hx hx'
    rcases List.mem_append.1 hx with hx | hx
    · exact hnd.2.2 x.2 (List.mem_map_of_mem hx) q.2 List.mem_cons_self hx'
    · exact hnd.2.1.1 (List.mem_map.2 ⟨x, hx, hx'⟩)
  rcases List.append_eq_append_iff.1 h with ⟨C, c1, c2⟩ | ⟨C, c1, c2⟩
  · cases C with
    | nil => simp at c1 c2; exact ⟨c2.1, c1.symm, c2.2⟩
    | cons z C =>
      simp only [List.cons_append, List.cons.injEq] at c2
      exact absurd ha (hAB q' (by rw [c1, c2.1]; simp))
  · cases C with
    | nil => simp at c1 c2; exact ⟨c2.1.symm, c1, c2.2.symm⟩
    | cons z C =>
      simp only [List.cons_append, List.cons.injEq] at c2
      exact absurd ha (hAB q' (by rw [c2.2]; simp))

theorem mid_ne {A B : List (K × Nat)} {q : K × Nat} (hnd : ((A ++ q :: B).map (·.2)).Nodup) :
    ∀ x ∈ A ++ B, x.2 ≠ q.2 := by
  rw [List.map_append, List.map_cons, List.nodup_append, List.nodup_cons] at hnd
  intro x hx hx'
  rcases List.mem_append.1 hx with hx | hx
  · exact hnd.2.2 x.2 (List.mem_map_of_mem hx) q.2 List.mem_cons_self hx'
  · exact hnd.2.1.1 (List.mem_map.2 ⟨x, hx, hx'⟩)

theorem flatMap_snd {β : Type} {l l' : List (K × Nat)} (g : Nat → List β)
    (h : l'.map (·.2) = l.map (·.2)) : (l'.flatMap fun q => g q.2) = l.flatMap fun q => g q.2 := by
  have := congrArg (List.flatMap g) h
  rwa [List.flatMap_map, List.flatMap_map] at this

variable [LinearOrder K]

/-- The levels with one of them replaced. -/
def upd (lv : Nat → List (K × Nat)) (h : Nat) (l : List (K × Nat)) : Nat → List (K × Nat) :=
  fun g => if g = h then l else lv g

omit [LinearOrder K] in
theorem upd_self {lv : Nat → List (K × Nat)} {h : Nat} {l : List (K × Nat)} : upd lv h l h = l := by
  simp [upd]

omit [LinearOrder K] in
theorem upd_ne {lv : Nat → List (K × Nat)} {g h : Nat} {l : List (K × Nat)} (hg : g ≠ h) :
    upd lv h l g = lv g := by
  simp [upd, hg]

variable [BoundedOrder K]

/-- How a write that changes pages `W` moves a tree: other pages keep what they have and
stay where the search for a key passes. All leaves but the first keep their separator,
and a leaf is added only if a leaf is changed. -/
structure Ext (root : Nat) (W : List Nat) (st : Store K M) (H : Nat) (lv : Nat → List (K × Nat))
    (st' : Store K M) (H' : Nat) (lv' : Nat → List (K × Nat)) : Prop where
  same : ∀ a, st a ≠ none → a ∉ W → kids st' a = kids st a ∧ cont st' a = cont st a
  keep : ∀ a, st a ≠ none → st' a ≠ none
  path : ∀ g ≤ H, ∀ k b a, a ∉ W → At lv g k b a → ∃ b' ≤ b, At lv' g k b' a
  mono : H ≤ H'
  height : H' = H ∨ root ∈ W
  leaf : ∀ q ∈ (lv 0).tail, q ∈ (lv' 0).tail
  old : ∀ q ∈ lv' 0, q.2 ∈ (lv 0).map (·.2) ∨ st q.2 = none ∧ ∃ a ∈ W, a ∈ (lv 0).map (·.2)

omit [BoundedOrder K] in
theorem Ext.refl {root H : Nat} {W : List Nat} {st : Store K M} {lv : Nat → List (K × Nat)} :
    Ext root W st H lv st H lv :=
  ⟨fun _ _ _ => ⟨rfl, rfl⟩, fun _ h => h, fun _ _ _ b _ _ h => ⟨b, le_rfl, h⟩, le_rfl, .inl rfl,
    fun _ h => h, fun _ h => .inl (List.mem_map_of_mem h)⟩

omit [BoundedOrder K] in
theorem Ext.trans {root H1 H2 H3 : Nat} {W : List Nat} {s1 s2 s3 : Store K M}
    {l1 l2 l3 : Nat → List (K × Nat)} (x : Ext root W s1 H1 l1 s2 H2 l2)
    (y : Ext root W s2 H2 l2 s3 H3 l3) : Ext root W s1 H1 l1 s3 H3 l3 := by
  refine ⟨?_, fun a h => y.keep a (x.keep a h), ?_, x.mono.trans y.mono, ?_, fun q hq => y.leaf q (x.leaf q hq), ?_⟩
  · intro a h1 h2
    have p := x.same a h1 h2
    have q := y.same a (x.keep a h1) h2
    exact ⟨q.1.trans p.1, q.2.trans p.2⟩
  · intro g hg k b a ha h
    obtain ⟨b1, hb1, h1⟩ := x.path g hg k b a ha h
    obtain ⟨b2, hb2, h2⟩ := y.path g (hg.trans x.mono) k b1 a ha h1
    exact ⟨b2, hb2.trans hb1, h2⟩
  · rcases x.height with h | h
    · rcases y.height with h' | h'
      · exact .inl (h'.trans h)
      · exact .inr h'
    · exact .inr h
  · have hx : ∀ a, a ∈ (l2 0).map (·.2) → a ∈ (l1 0).map (·.2) ∨ s1 a = none ∧ ∃ a ∈ W, a ∈ (l1 0).map (·.2) := by
      intro a ha
      obtain ⟨q, hq, rfl⟩ := List.mem_map.1 ha
      exact x.old q hq
    intro q hq
    rcases y.old q hq with h | ⟨h, a, ha, hm⟩
    · exact hx q.2 h
    · right
      refine ⟨not_not.1 fun h' => x.keep q.2 h' h, ?_⟩
      rcases hx a hm with h' | ⟨_, h'⟩
      · exact ⟨a, ha, h'⟩
      · exact h'

omit [BoundedOrder K] in
theorem Ext.weaken {root H H' : Nat} {W W' : List Nat} {st st' : Store K M} {lv lv' : Nat → List (K × Nat)}
    (x : Ext root W st H lv st' H' lv') (h : ∀ a ∈ W, a ∈ W') : Ext root W' st H lv st' H' lv' :=
  ⟨fun a h1 h2 => x.same a h1 fun h' => h2 (h a h'), x.keep,
    fun g hg k b a ha => x.path g hg k b a fun h' => ha (h a h'), x.mono, x.height.imp id (h root), x.leaf,
    fun q hq => (x.old q hq).imp id fun ⟨h1, a, ha, h2⟩ => ⟨h1, a, h a ha, h2⟩⟩

/-- The whole tree after some change. -/
structure Whole (st : Store K M) (root H : Nat) (lv : Nat → List (K × Nat)) : Prop where
  skel : Skel st root H lv
  leaves : Leaves st H (lv 0)

/-- All tuples in order. -/
def items (st : Store K M) (lv : Nat → List (K × Nat)) : List (K × M) :=
  (lv 0).flatMap fun q => cont st q.2

/-- Making the smallest separator of a page smaller. -/
theorem setMin_spec {st st' : Store K M} {root H h a c : Nat} {lv : Nat → List (K × Nat)} {k b f : K}
    {E : List (K × Nat)} (T : Whole st root H lv) (hh : h < H) (h1 : At lv (h + 1) k b a) (hb : b ≤ k)
    (hk : kids st a = (f, c) :: E) (hf : k < f) (he : setMin st a k = some st') :
    ∃ lv', Whole st' root H lv' ∧ Ext root [a] st H lv st' H lv' ∧ items st' lv' = items st lv ∧
      kids st' a = (k, c) :: E ∧ At lv' (h + 1) k b a := by
  obtain ⟨S, L⟩ := T
  have hm := S.mem h1
  obtain ⟨A, B, e, hA1, hB1⟩ := h1
  obtain ⟨n, es, e1, e2, e3, e4, e5, e6, e7⟩ := (S.page (h + 1) hh _ hm).index (by omega)
  simp only at e1 e5 e6 e7
  cases es with
  | nil => exact absurd rfl e4
  | cons x es =>
  rw [hk] at e6
  simp only [List.map_cons, List.cons.injEq, Prod.mk.injEq] at e6
  obtain ⟨⟨rfl, rfl⟩, rfl⟩ := e6
  have hA : A = [] := by
    by_contra hA
    have := (S.first (h + 1) hh A (b, a) B e x.key (by simp only; rw [e7]; simp)).2 hA
    simp only at this
    exact absurd hf (not_lt.2 (this ▸ hb))
  subst hA
  simp only [List.nil_append] at e
  simp only [setMin, e5, Option.some.injEq] at he
  have hself : st' a = some { n with body := .index ({ x with key := k } :: es) } := by
    rw [← he]; exact putBody_self e1
  have hne : ∀ y, y ≠ a → st' y = st y := fun y hy => by rw [← he]; exact putBody_ne hy
  have hcore : ∀ y, y ≠ a → (st' y).map core = (st y).map core := fun y hy => by rw [hne y hy]
  have hpa : Page st' (h + 1) a := ⟨_, hself, e2, .inr ⟨by omega, _, rfl, by simp⟩⟩
  obtain ⟨_, es', f1, _, _, _, f5, f6, f7⟩ := hpa.index (by omega)
  have hes' : es' = { x with key := k } :: es := by
    rw [entsOf_eq hself rfl] at f5; injection f5 with f5; exact f5.symm
  subst hes'
  have hna : ∀ g ≤ H, ∀ q ∈ lv g, q.2 = a → g = h + 1 := by
    intro g hg q hq h'
    exact S.level hg hh (a := a) (h' ▸ List.mem_map_of_mem hq) (List.mem_map.2 ⟨_, hm, rfl⟩)
  have hnd := S.nodup (h + 1) hh
  have hBne : ∀ q ∈ B, q.2 ≠ a := by
    rw [e] at hnd
    exact fun q hq => mid_ne (A := []) (q := (b, a)) hnd q (by simpa using hq)
  -- the level below
  have hlow : lv h = (x.key, x.child) :: (es.map (fun e => (e.key, e.child)) ++ B.flatMap fun q => kids st q.2) := by
    rw [S.kids h hh, e, List.flatMap_cons, hk]; rfl
  obtain ⟨R, hR⟩ : ∃ R, R = es.map (fun e => (e.key, e.child)) ++ B.flatMap fun q => kids st q.2 := ⟨_, rfl⟩
  rw [← hR] at hlow
  obtain ⟨lv', hlv'⟩ : ∃ lv', lv' = upd lv h ((k, x.child) :: R) := ⟨_, rfl⟩
  have hl0 : lv' h = (k, x.child) :: R := by rw [hlv', upd_self]
  have hl1 : ∀ g, g ≠ h → lv' g = lv g := fun g hg => by rw [hlv', upd_ne hg]
  have hmap : ∀ g, (lv' g).map (·.2) = (lv g).map (·.2) := by
    intro g
    by_cases hg : g = h
    · subst hg; rw [hl0, hlow]; simp
    · rw [hl1 g hg]
  have hmem : ∀ g, ∀ q ∈ lv' g, ∃ r ∈ lv g, r.2 = q.2 := by
    intro g q hq
    have : q.2 ∈ (lv g).map (·.2) := by rw [← hmap g]; exact List.mem_map_of_mem hq
    obtain ⟨r, hr, e⟩ := List.mem_map.1 this
    exact ⟨r, hr, e⟩
  have hpage : ∀ g ≤ H, ∀ q ∈ lv g, Page st' g q.2 := by
    intro g hg q hq
    by_cases h' : q.2 = a
    · obtain rfl := hna g hg q hq h'
      rw [h']; exact hpa
    · exact (same_kids (hcore q.2 h')).2.2.2 g (S.page g hg q hq)
  have hcont : ∀ q ∈ lv 0, cont st' q.2 = cont st q.2 := by
    intro q hq
    refine (same_kids (hcore q.2 fun h' => ?_)).2.1
    have := hna 0 (Nat.zero_le _) q hq h'
    omega
  have hcontm : ∀ g : Nat → List (K × M), ((lv' 0).flatMap fun q => g q.2) = (lv 0).flatMap fun q => g q.2 := by
    intro g
    exact flatMap_snd g (hmap 0)
  have hitems : items st' lv' = items st lv := by
    unfold items
    rw [hcontm]
    exact flatMap_same hcont
  have hskel : Skel st' root H lv' := by
    refine ⟨?_, ?_, ?_, ?_, ?_, ?_, ?_⟩
    · rw [hl1 H (by omega)]; exact S.top
    · intro g hg q hq
      obtain ⟨r, hr, e⟩ := hmem g q hq
      rw [← e]; exact hpage g hg r hr
    · intro g hg
      by_cases hgh : g = h
      · subst hgh
        rw [hl0, hl1 (g + 1) (by omega), e, List.flatMap_cons, f6, hR]
        rw [flatMap_same (l := B) fun q hq => (same_kids (hcore q.2 (hBne q hq))).1]
        simp
      · have : (lv' (g + 1)).flatMap (fun q => kids st' q.2) = (lv (g + 1)).flatMap (fun q => kids st' q.2) := by
          exact flatMap_snd _ (hmap (g + 1))
        rw [this, hl1 g hgh, S.kids g hg]
        apply flatMap_same
        intro q hq
        refine (same_kids (hcore q.2 fun h' => ?_)).1.symm
        have := hna (g + 1) hg q hq h'
        omega
    · intro g hg; rw [hmap g]; exact S.nodup g hg
    · intro g hg q hq
      obtain ⟨r, hr, e⟩ := hmem g q hq
      rw [← e]; exact S.nz g hg r hr
    · intro g hg
      by_cases hgh : g = h
      · subst hgh
        have := S.sorted g hg
        rw [hlow, List.pairwise_cons] at this
        rw [hl0, List.pairwise_cons]
        exact ⟨fun y hy => hf.trans (this.1 y hy), this.2⟩
      · rw [hl1 g hgh]; exact S.sorted g hg
    · intro g hg A' q B' hq y hy
      by_cases hgh : g = h
      · subst hgh
        rw [hl0] at hq
        have hy' : y ∈ firstKey st q.2 := by
          have hq2 : q.2 ≠ a := by
            intro h'
            obtain ⟨r, hr, er⟩ := hmem g q (by rw [hl0, hq]; simp)
            have := hna g hg r hr (er.trans h')
            omega
          rw [(same_kids (hcore q.2 hq2)).2.2.1] at hy; exact hy
        cases A' with
        | nil =>
          simp only [List.nil_append, List.cons.injEq] at hq
          obtain ⟨rfl, rfl⟩ := hq
          have := (S.first g hg [] (x.key, x.child) R hlow y hy').1
          exact ⟨(hf.le).trans this, by simp⟩
        | cons z A' =>
          simp only [List.cons_append, List.cons.injEq] at hq
          obtain ⟨rfl, rfl⟩ := hq
          have := S.first g hg ((x.key, x.child) :: A') q B' (by rw [hlow]; simp) y hy'
          exact ⟨this.1, fun _ => this.2 (by simp)⟩
      · rw [hl1 g hgh] at hq
        by_cases h' : q.2 = a
        · obtain rfl := hna g hg q (by rw [hq]; simp) h'
          have hnd' := hnd
          rw [e] at hnd'
          obtain ⟨rfl, rfl, rfl⟩ := split_same (A := []) hnd' (hq.symm.trans e) h'
          simp only at hy
          rw [f7] at hy
          simp only [List.head?_cons, Option.map_some, Option.mem_def, Option.some.injEq] at hy
          subst hy
          exact ⟨hb, by simp⟩
        · rw [(same_kids (hcore q.2 h')).2.2.1] at hy
          exact S.first g hg A' q B' hq y hy
  refine ⟨lv', ⟨hskel, ⟨?_, ?_, ?_⟩⟩, ⟨?_, ?_, ?_, le_rfl, .inl rfl, ?_, ?_⟩, hitems, by rw [f6]; rfl, ?_⟩
  · have : ((lv' 0).flatMap fun q => cont st' q.2) = items st lv := hitems
    rw [this]; exact L.sorted
  · rw [hmap 0]
    refine linked_congr (fun y _ => ?_) L.chain
    by_cases h' : y = a
    · rw [h', hself, e1]; rfl
    · rw [hne y h']
  · intro hH q hq
    obtain ⟨r, hr, e⟩ := hmem 0 q hq
    rw [← e, hcont r hr]; exact L.ne hH r hr
  · intro y _ hy
    simp only [List.mem_singleton] at hy
    have := same_kids (hcore y hy)
    exact ⟨this.1, this.2.1⟩
  · intro y hy
    by_cases h' : y = a
    · rw [h', hself]; simp
    · rw [hne y h']; exact hy
  · intro g hg k' b' a' _ ⟨A', B', q1, q2, q3⟩
    by_cases hgh : g = h
    · subst hgh
      rw [hlow] at q1
      cases A' with
      | nil =>
        simp only [List.nil_append, List.cons.injEq, Prod.mk.injEq] at q1
        obtain ⟨⟨rfl, rfl⟩, rfl⟩ := q1
        exact ⟨k, hf.le, [], R, by rw [hl0]; simp, by simp, q3⟩
      | cons z A' =>
        simp only [List.cons_append, List.cons.injEq] at q1
        obtain ⟨rfl, rfl⟩ := q1
        exact ⟨b', le_rfl, (k, x.child) :: A', B', by rw [hl0]; simp, fun _ => q2 (by simp), q3⟩
    · exact ⟨b', le_rfl, A', B', by rw [hl1 g hgh]; exact q1, q2, q3⟩
  · intro q hq
    by_cases h0 : 0 = h
    · subst h0
      rw [hlow] at hq
      rw [hl0]; exact hq
    · rw [hl1 0 h0]; exact hq
  · intro q hq
    obtain ⟨r, hr, er⟩ := hmem 0 q hq
    exact .inl (er ▸ List.mem_map_of_mem hr)
  · exact ⟨[], B, by rw [hl1 _ (by omega), e]; simp, by simp, hB1⟩

end Splinter.BtreeIns
