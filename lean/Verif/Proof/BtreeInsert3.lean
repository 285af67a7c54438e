import Verif.Proof.BtreeInsert2
/-!
What the writing operations do to the levels of a tree.
-/
namespace Splinter.BtreeIns
open Btree Search

variable {K M : Type}

theorem putBody_ne {st : Store K M} {a b : Nat} {x : Body K M} (h : b ≠ a) : putBody st a x b = st b := by
  simp [putBody, setAt, h]

theorem putBody_self {st : Store K M} {a : Nat} {x : Body K M} {n : Node K M} (h : st a = some n) :
    putBody st a x a = some { n with body := x } := by
  simp [putBody, setAt, h]

/-- One list of items with the tuple put in. -/
inductive Put [LinearOrder K] (mrg : K → M → M → M) (k : K) (m : M) (l l' : List (K × M)) : Prop
  | new (X Y : List (K × M)) (e : l = X ++ Y) (e' : l' = X ++ (k, m) :: Y)
      (hX : ∀ x ∈ X, x.1 < k) (hY : ∀ y ∈ Y, k < y.1)
  | old (X Y : List (K × M)) (o : M) (e : l = X ++ (k, o) :: Y) (e' : l' = X ++ (k, mrg k o m) :: Y)
      (hX : ∀ x ∈ X, x.1 < k) (hY : ∀ y ∈ Y, k < y.1)

variable [LinearOrder K]

theorem Put.sorted {mrg : K → M → M → M} {k : K} {m : M} {l l' : List (K × M)} (h : Put mrg k m l l')
    (hs : l.Pairwise fun x y => x.1 < y.1) : l'.Pairwise fun x y => x.1 < y.1 := by
  cases h with
  | new X Y e e' hX hY =>
    subst e e'
    rw [List.pairwise_append] at hs ⊢
    refine ⟨hs.1, List.pairwise_cons.2 ⟨hY, hs.2.1⟩, ?_⟩
    intro x hx y hy
    rcases List.mem_cons.1 hy with rfl | hy
    · exact hX x hx
    · exact hs.2.2 x hx y hy
  | old X Y o e e' hX hY =>
    subst e e'
    rw [List.pairwise_append, List.pairwise_cons] at hs ⊢
    refine ⟨hs.1, ⟨hY, hs.2.1.2⟩, ?_⟩
    intro x hx y hy
    rcases List.mem_cons.1 hy with rfl | hy
    · exact hX x hx
    · exact hs.2.2 x hx y (List.mem_cons_of_mem _ hy)

theorem Put.grow {mrg : K → M → M → M} {k : K} {m : M} {l l' IA IB : List (K × M)} (h : Put mrg k m l l')
    (hA : ∀ x ∈ IA, x.1 < k) (hB : ∀ x ∈ IB, k < x.1) : Put mrg k m (IA ++ (l ++ IB)) (IA ++ (l' ++ IB)) := by
  cases h with
  | new X Y e e' hX hY =>
    subst e e'
    refine .new (IA ++ X) (Y ++ IB) (by simp) (by simp) ?_ ?_ <;> grind
  | old X Y o e e' hX hY =>
    subst e e'
    refine .old (IA ++ X) (Y ++ IB) o (by simp) (by simp) ?_ ?_ <;> grind

theorem Fits.put {mrg : K → M → M → M} {k : K} {m : M} {es : List (K × M)} {s : Spec M}
    {X Y : List (K × M)} (h : Fits mrg k m es s X Y) (hX : ∀ x ∈ X, x.1 < k) (hY : ∀ y ∈ Y, k < y.1) :
    Put mrg k m es (X ++ (k, s.msg) :: Y) := by
  cases h with
  | new e f i v => exact .new X Y e (by rw [v]) hX hY
  | old o e f i v => exact .old X Y o e (by rw [v]) hX hY

variable [BoundedOrder K]

theorem flatMap_same {α β : Type} {f g : α → List β} {l : List α} (h : ∀ x ∈ l, f x = g x) :
    l.flatMap f = l.flatMap g := List.flatMap_congr h

/-- Writing a leaf. -/
theorem write_leaf [Inhabited K] {mrg : K → M → M → M} {st : Store K M} {root H : Nat} {lv : Nat → List (K × Nat)}
    (S : Skel st root H lv) (L : Leaves st H (lv 0)) {A B : List (K × Nat)} {k b : K} {a : Nat} {m : M}
    (e : lv 0 = A ++ (b, a) :: B) (hb : b ≤ k) (hB : ∀ q ∈ B, k < q.1) {es : List (K × M)} {s : Spec M}
    (hes : leafOf st a = some es) (hs : mkSpec mrg es k m = some s) :
    Skel (putBody st a (.leaf (apply es k s))) root H lv ∧
    Leaves (putBody st a (.leaf (apply es k s))) H (lv 0) ∧
    Put mrg k m ((lv 0).flatMap fun q => cont st q.2)
      ((lv 0).flatMap fun q => cont (putBody st a (.leaf (apply es k s))) q.2) := by
  have hm : (b, a) ∈ lv 0 := by rw [e]; simp
  obtain ⟨l1, l2, l3⟩ := S.leaf_split L e (fun _ => hb) hB
  obtain ⟨n, es', e1, e2, e3, e4, e5, e6⟩ := (S.page 0 (Nat.zero_le _) _ hm).leaf
  simp only at e1 e4 e5 e6
  rw [hes] at e4
  obtain rfl : es = es' := by injection e4
  have hso := L.sorted
  rw [e, List.flatMap_append, List.flatMap_cons, e5, List.pairwise_append, List.pairwise_append] at hso
  obtain ⟨s', X, Y, h1, hX, hY, hF⟩ := mkSpec_spec (mrg := mrg) (m := m) (k := k) hso.2.1.1
  rw [hs] at h1
  obtain rfl : s = s' := by injection h1
  have hap := hF.apply
  have hput := hF.put hX hY
  rw [hap]
  obtain ⟨st', hst'⟩ : ∃ st', st' = putBody st a (.leaf (X ++ (k, s.msg) :: Y)) := ⟨_, rfl⟩
  rw [← hst']
  have hself : st' a = some { n with body := .leaf (X ++ (k, s.msg) :: Y) } := by
    rw [hst']; exact putBody_self e1
  have hne : ∀ x, x ≠ a → st' x = st x := fun x hx => by rw [hst']; exact putBody_ne hx
  have hcore : ∀ x, x ≠ a → (st' x).map core = (st x).map core := fun x hx => by rw [hne x hx]
  have hla : leafOf st' a = some (X ++ (k, s.msg) :: Y) := leafOf_eq hself rfl
  have hca : cont st' a = X ++ (k, s.msg) :: Y := by simp [cont, hla]
  have hpa : Page st' 0 a := ⟨_, hself, e2, .inl ⟨rfl, _, rfl⟩⟩
  have hfa : firstKey st' a = (X ++ (k, s.msg) :: Y).head?.map (·.1) := by
    obtain ⟨_, _, _, _, _, f4, _, f6⟩ := hpa.leaf
    rw [hla] at f4
    cases f4
    exact f6
  have hna : ∀ g ≤ H, ∀ q ∈ lv g, q.2 = a → g = 0 := by
    intro g hg q hq h
    exact S.level hg (Nat.zero_le _) (a := a) (h ▸ List.mem_map_of_mem hq) (List.mem_map_of_mem (f := (·.2)) hm)
  have hnd := S.nodup 0 (Nat.zero_le _)
  have hAB : ∀ q ∈ A ++ B, q.2 ≠ a := by
    rw [e, List.map_append, List.map_cons, List.nodup_append, List.nodup_cons] at hnd
    intro q hq h
    rcases List.mem_append.1 hq with hq | hq
    · exact hnd.2.2 q.2 (List.mem_map_of_mem hq) a List.mem_cons_self h
    · exact hnd.2.1.1 (List.mem_map.2 ⟨q, hq, h⟩)
  have hitems : ((lv 0).flatMap fun q => cont st' q.2) =
      (A.flatMap fun q => cont st q.2) ++ ((X ++ (k, s.msg) :: Y) ++ B.flatMap fun q => cont st q.2) := by
    rw [e, List.flatMap_append, List.flatMap_cons, hca]
    rw [flatMap_same (l := A) fun q hq => (same_kids (hcore q.2 (hAB q (by simp [hq])))).2.1,
      flatMap_same (l := B) fun q hq => (same_kids (hcore q.2 (hAB q (by simp [hq])))).2.1]
  have hitems0 : ((lv 0).flatMap fun q => cont st q.2) =
      (A.flatMap fun q => cont st q.2) ++ (es ++ B.flatMap fun q => cont st q.2) := by
    rw [e, List.flatMap_append, List.flatMap_cons, e5]
  have hP : Put mrg k m ((lv 0).flatMap fun q => cont st q.2) ((lv 0).flatMap fun q => cont st' q.2) := by
    rw [hitems, hitems0]
    exact hput.grow l1 l2
  refine ⟨⟨S.top, ?_, ?_, S.nodup, S.nz, S.sorted, ?_⟩, ⟨hP.sorted L.sorted, ?_, ?_⟩, hP⟩
  · intro g hg q hq
    by_cases h : q.2 = a
    · obtain rfl := hna g hg q hq h
      rw [h]; exact hpa
    · exact (same_kids (hcore q.2 h)).2.2.2 g (S.page g hg q hq)
  · intro g hg
    rw [S.kids g hg]
    apply flatMap_same
    intro q hq
    refine (same_kids (hcore q.2 fun h => ?_)).1.symm
    have := hna (g + 1) hg q hq h
    omega
  · intro g hg A' q B' hq f hf
    by_cases h : q.2 = a
    · obtain rfl := hna g hg q (by rw [hq]; simp) h
      have hqe : q = (b, a) ∧ A' = A := by
        have := hq.symm.trans e
        rcases List.append_eq_append_iff.1 this with ⟨C, c1, c2⟩ | ⟨C, c1, c2⟩
        · cases C with
          | nil => simp at c1 c2; exact ⟨c2.1, c1.symm⟩
          | cons z C =>
            simp only [List.cons_append, List.cons.injEq] at c2
            exact absurd h (hAB q (by rw [c1, c2.1]; simp))
        · cases C with
          | nil => simp at c1 c2; exact ⟨c2.1.symm, c1⟩
          | cons z C =>
            simp only [List.cons_append, List.cons.injEq] at c2
            exact absurd h (hAB q (by rw [c2.2]; simp))
      obtain ⟨rfl, rfl⟩ := hqe
      simp only at h ⊢ hf
      rw [hfa] at hf
      have hfX : ∀ x, X.head? = some x → b ≤ x.1 ∧ (A' ≠ [] → b = x.1) := by
        intro x hx
        have : es.head? = some x := by
          cases hF with
          | new e f i v => rw [e, List.head?_append, hx]; rfl
          | old o e f i v => rw [e, List.head?_append, hx]; rfl
        exact S.first 0 (Nat.zero_le _) A' (b, a) B e x.1 (by simp only; rw [e6, this]; simp)
      cases hXh : X.head? with
      | some x =>
        rw [List.head?_append, hXh] at hf
        simp only [Option.some_or, Option.map_some, Option.mem_def, Option.some.injEq] at hf
        subst hf
        exact hfX x hXh
      | none =>
        rw [List.head?_append, hXh] at hf
        simp only [List.head?_cons, Option.none_or, Option.map_some, Option.mem_def,
          Option.some.injEq] at hf
        subst hf
        refine ⟨hb, fun hA => ?_⟩
        obtain ⟨x, hx, hxb⟩ := l3 hA
        rw [e5] at hx
        have hX0 : X = [] := by simpa using hXh
        subst hX0
        cases hF with
        | new e f i v =>
          rw [e, List.nil_append] at hx
          exact absurd (hY x (List.mem_of_head? hx)) (not_lt.2 (hxb ▸ hb))
        | old o e f i v =>
          rw [e, List.nil_append, List.head?_cons] at hx
          cases hx
          exact hxb.symm
    · rw [(same_kids (hcore q.2 h)).2.2.1] at hf
      exact S.first g hg A' q B' hq f hf
  · refine linked_congr (fun x _ => ?_) L.chain
    by_cases h : x = a
    · rw [h, hself, e1]; rfl
    · rw [hne x h]
  · intro hH q hq
    by_cases h : q.2 = a
    · rw [h, hca]; simp
    · rw [(same_kids (hcore q.2 h)).2.1]; exact L.ne hH q hq

end Splinter.BtreeIns
