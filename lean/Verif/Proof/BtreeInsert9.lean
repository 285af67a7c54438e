import Verif.Proof.BtreeInsert8
/-!
What is true of a thread wherever it is, and of one step of it.
-/
namespace Splinter.BtreeIns
open Btree Search

variable {K M : Type} [LinearOrder K] [BoundedOrder K] [Inhabited K]

/-- The leaf of a key. -/
def Lf (st : Store K M) (mrg : K → M → M → M) (lv : Nat → List (K × Nat)) (k : K) (m : M) (c : Nat)
    (s : Spec M) : Prop :=
  (∃ b, b ≤ k ∧ At lv 0 k b c) ∧ mkSpec mrg (cont st c) k m = some s

/-- What an insert knows. -/
def TOk (mrg : K → M → M → M) (st : Store K M) (root H : Nat) (lv : Nat → List (K × Nat)) (k : K) (m : M) :
    Pc M → Prop
  | .rootLeaf s => H = 0 ∧ mkSpec mrg (cont st root) k m = some s
  | .rootIx => H ≠ 0
  | .have p i h => 0 < h ∧ h ≤ H ∧ ∃ c, On st lv h k p i c
  | .at p i c h => 0 < h ∧ h ≤ H ∧ On st lv h k p i c
  | .leaf p i c s => 0 < H ∧ On st lv 1 k p i c ∧ mkSpec mrg (cont st c) k m = some s
  | .ready c s => Lf st mrg lv k m c s
  | .claimP p i c s rb => 0 < H ∧ On st lv 1 k p i c ∧ (rb = false → mkSpec mrg (cont st c) k m = some s)
  | .noChild p i c _ => 0 < H ∧ On st lv 1 k p i c
  | .both p i c s => 0 < H ∧ On st lv 1 k p i c ∧ mkSpec mrg (cont st c) k m = some s
  | .defrag c s => Lf st mrg lv k m c s
  | .lidle | .lk _ _ | .ldone _ _ => False
  | _ => True

/-- What a lookup knows. -/
def LOk (H : Nat) (lv : Nat → List (K × Nat)) (k : K) : Pc M → Prop
  | .lk a h => h ≤ H ∧ ∃ b, At lv h k b a
  | .lidle | .ldone _ _ => True
  | _ => False

/-- A thread is not disturbed by a write of pages it has not read locked. -/
theorem TOk.ext {mrg : K → M → M → M} {st st' : Store K M} {root H H' : Nat} {lv lv' : Nat → List (K × Nat)}
    {k : K} {m : M} {pc : Pc M} {W : List Nat} (T : Whole st root H lv)
    (x : Ext root W st H lv st' H' lv') (hW : ∀ a ∈ pc.reads root, a ∉ W)
    (h : TOk mrg st root H lv k m pc) : TOk mrg st' root H' lv' k m pc := by
  have hnn : ∀ g ≤ H, ∀ b a, At lv g k b a → st a ≠ none := by
    intro g hg b a ha
    obtain ⟨n, e, _⟩ := T.skel.page g hg _ (T.skel.mem ha)
    simp only at e
    rw [e]; simp
  have hon : ∀ {g p i c}, g ≤ H → p ∉ W → On st lv g k p i c → On st' lv' g k p i c := by
    intro g p i c hg hp h1
    refine h1.ext x hg ?_ hp
    obtain ⟨b, _, hat, _⟩ := h1
    exact hnn g hg b p hat
  have hchild : ∀ {p i c}, 0 < H → On st lv 1 k p i c → st c ≠ none := by
    intro p i c hH h1
    obtain ⟨b, _, hat⟩ := h1.child T.skel hH
    exact hnn 0 (by omega) b c hat
  have hm := x.mono
  have hlf : ∀ {c s}, c ∉ W → Lf st mrg lv k m c s → Lf st' mrg lv' k m c s := by
    intro c s hc ⟨⟨b, hb, hat⟩, hs⟩
    obtain ⟨b', hb', hat'⟩ := x.path 0 (by omega) k b c hc hat
    exact ⟨⟨b', hb'.trans hb, hat'⟩, by rw [(x.same c (hnn 0 (by omega) b c hat) hc).2]; exact hs⟩
  cases pc with
  | rootLeaf s =>
    obtain ⟨h0, hs⟩ := h
    have hr : root ∉ W := hW root (by simp [Pc.reads])
    have hHH : H' = H := x.height.resolve_right hr
    refine ⟨by omega, ?_⟩
    rw [(x.same root (hnn H le_rfl _ _ (T.skel.root k)) hr).2]; exact hs
  | rootIx =>
    have : H ≠ 0 := h
    show H' ≠ 0
    omega
  | «have» p i g =>
    obtain ⟨h1, h2, c, h3⟩ := h
    exact ⟨h1, h2.trans hm, c, hon h2 (hW p (by simp [Pc.reads])) h3⟩
  | «at» p i c g =>
    obtain ⟨h1, h2, h3⟩ := h
    exact ⟨h1, h2.trans hm, hon h2 (hW p (by simp [Pc.reads])) h3⟩
  | leaf p i c s =>
    obtain ⟨h1, h2, h3⟩ := h
    refine ⟨by omega, hon h1 (hW p (by simp [Pc.reads])) h2, ?_⟩
    rw [(x.same c (hchild h1 h2) (hW c (by simp [Pc.reads]))).2]; exact h3
  | ready c s => exact hlf (hW c (by simp [Pc.reads])) h
  | claimP p i c s rb =>
    obtain ⟨h1, h2, h3⟩ := h
    refine ⟨by omega, hon h1 (hW p (by simp [Pc.reads])) h2, fun hr => ?_⟩
    rw [(x.same c (hchild h1 h2) (hW c (by simp [Pc.reads]))).2]; exact h3 hr
  | noChild p i c s =>
    obtain ⟨h1, h2⟩ := h
    exact ⟨by omega, hon h1 (hW p (by simp [Pc.reads])) h2⟩
  | both p i c s =>
    obtain ⟨h1, h2, h3⟩ := h
    refine ⟨by omega, hon h1 (hW p (by simp [Pc.reads])) h2, ?_⟩
    rw [(x.same c (hchild h1 h2) (hW c (by simp [Pc.reads]))).2]; exact h3
  | defrag c s => exact hlf (hW c (by simp [Pc.reads])) h
  | _ => exact h

theorem LOk.ext {st st' : Store K M} {root H H' : Nat} {lv lv' : Nat → List (K × Nat)}
    {k : K} {pc : Pc M} {W : List Nat} (x : Ext root W st H lv st' H' lv')
    (hW : ∀ a ∈ pc.reads root, a ∉ W) (h : LOk H lv k pc) : LOk H' lv' k pc := by
  cases pc with
  | lk a g =>
    obtain ⟨h1, b, h2⟩ := h
    obtain ⟨b', _, h3⟩ := x.path g h1 k b a (hW a (by simp [Pc.reads])) h2
    exact ⟨h1.trans x.mono, b', h3⟩
  | _ => exact h

theorem Lf.write {mrg : K → M → M → M} {st : Store K M} {root H c : Nat} {lv : Nat → List (K × Nat)}
    {k : K} {m : M} {s : Spec M} {es : List (K × M)} (T : Whole st root H lv) (h : Lf st mrg lv k m c s)
    (hes : leafOf st c = some es) :
    Whole (putBody st c (.leaf (apply es k s))) root H lv ∧
    Ext root [c] st H lv (putBody st c (.leaf (apply es k s))) H lv ∧
    Put mrg k m (items st lv) (items (putBody st c (.leaf (apply es k s))) lv) := by
  obtain ⟨⟨b, hb, A, B, e, hA, hB⟩, hs⟩ := h
  have hc : cont st c = es := by simp [cont, hes]
  rw [hc] at hs
  obtain ⟨w1, w2, w3⟩ := write_leaf T.skel T.leaves e hb hB hes hs
  refine ⟨⟨w1, w2⟩, ⟨?_, ?_, fun g _ k b a _ h => ⟨b, le_rfl, h⟩, le_rfl, .inl rfl, fun _ h => h,
    fun _ h => .inl (List.mem_map_of_mem h)⟩, w3⟩
  · intro a _ ha
    simp only [List.mem_singleton] at ha
    have := same_kids (st := st) (st' := putBody st c (.leaf (apply es k s))) (a := a) (by rw [putBody_ne ha])
    exact ⟨this.1, this.2.1⟩
  · intro a ha
    by_cases h : a = c
    · obtain ⟨n, hn⟩ := Option.ne_none_iff_exists'.1 ha
      rw [h] at hn ⊢
      rw [putBody_self hn]; simp
    · rw [putBody_ne h]; exact ha

/-- The leaf an insert may change with its next step. -/
def Pc.target (root : Nat) : Pc M → Option Nat
  | .rootLeaf _ => some root
  | .ready c _ | .both _ _ c _ | .defrag c _ => some c
  | _ => none

/-- What one step of an insert leads to. -/
def After (mrg : K → M → M → M) (sole : List Nat → Bool) (st : Store K M) (root now H : Nat)
    (lv : Nat → List (K × Nat)) (k : K) (m : M) (pc : Pc M) (st' : Store K M) (pc' : Pc M) (eff : Bool) : Prop :=
  ∃ H' lv' W, Whole st' root H' lv' ∧ Ext root W st H lv st' H' lv' ∧
    (W = [] ∨ ∃ l, sole l = true ∧ ∀ a ∈ W, a ∈ l) ∧ TOk mrg st' root H' lv' k m pc' ∧
    (eff = true → Put mrg k m (items st lv) (items st' lv') ∧ pc' = .done now) ∧
    (eff = false → items st' lv' = items st lv ∧ ∀ n, pc' ≠ .done n) ∧
    (∀ a ∈ W, a ∈ (lv 0).map (·.2) → pc.target root = some a ∧ (eff = true ∨ H = 0)) ∧
    (eff = true → ∃ t ∈ W, pc.target root = some t ∧ ∃ b ≤ k, At lv 0 k b t)

/-- A step that writes nothing. -/
theorem After.stay {mrg : K → M → M → M} {sole : List Nat → Bool} {st : Store K M} {root now H : Nat}
    {lv : Nat → List (K × Nat)} {k : K} {m : M} {pc pc' : Pc M} (T : Whole st root H lv)
    (h : TOk mrg st root H lv k m pc') (hd : ∀ n, pc' ≠ .done n) :
    After mrg sole st root now H lv k m pc st pc' false :=
  ⟨H, lv, [], T, Ext.refl, .inl rfl, h, by simp, fun _ => ⟨rfl, hd⟩, by simp, by simp⟩

theorem thrStep_spec {mrg : K → M → M → M} {sole : List Nat → Bool} {st st' : Store K M} {root now H : Nat}
    {lv : Nat → List (K × Nat)} {k : K} {m : M} {pc pc' : Pc M} {c : Choice} {eff : Bool}
    (T : Whole st root H lv) (h : TOk mrg st root H lv k m pc)
    (he : thrStep mrg sole st root now k m pc c = some (st', pc', eff)) :
    After mrg sole st root now H lv k m pc st' pc' eff := by
  have S := T.skel
  have hrp := S.page H le_rfl (⊥, root) (by rw [S.top]; simp)
  simp only at hrp
  cases pc with
  | idle =>
    simp only [thrStep, Option.some.injEq, Prod.mk.injEq] at he
    obtain ⟨rfl, rfl, rfl⟩ := he
    exact After.stay T trivial (by simp)
  | root =>
    simp only [thrStep] at he
    split at he
    · cases he
    · rename_i n hn
      obtain ⟨n', e1, e2, e3⟩ := id hrp
      rw [hn] at e1
      obtain rfl : n = n' := by injection e1
      split at he
      · rename_i h0
        have hH : H = 0 := by omega
        split at he
        · cases he
        · rename_i s hs
          split at he
          · simp only [Option.some.injEq, Prod.mk.injEq] at he
            obtain ⟨rfl, rfl, rfl⟩ := he
            exact After.stay T trivial (by simp)
          · simp only [Option.some.injEq, Prod.mk.injEq] at he
            obtain ⟨rfl, rfl, rfl⟩ := he
            refine After.stay T ⟨hH, ?_⟩ (by simp)
            obtain ⟨es, h1, h2⟩ := Option.bind_eq_some_iff.1 hs
            simpa [cont, h1] using h2
      · simp only [Option.some.injEq, Prod.mk.injEq] at he
        obtain ⟨rfl, rfl, rfl⟩ := he
        exact After.stay T (show H ≠ 0 by omega) (by simp)
  | rootLeaf s =>
    obtain ⟨hH, hs⟩ := h
    subst hH
    simp only [thrStep] at he
    split at he
    · simp only [Option.some.injEq, Prod.mk.injEq] at he
      obtain ⟨rfl, rfl, rfl⟩ := he
      exact After.stay T trivial (by simp)
    · split at he
      · cases he
      · rename_i hsole
        simp only [Bool.not_eq_true', Bool.not_eq_false] at hsole
        split at he
        · split at he
          · cases he
          · rename_i es hes
            simp only [Option.some.injEq, Prod.mk.injEq] at he
            obtain ⟨rfl, rfl, rfl⟩ := he
            obtain ⟨w1, w2, w3⟩ := Lf.write (mrg := mrg) (s := s) (m := m) T ⟨⟨⊥, bot_le, S.root k⟩, hs⟩ hes
            exact ⟨0, lv, [root], w1, w2, .inr ⟨[root], hsole, fun _ h => h⟩, trivial, fun _ => ⟨w3, rfl⟩, by simp,
              by simp [Pc.target], fun _ => ⟨root, by simp, rfl, ⊥, bot_le, S.root k⟩⟩
        · obtain ⟨st1, h1, h2⟩ := Option.map_eq_some_iff.1 he
          simp only [Prod.mk.injEq] at h2
          obtain ⟨rfl, rfl, rfl⟩ := h2
          obtain ⟨lv2, f2, W2, X2, I2, _⟩ := growRoot_spec T h1
          exact ⟨_, lv2, [root], W2, X2, .inr ⟨[root], hsole, fun _ h => h⟩, by simp [TOk], by simp,
            fun _ => ⟨I2, by simp⟩, by simp [Pc.target], by simp⟩
  | rootIx =>
    have hH : H ≠ 0 := h
    obtain ⟨H0, rfl⟩ : ∃ H0, H = H0 + 1 := ⟨H - 1, by omega⟩
    simp only [thrStep] at he
    split at he
    · rename_i n es hn hes
      split at he
      · split at he
        · simp only [Option.some.injEq, Prod.mk.injEq] at he
          obtain ⟨rfl, rfl, rfl⟩ := he
          exact After.stay T trivial (by simp)
        · split at he
          · cases he
          · rename_i hsole
            simp only [Bool.not_eq_true', Bool.not_eq_false] at hsole
            split at he
            · cases he
            · rename_i st1 j hfix
              split at he
              · cases he
              · rename_i n' hn'
                simp only [Option.some.injEq, Prod.mk.injEq] at he
                obtain ⟨rfl, rfl, rfl⟩ := he
                obtain ⟨H', lv', ch, W1, X1, I1, h0, on1⟩ := fixRoot_spec T hH hes hfix
                refine ⟨H', lv', [root], W1, X1, .inr ⟨[root], hsole, fun _ h => h⟩, ?_, by simp,
                  fun _ => ⟨I1, by simp⟩, ?_, by simp⟩
                swap
                · intro a ha hm
                  rw [List.mem_singleton] at ha
                  rw [ha] at hm
                  have := S.level (Nat.zero_le _) le_rfl hm (List.mem_map.2 ⟨(⊥, root), by rw [S.top]; simp, rfl⟩)
                  omega
                have : n'.height = H' := by
                  obtain ⟨x, e1, e2, _⟩ := W1.skel.page H' le_rfl (⊥, root) (by rw [W1.skel.top]; simp)
                  simp only at e1
                  rw [hn'] at e1
                  cases e1
                  exact e2
                rw [this]
                exact ⟨h0, le_rfl, ch, on1⟩
      · rename_i hcond
        simp only [Option.some.injEq, Prod.mk.injEq] at he
        obtain ⟨rfl, rfl, rfl⟩ := he
        refine After.stay T ?_ (by simp)
        have hnH : n.height = H0 + 1 := by
          obtain ⟨x, e1, e2, _⟩ := hrp
          rw [hn] at e1
          cases e1
          exact e2
        rw [hnH]
        refine ⟨by omega, le_rfl, ?_⟩
        obtain ⟨_, _, hf⟩ := find_kids S (Nat.lt_succ_self H0) (S.root k) hes
        rcases hf with ⟨hneg, _⟩ | ⟨_, E1, f, ch, E2, ek, ei, hf, _, hE2⟩
        · exact absurd (.inl hneg) hcond
        · exact ⟨ch, ⊥, bot_le, S.root k, E1, f, E2, ek, ei, hf, hE2⟩
    · cases he
  | «have» p i g =>
    obtain ⟨h1, h2, ch, hon⟩ := h
    simp only [thrStep] at he
    split at he
    · cases he
    · rename_i e hx
      simp only [Option.some.injEq, Prod.mk.injEq] at he
      obtain ⟨rfl, rfl, rfl⟩ := he
      refine After.stay T ⟨h1, h2, ?_⟩ (by simp)
      obtain ⟨b, hb, hat, E1, f, E2, ek, ei, hf, hE2⟩ := hon
      obtain ⟨es, g1, g2⟩ := Option.bind_eq_some_iff.1 hx
      have : e.child = ch := by
        have : (kids st p)[i]? = some (e.key, e.child) := by
          simp [kids, g1, g2]
        rw [ek, List.getElem?_append_right (by omega), show i - E1.length = 0 by omega] at this
        simp at this
        exact this.2.symm
      rw [this]
      exact ⟨b, hb, hat, E1, f, E2, ek, ei, hf, hE2⟩
  | «at» p i ch g =>
    obtain ⟨h1, h2, hon⟩ := h
    simp only [thrStep] at he
    split at he
    · rename_i hg
      obtain ⟨g', rfl⟩ : ∃ g', g = g' + 2 := ⟨g - 2, by omega⟩
      split at he
      · cases he
      · rename_i es hes
        split at he
        · split at he
          · simp only [Option.some.injEq, Prod.mk.injEq] at he
            obtain ⟨rfl, rfl, rfl⟩ := he
            exact After.stay T trivial (by simp)
          · split at he
            · cases he
            · rename_i hsole
              simp only [Bool.not_eq_true', Bool.not_eq_false] at hsole
              obtain ⟨⟨st1, q, j2⟩, hfix, h3⟩ := Option.map_eq_some_iff.1 he
              simp only [Prod.mk.injEq] at h3
              obtain ⟨rfl, rfl, rfl⟩ := h3
              obtain ⟨lv', d, W1, X1, I1, on1⟩ := fixChild_spec T h2 hon hes hfix
              obtain ⟨bc, _, hch⟩ := hon.child S (h := g' + 1) (by omega)
              obtain ⟨bp, _, hp, _⟩ := hon
              refine ⟨H, lv', [p, ch], W1, X1, .inr ⟨_, hsole, fun _ h => h⟩, ?_, by simp,
                fun _ => ⟨I1, by simp⟩, ?_, by simp⟩
              swap
              · intro a ha hm
                simp only [List.mem_cons, List.not_mem_nil, or_false] at ha
                rcases ha with rfl | rfl
                · have := S.level (Nat.zero_le _) h2 hm (List.mem_map.2 ⟨_, S.mem hp, rfl⟩)
                  omega
                · have := S.level (Nat.zero_le _) (by omega : g' + 1 ≤ H) hm (List.mem_map.2 ⟨_, S.mem hch, rfl⟩)
                  omega
              exact ⟨by omega, by omega, d, on1⟩
        · rename_i hcond
          simp only [Option.some.injEq, Prod.mk.injEq] at he
          obtain ⟨rfl, rfl, rfl⟩ := he
          refine After.stay T ⟨by omega, by omega, ?_⟩ (by simp)
          obtain ⟨b, hb, hat⟩ := hon.child S (h := g' + 1) (by omega)
          obtain ⟨_, _, hf⟩ := find_kids S (by omega : g' < H) hat hes
          rcases hf with ⟨hneg, _⟩ | ⟨_, E1, f, d, E2, ek, ei, hf, _, hE2⟩
          · exact absurd (.inl hneg) hcond
          · exact ⟨d, b, hb, hat, E1, f, E2, ek, ei, hf, hE2⟩
    · obtain rfl : g = 1 := by omega
      split at he
      · cases he
      · rename_i s hs
        split at he
        · simp only [Option.some.injEq, Prod.mk.injEq] at he
          obtain ⟨rfl, rfl, rfl⟩ := he
          exact After.stay T trivial (by simp)
        · simp only [Option.some.injEq, Prod.mk.injEq] at he
          obtain ⟨rfl, rfl, rfl⟩ := he
          refine After.stay T ⟨h2, hon, ?_⟩ (by simp)
          obtain ⟨es, h1, h2⟩ := Option.bind_eq_some_iff.1 hs
          simpa [cont, h1] using h2
  | leaf p i ch s =>
    obtain ⟨h1, h2, h3⟩ := h
    simp only [thrStep] at he
    split at he
    · simp only [Option.some.injEq, Prod.mk.injEq] at he
      obtain ⟨rfl, rfl, rfl⟩ := he
      exact After.stay T ⟨h2.child S h1, h3⟩ (by simp)
    · split at he
      · simp only [Option.some.injEq, Prod.mk.injEq] at he
        obtain ⟨rfl, rfl, rfl⟩ := he
        exact After.stay T trivial (by simp)
      · simp only [Option.some.injEq, Prod.mk.injEq] at he
        obtain ⟨rfl, rfl, rfl⟩ := he
        exact After.stay T ⟨h1, h2, fun _ => h3⟩ (by simp)
  | ready ch s =>
    simp only [thrStep] at he
    split at he
    · simp only [Option.some.injEq, Prod.mk.injEq] at he
      obtain ⟨rfl, rfl, rfl⟩ := he
      exact After.stay T trivial (by simp)
    · split at he
      · cases he
      · rename_i hsole
        simp only [Bool.not_eq_true', Bool.not_eq_false] at hsole
        split at he
        · cases he
        · rename_i es hes
          simp only [Option.some.injEq, Prod.mk.injEq] at he
          obtain ⟨rfl, rfl, rfl⟩ := he
          obtain ⟨w1, w2, w3⟩ := Lf.write T h hes
          exact ⟨H, lv, [ch], w1, w2, .inr ⟨[ch], hsole, fun _ h => h⟩, trivial, fun _ => ⟨w3, rfl⟩, by simp,
            by simp [Pc.target], fun _ => ⟨ch, by simp, rfl, h.1⟩⟩
  | claimP p i ch s rb =>
    obtain ⟨h1, h2, h3⟩ := h
    simp only [thrStep] at he
    split at he
    · simp only [Option.some.injEq, Prod.mk.injEq] at he
      obtain ⟨rfl, rfl, rfl⟩ := he
      exact After.stay T ⟨h1, h2⟩ (by simp)
    · split at he
      · split at he
        · cases he
        · rename_i s' hs
          split at he
          · simp only [Option.some.injEq, Prod.mk.injEq] at he
            obtain ⟨rfl, rfl, rfl⟩ := he
            exact After.stay T trivial (by simp)
          · simp only [Option.some.injEq, Prod.mk.injEq] at he
            obtain ⟨rfl, rfl, rfl⟩ := he
            refine After.stay T ⟨h1, h2, ?_⟩ (by simp)
            obtain ⟨es, g1, g2⟩ := Option.bind_eq_some_iff.1 hs
            simpa [cont, g1] using g2
      · rename_i hrb
        simp only [Option.some.injEq, Prod.mk.injEq] at he
        obtain ⟨rfl, rfl, rfl⟩ := he
        exact After.stay T ⟨h1, h2, h3 (by simpa using hrb)⟩ (by simp)
  | noChild p i ch s =>
    obtain ⟨h1, h2⟩ := h
    simp only [thrStep, Option.some.injEq, Prod.mk.injEq] at he
    obtain ⟨rfl, rfl, rfl⟩ := he
    exact After.stay T ⟨h1, h2, by simp⟩ (by simp)
  | both p i ch s =>
    obtain ⟨h1, h2, h3⟩ := h
    simp only [thrStep] at he
    split at he
    · simp only [Option.some.injEq, Prod.mk.injEq] at he
      obtain ⟨rfl, rfl, rfl⟩ := he
      exact After.stay T ⟨h2.child S h1, h3⟩ (by simp)
    · split at he
      · simp only [Option.some.injEq, Prod.mk.injEq] at he
        obtain ⟨rfl, rfl, rfl⟩ := he
        exact After.stay T trivial (by simp)
      · split at he
        · cases he
        · rename_i n hn
          by_cases hsole : sole (p :: ch :: if n.next = 0 then [] else [n.next]) = true
          swap
          · simp [hsole] at he
          · simp only [hsole, Bool.not_true, Bool.false_eq_true, if_false] at he
            obtain ⟨st1, hsp, h4⟩ := Option.map_eq_some_iff.1 he
            simp only [Prod.mk.injEq] at h4
            obtain ⟨rfl, rfl, rfl⟩ := h4
            obtain ⟨pb, hpb, ⟨PA, PB, ep, hPA, hPB⟩, E1, f, E2, ek, hi, hf, hE2⟩ := h2
            have hat : At lv 0 k f ch := S.down h1 ⟨PA, PB, ep, hPA, hPB⟩ ek (fun _ => hf) hE2
            obtain ⟨_, es, _, _, _, e4, e5, _⟩ := (S.page 0 (Nat.zero_le _) _ (S.mem hat)).leaf
            simp only at e4 e5
            rw [e5] at h3
            obtain ⟨lv', W1, X1, P1⟩ := splitLeaf_spec T h1 ep ek hi hat hf e4 h3 hsp
            refine ⟨H, lv', [p, ch], W1, X1, .inr ⟨_, hsole, by simp⟩, trivial, fun _ => ⟨P1, rfl⟩, by simp, ?_,
              fun _ => ⟨ch, by simp, rfl, f, hf, hat⟩⟩
            intro a ha hm
            simp only [List.mem_cons, List.not_mem_nil, or_false] at ha
            rcases ha with rfl | rfl
            · have := S.level (Nat.zero_le _) h1 hm (List.mem_map.2 ⟨(pb, a), by rw [ep]; simp, rfl⟩)
              omega
            · exact ⟨rfl, .inl rfl⟩
  | defrag ch s =>
    simp only [thrStep] at he
    split at he
    · cases he
    · rename_i hsole
      simp only [Bool.not_eq_true', Bool.not_eq_false] at hsole
      split at he
      · cases he
      · rename_i es hes
        simp only [Option.some.injEq, Prod.mk.injEq] at he
        obtain ⟨rfl, rfl, rfl⟩ := he
        obtain ⟨w1, w2, w3⟩ := Lf.write T h hes
        exact ⟨H, lv, [ch], w1, w2, .inr ⟨[ch], hsole, fun _ h => h⟩, trivial, fun _ => ⟨w3, rfl⟩, by simp,
          by simp [Pc.target], fun _ => ⟨ch, by simp, rfl, h.1⟩⟩
  | _ => simp [thrStep] at he

/-- One step of a lookup. -/
theorem lookStep_spec {st : Store K M} {root now H : Nat} {lv : Nat → List (K × Nat)} {k : K} {pc pc' : Pc M}
    (T : Whole st root H lv) (h : LOk H lv k pc) (he : lookStep st root now k pc = some pc') :
    (LOk H lv k pc' ∧ (∀ n, pc' ≠ .done n) ∧ ∀ r n, pc' ≠ .ldone r n) ∨
      ∃ r, pc' = .ldone r now ∧ ∀ v, r = some v ↔ (k, v) ∈ items st lv := by
  have S := T.skel
  unfold lookStep at he
  split at he
  · split at he
    · cases he
    · rename_i n hn
      simp only [Option.some.injEq] at he
      subst he
      left
      refine ⟨⟨?_, ⊥, ?_⟩, by simp, by simp⟩
      all_goals
        obtain ⟨x, e1, e2, _⟩ := S.page H le_rfl (⊥, root) (by rw [S.top]; simp)
        simp only at e1
        rw [hn] at e1
        cases e1
        rw [e2]
      exact S.root k
  · rename_i a g
    obtain ⟨h1, b, hat⟩ := h
    split at he
    · cases he
    · rename_i es hes
      obtain ⟨e, he1, rfl⟩ := Option.map_eq_some_iff.1 he
      left
      refine ⟨⟨by omega, ?_⟩, by simp, by simp⟩
      obtain ⟨hk, hne, hf⟩ := find_kids S (by omega : g < H) hat hes
      have hs : (es.map (·.key)).Pairwise (· < ·) := by
        have hs := S.sorted g (by omega)
        obtain ⟨A, B, e, _⟩ := hat
        rw [S.kids g (by omega), e, List.flatMap_append, List.flatMap_cons, List.pairwise_append,
          List.pairwise_append, hk] at hs
        have := hs.2.1.1
        rw [List.pairwise_map] at this ⊢
        exact this
      obtain ⟨A', x, B', f1, f2, f3, f4⟩ := childIdx_split (t := k) hs (by rintro rfl; simp [hk] at hne)
      have hx : es[childIdx es k]? = some x := by rw [f2, f1]; simp
      rw [he1] at hx
      cases hx
      have hd := S.down (c := e.child) (b' := e.key) (by omega : g < H) hat (A' := A'.map fun e => (e.key, e.child))
        (B' := B'.map fun e => (e.key, e.child)) (by rw [hk, f1]; simp) (by simpa using f3)
        (by intro q hq; obtain ⟨y, hy, rfl⟩ := List.mem_map.1 hq; exact f4 y hy)
      exact ⟨_, hd⟩
  · rename_i a
    obtain ⟨h1, b, A, B, e, hA, hB⟩ := h
    right
    split at he
    · cases he
    · rename_i es hes
      obtain ⟨l1, l2, _⟩ := S.leaf_split T.leaves e hA hB
      have hc : cont st a = es := by simp [cont, hes]
      have hit : items st lv = A.flatMap (fun q => cont st q.2) ++ (es ++ B.flatMap fun q => cont st q.2) := by
        unfold items
        rw [e, List.flatMap_append, List.flatMap_cons, hc]
      have hmem : ∀ v, (k, v) ∈ items st lv ↔ (k, v) ∈ es := by
        intro v
        rw [hit, List.mem_append, List.mem_append]
        constructor
        · rintro (h | h | h)
          · exact absurd (l1 _ h) (lt_irrefl _)
          · exact h
          · exact absurd (l2 _ h) (lt_irrefl _)
        · exact fun h => .inr (.inl h)
      have hso := T.leaves.sorted
      rw [e, List.flatMap_append, List.flatMap_cons, hc, List.pairwise_append, List.pairwise_append] at hso
      have hs := hso.2.1.1
      have hks : (es.map (·.1)).Pairwise (· < ·) := by rw [List.pairwise_map]; exact hs
      obtain ⟨c, c1, c2, c3, c4, c5, c6⟩ := find_split (t := k) hks
      rw [List.length_map] at c2
      by_cases hf : (btreeFind (es.map (·.1)) k).2 = true
      · simp only [hf, if_true] at he
        obtain ⟨y, hy, rfl⟩ := Option.map_eq_some_iff.1 he
        refine ⟨_, rfl, fun v => ?_⟩
        obtain ⟨c0, hc0⟩ := c5.1 hf
        rw [show (btreeFind (es.map (·.1)) k).1.toNat = c - 1 by omega] at hy
        rw [List.getElem?_map, hy] at hc0
        simp only [Option.map_some, Option.some.injEq] at hc0
        have hym : y ∈ es := List.mem_of_getElem? hy
        rw [hmem, Option.some.injEq]
        constructor
        · rintro rfl; rw [← hc0]; exact hym
        · intro hv
          have huniq : ∀ x ∈ es, ∀ z ∈ es, x.1 = z.1 → x = z := by
            intro x hx z hz hxz
            obtain ⟨i, hi, rfl⟩ := List.mem_iff_getElem.1 hx
            obtain ⟨j, hj, rfl⟩ := List.mem_iff_getElem.1 hz
            rw [List.pairwise_iff_getElem] at hs
            rcases lt_trichotomy i j with h | h | h
            · have := hs i j hi hj h; rw [hxz] at this; exact absurd this (lt_irrefl _)
            · subst h; rfl
            · have := hs j i hj hi h; rw [hxz] at this; exact absurd this (lt_irrefl _)
          have := huniq y hym (k, v) hv hc0
          rw [this]
      · simp only [hf, Bool.false_eq_true, if_false, Option.some.injEq] at he
        subst he
        refine ⟨none, rfl, fun v => ?_⟩
        rw [hmem]
        constructor
        · intro h; cases h
        · intro hv
          exact absurd (c6.2 (List.mem_map.2 ⟨_, hv, rfl⟩)) hf
  · cases he

end Splinter.BtreeIns
