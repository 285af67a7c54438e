import Verif.Props.BtreeInsert
/-!
Calls can finish. A lookup never waits for a writer to finish more than its step, and
needs as many steps as the tree is high; an insert can finish by itself from wherever the
other calls have left the tree.
-/
namespace Splinter.BtreeIns
open Btree Search

variable {K M : Type} [LinearOrder K] [BoundedOrder K] [Inhabited K]

/-- A lookup on page `a` of height `h` goes on, whatever the other calls do: to a page of
height `h - 1`, or, at height 0, to its end. It never starts over. -/
theorem lookup_goes_on {mrg : K → M → M → M} {root : Nat} (hr : root ≠ 0) {s : Sys K M}
    (h : Reachable mrg root s) {t : Nat} {x : Thr K M} (hx : s.thr[t]? = some x) (hm : x.msg = none)
    (c : Choice) :
    (x.pc = .lidle → ∃ s' n, s.st root = some n ∧ step mrg root s (.go t c) = some s' ∧
      s'.thr[t]? = some { x with pc := .lk root n.height }) ∧
    (∀ a g, x.pc = .lk a (g + 1) → ∃ s' b, step mrg root s (.go t c) = some s' ∧
      s'.thr[t]? = some { x with pc := .lk b g }) ∧
    (∀ a, x.pc = .lk a 0 → ∃ s' r, step mrg root s (.go t c) = some s' ∧
      s'.thr[t]? = some { x with pc := .ldone r s.hist.length }) ∧
    ((∃ a g, x.pc = .lk a g) ∨ x.pc = .lidle ∨ ∃ r n, x.pc = .ldone r n) := by
  obtain ⟨⟨H, lv, ⟨S, L⟩, hk, _⟩, _⟩ := reachable_inv hr h
  have ht := (List.getElem?_eq_some_iff.1 hx).1
  have hlk := hk x (List.mem_of_getElem? hx)
  unfold Know at hlk
  simp only [hm] at hlk
  have go : ∀ pc', lookStep s.st root s.hist.length x.key x.pc = some pc' →
      ∃ s', step mrg root s (.go t c) = some s' ∧ s'.thr[t]? = some { x with pc := pc' } := by
    intro pc' h
    refine ⟨{ s with thr := s.thr.set t { x with pc := pc' } }, by simp [step, hx, hm, h], ?_⟩
    simp [ht]
  refine ⟨?_, ?_, ?_, ?_⟩
  · intro hp
    obtain ⟨n, e1, _⟩ := S.page H le_rfl (⊥, root) (by rw [S.top]; simp)
    obtain ⟨s', h1, h2⟩ := go (.lk root n.height) (by rw [hp]; simp only [lookStep]; rw [e1])
    exact ⟨s', n, e1, h1, h2⟩
  · intro a g hp
    rw [hp] at hlk
    obtain ⟨h1, b, hat⟩ := hlk
    obtain ⟨n, es, e1, e2, e3, e4, e5, e6, e7⟩ := (S.page (g + 1) h1 _ (S.mem hat)).index (by omega)
    simp only at e5
    have hlen : childIdx es x.key < es.length := by
      obtain ⟨hk, hne, hf⟩ := find_kids S (by omega : g < H) hat e5
      have hs : (es.map (·.key)).Pairwise (· < ·) := by
        have hs := S.sorted g (by omega)
        obtain ⟨A, B, e, _⟩ := hat
        rw [S.kids g (by omega), e, List.flatMap_append, List.flatMap_cons, List.pairwise_append,
          List.pairwise_append, hk] at hs
        have := hs.2.1.1
        rw [List.pairwise_map] at this ⊢
        exact this
      obtain ⟨A', y, B', f1, f2, f3, f4⟩ := childIdx_split (t := x.key) hs e4
      rw [f2]
      conv => rhs; rw [f1]
      simp
    obtain ⟨s', q1, q2⟩ := go (.lk es[childIdx es x.key].child g)
      (by rw [hp]; simp only [lookStep, e5, List.getElem?_eq_getElem hlen, Option.map_some])
    exact ⟨s', _, q1, q2⟩
  · intro a hp
    rw [hp] at hlk
    obtain ⟨_, b, A, B, e, hA, hB⟩ := hlk
    obtain ⟨n, es, e1, e2, e3, e4, e5, e6⟩ := (S.page 0 (Nat.zero_le _) (b, a) (by rw [e]; simp)).leaf
    simp only at e4
    by_cases hf : (btreeFind (es.map (·.1)) x.key).2 = true
    · have hso := L.sorted
      simp only at e5
      rw [e, List.flatMap_append, List.flatMap_cons, e5, List.pairwise_append, List.pairwise_append] at hso
      have hs := hso.2.1.1
      have hks : (es.map (·.1)).Pairwise (· < ·) := by rw [List.pairwise_map]; exact hs
      obtain ⟨c, c1, c2, c3, c4, c5, c6⟩ := find_split (t := x.key) hks
      rw [List.length_map] at c2
      obtain ⟨c0, _⟩ := c5.1 hf
      have hlt : (btreeFind (es.map (·.1)) x.key).1.toNat < es.length := by omega
      obtain ⟨s', q1, q2⟩ := go (.ldone (some es[(btreeFind (es.map (·.1)) x.key).1.toNat].2) s.hist.length)
        (by rw [hp]; simp only [lookStep, e4, hf, if_true, List.getElem?_eq_getElem hlt, Option.map_some])
      exact ⟨s', _, q1, q2⟩
    · obtain ⟨s', q1, q2⟩ := go (.ldone none s.hist.length)
        (by rw [hp]; simp only [lookStep, e4, hf, Bool.false_eq_true, if_false])
      exact ⟨s', _, q1, q2⟩
  · cases hp : x.pc <;> rw [hp] at hlk <;> simp_all [LOk]

/-- No call but `t` has a page read locked. -/
def Quiet (root : Nat) (s : Sys K M) (t : Nat) : Prop :=
  ∀ (t' : Nat) (x : Thr K M), t' ≠ t → s.thr[t']? = some x → x.pc.reads root = []

/-- Steps of call `t` alone let its insert take effect, once, and return. -/
def Finishes (mrg : K → M → M → M) (root : Nat) (s : Sys K M) (t : Nat) (x : Thr K M) (m : M) : Prop :=
  ∃ cs : List Choice, ∃ s', run mrg root (cs.map (.go t)) s = some s' ∧
    s'.hist = s.hist ++ [(x.key, m)] ∧ s'.thr = s.thr.set t { x with pc := .done s.hist.length }

omit [BoundedOrder K] [LinearOrder K] [Inhabited K] in
theorem quiet_sole {root : Nat} {s : Sys K M} {t : Nat} (h : Quiet root s t) (l : List Nat) :
    soleReader root s.thr t l = true := by
  unfold soleReader
  rw [List.all_eq_true]
  rintro ⟨x, i⟩ hx
  have := List.mem_zipIdx_iff_getElem?.1 hx
  by_cases hi : i = t
  · simp [hi]
  · have := h i x hi this
    simp [this]

section
variable {mrg : K → M → M → M} {root : Nat} {s : Sys K M} {t : Nat} {x : Thr K M} {m : M} {c : Choice}
  {st' : Store K M} {pc' : Pc M} {sole : List Nat → Bool}

theorem step_go {eff : Bool} (hx : s.thr[t]? = some x) (hm : x.msg = some m)
    (h : thrStep mrg (soleReader root s.thr t) s.st root s.hist.length x.key m x.pc c = some (st', pc', eff)) :
    step mrg root s (.go t c) = some ⟨st', s.thr.set t { x with pc := pc' },
      if eff then s.hist ++ [(x.key, m)] else s.hist⟩ := by
  simp [step, hx, hm, h]

/-- The last step. -/
theorem Finishes.last (hx : s.thr[t]? = some x) (hm : x.msg = some m)
    (h : thrStep mrg (soleReader root s.thr t) s.st root s.hist.length x.key m x.pc c =
      some (st', .done s.hist.length, true)) : Finishes mrg root s t x m :=
  ⟨[c], ⟨st', s.thr.set t { x with pc := .done s.hist.length }, s.hist ++ [(x.key, m)]⟩,
    by simp only [List.map_cons, List.map_nil, run, step_go hx hm h, Option.bind_some, if_true], rfl, rfl⟩

/-- A step before. -/
theorem Finishes.next (hR : Reachable mrg root s) (hq : Quiet root s t) (hx : s.thr[t]? = some x)
    (hm : x.msg = some m)
    (h : thrStep mrg (soleReader root s.thr t) s.st root s.hist.length x.key m x.pc c = some (st', pc', false))
    (ih : ∀ s' : Sys K M, Reachable mrg root s' → Quiet root s' t → s'.thr[t]? = some { x with pc := pc' } →
      Finishes mrg root s' t { x with pc := pc' } m) : Finishes mrg root s t x m := by
  have ht := (List.getElem?_eq_some_iff.1 hx).1
  have hs := step_go hx hm h
  obtain ⟨cs, s', r1, r2, r3⟩ := ih _ (hR.step hs) (by
    intro t' y ht' hy
    simp only [List.getElem?_set_ne (Ne.symm ht')] at hy
    exact hq t' y ht' hy) (by simp [ht])
  refine ⟨c :: cs, s', ?_, r2, ?_⟩
  · simp only [List.map_cons, run, hs, Option.bind_some]
    exact r1
  · rw [r3]; simp
end

/-- Claims succeed, everything fits. -/
def easy : Choice := ⟨true, true, false, true, false, true, 0, false, 0, false⟩

section
variable {mrg : K → M → M → M} {root : Nat} (hr : root ≠ 0)

theorem know_insert {s : Sys K M} {t : Nat} {x : Thr K M} {m : M} (hr : root ≠ 0) (hR : Reachable mrg root s)
    (hx : s.thr[t]? = some x) (hm : x.msg = some m) :
    ∃ H lv, Whole s.st root H lv ∧ TOk mrg s.st root H lv x.key m x.pc := by
  obtain ⟨⟨H, lv, W, hk, _⟩, _⟩ := reachable_inv hr hR
  have := hk x (List.mem_of_getElem? hx)
  unfold Know at this
  simp only [hm] at this
  exact ⟨H, lv, W, this⟩

omit [Inhabited K] in
theorem leaf_of {st : Store K M} {H : Nat} {lv : Nat → List (K × Nat)} {k : K} {c : Nat}
    (W : Whole st root H lv) (h : ∃ b, b ≤ k ∧ At lv 0 k b c) :
    ∃ es, leafOf st c = some es ∧ es.Pairwise fun x y => x.1 < y.1 := by
  obtain ⟨b, _, A, B, e, _⟩ := h
  obtain ⟨_, es, _, _, _, e4, e5, _⟩ := (W.skel.page 0 (Nat.zero_le _) (b, c) (by rw [e]; simp)).leaf
  simp only at e4 e5
  have hso := W.leaves.sorted
  rw [e, List.flatMap_append, List.flatMap_cons, e5, List.pairwise_append, List.pairwise_append] at hso
  exact ⟨es, e4, hso.2.1.1⟩

include hr

theorem fin_write {s : Sys K M} {t : Nat} {x : Thr K M} {m : M} {ch : Nat} {sp : Spec M} (hR : Reachable mrg root s)
    (hq : Quiet root s t) (hx : s.thr[t]? = some x) (hm : x.msg = some m)
    (hp : x.pc = .ready ch sp ∨ x.pc = .defrag ch sp) : Finishes mrg root s t x m := by
  obtain ⟨H, lv, W, ok⟩ := know_insert hr hR hx hm
  have hl : ∃ es, leafOf s.st ch = some es := by
    rcases hp with hp | hp <;>
    · rw [hp] at ok
      obtain ⟨es, h, _⟩ := leaf_of W ok.1
      exact ⟨es, h⟩
  obtain ⟨es, he⟩ := hl
  rcases hp with hp | hp <;>
    exact Finishes.last (c := easy) (st' := putBody s.st ch (.leaf (apply es x.key sp))) hx hm
      (by simp [hp, thrStep, easy, quiet_sole hq, he])

theorem fin_both {s : Sys K M} {t : Nat} {x : Thr K M} {m : M} {p i ch : Nat} {sp : Spec M}
    (hR : Reachable mrg root s) (hq : Quiet root s t) (hx : s.thr[t]? = some x) (hm : x.msg = some m)
    (hp : x.pc = .both p i ch sp) : Finishes mrg root s t x m :=
  Finishes.next (c := easy) (st' := s.st) (pc' := .defrag ch sp) hR hq hx hm (by rw [hp]; simp only [thrStep, easy, if_true])
    fun s' h1 h2 h3 => fin_write hr h1 h2 h3 hm (.inr rfl)

theorem fin_leaf {s : Sys K M} {t : Nat} {x : Thr K M} {m : M} {p i ch : Nat} {sp : Spec M}
    (hR : Reachable mrg root s) (hq : Quiet root s t) (hx : s.thr[t]? = some x) (hm : x.msg = some m)
    (hp : x.pc = .leaf p i ch sp) : Finishes mrg root s t x m :=
  Finishes.next (c := easy) (st' := s.st) (pc' := .ready ch sp) hR hq hx hm (by rw [hp]; simp only [thrStep, easy, if_true])
    fun s' h1 h2 h3 => fin_write hr h1 h2 h3 hm (.inl rfl)

theorem fin_claimP {s : Sys K M} {t : Nat} {x : Thr K M} {m : M} {p i ch : Nat} {sp : Spec M} {rb : Bool}
    (hR : Reachable mrg root s) (hq : Quiet root s t) (hx : s.thr[t]? = some x) (hm : x.msg = some m)
    (hp : x.pc = .claimP p i ch sp rb) : Finishes mrg root s t x m := by
  cases rb with
  | false =>
    exact Finishes.next (c := easy) (st' := s.st) (pc' := .both p i ch sp) hR hq hx hm
      (by rw [hp]; simp only [thrStep, easy, Bool.not_true, Bool.false_eq_true, if_false])
      fun s' h1 h2 h3 => fin_both hr h1 h2 h3 hm rfl
  | true =>
    obtain ⟨H, lv, W, ok⟩ := know_insert hr hR hx hm
    rw [hp] at ok
    obtain ⟨es, he, hs⟩ := leaf_of W (ok.2.1.child W.skel ok.1)
    obtain ⟨sp', _, _, hsp, _⟩ := mkSpec_spec (mrg := mrg) (k := x.key) (m := m) hs
    exact Finishes.next (c := easy) (st' := s.st) (pc' := .both p i ch sp') hR hq hx hm
      (by rw [hp]; simp only [thrStep, easy, he, Option.bind_some, hsp, Bool.not_true, Bool.and_false, Bool.false_eq_true, if_false, if_true])
      fun s' h1 h2 h3 => fin_both hr h1 h2 h3 hm rfl

theorem fin_noChild {s : Sys K M} {t : Nat} {x : Thr K M} {m : M} {p i ch : Nat} {sp : Spec M}
    (hR : Reachable mrg root s) (hq : Quiet root s t) (hx : s.thr[t]? = some x) (hm : x.msg = some m)
    (hp : x.pc = .noChild p i ch sp) : Finishes mrg root s t x m :=
  Finishes.next (c := easy) (st' := s.st) (pc' := .claimP p i ch sp true) hR hq hx hm (by rw [hp]; rfl) fun s' h1 h2 h3 => fin_claimP hr h1 h2 h3 hm rfl

theorem fin_down : ∀ (h : Nat) {s : Sys K M} {t : Nat} {x : Thr K M} {m : M} {p i : Nat},
    Reachable mrg root s → Quiet root s t → s.thr[t]? = some x → x.msg = some m →
    (x.pc = .have p i h ∨ ∃ ch, x.pc = .at p i ch h) → Finishes mrg root s t x m := by
  intro h
  induction h with
  | zero =>
    intro s t x m p i hR hq hx hm hp
    obtain ⟨H, lv, W, ok⟩ := know_insert hr hR hx hm
    rcases hp with hp | ⟨ch, hp⟩ <;>
    · rw [hp] at ok
      exact absurd ok.1 (by omega)
  | succ h ih =>
    have key : ∀ {s : Sys K M} {t : Nat} {x : Thr K M} {m : M} {p i ch : Nat},
        Reachable mrg root s → Quiet root s t → s.thr[t]? = some x → x.msg = some m →
        x.pc = .at p i ch (h + 1) → Finishes mrg root s t x m := by
      intro s t x m p i ch hR hq hx hm hp
      obtain ⟨H, lv, W, ok⟩ := know_insert hr hR hx hm
      rw [hp] at ok
      obtain ⟨_, hH, on⟩ := ok
      obtain ⟨b, hb, hat⟩ := on.child W.skel (by omega)
      cases h with
      | zero =>
        obtain ⟨es, he, hs⟩ := leaf_of W ⟨b, hb, hat⟩
        obtain ⟨sp', _, _, hsp, _⟩ := mkSpec_spec (mrg := mrg) (k := x.key) (m := m) hs
        exact Finishes.next (c := easy) (st' := s.st) (pc' := .leaf p i ch sp') hR hq hx hm
          (by rw [hp]; simp only [thrStep, easy, he, Option.bind_some, hsp, Bool.and_false, Bool.false_eq_true, if_false,
                show ¬ 1 < 0 + 1 by omega])
          fun s' h1 h2 h3 => fin_leaf hr h1 h2 h3 hm rfl
      | succ h =>
        obtain ⟨n, es, e1, e2, e3, e4, e5, e6, e7⟩ := (W.skel.page (h + 1) (by omega) _ (W.skel.mem hat)).index (by omega)
        simp only at e5
        by_cases hj : (btreeFind (es.map (·.key)) x.key).1 < 0
        · cases es with
          | nil => exact absurd rfl e4
          | cons e es =>
            exact Finishes.next (c := easy) (st' := putBody s.st ch (.index ({ e with key := x.key } :: es))) (pc' := .have ch (btreeFind ((e :: es).map (·.key)) x.key).1.toNat (h + 1 + 1 - 1)) hR hq hx hm
              (by rw [hp]; simp only [thrStep, easy, e5, hj, quiet_sole hq, Bool.not_true, Bool.false_eq_true, if_false, true_or, if_true,
                    show 1 < h + 1 + 1 by omega, fixChild, decide_true, Bool.and_false, setMin, and_self, Option.map_some])
              fun s' h1 h2 h3 => ih h1 h2 h3 hm (.inl rfl)
        · exact Finishes.next (c := easy) (st' := s.st) (pc' := .have ch (btreeFind (es.map (·.key)) x.key).1.toNat (h + 1 + 1 - 1)) hR hq hx hm
            (by rw [hp]; simp only [thrStep, easy, e5, hj, Bool.false_eq_true, if_false, or_self, if_true, show 1 < h + 1 + 1 by omega])
            fun s' h1 h2 h3 => ih h1 h2 h3 hm (.inl rfl)
    intro s t x m p i hR hq hx hm hp
    rcases hp with hp | ⟨ch, hp⟩
    · obtain ⟨H, lv, W, ok⟩ := know_insert hr hR hx hm
      rw [hp] at ok
      obtain ⟨_, hH, ch, on⟩ := ok
      obtain ⟨n, es, e1, e2, e3, e4, e5, e6, e7⟩ := (on.page W.skel hH).index (by omega)
      obtain ⟨_, _, _, E1, f, E2, ek, el, _⟩ := on
      rw [e6] at ek
      have hi : i < es.length := by
        have := congrArg List.length ek
        simp at this; omega
      exact Finishes.next (c := easy) (st' := s.st) (pc' := .at p i es[i].child (h + 1)) hR hq hx hm
        (by rw [hp]; simp only [thrStep, e5, Option.bind_some, List.getElem?_eq_getElem hi])
        fun s' h1 h2 h3 => key h1 h2 h3 hm rfl
    · exact key hR hq hx hm hp

theorem fin_rootIx {s : Sys K M} {t : Nat} {x : Thr K M} {m : M} (hR : Reachable mrg root s)
    (hq : Quiet root s t) (hx : s.thr[t]? = some x) (hm : x.msg = some m)
    (hp : x.pc = .rootIx) : Finishes mrg root s t x m := by
  obtain ⟨H, lv, W, ok⟩ := know_insert hr hR hx hm
  rw [hp] at ok
  have hH : H ≠ 0 := ok
  obtain ⟨n, es, e1, e2, e3, e4, e5, e6, e7⟩ :=
    (W.skel.page H le_rfl (⊥, root) (by rw [W.skel.top]; simp)).index hH
  simp only at e1 e5
  by_cases hj : (btreeFind (es.map (·.key)) x.key).1 < 0
  · cases es with
    | nil => exact absurd rfl e4
    | cons e es =>
      exact Finishes.next (c := easy) (st' := putBody s.st root (.index ({ e with key := x.key } :: es)))
        (pc' := .have root 0 n.height) hR hq hx hm
        (by
          rw [hp]
          simp only [thrStep, easy, e1, e5, hj, quiet_sole hq, Bool.not_true, Bool.false_eq_true, if_false, true_or, if_true,
              fixRoot, decide_true, Bool.and_false, setMin, and_self, putBody_self e1]
          simp only [Option.some.injEq, Prod.mk.injEq, Pc.have.injEq, and_true, true_and]
          omega)
        fun s' h1 h2 h3 => fin_down hr _ h1 h2 h3 hm (.inl rfl)
  · exact Finishes.next (c := easy) (st' := s.st) (pc' := .have root (btreeFind (es.map (·.key)) x.key).1.toNat n.height) hR hq hx hm
      (by rw [hp]; simp only [thrStep, easy, e1, e5, hj, Bool.false_eq_true, if_false, or_self])
      fun s' h1 h2 h3 => fin_down hr _ h1 h2 h3 hm (.inl rfl)

theorem fin_rootLeaf {s : Sys K M} {t : Nat} {x : Thr K M} {m : M} {sp : Spec M} (hR : Reachable mrg root s)
    (hq : Quiet root s t) (hx : s.thr[t]? = some x) (hm : x.msg = some m)
    (hp : x.pc = .rootLeaf sp) : Finishes mrg root s t x m := by
  obtain ⟨H, lv, W, ok⟩ := know_insert hr hR hx hm
  rw [hp] at ok
  obtain ⟨rfl, _⟩ := ok
  obtain ⟨n, es, e1, e2, e3, e4, e5, e6⟩ :=
    (W.skel.page 0 le_rfl (⊥, root) (by rw [W.skel.top]; simp)).leaf
  simp only at e4
  exact Finishes.last (c := easy) (st' := putBody s.st root (.leaf (apply es x.key sp))) hx hm
    (by simp [hp, thrStep, easy, quiet_sole hq, e4])

theorem fin_root {s : Sys K M} {t : Nat} {x : Thr K M} {m : M} (hR : Reachable mrg root s)
    (hq : Quiet root s t) (hx : s.thr[t]? = some x) (hm : x.msg = some m)
    (hp : x.pc = .root) : Finishes mrg root s t x m := by
  obtain ⟨H, lv, W, ok⟩ := know_insert hr hR hx hm
  obtain ⟨n, e1, e2, _⟩ := W.skel.page H le_rfl (⊥, root) (by rw [W.skel.top]; simp)
  simp only at e1
  by_cases h0 : n.height = 0
  · obtain rfl : H = 0 := by omega
    obtain ⟨es, he, hs⟩ := leaf_of (k := x.key) W ⟨⊥, bot_le, W.skel.root _⟩
    obtain ⟨sp', _, _, hsp, _⟩ := mkSpec_spec (mrg := mrg) (k := x.key) (m := m) hs
    exact Finishes.next (c := easy) (st' := s.st) (pc' := .rootLeaf sp') hR hq hx hm
      (by rw [hp]; simp only [thrStep, easy, e1, h0, he, Option.bind_some, hsp, Bool.and_false, Bool.false_eq_true, if_false, if_true])
      fun s' h1 h2 h3 => fin_rootLeaf hr h1 h2 h3 hm rfl
  · exact Finishes.next (c := easy) (st' := s.st) (pc' := .rootIx) hR hq hx hm
      (by rw [hp]; simp only [thrStep, e1, h0, if_false])
      fun s' h1 h2 h3 => fin_rootIx hr h1 h2 h3 hm rfl

/-- An insert that has not returned can do so by itself whenever the other calls hold no
page: no tree that inserts can lead to keeps a key out. -/
theorem insert_can_finish {s : Sys K M} {t : Nat} {x : Thr K M} {m : M} (hR : Reachable mrg root s)
    (hq : Quiet root s t) (hx : s.thr[t]? = some x) (hm : x.msg = some m)
    (hd : ∀ n, x.pc ≠ .done n) (hf : x.pc ≠ .failed) : Finishes mrg root s t x m := by
  obtain ⟨H, lv, W, ok⟩ := know_insert hr hR hx hm
  cases hp : x.pc with
  | idle =>
    exact Finishes.next (c := easy) (st' := s.st) (pc' := .root) hR hq hx hm (by rw [hp]; rfl)
      fun s' h1 h2 h3 => fin_root hr h1 h2 h3 hm rfl
  | root => exact fin_root hr hR hq hx hm hp
  | rootLeaf sp => exact fin_rootLeaf hr hR hq hx hm hp
  | rootIx => exact fin_rootIx hr hR hq hx hm hp
  | «have» p i h => exact fin_down hr h hR hq hx hm (.inl hp)
  | «at» p i c h => exact fin_down hr h hR hq hx hm (.inr ⟨c, hp⟩)
  | leaf p i c sp => exact fin_leaf hr hR hq hx hm hp
  | ready c sp => exact fin_write hr hR hq hx hm (.inl hp)
  | claimP p i c sp rb => exact fin_claimP hr hR hq hx hm hp
  | noChild p i c sp => exact fin_noChild hr hR hq hx hm hp
  | both p i c sp => exact fin_both hr hR hq hx hm hp
  | defrag c sp => exact fin_write hr hR hq hx hm (.inr hp)
  | done n => exact absurd hp (hd n)
  | failed => exact absurd hp hf
  | lidle => rw [hp] at ok; exact ok.elim
  | lk a h => rw [hp] at ok; exact ok.elim
  | ldone r n => rw [hp] at ok; exact ok.elim
end

/-- The execution of `Props/BtreeInsert.lean` up to where call 4 has returned. -/
def exActs2 : List (Act (Fin 64) (List Nat)) := exActs.take 31 ++ [.go 4 exC]

set_option maxRecDepth 100000 in
/-- Call 2, an insert, has page 2 and finishes by itself. -/
example : ∃ s s' : Sys (Fin 64) (List Nat), run exMrg 1 exActs2 (create 1) = some s ∧
    s.thr.map (·.pc.reads 1) = [[], [], [2], [], []] ∧ Quiet 1 s 2 ∧
    run exMrg 1 [.go 2 easy] s = some s' ∧ s'.hist = s.hist ++ [(5, [3])] := by
  have h1 : ((run exMrg 1 exActs2 (create 1)).map fun s => s.thr.map (·.pc.reads 1)) =
      some [[], [], [2], [], []] := by decide +kernel
  have h2 : ((run exMrg 1 exActs2 (create 1)).bind fun s => (run exMrg 1 [.go 2 easy] s).map
      fun s' => decide (s'.hist = s.hist ++ [(5, [3])])) = some true := by decide +kernel
  obtain ⟨s, e, h3⟩ := Option.bind_eq_some_iff.1 h2
  obtain ⟨s', e', h4⟩ := Option.map_eq_some_iff.1 h3
  rw [e] at h1
  simp only [Option.map_some, Option.some.injEq] at h1
  refine ⟨s, s', e, h1, ?_, e', of_decide_eq_true h4⟩
  intro t x ht hx
  have : (s.thr.map (·.pc.reads 1))[t]? = some (x.pc.reads 1) := by simp [hx]
  rw [h1] at this
  match t, ht, this with
  | 0, _, h => simpa using h.symm
  | 1, _, h => simpa using h.symm
  | 2, ht, _ => exact absurd rfl ht
  | 3, _, h => simpa using h.symm
  | 4, _, h => simpa using h.symm
  | t + 5, _, h => simp at h

end Splinter.BtreeIns
