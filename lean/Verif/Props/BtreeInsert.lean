import Mathlib.Order.Fin.Basic
import Verif.Proof.BtreeInsertSys
import Verif.Props.BtreeIter
import Verif.Props.LeafSplit
/-!
C13, C41: a tree that any number of threads insert into and look up in.

Specification: `valueOf` of `BtreeInsertSpec.lean`, a function of the inserts in the order
they took effect; `Balanced` and `Later` below.
-/
namespace Splinter.BtreeIns
open Btree Search

variable {K M : Type} [LinearOrder K] [BoundedOrder K] [Inhabited K]

/-- Is `k` in the range from `lo` up to, not including, `hi`? `none` is no bound. -/
def Within (lo : K) (hi : Option K) (k : K) : Prop := lo ≤ k ∧ ∀ u ∈ hi, k < u

/-- A subtree in which every leaf has the same depth, entries are ordered, and every key
is between the separators around it. -/
inductive Balanced (st : Store K M) : Nat → K → Option K → Nat → Prop
  | leaf {lo : K} {hi : Option K} {a : Nat} {n : Node K M} {es : List (K × M)} (e : st a = some n)
      (h : n.height = 0) (b : n.body = .leaf es) (sorted : es.Pairwise fun x y => x.1 < y.1)
      (range : ∀ x ∈ es, Within lo hi x.1) : Balanced st 0 lo hi a
  | node {h : Nat} {lo : K} {hi : Option K} {a : Nat} {n : Node K M} {es : List (Entry K)} (e : st a = some n)
      (hh : n.height = h + 1) (b : n.body = .index es) (ne : es ≠ [])
      (sorted : es.Pairwise fun x y => x.key < y.key) (range : ∀ x ∈ es, Within lo hi x.key)
      (sub : ∀ X x Y, es = X ++ x :: Y → Balanced st h x.key ((Y.head?.map (·.key)).or hi) x.child) :
      Balanced st (h + 1) lo hi a

theorem pages_below {st : Store K M} {root H h : Nat} {lv : Nat → List (K × Nat)} (S : Skel st root H lv)
    (L : Leaves st H (lv 0)) (hh : h ≤ H) {A B : List (K × Nat)} {q r : K × Nat}
    (e : lv h = A ++ q :: r :: B) : firstKey st r.2 = some r.1 := by
  have hr : r ∈ lv h := by rw [e]; simp
  have hf := S.first h hh (A ++ [q]) r B (by rw [e]; simp)
  cases h with
  | zero =>
    have hH : H ≠ 0 := by
      rintro rfl
      have := S.top
      rw [e] at this
      have := congrArg List.length this
      simp at this
      omega
    obtain ⟨n, es, e1, e2, e3, e4, e5, e6⟩ := (S.page 0 (Nat.zero_le _) r hr).leaf
    have hne := L.ne hH r hr
    rw [e5] at hne
    cases es with
    | nil => exact absurd rfl hne
    | cons x es =>
      rw [e6] at hf ⊢
      rw [(hf x.1 (by simp)).2 (by simp)]; rfl
  | succ h =>
    obtain ⟨n, es, e1, e2, e3, e4, e5, e6, e7⟩ := (S.page (h + 1) hh r hr).index (by omega)
    cases es with
    | nil => exact absurd rfl e4
    | cons x es =>
      rw [e7] at hf ⊢
      rw [(hf x.key (by simp)).2 (by simp)]; rfl

theorem balanced_of {st : Store K M} {root H : Nat} {lv : Nat → List (K × Nat)} (S : Skel st root H lv)
    (L : Leaves st H (lv 0)) : ∀ {h : Nat}, h ≤ H → ∀ {A B : List (K × Nat)} {q : K × Nat},
      lv h = A ++ q :: B → Balanced st h q.1 (B.head?.map (·.1)) q.2 := by
  intro h
  induction h with
  | zero =>
    intro hh A B q e
    have hq : q ∈ lv 0 := by rw [e]; simp
    obtain ⟨n, es, e1, e2, e3, e4, e5, e6⟩ := (S.page 0 hh q hq).leaf
    have hs := L.sorted
    rw [e, List.flatMap_append, List.flatMap_cons, List.pairwise_append, List.pairwise_append, e5] at hs
    refine .leaf e1 e2 e3 hs.2.1.1 ?_
    intro x hx
    refine ⟨S.cont_ge L hq x (by rw [e5]; exact hx), ?_⟩
    intro u hu
    cases B with
    | nil => simp at hu
    | cons r B =>
      simp only [List.head?_cons, Option.map_some, Option.mem_def, Option.some.injEq] at hu
      subst hu
      have hf := pages_below S L hh e
      obtain ⟨_, es', _, _, _, _, f5, f6⟩ := (S.page 0 hh r (by rw [e]; simp)).leaf
      rw [f6] at hf
      cases es' with
      | nil => cases hf
      | cons y es' =>
        simp only [List.head?_cons, Option.map_some, Option.some.injEq] at hf
        rw [← hf]
        exact hs.2.1.2.2 x hx y (by rw [List.flatMap_cons, f5]; simp)
  | succ h ih =>
    intro hh A B q e
    have hq : q ∈ lv (h + 1) := by rw [e]; simp
    obtain ⟨n, es, e1, e2, e3, e4, e5, e6, e7⟩ := (S.page (h + 1) hh q hq).index (by omega)
    have hk := S.kids h (by omega)
    rw [e, List.flatMap_append, List.flatMap_cons, e6] at hk
    have hs := S.sorted h (by omega)
    rw [hk, List.pairwise_append, List.pairwise_append, List.pairwise_map] at hs
    have hnext : ∀ r B', B = r :: B' → ∃ es', kids st r.2 = es' ∧ es'.head?.map (·.1) = some r.1 := by
      rintro r B' rfl
      have hf := pages_below S L hh e
      obtain ⟨_, es', _, _, _, _, _, f6, f7⟩ := (S.page (h + 1) hh r (by rw [e]; simp)).index (by omega)
      rw [f7] at hf
      refine ⟨_, rfl, ?_⟩
      rw [f6]
      cases es' with
      | nil => cases hf
      | cons y es' => simpa using hf
    refine .node e1 e2 e3 e4 hs.2.1.1 ?_ ?_
    · intro x hx
      refine ⟨S.kids_ge (by omega) hq (x.key, x.child) (by rw [e6]; exact List.mem_map.2 ⟨x, hx, rfl⟩), ?_⟩
      intro u hu
      cases B with
      | nil => simp at hu
      | cons r B =>
        simp only [List.head?_cons, Option.map_some, Option.mem_def, Option.some.injEq] at hu
        subst hu
        obtain ⟨es', f1, f2⟩ := hnext r B rfl
        cases es' with
        | nil => cases f2
        | cons y es' =>
          simp only [List.head?_cons, Option.map_some, Option.some.injEq] at f2
          rw [← f2]
          exact hs.2.1.2.2 (x.key, x.child) (List.mem_map.2 ⟨x, hx, rfl⟩) y (by rw [List.flatMap_cons, f1]; simp)
    · rintro X x Y rfl
      have := ih (by omega) (A := A.flatMap (fun q => kids st q.2) ++ X.map fun e => (e.key, e.child))
        (q := (x.key, x.child)) (B := Y.map (fun e => (e.key, e.child)) ++ B.flatMap fun q => kids st q.2)
        (by rw [hk]; simp)
      have hhi : ((Y.map (fun e => (e.key, e.child)) ++ B.flatMap fun q => kids st q.2).head?.map (·.1)) =
          ((Y.head?.map (·.key)).or (B.head?.map (·.1))) := by
        cases Y with
        | cons y Y => simp
        | nil =>
          cases B with
          | nil => simp
          | cons r B =>
            obtain ⟨es', f1, f2⟩ := hnext r B rfl
            cases es' with
            | nil => cases f2
            | cons z es' =>
              simp only [List.head?_cons, Option.map_some, Option.some.injEq] at f2
              simp [f1, f2]
      rw [hhi] at this
      exact this

/-- **C13**: whatever calls were made and however far they got, the tree is ordered, all
leaves are at the depth the root says, and every key is between the separators around it.
A lookup that runs by itself returns the merge of the messages inserted for its key; a
scan of a range lists the keys of the range in order, each once, with its value. -/
theorem tree_map {mrg : K → M → M → M} {root : Nat} (hr : root ≠ 0) {s : Sys K M}
    (h : Reachable mrg root s) :
    (∃ n, s.st root = some n ∧ Balanced s.st n.height ⊥ none root) ∧
    (∀ k, lookup s.st root k = some (valueOf mrg k s.hist)) ∧
    ∃ items : List (K × M), items.Pairwise (fun x y => x.1 < y.1) ∧
      (∀ k v, (k, v) ∈ items ↔ valueOf mrg k s.hist = some v) ∧
      ∀ lo hi n, items.length ≤ n → ∃ t, init s.st root lo hi lo .ge = some t ∧
        forward s.st n t = some (items.filter (fun x => decide (lo ≤ x.1) && below (max lo hi) x), true) := by
  obtain ⟨⟨H, lv, ⟨S, L⟩, _, hv⟩, _⟩ := reachable_inv hr h
  have T := S.tree L
  refine ⟨?_, ?_, items s.st lv, L.sorted, hv, ?_⟩
  · obtain ⟨n, e1, e2, _⟩ := S.page H le_rfl (⊥, root) (by rw [S.top]; simp)
    refine ⟨n, e1, ?_⟩
    have := balanced_of S L le_rfl (A := []) (B := []) (q := (⊥, root)) (by rw [S.top]; rfl)
    rw [e2]; exact this
  · intro k
    obtain ⟨LA, b, LB, z, f1, f2, f3, f4, _⟩ := T.find k
    have hb : b ∈ (lv 0).map (·.2) := by rw [f2]; simp
    obtain ⟨q, hq, hqb⟩ := List.mem_map.1 hb
    obtain ⟨_, es, _, _, _, e4, e5, _⟩ := (S.page 0 (Nat.zero_le _) q hq).leaf
    rw [hqb] at e4 e5
    have hflat : items s.st lv = LA.flatMap (cont s.st) ++ (es ++ LB.flatMap (cont s.st)) := by
      have := T.flat
      rw [f2, List.flatMap_append, List.flatMap_cons, e5] at this
      exact this
    have hmem : ∀ v, (k, v) ∈ es ↔ valueOf mrg k s.hist = some v := by
      intro v
      rw [← hv, hflat, List.mem_append, List.mem_append]
      constructor
      · exact fun h => .inr (.inl h)
      · rintro (h | h | h)
        · exact absurd (f3 _ h) (lt_irrefl _)
        · exact h
        · exact absurd (f4 _ h) (lt_irrefl _)
    have hso := L.sorted
    change (items s.st lv).Pairwise _ at hso
    rw [hflat, List.pairwise_append, List.pairwise_append] at hso
    have hks : (es.map (·.1)).Pairwise (· < ·) := by rw [List.pairwise_map]; exact hso.2.1.1
    obtain ⟨c, c1, c2, c3, c4, c5, c6⟩ := find_split (t := k) hks
    rw [List.length_map] at c2
    simp only [lookup, f1, e4, Option.bind_eq_bind, Option.bind_some]
    by_cases hf : (btreeFind (es.map (·.1)) k).2 = true
    · obtain ⟨c0, hc0⟩ := c5.1 hf
      have hlt : c - 1 < es.length := by omega
      rw [List.getElem?_map, List.getElem?_eq_getElem hlt] at hc0
      simp only [Option.map_some, Option.some.injEq] at hc0
      simp only [hf, if_true, show (btreeFind (es.map (·.1)) k).1.toNat = c - 1 by omega,
        List.getElem?_eq_getElem hlt, Option.bind_some, Option.some.injEq]
      refine ((hmem es[c - 1].2).1 ?_).symm
      rw [← hc0]
      exact List.getElem_mem hlt
    · simp only [hf, Bool.false_eq_true, if_false, Option.some.injEq]
      cases hx : valueOf mrg k s.hist with
      | none => rfl
      | some v => exact absurd (c6.2 (List.mem_map.2 ⟨_, (hmem v).2 hx, rfl⟩)) hf
  · intro lo hi n hn
    obtain ⟨t, h1, h2⟩ := scan_ge T lo hi lo hn
    refine ⟨t, h1, ?_⟩
    rw [h2, max_self, min_eq_left (le_max_left _ _)]
    rfl

/-- **C41**: the inserts that took effect are exactly those of the calls that returned, one
for each; an insert took effect after its call was made; and a lookup returned what its
key was worth at some moment after its call. Together with `tree_map`: no insert is lost
or done twice, whatever splits happen at the same time. -/
theorem insert_exact {mrg : K → M → M → M} {root : Nat} (hr : root ≠ 0) {s : Sys K M}
    (h : Reachable mrg root s) :
    (∀ n < s.hist.length, ∃ t : Nat, (∃ x : Thr K M, s.thr[t]? = some x ∧ x.pc = .done n) ∧
      ∀ (t' : Nat) (x' : Thr K M), s.thr[t']? = some x' → x'.pc = .done n → t' = t) ∧
    (∀ (t : Nat) (x : Thr K M) (n : Nat), s.thr[t]? = some x → x.pc = .done n →
      x.born ≤ n ∧ ∃ m, x.msg = some m ∧ s.hist[n]? = some (x.key, m)) ∧
    (∀ (t : Nat) (x : Thr K M) (r : Option M) (n : Nat), s.thr[t]? = some x → x.pc = .ldone r n →
      x.born ≤ n ∧ n ≤ s.hist.length ∧ r = valueOf mrg x.key (s.hist.take n)) := by
  obtain ⟨_, hfin, _, hall, huniq⟩ := reachable_inv hr h
  refine ⟨?_, ?_, ?_⟩
  · intro n hn
    obtain ⟨t, x, h1, h2⟩ := hall n hn
    exact ⟨t, ⟨x, h1, h2⟩, fun t' x' h3 h4 => huniq t' t x' x n h3 h1 h4 h2⟩
  · intro t x n h1 h2
    have := hfin x (List.mem_of_getElem? h1)
    unfold Ended at this
    simp only [h2] at this
    obtain ⟨m, a, b, c⟩ := this
    exact ⟨c, m, a, b⟩
  · intro t x r n h1 h2
    have := hfin x (List.mem_of_getElem? h1)
    unfold Ended at this
    simp only [h2] at this
    exact this

/-- States after a given one. -/
inductive Later (mrg : K → M → M → M) (root : Nat) (s : Sys K M) : Sys K M → Prop
  | refl : Later mrg root s s
  | step {s1 s2 : Sys K M} {a : Act K M} : Later mrg root s s1 → step mrg root s1 a = some s2 →
      Later mrg root s s2

/-- Effects are never taken back, calls that returned stay as they are, and calls are made
with the number of effects so far. -/
theorem later_keeps {mrg : K → M → M → M} {root : Nat} {s s' : Sys K M} (h : Later mrg root s s') :
    s.hist <+: s'.hist ∧ s.thr.length ≤ s'.thr.length ∧
    (∀ (t : Nat) (x : Thr K M), s.thr[t]? = some x → ((∃ n, x.pc = .done n) ∨ ∃ r n, x.pc = .ldone r n) → s'.thr[t]? = some x) ∧
    (∀ (t : Nat) (x : Thr K M), s.thr.length ≤ t → s'.thr[t]? = some x → s.hist.length ≤ x.born) := by
  induction h with
  | refl =>
    refine ⟨List.prefix_rfl, le_rfl, fun _ _ h _ => h, ?_⟩
    intro t x ht hx
    have := (List.getElem?_eq_some_iff.1 hx).1
    omega
  | @step s1 s2 a _ h ih =>
    obtain ⟨i1, i2, i3, i4⟩ := ih
    have call : ∀ x : Thr K M, x.born = s1.hist.length → s2 = { s1 with thr := s1.thr ++ [x] } →
        s.hist <+: s2.hist ∧ s.thr.length ≤ s2.thr.length ∧
        (∀ (t : Nat) (x : Thr K M), s.thr[t]? = some x → ((∃ n, x.pc = .done n) ∨ ∃ r n, x.pc = .ldone r n) → s2.thr[t]? = some x) ∧
        (∀ (t : Nat) (x : Thr K M), s.thr.length ≤ t → s2.thr[t]? = some x → s.hist.length ≤ x.born) := by
      rintro x hb rfl
      refine ⟨i1, by simp; omega, ?_, ?_⟩
      · intro t y hy hd
        have h1 := i3 t y hy hd
        simp only
        rw [List.getElem?_append_left (List.getElem?_eq_some_iff.1 h1).1]; exact h1
      · intro t y ht hy
        simp only at hy
        rw [List.getElem?_append] at hy
        split at hy
        · exact i4 t y ht hy
        · have := List.mem_of_getElem? hy
          simp only [List.mem_singleton] at this
          subst this
          rw [hb]; exact i1.length_le
    have move : ∀ (t : Nat) (x y : Thr K M) (st : Store K M) (l : List (K × M)), s1.thr[t]? = some x →
        (¬ ((∃ n, x.pc = .done n) ∨ ∃ r n, x.pc = .ldone r n)) → y.born = x.born →
        s2 = ⟨st, s1.thr.set t y, s1.hist ++ l⟩ →
        s.hist <+: s2.hist ∧ s.thr.length ≤ s2.thr.length ∧
        (∀ (t : Nat) (x : Thr K M), s.thr[t]? = some x → ((∃ n, x.pc = .done n) ∨ ∃ r n, x.pc = .ldone r n) → s2.thr[t]? = some x) ∧
        (∀ (t : Nat) (x : Thr K M), s.thr.length ≤ t → s2.thr[t]? = some x → s.hist.length ≤ x.born) := by
      rintro t x y st l hx hd hb rfl
      refine ⟨i1.trans (List.prefix_append _ _), by simpa using i2, ?_, ?_⟩
      · intro t' z hz hdz
        have h1 := i3 t' z hz hdz
        simp only
        rw [List.getElem?_set_ne]
        · exact h1
        · rintro rfl
          rw [hx] at h1
          cases h1
          exact hd hdz
      · intro t' z ht' hz
        simp only [List.getElem?_set] at hz
        split at hz
        · rename_i htt
          subst htt
          split at hz
          · simp only [Option.some.injEq] at hz
            subst hz
            rw [hb]; exact i4 t x ht' hx
          · cases hz
        · exact i4 t' z ht' hz
    cases a with
    | insert k m =>
      simp only [step, Option.some.injEq] at h
      exact call _ rfl h.symm
    | lookup k =>
      simp only [step, Option.some.injEq] at h
      exact call _ rfl h.symm
    | go t c =>
      simp only [step] at h
      split at h
      · cases h
      · rename_i x hx
        split at h
        · rename_i m hm
          split at h
          · cases h
          · rename_i st' pc' eff he
            simp only [Option.some.injEq] at h
            refine move t x { x with pc := pc' } st' (if eff then [(x.key, m)] else []) hx ?_ rfl ?_
            · rintro (⟨n, hn⟩ | ⟨r, n, hn⟩) <;> (rw [hn] at he; simp [thrStep] at he)
            · rw [← h]
              cases eff <;> simp
        · rename_i hm
          split at h
          · cases h
          · rename_i pc' he
            simp only [Option.some.injEq] at h
            refine move t x { x with pc := pc' } s1.st [] hx ?_ rfl ?_
            · rintro (⟨n, hn⟩ | ⟨r, n, hn⟩) <;> (rw [hn] at he; simp [lookStep] at he)
            · rw [← h]; simp

/-- **C41**, order in time: a call made after another one returned takes effect after it.
In particular a lookup made after an insert returned sees that insert. -/
theorem real_time {mrg : K → M → M → M} {root : Nat} (hr : root ≠ 0) {s s' : Sys K M}
    (h : Reachable mrg root s) (hl : Later mrg root s s') {t t' : Nat} {x x' : Thr K M}
    (hx : s.thr[t]? = some x) (ht : s.thr.length ≤ t') (hx' : s'.thr[t']? = some x') :
    (∀ n n', x.pc = .done n → x'.pc = .done n' → n < n') ∧
    (∀ n r' n', x.pc = .done n → x'.pc = .ldone r' n' → n < n') ∧
    (∀ r n n', x.pc = .ldone r n → x'.pc = .done n' → n ≤ n') ∧
    (∀ r n r' n', x.pc = .ldone r n → x'.pc = .ldone r' n' → n ≤ n') := by
  have h' : Reachable mrg root s' := by
    clear hx' ht hx
    induction hl with
    | refl => exact h
    | step _ h2 ih => exact ih.step h2
  obtain ⟨_, e1, e2⟩ := insert_exact hr h
  obtain ⟨_, f1, f2⟩ := insert_exact hr h'
  obtain ⟨_, _, _, hb⟩ := later_keeps hl
  have hb := hb t' x' ht hx'
  refine ⟨?_, ?_, ?_, ?_⟩
  · intro n n' a b
    obtain ⟨_, m, _, g⟩ := e1 t x n hx a
    have := (List.getElem?_eq_some_iff.1 g).1
    have := (f1 t' x' n' hx' b).1
    omega
  · intro n r' n' a b
    obtain ⟨_, m, _, g⟩ := e1 t x n hx a
    have := (List.getElem?_eq_some_iff.1 g).1
    have := (f2 t' x' r' n' hx' b).1
    omega
  · intro r n n' a b
    have := (e2 t x r n hx a).2.1
    have := (f1 t' x' n' hx' b).1
    omega
  · intro r n r' n' a b
    have := (e2 t x r n hx a).2.1
    have := (f2 t' x' r' n' hx' b).1
    omega

/-! ### The plan of a leaf split

`splitLeaf` of the model takes any plan that is `planOk` and leaves neither page empty.
The plan computed on the bytes of a page is one. -/

theorem plan_bounds {ps : Nat} {m : Page.Mem} {s : Page.Spec} (w : Page.WF Page.leafFmt ps m)
    (hs : Page.SpecOk (Page.entries Page.leafFmt m) s)
    (hsmall : ∀ e ∈ s.tup :: Page.entries Page.leafFmt m, Page.HalfPage ps e)
    (htwo : 2 ≤ (Page.newEntries (Page.entries Page.leafFmt m) s).length) :
    ∃ p, 0 < p ∧ p < (Page.newEntries (Page.entries Page.leafFmt m) s).length ∧
      Page.buildPlan m s = (if s.idx < p ∧ s.old ≠ .stillExists then p - 1 else p, decide (s.idx < p)) := by
  have hfit := Page.wts_entries w
  obtain ⟨es, hes⟩ : ∃ es, es = Page.entries Page.leafFmt m := ⟨_, rfl⟩
  obtain ⟨N, hN⟩ : ∃ N, N = Page.newEntries es s := ⟨_, rfl⟩
  have hs' : Page.SpecOk es s := by rw [hes]; exact hs
  have hNe : N = es.take s.idx ++ s.tup :: es.drop (Page.tailFrom s) := hN ▸ Page.newEntries_eq hs'
  have hplan := Page.buildPlan_spec hs
  simp only at hplan
  rw [← hes, ← hN] at hplan htwo
  have hmem : ∀ e ∈ N, 2 * Page.wt e ≤ ps - 37 := by
    intro e he
    refine (hsmall e ?_).wt
    rw [hNe] at he
    rcases List.mem_append.1 he with h | h
    · rw [← hes]; exact List.mem_cons_of_mem _ (List.mem_of_mem_take h)
    · rcases List.mem_cons.1 h with rfl | h
      · exact List.mem_cons_self
      · rw [← hes]; exact List.mem_cons_of_mem _ (List.mem_of_mem_drop h)
  have hsumle : (N.map Page.wt).sum ≤ Page.wts es + Page.wt s.tup := by
    have h1 : (N.map Page.wt).sum = Page.wts (es.take s.idx) + (Page.wt s.tup + Page.wts (es.drop (Page.tailFrom s))) := by
      rw [hNe]; simp [Page.wts]
    have h2 : Page.wts es = Page.wts (es.take s.idx) + Page.wts (es.drop s.idx) := by
      rw [← Page.wts_append, List.take_append_drop]
    have h3 : Page.wts (es.drop (Page.tailFrom s)) ≤ Page.wts (es.drop s.idx) := by
      unfold Page.tailFrom
      split
      · have : es.drop s.idx = (es.drop s.idx).take 1 ++ es.drop (s.idx + 1) := by
          conv => lhs; rw [← List.take_append_drop 1 (es.drop s.idx), List.drop_drop]
        rw [this, Page.wts_append]; omega
      · exact Nat.le_refl _
    omega
  have htup := (hsmall s.tup List.mem_cons_self).wt
  rw [← hes] at hfit
  obtain ⟨b1, b2, _, _⟩ := Page.greedy_bounds (H := ps - 37) (xs := N.map Page.wt)
    (by
      intro x hx
      obtain ⟨e, he, rfl⟩ := List.mem_map.1 hx
      exact ⟨Page.wt_pos e, hmem e he⟩)
    (by omega) (by rw [List.length_map]; exact htwo)
  rw [List.length_map] at b2
  rw [← hes, ← hN]
  exact ⟨_, by omega, b2, hplan⟩

omit [LinearOrder K] [BoundedOrder K] [Inhabited K] in
/-- The plan of `btree_build_leaf_splitting_plan` for any well-formed leaf and any tuple is
one the model's split takes: it is `planOk` and both pages get tuples. -/
theorem plan_ok {ps : Nat} {m : Page.Mem} {s : Page.Spec} (w : Page.WF Page.leafFmt ps m)
    (hs : Page.SpecOk (Page.entries Page.leafFmt m) s)
    (hsmall : ∀ e ∈ s.tup :: Page.entries Page.leafFmt m, Page.HalfPage ps e)
    (htwo : 2 ≤ (Page.newEntries (Page.entries Page.leafFmt m) s).length)
    {es : List (K × M)} (hes : es.length = (Page.entries Page.leafFmt m).length) (k : K) (v : M) :
    let plan := Page.buildPlan m s
    let s' : Spec M := ⟨s.idx, decide (s.old = .stillExists), v⟩
    planOk s' plan.1 plan.2 = true ∧
      ∃ l r piv, splitLeafBodies es k s' plan.1 plan.2 = some (l, r, piv) ∧ l ≠ [] ∧ r ≠ [] := by
  obtain ⟨p, p1, p2, hp⟩ := plan_bounds w hs hsmall htwo
  rw [Page.newEntries_eq hs] at p2
  obtain ⟨n, hn⟩ : ∃ n, n = (Page.entries Page.leafFmt m).length := ⟨_, rfl⟩
  rw [← hn] at hes
  have hidx : s.idx ≤ n := by rw [hn]; exact hs.idx_le
  simp only [List.length_append, List.length_cons, List.length_take, List.length_drop, ← hn] at p2
  simp only [hp]
  have hlen := hs.2
  rw [← hn] at hlen
  rcases hlen with ⟨ho, hlt⟩ | ⟨ho, hle⟩
  · -- the tuple replaces one
    simp only [Page.tailFrom, ho, if_true] at p2
    simp only [ho, ne_eq, not_true, and_false, if_false, decide_true, planOk, if_true]
    by_cases hl : s.idx < p
    · have hpn : p < es.length := by omega
      simp only [hl, decide_true, if_true, true_and]
      refine ⟨(es.take p).set s.idx (k, v), es.drop p, es[p].1, ?_, ?_, ?_⟩
      · simp [splitLeafBodies, rightCopy, hl, show ¬ p ≤ s.idx by omega, List.getElem?_eq_getElem hpn]
      · intro h
        have := congrArg List.length h
        simp only [List.length_set, List.length_take, List.length_nil] at this; omega
      · intro h
        have := congrArg List.length h
        simp at this; omega
    · have hpn : p < es.length := by omega
      simp only [hl, decide_false, Bool.false_eq_true, if_false, decide_eq_true_eq]
      refine ⟨by omega, es.take p, ((es.drop p).eraseIdx (s.idx - p)).insertIdx (s.idx - p) (k, v), es[p].1, ?_, ?_, ?_⟩
      · simp [splitLeafBodies, rightCopy, show p ≤ s.idx by omega, List.getElem?_eq_getElem hpn]
      · intro h
        have := congrArg List.length h
        simp only [List.length_take, List.length_nil] at this; omega
      · intro h
        have := congrArg List.length h
        rw [List.length_insertIdx, List.length_eraseIdx] at this
        simp only [List.length_drop, List.length_nil] at this
        split at this <;> split at this <;> omega
  · simp only [Page.tailFrom, ho, reduceCtorEq, if_false] at p2
    simp only [ho, ne_eq, reduceCtorEq, not_false_eq_true, and_true, decide_false, planOk, Bool.false_eq_true, if_false]
    by_cases hl : s.idx < p
    · have hpn : p - 1 < es.length := by omega
      simp only [hl, decide_true, if_true, decide_eq_true_eq]
      refine ⟨by omega, (es.take (p - 1)).insertIdx s.idx (k, v), es.drop (p - 1), es[p - 1].1, ?_, ?_, ?_⟩
      · simp [splitLeafBodies, rightCopy, List.getElem?_eq_getElem hpn]
      · intro h
        have := congrArg List.length h
        rw [List.length_insertIdx] at this
        simp only [List.length_take, List.length_nil] at this
        split at this <;> omega
      · intro h
        have := congrArg List.length h
        simp at this; omega
    · simp only [hl, if_false, decide_false, Bool.false_eq_true, decide_eq_true_eq]
      have hr : (es.drop p).insertIdx (s.idx - p) (k, v) ≠ [] := by
        intro h
        have := congrArg List.length h
        rw [List.length_insertIdx] at this
        simp only [List.length_drop, List.length_nil] at this
        split at this <;> omega
      have hll : es.take p ≠ [] := by
        intro h
        have := congrArg List.length h
        simp only [List.length_take, List.length_nil] at this; omega
      by_cases hpi : p = s.idx
      · exact ⟨by omega, es.take p, _, k, by simp [splitLeafBodies, rightCopy, hpi], hll, hr⟩
      · have hpn : p < es.length := by omega
        exact ⟨by omega, es.take p, _, es[p].1,
          by simp [splitLeafBodies, rightCopy, hpi, List.getElem?_eq_getElem hpn], hll, hr⟩

/-! ### An execution

Calls 0 and 1 make the root leaf, grow the tree and split the leaf. Call 2 reaches the left
leaf and waits there while call 3 makes the root grow again, splits the index page below
it and merges into the right leaf; call 4 has looked up the left leaf's page before call 2
writes it. -/

/-- All steps of a list. -/
def run (mrg : K → M → M → M) (root : Nat) : List (Act K M) → Sys K M → Option (Sys K M)
  | [], s => some s
  | a :: l, s => (step mrg root s a).bind (run mrg root l)

omit [BoundedOrder K] in
theorem run_reachable [BoundedOrder K] {mrg : K → M → M → M} {root : Nat} {l : List (Act K M)} {s s' : Sys K M}
    (h : Reachable mrg root s) (e : run mrg root l s = some s') : Reachable mrg root s' := by
  induction l generalizing s with
  | nil => simp only [run, Option.some.injEq] at e; exact e ▸ h
  | cons a l ih =>
    obtain ⟨s1, h1, h2⟩ := Option.bind_eq_some_iff.1 e
    exact ih (h.step h1) h2

def exC : Choice := ⟨true, true, false, true, false, false, 1, false, 0, false⟩

def exMrg : Fin 64 → List Nat → List Nat → List Nat := fun _ o n => o ++ n

def exActs : List (Act (Fin 64) (List Nat)) :=
  [.insert 10 [1], .go 0 exC, .go 0 exC, .go 0 exC,
   .insert 20 [2], .go 1 exC, .go 1 exC, .go 1 { exC with can := false, new := 2 },
   .go 1 exC, .go 1 exC, .go 1 exC, .go 1 { exC with can := false }, .go 1 exC, .go 1 { exC with new := 3 },
   .insert 5 [3], .go 2 exC, .go 2 exC, .go 2 exC, .go 2 exC, .go 2 exC, .go 2 exC,
   .lookup 10, .insert 20 [4], .go 4 exC, .go 4 exC, .go 4 { exC with full1 := true, full2 := true, new := 5 },
   .go 4 exC, .go 4 { exC with full1 := true, full2 := true, new := 6 }, .go 4 exC, .go 4 exC, .go 4 exC,
   .go 3 exC, .go 3 exC, .go 4 exC, .go 2 exC, .go 3 exC, .go 3 exC]

set_option maxRecDepth 100000 in
/-- The execution reaches a state in which every call has returned; the lookup returned what
held before call 2 took effect. -/
example : ∃ s, run exMrg 1 exActs (create 1) = some s ∧ Reachable exMrg 1 s ∧
    s.thr.map (·.pc) = [.done 0, .done 1, .done 3, .ldone (some [1]) 4, .done 2] ∧
    s.hist = [(10, [1]), (20, [2]), (20, [4]), (5, [3])] ∧
    valueOf exMrg 20 s.hist = some [2, 4] ∧ lookup s.st 1 20 = some (some [2, 4]) ∧
    (s.st 1).map (·.height) = some 2 := by
  have h : (run exMrg 1 exActs (create 1)).isSome = true := by decide +kernel
  obtain ⟨s, hs⟩ := Option.isSome_iff_exists.1 h
  refine ⟨s, hs, run_reachable .create hs, ?_⟩
  have h1 : (run exMrg 1 exActs (create 1)).map (fun s => s.thr.map (·.pc)) =
      some [.done 0, .done 1, .done 3, .ldone (some [1]) 4, .done 2] := by decide +kernel
  have h2 : (run exMrg 1 exActs (create 1)).map (·.hist) =
      some [(10, [1]), (20, [2]), (20, [4]), (5, [3])] := by decide +kernel
  have h3 : (run exMrg 1 exActs (create 1)).map (fun s => lookup s.st 1 20) = some (some (some [2, 4])) := by
    decide +kernel
  have h4 : (run exMrg 1 exActs (create 1)).map (fun s => (s.st 1).map (·.height)) = some (some 2) := by
    decide +kernel
  rw [hs] at h1 h2 h3 h4
  simp only [Option.map_some, Option.some.injEq] at h1 h2 h3 h4
  refine ⟨h1, h2, ?_, h3, h4⟩
  rw [h2]
  decide +kernel

end Splinter.BtreeIns
