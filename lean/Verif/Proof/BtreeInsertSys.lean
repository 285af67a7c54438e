import Verif.Proof.BtreeInsert9
import Verif.Props.BtreeInsertSpec
/-!
The invariant of a tree with any number of threads.
-/
namespace Splinter.BtreeIns
open Btree Search

section
variable {K M : Type} [DecidableEq K]

theorem valueOf_nil {mrg : K → M → M → M} {k : K} : valueOf mrg k ([] : List (K × M)) = none := rfl

theorem valueOf_append {mrg : K → M → M → M} {k k' : K} {m : M} {hist : List (K × M)} :
    valueOf mrg k' (hist ++ [(k, m)]) =
      if k = k' then some (match valueOf mrg k hist with | none => m | some o => mrg k o m)
      else valueOf mrg k' hist := by
  by_cases h : k = k'
  · subst h
    simp only [valueOf, msgsOf, List.filter_append, List.map_append, if_true]
    cases hl : (hist.filter fun x => x.1 = k).map (·.2) with
    | nil => simp [merged]
    | cons a l => simp [merged]
  · simp [valueOf, msgsOf, List.filter_append, h]

end

variable {K M : Type} [LinearOrder K]

theorem Put.value {mrg : K → M → M → M} {k : K} {m : M} {l l' : List (K × M)} (h : Put mrg k m l l')
    {hist : List (K × M)} (hv : ∀ k v, (k, v) ∈ l ↔ valueOf mrg k hist = some v) :
    ∀ k' v, (k', v) ∈ l' ↔ valueOf mrg k' (hist ++ [(k, m)]) = some v := by
  intro k' v
  rw [valueOf_append]
  cases h with
  | new X Y e e' hX hY =>
    have hnone : valueOf mrg k hist = none := by
      cases hx : valueOf mrg k hist with
      | none => rfl
      | some o =>
        have := (hv k o).2 hx
        rw [e, List.mem_append] at this
        rcases this with h | h
        · exact absurd (hX _ h) (lt_irrefl _)
        · exact absurd (hY _ h) (lt_irrefl _)
    by_cases hk : k = k'
    · subst hk
      rw [if_pos rfl, hnone, e']
      simp only [List.mem_append, List.mem_cons, Prod.mk.injEq, true_and, Option.some.injEq]
      constructor
      · rintro (h | h | h)
        · exact absurd (hX _ h) (lt_irrefl _)
        · exact h.symm
        · exact absurd (hY _ h) (lt_irrefl _)
      · intro h; exact .inr (.inl h.symm)
    · rw [if_neg hk, ← hv, e, e']
      simp only [List.mem_append, List.mem_cons, Prod.mk.injEq]
      constructor
      · rintro (h | h | h)
        · exact .inl h
        · exact absurd h.1.symm hk
        · exact .inr h
      · rintro (h | h)
        · exact .inl h
        · exact .inr (.inr h)
  | old X Y o e e' hX hY =>
    have hsome : valueOf mrg k hist = some o := (hv k o).1 (by rw [e]; simp)
    by_cases hk : k = k'
    · subst hk
      rw [if_pos rfl, hsome, e']
      simp only [List.mem_append, List.mem_cons, Prod.mk.injEq, true_and, Option.some.injEq]
      constructor
      · rintro (h | h | h)
        · exact absurd (hX _ h) (lt_irrefl _)
        · exact h.symm
        · exact absurd (hY _ h) (lt_irrefl _)
      · intro h; exact .inr (.inl h.symm)
    · rw [if_neg hk, ← hv, e, e']
      simp only [List.mem_append, List.mem_cons, Prod.mk.injEq]
      constructor
      · rintro (h | h | h)
        · exact .inl h
        · exact absurd h.1.symm hk
        · exact .inr (.inr h)
      · rintro (h | h | h)
        · exact .inl h
        · exact absurd h.1.symm hk
        · exact .inr (.inr h)

variable [BoundedOrder K] [Inhabited K]

/-- What one call knows. -/
def Know (mrg : K → M → M → M) (st : Store K M) (root H : Nat) (lv : Nat → List (K × Nat)) (x : Thr K M) : Prop :=
  match x.msg with
  | some m => TOk mrg st root H lv x.key m x.pc
  | none => LOk H lv x.key x.pc

/-- What a finished call returned. -/
def Ended (mrg : K → M → M → M) (hist : List (K × M)) (x : Thr K M) : Prop :=
  match x.pc with
  | .done n => ∃ m, x.msg = some m ∧ hist[n]? = some (x.key, m) ∧ x.born ≤ n
  | .ldone r n => x.born ≤ n ∧ n ≤ hist.length ∧ r = valueOf mrg x.key (hist.take n)
  | _ => True

structure Inv (mrg : K → M → M → M) (root : Nat) (s : Sys K M) : Prop where
  tree : ∃ H lv, Whole s.st root H lv ∧ (∀ x ∈ s.thr, Know mrg s.st root H lv x) ∧
    ∀ k v, (k, v) ∈ items s.st lv ↔ valueOf mrg k s.hist = some v
  fin : ∀ x ∈ s.thr, Ended mrg s.hist x
  born : ∀ x ∈ s.thr, x.born ≤ s.hist.length
  all : ∀ n < s.hist.length, ∃ (t : Nat) (x : Thr K M), s.thr[t]? = some x ∧ x.pc = .done n
  uniq : ∀ (t t' : Nat) (x x' : Thr K M) (n : Nat), s.thr[t]? = some x → s.thr[t']? = some x' → x.pc = .done n → x'.pc = .done n → t = t'

theorem Ended.append {mrg : K → M → M → M} {hist l : List (K × M)} {x : Thr K M} (h : Ended mrg hist x) :
    Ended mrg (hist ++ l) x := by
  unfold Ended at h ⊢
  split at h
  · obtain ⟨m, h1, h2, h3⟩ := h
    refine ⟨m, h1, ?_, h3⟩
    rw [List.getElem?_append_left]; exact h2
    exact (List.getElem?_eq_some_iff.1 h2).1
  · obtain ⟨h1, h2, h3⟩ := h
    exact ⟨h1, by simp; omega, by rw [List.take_append_of_le_length h2]; exact h3⟩
  · trivial

theorem inv_create {mrg : K → M → M → M} {root : Nat} (hr : root ≠ 0) : Inv mrg root (create root : Sys K M) := by
  refine ⟨⟨0, fun _ => [(⊥, root)], ⟨⟨rfl, ?_, by omega, by simp, ?_, by simp, ?_⟩, ⟨?_, ?_, by simp⟩⟩, ?_, ?_⟩,
    ?_, ?_, ?_, ?_⟩
  · intro h hh q hq
    simp only [List.mem_singleton] at hq
    subst hq
    exact ⟨⟨0, 0, 0, .leaf []⟩, by simp [create], by simp; omega, .inl ⟨by omega, [], rfl⟩⟩
  · intro h hh q hq
    simp only [List.mem_singleton] at hq
    subst hq
    exact hr
  · intro h hh A q B hq f hf
    cases A with
    | nil =>
      simp at hq
      obtain ⟨rfl, _⟩ := hq
      simp [firstKey, create] at hf
    | cons z A => simp at hq
  · simp [cont, leafOf, create]
  · exact ⟨⟨_, by simp [create]; rfl, rfl, rfl⟩, trivial⟩
  · simp [create]
  · intro k v
    simp [items, cont, leafOf, create, valueOf_nil]
  · simp [create]
  · simp [create]
  · simp [create]
  · simp [create]

theorem sole_spec {root : Nat} {thr : List (Thr K M)} {t : Nat} {l : List Nat}
    (h : soleReader root thr t l = true) {t' : Nat} {x : Thr K M} (hx : thr[t']? = some x) (ht : t' ≠ t) :
    ∀ a ∈ x.pc.reads root, a ∉ l := by
  unfold soleReader at h
  rw [List.all_eq_true] at h
  have := h (x, t') (by rw [List.mem_zipIdx_iff_getElem?]; exact hx)
  simp only [Bool.or_eq_true, beq_iff_eq, ht, false_or, List.all_eq_true, Bool.not_eq_true'] at this
  intro a ha hl
  have h2 := this a ha
  rw [List.contains_eq_mem] at h2
  simp [hl] at h2

theorem inv_insert {mrg : K → M → M → M} {root : Nat} {s s' : Sys K M} {t : Nat} {c : Choice} {x : Thr K M} {m : M}
    {st' : Store K M} {pc' : Pc M} {eff : Bool} (I : Inv mrg root s) (hx : s.thr[t]? = some x)
    (hm : x.msg = some m)
    (he : thrStep mrg (soleReader root s.thr t) s.st root s.hist.length x.key m x.pc c = some (st', pc', eff))
    (hs' : s' = ⟨st', s.thr.set t { x with pc := pc' }, if eff then s.hist ++ [(x.key, m)] else s.hist⟩) :
    Inv mrg root s' := by
  obtain ⟨⟨H, lv, T, hk, hv⟩, hfin, hborn, hall, huniq⟩ := I
  have hxm : x ∈ s.thr := List.mem_of_getElem? hx
  have hlt : t < s.thr.length := (List.getElem?_eq_some_iff.1 hx).1
  have hkx := hk x hxm
  unfold Know at hkx
  simp only [hm] at hkx
  have hnd : ∀ n, x.pc ≠ .done n := by
    intro n hn
    rw [hn] at he
    simp [thrStep] at he
  obtain ⟨H', lv', W, T', X, hW, hTok, heff, hneff, _, _⟩ := thrStep_spec T hkx he
  have hmem : ∀ y ∈ s'.thr, y = { x with pc := pc' } ∨ ∃ t', t' ≠ t ∧ s.thr[t']? = some y := by
    intro y hy
    rw [hs'] at hy
    obtain ⟨t', hy⟩ := List.mem_iff_getElem?.1 hy
    rw [List.getElem?_set] at hy
    split at hy
    · rename_i h
      simp only [hlt, if_true, Option.some.injEq] at hy
      exact .inl hy.symm
    · rename_i h
      exact .inr ⟨t', fun h' => h h'.symm, hy⟩
  have hget : ∀ t' y, s'.thr[t']? = some y → (t' = t ∧ y = { x with pc := pc' }) ∨ (t' ≠ t ∧ s.thr[t']? = some y) := by
    intro t' y hy
    rw [hs'] at hy
    simp only [List.getElem?_set] at hy
    split at hy
    · rename_i h
      simp only [hlt, if_true, Option.some.injEq] at hy
      exact .inl ⟨h.symm, hy.symm⟩
    · rename_i h
      exact .inr ⟨fun h' => h h'.symm, hy⟩
  have hset : s'.thr[t]? = some { x with pc := pc' } := by
    rw [hs']; simp [hlt]
  have hother : ∀ t' y, t' ≠ t → s.thr[t']? = some y → s'.thr[t']? = some y := by
    intro t' y h1 h2
    rw [hs']; simp only [List.getElem?_set, if_neg (Ne.symm h1)]; exact h2
  have hst : s'.st = st' := by rw [hs']
  have hnl : ∀ r n, pc' ≠ .ldone r n := by
    rintro r n rfl; exact hTok
  have hhist : ∃ l, s'.hist = s.hist ++ l := by
    rw [hs']
    cases eff
    · exact ⟨[], by simp⟩
    · exact ⟨_, rfl⟩
  obtain ⟨l, hl⟩ := hhist
  refine ⟨⟨H', lv', by rw [hst]; exact T', ?_, ?_⟩, ?_, ?_, ?_, ?_⟩
  · intro y hy
    rw [hst]
    rcases hmem y hy with rfl | ⟨t', ht', hy'⟩
    · unfold Know
      simp only [hm]
      exact hTok
    · have hreads : ∀ a ∈ y.pc.reads root, a ∉ W := by
        intro a ha haW
        rcases hW with rfl | ⟨l, hl, hsub⟩
        · simp at haW
        · exact sole_spec hl hy' ht' a ha (hsub a haW)
      have := hk y (List.mem_of_getElem? hy')
      unfold Know at this ⊢
      split
      · rename_i hm'
        simp only [hm'] at this
        exact this.ext T X hreads
      · rename_i hm'
        simp only [hm'] at this
        exact this.ext X hreads
  · rw [hst]
    cases eff with
    | false =>
      rw [(hneff rfl).1]
      rw [hs']
      simpa using hv
    | true =>
      rw [hs']
      simp only [if_true]
      exact (heff rfl).1.value hv
  · intro y hy
    rcases hmem y hy with rfl | ⟨t', ht', hy'⟩
    · unfold Ended
      split
      · rename_i n hn
        simp only at hn
        cases eff with
        | false => exact absurd hn ((hneff rfl).2 n)
        | true =>
          have := (heff rfl).2
          rw [hn] at this
          simp only [Pc.done.injEq] at this
          subst this
          refine ⟨m, hm, ?_, hborn x hxm⟩
          rw [hs']
          simp
      · rename_i r n hn
        exact absurd hn (hnl r n)
      · trivial
    · rw [hl]; exact (hfin y (List.mem_of_getElem? hy')).append
  · intro y hy
    have hle : s.hist.length ≤ s'.hist.length := by rw [hl]; simp
    rcases hmem y hy with rfl | ⟨t', ht', hy'⟩
    · exact (hborn x hxm).trans hle
    · exact (hborn y (List.mem_of_getElem? hy')).trans hle
  · intro n hn
    by_cases hn' : n < s.hist.length
    · obtain ⟨t', y, h1, h2⟩ := hall n hn'
      refine ⟨t', y, hother t' y ?_ h1, h2⟩
      rintro rfl
      rw [hx] at h1
      cases h1
      exact hnd n h2
    · cases eff with
      | false => rw [hs'] at hn; simp at hn; omega
      | true =>
        rw [hs'] at hn
        simp at hn
        refine ⟨t, _, hset, ?_⟩
        simp only
        rw [(heff rfl).2]
        congr 1
        omega
  · intro t1 t2 x1 x2 n h1 h2 d1 d2
    have hlast : pc' = .done n → n = s.hist.length := by
      intro h
      cases eff with
      | false => exact absurd h ((hneff rfl).2 n)
      | true =>
        have := (heff rfl).2
        rw [h] at this
        simpa using this
    have hold : ∀ (t' : Nat) (y : Thr K M), s.thr[t']? = some y → y.pc = .done n → n < s.hist.length := by
      intro t' y hy hd
      have := hfin y (List.mem_of_getElem? hy)
      unfold Ended at this
      simp only [hd] at this
      obtain ⟨_, _, h, _⟩ := this
      exact (List.getElem?_eq_some_iff.1 h).1
    rcases hget t1 x1 h1 with ⟨e1, rfl⟩ | ⟨e1, g1⟩ <;> rcases hget t2 x2 h2 with ⟨e2, rfl⟩ | ⟨e2, g2⟩
    · omega
    · have := hlast d1; have := hold t2 x2 g2 d2; omega
    · have := hlast d2; have := hold t1 x1 g1 d1; omega
    · exact huniq t1 t2 x1 x2 n g1 g2 d1 d2

theorem inv_lookup {mrg : K → M → M → M} {root : Nat} {s s' : Sys K M} {t : Nat} {x : Thr K M}
    {pc' : Pc M} (I : Inv mrg root s) (hx : s.thr[t]? = some x) (hm : x.msg = none)
    (he : lookStep s.st root s.hist.length x.key x.pc = some pc')
    (hs' : s' = { s with thr := s.thr.set t { x with pc := pc' } }) : Inv mrg root s' := by
  obtain ⟨⟨H, lv, T, hk, hv⟩, hfin, hborn, hall, huniq⟩ := I
  have hxm : x ∈ s.thr := List.mem_of_getElem? hx
  have hlt : t < s.thr.length := (List.getElem?_eq_some_iff.1 hx).1
  have hkx := hk x hxm
  unfold Know at hkx
  simp only [hm] at hkx
  have hnd : ∀ n, x.pc ≠ .done n := by
    intro n hn
    rw [hn] at hkx
    exact hkx
  have hspec := lookStep_spec T hkx he
  have hnd' : ∀ n, pc' ≠ .done n := by
    intro n hn
    rcases hspec with ⟨_, h, _⟩ | ⟨r, h, _⟩
    · exact h n hn
    · rw [h] at hn; cases hn
  have hget : ∀ t' y, s'.thr[t']? = some y → (t' = t ∧ y = { x with pc := pc' }) ∨ (t' ≠ t ∧ s.thr[t']? = some y) := by
    intro t' y hy
    rw [hs'] at hy
    simp only [List.getElem?_set] at hy
    split at hy
    · rename_i h
      simp only [hlt, if_true, Option.some.injEq] at hy
      exact .inl ⟨h.symm, hy.symm⟩
    · rename_i h
      exact .inr ⟨fun h' => h h'.symm, hy⟩
  have hmem : ∀ y ∈ s'.thr, y = { x with pc := pc' } ∨ y ∈ s.thr := by
    intro y hy
    obtain ⟨t', hy⟩ := List.mem_iff_getElem?.1 hy
    rcases hget t' y hy with ⟨_, h⟩ | ⟨_, h⟩
    · exact .inl h
    · exact .inr (List.mem_of_getElem? h)
  have hother : ∀ t' y, t' ≠ t → s.thr[t']? = some y → s'.thr[t']? = some y := by
    intro t' y h1 h2
    rw [hs']; simp only [List.getElem?_set, if_neg (Ne.symm h1)]; exact h2
  have hst : s'.st = s.st := by rw [hs']
  have hhi : s'.hist = s.hist := by rw [hs']
  refine ⟨⟨H, lv, by rw [hst]; exact T, ?_, by rw [hst, hhi]; exact hv⟩, ?_, ?_, ?_, ?_⟩
  · intro y hy
    rw [hst]
    rcases hmem y hy with rfl | hy
    · unfold Know
      simp only [hm]
      rcases hspec with ⟨h, _⟩ | ⟨r, h, _⟩
      · exact h
      · rw [h]; trivial
    · exact hk y hy
  · intro y hy
    rw [hhi]
    rcases hmem y hy with rfl | hy
    · unfold Ended
      split
      · rename_i n hn; exact absurd hn (hnd' n)
      · rename_i r n hn
        simp only at hn
        rcases hspec with ⟨_, _, h⟩ | ⟨r', h, hr⟩
        · exact absurd hn (h r n)
        · rw [h] at hn
          simp only [Pc.ldone.injEq] at hn
          obtain ⟨rfl, rfl⟩ := hn
          refine ⟨hborn x hxm, le_rfl, ?_⟩
          rw [List.take_length]
          ext v
          rw [← hv x.key v]
          exact hr v
      · trivial
    · exact hfin y hy
  · intro y hy
    rw [hhi]
    rcases hmem y hy with rfl | hy
    · exact hborn x hxm
    · exact hborn y hy
  · intro n hn
    rw [hhi] at hn
    obtain ⟨t', y, h1, h2⟩ := hall n hn
    refine ⟨t', y, hother t' y ?_ h1, h2⟩
    rintro rfl
    rw [hx] at h1
    cases h1
    exact hnd n h2
  · intro t1 t2 x1 x2 n h1 h2 d1 d2
    rcases hget t1 x1 h1 with ⟨e1, rfl⟩ | ⟨e1, g1⟩
    · exact absurd d1 (hnd' n)
    · rcases hget t2 x2 h2 with ⟨e2, rfl⟩ | ⟨e2, g2⟩
      · exact absurd d2 (hnd' n)
      · exact huniq t1 t2 x1 x2 n g1 g2 d1 d2

theorem inv_call {mrg : K → M → M → M} {root : Nat} {s : Sys K M} {x : Thr K M} (I : Inv mrg root s)
    (hb : x.born = s.hist.length) (hp : (∃ m, x.msg = some m ∧ x.pc = .idle) ∨ (x.msg = none ∧ x.pc = .lidle)) :
    Inv mrg root { s with thr := s.thr ++ [x] } := by
  obtain ⟨⟨H, lv, T, hk, hv⟩, hfin, hborn, hall, huniq⟩ := I
  have hnd : ∀ n, x.pc ≠ .done n := by
    rintro n hn
    rcases hp with ⟨_, _, h⟩ | ⟨_, h⟩ <;> (rw [h] at hn; cases hn)
  have hmem : ∀ y ∈ s.thr ++ [x], y ∈ s.thr ∨ y = x := by intro y hy; simpa using hy
  have hget : ∀ (t : Nat) (y : Thr K M), (s.thr ++ [x])[t]? = some y → s.thr[t]? = some y ∨ y = x := by
    intro t y hy
    rw [List.getElem?_append] at hy
    split at hy
    · exact .inl hy
    · right
      have := List.mem_of_getElem? hy
      simpa using this
  refine ⟨⟨H, lv, T, ?_, hv⟩, ?_, ?_, ?_, ?_⟩
  · intro y hy
    rcases hmem y hy with hy | rfl
    · exact hk y hy
    · unfold Know
      rcases hp with ⟨m, h1, h2⟩ | ⟨h1, h2⟩
      · simp only [h1, h2]; trivial
      · simp only [h1, h2]; trivial
  · intro y hy
    rcases hmem y hy with hy | rfl
    · exact hfin y hy
    · unfold Ended
      rcases hp with ⟨m, h1, h2⟩ | ⟨h1, h2⟩ <;> simp only [h2]
  · intro y hy
    rcases hmem y hy with hy | rfl
    · exact hborn y hy
    · exact hb.le
  · intro n hn
    obtain ⟨t, y, h1, h2⟩ := hall n hn
    refine ⟨t, y, ?_, h2⟩
    simp only
    rw [List.getElem?_append_left]; exact h1
    exact (List.getElem?_eq_some_iff.1 h1).1
  · intro t1 t2 x1 x2 n h1 h2 d1 d2
    rcases hget t1 x1 h1 with g1 | rfl
    · rcases hget t2 x2 h2 with g2 | rfl
      · exact huniq t1 t2 x1 x2 n g1 g2 d1 d2
      · exact absurd d2 (hnd n)
    · exact absurd d1 (hnd n)

theorem inv_step {mrg : K → M → M → M} {root : Nat} {s s' : Sys K M} {a : Act K M} (I : Inv mrg root s)
    (h : step mrg root s a = some s') : Inv mrg root s' := by
  cases a with
  | insert k m =>
    simp only [step, Option.some.injEq] at h
    subst h
    exact inv_call I rfl (.inl ⟨m, rfl, rfl⟩)
  | lookup k =>
    simp only [step, Option.some.injEq] at h
    subst h
    exact inv_call I rfl (.inr ⟨rfl, rfl⟩)
  | go t c =>
    simp only [step] at h
    split at h
    · cases h
    · rename_i x hx
      split at h
      · rename_i m hm
        split at h
        · cases h
        · rename_i st' pc' eff he
          simp only [Option.some.injEq] at h
          exact inv_insert I hx hm he h.symm
      · rename_i hm
        split at h
        · cases h
        · rename_i pc' he
          simp only [Option.some.injEq] at h
          exact inv_lookup I hx hm he h.symm

theorem reachable_inv {mrg : K → M → M → M} {root : Nat} (hr : root ≠ 0) {s : Sys K M}
    (h : Reachable mrg root s) : Inv mrg root s := by
  induction h with
  | create => exact inv_create hr
  | step _ h ih => exact inv_step ih h

end Splinter.BtreeIns
