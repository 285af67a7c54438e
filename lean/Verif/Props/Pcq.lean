import Verif.Model.Pcq
import Mathlib.Data.List.InsertIdx
/-!
# C30: the ring delivers each element once, in order
-/
namespace Splinter.Pcq

variable {E : Type}

structure Inv (n : Nat) (s : State E) : Prop where
  out : s.out = s.inp.take s.out.length
  len : s.out.length ≤ s.inp.length
  took : s.taking = true → 0 < s.out.length
  win : s.inp.length - (s.out.length - s.taking.toNat) ≤ n
  head : s.head = (s.out.length - s.taking.toNat) % 2 ^ 32
  tail : s.tail = s.inp.length % 2 ^ 32
  pend : ∀ k e, (k, e) ∈ s.pend → s.slot k = none ∧ ∃ j, s.out.length ≤ j ∧ s.inp[j]? = some e ∧ k = j % n
  nodup : (s.pend.map Prod.fst).Nodup
  slot : ∀ k e, s.slot k = some e → k ∉ s.pend.map Prod.fst ∧ ∃ j, s.out.length ≤ j ∧ s.inp[j]? = some e ∧ k = j % n
  cover : ∀ j, s.out.length ≤ j → j < s.inp.length → s.slot (j % n) ≠ none ∨ j % n ∈ s.pend.map Prod.fst

theorem mod_inj {n a b lo : Nat} (ha : lo ≤ a) (hb : lo ≤ b) (ha' : a < lo + n) (hb' : b < lo + n) (h : a % n = b % n) : a = b := by
  have h1 := Nat.div_add_mod a n
  have h2 := Nat.div_add_mod b n
  rw [h] at h1
  rcases Nat.lt_trichotomy (a / n) (b / n) with h3 | h3 | h3
  · have := Nat.mul_le_mul_left n (show a / n + 1 ≤ b / n from h3)
    rw [Nat.mul_add] at this; omega
  · rw [h3] at h1; omega
  · have := Nat.mul_le_mul_left n (show b / n + 1 ≤ a / n from h3)
    rw [Nat.mul_add] at this; omega

theorem getElem?_lt {l : List E} {j : Nat} {e : E} (h : l[j]? = some e) : j < l.length := by
  rw [List.getElem?_eq_some_iff] at h
  exact h.1

theorem init_inv (n : Nat) : Inv n (init : State E) := by
  constructor <;> simp [init]

theorem step_inv {n : Nat} (hn : 0 < n) (hn' : n < 2 ^ 32) (hd : n ∣ 2 ^ 32) {s s' : State E} (inv : Inv n s) (a : Act E)
    (hfull : ∀ e, a = .reserve e → isFull n s = false) (h : step n s a = some s') : Inv n s' := by
  have hmod : ∀ x, x % 2 ^ 32 % n = x % n := fun x => Nat.mod_mod_of_dvd x hd
  have i1 := inv.len
  have i2 := inv.win
  have i3 := inv.took
  have htn : s.taking.toNat ≤ 1 := by cases s.taking <;> simp
  have hwin : ∀ j, s.out.length ≤ j → j < s.inp.length → j < s.out.length - s.taking.toNat + n := by intro j _ _; omega
  cases a with
  | reserve e =>
    have hf := hfull e rfl
    have hcount : count s = s.inp.length - (s.out.length - s.taking.toNat) := by
      unfold count
      rw [inv.head, inv.tail]
      omega
    have hlt : s.inp.length - (s.out.length - s.taking.toNat) < n := by
      unfold isFull at hf
      rw [hcount] at hf
      have : s.inp.length - (s.out.length - s.taking.toNat) ≠ n := by simpa using hf
      omega
    simp only [step, Option.some.injEq] at h
    subst h
    have hk : s.tail % n = s.inp.length % n := by rw [inv.tail, hmod]
    have hfresh : ∀ j, s.out.length ≤ j → j < s.inp.length → s.inp.length % n ≠ j % n := by
      intro j h1 h2 h3
      have := mod_inj (n := n) (lo := s.out.length - s.taking.toNat) (a := s.inp.length) (b := j) (by omega) (by omega) (by omega)
        (by omega) h3
      omega
    have hfs : s.slot (s.inp.length % n) = none := by
      cases hs : s.slot (s.inp.length % n) with
      | none => rfl
      | some x =>
        obtain ⟨_, j, h1, h2, h3⟩ := inv.slot _ _ hs
        exact absurd h3 (hfresh j h1 (getElem?_lt h2))
    have hfp : s.inp.length % n ∉ s.pend.map Prod.fst := by
      intro hm
      obtain ⟨⟨k, x⟩, h1, h2⟩ := List.mem_map.1 hm
      obtain ⟨_, j, h3, h4, h5⟩ := inv.pend k x h1
      simp only at h2
      exact hfresh j h3 (getElem?_lt h4) (by omega)
    constructor
    · show s.out = (s.inp ++ [e]).take s.out.length
      rw [List.take_append_of_le_length i1]; exact inv.out
    · show s.out.length ≤ (s.inp ++ [e]).length
      simp; omega
    · exact i3
    · show (s.inp ++ [e]).length - _ ≤ n
      simp only [List.length_append, List.length_cons, List.length_nil]; omega
    · exact inv.head
    · show (s.tail + 1) % 2 ^ 32 = (s.inp ++ [e]).length % 2 ^ 32
      rw [inv.tail]; simp only [List.length_append, List.length_cons, List.length_nil]; omega
    · intro k x hm
      show s.slot k = none ∧ ∃ j, s.out.length ≤ j ∧ (s.inp ++ [e])[j]? = some x ∧ k = j % n
      rcases List.mem_append.1 hm with hm | hm
      · obtain ⟨h1, j, h2, h3, h4⟩ := inv.pend k x hm
        exact ⟨h1, j, h2, by rw [List.getElem?_append_left (getElem?_lt h3)]; exact h3, h4⟩
      · simp only [List.mem_singleton, Prod.mk.injEq] at hm
        obtain ⟨rfl, rfl⟩ := hm
        rw [hk]
        exact ⟨hfs, s.inp.length, i1, by simp, rfl⟩
    · show ((s.pend ++ [(s.tail % n, e)]).map Prod.fst).Nodup
      rw [List.map_append, List.nodup_append]
      refine ⟨inv.nodup, by simp, ?_⟩
      intro a ha b hb
      simp only [List.map_cons, List.map_nil, List.mem_singleton] at hb
      subst hb
      rw [hk]
      rintro rfl
      exact hfp ha
    · intro k x hs
      show k ∉ (s.pend ++ [(s.tail % n, e)]).map Prod.fst ∧ ∃ j, s.out.length ≤ j ∧ (s.inp ++ [e])[j]? = some x ∧ k = j % n
      obtain ⟨h1, j, h2, h3, h4⟩ := inv.slot k x hs
      refine ⟨?_, j, h2, by rw [List.getElem?_append_left (getElem?_lt h3)]; exact h3, h4⟩
      rw [List.map_append, List.mem_append]
      rintro (hm | hm)
      · exact h1 hm
      · simp only [List.map_cons, List.map_nil, List.mem_singleton] at hm
        rw [hm, hk] at h4
        exact hfresh j h2 (getElem?_lt h3) h4
    · intro j h1 h2
      show s.slot (j % n) ≠ none ∨ j % n ∈ (s.pend ++ [(s.tail % n, e)]).map Prod.fst
      by_cases hj : j = s.inp.length
      · right; rw [hj, List.map_append, List.mem_append]; right; simp [hk]
      · have h2' : j < (s.inp ++ [e]).length := h2
        simp only [List.length_append, List.length_cons, List.length_nil] at h2'
        rcases inv.cover j h1 (by omega) with h | h
        · exact .inl h
        · right; rw [List.map_append, List.mem_append]; exact .inl h
  | store i =>
    simp only [step] at h
    cases hp : s.pend[i]? with
    | none => rw [hp] at h; cases h
    | some ke =>
      obtain ⟨k, e⟩ := ke
      rw [hp] at h
      simp only [Option.some.injEq] at h
      subst h
      have hi := getElem?_lt (E := Nat × E) hp
      have hmem : (k, e) ∈ s.pend := List.mem_of_getElem? hp
      obtain ⟨h1, j, h2, h3, h4⟩ := inv.pend k e hmem
      have hgi : (s.pend.map Prod.fst)[i]? = some k := by rw [List.getElem?_map, hp]; rfl
      have hnot : k ∉ (s.pend.eraseIdx i).map Prod.fst := by
        rw [← List.eraseIdx_map]
        intro hm
        obtain ⟨i', hi'1, hi'2⟩ := List.mem_eraseIdx_iff_getElem?.1 hm
        have := (List.getElem?_inj (i := i') (j := i) (getElem?_lt hi'2) inv.nodup).1 (by rw [hi'2, hgi])
        exact hi'1 this
      have hsub : ∀ x, x ∈ s.pend.eraseIdx i → x ∈ s.pend := fun x hx => List.mem_of_mem_eraseIdx hx
      constructor
      · exact inv.out
      · exact i1
      · exact i3
      · exact i2
      · exact inv.head
      · exact inv.tail
      · intro k' e' hm
        obtain ⟨g1, g2⟩ := inv.pend k' e' (hsub _ hm)
        refine ⟨?_, g2⟩
        show setSlot s.slot k (some e) k' = none
        unfold setSlot
        split
        · rename_i h; subst h
          exact absurd (List.mem_map.2 ⟨_, hm, rfl⟩) hnot
        · exact g1
      · show ((s.pend.eraseIdx i).map Prod.fst).Nodup
        rw [← List.eraseIdx_map]
        exact inv.nodup.eraseIdx i
      · intro k' e' hs
        have hs : setSlot s.slot k (some e) k' = some e' := hs
        unfold setSlot at hs
        split at hs
        · rename_i h; subst h
          have hs := Option.some.inj (by assumption : some e = some e')
          subst hs
          exact ⟨hnot, j, h2, h3, h4⟩
        · obtain ⟨g1, g2⟩ := inv.slot k' e' hs
          refine ⟨fun hm => g1 ?_, g2⟩
          obtain ⟨x, hx, hx'⟩ := List.mem_map.1 hm
          exact List.mem_map.2 ⟨x, hsub x hx, hx'⟩
      · intro j' g1 g2
        show setSlot s.slot k (some e) (j' % n) ≠ none ∨ j' % n ∈ (s.pend.eraseIdx i).map Prod.fst
        by_cases hk : j' % n = k
        · left; unfold setSlot; rw [if_pos hk]; simp
        · rcases inv.cover j' g1 g2 with h | h
          · left; unfold setSlot; rw [if_neg hk]; exact h
          · right
            rw [← List.eraseIdx_map]
            obtain ⟨i', hi'⟩ := List.mem_iff_getElem?.1 h
            refine List.mem_eraseIdx_iff_getElem?.2 ⟨i', ?_, hi'⟩
            rintro rfl
            rw [hgi] at hi'
            injection hi' with hi'
            exact hk hi'.symm
  | take =>
    simp only [step] at h
    cases ht : s.taking with
    | true => rw [ht] at h; simp at h
    | false =>
      rw [ht] at h
      simp only [Bool.false_eq_true, if_false] at h
      by_cases he : isEmpty s = true
      · rw [if_pos he] at h; cases h
      · rw [if_neg he] at h
        rw [ht] at i2
        have hh := inv.head
        rw [ht] at hh
        simp only [Bool.toNat_false, Nat.sub_zero] at hh i2
        have hhn : s.head % n = s.out.length % n := by rw [hh, hmod]
        rw [hhn] at h
        cases hs : s.slot (s.out.length % n) with
        | none => rw [hs] at h; cases h
        | some e =>
          rw [hs] at h
          simp only [Option.some.injEq] at h
          subst h
          obtain ⟨g1, j, g2, g3, g4⟩ := inv.slot _ _ hs
          have hjl := getElem?_lt g3
          have hj : s.out.length = j := mod_inj (n := n) (lo := s.out.length) (Nat.le_refl _) g2 (by omega) (by omega) g4
          subst hj
          have hother : ∀ j', s.out.length + 1 ≤ j' → j' < s.inp.length → j' % n ≠ s.out.length % n := by
            intro j' a1 a2 a3
            have := mod_inj (n := n) (lo := s.out.length) (a := j') (b := s.out.length) (by omega) (by omega) (by omega) (by omega) a3
            omega
          constructor
          · show s.out ++ [e] = s.inp.take (s.out ++ [e]).length
            rw [List.length_append, List.length_singleton, List.take_add_one, g3, ← inv.out]; rfl
          · show (s.out ++ [e]).length ≤ s.inp.length
            simp; omega
          · intro _; show 0 < (s.out ++ [e]).length; simp
          · show s.inp.length - ((s.out ++ [e]).length - 1) ≤ n
            simp; omega
          · show s.head = ((s.out ++ [e]).length - 1) % 2 ^ 32
            simp; rw [hh]
          · exact inv.tail
          · intro k' e' hm
            obtain ⟨a1, j', a2, a3, a4⟩ := inv.pend k' e' hm
            have hne : k' ≠ s.out.length % n := by
              rintro rfl
              exact g1 (List.mem_map.2 ⟨_, hm, rfl⟩)
            refine ⟨?_, j', ?_, a3, a4⟩
            · show setSlot s.slot _ none k' = none
              unfold setSlot; rw [if_neg hne]; exact a1
            · show (s.out ++ [e]).length ≤ j'
              have : j' ≠ s.out.length := by rintro rfl; exact hne a4
              simp; omega
          · exact inv.nodup
          · intro k' e' hs'
            have hs' : setSlot s.slot (s.head % n) none k' = some e' := by rw [hhn]; exact hs'
            unfold setSlot at hs'
            split at hs'
            · cases hs'
            · rename_i hne
              rw [hhn] at hne
              obtain ⟨a1, j', a2, a3, a4⟩ := inv.slot k' e' hs'
              refine ⟨a1, j', ?_, a3, a4⟩
              show (s.out ++ [e]).length ≤ j'
              have : j' ≠ s.out.length := by rintro rfl; exact hne a4
              simp; omega
          · intro j' a1 a2
            have a1 : (s.out ++ [e]).length ≤ j' := a1
            rw [List.length_append, List.length_singleton] at a1
            have hne := hother j' a1 a2
            rcases inv.cover j' (by omega) a2 with h | h
            · left
              show setSlot s.slot _ none (j' % n) ≠ none
              unfold setSlot; rw [if_neg hne]; exact h
            · exact .inr h
  | advance =>
    simp only [step] at h
    cases ht : s.taking with
    | false => rw [ht] at h; simp at h
    | true =>
      rw [ht] at h
      simp only [if_true, Option.some.injEq] at h
      subst h
      have hh := inv.head
      have h0 := i3 ht
      rw [ht] at hh i2
      simp only [Bool.toNat_true] at hh i2
      constructor
      · exact inv.out
      · exact i1
      · intro h; cases h
      · show s.inp.length - (s.out.length - 0) ≤ n
        omega
      · show (s.head + 1) % 2 ^ 32 = (s.out.length - 0) % 2 ^ 32
        omega
      · exact inv.tail
      · exact inv.pend
      · exact inv.nodup
      · exact inv.slot
      · exact inv.cover

theorem reachable_inv {n : Nat} (hn : 0 < n) (hn' : n < 2 ^ 32) (hd : n ∣ 2 ^ 32) {s : State E} (h : Reachable n s) : Inv n s := by
  induction h with
  | init => exact init_inv n
  | step a _ hf hs ih => exact step_inv hn hn' hd ih a hf hs

/-- C30, for ring sizes dividing 2^32 (powers of two): under any interleaving of any number of
producers with the consumer, the elements taken out so far are the first ones put in, in that
order; no stored element is overwritten; and when no producer is in the middle of an enqueue and
elements remain, a dequeue finds one. The full claim, for every ring size, is false:
`pcq_wrap_loses_element`. -/
theorem pcq_fifo_partial {n : Nat} (hn : 0 < n) (hn' : n < 2 ^ 32) (hd : n ∣ 2 ^ 32) {s : State E} (h : Reachable n s) :
    s.out <+: s.inp ∧ (∀ k e, (k, e) ∈ s.pend → s.slot k = none) ∧
    (s.pend = [] → s.taking = false → s.out.length < s.inp.length → (step n s .take).isSome = true) := by
  have inv := reachable_inv hn hn' hd h
  refine ⟨⟨s.inp.drop s.out.length, ?_⟩, fun k e hm => (inv.pend k e hm).1, ?_⟩
  · conv => lhs; arg 1; rw [inv.out]
    exact List.take_append_drop _ _
  · intro h1 h2 h3
    have hh := inv.head
    have hw := inv.win
    rw [h2] at hh hw
    simp only [Bool.toNat_false, Nat.sub_zero] at hh hw
    have hne : isEmpty s = false := by
      unfold isEmpty
      rw [hh, inv.tail]
      have : s.out.length % 2 ^ 32 ≠ s.inp.length % 2 ^ 32 := by
        intro he
        have := mod_inj (n := 2 ^ 32) (lo := s.out.length) (a := s.out.length) (b := s.inp.length) (Nat.le_refl _) (by omega) (by omega)
          (by omega) he
        omega
      simpa using this
    have hhn : s.head % n = s.out.length % n := by rw [hh]; exact Nat.mod_mod_of_dvd _ hd
    rcases inv.cover s.out.length (Nat.le_refl _) h3 with hc | hc
    · simp only [step, h2, hne, hhn, Bool.false_eq_true, if_false]
      cases hs : s.slot (s.out.length % n) with
      | none => exact absurd hs hc
      | some e => rfl
    · rw [h1] at hc; cases hc

/-! ### The wrap-around of the counters -/

/-- An empty ring whose counters stand at `k`, after the elements `l` went through. -/
def quiet (k : Nat) (l : List E) : State E := ⟨k, k, fun _ => none, [], false, l, l⟩

/-- Putting one element in and taking it out again. -/
theorem cycle {n k : Nat} {l : List E} (e : E) (hn : 0 < n) (hk : k + 1 < 2 ^ 32) (h : Reachable n (quiet k l)) :
    Reachable n (quiet (k + 1) (l ++ [e])) := by
  have h1 : Reachable n ⟨k + 1, k, fun _ => none, [(k % n, e)], false, l ++ [e], l⟩ := by
    refine .step (.reserve e) h ?_ ?_
    · intro _ _; simp [isFull, count, quiet]; omega
    · simp only [step, quiet, Option.some.injEq, State.mk.injEq, and_true, List.nil_append]
      omega
  have h2 : Reachable n ⟨k + 1, k, setSlot (fun _ => none) (k % n) (some e), [], false, l ++ [e], l⟩ :=
    .step (.store 0) h1 (fun _ hx => by cases hx) rfl
  have h3 : Reachable n ⟨k + 1, k, setSlot (setSlot (fun _ => none) (k % n) (some e)) (k % n) none, [], true, l ++ [e], l ++ [e]⟩ := by
    refine .step .take h2 (fun _ hx => by cases hx) ?_
    simp [step, isEmpty, setSlot]
  have hz : setSlot (setSlot (fun _ => none) (k % n) (some e)) (k % n) none = fun _ => none := by
    funext j
    simp only [setSlot]
    split
    · rfl
    · rfl
  rw [hz] at h3
  refine .step .advance h3 (fun _ hx => by cases hx) ?_
  simp only [step, quiet, if_true, Option.some.injEq, State.mk.injEq, and_true, true_and]
  omega

theorem quiet_reachable {n : Nat} (hn : 0 < n) (e : E) (k : Nat) (hk : k < 2 ^ 32) : Reachable n (quiet k (List.replicate k e)) := by
  induction k with
  | zero => exact .init
  | succ k ih =>
    rw [List.replicate_succ']
    exact cycle e hn hk (ih (by omega))

/-- C30 fails for other ring sizes: in a ring of three slots that is never over-filled, after 2^32 - 1
elements have passed through, the next two elements get the same slot; the first of them is
overwritten and the second comes out in its place. -/
theorem pcq_wrap_loses_element : ∃ s : State Nat, Reachable 3 s ∧ 7 ∈ s.inp ∧ 7 ∉ s.out ∧ 8 ∈ s.out ∧ s.pend = [] ∧
    (∀ k, s.slot k = none) ∧ ¬ s.out <+: s.inp := by
  obtain ⟨k, hk⟩ : ∃ k, k = 2 ^ 32 - 1 := ⟨_, rfl⟩
  have r0 := quiet_reachable (E := Nat) (n := 3) (by omega) 0 k (by omega)
  obtain ⟨l, hl⟩ : ∃ l, l = List.replicate k 0 := ⟨_, rfl⟩
  have hmem : ∀ x ∈ l, x = 0 := fun x hx => by rw [hl] at hx; exact (List.mem_replicate.1 hx).2
  rw [← hl] at r0
  have hk3 : k % 3 = 0 := by omega
  have r1 : Reachable 3 ⟨0, k, fun _ => none, [(0, 7)], false, l ++ [7], l⟩ := by
    refine .step (.reserve 7) r0 (fun _ _ => ?_) ?_
    · simp [isFull, count, quiet]
    · have h1 : (k + 1) % 2 ^ 32 = 0 := by omega
      simp only [step, quiet, h1, hk3, List.nil_append]
  have r2 : Reachable 3 ⟨1, k, fun _ => none, [(0, 7), (0, 8)], false, l ++ [7] ++ [8], l⟩ := by
    refine .step (.reserve 8) r1 (fun _ _ => ?_) ?_
    · have : (0 + 2 ^ 32 - k) % 2 ^ 32 ≠ 3 := by omega
      simpa only [isFull, count, beq_eq_false_iff_ne] using this
    · have h1 : (0 + 1) % 2 ^ 32 = 1 := by omega
      simp only [step, h1, Nat.zero_mod, List.cons_append, List.nil_append]
  have r3 : Reachable 3 ⟨1, k, setSlot (fun _ => none) 0 (some 7), [(0, 8)], false, l ++ [7] ++ [8], l⟩ :=
    .step (.store 0) r2 (fun _ h => by cases h) rfl
  have r4 : Reachable 3 ⟨1, k, setSlot (setSlot (fun _ => none) 0 (some 7)) 0 (some 8), [], false, l ++ [7] ++ [8], l⟩ :=
    .step (.store 0) r3 (fun _ h => by cases h) rfl
  have r5 : Reachable 3 ⟨1, k, setSlot (setSlot (setSlot (fun _ => none) 0 (some 7)) 0 (some 8)) 0 none, [], true,
      l ++ [7] ++ [8], l ++ [8]⟩ := by
    refine .step .take r4 (fun _ h => by cases h) ?_
    have h1 : (k == 1) = false := by simp; omega
    simp only [step, isEmpty, hk3, h1, Bool.false_eq_true, if_false, setSlot, if_true]
  refine ⟨_, r5, by simp, ?_, by simp, rfl, ?_, ?_⟩
  · intro h
    rcases List.mem_append.1 h with h | h
    · exact absurd (hmem 7 h) (by omega)
    · simp at h
  · intro j
    show setSlot _ 0 none j = none
    by_cases hj : j = 0
    · rw [setSlot, if_pos hj]
    · rw [setSlot, if_neg hj, setSlot, if_neg hj, setSlot, if_neg hj]
  · intro h
    have h : l ++ [8] <+: l ++ [7] ++ [8] := h
    rw [List.append_assoc, List.prefix_append_right_inj] at h
    simp at h

/-- Two producers and the consumer interleaved in a ring of four slots: the second producer stores first. -/
example : ∃ s : State Nat, Reachable 4 s ∧ s.inp = [7, 8] ∧ s.out = [7] ∧ s.slot 1 = some 8 := by
  have r1 : Reachable (E := Nat) 4 ⟨1, 0, fun _ => none, [(0, 7)], false, [7], []⟩ :=
    .step (.reserve 7) .init (fun _ _ => by simp [isFull, count, init]) (by simp [step, init])
  have r2 : Reachable (E := Nat) 4 ⟨2, 0, fun _ => none, [(0, 7), (1, 8)], false, [7, 8], []⟩ :=
    .step (.reserve 8) r1 (fun _ _ => by simp [isFull, count]) (by simp [step])
  have r3 : Reachable (E := Nat) 4 ⟨2, 0, setSlot (fun _ => none) 1 (some 8), [(0, 7)], false, [7, 8], []⟩ :=
    .step (.store 1) r2 (fun _ h => by cases h) (by simp [step])
  have r4 : Reachable (E := Nat) 4 ⟨2, 0, setSlot (setSlot (fun _ => none) 1 (some 8)) 0 (some 7), [], false, [7, 8], []⟩ :=
    .step (.store 0) r3 (fun _ h => by cases h) (by simp [step])
  have r5 : Reachable (E := Nat) 4
      ⟨2, 0, setSlot (setSlot (setSlot (fun _ => none) 1 (some 8)) 0 (some 7)) 0 none, [], true, [7, 8], [7]⟩ :=
    .step .take r4 (fun _ h => by cases h) (by simp [step, isEmpty, setSlot])
  exact ⟨_, r5, rfl, rfl, rfl⟩

end Splinter.Pcq
