import Verif.Model.BtreeScan
import Verif.Proof.BtreeInsertSys
/-!
What a step of an insert does to generations and to the ranges of leaves.
-/
namespace Splinter.BtreeIns
open Btree Search

variable {K M : Type} [LinearOrder K] [BoundedOrder K] [Inhabited K]

/-- A step that may be taken beside more readers may be taken beside fewer. -/
theorem thrStep_mono {mrg : K → M → M → M} {sole sole' : List Nat → Bool} {st : Store K M} {root now : Nat}
    {k : K} {m : M} {pc : Pc M} {c : Choice} {r : Store K M × Pc M × Bool}
    (hs : ∀ l, sole' l = true → sole l = true)
    (he : thrStep mrg sole' st root now k m pc c = some r) :
    thrStep mrg sole st root now k m pc c = some r := by
  have key : ∀ l (α : Type) (x : Option α) y, (if !sole' l then none else x) = some y →
      (if !sole l then none else x) = some y := by
    intro l α x y h
    cases h' : sole' l with
    | false => simp [h'] at h
    | true => simpa [h', hs l h'] using h
  cases pc with
  | rootLeaf s =>
    simp only [thrStep] at he ⊢
    split at he
    · rename_i h; rw [if_pos h]; exact he
    · rename_i h; rw [if_neg h]; exact key _ _ _ _ he
  | rootIx =>
    simp only [thrStep] at he ⊢
    split at he
    · split at he
      · rename_i h
        rw [if_pos h]
        split at he
        · rename_i h; rw [if_pos h]; exact he
        · rename_i h; rw [if_neg h]; exact key _ _ _ _ he
      · rename_i h; rw [if_neg h]; exact he
    · cases he
  | «at» p i ch h =>
    simp only [thrStep] at he ⊢
    split at he
    · rename_i h
      rw [if_pos h]
      split at he
      · cases he
      · split at he
        · rename_i h
          rw [if_pos h]
          split at he
          · rename_i h; rw [if_pos h]; exact he
          · rename_i h; rw [if_neg h]; exact key _ _ _ _ he
        · rename_i h; rw [if_neg h]; exact he
    · rename_i h; rw [if_neg h]; exact he
  | ready ch s =>
    simp only [thrStep] at he ⊢
    split at he
    · rename_i h; rw [if_pos h]; exact he
    · rename_i h; rw [if_neg h]; exact key _ _ _ _ he
  | both p i ch s =>
    simp only [thrStep] at he ⊢
    split at he
    · rename_i h; rw [if_pos h]; exact he
    · rename_i h
      rw [if_neg h]
      split at he
      · rename_i h; rw [if_pos h]; exact he
      · rename_i h
        rw [if_neg h]
        split at he
        · cases he
        · exact key _ _ _ _ he
  | defrag ch s =>
    simp only [thrStep] at he ⊢
    exact key _ _ _ _ he
  | _ => exact he

/-- The system without its scans. -/
theorem sstep_base {mrg : K → M → M → M} {root : Nat} {s s' : SSys K M} {a : SAct K M}
    (h : sstep mrg root s a = some s') : s'.base = s.base ∨ ∃ b, step mrg root s.base b = some s'.base := by
  cases a with
  | insert k m =>
    simp only [sstep] at h
    obtain ⟨b, h1, rfl⟩ := Option.map_eq_some_iff.1 h
    exact .inr ⟨_, h1⟩
  | lookup k =>
    simp only [sstep] at h
    obtain ⟨b, h1, rfl⟩ := Option.map_eq_some_iff.1 h
    exact .inr ⟨_, h1⟩
  | go t c =>
    right
    simp only [sstep] at h
    split at h
    · cases h
    · rename_i x hx
      split at h
      · rename_i m hm
        split at h
        · cases h
        · rename_i st' pc' eff he
          have he := thrStep_mono (sole := soleReader root s.base.thr t)
            (fun l hl => by simp only [Bool.and_eq_true] at hl; exact hl.1) he
          simp only [Option.some.injEq] at h
          refine ⟨.go t c, ?_⟩
          simp only [step, hx, hm, he]
          simp [← h, hm]
      · obtain ⟨b, h1, rfl⟩ := Option.map_eq_some_iff.1 h
        exact ⟨_, h1⟩
  | scan lo hi start strict =>
    simp only [sstep, Option.some.injEq] at h
    subst h
    exact .inl rfl
  | iter i claim =>
    simp only [sstep] at h
    split at h
    · cases h
    · split at h
      · cases h
      · simp only [Option.some.injEq] at h
        subst h
        exact .inl rfl

theorem sreachable_base {mrg : K → M → M → M} {root : Nat} {s : SSys K M} (h : SReachable mrg root s) :
    Reachable mrg root s.base := by
  induction h with
  | create => exact .create
  | step _ h ih =>
    rcases sstep_base h with e | ⟨b, e⟩
    · rw [e]; exact ih
    · exact .step ih e

/-! ### New pages -/

omit [BoundedOrder K] [Inhabited K] [LinearOrder K] in
theorem putBody_none {st : Store K M} {a x : Nat} {b : Body K M} (h : st x = none) : putBody st a b x = none := by
  unfold putBody setAt
  split
  · rename_i h'; subst h'; rw [h]; rfl
  · exact h

omit [BoundedOrder K] [Inhabited K] [LinearOrder K] in
theorem setMin_none {st st' : Store K M} {a x : Nat} {k : K} (he : setMin st a k = some st') (h : st x = none) :
    st' x = none := by
  unfold setMin at he
  split at he
  · simp only [Option.some.injEq] at he
    subst he
    exact putBody_none h
  · cases he

omit [BoundedOrder K] [Inhabited K] [LinearOrder K] in
theorem growRoot_none {st st' : Store K M} {root new x : Nat} (he : growRoot st root new = some st') (h : st x = none)
    (hx : x ≠ new) : st' x = none := by
  unfold growRoot at he
  split at he
  · rename_i n f hn hf
    split at he
    · simp only [Option.some.injEq] at he
      subst he
      have : x ≠ root := by rintro rfl; rw [h] at hn; cases hn
      simp [setAt, hx, this, h]
    · cases he
  · cases he

omit [BoundedOrder K] [Inhabited K] [LinearOrder K] in
theorem addPivot_none {st st' : Store K M} {p i new x : Nat} {k : K} (he : addPivot st p i k new = some st')
    (h : st x = none) : st' x = none := by
  unfold addPivot at he
  split at he
  · cases he
  · simp only [Option.some.injEq] at he
    subst he
    exact putBody_none h

omit [BoundedOrder K] [Inhabited K] [LinearOrder K] in
theorem splitIndex_none {st st' : Store K M} {p i c split new j q j2 x : Nat}
    (he : splitIndex st p i c split new j = some (st', q, j2)) (h : st x = none) (hx : x ≠ new) : st' x = none := by
  unfold splitIndex at he
  split at he
  · split at he
    · cases he
    · split at he
      · split at he
        · cases he
        · rename_i st1 h1
          have : putBody (setAt st1 new (some { ‹Node K M› with body := .index (List.drop split ‹List (Entry K)›) }))
              c (.index (List.take split ‹List (Entry K)›)) x = none := by
            apply putBody_none
            simp [setAt, hx, addPivot_none h1 h]
          split at he <;>
          · simp only [Option.some.injEq, Prod.mk.injEq] at he
            rw [← he.1]
            exact this
      · cases he
  · cases he

omit [BoundedOrder K] [Inhabited K] in
theorem splitLeaf_none {st st' : Store K M} {p i c new split x : Nat} {k : K} {s : Spec M} {left : Bool}
    (he : splitLeaf st p i c new k s split left = some st') (h : st x = none) (hx : x ≠ new) : st' x = none := by
  unfold splitLeaf at he
  split at he
  · rename_i n es hn _
    have hxc : x ≠ c := by rintro rfl; rw [h] at hn; cases hn
    split at he
    · cases he
    · split at he
      · split at he
        · cases he
        · rename_i st1 h1
          have h1 := addPivot_none h1 h
          simp only [Option.some.injEq] at he
          rw [← he]
          simp only [setAt, hxc, hx, if_false]
          split
          · exact h1
          · unfold setAt
            split
            · rename_i h'; rw [← h', h1]; rfl
            · exact h1
      · cases he
  · cases he

omit [BoundedOrder K] [Inhabited K] [LinearOrder K] in
/-- A split that happened was given a page that was not there. -/
theorem splitLeaf_fresh {st st' : Store K M} {p i c new split : Nat} {k : K} {s : Spec M} {left : Bool}
    (he : splitLeaf st p i c new k s split left = some st') : st new = none := by
  unfold splitLeaf at he
  split at he
  · split at he
    · cases he
    · split at he
      · rename_i h
        have := h.1
        simp only [isFresh, Bool.and_eq_true, Option.isNone_iff_eq_none] at this
        exact this.1
      · cases he
  · cases he

/-- The only page a step adds. -/
theorem thrStep_new {mrg : K → M → M → M} {sole : List Nat → Bool} {st st' : Store K M} {root now : Nat}
    {k : K} {m : M} {pc pc' : Pc M} {c : Choice} {eff : Bool} {x : Nat}
    (he : thrStep mrg sole st root now k m pc c = some (st', pc', eff)) (h : st x = none) (hx : x ≠ c.new) :
    st' x = none := by
  have stay : ∀ {a b : Pc M} {e e' : Bool}, some (st, a, e) = some (st', b, e') → st' x = none := by
    intro a b e e' h'
    simp only [Option.some.injEq, Prod.mk.injEq] at h'
    rw [← h'.1]; exact h
  have put : ∀ {a : Nat} {y : Body K M} {p q : Pc M} {e e' : Bool},
      some (putBody st a y, p, e) = some (st', q, e') → st' x = none := by
    intro a y p q e e' h'
    simp only [Option.some.injEq, Prod.mk.injEq] at h'
    rw [← h'.1]; exact putBody_none h
  cases pc with
  | idle => exact stay he
  | root =>
    simp only [thrStep] at he
    repeat' split at he
    all_goals first | exact stay he | cases he
  | rootLeaf s =>
    simp only [thrStep] at he
    repeat' split at he
    all_goals first
      | exact stay he
      | exact put he
      | cases he
      | skip
    obtain ⟨st1, h1, h2⟩ := Option.map_eq_some_iff.1 he
    simp only [Prod.mk.injEq] at h2
    rw [← h2.1]
    exact growRoot_none h1 h hx
  | rootIx =>
    simp only [thrStep] at he
    split at he
    case h_2 => cases he
    split at he
    case isFalse => exact stay he
    split at he
    · exact stay he
    split at he
    · cases he
    split at he
    · cases he
    rename_i st1 j hfix
    split at he
    · cases he
    simp only [Option.some.injEq, Prod.mk.injEq] at he
    rw [← he.1]
    unfold fixRoot at hfix
    simp only at hfix
    split at hfix
    · cases hfix
    · rename_i s1 h1
      have e1 : s1 x = none := by
        split at h1
        · exact setMin_none h1 h
        · simp only [Option.some.injEq] at h1; rw [← h1]; exact h
      split at hfix
      · cases hfix
      · rename_i s2 h2
        have e2 : s2 x = none := by
          split at h2
          · exact growRoot_none h2 e1 hx
          · simp only [Option.some.injEq] at h2; rw [← h2]; exact e1
        split at hfix
        · obtain ⟨s3, h3, h4⟩ := Option.map_eq_some_iff.1 hfix
          simp only [Prod.mk.injEq] at h4
          rw [← h4.1]
          exact setMin_none h3 e2
        · simp only [Option.some.injEq, Prod.mk.injEq] at hfix
          rw [← hfix.1]; exact e2
  | «have» p i g =>
    simp only [thrStep] at he
    repeat' split at he
    all_goals first | exact stay he | cases he
  | «at» p i ch g =>
    simp only [thrStep] at he
    repeat' split at he
    all_goals first
      | exact stay he
      | cases he
      | skip
    obtain ⟨⟨st1, q, j2⟩, hfix, h3⟩ := Option.map_eq_some_iff.1 he
    simp only [Prod.mk.injEq] at h3
    rw [← h3.1]
    unfold fixChild at hfix
    simp only at hfix
    split at hfix
    · cases hfix
    · rename_i s1 h1
      have e1 : s1 x = none := by
        split at h1
        · exact setMin_none h1 h
        · simp only [Option.some.injEq] at h1; rw [← h1]; exact h
      split at hfix
      · cases hfix
      · rename_i s2 q' j' h2
        have e2 : s2 x = none := by
          split at h2
          · split at h2
            · simp only [Option.some.injEq, Prod.mk.injEq] at h2; rw [← h2.1]; exact e1
            · exact splitIndex_none h2 e1 hx
          · simp only [Option.some.injEq, Prod.mk.injEq] at h2; rw [← h2.1]; exact e1
        split at hfix
        · obtain ⟨s3, h3, h4⟩ := Option.map_eq_some_iff.1 hfix
          simp only [Prod.mk.injEq] at h4
          rw [← h4.1]
          exact setMin_none h3 e2
        · simp only [Option.some.injEq, Prod.mk.injEq] at hfix
          rw [← hfix.1]; exact e2
  | leaf p i ch s =>
    simp only [thrStep] at he
    repeat' split at he
    all_goals first | exact stay he | cases he
  | ready ch s =>
    simp only [thrStep] at he
    repeat' split at he
    all_goals first | exact stay he | exact put he | cases he
  | claimP p i ch s rb =>
    simp only [thrStep] at he
    repeat' split at he
    all_goals first | exact stay he | cases he
  | noChild p i ch s => exact stay he
  | both p i ch s =>
    simp only [thrStep] at he
    split at he
    · exact stay he
    · split at he
      · exact stay he
      · split at he
        · cases he
        · rename_i n _
          cases hs : sole (p :: ch :: if n.next = 0 then [] else [n.next]) with
          | false => simp [hs] at he
          | true =>
            rw [hs] at he
            obtain ⟨st1, h1, h2⟩ := Option.map_eq_some_iff.1 he
            simp only [Prod.mk.injEq] at h2
            rw [← h2.1]
            exact splitLeaf_none h1 h hx
  | defrag ch s =>
    simp only [thrStep] at he
    repeat' split at he
    all_goals first | exact put he | cases he
  | _ => simp [thrStep] at he

end Splinter.BtreeIns
