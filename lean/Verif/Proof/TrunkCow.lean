import Verif.Model.TrunkCow

/-! # Proofs about changing the trunk under running lookups: paths -/
namespace Splinter.Trunk.Cow

variable {R : Type}

/-- `l` are the pages from `a` down to the leaf. -/
inductive Path (h : Nat → Node R) : Nat → List Nat → Prop
  | leaf {a : Nat} : (h a).child = none → Path h a [a]
  | down {a c : Nat} {l : List Nat} : (h a).child = some c → Path h c l → Path h a (a :: l)

/-- What the pages hold. -/
def content (h : Nat → Node R) (l : List Nat) : List R := l.flatMap fun a => (h a).refs

theorem upd_same {β : Type} (f : Nat → β) (i : Nat) (x : β) : upd f i x i = x := by
  simp [upd, RwLock.upd]

theorem upd_ne {β : Type} (f : Nat → β) {i j : Nat} (x : β) (h : j ≠ i) : upd f i x j = f j := by
  simp [upd, RwLock.upd, h]

theorem upd_eq {β : Type} (f : Nat → β) (i j : Nat) (x : β) :
    upd f i x j = if j = i then x else f j := rfl

theorem content_append (h : Nat → Node R) (l m : List Nat) :
    content h (l ++ m) = content h l ++ content h m := by simp [content]

theorem content_cons (h : Nat → Node R) (a : Nat) (l : List Nat) :
    content h (a :: l) = (h a).refs ++ content h l := by simp [content]

theorem content_congr {h h' : Nat → Node R} {l : List Nat} (e : ∀ a ∈ l, (h' a).refs = (h a).refs) :
    content h' l = content h l := by
  induction l with
  | nil => rfl
  | cons a l ih => rw [content_cons, content_cons, e a (by simp), ih (fun b hb => e b (by simp [hb]))]

theorem mem_content {h : Nat → Node R} {l : List Nat} {x : R} :
    x ∈ content h l ↔ ∃ a ∈ l, x ∈ (h a).refs := by simp [content]

namespace Path

theorem ne_nil {h : Nat → Node R} {a : Nat} {l : List Nat} (p : Path h a l) : l ≠ [] := by
  cases p <;> simp

theorem head {h : Nat → Node R} {a : Nat} {l : List Nat} (p : Path h a l) : l[0]? = some a := by
  cases p <;> rfl

theorem unique {h : Nat → Node R} {a : Nat} {l l' : List Nat} (p : Path h a l) (q : Path h a l') :
    l = l' := by
  induction p generalizing l' with
  | leaf e =>
    cases q with
    | leaf => rfl
    | down e' => rw [e] at e'; cases e'
  | down e _ ih =>
    cases q with
    | leaf e' => rw [e] at e'; cases e'
    | down e' q => rw [e] at e'; cases e'; rw [ih q]

/-- From any page of a path, the rest is its path. -/
theorem drop {h : Nat → Node R} {a : Nat} {l : List Nat} (p : Path h a l) (i b : Nat)
    (e : l[i]? = some b) : Path h b (l.drop i) := by
  induction p generalizing i with
  | leaf e' =>
    cases i with
    | zero => simp at e; subst e; exact .leaf e'
    | succ i => simp at e
  | down e' q ih =>
    cases i with
    | zero => simp at e; subst e; exact .down e' q
    | succ i => exact ih i (by simpa using e)

theorem child {h : Nat → Node R} {a : Nat} {l : List Nat} (p : Path h a l) {i b c : Nat}
    (e : l[i]? = some b) (ec : (h b).child = some c) : l[i + 1]? = some c := by
  have q := p.drop i b e
  generalize hm : l.drop i = m at q
  cases q with
  | leaf e' => rw [ec] at e'; cases e'
  | down e' q =>
    rw [ec] at e'; cases e'
    have := q.head
    have h1 : (l.drop i)[1]? = some c := by rw [hm]; simpa using this
    simpa using h1

theorem last {h : Nat → Node R} {a : Nat} {l : List Nat} (p : Path h a l) {i b : Nat}
    (e : l[i]? = some b) (ec : (h b).child = none) : l.length = i + 1 := by
  have q := p.drop i b e
  generalize hm : l.drop i = m at q
  cases q with
  | leaf e' =>
    have h1 : (l.drop i).length = 1 := by rw [hm]; rfl
    have := (List.getElem?_eq_some_iff.mp e).1
    simp at h1; omega
  | down e' q => rw [ec] at e'; cases e'

theorem parent {h : Nat → Node R} {a : Nat} {l : List Nat} (p : Path h a l) {i c : Nat}
    (e : l[i + 1]? = some c) : ∃ b, l[i]? = some b ∧ (h b).child = some c := by
  have hi : i + 1 < l.length := (List.getElem?_eq_some_iff.mp e).1
  refine ⟨l[i], List.getElem?_eq_getElem (by omega), ?_⟩
  cases hc : (h l[i]).child with
  | none =>
    have := p.last (List.getElem?_eq_getElem (by omega)) hc
    omega
  | some d =>
    have := p.child (List.getElem?_eq_getElem (by omega)) hc
    rw [e] at this
    rw [this]

theorem nodup {h : Nat → Node R} {a : Nat} {l : List Nat} (p : Path h a l) : l.Nodup := by
  induction p with
  | leaf => simp
  | @down a c l e q ih =>
    refine List.nodup_cons.mpr ⟨fun hm => ?_, ih⟩
    obtain ⟨i, hi, e'⟩ := List.getElem_of_mem hm
    have h1 := q.drop i a (by rw [List.getElem?_eq_getElem hi, e'])
    have h2 := h1.unique (.down e q)
    have := congrArg List.length h2
    simp at this; omega

theorem index {h : Nat → Node R} {a : Nat} {l : List Nat} (p : Path h a l) {i j b : Nat}
    (e : l[i]? = some b) (e' : l[j]? = some b) : i = j := by
  exact (List.getElem?_inj (List.getElem?_eq_some_iff.mp e).1 p.nodup).mp (e.trans e'.symm)

/-- Pages that keep their child keep the path. -/
theorem congr {h h' : Nat → Node R} {a : Nat} {l : List Nat} (p : Path h a l)
    (e : ∀ b ∈ l, (h' b).child = (h b).child) : Path h' a l := by
  induction p with
  | leaf e' => exact .leaf ((e _ (by simp)).trans e')
  | down e' _ ih => exact .down ((e _ (by simp)).trans e') (ih fun b hb => e b (by simp [hb]))

/-- A page and a copy of it lead to the same place. -/
theorem copy {h : Nat → Node R} {a b : Nat} {l : List Nat} (p : Path h a l)
    (e : (h b).child = (h a).child) : Path h b (b :: l.tail) := by
  cases p with
  | leaf e' => exact .leaf (e.trans e')
  | down e' q => exact .down (e.trans e') q

/-- Replacing a page in the middle by a copy. -/
theorem replace {h h' : Nat → Node R} {a cur c new : Nat} {l : List Nat} (p : Path h a l)
    (hc : (h cur).child = some c) (hl : cur ∈ l) (hn : new ∉ l)
    (ecur : (h' cur).child = some new) (enew : (h' new).child = (h c).child)
    (eo : ∀ b ∈ l, b ≠ cur → (h' b).child = (h b).child) :
    Path h' a (l.map fun b => if b = c then new else b) := by
  have nd := p.nodup
  induction p with
  | @leaf a e =>
    simp at hl; subst hl; rw [hc] at e; cases e
  | @down a d l e q ih =>
    by_cases hac : a = cur
    · subst hac
      rw [hc] at e; cases e
      have hne : a ≠ c := by
        intro e; subst e
        have := q.head
        exact (List.nodup_cons.mp nd).1 (List.mem_of_getElem? this)
      have hnc := q.nodup
      rw [List.map_cons, if_neg hne]
      refine .down ecur ?_
      cases q with
      | leaf e1 => simpa using Path.leaf (enew.trans e1)
      | @down _ d l e1 q1 =>
        rw [List.map_cons, if_pos rfl]
        have hid : (l.map fun b => if b = c then new else b) = l := by
          conv => rhs; rw [← List.map_id l]
          apply List.map_congr_left
          intro b hb
          rw [if_neg]; rfl
          intro e; subst e; exact (List.nodup_cons.mp hnc).1 hb
        rw [hid]
        refine .down (enew.trans e1) (q1.congr fun b hb => eo b (by simp [hb]) ?_)
        intro e; subst e
        exact (List.nodup_cons.mp nd).1 (by simp [hb])
    · have hcl : cur ∈ l := by simpa [Ne.symm hac] using hl
      have ih' := ih hcl (fun h => hn (by simp [h])) (fun b hb => eo b (by simp [hb])) q.nodup
      have hacc : a ≠ c := by
        intro e1; subst e1
        obtain ⟨i, hi, e2⟩ := List.getElem_of_mem hcl
        have := q.child (by rw [List.getElem?_eq_getElem hi, e2]) hc
        exact (List.nodup_cons.mp nd).1 (List.mem_of_getElem? this)
      rw [List.map_cons, if_neg hacc]
      have hd := q.head
      by_cases hdc : d = c
      · subst hdc
        obtain ⟨i, hi, e2⟩ := List.getElem_of_mem hcl
        have := q.child (by rw [List.getElem?_eq_getElem hi, e2]) hc
        have := q.index this hd
        omega
      · have e3 := eo a (by simp) hac
        rw [e] at e3
        exact .down e3 ih'

end Path
end Splinter.Trunk.Cow
