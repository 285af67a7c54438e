import Mathlib.Data.List.Nodup
import Verif.Model.Pack
import Verif.Proof.Btree
/-!
The invariant of bulk loading: the pages that are still open at each height, read from the
top level down, hold the tuples packed so far in order.
-/
namespace Splinter.Btree
open Search

variable {K M : Type}

/-! ### Lists of open pages -/

section
variable {α : Type}

/-- All levels from the top down. -/
def ord (f : Nat → List α) : Nat → List α
  | 0 => f 0
  | n + 1 => f (n + 1) ++ ord f n

theorem ord_congr {f g : Nat → List α} : ∀ {n : Nat}, (∀ i ≤ n, g i = f i) → ord g n = ord f n := by
  intro n
  induction n with
  | zero => intro h; exact h 0 (Nat.le_refl _)
  | succ n ih =>
    intro h
    simp only [ord]
    rw [h _ (Nat.le_refl _), ih fun i hi => h i (by omega)]

theorem ord_at (f : Nat → List α) (h : Nat) : ∀ n, h ≤ n → ∃ A B,
    (∀ g : Nat → List α, (∀ i, i ≠ h → g i = f i) → ord g n = A ++ (g h ++ B)) ∧ (h = 0 → B = []) := by
  intro n
  induction n with
  | zero =>
    intro hn
    have : h = 0 := by omega
    subst this
    exact ⟨[], [], fun g _ => by simp [ord], fun _ => rfl⟩
  | succ n ih =>
    intro hn
    by_cases e : h = n + 1
    · subst e
      refine ⟨[], ord f n, fun g hg => ?_, fun h => by omega⟩
      simp only [ord, List.nil_append]
      rw [ord_congr fun i hi => hg i (by omega)]
    · obtain ⟨A, B, h1, h2⟩ := ih (by omega)
      refine ⟨f (n + 1) ++ A, B, fun g hg => ?_, h2⟩
      simp only [ord]
      rw [hg _ (by omega), h1 g hg, List.append_assoc]

theorem ord_pair (f : Nat → List α) (h : Nat) : ∀ n, h + 1 ≤ n → ∃ A B,
    ∀ g : Nat → List α, (∀ i, i ≠ h → i ≠ h + 1 → g i = f i) →
      ord g n = A ++ (g (h + 1) ++ (g h ++ B)) := by
  intro n
  induction n with
  | zero => intro hn; omega
  | succ n ih =>
    intro hn
    by_cases e : h = n
    · subst e
      cases h with
      | zero => exact ⟨[], [], fun g _ => by simp [ord]⟩
      | succ h =>
        refine ⟨[], ord f h, fun g hg => ?_⟩
        simp only [ord, List.nil_append]
        rw [ord_congr fun i hi => hg i (by omega) (by omega)]
    · obtain ⟨A, B, h1⟩ := ih (by omega)
      refine ⟨f (n + 1) ++ A, B, fun g hg => ?_⟩
      simp only [ord]
      rw [hg _ (by omega) (by omega), h1 g hg, List.append_assoc]

theorem mem_ord {f : Nat → List α} {x : α} : ∀ {n : Nat}, x ∈ ord f n ↔ ∃ i ≤ n, x ∈ f i := by
  intro n
  induction n with
  | zero => simp [ord]
  | succ n ih =>
    simp only [ord, List.mem_append, ih]
    constructor
    · rintro (h | ⟨i, hi, h⟩)
      · exact ⟨n + 1, Nat.le_refl _, h⟩
      · exact ⟨i, by omega, h⟩
    · rintro ⟨i, hi, h⟩
      by_cases e : i = n + 1
      · subst e; exact Or.inl h
      · exact Or.inr ⟨i, by omega, h⟩

@[simp] theorem setAt_same {f : Nat → α} {i : Nat} {x : α} : setAt f i x i = x := by simp [setAt]

theorem setAt_ne {f : Nat → α} {i j : Nat} {x : α} (h : j ≠ i) : setAt f i x j = f j := by
  simp [setAt, h]

end

/-! ### The chain of leaves -/

/-- Leaves `L` are linked in order, after page `p` and before page `z`. -/
def Linked (st : Store K M) : Nat → List Nat → Nat → Prop
  | _, [], _ => True
  | p, a :: l, z => (∃ n, st a = some n ∧ n.prev = p ∧ n.next = l.head?.getD z) ∧ Linked st a l z

theorem linked_append {st : Store K M} {z : Nat} {m : List Nat} : ∀ {l : List Nat} {p : Nat},
    Linked st p (l ++ m) z ↔ Linked st p l (m.head?.getD z) ∧ Linked st (l.getLast?.getD p) m z := by
  intro l
  induction l with
  | nil => intro p; simp [Linked]
  | cons a l ih =>
    intro p
    simp only [List.cons_append, Linked, ih]
    cases l with
    | nil => simp [Linked]
    | cons b l =>
      simp only [List.cons_append, List.head?_cons, Option.getD_some, List.getLast?_cons_cons]
      tauto

theorem linked_congr {st st' : Store K M} {z : Nat} : ∀ {l : List Nat} {p : Nat},
    (∀ b ∈ l, (st' b).map (fun n => (n.prev, n.next)) = (st b).map (fun n => (n.prev, n.next))) →
      Linked st p l z → Linked st' p l z := by
  intro l
  induction l with
  | nil => intro p _ _; trivial
  | cons a l ih =>
    intro p hs H
    obtain ⟨⟨n, e1, e2, e3⟩, H⟩ := H
    refine ⟨?_, ih (fun b hb => hs b (by simp [hb])) H⟩
    have := hs a (by simp)
    rw [e1] at this
    obtain ⟨n', e1', c⟩ := Option.map_eq_some_iff.1 this
    simp only [Prod.mk.injEq] at c
    exact ⟨n', e1', c.1.trans e2, c.2.trans e3⟩

variable [LinearOrder K]

/-- What holds of an index entry of a packed tree and the tuples below it: the separator is
the first key and the counters are right. -/
def PE (P : Env K M) (e : Entry K) (l : List (K × M)) : Prop :=
  l.head?.map (·.1) = some e.key ∧ SOk P.ksz P.msz e.stats l

/-- A page without entries. -/
def empt (h a : Nat) : Sub K M := ⟨[], if h = 0 then [a] else [], [a]⟩

abbrev Open (K M : Type) := Nat → List (Nat × Sub K M)

/-- Invariant: `off h` pages of height `h` are already linked to their parents, `pend h` are
the others. `z` is the page that will follow the last leaf. One page, at height `w`, may be
empty. -/
structure PInv (P : Env K M) (r : Req K M) (off : Nat → Nat) (pend : Open K M) (xs : List (K × M))
    (z : Nat) (w : Option Nat) : Prop where
  edges : ∀ h, (r.edges h).drop (off h) = (pend h).map (·.1)
  offle : ∀ h, off h ≤ (r.edges h).length
  holds : ∀ h, ∀ p ∈ pend h, Holds (PE P) r.store h p.1 p.2
  ne : ∀ h, ∀ p ∈ pend h, p.2.items = [] → w = some h
  stat : ∀ h i p, (pend h)[i]? = some p → SOk P.ksz P.msz (r.stats h (off h + i)) p.2.items
  zero : ∀ h i, i < off h ∨ (r.edges h).length ≤ i → r.stats h i = .zero
  items : (ord pend maxHeight).flatMap (·.2.items) = xs
  sorted : xs.Pairwise (fun x y => x.1 < y.1)
  nodup : ((ord pend maxHeight).flatMap (·.2.fp)).Nodup
  pages : ∀ b ∈ (ord pend maxHeight).flatMap (·.2.fp), ∃ i, 0 < i ∧ i < r.count ∧ b = P.page i
  chain : Linked r.store 0 ((ord pend maxHeight).flatMap (·.2.leaves)) z
  top : ∀ h, r.height < h → r.edges h = []
  topne : 0 < r.height → r.edges r.height ≠ []
  height : r.height < maxHeight
  count : 0 < r.count

/-- What an operation on heights `h` and above leaves alone. -/
structure Above (P : Env K M) (h : Nat) (r : Req K M) (pend : Open K M) (r' : Req K M)
    (pend' : Open K M) : Prop where
  edges : ∀ g < h, r'.edges g = r.edges g
  stats : ∀ g < h, r'.stats g = r.stats g
  same : ∀ g < h, pend' g = pend g
  count : r.count ≤ r'.count
  tuples : r'.numTuples = r.numTuples
  kb : r'.keyBytes = r.keyBytes
  mb : r'.msgBytes = r.msgBytes
  fps : r'.fps = r.fps
  height : r.height ≤ r'.height
  fp : ∀ b ∈ (ord pend' maxHeight).flatMap (·.2.fp), b ∈ (ord pend maxHeight).flatMap (·.2.fp) ∨
    ∃ i, r.count ≤ i ∧ i < r'.count ∧ b = P.page i
  frame : ∀ i < r.count, P.page i ∉ (ord pend maxHeight).flatMap (·.2.fp) →
    r'.store (P.page i) = r.store (P.page i)

omit [LinearOrder K] in
theorem Above.refl {P : Env K M} {h : Nat} {r : Req K M} {pend : Open K M} :
    Above P h r pend r pend :=
  ⟨fun _ _ => rfl, fun _ _ => rfl, fun _ _ => rfl, Nat.le_refl _, rfl, rfl, rfl, rfl, Nat.le_refl _,
    fun _ h => Or.inl h, fun _ _ _ => rfl⟩

omit [LinearOrder K] in
theorem Above.trans {P : Env K M} (inj : ∀ i j, P.page i = P.page j → i = j) {h : Nat}
    {r r' r'' : Req K M} {pend pend' pend'' : Open K M}
    (a : Above P h r pend r' pend') (b : Above P h r' pend' r'' pend'') :
    Above P h r pend r'' pend'' := by
  refine ⟨fun g hg => (b.edges g hg).trans (a.edges g hg), fun g hg => (b.stats g hg).trans (a.stats g hg),
    fun g hg => (b.same g hg).trans (a.same g hg), a.count.trans b.count, b.tuples.trans a.tuples,
    b.kb.trans a.kb, b.mb.trans a.mb, b.fps.trans a.fps, a.height.trans b.height, ?_, ?_⟩
  · intro x hx
    rcases b.fp x hx with h1 | ⟨i, h1, h2, h3⟩
    · rcases a.fp x h1 with h1 | ⟨i, h1, h2, h3⟩
      · exact Or.inl h1
      · exact Or.inr ⟨i, h1, h2.trans_le b.count, h3⟩
    · exact Or.inr ⟨i, a.count.trans h1, h2, h3⟩
  · intro i hi hn
    rw [b.frame i (hi.trans_le a.count) ?_, a.frame i hi hn]
    intro hm
    rcases a.fp _ hm with h1 | ⟨j, h1, _, h3⟩
    · exact hn h1
    · have := inj _ _ h3; omega

omit [LinearOrder K] in
theorem Above.mono {P : Env K M} {g h : Nat} (hg : g ≤ h) {r r' : Req K M} {pend pend' : Open K M}
    (a : Above P h r pend r' pend') : Above P g r pend r' pend' :=
  { a with
    edges := fun i hi => a.edges i (hi.trans_le hg)
    stats := fun i hi => a.stats i (hi.trans_le hg)
    same := fun i hi => a.same i (hi.trans_le hg) }

omit [LinearOrder K] in
theorem nodup_mid {L R : List (Nat × Sub K M)} {q : Nat × Sub K M}
    (h : ((L ++ q :: R).flatMap (·.2.fp)).Nodup) :
    q.2.fp.Nodup ∧ ∀ x ∈ L ++ R, ∀ b ∈ q.2.fp, b ∉ x.2.fp := by
  rw [List.flatMap_append, List.flatMap_cons, List.nodup_append, List.nodup_append] at h
  obtain ⟨_, ⟨h1, _, h2⟩, h3⟩ := h
  refine ⟨h1, ?_⟩
  intro x hx b hb hbx
  rcases List.mem_append.1 hx with hx | hx
  · exact h3 b (List.mem_flatMap.2 ⟨x, hx, hbx⟩) b (List.mem_append_left _ hb) rfl
  · exact h2 b hb b (List.mem_flatMap.2 ⟨x, hx, hbx⟩) rfl

theorem PInv.pend_nil {P : Env K M} {r : Req K M} {off : Nat → Nat} {pend : Open K M}
    {xs : List (K × M)} {z : Nat} {w : Option Nat} (inv : PInv P r off pend xs z w) {g : Nat}
    (h : r.height < g) : pend g = [] := by
  have := inv.edges g
  rw [inv.top g h, List.drop_nil] at this
  exact List.map_eq_nil_iff.1 this.symm

theorem firstKey_holds {P : Env K M} {st : Store K M} {h a : Nat} {s : Sub K M}
    (H : Holds (PE P) st h a s) : firstKey st a = s.items.head?.map (·.1) := by
  unfold firstKey
  cases h with
  | zero =>
    obtain ⟨⟨_, _, _, b⟩, e1, _, e3, _⟩ := H
    simp only at e3
    subst e3
    rw [e1]
  | succ h =>
    obtain ⟨⟨_, _, _, b⟩, cs, e1, _, e3, e4, _, e6, _⟩ := H
    simp only at e3
    subst e3
    rw [e1, e6]
    cases cs with
    | nil => rfl
    | cons c cs =>
      have := (e4 c (by simp)).2
      simp only [List.map_cons, List.head?_cons, Option.map_some, List.flatMap_cons]
      rw [List.head?_append_of_ne_nil _ this.2.1]
      exact this.1.1.symm

/-- Adding a page to its parent's entries. -/
theorem add_child {P : Env K M} {r : Req K M} {off : Nat → Nat} {pend : Open K M}
    {xs : List (K × M)} {z : Nat} {w : Option Nat} (inv : PInv P r off pend xs z w) {h : Nat}
    (hh : h + 1 ≤ maxHeight) {p : Nat × Sub K M} {rest ps : List (Nat × Sub K M)} {q : Nat × Sub K M}
    (hp : pend h = p :: rest) (hq : pend (h + 1) = ps ++ [q]) (hps : ∀ x ∈ ps, x.2.items ≠ [])
    (hw : w = none ∨ w = some (h + 1)) (ho : off (h + 1) = 0) {pivot : K}
    (hk : firstKey r.store p.1 = some pivot) {st : Store K M}
    (ha : addIndex P r.store q.1 ⟨pivot, p.1, r.stats h (off h)⟩ = some st) {r1 r' : Req K M}
    (hr1 : r1 = accStats { r with store := st } (h + 1) (r.stats h (off h)))
    (hr' : r' = { r1 with stats := setAt r1.stats h (setAt (r1.stats h) (off h) .zero) }) :
    ∃ pend', PInv P r' (setAt off h (off h + 1)) pend' xs z none ∧ Above P h r pend r' pend' ∧
      r'.edges = r.edges ∧ pend' h = rest ∧
      (ord pend' maxHeight).flatMap (·.2.leaves) = (ord pend maxHeight).flatMap (·.2.leaves) := by
  have hpm : p ∈ pend h := by rw [hp]; simp
  have hqm : q ∈ pend (h + 1) := by rw [hq]; simp
  have Hp := inv.holds h p hpm
  have Hq := inv.holds (h + 1) q hqm
  have hpne : p.2.items ≠ [] := by
    intro h0
    have := inv.ne h p hpm h0
    rcases hw with hw | hw <;> rw [hw] at this <;> simp at this
  have hSp : SOk P.ksz P.msz (r.stats h (off h)) p.2.items := by
    have := inv.stat h 0 p (by rw [hp]; rfl)
    simpa using this
  obtain ⟨x0, xs0, hpi⟩ := List.exists_cons_of_ne_nil hpne
  have hpiv : pivot = x0.1 := by
    rw [firstKey_holds Hp, hpi] at hk
    simpa using hk.symm
  obtain ⟨A, B, hord⟩ := ord_pair pend h maxHeight hh
  have hO : ord pend maxHeight = A ++ ps ++ q :: (p :: rest ++ B) := by
    rw [hord pend (fun _ _ _ => rfl), hp, hq]; simp
  -- the parent
  obtain ⟨n, cs, e1, e2, e3, e4, e5, e6, e7, e8⟩ := Hq
  obtain ⟨nh, nx, np, nb⟩ := n
  simp only at e2 e3
  subst e3
  unfold addIndex at ha
  rw [e1] at ha
  simp only at ha
  split at ha
  swap
  · simp at ha
  rw [Option.some.injEq] at ha
  set e : Entry K := ⟨pivot, p.1, r.stats h (off h)⟩ with he
  let q' : Nat × Sub K M := (q.1, ⟨q.2.items ++ p.2.items, q.2.leaves ++ p.2.leaves, q.2.fp ++ p.2.fp⟩)
  let pend' : Open K M := setAt (setAt pend h rest) (h + 1) (ps ++ [q'])
  have hO' : ord pend' maxHeight = A ++ ps ++ q' :: (rest ++ B) := by
    rw [hord pend' (by
      intro i h1 h2
      simp only [pend']
      rw [setAt_ne h2, setAt_ne h1])]
    simp only [pend', setAt_same]
    rw [setAt_ne (by omega), setAt_same]
    simp
  have flat : ∀ {β : Type} (f : Sub K M → List β), f q'.2 = f q.2 ++ f p.2 →
      (ord pend' maxHeight).flatMap (fun x => f x.2) = (ord pend maxHeight).flatMap (fun x => f x.2) := by
    intro β f hf
    rw [hO, hO']
    simp [hf]
  have hI := flat (·.items) rfl
  have hL := flat (·.leaves) rfl
  have hF := flat (·.fp) rfl
  have nd := inv.nodup
  rw [hO] at nd
  obtain ⟨ndq, ndo⟩ := nodup_mid nd
  have hqfp : q.1 ∈ q.2.fp := by rw [e8]; simp
  -- pages other than the parent keep their contents
  have keep : ∀ x, x ∈ A ++ ps ++ (p :: rest ++ B) → q.1 ∉ x.2.fp := fun x hx =>
    ndo x hx q.1 hqfp
  have hst : ∀ b, b ≠ q.1 → st b = r.store b := by
    intro b hb; rw [← ha, setAt_ne hb]
  have keepH : ∀ {g x}, x ∈ pend g → x ∈ A ++ ps ++ (p :: rest ++ B) → Holds (PE P) st g x.1 x.2 := by
    intro g x hx hm
    apply holds_congr _ (inv.holds g x hx)
    intro b hb
    rw [hst b (fun h0 => keep x hm (h0 ▸ hb))]
  have sor := inv.sorted
  rw [← inv.items, hO] at sor
  have hlt : ∀ x ∈ q.2.items, ∀ y ∈ p.2.items, x.1 < y.1 := by
    rw [List.flatMap_append, List.flatMap_cons, List.pairwise_append, List.pairwise_append] at sor
    intro x hx y hy
    exact sor.2.1.2.2 x hx y (List.mem_flatMap.2 ⟨p, by simp, hy⟩)
  have Hq' : Holds (PE P) st (h + 1) q'.1 q'.2 := by
    refine ⟨⟨nh, nx, np, .index (cs.map (·.1) ++ [e])⟩, cs ++ [(e, p.2)], ?_, e2, by simp, ?_, ?_, ?_, ?_, ?_⟩
    · rw [← ha]; simp [q']
    · intro c hc
      rcases List.mem_append.1 hc with hc | hc
      · refine ⟨holds_congr ?_ (e4 c hc).1, (e4 c hc).2⟩
        intro b hb
        rw [hst b]
        intro h0
        rw [e8, List.nodup_cons] at ndq
        exact ndq.1 (List.mem_flatMap.2 ⟨c, hc, h0 ▸ hb⟩)
      · rw [List.mem_singleton] at hc
        subst hc
        refine ⟨keepH hpm (by simp), ⟨?_, hSp⟩, hpne, ?_⟩
        · simp [hpi, he, hpiv]
        · intro x hx
          have := Hp.sorted
          simp only [hpi] at hx this
          simp only [he, hpiv]
          rw [List.pairwise_cons] at this
          rcases List.mem_cons.1 hx with rfl | hx
          · exact le_refl _
          · exact le_of_lt (this.1 x hx)
    · rw [List.pairwise_append]
      refine ⟨e5, by simp, ?_⟩
      intro c hc d hd
      rw [List.mem_singleton] at hd
      subst hd
      have hx : ∀ x ∈ c.2.items, x.1 < e.key := by
        intro x hx
        simp only [he, hpiv]
        apply hlt x _ x0 (by simp [hpi])
        rw [e6]
        exact List.mem_flatMap.2 ⟨c, hc, hx⟩
      refine ⟨?_, hx⟩
      obtain ⟨y, ys, hy⟩ := List.exists_cons_of_ne_nil (e4 c hc).2.2.1
      exact lt_of_le_of_lt ((e4 c hc).2.2.2 y (by simp [hy])) (hx y (by simp [hy]))
    · simp only [q', e6]; simp
    · simp only [q', e7]; simp
    · simp only [q', e8]; simp
  have hlen1 : (r.edges (h + 1)).length = ps.length + 1 := by
    have := congrArg List.length (inv.edges (h + 1))
    rw [ho, List.drop_zero, hq] at this
    simpa using this
  have hlen : off h < (r.edges h).length := by
    have := congrArg List.length (inv.edges h)
    rw [hp] at this
    simp at this
    omega
  have hedges : r'.edges = r.edges := by rw [hr', hr1]; rfl
  have hstore : r'.store = st := by rw [hr', hr1]; rfl
  have hcount : r'.count = r.count := by rw [hr', hr1]; rfl
  have hheight : r'.height = r.height := by rw [hr', hr1]; rfl
  have hstats : r'.stats = setAt (setAt r.stats (h + 1) (setAt (r.stats (h + 1)) ps.length
      ((r.stats (h + 1) ps.length).acc (r.stats h (off h))))) h (setAt (r.stats h) (off h) .zero) := by
    rw [hr', hr1]
    simp only [accStats, hlen1, Nat.add_sub_cancel]
    rw [setAt_ne (by omega)]
  have mem' : ∀ g x, x ∈ pend' g → (x = q' ∧ g = h + 1) ∨ (x ∈ pend g ∧ x ∈ A ++ ps ++ (p :: rest ++ B)) := by
    intro g x hx
    by_cases g1 : g = h + 1
    · subst g1
      simp only [pend', setAt_same, List.mem_append, List.mem_singleton] at hx
      rcases hx with hx | hx
      · right; rw [hq]; simp [hx]
      · exact Or.inl ⟨hx, rfl⟩
    · right
      by_cases g2 : g = h
      · subst g2
        simp only [pend'] at hx
        rw [setAt_ne g1, setAt_same] at hx
        rw [hp]; simp [hx]
      · simp only [pend'] at hx
        rw [setAt_ne g1, setAt_ne g2] at hx
        refine ⟨hx, ?_⟩
        have hg : g ≤ maxHeight := by
          by_contra hc
          rw [inv.pend_nil (by have := inv.height; omega)] at hx
          simp at hx
        have := hord (setAt (setAt pend h rest) (h + 1) ps) (by
          intro i h1 h2
          rw [setAt_ne h2, setAt_ne h1])
        simp only [setAt_same] at this
        rw [setAt_ne (by omega), setAt_same] at this
        have hm : x ∈ ord (setAt (setAt pend h rest) (h + 1) ps) maxHeight :=
          mem_ord.2 ⟨g, hg, by rw [setAt_ne g1, setAt_ne g2]; exact hx⟩
        rw [this] at hm
        simp only [List.mem_append, List.mem_cons] at hm ⊢
        tauto
  refine ⟨pend', ?_, ?_, hedges, ?_, hL⟩
  · constructor
    · intro g
      rw [hedges]
      by_cases g1 : g = h + 1
      · subst g1
        rw [setAt_ne (by omega), inv.edges, hq]
        simp [pend', q']
      · by_cases g2 : g = h
        · subst g2
          simp only [pend', setAt_same]
          rw [setAt_ne g1, setAt_same, ← List.drop_drop, inv.edges, hp]
          simp
        · simp only [pend']
          rw [setAt_ne g2, setAt_ne g1, setAt_ne g2, inv.edges]
    · intro g
      rw [hedges]
      by_cases g2 : g = h
      · subst g2; rw [setAt_same]; omega
      · rw [setAt_ne g2]; exact inv.offle g
    · intro g x hx
      rw [hstore]
      rcases mem' g x hx with ⟨rfl, rfl⟩ | ⟨h1, h2⟩
      · exact Hq'
      · exact keepH h1 h2
    · intro g x hx h0
      exfalso
      by_cases g1 : g = h + 1
      · subst g1
        simp only [pend', setAt_same, List.mem_append, List.mem_singleton] at hx
        rcases hx with hx | hx
        · exact hps x hx h0
        · subst hx; simp [q', hpne] at h0
      · have : x ∈ pend g := by
          simp only [pend'] at hx
          rw [setAt_ne g1] at hx
          by_cases g2 : g = h
          · subst g2; rw [setAt_same] at hx; rw [hp]; simp [hx]
          · rwa [setAt_ne g2] at hx
        have := inv.ne g x this h0
        rcases hw with hw | hw <;> rw [hw] at this <;> simp at this
        exact g1 this.symm
    · intro g i x hx
      rw [hstats]
      by_cases g1 : g = h + 1
      · subst g1
        have eo : setAt off h (off h + 1) (h + 1) = off (h + 1) := setAt_ne (by omega)
        rw [eo, setAt_ne (by omega : h + 1 ≠ h), setAt_same]
        simp only [pend', setAt_same] at hx
        rw [ho, Nat.zero_add]
        have hold := fun y hy => inv.stat (h + 1) i y hy
        rw [ho, Nat.zero_add, hq] at hold
        by_cases hi : i < ps.length
        · rw [setAt_ne (by omega)]
          rw [List.getElem?_append_left hi] at hx
          exact hold x (by rw [List.getElem?_append_left hi]; exact hx)
        · have hi' : i = ps.length := by
            have := (List.getElem?_eq_some_iff.1 hx).1
            simp at this
            omega
          subst hi'
          rw [setAt_same]
          rw [List.getElem?_append_right (Nat.le_refl _), Nat.sub_self] at hx
          simp only [List.getElem?_cons_zero, Option.some.injEq] at hx
          subst hx
          exact (hold q (by simp)).acc hSp
      · by_cases g2 : g = h
        · subst g2
          simp only [setAt_same]
          simp only [pend'] at hx
          rw [setAt_ne g1, setAt_same] at hx
          rw [setAt_ne (by omega)]
          have := inv.stat g (i + 1) x (by rw [hp]; simpa using hx)
          rwa [show off g + 1 + i = off g + (i + 1) by omega]
        · simp only [pend'] at hx
          rw [setAt_ne g1, setAt_ne g2] at hx
          rw [setAt_ne g2, setAt_ne g1, setAt_ne g2]
          exact inv.stat g i x hx
    · intro g i hi
      rw [hedges] at hi
      rw [hstats]
      by_cases g1 : g = h + 1
      · subst g1
        rw [setAt_ne (by omega), setAt_same]
        rw [setAt_ne (by omega), ho, hlen1] at hi
        rw [setAt_ne (by omega)]
        exact inv.zero _ _ (Or.inr (by omega))
      · by_cases g2 : g = h
        · subst g2
          rw [setAt_same] at hi ⊢
          by_cases hio : i = off g
          · subst hio; rw [setAt_same]
          · rw [setAt_ne hio]
            exact inv.zero _ _ (by omega)
        · rw [setAt_ne g2, setAt_ne g1]
          rw [setAt_ne g2] at hi
          exact inv.zero _ _ hi
    · exact hI.trans inv.items
    · exact inv.sorted
    · exact hF ▸ inv.nodup
    · intro b hb
      rw [hcount]
      exact inv.pages b (hF ▸ hb)
    · rw [hL, hstore]
      refine linked_congr ?_ inv.chain
      intro b _
      by_cases hb : b = q.1
      · subst hb; rw [← ha, e1, setAt_same]; rfl
      · rw [hst b hb]
    · intro g hg; rw [hedges]; rw [hheight] at hg; exact inv.top g hg
    · rw [hedges, hheight]; exact inv.topne
    · rw [hheight]; exact inv.height
    · rw [hcount]; exact inv.count
  · refine ⟨fun g hg => by rw [hedges], fun g hg => ?_, fun g hg => ?_, by rw [hcount], ?_, ?_, ?_, ?_, by rw [hheight],
      fun b hb => Or.inl (hF ▸ hb), ?_⟩
    · rw [hstats, setAt_ne (by omega), setAt_ne (by omega)]
    · simp only [pend']; rw [setAt_ne (by omega), setAt_ne (by omega)]
    · rw [hr', hr1]; rfl
    · rw [hr', hr1]; rfl
    · rw [hr', hr1]; rfl
    · rw [hr', hr1]; rfl
    · intro i _ hn
      rw [hstore, hst]
      intro h0
      apply hn
      rw [h0, hO]
      exact List.mem_flatMap.2 ⟨q, by simp, hqfp⟩
  · simp only [pend']; rw [setAt_ne (by omega), setAt_same]

/-- What `createNext` does: the invariant holds with one more, empty, page at height `h`. -/
def CreateSpec (P : Env K M) (f h : Nat) : Prop :=
  ∀ r off pend xs z r', PInv P r off pend xs z none → off h = 0 → (∀ g, h < g → off g = 0) →
    (h = 0 → z = 0) → (h = 0 → pend 0 = [] → xs = []) → createNext P f r h = .ok r' →
    ∃ pend' ps a, PInv P r' off pend' xs z (some h) ∧ pend' h = ps ++ [(a, empt h a)] ∧
      (∀ p ∈ ps, p.2.items ≠ []) ∧ Above P h r pend r' pend' ∧
      (h ≠ 0 → (ord pend' maxHeight).flatMap (·.2.leaves) = (ord pend maxHeight).flatMap (·.2.leaves))

theorem linkNode_spec {P : Env K M} (inj : ∀ i j, P.page i = P.page j → i = j) {f h : Nat}
    (hf : h + 1 ≤ maxHeight) (hc : CreateSpec P f (h + 1)) {r : Req K M} {off : Nat → Nat}
    {pend : Open K M} {xs : List (K × M)} {z : Nat} (inv : PInv P r off pend xs z none)
    {p : Nat × Sub K M} {rest : List (Nat × Sub K M)} (hp : pend h = p :: rest)
    (ho : ∀ g, h < g → off g = 0) {r' : Req K M}
    (e : linkNode P (createNext P f) h (off h) r = .ok r') :
    ∃ pend', PInv P r' (setAt off h (off h + 1)) pend' xs z none ∧ Above P h r pend r' pend' ∧
      r'.edges h = r.edges h ∧ pend' h = rest ∧ r'.edges (h + 1) ≠ [] ∧
      (ord pend' maxHeight).flatMap (·.2.leaves) = (ord pend maxHeight).flatMap (·.2.leaves) := by
  have he := inv.edges h
  have hget : (r.edges h)[off h]? = some p.1 := by
    have := congrArg (fun l => l[0]?) he
    simp only [hp, List.getElem?_drop] at this
    simpa using this
  have hne := inv.ne h p (by rw [hp]; simp)
  have Hp := inv.holds h p (by rw [hp]; simp)
  have hfk := firstKey_holds Hp
  unfold linkNode at e
  rw [hget] at e
  simp only at e
  cases hpi : p.2.items with
  | nil => have := hne hpi; simp at this
  | cons x0 xs0 =>
  rw [hpi] at hfk
  simp only [List.head?_cons, Option.map_some] at hfk
  rw [hfk] at e
  simp only at e
  have ho1 : off (h + 1) = 0 := ho _ (by omega)
  have he1 : r.edges (h + 1) = (pend (h + 1)).map (·.1) := by
    have := inv.edges (h + 1)
    rwa [ho1, List.drop_zero] at this
  cases hpl : placeIndex P (createNext P f) (h + 1) ⟨x0.1, p.1, r.stats h (off h)⟩ r with
  | error x => rw [hpl] at e; simp at e
  | ok r0 =>
  rw [hpl] at e
  simp only [Except.ok.injEq] at e
  unfold placeIndex at hpl
  cases htr : (current r (h + 1)).bind (addIndex P r.store · ⟨x0.1, p.1, r.stats h (off h)⟩) with
  | some st =>
    rw [htr] at hpl
    simp only [Except.ok.injEq] at hpl
    obtain ⟨qa, hcur, htr⟩ := Option.bind_eq_some_iff.1 htr
    obtain ⟨ps, q, hq, hqa⟩ : ∃ ps q, pend (h + 1) = ps ++ [q] ∧ q.1 = qa := by
      unfold current at hcur
      rw [he1, List.getLast?_map] at hcur
      obtain ⟨q, h1, h2⟩ := Option.map_eq_some_iff.1 hcur
      obtain ⟨ps, h3⟩ := List.getLast?_eq_some_iff.1 h1
      exact ⟨ps, q, h3, h2⟩
    subst hqa
    obtain ⟨pend', i1, i2, i3, i4, i5⟩ := add_child inv hf hp hq
      (fun x hx h0 => by have := inv.ne (h + 1) x (by rw [hq]; simp [hx]) h0; simp at this)
      (Or.inl rfl) ho1 hfk htr rfl (by subst hpl; exact e.symm) (r' := r')
    refine ⟨pend', i1, i2, by rw [i3], i4, ?_, i5⟩
    rw [i3, he1, hq]; simp
  | none =>
    rw [htr] at hpl
    simp only at hpl
    cases hcr : createNext P f r (h + 1) with
    | error x => rw [hcr] at hpl; simp at hpl
    | ok r1 =>
    rw [hcr] at hpl
    simp only at hpl
    obtain ⟨pend1, ps, a, c1, c2, c3, c4, c5⟩ := hc r off pend xs z r1 inv ho1
      (fun g hg => ho g (by omega)) (by omega) (by omega) hcr
    have he1' : r1.edges (h + 1) = (pend1 (h + 1)).map (·.1) := by
      have := c1.edges (h + 1)
      rwa [ho1, List.drop_zero] at this
    have hcur : current r1 (h + 1) = some a := by
      unfold current
      rw [he1', c2]
      simp
    rw [hcur, Option.bind_some] at hpl
    cases hai : addIndex P r1.store a ⟨x0.1, p.1, r.stats h (off h)⟩ with
    | none => rw [hai] at hpl; simp at hpl
    | some st =>
    rw [hai] at hpl
    simp only [Except.ok.injEq] at hpl
    have hp1 : pend1 h = p :: rest := by rw [c4.same h (by omega), hp]
    have hfk1 : firstKey r1.store p.1 = some x0.1 := by
      rw [firstKey_holds (c1.holds h p (by rw [hp1]; simp)), hpi]; rfl
    have hs1 : r1.stats h = r.stats h := c4.stats h (by omega)
    rw [← hs1] at hai e
    obtain ⟨pend', i1, i2, i3, i4, i5⟩ := add_child c1 hf hp1 c2 c3 (Or.inr rfl) ho1 hfk1 hai rfl
      (by subst hpl; exact e.symm) (r' := r')
    refine ⟨pend', i1, (c4.mono (by omega)).trans inj i2, ?_, i4, ?_, i5.trans (c5 (by omega))⟩
    · rw [i3, c4.edges h (by omega)]
    · rw [i3, he1', c2]; simp

theorem linkLoop_spec {P : Env K M} (inj : ∀ i j, P.page i = P.page j → i = j) {f h : Nat}
    (hf : h + 1 ≤ maxHeight) (hc : CreateSpec P f (h + 1)) {xs : List (K × M)} {z : Nat} :
    ∀ {n : Nat} {r : Req K M} {off : Nat → Nat} {pend : Open K M}, PInv P r off pend xs z none →
      n = (pend h).length → (∀ g, h < g → off g = 0) → ∀ {r' : Req K M},
      linkLoop P (createNext P f) h (off h) n r = .ok r' →
      ∃ pend', PInv P r' (setAt off h (off h + n)) pend' xs z none ∧ Above P h r pend r' pend' ∧
        r'.edges h = r.edges h ∧ pend' h = [] ∧ (n ≠ 0 → r'.edges (h + 1) ≠ []) ∧
        (ord pend' maxHeight).flatMap (·.2.leaves) = (ord pend maxHeight).flatMap (·.2.leaves) := by
  intro n
  induction n with
  | zero =>
    intro r off pend inv hn ho r' e
    simp only [linkLoop, Except.ok.injEq] at e
    subst e
    have : setAt off h (off h + 0) = off := by
      funext g; by_cases hg : g = h
      · subst hg; simp
      · rw [setAt_ne hg]
    rw [this]
    exact ⟨pend, inv, Above.refl, rfl, List.length_eq_zero_iff.1 hn.symm, by simp, rfl⟩
  | succ n ih =>
    intro r off pend inv hn ho r' e
    simp only [linkLoop] at e
    cases hl : linkNode P (createNext P f) h (off h) r with
    | error x => rw [hl] at e; simp at e
    | ok r1 =>
    rw [hl] at e
    simp only at e
    obtain ⟨p, rest, hp⟩ := List.exists_cons_of_length_pos (l := pend h) (by omega)
    obtain ⟨pend1, i1, i2, i3, i4, i5, i6⟩ := linkNode_spec inj hf hc inv hp ho hl
    have e' : linkLoop P (createNext P f) h (setAt off h (off h + 1) h) n r1 = .ok r' := by
      rw [setAt_same]; exact e
    obtain ⟨pend2, j1, j2, j3, j4, j5, j6⟩ := ih i1 (by rw [i4]; rw [hp] at hn; simpa using hn)
      (fun g hg => by rw [setAt_ne (by omega)]; exact ho g hg) e'
    have : setAt (setAt off h (off h + 1)) h (setAt off h (off h + 1) h + n) =
        setAt off h (off h + (n + 1)) := by
      funext g; by_cases hg : g = h
      · subst hg; simp; omega
      · rw [setAt_ne hg, setAt_ne hg, setAt_ne hg]
    rw [this] at j1
    refine ⟨pend2, j1, i2.trans inj j2, by rw [j3, i3], j4, fun _ => ?_, j6.trans i6⟩
    by_cases hn0 : n = 0
    · subst hn0
      simp only [linkLoop, Except.ok.injEq] at e
      subst e
      exact i5
    · exact j5 hn0

theorem linkExtent_spec {P : Env K M} (inj : ∀ i j, P.page i = P.page j → i = j) {f h : Nat}
    (hf : h + 1 ≤ maxHeight) (hc : CreateSpec P f (h + 1)) {xs : List (K × M)} {z : Nat}
    {r : Req K M} {off : Nat → Nat} {pend : Open K M} (inv : PInv P r off pend xs z none)
    (ho : ∀ g, h ≤ g → off g = 0) (hne : pend h ≠ []) {r' : Req K M}
    (e : linkExtent P (createNext P f) h r = .ok r') :
    ∃ pend', PInv P r' off pend' xs z none ∧ Above P h r pend r' pend' ∧ r'.edges h = [] ∧
      pend' h = [] ∧ h < r'.height ∧
      (ord pend' maxHeight).flatMap (·.2.leaves) = (ord pend maxHeight).flatMap (·.2.leaves) := by
  unfold linkExtent at e
  have hlen : (r.edges h).length = (pend h).length := by
    have := congrArg List.length (inv.edges h)
    rw [ho h (Nat.le_refl _)] at this
    simpa using this
  cases hl : linkLoop P (createNext P f) h 0 (r.edges h).length r with
  | error x => rw [hl] at e; simp at e
  | ok r1 =>
  rw [hl] at e
  simp only [Except.ok.injEq] at e
  subst e
  have ho0 := ho h (Nat.le_refl _)
  have hl' : linkLoop P (createNext P f) h (off h) (r.edges h).length r = .ok r1 := by rw [ho0]; exact hl
  obtain ⟨pend', i1, i2, i3, i4, i5, i6⟩ := linkLoop_spec inj hf hc inv hlen (fun g hg => ho g (by omega)) hl'
  have hh : h < r1.height := by
    by_contra hcn
    apply i5 ?_ (i1.top _ (by omega))
    rw [hlen]
    exact fun h0 => hne (List.length_eq_zero_iff.1 h0)
  rw [ho0, Nat.zero_add] at i1
  refine ⟨pend', ?_, ?_, by simp, i4, hh, i6⟩
  · have hed : ∀ g, g ≠ h → setAt off h (r.edges h).length g = off g := fun g hg => setAt_ne hg
    constructor
    · intro g
      by_cases hg : g = h
      · subst hg; simp [i4]
      · simp only [setAt_ne hg]; rw [← hed g hg]; exact i1.edges g
    · intro g
      by_cases hg : g = h
      · subst hg; simp [ho0]
      · simp only [setAt_ne hg]; rw [← hed g hg]; exact i1.offle g
    · exact i1.holds
    · exact i1.ne
    · intro g i x hx
      by_cases hg : g = h
      · subst hg; rw [i4] at hx; simp at hx
      · have := i1.stat g i x hx
        rwa [hed g hg] at this
    · intro g i hi
      by_cases hg : g = h
      · subst hg
        apply i1.zero
        rw [setAt_same, i3]
        omega
      · apply i1.zero
        rw [hed g hg]
        simpa only [setAt_ne hg] using hi
    · exact i1.items
    · exact i1.sorted
    · exact i1.nodup
    · exact i1.pages
    · exact i1.chain
    · intro g hg
      by_cases hg' : g = h
      · subst hg'; simp
      · simp only [setAt_ne hg']; exact i1.top g hg
    · intro hx
      simp only
      rw [setAt_ne (by omega)]
      exact i1.topne hx
    · exact i1.height
    · exact i1.count
  · exact { i2 with edges := fun g hg => by simp only [setAt_ne (show g ≠ h by omega)]; exact i2.edges g hg }

/-- Pages outside the tree do not matter, nor does which pages come after the last leaf. -/
theorem PInv.store {P : Env K M} {r r' : Req K M} {off : Nat → Nat} {pend : Open K M}
    {xs : List (K × M)} {z z' : Nat} {w : Option Nat} (inv : PInv P r off pend xs z w)
    (hs : ∀ b ∈ (ord pend maxHeight).flatMap (·.2.fp), (r'.store b).map core = (r.store b).map core)
    (hc : Linked r'.store 0 ((ord pend maxHeight).flatMap (·.2.leaves)) z')
    (he : r'.edges = r.edges) (ht : r'.stats = r.stats) (hh : r'.height = r.height)
    (hn : r.count ≤ r'.count) : PInv P r' off pend xs z' w := by
  refine ⟨by rw [he]; exact inv.edges, by rw [he]; exact inv.offle, ?_, inv.ne, by rw [ht]; exact inv.stat,
    by rw [he, ht]; exact inv.zero, inv.items, inv.sorted, inv.nodup, ?_, hc, by rw [he, hh]; exact inv.top,
    by rw [he, hh]; exact inv.topne, by rw [hh]; exact inv.height, inv.count.trans_le hn⟩
  · intro g p hp
    apply holds_congr _ (inv.holds g p hp)
    intro b hb
    apply hs
    refine List.mem_flatMap.2 ⟨p, mem_ord.2 ⟨g, ?_, hp⟩, hb⟩
    by_contra hg
    rw [inv.pend_nil (by have := inv.height; omega)] at hp
    simp at hp
  · intro b hb
    obtain ⟨i, h1, h2, h3⟩ := inv.pages b hb
    exact ⟨i, h1, h2.trans_le hn, h3⟩

/-- Adding an empty page at the end of a level. -/
theorem push_spec {P : Env K M} {r : Req K M} {off : Nat → Nat} {pend : Open K M}
    {xs : List (K × M)} {z z' : Nat} (inv : PInv P r off pend xs z none) {h a i prv : Nat}
    (hh : h < maxHeight) (ho : off h = 0) (hi : 0 < i) (hi' : i < r.count) (ha : a = P.page i)
    (hfp : a ∉ (ord pend maxHeight).flatMap (·.2.fp))
    (hst : r.store a = some ⟨h, 0, prv, if h = 0 then .leaf [] else .index []⟩)
    (hz : h ≠ 0 → z' = z)
    (hz0 : h = 0 → z' = 0 ∧ prv = ((ord pend maxHeight).flatMap (·.2.leaves)).getLast?.getD 0 ∧
      (z = a ∨ (ord pend maxHeight).flatMap (·.2.leaves) = [])) {r' : Req K M}
    (hr' : r' = { r with
      height := if r.height < h then h else r.height
      edges := setAt r.edges h (r.edges h ++ [a]) }) :
    PInv P r' off (setAt pend h (pend h ++ [(a, empt h a)])) xs z' (some h) := by
  obtain ⟨A, B, hord, hB⟩ := ord_at pend h maxHeight (by omega)
  have hO := hord pend (fun _ _ => rfl)
  have hO' := hord (setAt pend h (pend h ++ [(a, empt h a)])) (fun i hi => setAt_ne hi)
  rw [setAt_same] at hO'
  have hlen : (r.edges h).length = (pend h).length := by
    have := congrArg List.length (inv.edges h)
    rw [ho] at this
    simpa using this
  subst hr'
  have hperm : ((ord (setAt pend h (pend h ++ [(a, empt h a)])) maxHeight).flatMap (·.2.fp)).Perm
      (a :: (ord pend maxHeight).flatMap (·.2.fp)) := by
    rw [hO, hO']
    simp only [List.flatMap_append, List.flatMap_cons, List.flatMap_nil, empt, List.append_nil,
      List.append_assoc]
    rw [← List.append_assoc]
    refine List.perm_middle.trans ?_
    rw [List.append_assoc]
    exact List.Perm.refl _
  constructor
  · intro g
    by_cases hg : g = h
    · subst hg
      have := inv.edges g
      rw [ho, List.drop_zero] at this
      simp only [setAt_same]
      rw [ho, List.drop_zero, List.map_append, this]; rfl
    · simp only [setAt_ne hg]; exact inv.edges g
  · intro g
    by_cases hg : g = h
    · subst hg; rw [ho]; omega
    · simp only [setAt_ne hg]; exact inv.offle g
  · intro g p hp
    by_cases hg : g = h
    · subst hg
      rw [setAt_same, List.mem_append, List.mem_singleton] at hp
      rcases hp with hp | rfl
      · exact inv.holds g p hp
      · cases g with
        | zero => exact ⟨_, hst, rfl, rfl, by simp [empt], by simp [empt], rfl⟩
        | succ g =>
          refine ⟨_, [], hst, rfl, ?_, by simp, List.Pairwise.nil, rfl, ?_, rfl⟩
          · simp
          · simp [empt]
    · rw [setAt_ne hg] at hp; exact inv.holds g p hp
  · intro g p hp h0
    by_cases hg : g = h
    · rw [hg]
    · rw [setAt_ne hg] at hp
      have := inv.ne g p hp h0
      simp at this
  · intro g j p hp
    by_cases hg : g = h
    · subst hg
      rw [setAt_same] at hp
      by_cases hj : j < (pend g).length
      · rw [List.getElem?_append_left hj] at hp
        exact inv.stat g j p hp
      · rw [List.getElem?_append_right (by omega)] at hp
        have hj' : j = (pend g).length := by
          have := (List.getElem?_eq_some_iff.1 hp).1
          simp at this
          omega
        subst hj'
        simp only [Nat.sub_self, List.getElem?_cons_zero, Option.some.injEq] at hp
        subst hp
        simp only
        rw [inv.zero g _ (Or.inr (by rw [hlen]; omega))]
        exact SOk.nil
    · rw [setAt_ne hg] at hp; exact inv.stat g j p hp
  · intro g j hj
    by_cases hg : g = h
    · subst hg
      simp only [setAt_same, List.length_append, List.length_singleton] at hj
      exact inv.zero g j (by omega)
    · simp only [setAt_ne hg] at hj; exact inv.zero g j hj
  · rw [← inv.items, hO, hO']
    simp [empt]
  · exact inv.sorted
  · rw [hperm.nodup_iff, List.nodup_cons]
    exact ⟨hfp, inv.nodup⟩
  · intro b hb
    rcases List.mem_cons.1 (hperm.mem_iff.1 hb) with rfl | hb
    · exact ⟨i, hi, hi', ha⟩
    · exact inv.pages b hb
  · by_cases h0 : h = 0
    · subst h0
      obtain ⟨z1, z2, z3⟩ := hz0 rfl
      have hBn := hB rfl
      subst hBn
      have : (ord (setAt pend 0 (pend 0 ++ [(a, empt 0 a)])) maxHeight).flatMap (·.2.leaves) =
          (ord pend maxHeight).flatMap (·.2.leaves) ++ [a] := by
        rw [hO, hO']; simp [empt]
      rw [this, linked_append]
      constructor
      · rcases z3 with z3 | z3
        · rw [← z3]; exact inv.chain
        · rw [z3]; trivial
      · refine ⟨⟨_, hst, z2, ?_⟩, trivial⟩
        simp [z1]
    · have : (ord (setAt pend h (pend h ++ [(a, empt h a)])) maxHeight).flatMap (·.2.leaves) =
          (ord pend maxHeight).flatMap (·.2.leaves) := by
        rw [hO, hO']; simp [empt, h0]
      rw [this, hz h0]
      exact inv.chain
  · intro g hg
    simp only at hg ⊢
    have : g ≠ h := by split at hg <;> omega
    rw [setAt_ne this]
    apply inv.top
    split at hg <;> omega
  · intro hx
    simp only
    by_cases h1 : r.height < h
    · rw [if_pos h1]; simp
    · rw [if_neg h1]
      by_cases h2 : r.height = h
      · rw [h2]; simp
      · rw [setAt_ne h2]; exact inv.topne (by omega)
  · simp only
    have := inv.height
    split <;> omega
  · exact inv.count

set_option maxHeartbeats 2000000 in
theorem createNext_spec {P : Env K M} (inj : ∀ i j, P.page i = P.page j → i = j) :
    ∀ f h, f + h = maxHeight → CreateSpec P f h := by
  intro f
  induction f with
  | zero =>
    intro h _ r off pend xs z r' _ _ _ _ _ e
    simp [createNext] at e
  | succ f ih =>
    intro h hfh r off pend xs z r' inv ho ho' hz hx e
    have hc := ih (h + 1) (by omega)
    simp only [createNext] at e
    set a := P.page r.count with hadef
    have hafp : a ∉ (ord pend maxHeight).flatMap (·.2.fp) := by
      intro hm
      obtain ⟨i, _, h2, h3⟩ := inv.pages a hm
      have := inj _ _ h3
      omega
    have leafp : ∀ b ∈ (ord pend maxHeight).flatMap (·.2.leaves),
        b ∈ (ord pend maxHeight).flatMap (·.2.fp) ∧ ∃ n, r.store b = some n ∧ n.height = 0 := by
      intro b hb
      obtain ⟨p, hp, hbp⟩ := List.mem_flatMap.1 hb
      obtain ⟨g, _, hpg⟩ := mem_ord.1 hp
      have H := inv.holds g p hpg
      obtain ⟨n, _, n1, n2, _⟩ := H.cont.2 b hbp
      exact ⟨List.mem_flatMap.2 ⟨p, hp, H.leaves_fp b hbp⟩, n, n1, n2⟩
    have he : r.edges h = (pend h).map (·.1) := by
      have := inv.edges h
      rwa [ho, List.drop_zero] at this
    -- finishing: push the page once the state before it is known
    have fin : ∀ (r3 : Req K M) (pend3 : Open K M) (z3 prv : Nat), PInv P r3 off pend3 xs z3 none →
        (∀ g < h, r3.edges g = r.edges g) → (∀ g < h, r3.stats g = r.stats g) →
        (∀ g < h, pend3 g = pend g) → r.count < r3.count →
        (r3.numTuples = r.numTuples ∧ r3.keyBytes = r.keyBytes ∧ r3.msgBytes = r.msgBytes ∧ r3.fps = r.fps) →
        r.height ≤ r3.height →
        (∀ b ∈ (ord pend3 maxHeight).flatMap (·.2.fp), b ∈ (ord pend maxHeight).flatMap (·.2.fp) ∨
          ∃ i, r.count < i ∧ i < r3.count ∧ b = P.page i) →
        (∀ i < r.count, P.page i ∉ (ord pend maxHeight).flatMap (·.2.fp) → r3.store (P.page i) = r.store (P.page i)) →
        (ord pend3 maxHeight).flatMap (·.2.leaves) = (ord pend maxHeight).flatMap (·.2.leaves) →
        r3.store a = some ⟨h, 0, prv, if h = 0 then .leaf [] else .index []⟩ →
        (h ≠ 0 → z = z3) →
        (h = 0 → z = 0 ∧ prv = ((ord pend3 maxHeight).flatMap (·.2.leaves)).getLast?.getD 0 ∧
          (z3 = a ∨ (ord pend3 maxHeight).flatMap (·.2.leaves) = [])) →
        ({ r3 with
            height := if r3.height < h then h else r3.height
            edges := setAt r3.edges h (r3.edges h ++ [a]) } : Req K M) = r' →
        ∃ pend' ps a, PInv P r' off pend' xs z (some h) ∧ pend' h = ps ++ [(a, empt h a)] ∧
          (∀ p ∈ ps, p.2.items ≠ []) ∧ Above P h r pend r' pend' ∧
          (h ≠ 0 → (ord pend' maxHeight).flatMap (·.2.leaves) = (ord pend maxHeight).flatMap (·.2.leaves)) := by
      intro r3 pend3 z3 prv inv3 a1 a2 a3 a4 a5 a6 a7 a8 a9 a10 a11 a12 hr'
      have hafp3 : a ∉ (ord pend3 maxHeight).flatMap (·.2.fp) := by
        intro hm
        rcases a7 a hm with h1 | ⟨i, h1, _, h3⟩
        · exact hafp h1
        · have := inj _ _ h3; omega
      have main := push_spec inv3 (h := h) (a := a) (i := r.count) (prv := prv) (by omega) ho inv.count a4
        hadef hafp3 a10 (z' := z) a11 a12 hr'.symm
      refine ⟨_, pend3 h, a, main, by rw [setAt_same], ?_, ?_, ?_⟩
      · intro p hp h0
        have := inv3.ne h p hp h0
        simp at this
      · subst hr'
        refine ⟨fun g hg => ?_, a2, fun g hg => ?_, by simp only; omega, a5.1, a5.2.1, a5.2.2.1, a5.2.2.2, ?_, ?_, a8⟩
        · simp only [setAt_ne (show g ≠ h by omega)]; exact a1 g hg
        · rw [setAt_ne (show g ≠ h by omega)]; exact a3 g hg
        · simp only; split <;> omega
        · intro b hb
          obtain ⟨A, B, hord, _⟩ := ord_at pend3 h maxHeight (by omega)
          rw [hord _ (fun i hi => setAt_ne hi), setAt_same] at hb
          have hO := hord pend3 (fun _ _ => rfl)
          have : b = a ∨ b ∈ (ord pend3 maxHeight).flatMap (·.2.fp) := by
            rw [hO]
            simp only [List.flatMap_append, List.flatMap_cons, List.flatMap_nil, List.mem_append, empt,
              List.append_nil, List.mem_singleton] at hb ⊢
            tauto
          rcases this with rfl | hb
          · exact Or.inr ⟨r.count, Nat.le_refl _, a4, hadef⟩
          · rcases a7 b hb with h1 | ⟨i, h1, h2, h3⟩
            · exact Or.inl h1
            · exact Or.inr ⟨i, by omega, h2, h3⟩
      · intro h0
        obtain ⟨A, B, hord, _⟩ := ord_at pend3 h maxHeight (by omega)
        rw [← a9, hord _ (fun i hi => setAt_ne hi), setAt_same, hord pend3 (fun _ _ => rfl)]
        simp [empt, h0]
    -- the page is new
    have hcur : (current ({ r with count := r.count + 1, store := setAt r.store a (some (fresh h)) } : Req K M) h)
        = current r h := rfl
    rw [hcur] at e
    have st_ne : ∀ b ∈ (ord pend maxHeight).flatMap (·.2.fp), b ≠ a := fun b hb h0 => hafp (h0 ▸ hb)
    cases hcu : current r h with
    | none =>
      rw [hcu] at e
      simp only at e
      split at e
      · simp at e
      simp only [Except.ok.injEq] at e
      have hnil : pend h = [] := by
        unfold current at hcu
        rw [he] at hcu
        simpa using hcu
      refine fin { r with count := r.count + 1, store := setAt r.store a (some (fresh h)) } pend z 0 ?_
        (fun _ _ => rfl) (fun _ _ => rfl) (fun _ _ => rfl) (Nat.lt_succ_self _) ⟨rfl, rfl, rfl, rfl⟩ (Nat.le_refl _)
        (fun b hb => Or.inl hb) ?_ rfl ?_ (fun _ => rfl) ?_ e
      · refine inv.store ?_ ?_ rfl rfl rfl (Nat.le_succ _)
        · intro b hb; simp only [setAt_ne (st_ne b hb)]
        · refine linked_congr ?_ inv.chain
          intro b hb
          simp only [setAt_ne (st_ne b (leafp b hb).1)]
      · intro i hi _
        exact setAt_ne (fun h0 => by have := inj _ _ h0; omega)
      · simp [fresh]
      · intro h0
        subst h0
        have hxs := hx rfl hnil
        have hL : (ord pend maxHeight).flatMap (·.2.leaves) = [] := by
          rw [List.flatMap_eq_nil_iff]
          intro p hp
          exfalso
          obtain ⟨g, _, hpg⟩ := mem_ord.1 hp
          have h1 : p.2.items = [] := by
            have := inv.items
            rw [hxs, List.flatMap_eq_nil_iff] at this
            exact this p hp
          have := inv.ne g p hpg h1
          simp at this
        exact ⟨hz rfl, by rw [hL]; rfl, Or.inr hL⟩
    | some old =>
      rw [hcu] at e
      simp only at e
      obtain ⟨ps, q, hq, hqa⟩ : ∃ ps q, pend h = ps ++ [q] ∧ q.1 = old := by
        unfold current at hcu
        rw [he, List.getLast?_map] at hcu
        obtain ⟨q, h1, h2⟩ := Option.map_eq_some_iff.1 hcu
        obtain ⟨ps, h3⟩ := List.getLast?_eq_some_iff.1 h1
        exact ⟨ps, q, h3, h2⟩
      have Hq := inv.holds h q (by rw [hq]; simp)
      have hqo : q ∈ ord pend maxHeight := mem_ord.2 ⟨h, by omega, by rw [hq]; simp⟩
      have holdfp : old ∈ (ord pend maxHeight).flatMap (·.2.fp) :=
        List.mem_flatMap.2 ⟨q, hqo, hqa ▸ Hq.mem_fp⟩
      have holda : old ≠ a := st_ne old holdfp
      obtain ⟨no, hno, hnoh⟩ : ∃ n, r.store old = some n ∧ n.height = h := by
        rw [← hqa]
        cases h with
        | zero => obtain ⟨n, n1, n2, _⟩ := Hq; exact ⟨n, n1, n2⟩
        | succ h => obtain ⟨n, _, n1, n2, _⟩ := Hq; exact ⟨n, n1, n2⟩
      set st2 := modify (modify (setAt r.store a (some (fresh h))) old fun n => { n with next := a }) a
        fun n => { n with prev := old } with hst2
      have st2a : st2 a = some ⟨h, 0, old, if h = 0 then .leaf [] else .index []⟩ := by
        simp [hst2, modify, setAt, holda.symm, fresh]
      have st2o : st2 old = some { no with next := a } := by
        simp [hst2, modify, setAt, holda, hno]
      have st2b : ∀ b, b ≠ a → b ≠ old → st2 b = r.store b := by
        intro b h1 h2
        simp [hst2, modify, setAt, h1, h2]
      set r2 : Req K M := { r with count := r.count + 1, store := st2 } with hr2
      have hlast : h = 0 → (ord pend maxHeight).flatMap (·.2.leaves) =
          ((ord (setAt pend h ps) maxHeight).flatMap (·.2.leaves)) ++ [old] ∧
          old ∉ ((ord (setAt pend h ps) maxHeight).flatMap (·.2.leaves)) := by
        intro h0
        subst h0
        obtain ⟨A, B, hord, hB⟩ := ord_at pend 0 maxHeight (by omega)
        have hBn := hB rfl
        subst hBn
        have hO := hord pend (fun _ _ => rfl)
        have hO' := hord (setAt pend 0 ps) (fun i hi => setAt_ne hi)
        rw [setAt_same] at hO'
        obtain ⟨n, _, _, _, _, q5, q6⟩ := Hq
        constructor
        · rw [hO, hO', hq]
          simp [q5, hqa]
        · have nd := inv.nodup
          rw [hO, hq, List.append_nil, ← List.append_assoc] at nd
          intro hm
          obtain ⟨x, hxm, hxo⟩ := List.mem_flatMap.1 hm
          have hxm' := hxm
          rw [hO', List.append_nil] at hxm
          refine (nodup_mid (q := q) (R := []) nd).2 x (by simpa using hxm) old (by rw [q6, hqa]; simp) ?_
          obtain ⟨g, hg, hxg⟩ := mem_ord.1 hxm'
          have hxg' : x ∈ pend g := by
            by_cases hg0 : g = 0
            · subst hg0; rw [setAt_same] at hxg; rw [hq]; simp [hxg]
            · rwa [setAt_ne hg0] at hxg
          exact (inv.holds g x hxg').leaves_fp old hxo
      have inv2 : PInv P r2 off pend xs (if h = 0 then a else z) none := by
        refine inv.store ?_ ?_ rfl rfl rfl (Nat.le_succ _)
        · intro b hb
          by_cases hbo : b = old
          · subst hbo; simp only [hr2, st2o, hno]; rfl
          · simp only [hr2]; rw [st2b b (st_ne b hb) hbo]
        · by_cases h0 : h = 0
          · obtain ⟨l1, l2⟩ := hlast h0
            have ch := inv.chain
            rw [if_pos h0]
            have leafX : ∀ b ∈ (ord (setAt pend h ps) maxHeight).flatMap (·.2.leaves), st2 b = r.store b := by
              intro b hb
              apply st2b
              · intro hba
                refine st_ne b (leafp b ?_).1 hba
                rw [l1]; simp only [List.mem_append]; exact Or.inl hb
              · exact fun hbo => l2 (hbo ▸ hb)
            rw [l1, linked_append] at ch ⊢
            obtain ⟨c1, c2⟩ := ch
            refine ⟨linked_congr (fun b hb => by simp only [hr2]; rw [leafX b hb]) c1, ?_⟩
            obtain ⟨⟨n, n1, n2, n3⟩, _⟩ := c2
            rw [hno, Option.some.injEq] at n1
            subst n1
            exact ⟨⟨_, st2o, n2, rfl⟩, trivial⟩
          · rw [if_neg h0]
            refine linked_congr ?_ inv.chain
            intro b hb
            obtain ⟨hb1, n, n1, n2⟩ := leafp b hb
            have hbo : b ≠ old := by
              intro hbo
              subst hbo
              rw [hno, Option.some.injEq] at n1
              subst n1
              omega
            simp only [hr2]
            rw [st2b b (st_ne b hb1) hbo]
      have frame2 : ∀ i < r.count, P.page i ∉ (ord pend maxHeight).flatMap (·.2.fp) →
          st2 (P.page i) = r.store (P.page i) := by
        intro i hi hn
        apply st2b
        · intro h0; have := inj _ _ h0; omega
        · intro h0; exact hn (h0 ▸ holdfp)
      have prv : h = 0 → old = ((ord pend maxHeight).flatMap (·.2.leaves)).getLast?.getD 0 := by
        intro h0; rw [(hlast h0).1]; simp
      by_cases hsh : P.share old a = true
      · rw [if_pos hsh] at e
        simp only at e
        split at e
        · simp at e
        simp only [Except.ok.injEq] at e
        exact fin r2 pend _ old inv2 (fun _ _ => rfl) (fun _ _ => rfl) (fun _ _ => rfl) (Nat.lt_succ_self _)
          ⟨rfl, rfl, rfl, rfl⟩ (Nat.le_refl _) (fun b hb => Or.inl hb) frame2 rfl st2a
          (fun h0 => by rw [if_neg h0]) (fun h0 => ⟨hz h0, prv h0, Or.inl (by rw [if_pos h0])⟩) e
      · rw [if_neg hsh] at e
        have hne : pend h ≠ [] := by rw [hq]; simp
        cases hl : linkExtent P (createNext P f) h r2 with
        | error x => rw [hl] at e; simp at e
        | ok r3 =>
        rw [hl] at e
        simp only at e
        split at e
        · simp at e
        simp only [Except.ok.injEq] at e
        by_cases hf8 : h + 1 ≤ maxHeight
        swap
        · omega
        obtain ⟨pend3, i1, i2, i3, i4, i5, i6⟩ := linkExtent_spec inj hf8 hc inv2
          (fun g hg => by rcases Nat.eq_or_lt_of_le hg with h1 | h1
                          · rw [← h1]; exact ho
                          · exact ho' g h1) hne hl
        refine fin r3 pend3 _ old i1 i2.edges i2.stats i2.same i2.count ⟨i2.tuples, i2.kb, i2.mb, i2.fps⟩ i2.height
          ?_ ?_ i6 ?_ (fun h0 => by rw [if_neg h0]) (fun h0 => ⟨hz h0, by rw [i6]; exact prv h0, Or.inl (by rw [if_pos h0])⟩) e
        · intro b hb
          rcases i2.fp b hb with h1 | ⟨i, h1, h2, h3⟩
          · exact Or.inl h1
          · exact Or.inr ⟨i, h1, h2, h3⟩
        · intro i hi hn
          rw [i2.frame i (hi.trans (Nat.lt_succ_self _)) hn]
          exact frame2 i hi hn
        · rw [hadef, i2.frame r.count (Nat.lt_succ_self _) hafp]
          exact st2a

/-- Adding a tuple to the last leaf. -/
theorem add_tuple {P : Env K M} {r : Req K M} {pend : Open K M} {xs : List (K × M)} {w : Option Nat}
    (inv : PInv P r (fun _ => 0) pend xs 0 w) {ps : List (Nat × Sub K M)} {q : Nat × Sub K M}
    (hq : pend 0 = ps ++ [q]) (hps : ∀ x ∈ ps, x.2.items ≠ []) (hw : w = none ∨ w = some 0)
    {x : K × M} (hs : (xs ++ [x]).Pairwise (fun x y => x.1 < y.1)) {st : Store K M}
    (ha : addLeaf P r.store q.1 x = some st) {r' : Req K M}
    (hr' : r' = bump P x { r with store := st }) :
    ∃ pend', PInv P r' (fun _ => 0) pend' (xs ++ [x]) 0 none ∧ pend' 0 ≠ [] := by
  have Hq := inv.holds 0 q (by rw [hq]; simp)
  obtain ⟨n, e1, e2, e3, e4, e5, e6⟩ := Hq
  obtain ⟨nh, nx, np, nb⟩ := n
  simp only at e2 e3
  subst e3
  unfold addLeaf at ha
  rw [e1] at ha
  simp only at ha
  split at ha
  swap
  · simp at ha
  rw [Option.some.injEq] at ha
  obtain ⟨A, B, hord, hB⟩ := ord_at pend 0 maxHeight (by omega)
  have hBn := hB rfl
  subst hBn
  let q' : Nat × Sub K M := (q.1, ⟨q.2.items ++ [x], q.2.leaves, q.2.fp⟩)
  have hO := hord pend (fun _ _ => rfl)
  have hO' := hord (setAt pend 0 (ps ++ [q'])) (fun i hi => setAt_ne hi)
  rw [setAt_same] at hO'
  rw [hq] at hO
  have hst : ∀ b, b ≠ q.1 → st b = r.store b := by
    intro b hb; rw [← ha, setAt_ne hb]
  have nd := inv.nodup
  rw [hO, List.append_nil, ← List.append_assoc] at nd
  have ndo := (nodup_mid (q := q) (R := []) nd).2
  have hI : (ord (setAt pend 0 (ps ++ [q'])) maxHeight).flatMap (·.2.items) = xs ++ [x] := by
    rw [← inv.items, hO, hO']; simp [q']
  have hL : (ord (setAt pend 0 (ps ++ [q'])) maxHeight).flatMap (·.2.leaves) =
      (ord pend maxHeight).flatMap (·.2.leaves) := by rw [hO, hO']; simp [q']
  have hF : (ord (setAt pend 0 (ps ++ [q'])) maxHeight).flatMap (·.2.fp) =
      (ord pend maxHeight).flatMap (·.2.fp) := by rw [hO, hO']; simp [q']
  have hlen : (r.edges 0).length = ps.length + 1 := by
    have := congrArg List.length (inv.edges 0)
    rw [List.drop_zero, hq] at this
    simpa using this
  have hsi : (q.2.items ++ [x]).Pairwise (fun x y => x.1 < y.1) := by
    rw [← hI, hO'] at hs
    simp only [List.flatMap_append, List.flatMap_cons, List.flatMap_nil, List.append_nil,
      List.pairwise_append, q'] at hs ⊢
    exact hs.2.1.2.1
  have hedges : r'.edges = r.edges := by rw [hr']; rfl
  have hstore : r'.store = st := by rw [hr']; rfl
  have hcount : r'.count = r.count := by rw [hr']; rfl
  have hheight : r'.height = r.height := by rw [hr']; rfl
  have hstats : r'.stats = setAt r.stats 0 (setAt (r.stats 0) ps.length
      ⟨((r.stats 0 ps.length).kvs + 1) % U32, ((r.stats 0 ps.length).kb + P.ksz x.1) % U32,
        ((r.stats 0 ps.length).mb + P.msz x.2) % U32⟩) := by
    rw [hr']
    simp only [bump, hlen, Nat.add_sub_cancel]
  refine ⟨setAt pend 0 (ps ++ [q']), ?_, by simp⟩
  constructor
  · intro g
    rw [hedges]
    by_cases hg : g = 0
    · subst hg
      rw [inv.edges, hq, setAt_same]
      simp [q']
    · rw [setAt_ne hg]; exact inv.edges g
  · intro g; omega
  · intro g y hy
    rw [hstore]
    have other : ∀ y ∈ pend g, y ∈ A ++ ps → Holds (PE P) st g y.1 y.2 := by
      intro y hy hym
      apply holds_congr _ (inv.holds g y hy)
      intro b hb
      rw [hst b]
      intro h0
      refine ndo y (by simpa using hym) q.1 (by rw [e6]; simp) (h0 ▸ hb)
    by_cases hg : g = 0
    · subst hg
      rw [setAt_same, List.mem_append, List.mem_singleton] at hy
      rcases hy with hy | rfl
      · exact other y (by rw [hq]; simp [hy]) (by simp [hy])
      · exact ⟨⟨nh, nx, np, .leaf (q.2.items ++ [x])⟩, by rw [← ha]; simp [q'], e2, rfl, hsi, e5, e6⟩
    · rw [setAt_ne hg] at hy
      apply other y hy
      have hgl : g ≤ maxHeight := by
        by_contra hc
        rw [inv.pend_nil (by have := inv.height; omega)] at hy
        simp at hy
      have h1 := hord (setAt pend 0 ps) (fun i hi => setAt_ne hi)
      rw [setAt_same, List.append_nil] at h1
      rw [← h1]
      exact mem_ord.2 ⟨g, hgl, by rw [setAt_ne hg]; exact hy⟩
  · intro g y hy h0
    exfalso
    by_cases hg : g = 0
    · subst hg
      rw [setAt_same, List.mem_append, List.mem_singleton] at hy
      rcases hy with hy | rfl
      · exact hps y hy h0
      · simp [q'] at h0
    · rw [setAt_ne hg] at hy
      have := inv.ne g y hy h0
      rcases hw with hw | hw <;> rw [hw] at this <;> simp at this
      exact hg this.symm
  · intro g i y hy
    rw [hstats]
    by_cases hg : g = 0
    · subst hg
      rw [setAt_same] at hy ⊢
      have hold := fun y hy => inv.stat 0 i y hy
      rw [hq] at hold
      by_cases hi : i < ps.length
      · rw [setAt_ne (by omega)]
        rw [List.getElem?_append_left hi] at hy
        exact hold y (by rw [List.getElem?_append_left hi]; exact hy)
      · have hi' : i = ps.length := by
          have := (List.getElem?_eq_some_iff.1 hy).1
          simp at this
          omega
        subst hi'
        rw [Nat.zero_add, setAt_same]
        rw [List.getElem?_append_right (Nat.le_refl _), Nat.sub_self] at hy
        simp only [List.getElem?_cons_zero, Option.some.injEq] at hy
        subst hy
        have hU : UNK < U32 := by decide
        obtain ⟨a1, a2, a3⟩ := hold q (by simp)
        rw [Nat.zero_add] at a1 a2 a3
        simp only [SOk, q', List.length_append, List.map_append, List.sum_append, List.length_singleton,
          List.map_cons, List.map_nil, List.sum_cons, List.sum_nil, Nat.add_zero]
        refine ⟨fun h => ?_, fun h => ?_, fun h => ?_⟩
        · rw [a1 (by omega), Nat.mod_eq_of_lt (by omega)]
        · rw [a2 (by omega), Nat.mod_eq_of_lt (by omega)]
        · rw [a3 (by omega), Nat.mod_eq_of_lt (by omega)]
    · rw [setAt_ne hg] at hy ⊢
      exact inv.stat g i y hy
  · intro g i hi
    rw [hedges] at hi
    rw [hstats]
    by_cases hg : g = 0
    · subst hg
      rw [setAt_same, setAt_ne (by omega)]
      exact inv.zero 0 i hi
    · rw [setAt_ne hg]; exact inv.zero g i hi
  · exact hI
  · exact hs
  · rw [hF]; exact inv.nodup
  · rw [hF, hcount]; exact inv.pages
  · rw [hL, hstore]
    refine linked_congr ?_ inv.chain
    intro b _
    by_cases hb : b = q.1
    · subst hb; rw [← ha, e1, setAt_same]; rfl
    · rw [hst b hb]
  · rw [hedges, hheight]; exact inv.top
  · rw [hedges, hheight]; exact inv.topne
  · rw [hheight]; exact inv.height
  · rw [hcount]; exact inv.count

/-- Totals of the tuples packed so far. -/
structure Totals (P : Env K M) (r : Req K M) (xs : List (K × M)) : Prop where
  tuples : r.numTuples = xs.length
  kb : r.keyBytes = (xs.map fun x => P.ksz x.1).sum % 2 ^ 64
  mb : r.msgBytes = (xs.map fun x => P.msz x.2).sum % 2 ^ 64
  fps : r.fps = match P.hash with
    | none => []
    | some g => xs.map fun x => g x.1

omit [LinearOrder K] in
theorem Totals.bump {P : Env K M} {r : Req K M} {xs : List (K × M)} (h : Totals P r xs) (x : K × M) :
    Totals P (bump P x r) (xs ++ [x]) := by
  obtain ⟨h1, h2, h3, h4⟩ := h
  refine ⟨by simp [Btree.bump, h1], ?_, ?_, ?_⟩
  · simp [Btree.bump, h2]
  · simp [Btree.bump, h3]
  · simp only [Btree.bump]
    cases hh : P.hash with
    | none => rw [hh] at h4; exact h4
    | some g => rw [hh] at h4; simp [h4]

theorem packOne_spec {P : Env K M} (inj : ∀ i j, P.page i = P.page j → i = j) {r : Req K M}
    {pend : Open K M} {xs : List (K × M)} (inv : PInv P r (fun _ => 0) pend xs 0 none)
    (h0 : pend 0 = [] → xs = []) (ht : Totals P r xs) {x : K × M}
    (hs : (xs ++ [x]).Pairwise (fun x y => x.1 < y.1)) {r' : Req K M} (e : packOne P r x = .ok r') :
    ∃ pend', PInv P r' (fun _ => 0) pend' (xs ++ [x]) 0 none ∧ pend' 0 ≠ [] ∧ Totals P r' (xs ++ [x]) := by
  unfold packOne at e
  split at e
  · simp at e
  split at e
  · simp at e
  cases hp : placeLeaf P x r with
  | error f => rw [hp] at e; simp at e
  | ok r0 =>
  rw [hp] at e
  simp only [Except.ok.injEq] at e
  subst e
  unfold placeLeaf at hp
  cases htr : (current r 0).bind (addLeaf P r.store · x) with
  | some st =>
    rw [htr] at hp
    simp only [Except.ok.injEq] at hp
    subst hp
    obtain ⟨qa, hcur, htr⟩ := Option.bind_eq_some_iff.1 htr
    obtain ⟨ps, q, hq, hqa⟩ : ∃ ps q, pend 0 = ps ++ [q] ∧ q.1 = qa := by
      unfold current at hcur
      have he := inv.edges 0
      rw [List.drop_zero] at he
      rw [he, List.getLast?_map] at hcur
      obtain ⟨q, h1, h2⟩ := Option.map_eq_some_iff.1 hcur
      obtain ⟨ps, h3⟩ := List.getLast?_eq_some_iff.1 h1
      exact ⟨ps, q, h3, h2⟩
    subst hqa
    obtain ⟨pend', i1, i2⟩ := add_tuple inv hq
      (fun y hy hn => by have := inv.ne 0 y (by rw [hq]; simp [hy]) hn; simp at this) (Or.inl rfl) hs htr rfl
    refine ⟨pend', i1, i2, Totals.bump ⟨?_, ?_, ?_, ?_⟩ x⟩
    exacts [ht.tuples, ht.kb, ht.mb, ht.fps]
  | none =>
    rw [htr] at hp
    simp only at hp
    cases hc : createNext P maxHeight r 0 with
    | error f => rw [hc] at hp; simp at hp
    | ok r1 =>
    rw [hc] at hp
    simp only at hp
    obtain ⟨pend1, ps, a, c1, c2, c3, c4, _⟩ := createNext_spec inj maxHeight 0 rfl r _ pend xs 0 r1 inv rfl
      (fun _ _ => rfl) (fun _ => rfl) (fun _ => h0) hc
    have hcur : current r1 0 = some a := by
      have he := c1.edges 0
      rw [List.drop_zero] at he
      unfold current
      rw [he, c2]
      simp
    rw [hcur, Option.bind_some] at hp
    cases hai : addLeaf P r1.store a x with
    | none => rw [hai] at hp; simp at hp
    | some st =>
    rw [hai] at hp
    simp only [Except.ok.injEq] at hp
    subst hp
    obtain ⟨pend', i1, i2⟩ := add_tuple c1 c2 c3 (Or.inr rfl) hs hai rfl
    refine ⟨pend', i1, i2, Totals.bump ⟨?_, ?_, ?_, ?_⟩ x⟩
    · exact c4.tuples.trans ht.tuples
    · exact c4.kb.trans ht.kb
    · exact c4.mb.trans ht.mb
    · exact c4.fps.trans ht.fps

theorem packAll_spec {P : Env K M} (inj : ∀ i j, P.page i = P.page j → i = j) :
    ∀ (ys : List (K × M)) {r : Req K M} {pend : Open K M} {xs : List (K × M)},
      PInv P r (fun _ => 0) pend xs 0 none → (pend 0 = [] → xs = []) → Totals P r xs →
      (xs ++ ys).Pairwise (fun x y => x.1 < y.1) → ∀ {r' : Req K M}, packAll P ys r = .ok r' →
      ∃ pend', PInv P r' (fun _ => 0) pend' (xs ++ ys) 0 none ∧ (pend' 0 = [] → xs ++ ys = []) ∧
        Totals P r' (xs ++ ys) := by
  intro ys
  induction ys with
  | nil =>
    intro r pend xs inv h0 ht _ r' e
    simp only [packAll, Except.ok.injEq] at e
    subst e
    rw [List.append_nil]
    exact ⟨pend, inv, h0, ht⟩
  | cons y ys ih =>
    intro r pend xs inv h0 ht hs r' e
    simp only [packAll] at e
    cases hp : packOne P r y with
    | error f => rw [hp] at e; simp at e
    | ok r1 =>
    rw [hp] at e
    simp only at e
    have hs1 : xs ++ y :: ys = xs ++ [y] ++ ys := by simp
    rw [hs1] at hs ⊢
    obtain ⟨pend1, i1, i2, i3⟩ := packOne_spec inj inv h0 ht (List.pairwise_append.1 hs).1 hp
    exact ih i1 (fun h => absurd h i2) i3 hs e

theorem setup_inv (P : Env K M) : PInv P (setup P) (fun _ => 0) (fun _ => []) [] 0 none := by
  have : ord (fun _ => ([] : List (Nat × Sub K M))) maxHeight = [] := rfl
  constructor <;> (try simp only [this]) <;> simp [setup, Linked, maxHeight]

theorem finishLoop_spec {P : Env K M} (inj : ∀ i j, P.page i = P.page j → i = j) :
    ∀ (f h : Nat) {r : Req K M} {pend : Open K M} {xs : List (K × M)}, f + h = maxHeight →
      PInv P r (fun _ => 0) pend xs 0 none → (∀ g, g < h → pend g = []) →
      pend h ≠ [] → h ≤ r.height → ∀ {r' : Req K M}, finishLoop P f h r = .ok r' →
      ∃ pend' q, PInv P r' (fun _ => 0) pend' xs 0 none ∧ (∀ g, g ≠ r'.height → pend' g = []) ∧
        pend' r'.height = [q] ∧ r'.numTuples = r.numTuples ∧ r'.keyBytes = r.keyBytes ∧
        r'.msgBytes = r.msgBytes ∧ r'.fps = r.fps ∧ r'.store (P.page 0) = r.store (P.page 0) := by
  intro f
  induction f with
  | zero => intro h r pend xs _ _ _ _ _ r' e; simp [finishLoop] at e
  | succ f ih =>
    intro h r pend xs hf inv hlow hne hh r' e
    simp only [finishLoop] at e
    have he : ∀ g, r.edges g = (pend g).map (·.1) := fun g => by
      have := inv.edges g
      rwa [List.drop_zero] at this
    split at e
    · rename_i hc
      cases hl : linkExtent P (createNext P f) h r with
      | error x => rw [hl] at e; simp at e
      | ok r1 =>
      rw [hl] at e
      simp only at e
      obtain ⟨pend1, i1, i2, i3, i4, i5, i6⟩ := linkExtent_spec inj (by omega)
        (createNext_spec inj f (h + 1) (by omega)) inv (fun _ _ => rfl) hne hl
      have ne1 : pend1 (h + 1) ≠ [] := by
        intro hn
        unfold linkExtent at hl
        cases hll : linkLoop P (createNext P f) h 0 (r.edges h).length r with
        | error x => rw [hll] at hl; simp at hl
        | ok r2 =>
        rw [hll] at hl
        simp only [Except.ok.injEq] at hl
        subst hl
        have hlen : (r.edges h).length = (pend h).length := by rw [he]; simp
        obtain ⟨_, _, _, _, _, j5, _⟩ := linkLoop_spec (off := fun _ => 0) inj (by omega)
          (createNext_spec inj f (h + 1) (by omega)) inv hlen (fun _ _ => rfl) hll
        apply j5 (by rw [hlen]; exact fun h0 => hne (List.length_eq_zero_iff.1 h0))
        have := i1.edges (h + 1)
        rw [hn] at this
        simp only [List.drop_zero, List.map_nil] at this
        rwa [setAt_ne (by omega)] at this
      obtain ⟨pend', q, k1, k2, k3, k4, k5, k6, k7, k8⟩ := ih (h + 1) (by omega) i1 (by
        intro g hg
        rcases Nat.lt_succ_iff_lt_or_eq.1 hg with hg | hg
        · rw [i2.same g hg, hlow g hg]
        · rw [hg, i4]) ne1 i5 e
      refine ⟨pend', q, k1, k2, k3, k4.trans i2.tuples, k5.trans i2.kb, k6.trans i2.mb, k7.trans i2.fps, k8.trans ?_⟩
      apply i2.frame 0 inv.count
      intro hm
      obtain ⟨i, p1, _, p3⟩ := inv.pages _ hm
      have := inj _ _ p3
      omega
    · rename_i hc
      simp only [Except.ok.injEq] at e
      subst e
      have hhe : r.height = h := by omega
      have hlen : (pend h).length = 1 := by
        have : (r.edges h).length = (pend h).length := by rw [he]; simp
        have := List.length_pos_iff.2 hne
        omega
      obtain ⟨q, hq⟩ := List.length_eq_one_iff.1 hlen
      refine ⟨pend, q, inv, ?_, by rw [hhe]; exact hq, rfl, rfl, rfl, rfl, rfl⟩
      intro g hg
      rcases Nat.lt_or_ge g h with h1 | h1
      · exact hlow g h1
      · exact inv.pend_nil (by omega)

omit [LinearOrder K] in
theorem ord_single {f : Nat → List (Nat × Sub K M)} {h : Nat} {q : Nat × Sub K M} (h0 : ∀ g, g ≠ h → f g = [])
    (h1 : f h = [q]) : ∀ {n : Nat}, h ≤ n → ord f n = [q] := by
  have nil : ∀ n, n < h → ord f n = [] := by
    intro n
    induction n with
    | zero => intro hn; exact h0 0 (by omega)
    | succ n ih => intro hn; simp only [ord]; rw [ih (by omega), h0 _ (by omega)]; rfl
  intro n
  induction n with
  | zero => intro hn; have : h = 0 := by omega
            subst this; exact h1
  | succ n ih =>
    intro hn
    simp only [ord]
    by_cases e : h = n + 1
    · rw [← e, h1, nil n (by omega)]; rfl
    · rw [ih (by omega), h0 _ (by omega)]; rfl

/-- What `btree_pack` builds. -/
theorem pack_spec {P : Env K M} (inj : ∀ i j, P.page i = P.page j → i = j) {xs : List (K × M)}
    (hs : xs.Pairwise (fun x y => x.1 < y.1)) {t : Packed K M} (e : pack P xs = .ok t) :
    t.numTuples = xs.length ∧ t.keyBytes = (xs.map fun x => P.ksz x.1).sum % 2 ^ 64 ∧
    t.msgBytes = (xs.map fun x => P.msz x.2).sum % 2 ^ 64 ∧
    (t.fps = match P.hash with
      | none => []
      | some g => xs.map fun x => g x.1) ∧
    (xs = [] → t.root = 0) ∧
    (xs ≠ [] → t.root = P.page 0 ∧ ∃ h s, h < maxHeight ∧ Holds (PE P) t.store h t.root s ∧ s.items = xs ∧
      s.fp.Nodup ∧ (∀ b ∈ s.fp, ∃ i, b = P.page i) ∧ Linked t.store 0 s.leaves 0) := by
  unfold pack at e
  cases hp : packAll P xs (setup P) with
  | error f => rw [hp] at e; simp at e
  | ok r =>
  rw [hp] at e
  simp only at e
  obtain ⟨pend, inv, h0, ht⟩ := packAll_spec inj xs (setup_inv P) (fun _ => rfl)
    ⟨rfl, rfl, rfl, by simp only [setup]; cases P.hash <;> rfl⟩ (by simpa using hs) hp
  rw [List.nil_append] at inv h0 ht
  unfold finish at e
  split at e
  · rename_i hz
    simp only [Except.ok.injEq] at e
    have hx : xs = [] := by
      rw [ht.tuples] at hz
      exact List.length_eq_zero_iff.1 hz
    subst e
    refine ⟨by simp [hx], ht.kb, ht.mb, ht.fps, fun _ => rfl, fun h => absurd hx h⟩
  · rename_i hz
    have hx : xs ≠ [] := by
      intro hx
      apply hz
      rw [ht.tuples, hx]
      rfl
    cases hf : finishLoop P maxHeight 0 r with
    | error x => rw [hf] at e; simp at e
    | ok r1 =>
    rw [hf] at e
    simp only at e
    obtain ⟨pend', q, k1, k2, k3, k4, k5, k6, k7, k8⟩ := finishLoop_spec inj maxHeight 0 rfl inv
      (fun g hg => by omega) (fun h => hx (h0 h)) (by omega) hf
    have hedge : r1.edges r1.height = [q.1] := by
      have := k1.edges r1.height
      rw [List.drop_zero, k3] at this
      exact this
    rw [hedge] at e
    simp only [List.getElem?_cons_zero, Except.ok.injEq] at e
    subst e
    refine ⟨k4.trans ht.tuples, k5.trans ht.kb, k6.trans ht.mb, k7.trans ht.fps, fun h => absurd h hx, fun _ => ⟨rfl, ?_⟩⟩
    have hO := ord_single k2 k3 (Nat.le_of_lt k1.height)
    have hI := k1.items
    have hN := k1.nodup
    have hP := k1.pages
    have hC := k1.chain
    have Hq := k1.holds r1.height q (by rw [k3]; simp)
    simp only [hO, List.flatMap_cons, List.flatMap_nil, List.append_nil] at hI hN hP hC
    have hroot : ∀ b ∈ q.2.fp, b ≠ P.page 0 := by
      intro b hb h0
      obtain ⟨i, p1, _, p3⟩ := hP b hb
      have := inj _ _ (p3.symm.trans h0)
      omega
    have hst : ∀ b ∈ q.2.fp, setAt r1.store (P.page 0) (r1.store q.1) b = r1.store b := fun b hb =>
      setAt_ne (hroot b hb)
    generalize hH : r1.height = H at *
    have hHt : H < maxHeight := hH ▸ k1.height
    cases H with
    | zero =>
      obtain ⟨n, e1, e2, e3, e4, e5, e6⟩ := Hq
      rw [e5] at hC
      obtain ⟨⟨n', n1, n2, n3⟩, _⟩ := hC
      refine ⟨0, ⟨q.2.items, [P.page 0], [P.page 0]⟩, hHt, ⟨n, ?_, e2, e3, e4, rfl, rfl⟩, hI, by simp, ?_, ?_⟩
      · simp [e1]
      · intro b hb; exact ⟨0, by simpa using hb⟩
      · exact ⟨⟨n', by simp [n1], n2, n3⟩, trivial⟩
    | succ H =>
      obtain ⟨n, cs, e1, e2, e3, e4, e5, e6, e7, e8⟩ := Hq
      refine ⟨H + 1, ⟨q.2.items, q.2.leaves, P.page 0 :: cs.flatMap (·.2.fp)⟩, hHt,
        ⟨n, cs, ?_, e2, e3, ?_, e5, e6, e7, rfl⟩, hI, ?_, ?_, ?_⟩
      · simp [e1]
      · intro c hc
        refine ⟨holds_congr ?_ (e4 c hc).1, (e4 c hc).2⟩
        intro b hb
        show Option.map core (setAt r1.store (P.page 0) (r1.store q.1) b) = _
        rw [hst]
        rw [e8]
        exact List.mem_cons_of_mem _ (List.mem_flatMap.2 ⟨c, hc, hb⟩)
      · rw [e8, List.nodup_cons] at hN
        rw [List.nodup_cons]
        refine ⟨fun hm => hroot (P.page 0) ?_ rfl, hN.2⟩
        rw [e8]; exact List.mem_cons_of_mem _ hm
      · intro b hb
        rcases List.mem_cons.1 hb with rfl | hb
        · exact ⟨0, rfl⟩
        · obtain ⟨i, _, _, p3⟩ := hP b (by rw [e8]; exact List.mem_cons_of_mem _ hb)
          exact ⟨i, p3⟩
      · refine linked_congr ?_ hC
        intro b hb
        show Option.map _ (setAt r1.store (P.page 0) (r1.store q.1) b) = _
        rw [hst]
        rw [e7] at hb
        obtain ⟨c, hc, hbc⟩ := List.mem_flatMap.1 hb
        rw [e8]
        exact List.mem_cons_of_mem _ (List.mem_flatMap.2 ⟨c, hc, (e4 c hc).1.leaves_fp b hbc⟩)

end Splinter.Btree
