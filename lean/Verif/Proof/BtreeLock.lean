import Verif.Model.BtreeLock
import Mathlib.Tactic.Common
import Mathlib.Tactic.Linarith
/-!
# Proofs about the locks of a memtable tree: what is always true of them

No two threads hold a page other than for reading, and what a program counter says
about the heights of its pages is so.
-/
namespace Splinter.BtreeLock

/-- What a program counter says of the heights of its pages. -/
def Pc.ok (ht : Nat → Nat) (R : Nat) : Pc → Prop
  | .desc k p => k = .ins → 1 ≤ hgt ht R p
  | .down _ p z => z ≠ 0 ∧ hgt ht R p = ht z + 1
  | .pair p z => z ≠ 0 ∧ hgt ht R p = ht z + 1
  | .pairC _ p z => z ≠ 0 ∧ hgt ht R p = ht z + 1
  | .lockP p z => z ≠ 0 ∧ hgt ht R p = ht z + 1 ∧ 1 ≤ ht z
  | .lockZ p z => z ≠ 0 ∧ hgt ht R p = ht z + 1 ∧ 1 ≤ ht z
  | .leaf z => z ≠ 0 ∧ ht z = 0
  | .leafC z => z ≠ 0 ∧ ht z = 0
  | .lockLeaf z => z ≠ 0 ∧ ht z = 0
  | .spin p z => z ≠ 0 ∧ hgt ht R p = 1 ∧ ht z = 0
  | .both p z => z ≠ 0 ∧ hgt ht R p = 1 ∧ ht z = 0
  | .slockP p z => z ≠ 0 ∧ hgt ht R p = 1 ∧ ht z = 0
  | .getNext p z n j => z ≠ 0 ∧ hgt ht R p = 1 ∧ ht z = 0 ∧ n ≠ 0 ∧ ht n = 0 ∧ j ≤ 100
  | .gotNext p z n j => z ≠ 0 ∧ hgt ht R p = 1 ∧ ht z = 0 ∧ n ≠ 0 ∧ ht n = 0 ∧ j ≤ 100
  | .slockN p z n => z ≠ 0 ∧ hgt ht R p = 1 ∧ ht z = 0 ∧ n ≠ 0 ∧ ht n = 0
  | .slockZ p z n => z ≠ 0 ∧ hgt ht R p = 1 ∧ ht z = 0 ∧ ∀ a ∈ n, a ≠ 0 ∧ ht a = 0
  | .free _ q => q.ok ht R
  | .leafL k _ => k ≠ .ins
  | .lost _ => False
  | _ => True

theorem held_iff {s : Sys} {i a : Nat} {f : Mode → Bool} :
    s.held i a f = true ↔ ∃ j q m, j ≠ i ∧ s.ths[j]? = some q ∧ (a, m) ∈ q.holds ∧ f m = true := by
  simp only [Sys.held, List.any_eq_true, Bool.and_eq_true, bne_iff_ne, beq_iff_eq, Prod.exists,
    List.mem_zipIdx_iff_getElem?]
  constructor
  · rintro ⟨q, j, h1, h2, a', m, h3, rfl, h5⟩
    exact ⟨j, q, m, h2, h1, h3, h5⟩
  · rintro ⟨j, q, m, h2, h1, h3, h5⟩
    exact ⟨q, j, h1, h2, a, m, h3, rfl, h5⟩

theorem not_readable {s : Sys} {i a : Nat} (h : s.readable i a = false) :
    ∃ j q, j ≠ i ∧ s.ths[j]? = some q ∧ (a, Mode.w) ∈ q.holds := by
  have : s.held i a (· == .w) = true := by simpa [Sys.readable] using h
  obtain ⟨j, q, m, h1, h2, h3, h4⟩ := held_iff.mp this
  cases beq_iff_eq.mp h4
  exact ⟨j, q, h1, h2, h3⟩

theorem not_claimable {s : Sys} {i a : Nat} (h : s.claimable i a = false) :
    ∃ j q m, j ≠ i ∧ s.ths[j]? = some q ∧ (a, m) ∈ q.holds ∧ m ≠ .r := by
  have : s.held i a (· != .r) = true := by simpa [Sys.claimable] using h
  obtain ⟨j, q, m, h1, h2, h3, h4⟩ := held_iff.mp this
  exact ⟨j, q, m, h1, h2, h3, by simpa using h4⟩

theorem not_alone {s : Sys} {i a : Nat} (h : s.alone i a = false) :
    ∃ j q m, j ≠ i ∧ s.ths[j]? = some q ∧ (a, m) ∈ q.holds := by
  have : s.held i a (fun _ => true) = true := by simpa [Sys.alone] using h
  obtain ⟨j, q, m, h1, h2, h3, _⟩ := held_iff.mp this
  exact ⟨j, q, m, h1, h2, h3⟩

theorem claimable_of {s : Sys} {i a : Nat} (h : s.claimable i a = true) {j q m} (hj : j ≠ i)
    (hq : s.ths[j]? = some q) (hm : (a, m) ∈ q.holds) : m = .r := by
  by_contra hc
  have : s.held i a (· != .r) = true := held_iff.mpr ⟨j, q, m, hj, hq, hm, by simpa using hc⟩
  simp [Sys.claimable, this] at h

theorem alone_of {s : Sys} {i a : Nat} (h : s.alone i a = true) {j q m} (hj : j ≠ i)
    (hq : s.ths[j]? = some q) : (a, m) ∉ q.holds := by
  intro hm
  have : s.held i a (fun _ => true) = true := held_iff.mpr ⟨j, q, m, hj, hq, hm, rfl⟩
  simp [Sys.alone, this] at h

theorem alone_claimable {s : Sys} {i a : Nat} (h : s.alone i a = true) : s.claimable i a = true := by
  by_contra hc
  obtain ⟨j, q, m, h1, h2, h3, _⟩ := not_claimable (by simpa using hc)
  exact alone_of h h1 h2 h3

theorem claimable_readable {s : Sys} {i a : Nat} (h : s.claimable i a = true) : s.readable i a = true := by
  by_contra hc
  obtain ⟨j, q, h1, h2, h3⟩ := not_readable (by simpa using hc)
  cases claimable_of h h1 h2 h3

/-- Always true of the threads when no merge callback fails. -/
structure Inv (ht : Nat → Nat) (s : Sys) : Prop where
  compat : ∀ {i j : Nat} {p q : Pc} {a : Nat} {m m' : Mode}, i ≠ j → s.ths[i]? = some p → s.ths[j]? = some q →
    (a, m) ∈ p.holds → (a, m') ∈ q.holds → m = .r ∨ m' = .r
  ok : ∀ {i : Nat} {q : Pc}, s.ths[i]? = some q → q.ok ht s.rootHt

theorem next_holds {bad ht s i q q' e} (h : Next bad ht s i q q' e) {a m} (hm : (a, m) ∈ q'.holds) :
    m = .r ∨ (∃ m', m' ≠ .r ∧ (a, m') ∈ q.holds) ∨ s.claimable i a = true := by
  cases h with
  | rootRead hk =>
    rename_i k _
    cases k <;> simp_all [Pc.holds, Kind.base]
    rcases hm with ⟨rfl, rfl⟩ | ⟨_, rfl⟩ <;> simp
  | lockZ ha hrc _ =>
    simp only [Pc.holds, Kind.base, List.nil_append, List.mem_append, List.mem_cons, Prod.mk.injEq,
      List.not_mem_nil, or_false, List.mem_map, Option.mem_toList] at hm
    rcases hm with ((⟨rfl, rfl⟩ | ⟨rfl, rfl⟩) | ⟨x, hx, rfl, rfl⟩) | ⟨_, rfl⟩
    · right; left; exact ⟨.w, by simp, by simp [Pc.holds]⟩
    · right; left; exact ⟨.w, by simp, by simp [Pc.holds]⟩
    · right; right; exact alone_claimable (hrc _ hx).2.2
    · left; rfl
  | slockZ ha hrc =>
    simp only [Pc.holds, List.append_nil, List.mem_append, List.mem_cons, Prod.mk.injEq,
      List.not_mem_nil, or_false, List.mem_map, Option.mem_toList] at hm
    rcases hm with ((⟨rfl, rfl⟩ | ⟨x, hx, rfl, rfl⟩) | ⟨x, hx, rfl, rfl⟩) | ⟨rfl, rfl⟩
    · right; left; exact ⟨.w, by simp, by simp [Pc.holds]⟩
    · right; left; exact ⟨.w, by simp, by simp [Pc.holds]; exact Or.inr (Or.inr hx)⟩
    · right; right; exact alone_claimable (hrc _ hx)
    · right; left; exact ⟨.w, by simp, by simp [Pc.holds]⟩
  | free =>
    cases m
    · exact Or.inl rfl
    · exact Or.inr (Or.inl ⟨.c, by simp, by simp [Pc.holds] at hm ⊢; tauto⟩)
    · exact Or.inr (Or.inl ⟨.w, by simp, by simp [Pc.holds] at hm ⊢; tauto⟩)
  | freed =>
    cases m
    · exact Or.inl rfl
    · exact Or.inr (Or.inl ⟨.c, by simp, by simp [Pc.holds] at hm ⊢; exact hm⟩)
    · exact Or.inr (Or.inl ⟨.w, by simp, by simp [Pc.holds] at hm ⊢; exact hm⟩)
  | _ =>
    cases m
    · exact Or.inl rfl
    all_goals
      simp only [Pc.holds, Kind.base, List.nil_append, List.append_nil, List.mem_append, List.mem_cons, Prod.mk.injEq,
        List.not_mem_nil, or_false, false_or, and_false, reduceCtorEq, and_true, Option.toList_some, Option.toList_none,
        List.map_cons, List.map_nil] at hm ⊢
    all_goals first
      | exact hm.elim
      | (rcases hm with (rfl | rfl) | rfl <;> first
          | (refine Or.inl ⟨.c, ?_, ?_⟩ <;> simp <;> done)
          | (refine Or.inl ⟨.w, ?_, ?_⟩ <;> simp <;> done)
          | (right; assumption))
      | (rcases hm with rfl | rfl <;> first
          | (refine Or.inl ⟨.c, ?_, ?_⟩ <;> simp <;> done)
          | (refine Or.inl ⟨.w, ?_, ?_⟩ <;> simp <;> done)
          | (right; assumption))
      | (subst hm; first
          | (refine Or.inl ⟨.c, ?_, ?_⟩ <;> simp <;> done)
          | (refine Or.inl ⟨.w, ?_, ?_⟩ <;> simp <;> done)
          | (right; assumption))
      | (refine Or.inl ⟨.c, ?_, Or.inl hm⟩; simp)
      | (refine Or.inl ⟨.w, ?_, Or.inl hm⟩; simp)

/-- The height of the root after a move. -/
def Eff.root (R : Nat) : Eff → Nat
  | .grow => R + 1
  | _ => R

theorem next_ok {ht s i q q' e} (h : Next false ht s i q q' e) (hq : q.ok ht s.rootHt) :
    q'.ok ht (e.root s.rootHt) := by
  cases h
  all_goals first
    | trivial
    | (simp_all [Pc.ok, Eff.root, hgt]; done)
    | skip
  case lockZ z' rc h1 h2 h3 =>
    simp only [Pc.ok, Eff.root] at hq ⊢
    intro _
    rcases h3 with rfl | h3
    · simp [hgt, hq.1, hq.2.2]
    · have := h2 _ h3
      simp [hgt, this.1, this.2.1, hq.2.2]
  case nextRetry =>
    simp only [Pc.ok, Eff.root] at hq ⊢
    exact ⟨hq.1, hq.2.1, hq.2.2.1, hq.2.2.2.1, hq.2.2.2.2.1, by omega⟩

theorem ok_grow {ht : Nat → Nat} {R R' : Nat} {q : Pc} (hq : q.ok ht R) (h0 : ∀ m, (0, m) ∉ q.holds) :
    q.ok ht R' := by
  induction q with
  | free l q ih => exact ih hq (fun m hm => h0 m (by simp [Pc.holds, hm]))
  | desc k p =>
    intro hk
    have : p ≠ 0 := fun e => h0 .r (by simp [Pc.holds, e])
    simpa [hgt, this] using hq hk
  | down k p z | pair p z =>
    have : p ≠ 0 := fun e => h0 .r (by simp [Pc.holds, e])
    simpa [Pc.ok, hgt, this] using hq
  | pairC b p z | spin p z | both p z =>
    have : p ≠ 0 := fun e => h0 .c (by simp [Pc.holds, e])
    simpa [Pc.ok, hgt, this] using hq
  | lockP p z | lockZ p z | slockP p z | getNext p z n j | gotNext p z n j | slockN p z n | slockZ p z n =>
    have : p ≠ 0 := fun e => h0 .w (by simp [Pc.holds, e])
    simpa [Pc.ok, hgt, this] using hq
  | leaf z | leafC z | lockLeaf z | leafL k z => exact hq
  | lost p => exact hq
  | _ => trivial

theorem put_ths (s : Sys) (i : Nat) (q : Pc) (e : Eff) : (s.put i q e).ths = s.ths.set i q := by cases e <;> rfl

theorem put_root (s : Sys) (i : Nat) (q : Pc) (e : Eff) : (s.put i q e).rootHt = e.root s.rootHt := by
  cases e <;> rfl

theorem put_get {s : Sys} {i j : Nat} {q q' p : Pc} {e : Eff} (hi : s.ths[i]? = some q)
    (h : (s.put i q' e).ths[j]? = some p) : (j = i ∧ p = q') ∨ (j ≠ i ∧ s.ths[j]? = some p) := by
  rw [put_ths, List.getElem?_set] at h
  have hlt : i < s.ths.length := (List.getElem?_eq_some_iff.mp hi).1
  by_cases hij : i = j
  · simp only [hij, if_true] at h
    subst hij
    simp only [hlt, if_true, Option.some.injEq] at h
    exact Or.inl ⟨rfl, h.symm⟩
  · simp only [hij, if_false] at h
    exact Or.inr ⟨fun e => hij e.symm, h⟩

/-- A change of one thread keeps the invariant if what it holds for more than reading it
held before for more than reading or could claim. -/
theorem inv_put {ht s i q q' e} (h : Inv ht s) (hi : s.ths[i]? = some q)
    (h1 : ∀ {a m}, (a, m) ∈ q'.holds → m = .r ∨ (∃ m', m' ≠ .r ∧ (a, m') ∈ q.holds) ∨ s.claimable i a = true)
    (h2 : q'.ok ht (e.root s.rootHt)) (h3 : e = .grow → s.alone i 0 = true) : Inv ht (s.put i q' e) := by
  have key : ∀ {j : Nat} {p : Pc} {a : Nat} {m m' : Mode}, j ≠ i → s.ths[j]? = some p → (a, m) ∈ q'.holds →
      (a, m') ∈ p.holds → m = .r ∨ m' = .r := by
    intro j p a m m' hj hp hm hm'
    rcases h1 hm with h' | ⟨m2, hr, hm2⟩ | hc
    · exact Or.inl h'
    · rcases h.compat (fun e => hj e.symm) hi hp hm2 hm' with h' | h'
      · exact absurd h' hr
      · exact Or.inr h'
    · exact Or.inr (claimable_of hc hj hp hm')
  constructor
  · intro j k p r a m m' hjk hp hr hm hm'
    rcases put_get hi hp with ⟨rfl, rfl⟩ | ⟨hj, hp2⟩ <;> rcases put_get hi hr with ⟨rfl, rfl⟩ | ⟨hk, hr2⟩
    · exact absurd rfl hjk
    · exact key hk hr2 hm hm'
    · exact (key hj hp2 hm' hm).symm
    · exact h.compat hjk hp2 hr2 hm hm'
  · intro j p hp
    rw [put_root]
    rcases put_get hi hp with ⟨rfl, rfl⟩ | ⟨hj, hp2⟩
    · exact h2
    · cases e with
      | grow => exact ok_grow (h.ok hp2) (fun m => alone_of (h3 rfl) hj hp2)
      | _ => exact h.ok hp2

theorem next_grow {bad ht s i q q'} (h : Next bad ht s i q q' .grow) : s.alone i 0 = true := by
  cases h; assumption

theorem inv_step {ht s i t} (h : Inv ht s) (hs : Step false ht s i t) : Inv ht t := by
  obtain ⟨hi, hn⟩ := hs
  exact inv_put h hi (next_holds hn) (next_ok hn (h.ok hi)) (fun e => by subst e; exact next_grow hn)

theorem inv_call {ht s i t} (h : Inv ht s) (hs : Call s i t) : Inv ht t := by
  cases hs with
  | op hi hk =>
    refine inv_put h hi ?_ trivial (by simp)
    rcases hk with rfl | rfl | rfl <;> simp [Pc.holds, Kind.base]
  | _ hi =>
    refine inv_put h hi ?_ trivial (by simp)
    intro a m hm
    simp [Pc.holds] at hm
    exact Or.inl hm.2

theorem inv_reach {ht s} (h : Reach false ht s) : Inv ht s := by
  induction h with
  | init hi =>
    have hd : ∀ {i : Nat} {q : Pc}, _[i]? = some q → q = .idle := fun hq => hi _ (List.mem_of_getElem? hq)
    refine ⟨fun _ hp _ hm _ => ?_, fun hq => ?_⟩
    · cases hd hp; simp [Pc.holds] at hm
    · cases hd hq; trivial
  | step _ hs ih => exact inv_step ih hs
  | call _ hs ih => exact inv_call ih hs

/-! ## No circle of waiting threads -/

/-- A thread that holds a page. -/
def Pc.active (q : Pc) : Bool := !q.holds.isEmpty

/-- A thread that cannot get on: it waits for a page, or it would fail once more to claim the leaf
it spins on. -/
def Sys.stuck (s : Sys) (i : Nat) : Pc → Bool
  | .root _ => !s.readable i 0
  | .down _ _ z => !s.readable i z
  | .topLock => !s.alone i 0
  | .lockP p _ => !s.alone i p
  | .lockZ _ z => !s.alone i z
  | .lockLeaf z => !s.alone i z
  | .spin _ z => !s.claimable i z
  | .slockP p _ => !s.alone i p
  | .getNext _ _ n _ => !s.readable i n
  | .slockN _ _ n => !s.alone i n
  | .slockZ _ z _ => !s.alone i z
  | .hop n _ => !s.readable i n
  | .back n _ _ _ => !s.readable i n
  | _ => false

/-- The page whose readers a thread waits for. -/
def Pc.drains : Pc → Option Nat
  | .topLock => some 0
  | .lockP p _ => some p
  | .lockZ _ z => some z
  | .lockLeaf z => some z
  | .slockP p _ => some p
  | .slockN _ _ n => some n
  | .slockZ _ z _ => some z
  | _ => none

theorem stuck_read {s : Sys} {i : Nat} {q : Pc} (h : s.stuck i q = true) {a : Nat} (hm : (a, Mode.r) ∈ q.holds) :
    ∃ k z, q = .down k a z := by
  cases q with
  | down k p z =>
    refine ⟨k, z, ?_⟩
    cases k <;> simp_all [Pc.holds, Kind.base]
  | root k => cases k <;> simp_all [Pc.holds, Kind.base]
  | _ => simp_all [Sys.stuck, Pc.holds]

theorem drains_holds {q : Pc} {y : Nat} (h : q.drains = some y) : (y, Mode.w) ∈ q.holds := by
  cases q <;> simp_all [Pc.drains, Pc.holds]

theorem drains_stuck {s : Sys} {i : Nat} {q : Pc} {y : Nat} (hs : s.stuck i q = true) (h : q.drains = some y) :
    s.alone i y = false := by
  cases q <;> simp_all [Pc.drains, Sys.stuck]

/-- A stuck thread with a write lock waits for readers of a page no higher, or for the leaf
after the one it splits. -/
theorem stuck_write {ht : Nat → Nat} {s : Sys} {i : Nat} {q : Pc} (hs : s.stuck i q = true)
    (ho : q.ok ht s.rootHt) {a : Nat} (hm : (a, Mode.w) ∈ q.holds) :
    (∃ y, q.drains = some y ∧ hgt ht s.rootHt y ≤ hgt ht s.rootHt a) ∨
      (∃ z n j, q = .getNext a z n j) := by
  cases q with
  | getNext p z n j =>
    simp [Pc.holds] at hm
    exact Or.inr ⟨z, n, j, by rw [hm]⟩
  | down k p z => cases k <;> simp_all [Pc.holds, Kind.base]
  | root k => cases k <;> simp_all [Pc.holds, Kind.base]
  | lockZ p z =>
    simp only [Pc.ok] at ho
    simp [Pc.holds] at hm
    refine Or.inl ⟨z, rfl, ?_⟩
    rcases hm with rfl | rfl
    · rw [ho.2.1]; simp [hgt, ho.1]
    · exact Nat.le_refl _
  | slockN p z n =>
    simp only [Pc.ok] at ho
    exact Or.inl ⟨n, rfl, by simp [hgt, ho.2.2.2.1, ho.2.2.2.2]⟩
  | slockZ p z n =>
    simp only [Pc.ok] at ho
    exact Or.inl ⟨z, rfl, by simp [hgt, ho.1, ho.2.2.1]⟩
  | lockP p z | slockP p z =>
    simp [Pc.holds] at hm
    exact Or.inl ⟨p, rfl, by rw [hm]⟩
  | lockLeaf z =>
    simp [Pc.holds] at hm
    exact Or.inl ⟨z, rfl, by rw [hm]⟩
  | topLock =>
    simp [Pc.holds] at hm
    exact Or.inl ⟨0, rfl, by rw [hm]⟩
  | _ => simp_all [Sys.stuck, Pc.holds]

/-- In every state in which some thread holds a page, some thread that holds a page is
not stuck. -/
theorem not_all_stuck {ht : Nat → Nat} {s : Sys} (h : Inv ht s)
    (ha : ∃ (i : Nat) (q : Pc), s.ths[i]? = some q ∧ q.active = true) :
    ∃ (i : Nat) (q : Pc), s.ths[i]? = some q ∧ q.active = true ∧ s.stuck i q = false := by
  by_contra hc
  have all : ∀ {i : Nat} {q : Pc} {x}, s.ths[i]? = some q → x ∈ q.holds → s.stuck i q = true := by
    intro i q x hq hx
    by_contra hs
    refine hc ⟨i, q, hq, ?_, by simpa using hs⟩
    cases hh : q.holds with
    | nil => simp [hh] at hx
    | cons _ _ => simp [Pc.active, hh]
  -- whoever has a write lock waits, or a thread that waits for the readers of a leaf exists
  have wr : ∀ {i : Nat} {q : Pc} {a : Nat}, s.ths[i]? = some q → (a, Mode.w) ∈ q.holds →
      ∃ (j : Nat) (p : Pc) (y : Nat), s.ths[j]? = some p ∧ p.drains = some y ∧
        hgt ht s.rootHt y ≤ hgt ht s.rootHt a := by
    intro i q a hq hm
    rcases stuck_write (all hq hm) (h.ok hq) hm with ⟨y, h1, h2⟩ | ⟨z, n, j, rfl⟩
    · exact ⟨i, q, y, hq, h1, h2⟩
    · have hs := all hq hm
      have ho := h.ok hq
      simp only [Sys.stuck, Bool.not_eq_true', Pc.ok] at hs ho
      obtain ⟨i2, q2, _, hq2, hm2⟩ := not_readable hs
      have hn : hgt ht s.rootHt n = 0 := by simp [hgt, ho.2.2.2.1, ho.2.2.2.2.1]
      rcases stuck_write (all hq2 hm2) (h.ok hq2) hm2 with ⟨y, h1, h2⟩ | ⟨z', n', j', rfl⟩
      · exact ⟨i2, q2, y, hq2, h1, by omega⟩
      · have := h.ok hq2
        simp only [Pc.ok] at this
        omega
  -- by height: no thread waits for readers
  have nodrain : ∀ (H : Nat) {i : Nat} {q : Pc} {y : Nat}, s.ths[i]? = some q → q.drains = some y →
      hgt ht s.rootHt y ≤ H → False := by
    intro H
    induction H with
    | zero =>
      intro i q y hq hd hH
      have hw := drains_holds hd
      obtain ⟨j, p, m, hj, hp, hm⟩ := not_alone (drains_stuck (all hq hw) hd)
      have hr : m = .r := by
        rcases h.compat (fun e => hj e.symm) hq hp hw hm with h' | h'
        · cases h'
        · exact h'
      subst hr
      obtain ⟨k, z, rfl⟩ := stuck_read (all hp hm) hm
      have ho := h.ok hp
      simp only [Pc.ok] at ho
      omega
    | succ H ih =>
      intro i q y hq hd hH
      have hw := drains_holds hd
      obtain ⟨j, p, m, hj, hp, hm⟩ := not_alone (drains_stuck (all hq hw) hd)
      have hr : m = .r := by
        rcases h.compat (fun e => hj e.symm) hq hp hw hm with h' | h'
        · cases h'
        · exact h'
      subst hr
      obtain ⟨k, z, rfl⟩ := stuck_read (all hp hm) hm
      have ho := h.ok hp
      have hs := all hp hm
      simp only [Pc.ok, Sys.stuck, Bool.not_eq_true'] at ho hs
      obtain ⟨i2, q2, _, hq2, hm2⟩ := not_readable hs
      obtain ⟨j3, p3, y3, hp3, hd3, hle⟩ := wr hq2 hm2
      have hz : hgt ht s.rootHt z = ht z := by simp [hgt, ho.1]
      exact ih hp3 hd3 (by omega)
  have now : ∀ {i : Nat} {q : Pc} {a : Nat}, s.ths[i]? = some q → (a, Mode.w) ∉ q.holds := by
    intro i q a hq hm
    obtain ⟨j, p, y, hp, hd, _⟩ := wr hq hm
    exact nodrain _ hp hd (Nat.le_refl _)
  have rd : ∀ {i a : Nat}, s.readable i a = true := by
    intro i a
    by_contra hr
    obtain ⟨j, q, _, hq, hm⟩ := not_readable (by simpa using hr)
    exact now hq hm
  -- what is left are threads that spin
  have sp : ∀ {i : Nat} {q : Pc} {x}, s.ths[i]? = some q → x ∈ q.holds →
      ∃ p z, q = .spin p z ∧ s.claimable i z = false := by
    intro i q x hq hx
    have hs := all hq hx
    cases q with
    | spin p z => exact ⟨p, z, rfl, by simpa [Sys.stuck] using hs⟩
    | root | down | getNext | hop | back => simp [Sys.stuck, rd] at hs
    | topLock | lockP | lockZ | lockLeaf | slockP | slockN | slockZ =>
      exact absurd (drains_holds rfl) (now hq)
    | _ => simp [Sys.stuck] at hs
  obtain ⟨i, q, hq, hact⟩ := ha
  obtain ⟨x, hx⟩ : ∃ x, x ∈ q.holds := by
    cases hh : q.holds with
    | nil => simp [Pc.active, hh] at hact
    | cons x l => exact ⟨x, by simp⟩
  obtain ⟨p, z, rfl, hcl⟩ := sp hq hx
  obtain ⟨j, u, m, _, hu, hm, _⟩ := not_claimable hcl
  obtain ⟨p', z', rfl, _⟩ := sp hu hm
  have o1 := h.ok hq
  have o2 := h.ok hu
  simp [Pc.holds] at hm
  simp only [Pc.ok] at o1 o2
  have : hgt ht s.rootHt z = ht z := by simp [hgt, o1.1]
  rw [← hm.1] at o2
  omega

end Splinter.BtreeLock
