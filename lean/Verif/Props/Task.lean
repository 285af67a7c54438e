import Verif.Model.Task
import Mathlib.Data.List.Induction
/-!
# C27: each background task runs exactly once, and quiescence means nothing is pending
-/
namespace Splinter.Task

namespace Spec

/-- The queue of a group as a plain list: insertions at either end, starts from the front. `none` if a
start does not take the first task. -/
def apply : Option (List Nat) → Ev → Option (List Nat)
  | some l, .enq t true => some (t :: l)
  | some l, .enq t false => some (l ++ [t])
  | some (t :: l), .start t' => if t' = t then some l else none
  | some [], .start _ => none
  | none, _ => none

def replay (log : List Ev) : Option (List Nat) := log.foldl apply (some [])

/-- The tasks enqueued, and the tasks started. -/
def enqs (log : List Ev) : List Nat := log.filterMap fun | .enq t _ => some t | .start _ => none
def starts (log : List Ev) : List Nat := log.filterMap fun | .enq _ _ => none | .start t => some t

end Spec

open Spec

theorem replay_snoc (log : List Ev) (e : Ev) : replay (log ++ [e]) = apply (replay log) e := by
  unfold replay; rw [List.foldl_append]; rfl

theorem enqs_snoc (log : List Ev) (e : Ev) : enqs (log ++ [e]) = enqs log ++ enqs [e] := by
  unfold enqs; rw [List.filterMap_append]

theorem starts_snoc (log : List Ev) (e : Ev) : starts (log ++ [e]) = starts log ++ starts [e] := by
  unfold starts; rw [List.filterMap_append]

/-- In the specification, what was enqueued is what was started plus what still waits. -/
theorem replay_perm {log : List Ev} {l : List Nat} (h : replay log = some l) : (enqs log).Perm (starts log ++ l) := by
  induction log using List.reverseRecOn generalizing l with
  | nil => injection h with h; subst h; exact .refl _
  | append_singleton log e ih =>
    rw [replay_snoc] at h
    rw [enqs_snoc, starts_snoc]
    cases hr : replay log with
    | none => rw [hr] at h; cases e <;> cases h
    | some l0 =>
      rw [hr] at h
      have ih := ih hr
      cases e with
      | enq t hd =>
        show (enqs log ++ [t]).Perm (starts log ++ [] ++ l)
        rw [List.append_nil]
        cases hd with
        | true =>
          injection h with h; subst h
          exact (List.perm_append_singleton t _).trans ((ih.cons t).trans (List.perm_middle.symm))
        | false =>
          injection h with h; subst h
          rw [← List.append_assoc]
          exact ih.append_right [t]
      | start t =>
        show (enqs log ++ []).Perm (starts log ++ [t] ++ l)
        rw [List.append_nil]
        cases l0 with
        | nil => cases h
        | cons t0 l0 =>
          simp only [apply] at h
          split at h
          · rename_i heq; subst heq
            injection h with h; subst h
            rw [List.append_assoc]; exact ih
          · cases h

/-! ### Counting threads -/

def cnt (n : Nat) (f : Nat → PC) (p : PC → Bool) : Nat := (List.range n).countP (fun i => p (f i))

theorem upd_self {α : Type} (f : Nat → α) (t : Nat) (p : α) : upd f t p t = p := if_pos rfl
theorem upd_ne {α : Type} (f : Nat → α) {t j : Nat} (p : α) (h : j ≠ t) : upd f t p j = f j := if_neg h

theorem cnt_upd_ge {n a : Nat} (h : n ≤ a) (f : Nat → PC) (x : PC) (p : PC → Bool) : cnt n (upd f a x) p = cnt n f p := by
  unfold cnt
  refine List.countP_congr fun i hi => ?_
  rw [upd_ne _ _ (by have := List.mem_range.1 hi; omega)]

theorem cnt_upd {n a : Nat} (h : a < n) (f : Nat → PC) (x : PC) (p : PC → Bool) :
    cnt n (upd f a x) p + (p (f a)).toNat = cnt n f p + (p x).toNat := by
  induction n with
  | zero => omega
  | succ n ih =>
    have hs : ∀ f, cnt (n + 1) f p = cnt n f p + (p (f n)).toNat := by
      intro f
      unfold cnt
      rw [List.range_succ, List.countP_append, List.countP_singleton]
      cases p (f n) <;> simp
    rw [hs, hs]
    by_cases ha : a = n
    · subst ha; rw [cnt_upd_ge (Nat.le_refl _), upd_self]; omega
    · have := ih (by omega)
      rw [upd_ne _ _ (fun h => ha h.symm)]
      omega

theorem cnt_zero {n : Nat} {f : Nat → PC} {p : PC → Bool} (h : cnt n f p = 0) {a : Nat} (ha : a < n) : p (f a) = false := by
  unfold cnt at h
  have := List.countP_eq_zero.1 h a (List.mem_range.2 ha)
  simpa using this

/-! ### What each position means -/

/-- The lock of group `g` is held. -/
def PC.holds (g : Nat) : PC → Bool
  | .eBody g' _ _ | .eCount g' | .eUnlock g' | .tTake g' _ | .tInc g' _ _ | .tUnlock g' _ _ | .tNone g' _ => decide (g = g')
  | .dec g' w => w && decide (g = g')
  | .qLock g' => decide (g' = 2 ∧ g = 1)
  | .qExec _ | .qWait _ => decide (g = 1 ∨ g = 2)
  | .qUnlock g' _ => decide (g = 2 ∨ (g = 1 ∧ g' = 1))
  | .idle | .eLock _ _ _ | .tLock _ _ | .running _ _ _ | .wLock _ => false

/-- Counted in `current_executing_tasks` of group `g`. -/
def PC.runs (g : Nat) : PC → Bool
  | .tUnlock g' _ _ | .running g' _ _ | .wLock g' | .dec g' _ => decide (g = g')
  | _ => false

/-- Has linked a task into group `g` but not counted it yet. -/
def PC.incr (g : Nat) : PC → Bool
  | .eCount g' => decide (g = g')
  | _ => false

/-- The task the thread has started and not finished. -/
def PC.hold : PC → Option (Nat × Nat)
  | .tInc g _ t | .tUnlock g _ t | .running g _ t => some (g, t)
  | _ => none

/-- The task the thread is about to link in. -/
def PC.pend : PC → Option Nat
  | .eLock _ t _ | .eBody _ t _ => some t
  | _ => none

/-- No task of group `g` is counted as executing; as waiting. -/
def noExec (s : State) (g : Nat) : Prop := (s.grp g).executing = 0
def noWait (s : State) (g : Nat) : Prop := (s.grp g).waiting = 0

def PC.Local (s : State) : PC → Prop
  | .qLock g => g = 1 ∨ g = 2
  | .qExec g => g = 1 ∨ (g = 2 ∧ noExec s 1 ∧ noWait s 1)
  | .qWait g => (g = 1 ∧ noExec s 1) ∨ (g = 2 ∧ noExec s 1 ∧ noWait s 1 ∧ noExec s 2)
  | .qUnlock g r => (g = 1 ∨ g = 2) ∧ (r = true → g = 1 → noExec s 1 ∧ noWait s 1 ∧ noExec s 2 ∧ noWait s 2)
  | _ => True

/-- The links from `o` on are the list. -/
def Chain (next : Nat → Option Nat) : Option Nat → List Nat → Prop
  | o, [] => o = none
  | o, t :: l => o = some t ∧ Chain next (next t) l

structure Rep (x : Group) (l : List Nat) : Prop where
  replay : Spec.replay x.log = some l
  chain : Chain x.next x.head l
  tail : x.tail = l.getLast?

structure Inv (n : Nat) (s : State) : Prop where
  out : ∀ a, n ≤ a → s.pc a = .idle
  lk : ∀ a g, (s.pc a).holds g = true → (s.grp g).lock = some a
  rep : ∀ g, ∃ l, Rep (s.grp g) l ∧ (s.grp g).waiting + cnt n s.pc (PC.incr g) = l.length
  exec : ∀ g, (s.grp g).executing = cnt n s.pc (PC.runs g)
  pend : ∀ a t, (s.pc a).pend = some t → t < s.fresh ∧ ∀ g, t ∉ enqs (s.grp g).log
  pendU : ∀ a b t, (s.pc a).pend = some t → (s.pc b).pend = some t → a = b
  enqN : ∀ g, (enqs (s.grp g).log).Nodup
  enqD : ∀ g g' t, t ∈ enqs (s.grp g).log → t ∈ enqs (s.grp g').log → g = g'
  enqF : ∀ g t, t ∈ enqs (s.grp g).log → t < s.fresh
  hold : ∀ a g t, (s.pc a).hold = some (g, t) → t ∈ starts (s.grp g).log
  holdU : ∀ a b g t, (s.pc a).hold = some (g, t) → (s.pc b).hold = some (g, t) → a = b
  loc : ∀ a, (s.pc a).Local s

theorem starts_sub {log : List Ev} {l : List Nat} (h : replay log = some l) {t : Nat} (ht : t ∈ starts log) : t ∈ enqs log :=
  (replay_perm h).mem_iff.2 (List.mem_append_left _ ht)

/-- A step of thread `a` that changes group `g` to `x`. -/
theorem move {n : Nat} {s : State} (inv : Inv n s) {a : Nat} (ha : a < n) (p : PC) (g : Nat) (x : Group) (fresh : Nat)
    (hf : s.fresh ≤ fresh)
    (h1 : ∀ b, b ≠ a → (s.pc b).holds g = true → x.lock = some b)
    (h2 : ∀ g', p.holds g' = true → (upd s.grp g x g').lock = some a)
    (h3 : ∃ l, Rep x l ∧ x.waiting + (p.incr g).toNat + cnt n s.pc (PC.incr g) = l.length + ((s.pc a).incr g).toNat)
    (h3' : ∀ g', g' ≠ g → p.incr g' = (s.pc a).incr g')
    (h4 : x.executing + ((s.pc a).runs g).toNat = (s.grp g).executing + (p.runs g).toNat)
    (h4' : ∀ g', g' ≠ g → p.runs g' = (s.pc a).runs g')
    (hlog : x.log = (s.grp g).log ∨ (∃ t h, x.log = (s.grp g).log ++ [.enq t h] ∧ (s.pc a).pend = some t ∧ p.pend = none) ∨
      (∃ t, x.log = (s.grp g).log ++ [.start t]))
    (hp : ∀ t, p.pend = some t → (s.pc a).pend = some t ∨ (t = s.fresh ∧ s.fresh < fresh))
    (hh : ∀ gt, p.hold = some gt → (s.pc a).hold = some gt ∨
      (∃ t, gt = (g, t) ∧ x.log = (s.grp g).log ++ [.start t] ∧ t ∉ starts (s.grp g).log))
    (hdec : (x.executing ≤ (s.grp g).executing ∧ x.waiting ≤ (s.grp g).waiting) ∨ (s.pc a).holds g = true)
    (hloc : p.Local ⟨upd s.grp g x, upd s.pc a p, fresh⟩) : Inv n ⟨upd s.grp g x, upd s.pc a p, fresh⟩ := by
  have hmem : ∀ t, t ∈ enqs x.log → t ∈ enqs (s.grp g).log ∨ (s.pc a).pend = some t ∧ p.pend = none := by
    intro t ht
    rcases hlog with h | ⟨t', h', h, hq, hq'⟩ | ⟨t', h⟩
    · rw [h] at ht; exact .inl ht
    · rw [h, enqs_snoc] at ht
      rcases List.mem_append.1 ht with ht | ht
      · exact .inl ht
      · have : t = t' := by simpa [enqs] using ht
        subst this; exact .inr ⟨hq, hq'⟩
    · rw [h, enqs_snoc] at ht
      rcases List.mem_append.1 ht with ht | ht
      · exact .inl ht
      · simp [enqs] at ht
  have hsub : ∀ t, t ∈ starts (s.grp g).log → t ∈ starts x.log := by
    intro t ht
    rcases hlog with h | ⟨t', h', h, _⟩ | ⟨t', h⟩
    · rw [h]; exact ht
    · rw [h, starts_snoc]; exact List.mem_append_left _ ht
    · rw [h, starts_snoc]; exact List.mem_append_left _ ht
  have hmem' : ∀ g' t, t ∈ enqs (upd s.grp g x g').log → t ∈ enqs (s.grp g').log ∨ g' = g ∧ (s.pc a).pend = some t ∧ p.pend = none := by
    intro g' t ht
    by_cases hg : g' = g
    · subst hg; rw [upd_self] at ht
      rcases hmem t ht with h | h
      · exact .inl h
      · exact .inr ⟨rfl, h⟩
    · rw [upd_ne _ _ hg] at ht; exact .inl ht
  constructor
  · intro b hb
    show upd s.pc a p b = _
    rw [upd_ne _ _ (by omega)]; exact inv.out b hb
  · intro b g' hb
    replace hb : (upd s.pc a p b).holds g' = true := hb
    show (upd s.grp g x g').lock = some b
    by_cases hba : b = a
    · subst hba; rw [upd_self] at hb; exact h2 g' hb
    · rw [upd_ne _ _ hba] at hb
      by_cases hg : g' = g
      · subst hg; rw [upd_self]; exact h1 b hba hb
      · rw [upd_ne _ _ hg]; exact inv.lk b g' hb
  · intro g'
    show ∃ l, Rep (upd s.grp g x g') l ∧ (upd s.grp g x g').waiting + cnt n (upd s.pc a p) (PC.incr g') = l.length
    have hc := cnt_upd ha s.pc p (PC.incr g')
    by_cases hg : g' = g
    · subst hg
      rw [upd_self]
      obtain ⟨l, r, hw⟩ := h3
      exact ⟨l, r, by omega⟩
    · rw [upd_ne _ _ hg]
      rw [h3' g' hg] at hc
      obtain ⟨l, r, hw⟩ := inv.rep g'
      exact ⟨l, r, by omega⟩
  · intro g'
    show (upd s.grp g x g').executing = cnt n (upd s.pc a p) (PC.runs g')
    have hc := cnt_upd ha s.pc p (PC.runs g')
    have he := inv.exec g'
    by_cases hg : g' = g
    · subst hg; rw [upd_self]; omega
    · rw [upd_ne _ _ hg]; rw [h4' g' hg] at hc; omega
  · intro b t hb
    replace hb : (upd s.pc a p b).pend = some t := hb
    show t < fresh ∧ ∀ g', t ∉ enqs (upd s.grp g x g').log
    by_cases hba : b = a
    · subst hba; rw [upd_self] at hb
      rcases hp t hb with h | ⟨h, h'⟩
      · obtain ⟨u, v⟩ := inv.pend _ t h
        refine ⟨by omega, fun g' hm => ?_⟩
        rcases hmem' g' t hm with hm | ⟨_, _, hm⟩
        · exact v g' hm
        · rw [hb] at hm; cases hm
      · refine ⟨by omega, fun g' hm => ?_⟩
        rcases hmem' g' t hm with hm | ⟨_, _, hm⟩
        · have := inv.enqF g' t hm; omega
        · rw [hb] at hm; cases hm
    · rw [upd_ne _ _ hba] at hb
      obtain ⟨u, v⟩ := inv.pend b t hb
      refine ⟨by omega, fun g' hm => ?_⟩
      rcases hmem' g' t hm with hm | ⟨_, hm, _⟩
      · exact v g' hm
      · exact hba (inv.pendU b a t hb hm)
  · have aux : ∀ b t, b ≠ a → p.pend = some t → (s.pc b).pend ≠ some t := by
      intro b t hba h h'
      rcases hp t h with h | ⟨h, _⟩
      · exact hba (inv.pendU b a t h' h)
      · have := (inv.pend b t h').1; omega
    intro b c t hb hc
    replace hb : (upd s.pc a p b).pend = some t := hb
    replace hc : (upd s.pc a p c).pend = some t := hc
    by_cases hba : b = a
    · by_cases hca : c = a
      · rw [hba, hca]
      · subst hba; rw [upd_self] at hb; rw [upd_ne _ _ hca] at hc
        exact absurd hc (aux c t hca hb)
    · by_cases hca : c = a
      · subst hca; rw [upd_self] at hc; rw [upd_ne _ _ hba] at hb
        exact absurd hb (aux b t hba hc)
      · rw [upd_ne _ _ hba] at hb; rw [upd_ne _ _ hca] at hc
        exact inv.pendU b c t hb hc
  · intro g'
    show (enqs (upd s.grp g x g').log).Nodup
    by_cases hg : g' = g
    · subst hg; rw [upd_self]
      rcases hlog with h | ⟨t', h', h, hq, _⟩ | ⟨t', h⟩
      · rw [h]; exact inv.enqN g'
      · rw [h, enqs_snoc]
        show (enqs (s.grp g').log ++ [t']).Nodup
        rw [List.nodup_append]
        refine ⟨inv.enqN g', by simp, ?_⟩
        intro u hu v hv
        simp only [List.mem_singleton] at hv
        subst hv
        rintro rfl
        exact (inv.pend a u hq).2 g' hu
      · rw [h, enqs_snoc]
        show (enqs (s.grp g').log ++ []).Nodup
        rw [List.append_nil]; exact inv.enqN g'
    · rw [upd_ne _ _ hg]; exact inv.enqN g'
  · intro g1 g2 t m1 m2
    rcases hmem' g1 t m1 with m1 | ⟨e1, m1, _⟩
    · rcases hmem' g2 t m2 with m2 | ⟨e2, m2, _⟩
      · exact inv.enqD g1 g2 t m1 m2
      · exact absurd m1 ((inv.pend a t m2).2 g1)
    · rcases hmem' g2 t m2 with m2 | ⟨e2, m2, _⟩
      · exact absurd m2 ((inv.pend a t m1).2 g2)
      · rw [e1, e2]
  · intro g' t m
    show t < fresh
    rcases hmem' g' t m with m | ⟨_, m, _⟩
    · have := inv.enqF g' t m; omega
    · have := (inv.pend a t m).1; omega
  · intro b g' t hb
    replace hb : (upd s.pc a p b).hold = some (g', t) := hb
    show t ∈ starts (upd s.grp g x g').log
    have key : t ∈ starts (s.grp g').log → t ∈ starts (upd s.grp g x g').log := by
      intro h
      by_cases hg : g' = g
      · subst hg; rw [upd_self]; exact hsub t h
      · rw [upd_ne _ _ hg]; exact h
    by_cases hba : b = a
    · subst hba; rw [upd_self] at hb
      rcases hh _ hb with h | ⟨t', h, h', _⟩
      · exact key (inv.hold _ g' t h)
      · injection h with e1 e2; subst e1 e2
        rw [upd_self, h', starts_snoc]
        exact List.mem_append_right _ (by simp [starts])
    · rw [upd_ne _ _ hba] at hb
      exact key (inv.hold b g' t hb)
  · have aux : ∀ b g' t, b ≠ a → p.hold = some (g', t) → (s.pc b).hold ≠ some (g', t) := by
      intro b g' t hba h h'
      rcases hh _ h with h | ⟨t', h, _, h3⟩
      · exact hba (inv.holdU b a g' t h' h)
      · injection h with e1 e2; subst e1 e2
        exact h3 (inv.hold b _ _ h')
    intro b c g' t hb hc
    replace hb : (upd s.pc a p b).hold = some (g', t) := hb
    replace hc : (upd s.pc a p c).hold = some (g', t) := hc
    by_cases hba : b = a
    · by_cases hca : c = a
      · rw [hba, hca]
      · subst hba; rw [upd_self] at hb; rw [upd_ne _ _ hca] at hc
        exact absurd hc (aux c g' t hca hb)
    · by_cases hca : c = a
      · subst hca; rw [upd_self] at hc; rw [upd_ne _ _ hba] at hb
        exact absurd hb (aux b g' t hba hc)
      · rw [upd_ne _ _ hba] at hb; rw [upd_ne _ _ hca] at hc
        exact inv.holdU b c g' t hb hc
  · intro b
    show (upd s.pc a p b).Local _
    by_cases hba : b = a
    · subst hba; rw [upd_self]; exact hloc
    · rw [upd_ne _ _ hba]
      have hl := inv.loc b
      have key : (s.pc b).holds 1 = true → (s.pc b).holds 2 = true → ∀ k, k = 1 ∨ k = 2 →
          (noExec s k → noExec ⟨upd s.grp g x, upd s.pc a p, fresh⟩ k) ∧ (noWait s k → noWait ⟨upd s.grp g x, upd s.pc a p, fresh⟩ k) := by
        intro b1 b2 k hk
        have hbk : (s.pc b).holds k = true := by rcases hk with rfl | rfl <;> assumption
        unfold noExec noWait
        show (_ → (upd s.grp g x k).executing = 0) ∧ (_ → (upd s.grp g x k).waiting = 0)
        by_cases hg : k = g
        · subst hg; rw [upd_self]
          rcases hdec with ⟨d1, d2⟩ | hd
          · exact ⟨fun _ => by omega, fun _ => by omega⟩
          · have e1 := inv.lk a k hd
            rw [inv.lk b k hbk] at e1
            injection e1 with e1; exact absurd e1 hba
        · rw [upd_ne _ _ hg]; exact ⟨id, id⟩
      cases hpc : s.pc b with
      | qExec g' =>
        rw [hpc] at key hl
        obtain ⟨k1, k2⟩ := key rfl rfl 1 (.inl rfl)
        rcases hl with hl | ⟨e, l1, l2⟩
        · exact .inl hl
        · exact .inr ⟨e, k1 l1, k2 l2⟩
      | qWait g' =>
        rw [hpc] at key hl
        obtain ⟨k1, k2⟩ := key rfl rfl 1 (.inl rfl)
        obtain ⟨k3, k4⟩ := key rfl rfl 2 (.inr rfl)
        rcases hl with ⟨e, l1⟩ | ⟨e, l1, l2, l3⟩
        · exact .inl ⟨e, k1 l1⟩
        · exact .inr ⟨e, k1 l1, k2 l2, k3 l3⟩
      | qUnlock g' r =>
        rw [hpc] at key hl
        obtain ⟨e, l⟩ := hl
        refine ⟨e, fun hr hg => ?_⟩
        subst hg
        obtain ⟨k1, k2⟩ := key rfl rfl 1 (.inl rfl)
        obtain ⟨k3, k4⟩ := key rfl rfl 2 (.inr rfl)
        obtain ⟨l1, l2, l3, l4⟩ := l hr rfl
        exact ⟨k1 l1, k2 l2, k3 l3, k4 l4⟩
      | qLock g' => rw [hpc] at hl; exact hl
      | _ => trivial

/-! ### The linked queue -/

theorem chain_upd {next : Nat → Option Nat} {t : Nat} {v : Option Nat} {o : Option Nat} {l : List Nat} (h : t ∉ l)
    (hc : Chain next o l) : Chain (upd next t v) o l := by
  induction l generalizing o with
  | nil => exact hc
  | cons u l ih =>
    obtain ⟨h1, h2⟩ := hc
    refine ⟨h1, ?_⟩
    rw [upd_ne _ _ (fun e => h (by rw [e]; exact List.mem_cons_self))]
    exact ih (fun m => h (List.mem_cons_of_mem _ m)) h2

theorem chain_snoc {next : Nat → Option Nat} {last t : Nat} {o : Option Nat} {l : List Nat} (hl : last ∉ l) (ht : t ∉ l ++ [last])
    (hc : Chain next o (l ++ [last])) : Chain (upd (upd next t none) last (some t)) o (l ++ [last] ++ [t]) := by
  induction l generalizing o with
  | nil =>
    obtain ⟨h1, h2⟩ := hc
    refine ⟨h1, ?_⟩
    rw [upd_self]
    refine ⟨rfl, ?_⟩
    have : t ≠ last := by rintro rfl; exact ht (by simp)
    show upd (upd next t none) last (some t) t = none
    rw [upd_ne _ _ this, upd_self]
  | cons u l ih =>
    obtain ⟨h1, h2⟩ := hc
    have e1 : u ≠ last := by rintro rfl; exact hl List.mem_cons_self
    have e2 : u ≠ t := by rintro rfl; exact ht (by simp)
    refine ⟨h1, ?_⟩
    rw [upd_ne _ _ e1, upd_ne _ _ e2]
    exact ih (fun m => hl (List.mem_cons_of_mem _ m)) (fun m => ht (List.mem_cons_of_mem _ m)) h2

theorem link_rep {x : Group} {l : List Nat} (r : Rep x l) {t : Nat} (ht : t ∉ l) (hn : l.Nodup) (h : Bool) :
    ∃ x' l', link x t h = some x' ∧ Rep { x' with log := x'.log ++ [.enq t h] } l' ∧ l'.length = l.length + 1 ∧
      x'.waiting = x.waiting ∧ x'.executing = x.executing ∧ x'.lock = x.lock ∧ x'.log = x.log := by
  obtain ⟨r1, r2, r3⟩ := r
  unfold link
  rcases List.eq_nil_or_concat l with rfl | ⟨l0, last, rfl⟩
  · rw [r3]
    have h0 : x.head = none := r2
    rw [h0]
    refine ⟨_, [t], rfl, ⟨?_, ?_, rfl⟩, rfl, rfl, rfl, rfl, rfl⟩
    · show replay (x.log ++ _) = _
      rw [replay_snoc, r1]; cases h <;> rfl
    · refine ⟨rfl, ?_⟩
      show upd x.next t none t = none
      rw [upd_self]
  · rw [List.concat_eq_append] at *
    have hlast : x.tail = some last := by rw [r3]; simp
    rw [hlast]
    cases h with
    | true =>
      refine ⟨_, t :: (l0 ++ [last]), rfl, ⟨?_, ?_, ?_⟩, rfl, rfl, rfl, rfl, rfl⟩
      · show replay (x.log ++ _) = _
        rw [replay_snoc, r1]; rfl
      · refine ⟨rfl, ?_⟩
        show Chain (upd x.next t x.head) (upd x.next t x.head t) _
        rw [upd_self]
        exact chain_upd ht r2
      · show some last = _
        rw [← List.cons_append, List.getLast?_append]; rfl
    | false =>
      refine ⟨_, l0 ++ [last] ++ [t], rfl, ⟨?_, ?_, ?_⟩, by simp, rfl, rfl, rfl, rfl⟩
      · show replay (x.log ++ _) = _
        rw [replay_snoc, r1]; rfl
      · refine chain_snoc ?_ ht r2
        intro hm
        rw [List.nodup_append] at hn
        exact hn.2.2 _ hm last (by simp) rfl
      · show some t = _
        simp

theorem unlink_rep {x : Group} {l : List Nat} (r : Rep x l) (hw : x.waiting = l.length) (h0 : x.waiting ≠ 0) :
    ∃ x' t l', unlink x = some (x', t) ∧ l = t :: l' ∧ Rep { x' with log := x'.log ++ [.start t] } l' ∧
      x'.waiting = x.waiting - 1 ∧ x'.executing = x.executing ∧ x'.lock = x.lock ∧ x'.log = x.log := by
  obtain ⟨r1, r2, r3⟩ := r
  cases l with
  | nil => rw [hw] at h0; exact absurd rfl h0
  | cons t l =>
    obtain ⟨h1, h2⟩ := r2
    have hr : replay (x.log ++ [.start t]) = some l := by
      rw [replay_snoc, r1]; simp [apply]
    unfold unlink
    rw [h1]
    cases l with
    | nil =>
      have h2 : x.next t = none := h2
      have hl : x.tail = some t := by rw [r3]; rfl
      rw [hl]
      dsimp only
      rw [h2]
      dsimp only
      rw [if_pos ⟨rfl, by rw [hw]; rfl⟩]
      exact ⟨_, t, [], rfl, rfl, ⟨hr, rfl, rfl⟩, rfl, rfl, rfl, rfl⟩
    | cons u l =>
      obtain ⟨h3, h4⟩ := h2
      have hl : x.tail = (u :: l).getLast? := by rw [r3]; rfl
      obtain ⟨z, hz⟩ : ∃ z, (u :: l).getLast? = some z := by
        rw [List.getLast?_eq_some_getLast (by simp)]; exact ⟨_, rfl⟩
      rw [hl, hz]
      dsimp only
      rw [h3]
      exact ⟨_, t, u :: l, rfl, rfl, ⟨hr, ⟨rfl, h4⟩, hz.symm⟩, rfl, rfl, rfl, rfl⟩

/-! ### Every step keeps the invariant -/

theorem incr_zero {n : Nat} {s : State} (inv : Inv n s) {a g : Nat} (h : (s.pc a).holds g = true) (hi : (s.pc a).incr g = false) :
    cnt n s.pc (PC.incr g) = 0 := by
  unfold cnt
  rw [List.countP_eq_zero]
  intro b _ hb
  have hh : (s.pc b).holds g = true := by
    cases hpc : s.pc b <;> rw [hpc] at hb <;> simp only [PC.incr] at hb <;> first | exact hb | cases hb
  have e := inv.lk b g hh
  rw [inv.lk a g h] at e
  injection e with e
  subst e
  rw [hi] at hb; cases hb

theorem rep_nodup {n : Nat} {s : State} (inv : Inv n s) {g : Nat} {l : List Nat} (r : Rep (s.grp g) l) :
    (starts (s.grp g).log ++ l).Nodup := (replay_perm r.replay).nodup_iff.1 (inv.enqN g)

theorem upd_same {α : Type} (f : Nat → α) (k : Nat) : upd f k (f k) = f := by
  funext j; unfold upd; split
  · rename_i h; rw [h]
  · rfl

/-- A step that changes no group. -/
theorem stay {n : Nat} {s : State} (inv : Inv n s) {a : Nat} (ha : a < n) (p : PC) (fresh : Nat) (hf : s.fresh ≤ fresh)
    (h2 : ∀ g', p.holds g' = true → (s.pc a).holds g' = true) (h3 : ∀ g', p.incr g' = (s.pc a).incr g')
    (h4 : ∀ g', p.runs g' = (s.pc a).runs g')
    (hp : ∀ t, p.pend = some t → (s.pc a).pend = some t ∨ (t = s.fresh ∧ s.fresh < fresh))
    (hh : ∀ gt, p.hold = some gt → (s.pc a).hold = some gt) (hloc : p.Local s) : Inv n ⟨s.grp, upd s.pc a p, fresh⟩ := by
  have := move inv ha p 0 (s.grp 0) fresh hf (fun b _ h => inv.lk b 0 h)
    (fun g' h => by rw [upd_same]; exact inv.lk a g' (h2 g' h))
    (by obtain ⟨l, r, hw⟩ := inv.rep 0; exact ⟨l, r, by rw [h3]; omega⟩) (fun g' _ => h3 g') (by rw [h4]) (fun g' _ => h4 g')
    (.inl rfl) hp (fun gt h => .inl (hh gt h)) (.inl ⟨Nat.le_refl _, Nat.le_refl _⟩) (by rw [upd_same]; cases p <;> exact hloc)
  rw [upd_same] at this
  exact this

/-- Taking a lock. -/
theorem acquire_inv {n : Nat} {s s' : State} (inv : Inv n s) {a : Nat} (ha : a < n) (g : Nat) (p : PC) (h : s.acquire a g p = .ok s')
    (h2 : ∀ g', p.holds g' = true → g' = g ∨ (s.pc a).holds g' = true) (h3 : ∀ g', p.incr g' = (s.pc a).incr g')
    (h4 : ∀ g', p.runs g' = (s.pc a).runs g') (hp : ∀ t, p.pend = some t → (s.pc a).pend = some t)
    (hh : ∀ gt, p.hold = some gt → (s.pc a).hold = some gt)
    (hloc : ∀ s1 : State, (∀ g, noExec s g → noExec s1 g) → (∀ g, noWait s g → noWait s1 g) → p.Local s1) : Inv n s' := by
  unfold State.acquire at h
  split at h
  · cases h
  · rename_i hl
    injection h with h; subst h
    have hb : ∀ b, b ≠ a → (s.pc b).holds g = true → False := by
      intro b _ hb
      have := inv.lk b g hb
      rw [hl] at this; cases this
    refine move inv ha p g { s.grp g with lock := some a } s.fresh (Nat.le_refl _) (fun b hne h => (hb b hne h).elim) ?_ ?_ (fun g' _ => h3 g')
      (by rw [h4]) (fun g' _ => h4 g') (.inl rfl) (fun t h => .inl (hp t h)) (fun gt h => .inl (hh gt h)) (.inl ⟨Nat.le_refl _, Nat.le_refl _⟩) ?_
    · intro g' hg
      by_cases he : g' = g
      · subst he; rw [upd_self]
      · rw [upd_ne _ _ he]
        rcases h2 g' hg with h | h
        · exact absurd h he
        · exact inv.lk a g' h
    · obtain ⟨l, ⟨r1, r2, r3⟩, hw⟩ := inv.rep g
      exact ⟨l, ⟨r1, r2, r3⟩, by rw [h3]; show (s.grp g).waiting + _ + _ = _; omega⟩
    · refine hloc _ (fun k hk => ?_) (fun k hk => ?_)
      · show (upd s.grp g _ k).executing = 0
        by_cases he : k = g
        · subst he; rw [upd_self]; exact hk
        · rw [upd_ne _ _ he]; exact hk
      · show (upd s.grp g _ k).waiting = 0
        by_cases he : k = g
        · subst he; rw [upd_self]; exact hk
        · rw [upd_ne _ _ he]; exact hk

/-- Releasing a lock. -/
theorem release_inv {n : Nat} {s s' : State} (inv : Inv n s) {a : Nat} (ha : a < n) (g : Nat) (p : PC) (h : s.release a g p = .ok s')
    (h0 : (s.pc a).holds g = true)
    (h2 : ∀ g', p.holds g' = true → g' ≠ g ∧ (s.pc a).holds g' = true) (h3 : ∀ g', p.incr g' = (s.pc a).incr g')
    (h4 : ∀ g', p.runs g' = (s.pc a).runs g') (hp : ∀ t, p.pend = some t → (s.pc a).pend = some t)
    (hh : ∀ gt, p.hold = some gt → (s.pc a).hold = some gt) (hloc : ∀ s1 : State, p.Local s1) : Inv n s' := by
  unfold State.release at h
  injection h with h; subst h
  have hb : ∀ b, b ≠ a → (s.pc b).holds g = true → False := by
    intro b hne hb
    have := inv.lk b g hb
    rw [inv.lk a g h0] at this
    injection this with this; exact hne this.symm
  refine move inv ha p g { s.grp g with lock := none } s.fresh (Nat.le_refl _) (fun b hne h => (hb b hne h).elim) ?_ ?_ (fun g' _ => h3 g')
    (by rw [h4]) (fun g' _ => h4 g') (.inl rfl) (fun t h => .inl (hp t h)) (fun gt h => .inl (hh gt h)) (.inl ⟨Nat.le_refl _, Nat.le_refl _⟩)
    (hloc _)
  · intro g' hg
    obtain ⟨he, h⟩ := h2 g' hg
    rw [upd_ne _ _ he]; exact inv.lk a g' h
  · obtain ⟨l, ⟨r1, r2, r3⟩, hw⟩ := inv.rep g
    exact ⟨l, ⟨r1, r2, r3⟩, by rw [h3]; show (s.grp g).waiting + _ + _ = _; omega⟩

theorem step_inv {n : Nat} {s : State} (inv : Inv n s) {a : Nat} (ha : a < n) (act : Act) :
    step s a act ≠ .fault ∧ ∀ s', step s a act = .ok s' → Inv n s' := by
  have hl := inv.loc a
  unfold step
  split
  case h_1 g h hpc =>
    refine ⟨Res.noConfusion, fun s' e => ?_⟩
    injection e with e; subst e
    refine stay inv ha _ _ (Nat.le_succ _) ?_ ?_ ?_ ?_ ?_ trivial <;> rw [hpc]
    · intro g' h; cases h
    · intro g'; rfl
    · intro g'; rfl
    · intro t h; injection h with h; exact .inr ⟨h.symm, Nat.lt_succ_self _⟩
    · intro gt h; cases h
  case h_2 g w hpc =>
    refine ⟨Res.noConfusion, fun s' e => ?_⟩
    injection e with e; subst e
    refine stay inv ha _ _ (Nat.le_refl _) ?_ ?_ ?_ ?_ ?_ trivial <;> rw [hpc]
    · intro g' h; cases h
    · intro g'; rfl
    · intro g'; rfl
    · intro t h; cases h
    · intro gt h; cases h
  case h_3 hpc =>
    refine ⟨Res.noConfusion, fun s' e => ?_⟩
    injection e with e; subst e
    refine stay inv ha _ _ (Nat.le_refl _) ?_ ?_ ?_ ?_ ?_ (.inl rfl) <;> rw [hpc]
    · intro g' h; simp [PC.holds] at h
    · intro g'; rfl
    · intro g'; rfl
    · intro t h; cases h
    · intro gt h; cases h
  case h_4 g t h hpc =>
    refine ⟨by unfold State.acquire; split <;> exact Res.noConfusion, fun s' e => ?_⟩
    refine acquire_inv inv ha g _ e ?_ ?_ ?_ ?_ ?_ (fun _ _ _ => trivial) <;> rw [hpc]
    · intro g' h; exact .inl (of_decide_eq_true h)
    · intro g'; rfl
    · intro g'; rfl
    · intro t h; exact h
    · intro gt h; cases h
  case h_5 g t h hpc =>
    have h0 : (s.pc a).holds g = true := by rw [hpc]; exact decide_eq_true rfl
    have hpe : (s.pc a).pend = some t := by rw [hpc]; rfl
    obtain ⟨l, r, hw⟩ := inv.rep g
    have hn := rep_nodup inv r
    have ht : t ∉ l := by
      intro hm
      exact (inv.pend a t hpe).2 g ((replay_perm r.replay).mem_iff.2 (List.mem_append_right _ hm))
    obtain ⟨x, l', e1, r', hlen, e2, e3, e4, e5⟩ := link_rep r ht (List.nodup_append.1 hn).2.1 h
    rw [e1]
    refine ⟨Res.noConfusion, fun s' e => ?_⟩
    injection e with e; subst e
    refine move inv ha (.eCount g) g _ s.fresh (Nat.le_refl _) ?_ ?_ ⟨l', r', ?_⟩ ?_ ?_ ?_ (.inr (.inl ⟨t, h, by show x.log ++ _ = _; rw [e5], hpe, rfl⟩)) ?_
      ?_ (.inr h0) trivial
    · intro b hb hh
      show x.lock = some b
      rw [e4]; exact inv.lk b g hh
    · intro g' hg
      have hg : g' = g := of_decide_eq_true hg
      subst hg
      rw [upd_self]
      show x.lock = some a
      rw [e4]; exact inv.lk a g' h0
    · rw [hpc]
      show x.waiting + (decide (g = g)).toNat + _ = l'.length + 0
      rw [e2, hlen, decide_eq_true rfl]
      show _ + 1 + _ = _
      omega
    · intro g' hg; rw [hpc]; exact decide_eq_false hg
    · rw [hpc]; show x.executing + 0 = _ + 0; rw [e3]
    · intro g' _; rw [hpc]; rfl
    · intro t' h; cases h
    · intro gt h; cases h
  case h_6 g hpc =>
    have h0 : (s.pc a).holds g = true := by rw [hpc]; exact decide_eq_true rfl
    refine ⟨Res.noConfusion, fun s' e => ?_⟩
    injection e with e; subst e
    refine move inv ha (.eUnlock g) g _ s.fresh (Nat.le_refl _) ?_ ?_ ?_ ?_ ?_ ?_ (.inl rfl) ?_ ?_ (.inr h0) trivial
    · intro b hb hh; exact inv.lk b g hh
    · intro g' hg
      have hg : g' = g := of_decide_eq_true hg
      subst hg
      rw [upd_self]
      exact inv.lk a g' h0
    · obtain ⟨l, ⟨r1, r2, r3⟩, hw⟩ := inv.rep g
      refine ⟨l, ⟨r1, r2, r3⟩, ?_⟩
      rw [hpc]
      show (s.grp g).waiting + 1 + 0 + _ = l.length + (decide (g = g)).toNat
      rw [decide_eq_true rfl]
      show _ = l.length + 1
      omega
    · intro g' hg; rw [hpc]; exact (decide_eq_false hg).symm
    · rw [hpc]; rfl
    · intro g' _; rw [hpc]; rfl
    · intro t' h; cases h
    · intro gt h; cases h
  case h_7 g hpc =>
    refine ⟨Res.noConfusion, fun s' e => ?_⟩
    refine release_inv inv ha g _ e ?_ ?_ ?_ ?_ ?_ ?_ (fun _ => trivial) <;> rw [hpc]
    · exact decide_eq_true rfl
    · intro g' h; cases h
    · intro g'; rfl
    · intro g'; rfl
    · intro t h; cases h
    · intro gt h; cases h
  case h_8 g w hpc =>
    refine ⟨by unfold State.acquire; split <;> exact Res.noConfusion, fun s' e => ?_⟩
    refine acquire_inv inv ha g _ e ?_ ?_ ?_ ?_ ?_ (fun _ _ _ => trivial) <;> rw [hpc]
    · intro g' h; exact .inl (of_decide_eq_true h)
    · intro g'; rfl
    · intro g'; rfl
    · intro t h; cases h
    · intro gt h; cases h
  case h_9 g w hpc =>
    have h0 : (s.pc a).holds g = true := by rw [hpc]; exact decide_eq_true rfl
    split
    · refine ⟨Res.noConfusion, fun s' e => ?_⟩
      injection e with e; subst e
      refine stay inv ha _ _ (Nat.le_refl _) ?_ ?_ ?_ ?_ ?_ trivial <;> rw [hpc]
      · intro g' h; exact h
      · intro g'; rfl
      · intro g'; rfl
      · intro t h; cases h
      · intro gt h; cases h
    · rename_i hne
      obtain ⟨l, r, hw⟩ := inv.rep g
      have hz := incr_zero inv h0 (by rw [hpc]; rfl)
      have hn := rep_nodup inv r
      obtain ⟨x, t, l', e1, hlt, r', e2, e3, e4, e5⟩ := unlink_rep r (by omega) hne
      rw [e1]
      refine ⟨Res.noConfusion, fun s' e => ?_⟩
      injection e with e; subst e
      refine move inv ha (.tInc g w t) g _ s.fresh (Nat.le_refl _) ?_ ?_ ⟨l', r', ?_⟩ ?_ ?_ ?_ (.inr (.inr ⟨t, by show x.log ++ _ = _; rw [e5]⟩)) ?_
        ?_ (.inr h0) trivial
      · intro b hb hh
        show x.lock = some b
        rw [e4]; exact inv.lk b g hh
      · intro g' hg
        have hg : g' = g := of_decide_eq_true hg
        subst hg
        rw [upd_self]
        show x.lock = some a
        rw [e4]; exact inv.lk a g' h0
      · rw [hpc]
        show x.waiting + 0 + _ = l'.length + 0
        rw [hlt, List.length_cons] at hw
        rw [e2]; omega
      · intro g' _; rw [hpc]; rfl
      · rw [hpc]; show x.executing + 0 = _ + 0; rw [e3]
      · intro g' _; rw [hpc]; rfl
      · intro t' h; cases h
      · intro gt hgt
        injection hgt with hgt
        refine .inr ⟨t, hgt.symm, by show x.log ++ _ = _; rw [e5], ?_⟩
        intro hm
        rw [hlt, List.nodup_append] at hn
        exact hn.2.2 t hm t List.mem_cons_self rfl
  case h_10 g w t hpc =>
    have h0 : (s.pc a).holds g = true := by rw [hpc]; exact decide_eq_true rfl
    refine ⟨Res.noConfusion, fun s' e => ?_⟩
    injection e with e; subst e
    refine move inv ha (.tUnlock g w t) g _ s.fresh (Nat.le_refl _) ?_ ?_ ?_ ?_ ?_ ?_ (.inl rfl) ?_ ?_ (.inr h0) trivial
    · intro b hb hh; exact inv.lk b g hh
    · intro g' hg
      have hg : g' = g := of_decide_eq_true hg
      subst hg
      rw [upd_self]
      exact inv.lk a g' h0
    · obtain ⟨l, ⟨r1, r2, r3⟩, hw⟩ := inv.rep g
      refine ⟨l, ⟨r1, r2, r3⟩, ?_⟩
      rw [hpc]
      show (s.grp g).waiting + 0 + _ = l.length + 0
      omega
    · intro g' _; rw [hpc]; rfl
    · rw [hpc]
      show (s.grp g).executing + 1 + 0 = _ + (decide (g = g)).toNat
      rw [decide_eq_true rfl]; rfl
    · intro g' hg; rw [hpc]; exact decide_eq_false hg
    · intro t' h; cases h
    · intro gt h; rw [hpc]; exact .inl h
  case h_11 g w t hpc =>
    refine ⟨Res.noConfusion, fun s' e => ?_⟩
    refine release_inv inv ha g _ e ?_ ?_ ?_ ?_ ?_ ?_ (fun _ => trivial) <;> rw [hpc]
    · exact decide_eq_true rfl
    · intro g' h; cases h
    · intro g'; rfl
    · intro g'; rfl
    · intro t h; cases h
    · intro gt h; exact h
  case h_12 g w hpc =>
    refine ⟨Res.noConfusion, fun s' e => ?_⟩
    cases w <;> (refine release_inv inv ha g _ e ?_ ?_ ?_ ?_ ?_ ?_ (fun _ => trivial) <;> rw [hpc])
    all_goals first
      | exact decide_eq_true rfl
      | (intro g' h; cases h)
      | (intro g'; rfl)
  case h_13 g w t hpc =>
    refine ⟨Res.noConfusion, fun s' e => ?_⟩
    injection e with e; subst e
    refine move inv ha _ g _ s.fresh (Nat.le_refl _) ?_ ?_ ?_ ?_ ?_ ?_ (.inl rfl) ?_ ?_ (.inl ⟨Nat.le_refl _, Nat.le_refl _⟩) ?_
    · intro b hb hh; exact inv.lk b g hh
    · intro g' hg; cases w <;> cases hg
    · obtain ⟨l, ⟨r1, r2, r3⟩, hw⟩ := inv.rep g
      refine ⟨l, ⟨r1, r2, r3⟩, ?_⟩
      rw [hpc]
      cases w
      · show (s.grp g).waiting + 0 + _ = l.length + 0
        omega
      · show (s.grp g).waiting + 0 + _ = l.length + 0
        omega
    · intro g' _; rw [hpc]; cases w <;> rfl
    · rw [hpc]; cases w <;> rfl
    · intro g' _; rw [hpc]; cases w <;> rfl
    · intro t' h; cases w <;> cases h
    · intro gt h; cases w <;> cases h
    · cases w <;> trivial
  case h_14 g hpc =>
    refine ⟨by unfold State.acquire; split <;> exact Res.noConfusion, fun s' e => ?_⟩
    refine acquire_inv inv ha g _ e ?_ ?_ ?_ ?_ ?_ (fun _ _ _ => trivial) <;> rw [hpc]
    · intro g' h; exact .inl (of_decide_eq_true h)
    · intro g'; rfl
    · intro g'; rfl
    · intro t h; cases h
    · intro gt h; cases h
  case h_15 g w hpc =>
    refine ⟨Res.noConfusion, fun s' e => ?_⟩
    injection e with e; subst e
    have hpos : 0 < (s.grp g).executing := by
      rw [inv.exec g]
      unfold cnt
      rw [List.countP_pos_iff]
      exact ⟨a, List.mem_range.2 ha, by rw [hpc]; exact decide_eq_true rfl⟩
    refine move inv ha _ g _ s.fresh (Nat.le_refl _) ?_ ?_ ?_ ?_ ?_ ?_ (.inl rfl) ?_ ?_ (.inl ⟨Nat.sub_le _ _, Nat.le_refl _⟩) ?_
    · intro b hb hh; exact inv.lk b g hh
    · intro g' hg
      cases w with
      | false => cases hg
      | true =>
        have hg : g' = g := of_decide_eq_true hg
        subst hg
        rw [upd_self]
        exact inv.lk a g' (by rw [hpc]; exact decide_eq_true rfl)
    · obtain ⟨l, ⟨r1, r2, r3⟩, hw⟩ := inv.rep g
      refine ⟨l, ⟨r1, r2, r3⟩, ?_⟩
      rw [hpc]
      cases w
      · show (s.grp g).waiting + 0 + _ = l.length + 0
        omega
      · show (s.grp g).waiting + 0 + _ = l.length + 0
        omega
    · intro g' _; rw [hpc]; cases w <;> rfl
    · rw [hpc]
      have : (s.grp g).executing - 1 + (decide (g = g)).toNat = (s.grp g).executing + 0 := by
        rw [decide_eq_true rfl]; show _ + 1 = _; omega
      cases w <;> exact this
    · intro g' hg; rw [hpc]
      have : decide (g' = g) = false := decide_eq_false hg
      cases w <;> exact this.symm
    · intro t' h; cases w <;> cases h
    · intro gt h; cases w <;> cases h
    · cases w <;> trivial
  case h_16 g hpc =>
    refine ⟨by unfold State.acquire; split <;> exact Res.noConfusion, fun s' e => ?_⟩
    rw [hpc] at hl
    rcases hl with rfl | rfl
    · refine acquire_inv inv ha 1 _ e ?_ ?_ ?_ ?_ ?_ (fun _ _ _ => .inr rfl) <;> rw [hpc]
      · intro g' h; exact .inl (of_decide_eq_true h).2
      · intro g'; rfl
      · intro g'; rfl
      · intro t h; cases h
      · intro gt h; cases h
    · refine acquire_inv inv ha 2 _ e ?_ ?_ ?_ ?_ ?_ (fun _ _ _ => .inl rfl) <;> rw [hpc]
      · intro g' h
        rcases (of_decide_eq_true h : g' = 1 ∨ g' = 2) with h | h
        · exact .inr (decide_eq_true ⟨rfl, h⟩)
        · exact .inl h
      · intro g'; rfl
      · intro g'; rfl
      · intro t h; cases h
      · intro gt h; cases h
  case h_17 g hpc =>
    refine ⟨Res.noConfusion, fun s' e => ?_⟩
    injection e with e; subst e
    rw [hpc] at hl
    split
    · refine stay inv ha _ _ (Nat.le_refl _) ?_ ?_ ?_ ?_ ?_ ⟨.inl rfl, fun h => by cases h⟩ <;> rw [hpc]
      · intro g' h
        have h := of_decide_eq_true h
        exact decide_eq_true (by omega)
      · intro g'; rfl
      · intro g'; rfl
      · intro t h; cases h
      · intro gt h; cases h
    · rename_i hz
      have hz : (s.grp g).executing = 0 := by omega
      refine stay inv ha _ _ (Nat.le_refl _) ?_ ?_ ?_ ?_ ?_ ?_
      · rw [hpc]; intro g' h; exact h
      · rw [hpc]; intro g'; rfl
      · rw [hpc]; intro g'; rfl
      · rw [hpc]; intro t h; cases h
      · rw [hpc]; intro gt h; cases h
      · rcases hl with rfl | ⟨rfl, h1, h2⟩
        · exact .inl ⟨rfl, hz⟩
        · exact .inr ⟨rfl, h1, h2, hz⟩
  case h_18 g hpc =>
    refine ⟨Res.noConfusion, fun s' e => ?_⟩
    injection e with e; subst e
    rw [hpc] at hl
    split
    · refine stay inv ha _ _ (Nat.le_refl _) ?_ ?_ ?_ ?_ ?_ ⟨.inl rfl, fun h => by cases h⟩ <;> rw [hpc]
      · intro g' h
        have h := of_decide_eq_true h
        exact decide_eq_true (by omega)
      · intro g'; rfl
      · intro g'; rfl
      · intro t h; cases h
      · intro gt h; cases h
    · rename_i hz
      have hz : (s.grp g).waiting = 0 := by omega
      rcases hl with ⟨rfl, h1⟩ | ⟨rfl, h1, h2, h3⟩
      · refine stay inv ha _ _ (Nat.le_refl _) ?_ ?_ ?_ ?_ ?_ (.inr ⟨rfl, h1, hz⟩) <;> rw [hpc]
        · intro g' h; exact h
        · intro g'; rfl
        · intro g'; rfl
        · intro t h; cases h
        · intro gt h; cases h
      · refine stay inv ha _ _ (Nat.le_refl _) ?_ ?_ ?_ ?_ ?_ ⟨.inl rfl, fun _ _ => ⟨h1, h2, h3, hz⟩⟩ <;> rw [hpc]
        · intro g' h
          have h := of_decide_eq_true h
          exact decide_eq_true (by omega)
        · intro g'; rfl
        · intro g'; rfl
        · intro t h; cases h
        · intro gt h; cases h
  case h_19 g r hpc =>
    refine ⟨Res.noConfusion, fun s' e => ?_⟩
    rw [hpc] at hl
    rcases hl.1 with rfl | rfl
    · refine release_inv inv ha 1 _ e ?_ ?_ ?_ ?_ ?_ ?_ (fun _ => ⟨.inr rfl, fun _ h => by cases h⟩) <;> rw [hpc]
      · rfl
      · intro g' h
        have h : g' = 2 ∨ (g' = 1 ∧ 2 = 1) := of_decide_eq_true h
        exact ⟨by omega, decide_eq_true (by omega)⟩
      · intro g'; rfl
      · intro g'; rfl
      · intro t h; cases h
      · intro gt h; cases h
    · refine release_inv inv ha 2 _ e ?_ ?_ ?_ ?_ ?_ ?_ (fun _ => trivial) <;> rw [hpc]
      · rfl
      · intro g' h; cases h
      · intro g'; rfl
      · intro g'; rfl
      · intro t h; cases h
      · intro gt h; cases h
  case h_20 => exact ⟨Res.noConfusion, fun _ h => Res.noConfusion h⟩

theorem init_inv (n : Nat) : Inv n init := by
  have hc : ∀ p : PC → Bool, p .idle = false → cnt n init.pc p = 0 := by
    intro p hp; unfold cnt; rw [List.countP_eq_zero]; intro a _; show ¬ p .idle = true; rw [hp]; simp
  constructor
  · intro a _; rfl
  · intro a g h; cases h
  · intro g; exact ⟨[], ⟨rfl, rfl, rfl⟩, by rw [hc _ rfl]; rfl⟩
  · intro g; rw [hc _ rfl]; rfl
  · intro a t h; cases h
  · intro a b t h; cases h
  · intro g; exact List.nodup_nil
  · intro g g' t h; cases h
  · intro g t h; cases h
  · intro a g t h; cases h
  · intro a b g t h; cases h
  · intro a; trivial

theorem reachable_inv {n : Nat} {s : State} (h : Reachable n s) : Inv n s := by
  induction h with
  | init => exact init_inv n
  | step a act _ ha hs ih => exact (step_inv ih ha act).2 _ hs

/-! ### Started tasks are run -/

structure Inv2 (s : State) : Prop where
  cov : ∀ g t, t ∈ starts (s.grp g).log → t ∈ (s.grp g).ran ∨ ∃ a, (s.pc a).hold = some (g, t)
  sub : ∀ g t, t ∈ (s.grp g).ran → t ∈ starts (s.grp g).log
  nod : ∀ g, (s.grp g).ran.Nodup
  dis : ∀ a g t, (s.pc a).hold = some (g, t) → t ∉ (s.grp g).ran

/-- A step that starts and finishes nothing. -/
theorem inv2_frame {s s' : State} (inv : Inv2 s) (h1 : ∀ g, (s'.grp g).ran = (s.grp g).ran)
    (h2 : ∀ g, starts (s'.grp g).log = starts (s.grp g).log) (h3 : ∀ a, (s'.pc a).hold = (s.pc a).hold) : Inv2 s' := by
  constructor
  · intro g t; rw [h1, h2]; simp only [h3]; exact inv.cov g t
  · intro g t; rw [h1, h2]; exact inv.sub g t
  · intro g; rw [h1]; exact inv.nod g
  · intro a g t; rw [h1, h3]; exact inv.dis a g t

theorem inv2_set {s s' : State} (inv : Inv2 s) {a g : Nat} {x : Group} {p : PC} (hs : s'.grp = upd s.grp g x ∧ s'.pc = upd s.pc a p)
    (h1 : x.ran = (s.grp g).ran) (h2 : starts x.log = starts (s.grp g).log) (h3 : p.hold = (s.pc a).hold) : Inv2 s' := by
  obtain ⟨e1, e2⟩ := hs
  refine inv2_frame inv ?_ ?_ ?_
  · intro g'
    rw [e1]
    by_cases hg : g' = g
    · subst hg; rw [upd_self, h1]
    · rw [upd_ne _ _ hg]
  · intro g'
    rw [e1]
    by_cases hg : g' = g
    · subst hg; rw [upd_self, h2]
    · rw [upd_ne _ _ hg]
  · intro b
    rw [e2]
    by_cases hb : b = a
    · subst hb; rw [upd_self, h3]
    · rw [upd_ne _ _ hb]

theorem inv2_goto {s s' : State} (inv : Inv2 s) {a : Nat} {p : PC} (hs : s'.grp = s.grp ∧ s'.pc = upd s.pc a p)
    (h3 : p.hold = (s.pc a).hold) : Inv2 s' := by
  obtain ⟨e1, e2⟩ := hs
  refine inv2_frame inv (fun g => by rw [e1]) (fun g => by rw [e1]) ?_
  intro b
  rw [e2]
  by_cases hb : b = a
  · subst hb; rw [upd_self, h3]
  · rw [upd_ne _ _ hb]

theorem inv2_acquire {s s' : State} (inv : Inv2 s) {a g : Nat} {p : PC} (h : s.acquire a g p = .ok s')
    (h3 : p.hold = (s.pc a).hold) : Inv2 s' := by
  unfold State.acquire at h
  split at h
  · cases h
  · injection h with h; subst h
    exact inv2_set inv ⟨rfl, rfl⟩ rfl rfl h3

theorem inv2_release {s s' : State} (inv : Inv2 s) {a g : Nat} {p : PC} (h : s.release a g p = .ok s')
    (h3 : p.hold = (s.pc a).hold) : Inv2 s' := by
  injection h with h; subst h
  exact inv2_set inv ⟨rfl, rfl⟩ rfl rfl h3

theorem step_inv2 {n : Nat} {s s' : State} (inv : Inv n s) (inv2 : Inv2 s) {a : Nat} {act : Act}
    (h : step s a act = .ok s') : Inv2 s' := by
  unfold step at h
  split at h
  case h_5 g t hd hpc =>
    split at h
    · cases h
    · rename_i x hx
      injection h with h; subst h
      have e : x.log = (s.grp g).log ∧ x.ran = (s.grp g).ran := by
        unfold link at hx
        split at hx
        · split at hx <;> (injection hx with hx; subst hx; exact ⟨rfl, rfl⟩)
        · split at hx
          · cases hx
          · injection hx with hx; subst hx; exact ⟨rfl, rfl⟩
      refine inv2_set inv2 ⟨rfl, rfl⟩ e.2 ?_ (by rw [hpc]; rfl)
      show starts (x.log ++ _) = _
      rw [starts_snoc, e.1]; exact List.append_nil _
  case h_9 g w hpc =>
    split at h
    · injection h with h; subst h
      exact inv2_goto inv2 ⟨rfl, rfl⟩ (by rw [hpc]; rfl)
    · split at h
      · cases h
      · rename_i hne _ x t hx
        injection h with h; subst h
        have h0 : (s.pc a).holds g = true := by rw [hpc]; exact decide_eq_true rfl
        obtain ⟨l, r, hw⟩ := inv.rep g
        have hz := incr_zero inv h0 (by rw [hpc]; rfl)
        have hn := rep_nodup inv r
        obtain ⟨x', t', l', e1, hlt, r', e2, e3, e4, e5⟩ := unlink_rep r (by omega) hne
        rw [e1] at hx
        injection hx with hx
        simp only [Prod.mk.injEq] at hx
        obtain ⟨rfl, rfl⟩ := hx
        have er : x'.ran = (s.grp g).ran := by
          unfold unlink at e1
          split at e1
          · split at e1
            · split at e1
              · simp only [Option.some.injEq, Prod.mk.injEq] at e1
                rw [← e1.1]
              · cases e1
            · simp only [Option.some.injEq, Prod.mk.injEq] at e1
              rw [← e1.1]
          · cases e1
        have hts : t' ∉ starts (s.grp g).log := by
          intro hm
          rw [hlt, List.nodup_append] at hn
          exact hn.2.2 t' hm t' List.mem_cons_self rfl
        have es : starts ({ x' with log := x'.log ++ [Ev.start t'] } : Group).log = starts (s.grp g).log ++ [t'] := by
          show starts (x'.log ++ _) = _
          rw [starts_snoc, e5]; rfl
        have hold0 : ∀ b g' t, (s.pc b).hold = some (g', t) → b ≠ a := by
          rintro b g' t hb rfl; rw [hpc] at hb; cases hb
        constructor
        · intro g' t ht
          replace ht : t ∈ starts (upd s.grp g _ g').log := ht
          show t ∈ (upd s.grp g _ g').ran ∨ ∃ b, (upd s.pc a (.tInc g w t') b).hold = some (g', t)
          have key : t ∈ starts (s.grp g').log → t ∈ (s.grp g').ran ∨ ∃ b, (upd s.pc a (.tInc g w t') b).hold = some (g', t) := by
            intro ht
            rcases inv2.cov g' t ht with hc | ⟨b, hb⟩
            · exact .inl hc
            · exact .inr ⟨b, by rw [upd_ne _ _ (hold0 b g' t hb)]; exact hb⟩
          by_cases hg : g' = g
          · subst hg
            rw [upd_self] at ht ⊢
            rw [es] at ht
            rcases List.mem_append.1 ht with ht | ht
            · rcases key ht with hk | hk
              · exact .inl (by show t ∈ x'.ran; rw [er]; exact hk)
              · exact .inr hk
            · rw [List.mem_singleton] at ht; subst ht
              exact .inr ⟨a, by rw [upd_self]; rfl⟩
          · rw [upd_ne _ _ hg] at ht ⊢
            exact key ht
        · intro g' t ht
          replace ht : t ∈ (upd s.grp g _ g').ran := ht
          show t ∈ starts (upd s.grp g _ g').log
          by_cases hg : g' = g
          · subst hg
            rw [upd_self] at ht ⊢
            rw [es]
            exact List.mem_append_left _ (inv2.sub g' t (by rw [← er]; exact ht))
          · rw [upd_ne _ _ hg] at ht ⊢
            exact inv2.sub g' t ht
        · intro g'
          show (upd s.grp g _ g').ran.Nodup
          by_cases hg : g' = g
          · subst hg; rw [upd_self]; show x'.ran.Nodup; rw [er]; exact inv2.nod g'
          · rw [upd_ne _ _ hg]; exact inv2.nod g'
        · intro b g' t hb
          replace hb : (upd s.pc a (.tInc g w t') b).hold = some (g', t) := hb
          show t ∉ (upd s.grp g _ g').ran
          have hr : (upd s.grp g { x' with log := x'.log ++ [Ev.start t'] } g').ran = (s.grp g').ran := by
            by_cases hg : g' = g
            · subst hg; rw [upd_self]; exact er
            · rw [upd_ne _ _ hg]
          rw [hr]
          by_cases hba : b = a
          · subst hba; rw [upd_self] at hb
            injection hb with hb
            simp only [Prod.mk.injEq] at hb
            obtain ⟨rfl, rfl⟩ := hb
            exact fun hm => hts (inv2.sub _ _ hm)
          · rw [upd_ne _ _ hba] at hb; exact inv2.dis b g' t hb
  case h_13 g w t hpc =>
    injection h with h; subst h
    have hh : (s.pc a).hold = some (g, t) := by rw [hpc]; rfl
    have hp : ∀ b gt, (upd s.pc a (if w then PC.wLock g else .dec g false) b).hold = some gt → b ≠ a ∧ (s.pc b).hold = some gt := by
      intro b gt hb
      by_cases hba : b = a
      · subst hba; rw [upd_self] at hb; cases w <;> cases hb
      · rw [upd_ne _ _ hba] at hb; exact ⟨hba, hb⟩
    constructor
    · intro g' t' ht
      replace ht : t' ∈ starts (upd s.grp g _ g').log := ht
      show t' ∈ (upd s.grp g _ g').ran ∨ ∃ b, (upd s.pc a _ b).hold = some (g', t')
      have hlog : t' ∈ starts (s.grp g').log := by
        by_cases hg : g' = g
        · subst hg; rw [upd_self] at ht; exact ht
        · rw [upd_ne _ _ hg] at ht; exact ht
      have hran : t' ∈ (s.grp g').ran → t' ∈ (upd s.grp g { s.grp g with ran := (s.grp g).ran ++ [t] } g').ran := by
        intro hm
        by_cases hg : g' = g
        · subst hg; rw [upd_self]; exact List.mem_append_left _ hm
        · rw [upd_ne _ _ hg]; exact hm
      rcases inv2.cov g' t' hlog with hm | ⟨b, hb⟩
      · exact .inl (hran hm)
      · by_cases hba : b = a
        · subst hba
          rw [hh] at hb
          injection hb with hb
          simp only [Prod.mk.injEq] at hb
          obtain ⟨rfl, rfl⟩ := hb
          rw [upd_self]
          exact .inl (List.mem_append_right _ (List.mem_singleton.2 rfl))
        · exact .inr ⟨b, by rw [upd_ne _ _ hba]; exact hb⟩
    · intro g' t' ht
      replace ht : t' ∈ (upd s.grp g _ g').ran := ht
      show t' ∈ starts (upd s.grp g _ g').log
      by_cases hg : g' = g
      · subst hg
        rw [upd_self] at ht ⊢
        rcases List.mem_append.1 ht with ht | ht
        · exact inv2.sub g' t' ht
        · rw [List.mem_singleton] at ht; subst ht; exact inv.hold a g' t' hh
      · rw [upd_ne _ _ hg] at ht ⊢; exact inv2.sub g' t' ht
    · intro g'
      show (upd s.grp g _ g').ran.Nodup
      by_cases hg : g' = g
      · subst hg; rw [upd_self]
        show ((s.grp g').ran ++ [t]).Nodup
        rw [List.nodup_append]
        refine ⟨inv2.nod g', by simp, ?_⟩
        rintro u hu v hv rfl
        rw [List.mem_singleton] at hv; subst hv
        exact inv2.dis a g' u hh hu
      · rw [upd_ne _ _ hg]; exact inv2.nod g'
    · intro b g' t' hb
      obtain ⟨hba, hb'⟩ := hp b _ hb
      clear hb
      have hb := hb'
      show t' ∉ (upd s.grp g _ g').ran
      by_cases hg : g' = g
      · subst hg; rw [upd_self]
        intro hm
        rcases List.mem_append.1 hm with hm | hm
        · exact inv2.dis b g' t' hb hm
        · rw [List.mem_singleton] at hm; subst hm
          exact hba (inv.holdU b a g' t' hb hh)
      · rw [upd_ne _ _ hg]; exact inv2.dis b g' t' hb
  case h_20 => cases h
  case h_4 hpc => exact inv2_acquire inv2 h (by rw [hpc]; rfl)
  case h_7 hpc => exact inv2_release inv2 h (by rw [hpc]; rfl)
  case h_8 hpc => exact inv2_acquire inv2 h (by rw [hpc]; rfl)
  case h_11 hpc => exact inv2_release inv2 h (by rw [hpc]; rfl)
  case h_12 hpc => exact inv2_release inv2 h (by rw [hpc]; split <;> rfl)
  case h_14 hpc => exact inv2_acquire inv2 h (by rw [hpc]; rfl)
  case h_16 hpc => exact inv2_acquire inv2 h (by rw [hpc]; split <;> rfl)
  case h_19 hpc => exact inv2_release inv2 h (by rw [hpc]; split <;> rfl)
  case h_6 hpc => injection h with h; subst h; exact inv2_set inv2 ⟨rfl, rfl⟩ rfl rfl (by rw [hpc]; rfl)
  case h_10 hpc => injection h with h; subst h; exact inv2_set inv2 ⟨rfl, rfl⟩ rfl rfl (by rw [hpc]; rfl)
  case h_15 hpc => injection h with h; subst h; exact inv2_set inv2 ⟨rfl, rfl⟩ rfl rfl (by rw [hpc]; split <;> rfl)
  case h_17 hpc => injection h with h; subst h; exact inv2_goto inv2 ⟨rfl, rfl⟩ (by rw [hpc]; split <;> rfl)
  case h_18 hpc =>
    injection h with h; subst h
    exact inv2_goto inv2 ⟨rfl, rfl⟩ (by rw [hpc]; split; · rfl
                                        · split <;> rfl)
  case h_1 hpc => injection h with h; subst h; exact inv2_goto inv2 ⟨rfl, rfl⟩ (by rw [hpc]; rfl)
  case h_2 hpc => injection h with h; subst h; exact inv2_goto inv2 ⟨rfl, rfl⟩ (by rw [hpc]; rfl)
  case h_3 hpc => injection h with h; subst h; exact inv2_goto inv2 ⟨rfl, rfl⟩ (by rw [hpc]; rfl)

theorem reachable_inv2 {n : Nat} {s : State} (h : Reachable n s) : Inv2 s := by
  induction h with
  | init => exact ⟨fun g t h => (by cases h), fun g t h => (by cases h), fun g => List.nodup_nil, fun a g t h => (by cases h)⟩
  | step a act hr _ hs ih => exact step_inv2 (reachable_inv hr) ih hs

/-- C27, order and multiplicity: under every interleaving of enqueues, workers and foreground threads,
each group's history is one of a list with insertions at both ends and starts from the front; no task
is started twice; a task enqueued and not yet started is in that list; a started task has been run, or
is in the hands of exactly one thread that has not run it; and no task has been run twice. -/
theorem tasks_run_once {n : Nat} {s : State} (h : Reachable n s) (g : Nat) :
    ∃ l, Spec.replay (s.grp g).log = some l ∧ (Spec.starts (s.grp g).log).Nodup ∧
      (∀ t, t ∈ Spec.enqs (s.grp g).log ↔ (t ∈ Spec.starts (s.grp g).log ∨ t ∈ l)) ∧
      (∀ t, t ∈ Spec.starts (s.grp g).log → t ∉ l) ∧
      (∀ t, t ∈ Spec.starts (s.grp g).log ↔ (t ∈ (s.grp g).ran ∨ ∃ a, (s.pc a).hold = some (g, t))) ∧ (s.grp g).ran.Nodup ∧
      (∀ a t, (s.pc a).hold = some (g, t) → t ∉ (s.grp g).ran ∧ ∀ b, (s.pc b).hold = some (g, t) → a = b) := by
  have inv := reachable_inv h
  have inv2 := reachable_inv2 h
  obtain ⟨l, r, _⟩ := inv.rep g
  have hn := List.nodup_append.1 (rep_nodup inv r)
  refine ⟨l, r.replay, hn.1, ?_, ?_, fun t => ⟨inv2.cov g t, ?_⟩, inv2.nod g, fun a t ha => ⟨inv2.dis a g t ha, fun b hb => inv.holdU a b g t ha hb⟩⟩
  · intro t; rw [(replay_perm r.replay).mem_iff, List.mem_append]
  · intro t h1 h2; exact hn.2.2 t h1 t h2 rfl
  · rintro (hm | ⟨a, ha⟩)
    · exact inv2.sub g t hm
    · exact inv.hold a g t ha

/-- C27, quiescence: at the moment `task_system_is_quiescent` has found all counters zero, every task ever
enqueued in either group has been run to its end, and no thread has a task in its hands. -/
theorem quiescent_means_done {n : Nat} {s : State} (h : Reachable n s) {a : Nat} (ha : s.pc a = .qUnlock 1 true) {g : Nat}
    (hg : g = 1 ∨ g = 2) :
    (∀ t, t ∈ Spec.enqs (s.grp g).log → t ∈ (s.grp g).ran) ∧ ∀ b t, (s.pc b).hold ≠ some (g, t) := by
  suffices hsuf : (∀ t, t ∈ Spec.enqs (s.grp g).log → t ∈ Spec.starts (s.grp g).log) ∧ ∀ b t, (s.pc b).hold ≠ some (g, t) by
    refine ⟨fun t ht => ?_, hsuf.2⟩
    rcases (reachable_inv2 h).cov g t (hsuf.1 t ht) with hm | ⟨b, hb⟩
    · exact hm
    · exact absurd hb (hsuf.2 b t)
  have inv := reachable_inv h
  have hl := inv.loc a
  rw [ha] at hl
  obtain ⟨l1, l2, l3, l4⟩ := hl.2 rfl rfl
  have hE : (s.grp g).executing = 0 := by rcases hg with rfl | rfl <;> assumption
  have hW : (s.grp g).waiting = 0 := by rcases hg with rfl | rfl <;> assumption
  have hh : (s.pc a).holds g = true := by
    rw [ha]; exact decide_eq_true (by rcases hg with rfl | rfl <;> simp)
  obtain ⟨l, r, hw⟩ := inv.rep g
  have hz := incr_zero inv hh (by rw [ha]; rfl)
  have hnil : l = [] := List.eq_nil_of_length_eq_zero (by omega)
  subst hnil
  refine ⟨fun t ht => ?_, fun b t hb => ?_⟩
  · have := (replay_perm r.replay).mem_iff.1 ht
    rwa [List.append_nil] at this
  · have he := inv.exec g
    rw [hE] at he
    by_cases hbn : b < n
    · have hr := cnt_zero he.symm hbn
      cases hpc : s.pc b <;> rw [hpc] at hb hr <;> simp only [PC.hold, Option.some.injEq, Prod.mk.injEq] at hb
      all_goals first
        | cases hb; done
        | (obtain ⟨rfl, rfl⟩ := hb
           first
           | (simp [PC.runs] at hr; done)
           | (have e1 := inv.lk b _ (by rw [hpc]; exact decide_eq_true rfl)
              rw [inv.lk a _ hh] at e1
              injection e1 with e1
              subst e1
              rw [ha] at hpc; cases hpc))
    · rw [inv.out b (by omega)] at hb; cases hb

/-- No assertion of the queue code fails and no null link is followed. -/
theorem task_no_fault {n : Nat} {s : State} (h : Reachable n s) {a : Nat} (ha : a < n) (act : Act) : step s a act ≠ .fault :=
  (step_inv (reachable_inv h) ha act).1

/-- A run given by thread and action. -/
def run (s : State) : List (Nat × Act) → Option State
  | [] => some s
  | (a, x) :: l =>
    match step s a x with
    | .ok s' => run s' l
    | _ => none

theorem run_reachable {n : Nat} {s s' : State} (h : Reachable n s) (l : List (Nat × Act)) (hb : ∀ x ∈ l, x.1 < n)
    (hr : run s l = some s') : Reachable n s' := by
  induction l generalizing s with
  | nil => injection hr with hr; exact hr ▸ h
  | cons x l ih =>
    obtain ⟨a, x⟩ := x
    unfold run at hr
    cases hs : step s a x with
    | ok s'' => rw [hs] at hr; exact ih (.step a x h (hb _ List.mem_cons_self) hs) (fun y hy => hb y (List.mem_cons_of_mem _ hy)) hr
    | blocked => rw [hs] at hr; cases hr
    | fault => rw [hs] at hr; cases hr

/-- Two tasks go into group 1, the second in front; a worker runs it, and a foreground thread runs the
other while a third thread asks for quiescence, first too early and then at the end. -/
def sample : List (Nat × Act) :=
  [(0, .enqueue 1 false), (0, .go), (0, .go), (0, .go), (0, .go), (0, .enqueue 1 true), (0, .go), (0, .go), (0, .go), (0, .go),
   (1, .perform 1 true), (1, .go), (1, .go), (1, .go), (1, .go), (2, .perform 1 false), (2, .go), (2, .go), (2, .go), (2, .go),
   (3, .quiescent), (3, .go), (3, .go), (3, .go), (3, .go), (3, .go),
   (2, .go), (2, .go), (1, .go), (1, .go), (1, .go), (1, .go), (1, .go),
   (3, .quiescent), (3, .go), (3, .go), (3, .go), (3, .go), (3, .go), (3, .go)]

example : ∃ s, Reachable 4 s ∧ s.pc 3 = .qUnlock 1 true ∧ (s.grp 1).log = [.enq 0 false, .enq 1 true, .start 1, .start 0] ∧
    (s.grp 1).ran = [0, 1] :=
  have h : ((run init sample).map fun s => (s.pc 3, (s.grp 1).log, (s.grp 1).ran)) =
      some (.qUnlock 1 true, [.enq 0 false, .enq 1 true, .start 1, .start 0], [0, 1]) := by decide +kernel
  match hr : run init sample with
  | none => by rw [hr] at h; cases h
  | some s => by
    rw [hr] at h
    simp only [Option.map_some, Option.some.injEq, Prod.mk.injEq] at h
    exact ⟨s, run_reachable .init _ (by decide) hr, h⟩

/-- In the middle of that run both tasks are running and quiescence is denied. -/
example : ((run init (sample.take 24)).map fun s => (s.pc 1, s.pc 2, s.pc 3)) =
    some (.running 1 true 1, .running 1 false 0, .qUnlock 1 false) := by decide +kernel

end Splinter.Task
