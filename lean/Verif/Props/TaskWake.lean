import Verif.Proof.TaskWake
import Mathlib.Tactic.IntervalCases
/-!
# C58: background threads do not sleep while there is work

When callers leave the task system alone, it comes to rest after finitely many steps, whatever the schedule; then all tasks have run
and all calls have returned. While tasks wait, no worker sleeps unless as many others are awake.
-/
namespace Splinter.TaskWake

variable {T : Type} {P : Par T}

namespace Spec

/-- No thread can make a step of its own. -/
def AtRest (P : Par T) (s : State T) : Prop := ∀ a < P.n, ∀ pick, go P s a pick = .blocked

/-- `k` steps of any threads; no new calls, and nobody wakes up without a signal. -/
inductive Steps (P : Par T) : Nat → State T → State T → Prop
  | nil (s : State T) : Steps P 0 s s
  | cons {k : Nat} {s s' s'' : State T} (a pick : Nat) : a < P.n → go P s a pick = .ok s' → Steps P k s' s'' → Steps P (k + 1) s s''

/-- Workers of a group that are not asleep. -/
def awake (P : Par T) (s : State T) (g : Grp) : Nat := ((Finset.range P.n).filter fun a => P.role a = some g ∧ isAsleep g (s.pc a) = false).card

end Spec
open Spec (AtRest Steps awake)

theorem awake_add {s : State T} (h : Inv P s) (g : Grp) : awake P s g + total P.n (slOne g) s.pc = workers P g := by
  unfold awake workers total
  rw [Finset.card_filter, ← Finset.sum_add_distrib]
  refine Finset.sum_congr rfl fun i hi => ?_
  have hf := h.fit i (Finset.mem_range.mp hi)
  unfold slOne
  cases hs : isAsleep g (s.pc i)
  · simp
  · have : P.role i = some g := by
      cases hp : s.pc i <;> rw [hp] at hs hf <;> simp [isAsleep] at hs
      simp only [fits] at hf
      rw [hf, hs]
    simp [this]

/-- C58. If a worker of a group sleeps, at least as many workers of the group are awake as tasks wait in its queue. -/
theorem sleeps_only_if_others_awake {s : State T} (h : Reachable P s) {g : Grp} {a : Nat} (ha : a < P.n) (hs : s.pc a = .asleep g) : (s.q g).length ≤ awake P s g := by
  have hi := h.inv
  have h1 := awake_add hi g
  rcases hi.sleep g with h2 | h2
  · have := total_zero.mp h2 a ha
    rw [hs] at this
    simp [slOne, isAsleep] at this
  · omega

/-- Who has a lock can go on. -/
theorem holder_goes {s : State T} {a : Nat} {g : Grp} (h : holds (s.pc a) = some g) : ∃ pick, go P s a pick ≠ .blocked := by
  cases hp : s.pc a <;> rw [hp] at h <;> simp only [holds] at h <;> try cases h
  case enqBody =>
    by_cases hx : ∃ i < P.n, isAsleep g (s.pc i) = true
    · obtain ⟨i, hi, hx⟩ := hx
      exact ⟨i, by simp [go, hp, signal, hi, hx]⟩
    · push Not at hx
      refine ⟨P.n, ?_⟩
      have : ((List.range P.n).any fun i => isAsleep g (s.pc i)) = false := by
        rw [List.any_eq_false]
        intro i hi
        exact hx i (List.mem_range.mp hi)
      simp [go, hp, signal, this]
  case takeBody =>
    refine ⟨0, ?_⟩
    simp only [go, hp]
    split
    · simp
    · unfold take
      split
      · simp
      · split <;> simp [State.release]
  case stopBody =>
    refine ⟨0, ?_⟩
    simp only [go, hp]
    split <;> simp
  all_goals exact ⟨0, by simp [go, hp, State.release]⟩

theorem rest_lock {s : State T} (h : Inv P s) (hr : AtRest P s) (g : Grp) : s.lock g = none := by
  cases hl : s.lock g with
  | none => rfl
  | some a =>
    obtain ⟨ha, hh⟩ := h.lock g a hl
    obtain ⟨pick, hp⟩ := holder_goes (P := P) hh
    exact absurd (hr a ha pick) hp

theorem rest_places {s : State T} (h : Inv P s) (hr : AtRest P s) {a : Nat} (ha : a < P.n) :
    (s.pc a = .idle ∧ P.role a = none) ∨ (∃ g, s.pc a = .asleep g ∧ P.role a = some g ∧ s.stop g = false) ∨ ∃ g, s.pc a = .exited ∧ P.role a = some g ∧ s.stop g = true := by
  have hl := rest_lock h hr
  have hno : holds (s.pc a) = none := by
    cases hh : holds (s.pc a) with
    | none => rfl
    | some g => have := h.hold a ha g hh; rw [hl g] at this; cases this
  have base : ∀ i < P.n, (∃ g, s.pc i = .join g) ∨ (s.pc i = .idle ∧ P.role i = none) ∨ (∃ g, s.pc i = .asleep g ∧ P.role i = some g ∧ s.stop g = false) ∨
      ∃ g, s.pc i = .exited ∧ P.role i = some g ∧ s.stop g = true := by
    intro i hi
    have hf := h.fit i hi
    have hg := hr i hi 0
    have hno : holds (s.pc i) = none := by
      cases hh : holds (s.pc i) with
      | none => rfl
      | some g => have := h.hold i hi g hh; rw [hl g] at this; cases this
    cases hp : s.pc i <;> rw [hp] at hno hf <;> simp only [holds] at hno <;> try cases hno
    case idle => exact .inr (.inl ⟨rfl, hf⟩)
    case asleep g =>
      refine .inr (.inr (.inl ⟨g, rfl, hf, ?_⟩))
      cases hst : s.stop g
      · rfl
      · have := total_zero.mp (h.stopped g hst) i hi
        rw [hp] at this
        simp [slOne, isAsleep] at this
    case exited => obtain ⟨g, h1, h2⟩ := hf; exact .inr (.inr (.inr ⟨g, rfl, h1, h2⟩))
    case join g => exact .inl ⟨g, rfl⟩
    case running g id l =>
      cases l with
      | nil => simp only [go, hp] at hg; split at hg <;> cases hg
      | cons x l => simp [go, hp] at hg
    all_goals simp [go, hp, State.acquire, hl] at hg
  rcases base a ha with ⟨g, hj⟩ | hb
  · exfalso
    have hf := h.fit a ha
    rw [hj] at hf
    have hg := hr a ha 0
    simp only [go, hj] at hg
    split at hg
    · cases hg
    · next hall =>
      refine hall (List.all_eq_true.mpr fun i hi => ?_)
      rcases base i (List.mem_range.mp hi) with ⟨g', h1⟩ | ⟨h1, h2⟩ | ⟨g', h1, h2, h3⟩ | ⟨g', h1, h2, h3⟩
      · have := h.fit i (List.mem_range.mp hi)
        rw [h1] at this
        simp [this.1]
      · simp [h2]
      · have hne : g' ≠ g := by rintro rfl; rw [hf.2] at h3; cases h3
        simp [h2, hne]
      · simp [h1]
  · exact hb

/-- C58. Once at rest: every call has returned; in a group with a worker that was not told to stop, no task waits; workers that were told to stop have left; nothing is counted as executing. -/
theorem at_rest_done {s : State T} (h : Reachable P s) (hr : AtRest P s) :
    (∀ a < P.n, P.role a = none → s.pc a = .idle) ∧
    (∀ g, s.stop g = false → (∃ a < P.n, P.role a = some g) → s.q g = []) ∧
    (∀ g, s.stop g = true → ∀ a < P.n, P.role a = some g → s.pc a = .exited) ∧
    (∀ g, s.exec g = 0 ∧ s.lock g = none) := by
  have hi := h.inv
  refine ⟨fun a ha hra => ?_, fun g hg hw => ?_, fun g hg a ha hra => ?_, fun g => ⟨?_, rest_lock hi hr g⟩⟩
  · rcases rest_places hi hr ha with ⟨h1, _⟩ | ⟨g, _, h2, _⟩ | ⟨g, _, h2, _⟩
    · exact h1
    · rw [hra] at h2; cases h2
    · rw [hra] at h2; cases h2
  · have hsl : ∀ a < P.n, P.role a = some g → s.pc a = .asleep g := fun a ha hra => by
      rcases rest_places hi hr ha with ⟨_, h2⟩ | ⟨g', h1, h2, _⟩ | ⟨g', _, h2, h3⟩
      · rw [hra] at h2; cases h2
      · rw [hra] at h2; cases h2; exact h1
      · rw [hra] at h2; cases h2; rw [hg] at h3; cases h3
    obtain ⟨a, ha, hra⟩ := hw
    have h1 := sleeps_only_if_others_awake h ha (hsl a ha hra)
    have h2 : awake P s g = 0 := by
      unfold awake
      rw [Finset.card_eq_zero, Finset.filter_eq_empty_iff]
      intro i hi hc
      rw [hsl i (Finset.mem_range.mp hi) hc.1] at hc
      simp [isAsleep] at hc
    exact List.length_eq_zero_iff.mp (by omega)
  · rcases rest_places hi hr ha with ⟨_, h2⟩ | ⟨g', _, h2, h3⟩ | ⟨g', h1, _, _⟩
    · rw [hra] at h2; cases h2
    · rw [hra] at h2; cases h2; rw [hg] at h3; cases h3
    · exact h1
  · rw [hi.exec g, total_zero]
    intro i hin
    rcases rest_places hi hr hin with ⟨h1, _⟩ | ⟨g', h1, _⟩ | ⟨g', h1, _⟩ <;> rw [h1] <;> simp [exOne, ex]

/-- C58. Once at rest every task that was ever enqueued has run, if both groups have workers and were not stopped. -/
theorem at_rest_all_ran {s : State T} (h : Reachable P s) (hr : AtRest P s) (hw : ∀ g, s.stop g = false ∧ ∃ a < P.n, P.role a = some g) : ∀ id < s.fresh, id ∈ s.ran := by
  intro id hid
  rcases h.inv.ids id hid with ⟨g, t, h1⟩ | ⟨a, ha, h1⟩ | h1
  · rw [(at_rest_done h hr).2.1 g (hw g).1 (hw g).2] at h1
    cases h1
  · rcases rest_places h.inv hr ha with ⟨h2, _⟩ | ⟨g', h2, _⟩ | ⟨g', h2, _⟩ <;> rw [h2] at h1 <;> cases h1
  · exact h1

/-- C58. From every state there is a bound on the number of steps that threads can make without new calls, in every order, if tasks do not enqueue tasks for ever. -/
theorem comes_to_rest (hf : Finite P) (s : State T) : ∃ N, ∀ k s', Steps P k s s' → k ≤ N := by
  obtain ⟨C⟩ := hf.cost
  refine ⟨C.all s, fun k s' h => ?_⟩
  induction h with
  | nil => exact Nat.zero_le _
  | cons a pick ha hs _ ih => have := go_cost C ha hs; omega

/-- C58. The only assertion that can fail: a group is stopped while tasks wait in it. -/
theorem fault_only_in_stop {s : State T} {a pick : Nat} (h : go P s a pick = .fault) : ∃ g, s.pc a = .stopBody g ∧ s.q g ≠ [] := by
  unfold go at h
  split at h <;> rename_i hpc <;> try cases h
  case _ => unfold State.acquire at h; split at h <;> cases h
  case _ => split at h <;> cases h
  case _ => unfold State.acquire at h; split at h <;> cases h
  case _ =>
    split at h
    · cases h
    · unfold take at h
      split at h
      · cases h
      · split at h <;> cases h
  case _ => split at h <;> cases h
  case _ => unfold State.acquire at h; split at h <;> cases h
  case _ => unfold State.acquire at h; split at h <;> cases h
  case _ g =>
    split at h
    · next hq => exact ⟨g, hpc, hq⟩
    · cases h
  case _ => split at h <;> cases h

/-! ### Examples -/

/-- Runs these actions. -/
def run (P : Par T) : State T → List (Nat × Act T) → Option (State T)
  | s, [] => some s
  | s, (a, x) :: l => if a < P.n then match step P s a x with
    | .ok s' => run P s' l
    | _ => none
    else none

theorem run_reachable {s s' : State T} (h : Reachable P s) : ∀ {l : List (Nat × Act T)}, run P s l = some s' → Reachable P s'
  | [], hr => by cases hr; exact h
  | (a, x) :: l, hr => by
    unfold run at hr
    split at hr
    · next ha =>
      split at hr
      · next s1 hs => exact run_reachable (h.step a x ha hs) hr
      · cases hr
    · cases hr

/-- Threads 0 and 1 are workers, one per group, 2 and 3 are not. Task `true` enqueues task `false` in the normal group. -/
def demo : Par Bool := { n := 4, role := fun a => if a = 0 then some .memtable else if a = 1 then some .normal else none, spawn := fun t => if t then [(.normal, false, false)] else [] }

theorem demo_finite : Finite demo := by
  refine ⟨fun t => ⟨t, ?_⟩⟩
  rintro u ⟨x, hx, rfl⟩
  have hx2 : x.2.2 = false := by
    cases t <;> simp [demo] at hx
    rw [hx]
  rw [hx2]
  exact ⟨_, by rintro v ⟨y, hy, _⟩; simp [demo] at hy⟩

def goes (a k : Nat) : List (Nat × Act Bool) := List.replicate k (a, .go 1)

/-- Both workers go to sleep, thread 2 enqueues task `true`, which wakes worker 0 (pick 0) … -/
def demoRun : List (Nat × Act Bool) :=
  goes 0 2 ++ goes 1 2 ++ [(2, .enqueue .memtable false true), (2, .go 0), (2, .go 0), (2, .go 0)] ++ goes 0 9 ++ goes 1 6 ++ goes 0 2 ++ goes 1 1

/-- … and everything comes to rest: both tasks ran. -/
theorem demo_rest : ∃ s, run demo (init demo) demoRun = some s ∧ AtRest demo s ∧ s.fresh = 2 ∧ s.ran = [1, 0] := by
  refine ⟨(run demo (init demo) demoRun).getD (init demo), rfl, ?_, rfl, rfl⟩
  intro a ha pick
  match a, ha with
  | 0, _ => rfl
  | 1, _ => rfl
  | 2, _ => rfl
  | 3, _ => rfl

/-- Instance of the theorems about states at rest. -/
example : ∃ s, Reachable demo s ∧ AtRest demo s ∧ s.fresh = 2 ∧ (∀ id < s.fresh, id ∈ s.ran) ∧ ∃ N, ∀ k s', Steps demo k s s' → k ≤ N := by
  obtain ⟨s, hs, hr, hf, hran⟩ := demo_rest
  exact ⟨s, run_reachable .init hs, hr, hf, fun id hid => by rw [hf] at hid; rw [hran]; interval_cases id <;> simp, comes_to_rest demo_finite s⟩

/-- Instance of `sleeps_only_if_others_awake`: of two workers that slept, one was woken for a task that still waits. -/
def demo2 : Par Bool := { n := 3, role := fun a => if a = 2 then none else some .normal, spawn := fun _ => [] }

example : ∃ s, Reachable demo2 s ∧ s.pc 1 = .asleep .normal ∧ (s.q .normal).length = 1 ∧ (s.q .normal).length ≤ awake demo2 s .normal := by
  let l : List (Nat × Act Bool) := goes 0 2 ++ goes 1 2 ++ [(2, .enqueue .normal false true), (2, .go 0), (2, .go 0)]
  have hr : Reachable demo2 ((run demo2 (init demo2) l).getD (init demo2)) := run_reachable (l := l) .init rfl
  exact ⟨_, hr, rfl, rfl, sleeps_only_if_others_awake hr (a := 1) (by decide) rfl⟩

/-- Thread 3 stops the normal group while its worker runs a task that enqueues another. -/
def lossRun : List (Nat × Act Bool) :=
  [(2, .enqueue .normal false true), (2, .go 0), (2, .go 0), (2, .go 0)] ++ goes 1 3 ++ [(3, .stop .normal), (3, .go 0), (3, .go 0), (3, .go 0)] ++
    goes 1 9 ++ [(3, .go 0)] ++ goes 0 2

/-- C58 does not extend to `task_group_stop_and_wait_for_threads`: it checks that no task waits, not that none runs. A task that is still running may enqueue another,
which is never run. Closing waits for quiescence first (C24, C27). -/
theorem stop_can_lose_task : ∃ s, run demo (init demo) lossRun = some s ∧ AtRest demo s ∧ s.q .normal = [(1, false)] ∧ s.stop .normal = true := by
  refine ⟨(run demo (init demo) lossRun).getD (init demo), rfl, ?_, rfl, rfl⟩
  intro a ha pick
  match a, ha with
  | 0, _ => rfl
  | 1, _ => rfl
  | 2, _ => rfl
  | 3, _ => rfl

end Splinter.TaskWake
