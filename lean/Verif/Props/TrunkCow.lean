import Verif.Proof.TrunkCow6

/-!
# C45: lookups while the trunk changes

Incorporation, flushes, splits, compactions, filter builds and garbage collection run while lookups
descend. The specification of an answer is the list of the memtables incorporated so far: a lookup
must answer as if it read them all, newest first, as they were when it took the root; and it must
read nothing that has been released.
-/
namespace Splinter.Trunk.Cow

variable {R α : Type} {V : List R → α}

theorem Reach.mono {G G' : State R → Act R → Prop} (h : ∀ s a, G s a → G' s a) {s : State R}
    (r : Reach V G s) : Reach V G' s := by
  induction r with
  | init => exact .init
  | step _ hg st ih => exact .step ih (h _ _ hg) st

theorem patient_noStray (s : State R) (a : Act R) (h : Patient s a) : NoStray s a := by
  cases a <;> first | trivial | exact h

theorem init_inv : ∃ p, Inv V p (init : State R) ∧ Safe p (init : State R) := by
  refine ⟨fun _ => [0], ⟨⟨rfl, fun v _ => .leaf rfl, ?_, ?_, ?_, ?_⟩, ⟨?_, ?_, rfl⟩, ?_, ?_, ?_⟩, ?_, ?_, rfl⟩
  · intro v _ a ha; simp at ha; subst ha; exact Nat.zero_lt_one
  · intro v _; simp [content, init]
  · intro v _ x hx; simp [content, init] at hx
  · intro v _ q; simp [content, init]
  · intro w h; simp [init, Writer.claiming] at h
  · intro w w' h; simp [init, Writer.claiming] at h
  · intro w w' a h; simp [init, Writer.own] at h
  · intro i r h; simp [init] at h
  · intro w; trivial
  · intro x hx; simp [init] at hx
  · intro i r h; simp [init] at h

theorem reach_inv {s : State R} (h : Reach V NoStray s) : ∃ p, Inv V p s := by
  induction h with
  | init => obtain ⟨p, h, _⟩ := init_inv (V := V); exact ⟨p, h⟩
  | step _ hg st ih =>
    obtain ⟨p, I⟩ := ih
    obtain ⟨p', I', _⟩ := step_inv I hg st
    exact ⟨p', I'⟩

theorem reach_safe {s : State R} (h : Reach V Patient s) : ∃ p, Inv V p s ∧ Safe p s := by
  induction h with
  | init => exact init_inv
  | step _ hg st ih =>
    obtain ⟨p, I, S⟩ := ih
    obtain ⟨p', I', h⟩ := step_inv I (patient_noStray _ _ hg) st
    exact ⟨p', I', h hg S⟩

/-- **C45.** A lookup that has reached the leaf, or that has read enough to know, answers what the
memtables incorporated when it took the root say, however the tree has been rearranged since.

Missing: the abort of a filter build gives up the claim on the root lock a second time
(trunk.c:4313). The theorem is for runs in which nobody else holds it then; `stray_loses_memtable`
shows that otherwise it is false. -/
theorem lookup_answer_partial {s : State R} (h : Reach V NoStray s) {i : Nat} {r : Reader R}
    (hr : s.readers i = some r)
    (hd : (r.todo = [] ∧ (s.heap r.addr).child = none) ∨ ∀ q, V (r.acc ++ q) = V r.acc) :
    V r.acc = V (s.said r.entry) := by
  obtain ⟨p, I⟩ := reach_inv h
  have ro := I.readers i r hr
  have hs := I.tree.says r.entry ro.entry []
  rw [List.nil_append, List.nil_append, content_take_drop _ _ (r.depth + 1), ← ro.got] at hs
  rw [← hs]
  rcases hd with ⟨h1, h2⟩ | h1
  · have := (I.tree.path _ ro.entry).last ro.here h2
    rw [h1, List.drop_of_length_le (by omega)]
    simp [content]
  · rw [List.append_assoc, h1]

/-- A lookup that starts now answers for everything incorporated until now. -/
theorem lookup_starts_now {s s' : State R} {i : Nat} (st : Step V s (.enter i) s') :
    ∃ r, s'.readers i = some r ∧ s'.said r.entry = s.said s.ver := by
  cases st with
  | enter _ h1 h2 => exact ⟨_, upd_same _ _ _, rfl⟩

/-- What has been incorporated is only ever added to, on top. -/
theorem said_grows {G : State R → Act R → Prop} {s : State R} (h : Reach V G s) :
    ∀ v, v ≤ s.ver → ∃ z, s.said s.ver = z ++ s.said v := by
  induction h with
  | init => intro v _; exact ⟨[], rfl⟩
  | @step s s' a _ _ st ih =>
    have up : ∀ z : List R, s'.ver = s.ver + 1 → s'.said = upd s.said (s.ver + 1) (z ++ s.said s.ver) →
        ∀ v, v ≤ s'.ver → ∃ z, s'.said s'.ver = z ++ s'.said v := by
      intro z h1 h2 v hv
      rw [h1] at hv
      rw [h1, h2, upd_same]
      by_cases e : v = s.ver + 1
      · subst e; exact ⟨[], by rw [upd_same]; rfl⟩
      · obtain ⟨y, hy⟩ := ih v (by omega)
        exact ⟨z ++ y, by rw [upd_ne _ _ e, hy, List.append_assoc]⟩
    cases st
    case publish z ls _ _ _ _ _ _ => exact up _ rfl rfl
    case switch => exact up [] rfl rfl
    all_goals exact ih

/-- No assertion on the root lock fails, with the same restriction. -/
theorem never_crashes_partial {s : State R} (h : Reach V NoStray s) : s.crashed = false := by
  obtain ⟨p, I⟩ := reach_inv h
  exact I.claims.crash

/-- Only one thread at a time works on the root, with the same restriction. -/
theorem one_claim_partial {s : State R} (h : Reach V NoStray s) {w w' : Nat}
    (h1 : (s.writers w).claiming = true) (h2 : (s.writers w').claiming = true) : w = w' := by
  obtain ⟨p, I⟩ := reach_inv h
  exact I.claims.one _ _ h1 h2

/-- **C45.** No lookup reads a branch or filter that has been released.

Missing: this is for patient runs. Garbage collection waits only for lookups that took the root it
drains; `old_root_misread` shows a lookup that took an older one being missed. And the filters of a
bundle are released without waiting at all; see `eager_misread`. -/
theorem no_misread_partial {s : State R} (h : Reach V Patient s) : s.misread = false := by
  obtain ⟨p, _, S⟩ := reach_safe h
  exact S.ok

/-- Two writers never write the same page. -/
theorem one_writer_partial {s : State R} (h : Reach V NoStray s) {w w' a : Nat}
    (h1 : (s.writers w).own = some a) (h2 : (s.writers w').own = some a) : w = w' := by
  obtain ⟨p, I⟩ := reach_inv h
  exact I.owns _ _ _ h1 h2

/-! ## What goes wrong -/

/-- The newest resource decides; the last digit is what it says. -/
def V0 (l : List Nat) : Option Nat := l.head?.map (· % 10)

theorem keeps_V0 : Keeps V0 true [1] [11] := by
  intro p q hq
  rw [hq rfl]
  cases p <;> rfl

/-- Nobody has the page locked, in a state with at most four writers. -/
macro "unlocked" : tactic => `(tactic|
  (rintro ⟨w, h⟩
   rcases w with _ | _ | _ | _ | w <;>
     simp [upd, RwLock.upd, init, Writer.own, Writer.draining] at h))

/-- Nobody reads the page, in a state with at most two lookups. -/
macro "unshared" : tactic => `(tactic|
  (rintro ⟨i, r, h, h'⟩
   rcases i with _ | _ | i <;> simp [upd, RwLock.upd, init] at h
   all_goals (subst h; simp at h')))

/-- Runs in which the only thing that can go wrong is a lookup missed by garbage collection: no claim
is given up twice, and nothing is released without waiting. -/
def OldRootOnly (s : State Nat) (a : Act Nat) : Prop :=
  NoStray s a ∧ match a with | .modify _ _ _ eager => eager = [] | _ => True

/-- Runs in which nothing at all is garbage collected and no claim is given up twice. -/
def EagerOnly (s : State Nat) (a : Act Nat) : Prop := NoStray s a ∧ ∀ w, a ≠ .gcFree w

/-- **The code violates C45.** A lookup takes the root; an incorporation replaces the root; a
compaction copies that root, replaces branch 1 of the leaf by branch 11, drains the root it copied
and the leaf, and releases branch 1. The lookup, still in the first root, comes to the leaf and reads
branch 1. Garbage collection has waited only for lookups in the second root (trunk.c:2841-2884). -/
theorem old_root_misread : ∃ s, Reach V0 OldRootOnly s ∧ s.misread = true := by
  have r0 : Reach V0 OldRootOnly init := .init
  have r1 : Reach V0 OldRootOnly
    ⟨(fun _ => ⟨none, []⟩), 1, 0, true,
      (fun _ => none), (upd (fun _ => .idle) 0 (.claimed)),
      [], false, false, [], 0,
      (fun _ => 0), (fun _ => [])⟩ := r0.step (by exact ⟨trivial, trivial⟩) (Step.claim 0 rfl rfl)
  have r2 : Reach V0 OldRootOnly
    ⟨(fun _ => ⟨none, []⟩), 1, 0, true,
      (fun _ => none), (upd (upd (fun _ => .idle) 0 (.claimed)) 0 (.building [] none 1)),
      [], false, false, [], 0,
      (fun _ => 0), (fun _ => [])⟩ := r1.step (by exact ⟨trivial, trivial⟩) (Step.copyFirst 0 rfl (by unlocked))
  have r3 : Reach V0 OldRootOnly
    ⟨(spine (fun _ => ⟨none, []⟩) 1 [[], [1]] none), 3, 1, false,
      (fun _ => none), (upd (upd (upd (fun _ => .idle) 0 (.claimed)) 0 (.building [] none 1)) 0 (.idle)),
      [], false, false, ([] ++ [1]), 1,
      (upd (fun _ => 0) 1 1), (upd (fun _ => []) 1 [1])⟩ := r2.step (by exact ⟨trivial, trivial⟩) (Step.publish 0 [] none 1 [1] [[], [1]]
      rfl rfl (by simp) rfl (by simp) (by simp))
  have r4 : Reach V0 OldRootOnly
    ⟨(spine (fun _ => ⟨none, []⟩) 1 [[], [1]] none), 3, 1, false,
      (upd (fun _ => none) 0 (some ⟨1, [], [], 1, 0⟩)), (upd (upd (upd (fun _ => .idle) 0 (.claimed)) 0 (.building [] none 1)) 0 (.idle)),
      [], false, false, ([] ++ [1]), 1,
      (upd (fun _ => 0) 1 1), (upd (fun _ => []) 1 [1])⟩ := r3.step (by exact ⟨trivial, trivial⟩) (Step.enter 0 rfl (by unlocked))
  have r5 : Reach V0 OldRootOnly
    ⟨(spine (fun _ => ⟨none, []⟩) 1 [[], [1]] none), 3, 1, true,
      (upd (fun _ => none) 0 (some ⟨1, [], [], 1, 0⟩)), (upd (upd (upd (upd (fun _ => .idle) 0 (.claimed)) 0 (.building [] none 1)) 0 (.idle)) 0 (.claimed)),
      [], false, false, ([] ++ [1]), 1,
      (upd (fun _ => 0) 1 1), (upd (fun _ => []) 1 [1])⟩ := r4.step (by exact ⟨trivial, trivial⟩) (Step.claim 0 rfl rfl)
  have r6 : Reach V0 OldRootOnly
    ⟨(spine (fun _ => ⟨none, []⟩) 1 [[], [1]] none), 3, 1, true,
      (upd (fun _ => none) 0 (some ⟨1, [], [], 1, 0⟩)), (upd (upd (upd (upd (upd (fun _ => .idle) 0 (.claimed)) 0 (.building [] none 1)) 0 (.idle)) 0 (.claimed)) 0 (.building [] (some 2) 1)),
      [], false, false, ([] ++ [1]), 1,
      (upd (fun _ => 0) 1 1), (upd (fun _ => []) 1 [1])⟩ := r5.step (by exact ⟨trivial, trivial⟩) (Step.copyFirst 0 rfl (by unlocked))
  have r7 : Reach V0 OldRootOnly
    ⟨(spine (spine (fun _ => ⟨none, []⟩) 1 [[], [1]] none) 3 [[2]] (some 2)), 4, 3, false,
      (upd (fun _ => none) 0 (some ⟨1, [], [], 1, 0⟩)), (upd (upd (upd (upd (upd (upd (fun _ => .idle) 0 (.claimed)) 0 (.building [] none 1)) 0 (.idle)) 0 (.claimed)) 0 (.building [] (some 2) 1)) 0 (.idle)),
      [], false, false, (([] ++ [1]) ++ [2]), 2,
      (upd (upd (fun _ => 0) 1 1) 2 3), (upd (upd (fun _ => []) 1 [1]) 2 [2, 1])⟩ := r6.step (by exact ⟨trivial, trivial⟩) (Step.publish 0 [] (some 2) 1 [2] [[2]]
      rfl rfl (by simp) rfl (by simp) (by simp))
  have r8 : Reach V0 OldRootOnly
    ⟨(spine (spine (fun _ => ⟨none, []⟩) 1 [[], [1]] none) 3 [[2]] (some 2)), 4, 3, true,
      (upd (fun _ => none) 0 (some ⟨1, [], [], 1, 0⟩)), (upd (upd (upd (upd (upd (upd (upd (fun _ => .idle) 0 (.claimed)) 0 (.building [] none 1)) 0 (.idle)) 0 (.claimed)) 0 (.building [] (some 2) 1)) 0 (.idle)) 1 (.claimed)),
      [], false, false, (([] ++ [1]) ++ [2]), 2,
      (upd (upd (fun _ => 0) 1 1) 2 3), (upd (upd (fun _ => []) 1 [1]) 2 [2, 1])⟩ := r7.step (by exact ⟨trivial, trivial⟩) (Step.claim 1 rfl rfl)
  have r9 : Reach V0 OldRootOnly
    ⟨(upd (spine (spine (fun _ => ⟨none, []⟩) 1 [[], [1]] none) 3 [[2]] (some 2)) 4 ⟨some 2, [2]⟩), 5, 3, true,
      (upd (fun _ => none) 0 (some ⟨1, [], [], 1, 0⟩)), (upd (upd (upd (upd (upd (upd (upd (upd (fun _ => .idle) 0 (.claimed)) 0 (.building [] none 1)) 0 (.idle)) 0 (.claimed)) 0 (.building [] (some 2) 1)) 0 (.idle)) 1 (.claimed)) 1 (.copied 3 4)),
      [], false, false, (([] ++ [1]) ++ [2]), 2,
      (upd (upd (fun _ => 0) 1 1) 2 3), (upd (upd (fun _ => []) 1 [1]) 2 [2, 1])⟩ := r8.step (by exact ⟨trivial, trivial⟩) (Step.copyRoot 1 rfl (by unlocked))
  have r10 : Reach V0 OldRootOnly
    ⟨(upd (spine (spine (fun _ => ⟨none, []⟩) 1 [[], [1]] none) 3 [[2]] (some 2)) 4 ⟨some 2, [2]⟩), 5, 4, false,
      (upd (fun _ => none) 0 (some ⟨1, [], [], 1, 0⟩)), (upd (upd (upd (upd (upd (upd (upd (upd (upd (fun _ => .idle) 0 (.claimed)) 0 (.building [] none 1)) 0 (.idle)) 0 (.claimed)) 0 (.building [] (some 2) 1)) 0 (.idle)) 1 (.claimed)) 1 (.copied 3 4)) 1 (.walking 3 4 0 2)),
      [], false, false, (([] ++ [1]) ++ [2]), 3,
      (upd (upd (upd (fun _ => 0) 1 1) 2 3) 3 4), (upd (upd (upd (fun _ => []) 1 [1]) 2 [2, 1]) 3 [2, 1])⟩ := r9.step (by exact ⟨trivial, trivial⟩) (Step.switch 1 3 4 rfl rfl)
  have r11 : Reach V0 OldRootOnly
    ⟨(upd (upd (upd (spine (spine (fun _ => ⟨none, []⟩) 1 [[], [1]] none) 3 [[2]] (some 2)) 4 ⟨some 2, [2]⟩) 5 ⟨none, [1]⟩) 4 ⟨some 5, [2]⟩), 6, 4, false,
      (upd (fun _ => none) 0 (some ⟨1, [], [], 1, 0⟩)), (upd (upd (upd (upd (upd (upd (upd (upd (upd (upd (fun _ => .idle) 0 (.claimed)) 0 (.building [] none 1)) 0 (.idle)) 0 (.claimed)) 0 (.building [] (some 2) 1)) 0 (.idle)) 1 (.claimed)) 1 (.copied 3 4)) 1 (.walking 3 4 0 2)) 1 (.walking 3 5 1 2)),
      [], false, false, (([] ++ [1]) ++ [2]), 3,
      (upd (upd (upd (fun _ => 0) 1 1) 2 3) 3 4), (upd (upd (upd (fun _ => []) 1 [1]) 2 [2, 1]) 3 [2, 1])⟩ := r10.step (by exact ⟨trivial, trivial⟩) (Step.descend 1 3 4 0 2 2 rfl rfl (by unlocked))
  have r12 : Reach V0 OldRootOnly
    ⟨(upd (upd (upd (upd (spine (spine (fun _ => ⟨none, []⟩) 1 [[], [1]] none) 3 [[2]] (some 2)) 4 ⟨some 2, [2]⟩) 5 ⟨none, [1]⟩) 4 ⟨some 5, [2]⟩) 5 ⟨none, [11]⟩), 6, 4, false,
      (upd (fun _ => none) 0 (some ⟨1, [], [], 1, 0⟩)), (upd (upd (upd (upd (upd (upd (upd (upd (upd (upd (upd (fun _ => .idle) 0 (.claimed)) 0 (.building [] none 1)) 0 (.idle)) 0 (.claimed)) 0 (.building [] (some 2) 1)) 0 (.idle)) 1 (.claimed)) 1 (.copied 3 4)) 1 (.walking 3 4 0 2)) 1 (.walking 3 5 1 2)) 1 (.modified 3 1 (some 5) [1] .notYet 2)),
      ([] ++ []), false, false, ((([] ++ [1]) ++ [2]) ++ [11]), 3,
      (upd (upd (upd (fun _ => 0) 1 1) 2 3) 3 4), (upd (upd (upd (fun _ => []) 1 [1]) 2 [2, 1]) 3 [2, 1])⟩ := r11.step (by exact ⟨trivial, rfl⟩) (Step.modify 1 3 5 1 2 [11] [1] [] rfl keeps_V0 (by simp)
      (fun x hx => .inr (by simp at hx; subst hx; decide)) (fun x hx => by simp at hx; try (subst hx; decide))
      (fun x hx => by simp at hx; try (subst hx; decide)))
  have r13 : Reach V0 OldRootOnly
    ⟨(upd (upd (upd (upd (spine (spine (fun _ => ⟨none, []⟩) 1 [[], [1]] none) 3 [[2]] (some 2)) 4 ⟨some 2, [2]⟩) 5 ⟨none, [1]⟩) 4 ⟨some 5, [2]⟩) 5 ⟨none, [11]⟩), 6, 4, false,
      (upd (fun _ => none) 0 (some ⟨1, [], [], 1, 0⟩)), (upd (upd (upd (upd (upd (upd (upd (upd (upd (upd (upd (upd (fun _ => .idle) 0 (.claimed)) 0 (.building [] none 1)) 0 (.idle)) 0 (.claimed)) 0 (.building [] (some 2) 1)) 0 (.idle)) 1 (.claimed)) 1 (.copied 3 4)) 1 (.walking 3 4 0 2)) 1 (.walking 3 5 1 2)) 1 (.modified 3 1 (some 5) [1] .notYet 2)) 1 (.modified 3 1 (some 5) [1] (.at 3 1) 2)),
      ([] ++ []), false, false, ((([] ++ [1]) ++ [2]) ++ [11]), 3,
      (upd (upd (upd (fun _ => 0) 1 1) 2 3) 3 4), (upd (upd (upd (fun _ => []) 1 [1]) 2 [2, 1]) 3 [2, 1])⟩ := r12.step (by exact ⟨trivial, trivial⟩) (Step.gcRoot 1 3 1 (some 5) [1] 2 rfl (by unlocked) (by unshared))
  have r14 : Reach V0 OldRootOnly
    ⟨(upd (upd (upd (upd (spine (spine (fun _ => ⟨none, []⟩) 1 [[], [1]] none) 3 [[2]] (some 2)) 4 ⟨some 2, [2]⟩) 5 ⟨none, [1]⟩) 4 ⟨some 5, [2]⟩) 5 ⟨none, [11]⟩), 6, 4, false,
      (upd (fun _ => none) 0 (some ⟨1, [], [], 1, 0⟩)), (upd (upd (upd (upd (upd (upd (upd (upd (upd (upd (upd (upd (upd (fun _ => .idle) 0 (.claimed)) 0 (.building [] none 1)) 0 (.idle)) 0 (.claimed)) 0 (.building [] (some 2) 1)) 0 (.idle)) 1 (.claimed)) 1 (.copied 3 4)) 1 (.walking 3 4 0 2)) 1 (.walking 3 5 1 2)) 1 (.modified 3 1 (some 5) [1] .notYet 2)) 1 (.modified 3 1 (some 5) [1] (.at 3 1) 2)) 1 (.modified 3 1 (some 5) [1] (.at 2 0) 2)),
      ([] ++ []), false, false, ((([] ++ [1]) ++ [2]) ++ [11]), 3,
      (upd (upd (upd (fun _ => 0) 1 1) 2 3) 3 4), (upd (upd (upd (fun _ => []) 1 [1]) 2 [2, 1]) 3 [2, 1])⟩ := r13.step (by exact ⟨trivial, trivial⟩) (Step.gcDown 1 3 1 (some 5) [1] 2 3 0 2 rfl rfl (by unlocked) (by unshared))
  have r15 : Reach V0 OldRootOnly
    ⟨(upd (upd (upd (upd (spine (spine (fun _ => ⟨none, []⟩) 1 [[], [1]] none) 3 [[2]] (some 2)) 4 ⟨some 2, [2]⟩) 5 ⟨none, [1]⟩) 4 ⟨some 5, [2]⟩) 5 ⟨none, [11]⟩), 6, 4, false,
      (upd (fun _ => none) 0 (some ⟨1, [], [], 1, 0⟩)), (upd (upd (upd (upd (upd (upd (upd (upd (upd (upd (upd (upd (upd (upd (fun _ => .idle) 0 (.claimed)) 0 (.building [] none 1)) 0 (.idle)) 0 (.claimed)) 0 (.building [] (some 2) 1)) 0 (.idle)) 1 (.claimed)) 1 (.copied 3 4)) 1 (.walking 3 4 0 2)) 1 (.walking 3 5 1 2)) 1 (.modified 3 1 (some 5) [1] .notYet 2)) 1 (.modified 3 1 (some 5) [1] (.at 3 1) 2)) 1 (.modified 3 1 (some 5) [1] (.at 2 0) 2)) 1 (.modified 3 1 (some 5) [1] .done 2)),
      (([] ++ []) ++ [1]), false, false, ((([] ++ [1]) ++ [2]) ++ [11]), 3,
      (upd (upd (upd (fun _ => 0) 1 1) 2 3) 3 4), (upd (upd (upd (fun _ => []) 1 [1]) 2 [2, 1]) 3 [2, 1])⟩ := r14.step (by exact ⟨trivial, trivial⟩) (Step.gcFree 1 3 1 (some 5) [1] 2 2 rfl)
  have r16 : Reach V0 OldRootOnly
    ⟨(upd (upd (upd (upd (spine (spine (fun _ => ⟨none, []⟩) 1 [[], [1]] none) 3 [[2]] (some 2)) 4 ⟨some 2, [2]⟩) 5 ⟨none, [1]⟩) 4 ⟨some 5, [2]⟩) 5 ⟨none, [11]⟩), 6, 4, false,
      (upd (upd (fun _ => none) 0 (some ⟨1, [], [], 1, 0⟩)) 0 (some ⟨2, [], [1], 1, 1⟩)), (upd (upd (upd (upd (upd (upd (upd (upd (upd (upd (upd (upd (upd (upd (fun _ => .idle) 0 (.claimed)) 0 (.building [] none 1)) 0 (.idle)) 0 (.claimed)) 0 (.building [] (some 2) 1)) 0 (.idle)) 1 (.claimed)) 1 (.copied 3 4)) 1 (.walking 3 4 0 2)) 1 (.walking 3 5 1 2)) 1 (.modified 3 1 (some 5) [1] .notYet 2)) 1 (.modified 3 1 (some 5) [1] (.at 3 1) 2)) 1 (.modified 3 1 (some 5) [1] (.at 2 0) 2)) 1 (.modified 3 1 (some 5) [1] .done 2)),
      (([] ++ []) ++ [1]), false, false, ((([] ++ [1]) ++ [2]) ++ [11]), 3,
      (upd (upd (upd (fun _ => 0) 1 1) 2 3) 3 4), (upd (upd (upd (fun _ => []) 1 [1]) 2 [2, 1]) 3 [2, 1])⟩ := r15.step (by exact ⟨trivial, trivial⟩) (Step.down 0 ⟨1, [], [], 1, 0⟩ 2 rfl rfl rfl (by unlocked))
  have r17 : Reach V0 OldRootOnly
    ⟨(upd (upd (upd (upd (spine (spine (fun _ => ⟨none, []⟩) 1 [[], [1]] none) 3 [[2]] (some 2)) 4 ⟨some 2, [2]⟩) 5 ⟨none, [1]⟩) 4 ⟨some 5, [2]⟩) 5 ⟨none, [11]⟩), 6, 4, false,
      (upd (upd (upd (fun _ => none) 0 (some ⟨1, [], [], 1, 0⟩)) 0 (some ⟨2, [], [1], 1, 1⟩)) 0 (some ⟨2, [1], [], 1, 1⟩)), (upd (upd (upd (upd (upd (upd (upd (upd (upd (upd (upd (upd (upd (upd (fun _ => .idle) 0 (.claimed)) 0 (.building [] none 1)) 0 (.idle)) 0 (.claimed)) 0 (.building [] (some 2) 1)) 0 (.idle)) 1 (.claimed)) 1 (.copied 3 4)) 1 (.walking 3 4 0 2)) 1 (.walking 3 5 1 2)) 1 (.modified 3 1 (some 5) [1] .notYet 2)) 1 (.modified 3 1 (some 5) [1] (.at 3 1) 2)) 1 (.modified 3 1 (some 5) [1] (.at 2 0) 2)) 1 (.modified 3 1 (some 5) [1] .done 2)),
      (([] ++ []) ++ [1]), true, false, ((([] ++ [1]) ++ [2]) ++ [11]), 3,
      (upd (upd (upd (fun _ => 0) 1 1) 2 3) 3 4), (upd (upd (upd (fun _ => []) 1 [1]) 2 [2, 1]) 3 [2, 1])⟩ := r16.step (by exact ⟨trivial, trivial⟩) (Step.misread 0 ⟨2, [], [1], 1, 1⟩ 1 [] rfl rfl (by decide))
  exact ⟨_, r17, rfl⟩

/-- **The code violates C45.** Without any garbage collection: a lookup is in the leaf when a filter
build, working on a copy of the leaf, releases the filters of the bundle it clears
(trunk.c:2412-2427); the lookup then reads one of them. -/
theorem eager_misread : ∃ s, Reach V0 EagerOnly s ∧ s.misread = true := by
  have r0 : Reach V0 EagerOnly init := .init
  have r1 : Reach V0 EagerOnly
    ⟨(fun _ => ⟨none, []⟩), 1, 0, true,
      (fun _ => none), (upd (fun _ => .idle) 0 (.claimed)),
      [], false, false, [], 0,
      (fun _ => 0), (fun _ => [])⟩ := r0.step (by exact ⟨trivial, nofun⟩) (Step.claim 0 rfl rfl)
  have r2 : Reach V0 EagerOnly
    ⟨(fun _ => ⟨none, []⟩), 1, 0, true,
      (fun _ => none), (upd (upd (fun _ => .idle) 0 (.claimed)) 0 (.building [] none 1)),
      [], false, false, [], 0,
      (fun _ => 0), (fun _ => [])⟩ := r1.step (by exact ⟨trivial, nofun⟩) (Step.copyFirst 0 rfl (by unlocked))
  have r3 : Reach V0 EagerOnly
    ⟨(spine (fun _ => ⟨none, []⟩) 1 [[1]] none), 2, 1, false,
      (fun _ => none), (upd (upd (upd (fun _ => .idle) 0 (.claimed)) 0 (.building [] none 1)) 0 (.idle)),
      [], false, false, ([] ++ [1]), 1,
      (upd (fun _ => 0) 1 1), (upd (fun _ => []) 1 [1])⟩ := r2.step (by exact ⟨trivial, nofun⟩) (Step.publish 0 [] none 1 [1] [[1]]
      rfl rfl (by simp) rfl (by simp) (by simp))
  have r4 : Reach V0 EagerOnly
    ⟨(spine (fun _ => ⟨none, []⟩) 1 [[1]] none), 2, 1, false,
      (upd (fun _ => none) 0 (some ⟨1, [], [1], 1, 0⟩)), (upd (upd (upd (fun _ => .idle) 0 (.claimed)) 0 (.building [] none 1)) 0 (.idle)),
      [], false, false, ([] ++ [1]), 1,
      (upd (fun _ => 0) 1 1), (upd (fun _ => []) 1 [1])⟩ := r3.step (by exact ⟨trivial, nofun⟩) (Step.enter 0 rfl (by unlocked))
  have r5 : Reach V0 EagerOnly
    ⟨(spine (fun _ => ⟨none, []⟩) 1 [[1]] none), 2, 1, true,
      (upd (fun _ => none) 0 (some ⟨1, [], [1], 1, 0⟩)), (upd (upd (upd (upd (fun _ => .idle) 0 (.claimed)) 0 (.building [] none 1)) 0 (.idle)) 1 (.claimed)),
      [], false, false, ([] ++ [1]), 1,
      (upd (fun _ => 0) 1 1), (upd (fun _ => []) 1 [1])⟩ := r4.step (by exact ⟨trivial, nofun⟩) (Step.claim 1 rfl rfl)
  have r6 : Reach V0 EagerOnly
    ⟨(upd (spine (fun _ => ⟨none, []⟩) 1 [[1]] none) 2 ⟨none, [1]⟩), 3, 1, true,
      (upd (fun _ => none) 0 (some ⟨1, [], [1], 1, 0⟩)), (upd (upd (upd (upd (upd (fun _ => .idle) 0 (.claimed)) 0 (.building [] none 1)) 0 (.idle)) 1 (.claimed)) 1 (.copied 1 2)),
      [], false, false, ([] ++ [1]), 1,
      (upd (fun _ => 0) 1 1), (upd (fun _ => []) 1 [1])⟩ := r5.step (by exact ⟨trivial, nofun⟩) (Step.copyRoot 1 rfl (by unlocked))
  have r7 : Reach V0 EagerOnly
    ⟨(upd (spine (fun _ => ⟨none, []⟩) 1 [[1]] none) 2 ⟨none, [1]⟩), 3, 2, false,
      (upd (fun _ => none) 0 (some ⟨1, [], [1], 1, 0⟩)), (upd (upd (upd (upd (upd (upd (fun _ => .idle) 0 (.claimed)) 0 (.building [] none 1)) 0 (.idle)) 1 (.claimed)) 1 (.copied 1 2)) 1 (.walking 1 2 0 1)),
      [], false, false, ([] ++ [1]), 2,
      (upd (upd (fun _ => 0) 1 1) 2 2), (upd (upd (fun _ => []) 1 [1]) 2 [1])⟩ := r6.step (by exact ⟨trivial, nofun⟩) (Step.switch 1 1 2 rfl rfl)
  have r8 : Reach V0 EagerOnly
    ⟨(upd (upd (spine (fun _ => ⟨none, []⟩) 1 [[1]] none) 2 ⟨none, [1]⟩) 2 ⟨none, [11]⟩), 3, 2, false,
      (upd (fun _ => none) 0 (some ⟨1, [], [1], 1, 0⟩)), (upd (upd (upd (upd (upd (upd (upd (fun _ => .idle) 0 (.claimed)) 0 (.building [] none 1)) 0 (.idle)) 1 (.claimed)) 1 (.copied 1 2)) 1 (.walking 1 2 0 1)) 1 (.modified 1 0 (some 2) [] .notYet 1)),
      ([] ++ [1]), false, false, (([] ++ [1]) ++ [11]), 2,
      (upd (upd (fun _ => 0) 1 1) 2 2), (upd (upd (fun _ => []) 1 [1]) 2 [1])⟩ := r7.step (by exact ⟨trivial, nofun⟩) (Step.modify 1 1 2 0 1 [11] [] [1] rfl keeps_V0 (by simp)
      (fun x hx => .inr (by simp at hx; subst hx; decide)) (fun x hx => by simp at hx; try (subst hx; decide))
      (fun x hx => by simp at hx; try (subst hx; decide)))
  have r9 : Reach V0 EagerOnly
    ⟨(upd (upd (spine (fun _ => ⟨none, []⟩) 1 [[1]] none) 2 ⟨none, [1]⟩) 2 ⟨none, [11]⟩), 3, 2, false,
      (upd (upd (fun _ => none) 0 (some ⟨1, [], [1], 1, 0⟩)) 0 (some ⟨1, [1], [], 1, 0⟩)), (upd (upd (upd (upd (upd (upd (upd (fun _ => .idle) 0 (.claimed)) 0 (.building [] none 1)) 0 (.idle)) 1 (.claimed)) 1 (.copied 1 2)) 1 (.walking 1 2 0 1)) 1 (.modified 1 0 (some 2) [] .notYet 1)),
      ([] ++ [1]), true, false, (([] ++ [1]) ++ [11]), 2,
      (upd (upd (fun _ => 0) 1 1) 2 2), (upd (upd (fun _ => []) 1 [1]) 2 [1])⟩ := r8.step (by exact ⟨trivial, nofun⟩) (Step.misread 0 ⟨1, [], [1], 1, 0⟩ 1 [] rfl rfl (by decide))
  exact ⟨_, r9, rfl⟩

/-- **The code violates C45.** An aborted filter build gives up the claim of an incorporation
(trunk.c:4313). Another thread claims and copies the root; the incorporation publishes its memtable; a
third thread claims, so that the assertion holds; the copier switches to its copy of the root from
before. The memtable is gone: a later lookup answers 1, though 2 was written. -/
theorem stray_loses_memtable : ∃ s : State Nat, Reach V0 (fun _ _ => True) s ∧ s.crashed = false ∧
    ∃ r, s.readers 0 = some r ∧ r.todo = [] ∧ (s.heap r.addr).child = none ∧
      V0 r.acc = some 1 ∧ V0 (s.said r.entry) = some 2 := by
  have r0 : Reach V0 (fun _ _ => True) init := .init
  have r1 : Reach V0 (fun _ _ => True)
    ⟨(fun _ => ⟨none, []⟩), 1, 0, true,
      (fun _ => none), (upd (fun _ => .idle) 1 (.claimed)),
      [], false, false, [], 0,
      (fun _ => 0), (fun _ => [])⟩ := r0.step (by exact trivial) (Step.claim 1 rfl rfl)
  have r2 : Reach V0 (fun _ _ => True)
    ⟨(fun _ => ⟨none, []⟩), 1, 0, true,
      (fun _ => none), (upd (upd (fun _ => .idle) 1 (.claimed)) 1 (.building [] none 1)),
      [], false, false, [], 0,
      (fun _ => 0), (fun _ => [])⟩ := r1.step (by exact trivial) (Step.copyFirst 1 rfl (by unlocked))
  have r3 : Reach V0 (fun _ _ => True)
    ⟨(spine (fun _ => ⟨none, []⟩) 1 [[], [1]] none), 3, 1, false,
      (fun _ => none), (upd (upd (upd (fun _ => .idle) 1 (.claimed)) 1 (.building [] none 1)) 1 (.idle)),
      [], false, false, ([] ++ [1]), 1,
      (upd (fun _ => 0) 1 1), (upd (fun _ => []) 1 [1])⟩ := r2.step (by exact trivial) (Step.publish 1 [] none 1 [1] [[], [1]]
      rfl rfl (by simp) rfl (by simp) (by simp))
  have r4 : Reach V0 (fun _ _ => True)
    ⟨(spine (fun _ => ⟨none, []⟩) 1 [[], [1]] none), 3, 1, true,
      (fun _ => none), (upd (upd (upd (upd (fun _ => .idle) 1 (.claimed)) 1 (.building [] none 1)) 1 (.idle)) 0 (.claimed)),
      [], false, false, ([] ++ [1]), 1,
      (upd (fun _ => 0) 1 1), (upd (fun _ => []) 1 [1])⟩ := r3.step (by exact trivial) (Step.claim 0 rfl rfl)
  have r5 : Reach V0 (fun _ _ => True)
    ⟨(upd (spine (fun _ => ⟨none, []⟩) 1 [[], [1]] none) 3 ⟨some 2, []⟩), 4, 1, true,
      (fun _ => none), (upd (upd (upd (upd (upd (fun _ => .idle) 1 (.claimed)) 1 (.building [] none 1)) 1 (.idle)) 0 (.claimed)) 0 (.copied 1 3)),
      [], false, false, ([] ++ [1]), 1,
      (upd (fun _ => 0) 1 1), (upd (fun _ => []) 1 [1])⟩ := r4.step (by exact trivial) (Step.copyRoot 0 rfl (by unlocked))
  have r6 : Reach V0 (fun _ _ => True)
    ⟨(upd (spine (fun _ => ⟨none, []⟩) 1 [[], [1]] none) 3 ⟨some 2, []⟩), 4, 3, false,
      (fun _ => none), (upd (upd (upd (upd (upd (upd (fun _ => .idle) 1 (.claimed)) 1 (.building [] none 1)) 1 (.idle)) 0 (.claimed)) 0 (.copied 1 3)) 0 (.walking 1 3 0 1)),
      [], false, false, ([] ++ [1]), 2,
      (upd (upd (fun _ => 0) 1 1) 2 3), (upd (upd (fun _ => []) 1 [1]) 2 [1])⟩ := r5.step (by exact trivial) (Step.switch 0 1 3 rfl rfl)
  have r7 : Reach V0 (fun _ _ => True)
    ⟨(upd (upd (upd (spine (fun _ => ⟨none, []⟩) 1 [[], [1]] none) 3 ⟨some 2, []⟩) 4 ⟨none, [1]⟩) 3 ⟨some 4, []⟩), 5, 3, false,
      (fun _ => none), (upd (upd (upd (upd (upd (upd (upd (fun _ => .idle) 1 (.claimed)) 1 (.building [] none 1)) 1 (.idle)) 0 (.claimed)) 0 (.copied 1 3)) 0 (.walking 1 3 0 1)) 0 (.walking 1 4 1 1)),
      [], false, false, ([] ++ [1]), 2,
      (upd (upd (fun _ => 0) 1 1) 2 3), (upd (upd (fun _ => []) 1 [1]) 2 [1])⟩ := r6.step (by exact trivial) (Step.descend 0 1 3 0 1 2 rfl rfl (by unlocked))
  have r8 : Reach V0 (fun _ _ => True)
    ⟨(upd (upd (upd (spine (fun _ => ⟨none, []⟩) 1 [[], [1]] none) 3 ⟨some 2, []⟩) 4 ⟨none, [1]⟩) 3 ⟨some 4, []⟩), 5, 3, true,
      (fun _ => none), (upd (upd (upd (upd (upd (upd (upd (upd (fun _ => .idle) 1 (.claimed)) 1 (.building [] none 1)) 1 (.idle)) 0 (.claimed)) 0 (.copied 1 3)) 0 (.walking 1 3 0 1)) 0 (.walking 1 4 1 1)) 1 (.claimed)),
      [], false, false, ([] ++ [1]), 2,
      (upd (upd (fun _ => 0) 1 1) 2 3), (upd (upd (fun _ => []) 1 [1]) 2 [1])⟩ := r7.step (by exact trivial) (Step.claim 1 rfl rfl)
  have r9 : Reach V0 (fun _ _ => True)
    ⟨(upd (upd (upd (spine (fun _ => ⟨none, []⟩) 1 [[], [1]] none) 3 ⟨some 2, []⟩) 4 ⟨none, [1]⟩) 3 ⟨some 4, []⟩), 5, 3, true,
      (fun _ => none), (upd (upd (upd (upd (upd (upd (upd (upd (upd (fun _ => .idle) 1 (.claimed)) 1 (.building [] none 1)) 1 (.idle)) 0 (.claimed)) 0 (.copied 1 3)) 0 (.walking 1 3 0 1)) 0 (.walking 1 4 1 1)) 1 (.claimed)) 1 (.building [] (some 4) 1)),
      [], false, false, ([] ++ [1]), 2,
      (upd (upd (fun _ => 0) 1 1) 2 3), (upd (upd (fun _ => []) 1 [1]) 2 [1])⟩ := r8.step (by exact trivial) (Step.copyFirst 1 rfl (by unlocked))
  have r10 : Reach V0 (fun _ _ => True)
    ⟨(upd (upd (upd (spine (fun _ => ⟨none, []⟩) 1 [[], [1]] none) 3 ⟨some 2, []⟩) 4 ⟨none, [1]⟩) 3 ⟨some 4, []⟩), 5, 3, false,
      (fun _ => none), (upd (upd (upd (upd (upd (upd (upd (upd (upd (upd (fun _ => .idle) 1 (.claimed)) 1 (.building [] none 1)) 1 (.idle)) 0 (.claimed)) 0 (.copied 1 3)) 0 (.walking 1 3 0 1)) 0 (.walking 1 4 1 1)) 1 (.claimed)) 1 (.building [] (some 4) 1)) 0 (.idle)),
      [], false, false, ([] ++ [1]), 2,
      (upd (upd (fun _ => 0) 1 1) 2 3), (upd (upd (fun _ => []) 1 [1]) 2 [1])⟩ := r9.step (by exact trivial) (Step.abort 0 1 4 1 1 rfl rfl)
  have r11 : Reach V0 (fun _ _ => True)
    ⟨(upd (upd (upd (spine (fun _ => ⟨none, []⟩) 1 [[], [1]] none) 3 ⟨some 2, []⟩) 4 ⟨none, [1]⟩) 3 ⟨some 4, []⟩), 5, 3, true,
      (fun _ => none), (upd (upd (upd (upd (upd (upd (upd (upd (upd (upd (upd (fun _ => .idle) 1 (.claimed)) 1 (.building [] none 1)) 1 (.idle)) 0 (.claimed)) 0 (.copied 1 3)) 0 (.walking 1 3 0 1)) 0 (.walking 1 4 1 1)) 1 (.claimed)) 1 (.building [] (some 4) 1)) 0 (.idle)) 2 (.claimed)),
      [], false, false, ([] ++ [1]), 2,
      (upd (upd (fun _ => 0) 1 1) 2 3), (upd (upd (fun _ => []) 1 [1]) 2 [1])⟩ := r10.step (by exact trivial) (Step.claim 2 rfl rfl)
  have r12 : Reach V0 (fun _ _ => True)
    ⟨(upd (upd (upd (upd (spine (fun _ => ⟨none, []⟩) 1 [[], [1]] none) 3 ⟨some 2, []⟩) 4 ⟨none, [1]⟩) 3 ⟨some 4, []⟩) 5 ⟨some 4, []⟩), 6, 3, true,
      (fun _ => none), (upd (upd (upd (upd (upd (upd (upd (upd (upd (upd (upd (upd (fun _ => .idle) 1 (.claimed)) 1 (.building [] none 1)) 1 (.idle)) 0 (.claimed)) 0 (.copied 1 3)) 0 (.walking 1 3 0 1)) 0 (.walking 1 4 1 1)) 1 (.claimed)) 1 (.building [] (some 4) 1)) 0 (.idle)) 2 (.claimed)) 2 (.copied 3 5)),
      [], false, false, ([] ++ [1]), 2,
      (upd (upd (fun _ => 0) 1 1) 2 3), (upd (upd (fun _ => []) 1 [1]) 2 [1])⟩ := r11.step (by exact trivial) (Step.copyRoot 2 rfl (by unlocked))
  have r13 : Reach V0 (fun _ _ => True)
    ⟨(spine (upd (upd (upd (upd (spine (fun _ => ⟨none, []⟩) 1 [[], [1]] none) 3 ⟨some 2, []⟩) 4 ⟨none, [1]⟩) 3 ⟨some 4, []⟩) 5 ⟨some 4, []⟩) 6 [[2]] (some 4)), 7, 6, false,
      (fun _ => none), (upd (upd (upd (upd (upd (upd (upd (upd (upd (upd (upd (upd (upd (fun _ => .idle) 1 (.claimed)) 1 (.building [] none 1)) 1 (.idle)) 0 (.claimed)) 0 (.copied 1 3)) 0 (.walking 1 3 0 1)) 0 (.walking 1 4 1 1)) 1 (.claimed)) 1 (.building [] (some 4) 1)) 0 (.idle)) 2 (.claimed)) 2 (.copied 3 5)) 1 (.idle)),
      [], false, false, (([] ++ [1]) ++ [2]), 3,
      (upd (upd (upd (fun _ => 0) 1 1) 2 3) 3 6), (upd (upd (upd (fun _ => []) 1 [1]) 2 [1]) 3 [2, 1])⟩ := r12.step (by exact trivial) (Step.publish 1 [] (some 4) 1 [2] [[2]]
      rfl rfl (by simp) rfl (by simp) (by simp))
  have r14 : Reach V0 (fun _ _ => True)
    ⟨(spine (upd (upd (upd (upd (spine (fun _ => ⟨none, []⟩) 1 [[], [1]] none) 3 ⟨some 2, []⟩) 4 ⟨none, [1]⟩) 3 ⟨some 4, []⟩) 5 ⟨some 4, []⟩) 6 [[2]] (some 4)), 7, 6, true,
      (fun _ => none), (upd (upd (upd (upd (upd (upd (upd (upd (upd (upd (upd (upd (upd (upd (fun _ => .idle) 1 (.claimed)) 1 (.building [] none 1)) 1 (.idle)) 0 (.claimed)) 0 (.copied 1 3)) 0 (.walking 1 3 0 1)) 0 (.walking 1 4 1 1)) 1 (.claimed)) 1 (.building [] (some 4) 1)) 0 (.idle)) 2 (.claimed)) 2 (.copied 3 5)) 1 (.idle)) 3 (.claimed)),
      [], false, false, (([] ++ [1]) ++ [2]), 3,
      (upd (upd (upd (fun _ => 0) 1 1) 2 3) 3 6), (upd (upd (upd (fun _ => []) 1 [1]) 2 [1]) 3 [2, 1])⟩ := r13.step (by exact trivial) (Step.claim 3 rfl rfl)
  have r15 : Reach V0 (fun _ _ => True)
    ⟨(spine (upd (upd (upd (upd (spine (fun _ => ⟨none, []⟩) 1 [[], [1]] none) 3 ⟨some 2, []⟩) 4 ⟨none, [1]⟩) 3 ⟨some 4, []⟩) 5 ⟨some 4, []⟩) 6 [[2]] (some 4)), 7, 5, false,
      (fun _ => none), (upd (upd (upd (upd (upd (upd (upd (upd (upd (upd (upd (upd (upd (upd (upd (fun _ => .idle) 1 (.claimed)) 1 (.building [] none 1)) 1 (.idle)) 0 (.claimed)) 0 (.copied 1 3)) 0 (.walking 1 3 0 1)) 0 (.walking 1 4 1 1)) 1 (.claimed)) 1 (.building [] (some 4) 1)) 0 (.idle)) 2 (.claimed)) 2 (.copied 3 5)) 1 (.idle)) 3 (.claimed)) 2 (.walking 3 5 0 3)),
      [], false, false, (([] ++ [1]) ++ [2]), 4,
      (upd (upd (upd (upd (fun _ => 0) 1 1) 2 3) 3 6) 4 5), (upd (upd (upd (upd (fun _ => []) 1 [1]) 2 [1]) 3 [2, 1]) 4 [2, 1])⟩ := r14.step (by exact trivial) (Step.switch 2 3 5 rfl rfl)
  have r16 : Reach V0 (fun _ _ => True)
    ⟨(spine (upd (upd (upd (upd (spine (fun _ => ⟨none, []⟩) 1 [[], [1]] none) 3 ⟨some 2, []⟩) 4 ⟨none, [1]⟩) 3 ⟨some 4, []⟩) 5 ⟨some 4, []⟩) 6 [[2]] (some 4)), 7, 5, false,
      (fun _ => none), (upd (upd (upd (upd (upd (upd (upd (upd (upd (upd (upd (upd (upd (upd (upd (upd (fun _ => .idle) 1 (.claimed)) 1 (.building [] none 1)) 1 (.idle)) 0 (.claimed)) 0 (.copied 1 3)) 0 (.walking 1 3 0 1)) 0 (.walking 1 4 1 1)) 1 (.claimed)) 1 (.building [] (some 4) 1)) 0 (.idle)) 2 (.claimed)) 2 (.copied 3 5)) 1 (.idle)) 3 (.claimed)) 2 (.walking 3 5 0 3)) 2 (.idle)),
      [], false, false, (([] ++ [1]) ++ [2]), 4,
      (upd (upd (upd (upd (fun _ => 0) 1 1) 2 3) 3 6) 4 5), (upd (upd (upd (upd (fun _ => []) 1 [1]) 2 [1]) 3 [2, 1]) 4 [2, 1])⟩ := r15.step (by exact trivial) (Step.discard 2 3 5 0 3 rfl)
  have r17 : Reach V0 (fun _ _ => True)
    ⟨(spine (upd (upd (upd (upd (spine (fun _ => ⟨none, []⟩) 1 [[], [1]] none) 3 ⟨some 2, []⟩) 4 ⟨none, [1]⟩) 3 ⟨some 4, []⟩) 5 ⟨some 4, []⟩) 6 [[2]] (some 4)), 7, 5, false,
      (upd (fun _ => none) 0 (some ⟨5, [], [], 4, 0⟩)), (upd (upd (upd (upd (upd (upd (upd (upd (upd (upd (upd (upd (upd (upd (upd (upd (fun _ => .idle) 1 (.claimed)) 1 (.building [] none 1)) 1 (.idle)) 0 (.claimed)) 0 (.copied 1 3)) 0 (.walking 1 3 0 1)) 0 (.walking 1 4 1 1)) 1 (.claimed)) 1 (.building [] (some 4) 1)) 0 (.idle)) 2 (.claimed)) 2 (.copied 3 5)) 1 (.idle)) 3 (.claimed)) 2 (.walking 3 5 0 3)) 2 (.idle)),
      [], false, false, (([] ++ [1]) ++ [2]), 4,
      (upd (upd (upd (upd (fun _ => 0) 1 1) 2 3) 3 6) 4 5), (upd (upd (upd (upd (fun _ => []) 1 [1]) 2 [1]) 3 [2, 1]) 4 [2, 1])⟩ := r16.step (by exact trivial) (Step.enter 0 rfl (by unlocked))
  have r18 : Reach V0 (fun _ _ => True)
    ⟨(spine (upd (upd (upd (upd (spine (fun _ => ⟨none, []⟩) 1 [[], [1]] none) 3 ⟨some 2, []⟩) 4 ⟨none, [1]⟩) 3 ⟨some 4, []⟩) 5 ⟨some 4, []⟩) 6 [[2]] (some 4)), 7, 5, false,
      (upd (upd (fun _ => none) 0 (some ⟨5, [], [], 4, 0⟩)) 0 (some ⟨4, [], [1], 4, 1⟩)), (upd (upd (upd (upd (upd (upd (upd (upd (upd (upd (upd (upd (upd (upd (upd (upd (fun _ => .idle) 1 (.claimed)) 1 (.building [] none 1)) 1 (.idle)) 0 (.claimed)) 0 (.copied 1 3)) 0 (.walking 1 3 0 1)) 0 (.walking 1 4 1 1)) 1 (.claimed)) 1 (.building [] (some 4) 1)) 0 (.idle)) 2 (.claimed)) 2 (.copied 3 5)) 1 (.idle)) 3 (.claimed)) 2 (.walking 3 5 0 3)) 2 (.idle)),
      [], false, false, (([] ++ [1]) ++ [2]), 4,
      (upd (upd (upd (upd (fun _ => 0) 1 1) 2 3) 3 6) 4 5), (upd (upd (upd (upd (fun _ => []) 1 [1]) 2 [1]) 3 [2, 1]) 4 [2, 1])⟩ := r17.step (by exact trivial) (Step.down 0 ⟨5, [], [], 4, 0⟩ 4 rfl rfl rfl (by unlocked))
  have r19 : Reach V0 (fun _ _ => True)
    ⟨(spine (upd (upd (upd (upd (spine (fun _ => ⟨none, []⟩) 1 [[], [1]] none) 3 ⟨some 2, []⟩) 4 ⟨none, [1]⟩) 3 ⟨some 4, []⟩) 5 ⟨some 4, []⟩) 6 [[2]] (some 4)), 7, 5, false,
      (upd (upd (upd (fun _ => none) 0 (some ⟨5, [], [], 4, 0⟩)) 0 (some ⟨4, [], [1], 4, 1⟩)) 0 (some ⟨4, [1], [], 4, 1⟩)), (upd (upd (upd (upd (upd (upd (upd (upd (upd (upd (upd (upd (upd (upd (upd (upd (fun _ => .idle) 1 (.claimed)) 1 (.building [] none 1)) 1 (.idle)) 0 (.claimed)) 0 (.copied 1 3)) 0 (.walking 1 3 0 1)) 0 (.walking 1 4 1 1)) 1 (.claimed)) 1 (.building [] (some 4) 1)) 0 (.idle)) 2 (.claimed)) 2 (.copied 3 5)) 1 (.idle)) 3 (.claimed)) 2 (.walking 3 5 0 3)) 2 (.idle)),
      [], false, false, (([] ++ [1]) ++ [2]), 4,
      (upd (upd (upd (upd (fun _ => 0) 1 1) 2 3) 3 6) 4 5), (upd (upd (upd (upd (fun _ => []) 1 [1]) 2 [1]) 3 [2, 1]) 4 [2, 1])⟩ := r18.step (by exact trivial) (Step.read 0 ⟨4, [], [1], 4, 1⟩ 1 [] rfl rfl (by decide))
  exact ⟨_, r19, rfl, ⟨4, [1], [], 4, 1⟩, rfl, rfl, rfl, rfl, rfl⟩

/-- The same without the other threads: the incorporation fails its assertion (platform.c:316). -/
theorem stray_crashes : ∃ s : State Nat, Reach V0 (fun _ _ => True) s ∧ s.crashed = true := by
  have r0 : Reach V0 (fun _ _ => True) init := .init
  have r1 : Reach V0 (fun _ _ => True)
    ⟨(fun _ => ⟨none, []⟩), 1, 0, true,
      (fun _ => none), (upd (fun _ => .idle) 1 (.claimed)),
      [], false, false, [], 0,
      (fun _ => 0), (fun _ => [])⟩ := r0.step (by exact trivial) (Step.claim 1 rfl rfl)
  have r2 : Reach V0 (fun _ _ => True)
    ⟨(fun _ => ⟨none, []⟩), 1, 0, true,
      (fun _ => none), (upd (upd (fun _ => .idle) 1 (.claimed)) 1 (.building [] none 1)),
      [], false, false, [], 0,
      (fun _ => 0), (fun _ => [])⟩ := r1.step (by exact trivial) (Step.copyFirst 1 rfl (by unlocked))
  have r3 : Reach V0 (fun _ _ => True)
    ⟨(spine (fun _ => ⟨none, []⟩) 1 [[], [1]] none), 3, 1, false,
      (fun _ => none), (upd (upd (upd (fun _ => .idle) 1 (.claimed)) 1 (.building [] none 1)) 1 (.idle)),
      [], false, false, ([] ++ [1]), 1,
      (upd (fun _ => 0) 1 1), (upd (fun _ => []) 1 [1])⟩ := r2.step (by exact trivial) (Step.publish 1 [] none 1 [1] [[], [1]]
      rfl rfl (by simp) rfl (by simp) (by simp))
  have r4 : Reach V0 (fun _ _ => True)
    ⟨(spine (fun _ => ⟨none, []⟩) 1 [[], [1]] none), 3, 1, true,
      (fun _ => none), (upd (upd (upd (upd (fun _ => .idle) 1 (.claimed)) 1 (.building [] none 1)) 1 (.idle)) 0 (.claimed)),
      [], false, false, ([] ++ [1]), 1,
      (upd (fun _ => 0) 1 1), (upd (fun _ => []) 1 [1])⟩ := r3.step (by exact trivial) (Step.claim 0 rfl rfl)
  have r5 : Reach V0 (fun _ _ => True)
    ⟨(upd (spine (fun _ => ⟨none, []⟩) 1 [[], [1]] none) 3 ⟨some 2, []⟩), 4, 1, true,
      (fun _ => none), (upd (upd (upd (upd (upd (fun _ => .idle) 1 (.claimed)) 1 (.building [] none 1)) 1 (.idle)) 0 (.claimed)) 0 (.copied 1 3)),
      [], false, false, ([] ++ [1]), 1,
      (upd (fun _ => 0) 1 1), (upd (fun _ => []) 1 [1])⟩ := r4.step (by exact trivial) (Step.copyRoot 0 rfl (by unlocked))
  have r6 : Reach V0 (fun _ _ => True)
    ⟨(upd (spine (fun _ => ⟨none, []⟩) 1 [[], [1]] none) 3 ⟨some 2, []⟩), 4, 3, false,
      (fun _ => none), (upd (upd (upd (upd (upd (upd (fun _ => .idle) 1 (.claimed)) 1 (.building [] none 1)) 1 (.idle)) 0 (.claimed)) 0 (.copied 1 3)) 0 (.walking 1 3 0 1)),
      [], false, false, ([] ++ [1]), 2,
      (upd (upd (fun _ => 0) 1 1) 2 3), (upd (upd (fun _ => []) 1 [1]) 2 [1])⟩ := r5.step (by exact trivial) (Step.switch 0 1 3 rfl rfl)
  have r7 : Reach V0 (fun _ _ => True)
    ⟨(upd (upd (upd (spine (fun _ => ⟨none, []⟩) 1 [[], [1]] none) 3 ⟨some 2, []⟩) 4 ⟨none, [1]⟩) 3 ⟨some 4, []⟩), 5, 3, false,
      (fun _ => none), (upd (upd (upd (upd (upd (upd (upd (fun _ => .idle) 1 (.claimed)) 1 (.building [] none 1)) 1 (.idle)) 0 (.claimed)) 0 (.copied 1 3)) 0 (.walking 1 3 0 1)) 0 (.walking 1 4 1 1)),
      [], false, false, ([] ++ [1]), 2,
      (upd (upd (fun _ => 0) 1 1) 2 3), (upd (upd (fun _ => []) 1 [1]) 2 [1])⟩ := r6.step (by exact trivial) (Step.descend 0 1 3 0 1 2 rfl rfl (by unlocked))
  have r8 : Reach V0 (fun _ _ => True)
    ⟨(upd (upd (upd (spine (fun _ => ⟨none, []⟩) 1 [[], [1]] none) 3 ⟨some 2, []⟩) 4 ⟨none, [1]⟩) 3 ⟨some 4, []⟩), 5, 3, true,
      (fun _ => none), (upd (upd (upd (upd (upd (upd (upd (upd (fun _ => .idle) 1 (.claimed)) 1 (.building [] none 1)) 1 (.idle)) 0 (.claimed)) 0 (.copied 1 3)) 0 (.walking 1 3 0 1)) 0 (.walking 1 4 1 1)) 1 (.claimed)),
      [], false, false, ([] ++ [1]), 2,
      (upd (upd (fun _ => 0) 1 1) 2 3), (upd (upd (fun _ => []) 1 [1]) 2 [1])⟩ := r7.step (by exact trivial) (Step.claim 1 rfl rfl)
  have r9 : Reach V0 (fun _ _ => True)
    ⟨(upd (upd (upd (spine (fun _ => ⟨none, []⟩) 1 [[], [1]] none) 3 ⟨some 2, []⟩) 4 ⟨none, [1]⟩) 3 ⟨some 4, []⟩), 5, 3, true,
      (fun _ => none), (upd (upd (upd (upd (upd (upd (upd (upd (upd (fun _ => .idle) 1 (.claimed)) 1 (.building [] none 1)) 1 (.idle)) 0 (.claimed)) 0 (.copied 1 3)) 0 (.walking 1 3 0 1)) 0 (.walking 1 4 1 1)) 1 (.claimed)) 1 (.building [] (some 4) 1)),
      [], false, false, ([] ++ [1]), 2,
      (upd (upd (fun _ => 0) 1 1) 2 3), (upd (upd (fun _ => []) 1 [1]) 2 [1])⟩ := r8.step (by exact trivial) (Step.copyFirst 1 rfl (by unlocked))
  have r10 : Reach V0 (fun _ _ => True)
    ⟨(upd (upd (upd (spine (fun _ => ⟨none, []⟩) 1 [[], [1]] none) 3 ⟨some 2, []⟩) 4 ⟨none, [1]⟩) 3 ⟨some 4, []⟩), 5, 3, false,
      (fun _ => none), (upd (upd (upd (upd (upd (upd (upd (upd (upd (upd (fun _ => .idle) 1 (.claimed)) 1 (.building [] none 1)) 1 (.idle)) 0 (.claimed)) 0 (.copied 1 3)) 0 (.walking 1 3 0 1)) 0 (.walking 1 4 1 1)) 1 (.claimed)) 1 (.building [] (some 4) 1)) 0 (.idle)),
      [], false, false, ([] ++ [1]), 2,
      (upd (upd (fun _ => 0) 1 1) 2 3), (upd (upd (fun _ => []) 1 [1]) 2 [1])⟩ := r9.step (by exact trivial) (Step.abort 0 1 4 1 1 rfl rfl)
  have r11 : Reach V0 (fun _ _ => True)
    ⟨(upd (upd (upd (spine (fun _ => ⟨none, []⟩) 1 [[], [1]] none) 3 ⟨some 2, []⟩) 4 ⟨none, [1]⟩) 3 ⟨some 4, []⟩), 5, 3, false,
      (fun _ => none), (upd (upd (upd (upd (upd (upd (upd (upd (upd (upd (fun _ => .idle) 1 (.claimed)) 1 (.building [] none 1)) 1 (.idle)) 0 (.claimed)) 0 (.copied 1 3)) 0 (.walking 1 3 0 1)) 0 (.walking 1 4 1 1)) 1 (.claimed)) 1 (.building [] (some 4) 1)) 0 (.idle)),
      [], false, true, ([] ++ [1]), 2,
      (upd (upd (fun _ => 0) 1 1) 2 3), (upd (upd (fun _ => []) 1 [1]) 2 [1])⟩ := r10.step (by exact trivial) (Step.publishCrash 1 [] (some 4) 1 rfl rfl)
  exact ⟨_, r11, rfl⟩

/-- The runs the theorems are about: a patient run in which a leaf is compacted under a lookup, which
finishes in the old leaf; the branch it read is then released, and another lookup reads the new leaf. -/
example : ∃ s : State Nat, Reach V0 Patient s ∧ s.freed = [1] ∧
    ∃ r, s.readers 0 = some r ∧ r.todo = [] ∧ (s.heap r.addr).child = none ∧ r.acc = [2, 11] := by
  have r0 : Reach V0 Patient init := .init
  have r1 : Reach V0 Patient
    ⟨(fun _ => ⟨none, []⟩), 1, 0, true,
      (fun _ => none), (upd (fun _ => .idle) 0 (.claimed)),
      [], false, false, [], 0,
      (fun _ => 0), (fun _ => [])⟩ := r0.step (by exact trivial) (Step.claim 0 rfl rfl)
  have r2 : Reach V0 Patient
    ⟨(fun _ => ⟨none, []⟩), 1, 0, true,
      (fun _ => none), (upd (upd (fun _ => .idle) 0 (.claimed)) 0 (.building [] none 1)),
      [], false, false, [], 0,
      (fun _ => 0), (fun _ => [])⟩ := r1.step (by exact trivial) (Step.copyFirst 0 rfl (by unlocked))
  have r3 : Reach V0 Patient
    ⟨(spine (fun _ => ⟨none, []⟩) 1 [[], [1]] none), 3, 1, false,
      (fun _ => none), (upd (upd (upd (fun _ => .idle) 0 (.claimed)) 0 (.building [] none 1)) 0 (.idle)),
      [], false, false, ([] ++ [1]), 1,
      (upd (fun _ => 0) 1 1), (upd (fun _ => []) 1 [1])⟩ := r2.step (by exact trivial) (Step.publish 0 [] none 1 [1] [[], [1]]
      rfl rfl (by simp) rfl (by simp) (by simp))
  have r4 : Reach V0 Patient
    ⟨(spine (fun _ => ⟨none, []⟩) 1 [[], [1]] none), 3, 1, true,
      (fun _ => none), (upd (upd (upd (upd (fun _ => .idle) 0 (.claimed)) 0 (.building [] none 1)) 0 (.idle)) 0 (.claimed)),
      [], false, false, ([] ++ [1]), 1,
      (upd (fun _ => 0) 1 1), (upd (fun _ => []) 1 [1])⟩ := r3.step (by exact trivial) (Step.claim 0 rfl rfl)
  have r5 : Reach V0 Patient
    ⟨(spine (fun _ => ⟨none, []⟩) 1 [[], [1]] none), 3, 1, true,
      (fun _ => none), (upd (upd (upd (upd (upd (fun _ => .idle) 0 (.claimed)) 0 (.building [] none 1)) 0 (.idle)) 0 (.claimed)) 0 (.building [] (some 2) 1)),
      [], false, false, ([] ++ [1]), 1,
      (upd (fun _ => 0) 1 1), (upd (fun _ => []) 1 [1])⟩ := r4.step (by exact trivial) (Step.copyFirst 0 rfl (by unlocked))
  have r6 : Reach V0 Patient
    ⟨(spine (spine (fun _ => ⟨none, []⟩) 1 [[], [1]] none) 3 [[2]] (some 2)), 4, 3, false,
      (fun _ => none), (upd (upd (upd (upd (upd (upd (fun _ => .idle) 0 (.claimed)) 0 (.building [] none 1)) 0 (.idle)) 0 (.claimed)) 0 (.building [] (some 2) 1)) 0 (.idle)),
      [], false, false, (([] ++ [1]) ++ [2]), 2,
      (upd (upd (fun _ => 0) 1 1) 2 3), (upd (upd (fun _ => []) 1 [1]) 2 [2, 1])⟩ := r5.step (by exact trivial) (Step.publish 0 [] (some 2) 1 [2] [[2]]
      rfl rfl (by simp) rfl (by simp) (by simp))
  have r7 : Reach V0 Patient
    ⟨(spine (spine (fun _ => ⟨none, []⟩) 1 [[], [1]] none) 3 [[2]] (some 2)), 4, 3, false,
      (upd (fun _ => none) 1 (some ⟨3, [], [2], 2, 0⟩)), (upd (upd (upd (upd (upd (upd (fun _ => .idle) 0 (.claimed)) 0 (.building [] none 1)) 0 (.idle)) 0 (.claimed)) 0 (.building [] (some 2) 1)) 0 (.idle)),
      [], false, false, (([] ++ [1]) ++ [2]), 2,
      (upd (upd (fun _ => 0) 1 1) 2 3), (upd (upd (fun _ => []) 1 [1]) 2 [2, 1])⟩ := r6.step (by exact trivial) (Step.enter 1 rfl (by unlocked))
  have r8 : Reach V0 Patient
    ⟨(spine (spine (fun _ => ⟨none, []⟩) 1 [[], [1]] none) 3 [[2]] (some 2)), 4, 3, true,
      (upd (fun _ => none) 1 (some ⟨3, [], [2], 2, 0⟩)), (upd (upd (upd (upd (upd (upd (upd (fun _ => .idle) 0 (.claimed)) 0 (.building [] none 1)) 0 (.idle)) 0 (.claimed)) 0 (.building [] (some 2) 1)) 0 (.idle)) 1 (.claimed)),
      [], false, false, (([] ++ [1]) ++ [2]), 2,
      (upd (upd (fun _ => 0) 1 1) 2 3), (upd (upd (fun _ => []) 1 [1]) 2 [2, 1])⟩ := r7.step (by exact trivial) (Step.claim 1 rfl rfl)
  have r9 : Reach V0 Patient
    ⟨(upd (spine (spine (fun _ => ⟨none, []⟩) 1 [[], [1]] none) 3 [[2]] (some 2)) 4 ⟨some 2, [2]⟩), 5, 3, true,
      (upd (fun _ => none) 1 (some ⟨3, [], [2], 2, 0⟩)), (upd (upd (upd (upd (upd (upd (upd (upd (fun _ => .idle) 0 (.claimed)) 0 (.building [] none 1)) 0 (.idle)) 0 (.claimed)) 0 (.building [] (some 2) 1)) 0 (.idle)) 1 (.claimed)) 1 (.copied 3 4)),
      [], false, false, (([] ++ [1]) ++ [2]), 2,
      (upd (upd (fun _ => 0) 1 1) 2 3), (upd (upd (fun _ => []) 1 [1]) 2 [2, 1])⟩ := r8.step (by exact trivial) (Step.copyRoot 1 rfl (by unlocked))
  have r10 : Reach V0 Patient
    ⟨(upd (spine (spine (fun _ => ⟨none, []⟩) 1 [[], [1]] none) 3 [[2]] (some 2)) 4 ⟨some 2, [2]⟩), 5, 4, false,
      (upd (fun _ => none) 1 (some ⟨3, [], [2], 2, 0⟩)), (upd (upd (upd (upd (upd (upd (upd (upd (upd (fun _ => .idle) 0 (.claimed)) 0 (.building [] none 1)) 0 (.idle)) 0 (.claimed)) 0 (.building [] (some 2) 1)) 0 (.idle)) 1 (.claimed)) 1 (.copied 3 4)) 1 (.walking 3 4 0 2)),
      [], false, false, (([] ++ [1]) ++ [2]), 3,
      (upd (upd (upd (fun _ => 0) 1 1) 2 3) 3 4), (upd (upd (upd (fun _ => []) 1 [1]) 2 [2, 1]) 3 [2, 1])⟩ := r9.step (by exact trivial) (Step.switch 1 3 4 rfl rfl)
  have r11 : Reach V0 Patient
    ⟨(upd (spine (spine (fun _ => ⟨none, []⟩) 1 [[], [1]] none) 3 [[2]] (some 2)) 4 ⟨some 2, [2]⟩), 5, 4, false,
      (upd (upd (fun _ => none) 1 (some ⟨3, [], [2], 2, 0⟩)) 1 (some ⟨3, [2], [], 2, 0⟩)), (upd (upd (upd (upd (upd (upd (upd (upd (upd (fun _ => .idle) 0 (.claimed)) 0 (.building [] none 1)) 0 (.idle)) 0 (.claimed)) 0 (.building [] (some 2) 1)) 0 (.idle)) 1 (.claimed)) 1 (.copied 3 4)) 1 (.walking 3 4 0 2)),
      [], false, false, (([] ++ [1]) ++ [2]), 3,
      (upd (upd (upd (fun _ => 0) 1 1) 2 3) 3 4), (upd (upd (upd (fun _ => []) 1 [1]) 2 [2, 1]) 3 [2, 1])⟩ := r10.step (by exact trivial) (Step.read 1 ⟨3, [], [2], 2, 0⟩ 2 [] rfl rfl (by decide))
  have r12 : Reach V0 Patient
    ⟨(upd (spine (spine (fun _ => ⟨none, []⟩) 1 [[], [1]] none) 3 [[2]] (some 2)) 4 ⟨some 2, [2]⟩), 5, 4, false,
      (upd (upd (upd (fun _ => none) 1 (some ⟨3, [], [2], 2, 0⟩)) 1 (some ⟨3, [2], [], 2, 0⟩)) 1 (some ⟨2, [2], [1], 2, 1⟩)), (upd (upd (upd (upd (upd (upd (upd (upd (upd (fun _ => .idle) 0 (.claimed)) 0 (.building [] none 1)) 0 (.idle)) 0 (.claimed)) 0 (.building [] (some 2) 1)) 0 (.idle)) 1 (.claimed)) 1 (.copied 3 4)) 1 (.walking 3 4 0 2)),
      [], false, false, (([] ++ [1]) ++ [2]), 3,
      (upd (upd (upd (fun _ => 0) 1 1) 2 3) 3 4), (upd (upd (upd (fun _ => []) 1 [1]) 2 [2, 1]) 3 [2, 1])⟩ := r11.step (by exact trivial) (Step.down 1 ⟨3, [2], [], 2, 0⟩ 2 rfl rfl rfl (by unlocked))
  have r13 : Reach V0 Patient
    ⟨(upd (spine (spine (fun _ => ⟨none, []⟩) 1 [[], [1]] none) 3 [[2]] (some 2)) 4 ⟨some 2, [2]⟩), 5, 4, false,
      (upd (upd (upd (upd (fun _ => none) 1 (some ⟨3, [], [2], 2, 0⟩)) 1 (some ⟨3, [2], [], 2, 0⟩)) 1 (some ⟨2, [2], [1], 2, 1⟩)) 1 (some ⟨2, [2, 1], [], 2, 1⟩)), (upd (upd (upd (upd (upd (upd (upd (upd (upd (fun _ => .idle) 0 (.claimed)) 0 (.building [] none 1)) 0 (.idle)) 0 (.claimed)) 0 (.building [] (some 2) 1)) 0 (.idle)) 1 (.claimed)) 1 (.copied 3 4)) 1 (.walking 3 4 0 2)),
      [], false, false, (([] ++ [1]) ++ [2]), 3,
      (upd (upd (upd (fun _ => 0) 1 1) 2 3) 3 4), (upd (upd (upd (fun _ => []) 1 [1]) 2 [2, 1]) 3 [2, 1])⟩ := r12.step (by exact trivial) (Step.read 1 ⟨2, [2], [1], 2, 1⟩ 1 [] rfl rfl (by decide))
  have r14 : Reach V0 Patient
    ⟨(upd (upd (upd (spine (spine (fun _ => ⟨none, []⟩) 1 [[], [1]] none) 3 [[2]] (some 2)) 4 ⟨some 2, [2]⟩) 5 ⟨none, [1]⟩) 4 ⟨some 5, [2]⟩), 6, 4, false,
      (upd (upd (upd (upd (fun _ => none) 1 (some ⟨3, [], [2], 2, 0⟩)) 1 (some ⟨3, [2], [], 2, 0⟩)) 1 (some ⟨2, [2], [1], 2, 1⟩)) 1 (some ⟨2, [2, 1], [], 2, 1⟩)), (upd (upd (upd (upd (upd (upd (upd (upd (upd (upd (fun _ => .idle) 0 (.claimed)) 0 (.building [] none 1)) 0 (.idle)) 0 (.claimed)) 0 (.building [] (some 2) 1)) 0 (.idle)) 1 (.claimed)) 1 (.copied 3 4)) 1 (.walking 3 4 0 2)) 1 (.walking 3 5 1 2)),
      [], false, false, (([] ++ [1]) ++ [2]), 3,
      (upd (upd (upd (fun _ => 0) 1 1) 2 3) 3 4), (upd (upd (upd (fun _ => []) 1 [1]) 2 [2, 1]) 3 [2, 1])⟩ := r13.step (by exact trivial) (Step.descend 1 3 4 0 2 2 rfl rfl (by unlocked))
  have r15 : Reach V0 Patient
    ⟨(upd (upd (upd (upd (spine (spine (fun _ => ⟨none, []⟩) 1 [[], [1]] none) 3 [[2]] (some 2)) 4 ⟨some 2, [2]⟩) 5 ⟨none, [1]⟩) 4 ⟨some 5, [2]⟩) 5 ⟨none, [11]⟩), 6, 4, false,
      (upd (upd (upd (upd (fun _ => none) 1 (some ⟨3, [], [2], 2, 0⟩)) 1 (some ⟨3, [2], [], 2, 0⟩)) 1 (some ⟨2, [2], [1], 2, 1⟩)) 1 (some ⟨2, [2, 1], [], 2, 1⟩)), (upd (upd (upd (upd (upd (upd (upd (upd (upd (upd (upd (fun _ => .idle) 0 (.claimed)) 0 (.building [] none 1)) 0 (.idle)) 0 (.claimed)) 0 (.building [] (some 2) 1)) 0 (.idle)) 1 (.claimed)) 1 (.copied 3 4)) 1 (.walking 3 4 0 2)) 1 (.walking 3 5 1 2)) 1 (.modified 3 1 (some 5) [1] .notYet 2)),
      ([] ++ []), false, false, ((([] ++ [1]) ++ [2]) ++ [11]), 3,
      (upd (upd (upd (fun _ => 0) 1 1) 2 3) 3 4), (upd (upd (upd (fun _ => []) 1 [1]) 2 [2, 1]) 3 [2, 1])⟩ := r14.step (by exact fun h => absurd rfl h) (Step.modify 1 3 5 1 2 [11] [1] [] rfl keeps_V0 (by simp)
      (fun x hx => .inr (by simp at hx; subst hx; decide)) (fun x hx => by simp at hx; try (subst hx; decide))
      (fun x hx => by simp at hx; try (subst hx; decide)))
  have r16 : Reach V0 Patient
    ⟨(upd (upd (upd (upd (spine (spine (fun _ => ⟨none, []⟩) 1 [[], [1]] none) 3 [[2]] (some 2)) 4 ⟨some 2, [2]⟩) 5 ⟨none, [1]⟩) 4 ⟨some 5, [2]⟩) 5 ⟨none, [11]⟩), 6, 4, false,
      (upd (upd (upd (upd (fun _ => none) 1 (some ⟨3, [], [2], 2, 0⟩)) 1 (some ⟨3, [2], [], 2, 0⟩)) 1 (some ⟨2, [2], [1], 2, 1⟩)) 1 (some ⟨2, [2, 1], [], 2, 1⟩)), (upd (upd (upd (upd (upd (upd (upd (upd (upd (upd (upd (upd (fun _ => .idle) 0 (.claimed)) 0 (.building [] none 1)) 0 (.idle)) 0 (.claimed)) 0 (.building [] (some 2) 1)) 0 (.idle)) 1 (.claimed)) 1 (.copied 3 4)) 1 (.walking 3 4 0 2)) 1 (.walking 3 5 1 2)) 1 (.modified 3 1 (some 5) [1] .notYet 2)) 1 (.modified 3 1 (some 5) [1] (.at 3 1) 2)),
      ([] ++ []), false, false, ((([] ++ [1]) ++ [2]) ++ [11]), 3,
      (upd (upd (upd (fun _ => 0) 1 1) 2 3) 3 4), (upd (upd (upd (fun _ => []) 1 [1]) 2 [2, 1]) 3 [2, 1])⟩ := r15.step (by exact trivial) (Step.gcRoot 1 3 1 (some 5) [1] 2 rfl (by unlocked) (by unshared))
  have r17 : Reach V0 Patient
    ⟨(upd (upd (upd (upd (spine (spine (fun _ => ⟨none, []⟩) 1 [[], [1]] none) 3 [[2]] (some 2)) 4 ⟨some 2, [2]⟩) 5 ⟨none, [1]⟩) 4 ⟨some 5, [2]⟩) 5 ⟨none, [11]⟩), 6, 4, false,
      (upd (upd (upd (upd (upd (fun _ => none) 1 (some ⟨3, [], [2], 2, 0⟩)) 1 (some ⟨3, [2], [], 2, 0⟩)) 1 (some ⟨2, [2], [1], 2, 1⟩)) 1 (some ⟨2, [2, 1], [], 2, 1⟩)) 1 none), (upd (upd (upd (upd (upd (upd (upd (upd (upd (upd (upd (upd (fun _ => .idle) 0 (.claimed)) 0 (.building [] none 1)) 0 (.idle)) 0 (.claimed)) 0 (.building [] (some 2) 1)) 0 (.idle)) 1 (.claimed)) 1 (.copied 3 4)) 1 (.walking 3 4 0 2)) 1 (.walking 3 5 1 2)) 1 (.modified 3 1 (some 5) [1] .notYet 2)) 1 (.modified 3 1 (some 5) [1] (.at 3 1) 2)),
      ([] ++ []), false, false, ((([] ++ [1]) ++ [2]) ++ [11]), 3,
      (upd (upd (upd (fun _ => 0) 1 1) 2 3) 3 4), (upd (upd (upd (fun _ => []) 1 [1]) 2 [2, 1]) 3 [2, 1])⟩ := r16.step (by exact trivial) (Step.leave 1 ⟨2, [2, 1], [], 2, 1⟩ rfl)
  have r18 : Reach V0 Patient
    ⟨(upd (upd (upd (upd (spine (spine (fun _ => ⟨none, []⟩) 1 [[], [1]] none) 3 [[2]] (some 2)) 4 ⟨some 2, [2]⟩) 5 ⟨none, [1]⟩) 4 ⟨some 5, [2]⟩) 5 ⟨none, [11]⟩), 6, 4, false,
      (upd (upd (upd (upd (upd (fun _ => none) 1 (some ⟨3, [], [2], 2, 0⟩)) 1 (some ⟨3, [2], [], 2, 0⟩)) 1 (some ⟨2, [2], [1], 2, 1⟩)) 1 (some ⟨2, [2, 1], [], 2, 1⟩)) 1 none), (upd (upd (upd (upd (upd (upd (upd (upd (upd (upd (upd (upd (upd (fun _ => .idle) 0 (.claimed)) 0 (.building [] none 1)) 0 (.idle)) 0 (.claimed)) 0 (.building [] (some 2) 1)) 0 (.idle)) 1 (.claimed)) 1 (.copied 3 4)) 1 (.walking 3 4 0 2)) 1 (.walking 3 5 1 2)) 1 (.modified 3 1 (some 5) [1] .notYet 2)) 1 (.modified 3 1 (some 5) [1] (.at 3 1) 2)) 1 (.modified 3 1 (some 5) [1] (.at 2 0) 2)),
      ([] ++ []), false, false, ((([] ++ [1]) ++ [2]) ++ [11]), 3,
      (upd (upd (upd (fun _ => 0) 1 1) 2 3) 3 4), (upd (upd (upd (fun _ => []) 1 [1]) 2 [2, 1]) 3 [2, 1])⟩ := r17.step (by exact trivial) (Step.gcDown 1 3 1 (some 5) [1] 2 3 0 2 rfl rfl (by unlocked) (by unshared))
  have r19 : Reach V0 Patient
    ⟨(upd (upd (upd (upd (spine (spine (fun _ => ⟨none, []⟩) 1 [[], [1]] none) 3 [[2]] (some 2)) 4 ⟨some 2, [2]⟩) 5 ⟨none, [1]⟩) 4 ⟨some 5, [2]⟩) 5 ⟨none, [11]⟩), 6, 4, false,
      (upd (upd (upd (upd (upd (fun _ => none) 1 (some ⟨3, [], [2], 2, 0⟩)) 1 (some ⟨3, [2], [], 2, 0⟩)) 1 (some ⟨2, [2], [1], 2, 1⟩)) 1 (some ⟨2, [2, 1], [], 2, 1⟩)) 1 none), (upd (upd (upd (upd (upd (upd (upd (upd (upd (upd (upd (upd (upd (upd (fun _ => .idle) 0 (.claimed)) 0 (.building [] none 1)) 0 (.idle)) 0 (.claimed)) 0 (.building [] (some 2) 1)) 0 (.idle)) 1 (.claimed)) 1 (.copied 3 4)) 1 (.walking 3 4 0 2)) 1 (.walking 3 5 1 2)) 1 (.modified 3 1 (some 5) [1] .notYet 2)) 1 (.modified 3 1 (some 5) [1] (.at 3 1) 2)) 1 (.modified 3 1 (some 5) [1] (.at 2 0) 2)) 1 (.modified 3 1 (some 5) [1] .done 2)),
      (([] ++ []) ++ [1]), false, false, ((([] ++ [1]) ++ [2]) ++ [11]), 3,
      (upd (upd (upd (fun _ => 0) 1 1) 2 3) 3 4), (upd (upd (upd (fun _ => []) 1 [1]) 2 [2, 1]) 3 [2, 1])⟩ := r18.step
      (by
        intro _ _ _ _ _ _ _ i r h
        simp only [upd, RwLock.upd] at h
        split at h <;> simp at h) (Step.gcFree 1 3 1 (some 5) [1] 2 2 rfl)
  have r20 : Reach V0 Patient
    ⟨(upd (upd (upd (upd (spine (spine (fun _ => ⟨none, []⟩) 1 [[], [1]] none) 3 [[2]] (some 2)) 4 ⟨some 2, [2]⟩) 5 ⟨none, [1]⟩) 4 ⟨some 5, [2]⟩) 5 ⟨none, [11]⟩), 6, 4, false,
      (upd (upd (upd (upd (upd (fun _ => none) 1 (some ⟨3, [], [2], 2, 0⟩)) 1 (some ⟨3, [2], [], 2, 0⟩)) 1 (some ⟨2, [2], [1], 2, 1⟩)) 1 (some ⟨2, [2, 1], [], 2, 1⟩)) 1 none), (upd (upd (upd (upd (upd (upd (upd (upd (upd (upd (upd (upd (upd (upd (upd (fun _ => .idle) 0 (.claimed)) 0 (.building [] none 1)) 0 (.idle)) 0 (.claimed)) 0 (.building [] (some 2) 1)) 0 (.idle)) 1 (.claimed)) 1 (.copied 3 4)) 1 (.walking 3 4 0 2)) 1 (.walking 3 5 1 2)) 1 (.modified 3 1 (some 5) [1] .notYet 2)) 1 (.modified 3 1 (some 5) [1] (.at 3 1) 2)) 1 (.modified 3 1 (some 5) [1] (.at 2 0) 2)) 1 (.modified 3 1 (some 5) [1] .done 2)) 1 (.modified 3 1 none [1] .done 2)),
      (([] ++ []) ++ [1]), false, false, ((([] ++ [1]) ++ [2]) ++ [11]), 3,
      (upd (upd (upd (fun _ => 0) 1 1) 2 3) 3 4), (upd (upd (upd (fun _ => []) 1 [1]) 2 [2, 1]) 3 [2, 1])⟩ := r19.step (by exact trivial) (Step.unlock 1 3 1 5 [1] .done 2 rfl)
  have r21 : Reach V0 Patient
    ⟨(upd (upd (upd (upd (spine (spine (fun _ => ⟨none, []⟩) 1 [[], [1]] none) 3 [[2]] (some 2)) 4 ⟨some 2, [2]⟩) 5 ⟨none, [1]⟩) 4 ⟨some 5, [2]⟩) 5 ⟨none, [11]⟩), 6, 4, false,
      (upd (upd (upd (upd (upd (upd (fun _ => none) 1 (some ⟨3, [], [2], 2, 0⟩)) 1 (some ⟨3, [2], [], 2, 0⟩)) 1 (some ⟨2, [2], [1], 2, 1⟩)) 1 (some ⟨2, [2, 1], [], 2, 1⟩)) 1 none) 0 (some ⟨4, [], [2], 3, 0⟩)), (upd (upd (upd (upd (upd (upd (upd (upd (upd (upd (upd (upd (upd (upd (upd (fun _ => .idle) 0 (.claimed)) 0 (.building [] none 1)) 0 (.idle)) 0 (.claimed)) 0 (.building [] (some 2) 1)) 0 (.idle)) 1 (.claimed)) 1 (.copied 3 4)) 1 (.walking 3 4 0 2)) 1 (.walking 3 5 1 2)) 1 (.modified 3 1 (some 5) [1] .notYet 2)) 1 (.modified 3 1 (some 5) [1] (.at 3 1) 2)) 1 (.modified 3 1 (some 5) [1] (.at 2 0) 2)) 1 (.modified 3 1 (some 5) [1] .done 2)) 1 (.modified 3 1 none [1] .done 2)),
      (([] ++ []) ++ [1]), false, false, ((([] ++ [1]) ++ [2]) ++ [11]), 3,
      (upd (upd (upd (fun _ => 0) 1 1) 2 3) 3 4), (upd (upd (upd (fun _ => []) 1 [1]) 2 [2, 1]) 3 [2, 1])⟩ := r20.step (by exact trivial) (Step.enter 0 rfl (by unlocked))
  have r22 : Reach V0 Patient
    ⟨(upd (upd (upd (upd (spine (spine (fun _ => ⟨none, []⟩) 1 [[], [1]] none) 3 [[2]] (some 2)) 4 ⟨some 2, [2]⟩) 5 ⟨none, [1]⟩) 4 ⟨some 5, [2]⟩) 5 ⟨none, [11]⟩), 6, 4, false,
      (upd (upd (upd (upd (upd (upd (upd (fun _ => none) 1 (some ⟨3, [], [2], 2, 0⟩)) 1 (some ⟨3, [2], [], 2, 0⟩)) 1 (some ⟨2, [2], [1], 2, 1⟩)) 1 (some ⟨2, [2, 1], [], 2, 1⟩)) 1 none) 0 (some ⟨4, [], [2], 3, 0⟩)) 0 (some ⟨4, [2], [], 3, 0⟩)), (upd (upd (upd (upd (upd (upd (upd (upd (upd (upd (upd (upd (upd (upd (upd (fun _ => .idle) 0 (.claimed)) 0 (.building [] none 1)) 0 (.idle)) 0 (.claimed)) 0 (.building [] (some 2) 1)) 0 (.idle)) 1 (.claimed)) 1 (.copied 3 4)) 1 (.walking 3 4 0 2)) 1 (.walking 3 5 1 2)) 1 (.modified 3 1 (some 5) [1] .notYet 2)) 1 (.modified 3 1 (some 5) [1] (.at 3 1) 2)) 1 (.modified 3 1 (some 5) [1] (.at 2 0) 2)) 1 (.modified 3 1 (some 5) [1] .done 2)) 1 (.modified 3 1 none [1] .done 2)),
      (([] ++ []) ++ [1]), false, false, ((([] ++ [1]) ++ [2]) ++ [11]), 3,
      (upd (upd (upd (fun _ => 0) 1 1) 2 3) 3 4), (upd (upd (upd (fun _ => []) 1 [1]) 2 [2, 1]) 3 [2, 1])⟩ := r21.step (by exact trivial) (Step.read 0 ⟨4, [], [2], 3, 0⟩ 2 [] rfl rfl (by decide))
  have r23 : Reach V0 Patient
    ⟨(upd (upd (upd (upd (spine (spine (fun _ => ⟨none, []⟩) 1 [[], [1]] none) 3 [[2]] (some 2)) 4 ⟨some 2, [2]⟩) 5 ⟨none, [1]⟩) 4 ⟨some 5, [2]⟩) 5 ⟨none, [11]⟩), 6, 4, false,
      (upd (upd (upd (upd (upd (upd (upd (upd (fun _ => none) 1 (some ⟨3, [], [2], 2, 0⟩)) 1 (some ⟨3, [2], [], 2, 0⟩)) 1 (some ⟨2, [2], [1], 2, 1⟩)) 1 (some ⟨2, [2, 1], [], 2, 1⟩)) 1 none) 0 (some ⟨4, [], [2], 3, 0⟩)) 0 (some ⟨4, [2], [], 3, 0⟩)) 0 (some ⟨5, [2], [11], 3, 1⟩)), (upd (upd (upd (upd (upd (upd (upd (upd (upd (upd (upd (upd (upd (upd (upd (fun _ => .idle) 0 (.claimed)) 0 (.building [] none 1)) 0 (.idle)) 0 (.claimed)) 0 (.building [] (some 2) 1)) 0 (.idle)) 1 (.claimed)) 1 (.copied 3 4)) 1 (.walking 3 4 0 2)) 1 (.walking 3 5 1 2)) 1 (.modified 3 1 (some 5) [1] .notYet 2)) 1 (.modified 3 1 (some 5) [1] (.at 3 1) 2)) 1 (.modified 3 1 (some 5) [1] (.at 2 0) 2)) 1 (.modified 3 1 (some 5) [1] .done 2)) 1 (.modified 3 1 none [1] .done 2)),
      (([] ++ []) ++ [1]), false, false, ((([] ++ [1]) ++ [2]) ++ [11]), 3,
      (upd (upd (upd (fun _ => 0) 1 1) 2 3) 3 4), (upd (upd (upd (fun _ => []) 1 [1]) 2 [2, 1]) 3 [2, 1])⟩ := r22.step (by exact trivial) (Step.down 0 ⟨4, [2], [], 3, 0⟩ 5 rfl rfl rfl (by unlocked))
  have r24 : Reach V0 Patient
    ⟨(upd (upd (upd (upd (spine (spine (fun _ => ⟨none, []⟩) 1 [[], [1]] none) 3 [[2]] (some 2)) 4 ⟨some 2, [2]⟩) 5 ⟨none, [1]⟩) 4 ⟨some 5, [2]⟩) 5 ⟨none, [11]⟩), 6, 4, false,
      (upd (upd (upd (upd (upd (upd (upd (upd (upd (fun _ => none) 1 (some ⟨3, [], [2], 2, 0⟩)) 1 (some ⟨3, [2], [], 2, 0⟩)) 1 (some ⟨2, [2], [1], 2, 1⟩)) 1 (some ⟨2, [2, 1], [], 2, 1⟩)) 1 none) 0 (some ⟨4, [], [2], 3, 0⟩)) 0 (some ⟨4, [2], [], 3, 0⟩)) 0 (some ⟨5, [2], [11], 3, 1⟩)) 0 (some ⟨5, [2, 11], [], 3, 1⟩)), (upd (upd (upd (upd (upd (upd (upd (upd (upd (upd (upd (upd (upd (upd (upd (fun _ => .idle) 0 (.claimed)) 0 (.building [] none 1)) 0 (.idle)) 0 (.claimed)) 0 (.building [] (some 2) 1)) 0 (.idle)) 1 (.claimed)) 1 (.copied 3 4)) 1 (.walking 3 4 0 2)) 1 (.walking 3 5 1 2)) 1 (.modified 3 1 (some 5) [1] .notYet 2)) 1 (.modified 3 1 (some 5) [1] (.at 3 1) 2)) 1 (.modified 3 1 (some 5) [1] (.at 2 0) 2)) 1 (.modified 3 1 (some 5) [1] .done 2)) 1 (.modified 3 1 none [1] .done 2)),
      (([] ++ []) ++ [1]), false, false, ((([] ++ [1]) ++ [2]) ++ [11]), 3,
      (upd (upd (upd (fun _ => 0) 1 1) 2 3) 3 4), (upd (upd (upd (fun _ => []) 1 [1]) 2 [2, 1]) 3 [2, 1])⟩ := r23.step (by exact trivial) (Step.read 0 ⟨5, [2], [11], 3, 1⟩ 11 [] rfl rfl (by decide))
  exact ⟨_, r24, rfl, ⟨5, [2, 11], [], 3, 1⟩, rfl, rfl, rfl, rfl⟩

end Splinter.Trunk.Cow
