import Verif.Model.RwLock
/-!
# C23: the distributed reader-writer lock excludes readers from writers
-/
namespace Splinter.RwLock

/-- The thread's counter is 1. -/
def counted : PC → Bool
  | .probe | .back | .reading | .claiming | .unclaiming => true
  | _ => false

/-- The thread has set the claim flag. -/
def claims : PC → Bool
  | .claiming | .claimed | .draining _ | .writing | .unclaiming => true
  | _ => false

/-- The thread has set the lock flag. -/
def locks : PC → Bool
  | .draining _ | .writing => true
  | _ => false

/-- The thread is in a read section. -/
def inside : PC → Bool
  | .reading | .claiming | .unclaiming => true
  | _ => false

theorem inside_counted {p : PC} (h : inside p = true) : counted p = true := by cases p <;> simp_all [inside, counted]
theorem locks_claims {p : PC} (h : locks p = true) : claims p = true := by cases p <;> simp_all [locks, claims]

/-- Counters that the thread at `p` has seen to be zero. -/
def drained (N : Nat) : PC → Nat
  | .draining i => i
  | .writing => N
  | _ => 0

structure Inv (N : Nat) (s : State) : Prop where
  out : ∀ t, N ≤ t → s.pc t = .idle
  cnt : ∀ t, s.count t = if counted (s.pc t) then 1 else 0
  one : ∀ t u, claims (s.pc t) = true → claims (s.pc u) = true → t = u
  claimed : s.claim = true ↔ ∃ t, claims (s.pc t) = true
  locked : s.lock = true ↔ ∃ t, locks (s.pc t) = true
  wait : ∀ t j, j < drained N (s.pc t) → inside (s.pc j) = false

theorem init_inv (N : Nat) : Inv N init := by
  constructor <;> simp [init, counted, claims, locks, drained]

/-- One thread moves from a place to another; the flags change as the places tell. -/
theorem move {N : Nat} {s s' : State} {t : Nat} {p : PC} (inv : Inv N s) (hN : t < N) (hpc : s'.pc = upd s.pc t p)
    (hcnt : ∀ u, s'.count u = if counted (s'.pc u) then 1 else 0)
    (hclaim : claims p = true → claims (s.pc t) = true ∨ s.claim = false)
    (hclaim' : s'.claim = if claims p then true else if claims (s.pc t) then false else s.claim)
    (hlock : locks p = true → locks (s.pc t) = true ∨ s.lock = false)
    (hlock' : s'.lock = if locks p then true else if locks (s.pc t) then false else s.lock)
    (hin : inside p = true → inside (s.pc t) = true ∨ s.lock = false ∧ locks p = false ∨ claims (s.pc t) = true ∧ locks p = false)
    (hdr : ∀ j, j < drained N p → j < drained N (s.pc t) ∨ inside (s.pc j) = false) : Inv N s' := by
  have hp : s'.pc t = p := by rw [hpc]; simp [upd]
  have hq : ∀ u, u ≠ t → s'.pc u = s.pc u := by intro u hu; rw [hpc]; simp [upd, hu]
  have noclaim : s.claim = false → ∀ u, claims (s.pc u) = false := by
    intro h u
    cases hu : claims (s.pc u) with
    | false => rfl
    | true => rw [inv.claimed.2 ⟨u, hu⟩] at h; cases h
  have nolock : s.lock = false → ∀ u, locks (s.pc u) = false := by
    intro h u
    cases hu : locks (s.pc u) with
    | false => rfl
    | true => rw [inv.locked.2 ⟨u, hu⟩] at h; cases h
  have d0 : ∀ q, drained N q ≠ 0 → locks q = true := by intro q; cases q <;> simp [drained, locks]
  constructor
  · intro u hu
    rw [hq u (by omega)]; exact inv.out u hu
  · exact hcnt
  · intro u v hu hv
    by_cases h1 : u = t
    · by_cases h2 : v = t
      · rw [h1, h2]
      · rw [h1, hp] at hu
        rw [hq v h2] at hv
        rcases hclaim hu with h | h
        · rw [h1]; exact inv.one t v h hv
        · rw [noclaim h v] at hv; cases hv
    · by_cases h2 : v = t
      · rw [h2, hp] at hv
        rw [hq u h1] at hu
        rcases hclaim hv with h | h
        · rw [h2]; exact inv.one u t hu h
        · rw [noclaim h u] at hu; cases hu
      · rw [hq u h1] at hu
        rw [hq v h2] at hv
        exact inv.one u v hu hv
  · rw [hclaim']
    by_cases h1 : claims p = true
    · simp only [h1, if_true, true_iff]
      exact ⟨t, by rw [hp]; exact h1⟩
    · by_cases h2 : claims (s.pc t) = true
      · simp only [h1, h2, if_true]
        constructor
        · intro h; cases h
        · rintro ⟨u, hu⟩
          by_cases h3 : u = t
          · rw [h3, hp] at hu; exact absurd hu h1
          · rw [hq u h3] at hu
            exact absurd (inv.one u t hu h2) h3
      · rw [if_neg h1, if_neg h2, inv.claimed]
        constructor
        · rintro ⟨u, hu⟩
          have h3 : u ≠ t := by rintro rfl; exact h2 hu
          exact ⟨u, by rw [hq u h3]; exact hu⟩
        · rintro ⟨u, hu⟩
          have h3 : u ≠ t := by rintro rfl; rw [hp] at hu; exact h1 hu
          exact ⟨u, by rw [hq u h3] at hu; exact hu⟩
  · rw [hlock']
    by_cases h1 : locks p = true
    · simp only [h1, if_true, true_iff]
      exact ⟨t, by rw [hp]; exact h1⟩
    · by_cases h2 : locks (s.pc t) = true
      · simp only [h1, h2, if_true]
        constructor
        · intro h; cases h
        · rintro ⟨u, hu⟩
          by_cases h3 : u = t
          · rw [h3, hp] at hu; exact absurd hu h1
          · rw [hq u h3] at hu
            exact absurd (inv.one u t (locks_claims hu) (locks_claims h2)) h3
      · rw [if_neg h1, if_neg h2, inv.locked]
        constructor
        · rintro ⟨u, hu⟩
          have h3 : u ≠ t := by rintro rfl; exact h2 hu
          exact ⟨u, by rw [hq u h3]; exact hu⟩
        · rintro ⟨u, hu⟩
          have h3 : u ≠ t := by rintro rfl; rw [hp] at hu; exact h1 hu
          exact ⟨u, by rw [hq u h3] at hu; exact hu⟩
  · intro u j hj
    -- who may have drained, and who may be inside
    have key : ∀ j, j < drained N (s.pc u) → inside (s.pc j) = false := inv.wait u
    by_cases hjt : j = t
    · subst hjt
      rw [hp]
      cases hip : inside p with
      | false => rfl
      | true =>
        exfalso
        by_cases hu : u = j
        · subst hu
          rw [hp] at hj
          have := d0 p (by omega)
          cases p <;> simp [inside, locks] at hip this
        · rw [hq u hu] at hj
          have hl := d0 (s.pc u) (by omega)
          rcases hin hip with h | ⟨h, _⟩ | ⟨h, _⟩
          · rw [key j hj] at h; cases h
          · rw [nolock h u] at hl; cases hl
          · exact hu (inv.one u j (locks_claims hl) h)
    · rw [hq j hjt]
      by_cases hu : u = t
      · subst hu
        rw [hp] at hj
        rcases hdr j hj with h | h
        · exact key j h
        · exact h
      · rw [hq u hu] at hj
        exact key j hj

/-- Every step from a state satisfying the invariant keeps it, and no assertion fails. -/
theorem step_inv {N : Nat} {s : State} (inv : Inv N s) (t : Nat) (a : Act) :
    step N s t a ≠ .fault ∧ ∀ s', step N s t a = .ok s' → Inv N s' := by
  by_cases hN : N ≤ t
  · unfold step; rw [if_pos hN]; exact ⟨by simp, by simp⟩
  have hN' : t < N := by omega
  have hc := inv.cnt t
  have cntU : ∀ (p : PC) (v : Nat), (v = if counted p then 1 else 0) →
      ∀ u, upd s.count t v u = if counted (upd s.pc t p u) then 1 else 0 := by
    intro p v hv u
    unfold upd
    split
    · exact hv
    · exact inv.cnt u
  have cntS : ∀ (p : PC), counted p = counted (s.pc t) → ∀ u, s.count u = if counted (upd s.pc t p u) then 1 else 0 := by
    intro p hv u
    unfold upd
    split
    · rename_i h; rw [h, hv]; exact hc
    · exact inv.cnt u
  have hcl : claims (s.pc t) = true → s.claim = true := fun h => inv.claimed.2 ⟨t, h⟩
  have hlk : s.lock = true → claims (s.pc t) = true → locks (s.pc t) = true := by
    intro h1 h2
    obtain ⟨u, hu⟩ := inv.locked.1 h1
    rw [inv.one t u h2 (locks_claims hu)]; exact hu
  unfold step
  rw [if_neg hN]
  cases hpc : s.pc t <;> cases a <;> simp only [hpc, counted, Bool.false_eq_true, if_true, if_false] at hc ⊢ <;>
    try exact ⟨Res.noConfusion, fun _ h => Res.noConfusion h⟩
  · -- get
    refine ⟨by simp, fun s' h => ?_⟩
    injection h with h; subst h
    exact move inv hN' rfl (cntS _ (by rw [hpc]; rfl)) (by simp [claims]) (by simp [claims, hpc]) (by simp [locks])
      (by simp [locks, hpc]) (by simp [inside]) (by simp [drained])
  · -- spin
    cases hl : s.lock with
    | true => exact ⟨by simp, fun s' h => by simp at h; subst h; exact inv⟩
    | false =>
      refine ⟨by simp, fun s' h => ?_⟩
      simp at h; subst h
      exact move inv hN' rfl (cntS _ (by rw [hpc]; rfl)) (by simp [claims]) (by simp [claims, hpc]) (by simp [locks])
        (by simp [locks, hpc, hl]) (by simp [inside]) (by simp [drained])
  · -- enter
    rw [hc]
    refine ⟨by simp, fun s' h => ?_⟩
    simp at h; subst h
    exact move inv hN' rfl (cntU _ _ (by simp [counted])) (by simp [claims]) (by simp [claims, hpc]) (by simp [locks])
      (by simp [locks, hpc]) (by simp [inside]) (by simp [drained])
  · -- probe
    cases hl : s.lock with
    | true =>
      refine ⟨by simp, fun s' h => ?_⟩
      simp at h; subst h
      exact move inv hN' rfl (cntS _ (by rw [hpc]; rfl)) (by simp [claims]) (by simp [claims, hpc]) (by simp [locks])
        (by simp [locks, hpc, hl]) (by simp [inside]) (by simp [drained])
    | false =>
      refine ⟨by simp, fun s' h => ?_⟩
      simp at h; subst h
      exact move inv hN' rfl (cntS _ (by rw [hpc]; rfl)) (by simp [claims]) (by simp [claims, hpc]) (by simp [locks])
        (by simp [locks, hpc, hl]) (by simp [hl, locks]) (by simp [drained])
  · -- back
    rw [hc]
    refine ⟨by simp, fun s' h => ?_⟩
    simp at h; subst h
    exact move inv hN' rfl (cntU _ _ (by simp [counted])) (by simp [claims]) (by simp [claims, hpc]) (by simp [locks])
      (by simp [locks, hpc]) (by simp [inside]) (by simp [drained])
  · -- unget
    rw [hc]
    refine ⟨by simp, fun s' h => ?_⟩
    simp at h; subst h
    exact move inv hN' rfl (cntU _ _ (by simp [counted])) (by simp [claims]) (by simp [claims, hpc]) (by simp [locks])
      (by simp [locks, hpc]) (by simp [inside]) (by simp [drained])
  · -- tryClaim
    rw [hc]
    cases hl : s.claim with
    | true => exact ⟨by simp, fun s' h => by simp at h; subst h; exact inv⟩
    | false =>
      refine ⟨by simp, fun s' h => ?_⟩
      simp at h; subst h
      exact move inv hN' rfl (cntS _ (by rw [hpc]; rfl)) (by simp [hl]) (by simp [claims]) (by simp [locks])
        (by simp [locks, hpc]) (by simp [inside, hpc]) (by simp [drained])
  · -- claiming
    rw [hc]
    refine ⟨by simp, fun s' h => ?_⟩
    simp at h; subst h
    exact move inv hN' rfl (cntU _ _ (by simp [counted])) (by simp [claims, hpc]) (by simp [claims, hcl, hpc]) (by simp [locks])
      (by simp [locks, hpc]) (by simp [inside]) (by simp [drained])
  · -- unclaim
    rw [hc]
    refine ⟨by simp, fun s' h => ?_⟩
    simp at h; subst h
    exact move inv hN' rfl (cntU _ _ (by simp [counted])) (by simp [claims, hpc]) (by simp [claims, hcl, hpc]) (by simp [locks])
      (by simp [locks, hpc]) (by simp [claims, locks, hpc]) (by simp [drained])
  · -- lock
    have h1 : s.claim = true := hcl (by rw [hpc]; rfl)
    have h2 : s.lock = false := by
      cases hl : s.lock with
      | false => rfl
      | true => have := hlk hl (by rw [hpc]; rfl); rw [hpc] at this; cases this
    rw [h1, h2]
    refine ⟨by simp, fun s' h => ?_⟩
    simp at h; subst h
    exact move inv hN' rfl (cntS _ (by rw [hpc]; rfl)) (by simp [claims, hpc]) (by simp [claims]) (by simp [h2])
      (by simp [locks]) (by simp [inside]) (by simp [drained])
  · -- draining
    rename_i i
    have h1 : s.claim = true := hcl (by rw [hpc]; rfl)
    have h2 : s.lock = true := inv.locked.2 ⟨t, by rw [hpc]; rfl⟩
    by_cases hi : i < N
    · rw [if_pos hi]
      by_cases h0 : s.count i = 0
      · rw [if_neg (by simp [h0])]
        refine ⟨by simp, fun s' h => ?_⟩
        injection h with h; subst h
        refine move inv hN' rfl (cntS _ (by rw [hpc]; rfl)) (by simp [claims, hpc]) (by simp [claims, h1]) (by simp [locks, hpc])
          (by simp [locks, h2]) (by simp [inside]) ?_
        intro j hj
        rw [hpc]
        simp only [drained] at hj ⊢
        by_cases hji : j = i
        · right
          have := inv.cnt i
          rw [h0] at this
          rw [hji]
          cases hin : inside (s.pc i) with
          | false => rfl
          | true => rw [inside_counted hin] at this; simp at this
        · left; omega
      · rw [if_pos h0]
        exact ⟨by simp, fun s' h => by injection h with h; subst h; exact inv⟩
    · rw [if_neg hi]
      refine ⟨by simp, fun s' h => ?_⟩
      injection h with h; subst h
      refine move inv hN' rfl (cntS _ (by rw [hpc]; rfl)) (by simp [claims, hpc]) (by simp [claims, h1]) (by simp [locks, hpc])
        (by simp [locks, h2]) (by simp [inside]) ?_
      intro j hj
      rw [hpc]
      simp only [drained] at hj ⊢
      left; omega
  · -- unlock
    refine ⟨by simp, fun s' h => ?_⟩
    injection h with h; subst h
    exact move inv hN' rfl (cntS _ (by rw [hpc]; rfl)) (by simp [claims, hpc]) (by simp [claims, hcl, hpc]) (by simp [locks])
      (by simp [locks, hpc]) (by simp [inside]) (by simp [drained])
  · -- unclaiming
    refine ⟨by simp, fun s' h => ?_⟩
    injection h with h; subst h
    exact move inv hN' rfl (cntS _ (by rw [hpc]; rfl)) (by simp [claims]) (by simp [claims, hpc]) (by simp [locks])
      (by simp [locks, hpc]) (by simp [inside, hpc]) (by simp [drained])

theorem reachable_inv {N : Nat} {s : State} (h : Reachable N s) : Inv N s := by
  induction h with
  | init => exact init_inv N
  | step t a _ hs ih => exact (step_inv ih t a).2 _ hs

/-- C23: while a thread holds the write lock, no thread is in a read section and no other thread
holds the claim or the write lock; in every reachable state at most one thread holds the claim. -/
theorem writer_excludes {N : Nat} {s : State} (h : Reachable N s) :
    (∀ t, s.pc t = .writing → ∀ u, s.pc u ≠ .reading ∧ (u ≠ t → s.pc u ≠ .writing ∧ s.pc u ≠ .claimed)) ∧
    (∀ t u, s.pc t = .claimed → s.pc u = .claimed → t = u) := by
  have inv := reachable_inv h
  refine ⟨fun t ht u => ⟨fun hu => ?_, fun hne => ⟨fun hu => ?_, fun hu => ?_⟩⟩, fun t u ht hu => ?_⟩
  · by_cases hN : u < N
    · have := inv.wait t u (by rw [ht]; exact hN)
      rw [hu] at this; cases this
    · rw [inv.out u (by omega)] at hu; cases hu
  · exact hne (inv.one u t (by rw [hu]; rfl) (by rw [ht]; rfl))
  · exact hne (inv.one u t (by rw [hu]; rfl) (by rw [ht]; rfl))
  · exact inv.one t u (by rw [ht]; rfl) (by rw [hu]; rfl)

/-- C23: no assertion of the lock functions fails under any interleaving. -/
theorem lock_no_fault {N : Nat} {s : State} (h : Reachable N s) (t : Nat) (a : Act) : step N s t a ≠ .fault :=
  (step_inv (reachable_inv h) t a).1

/-! ### Instance -/

/-- Run a schedule. -/
def run (N : Nat) : State → List (Nat × Act) → Option State
  | s, [] => some s
  | s, (t, a) :: l =>
    match step N s t a with
    | .ok s' => run N s' l
    | _ => none

theorem run_reachable {N : Nat} {s s' : State} {l : List (Nat × Act)} (h : Reachable N s) (hr : run N s l = some s') :
    Reachable N s' := by
  induction l generalizing s with
  | nil => simp only [run, Option.some.injEq] at hr; subst hr; exact h
  | cons x l ih =>
    obtain ⟨t, a⟩ := x
    simp only [run] at hr
    cases hs : step N s t a with
    | ok s1 => rw [hs] at hr; exact ih (.step t a h hs) hr
    | blocked => rw [hs] at hr; cases hr
    | fault => rw [hs] at hr; cases hr

/-- Thread 1 reads; thread 0 claims, locks and must wait for it; thread 1 leaves; thread 0 writes. -/
def sched : List (Nat × Act) :=
  [(0, .get), (0, .tick), (0, .tick), (1, .get), (1, .tick), (1, .tick), (1, .tick), (0, .tick), (0, .tryClaim), (0, .tick),
   (0, .lock), (0, .tick), (0, .tick), (1, .unget), (0, .tick), (0, .tick)]

theorem run_map {N : Nat} {l : List (Nat × Act)} {x : PC × PC} (h : (run N init l).map (fun s => (s.pc 0, s.pc 1)) = some x) :
    ∃ s, Reachable N s ∧ s.pc 0 = x.1 ∧ s.pc 1 = x.2 := by
  cases hr : run N init l with
  | none => rw [hr] at h; cases h
  | some s =>
    rw [hr] at h
    simp only [Option.map_some, Option.some.injEq] at h
    subst h
    exact ⟨s, run_reachable .init hr, rfl, rfl⟩

example : ∃ s, Reachable 2 s ∧ s.pc 0 = .writing ∧ s.pc 1 = .idle :=
  run_map (N := 2) (l := sched) (x := (.writing, .idle)) (by decide +kernel)

/-- A state in which thread 0 has the claim and waits while thread 1 still reads. -/
example : ∃ s, Reachable 2 s ∧ s.pc 0 = .draining 1 ∧ s.pc 1 = .reading :=
  run_map (N := 2) (l := sched.take 13) (x := (.draining 1, .reading)) (by decide +kernel)

/-- A race: thread 1 saw the flag clear, thread 0 then locked and found the counters zero, and only
then thread 1 incremented its counter. It will see the flag and back off. -/
example : ∃ s, Reachable 2 s ∧ s.pc 0 = .writing ∧ s.pc 1 = .probe :=
  run_map (N := 2) (l := [(0, .get), (0, .tick), (0, .tick), (0, .tick), (0, .tryClaim), (0, .tick), (1, .get), (1, .tick),
    (0, .lock), (0, .tick), (0, .tick), (0, .tick), (1, .tick)]) (x := (.writing, .probe)) (by decide +kernel)

end Splinter.RwLock
