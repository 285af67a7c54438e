import Verif.Model.Tid
/-!
# C26: thread registration hands out distinct slots
-/
namespace Splinter.Tid

/-- The slot a thread has, from the moment its bit is cleared to the moment it is set again. -/
def PC.slot : PC → Option Nat
  | .aRel i | .aMax i | .aMaxCas i _ | .held i | .dWait i | .dCheck i | .dRead i | .dCas i _ => some i
  | .idle | .aWait | .aRead | .aFail | .aCas _ _ | .dRel => none

/-- Inside the critical section. -/
def PC.crit : PC → Bool
  | .aRead | .aFail | .aCas _ _ | .aRel _ | .dCheck _ | .dRead _ | .dCas _ _ | .dRel => true
  | .idle | .aWait | .aMax _ | .aMaxCas _ _ | .held _ | .dWait _ => false

/-- What a thread knows at each point. -/
def PC.Local (mask : BitVec 64) (mx : Nat) : PC → Prop
  | .aCas old i => old = mask ∧ i < 64 ∧ mask.getLsbD i = true
  | .aFail => ∀ i, i < 64 → mask.getLsbD i = false
  | .dCas i tmp => i ≤ mx ∧ tmp = mask
  | .aMaxCas _ tmp => tmp ≤ mx
  | .held i | .dWait i | .dCheck i | .dRead i => i ≤ mx
  | .idle | .aWait | .aRead | .aRel _ | .aMax _ | .dRel => True

structure Inv (s : State) : Prop where
  lk : ∀ t, (s.pc t).crit = true → s.lock = true
  one : ∀ t t', (s.pc t).crit = true → (s.pc t').crit = true → t = t'
  bit : ∀ i, i < 64 → (s.mask.getLsbD i = false ↔ ∃ t, (s.pc t).slot = some i)
  uniq : ∀ t t' i, (s.pc t).slot = some i → (s.pc t').slot = some i → t = t'
  rng : ∀ t i, (s.pc t).slot = some i → i < 64
  loc : ∀ t, (s.pc t).Local s.mask s.maxTid

theorem local_mono {m : BitVec 64} {a b : Nat} (h : a ≤ b) {p : PC} : p.Local m a → p.Local m b := by
  cases p <;> simp only [PC.Local] <;> first | omega | exact id | (rintro ⟨h1, h2⟩; exact ⟨by omega, h2⟩)

theorem local_mask {m m' : BitVec 64} {a : Nat} {p : PC} (h : p.crit = false) : p.Local m a → p.Local m' a := by
  cases p <;> simp only [PC.Local, PC.crit] at * <;> first | exact id | cases h

theorem upd_self (f : Nat → PC) (t : Nat) (p : PC) : upd f t p t = p := if_pos rfl
theorem upd_ne (f : Nat → PC) {t j : Nat} (p : PC) (h : j ≠ t) : upd f t p j = f j := if_neg h

theorem init_inv : Inv init := by
  constructor
  · intro t h; cases h
  · intro t t' h; cases h
  · intro i hi
    constructor
    · intro h
      replace h : (BitVec.allOnes 64).getLsbD i = false := h
      rw [BitVec.getLsbD_allOnes] at h
      simp [hi] at h
    · rintro ⟨t, h⟩; cases h
  · intro t t' i h; cases h
  · intro t i h; cases h
  · intro t; trivial

/-- A step of `t` that keeps the bit mask and `t`'s slot. -/
theorem move {s : State} (inv : Inv s) (t : Nat) (p : PC) (lock : Bool) (mx : Nat) (hs : p.slot = (s.pc t).slot) (hm : s.maxTid ≤ mx)
    (hl : p.crit = true → lock = true) (hc : p.crit = true → ∀ t', t' ≠ t → (s.pc t').crit = false)
    (ho : ∀ t', t' ≠ t → (s.pc t').crit = true → lock = true) (hp : p.Local s.mask mx) : Inv ⟨s.mask, lock, mx, upd s.pc t p⟩ := by
  have hslot : ∀ j, (upd s.pc t p j).slot = (s.pc j).slot := by
    intro j
    by_cases h : j = t
    · rw [h, upd_self, hs]
    · rw [upd_ne _ _ h]
  constructor
  · intro j h
    by_cases hj : j = t
    · subst hj; simp only [upd_self] at h; exact hl h
    · simp only [upd_ne _ _ hj] at h; exact ho j hj h
  · intro j k h1 h2
    by_cases hj : j = t
    · by_cases hk : k = t
      · rw [hj, hk]
      · subst hj
        simp only [upd_self, upd_ne _ _ hk] at h1 h2
        rw [hc h1 k hk] at h2; cases h2
    · by_cases hk : k = t
      · subst hk
        simp only [upd_self, upd_ne _ _ hj] at h1 h2
        rw [hc h2 j hj] at h1; cases h1
      · simp only [upd_ne _ _ hj, upd_ne _ _ hk] at h1 h2
        exact inv.one j k h1 h2
  · intro i hi
    simp only [hslot]
    exact inv.bit i hi
  · intro j k i
    simp only [hslot]
    exact inv.uniq j k i
  · intro j i
    simp only [hslot]
    exact inv.rng j i
  · intro j
    by_cases hj : j = t
    · subst hj; simp only [upd_self]; exact hp
    · simp only [upd_ne _ _ hj]; exact local_mono hm (inv.loc j)

theorem ffs_some {w : BitVec 64} {i : Nat} (h : ffs w = some i) : i < 64 ∧ w.getLsbD i = true := by
  unfold ffs at h
  have h1 := List.find?_some h
  have h2 := List.mem_of_find?_eq_some h
  exact ⟨List.mem_range.1 h2, h1⟩

theorem ffs_none {w : BitVec 64} (h : ffs w = none) : ∀ i, i < 64 → w.getLsbD i = false := by
  intro i hi
  unfold ffs at h
  have := List.find?_eq_none.1 h i (List.mem_range.2 hi)
  simpa using this

theorem one_bit {t i : Nat} (hi : i < 64) : (1#64 <<< t).getLsbD i = decide (i = t) := by
  simp [hi]
  by_cases h : i = t
  · subst h; simp
  · by_cases h2 : i < t
    · simp [h, h2]
    · have : ¬ i - t = 0 := by omega
      simp [h, h2, this]

theorem clear_bit (w : BitVec 64) {t i : Nat} (hi : i < 64) :
    (w &&& ~~~(1#64 <<< t)).getLsbD i = if i = t then false else w.getLsbD i := by
  rw [BitVec.getLsbD_and, BitVec.getLsbD_not, one_bit hi]
  by_cases h : i = t <;> simp [h, hi]

theorem set_bit (w : BitVec 64) {t i : Nat} (hi : i < 64) :
    (w ||| (1#64 <<< t)).getLsbD i = if i = t then true else w.getLsbD i := by
  rw [BitVec.getLsbD_or, one_bit hi]
  by_cases h : i = t <;> simp [h]

theorem test_bit (w : BitVec 64) {t : Nat} (h : w.getLsbD t = false) : w &&& (1#64 <<< t) = 0#64 := by
  apply BitVec.eq_of_getLsbD_eq
  intro i hi
  rw [BitVec.getLsbD_and, one_bit hi, BitVec.getLsbD_zero]
  by_cases h2 : i = t
  · rw [h2, h]; rfl
  · simp [h2]

theorem others_out {s : State} (inv : Inv s) {t : Nat} (h : (s.pc t).crit = true) : ∀ t', t' ≠ t → (s.pc t').crit = false := by
  intro t' hne
  cases hc : (s.pc t').crit with
  | false => rfl
  | true => exact absurd (inv.one t' t hc h) hne

theorem step_inv {s : State} (inv : Inv s) (t : Nat) : step s t ≠ .fault ∧ ∀ s', step s t = .ok s' → Inv s' := by
  have hloc := inv.loc t
  unfold step
  cases hpc : s.pc t with
  | idle =>
    refine ⟨Res.noConfusion, fun s' h => ?_⟩
    injection h with h; subst h
    exact move inv t _ _ _ (by rw [hpc]; rfl) (Nat.le_refl _) (fun h => by cases h) (fun h => by cases h) (fun t' _ h => inv.lk t' h) trivial
  | aWait =>
    dsimp only
    cases hl : s.lock with
    | true => exact ⟨Res.noConfusion, fun _ h => Res.noConfusion h⟩
    | false =>
      refine ⟨Res.noConfusion, fun s' h => ?_⟩
      injection h with h; subst h
      refine move inv t _ _ _ (by rw [hpc]; rfl) (Nat.le_refl _) (fun _ => rfl) ?_ (fun _ _ _ => rfl) trivial
      intro _ t' _
      cases hc : (s.pc t').crit with
      | false => rfl
      | true => have := inv.lk t' hc; rw [hl] at this; cases this
  | aRead =>
    have ho := others_out inv (t := t) (by rw [hpc]; rfl)
    have hlk := inv.lk t (by rw [hpc]; rfl)
    dsimp only
    cases hf : ffs s.mask with
    | none =>
      refine ⟨Res.noConfusion, fun s' h => ?_⟩
      injection h with h; subst h
      exact move inv t _ _ _ (by rw [hpc]; rfl) (Nat.le_refl _) (fun _ => hlk) (fun _ => ho) (fun _ _ _ => hlk) (ffs_none hf)
    | some i =>
      refine ⟨Res.noConfusion, fun s' h => ?_⟩
      injection h with h; subst h
      exact move inv t _ _ _ (by rw [hpc]; rfl) (Nat.le_refl _) (fun _ => hlk) (fun _ => ho) (fun _ _ _ => hlk) ⟨rfl, ffs_some hf⟩
  | aFail =>
    have ho := others_out inv (t := t) (by rw [hpc]; rfl)
    refine ⟨Res.noConfusion, fun s' h => ?_⟩
    injection h with h; subst h
    exact move inv t _ _ _ (by rw [hpc]; rfl) (Nat.le_refl _) (fun h => by cases h) (fun h => by cases h)
      (fun t' hne h => by rw [ho t' hne] at h; cases h) trivial
  | aCas old i =>
    have ho := others_out inv (t := t) (by rw [hpc]; rfl)
    have hlk := inv.lk t (by rw [hpc]; rfl)
    rw [hpc] at hloc
    obtain ⟨h1, h2, h3⟩ := hloc
    dsimp only
    rw [if_pos h1.symm]
    refine ⟨Res.noConfusion, fun s' h => ?_⟩
    injection h with h; subst h
    subst h1
    have hfree : ∀ j, (s.pc j).slot ≠ some i := by
      intro j hj
      have := (inv.bit i h2).2 ⟨j, hj⟩
      rw [h3] at this; cases this
    constructor
    · intro j h; exact hlk
    · intro j k hj hk
      have aux : ∀ j, (upd s.pc t (.aRel i) j).crit = true → j = t := by
        intro j hj
        by_cases h : j = t
        · exact h
        · rw [upd_ne _ _ h, ho j h] at hj; cases hj
      rw [aux j hj, aux k hk]
    · intro i' hi'
      show (s.mask &&& ~~~(1#64 <<< i)).getLsbD i' = false ↔ ∃ j, (upd s.pc t (.aRel i) j).slot = some i'
      rw [clear_bit _ hi']
      by_cases he : i' = i
      · subst he
        rw [if_pos rfl]
        exact ⟨fun _ => ⟨t, by rw [upd_self]; rfl⟩, fun _ => rfl⟩
      · rw [if_neg he, inv.bit i' hi']
        constructor
        · rintro ⟨j, hj⟩
          have : j ≠ t := by rintro rfl; rw [hpc] at hj; cases hj
          exact ⟨j, by rw [upd_ne _ _ this]; exact hj⟩
        · rintro ⟨j, hj⟩
          by_cases hjt : j = t
          · subst hjt; rw [upd_self] at hj; injection hj with hj; exact absurd hj.symm he
          · rw [upd_ne _ _ hjt] at hj; exact ⟨j, hj⟩
    · intro j k i' hj hk
      replace hj : (upd s.pc t (.aRel i) j).slot = some i' := hj
      replace hk : (upd s.pc t (.aRel i) k).slot = some i' := hk
      by_cases hjt : j = t
      · by_cases hkt : k = t
        · rw [hjt, hkt]
        · subst hjt
          rw [upd_self] at hj; rw [upd_ne _ _ hkt] at hk
          injection hj with hj; subst hj
          exact absurd hk (hfree k)
      · by_cases hkt : k = t
        · subst hkt
          rw [upd_self] at hk; rw [upd_ne _ _ hjt] at hj
          injection hk with hk; subst hk
          exact absurd hj (hfree j)
        · rw [upd_ne _ _ hjt] at hj; rw [upd_ne _ _ hkt] at hk
          exact inv.uniq j k i' hj hk
    · intro j i' hj
      replace hj : (upd s.pc t (.aRel i) j).slot = some i' := hj
      by_cases hjt : j = t
      · rw [hjt, upd_self] at hj; injection hj with hj; omega
      · rw [upd_ne _ _ hjt] at hj; exact inv.rng j i' hj
    · intro j
      show (upd s.pc t (.aRel i) j).Local (s.mask &&& ~~~(1#64 <<< i)) s.maxTid
      by_cases hjt : j = t
      · rw [hjt, upd_self]; trivial
      · rw [upd_ne _ _ hjt]; exact local_mask (ho j hjt) (inv.loc j)
  | aRel i =>
    have ho := others_out inv (t := t) (by rw [hpc]; rfl)
    refine ⟨Res.noConfusion, fun s' h => ?_⟩
    injection h with h; subst h
    exact move inv t _ _ _ (by rw [hpc]; rfl) (Nat.le_refl _) (fun h => by cases h) (fun h => by cases h)
      (fun t' hne h => by rw [ho t' hne] at h; cases h) trivial
  | aMax i =>
    refine ⟨Res.noConfusion, fun s' h => ?_⟩
    injection h with h; subst h
    exact move inv t _ _ _ (by rw [hpc]; rfl) (Nat.le_refl _) (fun h => by cases h) (fun h => by cases h) (fun t' _ h => inv.lk t' h)
      (Nat.le_refl s.maxTid)
  | aMaxCas i tmp =>
    rw [hpc] at hloc
    have hloc : tmp ≤ s.maxTid := hloc
    dsimp only
    by_cases h1 : tmp < i
    · rw [if_pos h1]
      by_cases h2 : s.maxTid = tmp
      · rw [if_pos h2]
        refine ⟨Res.noConfusion, fun s' h => ?_⟩
        injection h with h; subst h
        exact move inv t _ _ _ (by rw [hpc]; rfl) (show s.maxTid ≤ i by omega) (fun h => by cases h) (fun h => by cases h)
          (fun t' _ h => inv.lk t' h) (Nat.le_refl i)
      · rw [if_neg h2]
        refine ⟨Res.noConfusion, fun s' h => ?_⟩
        injection h with h; subst h
        exact move inv t _ _ _ (by rw [hpc]; rfl) (Nat.le_refl _) (fun h => by cases h) (fun h => by cases h) (fun t' _ h => inv.lk t' h)
          trivial
    · rw [if_neg h1]
      refine ⟨Res.noConfusion, fun s' h => ?_⟩
      injection h with h; subst h
      exact move inv t _ _ _ (by rw [hpc]; rfl) (Nat.le_refl _) (fun h => by cases h) (fun h => by cases h) (fun t' _ h => inv.lk t' h)
        (show i ≤ s.maxTid by omega)
  | held i =>
    rw [hpc] at hloc
    refine ⟨Res.noConfusion, fun s' h => ?_⟩
    injection h with h; subst h
    exact move inv t _ _ _ (by rw [hpc]; rfl) (Nat.le_refl _) (fun h => by cases h) (fun h => by cases h) (fun t' _ h => inv.lk t' h) hloc
  | dWait i =>
    rw [hpc] at hloc
    dsimp only
    cases hl : s.lock with
    | true => exact ⟨Res.noConfusion, fun _ h => Res.noConfusion h⟩
    | false =>
      refine ⟨Res.noConfusion, fun s' h => ?_⟩
      injection h with h; subst h
      refine move inv t _ _ _ (by rw [hpc]; rfl) (Nat.le_refl _) (fun _ => rfl) ?_ (fun _ _ _ => rfl) hloc
      intro _ t' _
      cases hc : (s.pc t').crit with
      | false => rfl
      | true => have := inv.lk t' hc; rw [hl] at this; cases this
  | dCheck i =>
    have ho := others_out inv (t := t) (by rw [hpc]; rfl)
    have hlk := inv.lk t (by rw [hpc]; rfl)
    have hi := inv.rng t i (by rw [hpc]; rfl)
    have hb := (inv.bit i hi).2 ⟨t, by rw [hpc]; rfl⟩
    rw [hpc] at hloc
    dsimp only
    rw [Nat.mod_eq_of_lt hi, if_neg (by rw [test_bit _ hb]; simp)]
    refine ⟨Res.noConfusion, fun s' h => ?_⟩
    injection h with h; subst h
    exact move inv t _ _ _ (by rw [hpc]; rfl) (Nat.le_refl _) (fun _ => hlk) (fun _ => ho) (fun _ _ _ => hlk) hloc
  | dRead i =>
    have ho := others_out inv (t := t) (by rw [hpc]; rfl)
    have hlk := inv.lk t (by rw [hpc]; rfl)
    rw [hpc] at hloc
    refine ⟨Res.noConfusion, fun s' h => ?_⟩
    injection h with h; subst h
    exact move inv t _ _ _ (by rw [hpc]; rfl) (Nat.le_refl _) (fun _ => hlk) (fun _ => ho) (fun _ _ _ => hlk) ⟨hloc, rfl⟩
  | dCas i tmp =>
    have ho := others_out inv (t := t) (by rw [hpc]; rfl)
    have hlk := inv.lk t (by rw [hpc]; rfl)
    have hi := inv.rng t i (by rw [hpc]; rfl)
    rw [hpc] at hloc
    obtain ⟨hm, h1⟩ := hloc
    dsimp only
    rw [if_pos h1.symm, Nat.mod_eq_of_lt hi]
    refine ⟨Res.noConfusion, fun s' h => ?_⟩
    injection h with h; subst h
    subst h1
    have hown : ∀ j, (s.pc j).slot = some i → j = t := fun j hj => inv.uniq j t i hj (by rw [hpc]; rfl)
    constructor
    · intro j h; exact hlk
    · intro j k hj hk
      have aux : ∀ j, (upd s.pc t .dRel j).crit = true → j = t := by
        intro j hj
        by_cases h : j = t
        · exact h
        · rw [upd_ne _ _ h, ho j h] at hj; cases hj
      rw [aux j hj, aux k hk]
    · intro i' hi'
      show (s.mask ||| (1#64 <<< i)).getLsbD i' = false ↔ ∃ j, (upd s.pc t .dRel j).slot = some i'
      rw [set_bit _ hi']
      by_cases he : i' = i
      · subst he
        rw [if_pos rfl]
        refine ⟨fun h => (by cases h), ?_⟩
        rintro ⟨j, hj⟩
        by_cases hjt : j = t
        · subst hjt; rw [upd_self] at hj; cases hj
        · rw [upd_ne _ _ hjt] at hj; exact absurd (hown j hj) hjt
      · rw [if_neg he, inv.bit i' hi']
        constructor
        · rintro ⟨j, hj⟩
          have : j ≠ t := by rintro rfl; rw [hpc] at hj; injection hj with hj; exact he hj.symm
          exact ⟨j, by rw [upd_ne _ _ this]; exact hj⟩
        · rintro ⟨j, hj⟩
          by_cases hjt : j = t
          · subst hjt; rw [upd_self] at hj; cases hj
          · rw [upd_ne _ _ hjt] at hj; exact ⟨j, hj⟩
    · intro j k i' hj hk
      replace hj : (upd s.pc t .dRel j).slot = some i' := hj
      replace hk : (upd s.pc t .dRel k).slot = some i' := hk
      by_cases hjt : j = t
      · rw [hjt, upd_self] at hj; cases hj
      · by_cases hkt : k = t
        · rw [hkt, upd_self] at hk; cases hk
        · rw [upd_ne _ _ hjt] at hj; rw [upd_ne _ _ hkt] at hk
          exact inv.uniq j k i' hj hk
    · intro j i' hj
      replace hj : (upd s.pc t .dRel j).slot = some i' := hj
      by_cases hjt : j = t
      · rw [hjt, upd_self] at hj; cases hj
      · rw [upd_ne _ _ hjt] at hj; exact inv.rng j i' hj
    · intro j
      show (upd s.pc t .dRel j).Local (s.mask ||| (1#64 <<< i)) s.maxTid
      by_cases hjt : j = t
      · rw [hjt, upd_self]; trivial
      · rw [upd_ne _ _ hjt]; exact local_mask (ho j hjt) (inv.loc j)
  | dRel =>
    have ho := others_out inv (t := t) (by rw [hpc]; rfl)
    refine ⟨Res.noConfusion, fun s' h => ?_⟩
    injection h with h; subst h
    exact move inv t _ _ _ (by rw [hpc]; rfl) (Nat.le_refl _) (fun h => by cases h) (fun h => by cases h)
      (fun t' hne h => by rw [ho t' hne] at h; cases h) trivial

theorem reachable_inv {s : State} (h : Reachable s) : Inv s := by
  induction h with
  | init => exact init_inv
  | step t _ hs ih => exact (step_inv ih t).2 _ hs

/-- C26, distinctness: under every interleaving, two different threads never have the same slot, every
slot is below `MAX_THREADS`, and a registered thread's slot is covered by `task_get_max_tid`. -/
theorem slots_distinct {s : State} (h : Reachable s) {t t' i : Nat} (ht : (s.pc t).slot = some i) :
    i < 64 ∧ ((s.pc t').slot = some i → t = t') ∧ (s.pc t = .held i → i < s.maxTid + 1) := by
  have inv := reachable_inv h
  refine ⟨inv.rng t i ht, fun h' => inv.uniq t t' i ht h', fun hh => ?_⟩
  have := inv.loc t
  rw [hh] at this
  exact Nat.lt_succ_of_le this

/-- C26, failure: a registration that gives up does so while all 64 slots are taken. -/
theorem fails_only_when_full {s : State} (h : Reachable s) {t : Nat} (ht : s.pc t = .aFail) :
    ∀ i, i < 64 → ∃ t', (s.pc t').slot = some i := by
  have inv := reachable_inv h
  have hl := inv.loc t
  rw [ht] at hl
  exact fun i hi => (inv.bit i hi).1 (hl i hi)

/-- No assertion of the two functions fails. -/
theorem tid_no_fault {s : State} (h : Reachable s) (t : Nat) : step s t ≠ .fault := (step_inv (reachable_inv h) t).1

/-- `n` steps of thread `t` alone. -/
def solo (s : State) (t : Nat) : Nat → Option State
  | 0 => some s
  | n + 1 =>
    match step s t with
    | .ok s' => solo s' t n
    | _ => none

/-- C26, availability: whenever some slot is not taken (never used, or given back by a deregistration)
and no thread is inside the critical section, a thread that starts to register gets a slot nobody
had, in six steps of its own. -/
theorem free_slot_obtained {s : State} (h : Reachable s) {t i : Nat} (ht : s.pc t = .aWait) (hl : s.lock = false) (hi : i < 64)
    (hfree : ∀ t', (s.pc t').slot ≠ some i) :
    ∃ s' j, solo s t 6 = some s' ∧ s'.pc t = .held j ∧ j ≤ i ∧ ∀ t', (s.pc t').slot ≠ some j := by
  have inv := reachable_inv h
  have hb : s.mask.getLsbD i = true := by
    cases hb : s.mask.getLsbD i with
    | true => rfl
    | false => obtain ⟨t', ht'⟩ := (inv.bit i hi).1 hb; exact absurd ht' (hfree t')
  cases hf : ffs s.mask with
  | none => rw [ffs_none hf i hi] at hb; cases hb
  | some j =>
    obtain ⟨h1, h2⟩ := ffs_some hf
    have hji : j ≤ i := by
      refine Nat.le_of_not_lt fun hlt => ?_
      unfold ffs at hf
      have := List.find?_range_eq_some.1 hf
      have := this.2.2 i (by omega)
      rw [hb] at this; simp at this
    have hnot : ∀ t', (s.pc t').slot ≠ some j := by
      intro t' ht'
      have := (inv.bit j h1).2 ⟨t', ht'⟩
      rw [h2] at this; cases this
    obtain ⟨s1, d1⟩ : ∃ s1, s1 = { s with lock := true }.goto t .aRead := ⟨_, rfl⟩
    have e1 : step s t = .ok s1 := by simp [step, ht, hl, d1]
    have p1 : s1.pc t = .aRead := by rw [d1]; exact upd_self _ _ _
    have m1 : s1.mask = s.mask := by rw [d1]; rfl
    obtain ⟨s2, d2⟩ : ∃ s2, s2 = s1.goto t (.aCas s1.mask j) := ⟨_, rfl⟩
    have e2 : step s1 t = .ok s2 := by simp [step, p1, m1, hf, d2]
    have p2 : s2.pc t = .aCas s1.mask j := by rw [d2]; exact upd_self _ _ _
    have m2 : s2.mask = s1.mask := by rw [d2]; rfl
    obtain ⟨s3, d3⟩ : ∃ s3, s3 = { s2 with mask := s1.mask &&& ~~~(1#64 <<< j) }.goto t (.aRel j) := ⟨_, rfl⟩
    have e3 : step s2 t = .ok s3 := by simp only [step, p2, m2, if_true, d3]
    have p3 : s3.pc t = .aRel j := by rw [d3]; exact upd_self _ _ _
    obtain ⟨s4, d4⟩ : ∃ s4, s4 = { s3 with lock := false }.goto t (.aMax j) := ⟨_, rfl⟩
    have e4 : step s3 t = .ok s4 := by simp only [step, p3, d4]
    have p4 : s4.pc t = .aMax j := by rw [d4]; exact upd_self _ _ _
    obtain ⟨s5, d5⟩ : ∃ s5, s5 = s4.goto t (.aMaxCas j s4.maxTid) := ⟨_, rfl⟩
    have e5 : step s4 t = .ok s5 := by simp only [step, p4, d5]
    have p5 : s5.pc t = .aMaxCas j s4.maxTid := by rw [d5]; exact upd_self _ _ _
    have m5 : s5.maxTid = s4.maxTid := by rw [d5]; rfl
    by_cases hm : s4.maxTid < j
    · refine ⟨{ s5 with maxTid := j }.goto t (.held j), j, ?_, upd_self _ _ _, hji, hnot⟩
      simp only [solo, e1, e2, e3, e4, e5]
      simp only [step, p5, m5, hm, if_true]
    · refine ⟨s5.goto t (.held j), j, ?_, upd_self _ _ _, hji, hnot⟩
      simp only [solo, e1, e2, e3, e4, e5]
      simp only [step, p5, hm, if_false]

/-- The lock is only held by a thread inside the critical section. -/
theorem lock_owner {s : State} (h : Reachable s) : s.lock = true → ∃ t, (s.pc t).crit = true := by
  induction h with
  | init => intro h; cases h
  | @step s s' t hr hs ih =>
    intro hl
    have inv := reachable_inv hr
    have keep : ∀ p : PC, ∀ s1 : State, s1.pc = upd s.pc t p → s1.lock = true → s.lock = true →
        ((s.pc t).crit = true → p.crit = true) → ∃ t', (s1.pc t').crit = true := by
      intro p s1 e _ hl0 hp
      obtain ⟨t', ht'⟩ := ih hl0
      refine ⟨t', ?_⟩
      rw [e]
      by_cases htt : t' = t
      · subst htt; rw [upd_self]; exact hp ht'
      · rw [upd_ne _ _ htt]; exact ht'
    have take : ∀ p : PC, ∀ s1 : State, s1.pc = upd s.pc t p → p.crit = true → ∃ t', (s1.pc t').crit = true := by
      intro p s1 e hp
      exact ⟨t, by rw [e, upd_self]; exact hp⟩
    unfold step at hs
    split at hs
    all_goals rename_i hpc
    all_goals (try split at hs)
    all_goals (try split at hs)
    all_goals first
      | cases hs; done
      | (injection hs with hs
         subst hs
         first
         | (cases hl; done)
         | exact take _ _ rfl rfl
         | exact keep _ _ rfl hl hl (by rw [hpc]; intro hc; cases hc))

/-- C26, availability, continued: when the lock is held, its holder releases it in at most four steps of
its own, which nobody can block. -/
theorem lock_released {s : State} (h : Reachable s) (hl : s.lock = true) :
    ∃ t n s', n ≤ 4 ∧ solo s t n = some s' ∧ s'.lock = false := by
  obtain ⟨t, ht⟩ := lock_owner h hl
  have inv := reachable_inv h
  have one : ∀ s : State, s.pc t = .aFail ∨ (∃ i, s.pc t = .aRel i) ∨ s.pc t = .dRel → ∃ s', solo s t 1 = some s' ∧ s'.lock = false := by
    rintro s (hp | ⟨i, hp⟩ | hp) <;> exact ⟨_, by simp only [solo, step, hp]; rfl, rfl⟩
  have cons : ∀ s s1 : State, ∀ n, step s t = .ok s1 → (∃ s', solo s1 t n = some s' ∧ s'.lock = false) →
      ∃ s', solo s t (n + 1) = some s' ∧ s'.lock = false := by
    rintro s s1 n e ⟨s', h1, h2⟩
    exact ⟨s', by simp only [solo, e]; exact h1, h2⟩
  have acas : ∀ s : State, ∀ i, s.pc t = .aCas s.mask i → ∃ s', solo s t 2 = some s' ∧ s'.lock = false := by
    intro s i hp
    exact cons s ({ s with mask := s.mask &&& ~~~(1#64 <<< i) }.goto t (.aRel i)) 1 (by simp only [step, hp, if_true]) (one _ (.inr (.inl ⟨i, upd_self _ _ _⟩)))
  have dcas : ∀ s : State, ∀ i, s.pc t = .dCas i s.mask → ∃ s', solo s t 2 = some s' ∧ s'.lock = false := by
    intro s i hp
    exact cons s ({ s with mask := s.mask ||| (1#64 <<< (i % 64)) }.goto t .dRel) 1 (by simp only [step, hp, if_true]) (one _ (.inr (.inr (upd_self _ _ _))))
  have dread : ∀ s : State, ∀ i, s.pc t = .dRead i → ∃ s', solo s t 3 = some s' ∧ s'.lock = false := by
    intro s i hp
    exact cons s (s.goto t (.dCas i s.mask)) 2 (by simp only [step, hp]) (dcas _ i (upd_self _ _ _))
  cases hp : s.pc t with
  | aRead =>
    cases hf : ffs s.mask with
    | none =>
      obtain ⟨s', h1, h2⟩ := cons s (s.goto t .aFail) 1 (by simp only [step, hp, hf]) (one _ (.inl (upd_self _ _ _)))
      exact ⟨t, 2, s', by omega, h1, h2⟩
    | some i =>
      obtain ⟨s', h1, h2⟩ := cons s (s.goto t (.aCas s.mask i)) 2 (by simp only [step, hp, hf]) (acas _ i (upd_self _ _ _))
      exact ⟨t, 3, s', by omega, h1, h2⟩
  | aFail => obtain ⟨s', h1, h2⟩ := one s (.inl hp); exact ⟨t, 1, s', by omega, h1, h2⟩
  | aCas old i =>
    have hL := inv.loc t
    rw [hp] at hL
    obtain ⟨s', h1, h2⟩ := acas s i (by rw [hp]; simp only [PC.Local] at hL; first | rw [hL.1] | rw [hL.2.1] | rw [hL])
    exact ⟨t, 2, s', by omega, h1, h2⟩
  | aRel i => obtain ⟨s', h1, h2⟩ := one s (.inr (.inl ⟨i, hp⟩)); exact ⟨t, 1, s', by omega, h1, h2⟩
  | dCheck i =>
    have hnf := tid_no_fault h t
    obtain ⟨s', h1, h2⟩ := cons s (s.goto t (.dRead i)) 3
      (by simp only [step, hp] at hnf ⊢; split at hnf
          · exact absurd rfl hnf
          · rename_i hc; rw [if_neg hc]) (dread _ i (upd_self _ _ _))
    exact ⟨t, 4, s', by omega, h1, h2⟩
  | dRead i => obtain ⟨s', h1, h2⟩ := dread s i hp; exact ⟨t, 3, s', by omega, h1, h2⟩
  | dCas i tmp =>
    have hL := inv.loc t
    rw [hp] at hL
    obtain ⟨s', h1, h2⟩ := dcas s i (by rw [hp]; simp only [PC.Local] at hL; first | rw [hL.1] | rw [hL.2.1] | rw [hL.2] | rw [hL])
    exact ⟨t, 2, s', by omega, h1, h2⟩
  | dRel => obtain ⟨s', h1, h2⟩ := one s (.inr (.inr hp)); exact ⟨t, 1, s', by omega, h1, h2⟩
  | idle | aWait | aMax _ | aMaxCas _ _ | held _ | dWait _ => rw [hp] at ht; cases ht

/-- A run given by the threads that step. -/
def run (s : State) : List Nat → Option State
  | [] => some s
  | t :: ts =>
    match step s t with
    | .ok s' => run s' ts
    | _ => none

theorem run_reachable {s s' : State} (h : Reachable s) (l : List Nat) (hr : run s l = some s') : Reachable s' := by
  induction l generalizing s with
  | nil => injection hr with hr; exact hr ▸ h
  | cons t ts ih =>
    unfold run at hr
    cases hs : step s t with
    | ok s'' => rw [hs] at hr; exact ih (.step t h hs) hr
    | blocked => rw [hs] at hr; cases hr
    | fault => rw [hs] at hr; cases hr

/-- Threads 3 and 8 register, interleaved; 3 deregisters and 5 obtains its slot. -/
example : ∃ s, Reachable s ∧ s.pc 8 = .held 1 ∧ s.pc 5 = .held 0 ∧ s.pc 3 = .idle :=
  have h : ((run init [3, 8, 3, 3, 3, 3, 8, 3, 8, 8, 8, 3, 8, 8, 3, 3, 3, 3, 3, 3, 5, 5, 5, 5, 5, 5, 5]).map
      fun s => (s.pc 8, s.pc 5, s.pc 3)) = some (.held 1, .held 0, .idle) := by decide +kernel
  match hr : run init [3, 8, 3, 3, 3, 3, 8, 3, 8, 8, 8, 3, 8, 8, 3, 3, 3, 3, 3, 3, 5, 5, 5, 5, 5, 5, 5] with
  | none => by rw [hr] at h; cases h
  | some s => by
    rw [hr] at h
    simp only [Option.map_some, Option.some.injEq, Prod.mk.injEq] at h
    exact ⟨s, run_reachable .init _ hr, h⟩

/-- Thread 64 finds all slots taken after threads 0 to 63 have registered. -/
example : ∃ s, Reachable s ∧ s.pc 64 = .aFail :=
  have h : ((run init ((List.range 64).flatMap (List.replicate 7) ++ [64, 64, 64])).map fun s => s.pc 64) = some .aFail := by
    decide +kernel
  match hr : run init ((List.range 64).flatMap (List.replicate 7) ++ [64, 64, 64]) with
  | none => by rw [hr] at h; cases h
  | some s => by
    rw [hr] at h
    simp only [Option.map_some, Option.some.injEq] at h
    exact ⟨s, run_reachable .init _ hr, h⟩

end Splinter.Tid
