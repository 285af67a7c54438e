import Verif.Model.TaskWake
import Mathlib.Algebra.BigOperators.Group.Finset.Basic
import Mathlib.Algebra.Order.BigOperators.Group.Finset
import Mathlib.Algebra.BigOperators.Intervals
/-! Invariant and measure for `Model/TaskWake.lean`. -/
namespace Splinter.TaskWake

variable {T : Type}

/-! ### Sums over threads -/

def total (n : Nat) (f : PC T → Nat) (pc : Nat → PC T) : Nat := ∑ i ∈ Finset.range n, f (pc i)

theorem total_upd {n : Nat} (f : PC T → Nat) (pc : Nat → PC T) {a : Nat} (ha : a < n) (p : PC T) :
    total n f (upd pc a p) + f (pc a) = total n f pc + f p := by
  unfold total
  have h1 := Finset.sum_erase_add (Finset.range n) (fun i => f (upd pc a p i)) (Finset.mem_range.mpr ha)
  have h2 := Finset.sum_erase_add (Finset.range n) (fun i => f (pc i)) (Finset.mem_range.mpr ha)
  have h3 : ∑ i ∈ (Finset.range n).erase a, f (upd pc a p i) = ∑ i ∈ (Finset.range n).erase a, f (pc i) := by
    refine Finset.sum_congr rfl fun i hi => ?_
    rw [upd, if_neg (Finset.ne_of_mem_erase hi)]
  simp only [upd, if_true] at h1 h3 ⊢
  omega

theorem total_congr {n : Nat} {f : PC T → Nat} {pc pc' : Nat → PC T} (h : ∀ i < n, f (pc i) = f (pc' i)) : total n f pc = total n f pc' :=
  Finset.sum_congr rfl fun i hi => h i (Finset.mem_range.mp hi)

theorem total_zero {n : Nat} {f : PC T → Nat} {pc : Nat → PC T} : total n f pc = 0 ↔ ∀ i < n, f (pc i) = 0 := by
  simp [total, Finset.sum_eq_zero_iff]

/-! ### Attributes of places -/

/-- The lock a thread has. -/
def holds : PC T → Option Grp
  | .enqBody g _ _ _ | .enqUnlock g _ | .takeBody g | .noneUnlock g | .gotUnlock g _ _ | .backBody g | .exitUnlock g | .stopBody g | .stopUnlock g => some g
  | _ => none

def Ret.hand : Ret T → Option Nat
  | .call => none
  | .task _ id _ => some id

/-- The task a thread runs. -/
def hand : PC T → Option Nat
  | .enqLock _ _ _ r | .enqBody _ _ _ r | .enqUnlock _ r => r.hand
  | .gotUnlock _ id _ | .running _ id _ => some id
  | _ => none

def Ret.ex : Ret T → Option Grp
  | .call => none
  | .task g _ _ => some g

/-- The group in which a thread is counted as executing. -/
def ex : PC T → Option Grp
  | .enqLock _ _ _ r | .enqBody _ _ _ r | .enqUnlock _ r => r.ex
  | .gotUnlock g _ _ | .running g _ _ | .backLock g | .backBody g => some g
  | _ => none

def exOne (g : Grp) (p : PC T) : Nat := if ex p = some g then 1 else 0
def slOne (g : Grp) (p : PC T) : Nat := if isAsleep g p then 1 else 0

/-- Which places a worker of `r`, or a thread that is none, can be in. -/
def fits (stop : Grp → Bool) (r : Option Grp) : PC T → Prop
  | .idle | .noneUnlock _ | .stopLock _ | .stopBody _ => r = none
  | .stopUnlock g | .join g => r = none ∧ stop g = true
  | .exited => ∃ g, r = some g ∧ stop g = true
  | .exitUnlock g => r = some g ∧ stop g = true
  | .asleep g | .backLock g | .backBody g => r = some g
  | .takeLock g | .takeBody g | .gotUnlock g _ _ | .running g _ _ => r = some g ∨ r = none
  | .enqLock _ _ _ x | .enqBody _ _ _ x | .enqUnlock _ x => match x with
    | .call => r = none
    | .task g _ _ => r = some g ∨ r = none

def workers (P : Par T) (g : Grp) : Nat := ∑ i ∈ Finset.range P.n, if P.role i = some g then 1 else 0

structure Inv (P : Par T) (s : State T) : Prop where
  lock : ∀ g a, s.lock g = some a → a < P.n ∧ holds (s.pc a) = some g
  hold : ∀ a < P.n, ∀ g, holds (s.pc a) = some g → s.lock g = some a
  fit : ∀ a < P.n, fits s.stop (P.role a) (s.pc a)
  exec : ∀ g, s.exec g = total P.n (exOne g) s.pc
  ids : ∀ id < s.fresh, (∃ g, ∃ t, (id, t) ∈ s.q g) ∨ (∃ a < P.n, hand (s.pc a) = some id) ∨ id ∈ s.ran
  sleep : ∀ g, total P.n (slOne g) s.pc = 0 ∨ (s.q g).length + total P.n (slOne g) s.pc ≤ workers P g
  stopped : ∀ g, s.stop g = true → total P.n (slOne g) s.pc = 0

/-- Some sleepers were woken. -/
def Wk (pc pc' : Nat → PC T) : Prop := ∀ i, pc' i = pc i ∨ ∃ g, pc i = .asleep g ∧ pc' i = .takeLock g

theorem Wk.refl (pc : Nat → PC T) : Wk pc pc := fun _ => .inl rfl

theorem fits_mono {st st' : Grp → Bool} (h : ∀ g, st g = true → st' g = true) {r : Option Grp} {p : PC T} (hf : fits st r p) : fits st' r p := by
  cases p <;> simp only [fits] at hf ⊢ <;> try exact hf
  · exact ⟨hf.1, h _ hf.2⟩
  · obtain ⟨g, h1, h2⟩ := hf; exact ⟨g, h1, h _ h2⟩
  · exact ⟨hf.1, h _ hf.2⟩
  · exact ⟨hf.1, h _ hf.2⟩

theorem Inv.next {P : Par T} {s s' : State T} (h : Inv P s) {a : Nat} (ha : a < P.n) {pc0 : Nat → PC T} (hw : Wk s.pc pc0) (h0 : pc0 a = s.pc a) {p : PC T}
    (hpc : s'.pc = upd pc0 a p)
    (hlock : (s'.lock = s.lock ∧ holds p = holds (s.pc a)) ∨
      (∃ g, s.lock g = none ∧ s'.lock = upd s.lock g (some a) ∧ holds (s.pc a) = none ∧ holds p = some g) ∨
      (∃ g, holds (s.pc a) = some g ∧ s'.lock = upd s.lock g none ∧ holds p = none))
    (hfit : fits s'.stop (P.role a) p) (hstop : ∀ g, s.stop g = true → s'.stop g = true)
    (hexec : ∀ g, s'.exec g + exOne g (s.pc a) = s.exec g + exOne g p)
    (hnew : ∀ id < s'.fresh, id < s.fresh ∨ ∃ g t, (id, t) ∈ s'.q g)
    (hq : ∀ g x, x ∈ s.q g → x ∈ s'.q g ∨ hand p = some x.1)
    (hhand : ∀ id, hand (s.pc a) = some id → hand p = some id ∨ id ∈ s'.ran) (hran : ∀ id ∈ s.ran, id ∈ s'.ran)
    (hsleep : ∀ g, total P.n (slOne g) s'.pc = 0 ∨ (s'.q g).length + total P.n (slOne g) s'.pc ≤ workers P g)
    (hst : ∀ g, s'.stop g = true → total P.n (slOne g) s'.pc = 0) : Inv P s' := by
  have hhold : ∀ i, holds (pc0 i) = holds (s.pc i) := fun i => by
    rcases hw i with h1 | ⟨g, h1, h2⟩
    · rw [h1]
    · rw [h1, h2]; rfl
  have hhan : ∀ i, hand (pc0 i) = hand (s.pc i) := fun i => by
    rcases hw i with h1 | ⟨g, h1, h2⟩
    · rw [h1]
    · rw [h1, h2]; rfl
  have hex : ∀ i, ex (pc0 i) = ex (s.pc i) := fun i => by
    rcases hw i with h1 | ⟨g, h1, h2⟩
    · rw [h1]
    · rw [h1, h2]; rfl
  have hother : ∀ i, i ≠ a → s'.pc i = pc0 i := fun i hi => by rw [hpc, upd, if_neg hi]
  have hself : s'.pc a = p := by rw [hpc, upd, if_pos rfl]
  refine ⟨?_, ?_, ?_, ?_, ?_, hsleep, hst⟩
  · intro g i hi
    by_cases hia : i = a
    · subst hia
      refine ⟨ha, ?_⟩
      rw [hself]
      rcases hlock with ⟨h1, h2⟩ | ⟨g', h1, h2, h3, h4⟩ | ⟨g', h1, h2, h3⟩
      · rw [h1] at hi; rw [h2]; exact (h.lock g i hi).2
      · rw [h2, upd] at hi
        split at hi
        · next hg => rw [hg]; exact h4
        · have := (h.lock g i hi).2; rw [h3] at this; cases this
      · rw [h2, upd] at hi
        split at hi
        · cases hi
        · next hg =>
          have := (h.lock g i hi).2
          rw [h1] at this
          exact absurd (Option.some.inj this).symm hg
    · rw [hother i hia, hhold i]
      rcases hlock with ⟨h1, h2⟩ | ⟨g', h1, h2, h3, h4⟩ | ⟨g', h1, h2, h3⟩
      · rw [h1] at hi; exact h.lock g i hi
      · rw [h2, upd] at hi
        split at hi
        · exact absurd (Option.some.inj hi).symm hia
        · exact h.lock g i hi
      · rw [h2, upd] at hi
        split at hi
        · cases hi
        · exact h.lock g i hi
  · intro i hi g hg
    by_cases hia : i = a
    · subst hia
      rw [hself] at hg
      rcases hlock with ⟨h1, h2⟩ | ⟨g', h1, h2, h3, h4⟩ | ⟨g', h1, h2, h3⟩
      · rw [h1]; exact h.hold i hi g (h2 ▸ hg)
      · rw [h4] at hg; cases hg; rw [h2, upd, if_pos rfl]
      · rw [h3] at hg; cases hg
    · rw [hother i hia, hhold i] at hg
      have h5 := h.hold i hi g hg
      rcases hlock with ⟨h1, h2⟩ | ⟨g', h1, h2, h3, h4⟩ | ⟨g', h1, h2, h3⟩
      · rw [h1]; exact h5
      · rw [h2, upd, if_neg]
        · exact h5
        · rintro rfl; rw [h1] at h5; cases h5
      · rw [h2, upd, if_neg]
        · exact h5
        · rintro rfl
          have := h.hold a ha g h1
          rw [this] at h5
          exact hia (Option.some.inj h5).symm
  · intro i hi
    by_cases hia : i = a
    · subst hia; rw [hself]; exact hfit
    · rw [hother i hia]
      have h1 := fits_mono hstop (h.fit i hi)
      rcases hw i with h2 | ⟨g, h2, h3⟩
      · rw [h2]; exact h1
      · rw [h3]; rw [h2] at h1; exact .inl h1
  · intro g
    have h1 := total_upd (exOne g) pc0 ha p
    have h2 : total P.n (exOne g) pc0 = total P.n (exOne g) s.pc := total_congr fun i _ => by simp only [exOne, hex i]
    have h3 := h.exec g
    have h4 := hexec g
    rw [← hpc, h2, h0] at h1
    omega
  · intro id hid
    rcases hnew id hid with h1 | ⟨g, t, h1⟩
    · rcases h.ids id h1 with ⟨g, t, h2⟩ | ⟨i, hi, h2⟩ | h2
      · rcases hq g _ h2 with h3 | h3
        · exact .inl ⟨g, t, h3⟩
        · exact .inr (.inl ⟨a, ha, by rw [hself]; exact h3⟩)
      · by_cases hia : i = a
        · subst hia
          rcases hhand id h2 with h3 | h3
          · exact .inr (.inl ⟨i, ha, by rw [hself]; exact h3⟩)
          · exact .inr (.inr h3)
        · exact .inr (.inl ⟨i, hi, by rw [hother i hia, hhan i]; exact h2⟩)
      · exact .inr (.inr (hran id h2))
    · exact .inl ⟨g, t, h1⟩

/-! ### Sleepers -/

theorem sl_same {n : Nat} (pc : Nat → PC T) {a : Nat} (ha : a < n) {p : PC T} (g : Grp) (h : slOne g p = slOne g (pc a)) : total n (slOne g) (upd pc a p) = total n (slOne g) pc := by
  have := total_upd (slOne g) pc ha p
  omega

theorem total_wk_le {n : Nat} {pc pc' : Nat → PC T} (h : Wk pc pc') (g : Grp) : total n (slOne g) pc' ≤ total n (slOne g) pc := by
  refine Finset.sum_le_sum fun i _ => ?_
  rcases h i with h1 | ⟨g', h1, h2⟩
  · rw [h1]
  · rw [h2]; simp [slOne, isAsleep]

theorem wk_upd {pc : Nat → PC T} {i : Nat} {g : Grp} (h : isAsleep g (pc i) = true) : Wk pc (upd pc i (.takeLock g)) := by
  intro j
  by_cases hj : j = i
  · subst hj
    right
    refine ⟨g, ?_, by simp [upd]⟩
    cases hp : pc j <;> rw [hp] at h <;> simp [isAsleep] at h
    rw [h]
  · left; simp [upd, hj]

theorem wk_broadcast (pc : Nat → PC T) (g : Grp) : Wk pc (broadcast pc g) := by
  intro j
  unfold broadcast
  split
  · next h =>
    right
    refine ⟨g, ?_, rfl⟩
    cases hp : pc j <;> rw [hp] at h <;> simp [isAsleep] at h
    rw [h]
  · exact .inl rfl

/-- A signal wakes one sleeper if there is one. -/
theorem signal_spec {P : Par T} {pc pc' : Nat → PC T} {g : Grp} {pick : Nat} (h : signal P pc g pick = some pc') :
    Wk pc pc' ∧ (total P.n (slOne g) pc' = 0 ∨ total P.n (slOne g) pc' + 1 = total P.n (slOne g) pc) := by
  unfold signal at h
  split at h
  · next h1 =>
    cases h
    refine ⟨wk_upd h1.2, .inr ?_⟩
    have := total_upd (slOne g) pc h1.1 (.takeLock g)
    simp only [slOne, h1.2] at this ⊢
    simp [isAsleep] at this ⊢
    exact this
  · split at h
    · cases h
    · next h1 =>
      cases h
      refine ⟨Wk.refl _, .inl ?_⟩
      rw [total_zero]
      intro i hi
      simp only [List.any_eq_true, List.mem_range, not_exists, not_and, Bool.not_eq_true] at h1
      simp [slOne, h1 i hi]

theorem sleepers_le {P : Par T} {s : State T} (h : Inv P s) (g : Grp) : total P.n (slOne g) s.pc ≤ workers P g := by
  refine Finset.sum_le_sum fun i hi => ?_
  unfold slOne
  split
  · next h1 =>
    have := h.fit i (Finset.mem_range.mp hi)
    cases hp : s.pc i <;> rw [hp] at h1 this <;> simp [isAsleep] at h1
    simp only [fits] at this
    rw [← h1, if_pos this]
  · exact Nat.zero_le _

/-- Another goal for steps that neither put to sleep nor wake anybody, nor add tasks. -/
theorem Inv.quiet {P : Par T} {s s' : State T} (h : Inv P s) {a : Nat} (ha : a < P.n) {p : PC T} (hpc : s'.pc = upd s.pc a p)
    (hp : ∀ g, isAsleep g p = false) (hb : ∀ g, isAsleep g (s.pc a) = false) (hq : ∀ g, (s'.q g).length ≤ (s.q g).length) (hst : s'.stop = s.stop) :
    (∀ g, total P.n (slOne g) s'.pc = 0 ∨ (s'.q g).length + total P.n (slOne g) s'.pc ≤ workers P g) ∧
    (∀ g, s'.stop g = true → total P.n (slOne g) s'.pc = 0) := by
  have he : ∀ g, total P.n (slOne g) s'.pc = total P.n (slOne g) s.pc := fun g => by
    rw [hpc]; exact sl_same _ ha g (by simp [slOne, hp, hb])
  constructor
  · intro g
    rw [he]
    rcases h.sleep g with h1 | h1
    · exact .inl h1
    · right; have := hq g; omega
  · intro g hg
    rw [he]; exact h.stopped g (hst ▸ hg)

/-- Steps that change only the lock and the place. -/
theorem Inv.plain {P : Par T} {s s' : State T} (h : Inv P s) {a : Nat} (ha : a < P.n) {p : PC T} (hpc : s'.pc = upd s.pc a p)
    (hlock : (s'.lock = s.lock ∧ holds p = holds (s.pc a)) ∨
      (∃ g, s.lock g = none ∧ s'.lock = upd s.lock g (some a) ∧ holds (s.pc a) = none ∧ holds p = some g) ∨
      (∃ g, holds (s.pc a) = some g ∧ s'.lock = upd s.lock g none ∧ holds p = none))
    (hfit : fits s.stop (P.role a) p) (hex : ex p = ex (s.pc a)) (hhand : hand p = hand (s.pc a))
    (hp : ∀ g, isAsleep g p = false) (hb : ∀ g, isAsleep g (s.pc a) = false)
    (e1 : s'.q = s.q) (e2 : s'.exec = s.exec) (e3 : s'.stop = s.stop) (e4 : s'.fresh = s.fresh) (e5 : s'.ran = s.ran) : Inv P s' := by
  obtain ⟨h1, h2⟩ := h.quiet ha hpc hp hb (fun g => by rw [e1]) e3
  exact h.next ha (Wk.refl _) rfl hpc hlock (by rw [e3]; exact hfit) (by rw [e3]; exact fun _ x => x) (by intro g; rw [e2]; simp [exOne, hex])
    (by rw [e4]; exact fun _ x => .inl x) (by rw [e1]; exact fun _ _ x => .inl x) (by rw [hhand]; exact fun _ x => .inl x) (by rw [e5]; exact fun _ x => x) h1 h2

theorem acquire_inv {P : Par T} {s s' : State T} (h : Inv P s) {a : Nat} (ha : a < P.n) {g : Grp} {p : PC T} (hs : s.acquire a g p = .ok s')
    (h1 : holds (s.pc a) = none) (h2 : holds p = some g) (hfit : fits s.stop (P.role a) p) (hex : ex p = ex (s.pc a)) (hhand : hand p = hand (s.pc a))
    (hp : ∀ g, isAsleep g p = false) (hb : ∀ g, isAsleep g (s.pc a) = false) : Inv P s' := by
  unfold State.acquire at hs
  split at hs
  · cases hs
  · next hl =>
    simp only [Res.ok.injEq] at hs
    subst hs
    exact h.plain ha rfl (.inr (.inl ⟨g, hl, rfl, h1, h2⟩)) hfit hex hhand hp hb rfl rfl rfl rfl rfl

theorem release_inv {P : Par T} {s s' : State T} (h : Inv P s) {a : Nat} (ha : a < P.n) {g : Grp} {p : PC T} (hs : s.release a g p = .ok s')
    (h1 : holds (s.pc a) = some g) (h2 : holds p = none) (hfit : fits s.stop (P.role a) p) (hex : ex p = ex (s.pc a)) (hhand : hand p = hand (s.pc a))
    (hp : ∀ g, isAsleep g p = false) (hb : ∀ g, isAsleep g (s.pc a) = false) : Inv P s' := by
  simp only [State.release, Res.ok.injEq] at hs
  subst hs
  exact h.plain ha rfl (.inr (.inr ⟨g, h1, rfl, h2⟩)) hfit hex hhand hp hb rfl rfl rfl rfl rfl

theorem inv_init (P : Par T) : Inv P (init P) := by
  have hh : ∀ a, holds ((init P).pc a) = none ∧ ex ((init P).pc a) = none ∧ ∀ g, isAsleep g ((init P).pc a) = false := fun a => by
    simp only [init]; split <;> simp [holds, ex, isAsleep]
  have hz : ∀ g, total P.n (slOne g) (init P).pc = 0 := fun g => total_zero.mpr fun i _ => by simp [slOne, (hh i).2.2 g]
  refine ⟨fun g a h => (by simp [init] at h), fun a _ g h => (by rw [(hh a).1] at h; cases h), ?_, ?_, fun id h => (by simp [init] at h), fun g => .inl (hz g), fun g _ => hz g⟩
  · intro a _
    simp only [init]
    split
    · next h => rw [h]; exact .inl rfl
    · next h => rw [h]; rfl
  · intro g
    symm
    show total P.n (exOne g) (init P).pc = 0
    exact total_zero.mpr fun i _ => by simp [exOne, (hh i).2.1]

theorem go_inv {P : Par T} {s s' : State T} (h : Inv P s) {a pick : Nat} (ha : a < P.n) (hs : go P s a pick = .ok s') : Inv P s' := by
  have hf := h.fit a ha
  unfold go at hs
  split at hs <;> rename_i hpc <;> (try rw [hpc] at hf) <;> try cases hs; done
  -- enqLock
  · exact acquire_inv h ha hs (by rw [hpc]; rfl) rfl hf (by rw [hpc]; rfl) (by rw [hpc]; rfl) (fun _ => rfl) (by rw [hpc]; exact fun _ => rfl)
  -- enqBody
  · rename_i g hd t r
    split at hs
    · cases hs
    · next pc' hsig =>
      simp only [Res.ok.injEq] at hs
      subst hs
      obtain ⟨hw, hz⟩ := signal_spec hsig
      have h0 : pc' a = s.pc a := by
        rcases hw a with h1 | ⟨_, h1, _⟩
        · exact h1
        · rw [hpc] at h1; cases h1
      have hlen : ∀ g', (upd s.q g (if hd then (s.fresh, t) :: s.q g else s.q g ++ [(s.fresh, t)]) g').length = (s.q g').length + if g' = g then 1 else 0 := by
        intro g'
        unfold upd
        split
        · next hg => subst hg; split <;> simp
        · simp
      have hsl : ∀ g', total P.n (slOne g') (upd pc' a (.enqUnlock g r)) = total P.n (slOne g') pc' := fun g' =>
        sl_same _ ha g' (by rw [h0, hpc]; rfl)
      refine h.next ha hw h0 rfl (.inl ⟨rfl, by rw [hpc]; rfl⟩) hf (fun _ x => x) (by intro g'; rw [hpc]; rfl) ?_ ?_ ?_ (fun _ x => x) ?_ ?_
      · intro id hid
        rcases Nat.lt_succ_iff_lt_or_eq.mp hid with h1 | h1
        · exact .inl h1
        · refine .inr ⟨g, t, ?_⟩
          simp only [State.goto, upd, if_true]
          subst h1
          split <;> simp
      · intro g' x hx
        left
        simp only [State.goto, upd]
        split
        · next hg => subst hg; split <;> simp [hx]
        · exact hx
      · intro id hid; rw [hpc] at hid; exact .inl hid
      · intro g'
        simp only [State.goto]
        rw [hsl g', hlen]
        by_cases hg : g' = g
        · subst hg
          rcases hz with h1 | h1
          · exact .inl h1
          · rcases h.sleep g' with h2 | h2
            · omega
            · right; simp only [if_true]; omega
        · have := total_wk_le (n := P.n) hw g'
          rcases h.sleep g' with h2 | h2
          · left; omega
          · right; simp only [if_neg hg]; omega
      · intro g' hg'
        simp only [State.goto]
        rw [hsl g']
        have := total_wk_le (n := P.n) hw g'
        have := h.stopped g' hg'
        omega
  -- enqUnlock
  · rename_i g r
    refine release_inv h ha hs (by rw [hpc]; rfl) (by cases r <;> rfl) ?_ (by rw [hpc]; cases r <;> rfl) (by rw [hpc]; cases r <;> rfl) (by cases r <;> exact fun _ => rfl) (by rw [hpc]; exact fun _ => rfl)
    cases r <;> exact hf
  -- takeLock
  · exact acquire_inv h ha hs (by rw [hpc]; rfl) rfl hf (by rw [hpc]; rfl) (by rw [hpc]; rfl) (fun _ => rfl) (by rw [hpc]; exact fun _ => rfl)
  -- takeBody
  · rename_i g
    split at hs
    · next h1 =>
      simp only [Res.ok.injEq] at hs
      subst hs
      exact h.plain ha rfl (.inl ⟨rfl, by rw [hpc]; rfl⟩) h1 (by rw [hpc]; rfl) (by rw [hpc]; rfl) (fun _ => rfl) (by rw [hpc]; exact fun _ => rfl) rfl rfl rfl rfl rfl
    · next h1 =>
      unfold take at hs
      split at hs
      · next id t rest hq =>
        simp only [Res.ok.injEq] at hs
        subst hs
        have hqq : ∀ g', (upd s.q g rest g').length ≤ (s.q g').length := fun g' => by
          unfold upd; split
          · next hg => subst hg; rw [hq]; simp
          · exact Nat.le_refl _
        obtain ⟨q1, q2⟩ := h.quiet (s' := { s with q := upd s.q g rest, exec := upd s.exec g (s.exec g + 1) }.goto a (.gotUnlock g id (P.spawn t))) ha rfl
          (fun _ => rfl) (by rw [hpc]; exact fun _ => rfl) hqq rfl
        refine h.next ha (Wk.refl _) rfl rfl (.inl ⟨rfl, by rw [hpc]; rfl⟩) hf (fun _ x => x) ?_ (fun _ x => .inl x) ?_ (by rw [hpc]; intro _ x; cases x) (fun _ x => x) q1 q2
        · intro g'
          rw [hpc]
          simp only [State.goto, upd, exOne, ex]
          by_cases hg : g' = g
          · subst hg; simp
          · simp [hg, Ne.symm hg]
        · intro g' x hx
          by_cases hg : g' = g
          · subst hg
            rw [hq] at hx
            rcases List.mem_cons.mp hx with rfl | hx
            · exact .inr rfl
            · left; simp [State.goto, upd, hx]
          · left; simp [State.goto, upd, hg, hx]
      · next hq =>
        split at hs
        · next hr =>
          simp only [State.release, Res.ok.injEq] at hs
          have hst : s.stop g = false := by
            cases hx : s.stop g
            · rfl
            · exact absurd ⟨hr, hx⟩ h1
          subst hs
          have hup : ∀ g', g' ≠ g → total P.n (slOne g') (upd s.pc a (.asleep g)) = total P.n (slOne g') s.pc := fun g' hg =>
            sl_same _ ha g' (by rw [hpc]; simp [slOne, isAsleep, Ne.symm hg])
          have hq' : s.q g = [] := hq
          refine h.next ha (Wk.refl _) rfl rfl (.inr (.inr ⟨g, by rw [hpc]; rfl, rfl, rfl⟩)) hr (fun _ x => x) (by intro g'; rw [hpc]; rfl) (fun _ x => .inl x)
            (fun _ _ x => .inl x) (by rw [hpc]; intro _ x; cases x) (fun _ x => x) ?_ ?_
          · intro g'
            show total P.n (slOne g') (upd s.pc a (.asleep g)) = 0 ∨ (s.q g').length + total P.n (slOne g') (upd s.pc a (.asleep g)) ≤ workers P g'
            by_cases hg : g' = g
            · subst hg
              right
              rw [hq', List.length_nil, Nat.zero_add]
              refine Finset.sum_le_sum fun i hi => ?_
              by_cases hia : i = a
              · subst hia; simp [upd, slOne, isAsleep, hr]
              · rw [upd, if_neg hia]
                unfold slOne
                split
                · next hsl =>
                  have := h.fit i (Finset.mem_range.mp hi)
                  cases hp : s.pc i <;> rw [hp] at hsl this <;> simp [isAsleep] at hsl
                  simp only [fits] at this
                  rw [← hsl, if_pos this]
                · exact Nat.zero_le _
            · rw [hup g' hg]; exact h.sleep g'
          · intro g' hg'
            show total P.n (slOne g') (upd s.pc a (.asleep g)) = 0
            have hne : g' ≠ g := by
              rintro rfl
              have : s.stop g' = true := hg'
              rw [hst] at this; cases this
            rw [hup g' hne]; exact h.stopped g' hg'
        · next hr =>
          simp only [Res.ok.injEq] at hs
          subst hs
          refine h.plain ha rfl (.inl ⟨rfl, by rw [hpc]; rfl⟩) ?_ (by rw [hpc]; rfl) (by rw [hpc]; rfl) (fun _ => rfl) (by rw [hpc]; exact fun _ => rfl) rfl rfl rfl rfl rfl
          exact hf.resolve_left hr
  -- noneUnlock
  · exact release_inv h ha hs (by rw [hpc]; rfl) rfl hf (by rw [hpc]; rfl) (by rw [hpc]; rfl) (fun _ => rfl) (by rw [hpc]; exact fun _ => rfl)
  -- gotUnlock
  · exact release_inv h ha hs (by rw [hpc]; rfl) rfl hf (by rw [hpc]; rfl) (by rw [hpc]; rfl) (fun _ => rfl) (by rw [hpc]; exact fun _ => rfl)
  -- running, more to enqueue
  · simp only [Res.ok.injEq] at hs
    subst hs
    exact h.plain ha rfl (.inl ⟨rfl, by rw [hpc]; rfl⟩) hf (by rw [hpc]; rfl) (by rw [hpc]; rfl) (fun _ => rfl) (by rw [hpc]; exact fun _ => rfl) rfl rfl rfl rfl rfl
  -- running, done
  · rename_i g id
    split at hs
    · next hr =>
      simp only [Res.ok.injEq] at hs
      subst hs
      obtain ⟨q1, q2⟩ := h.quiet (s' := { s with ran := id :: s.ran }.goto a (.backLock g)) ha rfl (fun _ => rfl) (by rw [hpc]; exact fun _ => rfl) (fun _ => Nat.le_refl _) rfl
      exact h.next ha (Wk.refl _) rfl rfl (.inl ⟨rfl, by rw [hpc]; rfl⟩) hr (fun _ x => x) (by intro g'; rw [hpc]; rfl) (fun _ x => .inl x)
        (fun _ _ x => .inl x) (by rw [hpc]; intro i x; cases x; exact .inr (List.mem_cons_self)) (fun _ x => List.mem_cons_of_mem _ x) q1 q2
    · next hr =>
      simp only [Res.ok.injEq] at hs
      subst hs
      obtain ⟨q1, q2⟩ := h.quiet (s' := { s with ran := id :: s.ran, exec := upd s.exec g (s.exec g - 1) }.goto a .idle) ha rfl (fun _ => rfl) (by rw [hpc]; exact fun _ => rfl)
        (fun _ => Nat.le_refl _) rfl
      refine h.next ha (Wk.refl _) rfl rfl (.inl ⟨rfl, by rw [hpc]; rfl⟩) (hf.resolve_left hr) (fun _ x => x) ?_ (fun _ x => .inl x)
        (fun _ _ x => .inl x) (by rw [hpc]; intro i x; cases x; exact .inr (List.mem_cons_self)) (fun _ x => List.mem_cons_of_mem _ x) q1 q2
      intro g'
      rw [hpc]
      simp only [State.goto, upd, exOne, ex]
      by_cases hg : g' = g
      · subst hg
        have h1 := h.exec g'
        have h2 : exOne g' (s.pc a) ≤ total P.n (exOne g') s.pc :=
          Finset.single_le_sum (f := fun i => exOne g' (s.pc i)) (fun _ _ => Nat.zero_le _) (Finset.mem_range.mpr ha)
        rw [hpc] at h2
        simp [exOne, ex] at h2
        simp
        omega
      · simp [hg, Ne.symm hg]
  -- backLock
  · exact acquire_inv h ha hs (by rw [hpc]; rfl) rfl hf (by rw [hpc]; rfl) (by rw [hpc]; rfl) (fun _ => rfl) (by rw [hpc]; exact fun _ => rfl)
  -- backBody
  · rename_i g
    simp only [Res.ok.injEq] at hs
    subst hs
    obtain ⟨q1, q2⟩ := h.quiet (s' := { s with exec := upd s.exec g (s.exec g - 1) }.goto a (.takeBody g)) ha rfl (fun _ => rfl) (by rw [hpc]; exact fun _ => rfl)
        (fun _ => Nat.le_refl _) rfl
    refine h.next ha (Wk.refl _) rfl rfl (.inl ⟨rfl, by rw [hpc]; rfl⟩) (.inl hf) (fun _ x => x) ?_ (fun _ x => .inl x)
        (fun _ _ x => .inl x) (by rw [hpc]; intro i x; cases x) (fun _ x => x) q1 q2
    intro g'
    rw [hpc]
    simp only [State.goto, upd, exOne, ex]
    by_cases hg : g' = g
    · subst hg
      have h1 := h.exec g'
      have h2 : exOne g' (s.pc a) ≤ total P.n (exOne g') s.pc :=
        Finset.single_le_sum (f := fun i => exOne g' (s.pc i)) (fun _ _ => Nat.zero_le _) (Finset.mem_range.mpr ha)
      rw [hpc] at h2
      simp [exOne, ex] at h2
      simp
      omega
    · simp [hg, Ne.symm hg]
  -- exitUnlock
  · exact release_inv h ha hs (by rw [hpc]; rfl) rfl ⟨_, hf⟩ (by rw [hpc]; rfl) (by rw [hpc]; rfl) (fun _ => rfl) (by rw [hpc]; exact fun _ => rfl)
  -- stopLock
  · exact acquire_inv h ha hs (by rw [hpc]; rfl) rfl hf (by rw [hpc]; rfl) (by rw [hpc]; rfl) (fun _ => rfl) (by rw [hpc]; exact fun _ => rfl)
  -- stopBody
  · rename_i g
    split at hs
    · cases hs
    · simp only [Res.ok.injEq] at hs
      subst hs
      have hw := wk_broadcast s.pc g
      have h0 : broadcast s.pc g a = s.pc a := by
        rcases hw a with h1 | ⟨_, h1, _⟩
        · exact h1
        · rw [hpc] at h1; cases h1
      have hsl : ∀ g', total P.n (slOne g') (upd (broadcast s.pc g) a (.stopUnlock g)) = total P.n (slOne g') (broadcast s.pc g) := fun g' =>
        sl_same _ ha g' (by rw [h0, hpc]; rfl)
      refine h.next ha hw h0 rfl (.inl ⟨rfl, by rw [hpc]; rfl⟩) ⟨hf, by simp [State.goto, upd]⟩ ?_ (by intro g'; rw [hpc]; rfl) (fun _ x => .inl x) (fun _ _ x => .inl x)
        (by rw [hpc]; intro i x; cases x) (fun _ x => x) ?_ ?_
      · intro g' x; simp only [State.goto, upd]; split
        · rfl
        · exact x
      · intro g'
        simp only [State.goto]
        rw [hsl g']
        have := total_wk_le (n := P.n) hw g'
        rcases h.sleep g' with h2 | h2
        · left; omega
        · right; omega
      · intro g' hg'
        simp only [State.goto] at hg' ⊢
        rw [hsl g']
        by_cases hg : g' = g
        · subst hg
          rw [total_zero]
          intro i _
          by_cases hx : isAsleep g' (s.pc i) = true
          · simp [slOne, broadcast, hx]; simp [isAsleep]
          · simp [slOne, broadcast, hx]
        · simp only [upd, if_neg hg] at hg'
          have := total_wk_le (n := P.n) hw g'
          have := h.stopped g' hg'
          omega
  -- stopUnlock
  · exact release_inv h ha hs (by rw [hpc]; rfl) rfl hf (by rw [hpc]; rfl) (by rw [hpc]; rfl) (fun _ => rfl) (by rw [hpc]; exact fun _ => rfl)
  -- join
  · split at hs
    · simp only [Res.ok.injEq] at hs
      subst hs
      exact h.plain ha rfl (.inl ⟨rfl, by rw [hpc]; rfl⟩) hf.1 (by rw [hpc]; rfl) (by rw [hpc]; rfl) (fun _ => rfl) (by rw [hpc]; exact fun _ => rfl) rfl rfl rfl rfl rfl
    · cases hs

theorem step_inv {P : Par T} {s s' : State T} (h : Inv P s) {a : Nat} (ha : a < P.n) {x : Act T} (hs : step P s a x = .ok s') : Inv P s' := by
  have hf := h.fit a ha
  cases x with
  | go pick => exact go_inv h ha hs
  | spurious =>
    simp only [step] at hs
    split at hs <;> rename_i hpc <;> try cases hs
    rename_i g
    rw [hpc] at hf
    have hw : Wk s.pc (upd s.pc a (.takeLock g)) := wk_upd (by rw [hpc]; simp [isAsleep])
    have hle := fun g' => total_wk_le (n := P.n) hw g'
    refine h.next ha (Wk.refl _) rfl rfl (.inl ⟨rfl, by rw [hpc]; rfl⟩) (.inl hf) (fun _ x => x) (by intro g'; rw [hpc]; rfl) (fun _ x => .inl x)
      (fun _ _ x => .inl x) (by rw [hpc]; intro i x; cases x) (fun _ x => x) ?_ ?_
    · intro g'
      show total P.n (slOne g') (upd s.pc a (.takeLock g)) = 0 ∨ (s.q g').length + total P.n (slOne g') (upd s.pc a (.takeLock g)) ≤ workers P g'
      have := hle g'
      rcases h.sleep g' with h2 | h2
      · left; omega
      · right; omega
    · intro g' hg'
      show total P.n (slOne g') (upd s.pc a (.takeLock g)) = 0
      have := hle g'
      have := h.stopped g' hg'
      omega
  | enqueue g hd t =>
    simp only [step] at hs
    split at hs <;> rename_i hpc <;> try cases hs
    rw [hpc] at hf
    exact h.plain ha rfl (.inl ⟨rfl, by rw [hpc]; rfl⟩) hf (by rw [hpc]; rfl) (by rw [hpc]; rfl) (fun _ => rfl) (by rw [hpc]; exact fun _ => rfl) rfl rfl rfl rfl rfl
  | perform g =>
    simp only [step] at hs
    split at hs <;> rename_i hpc <;> try cases hs
    rw [hpc] at hf
    exact h.plain ha rfl (.inl ⟨rfl, by rw [hpc]; rfl⟩) (.inr hf) (by rw [hpc]; rfl) (by rw [hpc]; rfl) (fun _ => rfl) (by rw [hpc]; exact fun _ => rfl) rfl rfl rfl rfl rfl
  | stop g =>
    simp only [step] at hs
    split at hs <;> rename_i hpc <;> try cases hs
    rw [hpc] at hf
    exact h.plain ha rfl (.inl ⟨rfl, by rw [hpc]; rfl⟩) hf (by rw [hpc]; rfl) (by rw [hpc]; rfl) (fun _ => rfl) (by rw [hpc]; exact fun _ => rfl) rfl rfl rfl rfl rfl

theorem Reachable.inv {P : Par T} {s : State T} (h : Reachable P s) : Inv P s := by
  induction h with
  | init => exact inv_init P
  | step a x _ ha hs ih => exact step_inv ih ha hs

/-! ### Steps left -/

/-- What a task costs, with all that it enqueues. -/
structure Cost (P : Par T) where
  c : T → Nat
  le : ∀ t, 6 + ((P.spawn t).map fun x => c x.2.2 + 7).sum ≤ c t

/-- Tasks do not enqueue tasks for ever. -/
def Finite (P : Par T) : Prop := WellFounded fun t u : T => ∃ x ∈ P.spawn u, x.2.2 = t

theorem Finite.cost {P : Par T} (h : Finite P) : Nonempty (Cost P) := by
  have h : WellFounded fun t u : T => ∃ x ∈ P.spawn u, x.2.2 = t := h
  let c : T → Nat := h.fix fun u rec => 6 + ((P.spawn u).attach.map fun x => rec x.1.2.2 ⟨x.1, x.2, rfl⟩ + 7).sum
  refine ⟨⟨c, fun t => ?_⟩⟩
  have hc : c t = 6 + ((P.spawn t).attach.map fun x => c x.1.2.2 + 7).sum := by
    show h.fix _ t = _
    rw [WellFounded.fix_eq]
  have : (P.spawn t).map (fun x => c x.2.2 + 7) = (P.spawn t).attach.map (fun x => c x.1.2.2 + 7) := by
    conv_lhs => rw [← List.attach_map_subtype_val (P.spawn t)]
    rw [List.map_map]; rfl
  rw [this, hc]

variable {P : Par T}

def Cost.spawn (C : Cost P) (l : Spawn T) : Nat := (l.map fun x => C.c x.2.2 + 7).sum

def Cost.ret (C : Cost P) : Ret T → Nat
  | .call => 0
  | .task _ _ rest => C.spawn rest + 6

/-- Steps that a thread still makes. -/
def Cost.pc (C : Cost P) : PC T → Nat
  | .idle | .asleep _ | .exited => 0
  | .enqLock _ _ t r => C.c t + 6 + C.ret r
  | .enqBody _ _ t r => C.c t + 5 + C.ret r
  | .enqUnlock _ r => 1 + C.ret r
  | .takeLock _ => 3
  | .takeBody _ => 2
  | .noneUnlock _ => 1
  | .gotUnlock _ _ l => C.spawn l + 7
  | .running _ _ l => C.spawn l + 6
  | .backLock _ => 4
  | .backBody _ => 3
  | .exitUnlock _ => 1
  | .stopLock _ => 3 * P.n + 4
  | .stopBody _ => 3 * P.n + 3
  | .stopUnlock _ => 2
  | .join _ => 1

def Cost.queue (C : Cost P) (q : List (Nat × T)) : Nat := (q.map fun x => C.c x.2).sum

def Cost.all (C : Cost P) (s : State T) : Nat := C.queue (s.q .memtable) + C.queue (s.q .normal) + total P.n C.pc s.pc

theorem queue_upd (C : Cost P) (q : Grp → List (Nat × T)) (g : Grp) (l : List (Nat × T)) :
    C.queue (upd q g l .memtable) + C.queue (upd q g l .normal) + C.queue (q g) = C.queue (q .memtable) + C.queue (q .normal) + C.queue l := by
  cases g <;> simp [upd] <;> omega

theorem total_goto (C : Cost P) (pc : Nat → PC T) {a : Nat} (ha : a < P.n) {p : PC T} (h : C.pc p < C.pc (pc a)) : total P.n C.pc (upd pc a p) < total P.n C.pc pc := by
  have := total_upd C.pc pc ha p
  omega

theorem signal_cost (C : Cost P) {pc pc' : Nat → PC T} {g : Grp} {pick : Nat} (h : signal P pc g pick = some pc') : total P.n C.pc pc' ≤ total P.n C.pc pc + 3 := by
  unfold signal at h
  split at h
  · next h1 =>
    cases h
    have := total_upd C.pc pc h1.1 (.takeLock g)
    simp only [Cost.pc] at this
    omega
  · split at h
    · cases h
    · cases h; omega

theorem broadcast_cost (C : Cost P) (pc : Nat → PC T) (g : Grp) : total P.n C.pc (broadcast pc g) ≤ total P.n C.pc pc + 3 * P.n := by
  have : total P.n C.pc (broadcast pc g) ≤ ∑ i ∈ Finset.range P.n, (C.pc (pc i) + 3) := by
    refine Finset.sum_le_sum fun i _ => ?_
    unfold broadcast
    split
    · simp only [Cost.pc]; omega
    · omega
  rw [Finset.sum_add_distrib] at this
  rw [Finset.sum_const_nat (fun _ _ => rfl), Finset.card_range] at this
  unfold total at this ⊢
  omega

theorem go_cost (C : Cost P) {s s' : State T} {a pick : Nat} (ha : a < P.n) (hs : go P s a pick = .ok s') : C.all s' < C.all s := by
  have hacq : ∀ g p, s.acquire a g p = .ok s' → C.pc p < C.pc (s.pc a) → C.all s' < C.all s := by
    intro g p hs hc
    unfold State.acquire at hs
    split at hs
    · cases hs
    · simp only [Res.ok.injEq] at hs
      subst hs
      exact Nat.add_lt_add_left (total_goto C s.pc ha hc) _
  have hrel : ∀ g p, s.release a g p = .ok s' → C.pc p < C.pc (s.pc a) → C.all s' < C.all s := by
    intro g p hs hc
    simp only [State.release, Res.ok.injEq] at hs
    subst hs
    exact Nat.add_lt_add_left (total_goto C s.pc ha hc) _
  unfold go at hs
  split at hs <;> rename_i hpc <;> try cases hs; done
  · exact hacq _ _ hs (by rw [hpc]; simp [Cost.pc])
  · rename_i g hd t r
    split at hs
    · cases hs
    · next pc' hsig =>
      simp only [Res.ok.injEq] at hs
      subst hs
      have h1 := signal_cost C hsig
      have h0 : pc' a = s.pc a := by
        rcases (signal_spec hsig).1 a with h1 | ⟨_, h1, _⟩
        · exact h1
        · rw [hpc] at h1; cases h1
      have h2 := total_upd C.pc pc' ha (.enqUnlock g r)
      have h3 := queue_upd C s.q g (if hd then (s.fresh, t) :: s.q g else s.q g ++ [(s.fresh, t)])
      have h4 : C.queue (if hd then (s.fresh, t) :: s.q g else s.q g ++ [(s.fresh, t)]) = C.queue (s.q g) + C.c t := by
        split <;> simp [Cost.queue] <;> omega
      rw [h0, hpc] at h2
      simp only [Cost.pc, Cost.all, State.goto] at h2 ⊢
      omega
  · rename_i g r
    exact hrel _ _ hs (by rw [hpc]; cases r <;> simp [Ret.pc, Cost.pc, Cost.ret])
  · exact hacq _ _ hs (by rw [hpc]; simp [Cost.pc])
  · rename_i g
    split at hs
    · simp only [Res.ok.injEq] at hs
      subst hs
      exact Nat.add_lt_add_left (total_goto C s.pc ha (by rw [hpc]; simp [Cost.pc])) _
    · unfold take at hs
      split at hs
      · next id t rest hq =>
        simp only [Res.ok.injEq] at hs
        subst hs
        have h2 := total_upd C.pc s.pc ha (.gotUnlock g id (P.spawn t))
        have h3 := queue_upd C s.q g rest
        have h4 : C.queue (s.q g) = C.c t + C.queue rest := by rw [hq]; simp [Cost.queue]
        have h5 := C.le t
        rw [hpc] at h2
        simp only [Cost.pc, Cost.all, State.goto, Cost.spawn] at h2 ⊢
        omega
      · split at hs
        · exact hrel _ _ hs (by rw [hpc]; simp [Cost.pc])
        · simp only [Res.ok.injEq] at hs
          subst hs
          exact Nat.add_lt_add_left (total_goto C s.pc ha (by rw [hpc]; simp [Cost.pc])) _
  · exact hrel _ _ hs (by rw [hpc]; simp [Cost.pc])
  · exact hrel _ _ hs (by rw [hpc]; simp [Cost.pc])
  · simp only [Res.ok.injEq] at hs
    subst hs
    exact Nat.add_lt_add_left (total_goto C s.pc ha (by rw [hpc]; simp [Cost.pc, Cost.ret, Cost.spawn]; omega)) _
  · split at hs <;> simp only [Res.ok.injEq] at hs <;> subst hs <;>
      exact Nat.add_lt_add_left (total_goto C s.pc ha (by rw [hpc]; simp [Cost.pc])) _
  · exact hacq _ _ hs (by rw [hpc]; simp [Cost.pc])
  · simp only [Res.ok.injEq] at hs
    subst hs
    exact Nat.add_lt_add_left (total_goto C s.pc ha (by rw [hpc]; simp [Cost.pc])) _
  · exact hrel _ _ hs (by rw [hpc]; simp [Cost.pc])
  · exact hacq _ _ hs (by rw [hpc]; simp [Cost.pc])
  · rename_i g
    split at hs
    · cases hs
    · simp only [Res.ok.injEq] at hs
      subst hs
      have h0 : broadcast s.pc g a = s.pc a := by
        rcases wk_broadcast s.pc g a with h1 | ⟨_, h1, _⟩
        · exact h1
        · rw [hpc] at h1; cases h1
      have h1 := broadcast_cost C s.pc g
      have h2 := total_upd C.pc (broadcast s.pc g) ha (.stopUnlock g)
      rw [h0, hpc] at h2
      simp only [Cost.pc, Cost.all, State.goto] at h2 ⊢
      omega
  · exact hrel _ _ hs (by rw [hpc]; simp [Cost.pc])
  · split at hs
    · simp only [Res.ok.injEq] at hs
      subst hs
      exact Nat.add_lt_add_left (total_goto C s.pc ha (by rw [hpc]; simp [Cost.pc])) _
    · cases hs

end Splinter.TaskWake
