import Verif.Model.Shmem
import Mathlib.Tactic.Tauto

/-! # The invariant of the shared memory heap -/
namespace Splinter.Shmem

/-- The environment is as `platform_shmcreate` makes it. -/
structure Env.Ok (e : Env) : Prop where
  basePos : 0 < e.base
  baseAlign : e.base % 64 = 0
  baseStop : e.base ≤ e.stop
  stopW : e.stop < W
  largePos : 0 < e.large
  pid : ∀ t, e.pid t ≠ 0

/-- The sizes that clients ask for: positive, padded to cache lines, and so small that the end of a fragment is an address. -/
def goodSize (e : Env) (size : Nat) : Bool := 0 < size && size % 64 = 0 && e.stop + size < W

/-- The fragment that a thread is returning or freeing. -/
def own : Pc → Option (Nat × Nat)
  | .track p s => some (p, s)
  | .ret p s => if p = 0 then none else some (p, s)
  | .free1 p s => some (p, s)
  | .free2 p s => some (p, s)
  | _ => none

/-- The size that a thread is asking for. -/
def asks : Pc → Option Nat
  | .start n => some n
  | .find n => some n
  | .bump n => some n
  | .added _ n => some n
  | _ => none

/-- The blocks cut from the segment, the last one first, are adjacent. -/
def Stack (base : Nat) : List (Nat × Nat) → Nat → Prop
  | [], top => top = base
  | (p, b) :: r, top => 0 < b ∧ b % 64 = 0 ∧ top = p + b ∧ Stack base r p

theorem stack_base {base : Nat} {l : List (Nat × Nat)} {top : Nat} (h : Stack base l top) : base ≤ top := by
  induction l generalizing top with
  | nil => simp only [Stack] at h; omega
  | cons a l ih => obtain ⟨p, b⟩ := a; obtain ⟨_, _, h1, h2⟩ := h; have := ih h2; omega

theorem stack_align {base : Nat} {l : List (Nat × Nat)} {top : Nat} (h : Stack base l top) (hb : base % 64 = 0) :
    top % 64 = 0 := by
  induction l generalizing top with
  | nil => simp only [Stack] at h; omega
  | cons a l ih => obtain ⟨p, b⟩ := a; obtain ⟨_, _, h1, h2⟩ := h; have := ih h2; omega

theorem stack_mem {base : Nat} {l : List (Nat × Nat)} {top : Nat} (h : Stack base l top) {p b : Nat} (hm : (p, b) ∈ l) :
    base ≤ p ∧ p + b ≤ top ∧ 0 < b := by
  induction l generalizing top with
  | nil => simp at hm
  | cons a l ih =>
    obtain ⟨q, c⟩ := a
    obtain ⟨h0, _, h1, h2⟩ := h
    rcases List.mem_cons.1 hm with hm | hm
    · simp only [Prod.mk.injEq] at hm
      obtain ⟨rfl, rfl⟩ := hm
      exact ⟨stack_base h2, by omega, h0⟩
    · have := ih h2 hm
      omega

/-- Two blocks are the same or disjoint. -/
theorem stack_disjoint {base : Nat} {l : List (Nat × Nat)} {top : Nat} (h : Stack base l top) {p b q c : Nat}
    (hm : (p, b) ∈ l) (hn : (q, c) ∈ l) : (p = q ∧ b = c) ∨ p + b ≤ q ∨ q + c ≤ p := by
  induction l generalizing top with
  | nil => simp at hm
  | cons a l ih =>
    obtain ⟨r, d⟩ := a
    obtain ⟨h0, _, h1, h2⟩ := h
    rcases List.mem_cons.1 hm with hm | hm <;> rcases List.mem_cons.1 hn with hn | hn
    · simp only [Prod.mk.injEq] at hm hn; omega
    · have := stack_mem h2 hn; simp only [Prod.mk.injEq] at hm; omega
    · have := stack_mem h2 hm; simp only [Prod.mk.injEq] at hn; omega
    · exact ih h2 hm hn

theorem stack_inj {base : Nat} {l : List (Nat × Nat)} {top : Nat} (h : Stack base l top) {p b c : Nat}
    (hm : (p, b) ∈ l) (hn : (p, c) ∈ l) : b = c := by
  have := stack_disjoint h hm hn
  have := stack_mem h hm
  have := stack_mem h hn
  omega

/-- The invariant, with the blocks that have been cut and the end of the last of them. -/
structure Inv (e : Env) (s : State) (blocks : List (Nat × Nat)) (top : Nat) : Prop where
  iCrashed : s.crashed = false
  iStack : Stack e.base blocks top
  iTopStop : top ≤ e.stop
  iLast : s.last = 0 ∨ ∃ b r, blocks = (s.last, b) :: r
  iUnlocked : s.lock = none → s.next = top
  iLocked : ∀ t, s.lock = some t → ∃ n, s.pc t = .added top n ∧ s.next = (top + n) % W
  iAdded : ∀ t p n, s.pc t = .added p n → s.lock = some t
  iAsks : ∀ t n, asks (s.pc t) = some n → goodSize e n = true
  iFind : ∀ t n, s.pc t = .find n → e.large ≤ n
  iHeld : ∀ p n, (p, n) ∈ s.held → ∃ b, (p, b) ∈ blocks ∧ n ≤ b
  iHeldOnce : s.held.Pairwise (fun a b => a.1 ≠ b.1)
  iOwn : ∀ t p n, own (s.pc t) = some (p, n) → (∃ b, (p, b) ∈ blocks ∧ n ≤ b) ∧ (∀ m, (p, m) ∉ s.held)
  iOwnOnce : ∀ t u p n m, own (s.pc t) = some (p, n) → own (s.pc u) = some (p, m) → t = u
  iTrack : ∀ t p n, s.pc t = .track p n → (p, n) ∈ blocks ∧ e.large ≤ n ∧ ∀ f ∈ s.frags, f.addr ≠ p
  iFrags : ∀ f ∈ s.frags, f.addr ≠ 0 → (f.addr, f.size) ∈ blocks ∧ e.large ≤ f.size ∧ (f.freedPid = 0 → f.freedTid = 0) ∧
    (f.freedPid ≠ 0 → (∀ m, (f.addr, m) ∉ s.held) ∧ ∀ t m, own (s.pc t) ≠ some (f.addr, m))
  iFragsOnce : s.frags.Pairwise (fun f g => f.addr ≠ 0 → f.addr ≠ g.addr)
  iUsed : s.used = top - e.base
  iFree : s.free = e.stop - top
  /-- tracked fragments are below the highest one -/
  iHip : ∀ f ∈ s.frags, f.addr ≤ s.hip

theorem inv_init (e : Env) (he : e.Ok) : Inv e (init e) [] e.base where
  iCrashed := rfl
  iStack := rfl
  iTopStop := he.baseStop
  iLast := Or.inl rfl
  iUnlocked _ := rfl
  iLocked t h := by simp [init] at h
  iAdded t p n h := by simp [init] at h
  iAsks t n h := by simp [init, asks] at h
  iFind t n h := by simp [init] at h
  iHeld p n h := by simp [init] at h
  iHeldOnce := List.Pairwise.nil
  iOwn t p n h := by simp [init, own] at h
  iOwnOnce t u p n m h := by simp [init, own] at h
  iTrack t p n h := by simp [init] at h
  iFrags f hf h := by
    have := List.eq_of_mem_replicate hf
    subst this
    simp at h
  iFragsOnce := by
    simp only [init]
    rw [List.pairwise_replicate]; simp
  iUsed := by simp [init]
  iFree := rfl
  iHip f hf := by
    have := List.eq_of_mem_replicate hf
    subst this
    simp

/-- The search returns a free slot that is large enough; slots that it passes and that are in use have no freeing thread. -/
theorem findLarge_spec {size : Nat} {fs : List Slot} {i : Nat} (h : ∀ f ∈ fs, f.addr ≠ 0 → f.freedPid = 0 → f.freedTid = 0) :
    findLarge size fs i ≠ .crash ∧
    (findLarge size fs i = .none → ∀ f ∈ fs, f.addr ≠ 0 → size ≤ f.size → f.freedPid = 0) ∧
    ∀ j, findLarge size fs i = .at j → ∃ k, j = i + k ∧ ∃ hk : k < fs.length,
      fs[k].addr ≠ 0 ∧ size ≤ fs[k].size ∧ fs[k].freedPid ≠ 0 := by
  induction fs generalizing i with
  | nil => simp [findLarge]
  | cons f fs ih =>
    have ih' := ih (i := i + 1) (fun g hg => h g (List.mem_cons_of_mem _ hg))
    have shift : ∀ j, findLarge size fs (i + 1) = .at j → ∃ k, j = i + k ∧ ∃ hk : k < (f :: fs).length,
        (f :: fs)[k].addr ≠ 0 ∧ size ≤ (f :: fs)[k].size ∧ (f :: fs)[k].freedPid ≠ 0 := by
      intro j hj
      obtain ⟨k, e1, hk, e2⟩ := ih'.2.2 j hj
      exact ⟨k + 1, by omega, by simp; omega, by simpa using e2⟩
    unfold findLarge
    split
    · refine ⟨ih'.1, fun hn g hg h1 h2 => ?_, shift⟩
      rcases List.mem_cons.1 hg with rfl | hg
      · omega
      · exact ih'.2.1 hn g hg h1 h2
    · split
      · rename_i h1 h2
        rw [if_pos (h f (List.mem_cons_self ..) (by omega) h2)]
        refine ⟨ih'.1, fun hn g hg h1 h2 => ?_, shift⟩
        rcases List.mem_cons.1 hg with rfl | hg
        · assumption
        · exact ih'.2.1 hn g hg h1 h2
      · refine ⟨by simp, by simp, fun j hj => ⟨0, ?_, by simp, ?_⟩⟩
        · simp only [Found.at.injEq] at hj; omega
        · simp only [List.getElem_cons_zero]; omega

theorem trackSlot_spec {ptr : Nat} {fs : List Slot} {i : Nat} (h : ∀ f ∈ fs, f.addr ≠ ptr) :
    trackSlot ptr fs i ≠ .crash ∧ ∀ j, trackSlot ptr fs i = .at j → ∃ k, j = i + k ∧ ∃ hk : k < fs.length, fs[k].addr = 0 := by
  induction fs generalizing i with
  | nil => simp [trackSlot]
  | cons f fs ih =>
    have ih' := ih (i := i + 1) (fun g hg => h g (List.mem_cons_of_mem _ hg))
    unfold trackSlot
    split
    · refine ⟨by simp, fun j hj => ⟨0, ?_, by simp, by simpa⟩⟩
      simp only [Found.at.injEq] at hj; omega
    · rw [if_neg (h f (List.mem_cons_self ..))]
      refine ⟨ih'.1, fun j hj => ?_⟩
      obtain ⟨k, e1, hk, e2⟩ := ih'.2 j hj
      exact ⟨k + 1, by omega, by simp; omega, by simpa using e2⟩

theorem freeSlot_spec {ptr : Nat} {fs : List Slot} {i : Nat} :
    freeSlot ptr fs i ≠ .crash ∧ (freeSlot ptr fs i = .none → ∀ f ∈ fs, f.addr ≠ 0 → f.addr ≠ ptr) ∧
    ∀ j, freeSlot ptr fs i = .at j → ∃ k, j = i + k ∧ ∃ hk : k < fs.length, fs[k].addr = ptr ∧ ptr ≠ 0 := by
  induction fs generalizing i with
  | nil => simp [freeSlot]
  | cons f fs ih =>
    have ih' := ih (i := i + 1)
    unfold freeSlot
    split
    · refine ⟨ih'.1, fun hn g hg h1 => ?_, fun j hj => ?_⟩
      · rcases List.mem_cons.1 hg with rfl | hg
        · omega
        · exact ih'.2.1 hn g hg h1
      · obtain ⟨k, e1, hk, e2⟩ := ih'.2.2 j hj
        exact ⟨k + 1, by omega, by simp; omega, by simpa using e2⟩
    · refine ⟨by simp, by simp, fun j hj => ⟨0, ?_, by simp, ?_⟩⟩
      · simp only [Found.at.injEq] at hj; omega
      · simp only [List.getElem_cons_zero]; omega

theorem mem_modify {fs : List Slot} {i : Nat} {g : Slot → Slot} {f : Slot} (hi : i < fs.length) (h : f ∈ fs.modify i g) :
    f = g fs[i] ∨ ∃ j, ∃ hj : j < fs.length, j ≠ i ∧ f = fs[j] := by
  obtain ⟨j, hj, rfl⟩ := List.mem_iff_getElem.1 h
  rw [List.getElem_modify]
  rw [List.length_modify] at hj
  split
  · rename_i h; subst h; exact Or.inl rfl
  · exact Or.inr ⟨j, hj, by omega, rfl⟩

/-- Slots in use have different addresses. -/
theorem slot_ne {fs : List Slot} (h : fs.Pairwise (fun f g => f.addr ≠ 0 → f.addr ≠ g.addr)) {i j : Nat} (hi : i < fs.length)
    (hj : j < fs.length) (hne : j ≠ i) (hz : fs[i].addr ≠ 0) : fs[j].addr ≠ fs[i].addr := by
  have := List.pairwise_iff_getElem.1 h
  rcases Nat.lt_or_gt_of_ne hne with hlt | hgt
  · have := this j i hj hi hlt
    intro heq
    exact this (by rw [heq]; exact hz) heq
  · have := this i j hi hj hgt hz
    exact fun heq => this heq.symm

/-- Distinct addresses stay distinct when one slot is changed to an address that no other slot has. -/
theorem pairwise_modify {fs : List Slot} {i : Nat} {g : Slot → Slot} (hi : i < fs.length)
    (h : fs.Pairwise (fun f g => f.addr ≠ 0 → f.addr ≠ g.addr))
    (hg : ∀ j (hj : j < fs.length), j ≠ i → fs[j].addr ≠ (g fs[i]).addr ∨ (fs[j].addr = 0 ∧ (g fs[i]).addr = 0)) :
    (fs.modify i g).Pairwise (fun f g => f.addr ≠ 0 → f.addr ≠ g.addr) := by
  rw [List.pairwise_iff_getElem] at h ⊢
  intro a b ha hb hab
  rw [List.length_modify] at ha hb
  rw [List.getElem_modify, List.getElem_modify]
  have := h a b ha hb hab
  split <;> split
  · omega
  · rename_i h1 h2; subst h1; rcases hg b hb (by omega) with h3 | h3 <;> intro h4 <;> omega
  · rename_i h1 h2; subst h2; rcases hg a ha (by omega) with h3 | h3 <;> intro h4 <;> omega
  · exact this

/-- Fields of a state in which one thread has moved. -/
theorem setPc_pc (s : State) (t : Nat) (p : Pc) (u : Nat) : (s.setPc t p).pc u = if u = t then p else s.pc u := rfl

/-- A step that only moves a thread, which neither takes nor gives up a fragment or the lock. -/
theorem inv_move {e : Env} {s : State} {bl : List (Nat × Nat)} {top : Nat} (h : Inv e s bl top) {t : Nat} {p : Pc}
    (h1 : own p = own (s.pc t) ∨ own p = none) (h2 : ∀ n, asks p = some n → goodSize e n = true)
    (h3 : ∀ q n, s.pc t ≠ .added q n) (h4 : ∀ q n, p ≠ .added q n) (h5 : ∀ n, p = .find n → e.large ≤ n)
    (h6 : ∀ q n, p ≠ .track q n) : Inv e (s.setPc t p) bl top where
  iCrashed := h.iCrashed
  iStack := h.iStack
  iTopStop := h.iTopStop
  iLast := h.iLast
  iUnlocked := h.iUnlocked
  iLocked u hu := by
    have := h.iLocked u hu
    rw [setPc_pc]
    split
    · rename_i hut; subst hut; obtain ⟨n, e1, _⟩ := this; exact absurd e1 (h3 _ _)
    · exact this
  iAdded u q n hu := by
    rw [setPc_pc] at hu
    split at hu
    · exact absurd hu (h4 _ _)
    · exact h.iAdded u q n hu
  iAsks u n hu := by
    rw [setPc_pc] at hu
    split at hu
    · exact h2 n hu
    · exact h.iAsks u n hu
  iFind u n hu := by
    rw [setPc_pc] at hu
    split at hu
    · exact h5 n hu
    · exact h.iFind u n hu
  iHeld := h.iHeld
  iHeldOnce := h.iHeldOnce
  iOwn u q n hu := by
    rw [setPc_pc] at hu
    split at hu
    · rcases h1 with h1 | h1
      · rw [h1] at hu; exact h.iOwn t q n hu
      · rw [h1] at hu; simp at hu
    · exact h.iOwn u q n hu
  iOwnOnce u v q n m hu hv := by
    have := h.iOwnOnce
    rw [setPc_pc] at hu hv
    split at hu <;> split at hv
    · omega
    · rcases h1 with h1 | h1
      · rw [h1] at hu; have := this t v q n m hu hv; omega
      · rw [h1] at hu; simp at hu
    · rcases h1 with h1 | h1
      · rw [h1] at hv; have := this t u q m n hv hu; omega
      · rw [h1] at hv; simp at hv
    · exact this u v q n m hu hv
  iTrack u q n hu := by
    rw [setPc_pc] at hu
    split at hu
    · exact absurd hu (h6 _ _)
    · exact h.iTrack u q n hu
  iFrags f hf hz := by
    obtain ⟨a, b, c, d⟩ := h.iFrags f hf hz
    refine ⟨a, b, c, fun hp => ⟨(d hp).1, fun u m hu => ?_⟩⟩
    rw [setPc_pc] at hu
    split at hu
    · rcases h1 with h1 | h1
      · rw [h1] at hu; exact (d hp).2 t m hu
      · rw [h1] at hu; simp at hu
    · exact (d hp).2 u m hu
  iFragsOnce := h.iFragsOnce
  iUsed := h.iUsed
  iFree := h.iFree
  iHip := h.iHip

theorem good_iff {e : Env} {n : Nat} : goodSize e n = true ↔ 0 < n ∧ n % 64 = 0 ∧ e.stop + n < W := by
  simp [goodSize, and_assoc]

/-- The value of `shm_next` is aligned at every moment. -/
theorem next_aligned {e : Env} (he : e.Ok) {s : State} {bl : List (Nat × Nat)} {top : Nat} (h : Inv e s bl top) :
    s.next % 64 = 0 := by
  have ha := stack_align h.iStack he.baseAlign
  cases hl : s.lock with
  | none => rw [h.iUnlocked hl]; exact ha
  | some t =>
    obtain ⟨n, e1, e2⟩ := h.iLocked t hl
    have hg := h.iAsks t n (by rw [e1]; rfl)
    rw [good_iff] at hg
    have := h.iTopStop
    have hw : top + n < W := Nat.lt_of_le_of_lt (by omega) hg.2.2
    rw [e2, Nat.mod_eq_of_lt hw]
    omega

/-- The blocks after one step: unchanged, one more, or one less. -/
theorem inv_go {e : Env} (he : e.Ok) {s s' : State} {bl : List (Nat × Nat)} {top : Nat} (h : Inv e s bl top) {t : Nat}
    (hg : go e s t = some s') : ∃ bl' top', Inv e s' bl' top' := by
  unfold go at hg
  split at hg
  · simp at hg
  · -- start
    rename_i size hpc
    rw [if_neg (by have := next_aligned he h; omega)] at hg
    have hn := h.iAsks t size (by rw [hpc]; rfl)
    split at hg <;> (simp only [Option.some.injEq] at hg; subst hg)
    · exact ⟨bl, top, inv_move h (Or.inr rfl) (by simpa [asks] using hn) (by simp [hpc]) (by simp) (by rintro n ⟨⟩; omega) (by simp)⟩
    · exact ⟨bl, top, inv_move h (Or.inr rfl) (by simpa [asks] using hn) (by simp [hpc]) (by simp) (by simp) (by simp)⟩
  · -- find
    rename_i size hpc
    have hn := h.iAsks t size (by rw [hpc]; rfl)
    have hf := findLarge_spec (size := size) (fs := s.frags) (i := 0) (fun f hf hz => (h.iFrags f hf hz).2.2.1)
    split at hg
    · rename_i hc; exact absurd hc hf.1
    · simp only [Option.some.injEq] at hg; subst hg
      exact ⟨bl, top, inv_move h (Or.inr rfl) (by simpa [asks] using hn) (by simp [hpc]) (by simp) (by simp) (by simp)⟩
    · rename_i i hc
      simp only [Option.some.injEq] at hg; subst hg
      obtain ⟨k, hk, hl, h1, h2, h3⟩ := hf.2.2 i hc
      have hik : k = i := by omega
      subst hik
      have hget : s.frags.getD k ⟨0, 0, 0, 0⟩ = s.frags[k] := by simp [List.getD, hl]
      rw [hget]
      have hmem : s.frags[k] ∈ s.frags := List.getElem_mem _
      obtain ⟨a1, a2, a3, a4⟩ := h.iFrags _ hmem h1
      have a4 := a4 h3
      refine ⟨bl, top, h.iCrashed, h.iStack, h.iTopStop, h.iLast, h.iUnlocked, ?_, ?_, ?_, ?_, h.iHeld, h.iHeldOnce, ?_, ?_, ?_,
        ?_, ?_, h.iUsed, h.iFree, ?_⟩
      · intro u hu
        have := h.iLocked u hu
        rw [setPc_pc]
        split
        · rename_i hut; subst hut; rw [hpc] at this; simp at this
        · exact this
      · intro u q n hu
        rw [setPc_pc] at hu
        split at hu
        · simp at hu
        · exact h.iAdded u q n hu
      · intro u n hu
        rw [setPc_pc] at hu
        split at hu
        · simp [asks] at hu
        · exact h.iAsks u n hu
      · intro u n hu
        rw [setPc_pc] at hu
        split at hu
        · simp at hu
        · exact h.iFind u n hu
      · intro u q n hu
        rw [setPc_pc] at hu
        split at hu
        · simp only [own, h1, if_false, Option.some.injEq, Prod.mk.injEq] at hu
          obtain ⟨rfl, rfl⟩ := hu
          exact ⟨⟨_, a1, h2⟩, a4.1⟩
        · exact h.iOwn u q n hu
      · intro u v q n m hu hv
        rw [setPc_pc] at hu hv
        split at hu <;> split at hv
        · omega
        · simp only [own, h1, if_false, Option.some.injEq, Prod.mk.injEq] at hu
          rw [← hu.1] at hv
          exact absurd hv (a4.2 v m)
        · simp only [own, h1, if_false, Option.some.injEq, Prod.mk.injEq] at hv
          rw [← hv.1] at hu
          exact absurd hu (a4.2 u n)
        · exact h.iOwnOnce u v q n m hu hv
      · intro u q n hu
        rw [setPc_pc] at hu
        split at hu
        · simp at hu
        · obtain ⟨b1, b2, b3⟩ := h.iTrack u q n hu
          refine ⟨b1, b2, fun f hf => ?_⟩
          rcases mem_modify hl hf with hf | ⟨j, hj, -, hf⟩
          · rw [hf]; exact b3 s.frags[k] hmem
          · rw [hf]; exact b3 _ (List.getElem_mem _)
      · intro f hf hz
        rcases mem_modify hl hf with hf | ⟨j, hj, hne, hf⟩
        · rw [hf]; exact ⟨a1, a2, fun _ => rfl, by simp⟩
        · have hfe : f.addr ≠ s.frags[k].addr := by rw [hf]; exact slot_ne h.iFragsOnce hl hj hne h1
          obtain ⟨b1, b2, b3, b4⟩ := h.iFrags f (by rw [hf]; exact List.getElem_mem _) hz
          refine ⟨b1, b2, b3, fun hp => ⟨(b4 hp).1, fun u m hu => ?_⟩⟩
          rw [setPc_pc] at hu
          split at hu
          · simp only [own, h1, if_false, Option.some.injEq, Prod.mk.injEq] at hu
            exact hfe hu.1.symm
          · exact (b4 hp).2 u m hu
      · exact pairwise_modify hl h.iFragsOnce fun j hj hne => Or.inl (slot_ne h.iFragsOnce hl hj hne h1)
      · intro f hf
        rcases mem_modify hl hf with hf | ⟨j, hj, -, hf⟩
        · rw [hf]; exact h.iHip s.frags[k] hmem
        · rw [hf]; exact h.iHip _ (List.getElem_mem _)
  · -- bump
    rename_i size hpc
    have hn := h.iAsks t size (by rw [hpc]; rfl)
    split at hg
    · simp at hg
    rename_i hlock
    simp only [Option.some.injEq] at hg; subst hg
    have hnext := h.iUnlocked hlock
    have hnoadd : ∀ u q n, s.pc u ≠ .added q n := fun u q n hu => by
      have := h.iAdded u q n hu; rw [hlock] at this; simp at this
    refine ⟨bl, top, h.iCrashed, h.iStack, h.iTopStop, h.iLast, by simp [State.setPc], ?_, ?_, ?_, ?_, h.iHeld, h.iHeldOnce, ?_, ?_, ?_,
      ?_, h.iFragsOnce, h.iUsed, h.iFree, h.iHip⟩ <;> simp only [setPc_pc]
    · intro u hu
      simp only [State.setPc, Option.some.injEq] at hu
      subst hu
      exact ⟨size, by simp [hnext], by simp [State.setPc, hnext]⟩
    · intro u q n hu
      split at hu
      · rename_i hut; simp [State.setPc, hut]
      · exact absurd hu (hnoadd u q n)
    · intro u n hu
      split at hu
      · simp only [asks, Option.some.injEq] at hu; subst hu; exact hn
      · exact h.iAsks u n hu
    · intro u n hu
      split at hu
      · simp at hu
      · exact h.iFind u n hu
    · intro u q n hu
      split at hu
      · simp [own] at hu
      · exact h.iOwn u q n hu
    · intro u v q n m hu hv
      split at hu
      · simp [own] at hu
      split at hv
      · simp [own] at hv
      exact h.iOwnOnce u v q n m hu hv
    · intro u q n hu
      split at hu
      · simp at hu
      · exact h.iTrack u q n hu
    · intro f hf hz
      obtain ⟨a, b, c, d⟩ := h.iFrags f hf hz
      refine ⟨a, b, c, fun hp => ⟨(d hp).1, fun u m hu => ?_⟩⟩
      split at hu
      · simp [own] at hu
      · exact (d hp).2 u m hu
  · -- added
    rename_i p size hpc
    have hn := h.iAsks t size (by rw [hpc]; rfl)
    have hlock := h.iAdded t p size hpc
    obtain ⟨n', e1, e2⟩ := h.iLocked t hlock
    rw [hpc] at e1
    simp only [Pc.added.injEq] at e1
    obtain ⟨rfl, rfl⟩ := e1
    have hgd := good_iff.1 hn
    have htop := h.iTopStop
    have hw : p + size < W := Nat.lt_of_le_of_lt (by omega) hgd.2.2
    have honly : ∀ u q n, s.pc u = .added q n → u = t := fun u q n hu => by
      have := h.iAdded u q n hu; rw [hlock] at this; simpa using this.symm
    rw [Nat.mod_eq_of_lt hw] at hg e2
    split at hg
    · simp only [Option.some.injEq] at hg; subst hg
      have hres : (s.next + (W - size)) % W = p := by
        rw [e2]; unfold W at *; omega
      refine ⟨bl, p, h.iCrashed, h.iStack, h.iTopStop, h.iLast, fun _ => hres, by simp [State.setPc], ?_, ?_, ?_, h.iHeld, h.iHeldOnce,
        ?_, ?_, ?_, ?_, h.iFragsOnce, h.iUsed, h.iFree, h.iHip⟩ <;> simp only [setPc_pc]
      · intro u q n hu
        split at hu
        · simp at hu
        · have := honly u q n hu; contradiction
      · intro u n hu
        split at hu
        · simp [asks] at hu
        · exact h.iAsks u n hu
      · intro u n hu
        split at hu
        · simp at hu
        · exact h.iFind u n hu
      · intro u q n hu
        split at hu
        · simp [own] at hu
        · exact h.iOwn u q n hu
      · intro u v q n m hu hv
        split at hu
        · simp [own] at hu
        split at hv
        · simp [own] at hv
        exact h.iOwnOnce u v q n m hu hv
      · intro u q n hu
        split at hu
        · simp at hu
        · exact h.iTrack u q n hu
      · intro f hf hz
        obtain ⟨a, b, c, d⟩ := h.iFrags f hf hz
        refine ⟨a, b, c, fun hp => ⟨(d hp).1, fun u m hu => ?_⟩⟩
        split at hu
        · simp [own] at hu
        · exact (d hp).2 u m hu
    · rename_i hfit
      simp only [Option.some.injEq] at hg; subst hg
      have hbase := stack_base h.iStack
      have hbp := he.basePos
      -- blocks of the past are not the new one
      have hnew : ∀ q b, (q, b) ∈ bl → q ≠ p := fun q b hq => by
        have := stack_mem h.iStack hq; omega
      have hown : own (if size ≥ e.large then Pc.track p size else .ret p size) = some (p, size) := by
        split
        · rfl
        · simp only [own]; rw [if_neg (by omega)]
      refine ⟨(p, size) :: bl, p + size, h.iCrashed, ⟨hgd.1, hgd.2.1, rfl, h.iStack⟩, by omega, Or.inr ⟨size, bl, rfl⟩,
        fun _ => e2, by simp [State.setPc], ?_, ?_, ?_, ?_, h.iHeldOnce,
        ?_, ?_, ?_, ?_, h.iFragsOnce, ?_, ?_, h.iHip⟩ <;> try simp only [setPc_pc]
      · intro u q n hu
        split at hu
        · split at hu <;> simp at hu
        · have := honly u q n hu; contradiction
      · intro u n hu
        split at hu
        · split at hu <;> simp [asks] at hu
        · exact h.iAsks u n hu
      · intro u n hu
        split at hu
        · split at hu <;> simp at hu
        · exact h.iFind u n hu
      · intro q n hq
        obtain ⟨b, b1, b2⟩ := h.iHeld q n hq
        exact ⟨b, List.mem_cons_of_mem _ b1, b2⟩
      · intro u q n hu
        split at hu
        · rw [hown] at hu
          simp only [Option.some.injEq, Prod.mk.injEq] at hu
          obtain ⟨rfl, rfl⟩ := hu
          refine ⟨⟨size, List.mem_cons_self .., Nat.le_refl _⟩, fun m hm => ?_⟩
          obtain ⟨b, b1, b2⟩ := h.iHeld p m hm
          exact hnew _ _ b1 rfl
        · obtain ⟨⟨b, b1, b2⟩, b3⟩ := h.iOwn u q n hu
          exact ⟨⟨b, List.mem_cons_of_mem _ b1, b2⟩, b3⟩
      · intro u v q n m hu hv
        have hno : ∀ u n, own (s.pc u) ≠ some (p, n) := fun u n hu => by
          obtain ⟨⟨b, b1, b2⟩, b3⟩ := h.iOwn u p n hu
          exact hnew _ _ b1 rfl
        split at hu <;> split at hv
        · omega
        · rw [hown] at hu
          simp only [Option.some.injEq, Prod.mk.injEq] at hu
          rw [← hu.1] at hv
          exact absurd hv (hno v m)
        · rw [hown] at hv
          simp only [Option.some.injEq, Prod.mk.injEq] at hv
          rw [← hv.1] at hu
          exact absurd hu (hno u n)
        · exact h.iOwnOnce u v q n m hu hv
      · intro u q n hu
        split at hu
        · split at hu
          · simp only [Pc.track.injEq] at hu
            obtain ⟨rfl, rfl⟩ := hu
            refine ⟨List.mem_cons_self .., by assumption, fun f hf heq => ?_⟩
            have := h.iFrags f hf (by omega)
            rw [heq] at this
            exact hnew _ _ this.1 rfl
          · simp at hu
        · obtain ⟨b1, b2⟩ := h.iTrack u q n hu
          exact ⟨List.mem_cons_of_mem _ b1, b2⟩
      · intro f hf hz
        obtain ⟨a, b, c, d⟩ := h.iFrags f hf hz
        refine ⟨List.mem_cons_of_mem _ a, b, c, fun hp => ⟨(d hp).1, fun u m hu => ?_⟩⟩
        split at hu
        · rw [hown] at hu
          simp only [Option.some.injEq, Prod.mk.injEq] at hu
          exact hnew _ _ a hu.1.symm
        · exact (d hp).2 u m hu
      · show (s.used + size) % W = _
        rw [h.iUsed]; unfold W at *; omega
      · show (s.free + (W - size)) % W = _
        rw [h.iFree]; unfold W at *; omega
  · -- track
    rename_i p size hpc
    have hown : own (s.pc t) = some (p, size) := by rw [hpc]; rfl
    obtain ⟨b1, b2, b3⟩ := h.iTrack t p size hpc
    have hm := stack_mem h.iStack b1
    have hbp := he.basePos
    have hp0 : p ≠ 0 := by omega
    have hs := trackSlot_spec (ptr := p) (fs := s.frags) (i := 0) b3
    split at hg
    · rename_i hc; exact absurd hc hs.1
    · simp only [Option.some.injEq] at hg; subst hg
      exact ⟨bl, top, inv_move h (Or.inl (by rw [hown]; simp [own, hp0])) (by simp [asks]) (by simp [hpc]) (by simp) (by simp) (by simp)⟩
    · rename_i i hc
      simp only [Option.some.injEq] at hg; subst hg
      obtain ⟨k, hk, hl, h1⟩ := hs.2 i hc
      have hik : k = i := by omega
      subst hik
      have h' : Inv e (s.setPc t (.ret p size)) bl top :=
        inv_move h (Or.inl (by rw [hown]; simp [own, hp0])) (by simp [asks]) (by simp [hpc]) (by simp) (by simp) (by simp)
      refine ⟨bl, top, h'.iCrashed, h'.iStack, h'.iTopStop, h'.iLast, h'.iUnlocked, h'.iLocked, h'.iAdded, h'.iAsks, h'.iFind, h'.iHeld,
        h'.iHeldOnce, h'.iOwn, h'.iOwnOnce, ?_, ?_, ?_, h'.iUsed, h'.iFree, ?_⟩
      · intro u q n hu
        obtain ⟨c1, c2, c3⟩ := h'.iTrack u q n hu
        refine ⟨c1, c2, fun f hf => ?_⟩
        rcases mem_modify hl hf with hf | ⟨j, hj, -, hf⟩
        · rw [hf]
          simp only
          intro hpq
          subst hpq
          rw [setPc_pc] at hu
          split at hu
          · simp at hu
          · have := h.iOwnOnce t u p size n hown (by simp only at hu; rw [hu]; rfl); omega
        · rw [hf]; exact c3 _ (List.getElem_mem _)
      · intro f hf hz
        rcases mem_modify hl hf with hf | ⟨j, hj, hne, hf⟩
        · rw [hf]; exact ⟨b1, b2, fun _ => rfl, by simp⟩
        · rw [hf] at hz ⊢
          exact h'.iFrags _ (List.getElem_mem _) hz
      · exact pairwise_modify hl h.iFragsOnce fun j hj hne => Or.inl (b3 _ (List.getElem_mem _))
      · intro f hf
        show f.addr ≤ if s.hip < p then p else s.hip
        rcases mem_modify hl hf with hf | ⟨j, hj, -, hf⟩
        · rw [hf]; split <;> simp only <;> omega
        · have : f.addr ≤ s.hip := by rw [hf]; exact h.iHip _ (List.getElem_mem _)
          split <;> omega
  · -- ret
    rename_i p size hpc
    simp only [Option.some.injEq] at hg; subst hg
    by_cases hp0 : p = 0
    · simp only [hp0, if_true]
      exact ⟨bl, top, inv_move h (Or.inr rfl) (by simp [asks]) (by simp [hpc]) (by simp) (by simp) (by simp)⟩
    · simp only [hp0, if_false]
      have hown : own (s.pc t) = some (p, size) := by rw [hpc]; simp [own, hp0]
      obtain ⟨o1, o2⟩ := h.iOwn t p size hown
      have h' : Inv e (s.setPc t .idle) bl top :=
        inv_move h (Or.inr rfl) (by simp [asks]) (by simp [hpc]) (by simp) (by simp) (by simp)
      refine ⟨bl, top, h'.iCrashed, h'.iStack, h'.iTopStop, h'.iLast, h'.iUnlocked, h'.iLocked, h'.iAdded, h'.iAsks, h'.iFind, ?_,
        ?_, ?_, h'.iOwnOnce, h'.iTrack, ?_, h'.iFragsOnce, h'.iUsed, h'.iFree, h'.iHip⟩
      · intro q n hq
        rcases List.mem_cons.1 hq with hq | hq
        · simp only [Prod.mk.injEq] at hq; obtain ⟨rfl, rfl⟩ := hq; exact o1
        · exact h.iHeld q n hq
      · refine List.Pairwise.cons ?_ h.iHeldOnce
        rintro ⟨q, m⟩ hq heq
        simp only at heq
        subst heq
        exact o2 m hq
      · intro u q n hu
        obtain ⟨c1, c2⟩ := h'.iOwn u q n hu
        refine ⟨c1, fun m hm => ?_⟩
        rcases List.mem_cons.1 hm with hm | hm
        · simp only [Prod.mk.injEq] at hm
          rw [hm.1] at hu
          rw [setPc_pc] at hu
          split at hu
          · simp [own] at hu
          · have := h.iOwnOnce t u p size n hown hu; omega
        · exact c2 m hm
      · intro f hf hz
        obtain ⟨a, b, c, d⟩ := h'.iFrags f hf hz
        refine ⟨a, b, c, fun hp => ⟨fun m hm => ?_, (d hp).2⟩⟩
        rcases List.mem_cons.1 hm with hm | hm
        · simp only [Prod.mk.injEq] at hm
          obtain ⟨-, -, -, d'⟩ := h.iFrags f hf hz
          exact (d' hp).2 t size (by rw [hown, hm.1])
        · exact (d hp).1 m hm
  · -- free1
    rename_i p size hpc
    have hown : own (s.pc t) = some (p, size) := by rw [hpc]; rfl
    obtain ⟨⟨b, ob1, ob2⟩, o2⟩ := h.iOwn t p size hown
    split at hg
    · simp only [Option.some.injEq] at hg; subst hg
      exact ⟨bl, top, inv_move h (Or.inr rfl) (by simp [asks]) (by simp [hpc]) (by simp) (by simp) (by simp)⟩
    split at hg
    · simp at hg
    rename_i hlock
    split at hg
    · rename_i hlast
      simp only [Option.some.injEq] at hg; subst hg
      have hm := stack_mem h.iStack ob1
      have htop := h.iTopStop
      have hbp := he.basePos
      have hsw := he.stopW
      have hnext := h.iUnlocked hlock
      obtain ⟨hl1, hl2⟩ := hlast
      rcases h.iLast with hz | ⟨c, r, hr⟩
      · omega
      rw [hl1] at hr
      subst hr
      obtain ⟨s1, s2, s3, s4⟩ := h.iStack
      have hc : (s.next + (W - p)) % W = c := by rw [hnext, s3]; unfold W at *; omega
      rw [hc] at hl2 ⊢
      have hrest : ∀ q d, (q, d) ∈ (p, c) :: r → q ≠ p → (q, d) ∈ r := by
        intro q d hq hne
        rcases List.mem_cons.1 hq with hq | hq
        · simp only [Prod.mk.injEq] at hq; exact absurd hq.1 hne
        · exact hq
      have hfr : ∀ f ∈ s.frags, f.addr ≠ 0 → f.addr ≠ p := by
        intro f hf hz heq
        obtain ⟨a1, a2, -⟩ := h.iFrags f hf hz
        rw [heq] at a1
        have := stack_inj h.iStack a1 (List.mem_cons_self ..)
        omega
      have h' : Inv e (s.setPc t .idle) ((p, c) :: r) top :=
        inv_move h (Or.inr rfl) (by simp [asks]) (by simp [hpc]) (by simp) (by simp) (by simp)
      have hown' : ∀ u q n, own ((s.setPc t .idle).pc u) = some (q, n) → q ≠ p := by
        intro u q n hu heq
        subst heq
        rw [setPc_pc] at hu
        split at hu
        · simp [own] at hu
        · have := h.iOwnOnce t u q size n hown hu; omega
      refine ⟨r, p, h'.iCrashed, s4, by omega, Or.inl rfl, fun _ => rfl, ?_, h'.iAdded, h'.iAsks, h'.iFind, ?_,
        h'.iHeldOnce, ?_, h'.iOwnOnce, ?_, ?_, h'.iFragsOnce, ?_, ?_, h'.iHip⟩
      · intro u hu
        change s.lock = some u at hu
        rw [hlock] at hu; simp at hu
      · intro q n hq
        obtain ⟨d, d1, d2⟩ := h.iHeld q n hq
        exact ⟨d, hrest _ _ d1 (fun heq => o2 n (heq ▸ hq)), d2⟩
      · intro u q n hu
        obtain ⟨⟨d, d1, d2⟩, d3⟩ := h'.iOwn u q n hu
        exact ⟨⟨d, hrest _ _ d1 (hown' u q n hu), d2⟩, d3⟩
      · intro u q n hu
        obtain ⟨d1, d2, d3⟩ := h'.iTrack u q n hu
        exact ⟨hrest _ _ d1 (hown' u q n (by show own ((s.setPc t .idle).pc u) = _; rw [show (s.setPc t .idle).pc u = .track q n from hu]; rfl)), d2, d3⟩
      · intro f hf hz
        obtain ⟨a, b, c, d⟩ := h'.iFrags f hf hz
        exact ⟨hrest _ _ a (hfr f hf hz), b, c, d⟩
      · show (s.used + (W - c)) % W = _
        rw [h.iUsed]
        have := stack_base s4
        unfold W at *; omega
      · show (s.free + c) % W = _
        rw [h.iFree]; unfold W at *; omega
    · simp only [Option.some.injEq] at hg; subst hg
      exact ⟨bl, top, inv_move h (Or.inl (by rw [hown]; rfl)) (by simp [asks]) (by simp [hpc]) (by simp) (by simp) (by simp)⟩
  · -- free2
    rename_i p size hpc
    have hown : own (s.pc t) = some (p, size) := by rw [hpc]; rfl
    obtain ⟨o1, o2⟩ := h.iOwn t p size hown
    have hmv : Inv e (s.setPc t .idle) bl top :=
      inv_move h (Or.inr rfl) (by simp [asks]) (by simp [hpc]) (by simp) (by simp) (by simp)
    split at hg
    · simp only [Option.some.injEq] at hg; subst hg; exact ⟨bl, top, hmv⟩
    split at hg
    · rename_i i hc
      simp only [Option.some.injEq] at hg; subst hg
      obtain ⟨k, hk, hl, h1, h2⟩ := freeSlot_spec.2.2 i hc
      have hik : k = i := by omega
      subst hik
      obtain ⟨a1, a2, a3, a4⟩ := h.iFrags s.frags[k] (List.getElem_mem _) (by omega)
      have hno : ∀ u m, own ((s.setPc t .idle).pc u) ≠ some (p, m) := by
        intro u m hu
        rw [setPc_pc] at hu
        split at hu
        · simp [own] at hu
        · have := h.iOwnOnce t u p size m hown hu; omega
      refine ⟨bl, top, hmv.iCrashed, hmv.iStack, hmv.iTopStop, hmv.iLast, hmv.iUnlocked, hmv.iLocked, hmv.iAdded, hmv.iAsks, hmv.iFind,
        hmv.iHeld, hmv.iHeldOnce, hmv.iOwn, hmv.iOwnOnce, ?_, ?_, ?_, hmv.iUsed, hmv.iFree, ?_⟩
      · intro u q n hu
        obtain ⟨b1, b2, b3⟩ := hmv.iTrack u q n hu
        refine ⟨b1, b2, fun f hf => ?_⟩
        rcases mem_modify hl hf with hf | ⟨j, hj, -, hf⟩
        · rw [hf]; exact b3 s.frags[k] (List.getElem_mem _)
        · rw [hf]; exact b3 _ (List.getElem_mem _)
      · intro f hf hz
        rcases mem_modify hl hf with hf | ⟨j, hj, hne, hf⟩
        · rw [hf]
          refine ⟨a1, a2, fun hz => absurd hz (he.pid t), fun _ => ⟨fun m hm => ?_, fun u m hu => ?_⟩⟩
          · simp only [h1] at hm; exact o2 m hm
          · simp only [h1] at hu; exact hno u m hu
        · rw [hf] at hz ⊢
          exact hmv.iFrags _ (List.getElem_mem _) hz
      · exact pairwise_modify hl h.iFragsOnce fun j hj hne => Or.inl (slot_ne h.iFragsOnce hl hj hne (by omega))
      · intro f hf
        rcases mem_modify hl hf with hf | ⟨j, hj, -, hf⟩
        · rw [hf]; exact h.iHip s.frags[k] (List.getElem_mem _)
        · rw [hf]; exact h.iHip _ (List.getElem_mem _)
    · simp only [Option.some.injEq] at hg; subst hg; exact ⟨bl, top, hmv⟩

/-- Every action keeps the invariant. -/
theorem inv_act {e : Env} (he : e.Ok) {s s' : State} {bl : List (Nat × Nat)} {top : Nat} (h : Inv e s bl top) {a : Act}
    (ha : act e (goodSize e) s a = some s') : ∃ bl' top', Inv e s' bl' top' := by
  unfold act at ha
  split at ha
  · rename_i t size
    split at ha
    · rename_i hc
      simp only [Option.some.injEq] at ha; subst ha
      exact ⟨bl, top, inv_move h (Or.inr rfl) (by simpa [asks] using hc.2) (by simp [hc.1]) (by simp) (by simp) (by simp)⟩
    · simp at ha
  · rename_i t p size
    split at ha
    · rename_i hc
      simp only [Option.some.injEq] at ha; subst ha
      obtain ⟨hpc, hin⟩ := hc
      obtain ⟨b, hb1, hb2⟩ := h.iHeld p size hin
      have hsub : ∀ x, x ∈ s.held.erase (p, size) → x ∈ s.held := fun x hx => List.mem_of_mem_erase hx
      have hone : ∀ m, (p, m) ∉ s.held.erase (p, size) := by
        intro m hm
        have hp := h.iHeldOnce
        have hperm := List.perm_cons_erase hin
        have hp' := (hperm.pairwise_iff (fun hab => Ne.symm hab)).1 hp
        exact (List.pairwise_cons.1 hp').1 _ hm rfl
      refine ⟨bl, top, h.iCrashed, h.iStack, h.iTopStop, h.iLast, h.iUnlocked, ?_, ?_, ?_, ?_, fun q n hq => h.iHeld q n (hsub _ hq),
        h.iHeldOnce.sublist List.erase_sublist, ?_, ?_, ?_, ?_, h.iFragsOnce, h.iUsed, h.iFree, h.iHip⟩ <;> simp only [setPc_pc]
      · intro u hu
        obtain ⟨n, e1, e2⟩ := h.iLocked u hu
        have hut : u ≠ t := fun heq => by rw [heq, hpc] at e1; simp at e1
        simp only [hut, if_false]
        exact ⟨n, e1, e2⟩
      · intro u q n hu
        split at hu
        · simp at hu
        · exact h.iAdded u q n hu
      · intro u n hu
        split at hu
        · simp [asks] at hu
        · exact h.iAsks u n hu
      · intro u n hu
        split at hu
        · simp at hu
        · exact h.iFind u n hu
      · intro u q n hu
        split at hu
        · simp only [own, Option.some.injEq, Prod.mk.injEq] at hu
          obtain ⟨rfl, rfl⟩ := hu
          exact ⟨⟨b, hb1, hb2⟩, hone⟩
        · obtain ⟨c1, c2⟩ := h.iOwn u q n hu
          exact ⟨c1, fun m hm => c2 m (hsub _ hm)⟩
      · intro u v q n m hu hv
        split at hu <;> split at hv
        · omega
        · simp only [own, Option.some.injEq, Prod.mk.injEq] at hu
          rw [← hu.1] at hv
          exact absurd hin ((h.iOwn v p m hv).2 size)
        · simp only [own, Option.some.injEq, Prod.mk.injEq] at hv
          rw [← hv.1] at hu
          exact absurd hin ((h.iOwn u p n hu).2 size)
        · exact h.iOwnOnce u v q n m hu hv
      · intro u q n hu
        split at hu
        · simp at hu
        · exact h.iTrack u q n hu
      · intro f hf hz
        obtain ⟨a, b, c, d⟩ := h.iFrags f hf hz
        refine ⟨a, b, c, fun hp => ⟨fun m hm => (d hp).1 m (hsub _ hm), fun u m hu => ?_⟩⟩
        split at hu
        · simp only [own, Option.some.injEq, Prod.mk.injEq] at hu
          rw [hu.1] at hin
          exact (d hp).1 size hin
        · exact (d hp).2 u m hu
    · simp at ha
  · rename_i t
    rw [h.iCrashed] at ha
    exact inv_go he h (by simpa using ha)

theorem inv_run {e : Env} (he : e.Ok) {as : List Act} {s s' : State} {bl : List (Nat × Nat)} {top : Nat} (h : Inv e s bl top)
    (ha : run e (goodSize e) s as = some s') : ∃ bl' top', Inv e s' bl' top' := by
  induction as generalizing s bl top with
  | nil => simp only [run, Option.some.injEq] at ha; subst ha; exact ⟨bl, top, h⟩
  | cons a as ih =>
    simp only [run, Option.bind_eq_some_iff] at ha
    obtain ⟨s1, h1, h2⟩ := ha
    obtain ⟨bl1, top1, hi⟩ := inv_act he h h1
    exact ih hi h2

theorem inv_reachable {e : Env} (he : e.Ok) {as : List Act} {s : State} (ha : run e (goodSize e) (init e) as = some s) :
    ∃ bl top, Inv e s bl top := inv_run he (inv_init e he) ha

end Splinter.Shmem
