import Verif.Proof.Shmem

/-!
# C42: shared memory allocation

C42 says: every successful shared-segment allocation returns a fragment inside the segment that does not overlap any live
fragment; when space is insufficient it fails without changing state.

The theorems are about every sequence of calls by any number of threads, interleaved in every way (`run`), by clients that
free what they hold and nothing else, and ask for positive sizes, multiples of 64 as `platform_aligned_malloc` makes them,
with `shm_end + size` below `2 ^ 64` (`goodSize`). This is what the suffix `_partial` stands for: without the last, or with a size of 0, the
property is false (`huge_request`, `empty_request`).
-/
namespace Splinter.Shmem

/-! ## Specification -/

/-- Two fragments (address, size) have no byte in common. -/
def Disjoint (a b : Nat × Nat) : Prop := ∀ x, ¬ (a.1 ≤ x ∧ x < a.1 + a.2 ∧ b.1 ≤ x ∧ x < b.1 + b.2)

/-- A fragment lies in the part of the segment that is not the control block. -/
def Inside (e : Env) (a : Nat × Nat) : Prop := e.base ≤ a.1 ∧ a.1 + a.2 ≤ e.stop

/-- The part of the state that is the heap, without the places where threads are. -/
def SameHeap (s s' : State) : Prop :=
  s'.next = s.next ∧ s'.last = s.last ∧ s'.hip = s.hip ∧ s'.used = s.used ∧ s'.free = s.free ∧ s'.frags = s.frags ∧
  s'.held = s.held ∧ s'.lock = s.lock ∧ s'.crashed = s.crashed

/-! ## Safety -/

theorem held_disjoint {e : Env} {s : State} {bl : List (Nat × Nat)} {top : Nat} (h : Inv e s bl top) {p n q m : Nat}
    (hp : ∃ b, (p, b) ∈ bl ∧ n ≤ b) (hq : ∃ b, (q, b) ∈ bl ∧ m ≤ b) (hne : p ≠ q) : Disjoint (p, n) (q, m) := by
  obtain ⟨b, b1, b2⟩ := hp
  obtain ⟨c, c1, c2⟩ := hq
  have := stack_disjoint h.iStack b1 c1
  intro x hx
  simp only at hx
  omega

theorem block_inside {e : Env} {s : State} {bl : List (Nat × Nat)} {top : Nat} (h : Inv e s bl top) {p n : Nat}
    (hp : ∃ b, (p, b) ∈ bl ∧ n ≤ b) : Inside e (p, n) := by
  obtain ⟨b, b1, b2⟩ := hp
  have := stack_mem h.iStack b1
  have := h.iTopStop
  simp only [Inside]
  omega

/-- The fragments that clients hold are inside the segment and do not overlap, and no assertion has failed. -/
theorem C42_live_partial (e : Env) (he : e.Ok) (as : List Act) (s : State) (h : run e (goodSize e) (init e) as = some s) :
    (∀ a ∈ s.held, Inside e a) ∧ s.held.Pairwise Disjoint ∧ s.crashed = false := by
  obtain ⟨bl, top, hi⟩ := inv_reachable he h
  refine ⟨fun ⟨p, n⟩ ha => block_inside hi (hi.iHeld p n ha), ?_, hi.iCrashed⟩
  refine hi.iHeldOnce.imp_of_mem ?_
  rintro ⟨p, n⟩ ⟨q, m⟩ ha hb hne
  exact held_disjoint hi (hi.iHeld p n ha) (hi.iHeld q m hb) hne

/-- The fragment that a call is about to return is inside the segment, and overlaps no fragment that is held, that another
call is about to return, or that is being freed. -/
theorem C42_returned_partial (e : Env) (he : e.Ok) (as : List Act) (s : State) (h : run e (goodSize e) (init e) as = some s)
    (t p size : Nat) (hp : s.pc t = .ret p size) (h0 : p ≠ 0) :
    Inside e (p, size) ∧ (∀ a ∈ s.held, Disjoint (p, size) a) ∧
      ∀ u a, u ≠ t → own (s.pc u) = some a → Disjoint (p, size) a := by
  obtain ⟨bl, top, hi⟩ := inv_reachable he h
  have hown : own (s.pc t) = some (p, size) := by rw [hp]; simp [own, h0]
  obtain ⟨o1, o2⟩ := hi.iOwn t p size hown
  refine ⟨block_inside hi o1, ?_, ?_⟩
  · rintro ⟨q, m⟩ hq
    exact held_disjoint hi o1 (hi.iHeld q m hq) (fun heq => o2 m (heq ▸ hq))
  · rintro u ⟨q, m⟩ hne hu
    refine held_disjoint hi o1 (hi.iOwn u q m hu).1 (fun heq => ?_)
    subst heq
    exact hne (hi.iOwnOnce u t p m size hu hown)

/-- The counters are right: what is used and what is free add up to the segment, and what clients hold is used. -/
theorem usage_right (e : Env) (he : e.Ok) (as : List Act) (s : State) (h : run e (goodSize e) (init e) as = some s) :
    s.used + s.free = e.stop - e.base ∧ ∀ a ∈ s.held, a.1 + a.2 ≤ e.base + s.used := by
  obtain ⟨bl, top, hi⟩ := inv_reachable he h
  have hb := stack_base hi.iStack
  have := hi.iTopStop
  rw [hi.iUsed, hi.iFree]
  refine ⟨by omega, ?_⟩
  rintro ⟨p, n⟩ ha
  obtain ⟨b, b1, b2⟩ := hi.iHeld p n ha
  have := stack_mem hi.iStack b1
  simp only
  omega

/-! ## Failure -/

/-- With other threads running: a call that fails for lack of space puts `shm_next` back and changes nothing else, and the
request indeed reaches past the end of the segment; otherwise the call succeeds. -/
theorem C42_fail_concurrent_partial (e : Env) (he : e.Ok) (as : List Act) (s s' : State)
    (h : run e (goodSize e) (init e) as = some s) (t p size : Nat) (hp : s.pc t = .added p size) (hg : go e s t = some s') :
    (e.stop < p + size ∧ s'.pc t = .ret 0 size ∧ s'.next = p ∧ s'.last = s.last ∧ s'.hip = s.hip ∧ s'.used = s.used ∧
      s'.free = s.free ∧ s'.frags = s.frags ∧ s'.held = s.held ∧ s'.lock = none) ∨
    (p + size ≤ e.stop ∧ own (s'.pc t) = some (p, size)) := by
  obtain ⟨bl, top, hi⟩ := inv_reachable he h
  have hn := good_iff.1 (hi.iAsks t size (by rw [hp]; rfl))
  have hlock := hi.iAdded t p size hp
  obtain ⟨n', e1, e2⟩ := hi.iLocked t hlock
  rw [hp] at e1
  simp only [Pc.added.injEq] at e1
  obtain ⟨rfl, rfl⟩ := e1
  have htop := hi.iTopStop
  have hb := stack_base hi.iStack
  have hbp := he.basePos
  have hw : p + size < W := Nat.lt_of_le_of_lt (by omega) hn.2.2
  unfold go at hg
  rw [hp] at hg
  simp only at hg
  rw [Nat.mod_eq_of_lt hw] at hg e2
  split at hg
  · left
    simp only [Option.some.injEq] at hg; subst hg
    refine ⟨by omega, by simp [State.setPc], ?_, rfl, rfl, rfl, rfl, rfl, rfl, rfl⟩
    show (s.next + (W - size)) % W = p
    rw [e2]; unfold W at *; omega
  · right
    simp only [Option.some.injEq] at hg; subst hg
    refine ⟨by omega, ?_⟩
    rw [setPc_pc, if_pos rfl]
    split
    · rfl
    · simp only [own]; rw [if_neg (by omega)]

/-- A thread runs alone until it has returned. -/
def alone (e : Env) (t : Nat) : Nat → State → Option State
  | 0, s => some s
  | k + 1, s => if s.pc t = .idle then some s else (act e (goodSize e) s (.go t)).bind (alone e t k)

/-- One call of `platform_shm_alloc` that no other thread disturbs: six steps at most. -/
def allocAlone (e : Env) (s : State) (t size : Nat) : Option State :=
  (act e (goodSize e) s (.call t size)).bind (alone e t 6)

theorem go_start {e : Env} {s : State} {t size : Nat} (h : s.pc t = .start size) (ha : s.next % 64 = 0) :
    go e s t = some (s.setPc t (if size ≥ e.large then .find size else .bump size)) := by
  unfold go; rw [h]; simp only; rw [if_neg (by omega)]; split <;> rfl

theorem go_ret {e : Env} {s : State} {t p size : Nat} (h : s.pc t = .ret p size) :
    go e s t = some ({ s with held := if p = 0 then s.held else (p, size) :: s.held }.setPc t .idle) := by
  unfold go; rw [h]

theorem alone_step {e : Env} {s s' : State} {t k : Nat} (hp : s.pc t ≠ .idle) (hc : s.crashed = false)
    (hg : go e s t = some s') : alone e t (k + 1) s = alone e t k s' := by
  simp [alone, hp, act, hc, hg]

theorem alone_idle {e : Env} {s : State} {t k : Nat} (hp : s.pc t = .idle) : alone e t k s = some s := by
  cases k <;> simp [alone, hp]

/-- From returning on. -/
theorem alone_ret {e : Env} {s : State} {t p size k : Nat} (h : s.pc t = .ret p size) (hc : s.crashed = false) :
    alone e t (k + 1) s = some ({ s with held := if p = 0 then s.held else (p, size) :: s.held }.setPc t .idle) := by
  rw [alone_step (by rw [h]; simp) hc (go_ret h), alone_idle (by simp [State.setPc])]

theorem setPc_self (s : State) (t : Nat) (p : Pc) : (s.setPc t p).pc t = p := by simp [State.setPc]

/-- From the addition on. -/
theorem alone_bump {e : Env} (he : e.Ok) {s : State} {bl : List (Nat × Nat)} {top : Nat} (hi : Inv e s bl top)
    {t size k : Nat} (h : s.pc t = .bump size) (hl : s.lock = none) :
    ∃ s', alone e t (k + 4) s = some s' ∧ s'.pc t = .idle ∧
      ((∃ p, p ≠ 0 ∧ s'.held = (p, size) :: s.held ∧ s.next + size ≤ e.stop) ∨ (SameHeap s s' ∧ e.stop < s.next + size)) := by
  have hn := good_iff.1 (hi.iAsks t size (by rw [h]; rfl))
  have hnext := hi.iUnlocked hl
  have htop := hi.iTopStop
  have hw : s.next + size < W := Nat.lt_of_le_of_lt (by omega) hn.2.2
  have hg : go e s t = some ({ s with lock := some t, next := (s.next + size) % W }.setPc t (.added s.next size)) := by
    unfold go; rw [h]; simp only; rw [hl]
  rw [alone_step (by rw [h]; simp) hi.iCrashed hg]
  obtain ⟨bl1, top1, hi1⟩ := inv_go he hi hg
  generalize hs1 : ({ s with lock := some t, next := (s.next + size) % W }.setPc t (.added s.next size)) = s1 at hi1 ⊢
  have hpc1 : s1.pc t = .added s.next size := by rw [← hs1]; exact setPc_self ..
  by_cases hfit : s.next + size ≤ e.stop
  · have hg1 : go e s1 t = some ({ s1 with last := s.next, used := (s1.used + size) % W, free := (s1.free + (W - size)) % W, lock := none }.setPc t
        (if size ≥ e.large then .track s.next size else .ret s.next size)) := by
      unfold go; rw [hpc1]; simp only; rw [Nat.mod_eq_of_lt hw, if_neg (by omega)]
    rw [alone_step (by rw [hpc1]; simp) hi1.iCrashed hg1]
    obtain ⟨bl2, top2, hi2⟩ := inv_go he hi1 hg1
    generalize hs2 : ({ s1 with last := s.next, used := (s1.used + size) % W, free := (s1.free + (W - size)) % W, lock := none }.setPc t
        (if size ≥ e.large then .track s.next size else .ret s.next size)) = s2 at hi2 ⊢
    have hheld2 : s2.held = s.held := by rw [← hs2, ← hs1]; rfl
    have hp0 : s.next ≠ 0 := by
      have := stack_base hi.iStack; have := he.basePos; omega
    by_cases hlarge : size ≥ e.large
    · have hpc2 : s2.pc t = .track s.next size := by rw [← hs2, setPc_self, if_pos hlarge]
      have hts := trackSlot_spec (i := 0) (hi2.iTrack t _ _ hpc2).2.2
      have : ∃ s3, go e s2 t = some s3 ∧ s3.pc t = .ret s.next size ∧ s3.held = s2.held ∧ s3.crashed = false := by
        unfold go; rw [hpc2]; simp only
        split
        · rename_i hc; exact absurd hc hts.1
        · exact ⟨_, rfl, setPc_self .., rfl, hi2.iCrashed⟩
        · exact ⟨_, rfl, setPc_self .., rfl, hi2.iCrashed⟩
      obtain ⟨s3, hg3, hpc3, hheld3, hc3⟩ := this
      rw [alone_step (by rw [hpc2]; simp) hi2.iCrashed hg3, alone_ret hpc3 hc3]
      refine ⟨_, rfl, setPc_self .., Or.inl ⟨s.next, hp0, ?_, hfit⟩⟩
      show (if s.next = 0 then s3.held else _) = _
      rw [if_neg hp0, hheld3, hheld2]
    · have hpc2 : s2.pc t = .ret s.next size := by rw [← hs2, setPc_self, if_neg hlarge]
      rw [alone_ret hpc2 hi2.iCrashed]
      refine ⟨_, rfl, setPc_self .., Or.inl ⟨s.next, hp0, ?_, hfit⟩⟩
      show (if s.next = 0 then s2.held else _) = _
      rw [if_neg hp0, hheld2]
  · have hg1 : go e s1 t = some ({ s1 with next := (s1.next + (W - size)) % W, lock := none }.setPc t (.ret 0 size)) := by
      unfold go; rw [hpc1]; simp only; rw [Nat.mod_eq_of_lt hw, if_pos (by omega)]
    rw [alone_step (by rw [hpc1]; simp) hi1.iCrashed hg1,
      alone_ret (p := 0) (size := size) (setPc_self ..) (by exact hi1.iCrashed)]
    refine ⟨_, rfl, setPc_self .., Or.inr ⟨?_, by omega⟩⟩
    subst hs1
    refine ⟨?_, rfl, rfl, rfl, rfl, rfl, rfl, hl.symm, rfl⟩
    show ((s.next + size) % W + (W - size)) % W = s.next
    rw [Nat.mod_eq_of_lt hw]; unfold W at *; omega

theorem inv_setPc_find {e : Env} {s : State} {t size : Nat} (h : findLarge size s.frags 0 = .none) :
    go e (s.setPc t (.find size)) t = some ((s.setPc t (.find size)).setPc t (.bump size)) := by
  unfold go
  rw [setPc_self]
  simp only
  have : (s.setPc t (.find size)).frags = s.frags := rfl
  rw [this, h]

/-- A call that no other thread disturbs ends. It returns a fragment of the size asked for, or it leaves the heap exactly
as it was; and then neither the rest of the segment nor any large fragment that has been freed has room for the request. -/
theorem C42_alone_partial (e : Env) (he : e.Ok) (as : List Act) (s : State) (h : run e (goodSize e) (init e) as = some s)
    (t size : Nat) (hidle : s.pc t = .idle) (hlock : s.lock = none) (hsize : goodSize e size = true) :
    ∃ s', allocAlone e s t size = some s' ∧ s'.pc t = .idle ∧
      ((∃ p, p ≠ 0 ∧ s'.held = (p, size) :: s.held) ∨
       (SameHeap s s' ∧ e.stop < s.next + size ∧
        (e.large ≤ size → ∀ f ∈ s.frags, f.addr ≠ 0 → size ≤ f.size → f.freedPid = 0))) := by
  obtain ⟨bl, top, hi⟩ := inv_reachable he h
  have hcall : act e (goodSize e) s (.call t size) = some (s.setPc t (.start size)) := by
    unfold act; simp only; rw [if_pos ⟨hidle, hsize⟩]
  unfold allocAlone
  rw [hcall, Option.bind_some]
  obtain ⟨bl1, top1, hi1⟩ := inv_act he hi hcall
  have hst := go_start (e := e) (setPc_self s t (.start size)) (next_aligned he hi1)
  rw [alone_step (by rw [setPc_self]; simp) hi1.iCrashed hst]
  obtain ⟨bl2, top2, hi2⟩ := inv_go he hi1 hst
  by_cases hlarge : size ≥ e.large
  · rw [if_pos hlarge] at hi2 ⊢
    have hfs := findLarge_spec (size := size) (fs := s.frags) (i := 0) (fun f hf hz => (hi.iFrags f hf hz).2.2.1)
    cases hf : findLarge size s.frags 0 with
    | crash => exact absurd hf hfs.1
    | none =>
      have hgf := inv_setPc_find (e := e) (s := s.setPc t (.start size)) (t := t) (size := size) hf
      rw [alone_step (by rw [setPc_self]; simp) hi2.iCrashed hgf]
      obtain ⟨bl3, top3, hi3⟩ := inv_go he hi2 hgf
      obtain ⟨s', h1, h2, h3⟩ := alone_bump he hi3 (k := 0) (setPc_self ..) hlock
      refine ⟨s', h1, h2, ?_⟩
      rcases h3 with ⟨p, hp, hh, -⟩ | ⟨hs, hlt⟩
      · exact Or.inl ⟨p, hp, hh⟩
      · exact Or.inr ⟨hs, hlt, fun _ => hfs.2.1 hf⟩
    | «at» i =>
      obtain ⟨k, hk, hl, f1, f2, f3⟩ := hfs.2.2 i hf
      have hik : k = i := by omega
      subst hik
      have : ∃ s3, go e ((s.setPc t (.start size)).setPc t (.find size)) t = some s3 ∧ s3.pc t = .ret s.frags[k].addr size ∧
          s3.held = s.held ∧ s3.crashed = false := by
        unfold go
        rw [setPc_self]
        simp only
        have : ((s.setPc t (.start size)).setPc t (.find size)).frags = s.frags := rfl
        rw [this, hf]
        simp only
        refine ⟨_, rfl, ?_, rfl, hi.iCrashed⟩
        rw [setPc_self]
        simp [List.getD, hl]
      obtain ⟨s3, hg3, hpc3, hh3, hc3⟩ := this
      rw [alone_step (by rw [setPc_self]; simp) hi2.iCrashed hg3, alone_ret hpc3 hc3]
      refine ⟨_, rfl, setPc_self .., Or.inl ⟨s.frags[k].addr, f1, ?_⟩⟩
      show (if s.frags[k].addr = 0 then s3.held else _) = _
      rw [if_neg f1, hh3]
  · rw [if_neg hlarge] at hi2 ⊢
    obtain ⟨s', h1, h2, h3⟩ := alone_bump he hi2 (k := 1) (setPc_self ..) hlock
    refine ⟨s', h1, h2, ?_⟩
    rcases h3 with ⟨p, hp, hh, -⟩ | ⟨hs, hlt⟩
    · exact Or.inl ⟨p, hp, hh⟩
    · exact Or.inr ⟨hs, hlt, fun hc => absurd hc hlarge⟩

/-! ## Examples and witnesses -/

/-- A small segment: 4096 bytes after a control block of 1024, large fragments from 1024 bytes, two slots. -/
def tiny : Env := ⟨1024, 5120, 1024, 2, fun _ => 1⟩

theorem tiny_ok : tiny.Ok := ⟨by decide, by decide, by decide, by decide, by decide, by simp [tiny]⟩

/-- Thread `t` takes `n` steps. -/
def steps (t n : Nat) : List Act := List.replicate n (.go t)

/-- Two threads allocate at the same time; then the large fragment is freed and given to a smaller request of a third
thread. -/
def sample : List Act :=
  [.call 0 2048, .call 1 64] ++ steps 0 3 ++ steps 1 1 ++ steps 0 1 ++ steps 1 2 ++ steps 0 2 ++ steps 1 1 ++
  [.release 1 1024 2048] ++ steps 1 2 ++ [.call 2 1088] ++ steps 2 3

example : ((run tiny (goodSize tiny) (init tiny) sample).map fun s => (s.held, s.next, s.last, s.used, s.free)) =
    some ([(1024, 1088), (3072, 64)], 3136, 3072, 2112, 1984) := by decide +kernel

/-- A request that does not fit, made in that state by a thread running alone, fails. -/
example : ((run tiny (goodSize tiny) (init tiny) sample).bind fun s => (allocAlone tiny s 3 2048).map fun s' =>
    (s'.held, s'.next, s'.last, s'.used, s'.free)) = some ([(1024, 1088), (3072, 64)], 3136, 3072, 2112, 1984) := by
  decide +kernel

/-- The state of `C42_fail_concurrent_partial`. -/
example : ((run tiny (goodSize tiny) (init tiny) (sample ++ [.call 3 2048] ++ steps 3 3)).map fun s => (s.pc 3, s.next)) =
    some (.added 3136 2048, 5184) := by decide +kernel

/-- A request so large that `retptr + size` wraps is granted: `shm_next` moves backwards, into a fragment that is held,
which is then handed out again. -/
theorem huge_request : ∃ as s, run tiny (fun n => 0 < n && n % 64 = 0 && n < W) (init tiny) as = some s ∧
    (1024, 128) ∈ s.held ∧ (1088, 64) ∈ s.held ∧ ¬ Disjoint (1024, 128) (1088, 64) := by
  refine ⟨[.call 0 128] ++ steps 0 4 ++ [.call 0 (W - 64)] ++ steps 0 6 ++ [.call 0 64] ++ steps 0 4, _, rfl, ?_, ?_, ?_⟩
  · decide +kernel
  · decide +kernel
  · intro h; exact h 1100 (by decide)

/-- A request of 0 bytes is granted at the address of the next fragment; freeing it frees that one, and its bytes are handed
out again. -/
theorem empty_request : ∃ as s, run tiny (fun n => n % 64 = 0 && n < 4096) (init tiny) as = some s ∧
    (1024, 64) ∈ s.held ∧ (1024, 128) ∈ s.held ∧ ¬ Disjoint (1024, 64) (1024, 128) := by
  refine ⟨[.call 0 0] ++ steps 0 4 ++ [.call 0 64] ++ steps 0 4 ++ [.release 0 1024 0] ++ steps 0 1 ++ [.call 0 128] ++ steps 0 4,
    _, rfl, ?_, ?_, ?_⟩
  · decide +kernel
  · decide +kernel
  · intro h; exact h 1030 (by decide)

end Splinter.Shmem
