import Verif.Proof.AsyncIO2
/-!
# C59: asynchronous I/O

`laio_get_async_req` gives a request to one thread only; every I/O that is submitted is called back once, with what its
caller wrote into the request; `laio_cleanup` and `laio_wait_all` return when the kernel has no I/O left.
-/
namespace Splinter.AsyncIO

/-! ### What is said about the log -/

/-- How often an event happened. -/
def times (e : Ev) (l : List Ev) : Nat := (l.filter (· = e)).length

/-- The configuration that `laio_config_init` and `MAX_THREADS` give: the queue size is a multiple of the batch (laio.c 170). -/
structure Par.Ok (P : Par) : Prop where
  pos : 0 < P.qs
  dvd : 32 ∣ P.qs
  fits : P.n ≤ P.M

/-! ### Runs -/

def run (P : Par) (s : State) : List (Nat × Act) → Option State
  | [] => some s
  | (t, x) :: l => if t < P.n then match step P s t x with
      | .ok s' => run P s' l
      | _ => none
    else none

theorem run_reachable {P : Par} {s s' : State} {l : List (Nat × Act)} (h : Reachable P s) (hr : run P s l = some s') : Reachable P s' := by
  induction l generalizing s with
  | nil => cases hr; exact h
  | cons a l ih =>
    obtain ⟨t, x⟩ := a
    simp only [run] at hr
    split at hr
    · next ht =>
      split at hr
      · next s1 h1 => exact ih (.step t x h ht h1) hr
      · cases hr
    · cases hr

theorem times_subs (id : Nat) (l : List Ev) : times (.submitted id) l = subs id l := by simp [times, subs, List.countP_eq_length_filter]

theorem log_prefix {P : Par} {s : State} (h : Reachable P s) {l : List Ev} (hl : l <+: s.log) : ∃ s0, Reachable P s0 ∧ s0.log = l := by
  induction h with
  | init => exact ⟨init, .init, (List.prefix_nil.mp hl).symm⟩
  | @step s s' t x h0 ht hs ih =>
    have hlog : s'.log = s.log ∨ ∃ e, s'.log = s.log ++ [e] := by
      cases step_next hs with
      | dereg c s'' hpc hc hd => obtain ⟨e, -⟩ := dereg_eq hd; rw [e]; exact .inl rfl
      | sent => exact .inr ⟨_, rfl⟩
      | call => exact .inr ⟨_, rfl⟩
      | _ => exact .inl rfl
    rcases hlog with e | ⟨e, he⟩
    · rw [e] at hl; exact ih hl
    · rw [he] at hl
      rcases List.prefix_concat_iff.mp hl with h | h
      · exact ⟨s', .step t x h0 ht hs, by rw [he, h]⟩
      · exact ih h

/-! ### Exclusive use of the requests -/

/-- A request that a thread has is in no I/O in the kernel, and no other thread has it or handles an I/O with it. -/
theorem request_exclusive {P : Par} (hP : P.Ok) {s : State} (h : Reachable P s) {t k : Nat} (ht : t < P.n) (hk : own (s.pc t) = some k) :
    (∀ u < P.n, u ≠ t → own (s.pc u) ≠ some k ∧ ∀ io, ev (s.pc u) = some io → io.slot ≠ k) ∧
    (∀ io, ev (s.pc t) = some io → io.slot ≠ k) ∧ (∀ io ∈ s.kern, io.slot ≠ k) ∧ s.slot k = s.ctxOf t := by
  have I := h.inv hP.pos hP.dvd
  have h1 := useOne_own hk
  refine ⟨fun u hu hne => ⟨fun h' => hne (I.alone ht hu h1 (useOne_own h')), fun io h' e => ?_⟩, fun io h' e => ?_, I.not_kern ht h1, I.slotCtx t ht k hk⟩
  · subst e; exact hne (I.alone ht hu h1 (useOne_ev h'))
  · subst e
    have h2 := le_total (useOne io.slot) s.pc ht
    have h3 := I.use io.slot
    have h4 := occ_le (s.slot io.slot)
    simp only [useOne, hk, h', Option.map_some, isOne_self] at h2
    omega

/-- The I/Os in the kernel have different requests, all of them marked as in use. -/
theorem kernel_requests {P : Par} (hP : P.Ok) {s : State} (h : Reachable P s) (k : Nat) :
    (s.kern.filter (fun io => io.slot = k)).length ≤ 1 ∧ ∀ io ∈ s.kern, s.slot io.slot ≠ none := by
  have I := h.inv hP.pos hP.dvd
  constructor
  · have h1 := I.use k
    have h2 := occ_le (s.slot k)
    rw [List.countP_eq_length_filter] at h1
    omega
  · intro io hio hn
    have h1 := I.use io.slot
    rw [hn] at h1
    have : 0 < s.kern.countP (fun x => decide (x.slot = io.slot)) := List.countP_pos_iff.mpr ⟨io, hio, by simp⟩
    simp only [occ] at h1
    omega

/-! ### Every I/O once -/

/-- At any time: an I/O was submitted at most once, and was called back at most as often as it was submitted. -/
theorem called_at_most_once {P : Par} (hP : P.Ok) {s : State} (h : Reachable P s) {l : List Ev} (hl : l <+: s.log) (id : Nat) :
    times (.called id true) l ≤ times (.submitted id) l ∧ times (.submitted id) l ≤ 1 := by
  obtain ⟨s0, h0, rfl⟩ := log_prefix h hl
  have I := h0.inv hP.pos hP.dvd
  have h1 := I.ids id
  have h2 := I.once id
  have h3 : old s0.fresh id ≤ 1 := by unfold old; split <;> omega
  have h4 : times (.called id true) s0.log ≤ calls id s0.log := by
    rw [times, calls, ← List.countP_eq_length_filter]
    exact List.countP_mono_left fun e _ he => by simp only [decide_eq_true_eq] at he; subst he; simp
  rw [times_subs]
  omega

/-- No I/O gets lost: one that was submitted and not called back is in the kernel or with one thread that has not called it back yet. -/
theorem not_lost {P : Par} (hP : P.Ok) {s : State} (h : Reachable P s) {id : Nat} (hs : Ev.submitted id ∈ s.log) :
    (∃ ok, Ev.called id ok ∈ s.log) ∨ (∃ io ∈ s.kern, io.id = id) ∨ ∃ t < P.n, ∃ io, evl (s.pc t) = some io ∧ io.id = id := by
  have I := h.inv hP.pos hP.dvd
  have h1 := I.ids id
  have h2 : 0 < subs id s.log := List.countP_pos_iff.mpr ⟨_, hs, by simp⟩
  by_cases hc : calls id s.log = 0
  · by_cases hk : s.kern.countP (fun io => decide (io.id = id)) = 0
    · right; right
      have h3 : total P.n (evOne id) s.pc ≠ 0 := by omega
      rw [Ne, total_zero] at h3
      push Not at h3
      obtain ⟨t, ht, h4⟩ := h3
      refine ⟨t, ht, ?_⟩
      cases he : evl (s.pc t) with
      | none => simp [evOne, he, isOne] at h4
      | some io => exact ⟨io, rfl, by simpa [evOne, he, isOne] using h4⟩
    · right; left
      obtain ⟨io, hio, he⟩ := List.countP_pos_iff.mp (Nat.pos_of_ne_zero hk)
      exact ⟨io, hio, by simpa using he⟩
  · left
    obtain ⟨e, he, hh⟩ := List.countP_pos_iff.mp (Nat.pos_of_ne_zero hc)
    cases e with
    | submitted j => simp at hh
    | called j b => simp at hh; subst hh; exact ⟨b, he⟩

/-- No call to read or write forgets its I/O: each that was begun has submitted it or is still about to. -/
theorem submitted_or_pending {P : Par} (hP : P.Ok) {s : State} (h : Reachable P s) {id : Nat} (hid : id < s.fresh) :
    Ev.submitted id ∈ s.log ∨ ∃ t < P.n, ∃ k, pend (s.pc t) = some (k, id) ∧ own (s.pc t) = some k := by
  have I := h.inv hP.pos hP.dvd
  have h1 := I.once id
  rw [old, if_pos hid] at h1
  by_cases h2 : subs id s.log = 0
  · right
    have h3 : total P.n (pendOne id) s.pc ≠ 0 := by omega
    rw [Ne, total_zero] at h3
    push Not at h3
    obtain ⟨t, ht, h4⟩ := h3
    refine ⟨t, ht, ?_⟩
    cases he : pend (s.pc t) with
    | none => simp [pendOne, he, isOne] at h4
    | some x =>
      obtain ⟨k, j⟩ := x
      have : j = id := by simpa [pendOne, he, isOne] using h4
      exact ⟨k, by rw [this], own_of_pend he⟩
  · left
    obtain ⟨e, he, hh⟩ := List.countP_pos_iff.mp (Nat.pos_of_ne_zero h2)
    simp only [decide_eq_true_eq] at hh
    exact hh ▸ he

/-- The callback is given what the caller of this I/O wrote into its request. -/
theorem callback_data {P : Par} (hP : P.Ok) {s : State} (h : Reachable P s) {t c i : Nat} {ok : Bool} {lim : Option Nat} {r : Ret} {io : Io} (ht : t < P.n)
    (hpc : s.pc t = .clCall c lim r io) : ∃ s', step P s t (.go ok i) = .ok s' ∧ s'.log = s.log ++ [.called io.id true] ∧ Ev.submitted io.id ∈ s.log := by
  have I := h.inv hP.pos hP.dvd
  have hc := I.cont.2.1 t ht io (by rw [hpc]; rfl)
  refine ⟨_, by simp only [step, go, hpc]; rfl, by simp only [State.goto, hc], ?_⟩
  have h1 := I.ids io.id
  have h2 := le_total (evOne io.id) s.pc ht
  simp only [evOne, hpc, evl, Option.map_some, isOne_self] at h2
  have h3 : 0 < subs io.id s.log := by omega
  obtain ⟨e, he, hh⟩ := List.countP_pos_iff.mp h3
  simp only [decide_eq_true_eq] at hh
  exact hh ▸ he

/-- An I/O that the kernel has done is called back and its request given back by the thread that is cleaning up. -/
theorem done_is_called {P : Par} (hP : P.Ok) {s : State} (h : Reachable P s) {t c i : Nat} {lim : Option Nat} {r : Ret} {io : Io} (ht : t < P.n)
    (hpc : s.pc t = .clean c lim r) (hlim : lim ≠ some 0) (hio : s.kern[i]? = some io) (hc : io.ctx = c) (hr : io.res.isSome) :
    ∃ s', run P s (List.replicate 5 (t, .go true i)) = some s' ∧ s'.log = s.log ++ [.called io.id true] ∧ s'.slot io.slot = none ∧
      s'.kern = s.kern.eraseIdx i ∧ s'.pc t = .clean c (limNext lim) r ∧ (s'.ctx c).count + 1 = (s.ctx c).count := by
  have I := h.inv hP.pos hP.dvd
  have hm := List.mem_of_getElem? hio
  have hcont := I.cont.1 io hm
  have hpos : 0 < (s.ctx c).count := by
    have h1 := I.count c
    have : 0 < s.kern.countP (fun io => decide (io.ctx = c)) := List.countP_pos_iff.mpr ⟨io, hm, by simpa using hc⟩
    omega
  refine ⟨_, by
    simp only [run, List.replicate, ht, if_true, step, go, hpc, State.goto, State.setCount, upd, hlim, hpos, ne_eq, not_false_eq_true, hio, hc, hr, and_self]
    rfl, ?_, ?_, ?_, ?_, ?_⟩ <;> simp [upd, hcont]
  omega

/-! ### Waiting -/

/-- When `laio_cleanup` of all I/Os returns, no I/O of the context is in the kernel. -/
theorem cleanup_all_returns {P : Par} (hP : P.Ok) {s s' : State} (h : Reachable P s) {t c i : Nat} {ok : Bool} {r : Ret} (ht : t < P.n)
    (hpc : s.pc t = .clean c none r) (hs : step P s t (.go ok i) = .ok s') (hret : s'.pc t = r.pc) : s.ctxOf t = some c ∧ ∀ io ∈ s'.kern, io.ctx ≠ c := by
  have I := h.inv hP.pos hP.dvd
  refine ⟨I.ctxs t ht c (by rw [hpc]; simp [ctxs]), ?_⟩
  simp only [step, go, hpc] at hs
  split at hs
  · cases hs
    simp only [State.goto, upd, if_true] at hret
    cases r <;> simp [Ret.pc] at hret
  · next hn =>
    cases hs
    have h0 : (s.ctx c).count = 0 := by simpa using hn
    have h1 := I.count c
    have h2 : s.kern.countP (fun io => decide (io.ctx = c)) = 0 := by omega
    intro io hio
    simpa using List.countP_eq_zero.mp h2 io hio

/-- It does return: when no I/O of the context is in the kernel and no other thread is just submitting or counting one. -/
theorem cleanup_all_can_return {P : Par} (hP : P.Ok) {s : State} (h : Reachable P s) {t c i : Nat} {ok : Bool} {lim : Option Nat} {r : Ret}
    (hpc : s.pc t = .clean c lim r) (hk : ∀ io ∈ s.kern, io.ctx ≠ c)
    (ho : ∀ u < P.n, cnt (s.pc u) ≠ some c) : step P s t (.go ok i) = .ok (s.goto t r.pc) := by
  have I := h.inv hP.pos hP.dvd
  have h1 := I.count c
  have h2 : s.kern.countP (fun io => decide (io.ctx = c)) = 0 := List.countP_eq_zero.mpr fun io hio => by simpa using hk io hio
  have h3 : total P.n (cntOne c) s.pc = 0 := by
    rw [total_zero]
    intro u hu
    simp [cntOne, isOne, ho u hu]
  simp only [step, go, hpc]
  rw [if_neg (by omega)]

/-- `laio_wait_all` leaves the context of another process when no I/O of it is in the kernel. -/
theorem wait_leaves {P : Par} (hP : P.Ok) {s s' : State} (h : Reachable P s) {t j i : Nat} {ok : Bool}
    (hpc : s.pc t = .wait j) (hs : step P s t (.go ok i) = .ok s') (hret : s'.pc t = .wait (j + 1)) : ∀ io ∈ s'.kern, io.ctx ≠ j := by
  have I := h.inv hP.pos hP.dvd
  have h1 := I.count j
  cases hc : s.ctxOf t with
  | none => simp [step, go, hpc, hc] at hs
  | some c =>
    simp only [step, go, hpc, hc] at hs
    repeat' split at hs
    all_goals cases hs; simp [State.goto, upd] at hret
    next hn =>
    have h2 : s.kern.countP (fun io => decide (io.ctx = j)) = 0 := by omega
    intro io hio
    simpa using List.countP_eq_zero.mp h2 io hio

/-! ### No assertion fails -/

theorem findCtx_some {P : Par} (hP : P.Ok) {s : State} (I : Inv P s) {t pid : Nat} (ht : t < P.n) (hn : s.ctxOf t = none) : findCtx P s pid ≠ none := by
  intro h
  have hall : ∀ c < P.M, (s.ctx c).pid ≠ 0 := by
    unfold findCtx at h
    split at h
    · cases h
    · intro c hc h0
      have := List.find?_eq_none.mp h c (List.mem_range.mpr hc)
      simp [h0] at this
  have hex : ∀ c, c < P.M → ∃ u, u < P.n ∧ s.ctxOf u = some c := by
    intro c hc
    have h1 := I.used c (hall c hc)
    rw [I.threads c, Ne, total_zero] at h1
    push Not at h1
    obtain ⟨u, hu, h2⟩ := h1
    refine ⟨u, hu, ?_⟩
    by_contra h'
    exact h2 (by simp [regOne, isOne, h'])
  choose! f hf using hex
  have hcard : (Finset.range P.M).card ≤ ((Finset.range P.n).erase t).card := by
    refine Finset.card_le_card_of_injOn f ?_ ?_
    · intro c hc
      have hc := hf c (by simpa using hc)
      refine Finset.mem_coe.mpr (Finset.mem_erase.mpr ⟨?_, Finset.mem_range.mpr hc.1⟩)
      intro e
      rw [e, hn] at hc
      cases hc.2
    · intro a ha b hb hab
      have h1 := (hf a (by simpa using ha)).2
      have h2 := (hf b (by simpa using hb)).2
      rw [hab, h2] at h1
      exact (Option.some.inj h1).symm
  rw [Finset.card_erase_of_mem (Finset.mem_range.mpr ht), Finset.card_range, Finset.card_range] at hcard
  have := hP.fits
  omega

/-- No assertion fails, no request beyond the array is used, a context for a new process is found, and no context is destroyed with I/O in it. -/
theorem no_fault {P : Par} (hP : P.Ok) {s : State} (h : Reachable P s) {t : Nat} (ht : t < P.n) (x : Act) : step P s t x ≠ .fault := by
  have I := h.inv hP.pos hP.dvd
  have hreg : s.pc t ≠ .out → s.ctxOf t ≠ none := fun h0 h1 => h0 ((I.reg t ht).mp h1)
  intro hs
  cases x with
  | complete i res => simp only [step] at hs; repeat' split at hs
                      all_goals cases hs
  | register pid =>
    simp only [step, register] at hs
    split at hs
    · next hh =>
      split at hs
      · next hf => exact findCtx_some hP I ht ((I.reg t ht).mpr hh.1) hf
      · cases hs
    · cases hs
  | deregister =>
    simp only [step] at hs
    split at hs
    · next hh =>
      split at hs
      · cases hs
      · next hn => exact hreg (by rw [hh]; simp) hn
    · cases hs
  | get b => simp only [step] at hs; split at hs <;> cases hs
  | submit =>
    simp only [step] at hs
    split at hs
    · next k hk =>
      split at hs
      · cases hs
      · next hn => exact I.used_some ht (useOne_own (by rw [hk]; rfl)) hn
    · cases hs
  | cleanup m =>
    simp only [step] at hs
    split at hs
    · next hh =>
      split at hs
      · cases hs
      · next hn => exact hreg (by rw [hh]; simp) hn
    · cases hs
  | waitAll => simp only [step] at hs; split at hs <;> cases hs
  | go ok i =>
    simp only [step] at hs
    cases hc : s.ctxOf t with
    | none =>
      have := (I.reg t ht).mp hc
      simp [go, this] at hs
    | some c =>
      cases hpc : s.pc t with
      | getTry left =>
        have := (I.hand.2 t).2 (by rw [hpc]; rfl)
        simp only [go, hpc, hc] at hs
        rw [if_neg (by omega)] at hs
        split at hs <;> cases hs
      | dereg =>
        simp only [go, hpc, hc, deregister] at hs
        split at hs
        · next h1 =>
          split at hs
          · next h2 =>
            have one : ∀ u < P.n, u ≠ t → s.ctxOf u ≠ some c := by
              intro u hu hne h3
              have h4 := two_le_total (regOne c) s.ctxOf ht hu (Ne.symm hne)
              rw [← I.threads c, hc, h3] at h4
              simp only [regOne, isOne_self] at h4
              omega
            have hk : ∀ io ∈ s.kern, io.ctx ≠ c := by
              intro io hio e
              have hf := I.fly io hio
              rw [e] at hf
              exact one io.by_ hf.1 (fun e' => hf.2.2 (e' ▸ hpc)) hf.2.1
            have hk0 : s.kern.countP (fun io => decide (io.ctx = c)) = 0 := List.countP_eq_zero.mpr fun io hio => by simpa using hk io hio
            have ht0 : total P.n (cntOne c) s.pc = 0 := by
              rw [total_zero]
              intro u hu
              by_contra hne
              have hcu : cnt (s.pc u) = some c := by
                by_contra h'
                exact hne (by simp [cntOne, isOne, h'])
              have hm : c ∈ ctxs (s.pc u) := by
                revert hcu
                cases s.pc u <;> simp [cnt, ctxs] <;> intro e <;> simp [e]
              by_cases e : u = t
              · subst e; rw [hpc] at hm; simp [ctxs] at hm
              · exact one u hu e (I.ctxs u hu c hm)
            have h5 := I.count c
            rcases h2 with h2 | h2
            · omega
            · simp only [List.any_eq_true, decide_eq_true_eq] at h2
              obtain ⟨io, hio, e⟩ := h2
              exact hk io hio e
          · cases hs
        · cases hs
      | _ =>
        simp only [go, hpc, hc] at hs
        repeat' split at hs
        all_goals cases hs

/-! ### What does not hold -/

/-- The callback is told that the I/O went well, whatever the kernel said. -/
theorem status_always_ok {P : Par} {s : State} (h : Reachable P s) {id : Nat} {b : Bool} (he : Ev.called id b ∈ s.log) : b = true := by
  induction h with
  | init => simp [init] at he
  | @step s s' t x h0 ht hs ih =>
    cases step_next hs with
    | dereg c s'' hpc hc hd => obtain ⟨e, -⟩ := dereg_eq hd; rw [e] at he; exact ih he
    | sent => simp [State.goto] at he; exact ih he
    | call c lim r io hpc =>
      simp only [State.goto, List.mem_append, List.mem_singleton, Ev.called.injEq] at he
      rcases he with he | he
      · exact ih he
      · exact he.2
    | _ => exact ih he

/-- `laio_get_async_req` waits for the I/Os of the process, even if it is called not to block, and so do `laio_read_async` and `laio_write_async`:
as long as an I/O is not done the thread asks again, however often. -/
theorem get_waits {P : Par} (hP : P.Ok) {s : State} (h : Reachable P s) {t c : Nat} {r : Ret} (ht : t < P.n) (hpc : s.pc t = .clean c none r ∨ s.pc t = .clEv c none r)
    {io : Io} (hio : io ∈ s.kern) (hc : io.ctx = c) (hn : ∀ x ∈ s.kern, x.ctx = c → x.res = none) (l : List (Bool × Nat)) :
    ∃ s', run P s (l.map fun x => (t, .go x.1 x.2)) = some s' ∧ (s'.pc t = .clean c none r ∨ s'.pc t = .clEv c none r) ∧ s'.log = s.log := by
  induction l generalizing s with
  | nil => exact ⟨s, rfl, hpc, rfl⟩
  | cons x l ih =>
    obtain ⟨ok, i⟩ := x
    have hpos : 0 < (s.ctx c).count := by
      have h1 := (h.inv hP.pos hP.dvd).count c
      have : 0 < s.kern.countP (fun io => decide (io.ctx = c)) := List.countP_pos_iff.mpr ⟨io, hio, by simpa using hc⟩
      omega
    obtain ⟨p, hp, hs⟩ : ∃ p, (p = .clean c none r ∨ p = .clEv c none r) ∧ step P s t (.go ok i) = .ok (s.goto t p) := by
      rcases hpc with hpc | hpc
      · exact ⟨_, .inr rfl, by simp [step, go, hpc, hpos]⟩
      · refine ⟨_, .inl rfl, ?_⟩
        simp only [step, go, hpc]
        split
        · next x hx =>
          rw [if_neg]
          rintro ⟨h1, h2⟩
          rw [hn x (List.mem_of_getElem? hx) h1] at h2
          cases h2
        · rfl
    obtain ⟨s', h1, h2, h3⟩ := ih (s := s.goto t p) (.step t _ h ht hs) (by simpa [State.goto, upd] using hp) hio hn
    refine ⟨s', ?_, h2, h3⟩
    simp only [List.map_cons, run, ht, if_true, hs]
    exact h1

/-- Two threads of one process, 64 requests. -/
def par : Par := ⟨2, 2, 64⟩

theorem par_ok : par.Ok := ⟨by decide, ⟨2, rfl⟩, by decide⟩

/-- Thread `t` gets a request and writes with it. -/
def writeOne (t : Nat) : List (Nat × Act) :=
  [(t, .get true), (t, .go true 0), (t, .go true 0), (t, .go true 0), (t, .submit), (t, .go true 0), (t, .go true 0)]

/-- What one would want: the callback is told how the I/O went. -/
def ReportsResult (P : Par) : Prop :=
  ∀ s, Reachable P s → ∀ t < P.n, ∀ c lim r io, s.pc t = .clCall c lim r io → ∀ ok i s', step P s t (.go ok i) = .ok s' →
    s'.log = s.log ++ [.called io.id (io.res == some true)]

/-- It is for the I/Os that went well. The full statement is `ReportsResult`; it is false (`not_reports_result`). -/
theorem reports_result_partial {P : Par} (hP : P.Ok) {s s' : State} (h : Reachable P s) {t c i : Nat} {ok : Bool} {lim : Option Nat} {r : Ret} {io : Io} (ht : t < P.n)
    (hpc : s.pc t = .clCall c lim r io) (hres : io.res = some true) (hs : step P s t (.go ok i) = .ok s') :
    s'.log = s.log ++ [.called io.id (io.res == some true)] := by
  obtain ⟨s1, h1, h2, -⟩ := callback_data hP h (ok := ok) (i := i) ht hpc
  rw [h1] at hs
  cases hs
  rw [h2, hres]
  rfl

theorem not_reports_result : ¬ ReportsResult par := by
  intro hr
  let l := [(0, Act.register 7)] ++ writeOne 0 ++ [(1, .complete 0 false), (0, .go true 0), (0, .go true 0), (0, .go true 0)]
  have h := hr ((run par init l).getD init) (run_reachable (l := l) .init rfl) 0 (by decide) 0 none .done ⟨0, 0, 0, 0, some false⟩ rfl true 0 _ rfl
  exact absurd h (by decide +kernel)

/-- A write fails; its callback is told that it went well. -/
theorem failed_write_reported_ok : ∃ s s', Reachable par s ∧ (∃ io ∈ s.kern, io.id = 0 ∧ io.res = some false) ∧
    run par s (List.replicate 5 (0, .go true 0)) = some s' ∧ s'.log = [.submitted 0, .called 0 true] := by
  let l := [(0, Act.register 7)] ++ writeOne 0 ++ [(1, .complete 0 false)]
  refine ⟨(run par init l).getD init, ((run par init l).getD init |> fun s => run par s (List.replicate 5 (0, .go true 0))).getD init,
    run_reachable (l := l) .init rfl, ?_, rfl, rfl⟩
  exact ⟨⟨0, 0, 0, 0, some false⟩, by decide +kernel, rfl, rfl⟩

/-- `laio_cleanup` of all I/Os returns to a thread whose own write has not been called back: the other thread took it and is before the callback. -/
theorem cleanup_before_callback : ∃ s, Reachable par s ∧ s.pc 0 = .idle ∧ s.log = [.submitted 0] ∧ s.kern = [] ∧ ∃ lim r io, s.pc 1 = .clCall 0 lim r io ∧ io.id = 0 ∧ io.by_ = 0 := by
  let l := [(0, Act.register 7), (1, Act.register 7)] ++ writeOne 0 ++ [(1, .complete 0 true), (1, .cleanup 0), (1, .go true 0), (1, .go true 0), (1, .go true 0), (0, .go true 0), (0, .cleanup 0), (0, .go true 0)]
  exact ⟨(run par init l).getD init, run_reachable (l := l) .init rfl, rfl, rfl, rfl, _, _, _, rfl, rfl, rfl⟩

/-! ### Examples -/

/-- Two threads with a request each; an I/O in the kernel. -/
example : ∃ s, Reachable par s ∧ own (s.pc 1) = some 0 ∧ s.kern.map Io.slot = [32] ∧ own (s.pc 0) = none := by
  let l := [(0, Act.register 7), (1, Act.register 7)] ++ (writeOne 1).take 4 ++ writeOne 0
  exact ⟨(run par init l).getD init, run_reachable (l := l) .init rfl, rfl, rfl, rfl⟩

/-- A write that went well, just before its callback. -/
example : ∃ s, Reachable par s ∧ s.pc 0 = .clCall 0 none .done ⟨0, 0, 0, 0, some true⟩ ∧ s.log = [.submitted 0] := by
  let l := [(0, Act.register 7)] ++ writeOne 0 ++ [(1, .complete 0 true), (0, .go true 0), (0, .go true 0), (0, .go true 0)]
  exact ⟨(run par init l).getD init, run_reachable (l := l) .init rfl, rfl, rfl⟩

/-- A write that is submitted in a second attempt, called back, after which the thread leaves and the context is given up. -/
example : ∃ s, Reachable par s ∧ s.log = [.submitted 0, .called 0 true] ∧ s.pc 0 = .out ∧ (s.ctx 0).pid = 0 ∧ s.slot 0 = none := by
  let l := [(0, Act.register 7)] ++ (writeOne 0).take 6 ++ [(0, .go false 0), (0, .go true 0), (0, .go true 0), (0, .go true 0), (0, .go true 0), (0, .complete 0 true)] ++
    List.replicate 6 (0, .go true 0) ++ [(0, .deregister), (0, .go true 0), (0, .go true 0)]
  exact ⟨(run par init l).getD init, run_reachable (l := l) .init rfl, rfl, rfl, rfl, rfl⟩

/-- A thread that asks for a request without blocking, while a write of the other thread is in the kernel. -/
example : ∃ s, Reachable par s ∧ s.pc 1 = .clean 0 none (.getTry (some 1)) ∧ s.kern = [⟨0, 0, 0, 0, none⟩] := by
  let l := [(0, Act.register 7), (1, Act.register 7)] ++ writeOne 0 ++ [(1, .get false), (1, .go true 0)]
  exact ⟨(run par init l).getD init, run_reachable (l := l) .init rfl, rfl, rfl⟩

/-- A thread that is about to submit again what was refused. -/
example : ∃ s, Reachable par s ∧ s.fresh = 1 ∧ s.log = [] ∧ pend (s.pc 0) = some (0, 0) ∧ s.pc 0 = .clean 0 none (.submit 0 0 0) := by
  let l := [(0, Act.register 7)] ++ (writeOne 0).take 6 ++ [(0, .go false 0), (0, .go true 0)]
  exact ⟨(run par init l).getD init, run_reachable (l := l) .init rfl, rfl, rfl, rfl, rfl⟩

/-- Two processes have a context each; one waits for the other. -/
example : ∃ s, Reachable par s ∧ s.ctxOf 0 = some 0 ∧ s.ctxOf 1 = some 1 ∧ s.pc 1 = .wait 0 ∧ s.kern.length = 1 := by
  let l := [(0, Act.register 7), (1, Act.register 8)] ++ writeOne 0 ++ [(1, .waitAll)]
  exact ⟨(run par init l).getD init, run_reachable (l := l) .init rfl, rfl, rfl, rfl, rfl⟩

end Splinter.AsyncIO
