import Verif.Proof.AsyncIO
/-! The remaining parts of the invariant of `Model/AsyncIO.lean`. -/
set_option linter.unusedSimpArgs false
namespace Splinter.AsyncIO

theorem findCtx_spec {P : Par} {s : State} {pid i : Nat} (h : findCtx P s pid = some i) : i < P.M ∧ ((s.ctx i).pid = pid ∨ (s.ctx i).pid = 0) := by
  unfold findCtx at h
  split at h
  · next j hj =>
    cases h
    have h1 := List.mem_of_find?_eq_some hj
    have h2 := List.find?_some hj
    exact ⟨List.mem_range.mp h1, .inl (by simpa using h2)⟩
  · have h1 := List.mem_of_find?_eq_some h
    have h2 := List.find?_some h
    exact ⟨List.mem_range.mp h1, .inr (by simpa using h2)⟩

theorem occ_le (o : Option Nat) : occ o ≤ 1 := by unfold occ; split <;> omega

theorem useOne_own {k : Nat} {p : PC} (h : own p = some k) : 1 ≤ useOne k p := by simp [useOne, h, isOne_self]
theorem useOne_ev {p : PC} {io : Io} (h : ev p = some io) : 1 ≤ useOne io.slot p := by simp [useOne, h, isOne_self]
theorem ev_of_evl {p : PC} {io : Io} (h : evl p = some io) : ev p = some io := by cases p <;> simp_all [evl, ev]
theorem own_of_pend {p : PC} {x : Nat × Nat} (h : pend p = some x) : own p = some x.1 := by
  cases p <;> simp [pend, own] at h ⊢ <;> first | (subst h; rfl) | (rename_i r; cases r <;> simp [Ret.pend, Ret.own] at h ⊢; subst h; rfl) | (rename_i r _; cases r <;> simp [Ret.pend, Ret.own] at h ⊢; subst h; rfl)

/-- A request is used by one thread, or else by the kernel. -/
theorem Inv.alone {P : Par} {s : State} (I : Inv P s) {t u k : Nat} (ht : t < P.n) (hu : u < P.n) (h : 1 ≤ useOne k (s.pc t)) (h' : 1 ≤ useOne k (s.pc u)) : u = t := by
  by_contra hne
  have h1 := two_le_total (useOne k) s.pc ht hu (Ne.symm hne)
  have h2 := I.use k
  have := occ_le (s.slot k)
  omega

theorem Inv.not_kern {P : Par} {s : State} (I : Inv P s) {t k : Nat} (ht : t < P.n) (h : 1 ≤ useOne k (s.pc t)) : ∀ io ∈ s.kern, io.slot ≠ k := by
  have h1 := le_total (useOne k) s.pc ht
  have h2 := I.use k
  have := occ_le (s.slot k)
  have h3 : s.kern.countP (fun io => decide (io.slot = k)) = 0 := by omega
  intro io hio
  have := List.countP_eq_zero.mp h3 io hio
  simpa using this

theorem Inv.used_some {P : Par} {s : State} (I : Inv P s) {t k : Nat} (ht : t < P.n) (h : 1 ≤ useOne k (s.pc t)) : s.slot k ≠ none := by
  intro hn
  have h1 := le_total (useOne k) s.pc ht
  have h2 := I.use k
  rw [hn] at h2
  simp only [occ] at h2
  omega

theorem reg_next {P : Par} {s s' : State} {t : Nat} (ht : t < P.n) (I : Inv P s) (h : Next P s t s') :
    ∀ u < P.n, s'.ctxOf u = none ↔ s'.pc u = .out := by
  intro u hu
  have h0 := I.reg u hu
  cases h with
  | plain p hp =>
    simp only [State.goto, upd]
    split
    · next e => subst e; simp [hp.out.2, h0, hp.out.1]
    · exact h0
  | complete i io res h1 => exact h0
  | dereg c s'' hpc hc hd =>
    obtain ⟨e, -⟩ := dereg_eq hd
    rw [e]
    simp only [upd]
    split
    · simp
    · exact h0
  | _ =>
    simp only [State.goto, State.setCount, upd]
    split
    · next e => subst e; simp_all
    · exact h0

theorem ctxs_next {P : Par} {s s' : State} {t : Nat} (ht : t < P.n) (I : Inv P s) (h : Next P s t s') :
    ∀ u < P.n, ∀ c ∈ ctxs (s'.pc u), s'.ctxOf u = some c := by
  intro u hu d
  have h0 := I.ctxs u hu d
  cases h with
  | plain p hp =>
    simp only [State.goto, upd]
    split
    · next e =>
      subst e
      intro hd
      rcases hp.ctxs d hd with h | h
      · exact h0 h
      · exact h
    · exact h0
  | complete i io res h1 => exact h0
  | dereg c s'' hpc hc hd =>
    obtain ⟨e, -⟩ := dereg_eq hd
    rw [e]
    simp only [upd]
    split
    · simp [ctxs]
    · exact h0
  | submit k c hpc hc =>
    have hs := I.slotCtx t ht k (by rw [hpc]; rfl)
    simp only [State.goto, State.setCount, upd]
    split
    · next e => subst e; rw [hc] at hs; simp [ctxs, ← hs, eq_comm]
    · exact h0
  | reg i pid hpc hp hf =>
    simp only [State.goto, upd]
    split
    · simp [ctxs]
    · exact h0
  | dec c c' k id hpc hc =>
    simp only [State.goto, State.setCount, upd]
    split
    · next e =>
      subst e
      rw [hpc] at h0
      simp only [ctxs, Ret.ctxs, List.mem_cons, List.not_mem_nil, or_false] at h0 ⊢
      rintro (rfl | h)
      · exact hc
      · exact h0 h
    · exact h0
  | _ =>
    simp only [State.goto, State.setCount, upd]
    split
    · next e => subst e; simp_all [ctxs, Ret.ctxs, eq_comm]
    · exact h0

theorem slotCtx_next {P : Par} {s s' : State} {t : Nat} (ht : t < P.n) (I : Inv P s) (h : Next P s t s') :
    ∀ u < P.n, ∀ k, own (s'.pc u) = some k → s'.slot k = s'.ctxOf u := by
  intro u hu k
  have h0 := I.slotCtx u hu k
  cases h with
  | plain p hp =>
    simp only [State.goto, upd]
    split
    · next e => subst e; rw [hp.own]; exact h0
    · exact h0
  | complete i io res h1 => exact h0
  | dereg c s'' hpc hc hd =>
    obtain ⟨e, -⟩ := dereg_eq hd
    rw [e]
    simp only [upd]
    split
    · simp [own]
    · exact h0
  | hit left c hpc hc hs =>
    simp only [State.goto, upd]
    split
    · next e =>
      subst e
      intro hk
      simp only [own, Option.some.injEq] at hk
      rw [if_pos hk.symm, hc]
    · next e =>
      intro hk
      split
      · next e' =>
        subst e'
        exact absurd hs (I.used_some hu (useOne_own hk))
      · exact h0 hk
  | free c lim r io hpc =>
    have hev : 1 ≤ useOne io.slot (s.pc t) := useOne_ev (by rw [hpc]; rfl)
    simp only [State.goto, upd]
    split
    · next e =>
      subst e
      intro hk
      split
      · next e' =>
        subst e'
        exfalso
        have h1 := le_total (useOne io.slot) s.pc ht
        have h2 := I.use io.slot
        have h3 := occ_le (s.slot io.slot)
        simp only [own] at hk
        simp only [useOne, hpc, own, ev, Option.map_some, isOne_self, hk] at h1
        omega
      · rw [hpc] at h0; exact h0 hk
    · next e =>
      intro hk
      split
      · next e' =>
        subst e'
        exact absurd (I.alone ht hu hev (useOne_own hk)) e
      · exact h0 hk
  | _ =>
    simp only [State.goto, State.setCount, upd]
    split
    · next e => subst e; simp_all [own, Ret.own]
    · exact h0

theorem threads_next {P : Par} {s s' : State} {t : Nat} (ht : t < P.n) (I : Inv P s) (h : Next P s t s') (d : Nat) :
    (s'.ctx d).threads = total P.n (regOne d) s'.ctxOf := by
  have h0 := I.threads d
  cases h with
  | reg i pid hpc hp hf =>
    have hn := (I.reg t ht).mpr hpc
    have := total_upd (regOne d) s.ctxOf ht (some i)
    simp only [regOne, hn, isOne_none] at this
    simp only [State.goto]
    by_cases e : d = i
    · subst e
      simp only [isOne_self] at this
      simp only [upd, if_true] at this ⊢
      split
      · simp only; omega
      · next hne =>
        have hz : (s.ctx d).pid = 0 := by
          rcases (findCtx_spec hf).2 with h | h
          · exact absurd h hne
          · exact h
        have : total P.n (regOne d) s.ctxOf = 0 := by
          rw [total_zero]
          intro j hj
          by_contra hh
          have : s.ctxOf j = some d := by
            by_contra h'
            exact hh (by simp [regOne, isOne, h'])
          exact (I.pid j hj d this).2 hz
        simp only; omega
    · simp only [upd, if_neg e, isOne_ne (Ne.symm e)] at this ⊢; omega
  | dereg c s'' hpc hc hd =>
    obtain ⟨e, e2⟩ := dereg_eq hd
    have := total_upd (regOne d) s.ctxOf ht none
    have h2 := le_total (regOne d) s.ctxOf ht
    simp only [regOne, hc, isOne_none] at this h2
    rw [e, e2]
    simp only
    by_cases e : d = c
    · subst e
      simp only [isOne_self] at this h2
      simp only [upd, if_true] at this ⊢
      omega
    · simp only [upd, if_neg e, isOne_ne (Ne.symm e)] at this ⊢; omega
  | inc c k id hpc =>
    simp only [State.goto, State.setCount, upd]
    split
    · next e => subst e; exact h0
    · exact h0
  | dec c c' k id hpc =>
    simp only [State.goto, State.setCount, upd]
    split
    · next e => subst e; exact h0
    · exact h0
  | evDec c lim r io hpc =>
    simp only [State.goto, State.setCount, upd]
    split
    · next e => subst e; exact h0
    · exact h0
  | _ => exact h0

theorem pid_next {P : Par} {s s' : State} {t : Nat} (ht : t < P.n) (I : Inv P s) (h : Next P s t s') :
    (∀ u < P.n, ∀ c, s'.ctxOf u = some c → c < P.M ∧ (s'.ctx c).pid ≠ 0) ∧ ∀ c, (s'.ctx c).pid ≠ 0 → (s'.ctx c).threads ≠ 0 := by
  have hset : ∀ (c m d : Nat), ((upd s.ctx c { s.ctx c with count := m }) d).pid = (s.ctx d).pid ∧ ((upd s.ctx c { s.ctx c with count := m }) d).threads = (s.ctx d).threads := by
    intro c m d
    simp only [upd]
    split
    · next e => subst e; exact ⟨rfl, rfl⟩
    · exact ⟨rfl, rfl⟩
  cases h with
  | reg i pid hpc hp hf =>
    have hs := findCtx_spec hf
    simp only [State.goto]
    constructor
    · intro u hu d
      simp only [upd]
      split
      · intro hd
        cases hd
        refine ⟨hs.1, ?_⟩
        rw [if_pos rfl]
        split
        · next e => simpa [e] using hp
        · exact hp
      · intro hd
        have := I.pid u hu d hd
        refine ⟨this.1, ?_⟩
        split
        · next e =>
          subst e
          split
          · exact this.2
          · exact hp
        · exact this.2
    · intro d
      simp only [upd]
      split
      · split <;> simp
      · exact I.used d
  | dereg c s'' hpc hc hd =>
    obtain ⟨e, e2⟩ := dereg_eq hd
    rw [e, e2]
    simp only
    constructor
    · intro u hu d
      simp only [upd]
      split
      · simp
      · next hne =>
        intro hu'
        have := I.pid u hu d hu'
        refine ⟨this.1, ?_⟩
        split
        · next e =>
          subst e
          have h1 := two_le_total (regOne d) s.ctxOf ht hu (Ne.symm hne)
          rw [← I.threads d, hc, hu'] at h1
          simp only [regOne, isOne_self] at h1
          simp only
          rw [if_neg (by omega)]
          exact this.2
        · exact this.2
    · intro d
      simp only [upd]
      split
      · simp only
        split
        · intro h; exact absurd rfl h
        · next h => intro _; exact h
      · exact I.used d
  | inc c k id hpc =>
    simp only [State.goto, State.setCount, hset]
    exact ⟨I.pid, I.used⟩
  | dec c c' k id hpc =>
    simp only [State.goto, State.setCount, hset]
    exact ⟨I.pid, I.used⟩
  | evDec c lim r io hpc =>
    simp only [State.goto, State.setCount, hset]
    exact ⟨I.pid, I.used⟩
  | _ => exact ⟨I.pid, I.used⟩

theorem fly_next {P : Par} {s s' : State} {t : Nat} (ht : t < P.n) (I : Inv P s) (h : Next P s t s') :
    ∀ io ∈ s'.kern, io.by_ < P.n ∧ s'.ctxOf io.by_ = some io.ctx ∧ s'.pc io.by_ ≠ .dereg := by
  -- the thread of an I/O keeps its context and does not leave
  have move : ∀ p, p ≠ .dereg → ∀ io ∈ s.kern, io.by_ < P.n ∧ s.ctxOf io.by_ = some io.ctx ∧ upd s.pc t p io.by_ ≠ .dereg := by
    intro p hp io hio
    have := I.fly io hio
    refine ⟨this.1, this.2.1, ?_⟩
    simp only [upd]
    split
    · exact hp
    · exact this.2.2
  cases h with
  | plain p hp =>
    by_cases hd : p = .dereg
    · intro io hio
      have hf := I.fly io hio
      refine ⟨hf.1, hf.2.1, ?_⟩
      simp only [State.goto, upd]
      split
      · next e =>
        exfalso
        rcases hp.dereg hd with hb | ⟨c, hc, h0⟩
        · rw [I.lim t ht] at hb; cases hb
        · have h1 := I.ctxs t ht c hc
          rw [e, h1] at hf
          have h2 := I.count c
          have : 0 < s.kern.countP (fun io => decide (io.ctx = c)) := List.countP_pos_iff.mpr ⟨io, hio, by simpa using (Option.some.inj hf.2.1).symm⟩
          omega
      · exact hf.2.2
    · exact move p hd
  | complete i io res h1 =>
    intro x hx
    simp only at hx ⊢
    rcases List.mem_or_eq_of_mem_set hx with h | h
    · exact I.fly x h
    · subst h; exact I.fly io (List.mem_of_getElem? h1)
  | reg i pid hpc hp hf =>
    intro io hio
    have hn := (I.reg t ht).mpr hpc
    have hf := I.fly io hio
    have hne : io.by_ ≠ t := fun e => by rw [e, hn] at hf; cases hf.2.1
    simp only [State.goto, upd, if_neg hne]
    exact hf
  | dereg c s'' hpc hc hd =>
    obtain ⟨e, e2⟩ := dereg_eq hd
    rw [e]
    intro io hio
    have hf := I.fly io hio
    have hne : io.by_ ≠ t := fun e => by rw [e] at hf; exact hf.2.2 hpc
    simp only [upd, if_neg hne]
    exact hf
  | sent c c' k id hpc hc =>
    intro io hio
    simp only [State.goto, List.mem_cons] at hio ⊢
    rcases hio with rfl | hio
    · exact ⟨ht, I.ctxs t ht c (by rw [hpc]; simp [ctxs]), by simp [upd]⟩
    · exact move _ (by simp) io hio
  | reap c lim r i io hpc hio hc => exact fun x hx => move _ (by simp) x (List.mem_of_mem_eraseIdx hx)
  | _ => exact move _ (by simp)

theorem cont_next {P : Par} {s s' : State} {t : Nat} (ht : t < P.n) (I : Inv P s) (h : Next P s t s') :
    (∀ io ∈ s'.kern, s'.content io.slot = io.id) ∧ (∀ u < P.n, ∀ io, evl (s'.pc u) = some io → s'.content io.slot = io.id) ∧
    ∀ u < P.n, ∀ x, pend (s'.pc u) = some x → s'.content x.1 = x.2 := by
  obtain ⟨h1, h2, h3⟩ := I.cont
  have mE : ∀ p, (∀ io, evl p = some io → s.content io.slot = io.id) → ∀ u < P.n, ∀ io, evl (upd s.pc t p u) = some io → s.content io.slot = io.id := by
    intro p hp u hu io
    simp only [upd]
    split
    · exact hp io
    · exact h2 u hu io
  have mP : ∀ p, (∀ x, pend p = some x → s.content x.1 = x.2) → ∀ u < P.n, ∀ x, pend (upd s.pc t p u) = some x → s.content x.1 = x.2 := by
    intro p hp u hu io
    simp only [upd]
    split
    · exact hp io
    · exact h3 u hu io
  have h2t := h2 t ht
  have h3t := h3 t ht
  cases h with
  | plain p hp => exact ⟨h1, mE p (by rw [hp.evl]; exact h2t), mP p (by rw [hp.pend]; exact h3t)⟩
  | complete i io res hio =>
    refine ⟨?_, h2, h3⟩
    intro x hx
    simp only at hx ⊢
    rcases List.mem_or_eq_of_mem_set hx with h | h
    · exact h1 x h
    · subst h; exact h1 io (List.mem_of_getElem? hio)
  | submit k c hpc hc =>
    have hown : 1 ≤ useOne k (s.pc t) := useOne_own (by rw [hpc]; rfl)
    simp only [State.goto]
    refine ⟨?_, ?_, ?_⟩
    · intro io hio
      simp only [upd, if_neg (I.not_kern ht hown io hio)]
      exact h1 io hio
    · intro u hu io
      simp only [upd]
      split
      · simp [evl]
      · next hne =>
        intro he
        rw [if_neg]
        · exact h2 u hu io he
        · rintro rfl
          exact hne (I.alone ht hu hown (useOne_ev (ev_of_evl he)))
    · intro u hu x
      simp only [upd]
      split
      · intro hx
        simp only [pend, Option.some.injEq] at hx
        subst hx
        simp
      · next hne =>
        intro he
        rw [if_neg]
        · exact h3 u hu x he
        · rintro rfl
          exact hne (I.alone ht hu hown (useOne_own (own_of_pend he)))
  | sent c c' k id hpc hc =>
    refine ⟨?_, mE _ (by simp [evl]), mP _ (by simp [pend, Ret.pend])⟩
    intro io hio
    simp only [State.goto, List.mem_cons] at hio ⊢
    rcases hio with rfl | hio
    · exact h3t (k, id) (by rw [hpc]; rfl)
    · exact h1 io hio
  | reap c lim r i io hpc hio hc =>
    refine ⟨fun x hx => h1 x (List.mem_of_mem_eraseIdx hx), mE _ ?_, mP _ (by rw [hpc] at h3t; exact h3t)⟩
    intro x hx
    simp only [evl, Option.some.injEq] at hx
    subst hx
    exact h1 _ (List.mem_of_getElem? hio)
  | dereg c s'' hpc hc hd =>
    obtain ⟨e, e2⟩ := dereg_eq hd
    rw [e]
    exact ⟨h1, mE _ (by simp [evl]), mP _ (by simp [pend])⟩
  | reg i pid hpc hp hf => exact ⟨h1, mE _ (by simp [evl]), mP _ (by simp [pend])⟩
  | newBatch left left' c hpc hc => exact ⟨h1, mE _ (by simp [evl]), mP _ (by simp [pend, Ret.pend])⟩
  | hit left c hpc hc hs => exact ⟨h1, mE _ (by simp [evl]), mP _ (by simp [pend])⟩
  | miss left hpc => exact ⟨h1, mE _ (by simp [evl]), mP _ (by simp [pend])⟩
  | inc c k id hpc => exact ⟨h1, mE _ (by simp [evl]), mP _ (by rw [hpc] at h3t; exact h3t)⟩
  | dec c c' k id hpc => exact ⟨h1, mE _ (by simp [evl]), mP _ (by rw [hpc] at h3t; exact h3t)⟩
  | evDec c lim r io hpc => exact ⟨h1, mE _ (by rw [hpc] at h2t; exact h2t), mP _ (by rw [hpc] at h3t; exact h3t)⟩
  | call c lim r io hpc => exact ⟨h1, mE _ (by simp [evl]), mP _ (by rw [hpc] at h3t; exact h3t)⟩
  | free c lim r io hpc => exact ⟨h1, mE _ (by simp [evl]), mP _ (by rw [hpc] at h3t; exact h3t)⟩

theorem hand_next {P : Par} {s s' : State} {t : Nat} (hq : 0 < P.qs) (hd : batch ∣ P.qs) (I : Inv P s) (h : Next P s t s') :
    batch ∣ s'.base ∧ ∀ u, (s'.hand u % batch = 0 ∨ s'.hand u < P.qs) ∧ (tries (s'.pc u) = true → s'.hand u < P.qs) := by
  obtain ⟨h1, h2⟩ := I.hand
  have mv : ∀ p, (tries p = true → s.hand t < P.qs) → ∀ u, (s.hand u % batch = 0 ∨ s.hand u < P.qs) ∧ (tries (upd s.pc t p u) = true → s.hand u < P.qs) := by
    intro p hp u
    refine ⟨(h2 u).1, ?_⟩
    simp only [upd]
    split
    · next e => subst e; exact hp
    · exact (h2 u).2
  have inc : tries (s.pc t) = true → (s.hand t + 1) % batch = 0 ∨ s.hand t + 1 < P.qs := by
    intro hp
    have := (h2 t).2 hp
    by_cases e : s.hand t + 1 = P.qs
    · rw [e]; exact .inl (Nat.mod_eq_zero_of_dvd hd)
    · omega
  have mh : ∀ p v, (v % batch = 0 ∨ v < P.qs) → (tries p = true → v < P.qs) → ∀ u, (upd s.hand t v u % batch = 0 ∨ upd s.hand t v u < P.qs) ∧ (tries (upd s.pc t p u) = true → upd s.hand t v u < P.qs) := by
    intro p v hv hp u
    simp only [upd]
    split
    · exact ⟨hv, hp⟩
    · exact h2 u
  have h2t := (h2 t).2
  cases h with
  | plain p hp =>
    refine ⟨h1, mv p fun ht => ?_⟩
    rcases hp.tries ht with h | h
    · exact h2t h
    · exact (h2 t).1.resolve_left h
  | complete i io res hio => exact ⟨h1, h2⟩
  | newBatch left left' c hpc hc => exact ⟨Nat.dvd_add h1 (Nat.dvd_refl 32), mh _ _ (.inr (Nat.mod_lt _ hq)) fun _ => Nat.mod_lt _ hq⟩
  | hit left c hpc hc hs => exact ⟨h1, mh _ _ (inc (by rw [hpc]; rfl)) (by simp [tries])⟩
  | miss left hpc => exact ⟨h1, mh _ _ (inc (by rw [hpc]; rfl)) (by simp [tries])⟩
  | dereg c s'' hpc hc hd =>
    obtain ⟨e, e2⟩ := dereg_eq hd
    rw [e]
    exact ⟨h1, mv _ (by simp [tries])⟩
  | reap c lim r i io hpc hio hc => exact ⟨h1, mv _ (by rw [hpc] at h2t; exact h2t)⟩
  | evDec c lim r io hpc => exact ⟨h1, mv _ (by rw [hpc] at h2t; exact h2t)⟩
  | call c lim r io hpc => exact ⟨h1, mv _ (by rw [hpc] at h2t; exact h2t)⟩
  | free c lim r io hpc => exact ⟨h1, mv _ (by rw [hpc] at h2t; exact h2t)⟩
  | _ => exact ⟨h1, mv _ (by simp [tries, Ret.tries])⟩

theorem lim_next {P : Par} {s s' : State} {t : Nat} (ht : t < P.n) (I : Inv P s) (h : Next P s t s') : ∀ u < P.n, badLim (s'.pc u) = false := by
  have mv : ∀ p, badLim p = false → ∀ u < P.n, badLim (upd s.pc t p u) = false := by
    intro p hp u hu
    simp only [upd]
    split
    · exact hp
    · exact I.lim u hu
  have h0 := I.lim t ht
  cases h with
  | plain p hp =>
    refine mv p ?_
    by_contra hb
    have := hp.lim (by simpa using hb)
    rw [h0] at this
    cases this
  | complete i io res hio => exact I.lim
  | dereg c s'' hpc hc hd =>
    obtain ⟨e, e2⟩ := dereg_eq hd
    rw [e]
    exact mv _ rfl
  | reap c lim r i io hpc hio hc => exact mv _ (by rw [hpc] at h0; exact h0)
  | evDec c lim r io hpc => exact mv _ (by rw [hpc] at h0; exact h0)
  | call c lim r io hpc => exact mv _ (by rw [hpc] at h0; exact h0)
  | free c lim r io hpc => exact mv _ (by rw [hpc] at h0; cases lim <;> exact h0)
  | _ => exact mv _ rfl

theorem subs_append (id j : Nat) (l : List Ev) : subs id (l ++ [.submitted j]) = subs id l + isOne (some j) id := by
  simp only [subs, List.countP_append, isOne, List.countP_cons, List.countP_nil, Option.some.injEq, decide_eq_true_eq, Ev.submitted.injEq]
  omega
theorem calls_append (id j : Nat) (b : Bool) (l : List Ev) : calls id (l ++ [.called j b]) = calls id l + isOne (some j) id := by
  simp [calls, List.countP_append, isOne, List.countP_cons]
theorem subs_append_called (id j : Nat) (b : Bool) (l : List Ev) : subs id (l ++ [.called j b]) = subs id l := by
  simp [subs, List.countP_append]
theorem calls_append_sub (id j : Nat) (l : List Ev) : calls id (l ++ [.submitted j]) = calls id l := by
  simp [calls, List.countP_append]

theorem ids_next {P : Par} {s s' : State} {t : Nat} (ht : t < P.n) (I : Inv P s) (h : Next P s t s') (id : Nat) :
    subs id s'.log = s'.kern.countP (fun io => decide (io.id = id)) + total P.n (evOne id) s'.pc + calls id s'.log := by
  have h0 := I.ids id
  have key := fun p => total_upd (evOne id) s.pc ht p
  cases h with
  | plain p hp =>
    have := total_same (evOne id) s.pc ht (p := p) (by simp [evOne, hp.evl])
    simp only [State.goto]; omega
  | complete i io res hio =>
    simp only
    rw [countP_set _ hio (by simp)]; exact h0
  | sent c c' k j hpc hc =>
    have := key (.clean c' none .done)
    simp only [evOne, hpc, evl, Option.map_none, isOne_none] at this
    have h2 : isOne (some j) id = if j = id then 1 else 0 := by simp [isOne]
    simp only [State.goto, List.countP_cons, subs_append, calls_append_sub, decide_eq_true_eq]
    omega
  | reap c lim r i io hpc hio hc =>
    have := key (.clDec c lim r io)
    simp only [evOne, hpc, evl, Option.map_none, Option.map_some, isOne_none] at this
    have h2 := countP_eraseIdx (fun io => decide (io.id = id)) hio
    simp only [State.goto, decide_eq_true_eq] at h2 ⊢
    have : isOne (some io.id) id = if io.id = id then 1 else 0 := by simp [isOne]
    omega
  | evDec c lim r io hpc =>
    have := key (.clCall c lim r io)
    simp only [evOne, hpc, evl, Option.map_none, Option.map_some, isOne_none] at this
    simp only [State.goto, State.setCount]
    omega
  | call c lim r io hpc =>
    have := key (.clFree c lim r io)
    have hc := I.cont.2.1 t ht io (by rw [hpc]; rfl)
    simp only [evOne, hpc, evl, Option.map_none, Option.map_some, isOne_none] at this
    simp only [State.goto, subs_append_called, calls_append, hc]
    omega
  | free c lim r io hpc =>
    have := key (.clean c (limNext lim) r)
    simp only [evOne, hpc, evl, Option.map_none, isOne_none] at this
    simp only [State.goto]
    omega
  | dereg c s'' hpc hc hd =>
    obtain ⟨e, e2⟩ := dereg_eq hd
    have := key .out
    simp only [evOne, hpc, evl, Option.map_none, isOne_none] at this
    rw [e]
    simp only
    omega
  | reg i pid hpc hp hf =>
    have := key .idle
    simp only [evOne, hpc, evl, Option.map_none, isOne_none] at this
    simp only [State.goto]; omega
  | newBatch left left' c hpc hc =>
    have := key (.clean c none (.getTry left'))
    simp only [evOne, hpc, evl, Option.map_none, isOne_none] at this
    simp only [State.goto]; omega
  | hit left c hpc hc hs =>
    have := key (.owns (s.hand t))
    simp only [evOne, hpc, evl, Option.map_none, isOne_none] at this
    simp only [State.goto]; omega
  | miss left hpc =>
    have := key (.getHead left)
    simp only [evOne, hpc, evl, Option.map_none, isOne_none] at this
    simp only [State.goto]; omega
  | submit k c hpc hc =>
    have := key (.sub1 c k s.fresh)
    simp only [evOne, hpc, evl, Option.map_none, isOne_none] at this
    simp only [State.goto]; omega
  | inc c k j hpc =>
    have := key (.sub2 c k j)
    simp only [evOne, hpc, evl, Option.map_none, isOne_none] at this
    simp only [State.goto, State.setCount]; omega
  | dec c c' k j hpc =>
    have := key (.clean c' none (.submit c k j))
    simp only [evOne, hpc, evl, Option.map_none, isOne_none] at this
    simp only [State.goto, State.setCount]; omega

theorem once_next {P : Par} {s s' : State} {t : Nat} (ht : t < P.n) (I : Inv P s) (h : Next P s t s') (id : Nat) :
    total P.n (pendOne id) s'.pc + subs id s'.log = old s'.fresh id := by
  have h0 := I.once id
  have key := fun p => total_upd (pendOne id) s.pc ht p
  have same : ∀ p, pend p = pend (s.pc t) → total P.n (pendOne id) (upd s.pc t p) + subs id s.log = old s.fresh id := by
    intro p hp
    have := total_same (pendOne id) s.pc ht (p := p) (by simp [pendOne, hp])
    omega
  cases h with
  | plain p hp => exact same p hp.pend
  | complete i io res hio => exact h0
  | submit k c hpc hc =>
    have := key (.sub1 c k s.fresh)
    simp only [pendOne, hpc, pend, Option.map_none, Option.map_some, isOne_none] at this
    simp only [State.goto]
    by_cases e : s.fresh = id
    · subst e
      simp only [isOne_self, old, Nat.lt_irrefl, if_false, Nat.lt_succ_self, if_true] at this h0 ⊢
      omega
    · simp only [isOne_ne e] at this
      unfold old at h0 ⊢
      split at h0 <;> split <;> omega
  | sent c c' k j hpc hc =>
    have := key (.clean c' none .done)
    simp only [pendOne, hpc, pend, Ret.pend, Option.map_none, Option.map_some, isOne_none] at this
    simp only [State.goto, subs_append]
    omega
  | call c lim r io hpc =>
    simp only [State.goto, subs_append_called]
    exact same _ (by rw [hpc]; rfl)
  | dereg c s'' hpc hc hd =>
    obtain ⟨e, e2⟩ := dereg_eq hd
    rw [e]
    exact same _ (by rw [hpc]; rfl)
  | reg i pid hpc hp hf => exact same _ (by rw [hpc]; rfl)
  | newBatch left left' c hpc hc => exact same _ (by rw [hpc]; rfl)
  | hit left c hpc hc hs => exact same _ (by rw [hpc]; rfl)
  | miss left hpc => exact same _ (by rw [hpc]; rfl)
  | inc c k id hpc => exact same _ (by rw [hpc]; rfl)
  | dec c c' k id hpc => exact same _ (by rw [hpc]; rfl)
  | reap c lim r i io hpc hio hc => exact same _ (by rw [hpc]; rfl)
  | evDec c lim r io hpc => exact same _ (by rw [hpc]; rfl)
  | free c lim r io hpc => exact same _ (by rw [hpc]; rfl)

theorem Inv.next {P : Par} {s s' : State} {t : Nat} (hq : 0 < P.qs) (hd : batch ∣ P.qs) (ht : t < P.n) (I : Inv P s) (h : Next P s t s') : Inv P s' :=
  { use := use_next ht I h
    count := count_next ht I h
    reg := reg_next ht I h
    ctxs := ctxs_next ht I h
    slotCtx := slotCtx_next ht I h
    threads := threads_next ht I h
    pid := (pid_next ht I h).1
    used := (pid_next ht I h).2
    fly := fly_next ht I h
    cont := cont_next ht I h
    hand := hand_next hq hd I h
    lim := lim_next ht I h
    ids := ids_next ht I h
    once := once_next ht I h }

theorem inv_init (P : Par) : Inv P init := by
  refine ⟨?_, ?_, ?_, ?_, ?_, ?_, ?_, ?_, ?_, ?_, ?_, ?_, ?_, ?_⟩ <;>
    simp [init, total, useOne, cntOne, regOne, evOne, pendOne, own, ev, evl, pend, cnt, ctxs, tries, badLim, subs, calls, isOne, occ, old]

theorem Reachable.inv {P : Par} {s : State} (hq : 0 < P.qs) (hd : batch ∣ P.qs) (h : Reachable P s) : Inv P s := by
  induction h with
  | init => exact inv_init P
  | step t x _ ht hs ih => exact ih.next hq hd ht (step_next hs)

end Splinter.AsyncIO
