import Verif.Proof.MemtableInv

/-! # Memtables: steps that change memtables preserve the invariant -/
namespace Splinter.Memtable
variable {M : Type}

theorem other_agent {N : Nat} {s : State M} (h : Inv N s) {t g : Nat} (ht : (s.pc t).agent = some g) : ∀ u, u ≠ t → (s.pc u).agent ≠ some g :=
  fun u hu hh => hu (h.agents u t g hh ht)

theorem other_inc {N : Nat} {s : State M} (h : Inv N s) {t : Nat} (ht : (s.pc t).isInc = true) : ∀ u, u ≠ t → (s.pc u).isInc = false := by
  intro u hu
  cases hh : (s.pc u).isInc
  · rfl
  · exact absurd (h.incs u t hh ht) hu

theorem other_rec {N : Nat} {s : State M} (h : Inv N s) {t g : Nat} (ht : (s.pc t).recycles = some g) : ∀ u, u ≠ t → (s.pc u).recycles ≠ some g :=
  fun u hu hh => hu (h.recs u t g hh ht)

theorem other_ins {s : State M} (hl : Locks s) {t : Nat} (ht : (s.pc t).locksInsert = true) : ∀ u, u ≠ t → (s.pc u).holdsInsert = false := by
  intro u hu
  cases hh : (s.pc u).holdsInsert
  · rfl
  · have h1 := hl.insR u hh
    rw [(hl.insW t ht).2, List.mem_singleton] at h1
    exact absurd h1 hu

theorem root_keep {s s' : State M} {t : Nat} {p : PC M} (h : s.root = ltGen s.log s.ret ∨ ∃ t g nr, s.pc t = .inc5 g nr) (hp : s'.pc = upd s.pc t p) (h5 : ∀ g nr, s.pc t ≠ .inc5 g nr)
    (e : s'.root = s.root) (e' : ltGen s'.log s'.ret = ltGen s.log s.ret) : s'.root = ltGen s'.log s'.ret ∨ ∃ t g nr, s'.pc t = .inc5 g nr := by
  rcases h with h | ⟨u, g, nr, h⟩
  · left; rw [e, e', h]
  · right
    refine ⟨u, g, nr, ?_⟩
    rw [hp]
    simp only [upd]
    rw [if_neg]
    · exact h
    · rintro rfl; exact h5 g nr h

theorem inv_rot4 {N : Nat} {s : State M} {t : Nat} (h : Inv N s) (hl : Locks s) {m : M} {g : Nat} (hp : s.pc t = .rot4 m g) :
    Inv N ((s.setSl N g { s.sl N g with st := .finalized }).to t (.rot5 m g)) := by
  have ok := h.pcs t
  have c := h.core
  rw [hp] at ok
  simp only [PCok] at ok
  have hlow := c.low
  have hq : g ∉ s.queue := fun hg => by have := c.queueOk g hg; omega
  have hfree := other_ins hl (t := t) (by rw [hp]; rfl)
  have hm : (g + 1) % N ≠ g % N := fun e => by have := mod_inj e (by have := c.two; omega) (by omega); omega
  have hna : ∀ u, u ≠ t → (s.pc u).agent ≠ some g := by
    intro u hu ha
    have := h.pcs u
    have hf := hfree u hu
    cases hpu : s.pc u <;> rw [hpu] at this hf ha <;> simp only [PC.agent, Option.some.injEq, reduceCtorEq, PCok, PC.holdsInsert, Bool.true_eq_false] at this hf ha <;> omega
  refine assemble h rfl (core_congr (core_st c (x := { s.sl N g with st := .finalized }) (by omega) (by omega) ⟨rfl, rfl, rfl, rfl⟩ ⟨by simp, by simp⟩ (fun _ => by simp) (fun h => by simp at h) hq) rfl rfl rfl rfl rfl rfl rfl rfl)
    (fun u hu => pcok_congr (others_st c (x := { s.sl N g with st := .finalized }) (by omega) (by omega) ⟨rfl, rfl, rfl, rfl⟩ (h.pcs u) (fun _ => hfree u hu) (hna u hu) (by rw [ok.2.2.1]; simp) (by rw [ok.2.2.1]; simp)) rfl rfl rfl rfl rfl)
    ?_ ?_ (fun u _ g' hg' => h.queued u g' hg') (fun h => (by cases h)) (fun g h => (by cases h)) (root_keep h.root rfl (by simp [hp]) rfl rfl)
  · simp only [PCok, to_sl, to_gen, setSl_sl, if_true, hm, if_false]
    exact ⟨ok.1, ok.2.1, trivial, ok.2.2.2⟩
  · intro g' hg'
    simp only [PC.agent, Option.some.injEq] at hg'
    subst hg'
    exact ⟨hq, hna⟩

/-- The steps of the flush that only change the state of the memtable. -/
theorem inv_st {N : Nat} {s : State M} {t : Nat} (h : Inv N s) {g : Nat} {x : Slot M} {p : PC M} (h1 : s.ret ≤ g) (h2 : g < s.gen)
    (hx : x.gen = (s.sl N g).gen ∧ x.refs = (s.sl N g).refs ∧ x.own = (s.sl N g).own ∧ x.data = (s.sl N g).data) (hs : x.st ≠ .incorporated ∧ x.st ≠ .ready)
    (hc : x.st = .compacted ∨ x.st = .assigned → x.cmt = x.data) (hq : g ∉ s.queue) (hag : ∀ u, u ≠ t → (s.pc u).agent ≠ some g)
    (hst : (s.sl N g).st ≠ .assigned ∧ (s.sl N g).st ≠ .incorporated) (hcs : (s.sl N g).st = .compacted → x.st = .assigned)
    (ht : PCok N (s.setSl N g x) p) (hpa : p.agent = some g ∨ p.agent = none) (hI : p.isInc = true → ∀ u, u ≠ t → (s.pc u).isInc = false) (hR : p.recycles = none)
    (h5 : ∀ g nr, s.pc t ≠ .inc5 g nr) : Inv N ((s.setSl N g x).to t p) := by
  have c := h.core
  refine assemble h rfl (core_congr (core_st c h1 (by omega) hx hs (fun _ => by omega) hc hq) rfl rfl rfl rfl rfl rfl rfl rfl)
    (fun u hu => pcok_congr (others_st c h1 (by omega) hx (h.pcs u) (fun hh => absurd hh (c.old g h1 h2)) (hag u hu) hst hcs) rfl rfl rfl rfl rfl)
    (pcok_congr ht rfl rfl rfl rfl rfl) ?_ (fun u _ g' hg' => h.queued u g' hg') hI (fun g hh => (by rw [hR] at hh; cases hh)) (root_keep h.root rfl h5 rfl rfl)
  intro g' hg'
  rcases hpa with hpa | hpa <;> rw [hpa] at hg'
  · injection hg' with hg'
    subst hg'
    exact ⟨hq, hag⟩
  · cases hg'

theorem inv_fin {N : Nat} {s : State M} {t : Nat} (h : Inv N s) {g : Nat} (hp : s.pc t = .fin g) :
    Inv N ((s.setSl N g { s.sl N g with st := .compacting }).to t (.comp g)) := by
  have ok := h.pcs t
  rw [hp] at ok
  simp only [PCok] at ok
  have ha : (s.pc t).agent = some g := by rw [hp]; rfl
  exact inv_st h ok.1 ok.2.1 ⟨rfl, rfl, rfl, rfl⟩ ⟨by simp, by simp⟩ (by simp) (h.queued t g ha) (other_agent h ha) (by rw [ok.2.2.2]; simp) (by rw [ok.2.2.2]; simp)
    ⟨ok.1, ok.2.1, by rw [setSl_sl, if_pos rfl]; exact ok.2.2.1, by rw [setSl_sl, if_pos rfl]⟩ (.inl rfl) (by simp [PC.isInc]) rfl (by simp [hp])

theorem inv_comp {N : Nat} {s : State M} {t : Nat} (h : Inv N s) {g : Nat} (hp : s.pc t = .comp g) :
    Inv N ((s.setSl N g { s.sl N g with cmt := (s.sl N g).data }).to t (.comp2 g)) := by
  have ok := h.pcs t
  rw [hp] at ok
  simp only [PCok] at ok
  have ha : (s.pc t).agent = some g := by rw [hp]; rfl
  exact inv_st h ok.1 ok.2.1 ⟨rfl, rfl, rfl, rfl⟩ (by simp [ok.2.2.2]) (by simp) (h.queued t g ha) (other_agent h ha) (by rw [ok.2.2.2]; simp) (by rw [ok.2.2.2]; simp)
    ⟨ok.1, ok.2.1, by rw [setSl_sl, if_pos rfl]; exact ok.2.2.1, by rw [setSl_sl, if_pos rfl]; exact ok.2.2.2, by rw [setSl_sl, if_pos rfl]⟩ (.inl rfl) (by simp [PC.isInc]) rfl (by simp [hp])

theorem inv_comp2 {N : Nat} {s : State M} {t : Nat} (h : Inv N s) {g : Nat} (hp : s.pc t = .comp2 g) :
    Inv N ((s.setSl N g { s.sl N g with st := .compacted }).to t (.start g)) := by
  have ok := h.pcs t
  rw [hp] at ok
  simp only [PCok] at ok
  have ha : (s.pc t).agent = some g := by rw [hp]; rfl
  exact inv_st h ok.1 ok.2.1 ⟨rfl, rfl, rfl, rfl⟩ ⟨by simp, by simp⟩ (fun _ => ok.2.2.2.2) (h.queued t g ha) (other_agent h ha) (by rw [ok.2.2.2.1]; simp) (by rw [ok.2.2.2.1]; simp)
    ok.2.1 (.inr rfl) (by simp [PC.isInc]) rfl (by simp [hp])

/-- A compacted memtable is a live one. -/
theorem compacted_live {N : Nat} {s : State M} (c : Core N s) {g : Nat} (hg : (s.sl N g).gen = g) (hs : (s.sl N g).st = .compacted) : s.ret ≤ g := by
  apply Decidable.byContradiction
  intro hlt
  have h1 := c.low
  have h2 := c.high
  -- the window element with the same index
  obtain ⟨w, hw1, hw2, hw3⟩ : ∃ w, s.ret ≤ w ∧ w < s.ret + N ∧ w % N = g % N := by
    have hN : 0 < N := by have := c.two; omega
    refine ⟨s.ret + (g + N * s.ret - s.ret) % N, by omega, by have := Nat.mod_lt (g + N * s.ret - s.ret) hN; omega, ?_⟩
    have h3 : s.ret ≤ N * s.ret := Nat.le_mul_of_pos_left _ hN
    rw [Nat.add_mod_mod, show s.ret + (g + N * s.ret - s.ret) = g + N * s.ret by omega, Nat.add_mul_mod_self_left]
  have e := sl_congr s hw3
  by_cases h3 : w ≤ s.gen
  · have := c.live w hw1 h3
    rw [e] at this
    omega
  · have := c.fut w (by omega) hw2
    rw [e] at this
    grind

theorem compacted_agent {N : Nat} {s : State M} (h : Inv N s) {g : Nat} (hs : (s.sl N g).st = .compacted) : ∀ u, (s.pc u).agent ≠ some g := by
  intro u hu
  have := h.pcs u
  cases hpu : s.pc u <;> rw [hpu] at this hu <;> simp only [PC.agent, Option.some.injEq, reduceCtorEq, PCok] at this hu <;> subst hu <;> grind

theorem inv_start {N : Nat} {s : State M} {t : Nat} (h : Inv N s) {g : Nat} (hp : s.pc t = .start g) (h1 : (s.sl N g).gen = g) (h2 : g = s.inc) (h3 : (s.sl N g).st = .compacted) :
    Inv N ((s.setSl N g { s.sl N g with st := .assigned }).to t (.inc1 g)) := by
  have ok := h.pcs t
  rw [hp] at ok
  simp only [PCok] at ok
  have c := h.core
  have h4 := compacted_live c h1 h3
  have hret : s.inc = s.ret := by have := c.incRet; omega
  refine inv_st h h4 ok ⟨rfl, rfl, rfl, rfl⟩ ⟨by simp, by simp⟩ (fun _ => c.cmt _ (Nat.mod_lt _ (by have := c.two; omega)) (.inl h3)) (fun hq => ?_) (fun u _ => compacted_agent h h3 u) (by rw [h3]; simp) (fun _ => rfl)
    ⟨by rw [h2, hret]; rfl, hret, ok, by rw [setSl_sl, if_pos rfl]; exact h1, by rw [setSl_sl, if_pos rfl]⟩ (.inr rfl) (fun _ u hu => ?_) rfl (by simp [hp])
  · have := (c.queueOk g hq).2.2.2
    rw [h3] at this; cases this
  · cases hh : (s.pc u).isInc
    · rfl
    · have := h.pcs u
      cases hpu : s.pc u <;> rw [hpu] at this hh <;> simp only [PC.isInc, PCok, Bool.false_eq_true] at this hh <;> grind [PC.isInc]

theorem inv_cont {N : Nat} {s : State M} {t : Nat} (h : Inv N s) {g : Nat} (hp : s.pc t = .cont g) (h1 : (s.sl N (g + 1)).gen = g + 1) (h2 : s.inc = g) (h3 : (s.sl N (g + 1)).st = .compacted) :
    Inv N ({ s.setSl N (g + 1) { s.sl N (g + 1) with st := .assigned } with inc := s.inc + 1 }.to t (.inc1 (g + 1))) := by
  have ok := h.pcs t
  rw [hp] at ok
  simp only [PCok] at ok
  have c := h.core
  have hinc := other_inc h (t := t) (by rw [hp]; rfl)
  have hlow := c.low
  have hgen : g + 1 < s.gen := by
    apply Decidable.byContradiction
    intro hge
    have : g + 1 = s.gen := by omega
    have hc := c.cur
    rw [← this, h3] at hc
    simp at hc
  have hag := compacted_agent h h3
  have hq : g + 1 ∉ s.queue := by
    intro hq
    have := (c.queueOk _ hq).2.2.2
    rw [h3] at this; cases this
  have c' : Core N (s.setSl N (g + 1) { s.sl N (g + 1) with st := .assigned }) :=
    core_st c (by omega) (by omega) ⟨rfl, rfl, rfl, rfl⟩ ⟨by simp, by simp⟩ (fun _ => by omega) (fun _ => c.cmt _ (Nat.mod_lt _ (by have := c.two; omega)) (.inl h3)) hq
  refine assemble h rfl ?_ (fun u hu => ?_) ⟨ok.1, by show s.inc + 1 = s.ret; omega, hgen, ?_, ?_⟩ (fun g h => (by cases h)) (fun u _ g' hg' => h.queued u g' hg') (fun _ => hinc) (fun g h => (by cases h))
    (root_keep h.root rfl (by simp [hp]) rfl rfl)
  · obtain ⟨c1, c2, c3, c4, c5, c6, c7, c8, c9, c10, c11, c12, c13, c14, c15, c16, c17, c18⟩ := c'
    exact ⟨c1, c2, c3, c4, c5, c6, c7, c8, c9, c10, c11, c12, c13, c14, .inl (by show s.inc + 1 = s.ret; omega), c16, c17, c18⟩
  · have h4 := others_st c (x := { s.sl N (g + 1) with st := .assigned }) (by omega) (by omega) ⟨rfl, rfl, rfl, rfl⟩ (h.pcs u) (by rw [h3]; simp) (hag u) (by rw [h3]; simp) (fun _ => rfl)
    have h5 := hinc u hu
    revert h4 h5
    cases s.pc u with
    | rec1 a k => cases k <;> simp [PCok, PC.isInc, State.sl]
    | rec2 a k => cases k <;> simp [PCok, PC.isInc, State.sl]
    | _ => simp only [PCok, PC.isInc, Bool.true_eq_false, false_implies, implies_true] <;> exact fun h _ => h
  · show ((s.setSl N (g + 1) _).sl N (g + 1)).gen = g + 1
    rw [setSl_sl, if_pos rfl]; exact h1
  · show ((s.setSl N (g + 1) _).sl N (g + 1)).st = .assigned
    rw [setSl_sl, if_pos rfl]

theorem inv_cont' {N : Nat} {s : State M} {t : Nat} (h : Inv N s) {g : Nat} (hp : s.pc t = .cont g) (h2 : s.inc = g) :
    Inv N ({ s with inc := s.inc + 1 }.to t .idle) := by
  have ok := h.pcs t
  rw [hp] at ok
  simp only [PCok] at ok
  have c := h.core
  have hinc := other_inc h (t := t) (by rw [hp]; rfl)
  refine assemble h rfl ?_ (fun u hu => ?_) trivial (fun g h => (by cases h)) (fun u _ g' hg' => h.queued u g' hg') (fun h => (by cases h)) (fun g h => (by cases h))
    (root_keep h.root rfl (by simp [hp]) rfl rfl)
  · obtain ⟨c1, c2, c3, c4, c5, c6, c7, c8, c9, c10, c11, c12, c13, c14, c15, c16, c17, c18⟩ := c
    exact ⟨c1, c2, c3, c4, c5, c6, c7, c8, c9, c10, c11, c12, c13, c14, .inl (by show s.inc + 1 = s.ret; omega), c16, c17, c18⟩
  · have h4 := h.pcs u
    have h5 := hinc u hu
    revert h4 h5
    cases s.pc u with
    | rec1 a k => cases k <;> simp [PCok, PC.isInc, State.sl]
    | rec2 a k => cases k <;> simp [PCok, PC.isInc, State.sl]
    | _ => simp only [PCok, PC.isInc, Bool.true_eq_false, false_implies, implies_true] <;> exact fun h _ => h


theorem inGen_append (l : List (Entry M)) (g t : Nat) (m : M) (g' : Nat) : inGen (l ++ [(g, t, m)]) g' = inGen l g' ++ (if g = g' then [m] else []) := by
  unfold inGen msgs; rw [List.filter_append, List.map_append]; by_cases h : g = g' <;> simp [h]

theorem ltGen_append (l : List (Entry M)) (g t : Nat) (m : M) (g' : Nat) (h : g' ≤ g) : ltGen (l ++ [(g, t, m)]) g' = ltGen l g' := by
  unfold ltGen msgs; rw [List.filter_append, List.map_append]; simp [show ¬ g < g' by omega]

/-- The generation in the window of `N` with the same index. -/
theorem window {N : Nat} (r g : Nat) (hN : 0 < N) : ∃ w, r ≤ w ∧ w < r + N ∧ w % N = g % N := by
  refine ⟨r + (g + N * r - r) % N, by omega, by have := Nat.mod_lt (g + N * r - r) hN; omega, ?_⟩
  have h3 : r ≤ N * r := Nat.le_mul_of_pos_left _ hN
  rw [Nat.add_mod_mod, show r + (g + N * r - r) = g + N * r by omega, Nat.add_mul_mod_self_left]

theorem retired_slot {N : Nat} {s : State M} (c : Core N s) {g : Nat} (h : g < s.ret) (hg : (s.sl N g).gen = g) : s.gen < g + N := by
  have hN : 0 < N := by have := c.two; omega
  obtain ⟨w, h1, h2, h3⟩ := window s.ret g hN
  have e := sl_congr s h3
  by_cases h4 : w ≤ s.gen
  · have := (c.live w h1 h4).1
    rw [e] at this; omega
  · have := c.fut w (by omega) h2
    rw [e] at this; omega

/-- The next generation begins. -/
theorem core_rot5 {N : Nat} {s : State M} (c : Core N s) (o3 : (s.sl N s.gen).st = .finalized) (o4 : (s.sl N (s.gen + 1)).gen = s.gen + 1) (o5 : (s.sl N (s.gen + 1)).st = .ready)
    (hgap : s.gen + 2 ≤ s.ret + N) : Core N { s with gen := s.gen + 1, empty := true } := by
  obtain ⟨c1, c2, c3, c4, c5, c6, c7, c8, c9, c10, c11, c12, c13, c14, c15, c16, c17, c18⟩ := c
  have hf := c8 (s.gen + 1) (by omega) (by omega)
  have hf : (s.sl N (s.gen + 1)).own = true ∧ (s.sl N (s.gen + 1)).data = [] := by
    rcases hf with hf | hf
    · exact hf.2.2
    · rw [o5] at hf; cases hf.1
  have hempty : inGen s.log (s.gen + 1) = [] := by
    unfold inGen msgs
    rw [List.map_eq_nil_iff, List.filter_eq_nil_iff]
    intro e he; have := c14 e he; simp; omega
  constructor
  · exact c1
  · show s.ret ≤ s.gen + 1; omega
  · show s.gen + 1 + 1 ≤ s.ret + N; omega
  · exact c4
  · intro g' a b
    have a : s.ret ≤ g' := a
    have b : g' ≤ s.gen + 1 := b
    by_cases e : g' = s.gen + 1
    · subst e; exact ⟨o4, hf.1, hf.2.trans hempty.symm, by show (s.sl N (s.gen + 1)).st ≠ _; rw [o5]; simp⟩
    · exact c5 g' a (by omega)
  · intro g' a b
    have b : g' < s.gen + 1 := b
    by_cases e : g' = s.gen
    · subst e; show (s.sl N _).st ≠ _; rw [o3]; simp
    · exact c6 g' a (by omega)
  · exact .inl o5
  · intro g' a b
    have a : s.gen + 1 < g' := a
    exact c8 g' (by omega) b
  · exact c9
  · exact c10
  · exact c11
  · exact c12
  · exact c13
  · intro e he; have := c14 e he; show e.1 ≤ s.gen + 1; omega
  · exact c15
  · exact c16
  · intro g' a; have := c17 g' a; exact ⟨this.1, by show g' < s.gen + 1; omega, this.2.2⟩
  · exact ⟨fun _ => hf.2, fun _ => rfl⟩

theorem pcok_rot5 {N : Nat} {s : State M} {p : PC M} (h4 : PCok N s p) (h5 : p.holdsInsert = false) (o5 : (s.sl N (s.gen + 1)).st = .ready) :
    PCok N { s with gen := s.gen + 1, empty := true } p := by
  have hm : ∀ g', g' + N = s.gen + 1 → g' % N = (s.gen + 1) % N := fun g' e => by rw [← e, Nat.add_mod_right]
  cases p <;> simp only [PCok, PC.holdsInsert, Bool.true_eq_false] at h4 h5 ⊢ <;> first | exact h4 | (simp only [State.sl] at *; grind)

theorem inv_rot5 {N : Nat} {s : State M} {t : Nat} (h : Inv N s) (hl : Locks s) {m : M} {g : Nat} (hp : s.pc t = .rot5 m g) (hgap : s.gen + 2 ≤ s.ret + N) :
    Inv N ({ s with gen := s.gen + 1, empty := true }.to t (.rot6 m g)) := by
  have ok := h.pcs t
  have c := h.core
  rw [hp] at ok
  simp only [PCok] at ok
  have hfree := other_ins hl (t := t) (by rw [hp]; rfl)
  have ha : (s.pc t).agent = some g := by rw [hp]; rfl
  obtain ⟨o1, o2, o3, o4, o5⟩ := ok
  subst o1
  refine assemble h rfl (core_congr (core_rot5 c o3 o4 o5 hgap) rfl rfl rfl rfl rfl rfl rfl rfl) (fun u hu => pcok_congr (pcok_rot5 (h.pcs u) (hfree u hu) o5) rfl rfl rfl rfl rfl)
    ⟨c.low, Nat.lt_succ_self _, o2, o3⟩ ?_ (fun u _ g' hg' => h.queued u g' hg') (fun h => (by cases h)) (fun g h => (by cases h)) (root_keep h.root rfl (by simp [hp]) rfl rfl)
  intro g' hg'
  simp only [PC.agent, Option.some.injEq] at hg'
  subst hg'
  exact ⟨h.queued t _ ha, other_agent h ha⟩

theorem inv_put {N : Nat} {s : State M} {t : Nat} (h : Inv N s) {m : M} {g : Nat} (hp : s.pc t = .put m g) :
    Inv N ({ s.setSl N g { s.sl N g with data := (s.sl N g).data ++ [m] } with log := s.log ++ [(g, t, m)], empty := false }.to t (.put2 m)) := by
  have ok := h.pcs t
  have c := h.core
  rw [hp] at ok
  simp only [PCok] at ok
  obtain ⟨o1, o2, o3⟩ := ok
  subst o1
  have key : ∀ g', g' % N = s.gen % N → s.ret ≤ g' → g' < s.ret + N → g' = s.gen := fun g' a b d => mod_inj a (by have := c.low; have := c.high; omega) (by have := c.high; omega)
  refine assemble h rfl ?_ (fun u hu => ?_) trivial (fun g h => (by cases h)) (fun u _ g' hg' => h.queued u g' hg') (fun h => (by cases h)) (fun g h => (by cases h))
    (root_keep h.root rfl (by simp [hp]) rfl (ltGen_append _ _ _ _ _ c.low))
  · obtain ⟨c1, c2, c3, c4, c5, c6, c7, c8, c9, c10, c11, c12, c13, c14, c15, c16, c17, c18⟩ := c
    have hi : s.gen % N < N := Nat.mod_lt _ (by omega)
    have hcur := c5 s.gen c2 (Nat.le_refl _)
    constructor <;> simp only [State.to, State.setSl, State.sl, upd] at *
    · exact c1
    · exact c2
    · exact c3
    · grind
    · intro g' a b; have := c5 g' a b; have := key g'; rw [inGen_append]; grind
    · intro g' a b; have := c6 g' a b; have := key g'; grind
    · grind
    · intro g' a b; have := c8 g' a b; have := key g'; grind
    · grind
    · grind
    · intro g' a; have := c11 g' a; grind
    · intro i hi; have := c12 i hi; grind
    · rw [List.pairwise_append]
      refine ⟨c13, List.pairwise_singleton _ _, fun a ha b hb => ?_⟩
      rw [List.mem_singleton] at hb
      subst hb
      exact c14 a ha
    · intro e he
      rw [List.mem_append, List.mem_singleton] at he
      rcases he with he | he
      · exact c14 e he
      · subst he; exact Nat.le_refl _
    · exact c15
    · exact c16
    · intro g' a; have := c17 g' a; have := key g'; grind
    · simp
  · have h4 := h.pcs u
    have hlt := ltGen_append s.log s.gen t m
    have hlow := c.low
    have hk : ∀ g', s.ret ≤ g' → g' < s.gen → g' % N ≠ s.gen % N := fun g' a b e => by have := key g' e a (by have := c.high; omega); omega
    simp only [State.sl] at o2 o3
    cases hpu : s.pc u <;> rw [hpu] at h4 <;> simp only [PCok, State.to, State.setSl, State.sl, upd] at h4 ⊢ <;> first | trivial | grind

/-- No lookup is under way while lookups are blocked. -/
theorem no_lookup {s : State M} (hl : Locks s) {t : Nat} (ht : (s.pc t).blocksLookup = true) : ∀ u, (s.pc u).holdsLookup = false := by
  intro u
  cases hh : (s.pc u).holdsLookup
  · rfl
  · have h1 := hl.lkR u hh
    have h2 := hl.lk
    have h3 := hl.lkX t ht
    grind


theorem inv_inc2 {N : Nat} {s : State M} {t : Nat} (h : Inv N s) {g : Nat} (hp : s.pc t = .inc2 g) : Inv N (s.to t (.inc3 g (s.root ++ (s.sl N g).cmt))) := by
  have ok := h.pcs t
  have c := h.core
  rw [hp] at ok
  simp only [PCok] at ok
  obtain ⟨o1, o2, o3, o4, o5⟩ := ok
  refine quiet h rfl rfl rfl rfl rfl rfl rfl rfl rfl rfl (.inl rfl) (.inr (by rw [hp]; rfl)) rfl (by simp [hp]) ⟨o1, o2, o3, o4, o5, ?_⟩
  have hr : s.root = ltGen s.log s.ret := by
    rcases h.root with hr | ⟨u, g', nr, hu⟩
    · exact hr
    · have : u = t := h.incs u t (by rw [hu]; rfl) (by rw [hp]; rfl)
      rw [this, hp] at hu
      cases hu
  have hd := c.cmt (g % N) (Nat.mod_lt _ (by have := c.two; omega)) (.inr o5)
  have hl := (c.live g (by omega) (by omega)).2.2.1
  show s.root ++ (s.slots (g % N)).cmt = _
  rw [hd]
  show s.root ++ (s.sl N g).data = _
  rw [hl, hr, ← o1]
  exact (lt_succ c.sorted g).symm

theorem inv_inc4 {N : Nat} {s : State M} {t : Nat} (h : Inv N s) (hl : Locks s) {g : Nat} {nr : List M} (hp : s.pc t = .inc4 g nr) :
    Inv N ({ s.setSl N g { s.sl N g with st := .incorporated } with ret := s.ret + 1 }.to t (.inc5 g nr)) := by
  have ok := h.pcs t
  have c := h.core
  rw [hp] at ok
  simp only [PCok] at ok
  obtain ⟨o1, o2, o3, o4, o5, o6⟩ := ok
  have hlk := no_lookup hl (t := t) (by rw [hp]; rfl)
  have hinc := other_inc h (t := t) (by rw [hp]; rfl)
  subst o1
  have hlive := c.live s.ret (Nat.le_refl _) c.low
  have key : ∀ g', g' % N = s.ret % N → s.ret ≤ g' → g' < s.ret + N → g' = s.ret := fun g' a b d => mod_inj a (by omega) (by omega)
  refine assemble h rfl ?_ (fun u hu => ?_) ⟨rfl, o2, ?_, ?_, ?_, o6⟩ (fun g h => (by cases h)) (fun u _ g' hg' => h.queued u g' hg') (fun _ => hinc) (fun g h => (by cases h))
    (.inr ⟨t, s.ret, nr, by simp [State.to, upd]⟩)
  · obtain ⟨c1, c2, c3, c4, c5, c6, c7, c8, c9, c10, c11, c12, c13, c14, c15, c16, c17, c18⟩ := c
    have hi : s.ret % N < N := Nat.mod_lt _ (by omega)
    have hN : (s.ret + N) % N = s.ret % N := Nat.add_mod_right _ _
    constructor <;> simp only [State.to, State.setSl, State.sl, upd] at *
    · exact c1
    · omega
    · omega
    · grind
    · intro g' a b; have := c5 g' (by omega) b; have := key g'; grind
    · intro g' a b; have := c6 g' (by omega) b; have := key g'; grind
    · have := key s.gen; grind
    · intro g' a b
      by_cases e : g' = s.ret + N
      · subst e; rw [hN]; simp [o4]
      · have := c8 g' a (by omega); have := key g'; grind
    · grind
    · grind
    · intro g' a; have := c11 g' a; grind
    · intro i hi; have := c12 i hi; grind
    · exact c13
    · exact c14
    · omega
    · exact c16
    · intro g' a; have := c17 g' a; have := key g'; grind
    · have := key s.gen; grind
  · have h4 := h.pcs u
    have h5 := hlk u
    have h6 := hinc u hu
    have hk : ∀ g', s.ret ≤ g' → g' ≤ s.gen → g' % N = s.ret % N → g' = s.ret := fun g' a b e => key g' e a (by have := c.high; omega)
    have hlow := c.low
    simp only [State.sl] at o4 o5
    cases hpu : s.pc u with
    | rec1 a k => rw [hpu] at h4 h6; cases k <;> simp only [PCok, State.to, State.setSl, State.sl, upd, PC.isInc] at h4 h6 ⊢ <;> grind
    | rec2 a k => rw [hpu] at h4 h6; cases k <;> simp only [PCok, State.to, State.setSl, State.sl, upd, PC.isInc] at h4 h6 ⊢ <;> grind
    | _ =>
      rw [hpu] at h4 h5 h6; simp only [PCok, State.to, State.setSl, State.sl, upd, PC.holdsLookup, PC.isInc, Bool.true_eq_false] at h4 h5 h6 ⊢ <;> first | trivial | grind
  all_goals
    simp only [State.to, State.setSl, State.sl, upd, if_true] <;>
    first | exact o4 | exact hlive.2.1

theorem inv_inc5 {N : Nat} {s : State M} {t : Nat} (h : Inv N s) {g : Nat} {nr : List M} (hp : s.pc t = .inc5 g nr) :
    Inv N ({ s with root := nr, rootX := none }.to t (.inc6 g)) := by
  have ok := h.pcs t
  rw [hp] at ok
  simp only [PCok] at ok
  obtain ⟨o1, o2, o3, o4, o5, o6⟩ := ok
  refine assemble h rfl (core_congr h.core rfl rfl rfl rfl rfl rfl rfl rfl) (fun u _ => pcok_congr (h.pcs u) rfl rfl rfl rfl rfl) ⟨o1, o2, o3, o4, o5⟩
    (fun g h => (by cases h)) (fun u _ g' hg' => h.queued u g' hg') (fun _ => other_inc h (by rw [hp]; rfl)) (fun g h => (by cases h)) (.inl ?_)
  show nr = ltGen s.log s.ret
  rw [o6, o1]

theorem inv_rot7 {N : Nat} {s : State M} {t : Nat} (h : Inv N s) {m : M} {g : Nat} (hp : s.pc t = .rot7 m g) :
    Inv N ({ s with queue := s.queue ++ [g] }.to t (.begin m)) := by
  have ok := h.pcs t
  rw [hp] at ok
  simp only [PCok] at ok
  have ha : (s.pc t).agent = some g := by rw [hp]; rfl
  have hq := h.queued t g ha
  refine assemble h rfl ?_ (fun u _ => ?_) trivial
    (fun g h => (by cases h)) (fun u hu g' hg' => ?_) (fun h => (by cases h)) (fun g h => (by cases h)) (root_keep h.root rfl (by simp [hp]) rfl rfl)
  · obtain ⟨c1, c2, c3, c4, c5, c6, c7, c8, c9, c10, c11, c12, c13, c14, c15, c16, c17, c18⟩ := h.core
    refine ⟨c1, c2, c3, c4, c5, c6, c7, c8, c9, c10, c11, c12, c13, c14, c15, ?_, ?_, c18⟩
    · show (s.queue ++ [g]).Nodup
      rw [List.nodup_append]
      exact ⟨c16, by simp, fun a h1 b hb => by rw [List.mem_singleton] at hb; subst hb; exact fun e => hq (e ▸ h1)⟩
    · intro g' hg'
      have : g' ∈ s.queue ++ [g] := hg'
      rw [List.mem_append, List.mem_singleton] at this
      rcases this with h1 | rfl
      · exact c17 g' h1
      · exact ok
  · exact pcok_congr (h.pcs u) rfl rfl rfl rfl rfl
  · show g' ∉ s.queue ++ [g]
    rw [List.mem_append, List.mem_singleton]
    rintro (h1 | rfl)
    · exact h.queued u g' hg' h1
    · exact other_agent h ha u hu hg'

theorem inv_flush {N : Nat} {s : State M} {t : Nat} (h : Inv N s) {g : Nat} (hp : s.pc t = .idle) (hg : g ∈ s.queue) :
    Inv N ({ s with queue := s.queue.erase g }.to t (.fin g)) := by
  have c := h.core
  have hmem : ∀ g', g' ∈ s.queue.erase g → g' ∈ s.queue := fun g' h => List.mem_of_mem_erase h
  refine assemble h rfl ?_ (fun u _ => pcok_congr (h.pcs u) rfl rfl rfl rfl rfl) (c.queueOk g hg) (fun g' hg' => ?_) (fun u hu g' hg' h1 => h.queued u g' hg' (hmem g' h1)) (fun h => (by cases h)) (fun g h => (by cases h))
    (root_keep h.root rfl (by simp [hp]) rfl rfl)
  · obtain ⟨c1, c2, c3, c4, c5, c6, c7, c8, c9, c10, c11, c12, c13, c14, c15, c16, c17, c18⟩ := c
    exact ⟨c1, c2, c3, c4, c5, c6, c7, c8, c9, c10, c11, c12, c13, c14, c15, c16.erase g, fun g' hg' => c17 g' (hmem g' hg'), c18⟩
  · simp only [PC.agent, Option.some.injEq] at hg'
    subst hg'
    exact ⟨c.queueNodup.not_mem_erase, fun u _ hu => h.queued u g hu hg⟩

/-- Changing the number of references of a memtable: what the invariant needs. -/
theorem core_refs {N : Nat} {s : State M} (c : Core N s) {g : Nat} {x : Slot M} {hd : List Nat} (hgen : (s.sl N g).gen = g) (hx : x.gen = g ∧ x.st = (s.sl N g).st ∧ x.data = (s.sl N g).data ∧ x.cmt = (s.sl N g).cmt)
    (ho : x.own = (s.sl N g).own ∨ (x.own = false ∧ x.st = .incorporated ∧ g ≤ s.gen)) (hr : x.refs = (if x.own then 1 else 0) + hd.count g) (hoth : ∀ g', g' ≠ g → hd.count g' = s.held.count g') :
    Core N { s.setSl N g x with held := hd } := by
  obtain ⟨c1, c2, c3, c4, c5, c6, c7, c8, c9, c10, c11, c12, c13, c14, c15, c16, c17, c18⟩ := c
  have hi : g % N < N := Nat.mod_lt _ (by omega)
  have hne : ∀ i, i < N → i ≠ g % N → (s.slots i).gen ≠ g := fun i hi' hne e => hne (by rw [← c4 i hi', e])
  have hmem : ∀ g' ∈ hd, (s.sl N g').gen = g' := by
    intro g' hg'
    by_cases e : g' = g
    · rw [e]; exact hgen
    · apply c11
      have := hoth g' e
      rw [← List.count_pos_iff] at hg' ⊢
      omega
  obtain ⟨x1, x2, x3, x4⟩ := hx
  constructor <;> simp only [State.setSl, State.sl, upd] at *
  · exact c1
  · exact c2
  · exact c3
  · grind
  · intro g' a b; have := c5 g' a b; clear c5 c6 c8 c17; grind
  · intro g' a b; have := c6 g' a b; clear c5 c6 c8 c17; grind
  · grind
  · intro g' a b; have := c8 g' a b; clear c5 c6 c8 c17 c4 c9 c10 c11 c12 hoth hne hmem; grind
  · intro i hi'
    by_cases e : i = g % N
    · simp only [e, if_true]; rw [x1]; exact hr
    · simp only [e, if_false]; rw [hoth _ (hne i hi' e)]; exact c9 i hi'
  · grind
  · intro g' a; have := hmem g' a; grind
  · intro i hi; have := c12 i hi; grind
  · exact c13
  · exact c14
  · exact c15
  · exact c16
  · intro g' a; have := c17 g' a; grind
  · grind

/-- The others do not notice, except those that recycle the memtable. -/
theorem pcok_refs {N : Nat} {s : State M} {g : Nat} {x : Slot M} {hd : List Nat} {p : PC M} (h : PCok N s p) (hgen : (s.sl N g).gen = g)
    (hx : x.gen = g ∧ x.st = (s.sl N g).st ∧ x.data = (s.sl N g).data ∧ x.cmt = (s.sl N g).cmt) (ho : x.own = (s.sl N g).own ∨ (p.isInc = false ∧ x.st = .incorporated ∧ g ≤ s.gen))
    (hr : p.recycles ≠ some g) : PCok N { s.setSl N g x with held := hd } p := by
  have key : ∀ g', (s.sl N g').gen = g' → g' % N = g % N → g' = g := fun g' a b => by rw [sl_congr s b, hgen] at a; exact a.symm
  simp only [State.sl] at *
  cases p <;> simp only [PCok, State.setSl, State.sl, upd, PC.recycles, PC.isInc] at * <;> first | trivial | grind


theorem inv_inc7 {N : Nat} {s : State M} {t : Nat} (h : Inv N s) {g : Nat} (hp : s.pc t = .inc7 g) (h1 : (s.sl N g).refs = 1) :
    Inv N ((s.setSl N g { s.sl N g with refs := 0, own := false }).to t (.rec1 g true)) := by
  have ok := h.pcs t
  have c := h.core
  rw [hp] at ok
  simp only [PCok] at ok
  obtain ⟨o1, o2, o3, o4, o5⟩ := ok
  have hlow := c.low
  have hinc := other_inc h (t := t) (by rw [hp]; rfl)
  have hrefs := c.refs (g % N) (Nat.mod_lt _ (by have := c.two; omega))
  rw [show s.slots (g % N) = s.sl N g from rfl, o3, o5, h1] at hrefs
  have hcount : s.held.count g = 0 := by simpa using hrefs
  have hrec : ∀ u, u ≠ t → (s.pc u).recycles ≠ some g := by
    intro u hu hr
    have := h.pcs u
    cases hpu : s.pc u <;> rw [hpu] at this hr <;> simp only [PC.recycles, Option.some.injEq, reduceCtorEq, PCok] at this hr <;> subst hr
    · grind
    · have := this.2.2.1; have := c.two; omega
  refine assemble h rfl (core_congr (core_refs c (x := { s.sl N g with refs := 0, own := false }) o3 ⟨o3, rfl, rfl, rfl⟩ (.inr ⟨rfl, o4, by omega⟩) (by simp [hcount]) (fun _ _ => rfl)) rfl rfl rfl rfl rfl rfl rfl rfl)
    (fun u hu => pcok_congr (pcok_refs (hd := s.held) (h.pcs u) (x := { s.sl N g with refs := 0, own := false }) o3 ⟨o3, rfl, rfl, rfl⟩ (.inr ⟨hinc u hu, o4, by omega⟩) (hrec u hu)) rfl rfl rfl rfl rfl)
    ?_ (fun g h => (by cases h)) (fun u _ g' hg' => h.queued u g' hg') (fun _ => hinc) (fun g' hg' => ?_) (root_keep h.root rfl (by simp [hp]) rfl rfl)
  · simp only [PCok, to_sl, setSl_sl, if_true]
    exact ⟨by show g < s.ret; omega, o3, o4, trivial, trivial, fun _ => ⟨o1, o2⟩⟩
  · simp only [PC.recycles, Option.some.injEq] at hg'
    subst hg'
    exact hrec

theorem inv_inc7' {N : Nat} {s : State M} {t : Nat} (h : Inv N s) {g : Nat} (hp : s.pc t = .inc7 g) (h1 : (s.sl N g).refs ≠ 0) :
    Inv N ((s.setSl N g { s.sl N g with refs := (s.sl N g).refs - 1, own := false }).to t (.cont g)) := by
  have ok := h.pcs t
  have c := h.core
  rw [hp] at ok
  simp only [PCok] at ok
  obtain ⟨o1, o2, o3, o4, o5⟩ := ok
  have hlow := c.low
  have hinc := other_inc h (t := t) (by rw [hp]; rfl)
  have hrefs := c.refs (g % N) (Nat.mod_lt _ (by have := c.two; omega))
  rw [show s.slots (g % N) = s.sl N g from rfl, o3, o5] at hrefs
  have hrec : ∀ u, u ≠ t → (s.pc u).recycles ≠ some g := by
    intro u hu hr
    have := h.pcs u
    cases hpu : s.pc u <;> rw [hpu] at this hr <;> simp only [PC.recycles, Option.some.injEq, reduceCtorEq, PCok] at this hr <;> subst hr
    · grind
    · have := this.2.2.1; have := c.two; omega
  refine assemble h rfl (core_congr (core_refs c (x := { s.sl N g with refs := (s.sl N g).refs - 1, own := false }) o3 ⟨o3, rfl, rfl, rfl⟩ (.inr ⟨rfl, o4, by omega⟩) (by simp [hrefs]) (fun _ _ => rfl)) rfl rfl rfl rfl rfl rfl rfl rfl)
    (fun u hu => pcok_congr (pcok_refs (hd := s.held) (h.pcs u) (x := { s.sl N g with refs := (s.sl N g).refs - 1, own := false }) o3 ⟨o3, rfl, rfl, rfl⟩ (.inr ⟨hinc u hu, o4, by omega⟩) (hrec u hu)) rfl rfl rfl rfl rfl)
    ⟨o1, o2⟩ (fun g h => (by cases h)) (fun u _ g' hg' => h.queued u g' hg') (fun _ => hinc) (fun g h => (by cases h)) (root_keep h.root rfl (by simp [hp]) rfl rfl)

/-- A memtable that an iterator has a reference to is not being recycled. -/
theorem held_rec {N : Nat} {s : State M} (h : Inv N s) {g : Nat} (hg : g ∈ s.held) : ∀ u, (s.pc u).recycles ≠ some g := by
  intro u hr
  have c := h.core
  have := h.pcs u
  have hgen := c.heldOk g hg
  have hrefs := c.refs (g % N) (Nat.mod_lt _ (by have := c.two; omega))
  rw [show s.slots (g % N) = s.sl N g from rfl, hgen] at hrefs
  have hpos := List.count_pos_iff.mpr hg
  cases hpu : s.pc u <;> rw [hpu] at this hr <;> simp only [PC.recycles, Option.some.injEq, reduceCtorEq, PCok] at this hr <;> subst hr
  · omega
  · have := c.two; omega

theorem inv_drop1 {N : Nat} {s : State M} {t : Nat} (h : Inv N s) {g : Nat} (hp : s.pc t = .idle) (hg : g ∈ s.held) (h1 : (s.sl N g).refs = 1) (h2 : (s.sl N g).st = .incorporated) :
    Inv N (({ s with held := s.held.erase g }.setSl N g { s.sl N g with refs := 0 }).to t (.rec1 g false)) := by
  have c := h.core
  have hgen := c.heldOk g hg
  have hN : g % N < N := Nat.mod_lt _ (by have := c.two; omega)
  have hrefs := c.refs (g % N) hN
  rw [show s.slots (g % N) = s.sl N g from rfl, hgen, h1] at hrefs
  have hpos := List.count_pos_iff.mpr hg
  have hown : (s.sl N g).own = false := by
    cases ho : (s.sl N g).own
    · rfl
    · rw [ho, if_pos rfl] at hrefs; omega
  have hcount : s.held.count g = 1 := by rw [hown] at hrefs; simpa using hrefs.symm
  have hlt : g < s.ret := by
    apply Decidable.byContradiction
    intro hge
    obtain ⟨w, w1, w2, w3⟩ := window s.ret g (N := N) (by have := c.two; omega)
    have e := sl_congr s w3
    by_cases h4 : w ≤ s.gen
    · have := c.live w w1 h4
      rw [e, hown] at this
      grind
    · have := c.fut w (by omega) w2
      rw [e, hown, hgen] at this
      grind
  refine assemble h rfl (core_congr (core_refs c (x := { s.sl N g with refs := 0 }) (hd := s.held.erase g) hgen ⟨hgen, rfl, rfl, rfl⟩ (.inl rfl) (by simp [hown, hcount, List.count_erase_self]) (fun g' hg' => List.count_erase_of_ne hg'))
      rfl rfl rfl rfl rfl rfl rfl rfl)
    (fun u hu => pcok_congr (pcok_refs (hd := s.held.erase g) (h.pcs u) (x := { s.sl N g with refs := 0 }) hgen ⟨hgen, rfl, rfl, rfl⟩ (.inl rfl) (held_rec h hg u)) rfl rfl rfl rfl rfl)
    ?_ (fun g h => (by cases h)) (fun u _ g' hg' => h.queued u g' hg') (fun h => (by cases h)) (fun g' hg' => ?_) (root_keep h.root rfl (by simp [hp]) rfl rfl)
  · simp only [PCok, to_sl, setSl_sl, if_true]
    exact ⟨hlt, hgen, h2, hown, trivial, fun h => (by cases h)⟩
  · simp only [PC.recycles, Option.some.injEq] at hg'
    subst hg'
    exact fun u _ => held_rec h hg u

theorem inv_drop {N : Nat} {s : State M} {t : Nat} (h : Inv N s) {g : Nat} (hp : s.pc t = .idle) (hg : g ∈ s.held) :
    Inv N (({ s with held := s.held.erase g }.setSl N g { s.sl N g with refs := (s.sl N g).refs - 1 }).to t .idle) := by
  have c := h.core
  have hgen := c.heldOk g hg
  have hN : g % N < N := Nat.mod_lt _ (by have := c.two; omega)
  have hrefs := c.refs (g % N) hN
  rw [show s.slots (g % N) = s.sl N g from rfl, hgen] at hrefs
  have hpos := List.count_pos_iff.mpr hg
  refine assemble h rfl (core_congr (core_refs c (x := { s.sl N g with refs := (s.sl N g).refs - 1 }) (hd := s.held.erase g) hgen ⟨hgen, rfl, rfl, rfl⟩ (.inl rfl)
      (by show (s.sl N g).refs - 1 = _; rw [List.count_erase_self]; show _ = (if (s.sl N g).own then 1 else 0) + _; omega) (fun g' hg' => List.count_erase_of_ne hg'))
      rfl rfl rfl rfl rfl rfl rfl rfl)
    (fun u hu => pcok_congr (pcok_refs (hd := s.held.erase g) (h.pcs u) (x := { s.sl N g with refs := (s.sl N g).refs - 1 }) hgen ⟨hgen, rfl, rfl, rfl⟩ (.inl rfl) (held_rec h hg u)) rfl rfl rfl rfl rfl)
    trivial (fun g h => (by cases h)) (fun u _ g' hg' => h.queued u g' hg') (fun h => (by cases h)) (fun g h => (by cases h)) (root_keep h.root rfl (by simp [hp]) rfl rfl)

theorem inv_it4 {N : Nat} {s : State M} {t : Nat} (h : Inv N s) {e j : Nat} (hp : s.pc t = .it4 e j) :
    Inv N ({ s.setSl N (j - 1) { s.sl N (j - 1) with refs := (s.sl N (j - 1)).refs + 1 } with held := (j - 1) :: s.held }.to t (.it3 e (j - 1))) := by
  have ok := h.pcs t
  have c := h.core
  rw [hp] at ok
  simp only [PCok] at ok
  obtain ⟨o1, o2, o3⟩ := ok
  generalize hg : j - 1 = g
  have hlive := c.live g (by omega) (by omega)
  have hgen := hlive.1
  have hN : g % N < N := Nat.mod_lt _ (by have := c.two; omega)
  have hrefs := c.refs (g % N) hN
  rw [show s.slots (g % N) = s.sl N g from rfl, hgen] at hrefs
  have hrec : ∀ u, (s.pc u).recycles ≠ some g := by
    intro u hr
    have := h.pcs u
    cases hpu : s.pc u <;> rw [hpu] at this hr <;> simp only [PC.recycles, Option.some.injEq, reduceCtorEq, PCok] at this hr <;> subst hr
    · grind
    · have := c.two; omega
  refine assemble h rfl (core_congr (core_refs c (x := { s.sl N g with refs := (s.sl N g).refs + 1 }) (hd := g :: s.held) hgen ⟨hgen, rfl, rfl, rfl⟩ (.inl rfl)
      (by show (s.sl N g).refs + 1 = _; rw [List.count_cons_self]; show _ = (if (s.sl N g).own then 1 else 0) + _; omega) (fun g' hg' => List.count_cons_of_ne hg'.symm))
      rfl rfl rfl rfl rfl rfl rfl rfl)
    (fun u hu => pcok_congr (pcok_refs (hd := g :: s.held) (h.pcs u) (x := { s.sl N g with refs := (s.sl N g).refs + 1 }) hgen ⟨hgen, rfl, rfl, rfl⟩ (.inl rfl) (hrec u)) rfl rfl rfl rfl rfl)
    ⟨o1, by omega, by show g ≤ s.gen + 1; omega⟩ (fun g h => (by cases h)) (fun u _ g' hg' => h.queued u g' hg') (fun h => (by cases h)) (fun g h => (by cases h)) (root_keep h.root rfl (by simp [hp]) rfl rfl)

theorem inv_rec1 {N : Nat} {s : State M} {t : Nat} (h : Inv N s) {g : Nat} {k : Bool} (hp : s.pc t = .rec1 g k) :
    Inv N ((s.setSl N g { s.sl N g with gen := (s.sl N g).gen + N, refs := 1, own := true, data := [] }).to t (.rec2 g k)) := by
  have ok := h.pcs t
  have c := h.core
  rw [hp] at ok
  simp only [PCok] at ok
  obtain ⟨o1, o2, o3, o4, o5, o6⟩ := ok
  have hN := c.two
  have hlow := c.low
  have hret := retired_slot c o1 o2
  have hrec := other_rec h (t := t) (g := g) (by rw [hp]; rfl)
  have hi : g % N < N := Nat.mod_lt _ (by omega)
  have hrefs := c.refs (g % N) hi
  rw [show s.slots (g % N) = s.sl N g from rfl, o2, o4, o5] at hrefs
  have hcount : s.held.count g = 0 := by simpa using hrefs.symm
  have hcountN : s.held.count (g + N) = 0 := by
    rw [List.count_eq_zero]
    intro hm
    have := c.heldOk _ hm
    rw [sl_congr s (Nat.add_mod_right g N), o2] at this
    omega
  have key : ∀ g', g' % N = g % N → s.ret ≤ g' → g' < s.ret + N → g' = g + N := fun g' a b d => mod_inj (by rw [a, Nat.add_mod_right]) (by omega) (by omega)
  refine assemble h rfl ?_ (fun u hu => ?_) ?_ (fun g h => (by cases h)) (fun u _ g' hg' => h.queued u g' hg') (fun hk u hu => ?_) (fun g' hg' => ?_) (root_keep h.root rfl (by simp [hp]) rfl rfl)
  · obtain ⟨c1, c2, c3, c4, c5, c6, c7, c8, c9, c10, c11, c12, c13, c14, c15, c16, c17, c18⟩ := c
    have hnotheld : ∀ g' ∈ s.held, g' % N ≠ g % N := by
      intro g' hg' e
      have := c11 g' hg'
      rw [sl_congr s e, o2] at this
      subst this
      rw [List.count_eq_zero] at hcount
      exact hcount hg'
    constructor <;> simp only [State.to, State.setSl, State.sl, upd] at *
    · exact c1
    · exact c2
    · exact c3
    · intro i hi'
      by_cases e : i = g % N
      · simp only [e, if_true]; rw [o2, Nat.add_mod_right]
      · simp only [e, if_false]; exact c4 i hi'
    · intro g' a b
      have h1 := c5 g' a b
      have h2 := key g'
      rw [if_neg (fun e => by have := h2 e a (by omega); omega)]
      exact h1
    · intro g' a b
      have h1 := c6 g' a b
      have h2 := key g'
      rw [if_neg (fun e => by have := h2 e a (by omega); omega)]
      exact h1
    · have h2 := key s.gen
      rw [if_neg (fun e => by have := h2 e c2 (by omega); omega)]
      exact c7
    · intro g' a b
      by_cases e : g' % N = g % N
      · have h2 := key g' e (by omega) b
        simp only [e, if_true]
        right; exact ⟨o3, .inr ⟨by omega, trivial, trivial⟩⟩
      · simp only [e, if_false]; exact c8 g' a b
    · intro i hi'
      by_cases e : i = g % N
      · simp only [e, if_true]; rw [o2, hcountN]
      · simp only [e, if_false]; exact c9 i hi'
    · intro i hi'
      by_cases e : i = g % N
      · simp [e]
      · simp only [e, if_false]; exact c10 i hi'
    · intro g' a
      rw [if_neg (hnotheld g' a)]; exact c11 g' a
    · intro i hi'
      by_cases e : i = g % N
      · simp [e, o3]
      · simp only [e, if_false]; exact c12 i hi'
    · exact c13
    · exact c14
    · exact c15
    · exact c16
    · intro g' a
      have h1 := c17 g' a
      have h2 := key g'
      rw [if_neg (fun e => by have := h2 e h1.1 (by omega); omega)]
      exact h1
    · have h2 := key s.gen
      rw [if_neg (fun e => by have := h2 e c2 (by omega); omega)]
      exact c18
  · have h4 := h.pcs u
    have h5 := hrec u hu
    have h6 := c.high
    have k1 : ∀ g', s.ret ≤ g' → g' ≤ s.gen → g' % N ≠ g % N := fun g' a b e => by have := key g' e a (by omega); omega
    have k2 : ∀ g', g' % N = g % N → (s.sl N g').gen = g := fun g' e => by rw [sl_congr s e]; exact o2
    have k3 : ∀ g', g' % N = g % N → (s.sl N g').st = .incorporated := fun g' e => by rw [sl_congr s e]; exact o3
    have k4 : ∀ g', g' % N = g % N → (s.sl N g').own = false := fun g' e => by rw [sl_congr s e]; exact o4
    simp only [State.sl] at o2 o3 o4 o5 k2 k3 k4
    cases hpu : s.pc u <;> rw [hpu] at h4 h5 <;> simp only [PCok, State.to, State.setSl, State.sl, upd, PC.recycles] at h4 h5 ⊢ <;> first | trivial | grind
  · simp only [PCok, to_sl, setSl_sl, if_true]
    exact ⟨hret, o1, by rw [o2], o3, trivial, trivial, o6⟩
  · cases k
    · cases hk
    · exact other_inc h (t := t) (by rw [hp]; rfl) u hu
  · simp only [PC.recycles, Option.some.injEq] at hg'
    subst hg'
    exact hrec

theorem inv_rec2 {N : Nat} {s : State M} {t : Nat} (h : Inv N s) {g : Nat} {k : Bool} (hp : s.pc t = .rec2 g k) :
    Inv N ((s.setSl N g { s.sl N g with st := .ready }).to t (if k then .cont g else .idle)) := by
  have ok := h.pcs t
  have c := h.core
  rw [hp] at ok
  simp only [PCok] at ok
  obtain ⟨o1, o2, o3, o4, o5, o6, o7⟩ := ok
  have hN := c.two
  have hlow := c.low
  have hrec := other_rec h (t := t) (g := g) (by rw [hp]; rfl)
  have hi : g % N < N := Nat.mod_lt _ (by omega)
  have key : ∀ g', g' % N = g % N → s.ret ≤ g' → g' < s.ret + N → g' = g + N := fun g' a b d => mod_inj (by rw [a, Nat.add_mod_right]) (by omega) (by omega)
  refine assemble h rfl ?_ (fun u hu => ?_) ?_ (fun g h => (by cases k <;> cases h)) (fun u _ g' hg' => h.queued u g' hg') (fun hk u hu => ?_) (fun g' hg' => (by cases k <;> cases hg')) (root_keep h.root rfl (by simp [hp]) rfl rfl)
  · obtain ⟨c1, c2, c3, c4, c5, c6, c7, c8, c9, c10, c11, c12, c13, c14, c15, c16, c17, c18⟩ := c
    constructor <;> simp only [State.to, State.setSl, State.sl, upd] at *
    · exact c1
    · exact c2
    · exact c3
    · grind
    · intro g' a b
      have h1 := c5 g' a b
      have h2 := key g'
      rw [if_neg (fun e => by have := h2 e a (by omega); omega)]
      exact h1
    · intro g' a b
      have h1 := c6 g' a b
      have h2 := key g'
      rw [if_neg (fun e => by have := h2 e a (by omega); omega)]
      exact h1
    · have h2 := key s.gen
      rw [if_neg (fun e => by have := h2 e c2 (by omega); omega)]
      exact c7
    · intro g' a b
      by_cases e : g' % N = g % N
      · have h2 := key g' e (by omega) b
        simp only [e, if_true]
        left; exact ⟨by omega, trivial, o5, o6⟩
      · simp only [e, if_false]; exact c8 g' a b
    · grind
    · intro i hi'
      by_cases e : i = g % N
      · simp [e, o5]
      · simp only [e, if_false]; exact c10 i hi'
    · intro g' a
      have := c11 g' a
      grind
    · intro i hi'
      by_cases e : i = g % N
      · simp [e]
      · simp only [e, if_false]; exact c12 i hi'
    · exact c13
    · exact c14
    · exact c15
    · exact c16
    · intro g' a
      have h1 := c17 g' a
      have h2 := key g'
      rw [if_neg (fun e => by have := h2 e h1.1 (by omega); omega)]
      exact h1
    · have h2 := key s.gen
      rw [if_neg (fun e => by have := h2 e c2 (by omega); omega)]
      exact c18
  · have h4 := h.pcs u
    have h5 := hrec u hu
    have h6 := c.high
    have k1 : ∀ g', s.ret ≤ g' → g' ≤ s.gen → g' % N ≠ g % N := fun g' a b e => by have := key g' e a (by omega); omega
    have k2 : ∀ g', g' % N = g % N → (s.sl N g').gen = g + N := fun g' e => by rw [sl_congr s e]; exact o3
    simp only [State.sl] at o3 o4 o5 o6 k2
    cases hpu : s.pc u <;> rw [hpu] at h4 h5 <;> simp only [PCok, State.to, State.setSl, State.sl, upd, PC.recycles] at h4 h5 ⊢ <;> first | trivial | grind
  · cases k
    · trivial
    · exact o7 rfl
  · cases k
    · cases hk
    · exact other_inc h (t := t) (by rw [hp]; rfl) u hu

theorem final_eq {N : Nat} {s s' : State M} (hf : forceFinalize N s = .ok s') : (s.sl N s.gen).st = .ready ∧ s.gen + 2 ≤ s.ret + N ∧
    { s.setSl N s.gen { s.sl N s.gen with st := .finalized } with gen := s.gen + 1, empty := true, queue := s.queue ++ [s.gen] } = s' := by
  simp only [forceFinalize] at hf
  by_cases hr : (s.sl N s.gen).st = .ready
  · rw [if_neg (fun h => h hr)] at hf
    by_cases hg : s.gen + 2 ≤ s.ret + N
    · rw [if_pos hg] at hf
      injection hf with hf
      exact ⟨hr, hg, hf⟩
    · rw [if_neg hg] at hf; cases hf
  · rw [if_pos hr] at hf; cases hf

/-- `memtable_force_finalize` while nobody inserts. -/
theorem inv_final {N : Nat} {s s' : State M} (h : Inv N s) (hf : forceFinalize N s = .ok s') (hi : ∀ t, (s.pc t).isInsert = false) (hn : (s.sl N (s.gen + 1)).st = .ready) : Inv N s' := by
  obtain ⟨hst, hgap, hf⟩ := final_eq hf
  · have c := h.core
    have hlow := c.low
    have hnew : (s.sl N (s.gen + 1)).gen = s.gen + 1 := by
      rcases c.fut (s.gen + 1) (by omega) (by omega) with h1 | h1
      · exact h1.1
      · rw [hn] at h1; cases h1.1
    have hq : s.gen ∉ s.queue := fun hg => by have := c.queueOk _ hg; omega
    have hm : (s.gen + 1) % N ≠ s.gen % N := fun e => by have := mod_inj e (by have := c.two; omega) (by omega); omega
    have hfree : ∀ u, (s.pc u).holdsInsert = false := by
      intro u
      have := hi u
      revert this
      cases s.pc u <;> simp [PC.isInsert, PC.holdsInsert]
    have hna : ∀ u, (s.pc u).agent ≠ some s.gen := by
      intro u ha
      have := h.pcs u
      have hf := hfree u
      cases hpu : s.pc u <;> rw [hpu] at this hf ha <;> simp only [PC.agent, Option.some.injEq, reduceCtorEq, PCok, PC.holdsInsert, Bool.true_eq_false] at this hf ha <;> omega
    have c1 := core_st c (x := { s.sl N s.gen with st := .finalized }) hlow (Nat.le_refl _) ⟨rfl, rfl, rfl, rfl⟩ ⟨by simp, by simp⟩ (fun _ => rfl) (fun h => by simp at h) hq
    have e1 : (s.setSl N s.gen { s.sl N s.gen with st := .finalized }).sl N (s.gen + 1) = s.sl N (s.gen + 1) := by rw [setSl_sl, if_neg hm]
    have e2 : (s.setSl N s.gen { s.sl N s.gen with st := .finalized }).sl N s.gen = { s.sl N s.gen with st := .finalized } := by rw [setSl_sl, if_pos rfl]
    have c2 := core_rot5 c1 (by show (State.sl N (s.setSl N s.gen _) s.gen).st = _; rw [e2]) (by show (State.sl N (s.setSl N s.gen _) (s.gen + 1)).gen = s.gen + 1; rw [e1]; exact hnew)
      (by show (State.sl N (s.setSl N s.gen _) (s.gen + 1)).st = _; rw [e1]; exact hn) hgap
    have p1 := fun u => others_st c (x := { s.sl N s.gen with st := .finalized }) hlow (Nat.le_refl _) ⟨rfl, rfl, rfl, rfl⟩ (h.pcs u) (fun _ => hfree u) (hna u) (by rw [hst]; simp) (by rw [hst]; simp)
    have p2 := fun u => pcok_rot5 (p1 u) (hfree u)
      (by show (State.sl N (s.setSl N s.gen _) (s.gen + 1)).st = _; rw [e1]; exact hn)
    subst hf
    refine ⟨?_, fun u => pcok_congr (p2 u) rfl rfl rfl rfl rfl, h.agents, fun u g hg => ?_, h.incs, h.recs, h.root⟩
    · obtain ⟨c1, c2, c3, c4, c5, c6, c7, c8, c9, c10, c11, c12, c13, c14, c15, c16, c17, c18⟩ := c2
      refine ⟨c1, c2, c3, c4, c5, c6, c7, c8, c9, c10, c11, c12, c13, c14, c15, ?_, ?_, c18⟩
      · show (s.queue ++ [s.gen]).Nodup
        rw [List.nodup_append]
        exact ⟨c16, by simp, fun a h1 b hb => by rw [List.mem_singleton] at hb; subst hb; exact fun e => hq (e ▸ h1)⟩
      · intro g' hg'
        have : g' ∈ s.queue ++ [s.gen] := hg'
        rw [List.mem_append, List.mem_singleton] at this
        rcases this with h1 | rfl
        · exact c17 g' h1
        · exact ⟨hlow, Nat.lt_succ_self _, by show (State.sl N (s.setSl N s.gen _) s.gen).gen = _; rw [e2]; exact (c.live _ hlow (Nat.le_refl _)).1,
            by show (State.sl N (s.setSl N s.gen _) s.gen).st = _; rw [e2]⟩
    · show g ∉ s.queue ++ [s.gen]
      rw [List.mem_append, List.mem_singleton]
      rintro (h1 | rfl)
      · exact h.queued u g hg h1
      · exact hna u hg

set_option maxHeartbeats 2000000 in
theorem inv_step {N : Nat} {s s' : State M} {t : Nat} (h : Inv N s) (hl : Locks s) (hs : Step N s t s') : Inv N s' := by
  have ok := h.pcs t
  have c := h.core
  cases hs
  case insert m hp => exact quiet h rfl rfl rfl rfl rfl rfl rfl rfl rfl rfl (.inl rfl) (.inl rfl) rfl (by simp [hp]) trivial
  case lookup hp => exact quiet h rfl rfl rfl rfl rfl rfl rfl rfl rfl rfl (.inl rfl) (.inl rfl) rfl (by simp [hp]) trivial
  case iter hp => exact quiet h rfl rfl rfl rfl rfl rfl rfl rfl rfl rfl (.inl rfl) (.inl rfl) rfl (by simp [hp]) trivial
  case begin m hp _ => exact quiet h rfl rfl rfl rfl rfl rfl rfl rfl rfl rfl (.inl rfl) (.inl rfl) rfl (by simp [hp]) trivial
  case ins1 m hp => exact quiet h rfl rfl rfl rfl rfl rfl rfl rfl rfl rfl (.inl rfl) (.inl rfl) rfl (by simp [hp]) rfl
  case ins2 m g hp _ =>
    rw [hp] at ok
    refine quiet h rfl rfl rfl rfl rfl rfl rfl rfl rfl rfl (.inl rfl) (.inl rfl) rfl (by simp [hp]) ?_
    have := c.live s.gen c.low (Nat.le_refl _)
    simp only [PCok] at *
    grind
  case ins2' m g hp _ => exact quiet h rfl rfl rfl rfl rfl rfl rfl rfl rfl rfl (.inl rfl) (.inl rfl) rfl (by simp [hp]) trivial
  case ins3 m g hp => rw [hp] at ok; exact quiet h rfl rfl rfl rfl rfl rfl rfl rfl rfl rfl (.inl rfl) (.inl rfl) rfl (by simp [hp]) ok
  case ins3' m g hp => rw [hp] at ok; exact quiet h rfl rfl rfl rfl rfl rfl rfl rfl rfl rfl (.inl rfl) (.inl rfl) rfl (by simp [hp]) ok
  case rot1 m g hp hr =>
    rw [hp] at ok
    refine quiet h rfl rfl rfl rfl rfl rfl rfl rfl rfl rfl (.inl rfl) (.inl rfl) rfl (by simp [hp]) ?_
    simp only [PCok] at *
    refine ⟨ok.1, ok.2.1, ok.2.2, ?_, hr⟩
    have a1 := c.high
    have a2 := c.low
    have a3 := c.two
    by_cases e : s.gen + 2 ≤ s.ret + N
    · have := c.fut (g + 1) (by omega) (by omega)
      grind
    · have e1 : g + 1 = s.ret + N := by omega
      have e2 : s.sl N (g + 1) = s.sl N s.ret := sl_congr s (by rw [e1, Nat.add_mod_right])
      have := c.old s.ret (by omega) (by omega)
      grind
  case rot1' m g hp => exact quiet h rfl rfl rfl rfl rfl rfl rfl rfl rfl rfl (.inl rfl) (.inl rfl) rfl (by simp [hp]) trivial
  case rot2 m g hp _ => rw [hp] at ok; exact quiet h rfl rfl rfl rfl rfl rfl rfl rfl rfl rfl (.inl rfl) (.inl rfl) rfl (by simp [hp]) ok
  case rot2' m g hp => exact quiet h rfl rfl rfl rfl rfl rfl rfl rfl rfl rfl (.inl rfl) (.inl rfl) rfl (by simp [hp]) trivial
  case rot3 m g hp _ => rw [hp] at ok; exact quiet h rfl rfl rfl rfl rfl rfl rfl rfl rfl rfl (.inl rfl) (.inl rfl) rfl (by simp [hp]) ok
  case rot6 m g hp => rw [hp] at ok; exact quiet h rfl rfl rfl rfl rfl rfl rfl rfl rfl rfl (.inr (by rw [hp]; rfl)) (.inl rfl) rfl (by simp [hp]) ok
  case put2 m hp => exact quiet h rfl rfl rfl rfl rfl rfl rfl rfl rfl rfl (.inl rfl) (.inl rfl) rfl (by simp [hp]) trivial
  case start' g hp _ => exact quiet h rfl rfl rfl rfl rfl rfl rfl rfl rfl rfl (.inl rfl) (.inl rfl) rfl (by simp [hp]) trivial
  case inc1 g hp _ => rw [hp] at ok; exact quiet h rfl rfl rfl rfl rfl rfl rfl rfl rfl rfl (.inl rfl) (.inr (by rw [hp]; rfl)) rfl (by simp [hp]) ok
  case inc2 g hp => exact inv_inc2 h hp
  case inc3 g nr hp _ _ => rw [hp] at ok; exact quiet h rfl rfl rfl rfl rfl rfl rfl rfl rfl rfl (.inl rfl) (.inr (by rw [hp]; rfl)) rfl (by simp [hp]) ok
  case inc6 g hp => rw [hp] at ok; exact quiet h rfl rfl rfl rfl rfl rfl rfl rfl rfl rfl (.inl rfl) (.inr (by rw [hp]; rfl)) rfl (by simp [hp]) ok
  case cont0 g hp _ => exact quiet h rfl rfl rfl rfl rfl rfl rfl rfl rfl rfl (.inl rfl) (.inl rfl) rfl (by simp [hp]) trivial
  case lk0 n hp _ => exact quiet h rfl rfl rfl rfl rfl rfl rfl rfl rfl rfl (.inl rfl) (.inl rfl) rfl (by simp [hp]) trivial
  case lk1 n hp => exact quiet h rfl rfl rfl rfl rfl rfl rfl rfl rfl rfl (.inl rfl) (.inl rfl) rfl (by simp [hp]) ⟨c.low, Nat.le_refl _⟩
  case lk2 n g hp =>
    rw [hp] at ok
    exact quiet h rfl rfl rfl rfl rfl rfl rfl rfl rfl rfl (.inl rfl) (.inl rfl) rfl (by simp [hp]) ⟨rfl, by have := ok.1; omega, Nat.le_refl _, ok.2⟩
  case lk3 n g e obs hp => exact quiet h rfl rfl rfl rfl rfl rfl rfl rfl rfl rfl (.inl rfl) (.inl rfl) rfl (by simp [hp]) trivial
  case lk3' n g e j obs hp hne _ =>
    rw [hp] at ok
    refine quiet h rfl rfl rfl rfl rfl rfl rfl rfl rfl rfl (.inl rfl) (.inl rfl) rfl (by simp [hp]) ?_
    simp only [PCok] at *
    refine ⟨ok.1, by omega, ok.2.2.1, ok.2.2.2, by simp⟩
  case lk4 n g e j obs pk hp => exact quiet h rfl rfl rfl rfl rfl rfl rfl rfl rfl rfl (.inl rfl) (.inl rfl) rfl (by simp [hp]) trivial
  case lk4' n g e j obs pk hp =>
    rw [hp] at ok
    refine quiet h rfl rfl rfl rfl rfl rfl rfl rfl rfl rfl (.inl rfl) (.inl rfl) rfl (by simp [hp]) ?_
    simp only [PCok] at *
    omega
  case lk5 n obs hp => exact quiet h rfl rfl rfl rfl rfl rfl rfl rfl rfl rfl (.inl rfl) (.inl rfl) rfl (by simp [hp]) trivial
  case lk6 n obs r hp => exact quiet h rfl rfl rfl rfl rfl rfl rfl rfl rfl rfl (.inl rfl) (.inl rfl) rfl (by simp [hp]) trivial
  case lk7 n obs hp => exact quiet h rfl rfl rfl rfl rfl rfl rfl rfl rfl rfl (.inl rfl) (.inl rfl) rfl (by simp [hp]) trivial
  case lk8 n obs hp => exact quiet h rfl rfl rfl rfl rfl rfl rfl rfl rfl rfl (.inl rfl) (.inl rfl) rfl (by simp [hp]) trivial
  case it0 hp _ => exact quiet h rfl rfl rfl rfl rfl rfl rfl rfl rfl rfl (.inl rfl) (.inl rfl) rfl (by simp [hp]) trivial
  case it1 hp => exact quiet h rfl rfl rfl rfl rfl rfl rfl rfl rfl rfl (.inl rfl) (.inl rfl) rfl (by simp [hp]) ⟨c.low, Nat.le_refl _⟩
  case it2 g hp =>
    rw [hp] at ok
    exact quiet h rfl rfl rfl rfl rfl rfl rfl rfl rfl rfl (.inl rfl) (.inl rfl) rfl (by simp [hp]) ⟨rfl, by have := ok.1; omega, by have := ok.2; omega⟩
  case it3 e hp => exact quiet h rfl rfl rfl rfl rfl rfl rfl rfl rfl rfl (.inl rfl) (.inl rfl) rfl (by simp [hp]) trivial
  case it3' e j hp hne _ =>
    rw [hp] at ok
    refine quiet h rfl rfl rfl rfl rfl rfl rfl rfl rfl rfl (.inl rfl) (.inl rfl) rfl (by simp [hp]) ?_
    simp only [PCok] at *
    omega
  case it3'' e j hp hne _ =>
    rw [hp] at ok
    refine quiet h rfl rfl rfl rfl rfl rfl rfl rfl rfl rfl (.inl rfl) (.inl rfl) rfl (by simp [hp]) ?_
    simp only [PCok] at *
    omega
  case rot4 m g hp => exact inv_rot4 h hl hp
  case rot5 m g hp h1 _ => exact inv_rot5 h hl hp h1
  case rot7 m g hp => exact inv_rot7 h hp
  case put m g hp => exact inv_put h hp
  case fin g hp => exact inv_fin h hp
  case comp g hp => exact inv_comp h hp
  case comp2 g hp => exact inv_comp2 h hp
  case start g hp h1 h2 h3 => exact inv_start h hp h1 h2 h3
  case inc4 g nr hp => exact inv_inc4 h hl hp
  case inc5 g nr hp => exact inv_inc5 h hp
  case inc7 g hp h1 => exact inv_inc7 h hp h1
  case inc7' g hp h1 h2 => exact inv_inc7' h hp h1
  case rec1 g k hp => exact inv_rec1 h hp
  case rec2 g k hp => exact inv_rec2 h hp
  case cont g hp h1 h2 h3 => exact inv_cont h hp h1 h2 h3
  case cont' g hp h1 h2 h3 => exact inv_cont' h hp h2
  case flush g hp hg => exact inv_flush h hp hg
  case drop1 g hp hg h1 h2 h3 => exact inv_drop1 h hp hg h2 h3
  case drop g hp hg h1 h2 h3 => exact inv_drop h hp hg
  case it4 e j hp h1 => exact inv_it4 h hp

end Splinter.Memtable
