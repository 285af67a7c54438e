import Verif.Proof.CacheMove

/-!
Steps of the page cache that only change the position of an agent, continued: those that depend on others.
-/
namespace Splinter.Cache

theorem countP_pos' {n : Nat} {f : Nat → Bool} {i : Nat} (hi : i < n) (h : f i = true) :
    1 ≤ (List.range n).countP f :=
  List.countP_pos_iff.2 ⟨i, List.mem_range.2 hi, h⟩

theorem countP_two {n : Nat} {f : Nat → Bool} {i j : Nat} (hi : i < n) (hj : j < n) (hij : i ≠ j)
    (h : f i = true) (h' : f j = true) : 2 ≤ (List.range n).countP f := by
  induction n with
  | zero => omega
  | succ n ih =>
    rw [List.range_succ, List.countP_append]
    by_cases e : i = n
    · subst e
      have := countP_pos' (show j < i by omega) h'
      simp only [List.countP_cons, List.countP_nil, h, if_true]; omega
    · by_cases e' : j = n
      · subst e'
        have := countP_pos' (show i < j by omega) h
        simp only [List.countP_cons, List.countP_nil, h', if_true]; omega
      · have := ih (by omega) (by omega); omega

theorem countP_upd {n : Nat} {f g : Nat → Bool} {t : Nat} (ht : t < n) (h : ∀ i, i ≠ t → f i = g i) :
    (List.range n).countP g + (if f t then 1 else 0) = (List.range n).countP f + (if g t then 1 else 0) := by
  induction n with
  | zero => omega
  | succ n ih =>
    rw [List.range_succ, List.countP_append, List.countP_append]
    by_cases e : t = n
    · subst e
      have : (List.range t).countP f = (List.range t).countP g :=
        countP_congr' (fun i hi => h i (by omega))
      simp only [List.countP_cons, List.countP_nil]; omega
    · have h1 := ih (by omega)
      have h2 := h n (fun c => e c.symm)
      simp only [List.countP_cons, List.countP_nil, h2]; omega

theorem Inv.lt {P s i} (h : Inv P s) (hp : s.pc i ≠ .idle) : i < P.n := (h.loc i).lt hp

theorem ref_ne {p e} : ref p = some e → p ≠ .idle := by cases p <;> simp [ref]

theorem Inv.cnt_pos {P s i e} (h : Inv P s) (hr : ref (s.pc i) = some e) : 1 ≤ s.cnt e (P.slot i) := by
  rw [h.cnt]
  exact countP_pos' (h.lt (ref_ne hr)) (by simp [hr])

theorem Inv.cnt_two {P s i j e} (h : Inv P s) (hij : i ≠ j) (hi : ref (s.pc i) = some e)
    (hj : ref (s.pc j) = some e) (hs : P.slot i = P.slot j) : 2 ≤ s.cnt e (P.slot i) := by
  rw [h.cnt]
  exact countP_two (h.lt (ref_ne hi)) (h.lt (ref_ne hj)) hij (by simp [hi]) (by simp [hj, hs])

theorem slot_lt (P : Par) (i : Nat) : P.slot i < 4 := Nat.mod_lt _ (by omega)

/-- The variant of `Inv.move` whose last argument knows about the other agent. -/
theorem Inv.move' {P : Par} {s : State} {t : Nat} {p q : PC} (h : Inv P s) (hp : s.pc t = p)
    (hr : ref q = ref p) (hc : Cov p q)
    (hg : ∀ a e, q = .gLoad a e → ((s.ent e).addr = some a ∧ s.look a = some e) ∨ ∃ i, abt (s.pc i) = some (a, e))
    (loct : Loc P s.ent s.look s.disk s.cur s.own t p → Loc P s.ent s.look s.disk s.cur s.own t q)
    (pr : ∀ j, j ≠ t → Pair P j p (s.pc j) → Pair P t (s.pc j) p → Pair P j q (s.pc j) ∧ Pair P t (s.pc j) q) :
    Inv P { s with pc := upd s.pc t q } := by
  subst hp
  exact h.next (q := q) rfl (loct (h.loc t)) (fun j _ => h.loc j)
    (fun j hj => pr j hj (h.pair t j (Ne.symm hj)) (h.pair j t hj))
    (h.glob.move rfl rfl rfl rfl rfl hc hg) (h.cnt.move rfl rfl hr)

/-- Pairs of positions with fewer obligations. -/
theorem mkPair {P : Par} {j : Nat} {p q : PC} (h1 : ∀ e, clm p = some e → clm q ≠ some e)
    (h2 : ∀ a b e, ldr p = some (a, e) → ldr q ≠ some (b, e)) (h3 : ∀ e, wbo p = some e → wbo q ≠ some e)
    (h4 : ∀ a, xcl p = some a → tgt q ≠ some a)
    (h5 : ∀ r e k a, p = .wRef r e k → pas q = some (a, e) → k ≤ P.slot j)
    (h6 : ∀ e a, exF p = some e → pas q ≠ some (a, e)) (h7 : ∀ a e m, p = .wr a e m → pas q ≠ some (a, e)) :
    Pair P j p q := ⟨h1, h2, h3, h4, h5, h6, h7⟩

theorem Inv.xcl_none {P s a} (h : Inv P s) (hx : ∀ j, j < P.n → xcl (s.pc j) ≠ some a) (j : Nat) :
    xcl (s.pc j) ≠ some a := by
  by_cases e : s.pc j = .idle
  · rw [e]; simp [xcl]
  · exact hx j (h.lt e)

theorem Inv.tgt_none {P s a} (h : Inv P s) (hx : ∀ j, j < P.n → tgt (s.pc j) ≠ some a) (j : Nat) :
    tgt (s.pc j) ≠ some a := by
  by_cases e : s.pc j = .idle
  · rw [e]; simp [tgt]
  · exact hx j (h.lt e)

macro "cls" : tactic => `(tactic| simp [clm, ldr, wbo, xcl, tgt, pas, exF, wlk, mp, nl, um, an, ad, alc, clr, alo, bent, nowb, abt, ref])
macro "pr0" : tactic => `(tactic| (refine ⟨mkPair ?_ ?_ ?_ ?_ ?_ ?_ ?_, mkPair ?_ ?_ ?_ ?_ ?_ ?_ ?_⟩ <;>
  try (simp [clm, ldr, wbo, xcl, tgt, pas, exF]; done)))

theorem m_get {P s t a} (h : Inv P s) (hp : s.pc t = .idle) (ht : t < P.n)
    (hx : ∀ j, j < P.n → xcl (s.pc j) ≠ some a) : Inv P { s with pc := upd s.pc t (.gLook a) } := by
  refine h.move' hp rfl (by cov) (by simp) (by loct) (fun j hj h1 h2 => ?_)
  pr0
  intro b hb; have := h.xcl_none hx j; simp [tgt]; rintro rfl; exact this hb

theorem m_disc {P s t a} (h : Inv P s) (hp : s.pc t = .idle) (ht : t < P.n)
    (hx : ∀ j, j < P.n → tgt (s.pc j) ≠ some a) : Inv P { s with pc := upd s.pc t (.dLook a) } := by
  refine h.move' hp rfl (by cov) (by simp) (by loct) (fun j hj h1 h2 => ?_)
  have hn := h.tgt_none hx j
  pr0
  · intro b hb; simp [xcl] at hb; subst hb; exact hn
  · intro b hb; simp [tgt]; rintro rfl; exact hn (xcl_tgt hb)

theorem m_new {P s t a} (h : Inv P s) (hp : s.pc t = .idle) (ht : t < P.n)
    (hx : ∀ j, j < P.n → tgt (s.pc j) ≠ some a) (hl : s.look a = none) :
    Inv P { s with pc := upd s.pc t (.want .new a) } := by
  refine h.move' hp rfl (by cov) (by simp) (by loct) (fun j hj h1 h2 => ?_)
  have hn := h.tgt_none hx j
  pr0
  · intro b hb; simp [xcl] at hb; subst hb; exact hn
  · intro b hb; simp [tgt]; rintro rfl; exact hn (xcl_tgt hb)

theorem no_wlk {P s e} (h : Inv P s) (hw : (s.ent e).wl = false) (j : Nat) : wlk (s.pc j) ≠ some e := by
  intro c; have := (h.loc j).wl e c; simp [hw] at this

theorem exF_wlk {p e} : exF p = some e → wlk p = some e := by cases p <;> simp [exF, wlk]

/-- Nobody has exclusive access to an entry that is not write locked. -/
theorem pass_pair {P s e a t j p} (h : Inv P s) (hw : (s.ent e).wl = false) (hq : pas p = some (a, e))
    (hc : clm p = none) (hl : ldr p = none) (hwb : wbo p = none)
    (h4 : ∀ b, xcl (s.pc j) = some b → tgt p ≠ some b) : Pair P t (s.pc j) p := by
  have hn := no_wlk h hw j
  refine mkPair (by simp [hc]) (by simp [hl]) (by simp [hwb]) h4 ?_ ?_ ?_
  · intro r e' k a' hr hp; rw [hq] at hp; cases hp; rw [hr] at hn; simp [wlk] at hn
  · intro e' a' hr hp; rw [hq] at hp; cases hp; exact hn (exF_wlk hr)
  · intro a' e' m hr hp; rw [hq] at hp; cases hp; rw [hr] at hn; simp [wlk] at hn

theorem m_rPass {P s t p e} (h : Inv P s) (hp : s.pc t = .rW p e false) (hw : (s.ent e).wl = false) :
    Inv P { s with pc := upd s.pc t (passed p e) } := by
  cases p with
  | evict => exact h.move hp rfl (by cov) (by simp [passed]) (by simp only [passed]; loct) (by simp only [passed]; prs)
  | get a =>
    refine h.move' hp rfl (by simp only [passed]; cov) (by simp [passed]) (by simp only [passed]; loct) (fun j hj h1 h2 => ?_)
    refine ⟨mkPair ?_ ?_ ?_ ?_ ?_ ?_ ?_, pass_pair h hw (a := a) rfl rfl rfl rfl h2.xcl⟩ <;>
      simp [passed, clm, ldr, wbo, xcl, exF]
  | disc a =>
    refine h.move' hp rfl (by simp only [passed]; cov) (by simp [passed]) (by simp only [passed]; loct) (fun j hj h1 h2 => ?_)
    refine ⟨mkPair ?_ ?_ ?_ h1.xcl ?_ ?_ ?_, pass_pair h hw (a := a) rfl rfl rfl rfl h2.xcl⟩ <;>
      simp [passed, clm, ldr, wbo, xcl, exF]

theorem Inv.ad_of {P s e a} (h : Inv P s) (ha : (s.ent e).addr = some a) :
    s.look a = some e ∨ ∃ i, ad (s.pc i) = some (a, e) := h.glob.f2 e a ha

theorem ad_abt {p a e} : ad p = some (a, e) → abt p = some (a, e) ∨ exF p = some e ∨ xcl p = some a := by
  cases p <;> simp [ad, abt, exF, xcl] <;> tauto

theorem m_gAddr {P s t a e} (h : Inv P s) (hp : s.pc t = .gAddr a e) (ha : (s.ent e).addr = some a) :
    Inv P { s with pc := upd s.pc t (.gLoad a e) } := by
  refine h.move hp rfl (by cov) ?_ (by loct) (by prs)
  intro a' e' he; cases he
  rcases h.ad_of ha with hl | ⟨i, hi⟩
  · exact .inl ⟨ha, hl⟩
  · have hit : i ≠ t := by rintro rfl; rw [hp] at hi; simp [ad] at hi
    have hpr := h.pair i t hit
    rcases ad_abt hi with x | x | x
    · exact .inr ⟨i, x⟩
    · exact absurd (by rw [hp]; rfl) (hpr.x2 e a x)
    · exact absurd (by rw [hp]; rfl) (hpr.xcl a x)

theorem m_gLoaded {P s t a e} (h : Inv P s) (hp : s.pc t = .gLoad a e) (hl : (s.ent e).loading = false) :
    Inv P { s with pc := upd s.pc t (.rd a e) } := by
  have hm : (s.ent e).addr = some a ∧ s.look a = some e := by
    rcases h.glob.m4 t a e hp with x | ⟨i, hi⟩
    · exact x
    · have := (h.loc i).ldr a e (abt_ldr hi); simp [hl] at this
  refine h.move hp rfl (by cov) (by simp) (by loct) (by prs)

theorem Inv.next_wRef {P s t p e k} (h : Inv P s) (hp : s.pc t = .wRef p e k)
    (hc : s.cnt e k ≤ (if k = P.slot t then 1 else 0)) (j : Nat) (hj : j ≠ t) (a : Nat)
    (hq : pas (s.pc j) = some (a, e)) : k + 1 ≤ P.slot j := by
  have h1 := (h.pair t j (Ne.symm hj)).x1 p e k a hp hq
  have h2 := h.cnt_pos (pas_ref hq)
  by_cases e1 : P.slot j = k
  · exfalso
    rw [e1] at h2
    by_cases e2 : k = P.slot t
    · have := h.cnt_two hj (pas_ref hq) (by rw [hp]; rfl) (by rw [e1, e2])
      rw [e1] at this; simp only [e2, if_true] at hc; rw [e2] at this; omega
    · simp only [e2, if_false] at hc; omega
  · omega

theorem m_wRef {P s t p e k} (h : Inv P s) (hp : s.pc t = .wRef p e k)
    (hc : s.cnt e k ≤ (if k = P.slot t then 1 else 0)) :
    Inv P { s with pc := upd s.pc t (.wRef p e (k + 1)) } := by
  have hn := h.next_wRef hp hc
  refine h.move' hp (by cases p <;> rfl) (by cov) (by simp) (by cases p <;> loct) (fun j hj h1 h2 => ?_)
  refine ⟨mkPair h1.clm h1.ldr h1.wbo ?_ ?_ ?_ ?_, mkPair h2.clm h2.ldr h2.wbo ?_ ?_ ?_ ?_⟩
  · intro b hb; exact h1.xcl b (by cases p <;> simpa [xcl] using hb)
  · intro r e' k' a' hr hq; cases hr; exact hn j hj a' hq
  · simp [exF]
  · simp
  · intro b hb; have := h2.xcl b hb; cases p <;> simpa [tgt] using this
  · simp [pas]
  · simp [pas]
  · simp [pas]

theorem m_wDone {P s t p e k} (h : Inv P s) (hp : s.pc t = .wRef p e k) (hk : 4 ≤ k) :
    Inv P { s with pc := upd s.pc t (locked p e) } := by
  have hn : ∀ j, j ≠ t → ∀ a, pas (s.pc j) ≠ some (a, e) := by
    intro j hj a hq
    have := (h.pair t j (Ne.symm hj)).x1 p e k a hp hq
    have := slot_lt P j; omega
  cases p with
  | get a =>
    refine h.move' hp rfl (by simp only [locked]; cov) (by simp [locked]) (by simp only [locked]; loct) (fun j hj h1 h2 => ?_)
    simp only [locked]
    pr0
    · exact h1.clm
    · intro a' e' m hr; cases hr; exact hn j hj a
    · exact h2.clm
    · exact h2.xcl
  | disc a =>
    refine h.move' hp rfl (by simp only [locked]; cov) (by simp [locked]) (by simp only [locked]; loct) (fun j hj h1 h2 => ?_)
    simp only [locked]
    pr0
    · exact h1.clm
    · exact h1.xcl
    · intro e' a' hr; simp [exF] at hr; subst hr; exact hn j hj a'
    · exact h2.clm
    · exact h2.xcl
  | evict =>
    refine h.move' hp rfl (by simp only [locked]; cov) (by simp [locked]) (by simp only [locked]; loct) (fun j hj h1 h2 => ?_)
    simp only [locked]
    pr0
    · exact h1.clm
    · intro e' a' hr; simp [exF] at hr; subst hr; exact hn j hj a'
    · exact h2.clm

theorem m_eStat {P s t e a} (h : Inv P s) (hp : s.pc t = .eStat e) (hv : (s.ent e).isEvictable = true)
    (ha : (s.ent e).addr = some a) : Inv P { s with pc := upd s.pc t (.eLk e a) } := by
  simp [Entry.isEvictable] at hv
  have hl : s.look a = some e := by
    rcases h.ad_of ha with x | ⟨i, hi⟩
    · exact x
    · exfalso
      have hit : i ≠ t := by rintro rfl; rw [hp] at hi; simp [ad] at hi
      rcases ad_cases hi with x | x
      · exact (h.pair i t hit).clm e x (by rw [hp]; rfl)
      · have := (h.loc i).ldr a e x; simp_all
  refine h.move hp rfl (by cov) (by simp) (by loct) (by prs)

theorem m_eStat0 {P s t e} (h : Inv P s) (hp : s.pc t = .eStat e) (hv : (s.ent e).isEvictable = true)
    (ha : (s.ent e).addr = none) : Inv P { s with pc := upd s.pc t (.eFr e) } := by
  exfalso
  simp [Entry.isEvictable] at hv
  rcases h.glob.f3 e (by simp_all) with ⟨a, x⟩ | ⟨i, hi⟩
  · simp [ha] at x
  · have hit : i ≠ t := by rintro rfl; rw [hp] at hi; simp [an] at hi
    rcases an_cases hi with x | ⟨a, x⟩
    · exact (h.pair i t hit).clm e x (by rw [hp]; rfl)
    · have := (h.loc i).ldr a e x; simp_all

theorem ldr_addr {p a e} : ldr p = some (a, e) → mp p = some (a, e) ∨ an p = some e ∨ ad p = some (a, e) := by
  cases p <;> simp [ldr, mp, an, ad] <;> tauto

theorem m_dAddr {P s t a e} (h : Inv P s) (hp : s.pc t = .dAddr a e) (ha : (s.ent e).addr = some a) :
    Inv P { s with pc := upd s.pc t (.dClaim a e) } := by
  have hl : s.look a = some e := by
    rcases h.ad_of ha with x | ⟨i, hi⟩
    · exact x
    · exfalso
      have hit : i ≠ t := by rintro rfl; rw [hp] at hi; simp [ad] at hi
      rcases ad_abt hi with x | x | x
      · exact (h.pair t i (Ne.symm hit)).xcl a (by rw [hp]; rfl) (ldr_tgt (abt_ldr x))
      · exact (h.pair i t hit).x2 e a x (by rw [hp]; rfl)
      · exact (h.pair t i (Ne.symm hit)).xcl a (by rw [hp]; rfl) (xcl_tgt x)
  have hd : (s.ent e).loading = false := by
    cases hd : (s.ent e).loading with
    | false => rfl
    | true =>
      exfalso
      obtain ⟨i, b, hi⟩ := h.glob.l3 e hd
      have hit : i ≠ t := by rintro rfl; rw [hp] at hi; simp [ldr] at hi
      have hb : b = a := by
        rcases ldr_addr hi with x | x | x
        · have := ((h.loc i).mp b e x).1; simp_all
        · have := (h.loc i).an e x; simp_all
        · have := (h.loc i).ad b e x; simp_all
      subst hb
      exact (h.pair t i (Ne.symm hit)).xcl b (by rw [hp]; rfl) (ldr_tgt hi)
  refine h.move hp rfl (by cov) (by simp) (by loct) (by prs)

theorem m_wbAd {P s t e a} (h : Inv P s) (hp : s.pc t = .wbAd e) (ha : (s.ent e).addr = some a) :
    Inv P { s with pc := upd s.pc t (.wbIov a e) } := by
  obtain ⟨b, hb1, hb2⟩ := (h.loc t).wad e hp
  rw [ha] at hb1; cases hb1
  refine h.move hp rfl (by cov) (by simp) (by loct) (by prs)

theorem m_wbAd0 {P s t e q} (h : Inv P s) (hp : s.pc t = .wbAd e) (ha : (s.ent e).addr = none) : Inv P q := by
  obtain ⟨b, hb1, hb2⟩ := (h.loc t).wad e hp
  simp [ha] at hb1

theorem m_wbIov {P s t a e e2} (h : Inv P s) (hp : s.pc t = .wbIov a e) (hl : s.look a = some e2) :
    Inv P { s with pc := upd s.pc t (.wbIo a e2) } := by
  have := ((h.loc t).mp a e (by rw [hp]; rfl)).2
  rw [hl] at this; cases this
  refine h.move hp rfl (by cov) (by simp) (by loct) (by prs)

theorem m_wbIov0 {P s t a e q} (h : Inv P s) (hp : s.pc t = .wbIov a e) (hl : s.look a = none) : Inv P q := by
  have := ((h.loc t).mp a e (by rw [hp]; rfl)).2
  simp [hl] at this

/-- Steps that change the owner of a batch. -/
theorem m_own {P s t b x} (h : Inv P s) (hb : bent (s.pc t) = none) (ho : s.own b = none ∨ s.own b = some t) :
    Inv P { s with own := upd s.own b x } := by
  refine ⟨fun i => ?_, h.pair, ⟨h.glob.f1, h.glob.f2, h.glob.f2', h.glob.f3, h.glob.l3, h.glob.m4, h.glob.d1, h.glob.d2⟩, h.cnt⟩
  have l := h.loc i
  refine { l with own := ?_ }
  intro e he
  have := l.own e he
  have hne : P.bat e ≠ b := by
    rintro rfl
    rcases ho with y | y <;> rw [this] at y
    · cases y
    · cases y; simp [hb] at he
  show upd s.own b x (P.bat e) = some i
  rw [upd_ne _ _ hne]; exact this

end Splinter.Cache
