import Verif.Proof.CacheInv

/-!
Steps of the page cache that only change the position of an agent.
-/
namespace Splinter.Cache

theorem Inv.next {P : Par} {s s' : State} {t : Nat} {q : PC} (h : Inv P s) (hpc : s'.pc = upd s.pc t q)
    (loct : Loc P s'.ent s'.look s'.disk s'.cur s'.own t q)
    (loco : ∀ j, j ≠ t → Loc P s'.ent s'.look s'.disk s'.cur s'.own j (s.pc j))
    (pr : ∀ j, j ≠ t → Pair P j q (s.pc j) ∧ Pair P t (s.pc j) q)
    (g : Glob s') (c : Cnt P s') : Inv P s' := by
  refine ⟨fun i => ?_, fun i j hij => ?_, g, c⟩
  · rw [hpc]
    by_cases hi : i = t
    · subst hi; rw [upd_self]; exact loct
    · rw [upd_ne _ _ hi]; exact loco i hi
  · rw [hpc]
    by_cases hi : i = t
    · subst hi; rw [upd_self, upd_ne _ _ (Ne.symm hij)]; exact (pr j (Ne.symm hij)).1
    · by_cases hj : j = t
      · subst hj; rw [upd_self, upd_ne _ _ hi]; exact (pr i hi).2
      · rw [upd_ne _ _ hi, upd_ne _ _ hj]; exact h.pair i j hij

theorem countP_congr' {n : Nat} {f g : Nat → Bool} (h : ∀ i, i < n → f i = g i) :
    (List.range n).countP f = (List.range n).countP g := by
  apply List.countP_congr
  intro i hi
  rw [h i (List.mem_range.1 hi)]

theorem Cnt.move {P : Par} {s s' : State} {t : Nat} {q : PC} (h : Cnt P s) (hpc : s'.pc = upd s.pc t q)
    (hc : s'.cnt = s.cnt) (hr : ref q = ref (s.pc t)) : Cnt P s' := by
  intro e k
  rw [hc, h e k]
  apply countP_congr'
  intro i _
  rw [hpc]
  by_cases hi : i = t
  · subst hi; rw [upd_self, hr]
  · rw [upd_ne _ _ hi]

/-- What the other agents or the entries need agent `t` for is kept. -/
structure Cov (p q : PC) : Prop where
  ad : ∀ x, ad p = some x → ad q = some x
  an : ∀ x, an p = some x → an q = some x
  ldr : ∀ x, ldr p = some x → ldr q = some x
  abt : ∀ x, abt p = some x → abt q = some x
  gs : ∀ a e, p ≠ .gSet a e
  wr : ∀ a e, p ≠ .wr a e true

theorem ex_upd {C : PC → Prop} {f : Nat → PC} {t : Nat} {q : PC} (h : ∃ i, C (f i)) (hc : C (f t) → C q) :
    ∃ i, C (upd f t q i) := by
  obtain ⟨i, hi⟩ := h
  by_cases e : i = t
  · subst e; exact ⟨i, by rw [upd_self]; exact hc hi⟩
  · exact ⟨i, by rw [upd_ne _ _ e]; exact hi⟩

theorem Glob.move {s s' : State} {t : Nat} {q : PC} (h : Glob s) (hpc : s'.pc = upd s.pc t q)
    (he : s'.ent = s.ent) (hl : s'.look = s.look) (hd : s'.disk = s.disk) (hu : s'.cur = s.cur)
    (hc : Cov (s.pc t) q)
    (hg : ∀ a e, q = .gLoad a e → ((s.ent e).addr = some a ∧ s.look a = some e) ∨ ∃ i, abt (s.pc i) = some (a, e)) :
    Glob s' := by
  constructor
  · rw [he, hl]; exact h.f1
  · rw [he, hl, hpc]
    intro e a x
    rcases h.f2 e a x with y | y
    · exact .inl y
    · exact .inr (ex_upd (C := fun p => ad p = some (a, e)) y (hc.ad _))
  · rw [he, hl, hpc]
    intro e a x
    rcases h.f2' e a x with y | y
    · exact .inl y
    · exact .inr (ex_upd (C := fun p => p = .gSet a e) y (fun z => absurd z (hc.gs _ _)))
  · rw [he, hpc]
    intro e x
    rcases h.f3 e x with y | y
    · exact .inl y
    · exact .inr (ex_upd (C := fun p => an p = some e) y (hc.an _))
  · rw [he, hpc]
    intro e x
    have y : ∃ i, ∃ a, ldr (s.pc i) = some (a, e) := h.l3 e x
    exact ex_upd (C := fun p => ∃ a, ldr p = some (a, e)) y (fun ⟨a, z⟩ => ⟨a, hc.ldr _ z⟩)
  · rw [he, hl, hpc]
    intro j a e x
    have key : ((s.ent e).addr = some a ∧ s.look a = some e) ∨ ∃ i, abt (s.pc i) = some (a, e) := by
      by_cases hj : j = t
      · subst hj; rw [upd_self] at x; exact hg a e x
      · rw [upd_ne _ _ hj] at x; exact h.m4 j a e x
    rcases key with y | y
    · exact .inl y
    · exact .inr (ex_upd (C := fun p => abt p = some (a, e)) y (hc.abt _))
  · rw [he, hl, hu]; exact h.d1
  · rw [he, hl, hd, hu, hpc]
    intro a
    rcases h.d2 a with y | ⟨e, y1, y2, y3, y4⟩
    · exact .inl y
    · refine .inr ⟨e, y1, y2, y3, ?_⟩
      rcases y4 with z | z
      · exact .inl z
      · exact .inr (ex_upd (C := fun p => p = .wr a e true) z (fun z => absurd z (hc.wr _ _)))

theorem Inv.move {P : Par} {s : State} {t : Nat} {p q : PC} (h : Inv P s) (hp : s.pc t = p)
    (hr : ref q = ref p) (hc : Cov p q)
    (hg : ∀ a e, q = .gLoad a e → ((s.ent e).addr = some a ∧ s.look a = some e) ∨ ∃ i, abt (s.pc i) = some (a, e))
    (loct : Loc P s.ent s.look s.disk s.cur s.own t p → Loc P s.ent s.look s.disk s.cur s.own t q)
    (pr : ∀ j c, Pair P j p c → Pair P t c p → Pair P j q c ∧ Pair P t c q) :
    Inv P { s with pc := upd s.pc t q } := by
  subst hp
  exact h.next (q := q) rfl (loct (h.loc t)) (fun j _ => h.loc j)
    (fun j hj => pr j _ (h.pair t j (Ne.symm hj)) (h.pair j t hj))
    (h.glob.move rfl rfl rfl rfl rfl hc hg) (h.cnt.move rfl rfl hr)

macro "cov" : tactic => `(tactic| (constructor <;> simp [ad, an, ldr, abt]))
macro "loct" : tactic => `(tactic| (intro hl; constructor <;> first
  | (simp [mp, nl, um, an, ad, clm, wlk, ldr, wbo, nowb, alc, clr, alo, bent]; done)
  | (have h1 := hl.mp; have h2 := hl.nl; have h3 := hl.um; have h4 := hl.an; have h5 := hl.ad; have h6 := hl.gs
     have h7 := hl.wad; have h8 := hl.cm; have h9 := hl.wl; have h10 := hl.ldr; have h11 := hl.wbo
     have h12 := hl.nowb; have h13 := hl.alc; have h14 := hl.cln; have h15 := hl.clr; have h16 := hl.wbc
     have h17 := hl.alo; have h18 := hl.own; have h19 := hl.lt; have h20 := hl.nc; clear hl
     simp_all [mp, nl, um, an, ad, clm, wlk, ldr, wbo, nowb, alc, clr, alo, bent]; done)))
macro "prs" : tactic => `(tactic| (intro j r h1 h2; obtain ⟨a1, a2, a3, a4, a5, a6, a7⟩ := h1
                                   obtain ⟨b1, b2, b3, b4, b5, b6, b7⟩ := h2
                                   refine ⟨⟨?_, ?_, ?_, ?_, ?_, ?_, ?_⟩, ⟨?_, ?_, ?_, ?_, ?_, ?_, ?_⟩⟩ <;>
                                   generalize clm r = c1 at * <;> generalize ldr r = c2 at * <;>
                                   generalize wbo r = c3 at * <;> generalize xcl r = c4 at * <;>
                                   generalize tgt r = c5 at * <;> generalize pas r = c6 at * <;>
                                   generalize exF r = c7 at * <;> skip <;>
                                   first
                                     | (simp [clm, ldr, wbo, xcl, tgt, pas, exF]; done)
                                     | (simp [clm, ldr, wbo, xcl, tgt, pas, exF] at a1 a2 a3 a4 a5 a6 a7 b1 b2 b3 b4 b5 b6 b7 ⊢
                                        first | assumption | (intros; omega) | grind)))

theorem m_gHit {P s t a e} (h : Inv P s) (hp : s.pc t = .gLook a)  :
    Inv P { s with pc := upd s.pc t (.rTest (.get a) e) } := by
  exact h.move hp rfl (by cov) (by simp) (by loct) (by prs)

theorem m_gMiss1 {P s t a} (h : Inv P s) (hp : s.pc t = .gLook a)  :
    Inv P { s with pc := upd s.pc t (.want .get a) } := by
  exact h.move hp rfl (by cov) (by simp) (by loct) (by prs)

theorem m_gMiss2 {P s t a} (h : Inv P s) (hp : s.pc t = .gLook a)  :
    Inv P { s with pc := upd s.pc t (.want .pre a) } := by
  exact h.move hp rfl (by cov) (by simp) (by loct) (by prs)

theorem m_rTest {P s t p e} (h : Inv P s) (hp : s.pc t = .rTest p e)  :
    Inv P { s with pc := upd s.pc t (.rInc p e) } := by
  cases p <;> exact h.move hp rfl (by cov) (by simp) (by loct) (by prs)

theorem m_rConf {P s t p e} (h : Inv P s) (hp : s.pc t = .rTest p e)  :
    Inv P { s with pc := upd s.pc t (.idle) } := by
  exact h.move hp rfl (by cov) (by simp) (by loct) (by prs)

theorem m_rFree {P s t p e f} (h : Inv P s) (hp : s.pc t = .rFree p e)  :
    Inv P { s with pc := upd s.pc t (.rW p e f) } := by
  cases p <;> exact h.move hp rfl (by cov) (by simp) (by loct) (by prs)

theorem m_rFail {P s t p e f} (h : Inv P s) (hp : s.pc t = .rW p e f)  :
    Inv P { s with pc := upd s.pc t (.rDec e) } := by
  exact h.move hp rfl (by cov) (by simp) (by loct) (by prs)

theorem m_gOther {P s t a e} (h : Inv P s) (hp : s.pc t = .gAddr a e)  :
    Inv P { s with pc := upd s.pc t (.rDec e) } := by
  exact h.move hp rfl (by cov) (by simp) (by loct) (by prs)

theorem m_gBusy {P s t a e} (h : Inv P s) (hp : s.pc t = .gLoad a e)  :
    Inv P { s with pc := upd s.pc t (.rDec e) } := by
  exact h.move hp rfl (by cov) (by simp) (by loct) (by prs)

theorem m_unget {P s t a e} (h : Inv P s) (hp : s.pc t = .rd a e)  :
    Inv P { s with pc := upd s.pc t (.rDec e) } := by
  exact h.move hp rfl (by cov) (by simp) (by loct) (by prs)

theorem m_lock {P s t a e} (h : Inv P s) (hp : s.pc t = .cl a e)  :
    Inv P { s with pc := upd s.pc t (.wSet (.get a) e) } := by
  exact h.move hp rfl (by cov) (by simp) (by loct) (by prs)

theorem m_wWb {P s t p e} (h : Inv P s) (hp : s.pc t = .wWb p e) (hx : (s.ent e).wb = false) :
    Inv P { s with pc := upd s.pc t (.wRef p e 0) } := by
  cases p <;> exact h.move hp rfl (by cov) (by simp) (by loct) (by prs)

theorem m_wWbX {P s t e} (h : Inv P s) (hp : s.pc t = .wWb .evict e)  :
    Inv P { s with pc := upd s.pc t (.xW e) } := by
  exact h.move hp rfl (by cov) (by simp) (by loct) (by prs)

theorem m_wRefX {P s t e k} (h : Inv P s) (hp : s.pc t = .wRef .evict e k)  :
    Inv P { s with pc := upd s.pc t (.xW e) } := by
  exact h.move hp rfl (by cov) (by simp) (by loct) (by prs)

theorem m_evict {P s t e} (h : Inv P s) (hp : s.pc t = .idle) (hx : s.own (P.bat e) = some t) (ht : t < P.n) :
    Inv P { s with pc := upd s.pc t (.rTest .evict e) } := by
  exact h.move hp rfl (by cov) (by simp) (by loct) (by prs)

theorem m_eConf {P s t e} (h : Inv P s) (hp : s.pc t = .eClaim e)  :
    Inv P { s with pc := upd s.pc t (.rDec e) } := by
  exact h.move hp rfl (by cov) (by simp) (by loct) (by prs)

theorem m_eLoad {P s t e} (h : Inv P s) (hp : s.pc t = .eLoad e) (hx : (s.ent e).loading = false) :
    Inv P { s with pc := upd s.pc t (.wSet .evict e) } := by
  exact h.move hp rfl (by cov) (by simp) (by loct) (by prs)

theorem m_eLoadX {P s t e} (h : Inv P s) (hp : s.pc t = .eLoad e)  :
    Inv P { s with pc := upd s.pc t (.xC e) } := by
  exact h.move hp rfl (by cov) (by simp) (by loct) (by prs)

theorem m_eStatX {P s t e} (h : Inv P s) (hp : s.pc t = .eStat e)  :
    Inv P { s with pc := upd s.pc t (.xW e) } := by
  exact h.move hp rfl (by cov) (by simp) (by loct) (by prs)

theorem m_dHit {P s t a e} (h : Inv P s) (hp : s.pc t = .dLook a)  :
    Inv P { s with pc := upd s.pc t (.rTest (.disc a) e) } := by
  exact h.move hp rfl (by cov) (by simp) (by loct) (by prs)

theorem m_dMiss {P s t a} (h : Inv P s) (hp : s.pc t = .dLook a)  :
    Inv P { s with pc := upd s.pc t (.idle) } := by
  exact h.move hp rfl (by cov) (by simp) (by loct) (by prs)

theorem m_dLoad {P s t a e} (h : Inv P s) (hp : s.pc t = .dLoad a e)  :
    Inv P { s with pc := upd s.pc t (.dAddr a e) } := by
  exact h.move hp rfl (by cov) (by simp) (by loct) (by prs)

theorem m_dOther {P s t a e} (h : Inv P s) (hp : s.pc t = .dAddr a e)  :
    Inv P { s with pc := upd s.pc t (.rDec e) } := by
  exact h.move hp rfl (by cov) (by simp) (by loct) (by prs)

theorem m_dConf {P s t a e} (h : Inv P s) (hp : s.pc t = .dClaim a e)  :
    Inv P { s with pc := upd s.pc t (.rDec e) } := by
  exact h.move hp rfl (by cov) (by simp) (by loct) (by prs)

theorem m_full {P s t m a} (h : Inv P s) (hp : s.pc t = .want m a)  :
    Inv P { s with pc := upd s.pc t (.idle) } := by
  exact h.move hp rfl (by cov) (by simp) (by loct) (by prs)

theorem m_aIncP {P s t a e} (h : Inv P s) (hp : s.pc t = .aInc .pre a e)  :
    Inv P { s with pc := upd s.pc t (.aStat .pre a e) } := by
  exact h.move hp rfl (by cov) (by simp) (by loct) (by prs)

theorem m_gCasX {P s t a e} (h : Inv P s) (hp : s.pc t = .gCas a e)  :
    Inv P { s with pc := upd s.pc t (.gAb1 a e) } := by
  exact h.move hp rfl (by cov) (by simp) (by loct) (by prs)

theorem m_gCasY {P s t a e} (h : Inv P s) (hp : s.pc t = .gCas a e)  :
    Inv P { s with pc := upd s.pc t (.gAb3 a e) } := by
  exact h.move hp rfl (by cov) (by simp) (by loct) (by prs)

theorem m_gReq {P s t a e} (h : Inv P s) (hp : s.pc t = .gReq a e)  :
    Inv P { s with pc := upd s.pc t (.gRead a e) } := by
  exact h.move hp rfl (by cov) (by simp) (by loct) (by prs)

theorem m_noReq {P s t a e} (h : Inv P s) (hp : s.pc t = .gReq a e)  :
    Inv P { s with pc := upd s.pc t (.nA1 a e) } := by
  exact h.move hp rfl (by cov) (by simp) (by loct) (by prs)

theorem m_pCasX {P s t a e} (h : Inv P s) (hp : s.pc t = .pCas a e)  :
    Inv P { s with pc := upd s.pc t (.pAb1 a e) } := by
  exact h.move hp rfl (by cov) (by simp) (by loct) (by prs)

theorem m_near {P s t a b} (h : Inv P s) (hp : s.pc t = .idle) (ht : t < P.n) :
    Inv P { s with pc := upd s.pc t (.nLook a b) } := by
  exact h.move hp rfl (by cov) (by simp) (by loct) (by prs)

theorem m_nHit {P s t a e b} (h : Inv P s) (hp : s.pc t = .nLook a b)  :
    Inv P { s with pc := upd s.pc t (.nCas a e b) } := by
  exact h.move hp rfl (by cov) (by simp) (by loct) (by prs)

theorem m_nMiss {P s t a b} (h : Inv P s) (hp : s.pc t = .nLook a b)  :
    Inv P { s with pc := upd s.pc t (.idle) } := by
  exact h.move hp rfl (by cov) (by simp) (by loct) (by prs)

theorem m_nCasX {P s t a e b} (h : Inv P s) (hp : s.pc t = .nCas a e b)  :
    Inv P { s with pc := upd s.pc t (.idle) } := by
  exact h.move hp rfl (by cov) (by simp) (by loct) (by prs)

end Splinter.Cache
