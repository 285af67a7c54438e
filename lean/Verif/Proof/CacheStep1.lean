import Verif.Proof.CacheFrame

/-!
Steps of the page cache that change reference counts or the bits CLAIMED and WRITELOCKED.
-/
namespace Splinter.Cache

theorem gx_same {ent ent' : Nat → Entry} {look : Nat → Option Nat} {disk cur : Nat → Nat} {p q : PC}
    {AD GS AB GL WR : Nat → Nat → Prop} {AN LD : Nat → Prop} (h : GlobX ent look disk cur p AD GS AB GL WR AN LD)
    (hc : Cov p q) (hg : ∀ a e, q ≠ .gLoad a e) (h1 : ∀ e, (ent' e).free = (ent e).free)
    (h2 : ∀ e, (ent' e).loading = (ent e).loading) (h3 : ∀ e, (ent' e).addr = (ent e).addr)
    (h4 : ∀ e, (ent' e).data = (ent e).data) (h5 : ∀ e, (ent' e).clean = (ent e).clean) :
    GlobX ent' look disk cur q AD GS AB GL WR AN LD := by
  constructor
  · intro e; rw [h1, h2, h3]; exact h.f1 e
  · intro e a; rw [h3]; intro x; rcases h.f2 e a x with y | y | y
    · exact .inl y
    · exact .inr (.inl (hc.ad _ y))
    · exact .inr (.inr y)
  · intro e a; rw [h3]; intro x; rcases h.f2' e a x with y | y | y
    · exact .inl y
    · exact absurd y (hc.gs a e)
    · exact .inr (.inr y)
  · intro e; rw [h1, h3]; intro x; rcases h.f3 e x with y | y | y
    · exact .inl y
    · exact .inr (.inl (hc.an _ y))
    · exact .inr (.inr y)
  · intro e; rw [h2]; intro x; rcases h.l3 e x with ⟨a, y⟩ | y
    · exact .inl ⟨a, hc.ldr _ y⟩
    · exact .inr y
  · intro a e; rw [h3]; intro x
    rcases x with x | x
    · exact absurd x (hg a e)
    · rcases h.m4 a e (.inr x) with y | y | y
      · exact .inl y
      · exact .inr (.inl (hc.abt _ y))
      · exact .inr (.inr y)
  · intro e a; rw [h3, h2, h4]; exact h.d1 e a
  · intro a; rcases h.d2 a with y | ⟨e, y1, y2, y3, y4⟩
    · exact .inl y
    · refine .inr ⟨e, y1, by rw [h3]; exact y2, by rw [h2]; exact y3, ?_⟩
      rw [h5]
      rcases y4 with z | z | z
      · exact .inl z
      · exact absurd z (hc.wr a e)
      · exact .inr (.inr z)

/-- Steps that only change a counter. -/
theorem Inv.cntMove {P : Par} {s : State} {t : Nat} {p q : PC} {c : Nat → Nat → Nat} (h : Inv P s) (hp : s.pc t = p)
    (hc : Cov p q) (hg : ∀ a e, q ≠ .gLoad a e)
    (loct : Loc P s.ent s.look s.disk s.cur s.own t p → Loc P s.ent s.look s.disk s.cur s.own t q)
    (pr : ∀ j c, Pair P j p c → Pair P t c p → Pair P j q c ∧ Pair P t c q)
    (hcnt : Cnt P { s with pc := upd s.pc t q, cnt := c }) : Inv P { s with pc := upd s.pc t q, cnt := c } :=
  h.step hp rfl loct (fun _ _ l _ _ => l) (fun j _ => pr j _)
    (fun g => gx_same g hc hg (fun _ => rfl) (fun _ => rfl) (fun _ => rfl) (fun _ => rfl) (fun _ => rfl)) hcnt

theorem m_rInc {P s t p e} (h : Inv P s) (hp : s.pc t = .rInc p e) :
    Inv P { s with pc := upd s.pc t (.rFree p e),
                   cnt := upd s.cnt e (upd (s.cnt e) (P.slot t) (s.cnt e (P.slot t) + 1)) } := by
  refine h.cntMove hp (by cov) (by simp) (by cases p <;> loct) (by cases p <;> prs) ?_
  exact cnt_inc h.cnt rfl (h.lt (by simp [hp])) rfl (by rw [hp]; rfl) rfl

theorem m_rDec {P s t e} (h : Inv P s) (hp : s.pc t = .rDec e) :
    Inv P { s with pc := upd s.pc t .idle,
                   cnt := upd s.cnt e (upd (s.cnt e) (P.slot t) (s.cnt e (P.slot t) - 1)) } := by
  refine h.cntMove hp (by cov) (by simp) (by loct) (by prs) ?_
  exact cnt_dec h.cnt rfl (h.lt (by simp [hp])) rfl (by rw [hp]; rfl) rfl

theorem m_aInc {P s t m a e} (h : Inv P s) (hp : s.pc t = .aInc m a e) (hm : m ≠ .pre) :
    Inv P { s with pc := upd s.pc t (.aStat m a e),
                   cnt := upd s.cnt e (upd (s.cnt e) (P.slot t) (s.cnt e (P.slot t) + 1)) } := by
  refine h.cntMove hp (by cov) (by simp) (by cases m <;> loct) (by cases m <;> prs) ?_
  exact cnt_inc h.cnt rfl (h.lt (by simp [hp])) rfl (by rw [hp]; rfl) (by cases m <;> simp_all [ref])

theorem m_gAb1 {P s t a e} (h : Inv P s) (hp : s.pc t = .gAb1 a e) :
    Inv P { s with pc := upd s.pc t (.gAb2 a e),
                   cnt := upd s.cnt e (upd (s.cnt e) (P.slot t) (s.cnt e (P.slot t) - 1)) } := by
  refine h.cntMove hp (by cov) (by simp) (by loct) (by prs) ?_
  exact cnt_dec h.cnt rfl (h.lt (by simp [hp])) rfl (by rw [hp]; rfl) rfl

/-- `loct` when an entry or a mapping changes. -/
macro "loctE" : tactic => `(tactic| (intro hl; constructor <;> first
  | (simp [mp, nl, um, an, ad, clm, wlk, ldr, wbo, nowb, alc, clr, alo, bent]; done)
  | (have h1 := hl.mp; have h2 := hl.nl; have h3 := hl.um; have h4 := hl.an; have h5 := hl.ad; have h6 := hl.gs
     have h7 := hl.wad; have h8 := hl.cm; have h9 := hl.wl; have h10 := hl.ldr; have h11 := hl.wbo
     have h12 := hl.nowb; have h13 := hl.alc; have h14 := hl.cln; have h15 := hl.clr; have h16 := hl.wbc
     have h17 := hl.alo; have h18 := hl.own; have h19 := hl.lt; have h20 := hl.nc; clear hl
     simp_all [mp, nl, um, an, ad, clm, wlk, ldr, wbo, nowb, alc, clr, alo, bent, upd_self, Entry.setFree, Entry.setAlloc, Entry.setLoading]; done)))

/-- Steps that only change CLAIMED or WRITELOCKED. -/
theorem Inv.flag {P : Par} {s : State} {t e : Nat} {p q : PC} (x : Entry) (h : Inv P s) (hp : s.pc t = p)
    (hr : ref q = ref p) (hc : Cov p q) (hg : ∀ a e, q ≠ .gLoad a e)
    (h1 : x.free = (s.ent e).free) (h2 : x.loading = (s.ent e).loading) (h3 : x.addr = (s.ent e).addr)
    (h4 : x.data = (s.ent e).data) (h5 : x.clean = (s.ent e).clean) (h6 : x.wb = (s.ent e).wb)
    (h7 : x.cm = (s.ent e).cm ∨ x.cm = true ∨ clm p = some e)
    (h8 : x.wl = (s.ent e).wl ∨ x.wl = true ∨ clm p = some e)
    (loct : Loc P s.ent s.look s.disk s.cur s.own t p → Loc P (upd s.ent e x) s.look s.disk s.cur s.own t q)
    (pr : ∀ j, j ≠ t → Pair P j p (s.pc j) → Pair P t (s.pc j) p → Pair P j q (s.pc j) ∧ Pair P t (s.pc j) q) :
    Inv P { s with pc := upd s.pc t q, ent := upd s.ent e x } := by
  refine h.step hp rfl loct ?_ pr ?_ (h.cnt.move rfl rfl (by rw [hr, hp]))
  · intro j hj l p1 p2
    refine loc_ent_upd l e x (.inl h3) (.inl h2) ?_ ?_ (.inl h6) (.inl h5) (.inl h1) (.inl h4)
    · rcases h7 with z | z | z
      · exact .inl z
      · exact .inr (.inl z)
      · exact .inr (.inr (p1.clm e z))
    · rcases h8 with z | z | z
      · exact .inl z
      · exact .inr (.inl z)
      · exact .inr (.inr (fun c => p1.clm e z (wlk_clm c)))
  · intro g
    refine gx_same g hc hg ?_ ?_ ?_ ?_ ?_ <;> intro e' <;> (by_cases q : e' = e; (subst q; simp only [upd_self]; assumption); (simp only [upd_ne _ _ q]))

theorem prj {P : Par} {s : State} {t : Nat} {p q : PC} (H : ∀ j c, Pair P j p c → Pair P t c p → Pair P j q c ∧ Pair P t c q) :
    ∀ j, j ≠ t → Pair P j p (s.pc j) → Pair P t (s.pc j) p → Pair P j q (s.pc j) ∧ Pair P t (s.pc j) q :=
  fun j _ => H j _

theorem m_wSet {P s t p e} (h : Inv P s) (hp : s.pc t = .wSet p e) :
    Inv P { s with pc := upd s.pc t (.wWb p e), ent := upd s.ent e { s.ent e with wl := true } } := by
  refine h.flag _ hp rfl (by cov) (by simp) rfl rfl rfl rfl rfl rfl (.inl rfl) (.inr (.inl rfl))
    (by cases p <;> loctE) (prj (by cases p <;> prs))

theorem m_xW {P s t e} (h : Inv P s) (hp : s.pc t = .xW e) :
    Inv P { s with pc := upd s.pc t (.xC e), ent := upd s.ent e { s.ent e with wl := false } } := by
  refine h.flag _ hp rfl (by cov) (by simp) rfl rfl rfl rfl rfl rfl (.inl rfl) (.inr (.inr rfl))
    (by loctE) (prj (by prs))

theorem m_xC {P s t e} (h : Inv P s) (hp : s.pc t = .xC e) :
    Inv P { s with pc := upd s.pc t (.rDec e), ent := upd s.ent e { s.ent e with cm := false } } := by
  refine h.flag _ hp rfl (by cov) (by simp) rfl rfl rfl rfl rfl rfl (.inr (.inr rfl)) (.inl rfl)
    (by loctE) (prj (by prs))

/-- Nobody has claimed an entry that is not claimed. -/
theorem no_clm {P s e} (h : Inv P s) (hw : (s.ent e).cm = false) (j : Nat) : clm (s.pc j) ≠ some e := by
  intro c; have := (h.loc j).cm e c; simp [hw] at this

theorem claim_pair {P s e t j p q} (h : Inv P s) (hw : (s.ent e).cm = false) (hq : clm q = some e)
    (h1 : Pair P j p (s.pc j)) (h2 : Pair P t (s.pc j) p) (hl : ldr q = none) (hb : wbo q = none)
    (hx : xcl q = xcl p) (ht : tgt q = tgt p) (hp : pas q = none) (hn : ∀ r e k, q ≠ .wRef r e k) (hf : exF q = none)
    (hr : ∀ a e m, q ≠ .wr a e m) : Pair P j q (s.pc j) ∧ Pair P t (s.pc j) q := by
  have hc := no_clm h hw j
  refine ⟨mkPair ?_ (by simp [hl]) (by simp [hb]) ?_ ?_ (by simp [hf]) ?_,
    mkPair ?_ (by simp [hl]) (by simp [hb]) ?_ (by simp [hp]) (by simp [hp]) (by simp [hp])⟩
  · intro e' c; rw [hq] at c; cases c; exact hc
  · rw [hx]; exact h1.xcl
  · intro r e' k a c; exact absurd c (hn _ _ _)
  · intro a e' m c; exact absurd c (hr _ _ _)
  · intro e' c d; rw [hq] at d; cases d; exact hc c
  · rw [ht]; exact h2.xcl

theorem m_claim {P s t a e} (h : Inv P s) (hp : s.pc t = .rd a e) (hc : (s.ent e).cm = false) :
    Inv P { s with pc := upd s.pc t (.cl a e), ent := upd s.ent e { s.ent e with cm := true } } := by
  refine h.flag _ hp rfl (by cov) (by simp) rfl rfl rfl rfl rfl rfl (.inr (.inl rfl)) (.inl rfl)
    (by loctE) (fun j _ h1 h2 => ?_)
  exact claim_pair h hc rfl h1 h2 rfl rfl rfl rfl rfl (by simp) rfl (by simp)

theorem m_eClaim {P s t e} (h : Inv P s) (hp : s.pc t = .eClaim e) (hc : (s.ent e).cm = false) :
    Inv P { s with pc := upd s.pc t (.eLoad e), ent := upd s.ent e { s.ent e with cm := true } } := by
  refine h.flag _ hp rfl (by cov) (by simp) rfl rfl rfl rfl rfl rfl (.inr (.inl rfl)) (.inl rfl)
    (by loctE) (fun j _ h1 h2 => ?_)
  exact claim_pair h hc rfl h1 h2 rfl rfl rfl rfl rfl (by simp) rfl (by simp)

theorem m_dClaim {P s t a e} (h : Inv P s) (hp : s.pc t = .dClaim a e) (hc : (s.ent e).cm = false) :
    Inv P { s with pc := upd s.pc t (.wSet (.disc a) e), ent := upd s.ent e { s.ent e with cm := true } } := by
  refine h.flag _ hp rfl (by cov) (by simp) rfl rfl rfl rfl rfl rfl (.inr (.inl rfl)) (.inl rfl)
    (by loctE) (fun j _ h1 h2 => ?_)
  exact claim_pair h hc rfl h1 h2 rfl rfl rfl rfl rfl (by simp) rfl (by simp)

/-- An agent that has claimed `e` may become a mere reader. -/
theorem unclaim_pair {P : Par} {a e t j : Nat} {p q : PC} (hcl : clm p = some e)
    (h2 : Pair P t q p) (hp : tgt p = some a) :
    Pair P t q (.rd a e) := by
  refine mkPair (by simp [clm]) (by simp [ldr]) (by simp [wbo]) ?_ ?_ ?_ ?_
  · intro b c; have := h2.xcl b c; rw [hp] at this; exact this
  · intro r e' k a' c d; simp [pas] at d; rcases d with ⟨rfl, rfl⟩; exact absurd hcl (h2.clm e (by rw [c]; rfl))
  · intro e' a' c d; simp [pas] at d; rcases d with ⟨rfl, rfl⟩; exact absurd hcl (h2.clm e (exF_clm c))
  · intro a' e' m c d; simp [pas] at d; rcases d with ⟨rfl, rfl⟩; exact absurd hcl (h2.clm e (by rw [c]; rfl))

theorem m_unclaim {P s t a e} (h : Inv P s) (hp : s.pc t = .cl a e) :
    Inv P { s with pc := upd s.pc t (.rd a e), ent := upd s.ent e { s.ent e with cm := false } } := by
  refine h.flag _ hp rfl (by cov) (by simp) rfl rfl rfl rfl rfl rfl (.inr (.inr rfl)) (.inl rfl)
    (by loctE) (fun j _ h1 h2 => ⟨?_, unclaim_pair (j := j) (p := .cl a e) rfl h2 rfl⟩)
  refine mkPair ?_ ?_ ?_ ?_ ?_ ?_ ?_ <;> simp [clm, ldr, wbo, xcl, exF]

end Splinter.Cache
