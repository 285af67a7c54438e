import Verif.Proof.CacheStep2

/-!
Steps of the page cache that change mappings and contents: writers, eviction, discarding, aborts.
-/
namespace Splinter.Cache

theorem upd_same (f : Nat → PC) (t : Nat) : upd f t (f t) = f := by
  funext i; unfold upd; split <;> simp_all

theorem Inv.own_eq {P s i j e} (h : Inv P s) (hi : bent (s.pc i) = some e) (hj : bent (s.pc j) = some e) : i = j := by
  have h1 := (h.loc i).own e hi
  have h2 := (h.loc j).own e hj
  rw [h1] at h2; cases h2; rfl

theorem m_unlock {P s t a e m} (h : Inv P s) (hp : s.pc t = .wr a e m) (hm : m = true → (s.ent e).clean = false) :
    Inv P { s with pc := upd s.pc t (.cl a e), ent := upd s.ent e { s.ent e with wl := false } } := by
  refine h.step hp rfl (by loctE) ?_ (prj (by prs)) (fun g => gx_unlock g hm) (h.cnt.move rfl rfl (by rw [hp]; rfl))
  intro j hj l p1 p2
  exact loc_ent_upd l e _ (.inl rfl) (.inl rfl) (.inl rfl) (.inr (.inr (fun c => p1.clm e rfl (wlk_clm c)))) (.inl rfl)
    (.inl rfl) (.inl rfl) (.inl rfl)

/-- Others that know what a page contains, when `t` may write it. -/
theorem cur_loc {P s t a e p v} (h : Inv P s) (hp : s.pc t = p) (hm : mp p = some (a, e)) (hn : nl p = some e)
    (hb : nowb p = some e) {ent : Nat → Entry} {look : Nat → Option Nat} {j : Nat}
    (l : Loc P ent look s.disk s.cur s.own j (s.pc j)) :
    Loc P ent look s.disk (upd s.cur a v) s.own j (s.pc j) := by
  subst hp
  have hl := ((h.loc t).mp a e hm).2
  refine loc_cur_upd l a v ?_ ?_
  · intro e' c
    have h1 := ((h.loc j).mp a e' (clr_mp c)).2
    rw [hl] at h1; cases h1
    have := (h.loc j).ldr _ _ (clr_ldr c); have := (h.loc t).nl _ hn; simp_all
  · intro e' c
    have h1 := ((h.loc j).mp a e' (by rw [c]; rfl)).2
    rw [hl] at h1; cases h1
    have := (h.loc j).wbo e (by rw [c]; rfl); have := (h.loc t).nowb _ hb; simp_all

theorem m_write {P s t a e m v} (h : Inv P s) (hp : s.pc t = .wr a e m) :
    Inv P { s with pc := upd s.pc t (.wr a e true), ent := upd s.ent e { s.ent e with data := v }, cur := upd s.cur a v } := by
  have l := h.loc t
  rw [hp] at l
  have hm := l.mp a e rfl
  have hn := l.nl e rfl
  refine h.step hp rfl (by loctE) ?_ (prj ?_) (fun g => gx_write g hm.1 hm.2 hn) (h.cnt.move rfl rfl (by rw [hp]; rfl))
  · intro j hj l p1 p2
    refine cur_loc h hp rfl rfl rfl ?_
    refine loc_ent_upd l e _ (.inl rfl) (.inl rfl) (.inl rfl) (.inl rfl) (.inl rfl)
      (.inl rfl) (.inl rfl) (.inr fun a' c => ?_)
    have := l.ldr _ _ (clr_ldr c); simp_all
  · intro j c h1 h2
    exact ⟨⟨h1.clm, by simp [ldr], by simp [wbo], by simp [xcl], by simp, by simp [exF],
      fun a' e' m' hc => by cases hc; exact h1.x3 a e m rfl⟩,
      ⟨h2.clm, by simp [ldr], by simp [wbo], h2.xcl, by simp [pas], by simp [pas], by simp [pas]⟩⟩

theorem m_mark {P s t a e m} (h : Inv P s) (hp : s.pc t = .wr a e m) :
    Inv P { s with ent := upd s.ent e { s.ent e with clean := false } } := by
  have := h.step (q := .wr a e m) (s' := { s with ent := upd s.ent e { s.ent e with clean := false } }) hp
    (by rw [← hp]; exact (upd_same _ _).symm) (by loctE) ?_ (fun j _ h1 h2 => ⟨h1, h2⟩) (fun g => gx_mark g) h.cnt
  · exact this
  intro j hj l p1 p2
  exact loc_ent_upd l e _ (.inl rfl) (.inl rfl) (.inl rfl) (.inl rfl) (.inl rfl)
    (.inr ⟨fun c => p1.clm e rfl (alc_clm c), fun a' c => p1.clm e rfl (by rw [c]; rfl)⟩) (.inl rfl) (.inl rfl)

/-- Agents that know a mapping, when an agent with exclusive access removes it. -/
theorem unmap_loc {P s t a e p} (h : Inv P s) (hp : s.pc t = p) (hm : mp p = some (a, e)) (hx : exF p = some e)
    {j : Nat} (hj : j ≠ t) :
    Loc P s.ent (upd s.look a none) s.disk s.cur s.own j (s.pc j) := by
  have l := h.loc j
  subst hp
  have p1 := h.pair t j (Ne.symm hj)
  have hl := ((h.loc t).mp a e hm).2
  have hn := (h.loc t).nl e (exF_nl hx)
  have hb := (h.loc t).nowb e (exF_nowb hx)
  refine loc_look_upd l a none ?_ ?_ ?_ (by simp) (.inl rfl)
  · intro e' c
    have h1 := (l.mp a e' c).2
    rw [hl] at h1; cases h1
    rcases mp_cases c with x | x | x | x
    · exact p1.clm e (exF_clm hx) x
    · exact p1.x2 e a hx x
    · have := l.ldr _ _ x; simp_all
    · have := l.wbo _ x; simp_all
  · intro e' c
    have h1 := l.gs a e' c
    rw [hl] at h1; cases h1
    have := l.ldr a e (by rw [c]; rfl); simp_all
  · intro e' c d
    obtain ⟨b, h1, h2⟩ := l.wad e' c
    rw [d] at h1; cases h1
    rw [hl] at h2; cases h2
    have := l.wbo e (by rw [c]; rfl); simp_all

/-- Mappings to `e` are unique. -/
theorem Inv.look_unique {P s a b e} (h : Inv P s) (hl : s.look b = some e) (ha : (s.ent e).addr = some a) : b = a := by
  rcases h.glob.f2' e b hl with x | ⟨i, x⟩
  · rw [ha] at x; cases x; rfl
  · have := (h.loc i).an e (by rw [x]; rfl); simp_all

theorem unmap_um {P s a e} (h : Inv P s) (ha : (s.ent e).addr = some a) (b : Nat) : upd s.look a none b ≠ some e := by
  by_cases q : b = a
  · subst q; rw [upd_self]; simp
  · rw [upd_ne _ _ q]; intro c; exact q (h.look_unique c ha)

theorem no_GL {P s t e p} (h : Inv P s) (hp : s.pc t = p) (hx : exF p = some e) (a : Nat) :
    ¬ Oth s t (fun p => p = .gLoad a e) := by
  rintro ⟨j, hj, c⟩
  subst hp
  exact (h.pair t j (Ne.symm hj)).x2 e a hx (by rw [c]; rfl)

theorem no_WR {P s t e p} (h : Inv P s) (hp : s.pc t = p) (hx : clm p = some e) (a : Nat) :
    ¬ Oth s t (fun p => p = .wr a e true) := by
  rintro ⟨j, hj, c⟩
  subst hp
  exact (h.pair t j (Ne.symm hj)).clm e hx (by rw [c]; rfl)

theorem m_eLk {P s t e a} (h : Inv P s) (hp : s.pc t = .eLk e a) :
    Inv P { s with pc := upd s.pc t (.eAd e a), look := upd s.look a none } := by
  have l := h.loc t
  rw [hp] at l
  have hm := l.mp a e rfl
  have hu := unmap_um h hm.1
  refine h.step hp rfl (by loctE) (fun j hj _ _ _ => unmap_loc h hp rfl rfl hj) (prj (by prs))
    (fun g => gx_eLk g hm.1 hm.2 (l.cln e a rfl) (no_GL h hp rfl) (no_WR h hp rfl)) (h.cnt.move rfl rfl (by rw [hp]; rfl))

theorem m_dLk {P s t a e} (h : Inv P s) (hp : s.pc t = .dLk a e) :
    Inv P { s with pc := upd s.pc t (.dAd a e), look := upd s.look a none, cur := upd s.cur a (s.disk a) } := by
  have l := h.loc t
  rw [hp] at l
  have hm := l.mp a e rfl
  have hu := unmap_um h hm.1
  refine h.step hp rfl (by loctE) (fun j hj _ _ _ => cur_loc h hp rfl rfl rfl (unmap_loc h hp rfl rfl hj)) (prj (by prs))
    (fun g => gx_dLk g hm.1 hm.2 (no_GL h hp rfl)) (h.cnt.move rfl rfl (by rw [hp]; rfl))

/-- Agents that know an address, when an agent clears it. -/
theorem unaddr_loc {P s t a e p} (h : Inv P s) (hp : s.pc t = p) (hm : ad p = some (a, e)) (hu : um p = some e)
    (hx : clm p = some e ∧ nl p = some e ∨ ldr p = some (a, e))
    {j : Nat} (hj : j ≠ t) :
    Loc P (upd s.ent e { s.ent e with addr := none }) s.look s.disk s.cur s.own j (s.pc j) := by
  have l := h.loc j
  subst hp
  have p1 := h.pair t j (Ne.symm hj)
  have lt := h.loc t
  refine loc_ent_upd l e _ (.inr ⟨?_, ?_, ?_, ?_⟩) (.inl rfl) (.inl rfl) (.inl rfl) (.inl rfl) (.inl rfl) (.inl rfl) (.inl rfl)
  · intro b c; exact lt.um e hu b (l.mp b e c).2
  · intro c; have := l.an e c; have := lt.ad a e hm; simp_all
  · intro b c
    rcases hx with ⟨x1, x2⟩ | x
    · rcases ad_cases c with y | y
      · exact p1.clm e x1 y
      · have := l.ldr _ _ y; have := lt.nl e x2; simp_all
    · rcases ad_nl c with y | y
      · have := l.nl _ y; have := lt.ldr _ _ x; simp_all
      · exact p1.ldr _ _ e x y
  · intro c
    obtain ⟨b, _, h2⟩ := l.wad e c
    exact lt.um e hu b h2

theorem m_eAd {P s t e a} (h : Inv P s) (hp : s.pc t = .eAd e a) :
    Inv P { s with pc := upd s.pc t (.eFr e), ent := upd s.ent e { s.ent e with addr := none } } := by
  have l := h.loc t
  rw [hp] at l
  refine h.step hp rfl (by loctE) (fun j hj _ _ _ => unaddr_loc h hp rfl rfl (.inl ⟨rfl, rfl⟩) hj) (prj (by prs))
    (fun g => gx_unaddr g (l.um e rfl) rfl rfl (by simp [ldr]) (by simp [abt]) (by simp) (by simp) (by simp) rfl (l.ad a e rfl))
    (h.cnt.move rfl rfl (by rw [hp]; rfl))

theorem m_dAd {P s t e a} (h : Inv P s) (hp : s.pc t = .dAd a e) :
    Inv P { s with pc := upd s.pc t (.dFr a e), ent := upd s.ent e { s.ent e with addr := none } } := by
  have l := h.loc t
  rw [hp] at l
  refine h.step hp rfl (by loctE) (fun j hj _ _ _ => unaddr_loc h hp rfl rfl (.inl ⟨rfl, rfl⟩) hj) (prj (by prs))
    (fun g => gx_unaddr g (l.um e rfl) rfl rfl (by simp [ldr]) (by simp [abt]) (by simp) (by simp) (by simp) rfl (l.ad a e rfl))
    (h.cnt.move rfl rfl (by rw [hp]; rfl))

theorem m_nA2 {P s t e a} (h : Inv P s) (hp : s.pc t = .nA2 a e) :
    Inv P { s with pc := upd s.pc t (.nA3 a e), ent := upd s.ent e { s.ent e with addr := none } } := by
  have l := h.loc t
  rw [hp] at l
  refine h.step hp rfl (by loctE) (fun j hj _ _ _ => unaddr_loc h hp rfl rfl (.inr rfl) hj) (prj (by prs))
    (fun g => gx_unaddr g (l.um e rfl) rfl rfl (by simp [ldr]) (by simp [abt]) (by simp) (by simp) (by simp) rfl (l.ad a e rfl))
    (h.cnt.move rfl rfl (by rw [hp]; rfl))

theorem m_pAb1 {P s t e a} (h : Inv P s) (hp : s.pc t = .pAb1 a e) :
    Inv P { s with pc := upd s.pc t (.pAb2 a e), ent := upd s.ent e { s.ent e with addr := none } } := by
  have l := h.loc t
  rw [hp] at l
  refine h.step hp rfl (by loctE) (fun j hj _ _ _ => unaddr_loc h hp rfl rfl (.inr rfl) hj) (prj (by prs))
    (fun g => gx_unaddr g (l.um e rfl) rfl rfl (by simp [ldr]) (by simp [abt]) (by simp) (by simp) (by simp) rfl (l.ad a e rfl))
    (h.cnt.move rfl rfl (by rw [hp]; rfl))

/-- Agents that know an entry, when an agent frees it. -/
theorem free_loc {P s t e p} (h : Inv P s) (hp : s.pc t = p)
    (hx : exF p = some e ∨ (∃ a, ldr p = some (a, e)) ∧ bent p = some e)
    {j : Nat} (hj : j ≠ t) :
    Loc P (upd s.ent e (s.ent e).setFree) s.look s.disk s.cur s.own j (s.pc j) := by
  have l := h.loc j
  subst hp
  have p1 := h.pair t j (Ne.symm hj)
  have lt := h.loc t
  have hc : clm (s.pc j) ≠ some e := by
    rcases hx with x | ⟨⟨a, x⟩, y⟩
    · exact p1.clm e (exF_clm x)
    · intro c
      rcases clm_nl c with z | z
      · have := l.nl _ z; have := lt.ldr _ _ x; simp_all
      · exact hj (h.own_eq z y)
  have hw : wbo (s.pc j) ≠ some e := by
    intro c
    rcases hx with x | ⟨⟨a, x⟩, y⟩
    · have := lt.nowb _ (exF_nowb x); have := l.wbo _ c; simp_all
    · have := l.nl _ (wbo_nl c); have := lt.ldr _ _ x; simp_all
  refine loc_ent_upd l e _ (.inl rfl) ?_ (.inr (.inr hc)) (.inr (.inr fun c => hc (wlk_clm c)))
    (.inr ⟨hw, fun c => hc (nowb_clm c)⟩) (.inr ⟨fun c => hc (alc_clm c), fun a c => hc (by rw [c]; rfl)⟩)
    (.inr fun c => hc (alc_clm c)) (.inl rfl)
  rcases hx with x | ⟨⟨a, x⟩, y⟩
  · exact .inl (lt.nl e (exF_nl x)).symm
  · refine .inr ⟨fun c => ?_, fun b c => p1.ldr _ _ e x c⟩
    have := l.nl _ c; have := lt.ldr _ _ x; simp_all

theorem m_eFr {P s t e} (h : Inv P s) (hp : s.pc t = .eFr e) :
    Inv P { s with pc := upd s.pc t (.rDec e), ent := upd s.ent e (s.ent e).setFree } := by
  have l := h.loc t
  rw [hp] at l
  refine h.step hp rfl (by loctE) (fun j hj _ _ _ => free_loc h hp (.inl rfl) hj) (prj (by prs))
    (fun g => gx_free g (l.um e rfl) (l.an e rfl) rfl (by simp [an]) (by simp [ldr]) (by simp [abt]) (by simp) (by simp)
      (by simp) (no_GL h hp rfl)) (h.cnt.move rfl rfl (by rw [hp]; rfl))

theorem m_dFr {P s t a e} (h : Inv P s) (hp : s.pc t = .dFr a e) :
    Inv P { s with pc := upd s.pc t (.rDec e), ent := upd s.ent e (s.ent e).setFree } := by
  have l := h.loc t
  rw [hp] at l
  refine h.step hp rfl (by loctE) (fun j hj _ _ _ => free_loc h hp (.inl rfl) hj) (prj (by prs))
    (fun g => gx_free g (l.um e rfl) (l.an e rfl) rfl (by simp [an]) (by simp [ldr]) (by simp [abt]) (by simp) (by simp)
      (by simp) (no_GL h hp rfl)) (h.cnt.move rfl rfl (by rw [hp]; rfl))

/-- Nobody waits for an entry whose loader has not yet published it. -/
theorem no_GL' {P s t e p} (h : Inv P s) (hp : s.pc t = p) (hx : ∃ b, ldr p = some (b, e)) (hu : um p = some e)
    (ha : abt p = none) (a : Nat) : ¬ Oth s t (fun p => p = .gLoad a e) := by
  rintro ⟨j, hj, c⟩
  subst hp
  obtain ⟨b, hx⟩ := hx
  rcases h.glob.m4 j a e c with x | ⟨i, x⟩
  · exact (h.loc t).um e hu a x.2
  · have hi : i ≠ t := by rintro rfl; simp [ha] at x
    exact (h.pair t i (Ne.symm hi)).ldr _ _ e hx (abt_ldr x)

theorem m_gAb2 {P s t a e} (h : Inv P s) (hp : s.pc t = .gAb2 a e) :
    Inv P { s with pc := upd s.pc t .idle, ent := upd s.ent e (s.ent e).setFree } := by
  have l := h.loc t
  rw [hp] at l
  refine h.step hp rfl (by loctE) (fun j hj _ _ _ => free_loc h hp (.inr ⟨⟨a, rfl⟩, rfl⟩) hj) (prj (by prs))
    (fun g => gx_free g (l.um e rfl) (l.an e rfl) rfl (by simp [an]) (by simp [ldr]) (by simp [abt]) (by simp) (by simp)
      (by simp) (no_GL' h hp ⟨a, rfl⟩ rfl rfl)) (h.cnt.move rfl rfl (by rw [hp]; rfl))

theorem m_gAb3 {P s t a e} (h : Inv P s) (hp : s.pc t = .gAb3 a e) :
    Inv P { s with pc := upd s.pc t (.rDec e), ent := upd s.ent e (s.ent e).setFree } := by
  have l := h.loc t
  rw [hp] at l
  refine h.step hp rfl (by loctE) (fun j hj _ _ _ => free_loc h hp (.inr ⟨⟨a, rfl⟩, rfl⟩) hj) (prj (by prs))
    (fun g => gx_free g (l.um e rfl) (l.an e rfl) rfl (by simp [an]) (by simp [ldr]) (by simp [abt]) (by simp) (by simp)
      (by simp) (no_GL' h hp ⟨a, rfl⟩ rfl rfl)) (h.cnt.move rfl rfl (by rw [hp]; rfl))

theorem m_nA3 {P s t a e} (h : Inv P s) (hp : s.pc t = .nA3 a e) (hn : ∀ j b, s.pc j ≠ .gLoad b e) :
    Inv P { s with pc := upd s.pc t (.rDec e), ent := upd s.ent e (s.ent e).setFree } := by
  have l := h.loc t
  rw [hp] at l
  refine h.step hp rfl (by loctE) (fun j hj _ _ _ => free_loc h hp (.inr ⟨⟨a, rfl⟩, rfl⟩) hj) (prj (by prs))
    (fun g => gx_free g (l.um e rfl) (l.an e rfl) rfl (by simp [an]) (by simp [ldr]) (by simp [abt]) (by simp) (by simp)
      (by simp) (by rintro b ⟨j, _, c⟩; exact hn j b c)) (h.cnt.move rfl rfl (by rw [hp]; rfl))

theorem m_pAb2 {P s t a e} (h : Inv P s) (hp : s.pc t = .pAb2 a e) (hn : ∀ j b, s.pc j ≠ .gLoad b e) :
    Inv P { s with pc := upd s.pc t .idle, ent := upd s.ent e (s.ent e).setFree } := by
  have l := h.loc t
  rw [hp] at l
  refine h.step hp rfl (by loctE) (fun j hj _ _ _ => free_loc h hp (.inr ⟨⟨a, rfl⟩, rfl⟩) hj) (prj (by prs))
    (fun g => gx_free g (l.um e rfl) (l.an e rfl) rfl (by simp [an]) (by simp [ldr]) (by simp [abt]) (by simp) (by simp)
      (by simp) (by rintro b ⟨j, _, c⟩; exact hn j b c)) (h.cnt.move rfl rfl (by rw [hp]; rfl))

theorem m_nA1 {P s t a e} (h : Inv P s) (hp : s.pc t = .nA1 a e) :
    Inv P { s with pc := upd s.pc t (.nA2 a e), look := upd s.look a none } := by
  have l := h.loc t
  rw [hp] at l
  have hm := l.mp a e rfl
  have hd := l.ldr a e rfl
  have hu := unmap_um h hm.1
  refine h.step hp rfl (by loctE) ?_ (prj (by prs)) (fun g => gx_nA1 g hm.1 hm.2 hd) (h.cnt.move rfl rfl (by rw [hp]; rfl))
  intro j hj l p1 p2
  refine loc_look_upd l a none ?_ ?_ ?_ (by simp) (.inl rfl)
  · intro e' c
    have h1 := (l.mp a e' c).2
    rw [hm.2] at h1; cases h1
    rcases mp_nl c with x | x
    · have := l.nl _ x; simp_all
    · exact p1.ldr _ _ e rfl x
  · intro e' c
    have h1 := l.gs a e' c
    rw [hm.2] at h1; cases h1
    exact p1.ldr _ _ e rfl (by rw [c]; rfl)
  · intro e' c d
    obtain ⟨b, h1, h2⟩ := l.wad e' c
    rw [d] at h1; cases h1
    rw [hm.2] at h2; cases h2
    have := l.nl e (by rw [c]; rfl); simp_all

end Splinter.Cache
