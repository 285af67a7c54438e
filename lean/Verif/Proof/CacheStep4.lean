import Verif.Proof.CacheStep3

/-!
Steps of the page cache: free entries, loads, allocation, write-back.
-/
namespace Splinter.Cache

theorem m_take {P s t m a e} (h : Inv P s) (hp : s.pc t = .want m a) (ho : s.own (P.bat e) = some t)
    (hf : (s.ent e).isFree = true) :
    Inv P { s with pc := upd s.pc t (.aInc m a e), ent := upd s.ent e (s.ent e).setAlloc } := by
  have hf' := hf
  simp [Entry.isFree] at hf'
  have hg := h.glob.f1 e (by simp_all)
  have ht := h.lt (i := t) (by simp [hp])
  refine h.step hp rfl ?_ ?_ (fun j _ h1 h2 => ?_) (fun g => gx_take g hf) (h.cnt.move rfl rfl (by rw [hp]; rfl))
  · unfold Entry.setAlloc; cases m <;> loctE
  · intro j hj l p1 p2
    refine loc_ent_upd l e _ (.inl rfl) (.inl (by simp_all [Entry.setAlloc])) (.inr (.inl rfl)) (.inr (.inl rfl))
      (.inl (by simp_all [Entry.setAlloc])) (.inl (by simp_all [Entry.setAlloc])) (.inr fun c => ?_) (.inl rfl)
    have := l.alc e c; simp_all
  · exact claim_pair h (by simp_all) rfl h1 h2 rfl rfl (by cases m <;> rfl) rfl rfl (by simp) rfl (by simp)

theorem m_aStatN {P s t a e} (h : Inv P s) (hp : s.pc t = .aStat .new a e) :
    Inv P { s with pc := upd s.pc t (.lSet a e), ent := upd s.ent e (s.ent e).setAlloc } := by
  have l := h.loc t
  rw [hp] at l
  have h1 := l.an e rfl
  have h2 := l.nl e rfl
  have h3 := l.nowb e rfl
  have h4 := l.alc e rfl
  have h5 := l.cm e rfl
  have h6 := l.wl e rfl
  refine h.step hp rfl (by unfold Entry.setAlloc; loctE) ?_ (prj (by prs)) (fun g => gx_aStatN g h1 h2)
    (h.cnt.move rfl rfl (by rw [hp]; rfl))
  intro j hj l p1 p2
  exact loc_ent_upd l e _ (.inl rfl) (.inl (by simp_all [Entry.setAlloc])) (.inr (.inl rfl)) (.inr (.inl rfl))
      (.inl (by simp_all [Entry.setAlloc])) (.inl (by simp_all [Entry.setAlloc])) (.inl (by simp_all [Entry.setAlloc])) (.inl rfl)

/-- What the others know when an allocated entry becomes one that is loading. -/
theorem aStat_loc {P s t m a e} (h : Inv P s) (hp : s.pc t = .aStat m a e) {j : Nat} (hj : j ≠ t) :
    Loc P (upd s.ent e (s.ent e).setLoading) s.look s.disk s.cur s.own j (s.pc j) := by
  have lt := h.loc t
  have l := h.loc j
  have p1 := h.pair t j (Ne.symm hj)
  rw [hp] at lt p1
  have hc : clm (s.pc j) ≠ some e := p1.clm e rfl
  have h1 := lt.an e rfl
  have h2 := lt.nl e rfl
  have h3 := lt.nowb e rfl
  refine loc_ent_upd l e _ (.inl rfl) (.inr ⟨fun c => ?_, fun b c => ?_⟩) (.inr (.inr hc)) (.inr (.inr fun c => hc (wlk_clm c)))
    (.inl (by simp_all [Entry.setLoading])) (.inr ⟨fun c => hc (alc_clm c), fun a c => hc (by rw [c]; rfl)⟩)
    (.inr fun c => hc (alc_clm c)) (.inl rfl)
  · rcases nl_mp c with x | ⟨b, x⟩ | x
    · exact hc x
    · have := (l.mp b e x).1; simp_all
    · have := l.wbo _ x; simp_all
  · have := l.ldr _ _ c; simp_all

/-- Nobody else is loading an entry that is not loading. -/
theorem load_pair {P s t j e a p q} (h : Inv P s) (hl : (s.ent e).loading = false) (hq : ldr q = some (a, e))
    (h1 : Pair P j p (s.pc j)) (h2 : Pair P t (s.pc j) p) (hc : clm q = none) (hb : wbo q = none)
    (hx : xcl q = none) (ht : tgt q = tgt p) (hp : pas q = none) (hn : ∀ r e k, q ≠ .wRef r e k) (hf : exF q = none)
    (hr : ∀ a e m, q ≠ .wr a e m) : Pair P j q (s.pc j) ∧ Pair P t (s.pc j) q := by
  have hn' : ∀ b, ldr (s.pc j) ≠ some (b, e) := by intro b c; have := (h.loc j).ldr _ _ c; simp_all
  refine ⟨mkPair (by simp [hc]) ?_ (by simp [hb]) (by simp [hx]) (fun r e k a c => absurd c (hn r e k)) (by simp [hf])
      (fun a e m c => absurd c (hr a e m)),
    mkPair (by simp [hc]) ?_ (by simp [hb]) ?_ (by simp [hp]) (by simp [hp]) (by simp [hp])⟩
  · intro a b e' c; rw [hq] at c; cases c; exact hn' b
  · intro a b e' c d; rw [hq] at d; cases d; exact hn' _ c
  · intro b c; rw [ht]; exact h2.xcl b c

theorem m_aStatG {P s t a e} (h : Inv P s) (hp : s.pc t = .aStat .get a e) :
    Inv P { s with pc := upd s.pc t (.gCas a e), ent := upd s.ent e (s.ent e).setLoading } := by
  have l := h.loc t
  rw [hp] at l
  refine h.step hp rfl (by unfold Entry.setLoading; loctE) (fun j hj _ _ _ => aStat_loc h hp hj) (fun j _ h1 h2 => ?_)
    (fun g => gx_aStatL g (l.an e rfl) rfl rfl rfl (by simp))
    (h.cnt.move rfl rfl (by rw [hp]; rfl))
  exact load_pair h (l.nl e rfl) rfl h1 h2 rfl rfl rfl rfl rfl (by simp) rfl (by simp)

theorem m_aStatP {P s t a e} (h : Inv P s) (hp : s.pc t = .aStat .pre a e) :
    Inv P { s with pc := upd s.pc t (.pSet a e), ent := upd s.ent e (s.ent e).setLoading } := by
  have l := h.loc t
  rw [hp] at l
  refine h.step hp rfl (by unfold Entry.setLoading; loctE) (fun j hj _ _ _ => aStat_loc h hp hj) (fun j _ h1 h2 => ?_)
    (fun g => gx_aStatL g (l.an e rfl) rfl rfl rfl (by simp))
    (h.cnt.move rfl rfl (by rw [hp]; rfl))
  exact load_pair h (l.nl e rfl) rfl h1 h2 rfl rfl rfl rfl rfl (by simp) rfl (by simp)

/-- Nobody else knows an entry that is being loaded by its allocator to be claimed. -/
theorem ldr_clm {P s t j a e p} (h : Inv P s) (hp : s.pc t = p) (hl : ldr p = some (a, e)) (hb : bent p = some e) (hj : j ≠ t) :
    clm (s.pc j) ≠ some e := by
  subst hp
  intro c
  rcases clm_nl c with z | z
  · have := (h.loc j).nl _ z; have := (h.loc t).ldr _ _ hl; simp_all
  · exact hj (h.own_eq z hb)

/-- What others know when a loader publishes its entry. -/
theorem cas_loc {P s t j a e p} (h : Inv P s) (hp : s.pc t = p) (hl : ldr p = some (a, e)) (hb : bent p = some e)
    (hn : s.look a = none) (hj : j ≠ t) :
    Loc P s.ent (upd s.look a (some e)) s.disk s.cur s.own j (s.pc j) := by
  have l := h.loc j
  have hc := ldr_clm h hp hl hb hj
  subst hp
  have p1 := h.pair t j (Ne.symm hj)
  refine loc_look_upd l a (some e) ?_ ?_ ?_ ?_ (.inr fun c => ?_)
  · intro e' c; have := (l.mp a e' c).2; simp_all
  · intro e' c; have := l.gs a e' c; simp_all
  · intro e' c d
    obtain ⟨b, h1, h2⟩ := l.wad e' c
    rw [d] at h1; cases h1; simp_all
  · intro e' c d; cases c
    rcases um_cases d with x | ⟨b, x⟩
    · exact hc x
    · exact p1.ldr _ _ e hl x
  · exact (h.pair j t hj).xcl a (alo_xcl c) (ldr_tgt hl)

theorem m_gCas {P s t a e} (h : Inv P s) (hp : s.pc t = .gCas a e) (hn : s.look a = none) :
    Inv P { s with pc := upd s.pc t (.gSet a e), look := upd s.look a (some e) } := by
  have l := h.loc t
  rw [hp] at l
  refine h.step hp rfl (by loctE) (fun j hj _ _ _ => cas_loc h hp rfl rfl hn hj) (prj (by prs))
    (fun g => gx_gCas g (l.an e rfl) hn (l.ldr a e rfl)) (h.cnt.move rfl rfl (by rw [hp]; rfl))

theorem m_pCas {P s t a e} (h : Inv P s) (hp : s.pc t = .pCas a e) (hn : s.look a = none) :
    Inv P { s with pc := upd s.pc t (.pRead a e), look := upd s.look a (some e) } := by
  have l := h.loc t
  rw [hp] at l
  refine h.step hp rfl (by loctE) (fun j hj _ _ _ => cas_loc h hp rfl rfl hn hj) (prj (by prs))
    (fun g => gx_pCas g (l.ad a e rfl) hn (l.ldr a e rfl)) (h.cnt.move rfl rfl (by rw [hp]; rfl))

/-- What others know when an entry gets its address. -/
theorem addr_loc {P s t j a e p} (h : Inv P s) (hp : s.pc t = p) (ha : an p = some e)
    (hx : clm p = some e ∧ nl p = some e ∨ (∃ b, ldr p = some (b, e)) ∧ bent p = some e) (hj : j ≠ t) :
    Loc P (upd s.ent e { s.ent e with addr := some a }) s.look s.disk s.cur s.own j (s.pc j) := by
  have l := h.loc j
  have hc : clm (s.pc j) ≠ some e := by
    rcases hx with ⟨x, _⟩ | ⟨⟨b, x⟩, y⟩
    · subst hp; exact (h.pair t j (Ne.symm hj)).clm e x
    · exact ldr_clm h hp x y hj
  subst hp
  have hn := (h.loc t).an e ha
  refine loc_ent_upd l e _ (.inr ⟨?_, ?_, ?_, ?_⟩) (.inl rfl) (.inl rfl) (.inl rfl) (.inl rfl) (.inl rfl) (.inl rfl) (.inl rfl)
  · intro b c; have := (l.mp b e c).1; simp_all
  · intro c
    rcases an_cases c with y | ⟨b, y⟩
    · exact hc y
    · rcases hx with ⟨_, x⟩ | ⟨⟨b', x⟩, _⟩
      · have := l.ldr _ _ y; have := (h.loc t).nl e x; simp_all
      · exact (h.pair t j (Ne.symm hj)).ldr _ _ e x y
  · intro b c; have := l.ad b e c; simp_all
  · intro c; obtain ⟨b, h1, _⟩ := l.wad e c; simp_all

theorem m_gSet {P s t a e} (h : Inv P s) (hp : s.pc t = .gSet a e) :
    Inv P { s with pc := upd s.pc t (.gReq a e), ent := upd s.ent e { s.ent e with addr := some a } } := by
  have l := h.loc t
  rw [hp] at l
  refine h.step hp rfl (by loctE) (fun j hj _ _ _ => addr_loc h hp rfl (.inr ⟨⟨a, rfl⟩, rfl⟩) hj) (prj (by prs))
    (fun g => gx_gSet g (l.an e rfl) (l.gs a e rfl) (l.ldr a e rfl) ?_) (h.cnt.move rfl rfl (by rw [hp]; rfl))
  rintro b ⟨j, hj, c⟩
  have := h.pair t j (Ne.symm hj)
  rw [hp] at this
  exact this.ldr a b e rfl (by rw [c]; rfl)

theorem m_pSet {P s t a e} (h : Inv P s) (hp : s.pc t = .pSet a e) :
    Inv P { s with pc := upd s.pc t (.pCas a e), ent := upd s.ent e { s.ent e with addr := some a } } := by
  have l := h.loc t
  rw [hp] at l
  have hl := l.ldr a e rfl
  have hf : (s.ent e).free = false := by
    cases c : (s.ent e).free with
    | false => rfl
    | true => have := (h.glob.f1 e c).1; simp_all
  refine h.step hp rfl (by loctE) (fun j hj _ _ _ => addr_loc h hp rfl (.inr ⟨⟨a, rfl⟩, rfl⟩) hj) (prj (by prs))
    (fun g => gx_addr g (l.an e rfl) (l.um e rfl) hf rfl rfl (by simp [ldr]) rfl (by simp) (by simp) (by simp) rfl)
    (h.cnt.move rfl rfl (by rw [hp]; rfl))

theorem m_lSet {P s t a e} (h : Inv P s) (hp : s.pc t = .lSet a e) :
    Inv P { s with pc := upd s.pc t (.lLk a e), ent := upd s.ent e { s.ent e with addr := some a } } := by
  have l := h.loc t
  rw [hp] at l
  refine h.step hp rfl (by loctE) (fun j hj _ _ _ => addr_loc h hp rfl (.inl ⟨rfl, rfl⟩) hj) (prj (by prs))
    (fun g => gx_addr g (l.an e rfl) (l.um e rfl) (l.alc e rfl).2 rfl rfl (by simp [ldr]) rfl (by simp) (by simp) (by simp) rfl)
    (h.cnt.move rfl rfl (by rw [hp]; rfl))

theorem disk_cur {P s a e} (h : Inv P s) (hl : s.look a = some e) (hd : (s.ent e).loading = true) : s.disk a = s.cur a := by
  rcases h.glob.d2 a with x | ⟨e', h1, _, h3, _⟩
  · exact x
  · rw [hl] at h1; cases h1; simp_all

theorem read_loc {P s t j a e p v} (h : Inv P s) (hp : s.pc t = p) (hl : ldr p = some (a, e)) (hj : j ≠ t) :
    Loc P (upd s.ent e { s.ent e with data := v }) s.look s.disk s.cur s.own j (s.pc j) := by
  subst hp
  exact loc_ent_upd (h.loc j) e _ (.inl rfl) (.inl rfl) (.inl rfl) (.inl rfl) (.inl rfl) (.inl rfl) (.inl rfl)
    (.inr fun b c => (h.pair t j (Ne.symm hj)).ldr _ _ e hl (clr_ldr c))

theorem m_gRead {P s t a e} (h : Inv P s) (hp : s.pc t = .gRead a e) :
    Inv P { s with pc := upd s.pc t (.gClr a e), ent := upd s.ent e { s.ent e with data := s.disk a } } := by
  have l := h.loc t
  rw [hp] at l
  have hd := disk_cur h (l.mp a e rfl).2 (l.ldr a e rfl)
  refine h.step hp rfl (by loctE) (fun j hj _ _ _ => read_loc h hp rfl hj) (prj (by prs))
    (fun g => gx_read g (by cov) (by simp) (l.ldr a e rfl)) (h.cnt.move rfl rfl (by rw [hp]; rfl))

theorem m_pRead {P s t a e} (h : Inv P s) (hp : s.pc t = .pRead a e) :
    Inv P { s with pc := upd s.pc t (.pClr a e), ent := upd s.ent e { s.ent e with data := s.disk a } } := by
  have l := h.loc t
  rw [hp] at l
  have hd := disk_cur h (l.mp a e rfl).2 (l.ldr a e rfl)
  refine h.step hp rfl (by loctE) (fun j hj _ _ _ => read_loc h hp rfl hj) (prj (by prs))
    (fun g => gx_read g (by cov) (by simp) (l.ldr a e rfl)) (h.cnt.move rfl rfl (by rw [hp]; rfl))

theorem clr_loc {P s t j a e p} (h : Inv P s) (hp : s.pc t = p) (hl : ldr p = some (a, e)) (hj : j ≠ t) :
    Loc P (upd s.ent e { s.ent e with loading := false }) s.look s.disk s.cur s.own j (s.pc j) := by
  subst hp
  refine loc_ent_upd (h.loc j) e _ (.inl rfl) (.inr ⟨fun c => ?_, fun b c => ?_⟩) (.inl rfl) (.inl rfl) (.inl rfl) (.inl rfl) (.inl rfl)
    (.inl rfl)
  · have := (h.loc j).nl _ c; have := (h.loc t).ldr _ _ hl; simp_all
  · exact (h.pair t j (Ne.symm hj)).ldr _ _ e hl c

theorem m_pClr {P s t a e} (h : Inv P s) (hp : s.pc t = .pClr a e) :
    Inv P { s with pc := upd s.pc t .idle, ent := upd s.ent e { s.ent e with loading := false } } := by
  have l := h.loc t
  rw [hp] at l
  refine h.step hp rfl (by loctE) (fun j hj _ _ _ => clr_loc h hp rfl hj) (prj (by prs))
    (fun g => gx_clr g (by simp) (l.mp a e rfl).1 (l.mp a e rfl).2 (l.clr a e rfl) (l.ldr a e rfl) rfl rfl rfl rfl (by simp) (by simp))
    (h.cnt.move rfl rfl (by rw [hp]; rfl))

theorem m_gClr {P s t a e} (h : Inv P s) (hp : s.pc t = .gClr a e) :
    Inv P { s with pc := upd s.pc t (.rd a e), ent := upd s.ent e { s.ent e with loading := false } } := by
  have l := h.loc t
  rw [hp] at l
  refine h.step hp rfl (by loctE) (fun j hj _ _ _ => clr_loc h hp rfl hj) (fun j hj h1 h2 => ?_)
    (fun g => gx_clr g (by simp) (l.mp a e rfl).1 (l.mp a e rfl).2 (l.clr a e rfl) (l.ldr a e rfl) rfl rfl rfl rfl (by simp) (by simp))
    (h.cnt.move rfl rfl (by rw [hp]; rfl))
  have hn : nl (s.pc j) ≠ some e := by intro c; have := (h.loc j).nl e c; have := l.ldr a e rfl; simp_all
  pr0
  · intro b c; have := h2.xcl b c; simpa [tgt] using this
  · intro r e' k a' c d; simp [pas] at d; rcases d with ⟨rfl, rfl⟩; rw [c] at hn; simp [nl] at hn
  · intro e' a' c d; simp [pas] at d; rcases d with ⟨rfl, rfl⟩; exact hn (exF_nl c)
  · intro a' e' m c d; simp [pas] at d; rcases d with ⟨rfl, rfl⟩; rw [c] at hn; simp [nl] at hn

theorem m_lLk {P s t a e} (h : Inv P s) (hp : s.pc t = .lLk a e) :
    Inv P { s with pc := upd s.pc t (.wr a e false), look := upd s.look a (some e), cur := upd s.cur a (s.ent e).data } := by
  have l := h.loc t
  rw [hp] at l
  have hn := l.alo a rfl
  refine h.step hp rfl (by loctE) (fun j hj l' p1 p2 => ?_) (fun j hj h1 h2 => ?_)
    (fun g => gx_lLk g (l.ad a e rfl) hn (l.nl e rfl) (l.alc e rfl).1 (l.alc e rfl).2) (h.cnt.move rfl rfl (by rw [hp]; rfl))
  · refine loc_cur_upd (loc_look_upd l' a (some e) ?_ ?_ ?_ ?_ (.inr fun c => ?_)) a _ ?_ ?_
    · intro e' c; have := (l'.mp a e' c).2; simp_all
    · intro e' c; have := l'.gs a e' c; simp_all
    · intro e' c d
      obtain ⟨b, h1, h2⟩ := l'.wad e' c
      rw [d] at h1; cases h1; simp_all
    · intro e' c d; cases c
      rcases um_cases d with x | ⟨b, x⟩
      · exact p1.clm e rfl x
      · have := l'.ldr _ _ x; have := l.nl e rfl; simp_all
    · exact p2.xcl a (alo_xcl c) rfl
    · intro e' c; have := (l'.mp a e' (clr_mp c)).2; simp_all
    · intro e' c; have := (l'.mp a e' (by rw [c]; rfl)).2; simp_all
  · refine ⟨mkPair h1.clm (by simp [ldr]) (by simp [wbo]) (by simp [xcl]) (by simp) (by simp [exF]) ?_,
      mkPair h2.clm (by simp [ldr]) (by simp [wbo]) h2.xcl (by simp [pas]) (by simp [pas]) (by simp [pas])⟩
    intro a' e' m c d; cases c; exact h1.xcl a rfl (pas_tgt d)

/-- An entry that looks dirty is mapped, and nobody has exclusive access to it. -/
theorem dirty_map {P s e} (h : Inv P s) (hd : (s.ent e).isDirty = true) : ∃ a, (s.ent e).addr = some a ∧ s.look a = some e := by
  simp [Entry.isDirty] at hd
  rcases h.glob.f3 e (by simp_all) with ⟨a, x⟩ | ⟨i, x⟩
  · refine ⟨a, x, ?_⟩
    rcases h.glob.f2 e a x with y | ⟨i, y⟩
    · exact y
    · rcases ad_cases y with z | z
      · have := (h.loc i).cm e z; simp_all
      · have := (h.loc i).ldr a e z; simp_all
  · rcases an_cases x with z | ⟨b, z⟩
    · have := (h.loc i).cm e z; simp_all
    · have := (h.loc i).ldr b e z; simp_all

theorem m_setWb {P s t e p q} (h : Inv P s) (hp : s.pc t = p) (ht : t < P.n) (hd : (s.ent e).isDirty = true)
    (hP : p = .idle ∨ ∃ a b, p = .nCas a e b)
    (hq : q = .wbAd e ∨ ∃ a, (s.ent e).addr = some a ∧ s.look a = some e ∧ (q = .wbIov a e ∨ q = .wbIo a e)) :
    Inv P { s with pc := upd s.pc t q, ent := upd s.ent e { s.ent e with wb := true } } := by
  obtain ⟨a, ha, hl⟩ := dirty_map h hd
  simp [Entry.isDirty] at hd
  have hq' : q = .wbAd e ∨ q = .wbIov a e ∨ q = .wbIo a e := by
    rcases hq with x | ⟨b, x, _, y⟩
    · exact .inl x
    · rw [ha] at x; cases x; exact .inr y
  have hw : wbo q = some e := by rcases hq' with rfl | rfl | rfl <;> rfl
  refine h.step hp rfl ?_ (fun j hj l p1 p2 => ?_) (fun j hj h1 h2 => ?_) (fun g => gx_same g ?_ ?_ ?_ ?_ ?_ ?_ ?_)
    (h.cnt.move rfl rfl (by rw [hp]; rcases hP with rfl | ⟨_, _, rfl⟩ <;> rcases hq' with rfl | rfl | rfl <;> rfl))
  · have hn : (s.ent e).loading = false := by simp_all
    clear hd hw hq
    rcases hP with rfl | ⟨_, _, rfl⟩ <;> rcases hq' with rfl | rfl | rfl <;> loctE
  · refine loc_ent_upd l e _ (.inl rfl) (.inl rfl) (.inl rfl) (.inl rfl) (.inr ⟨fun c => ?_, fun c => ?_⟩) (.inl rfl) (.inl rfl) (.inl rfl)
    · have := l.wbo e c; simp_all
    · have := l.cm e (nowb_clm c); simp_all
  · have hb : wbo (s.pc j) ≠ some e := by intro c; have := (h.loc j).wbo e c; simp_all
    have e1 : clm q = none := by rcases hq' with rfl | rfl | rfl <;> rfl
    have e2 : ldr q = none := by rcases hq' with rfl | rfl | rfl <;> rfl
    have e3 : xcl q = none := by rcases hq' with rfl | rfl | rfl <;> rfl
    have e4 : tgt q = none := by rcases hq' with rfl | rfl | rfl <;> rfl
    have e5 : pas q = none := by rcases hq' with rfl | rfl | rfl <;> rfl
    have e6 : exF q = none := by rcases hq' with rfl | rfl | rfl <;> rfl
    have e7 : ∀ r e k, q ≠ .wRef r e k := by rcases hq' with rfl | rfl | rfl <;> simp
    have e8 : ∀ a e k, q ≠ .wr a e k := by rcases hq' with rfl | rfl | rfl <;> simp
    refine ⟨mkPair (by simp [e1]) (by simp [e2]) ?_ (by simp [e3]) (fun r e k a c => absurd c (e7 r e k)) (by simp [e6])
      (fun r e k c => absurd c (e8 r e k)), mkPair (by simp [e1]) (by simp [e2]) ?_ (by simp [e4]) (by simp [e5]) (by simp [e5]) (by simp [e5])⟩
    · intro e' c; rw [hw] at c; cases c; exact hb
    · intro e' c d; rw [hw] at d; cases d; exact hb c
  · rcases hP with rfl | ⟨_, _, rfl⟩ <;> rcases hq' with rfl | rfl | rfl <;> cov
  · rcases hq' with rfl | rfl | rfl <;> simp
  all_goals intro e'; by_cases c : e' = e <;> simp [upd, c]

theorem m_wbIo {P s t a e} (h : Inv P s) (hp : s.pc t = .wbIo a e) :
    Inv P { s with pc := upd s.pc t (.wbCln a e), disk := upd s.disk a (s.ent e).data } := by
  have l := h.loc t
  rw [hp] at l
  have hm := l.mp a e rfl
  have hd := h.glob.d1 e a hm.1 hm.2 (l.nl e rfl)
  refine h.step hp rfl (by loctE) (fun j hj l' _ _ => loc_disk_upd l' a _ hd) (prj (by prs))
    (fun g => gx_wbIo g hd) (h.cnt.move rfl rfl (by rw [hp]; rfl))

theorem m_wbCln {P s t a e} (h : Inv P s) (hp : s.pc t = .wbCln a e) :
    Inv P { s with pc := upd s.pc t (.wbClr a e), ent := upd s.ent e { s.ent e with clean := true } } := by
  have l := h.loc t
  rw [hp] at l
  have hm := l.mp a e rfl
  refine h.step hp rfl (by loctE) (fun j hj l' _ _ => ?_) (prj (by prs))
    (fun g => gx_wbCln g hm.1 (l.wbc a e rfl)) (h.cnt.move rfl rfl (by rw [hp]; rfl))
  refine loc_ent_upd l' e _ (.inl rfl) (.inl rfl) (.inl rfl) (.inl rfl) (.inl rfl) (.inr ⟨fun c => ?_, fun b c => ?_⟩) (.inl rfl) (.inl rfl)
  · exact l'.um e (alc_um c) a hm.2
  · have := l'.nowb e (by rw [c]; rfl); have := l.wbo e rfl; simp_all

theorem m_wbClr {P s t a e} (h : Inv P s) (hp : s.pc t = .wbClr a e) :
    Inv P { s with pc := upd s.pc t .idle, ent := upd s.ent e { s.ent e with wb := false } } := by
  have l := h.loc t
  rw [hp] at l
  refine h.step hp rfl (by loctE) (fun j hj l' p1 p2 => ?_) (prj (by prs))
    (fun g => gx_same g (by cov) (by simp) ?_ ?_ ?_ ?_ ?_) (h.cnt.move rfl rfl (by rw [hp]; rfl))
  · refine loc_ent_upd l' e _ (.inl rfl) (.inl rfl) (.inl rfl) (.inl rfl) (.inr ⟨fun c => ?_, fun c => ?_⟩) (.inl rfl) (.inl rfl) (.inl rfl)
    · exact p1.wbo e rfl c
    · have := l'.nowb e c; have := l.wbo e rfl; simp_all
  all_goals intro e'; by_cases c : e' = e <;> simp [upd, c]

end Splinter.Cache
