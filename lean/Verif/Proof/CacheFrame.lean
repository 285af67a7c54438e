import Verif.Proof.CacheMove2

/-!
What agents keep to know when the state changes.
-/
namespace Splinter.Cache

theorem loc_ent_upd {P : Par} {ent : Nat → Entry} {look : Nat → Option Nat} {disk cur : Nat → Nat} {own : Nat → Option Nat} {j : Nat} {p : PC} (l : Loc P ent look disk cur own j p) (e : Nat) (x : Entry)
    (hA : x.addr = (ent e).addr ∨ (∀ a, mp p ≠ some (a, e)) ∧ an p ≠ some e ∧ (∀ a, ad p ≠ some (a, e)) ∧ p ≠ .wbAd e)
    (hL : x.loading = (ent e).loading ∨ nl p ≠ some e ∧ ∀ a, ldr p ≠ some (a, e))
    (hC : x.cm = (ent e).cm ∨ x.cm = true ∨ clm p ≠ some e)
    (hW : x.wl = (ent e).wl ∨ x.wl = true ∨ wlk p ≠ some e)
    (hB : x.wb = (ent e).wb ∨ wbo p ≠ some e ∧ nowb p ≠ some e)
    (hN : x.clean = (ent e).clean ∨ alc p ≠ some e ∧ ∀ a, p ≠ .eLk e a)
    (hF : x.free = (ent e).free ∨ alc p ≠ some e)
    (hD : x.data = (ent e).data ∨ ∀ a, clr p ≠ some (a, e)) :
    Loc P (upd ent e x) look disk cur own j p := by
  constructor
  · intro a e' h; have := l.mp a e' h
    by_cases q : e' = e
    · subst q; rw [upd_self]; rcases hA with z | z
      · rw [z]; exact this
      · exact absurd h (z.1 a)
    · rw [upd_ne _ _ q]; exact this
  · intro e' h; have := l.nl e' h
    by_cases q : e' = e
    · subst q; rw [upd_self]; rcases hL with z | z
      · rw [z]; exact this
      · exact absurd h z.1
    · rw [upd_ne _ _ q]; exact this
  · exact l.um
  · intro e' h; have := l.an e' h
    by_cases q : e' = e
    · subst q; rw [upd_self]; rcases hA with z | z
      · rw [z]; exact this
      · exact absurd h z.2.1
    · rw [upd_ne _ _ q]; exact this
  · intro a e' h; have := l.ad a e' h
    by_cases q : e' = e
    · subst q; rw [upd_self]; rcases hA with z | z
      · rw [z]; exact this
      · exact absurd h (z.2.2.1 a)
    · rw [upd_ne _ _ q]; exact this
  · exact l.gs
  · intro e' h; have := l.wad e' h
    by_cases q : e' = e
    · subst q; rw [upd_self]; rcases hA with z | z
      · rw [z]; exact this
      · exact absurd h z.2.2.2
    · rw [upd_ne _ _ q]; exact this
  · intro e' h; have := l.cm e' h
    by_cases q : e' = e
    · subst q; rw [upd_self]; rcases hC with z | z | z
      · rw [z]; exact this
      · exact z
      · exact absurd h z
    · rw [upd_ne _ _ q]; exact this
  · intro e' h; have := l.wl e' h
    by_cases q : e' = e
    · subst q; rw [upd_self]; rcases hW with z | z | z
      · rw [z]; exact this
      · exact z
      · exact absurd h z
    · rw [upd_ne _ _ q]; exact this
  · intro a e' h; have := l.ldr a e' h
    by_cases q : e' = e
    · subst q; rw [upd_self]; rcases hL with z | z
      · rw [z]; exact this
      · exact absurd h (z.2 a)
    · rw [upd_ne _ _ q]; exact this
  · intro e' h; have := l.wbo e' h
    by_cases q : e' = e
    · subst q; rw [upd_self]; rcases hB with z | z
      · rw [z]; exact this
      · exact absurd h z.1
    · rw [upd_ne _ _ q]; exact this
  · intro e' h; have := l.nowb e' h
    by_cases q : e' = e
    · subst q; rw [upd_self]; rcases hB with z | z
      · rw [z]; exact this
      · exact absurd h z.2
    · rw [upd_ne _ _ q]; exact this
  · intro e' h; have := l.alc e' h
    by_cases q : e' = e
    · subst q; rw [upd_self]; constructor
      · rcases hN with z | z
        · rw [z]; exact this.1
        · exact absurd h z.1
      · rcases hF with z | z
        · rw [z]; exact this.2
        · exact absurd h z
    · rw [upd_ne _ _ q]; exact this
  · intro e' a h; have := l.cln e' a h
    by_cases q : e' = e
    · subst q; rw [upd_self]; rcases hN with z | z
      · rw [z]; exact this
      · exact absurd h (z.2 a)
    · rw [upd_ne _ _ q]; exact this
  · intro a e' h; have := l.clr a e' h
    by_cases q : e' = e
    · subst q; rw [upd_self]; rcases hD with z | z
      · rw [z]; exact this
      · exact absurd h (z a)
    · rw [upd_ne _ _ q]; exact this
  · exact l.wbc
  · exact l.alo
  · exact l.own
  · exact l.lt
  · exact l.nc

theorem loc_look_upd {P : Par} {ent : Nat → Entry} {look : Nat → Option Nat} {disk cur : Nat → Nat} {own : Nat → Option Nat} {j : Nat} {p : PC} (l : Loc P ent look disk cur own j p) (a : Nat) (v : Option Nat)
    (h1 : ∀ e, mp p ≠ some (a, e)) (h2 : ∀ e, p ≠ .gSet a e) (h3 : ∀ e, p = .wbAd e → (ent e).addr ≠ some a)
    (h4 : ∀ e, v = some e → um p ≠ some e) (h5 : v = none ∨ alo p ≠ some a) :
    Loc P ent (upd look a v) disk cur own j p := by
  refine { l with mp := ?_, um := ?_, gs := ?_, wad := ?_, alo := ?_ }
  · intro b e h
    by_cases q : b = a
    · subst q; exact absurd h (h1 e)
    · rw [upd_ne _ _ q]; exact l.mp b e h
  · intro e h b
    by_cases q : b = a
    · subst q; rw [upd_self]; intro c; exact h4 e c h
    · rw [upd_ne _ _ q]; exact l.um e h b
  · intro b e h
    by_cases q : b = a
    · subst q; exact absurd h (h2 e)
    · rw [upd_ne _ _ q]; exact l.gs b e h
  · intro e h
    obtain ⟨b, hb1, hb2⟩ := l.wad e h
    refine ⟨b, hb1, ?_⟩
    have q : b ≠ a := by rintro rfl; exact h3 e h hb1
    rw [upd_ne _ _ q]; exact hb2
  · intro b h
    by_cases q : b = a
    · subst q; rw [upd_self]; rcases h5 with z | z
      · exact z
      · exact absurd h z
    · rw [upd_ne _ _ q]; exact l.alo b h

theorem loc_cur_upd {P : Par} {ent : Nat → Entry} {look : Nat → Option Nat} {disk cur : Nat → Nat} {own : Nat → Option Nat} {j : Nat} {p : PC} (l : Loc P ent look disk cur own j p) (a v : Nat)
    (h1 : ∀ e, clr p ≠ some (a, e)) (h2 : ∀ e, p ≠ .wbCln a e) : Loc P ent look disk (upd cur a v) own j p := by
  refine { l with clr := ?_, wbc := ?_ }
  · intro b e h
    have q : b ≠ a := by rintro rfl; exact h1 e h
    rw [upd_ne _ _ q]; exact l.clr b e h
  · intro b e h
    have q : b ≠ a := by rintro rfl; exact h2 e h
    rw [upd_ne _ _ q]; exact l.wbc b e h

theorem loc_disk_upd {P : Par} {ent : Nat → Entry} {look : Nat → Option Nat} {disk cur : Nat → Nat} {own : Nat → Option Nat} {j : Nat} {p : PC} (l : Loc P ent look disk cur own j p) (a v : Nat)
    (h2 : v = cur a) : Loc P ent look (upd disk a v) cur own j p := by
  refine { l with wbc := ?_ }
  intro b e h
  by_cases q : b = a
  · subst q; rw [upd_self]; exact h2
  · rw [upd_ne _ _ q]; exact l.wbc b e h

/-- Some agent other than `t` is at a position with property `C`. -/
def Oth (s : State) (t : Nat) (C : PC → Prop) : Prop := ∃ i, i ≠ t ∧ C (s.pc i)

theorem ex_iff {s : State} {t : Nat} {C : PC → Prop} : (∃ i, C (s.pc i)) ↔ C (s.pc t) ∨ Oth s t C := by
  constructor
  · rintro ⟨i, h⟩
    by_cases e : i = t
    · subst e; exact .inl h
    · exact .inr ⟨i, e, h⟩
  · rintro (h | ⟨i, _, h⟩)
    · exact ⟨t, h⟩
    · exact ⟨i, h⟩

/-- `Glob`, with agent `t` at `p` apart from the others. -/
structure GlobX (ent : Nat → Entry) (look : Nat → Option Nat) (disk cur : Nat → Nat) (p : PC)
    (AD GS AB GL WR : Nat → Nat → Prop) (AN LD : Nat → Prop) : Prop where
  f1 : ∀ e, (ent e).free = true → (ent e).loading = false ∧ (ent e).addr = none ∧ ∀ a, look a ≠ some e
  f2 : ∀ e a, (ent e).addr = some a → look a = some e ∨ ad p = some (a, e) ∨ AD a e
  f2' : ∀ e a, look a = some e → (ent e).addr = some a ∨ p = .gSet a e ∨ GS a e
  f3 : ∀ e, (ent e).free = false → (ent e).addr ≠ none ∨ an p = some e ∨ AN e
  l3 : ∀ e, (ent e).loading = true → (∃ a, ldr p = some (a, e)) ∨ LD e
  m4 : ∀ a e, p = .gLoad a e ∨ GL a e →
    ((ent e).addr = some a ∧ look a = some e) ∨ abt p = some (a, e) ∨ AB a e
  d1 : ∀ e a, (ent e).addr = some a → look a = some e → (ent e).loading = false → (ent e).data = cur a
  d2 : ∀ a, disk a = cur a ∨ ∃ e, look a = some e ∧ (ent e).addr = some a ∧ (ent e).loading = false ∧
    ((ent e).clean = false ∨ p = .wr a e true ∨ WR a e)

def GX (s : State) (t : Nat) (ent : Nat → Entry) (look : Nat → Option Nat) (disk cur : Nat → Nat) (p : PC) : Prop :=
  GlobX ent look disk cur p (fun a e => Oth s t (fun p => ad p = some (a, e))) (fun a e => Oth s t (fun p => p = .gSet a e))
    (fun a e => Oth s t (fun p => abt p = some (a, e))) (fun a e => Oth s t (fun p => p = .gLoad a e))
    (fun a e => Oth s t (fun p => p = .wr a e true)) (fun e => Oth s t (fun p => an p = some e))
    (fun e => Oth s t (fun p => ∃ a, ldr p = some (a, e)))

theorem Glob.iff {s : State} (t : Nat) : Glob s ↔ GX s t s.ent s.look s.disk s.cur (s.pc t) := by
  constructor
  · intro h
    constructor
    · exact h.f1
    · intro e a x; have := h.f2 e a x; rwa [ex_iff (t := t) (C := fun p => ad p = some (a, e))] at this
    · intro e a x; have := h.f2' e a x; rwa [ex_iff (t := t) (C := fun p => p = .gSet a e)] at this
    · intro e x
      have := h.f3 e x
      rw [ex_iff (t := t) (C := fun p => an p = some e)] at this
      rcases this with ⟨a, y⟩ | y
      · left; simp [y]
      · exact .inr y
    · intro e x
      have : ∃ i, ∃ a, ldr (s.pc i) = some (a, e) := h.l3 e x
      rwa [ex_iff (t := t) (C := fun p => ∃ a, ldr p = some (a, e))] at this
    · intro a e x
      rw [← ex_iff (s := s) (t := t) (C := fun p => abt p = some (a, e))]
      rw [← ex_iff (s := s) (t := t) (C := fun p => p = .gLoad a e)] at x
      obtain ⟨j, x⟩ := x
      exact h.m4 j a e x
    · exact h.d1
    · intro a
      rcases h.d2 a with x | ⟨e, x1, x2, x3, x4⟩
      · exact .inl x
      · rw [ex_iff (t := t) (C := fun p => p = .wr a e true)] at x4
        exact .inr ⟨e, x1, x2, x3, x4⟩
  · intro h
    constructor
    · exact h.f1
    · intro e a x; rw [ex_iff (t := t) (C := fun p => ad p = some (a, e))]; exact h.f2 e a x
    · intro e a x; rw [ex_iff (t := t) (C := fun p => p = .gSet a e)]; exact h.f2' e a x
    · intro e x
      rw [ex_iff (t := t) (C := fun p => an p = some e)]
      rcases h.f3 e x with y | y
      · exact .inl (Option.ne_none_iff_exists'.1 y)
      · exact .inr y
    · intro e x
      have := h.l3 e x
      rwa [← ex_iff (s := s) (t := t) (C := fun p => ∃ a, ldr p = some (a, e))] at this
    · intro j a e x
      have := h.m4 a e (by rw [← ex_iff (s := s) (t := t) (C := fun p => p = .gLoad a e)]; exact ⟨j, x⟩)
      rwa [← ex_iff (s := s) (t := t) (C := fun p => abt p = some (a, e))] at this
    · exact h.d1
    · intro a
      rcases h.d2 a with x | ⟨e, x1, x2, x3, x4⟩
      · exact .inl x
      · rw [← ex_iff (s := s) (t := t) (C := fun p => p = .wr a e true)] at x4
        exact .inr ⟨e, x1, x2, x3, x4⟩

theorem oth_upd {s s' : State} {t : Nat} {q : PC} (hpc : s'.pc = upd s.pc t q) (C : PC → Prop) :
    Oth s' t C = Oth s t C := by
  unfold Oth
  rw [hpc]
  apply propext
  constructor
  · rintro ⟨i, h, x⟩; rw [upd_ne _ _ h] at x; exact ⟨i, h, x⟩
  · rintro ⟨i, h, x⟩; exact ⟨i, h, by rw [upd_ne _ _ h]; exact x⟩

theorem Glob.next {s s' : State} {t : Nat} {q : PC} (hpc : s'.pc = upd s.pc t q)
    (h : GX s t s'.ent s'.look s'.disk s'.cur q) : Glob s' := by
  rw [Glob.iff t]
  unfold GX
  rw [hpc, upd_self]
  simp only [oth_upd hpc]
  exact h

/-- The way all remaining steps are proved. -/
theorem Inv.step {P : Par} {s s' : State} {t : Nat} {p q : PC} (h : Inv P s) (hp : s.pc t = p)
    (hpc : s'.pc = upd s.pc t q)
    (loct : Loc P s.ent s.look s.disk s.cur s.own t p → Loc P s'.ent s'.look s'.disk s'.cur s'.own t q)
    (loco : ∀ j, j ≠ t → Loc P s.ent s.look s.disk s.cur s.own j (s.pc j) → Pair P j p (s.pc j) →
      Pair P t (s.pc j) p → Loc P s'.ent s'.look s'.disk s'.cur s'.own j (s.pc j))
    (pr : ∀ j, j ≠ t → Pair P j p (s.pc j) → Pair P t (s.pc j) p → Pair P j q (s.pc j) ∧ Pair P t (s.pc j) q)
    (g : GX s t s.ent s.look s.disk s.cur p → GX s t s'.ent s'.look s'.disk s'.cur q)
    (c : Cnt P s') : Inv P s' := by
  subst hp
  exact h.next hpc (loct (h.loc t)) (fun j hj => loco j hj (h.loc j) (h.pair t j (Ne.symm hj)) (h.pair j t hj))
    (fun j hj => pr j hj (h.pair t j (Ne.symm hj)) (h.pair j t hj))
    (Glob.next hpc (g ((Glob.iff t).1 h.glob))) c

theorem cnt_inc {P : Par} {s s' : State} {t e : Nat} {q : PC} (h : Cnt P s) (hpc : s'.pc = upd s.pc t q) (ht : t < P.n)
    (hc : s'.cnt = Cache.upd s.cnt e (Cache.upd (s.cnt e) (P.slot t) (s.cnt e (P.slot t) + 1)))
    (h1 : ref (s.pc t) = none) (h2 : ref q = some e) : Cnt P s' := by
  intro e' k
  have hu := countP_upd (f := fun i => decide (P.slot i = k) && decide (ref (s.pc i) = some e'))
    (g := fun i => decide (P.slot i = k) && decide (ref (s'.pc i) = some e')) ht
    (fun i hi => by rw [hpc]; simp only [upd_ne _ _ hi])
  rw [hpc] at hu ⊢
  simp only [upd_self, h1, h2] at hu
  have h0 := h e' k
  rw [hc]
  by_cases e1 : e' = e
  · subst e1
    rw [upd_self]
    by_cases e2 : k = P.slot t
    · subst e2; rw [upd_self]; simp at hu; omega
    · rw [upd_ne _ _ e2]
      have : ¬ P.slot t = k := fun c => e2 c.symm
      simp [this] at hu; omega
  · rw [upd_ne _ _ e1]
    have : ¬ e = e' := fun c => e1 c.symm
    simp [this] at hu; omega

theorem cnt_dec {P : Par} {s s' : State} {t e : Nat} {q : PC} (h : Cnt P s) (hpc : s'.pc = upd s.pc t q) (ht : t < P.n)
    (hc : s'.cnt = Cache.upd s.cnt e (Cache.upd (s.cnt e) (P.slot t) (s.cnt e (P.slot t) - 1)))
    (h1 : ref (s.pc t) = some e) (h2 : ref q = none) : Cnt P s' := by
  intro e' k
  have hu := countP_upd (f := fun i => decide (P.slot i = k) && decide (ref (s.pc i) = some e'))
    (g := fun i => decide (P.slot i = k) && decide (ref (s'.pc i) = some e')) ht
    (fun i hi => by rw [hpc]; simp only [upd_ne _ _ hi])
  rw [hpc] at hu ⊢
  simp only [upd_self, h1, h2] at hu
  have h0 := h e' k
  rw [hc]
  by_cases e1 : e' = e
  · subst e1
    rw [upd_self]
    by_cases e2 : k = P.slot t
    · subst e2; rw [upd_self]; simp at hu; omega
    · rw [upd_ne _ _ e2]
      have : ¬ P.slot t = k := fun c => e2 c.symm
      simp [this] at hu; omega
  · rw [upd_ne _ _ e1]
    have : ¬ e = e' := fun c => e1 c.symm
    simp [this] at hu; omega

end Splinter.Cache
