import Verif.Model.Persist

/-! Invariant of the open/close model. -/
namespace Splinter.Persist

variable {P : Type}

theorem sameRefs_iff {g : Geo} {f h : Nat → Nat} : sameRefs g f h = true ↔ ∀ e, e < g.cap → f e = h e := by
  simp [sameRefs]

/-- The device agrees with a snapshot on every page the snapshot holds. -/
def Agree (g : Geo) (d : Disk P) (l : Snap P) : Prop := ∀ a, l.refs (g.ext a) ≠ 0 → d.pages a = l.pages a

/-- A superblock that an open accepts describes the snapshot. -/
def SupOk (x : Super) (l : Snap P) : Prop :=
  x.root = l.root ∧ x.nextId = l.nextId ∧ x.metaTail = l.metaTail ∧ l.root ≠ 0 ∧ 0 < x.stamp

def PhaseInv (g : Geo) (s : Sys P) (m : Mem P) : Phase → Prop
  | .mounting => ∃ x l, s.disk.sup = some x ∧ x.unmounted = true ∧ s.last = some l ∧ SupOk x l ∧
      m.root = l.root ∧ m.nextId = l.nextId ∧ m.metaTail = l.metaTail ∧
      (∀ e ∈ m.fresh, e < g.cap ∧ s.disk.refs e = 0 ∧ m.refs e ≠ 0) ∧
      (∀ e, e ∉ m.fresh → m.refs e = s.disk.refs e) ∧
      (∀ x ∈ m.dirty, g.ext x.1 ∈ m.fresh) ∧
      (s.stale = false → Agree g s.disk l ∧ ∀ e, e < g.cap → s.disk.refs e = l.refs e)
  | .running => ∃ x, s.disk.sup = some x ∧ x.unmounted = false ∧ m.root ≠ 0
  | .stopping => ∃ x, s.disk.sup = some x ∧ x.unmounted = false ∧ m.root ≠ 0 ∧ m.dirty = []
  | .saving => ∃ x l, s.disk.sup = some x ∧ x.unmounted = true ∧ s.last = some l ∧ SupOk x l ∧
      m.dirty = [] ∧ l = snapOf s.disk m ∧ s.stale = false

structure Inv (g : Geo) (s : Sys P) : Prop where
  proc : ∀ m, s.proc = some m → PhaseInv g s m m.phase
  idle : s.proc = none → ∀ x, s.disk.sup = some x → x.unmounted = true → ∃ l, s.last = some l ∧ SupOk x l ∧
    (s.stale = false → Agree g s.disk l ∧ (s.window = true ∨ ∀ e, e < g.cap → s.disk.refs e = l.refs e))

theorem Created.inv {g : Geo} {s : Sys P} (h : Created s) : Inv g s := by
  obtain ⟨x, hx, hu⟩ := h.sup
  obtain ⟨m, hm, hp, hr, -⟩ := h.proc
  constructor
  · intro m' hm'
    rw [hm] at hm'; obtain rfl := Option.some.inj hm'
    rw [hp]; exact ⟨x, hx, hu, hr⟩
  · intro hn; rw [hm] at hn; cases hn

theorem mount_some {d : Disk P} {m : Mem P} (h : mount d = some m) :
    ∃ x, d.sup = some x ∧ x.unmounted = true ∧ 0 < x.stamp ∧ x.root ≠ 0 ∧
      m = loaded d x := by
  unfold mount at h
  cases hs : d.sup with
  | none => simp [hs] at h
  | some x =>
    rw [hs] at h
    by_cases hc : x.unmounted ∧ 0 < x.stamp
    · by_cases hr : x.root = 0
      · simp [hc, hr] at h
      · simp only [hc, hr, if_true, if_false, and_self] at h
        exact ⟨x, rfl, hc.1, hc.2, hr, (Option.some.inj h).symm⟩
    · simp [hc] at h

theorem mount_of {d : Disk P} {x : Super} (hs : d.sup = some x) (hu : x.unmounted = true) (ht : 0 < x.stamp)
    (hr : x.root ≠ 0) :
    mount d = some (loaded d x) := by
  simp [mount, hs, hu, ht, hr]

theorem mem_of_lookup {a : Nat} {p : P} : ∀ {l : List (Nat × P)}, l.lookup a = some p → (a, p) ∈ l
  | [], h => by simp at h
  | (b, q) :: l, h => by
    by_cases hb : a = b
    · subst hb; simp at h; subst h; simp
    · have : (a == b) = false := by simpa using hb
      rw [List.lookup_cons, this] at h
      exact List.mem_cons_of_mem _ (mem_of_lookup h)

theorem act_inv {g : Geo} {s s' : Sys P} {x : Act P} (I : Inv g s) (h : act g s x = some s') : Inv g s' := by
  obtain ⟨IP, II⟩ := I
  cases x with
  | openDb =>
    simp only [act] at h
    cases hp : s.proc with
    | some m => rw [hp] at h; simp at h
    | none =>
      rw [hp] at h
      cases hm : mount s.disk with
      | none => rw [hm] at h; obtain rfl := Option.some.inj h; exact ⟨IP, II⟩
      | some m =>
        rw [hm] at h
        obtain rfl := Option.some.inj h
        obtain ⟨x, h1, h2, h3, h4, rfl⟩ := mount_some hm
        obtain ⟨l, hl, ho, hag⟩ := II hp x h1 h2
        refine ⟨?_, by simp⟩
        intro m' hm'
        obtain rfl := Option.some.inj hm'
        refine ⟨x, l, h1, h2, hl, ho, ho.1, ho.2.1, ho.2.2.1, by simp [loaded], fun _ _ => rfl, by simp [loaded], ?_⟩
        intro hst
        simp only [hl, Bool.or_eq_false_iff, Bool.not_eq_false'] at hst
        exact ⟨(hag hst.1).1, fun e he => (sameRefs_iff.mp hst.2 e he).symm⟩
  | alloc e =>
    simp only [act] at h
    cases hp : s.proc with
    | none => rw [hp] at h; simp at h
    | some m =>
      rw [hp] at h
      simp only [Option.ite_none_right_eq_some, Option.some.injEq] at h
      obtain ⟨⟨hph, he, h0⟩, rfl⟩ := h
      have := IP m hp
      refine ⟨?_, by simp⟩
      rintro _ ⟨rfl⟩
      rcases hph with hph | hph
      · rw [hph] at this
        simp only [hph]
        obtain ⟨x, l, h1, h2, h3, h4, h5, h6, h7, h8, h9, h10, h11⟩ := this
        refine ⟨x, l, h1, h2, h3, h4, h5, h6, h7, ?_, ?_, ?_, h11⟩
        · intro e' he'
          rcases List.mem_cons.mp he' with rfl | he'
          · have : e' ∉ m.fresh := fun hf => (h8 e' hf).2.2 h0
            refine ⟨he, (h9 e' this).symm.trans h0, by simp [setAt]⟩
          · obtain ⟨a, b, c⟩ := h8 e' he'
            refine ⟨a, b, ?_⟩
            simp only [setAt]; split <;> simp_all
        · intro e' he'
          simp only [List.mem_cons, not_or] at he'
          simp only [setAt, he'.1, if_false]
          exact h9 e' he'.2
        · intro y hy; exact List.mem_cons_of_mem _ (h10 y hy)
      · rw [hph] at this
        simp only [hph]; exact this
  | inc e =>
    simp only [act] at h
    cases hp : s.proc with
    | none => rw [hp] at h; simp at h
    | some m =>
      rw [hp] at h
      simp only [Option.ite_none_right_eq_some, Option.some.injEq] at h
      obtain ⟨⟨hph, he, h0⟩, rfl⟩ := h
      have := IP m hp
      refine ⟨?_, by simp⟩
      rintro _ ⟨rfl⟩
      rcases hph with hph | ⟨hph, hf⟩
      · rw [hph] at this; simp only [hph]; exact this
      · rw [hph] at this
        simp only [hph]
        obtain ⟨x, l, h1, h2, h3, h4, h5, h6, h7, h8, h9, h10, h11⟩ := this
        refine ⟨x, l, h1, h2, h3, h4, h5, h6, h7, ?_, ?_, h10, h11⟩
        · intro e' he'
          obtain ⟨a, b, c⟩ := h8 e' he'
          refine ⟨a, b, ?_⟩
          simp only [setAt]; split <;> simp_all
        · intro e' he'
          have : e' ≠ e := fun h => he' (h ▸ hf)
          simp only [setAt, this, if_false]
          exact h9 e' he'
  | dec e =>
    simp only [act] at h
    cases hp : s.proc with
    | none => rw [hp] at h; simp at h
    | some m =>
      rw [hp] at h
      simp only [Option.ite_none_right_eq_some, Option.some.injEq] at h
      obtain ⟨⟨hph, he, h0⟩, rfl⟩ := h
      have := IP m hp
      refine ⟨?_, by simp⟩
      rintro _ ⟨rfl⟩
      rw [hph] at this; simp only [hph]; exact this
  | write a p =>
    simp only [act] at h
    cases hp : s.proc with
    | none => rw [hp] at h; simp at h
    | some m =>
      rw [hp] at h
      simp only [Option.ite_none_right_eq_some, Option.some.injEq] at h
      obtain ⟨⟨hph, he⟩, rfl⟩ := h
      have := IP m hp
      refine ⟨?_, by simp⟩
      rintro _ ⟨rfl⟩
      rcases hph with hph | ⟨hph, hf⟩
      · rw [hph] at this; simp only [hph]; exact this
      · rw [hph] at this
        simp only [hph]
        obtain ⟨x, l, h1, h2, h3, h4, h5, h6, h7, h8, h9, h10, h11⟩ := this
        refine ⟨x, l, h1, h2, h3, h4, h5, h6, h7, h8, h9, ?_, h11⟩
        intro y hy
        rcases List.mem_cons.mp hy with rfl | hy
        · exact hf
        · exact h10 y hy
  | discard a =>
    simp only [act] at h
    cases hp : s.proc with
    | none => rw [hp] at h; simp at h
    | some m =>
      rw [hp] at h
      simp only [Option.ite_none_right_eq_some, Option.some.injEq] at h
      obtain ⟨⟨hph, he⟩, rfl⟩ := h
      have := IP m hp
      refine ⟨?_, by simp⟩
      rintro _ ⟨rfl⟩
      rw [hph] at this; simp only [hph]; exact this
  | writeback a =>
    simp only [act] at h
    cases hp : s.proc with
    | none => rw [hp] at h; simp at h
    | some m =>
      rw [hp] at h
      simp only at h
      cases hl : m.dirty.lookup a with
      | none => rw [hl] at h; simp at h
      | some p =>
        rw [hl] at h
        obtain rfl := Option.some.inj h
        have := IP m hp
        refine ⟨?_, by simp⟩
        rintro _ ⟨rfl⟩
        simp only
        cases hph : m.phase with
        | mounting =>
          rw [hph] at this
          obtain ⟨x, l, h1, h2, h3, h4, h5, h6, h7, h8, h9, h10, h11⟩ := this
          refine ⟨x, l, h1, h2, h3, h4, h5, h6, h7, h8, h9, ?_, ?_⟩
          · intro y hy; exact h10 y (List.mem_filter.mp hy).1
          · intro hst
            obtain ⟨ha, hr⟩ := h11 hst
            refine ⟨?_, hr⟩
            intro b hb
            have hf := h10 _ (mem_of_lookup hl)
            obtain ⟨q1, q2, -⟩ := h8 _ hf
            have : b ≠ a := by
              rintro rfl
              exact hb ((hr _ q1).symm.trans q2)
            simp only [setAt, this, if_false]
            exact ha b hb
        | running => rw [hph] at this; exact this
        | stopping =>
          rw [hph] at this
          obtain ⟨x, h1, h2, h3, h4⟩ := this
          rw [h4] at hl; simp at hl
        | saving =>
          rw [hph] at this
          obtain ⟨x, l, h1, h2, h3, h4, h5, h6⟩ := this
          rw [h5] at hl; simp at hl
  | setMeta r n t =>
    simp only [act] at h
    cases hp : s.proc with
    | none => rw [hp] at h; simp at h
    | some m =>
      rw [hp] at h
      simp only [Option.ite_none_right_eq_some, Option.some.injEq] at h
      obtain ⟨⟨hph, he⟩, rfl⟩ := h
      have := IP m hp
      refine ⟨?_, by simp⟩
      rintro _ ⟨rfl⟩
      rw [hph] at this; simp only [hph]
      obtain ⟨x, h1, h2, h3⟩ := this
      exact ⟨x, h1, h2, he⟩
  | mounted t =>
    simp only [act] at h
    cases hp : s.proc with
    | none => rw [hp] at h; simp at h
    | some m =>
      rw [hp] at h
      simp only [Option.ite_none_right_eq_some, Option.some.injEq] at h
      obtain ⟨hph, rfl⟩ := h
      have := IP m hp
      refine ⟨?_, by simp⟩
      rintro _ ⟨rfl⟩
      rw [hph] at this
      obtain ⟨x, l, h1, h2, h3, h4, h5, h6⟩ := this
      exact ⟨_, rfl, rfl, h5 ▸ h4.2.2.2.1⟩
  | stop =>
    simp only [act] at h
    cases hp : s.proc with
    | none => rw [hp] at h; simp at h
    | some m =>
      rw [hp] at h
      simp only [Option.ite_none_right_eq_some, Option.some.injEq] at h
      obtain ⟨⟨hph, he⟩, rfl⟩ := h
      have := IP m hp
      refine ⟨?_, by simp⟩
      rintro _ ⟨rfl⟩
      rw [hph] at this
      obtain ⟨x, h1, h2, h3⟩ := this
      exact ⟨x, h1, h2, h3, he⟩
  | unmount t =>
    simp only [act] at h
    cases hp : s.proc with
    | none => rw [hp] at h; simp at h
    | some m =>
      rw [hp] at h
      simp only [Option.ite_none_right_eq_some, Option.some.injEq] at h
      obtain ⟨⟨hph, he⟩, rfl⟩ := h
      have := IP m hp
      refine ⟨?_, by simp⟩
      rintro _ ⟨rfl⟩
      rw [hph] at this
      obtain ⟨x, h1, h2, h3, h4⟩ := this
      exact ⟨_, _, rfl, rfl, rfl, ⟨rfl, rfl, rfl, h3, he⟩, h4, rfl, rfl⟩
  | save e =>
    simp only [act] at h
    cases hp : s.proc with
    | none => rw [hp] at h; simp at h
    | some m =>
      rw [hp] at h
      simp only [Option.ite_none_right_eq_some, Option.some.injEq] at h
      obtain ⟨⟨hph, he⟩, rfl⟩ := h
      have := IP m hp
      refine ⟨?_, by simp [hp]⟩
      rintro _ ⟨rfl⟩
      rw [hph] at this ⊢
      exact this
  | done =>
    simp only [act] at h
    cases hp : s.proc with
    | none => rw [hp] at h; simp at h
    | some m =>
      rw [hp] at h
      simp only [Option.ite_none_right_eq_some, Option.some.injEq] at h
      obtain ⟨⟨hph, he⟩, rfl⟩ := h
      have := IP m hp
      refine ⟨by simp, ?_⟩
      intro _ y hy hu
      rw [hph] at this
      obtain ⟨x, l, h1, h2, h3, h4, h5, h6, h7⟩ := this
      simp only at hy
      rw [h1] at hy; obtain rfl := Option.some.inj hy
      refine ⟨l, h3, h4, fun _ => ⟨?_, Or.inr ?_⟩⟩
      · intro a _; subst h6; simp [snapOf, view, h5]
      · subst h6; exact sameRefs_iff.mp he
  | crash torn junk =>
    simp only [act] at h
    cases hp : s.proc with
    | none => rw [hp] at h; simp at h
    | some m =>
      rw [hp] at h
      simp only [Option.ite_none_right_eq_some] at h
      obtain ⟨ht, h⟩ := h
      have hI := IP m hp
      cases torn with
      | true =>
        have hn : s'.disk.sup = none ∧ s'.proc = none := by
          cases junk with
          | none => simp at h; subst h; simp
          | some ap =>
            obtain ⟨a, p⟩ := ap
            simp only [Option.ite_none_right_eq_some, Option.some.injEq] at h
            obtain ⟨-, rfl⟩ := h; simp
        exact ⟨fun m' hm' => (by rw [hn.2] at hm'; cases hm'), fun _ y hy => (by rw [hn.1] at hy; cases hy)⟩
      | false =>
        have hn : s'.proc = none ∧ s'.disk.sup = s.disk.sup ∧ s'.disk.refs = s.disk.refs ∧ s'.last = s.last ∧
            s'.stale = s.stale ∧
            (m.phase = .saving → s'.window = true ∨ ∀ e, e < g.cap → s.disk.refs e = m.refs e) ∧
            (∀ a, m.dirty.lookup a = none → s'.disk.pages a = s.disk.pages a) := by
          cases junk with
          | none =>
            simp at h; subst h
            refine ⟨rfl, rfl, rfl, rfl, rfl, ?_, fun _ _ => rfl⟩
            intro hs
            cases hc : sameRefs g s.disk.refs m.refs with
            | true => exact Or.inr (sameRefs_iff.mp hc)
            | false => left; simp [hs]
          | some ap =>
            obtain ⟨a, p⟩ := ap
            simp only [Option.ite_none_right_eq_some, Option.some.injEq] at h
            obtain ⟨hd, rfl⟩ := h
            refine ⟨rfl, rfl, rfl, rfl, rfl, ?_, ?_⟩
            · intro hs
              rw [hs] at hI
              obtain ⟨x, l, h1, h2, h3, h4, h5, h6⟩ := hI
              rw [h5] at hd; simp at hd
            · intro b hb
              have : b ≠ a := by rintro rfl; rw [hb] at hd; cases hd
              simp [setAt, this]
        obtain ⟨n1, n2, n3, n4, n5, n6, n7⟩ := hn
        refine ⟨fun m' hm' => (by rw [n1] at hm'; cases hm'), ?_⟩
        intro _ y hy hu
        rw [n2] at hy
        cases hph : m.phase with
        | mounting =>
          rw [hph] at hI
          obtain ⟨x, l, h1, h2, h3, h4, h5, h6, h7, h8, h9, h10, h11⟩ := hI
          rw [h1] at hy; obtain rfl := Option.some.inj hy
          refine ⟨l, n4.trans h3, h4, ?_⟩
          intro hst
          obtain ⟨ha, hr⟩ := h11 (n5 ▸ hst)
          refine ⟨?_, Or.inr (fun e he => (congrFun n3 e).trans (hr e he))⟩
          intro a hla
          rw [n7 a ?_]
          · exact ha a hla
          · cases hd : m.dirty.lookup a with
            | none => rfl
            | some p =>
              obtain ⟨q1, q2, -⟩ := h8 _ (h10 _ (mem_of_lookup hd))
              exact absurd ((hr _ q1).symm.trans q2) hla
        | running =>
          rw [hph] at hI
          obtain ⟨x, h1, h2, -⟩ := hI
          rw [h1] at hy; obtain rfl := Option.some.inj hy
          rw [h2] at hu; cases hu
        | stopping =>
          rw [hph] at hI
          obtain ⟨x, h1, h2, -⟩ := hI
          rw [h1] at hy; obtain rfl := Option.some.inj hy
          rw [h2] at hu; cases hu
        | saving =>
          have n6 := n6 hph
          rw [hph] at hI
          obtain ⟨x, l, h1, h2, h3, h4, h5, h6, h7⟩ := hI
          rw [h1] at hy; obtain rfl := Option.some.inj hy
          refine ⟨l, n4.trans h3, h4, fun _ => ⟨?_, ?_⟩⟩
          · intro a _
            rw [n7 a (by simp [h5])]
            subst h6; simp [snapOf, view, h5]
          · rcases n6 with n6 | n6
            · exact Or.inl n6
            · right; intro e he; rw [n3]; subst h6; exact n6 e he

theorem run_inv {g : Geo} : ∀ {xs : List (Act P)} {s s' : Sys P}, Inv g s → run g s xs = some s' → Inv g s'
  | [], s, s', I, h => by obtain rfl := Option.some.inj h; exact I
  | x :: xs, s, s', I, h => by
    unfold run at h
    cases hx : act g s x with
    | none => rw [hx] at h; cases h
    | some s1 => rw [hx] at h; exact run_inv (act_inv I hx) h

end Splinter.Persist
