import Verif.Proof.Store
/-! # The whole store: one step of an insert, one step of a lookup -/
set_option linter.unusedSectionVars false
namespace Splinter.Store
open Splinter.Spec (eval UpdateSem Implements report act actAll msgsOf)
open Memtable (upd Res PC)

variable {K V F : Type} [LinearOrder K] {P : Par K V F} {L : Trunk.FilterLaws P.ops} {sem : UpdateSem K V} {s s' : St K V F}

/-- No step fails an assertion or a callback. -/
theorem ok_no_fault (hN : 2 ≤ P.N) (H : Implements P.cfg sem) (h : Ok L sem s) (t : Nat) (a : Act K V) : step P s t a ≠ .fault := by
  have nf : ∀ b, Memtable.step P.N s.m t b ≠ .fault := fun b => Memtable.no_assert hN h.mem t b
  have n1 : ∀ b o, s.mem o (Memtable.step P.N s.m t b) ≠ .fault := by
    intro b o; have := nf b; cases hx : Memtable.step P.N s.m t b <;> simp_all [St.mem]
  have n2 : ∀ b, s.memIdle t (Memtable.step P.N s.m t b) ≠ .fault := by
    intro b; have := nf b; cases hx : Memtable.step P.N s.m t b <;> simp_all [St.memIdle]
  have n3 : ∀ b l o, s.memLook t l o (Memtable.step P.N s.m t b) ≠ .fault := by
    intro b l o; have := nf b; cases hx : Memtable.step P.N s.m t b <;> simp_all [St.memLook]
  unfold step
  split
  · split
    · exact n1 _ _
    · split <;> simp
  · exact n3 _ _ _
  · exact n1 _ _
  · exact n1 _ _
  · exact n2 _
  · unfold go
    simp only
    split
    · split
      · simp
      · exact n1 _ _
    · exact n1 _ _
    · exact n1 _ _
    · rename_i n g e j obs pk l hp hlk
      obtain ⟨l', a1, a2, a3, a4⟩ := h.looks t n (by rw [hp]; rfl)
      rw [hp] at a4
      rw [hlk] at a1
      obtain rfl := Option.some.inj a1
      obtain ⟨b, hb, -, -, -, hb2⟩ := tree_spec H (if pk then (s.m.sl P.N (j - 1)).cmt else (s.m.sl P.N (j - 1)).data)
      obtain ⟨acc', h1, h2⟩ := probe_spec H a4.1 (hb2 l.key)
      rw [hb]
      simp only [h1]
      exact n3 _ _ _
    · exact n3 _ _ _
    · rename_i n obs r l hp hlk
      obtain ⟨l', a1, a2, a3, a4⟩ := h.looks t n (by rw [hp]; rfl)
      rw [hp] at a4
      rw [hlk] at a1
      obtain rfl := Option.some.inj a1
      obtain ⟨b1, b2, t2, b3, b4, b5⟩ := a4
      obtain ⟨acc', c1, c2⟩ := trunk_spec H b5 b4 a2 a3 b1 b2
      rw [b3]
      simp only [c1]
      exact n3 _ _ _
    · exact n3 _ _ _
    · exact n3 _ _ _
    · rename_i g nr hp
      obtain ⟨q1, q2, q3⟩ := mem_inc5 hN h hp
      obtain ⟨t2, r1, r2, r3⟩ := addMem_ok H h.trunk h.mems q3 q2
      rw [r1]
      have := nf (.go false)
      cases hx : Memtable.step P.N s.m t (.go false) <;> simp_all
    · simp
    · exact n2 _
  · split
    · split <;> simp
    · simp

/-- The log grows by at most one message, of the thread that puts it into its memtable. -/
theorem move_log {t : Nat} {a : Act K V} {o : Out V} (h : Move P s t a s' o) :
    s'.m.log = s.m.log ∨ ∃ g x, s.m.pc t = .put x g ∧ s'.m.pc t = .put2 x ∧ s'.m.log = s.m.log ++ [(g, t, x)] := by
  rcases move_mem h with e | ⟨b, e⟩
  · exact .inl (by rw [e])
  · have hs := Memtable.step_sound e
    generalize s'.m = m' at hs
    cases hs
    case put m g hp => exact .inr ⟨g, m, hp, by simp, rfl⟩
    all_goals exact .inl rfl

theorem plain_payload {t : Nat} {m m' : Memtable.State (K × Msg V)} {x : K × Msg V} (hs : Memtable.Step P.N m t m') (hx : (m.pc t).payload = some x) :
    ((m'.pc t).payload = some x ∧ (∀ y, m.pc t ≠ .put2 y) ∧ ((∀ y, m'.pc t ≠ .put2 y) ↔ m'.log = m.log)) ∨
    m'.pc t = .idle ∧ m'.log = m.log ∧ ((∃ y, m.pc t = .put2 y) ∨ ∃ y g, m.pc t = .rot1 y g) := by
  cases hs
  case put y g hp =>
    rw [hp] at hx ⊢
    simp only [PC.payload, Option.some.injEq] at hx
    subst hx
    refine .inl ⟨by simp [PC.payload], by simp, ?_⟩
    simp [Memtable.State.to, upd]
  case rot1' y g hp => exact .inr ⟨by simp, rfl, .inr ⟨y, g, hp⟩⟩
  case put2 y hp => exact .inr ⟨by simp, rfl, .inl ⟨y, hp⟩⟩
  all_goals
    first
    | (exfalso; rw [‹m.pc t = _›] at hx; cases hx; done)
    | (rw [‹m.pc t = _›] at hx
       simp only [PC.payload, Option.some.injEq] at hx
       subst hx
       refine .inl ⟨by simp [PC.payload], ?_, ?_⟩
       · simp_all
       · simp [Memtable.State.to, Memtable.State.setSl, upd])

theorem payload_plain {M : Type} {p : PC M} {x : M} (h : p.payload = some x) : isPlain p = true ∧ p ≠ .idle := by
  cases p <;> first | (cases h; done) | exact ⟨rfl, by simp⟩

/-- One step of a thread in an insert. -/
theorem move_insert {t : Nat} {a : Act K V} {o : Out V} (h : Move P s t a s' o) {x : K × Msg V} (hx : (s.m.pc t).payload = some x) :
    o = .nothing ∧ (s'.m.pc t).payload = some x ∧ ((s'.m.pc t = s.m.pc t ∧ s'.m.log = s.m.log) ∨
        (∀ y, s.m.pc t ≠ .put2 y) ∧ ((∀ y, s'.m.pc t ≠ .put2 y) ↔ s'.m.log = s.m.log)) ∨
    s'.m.log = s.m.log ∧ (o = .inserted true ∧ (∃ y, s.m.pc t = .put2 y) ∨ o = .inserted false ∧ ∀ y, s.m.pc t ≠ .put2 y) := by
  obtain ⟨p1, p2⟩ := payload_plain hx
  cases h with
  | maint o t' hm ht => exact .inl ⟨rfl, hx, .inl ⟨rfl, rfl⟩⟩
  | refused k m hk hp => exact absurd hp p2
  | insert k m hk hp => exact absurd hp p2
  | call k hp => exact absurd hp p2
  | plain a b m' o e1 pl hb hl0 hd ho ho' hins hoth =>
    rcases plain_payload (Memtable.step_sound e1) hx with ⟨h1, h2, h3⟩ | ⟨h1, h2, h3⟩
    · refine .inl ⟨?_, h1, .inr ⟨h2, h3⟩⟩
      cases o with
      | nothing => rfl
      | other =>
        have h1 : (m'.pc t).payload = some x := h1
        rw [hoth rfl] at h1; cases h1
      | refused => exact absurd rfl ho'
      | looked r => exact absurd rfl (ho r)
      | inserted b =>
        rcases (hins b).mp rfl with ⟨⟨y, hy⟩, -⟩ | ⟨-, hid, -⟩
        · exact absurd hy (h2 y)
        · have h1 : (m'.pc t).payload = some x := h1
          rw [hid] at h1; cases h1
    · refine .inr ⟨h2, ?_⟩
      rcases h3 with h3 | ⟨y, g, h3⟩
      · exact .inl ⟨(hins true).mpr (.inl ⟨h3, rfl⟩), h3⟩
      · exact .inr ⟨(hins false).mpr (.inr ⟨⟨y, g, h3⟩, h1, rfl⟩), by simp [h3]⟩
  | lk4 f n g e j obs pk l b acc hp => rw [hp] at hx; cases hx
  | lk5 f n obs l hp => rw [hp] at hx; cases hx
  | lk6 f n obs r l t' acc hp => rw [hp] at hx; cases hx
  | lk7 f n obs l m' hp => rw [hp] at hx; cases hx
  | lk8 f n obs l m' hp => rw [hp] at hx; cases hx
  | inc5 f g nr t' hp => rw [hp] at hx; cases hx

/-- Where a thread in an insert was before. -/
theorem move_payload {t u : Nat} {a : Act K V} {o : Out V} (h : Move P s t a s' o) {x : K × Msg V} (hx : (s'.m.pc u).payload = some x) :
    ((s.m.pc u).payload = some x ∧ (u = t → o = .nothing)) ∨ u = t ∧ s.m.pc t = .idle ∧ a = .insert x.1 x.2 ∧ s'.m.log = s.m.log ∧ o = .nothing := by
  by_cases hu : u = t
  · subst hu
    cases h with
    | maint o t' hm ht => exact .inl ⟨hx, fun _ => rfl⟩
    | refused k m hk hp =>
      exfalso
      rw [hp] at hx; cases hx
    | insert k m hk hp =>
      simp only [Memtable.to_pc_same, PC.payload, Option.some.injEq] at hx
      subst hx
      exact .inr ⟨rfl, hp, rfl, rfl, rfl⟩
    | call k hp => simp [PC.payload] at hx
    | plain a b m' o e1 pl hb hl0 hd ho ho' hins hoth =>
      have hs := Memtable.step_sound e1
      replace hx : (m'.pc u).payload = some x := hx
      have hpay : (s.m.pc u).payload = some x := by
        clear hins hoth hd hl0
        cases hs
        case insert y hp => exact absurd hp (hb y (by simp))
        case rec2 g k hp => cases k <;> simp [PC.payload] at hx
        all_goals
          first
          | (exfalso; simp [PC.payload] at hx; done)
          | (rw [‹s.m.pc u = _›]; simpa [PC.payload] using hx)
      refine .inl ⟨hpay, fun _ => ?_⟩
      rcases plain_payload hs hpay with ⟨h1, h2, h3⟩ | ⟨h1, h2, h3⟩
      · cases o with
        | nothing => rfl
        | other => rw [hoth rfl] at h1; cases h1
        | refused => exact absurd rfl ho'
        | looked r => exact absurd rfl (ho r)
        | inserted b =>
          rcases (hins b).mp rfl with ⟨⟨y, hy⟩, -⟩ | ⟨-, hid, -⟩
          · exact absurd hy (h2 y)
          · rw [hid] at h1; cases h1
      · rw [h1] at hx; cases hx
    | lk4 f n g e j obs pk l b acc hp =>
      exfalso
      simp only [Memtable.to_pc_same] at hx
      split at hx <;> cases hx
    | lk5 f n obs l hp => simp [PC.payload] at hx
    | lk6 f n obs r l t' acc hp => simp [PC.payload] at hx
    | lk7 f n obs l m' hp _ _ hid => simp [PC.payload, hid] at hx
    | lk8 f n obs l m' hp _ _ hid => simp [PC.payload, hid] at hx
    | inc5 f g nr t' hp => simp [PC.payload] at hx
  · exact .inl ⟨by rw [← (move_other h hu).1]; exact hx, fun e => absurd e hu⟩

/-- One step of a thread in a lookup: it goes on with the same key, or it returns. -/
theorem move_lookup {t : Nat} {a : Act K V} {o : Out V} (h : Move P s t a s' o) {n : Nat} (hn : lkN (s.m.pc t) = some n) {l : Look K V F}
    (hl : s.look t = some l) :
    (∀ r, o ≠ .looked r) ∧ lkN (s'.m.pc t) = some n ∧ (∃ l', s'.look t = some l' ∧ l'.key = l.key) ∨
    o = .looked (finishLookup P.cfg l.key l.acc) ∧ ((∃ obs, s.m.pc t = .lk7 n obs) ∨ ∃ obs, s.m.pc t = .lk8 n obs) := by
  have hne : s.m.pc t ≠ .idle := by intro e; rw [e] at hn; cases hn
  cases h with
  | maint o t' hm ht => exact .inl ⟨by simp, hn, l, hl, rfl⟩
  | refused k m hk hp => exact absurd hp hne
  | insert k m hk hp => exact absurd hp hne
  | call k hp => exact absurd hp hne
  | plain a b m' o e1 pl hb hl0 hd ho ho' hins hoth =>
    have hs := Memtable.step_sound e1
    refine .inl ⟨ho, ?_, l, hl, rfl⟩
    show lkN (m'.pc t) = some n
    clear hins hoth hd hl0 hb
    cases hs
    all_goals
      first
      | (exfalso; rw [‹s.m.pc t = _›] at hn; cases hn; done)
      | (exfalso; rw [‹s.m.pc t = _›] at pl; cases pl; done)
      | (rw [‹s.m.pc t = _›] at hn; simpa [lkN] using hn)
  | lk4 f n' g e j obs pk l' b acc hp hl' =>
    rw [hl] at hl'
    obtain rfl := Option.some.inj hl'
    rw [hp] at hn
    refine .inl ⟨by simp, ?_, { l with acc := acc }, by simp [upd], rfl⟩
    simp only [Memtable.to_pc_same]
    split <;> exact hn
  | lk5 f n' obs l' hp hl' =>
    rw [hl] at hl'
    obtain rfl := Option.some.inj hl'
    rw [hp] at hn
    exact .inl ⟨by simp, by simpa [lkN] using hn, { l with snap := some s.t }, by simp [upd], rfl⟩
  | lk6 f n' obs r l' t' acc hp hl' =>
    rw [hl] at hl'
    obtain rfl := Option.some.inj hl'
    rw [hp] at hn
    exact .inl ⟨by simp, by simpa [lkN] using hn, { l with acc := acc }, by simp [upd], rfl⟩
  | lk7 f n' obs l' m' hp hl' _ hid =>
    rw [hl] at hl'
    obtain rfl := Option.some.inj hl'
    rw [hp] at hn
    simp only [lkN, Option.some.injEq] at hn
    subst hn
    exact .inr ⟨rfl, .inl ⟨obs, hp⟩⟩
  | lk8 f n' obs l' m' hp hl' _ hid =>
    rw [hl] at hl'
    obtain rfl := Option.some.inj hl'
    rw [hp] at hn
    simp only [lkN, Option.some.injEq] at hn
    subst hn
    exact .inr ⟨rfl, .inr ⟨obs, hp⟩⟩
  | inc5 f g nr t' hp => rw [hp] at hn; cases hn

/-- What a returning lookup reports. -/
theorem look_result (hN : 2 ≤ P.N) (H : Implements P.cfg sem) (h : Ok L sem s) {t n : Nat} {l : Look K V F} (hl : s.look t = some l)
    (hp : (∃ obs, s.m.pc t = .lk7 n obs) ∨ ∃ obs, s.m.pc t = .lk8 n obs) :
    ∃ L', L' <+: s.m.log ∧ n ≤ L'.length ∧ finishLookup P.cfg l.key l.acc = report (eval sem l.key (ofKey l.key (L'.map (·.2.2)))) := by
  have hlk := (Memtable.reach_look hN h.mem).pcs t
  rcases hp with ⟨obs, hp⟩ | ⟨obs, hp⟩
  · obtain ⟨l', a1, a2, a3, a4⟩ := h.looks t n (by rw [hp]; rfl)
    rw [hl] at a1
    obtain rfl := Option.some.inj a1
    rw [hp] at a4 hlk
    obtain ⟨b1, b2⟩ := a4
    obtain ⟨L', c1, c2, c3⟩ := hlk
    refine ⟨L', c1, c2, ?_⟩
    rw [finishLookup_spec H]
    congr 1
    obtain ⟨pre, hpre⟩ := c3
    have e1 : L'.map (·.2.2) = pre ++ obs := hpre.symm
    rw [e1, ofKey_append]
    have e2 : eval sem l.key (ofKey l.key pre ++ ofKey l.key obs) = actAll sem l.key (ofKey l.key obs) (actAll sem l.key (ofKey l.key pre) none) :=
      Trunk.actAll_append sem l.key _ _ none
    rw [e2, ← b1]
    cases hacc : l.acc with
    | none => rw [hacc] at b2; cases b2
    | some m => rw [hacc] at b2; exact act_definitive l.key m b2 _ _
  · obtain ⟨l', a1, a2, a3, a4⟩ := h.looks t n (by rw [hp]; rfl)
    rw [hl] at a1
    obtain rfl := Option.some.inj a1
    rw [hp] at a4 hlk
    obtain ⟨L', c1, c2, c3⟩ := hlk
    refine ⟨L', c1, c2, ?_⟩
    rw [finishLookup_spec H]
    congr 1
    have e1 : L'.map (·.2.2) = obs := c3.symm
    rw [e1]
    exact a4

end Splinter.Store
