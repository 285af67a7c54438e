import Verif.Props.Memtable
/-! # The memtable protocol, seen from the whole store: what is packed, which generations have messages -/
namespace Splinter.Memtable
variable {M : Type}

/-- The thread about to install the new root has the packed copy of its generation, and the tree has what came before. -/
def Inc5 (N : Nat) (s : State M) : Prop :=
  ∀ t g nr, s.pc t = .inc5 g nr → (s.sl N g).cmt = inGen s.log g ∧ s.root = ltGen s.log g

theorem inc5_same {N : Nat} {s s' : State M} {t : Nat} {p : PC M} (h5 : Inc5 N s) (hp : s'.pc = upd s.pc t p) (hn : ∀ g nr, p ≠ .inc5 g nr)
    (e1 : s'.root = s.root) (e2 : s'.log = s.log) (e3 : ∀ u g nr, s.pc u = .inc5 g nr → (s'.sl N g).cmt = (s.sl N g).cmt) : Inc5 N s' := by
  intro u g nr hu
  rw [hp] at hu
  by_cases e : u = t
  · simp only [upd, e, if_true] at hu; exact absurd hu (hn g nr)
  · simp only [upd, e, if_false] at hu
    rw [e1, e2, e3 u g nr hu]
    exact h5 u g nr hu

theorem inc5_step {N : Nat} {s s' : State M} {t : Nat} (h : Inv N s) (h5 : Inc5 N s) (hs : Step N s t s') : Inc5 N s' := by
  have ok := h.pcs t
  have c := h.core
  cases hs
  case put m g hp =>
    rw [hp] at ok
    intro u g' nr hu
    have hne : u ≠ t := fun e => by simp [State.to, upd, e] at hu
    have hu : s.pc u = .inc5 g' nr := by simpa [State.to, State.setSl, upd, hne] using hu
    have hu' := h.pcs u
    rw [hu] at hu'
    have hlt : g' < g := by have := hu'.1; have := ok.1; have := c.low; omega
    obtain ⟨h1, h2⟩ := h5 u g' nr hu
    refine ⟨?_, ?_⟩
    · show ((s.setSl N g _).sl N g').cmt = inGen (s.log ++ [(g, t, m)]) g'
      rw [inGen_append, if_neg (by omega), List.append_nil, ← h1]
      rw [setSl_sl]
      split
      · rename_i e; exact (congrArg Slot.cmt (sl_congr s e)).symm
      · rfl
    · show s.root = ltGen (s.log ++ [(g, t, m)]) g'
      rw [ltGen_append _ _ _ _ _ (by omega), h2]
  case comp g hp =>
    rw [hp] at ok
    refine inc5_same h5 rfl (by simp) rfl rfl (fun u g' nr hu => ?_)
    have hu' := h.pcs u
    rw [hu] at hu'
    show ((s.setSl N g _).sl N g').cmt = _
    rw [setSl_sl]
    split
    · rename_i e
      have := hu'.2.2.2.1
      rw [sl_congr s e, ok.2.2.2] at this
      cases this
    · rfl
  case inc4 g nr hp =>
    rw [hp] at ok
    obtain ⟨o1, o2, o3, o4, o5, o6⟩ := ok
    intro u g' nr' hu
    have hut : u = t := by
      by_contra hne
      have hu : s.pc u = .inc5 g' nr' := by simpa [State.to, State.setSl, upd, hne] using hu
      exact hne (h.incs u t (by rw [hu]; rfl) (by rw [hp]; rfl))
    subst hut
    have hu : PC.inc5 g nr = PC.inc5 g' nr' := by simpa [State.to, State.setSl, upd] using hu
    injection hu with e1 e2
    subst e1 e2
    have hN : 0 < N := by have := c.two; omega
    have hc := c.cmt (g % N) (Nat.mod_lt _ hN) (.inr o5)
    have hd := (c.live g (by omega) (by omega)).2.2.1
    refine ⟨?_, ?_⟩
    · show ((s.setSl N g _).sl N g).cmt = inGen s.log g
      rw [setSl_sl, if_pos rfl]
      exact hc.trans hd
    · show s.root = ltGen s.log g
      rcases h.root with hr | ⟨u', g', nr', hu'⟩
      · rw [hr, o1]
      · have : u' = u := h.incs u' u (by rw [hu']; rfl) (by rw [hp]; rfl)
        rw [this, hp] at hu'
        cases hu'
  case inc5 g nr hp =>
    intro u g' nr' hu
    exfalso
    by_cases e : u = t
    · simp [State.to, upd, e] at hu
    · have hu : s.pc u = .inc5 g' nr' := by simpa [State.to, upd, e] using hu
      exact e (h.incs u t (by rw [hu]; rfl) (by rw [hp]; rfl))
  all_goals
    refine inc5_same h5 rfl ?_ rfl rfl ?_
    · first
      | (intros; simp; done)
      | (intros; split <;> simp)
    · first
      | (intros; rfl)
      | (intro u g' nr' _
         simp only [State.sl, State.to, State.setSl, upd]
         split
         · rename_i e; rw [e]
         · rfl)

theorem reach_inc5 {N : Nat} {s : State M} (hN : 2 ≤ N) (h : Reachable N s) : Inc5 N s := by
  induction h with
  | init => intro t g nr h; cases h
  | step t a h hs ih => exact inc5_step (reach_inv hN h).2 ih (step_sound hs)
  | @final s s' h hi hn hf ih =>
    obtain ⟨-, -, rfl⟩ := final_eq hf
    intro t g nr ht
    obtain ⟨h1, h2⟩ := ih t g nr ht
    refine ⟨?_, h2⟩
    refine Eq.trans ?_ h1
    show ((s.setSl N s.gen _).sl N g).cmt = _
    rw [setSl_sl]
    split
    · rename_i e; exact (congrArg Slot.cmt (sl_congr s e)).symm
    · rfl

/-! ## Every finished generation has a message -/

/-- A thread that rotates found the memtable full. -/
def FullPC (s : State M) : PC M → Prop
  | .rot1 _ g | .rot2 _ g | .rot3 _ g | .rot4 _ g | .rot5 _ g => inGen s.log g ≠ []
  | _ => True

structure Full (s : State M) : Prop where
  gens : ∀ g, g < s.gen → inGen s.log g ≠ []
  pcs : ∀ t, FullPC s (s.pc t)

theorem full_init : Full (init : State M) := ⟨fun g h => absurd h (Nat.not_lt_zero g), fun _ => trivial⟩

theorem full_same {s s' : State M} {t : Nat} {p : PC M} (hf : Full s) (hp : s'.pc = upd s.pc t p) (e1 : s'.gen = s.gen) (e2 : s'.log = s.log)
    (ht : FullPC s p) : Full s' := by
  have hc : ∀ q, FullPC s q → FullPC s' q := by intro q; cases q <;> simp only [FullPC, e2] <;> exact id
  refine ⟨by rw [e1, e2]; exact hf.gens, fun u => ?_⟩
  rw [hp]
  by_cases e : u = t
  · simp only [upd, e, if_true]; exact hc _ ht
  · simp only [upd, e, if_false]; exact hc _ (hf.pcs u)

theorem full_step {N : Nat} {s s' : State M} {t : Nat} (h : Inv N s) (hf : Full s) (hs : Step N s t s')
    (hd : ∀ m g, s.pc t = .ins3 m g → s'.pc t = .rot1 m g → (s.sl N g).data ≠ []) : Full s' := by
  have ok := h.pcs t
  have fp := hf.pcs t
  have c := h.core
  cases hs
  case ins3 m g hp =>
    rw [hp] at ok
    have := hd m g hp (by simp [State.to, upd])
    rw [(c.live g (by have := ok.1; have := c.low; omega) (by have := ok.1; omega)).2.2.1] at this
    exact full_same hf rfl rfl rfl this
  case rot5 m g hp _ e =>
    rw [hp] at fp
    subst e
    refine ⟨fun g hg => ?_, fun u => ?_⟩
    · have hg : g < s.gen + 1 := hg
      rcases Nat.lt_or_eq_of_le (Nat.lt_succ_iff.mp hg) with h | h
      · exact hf.gens g h
      · rw [h]; exact fp
    · show FullPC s (upd s.pc t _ u)
      by_cases e : u = t
      · simp only [upd, e, if_true]; trivial
      · simp only [upd, e, if_false]; exact hf.pcs u
  case put m g hp =>
    have hne : ∀ g', inGen s.log g' ≠ [] → inGen (s.log ++ [(g, t, m)]) g' ≠ [] := by
      intro g' h0; rw [inGen_append]; simp [h0]
    refine ⟨fun g' hg => hne g' (hf.gens g' hg), fun u => ?_⟩
    show FullPC _ (upd s.pc t _ u)
    by_cases e : u = t
    · simp only [upd, e, if_true]; trivial
    · simp only [upd, e, if_false]
      have := hf.pcs u
      revert this
      cases s.pc u <;> simp only [FullPC] <;> first | exact id | exact hne _
  case rot1 m g hp _ => rw [hp] at fp; exact full_same hf rfl rfl rfl fp
  case rot2 m g hp _ => rw [hp] at fp; exact full_same hf rfl rfl rfl fp
  case rot3 m g hp _ => rw [hp] at fp; exact full_same hf rfl rfl rfl fp
  case rot4 m g hp => rw [hp] at fp; exact full_same hf rfl rfl rfl fp
  case rec2 g k hp => exact full_same hf rfl rfl rfl (by cases k <;> trivial)
  all_goals exact full_same hf rfl rfl rfl trivial

/-! ## Messages of a kind -/

def PC.payload : PC M → Option M
  | .begin m | .ins1 m | .ins2 m _ | .ins3 m _ | .rot1 m _ | .rot2 m _ | .rot3 m _ | .rot4 m _ | .rot5 m _ | .rot6 m _ | .rot7 m _
  | .put m _ | .put2 m => some m
  | _ => none

/-- If all messages given to inserts satisfy `Q`, so do those in the log. -/
structure Only (Q : M → Prop) (s : State M) : Prop where
  log : ∀ e ∈ s.log, Q e.2.2
  pcs : ∀ t m, (s.pc t).payload = some m → Q m

theorem only_same {Q : M → Prop} {s s' : State M} {t : Nat} {p : PC M} (h : Only Q s) (hp : s'.pc = upd s.pc t p) (e2 : s'.log = s.log)
    (ht : ∀ m, p.payload = some m → (s.pc t).payload = some m ∨ Q m) : Only Q s' := by
  refine ⟨by rw [e2]; exact h.log, fun u m hu => ?_⟩
  rw [hp] at hu
  by_cases e : u = t
  · simp only [upd, e, if_true] at hu
    rcases ht m hu with h1 | h1
    · exact h.pcs t m h1
    · exact h1
  · simp only [upd, e, if_false] at hu; exact h.pcs u m hu

theorem only_step {Q : M → Prop} {N : Nat} {s s' : State M} {t : Nat} (h : Only Q s) (hs : Step N s t s')
    (hq : ∀ m, s.pc t = .idle → s'.pc t = .begin m → Q m) : Only Q s' := by
  cases hs
  case insert m hp => exact only_same h rfl rfl (fun m' hm => .inr (by cases hm; exact hq m hp (by simp [State.to, upd])))
  case put m g hp =>
    have hm := h.pcs t m (by rw [hp]; rfl)
    refine ⟨fun e he => ?_, fun u m' hu => ?_⟩
    · have he : e ∈ s.log ++ [(g, t, m)] := he
      rw [List.mem_append, List.mem_singleton] at he
      rcases he with he | rfl
      · exact h.log e he
      · exact hm
    · have hu : (upd s.pc t (.put2 m) u).payload = some m' := hu
      by_cases e : u = t
      · simp only [upd, e, if_true] at hu; cases hu; exact hm
      · simp only [upd, e, if_false] at hu; exact h.pcs u m' hu
  case rec2 g k hp => exact only_same h rfl rfl (fun m' hm => by cases k <;> cases hm)
  all_goals
    rename_i hp
    first
    | (refine only_same h rfl rfl (fun m' hm => .inl ?_)
       first
       | (cases hm; done)
       | (rw [‹s.pc t = _›]; exact hm))

end Splinter.Memtable
