import Verif.Model.Flush
import Mathlib.Data.List.Nodup
/-! Lemmas for `Model/Flush.lean`. -/
namespace Splinter.Flush

/-- The lookup table and the addresses of the entries agree; only free entries have no page. -/
structure WF (s : State) : Prop where
  link : ∀ e p, (s.entry e).page = some p ↔ s.lookup p = some e
  mapped : ∀ e, (s.entry e).page = none → (s.entry e).st.free = true

/-- The entry `e` can be written back. -/
def can (u : Bool) (s : State) (e : Nat) : Prop := okToWriteback u (s.entry e).st = true

def inR (lo hi : Nat) (o : Option Nat) : Bool := match o with
  | some p => decide (lo ≤ p ∧ p < hi)
  | none => false

theorem inR_iff {lo hi : Nat} {o : Option Nat} : inR lo hi o = true ↔ ∃ p, o = some p ∧ lo ≤ p ∧ p < hi := by
  cases o <;> simp [inR]

/-- Change the flags of the entries with pages from `lo` to before `hi`. -/
def mapSt (s : State) (lo hi : Nat) (f : Status → Status) : State :=
  { s with entry := fun e => if inR lo hi (s.entry e).page then { s.entry e with st := f (s.entry e).st } else s.entry e }

def wb (st : Status) : Status := { st with writeback := true }
def fin (st : Status) : Status := { st with clean := true, writeback := false }
def cl (st : Status) : Status := { st with clean := true }

theorem ok_cases {u : Bool} {st : Status} (h : okToWriteback u st = true) : st = stCleanable1 ∨ (u = true ∧ st = stCleanable2) := by
  simpa [okToWriteback] using h

theorem trySet_eq (u : Bool) (s : State) (e : Nat) :
    trySet u s e = if okToWriteback u (s.entry e).st then some (s.setSt e (wb (s.entry e).st)) else none := by
  unfold trySet okToWriteback
  by_cases h1 : (s.entry e).st = stCleanable1
  · simp [h1, wb]
  · by_cases h2 : (s.entry e).st = stCleanable2
    · cases u <;> simp [h2, wb, stCleanable1, stCleanable2]
    · simp [h1, h2]

theorem mapSt_page (s : State) (lo hi : Nat) (f : Status → Status) (e : Nat) : ((mapSt s lo hi f).entry e).page = (s.entry e).page := by
  simp only [mapSt]; split <;> rfl

theorem setSt_mapSt {s : State} (w : WF s) {e p : Nat} (h : s.lookup p = some e) (f : Status → Status) : s.setSt e (f (s.entry e).st) = mapSt s p (p + 1) f := by
  have hp := (w.link e p).mpr h
  simp only [State.setSt, mapSt, State.mk.injEq, and_true]
  funext j
  simp only [upd]
  by_cases hj : j = e
  · subst hj; rw [if_pos rfl, if_pos (by simp [inR, hp])]
  · rw [if_neg hj, if_neg]
    rw [inR_iff]
    rintro ⟨q, hq, h1, h2⟩
    have : q = p := by omega
    subst this
    have := (w.link j q).mp hq
    rw [h] at this
    exact hj (Option.some.inj this).symm

theorem WF.mapSt {s : State} (w : WF s) (lo hi : Nat) {f : Status → Status} (hf : ∀ st, (f st).free = st.free) : WF (mapSt s lo hi f) := by
  refine ⟨fun e p => ?_, fun e he => ?_⟩
  · rw [mapSt_page]; exact w.link e p
  · rw [mapSt_page] at he
    have := w.mapped e he
    simp only [Flush.mapSt]
    split
    · simp only [hf]; exact this
    · exact this

theorem inR_union {lo mid hi : Nat} (h1 : lo ≤ mid) (h2 : mid ≤ hi) (o : Option Nat) :
    inR lo hi o = (inR lo mid o || inR mid hi o) ∧ (inR lo mid o = true → inR mid hi o = false) := by
  cases o with
  | none => simp [inR]
  | some q =>
    simp only [inR, decide_eq_true_eq, decide_eq_false_iff_not]
    refine ⟨?_, fun h => by omega⟩
    rw [← Bool.decide_or, decide_eq_decide]
    omega

theorem mapSt_mapSt (s : State) {lo mid hi : Nat} (f : Status → Status) (h1 : lo ≤ mid) (h2 : mid ≤ hi) : mapSt (mapSt s mid hi f) lo mid f = mapSt s lo hi f := by
  have : ∀ j, (mapSt (mapSt s mid hi f) lo mid f).entry j = (mapSt s lo hi f).entry j := by
    intro j
    obtain ⟨e, d⟩ := inR_union h1 h2 (s.entry j).page
    have hp := mapSt_page s mid hi f j
    show (if inR lo mid ((mapSt s mid hi f).entry j).page then { (mapSt s mid hi f).entry j with st := f ((mapSt s mid hi f).entry j).st } else (mapSt s mid hi f).entry j) = _
    rw [hp]
    cases ha : inR lo mid (s.entry j).page <;> cases hb : inR mid hi (s.entry j).page <;> simp_all [mapSt]
  exact congrArg (fun x => { s with entry := x }) (funext this)

theorem mapSt_mapSt' (s : State) {lo mid hi : Nat} (f : Status → Status) (h1 : lo ≤ mid) (h2 : mid ≤ hi) : mapSt (mapSt s lo mid f) mid hi f = mapSt s lo hi f := by
  have : ∀ j, (mapSt (mapSt s lo mid f) mid hi f).entry j = (mapSt s lo hi f).entry j := by
    intro j
    obtain ⟨e, d⟩ := inR_union h1 h2 (s.entry j).page
    have hp := mapSt_page s lo mid f j
    show (if inR mid hi ((mapSt s lo mid f).entry j).page then { (mapSt s lo mid f).entry j with st := f ((mapSt s lo mid f).entry j).st } else (mapSt s lo mid f).entry j) = _
    rw [hp]
    cases ha : inR lo mid (s.entry j).page <;> cases hb : inR mid hi (s.entry j).page <;> simp_all [mapSt]
  exact congrArg (fun x => { s with entry := x }) (funext this)

theorem mapSt_empty (s : State) (p : Nat) (f : Status → Status) : mapSt s p p f = s := by
  have : ∀ o, inR p p o = false := by intro o; cases o <;> simp [inR]
  simp [mapSt, this]

theorem can_mapSt {u : Bool} {s : State} {lo hi e p : Nat} {f : Status → Status} (hp : (s.entry e).page = some p) (hout : ¬ (lo ≤ p ∧ p < hi)) : can u (mapSt s lo hi f) e ↔ can u s e := by
  simp [can, mapSt, inR, hp, hout]

/-- Where a walk stops: at page `q`. -/
def Stop (P : Par) (u : Bool) (s : State) (a q : Nat) : Prop := q / P.ppe ≠ a / P.ppe ∨ s.lookup q = none ∨ ∃ e, s.lookup q = some e ∧ ¬ can u s e

theorem walkBack_spec (P : Par) (u : Bool) (a : Nat) : ∀ (p : Nat) (s : State), WF s → ∀ s' f, walkBack P u a p s = (s', f) →
    f ≤ p ∧ s' = mapSt s f p wb ∧ (∀ q, f ≤ q → q < p → q / P.ppe = a / P.ppe ∧ ∃ e, s.lookup q = some e ∧ can u s e) ∧
    (f = 0 ∨ Stop P u s a (f - 1)) := by
  intro p
  induction p with
  | zero =>
    intro s _ s' f h
    simp only [walkBack, Prod.mk.injEq] at h
    obtain ⟨rfl, rfl⟩ := h
    exact ⟨Nat.le_refl _, (mapSt_empty _ _ _).symm, fun q _ h => absurd h (by omega), .inl rfl⟩
  | succ p ih =>
    intro s w s' f h
    have stop : ∀ s' f, (s, p + 1) = (s', f) → Stop P u s a p →
        f ≤ p + 1 ∧ s' = mapSt s f (p + 1) wb ∧ (∀ q, f ≤ q → q < p + 1 → q / P.ppe = a / P.ppe ∧ ∃ e, s.lookup q = some e ∧ can u s e) ∧ (f = 0 ∨ Stop P u s a (f - 1)) := by
      intro s' f h hs
      simp only [Prod.mk.injEq] at h
      obtain ⟨rfl, rfl⟩ := h
      exact ⟨Nat.le_refl _, (mapSt_empty _ _ _).symm, fun q _ h => absurd h (by omega), .inr hs⟩
    unfold walkBack at h
    split at h
    · next hx =>
      split at h
      · next hl => exact stop _ _ h (.inr (.inl hl))
      · next e hl =>
        rw [trySet_eq] at h
        by_cases hc : okToWriteback u (s.entry e).st = true
        · rw [if_pos hc] at h
          simp only at h
          rw [setSt_mapSt w hl] at h
          obtain ⟨h1, h2, h3, h4⟩ := ih _ (w.mapSt _ _ (f := wb) (fun _ => rfl)) _ _ h
          have hcan : ∀ q, q < p → ∀ e', s.lookup q = some e' → (can u (mapSt s p (p + 1) wb) e' ↔ can u s e') := by
            intro q hq e' he
            exact can_mapSt ((w.link e' q).mpr he) (by omega)
          refine ⟨by omega, ?_, ?_, ?_⟩
          · rw [h2, mapSt_mapSt _ _ h1 (by omega)]
          · intro q hq1 hq2
            by_cases hqp : q = p
            · subst hqp; exact ⟨hx, e, hl, hc⟩
            · obtain ⟨h5, e', h6, h7⟩ := h3 q hq1 (by omega)
              exact ⟨h5, e', h6, (hcan q (by omega) e' h6).mp h7⟩
          · by_cases hf : f = 0
            · exact .inl hf
            · rcases h4 with h4 | h4
              · exact absurd h4 hf
              · right
                rcases h4 with h4 | h4 | ⟨e', h4, h5⟩
                · exact .inl h4
                · exact .inr (.inl h4)
                · exact .inr (.inr ⟨e', h4, fun h6 => h5 ((hcan (f - 1) (by omega) e' h4).mpr h6)⟩)
        · rw [if_neg hc] at h
          exact stop _ _ h (.inr (.inr ⟨e, hl, hc⟩))
    · next hx => exact stop _ _ h (.inl hx)

theorem walkFwd_spec (P : Par) (u : Bool) (a : Nat) (hppe : 0 < P.ppe) : ∀ (fuel p : Nat) (s : State), WF s → (a / P.ppe + 1) * P.ppe ≤ p + 1 + fuel → ∀ s' l, walkFwd P u a fuel p s = (s', l) →
    p < l ∧ s' = mapSt s (p + 1) l wb ∧ (∀ q, p < q → q < l → q / P.ppe = a / P.ppe ∧ ∃ e, s.lookup q = some e ∧ can u s e) ∧ Stop P u s a l := by
  intro fuel
  induction fuel with
  | zero =>
    intro p s _ hfuel s' l h
    simp only [walkFwd, Prod.mk.injEq] at h
    obtain ⟨rfl, rfl⟩ := h
    refine ⟨by omega, (mapSt_empty _ _ _).symm, fun q _ h => absurd h (by omega), .inl ?_⟩
    have : a / P.ppe + 1 ≤ (p + 1) / P.ppe := (Nat.le_div_iff_mul_le hppe).mpr (by omega)
    omega
  | succ fuel ih =>
    intro p s w hfuel s' l h
    have stop : ∀ s' l, (s, p + 1) = (s', l) → Stop P u s a (p + 1) →
        p < l ∧ s' = mapSt s (p + 1) l wb ∧ (∀ q, p < q → q < l → q / P.ppe = a / P.ppe ∧ ∃ e, s.lookup q = some e ∧ can u s e) ∧ Stop P u s a l := by
      intro s' f h hs
      simp only [Prod.mk.injEq] at h
      obtain ⟨rfl, rfl⟩ := h
      exact ⟨by omega, (mapSt_empty _ _ _).symm, fun q _ h => absurd h (by omega), hs⟩
    unfold walkFwd at h
    split at h
    · next hx =>
      split at h
      · next hl => exact stop _ _ h (.inr (.inl hl))
      · next e hl =>
        rw [trySet_eq] at h
        by_cases hc : okToWriteback u (s.entry e).st = true
        · rw [if_pos hc] at h
          simp only at h
          rw [setSt_mapSt w hl] at h
          obtain ⟨h1, h2, h3, h4⟩ := ih (p + 1) _ (w.mapSt _ _ (f := wb) (fun _ => rfl)) (by omega) _ _ h
          have hcan : ∀ q, p + 1 < q → ∀ e', s.lookup q = some e' → (can u (mapSt s (p + 1) (p + 1 + 1) wb) e' ↔ can u s e') := by
            intro q hq e' he
            exact can_mapSt ((w.link e' q).mpr he) (by omega)
          refine ⟨by omega, ?_, ?_, ?_⟩
          · rw [h2, mapSt_mapSt' _ _ (by omega) (by omega)]
          · intro q hq1 hq2
            by_cases hqp : q = p + 1
            · subst hqp; exact ⟨hx, e, hl, hc⟩
            · obtain ⟨h5, e', h6, h7⟩ := h3 q (by omega) hq2
              exact ⟨h5, e', h6, (hcan q (by omega) e' h6).mp h7⟩
          · rcases h4 with h4 | h4 | ⟨e', h4, h5⟩
            · exact .inl h4
            · exact .inr (.inl h4)
            · exact .inr (.inr ⟨e', h4, fun h6 => h5 ((hcan l (by omega) e' h4).mpr h6)⟩)
        · rw [if_neg hc] at h
          exact stop _ _ h (.inr (.inr ⟨e, hl, hc⟩))
    · next hx => exact stop _ _ h (.inl hx)

theorem callback_spec : ∀ (n f : Nat) (s : State), WF s → (∀ q, f ≤ q → q < f + n → s.lookup q ≠ none) →
    callback s ((List.range' f n).map s.lookup) = mapSt s f (f + n) fin := by
  intro n
  induction n with
  | zero => intro f s _ _; simp [callback, mapSt_empty]
  | succ n ih =>
    intro f s w h
    cases hl : s.lookup f with
    | none => exact absurd hl (h f (Nat.le_refl _) (by omega))
    | some e =>
      simp only [List.range'_succ, List.map_cons, hl, callback]
      have e1 : s.setSt e { (s.entry e).st with clean := true, writeback := false } = mapSt s f (f + 1) fin := setSt_mapSt w hl fin
      rw [e1]
      have := ih (f + 1) (mapSt s f (f + 1) fin) (w.mapSt _ _ (fun _ => rfl)) (fun q h1 h2 => h q (by omega) (by omega))
      simp only [mapSt] at this
      simp only [mapSt] at this ⊢
      rw [this]
      have h2 := mapSt_mapSt' s (lo := f) (mid := f + 1) (hi := f + 1 + n) fin (by omega) (by omega)
      simp only [mapSt] at h2
      rw [show f + (n + 1) = f + 1 + n by omega, ← h2]

theorem devWrite_spec (s : State) : ∀ (n f q : Nat), devWrite s f ((List.range' f n).map s.lookup) q =
    if f ≤ q ∧ q < f + n then iovData s (s.lookup q) else s.dev q := by
  intro n
  induction n with
  | zero => intro f q; simp [devWrite]; intro h; omega
  | succ n ih =>
    intro f q
    simp only [List.range'_succ, List.map_cons, devWrite, upd]
    by_cases hq : q = f
    · subst hq; rw [if_pos rfl, if_pos (by omega)]
    · rw [if_neg hq, ih]
      by_cases h : f + 1 ≤ q ∧ q < f + 1 + n
      · rw [if_pos h, if_pos (by omega)]
      · rw [if_neg h, if_neg (by omega)]

/-- One entry: nothing happens, or a run of pages around it is written. -/
theorem startOne_spec {P : Par} (hppe : 0 < P.ppe) {u : Bool} {s : State} (w : WF s) {e : Nat} (hc : can u s e) :
    ∃ a f l, (s.entry e).page = some a ∧ f ≤ a ∧ a < l ∧
      startOne P u s e = { mapSt s f l cl with
        dev := fun q => if f ≤ q ∧ q < l then iovData s (s.lookup q) else s.dev q,
        reqs := s.reqs ++ [⟨f, (List.range' f (l - f)).map s.lookup⟩] } ∧
      (∀ q, f ≤ q → q < l → q / P.ppe = a / P.ppe ∧ ∃ e, s.lookup q = some e ∧ can u s e) ∧
      (f = 0 ∨ Stop P u s a (f - 1)) ∧ Stop P u s a l := by
  cases hp : (s.entry e).page with
  | none =>
    exfalso
    have h1 := w.mapped e hp
    rcases ok_cases hc with h | ⟨-, h⟩ <;> rw [h] at h1 <;> cases h1
  | some a =>
    have hl := (w.link e a).mp hp
    have ht : trySet u s e = some (mapSt s a (a + 1) wb) := by
      have hok : okToWriteback u (s.entry e).st = true := hc
      rw [trySet_eq, if_pos hok, setSt_mapSt w hl]
    have w1 := w.mapSt a (a + 1) (f := wb) (fun _ => rfl)
    cases hb : walkBack P u a a (mapSt s a (a + 1) wb) with
    | mk s2 f =>
    obtain ⟨b1, b2, b3, b4⟩ := walkBack_spec P u a a _ w1 _ _ hb
    rw [mapSt_mapSt _ _ b1 (by omega)] at b2
    have w2 : WF s2 := by rw [b2]; exact w.mapSt _ _ (fun _ => rfl)
    cases hf : walkFwd P u a P.ppe a s2 with
    | mk s3 l =>
    have hfuel : (a / P.ppe + 1) * P.ppe ≤ a + 1 + P.ppe := by
      have := Nat.div_mul_le_self a P.ppe
      rw [Nat.add_mul]; omega
    obtain ⟨c1, c2, c3, c4⟩ := walkFwd_spec P u a hppe P.ppe a _ w2 hfuel _ _ hf
    rw [b2, mapSt_mapSt' _ _ (by omega) (by omega)] at c2
    have w3 : WF s3 := by rw [c2]; exact w.mapSt _ _ (fun _ => rfl)
    have hlk2 : s2.lookup = s.lookup := by rw [b2]; rfl
    have hlk3 : s3.lookup = s.lookup := by rw [c2]; rfl
    have canB : ∀ q, q < a → ∀ e', s.lookup q = some e' → (can u (mapSt s a (a + 1) wb) e' ↔ can u s e') :=
      fun q hq e' he => can_mapSt ((w.link e' q).mpr he) (by omega)
    have canF : ∀ q, a < q → ∀ e', s.lookup q = some e' → (can u s2 e' ↔ can u s e') := by
      intro q hq e' he
      rw [b2]
      exact can_mapSt ((w.link e' q).mpr he) (by omega)
    have hrun : ∀ q, f ≤ q → q < l → q / P.ppe = a / P.ppe ∧ ∃ e, s.lookup q = some e ∧ can u s e := by
      intro q h1 h2
      rcases Nat.lt_trichotomy q a with h | h | h
      · obtain ⟨h5, e', h6, h7⟩ := b3 q h1 h
        exact ⟨h5, e', h6, (canB q h e' h6).mp h7⟩
      · subst h; exact ⟨rfl, e, hl, hc⟩
      · obtain ⟨h5, e', h6, h7⟩ := c3 q h h2
        rw [hlk2] at h6
        exact ⟨h5, e', h6, (canF q h e' h6).mp h7⟩
    refine ⟨a, f, l, rfl, b1, c1, ?_, hrun, ?_, ?_⟩
    · have hok : okToWriteback u (s.entry e).st = true := hc
      unfold startOne
      rw [hok, ht, hp]
      simp only [hb, hf]
      have hw : WF { s3 with dev := devWrite s3 f ((List.range' f (l - f)).map s3.lookup), reqs := s3.reqs ++ [⟨f, (List.range' f (l - f)).map s3.lookup⟩] } := ⟨w3.link, w3.mapped⟩
      have hcb := callback_spec (l - f) f _ hw (by
        intro q h1 h2
        obtain ⟨-, e', h3, -⟩ := hrun q h1 (by omega)
        simp only [hlk3, h3]
        simp)
      simp only at hcb
      rw [hcb, show f + (l - f) = l by omega]
      have hd : ∀ q, devWrite s3 f ((List.range' f (l - f)).map s3.lookup) q = if f ≤ q ∧ q < l then iovData s (s.lookup q) else s.dev q := by
        intro q
        rw [devWrite_spec, show f + (l - f) = l by omega, hlk3]
        split
        · cases hq : s.lookup q with
          | none => rfl
          | some e' =>
            simp only [iovData, c2, mapSt]
            split <;> rfl
        · rw [c2]; rfl
      simp only [mapSt, State.mk.injEq]
      refine ⟨?_, hlk3, funext hd, by rw [hlk3, c2]; rfl⟩
      funext j
      have hpj : (s3.entry j).page = (s.entry j).page := by rw [c2, mapSt_page]
      rw [hpj]
      by_cases hj : inR f l (s.entry j).page = true
      · rw [if_pos hj, if_pos hj, c2]
        simp only [mapSt, if_pos hj]
        obtain ⟨q, hq, h1, h2⟩ := inR_iff.mp hj
        obtain ⟨-, e', h3, h4⟩ := hrun q h1 h2
        have : j = e' := by
          have := (w.link j q).mp hq
          rw [h3] at this
          exact (Option.some.inj this).symm
        subst this
        have : (s.entry j).st.writeback = false := by
          rcases ok_cases h4 with h | ⟨-, h⟩ <;> rw [h] <;> rfl
        simp [fin, wb, cl, this]
      · rw [if_neg hj, if_neg hj, c2]
        simp only [mapSt, if_neg hj]
    · rcases b4 with h | h | h | ⟨e', h, h'⟩
      · exact .inl h
      · exact .inr (.inl h)
      · exact .inr (.inr (.inl h))
      · by_cases hf0 : f = 0
        · exact .inl hf0
        · exact .inr (.inr (.inr ⟨e', h, fun h6 => h' ((canB (f - 1) (by omega) e' h).mpr h6)⟩))
    · rcases c4 with h | h | ⟨e', h, h'⟩
      · exact .inl h
      · rw [hlk2] at h; exact .inr (.inl h)
      · rw [hlk2] at h
        exact .inr (.inr ⟨e', h, fun h6 => h' ((canF l c1 e' h).mpr h6)⟩)

theorem startOne_skip {P : Par} {u : Bool} {s : State} {e : Nat} (hc : ¬ can u s e) : startOne P u s e = s := by
  have : okToWriteback u (s.entry e).st = false := by simpa [can] using hc
  unfold startOne
  rw [this]

end Splinter.Flush
