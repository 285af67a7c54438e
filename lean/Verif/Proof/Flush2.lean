import Verif.Proof.Flush
/-! The loops of `Model/Flush.lean`. -/
namespace Splinter.Flush

/-- The pages of a write. -/
def Req.pages (r : Req) : List Nat := List.range' r.first r.iov.length

/-- All pages written, in order. -/
def written (s : State) : List Nat := s.reqs.flatMap Req.pages

/-- A page that bounds a write: in another extent, not in the cache, or not to be written at the beginning. -/
def Bound (P : Par) (u : Bool) (s0 : State) (x q : Nat) : Prop := q / P.ppe ≠ x ∨ s0.lookup q = none ∨ ∃ e, s0.lookup q = some e ∧ ¬ can u s0 e

/-- A write is a run of cached pages of one extent that cannot be made longer. -/
structure GoodReq (P : Par) (u : Bool) (s0 : State) (r : Req) : Prop where
  iov : r.iov = r.pages.map s0.lookup
  pos : 0 < r.iov.length
  ext : ∀ p ∈ r.pages, p / P.ppe = r.first / P.ppe
  lo : r.first = 0 ∨ Bound P u s0 (r.first / P.ppe) (r.first - 1)
  hi : Bound P u s0 (r.first / P.ppe) (r.first + r.iov.length)

/-- How far write-back has come since `s0`. -/
structure Rel (P : Par) (u : Bool) (s0 s : State) : Prop where
  lookup : s.lookup = s0.lookup
  ent : ∀ e, s.entry e = if ∃ p ∈ written s, (s0.entry e).page = some p then { s0.entry e with st := cl (s0.entry e).st } else s0.entry e
  dev : ∀ p, s.dev p = if p ∈ written s then iovData s0 (s0.lookup p) else s0.dev p
  src : ∀ p ∈ written s, ∃ e, s0.lookup p = some e ∧ can u s0 e
  nodup : (written s).Nodup
  good : ∀ r ∈ s.reqs, GoodReq P u s0 r

theorem Rel.page {P : Par} {u : Bool} {s0 s : State} (r : Rel P u s0 s) (e : Nat) : (s.entry e).page = (s0.entry e).page := by
  rw [r.ent e]; split <;> rfl

theorem Rel.data {P : Par} {u : Bool} {s0 s : State} (r : Rel P u s0 s) (e : Nat) : (s.entry e).data = (s0.entry e).data := by
  rw [r.ent e]; split <;> rfl

theorem Rel.wf {P : Par} {u : Bool} {s0 s : State} (r : Rel P u s0 s) (w : WF s0) : WF s := by
  refine ⟨fun e p => ?_, fun e he => ?_⟩
  · rw [r.page, r.lookup]; exact w.link e p
  · rw [r.page] at he
    have := w.mapped e he
    rw [r.ent e]
    split
    · exact this
    · exact this

theorem not_ok_cl (u : Bool) (st : Status) : okToWriteback u (cl st) = false := by
  simp [okToWriteback, cl, stCleanable1, stCleanable2]

/-- An entry that can still be written has not been. -/
theorem Rel.can_iff {P : Par} {u : Bool} {s0 s : State} (r : Rel P u s0 s) {e p : Nat} (hp : (s0.entry e).page = some p) : can u s e ↔ can u s0 e ∧ p ∉ written s := by
  unfold can
  rw [r.ent e]
  by_cases h : p ∈ written s
  · rw [if_pos ⟨p, h, hp⟩]
    simp [not_ok_cl, h]
  · rw [if_neg]
    · simp [h]
    · rintro ⟨q, hq, hq'⟩
      rw [hp] at hq'
      cases hq'
      exact h hq

theorem Rel.init {P : Par} {u : Bool} {s : State} (h : s.reqs = []) : Rel P u s s := by
  have hw : written s = [] := by simp [written, h]
  refine ⟨rfl, fun e => by simp [hw], fun p => by simp [hw], by simp [hw], by simp [hw], by simp [h]⟩

theorem Rel.step {P : Par} (hppe : 0 < P.ppe) {u : Bool} {s0 s : State} (w : WF s0) (r : Rel P u s0 s) (e : Nat) : Rel P u s0 (startOne P u s e) ∧ ¬ can u (startOne P u s e) e := by
  by_cases hc : can u s e
  swap
  · rw [startOne_skip hc]; exact ⟨r, hc⟩
  have ws := r.wf w
  obtain ⟨a, f, l, hpa, hfa, hal, heq, hrun, hlo, hhi⟩ := startOne_spec hppe ws hc
  rw [heq]
  have hpages : (Req.mk f ((List.range' f (l - f)).map s.lookup)).pages = List.range' f (l - f) := by simp [Req.pages]
  have hmem : ∀ q, q ∈ List.range' f (l - f) ↔ f ≤ q ∧ q < l := by intro q; rw [List.mem_range'_1]; omega
  -- the pages of the run, at the beginning
  have hrun0 : ∀ q, f ≤ q → q < l → q / P.ppe = a / P.ppe ∧ q ∉ written s ∧ ∃ e, s0.lookup q = some e ∧ can u s0 e := by
    intro q h1 h2
    obtain ⟨h3, e', h4, h5⟩ := hrun q h1 h2
    have h6 := (ws.link e' q).mpr h4
    rw [r.page] at h6
    have h7 := (r.can_iff h6).mp h5
    exact ⟨h3, h7.2, e', by rw [← r.lookup]; exact h4, h7.1⟩
  have hwr : ∀ s' : State, s'.reqs = s.reqs ++ [⟨f, (List.range' f (l - f)).map s.lookup⟩] → written s' = written s ++ List.range' f (l - f) := by
    intro s' h
    simp only [written, h, List.flatMap_append, List.flatMap_cons, List.flatMap_nil, List.append_nil, hpages]
  set s' : State := { mapSt s f l cl with
        dev := fun q => if f ≤ q ∧ q < l then iovData s (s.lookup q) else s.dev q,
        reqs := s.reqs ++ [⟨f, (List.range' f (l - f)).map s.lookup⟩] } with hs'
  have hw' : written s' = written s ++ List.range' f (l - f) := hwr s' rfl
  have hfe : f / P.ppe = a / P.ppe := (hrun0 f (Nat.le_refl _) (by omega)).1
  -- a neighbour that cannot be written now could not at the beginning
  have stop : ∀ q, Stop P u s a q → (∃ q', f ≤ q' ∧ q' < l ∧ (q + 1 = q' ∨ q = q' + 1)) → Bound P u s0 (a / P.ppe) q := by
    intro q hs ⟨q', h1, h2, h3⟩
    rcases hs with h | h | ⟨e', h, h'⟩
    · exact .inl h
    · rw [r.lookup] at h; exact .inr (.inl h)
    · rw [r.lookup] at h
      have hp := (w.link e' q).mpr h
      by_cases hqw : q ∈ written s
      · by_cases hext : q / P.ppe = a / P.ppe
        swap
        · exact .inl hext
        exfalso
        obtain ⟨rq, hrq, hq⟩ := List.mem_flatMap.mp hqw
        have g := r.good rq hrq
        obtain ⟨h4, h5, e'', h6, h7⟩ := hrun0 q' h1 h2
        have hq' : q' ∉ rq.pages := fun hh => h5 (List.mem_flatMap.mpr ⟨rq, hrq, hh⟩)
        have hge := g.ext q hq
        simp only [Req.pages, List.mem_range'_1] at hq hq'
        have bad : ¬ Bound P u s0 (rq.first / P.ppe) q' := by
          rintro (hb | hb | ⟨e3, hb, hb'⟩)
          · omega
          · rw [h6] at hb; cases hb
          · rw [h6] at hb; cases hb; exact hb' h7
        rcases h3 with h3 | h3
        · have : q' = rq.first + rq.iov.length := by omega
          exact bad (this ▸ g.hi)
        · rcases g.lo with hz | hb
          · omega
          · have : q' = rq.first - 1 := by omega
            exact bad (this ▸ hb)
      · exact .inr (.inr ⟨e', h, fun hcan => h' ((r.can_iff hp).mpr ⟨hcan, hqw⟩)⟩)
  refine ⟨⟨?_, ?_, ?_, ?_, ?_, ?_⟩, ?_⟩
  · exact r.lookup
  · intro j
    rw [hw']
    show (if inR f l (s.entry j).page then { s.entry j with st := cl (s.entry j).st } else s.entry j) = _
    by_cases hj : inR f l (s.entry j).page = true
    · rw [if_pos hj]
      obtain ⟨q, hq, h1, h2⟩ := inR_iff.mp hj
      rw [r.page] at hq
      rw [if_pos ⟨q, by simp only [List.mem_append, hmem]; exact .inr ⟨h1, h2⟩, hq⟩]
      rw [r.ent j, if_neg]
      rintro ⟨q2, h3, h4⟩
      rw [hq] at h4
      cases h4
      exact (hrun0 q h1 h2).2.1 h3
    · rw [if_neg hj, r.ent j]
      have : (∃ p ∈ written s, (s0.entry j).page = some p) ↔ ∃ p ∈ written s ++ List.range' f (l - f), (s0.entry j).page = some p := by
        constructor
        · rintro ⟨p, h1, h2⟩; exact ⟨p, List.mem_append_left _ h1, h2⟩
        · rintro ⟨p, h1, h2⟩
          rcases List.mem_append.mp h1 with h1 | h1
          · exact ⟨p, h1, h2⟩
          · exfalso
            rw [hmem] at h1
            apply hj
            rw [r.page, inR_iff]
            exact ⟨p, h2, h1.1, h1.2⟩
      simp only [this]
  · intro p
    rw [hw']
    show (if f ≤ p ∧ p < l then iovData s (s.lookup p) else s.dev p) = _
    by_cases hp : f ≤ p ∧ p < l
    · rw [if_pos hp, if_pos (List.mem_append_right _ ((hmem p).mpr hp)), r.lookup]
      cases s0.lookup p with
      | none => rfl
      | some e' => exact r.data e'
    · rw [if_neg hp, r.dev p]
      have : p ∈ written s ↔ p ∈ written s ++ List.range' f (l - f) := by simp [List.mem_append, hmem, hp]
      simp only [this]
  · rw [hw']
    intro p hp
    rcases List.mem_append.mp hp with hp | hp
    · exact r.src p hp
    · rw [hmem] at hp
      exact (hrun0 p hp.1 hp.2).2.2
  · rw [hw', List.nodup_append]
    refine ⟨r.nodup, List.nodup_range', ?_⟩
    intro x hx y hy hxy
    subst hxy
    rw [hmem] at hy
    exact (hrun0 x hy.1 hy.2).2.1 hx
  · intro rq hrq
    rcases List.mem_append.mp hrq with hrq | hrq
    · exact r.good rq hrq
    · simp only [List.mem_singleton] at hrq
      subst hrq
      refine ⟨by rw [hpages, r.lookup], by simp; omega, ?_, ?_, ?_⟩
      · intro p hp
        rw [hpages, hmem] at hp
        rw [(hrun0 p hp.1 hp.2).1, hfe]
      · simp only
        by_cases hf0 : f = 0
        · exact .inl hf0
        · rcases hlo with h | h
          · exact absurd h hf0
          · exact .inr (hfe ▸ stop _ h ⟨f, Nat.le_refl _, by omega, .inl (by omega)⟩)
      · simp only [List.length_map, List.length_range']
        rw [show f + (l - f) = l by omega, hfe]
        exact stop _ hhi ⟨l - 1, by omega, by omega, .inr (by omega)⟩
  · show ¬ okToWriteback u (s'.entry e).st = true
    have : (s'.entry e) = { s.entry e with st := cl (s.entry e).st } := by
      show (if inR f l (s.entry e).page then { s.entry e with st := cl (s.entry e).st } else s.entry e) = _
      rw [if_pos (inR_iff.mpr ⟨a, hpa, hfa, hal⟩)]
    rw [this]
    simp [not_ok_cl]

/-- What cannot be written stays so. -/
theorem Rel.step_keeps {P : Par} (hppe : 0 < P.ppe) {u : Bool} {s0 s : State} (w : WF s0) (r : Rel P u s0 s) (e e' : Nat) (h : ¬ can u s e') : ¬ can u (startOne P u s e) e' := by
  by_cases hc : can u s e
  swap
  · rw [startOne_skip hc]; exact h
  obtain ⟨a, f, l, hpa, hfa, hal, heq, -⟩ := startOne_spec hppe (r.wf w) hc
  rw [heq]
  show ¬ okToWriteback u (if inR f l (s.entry e').page then { s.entry e' with st := cl (s.entry e').st } else s.entry e').st = true
  split
  · simp [not_ok_cl]
  · exact h

theorem Rel.fold {P : Par} (hppe : 0 < P.ppe) {u : Bool} {s0 : State} (w : WF s0) : ∀ (L : List Nat) (s : State), Rel P u s0 s →
    Rel P u s0 (L.foldl (startOne P u) s) ∧ (∀ e ∈ L, ¬ can u (L.foldl (startOne P u) s) e) ∧ ∀ e, ¬ can u s e → ¬ can u (L.foldl (startOne P u) s) e := by
  intro L
  induction L with
  | nil => intro s r; exact ⟨r, by simp, fun _ h => h⟩
  | cons a L ih =>
    intro s r
    obtain ⟨r1, h1⟩ := r.step hppe w a
    obtain ⟨r2, h2, h3⟩ := ih _ r1
    refine ⟨r2, ?_, fun e he => h3 e (r.step_keeps hppe w a e he)⟩
    intro e he
    rcases List.mem_cons.mp he with rfl | he
    · exact h3 _ h1
    · exact h2 e he

theorem foldl_batches {α : Type} (g : α → Nat → α) (n : Nat) : ∀ s : α,
    (List.range n).foldl (fun s b => (List.range' (b * batchSize) batchSize).foldl g s) s = (List.range (n * batchSize)).foldl g s := by
  induction n with
  | zero => intro s; simp
  | succ n ih =>
    intro s
    rw [List.range_succ, List.foldl_append, ih, List.foldl_cons, List.foldl_nil, ← List.foldl_append]
    congr 1
    rw [List.range_eq_range', List.range_eq_range', Nat.add_mul, Nat.one_mul]
    have := List.range'_append (s := 0) (m := n * batchSize) (n := batchSize) (step := 1)
    simpa using this

/-! ### Eviction -/

/-- Flags after the first look of the clock at an entry. -/
def unaccess (st : Status) : Status := { st with accessed := false }

theorem tryEvict_lookup_sub (s : State) (e p : Nat) : (tryEvict s e).lookup p = s.lookup p ∨ (tryEvict s e).lookup p = none := by
  unfold tryEvict
  dsimp only
  split
  · exact .inl rfl
  · split
    · simp only [upd]; split
      · exact .inr rfl
      · exact .inl rfl
    · exact .inl rfl

theorem tryEvict_other (s : State) {e j : Nat} (h : j ≠ e) : (tryEvict s e).entry j = s.entry j := by
  unfold tryEvict
  dsimp only
  split
  · simp [State.setSt, upd, h]
  · split <;> simp [State.setSt, upd, h]

/-- May be evicted. -/
def Evictable (x : Entry) : Prop := x.st = stEvictable ∧ x.ref = 0 ∧ x.pin = 0

instance (x : Entry) : Decidable (Evictable x) := inferInstanceAs (Decidable (_ ∧ _))

theorem tryEvict_self (s : State) (e : Nat) : (tryEvict s e).entry e = if Evictable (s.entry e) then { s.entry e with page := none, st := stFree } else { s.entry e with st := unaccess (s.entry e).st } := by
  unfold tryEvict
  dsimp only
  by_cases h : Evictable (s.entry e)
  · rw [if_pos h, if_neg (by unfold Evictable at h; tauto)]
    split
    · simp [upd]
    · next hp => simp [State.setSt, upd, hp]
  · rw [if_neg h, if_pos (by unfold Evictable at h; tauto)]
    simp [State.setSt, upd, unaccess]

theorem tryEvict_dev (s : State) (e : Nat) : (tryEvict s e).dev = s.dev := by
  unfold tryEvict
  dsimp only
  split
  · rfl
  · split <;> rfl

theorem tryEvict_lookup (s : State) (e p : Nat) : (tryEvict s e).lookup p = if Evictable (s.entry e) ∧ (s.entry e).page = some p then none else s.lookup p := by
  unfold tryEvict
  dsimp only
  by_cases h : Evictable (s.entry e)
  · rw [if_neg (by unfold Evictable at h; tauto)]
    split
    · next q hq => simp [upd, State.setSt, h, hq, eq_comm]
    · next hq => simp [State.setSt, hq]
  · rw [if_pos (by unfold Evictable at h; tauto), if_neg (by tauto)]
    rfl

theorem WF.tryEvict {s : State} (w : WF s) (e : Nat) : WF (tryEvict s e) := by
  refine ⟨fun j p => ?_, fun j hj => ?_⟩
  · rw [tryEvict_lookup]
    by_cases hje : j = e
    · subst hje
      rw [tryEvict_self]
      by_cases he : Evictable (s.entry j)
      · simp only [he, if_true, true_and]
        constructor
        · intro h; cases h
        · intro h
          split at h
          · cases h
          · next hne => exact absurd ((w.link j p).mpr h) hne
      · simp only [he, if_false, false_and]
        exact w.link j p
    · rw [tryEvict_other s hje, w.link j p]
      by_cases he : Evictable (s.entry e) ∧ (s.entry e).page = some p
      · rw [if_pos he]
        have := (w.link e p).mp he.2
        rw [this]
        simp [Ne.symm hje]
      · rw [if_neg he]
  · by_cases hje : j = e
    · subst hje
      rw [tryEvict_self] at hj ⊢
      split at hj
      · next he => rw [if_pos he]; rfl
      · next he => rw [if_neg he]; exact w.mapped j hj
    · rw [tryEvict_other s hje] at hj ⊢
      exact w.mapped j hj

end Splinter.Flush
