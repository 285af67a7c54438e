import Verif.Model.FreePage
import Verif.Props.Flush
/-!
# C61: a fetch finds room in the cache

A thread that needs an entry gets one as long as some page is not in use, and nobody loses anything.
-/
namespace Splinter.Flush

/-! ### What is kept -/

/-- A free entry has no page. -/
def FreeOk (s : State) : Prop := ∀ e, (s.entry e).st.free = true → (s.entry e).page = none

/-- From `s` to `s'` nothing is lost: readers get the same, pages in use stay. -/
def Safe (s s' : State) : Prop := WF s → InSync s → FreeOk s → WF s' ∧ InSync s' ∧ FreeOk s' ∧ (∀ p, view s' p = view s p) ∧
  ∀ e, (s.entry e).ref ≠ 0 ∨ (s.entry e).pin ≠ 0 → (s'.entry e).page = (s.entry e).page ∧ (s'.entry e).data = (s.entry e).data ∧ (s'.entry e).ref = (s.entry e).ref ∧ (s'.entry e).pin = (s.entry e).pin

theorem Safe.refl (s : State) : Safe s s := fun w i o => ⟨w, i, o, fun _ => rfl, fun _ _ => ⟨rfl, rfl, rfl, rfl⟩⟩

theorem Safe.trans {a b c : State} (h1 : Safe a b) (h2 : Safe b c) : Safe a c := by
  intro w i o
  obtain ⟨w1, i1, o1, v1, k1⟩ := h1 w i o
  obtain ⟨w2, i2, o2, v2, k2⟩ := h2 w1 i1 o1
  refine ⟨w2, i2, o2, fun p => (v2 p).trans (v1 p), fun e he => ?_⟩
  obtain ⟨a1, a2, a3, a4⟩ := k1 e he
  obtain ⟨b1, b2, b3, b4⟩ := k2 e (by rw [a3, a4]; exact he)
  exact ⟨b1.trans a1, b2.trans a2, b3.trans a3, b4.trans a4⟩

theorem rel_safe {P : Par} {u : Bool} {s s' : State} (r : Rel P u s s') : Safe s s' := by
  intro w i o
  refine ⟨r.wf w, ?_, ?_, ?_, ?_⟩
  · intro e p hp hc
    rw [r.page] at hp
    rw [r.data, r.dev p]
    have hl := (w.link e p).mp hp
    split
    · rw [hl]; rfl
    · next hn =>
      refine i e p hp ?_
      rw [r.ent e, if_neg] at hc
      · exact hc
      · rintro ⟨q, hq, hq'⟩
        rw [hp] at hq'
        cases hq'
        exact hn hq
  · intro e hf
    rw [r.page]
    refine o e ?_
    rw [r.ent e] at hf
    split at hf
    · exact hf
    · exact hf
  · intro p
    unfold view
    rw [r.lookup]
    cases hl : s.lookup p with
    | some e => exact r.data e
    | none =>
      simp only
      rw [r.dev p, if_neg]
      intro hp
      obtain ⟨e, h2, -⟩ := r.src p hp
      rw [hl] at h2
      cases h2
  · intro e _
    rw [r.ent e]
    split <;> exact ⟨rfl, rfl, rfl, rfl⟩

theorem startBatch_rel {P : Par} (hppe : 0 < P.ppe) (u : Bool) {s : State} (w : WF s) (b : Nat) :
    Rel P u { s with reqs := [] } (startBatch P u { s with reqs := [] } b) ∧
    ∀ e, b * batchSize ≤ e → e < (b + 1) * batchSize → ((startBatch P u { s with reqs := [] } b).entry e).st ≠ stCleanable1 := by
  have w' : WF { s with reqs := [] } := ⟨w.link, w.mapped⟩
  obtain ⟨r, h1, -⟩ := Rel.fold hppe w' (u := u) (List.range' (b * batchSize) batchSize) _ (Rel.init rfl)
  refine ⟨r, fun e ha hb hst => ?_⟩
  refine h1 e (List.mem_range'_1.mpr ⟨ha, by rw [Nat.add_mul] at hb; omega⟩) ?_
  unfold can okToWriteback
  unfold startBatch at hst
  rw [hst]
  simp

theorem safe_reqs (s : State) : Safe s { s with reqs := [] } := fun w i o => ⟨⟨w.link, w.mapped⟩, i, o, fun _ => rfl, fun _ _ => ⟨rfl, rfl, rfl, rfl⟩⟩

theorem cleanAhead_safe {P : HandPar} (hppe : 0 < P.ppe) (u : Bool) (s : State) (h : Nat) : Safe s (cleanAhead P u s h) := by
  intro w
  have : Safe s (cleanAhead P u s h) := by
    unfold cleanAhead
    dsimp only
    split
    · exact Safe.refl s
    · exact (safe_reqs s).trans (rel_safe (startBatch_rel hppe u w _).1)
  exact this w

theorem look_keeps {x : Entry} (h : x.ref ≠ 0 ∨ x.pin ≠ 0) : look x = { x with st := unaccess x.st } := by
  unfold look
  rw [if_neg]
  rintro ⟨-, h2, h3⟩
  rcases h with h | h
  · exact h h2
  · exact h h3

theorem evictBatch_spec {s : State} (w : WF s) (b : Nat) : WF (evictBatch s b) ∧ (evictBatch s b).dev = s.dev ∧
    (∀ e, (evictBatch s b).entry e = if e ∈ List.range' (b * batchSize) batchSize then look (s.entry e) else s.entry e) ∧
    (InSync s → InSync (evictBatch s b) ∧ ∀ p, view (evictBatch s b) p = view s p) := by
  unfold evictBatch
  exact fold_evict _ List.nodup_range' s w

theorem evictBatch_safe (s : State) (b : Nat) : Safe s (evictBatch s b) := by
  intro w i o
  obtain ⟨w1, -, e1, v1⟩ := evictBatch_spec w b
  refine ⟨w1, (v1 i).1, fun e => ?_, (v1 i).2, fun e he => ?_⟩
  · rw [e1 e]
    split
    · unfold look
      split
      · exact fun _ => rfl
      · exact o e
    · exact o e
  rw [e1 e]
  split
  · rw [look_keeps he]; exact ⟨rfl, rfl, rfl, rfl⟩
  · exact ⟨rfl, rfl, rfl, rfl⟩

/-- One round of the loop of `moveHand`. -/
def tick (P : HandPar) (u : Bool) (s : State) (x : Nat) : State :=
  if P.held (x % P.cap) then cleanAhead P u s (x % P.cap) else evictBatch (cleanAhead P u s (x % P.cap)) (x % P.cap)

theorem tick_safe {P : HandPar} (hppe : 0 < P.ppe) (u : Bool) (s : State) (x : Nat) : Safe s (tick P u s x) := by
  unfold tick
  split
  · exact cleanAhead_safe hppe u s _
  · exact (cleanAhead_safe hppe u s _).trans (evictBatch_safe _ _)

/-- What is kept by every round is kept by `moveHand`. -/
theorem moveHand_ind {P : HandPar} {u : Bool} (Q : Nat → State → Prop) (hQ : ∀ x s, Q x s → Q (x + 1) (tick P u s (x + 1))) :
    ∀ fuel s hand s' hand', Q hand s → moveHand P u fuel s hand = some (s', hand') →
      Q hand' s' ∧ hand < hand' ∧ P.held (hand' % P.cap) = false ∧ ∀ x, hand < x → x < hand' → P.held (x % P.cap) = true := by
  intro fuel
  induction fuel with
  | zero => intro s hand s' hand' _ h; cases h
  | succ fuel ih =>
    intro s hand s' hand' q h
    have q1 := hQ hand s q
    unfold moveHand at h
    unfold tick at q1
    dsimp only at h
    split at h
    · next hh =>
      rw [if_pos hh] at q1
      obtain ⟨h1, h2, h3, h4⟩ := ih _ _ _ _ q1 h
      refine ⟨h1, by omega, h3, fun x hx hx' => ?_⟩
      by_cases hxe : x = hand + 1
      · rw [hxe]; exact hh
      · exact h4 x (by omega) hx'
    · next hh =>
      rw [if_neg hh] at q1
      simp only [Option.some.injEq, Prod.mk.injEq] at h
      obtain ⟨rfl, rfl⟩ := h
      exact ⟨q1, by omega, by simpa using hh, fun x hx hx' => by omega⟩

/-- The hand stops at the next batch that nobody holds. -/
theorem moveHand_stops {P : HandPar} {u : Bool} : ∀ fuel s hand x, hand < x → x ≤ hand + fuel → P.held (x % P.cap) = false → ∃ s' hand', moveHand P u fuel s hand = some (s', hand') := by
  intro fuel
  induction fuel with
  | zero => intro s hand x h1 h2; omega
  | succ fuel ih =>
    intro s hand x h1 h2 h3
    unfold moveHand
    dsimp only
    split
    · next hh =>
      refine ih _ _ x ?_ (by omega) h3
      rcases Nat.lt_or_ge (hand + 1) x with h | h
      · exact h
      · have : x = hand + 1 := by omega
        rw [this, hh] at h3
        cases h3
    · exact ⟨_, _, rfl⟩

/-! ### The entry comes free -/

/-- Entry `e` is not in use, and: `k = 1`: not accessed; `k = 2`: also not dirty; `k = 3`: free. -/
def Class (e k : Nat) (s : State) : Prop := WF s ∧ (s.entry e).ref = 0 ∧ (s.entry e).pin = 0 ∧
  ((s.entry e).st = stFree ∨ (k ≤ 2 ∧ (s.entry e).st = stEvictable) ∨ (k ≤ 1 ∧ (s.entry e).st = stCleanable1) ∨
   (k = 0 ∧ ((s.entry e).st = { stEvictable with accessed := true } ∨ (s.entry e).st = stCleanable2)))

theorem Class.mono {e k l : Nat} {s : State} (h : Class e k s) (hl : l ≤ k) : Class e l s := by
  obtain ⟨w, h1, h2, h3⟩ := h
  refine ⟨w, h1, h2, ?_⟩
  rcases h3 with h | h | h | h
  · exact .inl h
  · exact .inr (.inl ⟨by omega, h.2⟩)
  · exact .inr (.inr (.inl ⟨by omega, h.2⟩))
  · exact .inr (.inr (.inr ⟨by omega, h.2⟩))

theorem Class.rel {P : Par} {u : Bool} {e k : Nat} {s s' : State} (r : Rel P u s s') (h : Class e k s) : Class e k s' := by
  obtain ⟨w, h1, h2, h3⟩ := h
  refine ⟨r.wf w, ?_, ?_, ?_⟩
  · rw [r.ent e]; split <;> exact h1
  · rw [r.ent e]; split <;> exact h2
  · rw [r.ent e]
    split
    · next hw =>
      obtain ⟨p, hp, hp'⟩ := hw
      obtain ⟨e', h4, h5⟩ := r.src p hp
      rw [(w.link e p).mp hp'] at h4
      cases h4
      have h6 : (s.entry e).st = stCleanable1 ∨ (s.entry e).st = stCleanable2 := by
        unfold can okToWriteback at h5
        rcases Bool.or_eq_true _ _ |>.mp h5 with h | h
        · exact .inl (of_decide_eq_true h)
        · exact .inr (of_decide_eq_true ((Bool.and_eq_true _ _ |>.mp h).2))
      rcases h6 with h6 | h6
      · have : k ≤ 1 := by
          rcases h3 with h | h | h | h <;> rw [h6] at h
          · cases h
          · cases h.2
          · exact h.1
          · omega
        right; left
        refine ⟨by omega, ?_⟩
        simp only [h6]; rfl
      · have : k = 0 := by
          rcases h3 with h | h | h | h <;> rw [h6] at h
          · cases h
          · cases h.2
          · cases h.2
          · exact h.1
        right; right; right
        refine ⟨this, .inl ?_⟩
        simp only [h6]; rfl
    · exact h3

theorem Class.look {k : Nat} {x : Entry} (h1 : x.ref = 0) (h2 : x.pin = 0)
    (h : x.st = stFree ∨ (k ≤ 2 ∧ x.st = stEvictable) ∨ (k ≤ 1 ∧ x.st = stCleanable1) ∨ (k = 0 ∧ (x.st = { stEvictable with accessed := true } ∨ x.st = stCleanable2))) :
    (look x).ref = 0 ∧ (look x).pin = 0 ∧ ((look x).st = stFree ∨ (k ≤ 1 ∧ (look x).st = stEvictable) ∨ (k ≤ 1 ∧ (look x).st = stCleanable1)) := by
  by_cases hev : Evictable x
  · have : Flush.look x = { x with page := none, st := stFree } := if_pos hev
    rw [this]
    exact ⟨h1, h2, .inl rfl⟩
  · have : Flush.look x = { x with st := unaccess x.st } := if_neg hev
    rw [this]
    refine ⟨h1, h2, ?_⟩
    rcases h with h | h | h | ⟨hk, h | h⟩
    · left; simp only [h]; rfl
    · exact absurd ⟨h.2, h1, h2⟩ hev
    · right; right; refine ⟨h.1, ?_⟩; simp only [h.2]; rfl
    · right; left; refine ⟨by omega, ?_⟩; simp only [h]; rfl
    · right; right; refine ⟨by omega, ?_⟩; simp only [h]; rfl

theorem Class.evict {e k : Nat} {s : State} (h : Class e k s) (b : Nat) : Class e k (evictBatch s b) ∧
    (b * batchSize ≤ e → e < (b + 1) * batchSize → Class e 1 (evictBatch s b) ∧ (2 ≤ k → Class e 3 (evictBatch s b))) := by
  obtain ⟨w, h1, h2, h3⟩ := h
  obtain ⟨w1, -, e1, -⟩ := evictBatch_spec w b
  obtain ⟨l1, l2, l3⟩ := Class.look h1 h2 h3
  constructor
  · by_cases hm : e ∈ List.range' (b * batchSize) batchSize
    · refine ⟨w1, by rw [e1, if_pos hm]; exact l1, by rw [e1, if_pos hm]; exact l2, ?_⟩
      rw [e1, if_pos hm]
      rcases l3 with l | l | l
      · exact .inl l
      · exact .inr (.inl ⟨by omega, l.2⟩)
      · exact .inr (.inr (.inl l))
    · exact ⟨w1, by rw [e1, if_neg hm]; exact h1, by rw [e1, if_neg hm]; exact h2, by rw [e1, if_neg hm]; exact h3⟩
  · intro ha hb
    have hm : e ∈ List.range' (b * batchSize) batchSize := List.mem_range'_1.mpr ⟨ha, by rw [Nat.add_mul] at hb; omega⟩
    constructor
    · refine ⟨w1, by rw [e1, if_pos hm]; exact l1, by rw [e1, if_pos hm]; exact l2, ?_⟩
      rw [e1, if_pos hm]
      rcases l3 with l | l | l
      · exact .inl l
      · exact .inr (.inl ⟨by omega, l.2⟩)
      · exact .inr (.inr (.inl ⟨by omega, l.2⟩))
    · intro hk
      refine ⟨w1, by rw [e1, if_pos hm]; exact l1, by rw [e1, if_pos hm]; exact l2, ?_⟩
      rw [e1, if_pos hm]
      rcases l3 with l | l | l
      · exact .inl l
      · omega
      · omega

theorem Class.clean {P : HandPar} (hppe : 0 < P.ppe) (u : Bool) {e k : Nat} {s : State} (h : Class e k s) (x : Nat) : Class e k (cleanAhead P u s x) ∧
    (P.held ((x + P.gap) % P.cap) = false → (x + P.gap) % P.cap = e / batchSize → 1 ≤ k → Class e 2 (cleanAhead P u s x)) := by
  obtain ⟨r, hd⟩ := startBatch_rel hppe u h.1 ((x + P.gap) % P.cap)
  have h' : Class e k { s with reqs := [] } := ⟨⟨h.1.link, h.1.mapped⟩, h.2⟩
  have hr := h'.rel r
  unfold cleanAhead
  dsimp only
  constructor
  · split
    · exact h
    · exact hr
  · intro hh hb hk
    rw [if_neg (by simp [hh])]
    obtain ⟨w, h1, h2, h3⟩ := hr
    refine ⟨w, h1, h2, ?_⟩
    have hbs : 0 < batchSize := by decide
    have hb1 : e / batchSize * batchSize ≤ e := Nat.div_mul_le_self e batchSize
    have hb2 : e < (e / batchSize + 1) * batchSize := by rw [Nat.mul_comm]; exact Nat.lt_mul_div_succ e hbs
    rcases h3 with l | l | l | l
    · exact .inl l
    · exact .inr (.inl ⟨by omega, l.2⟩)
    · exact absurd l.2 (hd e (hb ▸ hb1) (hb ▸ hb2))
    · omega

theorem Class.tick {P : HandPar} (hppe : 0 < P.ppe) (u : Bool) {e k : Nat} {s : State} (h : Class e k s) (hu : P.held (e / batchSize) = false) (x : Nat) :
    Class e k (tick P u s x) ∧ (x % P.cap = e / batchSize → Class e 1 (tick P u s x) ∧ (2 ≤ k → Class e 3 (tick P u s x))) ∧
    ((x % P.cap + P.gap) % P.cap = e / batchSize → 1 ≤ k → Class e 2 (tick P u s x) ∧ (x % P.cap = e / batchSize → Class e 3 (tick P u s x))) := by
  obtain ⟨c1, c2⟩ := h.clean hppe u (x % P.cap)
  have hbs : 0 < batchSize := by decide
  have hb1 : e / batchSize * batchSize ≤ e := Nat.div_mul_le_self e batchSize
  have hb2 : e < (e / batchSize + 1) * batchSize := by rw [Nat.mul_comm]; exact Nat.lt_mul_div_succ e hbs
  unfold Flush.tick
  refine ⟨?_, ?_, ?_⟩
  · split
    · exact c1
    · exact (c1.evict _).1
  · intro hx
    rw [hx] at c1 ⊢
    rw [if_neg (by simp [hu])]
    exact (c1.evict _).2 hb1 hb2
  · intro hx hk
    have c3 := c2 (by rw [hx]; exact hu) hx hk
    refine ⟨?_, fun hx' => ?_⟩
    · split
      · exact c3
      · exact (c3.evict _).1
    · rw [hx'] at c3 ⊢
      rw [if_neg (by simp [hu])]
      exact ((c3.evict _).2 hb1 hb2).2 (by omega)

/-- What is known of `e` when the hand is at `x`: at `x1` it is visited, at `y` its batch is cleaned, at `x2` it is visited again. -/
def Due (e x1 y x2 x : Nat) (s : State) : Prop := Class e 0 s ∧ (x1 ≤ x → Class e 1 s) ∧ (y ≤ x → Class e 2 s) ∧ (x2 ≤ x → Class e 3 s)

theorem Due.tick {P : HandPar} (hppe : 0 < P.ppe) (u : Bool) {e x1 y x2 x : Nat} {s : State} (hu : P.held (e / batchSize) = false)
    (h1 : x1 % P.cap = e / batchSize) (hy : (y % P.cap + P.gap) % P.cap = e / batchSize) (h2 : x2 % P.cap = e / batchSize) (ha : x1 < y) (hb : y ≤ x2)
    (h : Due e x1 y x2 x s) : Due e x1 y x2 (x + 1) (tick P u s (x + 1)) := by
  obtain ⟨d0, d1, d2, d3⟩ := h
  refine ⟨(d0.tick hppe u hu _).1, fun hx => ?_, fun hx => ?_, fun hx => ?_⟩
  · by_cases he : x1 = x + 1
    · exact ((d0.tick hppe u hu _).2.1 (he ▸ h1)).1
    · exact ((d1 (by omega)).tick hppe u hu _).1
  · by_cases he : y = x + 1
    · exact (((d1 (by omega)).tick hppe u hu _).2.2 (he ▸ hy) (by omega)).1
    · exact ((d2 (by omega)).tick hppe u hu _).1
  · by_cases he : x2 = x + 1
    · by_cases hye : y = x2
      · exact (((d1 (by omega)).tick hppe u hu _).2.2 (by rw [← he, ← hye]; exact hy) (by omega)).2 (he ▸ h2)
      · exact (((d2 (by omega)).tick hppe u hu _).2.1 (he ▸ h2)).2 (by omega)
    · exact ((d3 (by omega)).tick hppe u hu _).1

theorem scan_free {e : Nat} {s : State} (h : (s.entry e).st = stFree) : ∃ j, scan s (e / batchSize) = some j := by
  have hbs : 0 < batchSize := by decide
  have hb1 : e / batchSize * batchSize ≤ e := Nat.div_mul_le_self e batchSize
  have hb2 : e < (e / batchSize + 1) * batchSize := by rw [Nat.mul_comm]; exact Nat.lt_mul_div_succ e hbs
  have hm : e ∈ List.range' (e / batchSize * batchSize) batchSize := List.mem_range'_1.mpr ⟨hb1, by rw [Nat.add_mul] at hb2; omega⟩
  unfold scan
  cases hf : (List.range' (e / batchSize * batchSize) batchSize).find? fun e => (s.entry e).st = stFree with
  | some j => exact ⟨j, rfl⟩
  | none => exact absurd (List.find?_eq_none.mp hf e hm) (by simp [h])

theorem scan_spec {s : State} {h j : Nat} (hs : scan s h = some j) : (s.entry j).st = stFree ∧ j / batchSize = h := by
  unfold scan at hs
  refine ⟨by simpa using List.find?_some hs, ?_⟩
  have := List.mem_range'_1.mp (List.mem_of_find?_eq_some hs)
  have hbs : 0 < batchSize := by decide
  exact Nat.div_eq_of_lt_le this.1 (by rw [Nat.add_mul]; omega)

/-- The loop ends with an entry when `e` comes free at `X` and there are passes enough up to `X`. -/
theorem loop_found {P : HandPar} (hc : 0 < P.cap) (st : Status) {e X : Nat} (hu : P.held (e / batchSize) = false) (hX : X % P.cap = e / batchSize)
    (Q : Nat → State → Prop) (hQ : ∀ u x s, Q x s → Q (x + 1) (tick P u s (x + 1))) (hF : ∀ s, Q X s → (s.entry e).st = stFree) :
    ∀ n fuel s hand passes, X - hand = n → Q hand s → hand ≤ X → n + P.cap < fuel → passes + (X / P.cap - hand / P.cap) < 3 →
      ∃ j s' hand', getLoop P st fuel s hand (hand % P.cap) (hand % P.cap) passes = .got j s' hand' := by
  intro n
  induction n using Nat.strongRecOn with
  | _ n ih =>
    intro fuel s hand passes hn q hle hfuel hp
    obtain ⟨f, rfl⟩ : ∃ f, fuel = f + 1 := ⟨fuel - 1, by omega⟩
    unfold getLoop
    rw [if_neg (by omega)]
    cases hsc : scan s (hand % P.cap) with
    | some j => exact ⟨j, _, _, rfl⟩
    | none =>
      have hlt : hand < X := by
        rcases Nat.lt_or_ge hand X with h | h
        · exact h
        · have hh : hand = X := by omega
          subst hh
          obtain ⟨j, hj⟩ := scan_free (hF s q)
          rw [hX, hj] at hsc
          cases hsc
      -- the hand stops no later than `X`, and no later than a full turn
      obtain ⟨x, hx1, hx2, hx3, hx4⟩ : ∃ x, hand < x ∧ x ≤ X ∧ x ≤ hand + P.cap ∧ P.held (x % P.cap) = false := by
        rcases Nat.lt_or_ge (hand + P.cap) X with h | h
        · refine ⟨X - P.cap * ((X - hand - 1) / P.cap), ?_, by omega, ?_, ?_⟩
          · have := Nat.mul_div_le (X - hand - 1) P.cap; omega
          · have := Nat.lt_mul_div_succ (X - hand - 1) hc
            rw [Nat.mul_add] at this
            omega
          · rw [Nat.sub_mul_mod (by have := Nat.mul_div_le (X - hand - 1) P.cap; omega), hX]; exact hu
        · exact ⟨X, hlt, Nat.le_refl _, h, by rw [hX]; exact hu⟩
      obtain ⟨s', hand', hm⟩ := moveHand_stops (P := P) (u := decide (passes ≠ 0)) f s hand x hx1 (by omega) hx4
      obtain ⟨q', hlt', hh', hbetween⟩ := moveHand_ind Q (hQ _) _ _ _ _ _ q hm
      have hle' : hand' ≤ x := by
        by_contra hgt
        have := hbetween x hx1 (by omega)
        rw [hx4] at this
        cases this
      simp only [hm]
      refine ih (X - hand') (by omega) f s' hand' _ rfl q' (by omega) (by omega) ?_
      have hmono : hand / P.cap ≤ hand' / P.cap := Nat.div_le_div_right (by omega)
      have hmono2 : hand' / P.cap ≤ X / P.cap := Nat.div_le_div_right (by omega)
      split
      · next hw =>
        have : hand / P.cap < hand' / P.cap := by
          by_contra hge
          have heq : hand / P.cap = hand' / P.cap := by omega
          have e1 := Nat.div_add_mod hand P.cap
          have e2 := Nat.div_add_mod hand' P.cap
          rw [heq] at e1
          omega
        omega
      · omega

/-- The next place of the hand where it is at batch `b`. -/
theorem next_visit {cap b hand : Nat} (hb : b < cap) : ∃ x, hand < x ∧ x ≤ hand + cap ∧ x % cap = b := by
  have hc : 0 < cap := by omega
  refine ⟨hand + 1 + (b + (cap - (hand + 1) % cap)) % cap, by omega, ?_, ?_⟩
  · have := Nat.mod_lt (b + (cap - (hand + 1) % cap)) hc; omega
  · have h1 := Nat.div_add_mod (hand + 1) cap
    have h2 := Nat.mod_lt (hand + 1) hc
    rw [Nat.add_mod, Nat.mod_mod, ← Nat.add_mod]
    have : hand + 1 + (b + (cap - (hand + 1) % cap)) = b + cap * ((hand + 1) / cap + 1) := by rw [Nat.mul_add]; omega
    rw [this, Nat.add_mul_mod_self_left, Nat.mod_eq_of_lt hb]

/-- The place, between two visits of batch `b`, where the cleaner is at `b`. -/
theorem next_clean {cap gap b x : Nat} (hb : b < cap) : ∃ y, x < y ∧ y ≤ x + cap ∧ (y % cap + gap) % cap = b := by
  have hc : 0 < cap := by omega
  obtain ⟨y, h1, h2, h3⟩ := next_visit (cap := cap) (b := (b + (cap - gap % cap)) % cap) (hand := x) (Nat.mod_lt _ hc)
  refine ⟨y, h1, h2, ?_⟩
  rw [h3]
  have h4 := Nat.mod_lt gap hc
  rw [Nat.add_mod, Nat.mod_mod, ← Nat.add_mod]
  have h5 := Nat.div_add_mod gap cap
  have : b + (cap - gap % cap) + gap = b + cap * (gap / cap + 1) := by rw [Nat.mul_add]; omega
  rw [this, Nat.add_mul_mod_self_left, Nat.mod_eq_of_lt hb]

/-- Entry `e` holds a page that nobody uses, clean or dirty, accessed or not, or is free. -/
def Unused (s : State) (e : Nat) : Prop := (s.entry e).ref = 0 ∧ (s.entry e).pin = 0 ∧
  ((s.entry e).st = stFree ∨ (s.entry e).st = stEvictable ∨ (s.entry e).st = { stEvictable with accessed := true } ∨ Dirty s e)

theorem Unused.class {s : State} {e : Nat} (w : WF s) (h : Unused s e) : Class e 0 s := by
  obtain ⟨h1, h2, h3⟩ := h
  refine ⟨w, h1, h2, ?_⟩
  rcases h3 with h | h | h | h | h
  · exact .inl h
  · exact .inr (.inl ⟨by omega, h⟩)
  · exact .inr (.inr (.inr ⟨rfl, .inl h⟩))
  · exact .inr (.inr (.inl ⟨by omega, h⟩))
  · exact .inr (.inr (.inr ⟨rfl, .inr h⟩))

theorem turn {cap hand x : Nat} (hc : 0 < cap) (h : x ≤ hand + cap) : x / cap ≤ hand / cap + 1 := by
  calc x / cap ≤ (hand + cap) / cap := Nat.div_le_div_right h
    _ = hand / cap + 1 := Nat.add_div_right _ hc

/-- The full statement: a fetch finds room if any entry outside the batches of the others is not in use. Refuted by `not_findsRoom`; `finds_room_partial` and `finds_room_clean` are what holds. -/
def FindsRoom : Prop := ∀ (P : HandPar) (st : Status) (s : State) (e hand : Nat) (fh : Option Nat), 0 < P.ppe → WF s → e / batchSize < P.cap → P.held (e / batchSize) = false → Unused s e →
  ∃ n, ∀ fuel ≥ n, ∃ j s' hand', getFree P st fuel s hand fh = .got j s' hand'

/-- A thread that was the last to move the hand finds room, if any entry outside the batches of the others is not in use. -/
theorem finds_room_partial {P : HandPar} (hppe : 0 < P.ppe) (st : Status) {s : State} (w : WF s) {e hand : Nat} (he : e / batchSize < P.cap) (hu : P.held (e / batchSize) = false) (h : Unused s e) :
    ∃ n, ∀ fuel ≥ n, ∃ j s' hand', getFree P st fuel s hand (some (hand % P.cap)) = .got j s' hand' := by
  have hc : 0 < P.cap := Nat.lt_of_le_of_lt (Nat.zero_le _) he
  obtain ⟨x1, a1, a2, a3⟩ := next_visit (hand := hand) he
  obtain ⟨y, b1, b2, b3⟩ := next_clean (gap := P.gap) (x := x1) he
  have hx2 : (x1 + P.cap) % P.cap = e / batchSize := by rw [Nat.add_mod_right]; exact a3
  refine ⟨x1 + P.cap - hand + P.cap + 1, fun fuel hf => ?_⟩
  refine loop_found hc st (X := x1 + P.cap) hu hx2 (Due e x1 y (x1 + P.cap)) (fun u x t => Due.tick hppe u hu a3 b3 hx2 b1 b2)
    (fun t q => ?_) _ fuel s hand 0 rfl ⟨h.class w, fun _ => by omega, fun _ => by omega, fun _ => by omega⟩ (by omega) (by omega) ?_
  · obtain ⟨-, -, -, h3⟩ := q.2.2.2 (Nat.le_refl _)
    rcases h3 with h3 | h3 | h3 | h3
    · exact h3
    · omega
    · omega
    · omega
  · have h1 := turn hc a2
    rw [Nat.add_div_right _ hc]
    omega

theorem first_step {P : HandPar} (hc : 0 < P.cap) (st : Status) {e X : Nat} (hu : P.held (e / batchSize) = false) (hX : X % P.cap = e / batchSize)
    (Q : Nat → State → Prop) (hQ : ∀ u x s, Q x s → Q (x + 1) (tick P u s (x + 1))) (hF : ∀ s, Q X s → (s.entry e).st = stFree)
    {fuel : Nat} {s : State} {hand : Nat} (fh maxHand : Nat) (q : Q hand s) (h1 : hand < X) (h2 : X ≤ hand + P.cap) (hf : 2 * P.cap + 1 < fuel) :
    ∃ j s' hand', getLoop P st fuel s hand fh maxHand 0 = .got j s' hand' := by
  obtain ⟨f, rfl⟩ : ∃ f, fuel = f + 1 := ⟨fuel - 1, by omega⟩
  unfold getLoop
  rw [if_neg (by omega)]
  cases hsc : scan s fh with
  | some j => exact ⟨j, _, _, rfl⟩
  | none =>
    obtain ⟨s', hand', hm⟩ := moveHand_stops (P := P) (u := decide (0 ≠ 0)) f s hand X h1 (by omega) (by rw [hX]; exact hu)
    obtain ⟨q', hlt', hh', hbetween⟩ := moveHand_ind Q (hQ _) _ _ _ _ _ q hm
    have hle' : hand' ≤ X := by
      by_contra hgt
      have := hbetween X h1 (by omega)
      rw [hX, hu] at this
      cases this
    simp only [hm]
    refine loop_found hc st hu hX Q hQ hF _ f s' hand' _ rfl q' hle' (by omega) ?_
    have := turn hc (show X ≤ hand' + P.cap by omega)
    split <;> omega

/-- Any thread finds room, if an entry outside the batches of the others is free, or is clean and was not accessed. -/
theorem finds_room_clean {P : HandPar} (hppe : 0 < P.ppe) (st : Status) {s : State} (w : WF s) {e hand : Nat} (fh : Option Nat) (he : e / batchSize < P.cap) (hu : P.held (e / batchSize) = false)
    (hr : (s.entry e).ref = 0) (hp : (s.entry e).pin = 0) (h : (s.entry e).st = stFree ∨ (s.entry e).st = stEvictable) :
    ∃ n, ∀ fuel ≥ n, ∃ j s' hand', getFree P st fuel s hand fh = .got j s' hand' := by
  have hc : 0 < P.cap := Nat.lt_of_le_of_lt (Nat.zero_le _) he
  obtain ⟨X, a1, a2, a3⟩ := next_visit (hand := hand) he
  have hcl : Class e 2 s := by
    refine ⟨w, hr, hp, ?_⟩
    rcases h with h | h
    · exact .inl h
    · exact .inr (.inl ⟨by omega, h⟩)
  let Q : Nat → State → Prop := fun x t => Class e 2 t ∧ (X ≤ x → Class e 3 t)
  have hQ : ∀ u x t, Q x t → Q (x + 1) (tick P u t (x + 1)) := by
    intro u x t q
    refine ⟨(q.1.tick hppe u hu _).1, fun hx => ?_⟩
    by_cases hxe : X = x + 1
    · exact ((q.1.tick hppe u hu _).2.1 (hxe ▸ a3)).2 (by omega)
    · exact ((q.2 (by omega)).tick hppe u hu _).1
  have hF : ∀ t, Q X t → (t.entry e).st = stFree := by
    intro t q
    obtain ⟨-, -, -, h3⟩ := q.2 (Nat.le_refl _)
    rcases h3 with h3 | h3 | h3 | h3
    · exact h3
    · omega
    · omega
    · omega
  have q0 : Q hand s := ⟨hcl, fun hx => by omega⟩
  refine ⟨2 * P.cap + 2, fun fuel hf => ?_⟩
  cases fh with
  | some fh => exact first_step hc st hu a3 Q hQ hF fh fh q0 a1 a2 (by omega)
  | none =>
    obtain ⟨s', hand', hm⟩ := moveHand_stops (P := P) (u := false) fuel s hand X a1 (by omega) (by rw [a3]; exact hu)
    obtain ⟨q', hlt', hh', hbetween⟩ := moveHand_ind Q (hQ _) _ _ _ _ _ q0 hm
    have hle' : hand' ≤ X := by
      by_contra hgt
      have := hbetween X a1 (by omega)
      rw [a3, hu] at this
      cases this
    unfold getFree
    simp only [hm]
    rcases Nat.lt_or_ge hand' X with hlt | hge
    · exact first_step hc st hu a3 Q hQ hF _ _ q' hlt (by omega) (by omega)
    · have hh : hand' = X := by omega
      subst hh
      obtain ⟨f, rfl⟩ : ∃ f, fuel = f + 1 := ⟨fuel - 1, by omega⟩
      unfold getLoop
      rw [if_neg (by omega)]
      obtain ⟨j, hj⟩ := scan_free (hF s' q')
      rw [a3, hj]
      exact ⟨j, _, _, rfl⟩

/-- Nothing is lost by the search, whatever comes of it; the entry that is found was not in use, and is nobody's now. -/
def Fair (st : Status) (s : State) : Res → Prop
  | .got j s' _ => (s'.entry j).page = none ∧ (s'.entry j).st = st ∧ ((s.entry j).page ≠ none → (s.entry j).ref = 0 ∧ (s.entry j).pin = 0) ∧ (∀ p, view s' p = view s p) ∧
      ∀ e, (s.entry e).page ≠ none → (s.entry e).ref ≠ 0 ∨ (s.entry e).pin ≠ 0 → (s'.entry e).page = (s.entry e).page ∧ (s'.entry e).data = (s.entry e).data
  | .locked s' _ => ∀ p, view s' p = view s p
  | .spins => True

theorem getLoop_fair {P : HandPar} (hppe : 0 < P.ppe) (st : Status) {s0 : State} (w : WF s0) (hi : InSync s0) (ho : FreeOk s0) :
    ∀ fuel s hand fh maxHand passes, Safe s0 s → Fair st s0 (getLoop P st fuel s hand fh maxHand passes) := by
  intro fuel
  induction fuel with
  | zero => intro s hand fh maxHand passes _; trivial
  | succ fuel ih =>
    intro s hand fh maxHand passes hs
    obtain ⟨w1, i1, o1, v1, k1⟩ := hs w hi ho
    unfold getLoop
    split
    · exact v1
    · split
      · next j hj =>
        have hfree := (scan_spec hj).1
        have hnone : (s.entry j).page = none := o1 j (by rw [hfree]; rfl)
        have hlook : ∀ p, s.lookup p ≠ some j := fun p hp => by
          have := (w1.link j p).mpr hp
          rw [hnone] at this
          cases this
        refine ⟨by simp [State.setSt, upd, hnone], by simp [State.setSt, upd], fun hp => ?_, fun p => ?_, fun e hpe he => ?_⟩
        · by_contra hcon
          have := (k1 j (by omega)).1
          rw [hnone] at this
          exact hp this.symm
        · rw [← v1 p]
          unfold view
          have : (s.setSt j st).lookup = s.lookup := rfl
          rw [this]
          cases hl : s.lookup p with
          | none => rfl
          | some i =>
            have hij : i ≠ j := fun h => hlook p (h ▸ hl)
            simp [State.setSt, upd, hij]
        · obtain ⟨b1, b2, -, -⟩ := k1 e he
          have hej : e ≠ j := by
            intro h
            subst h
            rw [hnone] at b1
            exact hpe b1.symm
          simp [State.setSt, upd, hej, b1, b2]
      · split
        · trivial
        · next hm =>
          refine ih _ _ _ _ _ (hs.trans ?_)
          exact (moveHand_ind (fun _ t => Safe s t) (fun x t ht => ht.trans (tick_safe hppe _ t _)) _ _ _ _ _ (Safe.refl s) hm).1

theorem search_fair {P : HandPar} (hppe : 0 < P.ppe) (st : Status) {s : State} (w : WF s) (hi : InSync s) (ho : FreeOk s) (fuel hand : Nat) (fh : Option Nat) : Fair st s (getFree P st fuel s hand fh) := by
  cases fh with
  | some fh => exact getLoop_fair hppe st w hi ho fuel s hand fh fh 0 (Safe.refl s)
  | none =>
    unfold getFree
    dsimp only
    split
    · trivial
    · next hm =>
      exact getLoop_fair hppe st w hi ho fuel _ _ _ _ 0 (moveHand_ind (fun _ t => Safe s t) (fun x t ht => ht.trans (tick_safe hppe _ t _)) _ _ _ _ _ (Safe.refl s) hm).1

/-! ### The search ends -/

theorem loop_ends {P : HandPar} (st : Status) {b1 b2 : Nat} (h1 : b1 < P.cap) (h2 : b2 < P.cap) (hne : b1 ≠ b2) (u1 : P.held b1 = false) (u2 : P.held b2 = false) :
    ∀ n fuel s hand passes, (3 - passes) * P.cap - hand % P.cap = n → n + P.cap < fuel → getLoop P st fuel s hand (hand % P.cap) (hand % P.cap) passes ≠ .spins := by
  have hc : 0 < P.cap := by omega
  intro n
  induction n using Nat.strongRecOn with
  | _ n ih =>
    intro fuel s hand passes hn hfuel
    obtain ⟨f, rfl⟩ : ∃ f, fuel = f + 1 := ⟨fuel - 1, by omega⟩
    unfold getLoop
    by_cases h3 : 3 ≤ passes
    · rw [if_pos h3]; intro h; cases h
    · rw [if_neg h3]
      cases hs : scan s (hand % P.cap) with
      | some j => intro h; cases h
      | none =>
        obtain ⟨b, hb, hbu, hbn⟩ : ∃ b < P.cap, P.held b = false ∧ b ≠ hand % P.cap := by
          by_cases h : b1 = hand % P.cap
          · exact ⟨b2, h2, u2, fun h' => hne (h.trans h'.symm)⟩
          · exact ⟨b1, h1, u1, h⟩
        obtain ⟨x, a1, a2, a3⟩ := next_visit (hand := hand) hb
        have hx : x < hand + P.cap := by
          rcases Nat.lt_or_ge x (hand + P.cap) with h | h
          · exact h
          · exact absurd (by rw [← a3, show x = hand + P.cap by omega, Nat.add_mod_right]) hbn
        have hfx : x ≤ hand + f := by omega
        obtain ⟨s', hand', hm⟩ := moveHand_stops (P := P) (u := decide (passes ≠ 0)) f s hand x a1 hfx (by rw [a3]; exact hbu)
        obtain ⟨-, hlt', hh', hbetween⟩ := moveHand_ind (fun _ _ => True) (fun _ _ _ => trivial) _ _ _ _ _ trivial hm
        have hle' : hand' ≤ x := by
          by_contra hgt
          have := hbetween x a1 (by omega)
          rw [a3, hbu] at this
          cases this
        simp only [hm]
        have m1 := Nat.mod_lt hand hc
        have m2 := Nat.mod_lt hand' hc
        have hmul : (3 - passes) * P.cap = (3 - (passes + 1)) * P.cap + P.cap := by
          rw [show 3 - passes = 3 - (passes + 1) + 1 by omega, Nat.add_mul, Nat.one_mul]
        by_cases hw : hand' % P.cap < hand % P.cap
        · rw [if_pos hw]
          exact ih _ (by omega) f s' hand' _ rfl (by omega)
        · rw [if_neg hw]
          have hne' : hand' % P.cap ≠ hand % P.cap := by
            intro heq
            have e1 := Nat.div_add_mod hand P.cap
            have e2 := Nat.div_add_mod hand' P.cap
            rw [heq] at e2
            have hd : hand / P.cap < hand' / P.cap := by
              by_contra hge
              have := Nat.mul_le_mul_left P.cap (Nat.not_lt.mp hge)
              omega
            have := Nat.mul_le_mul_left P.cap (Nat.succ_le_of_lt hd)
            rw [Nat.mul_succ] at this
            omega
          exact ih _ (by omega) f s' hand' _ rfl (by omega)

/-- With two batches that no other thread holds the search ends, with an entry or with "cache locked". -/
theorem search_ends {P : HandPar} (st : Status) {b1 b2 : Nat} (h1 : b1 < P.cap) (h2 : b2 < P.cap) (hne : b1 ≠ b2) (u1 : P.held b1 = false) (u2 : P.held b2 = false) (s : State) (hand : Nat) (fh : Option Nat) :
    ∃ n, ∀ fuel ≥ n, getFree P st fuel s hand fh ≠ .spins := by
  have hc : 0 < P.cap := by omega
  have step : ∀ fuel s hand fh m, 5 * P.cap + 2 ≤ fuel → getLoop P st fuel s hand fh m 0 ≠ .spins := by
    intro fuel s hand fh m hf
    obtain ⟨f, rfl⟩ : ∃ f, fuel = f + 1 := ⟨fuel - 1, by omega⟩
    unfold getLoop
    rw [if_neg (by omega)]
    cases hs : scan s fh with
    | some j => intro h; cases h
    | none =>
      obtain ⟨x, a1, a2, a3⟩ := next_visit (hand := hand) h1
      obtain ⟨s', hand', hm⟩ := moveHand_stops (P := P) (u := decide (0 ≠ 0)) f s hand x a1 (by omega) (by rw [a3]; exact u1)
      simp only [hm]
      refine loop_ends st h1 h2 hne u1 u2 _ f s' hand' _ rfl ?_
      have : (3 - if hand' % P.cap < m then 0 + 1 else 0) * P.cap ≤ 3 * P.cap := Nat.mul_le_mul_right _ (by omega)
      omega
  refine ⟨5 * P.cap + 2, fun fuel hf => ?_⟩
  cases fh with
  | some fh => exact step fuel s hand fh fh hf
  | none =>
    obtain ⟨x, a1, a2, a3⟩ := next_visit (hand := hand) h1
    obtain ⟨s', hand', hm⟩ := moveHand_stops (P := P) (u := false) fuel s hand x a1 (by omega) (by rw [a3]; exact u1)
    unfold getFree
    simp only [hm]
    exact step fuel s' hand' _ _ hf

/-! ### What does not hold -/

/-- With one batch no pass is ever counted: when all pages are in use the call neither gives up nor waits for anything, it turns for ever. A call that must not block does so too. -/
theorem one_batch_spins {P : HandPar} (hppe : 0 < P.ppe) (h1 : P.cap = 1) (st : Status) : ∀ fuel s hand, WF s → (∀ e < batchSize, (s.entry e).pin ≠ 0 ∧ (s.entry e).st.free = false) →
    getFree P st fuel s hand (some 0) = .spins := by
  have main : ∀ fuel s hand, WF s → (∀ e < batchSize, (s.entry e).pin ≠ 0 ∧ (s.entry e).st.free = false) → getLoop P st fuel s hand 0 0 0 = .spins := by
    intro fuel
    induction fuel with
    | zero => intro s hand _ _; rfl
    | succ fuel ih =>
      intro s hand w hu
      unfold getLoop
      rw [if_neg (by omega)]
      cases hs : scan s 0 with
      | some j =>
        obtain ⟨hf, hj⟩ := scan_spec hs
        have hjl : j < batchSize := by
          have := Nat.lt_mul_div_succ j (show 0 < batchSize by decide)
          rw [hj] at this
          simpa using this
        have := (hu j hjl).2
        rw [hf] at this
        cases this
      | none =>
        simp only
        cases hm : moveHand P (decide (0 ≠ 0)) fuel s hand with
        | none => rfl
        | some r =>
          obtain ⟨s', hand'⟩ := r
          obtain ⟨⟨w', hu'⟩, -⟩ := moveHand_ind (fun _ t => WF t ∧ ∀ e < batchSize, (t.entry e).pin ≠ 0 ∧ (t.entry e).st.free = false) (fun x t ht => by
            obtain ⟨wt, ht⟩ := ht
            have hc : WF (cleanAhead P (decide (0 ≠ 0)) t ((x + 1) % P.cap)) ∧ ∀ e < batchSize, ((cleanAhead P (decide (0 ≠ 0)) t ((x + 1) % P.cap)).entry e).pin ≠ 0 ∧
                ((cleanAhead P (decide (0 ≠ 0)) t ((x + 1) % P.cap)).entry e).st.free = false := by
              unfold cleanAhead
              dsimp only
              split
              · exact ⟨wt, ht⟩
              · obtain ⟨r, -⟩ := startBatch_rel hppe (decide (0 ≠ 0)) wt (((x + 1) % P.cap + P.gap) % P.cap)
                refine ⟨r.wf ⟨wt.link, wt.mapped⟩, fun e he => ?_⟩
                rw [r.ent e]
                split <;> exact ht e he
            unfold tick
            split
            · exact hc
            · obtain ⟨w1, -, e1, -⟩ := evictBatch_spec hc.1 ((x + 1) % P.cap)
              refine ⟨w1, fun e he => ?_⟩
              rw [e1 e]
              split
              · rw [look_keeps (.inr (hc.2 e he).1)]; exact hc.2 e he
              · exact hc.2 e he) _ _ _ _ _ ⟨w, hu⟩ hm
          simp only [h1, Nat.mod_one, Nat.lt_irrefl, if_false]
          exact ih s' hand' w' hu'
  exact fun fuel s hand w hu => main fuel s hand w hu

theorem moveHand_held {P : HandPar} (hc : 0 < P.cap) (hall : ∀ b < P.cap, P.held b = true) (u : Bool) : ∀ fuel s hand, moveHand P u fuel s hand = none := by
  intro fuel
  induction fuel with
  | zero => intro s hand; rfl
  | succ fuel ih =>
    intro s hand
    unfold moveHand
    dsimp only
    rw [if_pos (hall _ (Nat.mod_lt _ hc))]
    exact ih _ _

/-- When as many other threads as there are batches have ever fetched a page, the first fetch of a thread never ends, though every entry may be free. -/
theorem first_fetch_spins {P : HandPar} (hc : 0 < P.cap) (hall : ∀ b < P.cap, P.held b = true) (st : Status) (s : State) (hand fuel : Nat) : getFree P st fuel s hand none = .spins := by
  unfold getFree
  rw [moveHand_held hc hall]

/-- Three batches; entry 0 has page 0, clean and accessed, all others are pinned. -/
def exFull : State :=
  { entry := fun e => match e with
      | 0 => ⟨some 0, 90, { stEvictable with accessed := true }, 0, 0⟩
      | e + 1 => ⟨some (e + 1), e, stEvictable, 0, 1⟩
    lookup := fun p => some p
    dev := fun p => match p with
      | 0 => 90
      | p + 1 => p
    reqs := [] }

def handPar : HandPar := ⟨⟨3, 4⟩, 512, fun _ => false⟩

def Res.isLocked : Res → Bool
  | .locked _ _ => true
  | _ => false

theorem exFull_wf : WF exFull := by
  refine ⟨fun e p => ?_, fun e he => ?_⟩
  · unfold exFull
    cases e <;> simp <;> omega
  · unfold exFull at he
    cases e <;> simp at he

theorem exFull_insync : InSync exFull := by
  intro e p hp hc
  unfold exFull at *
  cases e <;> simp at hp <;> subst hp <;> rfl

theorem exFull_unused : Unused exFull 0 := ⟨rfl, rfl, .inr (.inr (.inl rfl))⟩

theorem exFull_free : FreeOk exFull := by
  intro e h
  unfold exFull at h
  cases e <;> simp [stEvictable] at h

/-- On the first fetch of a thread `free_hand < max_hand` counts a pass that was none, and after the last pass nobody looks at what it has freed: the call ends with "cache locked" though entry 0 is
not in use (a failed assertion for a blocking call). -/
theorem first_fetch_locked : Unused exFull 0 ∧ handPar.held 0 = false ∧ (getFree handPar stFree 20 exFull 0 none).isLocked = true := ⟨exFull_unused, rfl, by decide +kernel⟩

/-- The same for a thread whose hand is not where the shared hand is. -/
theorem stale_fetch_locked : Unused exFull 0 ∧ (getFree handPar stFree 20 exFull 0 (some 2)).isLocked = true := ⟨exFull_unused, by decide +kernel⟩

theorem moveHand_mono {P : HandPar} {u : Bool} : ∀ f g s hand r, f ≤ g → moveHand P u f s hand = some r → moveHand P u g s hand = some r := by
  intro f
  induction f with
  | zero => intro g s hand r _ h; cases h
  | succ f ih =>
    intro g s hand r hg h
    obtain ⟨g, rfl⟩ : ∃ k, g = k + 1 := ⟨g - 1, by omega⟩
    unfold moveHand at h ⊢
    dsimp only at h ⊢
    split
    · next hh => rw [if_pos hh] at h; exact ih g _ _ r (by omega) h
    · next hh => rw [if_neg hh] at h; exact h

theorem getLoop_mono {P : HandPar} {st : Status} : ∀ f g s hand fh m p r, f ≤ g → r ≠ .spins → getLoop P st f s hand fh m p = r → getLoop P st g s hand fh m p = r := by
  intro f
  induction f with
  | zero => intro g s hand fh m p r _ hr h; exact absurd h.symm hr
  | succ f ih =>
    intro g s hand fh m p r hg hr h
    obtain ⟨g, rfl⟩ : ∃ k, g = k + 1 := ⟨g - 1, by omega⟩
    unfold getLoop at h ⊢
    by_cases h3 : 3 ≤ p
    · rw [if_pos h3] at h ⊢; exact h
    · rw [if_neg h3] at h ⊢
      cases hs : scan s fh with
      | some j => rw [hs] at h; exact h
      | none =>
        rw [hs] at h
        cases hm : moveHand P (decide (p ≠ 0)) f s hand with
        | none => rw [hm] at h; exact absurd h.symm hr
        | some x =>
          rw [hm] at h
          rw [moveHand_mono f g s hand x (by omega) hm]
          exact ih g _ _ _ _ _ r (by omega) hr h

theorem not_findsRoom : ¬ FindsRoom := by
  intro hall
  obtain ⟨n, hn⟩ := hall handPar stFree exFull 0 0 (some 2) (by decide) exFull_wf (by decide) rfl exFull_unused
  obtain ⟨j, s', hand', hg⟩ := hn (n + 20) (by omega)
  have hl := stale_fetch_locked.2
  have : getLoop handPar stFree (n + 20) exFull 0 2 2 0 = getFree handPar stFree 20 exFull 0 (some 2) := by
    refine getLoop_mono 20 (n + 20) _ _ _ _ _ _ (by omega) ?_ rfl
    intro h
    rw [h] at hl
    cases hl
  have hg' : getLoop handPar stFree (n + 20) exFull 0 2 2 0 = .got j s' hand' := hg
  rw [hg'] at this
  rw [← this] at hl
  cases hl

/-- The thread that moved the hand last finds the entry. -/
example : ∃ n, ∀ fuel ≥ n, ∃ j s' hand', getFree handPar stFree fuel exFull 5 (some 2) = .got j s' hand' :=
  finds_room_partial (by decide) stFree exFull_wf (e := 0) (by decide) rfl exFull_unused

example (fuel hand : Nat) (fh : Option Nat) : Fair stFree exFull (getFree handPar stFree fuel exFull hand fh) := search_fair (by decide) stFree exFull_wf exFull_insync exFull_free fuel hand fh

def Res.entry : Res → Option Nat
  | .got j _ _ => some j
  | _ => none

example : (getFree handPar stFree 20 exFull 5 (some 2)).entry = some 0 := by decide +kernel

/-- A dirty accessed page is written and evicted on the way. -/
example : ∃ n, ∀ fuel ≥ n, ∃ j s' hand', getFree handPar stFree fuel (exFull.setSt 0 stCleanable2) 5 (some 2) = .got j s' hand' :=
  finds_room_partial (by decide) stFree (e := 0) ⟨fun e p => by
      have := exFull_wf.link e p
      by_cases he : e = 0
      · subst he; exact this
      · simpa [State.setSt, upd, he] using this,
    fun e he => by
      by_cases h0 : e = 0
      · subst h0; cases he
      · have := exFull_wf.mapped e (by simpa [State.setSt, upd, h0] using he)
        simpa [State.setSt, upd, h0] using this⟩ (by decide) rfl ⟨rfl, rfl, .inr (.inr (.inr (.inr rfl)))⟩

example : ∃ n, ∀ fuel ≥ n, getFree handPar stFree fuel exFull 0 none ≠ .spins := search_ends stFree (b1 := 0) (b2 := 1) (by decide) (by decide) (by decide) rfl rfl _ _ _

/-- Any thread finds a clean page that was not accessed. -/
example (fh : Option Nat) : ∃ n, ∀ fuel ≥ n, ∃ j s' hand', getFree ⟨⟨1, 4⟩, 512, fun _ => false⟩ stFree fuel (evictAll par (flush par ex)) 7 fh = .got j s' hand' := by
  have w := (evictAll_spec par ((flush_rel (P := par) (by decide) ex_wf ex_fits rfl).1.wf ex_wf)).1
  exact finds_room_clean (by decide) stFree w (e := 3) fh (by decide) rfl (by decide +kernel) (by decide +kernel) (by decide +kernel)

/-- One batch, all pages pinned. -/
example (fuel : Nat) : getFree ⟨⟨1, 4⟩, 512, fun _ => false⟩ stFree fuel ⟨fun e => ⟨some e, 0, stEvictable, 0, 1⟩, some, fun _ => 0, []⟩ 1 (some 0) = .spins :=
  one_batch_spins (by decide) rfl _ _ _ _ ⟨fun e p => by simp [eq_comm], fun e he => by cases he⟩ (fun _ _ => ⟨Nat.one_ne_zero, rfl⟩)

/-- One batch, taken by another thread: a new thread never gets an entry though all are free. -/
example (fuel : Nat) : getFree ⟨⟨1, 4⟩, 512, fun _ => true⟩ stFree fuel ⟨fun _ => ⟨none, 0, stFree, 0, 0⟩, fun _ => none, fun _ => 0, []⟩ 1 none = .spins :=
  first_fetch_spins (by decide) (fun _ _ => rfl) _ _ _ _

end Splinter.Flush
