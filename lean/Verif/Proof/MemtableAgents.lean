import Verif.Proof.MemtableStep

/-! # Memtables: no assertion fails, and somebody is responsible for every memtable that is not ready -/
namespace Splinter.Memtable
variable {M : Type}

/-- All states: steps of threads in any order, and `memtable_force_finalize` at the end, when nobody inserts and the next memtable
is ready. -/
inductive Reachable (N : Nat) : State M → Prop
  | init : Reachable N init
  | step {s s' : State M} (t : Nat) (a : Act M) : Reachable N s → step N s t a = .ok s' → Reachable N s'
  | final {s s' : State M} : Reachable N s → (∀ t, (s.pc t).isInsert = false) → (s.sl N (s.gen + 1)).st = .ready → forceFinalize N s = .ok s' → Reachable N s'

theorem locks_init : Locks (init : State M) := by
  constructor <;> simp [init, PC.holdsInsert, PC.claimsInsert, PC.locksInsert, PC.holdsLookup, PC.blocksLookup, PC.holdsRoot]

theorem inv_init {N : Nat} (hN : 2 ≤ N) : Inv N (init : State M) := by
  refine ⟨⟨hN, Nat.le_refl _, by show 0 + 1 ≤ 0 + N; omega, fun i hi => Nat.mod_eq_of_lt hi, ?_, ?_, .inl rfl, ?_, ?_, ?_, ?_, ?_, .nil, ?_, .inl rfl, .nil, ?_, ?_⟩, fun t => trivial, ?_, ?_, ?_, ?_, .inl rfl⟩
  · intro g _ h
    have : g = 0 := by simpa [init] using h
    subst this
    simp [init, State.sl, inGen, msgs]
  · intro g _ h; simp [init] at h
  · intro g h1 h2
    have h3 : g < N := by simpa [init] using h2
    simp [init, State.sl, Nat.mod_eq_of_lt h3]
  all_goals simp [init, PC.agent, PC.isInc, PC.recycles]
  simp [State.sl]

theorem reach_inv {N : Nat} {s : State M} (hN : 2 ≤ N) (h : Reachable N s) : Locks s ∧ Inv N s := by
  induction h with
  | init => exact ⟨locks_init, inv_init hN⟩
  | step t a _ hs ih => exact ⟨locks_step ih.1 (step_sound hs), inv_step ih.2 ih.1 (step_sound hs)⟩
  | final _ hi hn hf ih =>
    refine ⟨?_, inv_final ih.2 hf hi hn⟩
    obtain ⟨-, -, rfl⟩ := final_eq hf
    obtain ⟨h1, h2, h3, h4, h5, h6, h7, h8, h9, h10, h11⟩ := ih.1
    exact ⟨h1, h2, h3, h4, h5, h6, h7, h8, h9, h10, h11⟩

theorem live_refs {N : Nat} {s : State M} (c : Core N s) {g : Nat} (h1 : s.ret ≤ g) (h2 : g ≤ s.gen) : (s.sl N g).refs ≠ 0 := by
  have hl := c.live g h1 h2
  have := c.refs (g % N) (Nat.mod_lt _ (by have := c.two; omega))
  rw [show s.slots (g % N) = s.sl N g from rfl, hl.2.1] at this
  simp at this; omega

/-- No assertion fails. -/
theorem no_fault {N : Nat} {s : State M} (h : Inv N s) (t : Nat) (a : Act M) : step N s t a ≠ .fault := by
  have ok := h.pcs t
  have c := h.core
  have hN := c.two
  have hlow := c.low
  have hhigh := c.high
  have hlive : ∀ g, s.ret ≤ g → g ≤ s.gen → (s.sl N g).gen = g ∧ (s.sl N g).refs ≠ 0 ∧ (s.sl N g).st ≠ .incorporated :=
    fun g a b => ⟨(c.live g a b).1, live_refs c a b, (c.live g a b).2.2.2⟩
  have hwrap : s.gen + 1 = s.ret + N → (s.sl N (s.gen + 1)).gen = s.ret := fun e => by
    rw [e, sl_congr s (Nat.add_mod_right s.ret N)]; exact (hlive s.ret (Nat.le_refl _) hlow).1
  have hrefs : ∀ g, (s.sl N g).gen = g → (s.sl N g).refs = (if (s.sl N g).own then 1 else 0) + s.held.count g := fun g e => by
    have := c.refs (g % N) (Nat.mod_lt _ (by omega))
    rw [show s.slots (g % N) = s.sl N g from rfl, e] at this
    exact this
  have hheld : ∀ g ∈ s.held, (s.sl N g).gen = g ∧ 0 < s.held.count g := fun g hg => ⟨c.heldOk g hg, List.count_pos_iff.mpr hg⟩
  have hun : ∀ g, (s.sl N g).own = false → (s.sl N g).st = .incorporated := fun g => c.unown (g % N) (Nat.mod_lt _ (by omega))
  unfold step
  cases hp : s.pc t <;> rw [hp] at ok <;> cases a <;> simp only [ne_eq, reduceCtorEq, not_false_eq_true] <;>
    simp only [PC.isInsert, PC.isFlush, stepInsert, stepFlush, stepLookup, PCok, decRef, if_true, if_false, Bool.false_eq_true] at ok ⊢ <;> try trivial
  all_goals try (repeat' split) <;> first | (simp; done) | skip
  all_goals (try grind)
  all_goals (simp only [State.sl] at *; grind)

/-! ## Somebody is responsible for every memtable that is not ready -/

inductive Kind where
  | rot | fin | comp | start | asg | own | recy
deriving DecidableEq

def PC.role : PC M → Option (Kind × Nat)
  | .rot5 _ g => some (.rot, g)
  | .rot6 _ g | .rot7 _ g | .fin g => some (.fin, g)
  | .comp g | .comp2 g => some (.comp, g)
  | .start g => some (.start, g)
  | .inc1 g | .inc2 g | .inc3 g _ | .inc4 g _ => some (.asg, g)
  | .inc5 g _ | .inc6 g | .inc7 g => some (.own, g)
  | .rec1 g _ | .rec2 g _ => some (.recy, g)
  | _ => none

def State.has (s : State M) (k : Kind) (g : Nat) : Prop := ∃ t, (s.pc t).role = some (k, g)

def State.hasInc (s : State M) : Prop := ∃ t, (s.pc t).isInc = true

/-- `K k g`: a thread has the role `k` for generation `g`; `I`: a thread incorporates. -/
structure Agents (N gen ret inc : Nat) (S : Nat → Slot M) (queue : List Nat) (K : Kind → Nat → Prop) (I : Prop) : Prop where
  cur : (S gen).st = .finalized → K .rot gen
  fin : ∀ g, ret ≤ g → g < gen → (S g).st = .finalized → g ∈ queue ∨ K .fin g
  comp : ∀ g, ret ≤ g → g < gen → (S g).st = .compacting → K .comp g
  start : ∀ g, ret ≤ g → g < gen → (S g).st = .compacted → g = inc → K .start g
  asg : ∀ g, ret ≤ g → g < gen → (S g).st = .assigned → K .asg g
  inc : inc + 1 = ret → I
  /-- memtables that have been incorporated -/
  own : ∀ g, g < ret → (S g).gen = g → (S g).own = true → K .own g
  free : ∀ g, (S g).gen = g → (S g).refs = 0 → K .recy g
  again : ∀ g, (S g).gen = g + N → gen < g + N → (S g).st = .incorporated → K .recy g

def State.agents (N : Nat) (s : State M) : Prop := Agents N s.gen s.ret s.inc (s.sl N) s.queue s.has s.hasInc

theorem has_of {s s' : State M} {t : Nat} {p : PC M} (hp : s'.pc = upd s.pc t p) {k : Kind} {g : Nat} : (s'.has k g ↔ p.role = some (k, g) ∨ ∃ u, u ≠ t ∧ (s.pc u).role = some (k, g)) := by
  unfold State.has
  rw [hp]
  constructor
  · rintro ⟨u, hu⟩
    by_cases e : u = t
    · left; simpa [upd, e] using hu
    · right; exact ⟨u, e, by simpa [upd, e] using hu⟩
  · rintro (h | ⟨u, e, hu⟩)
    · exact ⟨t, by simpa [upd] using h⟩
    · exact ⟨u, by simpa [upd, e] using hu⟩

theorem has_keep {s s' : State M} {t : Nat} {p : PC M} (hp : s'.pc = upd s.pc t p) {k : Kind} {g : Nat} (h : s.has k g) : (s.pc t).role = some (k, g) ∨ s'.has k g := by
  obtain ⟨u, hu⟩ := h
  by_cases e : u = t
  · left; rw [← e]; exact hu
  · right; exact (has_of hp).mpr (.inr ⟨u, e, hu⟩)

theorem hasInc_keep {s s' : State M} {t : Nat} {p : PC M} (hp : s'.pc = upd s.pc t p) (h : s.hasInc) : (s.pc t).isInc = true ∨ s'.hasInc := by
  obtain ⟨u, hu⟩ := h
  by_cases e : u = t
  · left; rw [← e]; exact hu
  · right; exact ⟨u, by rw [hp]; simpa [upd, e] using hu⟩

theorem hasInc_new {s s' : State M} {t : Nat} {p : PC M} (hp : s'.pc = upd s.pc t p) (h : p.isInc = true) : s'.hasInc := ⟨t, by rw [hp]; simpa [upd] using h⟩

theorem agents_mk {N : Nat} {s s' : State M} {t : Nat} {p : PC M} (hp : s'.pc = upd s.pc t p)
    (body : ∀ (K : Kind → Nat → Prop) (I : Prop), (∀ k g, s.has k g → (s.pc t).role = some (k, g) ∨ K k g) → (∀ k g, p.role = some (k, g) → K k g) → (s.hasInc → (s.pc t).isInc = true ∨ I) → (p.isInc = true → I) →
      Agents N s'.gen s'.ret s'.inc (s'.sl N) s'.queue K I) : s'.agents N :=
  body _ _ (fun _ _ => has_keep hp) (fun _ _ h => (has_of hp).mpr (.inl h)) (hasInc_keep hp) (hasInc_new hp)

theorem agents_same {N : Nat} {s s' : State M} {t : Nat} {p : PC M} (h : s.agents N) (hp : s'.pc = upd s.pc t p) (e1 : s'.gen = s.gen) (e2 : s'.ret = s.ret) (e3 : s'.inc = s.inc) (e4 : s'.slots = s.slots)
    (e5 : s'.queue = s.queue) (hr : (s.pc t).role = none ∨ (s.pc t).role = p.role) (hi : (s.pc t).isInc = false ∨ p.isInc = true) : s'.agents N := by
  have e9 : s'.sl N = s.sl N := funext fun g => by unfold State.sl; rw [e4]
  refine agents_mk hp fun K I k1 k2 k3 k4 => ?_
  rw [e1, e2, e3, e5, e9]
  unfold State.agents at h
  generalize s.sl N = S at *
  generalize s.has = K0 at *
  generalize s.hasInc = I0 at *
  obtain ⟨a1, a2, a3, a4, a5, a6, a7, a8, a9⟩ := h
  constructor <;> grind

theorem agents_init {N : Nat} : (init : State M).agents N := by
  constructor <;> simp [init, State.sl]

/-- The generations with the same index, as an opaque predicate. -/
structure Pack (N g : Nat) (x : Slot M) (S S' : Nat → Slot M) (E : Nat → Prop) : Prop where
  self : E g
  same : ∀ g', E g' → S g' = S g
  new : ∀ g', E g' → S' g' = x
  old : ∀ g', ¬ E g' → S' g' = S g'
  near : ∀ g' w, E g' → E w → g' < w + N → w < g' + N → g' = w

theorem pack {N : Nat} (s : State M) (g : Nat) (x : Slot M) : ∃ E : Nat → Prop, Pack N g x (s.sl N) ((s.setSl N g x).sl N) E ∧ E (g + N) :=
  ⟨fun g' => g' % N = g % N, ⟨rfl, fun g' e => sl_congr s e, fun g' e => by rw [setSl_sl, if_pos e], fun g' e => by rw [setSl_sl, if_neg e],
    fun g' w e e' h1 h2 => mod_inj (e.trans e'.symm) h1 h2⟩, Nat.add_mod_right _ _⟩

/-- A live slot changes. -/
theorem agents_live {N gen ret inc g : Nat} {S S' : Nat → Slot M} {E : Nat → Prop} {x : Slot M} {queue : List Nat} {K0 K : Kind → Nat → Prop} {I0 I : Prop} (ha : Agents N gen ret inc S queue K0 I0) (hpk : Pack N g x S S' E)
    (h1 : ret ≤ g) (h2 : g ≤ gen) (h3 : gen < ret + N) (hx : x.gen = g ∧ x.own = true ∧ x.refs ≠ 0 ∧ x.st ≠ .incorporated) (hcur : g = gen → x.st = .finalized → K .rot gen)
    (hfin : g < gen → x.st = .finalized → g ∈ queue ∨ K .fin g) (hcomp : g < gen → x.st = .compacting → K .comp g) (hstart : g < gen → x.st = .compacted → g = inc → K .start g) (hasg : g < gen → x.st = .assigned → K .asg g)
    (kept : ∀ k g', k = .recy ∨ g' ≠ g → K0 k g' → K k g') (keptI : I0 → I) : Agents N gen ret inc S' queue K I := by
  obtain ⟨a1, a2, a3, a4, a5, a6, a7, a8, a9⟩ := ha
  obtain ⟨p1, p2, p3, p4, p5⟩ := hpk
  obtain ⟨x1, x2, x3, x4⟩ := hx
  have eq : ∀ g', E g' → ret ≤ g' → g' ≤ gen → g' = g := fun g' e b d => p5 g' g e p1 (by omega) (by omega)
  constructor
  · intro e
    by_cases hg : E gen
    · rw [p3 _ hg] at e; exact hcur (eq _ hg (by omega) (by omega)).symm e
    · rw [p4 _ hg] at e; exact kept _ _ (.inr (fun h => hg (h ▸ p1))) (a1 e)
  · intro g' b d e
    by_cases hg : E g'
    · rw [p3 _ hg] at e; cases eq _ hg b (by omega); exact hfin d e
    · rw [p4 _ hg] at e; exact (a2 g' b d e).imp id (kept _ _ (.inr (fun h => hg (h ▸ p1))))
  · intro g' b d e
    by_cases hg : E g'
    · rw [p3 _ hg] at e; cases eq _ hg b (by omega); exact hcomp d e
    · rw [p4 _ hg] at e; exact kept _ _ (.inr (fun h => hg (h ▸ p1))) (a3 g' b d e)
  · intro g' b d e f
    by_cases hg : E g'
    · rw [p3 _ hg] at e; cases eq _ hg b (by omega); exact hstart d e f
    · rw [p4 _ hg] at e; exact kept _ _ (.inr (fun h => hg (h ▸ p1))) (a4 g' b d e f)
  · intro g' b d e
    by_cases hg : E g'
    · rw [p3 _ hg] at e; cases eq _ hg b (by omega); exact hasg d e
    · rw [p4 _ hg] at e; exact kept _ _ (.inr (fun h => hg (h ▸ p1))) (a5 g' b d e)
  · exact fun e => keptI (a6 e)
  · intro g' b d e
    by_cases hg : E g'
    · rw [p3 _ hg, x1] at d; omega
    · rw [p4 _ hg] at d e; exact kept _ _ (.inr (fun h => hg (h ▸ p1))) (a7 g' b d e)
  · intro g' b d
    by_cases hg : E g'
    · rw [p3 _ hg] at d; exact absurd d x3
    · rw [p4 _ hg] at b d; exact kept _ _ (.inl rfl) (a8 g' b d)
  · intro g' b d e
    by_cases hg : E g'
    · rw [p3 _ hg] at e; exact absurd e x4
    · rw [p4 _ hg] at b e; exact kept _ _ (.inl rfl) (a9 g' b d e)

/-- A slot that is not live changes. -/
theorem agents_dead {N gen ret inc g : Nat} {S S' : Nat → Slot M} {E : Nat → Prop} {x : Slot M} {queue : List Nat} {K0 K : Kind → Nat → Prop} {I0 I : Prop} (ha : Agents N gen ret inc S queue K0 I0) (hpk : Pack N g x S S' E)
    (hlow : ret ≤ gen) (hd : ∀ w, ret ≤ w → w ≤ gen → ¬ E w) (hown : ∀ w, w < ret → E w → x.gen = w → x.own = true → K .own w) (hfree : ∀ w, E w → x.gen = w → x.refs = 0 → K .recy w)
    (hagain : ∀ w, E w → x.gen = w + N → gen < w + N → x.st = .incorporated → K .recy w)
    (kept : ∀ k g', (k = .recy ∨ k = .own → ¬ E g') → K0 k g' → K k g') (keptI : I0 → I) : Agents N gen ret inc S' queue K I := by
  obtain ⟨a1, a2, a3, a4, a5, a6, a7, a8, a9⟩ := ha
  obtain ⟨p1, p2, p3, p4, p5⟩ := hpk
  constructor
  · intro e
    rw [p4 _ (hd _ hlow (Nat.le_refl _))] at e; exact kept _ _ (by simp) (a1 e)
  · intro g' b d e
    rw [p4 _ (hd _ b (by omega))] at e; exact (a2 g' b d e).imp id (kept _ _ (by simp))
  · intro g' b d e
    rw [p4 _ (hd _ b (by omega))] at e; exact kept _ _ (by simp) (a3 g' b d e)
  · intro g' b d e f
    rw [p4 _ (hd _ b (by omega))] at e; exact kept _ _ (by simp) (a4 g' b d e f)
  · intro g' b d e
    rw [p4 _ (hd _ b (by omega))] at e; exact kept _ _ (by simp) (a5 g' b d e)
  · exact fun e => keptI (a6 e)
  · intro g' b d e
    by_cases hg : E g'
    · rw [p3 _ hg] at d e; exact hown g' b hg d e
    · rw [p4 _ hg] at d e; exact kept _ _ (fun _ => hg) (a7 g' b d e)
  · intro g' b d
    by_cases hg : E g'
    · rw [p3 _ hg] at b d; exact hfree g' hg b d
    · rw [p4 _ hg] at b d; exact kept _ _ (fun _ => hg) (a8 g' b d)
  · intro g' b d e
    by_cases hg : E g'
    · rw [p3 _ hg] at b e; exact hagain g' hg b d e
    · rw [p4 _ hg] at b e; exact kept _ _ (fun _ => hg) (a9 g' b d e)

/-- Only a number of references changes. -/
theorem agents_refs {N gen ret inc : Nat} {S S' : Nat → Slot M} {queue : List Nat} {K0 K : Kind → Nat → Prop} {I0 I : Prop} (ha : Agents N gen ret inc S queue K0 I0)
    (hs : ∀ g, (S' g).st = (S g).st ∧ (S' g).gen = (S g).gen ∧ (S' g).own = (S g).own) (hfree : ∀ g, (S' g).gen = g → (S' g).refs = 0 → K .recy g)
    (kept : ∀ k g, K0 k g → K k g) (keptI : I0 → I) : Agents N gen ret inc S' queue K I := by
  obtain ⟨a1, a2, a3, a4, a5, a6, a7, a8, a9⟩ := ha
  constructor <;> grind

set_option maxHeartbeats 4000000 in
theorem agents_step {N : Nat} {s s' : State M} {t : Nat} (h : Inv N s) (ha : s.agents N) (hs : Step N s t s') : s'.agents N := by
  have ok := h.pcs t
  have c := h.core
  have hN := c.two
  have hlow := c.low
  have hhigh := c.high
  have hincr := c.incRet
  have hlive : ∀ g, s.ret ≤ g → g ≤ s.gen → (s.sl N g).gen = g ∧ (s.sl N g).own = true ∧ (s.sl N g).refs ≠ 0 ∧ (s.sl N g).st ≠ .incorporated :=
    fun g a b => ⟨(c.live g a b).1, (c.live g a b).2.1, live_refs c a b, (c.live g a b).2.2.2⟩
  cases hs
  case start' g hp h1 =>
    rw [hp] at ok
    refine agents_mk (s := s) rfl fun K I k1 k2 k3 k4 => ?_
    show Agents N s.gen s.ret s.inc (s.sl N) s.queue K I
    obtain ⟨a1, a2, a3, a4, a5, a6, a7, a8, a9⟩ := ha
    rw [hp] at k1 k3
    simp only [PC.role, PC.isInc] at k1 k2 k3 k4
    generalize s.has = K0 at *
    generalize s.hasInc = I0 at *
    generalize s.sl N = S at *
    constructor <;> grind
  case cont0 g hp h1 =>
    rw [hp] at ok
    exact absurd (hlive (g + 1) (by have := ok.1; omega) (by have := ok.1; omega)).1 h1
  all_goals first | exact agents_same ha rfl rfl rfl rfl rfl rfl (by simp [*, PC.role]) (by simp [*, PC.isInc]) | refine agents_mk (s := s) rfl fun K I k1 k2 k3 k4 => ?_
  all_goals
    unfold State.agents at ha
    generalize s.has = K0 at *
    generalize s.hasInc = I0 at *
  case flush g hp hg =>
    show Agents N s.gen s.ret s.inc (s.sl N) (s.queue.erase g) K I
    rw [hp] at k1 k3
    simp only [PC.role, PC.isInc] at k1 k2 k3 k4
    obtain ⟨a1, a2, a3, a4, a5, a6, a7, a8, a9⟩ := ha
    generalize s.sl N = S at *
    have he : ∀ g', g' ≠ g → g' ∈ s.queue → g' ∈ s.queue.erase g := fun g' h1 h2 => (List.mem_erase_of_ne h1).mpr h2
    constructor <;> grind
  case rot7 m g hp =>
    show Agents N s.gen s.ret s.inc (s.sl N) (s.queue ++ [g]) K I
    rw [hp] at k1 k3
    simp only [PC.role, PC.isInc] at k1 k2 k3 k4
    obtain ⟨a1, a2, a3, a4, a5, a6, a7, a8, a9⟩ := ha
    generalize s.sl N = S at *
    constructor <;> grind
  case rot5 m g hp h1 h2 =>
    show Agents N (s.gen + 1) s.ret s.inc (s.sl N) s.queue K I
    rw [hp] at k1 k3 ok
    simp only [PC.role, PC.isInc, PCok] at k1 k2 k3 k4 ok
    obtain ⟨a1, a2, a3, a4, a5, a6, a7, a8, a9⟩ := ha
    generalize s.sl N = S at *
    constructor <;> grind
  case cont' g hp h1 h2 h3 =>
    show Agents N s.gen s.ret (s.inc + 1) (s.sl N) s.queue K I
    rw [hp] at k1 k3 ok
    simp only [PC.role, PC.isInc, PCok] at k1 k2 k3 k4 ok
    obtain ⟨a1, a2, a3, a4, a5, a6, a7, a8, a9⟩ := ha
    generalize s.sl N = S at *
    constructor <;> grind
  case rot4 m g hp =>
    show Agents N s.gen s.ret s.inc ((s.setSl N g _).sl N) s.queue K I
    rw [hp] at k1 k3 ok
    simp only [PC.role, PC.isInc, PCok] at k1 k2 k3 k4 ok
    obtain ⟨E, hE, -⟩ := pack (N := N) s g { s.sl N g with st := .finalized }
    refine agents_live ha hE (by omega) (by omega) (by omega) ⟨ok.2.1, (hlive g (by omega) (by omega)).2.1, (hlive g (by omega) (by omega)).2.2.1, by simp⟩ ?_ ?_ ?_ ?_ ?_ ?_ ?_ <;> grind
  case put m g hp =>
    show Agents N s.gen s.ret s.inc ((s.setSl N g _).sl N) s.queue K I
    rw [hp] at k1 k3 ok
    simp only [PC.role, PC.isInc, PCok] at k1 k2 k3 k4 ok
    obtain ⟨E, hE, -⟩ := pack (N := N) s g { s.sl N g with data := (s.sl N g).data ++ [m] }
    refine agents_live ha hE (by omega) (by omega) (by omega) ⟨ok.2.1, (hlive g (by omega) (by omega)).2.1, (hlive g (by omega) (by omega)).2.2.1, by simp [ok.2.2]⟩ ?_ ?_ ?_ ?_ ?_ ?_ ?_ <;> grind
  case fin g hp =>
    show Agents N s.gen s.ret s.inc ((s.setSl N g _).sl N) s.queue K I
    rw [hp] at k1 k3 ok
    simp only [PC.role, PC.isInc, PCok] at k1 k2 k3 k4 ok
    obtain ⟨E, hE, -⟩ := pack (N := N) s g { s.sl N g with st := .compacting }
    refine agents_live ha hE (by omega) (by omega) (by omega) ⟨ok.2.2.1, (hlive g (by omega) (by omega)).2.1, (hlive g (by omega) (by omega)).2.2.1, by simp⟩ ?_ ?_ ?_ ?_ ?_ ?_ ?_ <;> grind
  case comp g hp =>
    show Agents N s.gen s.ret s.inc ((s.setSl N g _).sl N) s.queue K I
    rw [hp] at k1 k3 ok
    simp only [PC.role, PC.isInc, PCok] at k1 k2 k3 k4 ok
    obtain ⟨E, hE, -⟩ := pack (N := N) s g { s.sl N g with cmt := (s.sl N g).data }
    refine agents_live ha hE (by omega) (by omega) (by omega) ⟨ok.2.2.1, (hlive g (by omega) (by omega)).2.1, (hlive g (by omega) (by omega)).2.2.1, by simp [ok.2.2.2]⟩ ?_ ?_ ?_ ?_ ?_ ?_ ?_ <;> grind
  case comp2 g hp =>
    show Agents N s.gen s.ret s.inc ((s.setSl N g _).sl N) s.queue K I
    rw [hp] at k1 k3 ok
    simp only [PC.role, PC.isInc, PCok] at k1 k2 k3 k4 ok
    obtain ⟨E, hE, -⟩ := pack (N := N) s g { s.sl N g with st := .compacted }
    refine agents_live ha hE (by omega) (by omega) (by omega) ⟨ok.2.2.1, (hlive g (by omega) (by omega)).2.1, (hlive g (by omega) (by omega)).2.2.1, by simp⟩ ?_ ?_ ?_ ?_ ?_ ?_ ?_ <;> grind
  case start g hp h1 h2 h3 =>
    show Agents N s.gen s.ret s.inc ((s.setSl N g _).sl N) s.queue K I
    rw [hp] at k1 k3 ok
    simp only [PC.role, PC.isInc, PCok] at k1 k2 k3 k4 ok
    have hr := compacted_live c h1 h3
    obtain ⟨E, hE, -⟩ := pack (N := N) s g { s.sl N g with st := .assigned }
    refine agents_live ha hE (by omega) (by omega) (by omega) ⟨h1, (hlive g (by omega) (by omega)).2.1, (hlive g (by omega) (by omega)).2.2.1, by simp⟩ ?_ ?_ ?_ ?_ ?_ ?_ ?_ <;> grind
  case it4 e j hp h1 =>
    rw [hp] at k1 k3 ok
    simp only [PC.role, PC.isInc, PCok] at k1 k2 k3 k4 ok
    have hj : s.ret ≤ j - 1 ∧ j - 1 ≤ s.gen := by omega
    show Agents N s.gen s.ret s.inc ((s.setSl N (j - 1) _).sl N) s.queue K I
    generalize j - 1 = g at *
    obtain ⟨E, hE, -⟩ := pack (N := N) s g { s.sl N g with refs := (s.sl N g).refs + 1 }
    have a' := ha
    obtain ⟨a1, a2, a3, a4, a5, a6, a7, a8, a9⟩ := a'
    have kk : ∀ k g, K0 k g → K k g := fun k g h => (k1 k g h).resolve_left (by simp)
    refine agents_live ha hE hj.1 hj.2 (by omega) ⟨h1, (hlive g hj.1 hj.2).2.1, by simp, (hlive g hj.1 hj.2).2.2.2⟩ (fun e h => kk _ _ (a1 (e ▸ h))) (fun h1 h2 => (a2 _ hj.1 h1 h2).imp id (kk _ _)) (fun h1 h2 => kk _ _ (a3 _ hj.1 h1 h2))
      (fun h1 h2 h3 => kk _ _ (a4 _ hj.1 h1 h2 h3)) (fun h1 h2 => kk _ _ (a5 _ hj.1 h1 h2)) (fun k g _ => kk k g) (fun h => (k3 h).resolve_left (by simp))
  case cont g hp h1 h2 h3 =>
    rw [hp] at k1 k3 ok
    simp only [PC.role, PC.isInc, PCok] at k1 k2 k3 k4 ok
    have hgen : g + 1 < s.gen := by
      apply Decidable.byContradiction
      intro hge
      have : g + 1 = s.gen := by omega
      have hc := c.cur
      rw [← this, h3] at hc
      simp at hc
    obtain ⟨E, hE, -⟩ := pack (N := N) s (g + 1) { s.sl N (g + 1) with st := .assigned }
    have kk : ∀ k g, K0 k g → K k g := fun k g h => (k1 k g h).resolve_left (by simp)
    have h5 := agents_live (K := K) (I := I) ha hE (by omega) (by omega) (by omega) ⟨h1, (hlive (g + 1) (by omega) (by omega)).2.1, (hlive (g + 1) (by omega) (by omega)).2.2.1, by simp⟩ (by simp) (by simp) (by simp) (by simp)
      (fun _ _ => k2 _ _ rfl) (fun k g _ => kk k g) (fun _ => k4 trivial)
    show Agents N s.gen s.ret (s.inc + 1) ((s.setSl N (g + 1) _).sl N) s.queue K I
    have hst : ((s.setSl N (g + 1) { s.sl N (g + 1) with st := .assigned }).sl N (g + 1)).st = .assigned := by rw [hE.new _ hE.self]
    obtain ⟨a1, a2, a3, a4, a5, a6, a7, a8, a9⟩ := h5
    exact ⟨a1, a2, a3, fun g' b d e f => (by rw [f, h2, hst] at e; cases e), a5, fun _ => k4 trivial, a7, a8, a9⟩
  case inc4 g nr hp =>
    rw [hp] at k1 k3 ok
    simp only [PC.role, PC.isInc, PCok] at k1 k2 k3 k4 ok
    obtain ⟨o1, o2, o3, o4, o5, o6⟩ := ok
    obtain ⟨E, ⟨p1, p2, p3, p4, p5⟩, hEN⟩ := pack (N := N) s g { s.sl N g with st := .incorporated }
    show Agents N s.gen (s.ret + 1) s.inc ((s.setSl N g _).sl N) s.queue K I
    have hd : ∀ w, s.ret + 1 ≤ w → w ≤ s.gen → ¬ E w := fun w a b e => by have := p5 w g e p1 (by omega) (by omega); omega
    have hl := hlive g (by omega) (by omega)
    obtain ⟨a1, a2, a3, a4, a5, a6, a7, a8, a9⟩ := ha
    have k1' : ∀ k g', K0 k g' → k = .asg ∧ g' = g ∨ K k g' := by intro k g' h; have := k1 k g' h; grind
    constructor
    · intro e
      rw [p4 _ (hd _ (by omega) (by omega))] at e
      grind
    · intro g' b d e
      rw [p4 _ (hd _ b (by omega))] at e
      grind
    · intro g' b d e
      rw [p4 _ (hd _ b (by omega))] at e
      grind
    · intro g' b d e f
      rw [p4 _ (hd _ b (by omega))] at e
      grind
    · intro g' b d e
      rw [p4 _ (hd _ b (by omega))] at e
      rcases k1' _ _ (a5 g' (by omega) d e) with h | h
      · omega
      · exact h
    · exact fun _ => k4 trivial
    · intro g' b d e
      by_cases hg : E g'
      · rw [p3 _ hg] at d
        rw [show g' = g from d.symm.trans o4]
        exact k2 _ _ rfl
      · rw [p4 _ hg] at d e
        by_cases e' : g' = s.ret
        · exact absurd (e' ▸ o1 ▸ p1) hg
        · rcases k1' _ _ (a7 g' (by omega) d e) with h | h
          · cases h.1
          · exact h
    · intro g' b d
      by_cases hg : E g'
      · rw [p3 _ hg] at d
        exact absurd d hl.2.2.1
      · rw [p4 _ hg] at b d
        rcases k1' _ _ (a8 g' b d) with h | h
        · cases h.1
        · exact h
    · intro g' b d e
      by_cases hg : E g'
      · rw [p3 _ hg] at b
        have : (s.sl N g).gen = g' + N := b
        omega
      · rw [p4 _ hg] at b e
        rcases k1' _ _ (a9 g' b d e) with h | h
        · cases h.1
        · exact h
  case inc7 g hp h1 =>
    rw [hp] at k1 k3 ok
    simp only [PC.role, PC.isInc, PCok] at k1 k2 k3 k4 ok
    obtain ⟨o1, o2, o3, o4, o5⟩ := ok
    show Agents N s.gen s.ret s.inc ((s.setSl N g _).sl N) s.queue K I
    have hret := retired_slot c (by omega) o3
    obtain ⟨E, hE, hEN⟩ := pack (N := N) s g { s.sl N g with refs := 0, own := false }
    refine agents_dead ha hE hlow (fun w a b e => ?_) (by simp) (fun w e a b => ?_) (fun w e a b => ?_) (fun k g' hk h5 => ?_) (fun _ => k4 trivial)
    · have := hE.near w (g + N) e hEN (by omega) (by omega); omega
    · rw [← (show g = w from o3.symm.trans a)]; exact k2 _ _ rfl
    · have : (s.sl N g).gen = w + N := a
      omega
    · rcases k1 k g' h5 with h6 | h6
      · injection h6 with h6
        injection h6 with h6 h7
        subst h6 h7
        exact absurd hE.self (hk (.inr rfl))
      · exact h6
  case inc7' g hp h1 h1' =>
    rw [hp] at k1 k3 ok
    simp only [PC.role, PC.isInc, PCok] at k1 k2 k3 k4 ok
    obtain ⟨o1, o2, o3, o4, o5⟩ := ok
    show Agents N s.gen s.ret s.inc ((s.setSl N g _).sl N) s.queue K I
    have hret := retired_slot c (by omega) o3
    obtain ⟨E, hE, hEN⟩ := pack (N := N) s g { s.sl N g with refs := (s.sl N g).refs - 1, own := false }
    refine agents_dead ha hE hlow (fun w a b e => ?_) (by simp) (fun w e a b => ?_) (fun w e a b => ?_) (fun k g' hk h5 => ?_) (fun _ => k4 trivial)
    · have := hE.near w (g + N) e hEN (by omega) (by omega); omega
    · have : (s.sl N g).refs - 1 = 0 := b
      omega
    · have : (s.sl N g).gen = w + N := a
      omega
    · rcases k1 k g' h5 with h6 | h6
      · injection h6 with h6
        injection h6 with h6 h7
        subst h6 h7
        exact absurd hE.self (hk (.inr rfl))
      · exact h6
  case rec1 g k hp =>
    rw [hp] at k1 k3 ok
    simp only [PC.role, PCok] at k1 k2 k3 k4 ok
    obtain ⟨o1, o2, o3, o4, o5, o6⟩ := ok
    show Agents N s.gen s.ret s.inc ((s.setSl N g _).sl N) s.queue K I
    have hret := retired_slot c (by omega) o2
    obtain ⟨E, hE, hEN⟩ := pack (N := N) s g { s.sl N g with gen := (s.sl N g).gen + N, refs := 1, own := true, data := [] }
    refine agents_dead ha hE hlow (fun w a b e => ?_) (fun w a e b => ?_) (by simp) (fun w e a b => ?_) (fun k g' hk h5 => ?_) (fun h => ?_)
    · have := hE.near w (g + N) e hEN (by omega) (by omega); omega
    · have : (s.sl N g).gen + N = w := b
      omega
    · have : (s.sl N g).gen + N = w + N := a
      rw [show w = g by omega]
      exact fun _ => k2 _ _ rfl
    · rcases k1 k g' h5 with h6 | h6
      · exact k2 _ _ h6
      · exact h6
    · cases k
      · exact (k3 h).resolve_left (by simp [PC.isInc])
      · exact k4 rfl
  case rec2 g k hp =>
    rw [hp] at k1 k3 ok
    simp only [PC.role, PCok] at k1 k2 k3 k4 ok
    obtain ⟨o1, o2, o3, o4, o5, o6, o7⟩ := ok
    show Agents N s.gen s.ret s.inc ((s.setSl N g _).sl N) s.queue K I
    obtain ⟨E, hE, hEN⟩ := pack (N := N) s g { s.sl N g with st := .ready }
    refine agents_dead ha hE hlow (fun w a b e => ?_) (fun w a e b => ?_) (fun w e a b => ?_) (by simp) (fun k g' hk h5 => ?_) (fun h => ?_)
    · have := hE.near w (g + N) e hEN (by omega) (by omega); omega
    · have : (s.sl N g).gen = w := b
      omega
    · have h6 := c.refs (g % N) (Nat.mod_lt _ (by omega))
      have : (s.sl N g).refs = 0 := b
      rw [show s.slots (g % N) = s.sl N g from rfl, o5, if_pos rfl] at h6
      omega
    · rcases k1 k g' h5 with h6 | h6
      · injection h6 with h6
        injection h6 with h6 h7
        subst h6 h7
        exact absurd hE.self (hk (.inl rfl))
      · exact h6
    · cases k
      · exact (k3 h).resolve_left (by simp [PC.isInc])
      · exact k4 rfl
  case drop1 g hp hg h1 h2 h3 =>
    rw [hp] at k1 k3
    simp only [PC.role, PC.isInc] at k1 k2 k3 k4
    show Agents N s.gen s.ret s.inc ((s.setSl N g _).sl N) s.queue K I
    have hs : ∀ g', (s.setSl N g { s.sl N g with refs := 0 }).sl N g' = if g' % N = g % N then { s.sl N g with refs := 0 } else s.sl N g' := setSl_sl N s g _
    refine agents_refs ha (fun g' => ?_) (fun g' b d => ?_) (fun k g h => (k1 k g h).resolve_left (by simp)) (fun h => (k3 h).resolve_left (by simp))
    · rw [hs]
      by_cases e : g' % N = g % N
      · rw [if_pos e, sl_congr s e]; exact ⟨rfl, rfl, rfl⟩
      · rw [if_neg e]; exact ⟨rfl, rfl, rfl⟩
    · rw [hs] at b d
      by_cases e : g' % N = g % N
      · rw [if_pos e] at b d
        rw [show g' = g from b.symm.trans h1]
        exact k2 _ _ rfl
      · rw [if_neg e] at b d; exact (k1 _ _ (ha.free g' b d)).resolve_left (by simp)
  case drop g hp hg h1 h2 h3 =>
    rw [hp] at k1 k3
    simp only [PC.role, PC.isInc] at k1 k2 k3 k4
    show Agents N s.gen s.ret s.inc ((s.setSl N g _).sl N) s.queue K I
    have hs : ∀ g', (s.setSl N g { s.sl N g with refs := (s.sl N g).refs - 1 }).sl N g' = if g' % N = g % N then { s.sl N g with refs := (s.sl N g).refs - 1 } else s.sl N g' := setSl_sl N s g _
    refine agents_refs ha (fun g' => ?_) (fun g' b d => ?_) (fun k g h => (k1 k g h).resolve_left (by simp)) (fun h => (k3 h).resolve_left (by simp))
    · rw [hs]
      by_cases e : g' % N = g % N
      · rw [if_pos e, sl_congr s e]; exact ⟨rfl, rfl, rfl⟩
      · rw [if_neg e]; exact ⟨rfl, rfl, rfl⟩
    · rw [hs] at b d
      by_cases e : g' % N = g % N
      · rw [if_pos e] at d
        have : (s.sl N g).refs - 1 = 0 := d
        omega
      · rw [if_neg e] at b d; exact (k1 _ _ (ha.free g' b d)).resolve_left (by simp)

theorem agents_final {N : Nat} {s s' : State M} (h : Inv N s) (ha : s.agents N) (hf : forceFinalize N s = .ok s') (hn : (s.sl N (s.gen + 1)).st = .ready) : s'.agents N := by
  obtain ⟨hst, hgap, rfl⟩ := final_eq hf
  have c := h.core
  have hlow := c.low
  have hl := c.live s.gen hlow (Nat.le_refl _)
  have hrefs := live_refs c hlow (Nat.le_refl _)
  show Agents N (s.gen + 1) s.ret s.inc ((s.setSl N s.gen _).sl N) (s.queue ++ [s.gen]) s.has s.hasInc
  obtain ⟨E, ⟨p1, p2, p3, p4, p5⟩, hEN⟩ := pack (N := N) s s.gen { s.sl N s.gen with st := .finalized }
  have hd : ∀ w, s.ret ≤ w → w < s.ret + N → E w → w = s.gen := fun w a b e => p5 w s.gen e p1 (by omega) (by omega)
  have hE1 : ¬ E (s.gen + 1) := fun e => by have := hd (s.gen + 1) (by omega) (by omega) e; omega
  obtain ⟨a1, a2, a3, a4, a5, a6, a7, a8, a9⟩ := ha
  generalize (s.setSl N s.gen _).sl N = S' at *
  constructor
  · intro e; rw [p4 _ hE1, hn] at e; cases e
  · intro g' b d e
    by_cases hg : g' = s.gen
    · left; rw [hg]; simp
    · rw [p4 _ (fun e => hg (hd g' b (by omega) e))] at e
      exact (a2 g' b (by omega) e).imp (fun h => List.mem_append_left _ h) id
  · intro g' b d e
    by_cases hg : E g'
    · rw [p3 _ hg] at e; cases e
    · rw [p4 _ hg] at e
      exact a3 g' b (by have : g' ≠ s.gen := fun h => hg (h ▸ p1); omega) e
  · intro g' b d e
    by_cases hg : E g'
    · rw [p3 _ hg] at e; cases e
    · rw [p4 _ hg] at e
      exact a4 g' b (by have : g' ≠ s.gen := fun h => hg (h ▸ p1); omega) e
  · intro g' b d e
    by_cases hg : E g'
    · rw [p3 _ hg] at e; cases e
    · rw [p4 _ hg] at e
      exact a5 g' b (by have : g' ≠ s.gen := fun h => hg (h ▸ p1); omega) e
  · exact a6
  · intro g' b d e
    by_cases hg : E g'
    · rw [p3 _ hg] at d
      have : (s.sl N s.gen).gen = g' := d
      omega
    · rw [p4 _ hg] at d e; exact a7 g' b d e
  · intro g' b d
    by_cases hg : E g'
    · rw [p3 _ hg] at d; exact absurd d hrefs
    · rw [p4 _ hg] at b d; exact a8 g' b d
  · intro g' b d e
    by_cases hg : E g'
    · rw [p3 _ hg] at e; cases e
    · rw [p4 _ hg] at b e; exact a9 g' b (by omega) e

theorem reach_agents {N : Nat} {s : State M} (hN : 2 ≤ N) (h : Reachable N s) : s.agents N := by
  induction h with
  | init => exact agents_init
  | step t a h hs ih => exact agents_step (reach_inv hN h).2 ih (step_sound hs)
  | final h hi hn hf ih => exact agents_final (reach_inv hN h).2 ih hf hn

end Splinter.Memtable
