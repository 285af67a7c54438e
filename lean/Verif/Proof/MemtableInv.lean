import Verif.Proof.MemtableLock

/-! # Memtables: the main invariant -/
namespace Splinter.Memtable
variable {M : Type}

abbrev Entry (M : Type) := Nat × Nat × M

def msgs (l : List (Entry M)) : List M := l.map (·.2.2)

/-- Messages of one generation, of the generations below `g`, of those from `g` on. -/
def inGen (l : List (Entry M)) (g : Nat) : List M := msgs (l.filter (·.1 = g))
def ltGen (l : List (Entry M)) (g : Nat) : List M := msgs (l.filter (·.1 < g))

/-- Conditions on the shared state that do not mention threads. -/
structure Core (N : Nat) (s : State M) : Prop where
  two : 2 ≤ N
  low : s.ret ≤ s.gen
  high : s.gen + 1 ≤ s.ret + N
  idx : ∀ i, i < N → (s.slots i).gen % N = i
  live : ∀ g, s.ret ≤ g → g ≤ s.gen → (s.sl N g).gen = g ∧ (s.sl N g).own = true ∧ (s.sl N g).data = inGen s.log g ∧ (s.sl N g).st ≠ .incorporated
  old : ∀ g, s.ret ≤ g → g < s.gen → (s.sl N g).st ≠ .ready
  cur : (s.sl N s.gen).st = .ready ∨ (s.sl N s.gen).st = .finalized
  fut : ∀ g, s.gen < g → g < s.ret + N →
    ((s.sl N g).gen = g ∧ (s.sl N g).st = .ready ∧ (s.sl N g).own = true ∧ (s.sl N g).data = []) ∨
    ((s.sl N g).st = .incorporated ∧ ((s.sl N g).gen + N = g ∨ ((s.sl N g).gen = g ∧ (s.sl N g).own = true ∧ (s.sl N g).data = [])))
  refs : ∀ i, i < N → (s.slots i).refs = (if (s.slots i).own then 1 else 0) + s.held.count (s.slots i).gen
  unown : ∀ i, i < N → (s.slots i).own = false → (s.slots i).st = .incorporated
  heldOk : ∀ g ∈ s.held, (s.sl N g).gen = g
  cmt : ∀ i, i < N → (s.slots i).st = .compacted ∨ (s.slots i).st = .assigned → (s.slots i).cmt = (s.slots i).data
  sorted : s.log.Pairwise (fun a b => a.1 ≤ b.1)
  logLe : ∀ e ∈ s.log, e.1 ≤ s.gen
  incRet : s.inc = s.ret ∨ s.inc + 1 = s.ret
  queueNodup : s.queue.Nodup
  queueOk : ∀ g ∈ s.queue, s.ret ≤ g ∧ g < s.gen ∧ (s.sl N g).gen = g ∧ (s.sl N g).st = .finalized
  emptyOk : s.empty = true ↔ (s.sl N s.gen).data = []

/-- What a thread knows. -/
def PCok (N : Nat) (s : State M) : PC M → Prop
  | .ins2 _ g => g = s.gen
  | .ins3 _ g | .rot1 _ g | .put _ g => g = s.gen ∧ (s.sl N g).gen = g ∧ (s.sl N g).st = .ready
  | .rot2 _ g | .rot3 _ g | .rot4 _ g =>
    g = s.gen ∧ (s.sl N g).gen = g ∧ (s.sl N g).st = .ready ∧ (s.sl N (g + 1)).gen = g + 1 ∧ (s.sl N (g + 1)).st = .ready
  | .rot5 _ g => g = s.gen ∧ (s.sl N g).gen = g ∧ (s.sl N g).st = .finalized ∧ (s.sl N (g + 1)).gen = g + 1 ∧ (s.sl N (g + 1)).st = .ready
  | .rot6 _ g | .rot7 _ g | .fin g => s.ret ≤ g ∧ g < s.gen ∧ (s.sl N g).gen = g ∧ (s.sl N g).st = .finalized
  | .comp g => s.ret ≤ g ∧ g < s.gen ∧ (s.sl N g).gen = g ∧ (s.sl N g).st = .compacting
  | .comp2 g => s.ret ≤ g ∧ g < s.gen ∧ (s.sl N g).gen = g ∧ (s.sl N g).st = .compacting ∧ (s.sl N g).cmt = (s.sl N g).data
  | .start g => g < s.gen
  | .inc1 g | .inc2 g => g = s.ret ∧ s.inc = s.ret ∧ g < s.gen ∧ (s.sl N g).gen = g ∧ (s.sl N g).st = .assigned
  | .inc3 g nr | .inc4 g nr =>
    g = s.ret ∧ s.inc = s.ret ∧ g < s.gen ∧ (s.sl N g).gen = g ∧ (s.sl N g).st = .assigned ∧ nr = ltGen s.log (g + 1)
  | .inc5 g nr =>
    g + 1 = s.ret ∧ s.inc = g ∧ (s.sl N g).gen = g ∧ (s.sl N g).st = .incorporated ∧ (s.sl N g).own = true ∧ nr = ltGen s.log (g + 1)
  | .inc6 g | .inc7 g => g + 1 = s.ret ∧ s.inc = g ∧ (s.sl N g).gen = g ∧ (s.sl N g).st = .incorporated ∧ (s.sl N g).own = true
  | .rec1 g k =>
    g < s.ret ∧ (s.sl N g).gen = g ∧ (s.sl N g).st = .incorporated ∧ (s.sl N g).own = false ∧ (s.sl N g).refs = 0 ∧ (k = true → g + 1 = s.ret ∧ s.inc = g)
  | .rec2 g k =>
    s.gen < g + N ∧ g < s.ret ∧ (s.sl N g).gen = g + N ∧ (s.sl N g).st = .incorporated ∧ (s.sl N g).own = true ∧ (s.sl N g).data = [] ∧ (k = true → g + 1 = s.ret ∧ s.inc = g)
  | .cont g => g + 1 = s.ret ∧ s.inc = g
  | .lk2 _ g | .it2 g => s.ret ≤ g ∧ g ≤ s.gen
  | .lk3 _ g e j _ => e = s.ret ∧ e ≤ j ∧ j ≤ g + 1 ∧ g ≤ s.gen
  | .lk4 _ g e j _ pk =>
    e = s.ret ∧ e < j ∧ j ≤ g + 1 ∧ g ≤ s.gen ∧ (pk = true → (s.sl N (j - 1)).st = .compacted ∨ (s.sl N (j - 1)).st = .assigned)
  | .it3 e j => e = s.ret ∧ e ≤ j ∧ j ≤ s.gen + 1
  | .it4 e j => e = s.ret ∧ e < j ∧ j ≤ s.gen + 1
  | _ => True

/-- The generation a thread is responsible for, before it is compacted. -/
def PC.agent : PC M → Option Nat
  | .rot5 _ g | .rot6 _ g | .rot7 _ g | .fin g | .comp g | .comp2 g => some g
  | _ => none

/-- The thread that incorporates. -/
def PC.isInc : PC M → Bool
  | .inc1 _ | .inc2 _ | .inc3 _ _ | .inc4 _ _ | .inc5 _ _ | .inc6 _ | .inc7 _ | .cont _ | .rec1 _ true | .rec2 _ true => true
  | _ => false

def PC.recycles : PC M → Option Nat
  | .rec1 g _ | .rec2 g _ => some g
  | _ => none

structure Inv (N : Nat) (s : State M) : Prop where
  core : Core N s
  pcs : ∀ t, PCok N s (s.pc t)
  agents : ∀ t u g, (s.pc t).agent = some g → (s.pc u).agent = some g → t = u
  queued : ∀ t g, (s.pc t).agent = some g → g ∉ s.queue
  incs : ∀ t u, (s.pc t).isInc = true → (s.pc u).isInc = true → t = u
  recs : ∀ t u g, (s.pc t).recycles = some g → (s.pc u).recycles = some g → t = u
  root : s.root = ltGen s.log s.ret ∨ ∃ t g nr, s.pc t = .inc5 g nr

theorem mod_inj {N a b : Nat} (h : a % N = b % N) (h1 : a < b + N) (h2 : b < a + N) : a = b := by
  rcases Nat.le_total a b with hab | hab
  · have := Nat.sub_mod_eq_zero_of_mod_eq h.symm
    rw [Nat.mod_eq_of_lt (by omega)] at this
    omega
  · have := Nat.sub_mod_eq_zero_of_mod_eq h
    rw [Nat.mod_eq_of_lt (by omega)] at this
    omega

theorem setSl_sl (N : Nat) (s : State M) (g : Nat) (x : Slot M) (g' : Nat) : (s.setSl N g x).sl N g' = if g' % N = g % N then x else s.sl N g' := rfl

theorem sl_congr {N : Nat} (s : State M) {g g' : Nat} (h : g' % N = g % N) : s.sl N g' = s.sl N g := by unfold State.sl; rw [h]

theorem core_congr {N : Nat} {s s' : State M} (h : Core N s) (e1 : s'.gen = s.gen) (e2 : s'.ret = s.ret) (e3 : s'.inc = s.inc) (e4 : s'.slots = s.slots)
    (e5 : s'.queue = s.queue) (e6 : s'.held = s.held) (e7 : s'.empty = s.empty) (e8 : s'.log = s.log) : Core N s' := by
  have e9 : ∀ g, s'.sl N g = s.sl N g := fun g => by unfold State.sl; rw [e4]
  obtain ⟨h1, h2, h3, h4, h5, h6, h7, h8, h9, h10, h11, h12, h13, h14, h15, h16, h17, h18⟩ := h
  constructor <;> (try simp only [e1, e2, e3, e4, e5, e6, e7, e8, e9]) <;> assumption

/-- A live slot gets another state, between FINALIZED and ASSIGNED, or another compacted copy. -/
theorem core_st {N : Nat} {s : State M} (h : Core N s) {g : Nat} {x : Slot M} (h1 : s.ret ≤ g) (h2 : g ≤ s.gen) (hx : x.gen = (s.sl N g).gen ∧ x.refs = (s.sl N g).refs ∧
    x.own = (s.sl N g).own ∧ x.data = (s.sl N g).data) (hs : x.st ≠ .incorporated ∧ x.st ≠ .ready) (hg : g = s.gen → x.st = .finalized)
    (hc : x.st = .compacted ∨ x.st = .assigned → x.cmt = x.data) (hq : g ∉ s.queue) : Core N (s.setSl N g x) := by
  obtain ⟨c1, c2, c3, c4, c5, c6, c7, c8, c9, c10, c11, c12, c13, c14, c15, c16, c17, c18⟩ := h
  have live := c5 g h1 h2
  have hi : g % N < N := Nat.mod_lt _ (by omega)
  have key : ∀ g', g' % N = g % N → s.ret ≤ g' → g' < s.ret + N → g' = g := fun g' a b c => mod_inj a (by omega) (by omega)
  constructor
  · exact c1
  · exact c2
  · exact c3
  · intro i hi; simp only [State.setSl, upd]; grind [State.sl]
  · intro g' a b; rw [setSl_sl]; simp only [State.setSl] at *; grind
  · intro g' a b; rw [setSl_sl]; simp only [State.setSl] at *; grind
  · rw [setSl_sl]; simp only [State.setSl] at *; grind
  · intro g' a b; rw [setSl_sl]; simp only [State.setSl] at *; grind
  · intro i hi; simp only [State.setSl, upd]; grind [State.sl]
  · intro i hi; simp only [State.setSl, upd]; grind [State.sl]
  · intro g' a; rw [setSl_sl]; simp only [State.setSl] at *; grind [State.sl]
  · intro i hi; simp only [State.setSl, upd]; grind [State.sl]
  · exact c13
  · exact c14
  · exact c15
  · exact c16
  · intro g' a; rw [setSl_sl]; simp only [State.setSl] at *; grind
  · rw [setSl_sl]; simp only [State.setSl] at *; grind [State.sl]

theorem assemble {N : Nat} {s s' : State M} {t : Nat} {p : PC M} (h : Inv N s) (hp : s'.pc = upd s.pc t p) (hc : Core N s') (hu : ∀ u, u ≠ t → PCok N s' (s.pc u)) (ht : PCok N s' p)
    (hA : ∀ g, p.agent = some g → g ∉ s'.queue ∧ ∀ u, u ≠ t → (s.pc u).agent ≠ some g) (hQ : ∀ u, u ≠ t → ∀ g, (s.pc u).agent = some g → g ∉ s'.queue)
    (hI : p.isInc = true → ∀ u, u ≠ t → (s.pc u).isInc = false) (hR : ∀ g, p.recycles = some g → ∀ u, u ≠ t → (s.pc u).recycles ≠ some g)
    (hroot : s'.root = ltGen s'.log s'.ret ∨ ∃ t g nr, s'.pc t = .inc5 g nr) : Inv N s' := by
  have hsame : s'.pc t = p := by rw [hp]; simp [upd]
  have hoth : ∀ u, u ≠ t → s'.pc u = s.pc u := by intro u hu; rw [hp]; simp [upd, hu]
  obtain ⟨h1, h2, h3, h4, h5, h6, h7⟩ := h
  refine ⟨hc, fun u => ?_, fun u v g => ?_, fun u g => ?_, fun u v => ?_, fun u v g => ?_, hroot⟩
  · by_cases e : u = t
    · rw [e, hsame]; exact ht
    · rw [hoth u e]; exact hu u e
  · by_cases e : u = t <;> by_cases e' : v = t
    · intro _ _; rw [e, e']
    · rw [e, hsame, hoth v e']; intro a b; exact absurd b ((hA g a).2 v e')
    · rw [e', hsame, hoth u e]; intro a b; exact absurd a ((hA g b).2 u e)
    · rw [hoth u e, hoth v e']; exact h3 u v g
  · by_cases e : u = t
    · rw [e, hsame]; intro a; exact (hA g a).1
    · rw [hoth u e]; exact hQ u e g
  · by_cases e : u = t <;> by_cases e' : v = t
    · intro _ _; rw [e, e']
    · rw [e, hsame, hoth v e']; intro a b; rw [hI a v e'] at b; cases b
    · rw [e', hsame, hoth u e]; intro a b; rw [hI b u e] at a; cases a
    · rw [hoth u e, hoth v e']; exact h5 u v
  · by_cases e : u = t <;> by_cases e' : v = t
    · intro _ _; rw [e, e']
    · rw [e, hsame, hoth v e']; intro a b; exact absurd b (hR g a v e')
    · rw [e', hsame, hoth u e]; intro a b; exact absurd a (hR g b u e)
    · rw [hoth u e, hoth v e']; exact h6 u v g

theorem pcok_congr {N : Nat} {s s' : State M} {p : PC M} (h : PCok N s p) (e1 : s'.gen = s.gen) (e2 : s'.ret = s.ret) (e3 : s'.inc = s.inc) (e4 : s'.slots = s.slots)
    (e8 : s'.log = s.log) : PCok N s' p := by
  have e9 : ∀ g, s'.sl N g = s.sl N g := fun g => by unfold State.sl; rw [e4]
  cases p <;> simp only [PCok, e1, e2, e3, e8, e9] at h ⊢ <;> exact h

/-- Steps that change nothing but the thread's place and locks. -/
theorem quiet {N : Nat} {s s' : State M} {t : Nat} {p : PC M} (h : Inv N s) (hp : s'.pc = upd s.pc t p) (e1 : s'.gen = s.gen) (e2 : s'.ret = s.ret) (e3 : s'.inc = s.inc)
    (e4 : s'.slots = s.slots) (e5 : s'.queue = s.queue) (e6 : s'.held = s.held) (e7 : s'.empty = s.empty) (e8 : s'.log = s.log) (e9 : s'.root = s.root)
    (ha : p.agent = none ∨ p.agent = (s.pc t).agent) (hi : p.isInc = false ∨ (s.pc t).isInc = true) (hr : p.recycles = none) (h5 : ∀ g nr, s.pc t ≠ .inc5 g nr)
    (ht : PCok N s p) : Inv N s' := by
  refine assemble h hp (core_congr h.core e1 e2 e3 e4 e5 e6 e7 e8) (fun u _ => pcok_congr (h.pcs u) e1 e2 e3 e4 e8) (pcok_congr ht e1 e2 e3 e4 e8) (fun g hg => ?_) (fun u _ g hg => ?_) (fun hi' u hu => ?_)
    (fun g hg => ?_) ?_
  · rcases ha with ha | ha
    · rw [ha] at hg; cases hg
    · rw [ha] at hg
      exact ⟨by rw [e5]; exact h.queued t g hg, fun u hu hh => hu (h.agents u t g hh hg)⟩
  · rw [e5]; exact h.queued u g hg
  · rcases hi with hi | hi
    · rw [hi] at hi'; cases hi'
    · cases hh : (s.pc u).isInc
      · rfl
      · exact absurd (h.incs u t hh hi) hu
  · rw [hr] at hg; cases hg
  · rw [e8, e2, e9]
    rcases h.root with h1 | ⟨u, g, nr, h1⟩
    · exact .inl h1
    · by_cases e : u = t
      · subst e
        exact absurd h1 (h5 g nr)
      · refine .inr ⟨u, g, nr, ?_⟩
        rw [hp]; simp only [upd, e, if_false]; exact h1


theorem lt_succ {l : List (Entry M)} (h : l.Pairwise (fun a b => a.1 ≤ b.1)) (g : Nat) : ltGen l (g + 1) = ltGen l g ++ inGen l g := by
  unfold ltGen inGen msgs
  rw [← List.map_append]
  congr 1
  induction l with
  | nil => rfl
  | cons a l ih =>
    rw [List.pairwise_cons] at h
    have ih := ih h.2
    by_cases h1 : a.1 < g
    · have h2 : a.1 < g + 1 := by omega
      have h3 : ¬ a.1 = g := by omega
      simp only [List.filter_cons, h1, h2, h3, decide_true, decide_false, if_true, Bool.false_eq_true, if_false, ih, List.cons_append]
    · have e1 : l.filter (fun x => decide (x.1 < g)) = [] := by
        rw [List.filter_eq_nil_iff]; intro x hx; have := h.1 x hx; simp; omega
      rw [e1, List.nil_append] at ih
      simp only [List.filter_cons, h1, decide_false, Bool.false_eq_true, if_false, e1, List.nil_append, ih]
      by_cases h2 : a.1 = g
      · have h3 : a.1 < g + 1 := by omega
        simp [h2]
      · have h3 : ¬ a.1 < g + 1 := by omega
        simp [h2, h3]

theorem others_st {N : Nat} {s : State M} (c : Core N s) {g : Nat} {x : Slot M} (h1 : s.ret ≤ g) (h2 : g ≤ s.gen) (hx : x.gen = (s.sl N g).gen ∧ x.refs = (s.sl N g).refs ∧
    x.own = (s.sl N g).own ∧ x.data = (s.sl N g).data) {p : PC M} (hp : PCok N s p) (hr : (s.sl N g).st = .ready → p.holdsInsert = false) (ha : p.agent ≠ some g)
    (hs : (s.sl N g).st ≠ .assigned ∧ (s.sl N g).st ≠ .incorporated) (hc : (s.sl N g).st = .compacted → x.st = .assigned) : PCok N (s.setSl N g x) p := by
  have live := c.live g h1 h2
  have key : ∀ g', g' % N = g % N → (s.sl N g').gen = g' → g' = g := by
    intro g' e1 e2
    rw [sl_congr s e1] at e2
    rw [← e2, live.1]
  have key2 : ∀ g', g' % N = g % N → s.sl N g' = s.sl N g := fun g' e => sl_congr s e
  have e1 : (s.setSl N g x).gen = s.gen := rfl
  have e2 : (s.setSl N g x).ret = s.ret := rfl
  have e3 : (s.setSl N g x).inc = s.inc := rfl
  have e4 : (s.setSl N g x).log = s.log := rfl
  cases p <;> simp only [PCok, PC.agent, PC.holdsInsert, setSl_sl, e1, e2, e3, e4, ne_eq, Option.some.injEq, Bool.true_eq_false, imp_false] at hp hr ha ⊢ <;> grind

end Splinter.Memtable
