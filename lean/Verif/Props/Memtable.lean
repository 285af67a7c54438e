import Verif.Proof.MemtableLook

/-!
# C24, C25: memtables

Concurrent inserts, rotations, flushes, recycling, lookups and iterators, in any interleaving (`Reachable`); see `Verif.Model.Memtable`
for the model. `N` is `max_memtables`. The history variables `log` (messages recorded in memtables, with generation and thread), `done`
(inserts that have returned) and `results` (lookups that have returned) are only written by the steps, never read.
-/
namespace Splinter.Memtable
variable {M : Type} {N : Nat} {s s' : State M}

namespace Spec

/-- The messages of thread `t` in the log. -/
def logged (s : State M) (t : Nat) : List M := (s.log.filter (·.2.1 = t)).map (·.2.2)

/-- The messages whose insertion by `t` returned success, and those for which it returned "busy". -/
def accepted (s : State M) (t : Nat) : List M := (s.done.filter (fun d => d.1 = t ∧ d.2.2 = true)).map (·.2.1)

/-- The message that `t` has just recorded, if it has not returned yet. -/
def returning (s : State M) (t : Nat) : List M := match s.pc t with | .put2 m => [m] | _ => []

/-- All messages, and those of the generations with a property, in the order they were recorded. -/
def all (s : State M) : List M := s.log.map (·.2.2)
def ofGens (s : State M) (p : Nat → Bool) : List M := (s.log.filter (fun e => p e.1)).map (·.2.2)

/-- Nobody does anything. -/
def atRest (s : State M) : Prop := (∀ t, s.pc t = .idle) ∧ s.queue = []

end Spec
open Spec

/-! ### C24 -/

/-- No assertion of the code fails, and no freed memtable is used. -/
theorem no_assert (hN : 2 ≤ N) (h : Reachable N s) (t : Nat) (a : Act M) : step N s t a ≠ .fault := no_fault (reach_inv hN h).2 t a

/-- A successful insert is recorded exactly once, in order; one that returns "busy" is not recorded. -/
theorem recorded_once (h : Reachable N s) (t : Nat) : logged s t = accepted s t ++ returning s t := by
  have h1 := reach_acc h t
  unfold PC.flight at h1
  exact h1

/-- Every recorded message is in exactly one place: the tree has the generations below some `k`, and each later generation has its own memtable
with exactly its messages. Messages are in the tree and in memtables in the order of `log`. -/
theorem stored (hN : 2 ≤ N) (h : Reachable N s) : s.log.Pairwise (fun a b => a.1 ≤ b.1) ∧ (∀ e ∈ s.log, e.1 ≤ s.gen) ∧
    (∃ k, s.ret ≤ k + 1 ∧ k ≤ s.ret ∧ s.root = ofGens s (· < k)) ∧
    (∀ g, s.ret ≤ g → g ≤ s.gen → (s.sl N g).gen = g ∧ (s.sl N g).data = ofGens s (· = g)) ∧
    (∀ g g', s.ret ≤ g → g ≤ s.gen → s.ret ≤ g' → g' ≤ s.gen → g % N = g' % N → g = g') := by
  have hi := (reach_inv hN h).2
  have c := hi.core
  refine ⟨c.sorted, c.logLe, ?_, fun g a b => ⟨(c.live g a b).1, (c.live g a b).2.2.1⟩, fun g g' a b a' b' e => mod_inj e (by have := c.high; omega) (by have := c.high; omega)⟩
  rcases reach_root hN h with hr | ⟨hr, hp⟩
  · exact ⟨s.ret, by omega, Nat.le_refl _, hr⟩
  · exact ⟨s.ret - 1, by omega, by omega, hr⟩

/-- A message is only recorded in the current generation, and only while its memtable is READY; the log is never rewritten. -/
theorem record_step (hN : 2 ≤ N) (h : Reachable N s) {t : Nat} {a : Act M} (hs : step N s t a = .ok s') :
    s'.log = s.log ∨ ∃ m, s'.log = s.log ++ [(s.gen, t, m)] ∧ (s.sl N s.gen).st = .ready ∧ s.pc t = .put m s.gen := by
  have hi := (reach_inv hN h).2
  have ok := hi.pcs t
  have hs := step_sound hs
  cases hs
  case put m g hp =>
    right
    rw [hp] at ok
    obtain ⟨o1, o2, o3⟩ := ok
    exact ⟨m, by rw [← o1]; rfl, by rw [← o1]; exact o3, by rw [hp, o1]⟩
  all_goals exact .inl rfl

/-- A memtable that is not READY accepts no messages: as long as it has its generation, its contents stay the same. -/
theorem frozen (hN : 2 ≤ N) (h : Reachable N s) {t : Nat} {a : Act M} (hs : step N s t a = .ok s') {i : Nat} (hi : i < N) (hst : (s.slots i).st ≠ .ready)
    (hg : (s'.slots i).gen = (s.slots i).gen) : (s'.slots i).data = (s.slots i).data := by
  have hv := (reach_inv hN h).2
  have ok := hv.pcs t
  have hs := step_sound hs
  cases hs
  case put m g hp =>
    rw [hp] at ok
    simp only [PCok] at ok
    simp only [State.to, State.setSl, upd]
    split
    · rename_i e; subst e; exact absurd ok.2.2 hst
    · rfl
  case rec1 g k hp =>
    simp only [State.to, State.setSl, upd] at hg ⊢
    split
    · rename_i e
      rw [if_pos e] at hg
      have : (s.sl N g).gen + N = (s.slots i).gen := hg
      rw [e] at this
      unfold State.sl at this
      omega
    · rfl
  all_goals
    first
    | rfl
    | (simp only [State.to, State.setSl, upd]
       split
       · rename_i e; subst e; rfl
       · rfl)

/-- Generations are incorporated one after the other: `ret` grows by one at a time, when the memtable of that generation is packed. -/
theorem retire_step (hN : 2 ≤ N) (h : Reachable N s) {t : Nat} {a : Act M} (hs : step N s t a = .ok s') :
    s'.ret = s.ret ∨ s'.ret = s.ret + 1 ∧ s.ret < s.gen ∧ (s.sl N s.ret).gen = s.ret ∧ (s.sl N s.ret).st = .assigned ∧ (s.sl N s.ret).cmt = ofGens s (· = s.ret) := by
  have hv := (reach_inv hN h).2
  have ok := hv.pcs t
  have c := hv.core
  have hs := step_sound hs
  cases hs
  case inc4 g nr hp =>
    rw [hp] at ok
    simp only [PCok] at ok
    obtain ⟨o1, o2, o3, o4, o5, o6⟩ := ok
    subst o1
    have hd := c.cmt (s.ret % N) (Nat.mod_lt _ (by omega)) (.inr o5)
    exact .inr ⟨rfl, o3, o4, o5, hd.trans (c.live s.ret (Nat.le_refl _) c.low).2.2.1⟩
  all_goals exact .inl rfl

/-- The tree only changes by the next generation being added to it. -/
theorem root_step (hN : 2 ≤ N) (h : Reachable N s) {t : Nat} {a : Act M} (hs : step N s t a = .ok s') :
    s'.root = s.root ∨ 0 < s.ret ∧ s.root = ofGens s (· < s.ret - 1) ∧ s'.root = s.root ++ ofGens s (· = s.ret - 1) := by
  have hv := (reach_inv hN h).2
  have hr := reach_root hN h
  have ok := hv.pcs t
  have c := hv.core
  have hs := step_sound hs
  cases hs
  case inc5 g nr hp =>
    rw [hp] at ok
    simp only [PCok] at ok
    obtain ⟨o1, o2, o3, o4, o5, o6⟩ := ok
    rcases hr with hr | ⟨hr, hpos⟩
    · left
      show nr = s.root
      rw [o6, o1, hr]
    · right
      refine ⟨hpos, hr, ?_⟩
      show nr = s.root ++ _
      rw [o6, hr, show s.ret - 1 = g by omega]
      exact lt_succ c.sorted g
  all_goals exact .inl rfl

/-- A memtable slot gets a new generation only when the contents of the old one are in the tree and no iterator uses it. -/
theorem reuse_step (hN : 2 ≤ N) (h : Reachable N s) {t : Nat} {a : Act M} (hs : step N s t a = .ok s') {i : Nat} (hi : i < N) (hg : (s'.slots i).gen ≠ (s.slots i).gen) :
    (s'.slots i).gen = (s.slots i).gen + N ∧ (s'.slots i).data = [] ∧ (s.slots i).gen ∉ s.held ∧ ∃ k, (s.slots i).gen < k ∧ s.root = ofGens s (· < k) := by
  have hv := (reach_inv hN h).2
  have ok := hv.pcs t
  have c := hv.core
  have hs := step_sound hs
  cases hs
  case rec1 g k hp =>
    rw [hp] at ok
    simp only [PCok] at ok
    obtain ⟨o1, o2, o3, o4, o5, o6⟩ := ok
    simp only [State.to, State.setSl, upd] at hg ⊢
    by_cases e : i = g % N
    · rw [if_pos e]
      have e' : s.slots i = s.sl N g := by rw [e]; rfl
      rw [e']
      refine ⟨rfl, rfl, ?_, ?_⟩
      · have := c.refs i hi
        rw [e', o4, o5, o2] at this
        rw [o2]
        intro hm
        have h3 := List.count_pos_iff.mpr hm
        rw [if_neg (by decide)] at this
        omega
      · rw [o2]
        rcases hv.root with hr | ⟨u, g', nr, hu⟩
        · exact ⟨s.ret, o1, hr⟩
        · have hok := hv.pcs u
          rw [hu] at hok
          simp only [PCok] at hok
          have hne : g ≠ g' := fun e => by rw [e] at o4; rw [hok.2.2.2.2.1] at o4; cases o4
          rcases reach_root hN h with hr | ⟨hr, _⟩
          · exact ⟨s.ret, o1, hr⟩
          · exact ⟨s.ret - 1, by omega, hr⟩
    · rw [if_neg e] at hg; exact absurd rfl hg
  all_goals
    exfalso
    apply hg
    first
    | rfl
    | (simp only [State.to, State.setSl, upd]
       split
       · rename_i e; subst e; rfl
       · rfl)

/-- `memtable_is_empty`: the current generation has no messages. -/
theorem is_empty (hN : 2 ≤ N) (h : Reachable N s) : s.empty = true ↔ ∀ e ∈ s.log, e.1 ≠ s.gen := by
  have c := (reach_inv hN h).2.core
  rw [c.emptyOk, (c.live s.gen c.low (Nat.le_refl _)).2.2.1]
  unfold inGen msgs
  rw [List.map_eq_nil_iff, List.filter_eq_nil_iff]
  simp

/-- No flush is lost: when no thread does anything and no task waits, all generations but the current one are in the tree. -/
theorem quiet_flushed (hN : 2 ≤ N) (h : Reachable N s) (hq : atRest s) : s.ret = s.gen ∧ s.inc = s.gen ∧ (s.sl N s.gen).st = .ready ∧ s.root ++ (s.sl N s.gen).data = all s := by
  have hv := (reach_inv hN h).2
  have c := hv.core
  obtain ⟨a1, a2, a3, a4, a5, a6, a7, a8, a9⟩ := reach_agents hN h
  obtain ⟨hidle, hqueue⟩ := hq
  have hno : ∀ k g, ¬ s.has k g := by
    rintro k g ⟨t, ht⟩
    rw [hidle t] at ht; cases ht
  have hnoI : ¬ s.hasInc := by
    rintro ⟨t, ht⟩
    rw [hidle t] at ht; cases ht
  have hinc : s.inc = s.ret := c.incRet.resolve_right (fun e => hnoI (a6 e))
  have hret : s.ret = s.gen := by
    apply Decidable.byContradiction
    intro hne
    have hlt : s.ret < s.gen := by have := c.low; omega
    have h1 := a2 s.ret (Nat.le_refl _) hlt
    have h2 := a3 s.ret (Nat.le_refl _) hlt
    have h3 := a4 s.ret (Nat.le_refl _) hlt
    have h4 := a5 s.ret (Nat.le_refl _) hlt
    have h5 := c.old s.ret (Nat.le_refl _) hlt
    have h6 := (c.live s.ret (Nat.le_refl _) c.low).2.2.2
    cases hst : (s.sl N s.ret).st
    · exact h5 hst
    · rcases h1 hst with h | h
      · rw [hqueue] at h; cases h
      · exact hno _ _ h
    · exact hno _ _ (h2 hst)
    · exact hno _ _ (h3 hst hinc.symm)
    · exact hno _ _ (h4 hst)
    · exact h6 hst
  have hroot : s.root = ltGen s.log s.ret := hv.root.resolve_right (fun ⟨t, g, nr, ht⟩ => by rw [hidle t] at ht; cases ht)
  refine ⟨hret, hinc.trans hret, c.cur.resolve_right (fun e => hno _ _ (a1 e)), ?_⟩
  rw [hroot, (c.live s.gen c.low (Nat.le_refl _)).2.2.1, hret]
  have hcut : ltGen s.log (s.gen + 1) = msgs s.log := by
    unfold ltGen
    rw [List.filter_eq_self.mpr (fun e he => by have := c.logLe e he; simp; omega)]
  rw [← lt_succ c.sorted s.gen, hcut]
  rfl

/-- If moreover no iterator is open, all memtables can be used again. -/
theorem quiet_ready (hN : 2 ≤ N) (h : Reachable N s) (hq : atRest s) (hh : s.held = []) {i : Nat} (hi : i < N) : (s.slots i).st = .ready := by
  have hv := (reach_inv hN h).2
  have c := hv.core
  obtain ⟨hret, -, hcur, -⟩ := quiet_flushed hN h hq
  obtain ⟨a1, a2, a3, a4, a5, a6, a7, a8, a9⟩ := reach_agents hN h
  have hno : ∀ k g, ¬ s.has k g := by
    rintro k g ⟨t, ht⟩
    rw [hq.1 t] at ht; cases ht
  obtain ⟨w, w1, w2, w3⟩ := window (N := N) s.ret i (by omega)
  have hw : s.slots i = s.sl N w := by unfold State.sl; rw [w3, Nat.mod_eq_of_lt hi]
  by_cases e : w = s.gen
  · rw [hw, e]; exact hcur
  · rcases c.fut w (by omega) w2 with h1 | ⟨h1, h2⟩
    · rw [hw]; exact h1.2.1
    · exfalso
      have hcount := c.refs i hi
      rw [hh, List.count_nil, hw] at hcount
      rcases h2 with h2 | ⟨h2, h3, -⟩
      · -- retired and not recycled
        have e2 : s.sl N (s.sl N w).gen = s.sl N w := sl_congr s (((Nat.add_mod_right _ _).symm).trans (congrArg (· % N) h2))
        cases ho : (s.sl N w).own
        · rw [ho] at hcount
          exact hno _ _ (a8 (s.sl N w).gen (by rw [e2]) (by rw [e2]; simpa using hcount))
        · exact hno _ _ (a7 (s.sl N w).gen (by omega) (by rw [e2]) (by rw [e2]; exact ho))
      · -- recycled but not READY
        have hge : N ≤ w := by
          apply Decidable.byContradiction
          intro hlt
          have hiw : i = w := by rw [← Nat.mod_eq_of_lt hi, ← w3, Nat.mod_eq_of_lt (by omega)]
          have h4 := reach_fresh hN h i hi (by rw [hw, h2, hiw]) (by omega)
          rw [hw, h1] at h4
          cases h4
        have e2 : s.sl N (w - N) = s.sl N w := sl_congr s (by conv => rhs; rw [show w = w - N + N by omega]; rw [Nat.add_mod_right])
        exact hno _ _ (a9 (w - N) (by rw [e2, h2]; omega) (by omega) (by rw [e2]; exact h1))

/-- Closing an idle database: the current memtable is flushed without failing an assertion ... -/
theorem close_ok (hN : 2 ≤ N) (h : Reachable N s) (hq : atRest s) (hh : s.held = []) :
    ∃ s', forceFinalize N s = .ok s' ∧ Reachable N s' ∧ s'.log = s.log ∧ s'.gen = s.gen + 1 ∧ s'.empty = true := by
  obtain ⟨h1, -, h2, -⟩ := quiet_flushed hN h hq
  have hf : forceFinalize N s = .ok { s.setSl N s.gen { s.sl N s.gen with st := .finalized } with gen := s.gen + 1, empty := true, queue := s.queue ++ [s.gen] } := by
    simp only [forceFinalize]
    rw [if_neg (by rw [h2]; simp), if_pos (by omega)]
  refine ⟨_, hf, .final h (fun t => by rw [hq.1 t]; rfl) (quiet_ready hN h hq hh (Nat.mod_lt _ (by omega))) hf, rfl, rfl, rfl⟩

/-- ... and when the flush has finished everything is in the tree. -/
theorem quiet_empty (hN : 2 ≤ N) (h : Reachable N s) (hq : atRest s) (he : s.empty = true) : s.root = all s := by
  have c := (reach_inv hN h).2.core
  have h1 := (quiet_flushed hN h hq).2.2.2
  rw [c.emptyOk.mp he, List.append_nil] at h1
  exact h1

/-! ### C25 -/

/-- A lookup that went to the end found the messages of a prefix of the log, in order and each once, and this prefix has all messages that were recorded
before the lookup was called; one that stopped early found the latest of them. -/
theorem lookup_sees (hN : 2 ≤ N) (h : Reachable N s) {n : Nat} {complete : Bool} {obs : List M} (hr : (n, complete, obs) ∈ s.results) :
    ∃ k, n ≤ k ∧ k ≤ s.log.length ∧ (complete = true → obs = (all s).take k) ∧ obs <:+ (all s).take k := by
  obtain ⟨L, h1, h2, h3, h4⟩ := (reach_look hN h).res n complete obs hr
  have : msgs L = (all s).take L.length := by
    rw [List.prefix_iff_eq_take] at h1
    show L.map (·.2.2) = (s.log.map (·.2.2)).take L.length
    rw [← List.map_take, ← h1]
  exact ⟨L.length, h2, h1.length_le, fun e => this ▸ h4 e, this ▸ h3⟩

/-- `n` is what it says: when a lookup is called, it is the number of recorded messages. -/
theorem lookup_called {t : Nat} (hs : step N s t .lookup = .ok s') : s'.pc t = .lk0 s.log.length ∧ s'.log = s.log := by
  unfold step at hs
  split at hs <;> simp_all [State.to]
  cases hs
  exact ⟨if_pos rfl, rfl⟩

/-! ### Examples -/

/-- Acts of threads, one after the other. -/
def run (N : Nat) : List (Nat × Act M) → State M → Option (State M)
  | [], s => some s
  | (t, a) :: l, s => match step N s t a with | .ok s' => run N l s' | _ => none

theorem run_reachable {l : List (Nat × Act M)} (h : Reachable N s) (hr : run N l s = some s') : Reachable N s' := by
  induction l generalizing s with
  | nil => cases hr; exact h
  | cons x l ih =>
    obtain ⟨t, a⟩ := x
    simp only [run] at hr
    split at hr
    · rename_i e; exact ih (.step t a h e) hr
    · cases hr

theorem step_pc {t u : Nat} {a : Act M} (hs : step N s t a = .ok s') (hu : u ≠ t) : s'.pc u = s.pc u := by
  have hs := step_sound hs
  cases hs <;> exact if_neg hu

theorem run_pc {l : List (Nat × Act M)} {u : Nat} (hr : run N l s = some s') (hl : ∀ x ∈ l, x.1 ≠ u) : s'.pc u = s.pc u := by
  induction l generalizing s with
  | nil => cases hr; rfl
  | cons x l ih =>
    obtain ⟨t, a⟩ := x
    simp only [run] at hr
    split at hr
    · rename_i e
      rw [ih hr (fun y hy => hl y (List.mem_cons_of_mem _ hy)), step_pc e (Ne.symm (hl (t, a) List.mem_cons_self))]
    · cases hr

/-- Thread `t` inserts `m`; `k` more steps; rotation first if `b`. -/
def ins (t m k : Nat) (b : Bool) : List (Nat × Act Nat) := (t, .insert m) :: (List.replicate k (t, .go b))
def rotate (t m : Nat) : List (Nat × Act Nat) := ins t m 11 true ++ List.replicate 6 (t, .go false)

/-- What the examples look at. -/
structure View where
  root : List Nat
  log : List (Nat × Nat × Nat)
  done : List (Nat × Nat × Bool)
  results : List (Nat × Bool × List Nat)
  gen : Nat
  ret : Nat
  queue : List Nat
  held : List Nat
deriving DecidableEq

def view (s : State Nat) : View := ⟨s.root, s.log, s.done, s.results, s.gen, s.ret, s.queue, s.held⟩

/-- Two inserts, a rotation, another insert; a lookup begins; the memtable is flushed while a third insert happens and the lookup is between its steps.
The lookup blocks the incorporation until it has read the root; it sees all four messages once. -/
def demo : List (Nat × Act Nat) :=
  ins 0 10 6 false ++ ins 0 11 6 false ++ rotate 0 12 ++ [(1, .lookup), (1, .go false), (2, .flush 0), (2, .go false), (2, .go false), (1, .go false), (2, .go false)]
    ++ ins 0 13 6 false ++ List.replicate 3 (2, .go false) ++ List.replicate 9 (1, .go false) ++ List.replicate 8 (2, .go false)

theorem of_run {α : Type} {f : State Nat → α} {l : List (Nat × Act Nat)} {x : α} (h : (run N l init).map f = some x) : ∃ s, Reachable N s ∧ f s = x := by
  cases e : run N l (init : State Nat) with
  | none => rw [e] at h; cases h
  | some s => rw [e] at h; exact ⟨s, run_reachable .init e, Option.some.inj h⟩

/-- For `recorded_once`, `stored`, `lookup_sees`. -/
example : ∃ s, Reachable 2 s ∧ view s = ⟨[10, 11], [(0, 0, 10), (0, 0, 11), (1, 0, 12), (1, 0, 13)],
    [(0, 10, true), (0, 11, true), (0, 12, true), (0, 13, true)], [(3, true, [10, 11, 12, 13])], 1, 1, [], []⟩ :=
  of_run (l := demo) (by decide +kernel)

/-- For `quiet_flushed`, `quiet_ready`, `reuse_step`: the first memtable has been recycled for generation 2. -/
example : ∃ s : State Nat, Reachable 2 s ∧ ((s.slots 0).gen, (s.slots 0).st, (s.slots 1).gen, (s.slots 1).st, (s.slots 1).data) = (2, .ready, 1, .ready, [12, 13]) :=
  of_run (l := demo) (by decide +kernel)

/-- An iterator keeps the first memtable from being recycled, so the second rotation reports "busy", and nothing is recorded; when the iterator
is closed the memtable is recycled, and the rotation succeeds. -/
def demo2 : List (Nat × Act Nat) :=
  ins 0 10 6 false ++ (1, .iter) :: List.replicate 6 (1, .go false) ++ rotate 0 11 ++ (2, .flush 0) :: List.replicate 12 (2, .go false)
    ++ ins 0 12 5 true ++ (1, .drop 0) :: List.replicate 2 (1, .go false) ++ rotate 0 13

example : ∃ s, Reachable 2 s ∧ view s = ⟨[10], [(0, 0, 10), (1, 0, 11), (2, 0, 13)], [(0, 10, true), (0, 11, true), (0, 12, false), (0, 13, true)], [], 2, 1, [1], []⟩ :=
  of_run (l := demo2) (by decide +kernel)

/-- Closing after one insert (`close_ok`, `quiet_empty`). -/
example : ((run 2 (ins 0 10 6 false) init).bind fun s => match forceFinalize 2 s with
    | .ok s => (run 2 ((2, .flush 0) :: List.replicate 13 (2, .go false)) s).map fun s => (view s, s.empty)
    | _ => none) = some (⟨[10], [(0, 0, 10)], [(0, 10, true)], [], 1, 1, [], []⟩, true) := by decide +kernel

/-- Three memtables wait for incorporation, the background tasks have not run yet, all threads are idle, and the database is closed: with four memtables
(the number `trunk_config_init` uses) the assertion of `memtable_force_finalize` (memtable.c:274) does not allow one more generation, and the process
aborts. (`trunk_prepare_for_shutdown`, trunk.c:7863, calls it before it waits for the tasks.) The comment there says that other memtables must already be
flushing or flushed; but flushing does not help, they must be flushed. -/
theorem close_can_abort : ∃ s : State Nat, Reachable 4 s ∧ (∀ t, s.pc t = .idle) ∧ forceFinalize 4 s = .fault := by
  have h1 : ((run 4 (rotate 0 10 ++ rotate 0 11 ++ rotate 0 12) init).map fun s => ((s.slots 3).st, s.gen, s.ret)) = some (.ready, 3, 0) := by decide +kernel
  have h2 : (run 4 (rotate 0 10 ++ rotate 0 11 ++ rotate 0 12) init).any (fun s => match s.pc 0 with | .idle => true | _ => false) = true := by decide +kernel
  cases e : run 4 (rotate 0 10 ++ rotate 0 11 ++ rotate 0 12) (init : State Nat) with
  | none => rw [e] at h1; cases h1
  | some s =>
    rw [e] at h1 h2
    simp only [Option.map_some, Option.some.injEq, Prod.mk.injEq, Option.any_some] at h1 h2
    refine ⟨s, run_reachable .init e, fun t => ?_, ?_⟩
    · by_cases ht : t = 0
      · subst ht; split at h2 <;> first | assumption | cases h2
      · rw [run_pc e (fun x hx => ?_)]
        · rfl
        · revert x; simp [rotate, ins]; omega
    · simp only [forceFinalize]
      split
      · rfl
      · rw [if_neg (by omega)]

end Splinter.Memtable
