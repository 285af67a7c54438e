import Verif.Proof.LiveScan
import Verif.Model.Store
import Verif.Proof.StoreMem
import Verif.Props.Trunk
/-! # The whole store: invariant -/
set_option linter.unusedSectionVars false
namespace Splinter.Store
open Splinter.Spec (eval UpdateSem Implements report act actAll msgsOf)
open Splinter.Trunk (Branch)
open Splinter.Merge (SortedRun)
open Memtable (upd Res)

variable {K V F : Type} [LinearOrder K]

/-- Messages of one key. -/
def ofKey (k : K) (l : List (K × Msg V)) : List (Msg V) := (l.filter (·.1 = k)).map (·.2)

theorem ofKey_append (k : K) (a b : List (K × Msg V)) : ofKey k (a ++ b) = ofKey k a ++ ofKey k b := by
  unfold ofKey; rw [List.filter_append, List.map_append]

theorem ofKey_one (k : K) (x : K × Msg V) : ofKey k [x] = if x.1 = k then [x.2] else [] := by
  unfold ofKey; by_cases h : x.1 = k <;> simp [h]

variable {cfg : DataCfg K V} {sem : UpdateSem K V}

theorem act_one (k : K) (m : Msg V) (v : Option V) : actAll sem k [m] v = act sem k m v := rfl

theorem tree_snoc (cfg : DataCfg K V) (d : List (K × Msg V)) (x : K × Msg V) : tree cfg (d ++ [x]) = (tree cfg d).bind (Trunk.memInsert cfg x.1 x.2) := by
  unfold tree; rw [List.foldl_append]; rfl

/-- The tree of a memtable has the effect of the messages inserted into it. -/
theorem tree_spec (H : Implements cfg sem) (d : List (K × Msg V)) : ∃ b, tree cfg d = some b ∧ SortedRun b ∧
    (∀ x ∈ b, ∃ y ∈ d, y.1 = x.1) ∧ (d ≠ [] → b ≠ []) ∧ ∀ k, ∀ v, actAll sem k (msgsOf k [b]) v = actAll sem k (ofKey k d) v := by
  refine Trunk.snocInd (P := fun d => ∃ b, tree cfg d = some b ∧ SortedRun b ∧
    (∀ x ∈ b, ∃ y ∈ d, y.1 = x.1) ∧ (d ≠ [] → b ≠ []) ∧ ∀ k, ∀ v, actAll sem k (msgsOf k [b]) v = actAll sem k (ofKey k d) v) ?_ ?_ d
  · exact ⟨[], rfl, List.Pairwise.nil, by simp, by simp, fun k v => rfl⟩
  · intro d x ih
    obtain ⟨b, e, h1, h2, h3, h4⟩ := ih
    obtain ⟨b', e', a1, a2, a3, m', a4, a5⟩ := Trunk.memInsert_spec H x.1 x.2 b h1
    refine ⟨b', by rw [tree_snoc, e]; exact e', a1, ?_, ?_, ?_⟩
    · intro y hy
      rcases a2 y hy with h | h
      · exact ⟨x, by simp, h.symm⟩
      · obtain ⟨z, hz, e⟩ := h2 y h
        exact ⟨z, by simp [hz], e⟩
    · rintro - rfl
      unfold Branch.get at a4
      simp at a4
    · intro k v
      rw [ofKey_append, Trunk.actAll_append, ← h4 k v, ofKey_one]
      by_cases hk : x.1 = k
      · rw [if_pos hk, act_one]
        subst hk
        rw [Trunk.msgsOf_one a4]
        exact a5 v
      · rw [if_neg hk, Trunk.msgsOf_congr (a3 k (Ne.symm hk))]
        rfl

/-- An accumulator holds the effect of the messages seen so far. -/
def AccOk (sem : UpdateSem K V) (k : K) (acc : Option (Msg V)) (obs : List (K × Msg V)) : Prop :=
  ∀ v, actO sem k acc v = actAll sem k (ofKey k obs) v

theorem probe_spec (H : Implements cfg sem) {k : K} {acc : Option (Msg V)} {obs d : List (K × Msg V)} (ha : AccOk sem k acc obs)
    {b : Branch K V} (hb : ∀ v, actAll sem k (msgsOf k [b]) v = actAll sem k (ofKey k d) v) :
    ∃ acc', probe cfg k acc b = some acc' ∧ AccOk sem k acc' (d ++ obs) := by
  unfold probe
  cases hg : b.get k with
  | none =>
    refine ⟨acc, rfl, fun v => ?_⟩
    have : msgsOf k [b] = [] := by rw [Trunk.msgsOf_eq]; simp [hg]
    rw [ofKey_append, Trunk.actAll_append, ← hb, this]
    exact ha v
  | some m =>
    rw [Trunk.msgsOf_one hg] at hb
    unfold accumulate
    cases acc with
    | none =>
      refine ⟨some m, rfl, fun v => ?_⟩
      rw [ofKey_append, Trunk.actAll_append, ← hb, ← ha]
      rfl
    | some a =>
      obtain ⟨c, hc1, hc2⟩ := dataMergeTuples_act H k m a
      refine ⟨some c, by simp [hc1], fun v => ?_⟩
      rw [ofKey_append, Trunk.actAll_append, ← hb, ← ha]
      exact hc2 v

theorem actAll_foldr (k : K) (l : List (Msg V)) (v : Option V) : actAll sem k l v = l.reverse.foldr (fun m v => act sem k m v) v := by
  unfold actAll; rw [List.foldr_reverse]

/-- The rest of a lookup in the trunk. -/
theorem trunk_spec {ops : Trunk.FilterOps K F} {L : Trunk.FilterLaws ops} {lo hi : K} (H : Implements cfg sem) {t : Trunk.State K V F} {r : List (K × Msg V)}
    (I : Trunk.Inv L sem lo hi t (fun k => ofKey k r)) (hm : t.mems = [[]]) {k : K} (k1 : lo ≤ k) (k2 : k < hi) {acc : Option (Msg V)}
    {obs : List (K × Msg V)} (ha : AccOk sem k acc obs) (hd : definitive acc = false) :
    ∃ acc', Trunk.runProbes cfg k acc (Trunk.probes ops t.h t.root k) = .ok acc' ∧ actO sem k acc' none = eval sem k (ofKey k (r ++ obs)) := by
  have h2 := Trunk.found_view (L := L) (Trunk.view t.h t.root k) (I.lvls k k1 k2)
  rw [← Trunk.probes_eq ops t.h t.root lo hi k I.good k1 k2] at h2
  have hv := I.value k k1 k2
  rw [hm] at hv
  have e0 : msgsOf k [([] : Branch K V)] = [] := by rw [Trunk.msgsOf_eq]; simp [Branch.get]
  rw [List.reverse_singleton, Trunk.msgsOf_append, e0, List.append_nil] at hv
  obtain ⟨r', h3, h4⟩ := accumulateAll_spec H k ((Trunk.viewBranches (Trunk.view t.h t.root k)).reverse.filterMap (fun b => b.get k)) acc
    (by intro a ha'; subst ha'; exact hd)
  refine ⟨r', ?_, ?_⟩
  · rw [Trunk.runProbes_eq k _ _ h2.1, h2.2, h3]
  · rw [← h4, ha, List.filterMap_reverse]
    have e2 : (List.filterMap (fun b => Branch.get b k) (Trunk.viewBranches (Trunk.view t.h t.root k))).reverse.foldr (fun m v => act sem k m v) none =
        actAll sem k (ofKey k r) none := by
      rw [← hv, actAll_foldr, Trunk.msgsOf_eq]
    rw [e2, ← Trunk.actAll_append, ← ofKey_append]
    rfl

/-! ## The invariant -/

/-- What is known about a lookup. -/
def LookOk {P : Par K V F} (L : Trunk.FilterLaws P.ops) (sem : UpdateSem K V) (l : Look K V F) : Memtable.PC (K × Msg V) → Prop
  | .lk0 _ | .lk1 _ | .lk2 _ _ => l.acc = none
  | .lk3 _ _ _ _ obs | .lk4 _ _ _ _ obs _ | .lk5 _ obs => AccOk sem l.key l.acc obs ∧ definitive l.acc = false
  | .lk6 _ obs r => AccOk sem l.key l.acc obs ∧ definitive l.acc = false ∧
      ∃ t, l.snap = some t ∧ t.mems = [[]] ∧ Trunk.Inv L sem P.lo P.hi t (fun k => ofKey k r)
  | .lk7 _ obs => AccOk sem l.key l.acc obs ∧ definitive l.acc = true
  | .lk8 _ obs => actO sem l.key l.acc none = eval sem l.key (ofKey l.key obs)
  | _ => True

/-- A thread is in a lookup; the number is the length of the log when it was called. -/
def lkN {M : Type} : Memtable.PC M → Option Nat
  | .lk0 n | .lk1 n | .lk2 n _ | .lk3 n _ _ _ _ | .lk4 n _ _ _ _ _ | .lk5 n _ | .lk6 n _ _ | .lk7 n _ | .lk8 n _ => some n
  | _ => none

structure Ok {P : Par K V F} (L : Trunk.FilterLaws P.ops) (sem : UpdateSem K V) (s : St K V F) : Prop where
  mem : Memtable.Reachable P.N s.m
  trunk : Trunk.Inv L sem P.lo P.hi s.t (fun k => ofKey k s.m.root)
  mems : s.t.mems = [[]]
  keys : Memtable.Only (fun x => P.lo ≤ x.1 ∧ x.1 < P.hi) s.m
  full : Memtable.Full s.m
  looks : ∀ t n, lkN (s.m.pc t) = some n → ∃ l, s.look t = some l ∧ P.lo ≤ l.key ∧ l.key < P.hi ∧ LookOk L sem l (s.m.pc t)

/-- What a caller and the maintenance must respect. -/
def Legal (P : Par K V F) (s : St K V F) : Act K V → Prop
  | .insert k _ | .lookup k => P.lo ≤ k ∧ k < P.hi
  | .maint o => Trunk.Legal P.lo P.hi s.t o
  | _ => True

variable {P : Par K V F} {L : Trunk.FilterLaws P.ops} {s s' : St K V F}

theorem ok_init (hlt : P.lo < P.hi) : Ok L sem (init P) where
  mem := .init
  trunk := Trunk.inv_init hlt
  mems := rfl
  keys := ⟨by simp [init, Memtable.init], by intro t m h; cases h⟩
  full := Memtable.full_init
  looks := by intro t n h; cases h

/-- Not one of the steps with an effect outside the memtables. -/
def isPlain {M : Type} : Memtable.PC M → Bool
  | .lk4 .. | .lk5 .. | .lk6 .. | .lk7 .. | .lk8 .. | .inc5 .. => false
  | _ => true

/-- Steps as rules. -/
inductive Move (P : Par K V F) (s : St K V F) (t : Nat) : Act K V → St K V F → Out V → Prop
  | maint (o : Trunk.Op K V) (t' : Trunk.State K V F) : isMaint o = true → Trunk.step P.cfg P.ops P.keyOk s.t o = some t' →
      Move P s t (.maint o) { s with t := t' } .nothing
  | refused (k : K) (m : Msg V) : P.keyOk k = false → s.m.pc t = .idle → Move P s t (.insert k m) s .refused
  | insert (k : K) (m : Msg V) : P.keyOk k = true → s.m.pc t = .idle →
      Move P s t (.insert k m) { s with m := s.m.to t (.begin (k, m)) } .nothing
  | call (k : K) : s.m.pc t = .idle → Move P s t (.lookup k)
      { s with m := s.m.to t (.lk0 s.m.log.length), look := upd s.look t (some ⟨k, none, none⟩) } .nothing
  | plain (a : Act K V) (b : Memtable.Act (K × Msg V)) (m' : Memtable.State (K × Msg V)) (o : Out V) :
      Memtable.step P.N s.m t b = .ok m' → isPlain (s.m.pc t) = true → (∀ x, m'.pc t = .begin x → s.m.pc t ≠ .idle) →
      (∀ n, m'.pc t = .lk0 n → s.m.pc t ≠ .idle) →
      (∀ x g, s.m.pc t = .ins3 x g → m'.pc t = .rot1 x g → (s.m.sl P.N g).data ≠ []) → (∀ r, o ≠ .looked r) → o ≠ .refused →
      (∀ b, o = .inserted b ↔ ((∃ x, s.m.pc t = .put2 x) ∧ b = true) ∨ ((∃ x g, s.m.pc t = .rot1 x g) ∧ m'.pc t = .idle ∧ b = false)) →
      (o = .other → m'.pc t = .idle) → Move P s t a { s with m := m' } o
  | lk4 (f : Bool) (n g e j : Nat) (obs : List (K × Msg V)) (pk : Bool) (l : Look K V F) (b : Branch K V) (acc : Option (Msg V)) :
      s.m.pc t = .lk4 n g e j obs pk → s.look t = some l →
      tree P.cfg (if pk then (s.m.sl P.N (j - 1)).cmt else (s.m.sl P.N (j - 1)).data) = some b → probe P.cfg l.key l.acc b = some acc →
      (pk = false → (s.m.sl P.N (j - 1)).refs ≠ 0) →
      Move P s t (.go f)
        { s with m := s.m.to t (if definitive acc then .lk7 n ((if pk then (s.m.sl P.N (j - 1)).cmt else (s.m.sl P.N (j - 1)).data) ++ obs)
                    else .lk3 n g e (j - 1) ((if pk then (s.m.sl P.N (j - 1)).cmt else (s.m.sl P.N (j - 1)).data) ++ obs)),
                 look := upd s.look t (some { l with acc := acc }) } .nothing
  | lk5 (f : Bool) (n : Nat) (obs : List (K × Msg V)) (l : Look K V F) : s.m.pc t = .lk5 n obs → s.look t = some l →
      Move P s t (.go f) { s with m := s.m.to t (.lk6 n obs s.m.root), look := upd s.look t (some { l with snap := some s.t }) } .nothing
  | lk6 (f : Bool) (n : Nat) (obs r : List (K × Msg V)) (l : Look K V F) (t' : Trunk.State K V F) (acc : Option (Msg V)) :
      s.m.pc t = .lk6 n obs r → s.look t = some l → l.snap = some t' →
      Trunk.runProbes P.cfg l.key l.acc (Trunk.probes P.ops t'.h t'.root l.key) = .ok acc →
      Move P s t (.go f) { s with m := { s.m with lkR := s.m.lkR.erase t }.to t (.lk8 n (r ++ obs)), look := upd s.look t (some { l with acc := acc }) } .nothing
  | lk7 (f : Bool) (n : Nat) (obs : List (K × Msg V)) (l : Look K V F) (m' : Memtable.State (K × Msg V)) : s.m.pc t = .lk7 n obs → s.look t = some l →
      Memtable.step P.N s.m t (.go false) = .ok m' → m'.pc t = .idle →
      Move P s t (.go f) { s with m := m', look := upd s.look t none } (.looked (finishLookup P.cfg l.key l.acc))
  | lk8 (f : Bool) (n : Nat) (obs : List (K × Msg V)) (l : Look K V F) (m' : Memtable.State (K × Msg V)) : s.m.pc t = .lk8 n obs → s.look t = some l →
      Memtable.step P.N s.m t (.go false) = .ok m' → m'.pc t = .idle →
      Move P s t (.go f) { s with m := m', look := upd s.look t none } (.looked (finishLookup P.cfg l.key l.acc))
  | inc5 (f : Bool) (g : Nat) (nr : List (K × Msg V)) (t' : Trunk.State K V F) : s.m.pc t = .inc5 g nr →
      addMem P s.t (s.m.sl P.N g).cmt = some t' →
      Move P s t (.go f) { s with m := { s.m with root := nr, rootX := none }.to t (.inc6 g), t := t' } .nothing

theorem mem_ok {o o' : Out V} {r : Res (Memtable.State (K × Msg V))} (h : s.mem o r = .ok (s', o')) :
    ∃ m', r = .ok m' ∧ s' = { s with m := m' } ∧ o' = o := by
  cases r with
  | blocked => cases h
  | fault => cases h
  | ok m' => simp only [St.mem, Res.ok.injEq, Prod.mk.injEq] at h; exact ⟨m', rfl, h.1.symm, h.2.symm⟩

theorem memIdle_ok {t : Nat} {o' : Out V} {r : Res (Memtable.State (K × Msg V))} (h : s.memIdle t r = .ok (s', o')) :
    ∃ m', r = .ok m' ∧ s' = { s with m := m' } ∧ (o' = .other ∧ m'.pc t = .idle ∨ o' = .nothing) := by
  cases r with
  | blocked => cases h
  | fault => cases h
  | ok m' =>
    simp only [St.memIdle, Res.ok.injEq, Prod.mk.injEq] at h
    refine ⟨m', rfl, h.1.symm, ?_⟩
    rw [← h.2]
    split <;> simp_all

theorem memLook_ok {t : Nat} {l : Option (Look K V F)} {o o' : Out V} {r : Res (Memtable.State (K × Msg V))} (h : s.memLook t l o r = .ok (s', o')) :
    ∃ m', r = .ok m' ∧ s' = { s with m := m', look := upd s.look t l } ∧ o' = o := by
  cases r with
  | blocked => cases h
  | fault => cases h
  | ok m' => simp only [St.memLook, Res.ok.injEq, Prod.mk.injEq] at h; exact ⟨m', rfl, h.1.symm, h.2.symm⟩

theorem step_idle {N : Nat} {M : Type} {m m' : Memtable.State M} {t : Nat} {a : Memtable.Act M} (h : Memtable.step N m t a = .ok m')
    (ha : ∀ b, a ≠ .go b) : m.pc t = .idle := by
  unfold Memtable.step at h
  split at h <;> first | assumption | simp_all

set_option maxHeartbeats 1000000 in
theorem go_move {t : Nat} {f : Bool} {o : Out V} (hl : ∀ n, lkN (s.m.pc t) = some n → ∃ l, s.look t = some l)
    (h : go P s t f = .ok (s', o)) : Move P s t (.go f) s' o := by
  unfold go at h
  simp only at h
  split at h
  · -- ins3
    rename_i hp
    split at h
    · cases h
    · rename_i hf
      obtain ⟨m', e1, rfl, rfl⟩ := mem_ok h
      refine .plain _ _ m' _ e1 (by rw [hp]; rfl) (by simp [hp]) (by simp [hp]) ?_ (by simp) (by simp) (by simp [hp]) (by simp)
      intro x g' hx hr hd
      rw [hp] at hx
      injection hx with hx1 hx2
      subst hx2
      cases f
      · simp [Memtable.step, hp, Memtable.PC.isInsert, Memtable.stepInsert] at e1
        rw [← e1] at hr
        simp at hr
      · exact hf ⟨rfl, hd⟩
  · rename_i hp
    obtain ⟨m', e1, rfl, rfl⟩ := mem_ok h
    exact .plain _ _ m' _ e1 (by rw [hp]; rfl) (by simp [hp]) (by simp [hp]) (by simp [hp]) (by simp) (by simp)
      (by intro b; simp [hp, eq_comm]) (by simp)
  · rename_i x g hp
    obtain ⟨m', e1, rfl, rfl⟩ := mem_ok h
    refine .plain _ _ m' _ e1 (by rw [hp]; rfl) (by simp [hp]) (by simp [hp]) (by simp [hp]) (by intro r; split <;> simp) (by split <;> simp) ?_ (by split <;> simp)
    simp [Memtable.step, hp, Memtable.PC.isInsert, Memtable.stepInsert] at e1
    intro b
    by_cases hr : (s.m.sl P.N (g + 1)).st = .ready
    · rw [if_pos hr] at e1 ⊢
      injection e1 with e1
      subst e1
      simp [hp]
    · rw [if_neg hr] at e1 ⊢
      injection e1 with e1
      subst e1
      simp [hp, eq_comm]
  · -- lk4
    rename_i n g e j obs pk l hp hlk
    split at h
    · cases h
    · rename_i b hb
      split at h
      · cases h
      · rename_i acc hacc
        obtain ⟨m', e1, rfl, rfl⟩ := memLook_ok h
        simp [Memtable.step, hp, Memtable.PC.isInsert, Memtable.PC.isFlush, Memtable.stepLookup] at e1
        have hr : pk = false → (s.m.sl P.N (j - 1)).refs ≠ 0 := by
          intro h1 h2; simp [h1, h2] at e1
        have hm : m' = s.m.to t (if definitive acc then .lk7 n ((if pk then (s.m.sl P.N (j - 1)).cmt else (s.m.sl P.N (j - 1)).data) ++ obs)
                    else .lk3 n g e (j - 1) ((if pk then (s.m.sl P.N (j - 1)).cmt else (s.m.sl P.N (j - 1)).data) ++ obs)) := by
          split at e1
          · cases e1
          · cases hd : definitive acc <;> rw [hd] at e1 <;> simp at e1 <;> simp [← e1]
        rw [hm]
        exact .lk4 f n g e j obs pk l b acc hp hlk hb hacc hr
  · rename_i n obs l hp hlk
    obtain ⟨m', e1, rfl, rfl⟩ := memLook_ok h
    simp [Memtable.step, hp, Memtable.PC.isInsert, Memtable.PC.isFlush, Memtable.stepLookup] at e1
    rw [← e1]
    exact .lk5 f n obs l hp hlk
  · rename_i n obs r l hp hlk
    split at h
    · cases h
    · rename_i t' ht
      split at h
      · cases h
      · rename_i acc hacc
        obtain ⟨m', e1, rfl, rfl⟩ := memLook_ok h
        simp [Memtable.step, hp, Memtable.PC.isInsert, Memtable.PC.isFlush, Memtable.stepLookup] at e1
        rw [← e1]
        exact .lk6 f n obs r l t' acc hp hlk ht hacc
  · rename_i n obs l hp hlk
    obtain ⟨m', e1, rfl, rfl⟩ := memLook_ok h
    refine .lk7 f n obs l m' hp hlk e1 ?_
    simp [Memtable.step, hp, Memtable.PC.isInsert, Memtable.PC.isFlush, Memtable.stepLookup] at e1
    rw [← e1]; simp
  · rename_i n obs l hp hlk
    obtain ⟨m', e1, rfl, rfl⟩ := memLook_ok h
    refine .lk8 f n obs l m' hp hlk e1 ?_
    simp [Memtable.step, hp, Memtable.PC.isInsert, Memtable.PC.isFlush, Memtable.stepLookup] at e1
    rw [← e1]; simp
  · rename_i g nr hp
    split at h
    · cases h
    · rename_i t' ht
      split at h
      · cases h
      · cases h
      · rename_i m' e1
        injection h with h
        injection h with h1 h2
        subst h1 h2
        simp [Memtable.step, hp, Memtable.PC.isInsert, Memtable.PC.isFlush, Memtable.stepFlush] at e1
        rw [← e1]
        exact .inc5 f g nr t' hp ht
  · cases h
  · rename_i h3 h4 h5 h6 h7 h8 h9 h10 h11 h12
    obtain ⟨m', e1, rfl, ho⟩ := memIdle_ok h
    have hni : s.m.pc t ≠ .idle := h7
    refine .plain _ _ m' _ e1 ?_ (fun _ _ => hni) (fun _ _ => hni) (fun x g hx => absurd hx (h3 x g)) ?_ ?_ ?_ (by rcases ho with ⟨rfl, hid⟩ | rfl <;> simp_all)
    · cases hp : s.m.pc t <;> try rfl
      case inc5 g nr => exact absurd hp (h6 _ _)
      all_goals
        obtain ⟨l, hlk⟩ := hl _ (by rw [hp]; rfl)
        first
        | exact (h8 _ _ _ _ _ _ _ hp hlk).elim
        | exact (h9 _ _ _ hp hlk).elim
        | exact (h10 _ _ _ _ hp hlk).elim
        | exact (h11 _ _ _ hp hlk).elim
        | exact (h12 _ _ _ hp hlk).elim
    · rcases ho with ⟨rfl, hid⟩ | rfl <;> simp
    · rcases ho with ⟨rfl, hid⟩ | rfl <;> simp
    · intro b
      have h4' : ¬ ∃ x, s.m.pc t = .put2 x := by rintro ⟨x, hx⟩; exact h4 _ hx
      have h5' : ¬ ∃ x g, s.m.pc t = .rot1 x g := by rintro ⟨x, g, hx⟩; exact h5 _ _ hx
      rcases ho with ⟨rfl, hid⟩ | rfl <;> simp only [h4', h5', false_and, or_self, iff_false] <;> simp

theorem step_move {t : Nat} {a : Act K V} {o : Out V} (hl : ∀ n, lkN (s.m.pc t) = some n → ∃ l, s.look t = some l)
    (h : step P s t a = .ok (s', o)) : Move P s t a s' o := by
  unfold step at h
  split at h
  · rename_i k m
    split at h
    · rename_i hk
      obtain ⟨m', e1, rfl, rfl⟩ := mem_ok h
      have hp := step_idle e1 (by simp)
      simp only [Memtable.step, hp, Res.ok.injEq] at e1
      rw [← e1]
      exact .insert k m hk hp
    · rename_i hk
      split at h
      · rename_i hp
        simp only [Res.ok.injEq, Prod.mk.injEq] at h
        rw [← h.1, ← h.2]
        exact .refused k m (by simpa using hk) hp
      · cases h
  · rename_i k
    obtain ⟨m', e1, rfl, rfl⟩ := memLook_ok h
    have hp := step_idle e1 (by simp)
    simp only [Memtable.step, hp, Res.ok.injEq] at e1
    rw [← e1]
    exact .call k hp
  · rename_i g
    obtain ⟨m', e1, rfl, rfl⟩ := mem_ok h
    have hp := step_idle e1 (by simp)
    have e2 := e1
    simp only [Memtable.step, hp] at e2
    split at e2
    · injection e2 with e2
      subst e2
      exact .plain _ _ _ _ e1 (by rw [hp]; rfl) (by simp) (by simp) (by simp [hp]) (by simp) (by simp) (by simp [hp]) (by simp)
    · cases e2
  · obtain ⟨m', e1, rfl, rfl⟩ := mem_ok h
    have hp := step_idle e1 (by simp)
    have e2 := e1
    simp only [Memtable.step, hp, Res.ok.injEq] at e2
    subst e2
    exact .plain _ _ _ _ e1 (by rw [hp]; rfl) (by simp) (by simp) (by simp [hp]) (by simp) (by simp) (by simp [hp]) (by simp)
  · rename_i g
    obtain ⟨m', e1, rfl, ho⟩ := memIdle_ok h
    have hp := step_idle e1 (by simp)
    have e2 := e1
    simp only [Memtable.step, hp] at e2
    have hp' : m'.pc t = .idle ∨ ∃ g k, m'.pc t = .rec1 g k := by
      split at e2
      · split at e2
        · unfold Memtable.decRef at e2
          simp only at e2
          split at e2
          · cases e2
          · split at e2
            · split at e2
              · injection e2 with e2; subst e2; simp
              · cases e2
            · injection e2 with e2; subst e2; simp
        · cases e2
      · cases e2
    refine .plain _ _ _ _ e1 (by rw [hp]; rfl) ?_ ?_ (by simp [hp]) ?_ ?_ ?_ (by rcases ho with ⟨rfl, hid⟩ | rfl <;> simp_all)
    · intro x hx; rcases hp' with h' | ⟨_, _, h'⟩ <;> rw [h'] at hx <;> cases hx
    · intro x hx; rcases hp' with h' | ⟨_, _, h'⟩ <;> rw [h'] at hx <;> cases hx
    · rcases ho with ⟨rfl, hid⟩ | rfl <;> simp
    · rcases ho with ⟨rfl, hid⟩ | rfl <;> simp
    · intro b; rcases ho with ⟨rfl, hid⟩ | rfl <;> simp [hp]
  · exact go_move hl h
  · rename_i o'
    split at h
    · rename_i hm
      split at h
      · cases h
      · rename_i t' ht
        simp only [Res.ok.injEq, Prod.mk.injEq] at h
        rw [← h.1, ← h.2]
        exact .maint o' t' hm ht
    · cases h

/-! ## Preservation -/

theorem move_mem {t : Nat} {a : Act K V} {o : Out V} (h : Move P s t a s' o) : s'.m = s.m ∨ ∃ b, Memtable.step P.N s.m t b = .ok s'.m := by
  cases h with
  | maint o t' hm ht => exact .inl rfl
  | refused k m hk hp => exact .inl rfl
  | insert k m hk hp => exact .inr ⟨.insert (k, m), by simp only [Memtable.step, hp]⟩
  | call k hp => exact .inr ⟨.lookup, by simp only [Memtable.step, hp]⟩
  | plain a b m' o e1 => exact .inr ⟨b, e1⟩
  | lk4 f n g e j obs pk l b acc hp hl hb ha hr =>
    refine .inr ⟨.go (definitive acc), ?_⟩
    simp only [Memtable.step, hp, Memtable.PC.isInsert, Memtable.PC.isFlush, Memtable.stepLookup]
    cases pk <;> cases hd : definitive acc <;> simp_all
  | lk5 f n obs l hp hl => exact .inr ⟨.go false, by simp [Memtable.step, hp, Memtable.PC.isInsert, Memtable.PC.isFlush, Memtable.stepLookup]⟩
  | lk6 f n obs r l t' acc hp hl hs hr => exact .inr ⟨.go false, by simp [Memtable.step, hp, Memtable.PC.isInsert, Memtable.PC.isFlush, Memtable.stepLookup]⟩
  | lk7 f n obs l m' hp hl e1 => exact .inr ⟨_, e1⟩
  | lk8 f n obs l m' hp hl e1 => exact .inr ⟨_, e1⟩
  | inc5 f g nr t' hp ht => exact .inr ⟨.go false, by simp [Memtable.step, hp, Memtable.PC.isInsert, Memtable.PC.isFlush, Memtable.stepFlush]⟩

/-- Another thread's place and lookup stay. -/
theorem move_other {t u : Nat} {a : Act K V} {o : Out V} (h : Move P s t a s' o) (hu : u ≠ t) : s'.m.pc u = s.m.pc u ∧ s'.look u = s.look u := by
  refine ⟨?_, ?_⟩
  · rcases move_mem h with e | ⟨b, e⟩
    · rw [e]
    · have hs := Memtable.step_sound e
      generalize s'.m = m' at hs
      cases hs <;> simp [Memtable.State.to, Memtable.State.setSl, upd, hu]
  · cases h <;> simp [upd, hu]

/-- The trunk with a packed memtable added. -/
theorem addMem_ok (H : Implements P.cfg sem) {t : Trunk.State K V F} {r d : List (K × Msg V)} (I : Trunk.Inv L sem P.lo P.hi t (fun k => ofKey k r))
    (hm : t.mems = [[]]) (hd : ∀ x ∈ d, P.lo ≤ x.1 ∧ x.1 < P.hi) (hne : d ≠ []) :
    ∃ t', addMem P t d = some t' ∧ t'.mems = [[]] ∧ Trunk.Inv L sem P.lo P.hi t' (fun k => ofKey k (r ++ d)) := by
  obtain ⟨b, e, h1, h2, h3, h4⟩ := tree_spec H d
  have I2 : Trunk.Inv L sem P.lo P.hi { t with mems := [[], b] } (fun k => ofKey k (r ++ d)) := by
    refine ⟨I.pos, I.good, by simp, ?_, I.lvls, I.ids, I.rids, I.reqs, I.apart, ?_⟩
    · intro x hx
      simp only [List.mem_cons, List.not_mem_nil, or_false] at hx
      rcases hx with rfl | rfl
      · exact ⟨List.Pairwise.nil, by simp⟩
      · refine ⟨h1, fun y hy => ?_⟩
        obtain ⟨z, hz, ez⟩ := h2 y hy
        rw [← ez]; exact hd z hz
    · intro q q1 q2
      have hv := I.value q q1 q2
      have e0 : msgsOf q [([] : Branch K V)] = [] := by rw [Trunk.msgsOf_eq]; simp [Branch.get]
      rw [hm, List.reverse_singleton, Trunk.msgsOf_append, e0, List.append_nil] at hv
      have e1 : msgsOf q ([[], b].reverse) = msgsOf q [b] := by
        have : ([[], b] : List (Branch K V)).reverse = [b] ++ [[]] := rfl
        rw [this, Trunk.msgsOf_append, e0, List.append_nil]
      rw [Trunk.msgsOf_append, e1, Trunk.actAll_append, ofKey_append, Trunk.actAll_append, hv, h4]
  have hinc : ∃ t', Trunk.doIncorporate P.ops { t with mems := [[], b] } = some t' ∧ t'.mems = [[]] := by
    have hb : List.isEmpty b = false := by simpa using h3 hne
    unfold Trunk.doIncorporate
    simp only
    split
    · rename_i hx
      have hx : List.isEmpty b = true := hx
      rw [hb] at hx; cases hx
    · exact ⟨_, rfl, rfl⟩
  obtain ⟨t', e1, e2⟩ := hinc
  exact ⟨t', by unfold addMem; rw [e]; exact e1, e2, I2.incorporate e1⟩

theorem maint_mems {cfg : DataCfg K V} {ops : Trunk.FilterOps K F} {keyOk : K → Bool} {t t' : Trunk.State K V F} {o : Trunk.Op K V} (hm : isMaint o = true)
    (hs : Trunk.step cfg ops keyOk t o = some t') (h : t.mems = [[]]) : t'.mems = [[]] ∧ ∀ k, Trunk.Written.written keyOk k [o] = [] := by
  refine ⟨?_, by intro k; cases o <;> first | rfl | cases hm⟩
  have : t'.mems = t.mems := by
    cases o with
    | insert k m => cases hm
    | rotate => cases hm
    | incorporate => cases hm
    | flush j k =>
      simp only [Trunk.step, Trunk.doFlush] at hs
      grind
    | splitIndex j k =>
      simp only [Trunk.step, Trunk.doSplitIndex] at hs
      grind
    | splitLeaf k ks =>
      simp only [Trunk.step, Trunk.doSplitLeaf] at hs
      grind
    | splitRoot =>
      simp only [Trunk.step, Trunk.doSplitRoot] at hs
      grind
    | startCompact i =>
      simp only [Trunk.step, Trunk.doStart] at hs
      grind
    | replace i =>
      simp only [Trunk.step, Trunk.doReplace] at hs
      grind
    | filters i =>
      simp only [Trunk.step, Trunk.doFilters] at hs
      repeat' split at hs
      all_goals first | (obtain rfl := Option.some.inj hs; rfl) | cases hs
  rw [this, h]

theorem mem_inc5 (hN : 2 ≤ P.N) (h : Ok L sem s) {t g : Nat} {nr : List (K × Msg V)} (hp : s.m.pc t = .inc5 g nr) :
    nr = s.m.root ++ (s.m.sl P.N g).cmt ∧ (s.m.sl P.N g).cmt ≠ [] ∧ ∀ x ∈ (s.m.sl P.N g).cmt, P.lo ≤ x.1 ∧ x.1 < P.hi := by
  have hi := (Memtable.reach_inv hN h.mem).2
  have ok := hi.pcs t
  rw [hp] at ok
  obtain ⟨o1, o2, o3, o4, o5, o6⟩ := ok
  obtain ⟨h1, h2⟩ := Memtable.reach_inc5 hN h.mem t g nr hp
  refine ⟨?_, ?_, ?_⟩
  · rw [o6, h1, h2, Memtable.lt_succ hi.core.sorted]
  · rw [h1]; exact h.full.gens g (by have := hi.core.low; omega)
  · rw [h1]
    intro x hx
    unfold Memtable.inGen Memtable.msgs at hx
    obtain ⟨e, he, rfl⟩ := List.mem_map.mp hx
    exact h.keys.log e (List.mem_filter.mp he).1

theorem plain_look {t : Nat} {m' : Memtable.State (K × Msg V)} (hs : Memtable.Step P.N s.m t m') (pl : isPlain (s.m.pc t) = true)
    (hl0 : ∀ n, m'.pc t = .lk0 n → s.m.pc t ≠ .idle)
    (hlk : ∀ n, lkN (s.m.pc t) = some n → ∃ l, s.look t = some l ∧ P.lo ≤ l.key ∧ l.key < P.hi ∧ LookOk L sem l (s.m.pc t)) :
    ∀ n, lkN (m'.pc t) = some n → ∃ l, s.look t = some l ∧ P.lo ≤ l.key ∧ l.key < P.hi ∧ LookOk L sem l (m'.pc t) := by
  intro n hn
  cases hs
  case lookup hp => exact absurd hp (hl0 s.m.log.length (by simp))
  case lk0 n' hp _ =>
    obtain ⟨l, a1, a2, a3, a4⟩ := hlk n' (by rw [hp]; rfl)
    rw [hp] at a4
    exact ⟨l, a1, a2, a3, by simpa [LookOk] using a4⟩
  case lk1 n' hp =>
    obtain ⟨l, a1, a2, a3, a4⟩ := hlk n' (by rw [hp]; rfl)
    rw [hp] at a4
    exact ⟨l, a1, a2, a3, by simpa [LookOk] using a4⟩
  case lk2 n' g hp =>
    obtain ⟨l, a1, a2, a3, a4⟩ := hlk n' (by rw [hp]; rfl)
    rw [hp] at a4
    have a4 : l.acc = none := a4
    refine ⟨l, a1, a2, a3, ?_⟩
    simp only [Memtable.to_pc_same, LookOk, a4]
    exact ⟨fun v => rfl, rfl⟩
  case lk3 n' g e obs hp =>
    obtain ⟨l, a1, a2, a3, a4⟩ := hlk n' (by rw [hp]; rfl)
    rw [hp] at a4
    exact ⟨l, a1, a2, a3, by simpa [LookOk] using a4⟩
  case lk3' n' g e j obs hp _ _ =>
    obtain ⟨l, a1, a2, a3, a4⟩ := hlk n' (by rw [hp]; rfl)
    rw [hp] at a4
    exact ⟨l, a1, a2, a3, by simpa [LookOk] using a4⟩
  case rec2 g k hp =>
    exfalso
    cases k <;> simp [lkN] at hn
  all_goals
    first
    | (exfalso; rw [‹s.m.pc t = _›] at pl; cases pl; done)
    | (exfalso; simp [lkN] at hn; done)

set_option maxHeartbeats 1000000 in
theorem move_ok (hN : 2 ≤ P.N) (H : Implements P.cfg sem) (h : Ok L sem s) {t : Nat} {a : Act K V} {o : Out V} (hl : Legal P s a)
    (hm : Move P s t a s' o) : Ok L sem s' := by
  have hi := (Memtable.reach_inv hN h.mem).2
  have hoth := fun u (hu : u ≠ t) => move_other hm hu
  have looks : (∀ n, lkN (s'.m.pc t) = some n → ∃ l, s'.look t = some l ∧ P.lo ≤ l.key ∧ l.key < P.hi ∧ LookOk L sem l (s'.m.pc t)) →
      ∀ t n, lkN (s'.m.pc t) = some n → ∃ l, s'.look t = some l ∧ P.lo ≤ l.key ∧ l.key < P.hi ∧ LookOk L sem l (s'.m.pc t) := by
    intro ht u n hn
    by_cases hu : u = t
    · subst hu; exact ht n hn
    · obtain ⟨e1, e2⟩ := hoth u hu
      rw [e1] at hn ⊢
      rw [e2]
      exact h.looks u n hn
  have mem : Memtable.Reachable P.N s'.m := by
    rcases move_mem hm with e | ⟨b, e⟩
    · rw [e]; exact h.mem
    · exact .step t b h.mem e
  have root : (∀ g nr, s.m.pc t ≠ .inc5 g nr) → s'.m.root = s.m.root := by
    intro h5
    rcases move_mem hm with e | ⟨b, e⟩
    · rw [e]
    · have hs := Memtable.step_sound e
      generalize s'.m = m' at hs
      cases hs <;> first | rfl | (exfalso; rename_i hp; exact h5 _ _ hp)
  have full : (∀ x g, s.m.pc t = .ins3 x g → s'.m.pc t = .rot1 x g → (s.m.sl P.N g).data ≠ []) → Memtable.Full s'.m := by
    intro hd
    rcases move_mem hm with e | ⟨b, e⟩
    · rw [e]; exact h.full
    · exact Memtable.full_step hi h.full (Memtable.step_sound e) hd
  have keys : (∀ x, s.m.pc t = .idle → s'.m.pc t = .begin x → P.lo ≤ x.1 ∧ x.1 < P.hi) → Memtable.Only (fun x => P.lo ≤ x.1 ∧ x.1 < P.hi) s'.m := by
    intro hq
    rcases move_mem hm with e | ⟨b, e⟩
    · rw [e]; exact h.keys
    · exact Memtable.only_step h.keys (Memtable.step_sound e) hq
  cases hm with
  | maint o t' hmt ht =>
    obtain ⟨e1, e2⟩ := maint_mems hmt ht h.mems
    have := Trunk.step_inv H h.trunk hl ht
    simp only [e2, List.append_nil] at this
    exact ⟨h.mem, this, e1, h.keys, h.full, h.looks⟩
  | refused k m hk hp => exact h
  | insert k m hk hp =>
    refine ⟨mem, h.trunk, h.mems, keys ?_, full (by simp [hp]), looks (by simp [lkN])⟩
    intro x _ hx
    simp at hx; subst hx; exact hl
  | call k hp =>
    refine ⟨mem, h.trunk, h.mems, keys (by simp), full (by simp [hp]), looks ?_⟩
    intro n hn
    refine ⟨⟨k, none, none⟩, by simp [upd], hl.1, hl.2, by simp [LookOk]⟩
  | plain a b m' o e1 pl hb hl0 hd _ _ _ _ =>
    have h5 : ∀ g nr, s.m.pc t ≠ .inc5 g nr := by intro g nr hp; rw [hp] at pl; cases pl
    have er : m'.root = s.m.root := root h5
    refine ⟨mem, ?_, h.mems, keys (fun x hi hx => absurd hi (hb x hx)), full hd, looks ?_⟩
    · show Trunk.Inv L sem P.lo P.hi s.t (fun k => ofKey k m'.root)
      rw [er]; exact h.trunk
    · intro n hn
      exact plain_look (s := s) (Memtable.step_sound e1) pl hl0 (h.looks t) n hn
  | lk4 f n g e j obs pk l b acc hp hlk hb ha hr =>
    refine ⟨mem, h.trunk, h.mems, keys (by simp [hp]), full (by simp [hp]), looks ?_⟩
    intro n' _
    obtain ⟨l', a1, a2, a3, a4⟩ := h.looks t n (by rw [hp]; rfl)
    rw [hp] at a4
    rw [hlk] at a1
    obtain rfl := Option.some.inj a1
    refine ⟨{ l with acc := acc }, by simp [upd], a2, a3, ?_⟩
    obtain ⟨b', hb', -, -, -, hb2⟩ := tree_spec H (if pk then (s.m.sl P.N (j - 1)).cmt else (s.m.sl P.N (j - 1)).data)
    rw [hb] at hb'
    obtain rfl := Option.some.inj hb'
    obtain ⟨acc', h1, h2⟩ := probe_spec H a4.1 (hb2 l.key)
    rw [ha] at h1
    obtain rfl := Option.some.inj h1
    simp only [Memtable.to_pc_same]
    cases hd : definitive acc
    · simpa [LookOk] using ⟨h2, hd⟩
    · simpa [LookOk] using ⟨h2, hd⟩
  | lk5 f n obs l hp hlk =>
    refine ⟨mem, h.trunk, h.mems, keys (by simp [hp]), full (by simp [hp]), looks ?_⟩
    intro n' _
    obtain ⟨l', a1, a2, a3, a4⟩ := h.looks t n (by rw [hp]; rfl)
    rw [hp] at a4
    rw [hlk] at a1
    obtain rfl := Option.some.inj a1
    refine ⟨{ l with snap := some s.t }, by simp [upd], a2, a3, ?_⟩
    simp only [Memtable.to_pc_same]
    exact ⟨a4.1, a4.2, s.t, rfl, h.mems, h.trunk⟩
  | lk6 f n obs r l t' acc hp hlk hsn hr =>
    refine ⟨mem, h.trunk, h.mems, keys (by simp [hp]), full (by simp [hp]), looks ?_⟩
    intro n' _
    obtain ⟨l', a1, a2, a3, a4⟩ := h.looks t n (by rw [hp]; rfl)
    rw [hp] at a4
    rw [hlk] at a1
    obtain rfl := Option.some.inj a1
    refine ⟨{ l with acc := acc }, by simp [upd], a2, a3, ?_⟩
    simp only [Memtable.to_pc_same]
    obtain ⟨b1, b2, t2, b3, b4, b5⟩ := a4
    rw [hsn] at b3
    obtain rfl := Option.some.inj b3
    obtain ⟨acc', c1, c2⟩ := trunk_spec H b5 b4 a2 a3 b1 b2
    rw [hr] at c1
    cases c1
    exact c2
  | lk7 f n obs l m' hp hlk e1 hid =>
    have er : m'.root = s.m.root := root (by simp [hp])
    refine ⟨mem, by show Trunk.Inv L sem P.lo P.hi s.t (fun k => ofKey k m'.root); rw [er]; exact h.trunk, h.mems, keys (by simp [hp]), full (by simp [hp]), looks ?_⟩
    intro n' hn; simp [hid, lkN] at hn
  | lk8 f n obs l m' hp hlk e1 hid =>
    have er : m'.root = s.m.root := root (by simp [hp])
    refine ⟨mem, by show Trunk.Inv L sem P.lo P.hi s.t (fun k => ofKey k m'.root); rw [er]; exact h.trunk, h.mems, keys (by simp [hp]), full (by simp [hp]), looks ?_⟩
    intro n' hn; simp [hid, lkN] at hn
  | inc5 f g nr t' hp ht =>
    obtain ⟨q1, q2, q3⟩ := mem_inc5 hN h hp
    obtain ⟨t2, r1, r2, r3⟩ := addMem_ok H h.trunk h.mems q3 q2
    rw [ht] at r1
    obtain rfl := Option.some.inj r1
    refine ⟨mem, by rw [← q1] at r3; exact r3, r2, keys (by simp [hp]), full (by simp [hp]), looks ?_⟩
    intro n' hn; simp [lkN] at hn

end Splinter.Store
