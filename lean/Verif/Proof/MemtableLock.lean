import Verif.Model.Memtable
import Mathlib.Data.List.Nodup

/-! # Memtables: the steps, and what the locks give -/
namespace Splinter.Memtable
variable {M : Type}

@[simp] theorem to_gen (s : State M) (t : Nat) (p : PC M) : (s.to t p).gen = s.gen := rfl
@[simp] theorem to_ret (s : State M) (t : Nat) (p : PC M) : (s.to t p).ret = s.ret := rfl
@[simp] theorem to_inc (s : State M) (t : Nat) (p : PC M) : (s.to t p).inc = s.inc := rfl
@[simp] theorem to_slots (s : State M) (t : Nat) (p : PC M) : (s.to t p).slots = s.slots := rfl
@[simp] theorem to_queue (s : State M) (t : Nat) (p : PC M) : (s.to t p).queue = s.queue := rfl
@[simp] theorem to_root (s : State M) (t : Nat) (p : PC M) : (s.to t p).root = s.root := rfl
@[simp] theorem to_rootX (s : State M) (t : Nat) (p : PC M) : (s.to t p).rootX = s.rootX := rfl
@[simp] theorem to_insR (s : State M) (t : Nat) (p : PC M) : (s.to t p).insR = s.insR := rfl
@[simp] theorem to_insX (s : State M) (t : Nat) (p : PC M) : (s.to t p).insX = s.insX := rfl
@[simp] theorem to_insW (s : State M) (t : Nat) (p : PC M) : (s.to t p).insW = s.insW := rfl
@[simp] theorem to_lkR (s : State M) (t : Nat) (p : PC M) : (s.to t p).lkR = s.lkR := rfl
@[simp] theorem to_lkX (s : State M) (t : Nat) (p : PC M) : (s.to t p).lkX = s.lkX := rfl
@[simp] theorem to_held (s : State M) (t : Nat) (p : PC M) : (s.to t p).held = s.held := rfl
@[simp] theorem to_empty (s : State M) (t : Nat) (p : PC M) : (s.to t p).empty = s.empty := rfl
@[simp] theorem to_log (s : State M) (t : Nat) (p : PC M) : (s.to t p).log = s.log := rfl
@[simp] theorem to_done (s : State M) (t : Nat) (p : PC M) : (s.to t p).done = s.done := rfl
@[simp] theorem to_results (s : State M) (t : Nat) (p : PC M) : (s.to t p).results = s.results := rfl
@[simp] theorem to_sl (N : Nat) (s : State M) (t : Nat) (p : PC M) (g : Nat) : (s.to t p).sl N g = s.sl N g := rfl
@[simp] theorem to_pc_same (s : State M) (t : Nat) (p : PC M) : (s.to t p).pc t = p := by simp [State.to, upd]
theorem to_pc_other (s : State M) {t u : Nat} (p : PC M) (h : u ≠ t) : (s.to t p).pc u = s.pc u := by simp [State.to, upd, h]
theorem to_pc (s : State M) (t u : Nat) (p : PC M) : (s.to t p).pc u = if u = t then p else s.pc u := rfl

/-- The steps as rules. -/
inductive Step (N : Nat) (s : State M) (t : Nat) : State M → Prop
  | insert : ∀ m, s.pc t = .idle → Step N s t (s.to t (.begin m))
  | flush : ∀ g, s.pc t = .idle → g ∈ s.queue → Step N s t ({ s with queue := s.queue.erase g }.to t (.fin g))
  | lookup : s.pc t = .idle → Step N s t (s.to t (.lk0 s.log.length))
  | iter : s.pc t = .idle → Step N s t (s.to t .it0)
  | drop1 : ∀ g, s.pc t = .idle → g ∈ s.held → (s.sl N g).gen = g → (s.sl N g).refs = 1 → (s.sl N g).st = .incorporated →
      Step N s t (({ s with held := s.held.erase g }.setSl N g { s.sl N g with refs := 0 }).to t (.rec1 g false))
  | drop : ∀ g, s.pc t = .idle → g ∈ s.held → (s.sl N g).gen = g → (s.sl N g).refs ≠ 0 → (s.sl N g).refs ≠ 1 →
      Step N s t (({ s with held := s.held.erase g }.setSl N g { s.sl N g with refs := (s.sl N g).refs - 1 }).to t .idle)
  | begin : ∀ m, s.pc t = .begin m → s.insW = false → Step N s t ({ s with insR := t :: s.insR }.to t (.ins1 m))
  | ins1 : ∀ m, s.pc t = .ins1 m → Step N s t (s.to t (.ins2 m s.gen))
  | ins2 : ∀ m g, s.pc t = .ins2 m g → (s.sl N g).st = .ready → Step N s t (s.to t (.ins3 m g))
  | ins2' : ∀ m g, s.pc t = .ins2 m g → (s.sl N g).st ≠ .ready → Step N s t ({ s with insR := s.insR.erase t }.to t (.begin m))
  | ins3 : ∀ m g, s.pc t = .ins3 m g → Step N s t (s.to t (.rot1 m g))
  | ins3' : ∀ m g, s.pc t = .ins3 m g → Step N s t (s.to t (.put m g))
  | rot1 : ∀ m g, s.pc t = .rot1 m g → (s.sl N (g + 1)).st = .ready → Step N s t (s.to t (.rot2 m g))
  | rot1' : ∀ m g, s.pc t = .rot1 m g → Step N s t ({ s with insR := s.insR.erase t, done := s.done ++ [(t, m, false)] }.to t .idle)
  | rot2 : ∀ m g, s.pc t = .rot2 m g → s.insX = none → Step N s t ({ s with insX := some t }.to t (.rot3 m g))
  | rot2' : ∀ m g, s.pc t = .rot2 m g → Step N s t ({ s with insR := s.insR.erase t }.to t (.begin m))
  | rot3 : ∀ m g, s.pc t = .rot3 m g → s.insR = [t] → Step N s t ({ s with insW := true }.to t (.rot4 m g))
  | rot4 : ∀ m g, s.pc t = .rot4 m g → Step N s t ((s.setSl N g { s.sl N g with st := .finalized }).to t (.rot5 m g))
  | rot5 : ∀ m g, s.pc t = .rot5 m g → s.gen + 2 ≤ s.ret + N → g = s.gen → Step N s t ({ s with gen := s.gen + 1, empty := true }.to t (.rot6 m g))
  | rot6 : ∀ m g, s.pc t = .rot6 m g → Step N s t ({ s with insW := false, insX := none, insR := s.insR.erase t }.to t (.rot7 m g))
  | rot7 : ∀ m g, s.pc t = .rot7 m g → Step N s t ({ s with queue := s.queue ++ [g] }.to t (.begin m))
  | put : ∀ m g, s.pc t = .put m g →
      Step N s t ({ s.setSl N g { s.sl N g with data := (s.sl N g).data ++ [m] } with log := s.log ++ [(g, t, m)], empty := false }.to t (.put2 m))
  | put2 : ∀ m, s.pc t = .put2 m → Step N s t ({ s with insR := s.insR.erase t, done := s.done ++ [(t, m, true)] }.to t .idle)
  | fin : ∀ g, s.pc t = .fin g → Step N s t ((s.setSl N g { s.sl N g with st := .compacting }).to t (.comp g))
  | comp : ∀ g, s.pc t = .comp g → Step N s t ((s.setSl N g { s.sl N g with cmt := (s.sl N g).data }).to t (.comp2 g))
  | comp2 : ∀ g, s.pc t = .comp2 g → Step N s t ((s.setSl N g { s.sl N g with st := .compacted }).to t (.start g))
  | start : ∀ g, s.pc t = .start g → (s.sl N g).gen = g → g = s.inc → (s.sl N g).st = .compacted →
      Step N s t ((s.setSl N g { s.sl N g with st := .assigned }).to t (.inc1 g))
  | start' : ∀ g, s.pc t = .start g → ¬ ((s.sl N g).gen = g ∧ g = s.inc ∧ (s.sl N g).st = .compacted) → Step N s t (s.to t .idle)
  | inc1 : ∀ g, s.pc t = .inc1 g → s.rootX = none → Step N s t ({ s with rootX := some t }.to t (.inc2 g))
  | inc2 : ∀ g, s.pc t = .inc2 g → Step N s t (s.to t (.inc3 g (s.root ++ (s.sl N g).cmt)))
  | inc3 : ∀ g nr, s.pc t = .inc3 g nr → s.lkR = [] → s.lkX = none → Step N s t ({ s with lkX := some t }.to t (.inc4 g nr))
  | inc4 : ∀ g nr, s.pc t = .inc4 g nr →
      Step N s t ({ s.setSl N g { s.sl N g with st := .incorporated } with ret := s.ret + 1 }.to t (.inc5 g nr))
  | inc5 : ∀ g nr, s.pc t = .inc5 g nr → Step N s t ({ s with root := nr, rootX := none }.to t (.inc6 g))
  | inc6 : ∀ g, s.pc t = .inc6 g → Step N s t ({ s with lkX := none }.to t (.inc7 g))
  | inc7 : ∀ g, s.pc t = .inc7 g → (s.sl N g).refs = 1 → Step N s t ((s.setSl N g { s.sl N g with refs := 0, own := false }).to t (.rec1 g true))
  | inc7' : ∀ g, s.pc t = .inc7 g → (s.sl N g).refs ≠ 0 → (s.sl N g).refs ≠ 1 →
      Step N s t ((s.setSl N g { s.sl N g with refs := (s.sl N g).refs - 1, own := false }).to t (.cont g))
  | rec1 : ∀ g k, s.pc t = .rec1 g k →
      Step N s t ((s.setSl N g { s.sl N g with gen := (s.sl N g).gen + N, refs := 1, own := true, data := [] }).to t (.rec2 g k))
  | rec2 : ∀ g k, s.pc t = .rec2 g k → Step N s t ((s.setSl N g { s.sl N g with st := .ready }).to t (if k then .cont g else .idle))
  | cont0 : ∀ g, s.pc t = .cont g → (s.sl N (g + 1)).gen ≠ g + 1 → Step N s t (s.to t .idle)
  | cont : ∀ g, s.pc t = .cont g → (s.sl N (g + 1)).gen = g + 1 → s.inc = g → (s.sl N (g + 1)).st = .compacted →
      Step N s t ({ s.setSl N (g + 1) { s.sl N (g + 1) with st := .assigned } with inc := s.inc + 1 }.to t (.inc1 (g + 1)))
  | cont' : ∀ g, s.pc t = .cont g → (s.sl N (g + 1)).gen = g + 1 → s.inc = g → (s.sl N (g + 1)).st ≠ .compacted →
      Step N s t ({ s with inc := s.inc + 1 }.to t .idle)
  | lk0 : ∀ n, s.pc t = .lk0 n → s.lkX = none → Step N s t ({ s with lkR := t :: s.lkR }.to t (.lk1 n))
  | lk1 : ∀ n, s.pc t = .lk1 n → Step N s t (s.to t (.lk2 n s.gen))
  | lk2 : ∀ n g, s.pc t = .lk2 n g → Step N s t (s.to t (.lk3 n g s.ret (g + 1) []))
  | lk3 : ∀ n g e obs, s.pc t = .lk3 n g e e obs → Step N s t (s.to t (.lk5 n obs))
  | lk3' : ∀ n g e j obs, s.pc t = .lk3 n g e j obs → j ≠ e → j ≠ 0 →
      Step N s t (s.to t (.lk4 n g e j obs ((s.sl N (j - 1)).st = .compacted ∨ (s.sl N (j - 1)).st = .assigned)))
  | lk4 : ∀ n g e j obs pk, s.pc t = .lk4 n g e j obs pk → Step N s t (s.to t (.lk7 n ((if pk then (s.sl N (j - 1)).cmt else (s.sl N (j - 1)).data) ++ obs)))
  | lk4' : ∀ n g e j obs pk, s.pc t = .lk4 n g e j obs pk →
      Step N s t (s.to t (.lk3 n g e (j - 1) ((if pk then (s.sl N (j - 1)).cmt else (s.sl N (j - 1)).data) ++ obs)))
  | lk5 : ∀ n obs, s.pc t = .lk5 n obs → Step N s t (s.to t (.lk6 n obs s.root))
  | lk6 : ∀ n obs r, s.pc t = .lk6 n obs r → Step N s t ({ s with lkR := s.lkR.erase t }.to t (.lk8 n (r ++ obs)))
  | lk7 : ∀ n obs, s.pc t = .lk7 n obs → Step N s t ({ s with lkR := s.lkR.erase t, results := s.results ++ [(n, false, obs)] }.to t .idle)
  | lk8 : ∀ n obs, s.pc t = .lk8 n obs → Step N s t ({ s with results := s.results ++ [(n, true, obs)] }.to t .idle)
  | it0 : s.pc t = .it0 → s.lkX = none → Step N s t ({ s with lkR := t :: s.lkR }.to t .it1)
  | it1 : s.pc t = .it1 → Step N s t (s.to t (.it2 s.gen))
  | it2 : ∀ g, s.pc t = .it2 g → Step N s t (s.to t (.it3 s.ret (g + 1)))
  | it3 : ∀ e, s.pc t = .it3 e e → Step N s t ({ s with lkR := s.lkR.erase t }.to t .idle)
  | it3' : ∀ e j, s.pc t = .it3 e j → j ≠ e → j ≠ 0 → Step N s t (s.to t (.it3 e (j - 1)))
  | it3'' : ∀ e j, s.pc t = .it3 e j → j ≠ e → j ≠ 0 → Step N s t (s.to t (.it4 e j))
  | it4 : ∀ e j, s.pc t = .it4 e j → (s.sl N (j - 1)).gen = j - 1 →
      Step N s t ({ s.setSl N (j - 1) { s.sl N (j - 1) with refs := (s.sl N (j - 1)).refs + 1 } with held := (j - 1) :: s.held }.to t (.it3 e (j - 1)))

theorem stepInsert_sound {N : Nat} {s s' : State M} {t : Nat} {b : Bool} {p : PC M} (hp : s.pc t = p) (h : stepInsert N s t b p = .ok s') : Step N s t s' := by
  cases p <;> simp only [stepInsert, reduceCtorEq] at h
  case begin m => split at h <;> cases h; rename_i hc; exact .begin m hp (by simpa using hc)
  case ins1 m => cases h; exact .ins1 m hp
  case ins2 m g => split at h <;> cases h; exacts [.ins2 m g hp ‹_›, .ins2' m g hp ‹_›]
  case ins3 m g => split at h <;> cases h; exacts [.ins3 m g hp, .ins3' m g hp]
  case rot1 m g => split at h <;> cases h; exacts [.rot1 m g hp ‹_›, .rot1' m g hp]
  case rot2 m g => split at h <;> cases h; exacts [.rot2 m g hp ‹_›, .rot2' m g hp]
  case rot3 m g => split at h <;> cases h; exact .rot3 m g hp ‹_›
  case rot4 m g => split at h <;> cases h; exact .rot4 m g hp
  case rot5 m g =>
    split at h <;> cases h
    rename_i hc
    exact .rot5 m g hp hc.1 hc.2
  case rot6 m g => cases h; exact .rot6 m g hp
  case rot7 m g => cases h; exact .rot7 m g hp
  case put m g => split at h <;> cases h; exact .put m g hp
  case put2 m => cases h; exact .put2 m hp

theorem stepFlush_sound {N : Nat} {s s' : State M} {t : Nat} {p : PC M} (hp : s.pc t = p) (h : stepFlush N s t p = .ok s') : Step N s t s' := by
  cases p <;> simp only [stepFlush, reduceCtorEq] at h
  case fin g => split at h <;> cases h; exact .fin g hp
  case comp g => split at h <;> cases h; exact .comp g hp
  case comp2 g => split at h <;> cases h; exact .comp2 g hp
  case start g =>
    split at h <;> cases h
    · rename_i hc
      exact .start g hp hc.1 hc.2.1 hc.2.2
    · exact .start' g hp ‹_›
  case inc1 g => split at h <;> cases h; exact .inc1 g hp ‹_›
  case inc2 g => split at h <;> cases h; exact .inc2 g hp
  case inc3 g nr =>
    split at h <;> cases h
    rename_i hc
    exact .inc3 g nr hp hc.1 hc.2
  case inc4 g nr => split at h <;> cases h; exact .inc4 g nr hp
  case inc5 g nr => cases h; exact .inc5 g nr hp
  case inc6 g => cases h; exact .inc6 g hp
  case inc7 g =>
    unfold decRef at h
    simp only at h
    split at h
    · cases h
    · split at h
      · split at h <;> cases h
        exact .inc7 g hp ‹_›
      · cases h
        exact .inc7' g hp ‹_› ‹_›
  case rec1 g k => cases h; exact .rec1 g k hp
  case rec2 g k => split at h <;> cases h; exact .rec2 g k hp
  case cont g =>
    split at h
    · cases h; exact .cont0 g hp ‹_›
    · rename_i h1
      split at h
      · cases h
      · rename_i h2
        split at h
        · cases h
          exact .cont g hp (by simpa using h1) (by simpa using h2) ‹_›
        · cases h
          exact .cont' g hp (by simpa using h1) (by simpa using h2) ‹_›

theorem stepLookup_sound {N : Nat} {s s' : State M} {t : Nat} {b : Bool} {p : PC M} (hp : s.pc t = p) (h : stepLookup N s t b p = .ok s') : Step N s t s' := by
  cases p <;> simp only [stepLookup, reduceCtorEq] at h
  case lk0 n => split at h <;> cases h; exact .lk0 n hp ‹_›
  case lk1 n => cases h; exact .lk1 n hp
  case lk2 n g => split at h <;> cases h; exact .lk2 n g hp
  case lk3 n g e j obs =>
    split at h
    · rename_i hj
      subst hj
      cases h; exact .lk3 n g j obs hp
    · rename_i hj
      split at h <;> cases h
      rename_i hc
      exact .lk3' n g e j obs hp hj hc.1
  case lk4 n g e j obs pk =>
    split at h
    · cases h
    · split at h <;> cases h; exacts [.lk4 n g e j obs pk hp, .lk4' n g e j obs pk hp]
  case lk5 n obs => cases h; exact .lk5 n obs hp
  case lk6 n obs r => cases h; exact .lk6 n obs r hp
  case lk7 n obs => cases h; exact .lk7 n obs hp
  case lk8 n obs => cases h; exact .lk8 n obs hp
  case it0 => split at h <;> cases h; exact .it0 hp ‹_›
  case it1 => cases h; exact .it1 hp
  case it2 g => cases h; exact .it2 g hp
  case it3 e j =>
    split at h
    · rename_i hj
      subst hj
      cases h; exact .it3 j hp
    · rename_i hj
      split at h
      · rename_i hc
        split at h <;> cases h
        · exact .it3' e j hp hj hc.1
        · exact .it3'' e j hp hj hc.1
      · cases h
  case it4 e j =>
    split at h <;> cases h
    rename_i hc
    exact .it4 e j hp hc.1

theorem step_sound {N : Nat} {s s' : State M} {t : Nat} {a : Act M} (h : step N s t a = .ok s') : Step N s t s' := by
  unfold step at h
  split at h
  · cases h; exact .insert _ ‹_›
  · split at h <;> cases h
    exact .flush _ ‹_› ‹_›
  · cases h; exact .lookup ‹_›
  · cases h; exact .iter ‹_›
  · rename_i g hp
    split at h
    · rename_i hg
      split at h
      · rename_i hgen
        unfold decRef at h
        simp only at h
        split at h
        · cases h
        · split at h
          · split at h <;> cases h
            exact .drop1 g hp hg hgen ‹_› ‹_›
          · cases h
            exact .drop g hp hg hgen ‹_› ‹_›
      · cases h
    · cases h
  · cases h
  · split at h
    · exact stepInsert_sound rfl h
    · split at h
      · exact stepFlush_sound rfl h
      · exact stepLookup_sound rfl h
  · cases h

/-! ### Locks -/

def PC.holdsInsert : PC M → Bool
  | .ins1 _ | .ins2 _ _ | .ins3 _ _ | .rot1 _ _ | .rot2 _ _ | .rot3 _ _ | .rot4 _ _ | .rot5 _ _ | .rot6 _ _ | .put _ _ | .put2 _ => true
  | _ => false

def PC.claimsInsert : PC M → Bool
  | .rot3 _ _ | .rot4 _ _ | .rot5 _ _ | .rot6 _ _ => true
  | _ => false

def PC.locksInsert : PC M → Bool
  | .rot4 _ _ | .rot5 _ _ | .rot6 _ _ => true
  | _ => false

def PC.holdsLookup : PC M → Bool
  | .lk1 _ | .lk2 _ _ | .lk3 _ _ _ _ _ | .lk4 _ _ _ _ _ _ | .lk5 _ _ | .lk6 _ _ _ | .lk7 _ _ | .it1 | .it2 _ | .it3 _ _ | .it4 _ _ => true
  | _ => false

def PC.blocksLookup : PC M → Bool
  | .inc4 _ _ | .inc5 _ _ | .inc6 _ => true
  | _ => false

def PC.holdsRoot : PC M → Bool
  | .inc2 _ | .inc3 _ _ | .inc4 _ _ | .inc5 _ _ => true
  | _ => false

structure Locks (s : State M) : Prop where
  insR : ∀ t, (s.pc t).holdsInsert = true → t ∈ s.insR
  nodup : s.insR.Nodup
  insX : ∀ t, (s.pc t).claimsInsert = true → s.insX = some t
  insW : ∀ t, (s.pc t).locksInsert = true → s.insW = true ∧ s.insR = [t]
  lkR : ∀ t, (s.pc t).holdsLookup = true → t ∈ s.lkR
  lnodup : s.lkR.Nodup
  lkX : ∀ t, (s.pc t).blocksLookup = true → s.lkX = some t
  lk : s.lkR ≠ [] → s.lkX = none
  root : ∀ t, (s.pc t).holdsRoot = true → s.rootX = some t
  /-- only holders are in the lists -/
  insOnly : ∀ t ∈ s.insR, (s.pc t).holdsInsert = true
  lkOnly : ∀ t ∈ s.lkR, (s.pc t).holdsLookup = true

def PC.locks (p : PC M) : Bool × Bool × Bool × Bool × Bool × Bool :=
  (p.holdsInsert, p.claimsInsert, p.locksInsert, p.holdsLookup, p.blocksLookup, p.holdsRoot)

theorem locks_same {s s' : State M} {t : Nat} {p : PC M} (h : Locks s) (hp : s'.pc = upd s.pc t p) (hl : p.locks = (s.pc t).locks) (e1 : s'.insR = s.insR) (e2 : s'.insX = s.insX)
    (e3 : s'.insW = s.insW) (e4 : s'.lkR = s.lkR) (e5 : s'.lkX = s.lkX) (e6 : s'.rootX = s.rootX) : Locks s' := by
  have : ∀ u, (s'.pc u).locks = (s.pc u).locks := by
    intro u
    rw [hp, upd]
    split
    · rename_i hu; rw [hu]; exact hl
    · rfl
  simp only [PC.locks, Prod.mk.injEq] at this
  obtain ⟨h1, h2, h3, h4, h5, h6, h7, h8, h9, h10, h11⟩ := h
  refine ⟨fun u hu => ?_, ?_, fun u hu => ?_, fun u hu => ?_, fun u hu => ?_, ?_, fun u hu => ?_, ?_, fun u hu => ?_, fun u hu => ?_, fun u hu => ?_⟩
  · rw [e1]; rw [(this u).1] at hu; exact h1 u hu
  · rw [e1]; exact h2
  · rw [e2]; rw [(this u).2.1] at hu; exact h3 u hu
  · rw [e1, e3]; rw [(this u).2.2.1] at hu; exact h4 u hu
  · rw [e4]; rw [(this u).2.2.2.1] at hu; exact h5 u hu
  · rw [e4]; exact h6
  · rw [e5]; rw [(this u).2.2.2.2.1] at hu; exact h7 u hu
  · rw [e4, e5]; exact h8
  · rw [e6]; rw [(this u).2.2.2.2.2] at hu; exact h9 u hu
  · rw [(this u).1]; rw [e1] at hu; exact h10 u hu
  · rw [(this u).2.2.2.1]; rw [e4] at hu; exact h11 u hu

set_option maxHeartbeats 4000000 in
theorem locks_step {N : Nat} {s s' : State M} {t : Nat} (h : Locks s) (hs : Step N s t s') : Locks s' := by
  cases hs
  case rec2 g k hp => exact locks_same h rfl (by rw [hp]; cases k <;> rfl) rfl rfl rfl rfl rfl rfl
  all_goals (rename s.pc t = _ => hp)
  all_goals first
    | exact locks_same h rfl (by rw [hp]; rfl) rfl rfl rfl rfl rfl rfl
    | skip
  all_goals
    obtain ⟨h1, h2, h3, h4, h5, h6, h7, h8, h9, h10, h11⟩ := h
    have a1 := h1 t
    have a3 := h3 t
    have a4 := h4 t
    have a5 := h5 t
    have a7 := h7 t
    have a9 := h9 t
    have a10 := h10 t
    have a11 := h11 t
    rw [hp] at a1 a3 a4 a5 a7 a9 a10 a11
    refine ⟨fun u => ?_, ?_, fun u => ?_, fun u => ?_, fun u => ?_, ?_, fun u => ?_, ?_, fun u => ?_, fun u => ?_, fun u => ?_⟩ <;>
    simp only [to_pc, to_insR, to_insX, to_insW, to_lkR, to_lkX, to_rootX, State.setSl] <;>
    grind [PC.holdsInsert, PC.claimsInsert, PC.locksInsert, PC.holdsLookup, PC.blocksLookup, PC.holdsRoot]

end Splinter.Memtable
