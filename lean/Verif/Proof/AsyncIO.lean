import Verif.Model.AsyncIO
import Mathlib.Algebra.BigOperators.Group.Finset.Basic
import Mathlib.Algebra.Order.BigOperators.Group.Finset
/-! Invariant of `Model/AsyncIO.lean`. -/
set_option linter.unusedSimpArgs false
namespace Splinter.AsyncIO

/-! ### Sums over threads -/

def total {α : Type} (n : Nat) (f : α → Nat) (g : Nat → α) : Nat := ∑ i ∈ Finset.range n, f (g i)

theorem total_upd {α : Type} {n : Nat} (f : α → Nat) (g : Nat → α) {a : Nat} (ha : a < n) (p : α) :
    total n f (upd g a p) + f (g a) = total n f g + f p := by
  unfold total
  have h1 := Finset.sum_erase_add (Finset.range n) (fun i => f (upd g a p i)) (Finset.mem_range.mpr ha)
  have h2 := Finset.sum_erase_add (Finset.range n) (fun i => f (g i)) (Finset.mem_range.mpr ha)
  have h3 : ∑ i ∈ (Finset.range n).erase a, f (upd g a p i) = ∑ i ∈ (Finset.range n).erase a, f (g i) := by
    refine Finset.sum_congr rfl fun i hi => ?_
    rw [upd, if_neg (Finset.ne_of_mem_erase hi)]
  simp only [upd, if_true] at h1 h3 ⊢
  omega

theorem total_same {α : Type} {n : Nat} (f : α → Nat) (g : Nat → α) {a : Nat} (ha : a < n) {p : α} (h : f p = f (g a)) : total n f (upd g a p) = total n f g := by
  have := total_upd f g ha p
  omega

theorem total_zero {α : Type} {n : Nat} {f : α → Nat} {g : Nat → α} : total n f g = 0 ↔ ∀ i < n, f (g i) = 0 := by
  simp [total, Finset.sum_eq_zero_iff]

theorem le_total {α : Type} {n : Nat} (f : α → Nat) (g : Nat → α) {a : Nat} (ha : a < n) : f (g a) ≤ total n f g :=
  Finset.single_le_sum (f := fun i => f (g i)) (fun _ _ => Nat.zero_le _) (Finset.mem_range.mpr ha)

theorem two_le_total {α : Type} {n : Nat} (f : α → Nat) (g : Nat → α) {a b : Nat} (ha : a < n) (hb : b < n) (hab : a ≠ b) : f (g a) + f (g b) ≤ total n f g := by
  unfold total
  rw [← Finset.sum_erase_add (Finset.range n) (fun i => f (g i)) (Finset.mem_range.mpr ha)]
  have := Finset.single_le_sum (f := fun i => f (g i)) (s := (Finset.range n).erase a) (fun _ _ => Nat.zero_le _) (Finset.mem_erase.mpr ⟨hab.symm, Finset.mem_range.mpr hb⟩)
  omega

/-! ### Attributes of places -/

def Ret.own : Ret → Option Nat
  | .submit _ k _ => some k
  | _ => none

/-- The request that a thread has and has not submitted. -/
def own : PC → Option Nat
  | .owns k | .sub1 _ k _ | .sub2 _ k _ | .sub3 _ k _ => some k
  | .clean _ _ r | .clEv _ _ r | .clDec _ _ r _ | .clCall _ _ r _ | .clFree _ _ r _ => r.own
  | _ => none

/-- The I/O that a thread has got from the kernel. -/
def ev : PC → Option Io
  | .clDec _ _ _ io | .clCall _ _ _ io | .clFree _ _ _ io => some io
  | _ => none

/-- The same before the callback. -/
def evl : PC → Option Io
  | .clDec _ _ _ io | .clCall _ _ _ io => some io
  | _ => none

def Ret.pend : Ret → Option (Nat × Nat)
  | .submit _ k id => some (k, id)
  | _ => none

/-- The I/O that a thread is about to submit. -/
def pend : PC → Option (Nat × Nat)
  | .sub1 _ k id | .sub2 _ k id | .sub3 _ k id => some (k, id)
  | .clean _ _ r | .clEv _ _ r | .clDec _ _ r _ | .clCall _ _ r _ | .clFree _ _ r _ => r.pend
  | _ => none

/-- A context in which the thread is counted. -/
def cnt : PC → Option Nat
  | .sub2 c _ _ | .sub3 c _ _ | .clDec c _ _ _ => some c
  | _ => none

def Ret.ctxs : Ret → List Nat
  | .submit c _ _ => [c]
  | _ => []

/-- The contexts that a thread remembers. -/
def ctxs : PC → List Nat
  | .sub1 c _ _ | .sub2 c _ _ | .sub3 c _ _ => [c]
  | .clean c _ r | .clEv c _ r | .clDec c _ r _ | .clCall c _ r _ | .clFree c _ r _ => c :: r.ctxs
  | _ => []

def Ret.tries : Ret → Bool
  | .getTry _ => true
  | _ => false

/-- The thread looks at its slot next. -/
def tries : PC → Bool
  | .getTry _ => true
  | .clean _ _ r | .clEv _ _ r | .clDec _ _ r _ | .clCall _ _ r _ | .clFree _ _ r _ => r.tries
  | _ => false

/-- Cleaning up before leaving, but only a given number of events. -/
def badLim : PC → Bool
  | .clean _ l r | .clEv _ l r | .clDec _ l r _ | .clCall _ l r _ | .clFree _ l r _ => l.isSome && r == .dereg
  | _ => false

def occ : Option Nat → Nat
  | none => 0
  | some _ => 1

def isOne (o : Option Nat) (k : Nat) : Nat := if o = some k then 1 else 0
theorem isOne_none (k : Nat) : isOne none k = 0 := rfl
theorem isOne_self (k : Nat) : isOne (some k) k = 1 := by simp [isOne]
theorem isOne_ne {j k : Nat} (h : j ≠ k) : isOne (some j) k = 0 := by simp [isOne, h]

def useOne (k : Nat) (p : PC) : Nat := isOne (own p) k + isOne ((ev p).map Io.slot) k
def cntOne (c : Nat) (p : PC) : Nat := isOne (cnt p) c
def regOne (c : Nat) (o : Option Nat) : Nat := isOne o c
def evOne (id : Nat) (p : PC) : Nat := isOne ((evl p).map Io.id) id
def pendOne (id : Nat) (p : PC) : Nat := isOne ((pend p).map Prod.snd) id

/-- Times that an I/O was submitted. -/
def subs (id : Nat) (l : List Ev) : Nat := l.countP fun e => decide (e = .submitted id)
/-- Times that it was called back. -/
def calls (id : Nat) (l : List Ev) : Nat := l.countP fun e => match e with
  | .called j _ => decide (j = id)
  | _ => false

/-- 1 for the I/Os that there have been. -/
def old (fresh id : Nat) : Nat := if id < fresh then 1 else 0

structure Inv (P : Par) (s : State) : Prop where
  use : ∀ k, total P.n (useOne k) s.pc + s.kern.countP (fun io => decide (io.slot = k)) = occ (s.slot k)
  count : ∀ c, (s.ctx c).count = total P.n (cntOne c) s.pc + s.kern.countP (fun io => decide (io.ctx = c))
  reg : ∀ t < P.n, s.ctxOf t = none ↔ s.pc t = .out
  ctxs : ∀ t < P.n, ∀ c ∈ ctxs (s.pc t), s.ctxOf t = some c
  slotCtx : ∀ t < P.n, ∀ k, own (s.pc t) = some k → s.slot k = s.ctxOf t
  threads : ∀ c, (s.ctx c).threads = total P.n (regOne c) s.ctxOf
  pid : ∀ t < P.n, ∀ c, s.ctxOf t = some c → c < P.M ∧ (s.ctx c).pid ≠ 0
  used : ∀ c, (s.ctx c).pid ≠ 0 → (s.ctx c).threads ≠ 0
  fly : ∀ io ∈ s.kern, io.by_ < P.n ∧ s.ctxOf io.by_ = some io.ctx ∧ s.pc io.by_ ≠ .dereg
  cont : (∀ io ∈ s.kern, s.content io.slot = io.id) ∧ (∀ t < P.n, ∀ io, evl (s.pc t) = some io → s.content io.slot = io.id) ∧
    ∀ t < P.n, ∀ x, pend (s.pc t) = some x → s.content x.1 = x.2
  hand : batch ∣ s.base ∧ ∀ t, (s.hand t % batch = 0 ∨ s.hand t < P.qs) ∧ (tries (s.pc t) = true → s.hand t < P.qs)
  lim : ∀ t < P.n, badLim (s.pc t) = false
  ids : ∀ id, subs id s.log = s.kern.countP (fun io => decide (io.id = id)) + total P.n (evOne id) s.pc + calls id s.log
  once : ∀ id, total P.n (pendOne id) s.pc + subs id s.log = old s.fresh id

/-- A change of place that leaves everything else as it is. -/
structure Pure (P : Par) (s : State) (t : Nat) (p : PC) : Prop where
  own : own p = own (s.pc t)
  ev : ev p = ev (s.pc t)
  evl : evl p = evl (s.pc t)
  pend : pend p = pend (s.pc t)
  cnt : cnt p = cnt (s.pc t)
  ctxs : ∀ c ∈ ctxs p, c ∈ AsyncIO.ctxs (s.pc t) ∨ s.ctxOf t = some c
  out : s.pc t ≠ .out ∧ p ≠ .out
  tries : tries p = true → AsyncIO.tries (s.pc t) = true ∨ s.hand t % batch ≠ 0
  lim : badLim p = true → badLim (s.pc t) = true
  dereg : p = .dereg → badLim (s.pc t) = true ∨ ∃ c, c ∈ AsyncIO.ctxs (s.pc t) ∧ (s.ctx c).count = 0

/-- The steps by what they change. -/
inductive Next (P : Par) (s : State) (t : Nat) : State → Prop
  | plain (p : PC) : Pure P s t p → Next P s t (s.goto t p)
  | complete (i : Nat) (io : Io) (res : Bool) : s.kern[i]? = some io → Next P s t { s with kern := s.kern.set i { io with res := some res } }
  | reg (i pid : Nat) : s.pc t = .out → pid ≠ 0 → findCtx P s pid = some i → Next P s t ({ s with
      ctx := upd s.ctx i (if (s.ctx i).pid = pid then { s.ctx i with threads := (s.ctx i).threads + 1 } else { s.ctx i with pid := pid, threads := 1 }),
      ctxOf := upd s.ctxOf t (some i), procOf := upd s.procOf t pid }.goto t .idle)
  | newBatch (left left' : Option Nat) (c : Nat) : s.pc t = .getHead left → s.ctxOf t = some c →
      Next P s t ({ s with hand := upd s.hand t (s.base % P.qs), base := s.base + 32 }.goto t (.clean c none (.getTry left')))
  | hit (left : Option Nat) (c : Nat) : s.pc t = .getTry left → s.ctxOf t = some c → s.slot (s.hand t) = none →
      Next P s t ({ s with hand := upd s.hand t (s.hand t + 1), slot := upd s.slot (s.hand t) (some c) }.goto t (.owns (s.hand t)))
  | miss (left : Option Nat) : s.pc t = .getTry left → Next P s t ({ s with hand := upd s.hand t (s.hand t + 1) }.goto t (.getHead left))
  | submit (k c : Nat) : s.pc t = .owns k → s.slot k = some c →
      Next P s t ({ s with content := upd s.content k s.fresh, fresh := s.fresh + 1 }.goto t (.sub1 c k s.fresh))
  | inc (c k id : Nat) : s.pc t = .sub1 c k id → Next P s t ((s.setCount c ((s.ctx c).count + 1)).goto t (.sub2 c k id))
  | sent (c c' k id : Nat) : s.pc t = .sub2 c k id → s.ctxOf t = some c' →
      Next P s t ({ s with kern := ⟨c, k, id, t, none⟩ :: s.kern, log := s.log ++ [Ev.submitted id] }.goto t (.clean c' none .done))
  | dec (c c' k id : Nat) : s.pc t = .sub3 c k id → s.ctxOf t = some c' → Next P s t ((s.setCount c ((s.ctx c).count - 1)).goto t (.clean c' none (.submit c k id)))
  | reap (c : Nat) (lim : Option Nat) (r : Ret) (i : Nat) (io : Io) : s.pc t = .clEv c lim r → s.kern[i]? = some io → io.ctx = c →
      Next P s t ({ s with kern := s.kern.eraseIdx i }.goto t (.clDec c lim r io))
  | evDec (c : Nat) (lim : Option Nat) (r : Ret) (io : Io) : s.pc t = .clDec c lim r io → Next P s t ((s.setCount c ((s.ctx c).count - 1)).goto t (.clCall c lim r io))
  | call (c : Nat) (lim : Option Nat) (r : Ret) (io : Io) : s.pc t = .clCall c lim r io →
      Next P s t ({ s with log := s.log ++ [Ev.called (s.content io.slot) true] }.goto t (.clFree c lim r io))
  | free (c : Nat) (lim : Option Nat) (r : Ret) (io : Io) : s.pc t = .clFree c lim r io →
      Next P s t ({ s with slot := upd s.slot io.slot none }.goto t (.clean c (limNext lim) r))
  | dereg (c : Nat) (s' : State) : s.pc t = .dereg → s.ctxOf t = some c → deregister s t c = .ok s' → Next P s t s'

theorem go_next {P : Par} {s s' : State} {t i : Nat} {ok : Bool} (h : go P s t ok i = .ok s') : Next P s t s' := by
  unfold go at h
  split at h <;> try cases h
  · rename_i left c hpc hc
    split at h
    · split at h
      · cases h; exact .plain _ ⟨by rw [hpc]; rfl, by rw [hpc]; rfl, by rw [hpc]; rfl, by rw [hpc]; rfl, by rw [hpc]; rfl, by simp [ctxs], by rw [hpc]; simp, by simp [tries], by rw [hpc]; exact fun h => h, by simp⟩
      · cases h; exact .newBatch _ _ _ hpc hc
    · next hm => cases h; exact .plain _ ⟨by rw [hpc]; rfl, by rw [hpc]; rfl, by rw [hpc]; rfl, by rw [hpc]; rfl, by rw [hpc]; rfl, by simp [ctxs], by rw [hpc]; simp, fun _ => .inr hm, by rw [hpc]; exact fun h => h, by simp⟩
  · rename_i left c hpc hc
    dsimp only at h
    split at h
    · cases h
    · split at h
      · next hs => cases h; exact .hit _ _ hpc hc hs
      · cases h; exact .miss _ hpc
  · rename_i hpc; exact .inc _ _ _ hpc
  · rename_i c k id c' hpc hc
    split at h
    · cases h; exact .sent _ _ _ _ hpc hc
    · cases h; exact .plain _ ⟨by rw [hpc]; rfl, by rw [hpc]; rfl, by rw [hpc]; rfl, by rw [hpc]; rfl, by rw [hpc]; rfl, by rw [hpc]; exact fun _ h => .inl h, by rw [hpc]; simp, by simp [tries], by rw [hpc]; exact fun h => h, by simp⟩
  · rename_i c k id c' hpc hc
    exact .dec _ _ _ _ hpc hc
  · rename_i c lim r hpc
    split at h
    · cases h; exact .plain _ ⟨by rw [hpc]; rfl, by rw [hpc]; rfl, by rw [hpc]; rfl, by rw [hpc]; rfl, by rw [hpc]; rfl, by rw [hpc]; exact fun _ h => .inl h, by rw [hpc]; simp, by rw [hpc]; exact fun h => .inl h, by rw [hpc]; exact fun h => h, by simp⟩
    · next hn =>
      cases h
      refine .plain _ ⟨by rw [hpc]; cases r <;> rfl, by rw [hpc]; cases r <;> rfl, by rw [hpc]; cases r <;> rfl, by rw [hpc]; cases r <;> rfl, by rw [hpc]; cases r <;> rfl, ?_, ?_, ?_, ?_, ?_⟩
      · rw [hpc]; cases r <;> simp [Ret.pc, ctxs, Ret.ctxs]
      · rw [hpc]; cases r <;> simp [Ret.pc]
      · rw [hpc]; cases r <;> simp [Ret.pc, tries, Ret.tries]
      · cases r <;> simp [Ret.pc, badLim]
      · rw [hpc]
        intro hr
        cases r <;> simp [Ret.pc] at hr
        cases lim with
        | none => exact .inr ⟨c, by simp [ctxs], by simpa using hn⟩
        | some m => exact .inl rfl
  · rename_i c lim r hpc
    split at h
    · next io hio =>
      split at h
      · next hh => cases h; exact .reap _ _ _ _ _ hpc hio hh.1
      · cases h; exact .plain _ ⟨by rw [hpc]; rfl, by rw [hpc]; rfl, by rw [hpc]; rfl, by rw [hpc]; rfl, by rw [hpc]; rfl, by rw [hpc]; exact fun _ h => .inl h, by rw [hpc]; simp, by rw [hpc]; exact fun h => .inl h, by rw [hpc]; exact fun h => h, by simp⟩
    · cases h; exact .plain _ ⟨by rw [hpc]; rfl, by rw [hpc]; rfl, by rw [hpc]; rfl, by rw [hpc]; rfl, by rw [hpc]; rfl, by rw [hpc]; exact fun _ h => .inl h, by rw [hpc]; simp, by rw [hpc]; exact fun h => .inl h, by rw [hpc]; exact fun h => h, by simp⟩
  · rename_i hpc; exact .evDec _ _ _ _ hpc
  · rename_i hpc; exact .call _ _ _ _ hpc
  · rename_i hpc; exact .free _ _ _ _ hpc
  · rename_i c hpc hc
    exact .dereg _ _ hpc hc h
  · rename_i i c hpc hc
    split at h
    · cases h; exact .plain _ ⟨by rw [hpc]; rfl, by rw [hpc]; rfl, by rw [hpc]; rfl, by rw [hpc]; rfl, by rw [hpc]; rfl, by simp [ctxs], by rw [hpc]; simp, by simp [tries], by rw [hpc]; exact fun h => h, by simp⟩
    · split at h
      · cases h; exact .plain _ ⟨by rw [hpc]; rfl, by rw [hpc]; rfl, by rw [hpc]; rfl, by rw [hpc]; rfl, by rw [hpc]; rfl, by simp [ctxs, Ret.ctxs, hc], by rw [hpc]; simp, by simp [tries, Ret.tries], by rw [hpc]; exact fun h => h, by simp⟩
      · split at h
        · cases h; exact .plain _ ⟨by rw [hpc]; rfl, by rw [hpc]; rfl, by rw [hpc]; rfl, by rw [hpc]; rfl, by rw [hpc]; rfl, by simp [ctxs, Ret.ctxs, hc], by rw [hpc]; simp, by simp [tries, Ret.tries], by rw [hpc]; exact fun h => h, by simp⟩
        · cases h; exact .plain _ ⟨by rw [hpc]; rfl, by rw [hpc]; rfl, by rw [hpc]; rfl, by rw [hpc]; rfl, by rw [hpc]; rfl, by simp [ctxs], by rw [hpc]; simp, by simp [tries], by rw [hpc]; exact fun h => h, by simp⟩

theorem step_next {P : Par} {s s' : State} {t : Nat} {x : Act} (h : step P s t x = .ok s') : Next P s t s' := by
  cases x with
  | go ok i => exact go_next h
  | complete i res =>
    simp only [step] at h
    split at h
    · next io hio => split at h <;> cases h; exact .complete i io res hio
    · cases h
  | register pid =>
    simp only [step, register] at h
    split at h
    · next hh =>
      split at h
      · cases h
      · next i hi => cases h; exact .reg i pid hh.1 hh.2 hi
    · cases h
  | deregister =>
    simp only [step] at h
    split at h
    · next hpc =>
      split at h
      · next c hc => cases h; exact .plain _ ⟨by rw [hpc]; rfl, by rw [hpc]; rfl, by rw [hpc]; rfl, by rw [hpc]; rfl, by rw [hpc]; rfl, by simp [ctxs, Ret.ctxs, hc], by rw [hpc]; simp, by simp [tries, Ret.tries], by (intro h; cases h), by simp⟩
      · cases h
    · cases h
  | get blocking =>
    simp only [step] at h
    split at h
    · next hpc => cases h; exact .plain _ ⟨by rw [hpc]; rfl, by rw [hpc]; rfl, by rw [hpc]; rfl, by rw [hpc]; rfl, by rw [hpc]; rfl, by simp [ctxs], by rw [hpc]; simp, by simp [tries], by (intro h; cases h), by simp⟩
    · cases h
  | submit =>
    simp only [step] at h
    split at h
    · next k hpc =>
      split at h
      · next c hc => cases h; exact .submit k c hpc hc
      · cases h
    · cases h
  | cleanup count =>
    simp only [step] at h
    split at h
    · next hpc =>
      split at h
      · next c hc => cases h; exact .plain _ ⟨by rw [hpc]; rfl, by rw [hpc]; rfl, by rw [hpc]; rfl, by rw [hpc]; rfl, by rw [hpc]; rfl, by simp [ctxs, Ret.ctxs, hc], by rw [hpc]; simp, by simp [tries, Ret.tries], by simp [badLim], by simp⟩
      · cases h
    · cases h
  | waitAll =>
    simp only [step] at h
    split at h
    · next hpc => cases h; exact .plain _ ⟨by rw [hpc]; rfl, by rw [hpc]; rfl, by rw [hpc]; rfl, by rw [hpc]; rfl, by rw [hpc]; rfl, by simp [ctxs], by rw [hpc]; simp, by simp [tries], by (intro h; cases h), by simp⟩
    · cases h

/-! ### The invariant is kept -/

theorem dereg_eq {s s' : State} {t c : Nat} (h : deregister s t c = .ok s') :
    s' = { s with ctxOf := upd s.ctxOf t none, pc := upd s.pc t .out, ctx := s'.ctx } ∧
    s'.ctx = upd s.ctx c { s.ctx c with pid := if (s.ctx c).threads - 1 = 0 then 0 else (s.ctx c).pid, threads := (s.ctx c).threads - 1 } := by
  unfold deregister at h
  simp only [State.goto] at h
  split at h
  · next h0 =>
    split at h
    · cases h
    · cases h; exact ⟨rfl, by simp [h0]⟩
  · next h0 => cases h; exact ⟨rfl, by simp [h0]⟩

theorem countP_set {α : Type} (p : α → Bool) {l : List α} {i : Nat} {x y : α} (h : l[i]? = some x) (hp : p y = p x) : (l.set i y).countP p = l.countP p := by
  induction l generalizing i with
  | nil => simp at h
  | cons a l ih =>
    cases i with
    | zero => simp at h; subst h; simp [List.countP_cons, hp]
    | succ i => simp at h; simp [List.countP_cons, ih h]

theorem countP_eraseIdx {α : Type} (p : α → Bool) {l : List α} {i : Nat} {x : α} (h : l[i]? = some x) :
    (l.eraseIdx i).countP p + (if p x then 1 else 0) = l.countP p := by
  induction l generalizing i with
  | nil => simp at h
  | cons a l ih =>
    cases i with
    | zero => simp at h; subst h; simp [List.countP_cons]
    | succ i =>
      simp at h
      have := ih h
      simp only [List.eraseIdx_cons_succ, List.countP_cons]
      omega

theorem useOne_congr {k : Nat} {p q : PC} (h1 : own p = own q) (h2 : ev p = ev q) : useOne k p = useOne k q := by simp [useOne, h1, h2]

theorem use_next {P : Par} {s s' : State} {t : Nat} (ht : t < P.n) (I : Inv P s) (h : Next P s t s') (k : Nat) :
    total P.n (useOne k) s'.pc + s'.kern.countP (fun io => decide (io.slot = k)) = occ (s'.slot k) := by
  have hu := I.use k
  have key := fun p => total_upd (useOne k) s.pc ht p
  cases h with
  | plain p hp =>
    have := total_same (useOne k) s.pc ht (useOne_congr hp.own hp.ev)
    simp only [State.goto]; omega
  | complete i io res h1 =>
    simp only
    rw [countP_set _ h1 (by simp)]; exact hu
  | reg i pid hpc =>
    have := key .idle
    simp only [useOne, hpc, own, ev, Ret.own, Option.map_some, Option.map_none, isOne_none] at this
    simp only [State.goto]; omega
  | newBatch left left' c hpc hc =>
    have := key (.clean c none (.getTry left'))
    simp only [useOne, hpc, own, ev, Ret.own, Option.map_some, Option.map_none, isOne_none] at this
    simp only [State.goto]; omega
  | hit left c hpc hc hs =>
    have := key (.owns (s.hand t))
    simp only [useOne, hpc, own, ev, Ret.own, Option.map_some, Option.map_none, isOne_none] at this
    simp only [State.goto, upd] at this ⊢
    by_cases hk : k = s.hand t
    · subst hk; simp only [hs, occ, isOne_self, if_true] at this hu ⊢; omega
    · rw [isOne_ne (Ne.symm hk)] at this; rw [if_neg hk]; omega
  | miss left hpc =>
    have := key (.getHead left)
    simp only [useOne, hpc, own, ev, Ret.own, Option.map_some, Option.map_none, isOne_none] at this
    simp only [State.goto]; omega
  | submit k' c hpc hc =>
    have := key (.sub1 c k' s.fresh)
    simp only [useOne, hpc, own, ev, Ret.own, Option.map_some, Option.map_none, isOne_none] at this
    simp only [State.goto]; omega
  | inc c k' id hpc =>
    have := key (.sub2 c k' id)
    simp only [useOne, hpc, own, ev, Ret.own, Option.map_some, Option.map_none, isOne_none] at this
    simp only [State.goto, State.setCount]; omega
  | sent c c' k' id hpc hc =>
    have := key (.clean c' none .done)
    simp only [useOne, hpc, own, ev, Ret.own, Option.map_some, Option.map_none, isOne_none] at this
    simp only [State.goto, List.countP_cons, decide_eq_true_eq]
    simp only [isOne, Option.some.injEq] at this; omega
  | dec c c' k' id hpc hc =>
    have := key (.clean c' none (.submit c k' id))
    simp only [useOne, hpc, own, ev, Ret.own, Option.map_some, Option.map_none, isOne_none] at this
    simp only [State.goto, State.setCount]; omega
  | reap c lim r i io hpc hio hc =>
    have := key (.clDec c lim r io)
    simp only [useOne, hpc, own, ev, Ret.own, Option.map_some, Option.map_none, isOne_none] at this
    have h2 := countP_eraseIdx (fun io => decide (io.slot = k)) hio
    simp only [State.goto, decide_eq_true_eq] at h2 ⊢
    have : isOne (some io.slot) k = if io.slot = k then 1 else 0 := by simp [isOne]
    omega
  | evDec c lim r io hpc =>
    have := key (.clCall c lim r io)
    simp only [useOne, hpc, own, ev, Ret.own, Option.map_some, Option.map_none, isOne_none] at this
    simp only [State.goto, State.setCount]; omega
  | call c lim r io hpc =>
    have := key (.clFree c lim r io)
    simp only [useOne, hpc, own, ev, Ret.own, Option.map_some, Option.map_none, isOne_none] at this
    simp only [State.goto]; omega
  | free c lim r io hpc =>
    have := key (.clean c (limNext lim) r)
    simp only [useOne, hpc, own, ev, Ret.own, Option.map_some, Option.map_none, isOne_none] at this
    simp only [State.goto]
    by_cases hk : k = io.slot
    · subst hk
      simp only [upd, if_true, isOne_self] at this ⊢
      have : occ (s.slot io.slot) ≤ 1 := by unfold occ; split <;> omega
      have : occ none = 0 := rfl
      omega
    · simp only [upd, if_neg hk, isOne_ne (Ne.symm hk)] at this ⊢; omega
  | dereg c s'' hpc hc hd =>
    have := key .out
    obtain ⟨e, -⟩ := dereg_eq hd
    simp only [useOne, hpc, own, ev, Ret.own, Option.map_some, Option.map_none, isOne_none] at this
    rw [e]
    simp only; omega

theorem count_next {P : Par} {s s' : State} {t : Nat} (ht : t < P.n) (I : Inv P s) (h : Next P s t s') (d : Nat) :
    (s'.ctx d).count = total P.n (cntOne d) s'.pc + s'.kern.countP (fun io => decide (io.ctx = d)) := by
  have hu := I.count d
  have key := fun p => total_upd (cntOne d) s.pc ht p
  cases h with
  | plain p hp =>
    have := total_same (cntOne d) s.pc ht (p := p) (by simp [cntOne, hp.cnt])
    simp only [State.goto]; omega
  | complete i io res h1 =>
    simp only
    rw [countP_set _ h1 (by simp)]; exact hu
  | reg i pid hpc =>
    have := key .idle
    simp only [cntOne, hpc, cnt, isOne_none] at this
    simp only [State.goto, upd] at this ⊢
    split
    · next e => subst e; split <;> simp only <;> omega
    · omega
  | newBatch left left' c hpc hc =>
    have := key (.clean c none (.getTry left'))
    simp only [cntOne, hpc, cnt, isOne_none] at this
    simp only [State.goto]; omega
  | hit left c hpc hc hs =>
    have := key (.owns (s.hand t))
    simp only [cntOne, hpc, cnt, isOne_none] at this
    simp only [State.goto]; omega
  | miss left hpc =>
    have := key (.getHead left)
    simp only [cntOne, hpc, cnt, isOne_none] at this
    simp only [State.goto]; omega
  | submit k' c hpc hc =>
    have := key (.sub1 c k' s.fresh)
    simp only [cntOne, hpc, cnt, isOne_none] at this
    simp only [State.goto]; omega
  | inc c k' id hpc =>
    have := key (.sub2 c k' id)
    simp only [cntOne, hpc, cnt, isOne_none] at this
    simp only [State.goto, State.setCount]
    by_cases e : d = c
    · subst e; simp only [upd, if_true, isOne_self] at this ⊢; omega
    · simp only [upd, if_neg e, isOne_ne (Ne.symm e)] at this ⊢; omega
  | sent c c' k' id hpc hc =>
    have := key (.clean c' none .done)
    simp only [cntOne, hpc, cnt, isOne_none] at this
    simp only [State.goto, List.countP_cons, decide_eq_true_eq]
    simp only [isOne, Option.some.injEq] at this; omega
  | dec c c' k' id hpc hc =>
    have := key (.clean c' none (.submit c k' id))
    have h2 := le_total (cntOne d) s.pc ht
    simp only [cntOne, hpc, cnt, isOne_none] at this h2
    simp only [State.goto, State.setCount]
    by_cases e : d = c
    · subst e; simp only [upd, if_true, isOne_self] at this h2 ⊢; omega
    · simp only [upd, if_neg e, isOne_ne (Ne.symm e)] at this ⊢; omega
  | reap c lim r i io hpc hio hc =>
    have := key (.clDec c lim r io)
    simp only [cntOne, hpc, cnt, isOne_none] at this
    have h2 := countP_eraseIdx (fun io => decide (io.ctx = d)) hio
    simp only [State.goto, decide_eq_true_eq, hc] at h2 ⊢
    have : isOne (some c) d = if c = d then 1 else 0 := by simp [isOne]
    omega
  | evDec c lim r io hpc =>
    have := key (.clCall c lim r io)
    have h2 := le_total (cntOne d) s.pc ht
    simp only [cntOne, hpc, cnt, isOne_none] at this h2
    simp only [State.goto, State.setCount]
    by_cases e : d = c
    · subst e; simp only [upd, if_true, isOne_self] at this h2 ⊢; omega
    · simp only [upd, if_neg e, isOne_ne (Ne.symm e)] at this ⊢; omega
  | call c lim r io hpc =>
    have := key (.clFree c lim r io)
    simp only [cntOne, hpc, cnt, isOne_none] at this
    simp only [State.goto]; omega
  | free c lim r io hpc =>
    have := key (.clean c (limNext lim) r)
    simp only [cntOne, hpc, cnt, isOne_none] at this
    simp only [State.goto]; omega
  | dereg c s'' hpc hc hd =>
    have := key .out
    obtain ⟨e, e2⟩ := dereg_eq hd
    simp only [cntOne, hpc, cnt, isOne_none] at this
    rw [e, e2]
    simp only [upd] at this ⊢
    split
    · next e => subst e; simp only; omega
    · omega

end Splinter.AsyncIO
