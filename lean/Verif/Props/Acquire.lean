import Verif.Model.Acquire
import Mathlib.Tactic.SplitIfs

/-
Opening and closing give back what they took (C68).

The specification is the order of the steps, the part of the store each thing
belongs to, and what is left over after a step failed.
-/

namespace Splinter.Acquire

/-! ## Specification -/

/-- The steps of opening, in order. -/
def steps (shm ex : Bool) : List Step :=
  (if shm then [.heap] else []) ++
  ([.handle, .config, .ioConfig, .openFile, .stat, .falloc,
    .taskConfig, .tasks, .cv false, .threads false, .cv true, .threads true] ++
  ((if ex then [] else [.alConfig]) ++
  ([.lock, .metaPage, .refs, .lookup, .entry, .data, .refcount, .pincount, .busy] ++
  (if ex then [.superBlock] else []))))

/-- The first step that fails. -/
def firstFail (shm ex : Bool) (ok : Step → Bool) : Option Step :=
  (steps shm ex).find? (fun x => !ok x)

/-- What is left over after a step failed: the open file, or the queue's mutex. -/
def left : Step → List Res
  | .stat => [.fd]
  | .falloc => [.fd]
  | .superBlock => [.srq]
  | _ => []

/-- How many condition variables are destroyed that are not there. -/
def wrong : Step → Nat
  | .cv false => 2
  | .threads false => 2
  | .cv true => 1
  | .threads true => 1
  | _ => 0

/-- All a store holds. -/
def parts (shm : Bool) : List Res :=
  [.srq, .spl, .busy, .pincount, .refcount, .data, .entry, .lookup,
   .refs, .metaPage, .lock, .cv true, .cv false, .thread, .tasks, .reqs, .fd, .handle] ++
  (if shm then [.heap] else [])

/-- The place in the order of building of the part a thing belongs to. -/
def rank : Res → Nat
  | .heap => 0
  | .handle => 1
  | .fd | .reqs => 2
  | .tasks | .thread | .cv _ => 3
  | .lock | .metaPage | .refs => 4
  | .lookup | .entry | .data | .refcount | .pincount | .busy => 5
  | .spl | .srq => 6

/-- Things are given back in the reverse of the order of building. -/
def Reversed (given : List Res) : Prop := (given.map rank).Pairwise (· ≤ ·)

/-- No condition variable is held, as when no store is open. -/
def Idle (s : St) : Prop := ∀ g, Res.cv g ∉ s.held

/-! ## Opening -/

local macro "one" ok:term:max x:term:max : tactic =>
  `(tactic| (cases hx : $ok $x
             · (simp [*, openStore, firstFail, steps, ioInit, tasksCreate, groupInit, alInit, ccInit,
                  trunkStart, left, wrong]
                try simp [*, dropHandle, ioDeinit, tasksDestroy, alUnmount, ccDeinit, give, giveIf,
                  take])))

local macro "mid" ok:term:max : tactic =>
  `(tactic| (one $ok .handle; one $ok .config; one $ok .ioConfig; one $ok .openFile; one $ok .stat
             one $ok .falloc; one $ok .taskConfig; one $ok .tasks; one $ok (.cv false)
             one $ok (.threads false); one $ok (.cv true); one $ok (.threads true)))

local macro "rest" ok:term:max : tactic =>
  `(tactic| (one $ok .lock; one $ok .metaPage; one $ok .refs; one $ok .lookup; one $ok .entry
             one $ok .data; one $ok .refcount; one $ok .pincount; one $ok .busy))

local macro "fin" : tactic =>
  `(tactic| (simp [*, openStore, firstFail, steps, ioInit, tasksCreate, groupInit, alInit, ccInit,
                  trunkStart]
             try simp [take, parts]))

/-- What opening does, by the first step that fails. -/
theorem open_spec (shm ex : Bool) (ok : Step → Bool) (s : St) (hs : Idle s) :
    match firstFail shm ex ok with
    | none => (openStore shm ex ok s).1 = true ∧
        (openStore shm ex ok s).2.held = parts shm ++ s.held ∧
        (openStore shm ex ok s).2.bad = s.bad
    | some x => (openStore shm ex ok s).1 = false ∧
        (openStore shm ex ok s).2.held = left x ++ s.held ∧
        (openStore shm ex ok s).2.bad = s.bad + wrong x := by
  have h0 := hs false
  have h1 := hs true
  clear hs
  cases shm <;> cases ex
  · mid ok; one ok .alConfig; rest ok; fin
  · mid ok; rest ok; one ok .superBlock; fin
  · one ok .heap; mid ok; one ok .alConfig; rest ok; fin
  · one ok .heap; mid ok; rest ok; one ok .superBlock; fin

/-- A store is opened just when every step succeeds. -/
theorem open_iff (shm ex : Bool) (ok : Step → Bool) (s : St) (hs : Idle s) :
    (openStore shm ex ok s).1 = true ↔ ∀ x ∈ steps shm ex, ok x = true := by
  have h := open_spec shm ex ok s hs
  cases hf : firstFail shm ex ok with
  | none =>
    rw [hf] at h
    simp only [h.1, true_iff]
    simpa [firstFail] using hf
  | some x =>
    rw [hf] at h
    simp only [h.1, Bool.false_eq_true, false_iff]
    intro hall
    have hm := List.mem_of_find?_eq_some hf
    have hx := List.find?_some hf
    simp [hall x hm] at hx

/-- A failed opening leaves nothing behind and destroys nothing twice, unless it
is the file's size, the tasks' groups or the super block that fails. -/
theorem fail_clean (shm ex : Bool) (ok : Step → Bool) (s : St) (hs : Idle s)
    (hf : (openStore shm ex ok s).1 = false)
    (h1 : ok .stat = true) (h2 : ok .falloc = true)
    (h3 : ∀ g, ok (.cv g) = true) (h4 : ∀ g, ok (.threads g) = true)
    (h5 : ex = true → ok .superBlock = true) :
    (openStore shm ex ok s).2.held = s.held ∧ (openStore shm ex ok s).2.bad = s.bad := by
  have h := open_spec shm ex ok s hs
  cases hff : firstFail shm ex ok with
  | none => rw [hff] at h; simp [h.1] at hf
  | some x =>
    rw [hff] at h
    have hx : ok x = false := by simpa using List.find?_some hff
    obtain ⟨-, a, b⟩ := h
    rw [a, b]
    have : left x = [] ∧ wrong x = 0 := by
      cases x
      case cv g => rw [h3 g] at hx; cases hx
      case threads g => rw [h4 g] at hx; cases hx
      case superBlock =>
        have hm := List.mem_of_find?_eq_some hff
        cases ex
        · cases shm <;> simp [steps] at hm
        · rw [h5 rfl] at hx; cases hx
      all_goals simp_all [left, wrong]
    simp [this]

/-- A file whose size cannot be found or set stays open. -/
theorem fail_file (shm ex : Bool) (ok : Step → Bool) (s : St) (hs : Idle s)
    (hf : firstFail shm ex ok = some .stat ∨ firstFail shm ex ok = some .falloc) :
    (openStore shm ex ok s).1 = false ∧
      (openStore shm ex ok s).2.held = Res.fd :: s.held := by
  have h := open_spec shm ex ok s hs
  rcases hf with hf | hf <;> rw [hf] at h <;> exact ⟨h.1, by simpa [left] using h.2.1⟩

/-- A store that was not closed cannot be opened; the queue's mutex is left over. -/
theorem fail_mount (shm : Bool) (ok : Step → Bool) (s : St) (hs : Idle s)
    (hf : firstFail shm true ok = some .superBlock) :
    (openStore shm true ok s).1 = false ∧
      (openStore shm true ok s).2.held = Res.srq :: s.held := by
  have h := open_spec shm true ok s hs
  rw [hf] at h
  exact ⟨h.1, by simpa [left] using h.2.1⟩

/-- If a group of tasks cannot be made, a condition variable is destroyed that is
not there. -/
theorem fail_tasks (shm ex g : Bool) (ok : Step → Bool) (s : St) (hs : Idle s)
    (hf : firstFail shm ex ok = some (.cv g) ∨ firstFail shm ex ok = some (.threads g)) :
    (openStore shm ex ok s).1 = false ∧ s.bad < (openStore shm ex ok s).2.bad := by
  have h := open_spec shm ex ok s hs
  rcases hf with hf | hf <;> rw [hf] at h <;> refine ⟨h.1, ?_⟩ <;> rw [h.2.2] <;>
    cases g <;> simp [wrong]

/-! ## The order of giving back -/

local macro "ord" ok:term:max x:term:max : tactic =>
  `(tactic| (cases hx : $ok $x
             · (simp [*, openStore, ioInit, tasksCreate, groupInit, alInit, ccInit, trunkStart]
                try simp [*, dropHandle, ioDeinit, tasksDestroy, alUnmount, ccDeinit, give, giveIf,
                  take, Reversed, rank])))

local macro "ordMid" ok:term:max : tactic =>
  `(tactic| (ord $ok .handle; ord $ok .config; ord $ok .ioConfig; ord $ok .openFile; ord $ok .stat
             ord $ok .falloc; ord $ok .taskConfig; ord $ok .tasks; ord $ok (.cv false)
             ord $ok (.threads false); ord $ok (.cv true); ord $ok (.threads true)))

local macro "ordRest" ok:term:max : tactic =>
  `(tactic| (ord $ok .lock; ord $ok .metaPage; ord $ok .refs; ord $ok .lookup; ord $ok .entry
             ord $ok .data; ord $ok .refcount; ord $ok .pincount; ord $ok .busy))

local macro "ordFin" : tactic =>
  `(tactic| (simp [*, openStore, ioInit, tasksCreate, groupInit, alInit, ccInit, trunkStart]
             try simp [*, take, Reversed]))

/-- Opening gives parts back in the reverse of the order of building. -/
theorem open_reversed (shm ex : Bool) (ok : Step → Bool) (s : St) (hs : Idle s)
    (hg : s.given = []) : Reversed (openStore shm ex ok s).2.given := by
  have h0 := hs false
  have h1 := hs true
  clear hs
  cases shm <;> cases ex
  · ordMid ok; ord ok .alConfig; ordRest ok; ordFin
  · ordMid ok; ordRest ok; ord ok .superBlock; ordFin
  · ord ok .heap; ordMid ok; ord ok .alConfig; ordRest ok; ordFin
  · ord ok .heap; ordMid ok; ordRest ok; ord ok .superBlock; ordFin

/-! ## Closing -/

/-- Closing gives back all a store holds. It uses a destroyed mutex if a last task
uses the queue. -/
theorem close_spec (shm busy : Bool) (s : St) (h : List Res) (hh : s.held = parts shm ++ h)
    (hq : Res.srq ∉ h) :
    (closeStore shm busy s).held = h ∧
      (closeStore shm busy s).bad = s.bad + busy.toNat := by
  obtain ⟨held, given, bad⟩ := s
  subst hh
  cases shm <;> cases busy <;>
    simp [hq, closeStore, trunkUnmount, use, dropHandle, ioDeinit, tasksDestroy, alUnmount,
      ccDeinit, give, giveIf, parts]

theorem close_held (shm busy : Bool) (s : St) (h : List Res) (hh : s.held = parts shm ++ h) :
    (closeStore shm busy s).held = h := by
  obtain ⟨held, given, bad⟩ := s
  subst hh
  by_cases hq : Res.srq ∈ h <;> cases shm <;> cases busy <;>
    simp [hq, closeStore, trunkUnmount, use, dropHandle, ioDeinit, tasksDestroy, alUnmount,
      ccDeinit, give, giveIf, parts]

/-- Closing gives parts back in the reverse of the order of building. -/
theorem close_reversed (shm busy : Bool) (s : St) (h : List Res)
    (hh : s.held = parts shm ++ h) (hg : s.given = []) :
    Reversed (closeStore shm busy s).given := by
  obtain ⟨held, given, bad⟩ := s
  subst hh
  subst hg
  by_cases hq : Res.srq ∈ h <;> cases shm <;> cases busy <;>
    simp [hq, closeStore, trunkUnmount, use, dropHandle, ioDeinit, tasksDestroy, alUnmount,
      ccDeinit, give, giveIf, parts, Reversed, rank]

/-! ## Many sessions -/

/-- A session that leaves the file open. -/
def Session.losesFile (c : Session) : Bool :=
  firstFail c.shm c.ex c.ok == some .stat || firstFail c.shm c.ex c.ok == some .falloc

/-- A session that fails to mount. -/
def Session.losesQueue (c : Session) : Bool :=
  firstFail c.shm c.ex c.ok == some .superBlock

/-- One session holds at its end what it held at its start, and what it lost. -/
theorem run_held (c : Session) (s : St) (hs : Idle s) :
    (c.run s).held = (if c.losesFile then [.fd] else if c.losesQueue then [.srq] else []) ++
      s.held := by
  have h := open_spec c.shm c.ex c.ok s hs
  unfold Session.run
  cases hf : firstFail c.shm c.ex c.ok with
  | none =>
    rw [hf] at h
    have hl : c.losesFile = false := by simp [Session.losesFile, hf]
    have hl' : c.losesQueue = false := by simp [Session.losesQueue, hf]
    rcases ho : openStore c.shm c.ex c.ok s with ⟨b, s'⟩
    rw [ho] at h
    obtain ⟨h1, h2, -⟩ := h
    simp only at h1 h2
    subst h1
    simp only [hl, hl', Bool.false_eq_true, if_false, List.nil_append]
    exact close_held c.shm c.busy s' s.held h2
  | some x =>
    rw [hf] at h
    rcases ho : openStore c.shm c.ex c.ok s with ⟨b, s'⟩
    rw [ho] at h
    obtain ⟨h1, h2, -⟩ := h
    simp only at h1 h2
    subst h1
    simp only [h2, Session.losesFile, Session.losesQueue, hf]
    cases x <;> simp [left]

/-- The sessions a process runs, one after the other. -/
def runAll (cs : List Session) (s : St) : St := cs.foldl (fun s c => c.run s) s

theorem runAll_idle (cs : List Session) : ∀ s, Idle s → Idle (runAll cs s) := by
  induction cs with
  | nil => intro s h; exact h
  | cons c cs ih =>
    intro s h
    refine ih (c.run s) ?_
    intro g
    rw [run_held c s h]
    have := h g
    split_ifs <;> simp [this]

/-- However many stores a process opens and closes, it holds in the end one file
for each opening that failed at the file's size, one mutex for each that failed at
the super block, and nothing else. -/
theorem runAll_held (cs : List Session) (r : Res) : ∀ s, Idle s →
    (runAll cs s).held.count r = s.held.count r +
      (if r = .fd then cs.countP Session.losesFile
       else if r = .srq then cs.countP Session.losesQueue else 0) := by
  induction cs with
  | nil => intro s _; simp [runAll]
  | cons c cs ih =>
    intro s h
    have hi : Idle (c.run s) := runAll_idle [c] s h
    have e : runAll (c :: cs) s = runAll cs (c.run s) := rfl
    rw [e, ih _ hi, run_held c s h]
    have hex : c.losesFile = true → c.losesQueue = false := by
      unfold Session.losesFile Session.losesQueue
      cases firstFail c.shm c.ex c.ok with
      | none => simp
      | some x => cases x <;> simp
    by_cases h1 : r = .fd
    · subst h1
      cases hl : c.losesFile <;> cases hq : c.losesQueue <;>
        simp [hl] <;> omega
    · by_cases h2 : r = .srq
      · subst h2
        cases hl : c.losesFile <;> cases hq : c.losesQueue <;>
          simp [hq]
        · omega
        · simp [hex hl] at hq
      · cases hl : c.losesFile <;> cases hq : c.losesQueue <;>
          simp [h1, h2, Ne.symm h1, Ne.symm h2]

theorem close_bad (shm : Bool) (s : St) (h : List Res) (hh : s.held = parts shm ++ h) :
    (closeStore shm false s).bad = s.bad := by
  obtain ⟨held, given, bad⟩ := s
  subst hh
  by_cases hq : Res.srq ∈ h <;> cases shm <;>
    simp [closeStore, trunkUnmount, dropHandle, ioDeinit, tasksDestroy, alUnmount,
      ccDeinit, give, giveIf, parts]

/-- A session whose groups of tasks are made and whose last tasks leave the queue
alone. -/
def Session.Calm (c : Session) : Prop :=
  c.busy = false ∧ ∀ x, firstFail c.shm c.ex c.ok = some x → wrong x = 0

/-- However many stores a process opens and closes, nothing is used or given back
that is not held, if the sessions are calm. -/
theorem runAll_bad (cs : List Session) : ∀ s, Idle s → (∀ c ∈ cs, c.Calm) →
    (runAll cs s).bad = s.bad := by
  induction cs with
  | nil => intro s _ _; rfl
  | cons c cs ih =>
    intro s h hc
    have hi : Idle (c.run s) := runAll_idle [c] s h
    have e : runAll (c :: cs) s = runAll cs (c.run s) := rfl
    rw [e, ih _ hi (fun d hd => hc d (List.mem_cons_of_mem _ hd))]
    obtain ⟨hb, hw⟩ := hc c List.mem_cons_self
    have ho := open_spec c.shm c.ex c.ok s h
    unfold Session.run
    cases hf : firstFail c.shm c.ex c.ok with
    | none =>
      rw [hf] at ho
      rcases hs : openStore c.shm c.ex c.ok s with ⟨b, s'⟩
      rw [hs] at ho
      obtain ⟨h1, h2, h3⟩ := ho
      simp only at h1 h2 h3
      subst h1
      simp only [hb]
      rw [close_bad c.shm s' s.held h2, h3]
    | some x =>
      rw [hf] at ho
      rcases hs : openStore c.shm c.ex c.ok s with ⟨b, s'⟩
      rw [hs] at ho
      obtain ⟨h1, -, h3⟩ := ho
      simp only at h1 h3
      subst h1
      simp only [h3, hw x hf, Nat.add_zero]

/-! ## Examples -/

/-- A machine where one step fails. -/
def allBut (x : Step) : Step → Bool := fun y => decide (y ≠ x)

/-- Nothing is held. -/
def fresh : St := ⟨[], [], 0⟩

theorem fresh_idle : Idle fresh := by intro g; simp [fresh]

-- the cache cannot be made: all is given back
example : (openStore true false (allBut .refcount) fresh).1 = false ∧
    (openStore true false (allBut .refcount) fresh).2.held = [] :=
  ⟨by decide, (fail_clean true false (allBut .refcount) fresh fresh_idle (by decide) (by decide)
    (by decide) (by decide) (by decide) (by decide)).1⟩

example : (openStore true false (allBut .refcount) fresh).2.given.length = 14 := by decide

example : (openStore false false (allBut .falloc) fresh).2.held = [.fd] :=
  (fail_file false false (allBut .falloc) fresh fresh_idle (Or.inr (by decide))).2

example : (openStore false true (allBut .superBlock) fresh).2.held = [.srq] :=
  (fail_mount false (allBut .superBlock) fresh fresh_idle (by decide)).2

example : 0 < (openStore false true (allBut (.threads true)) fresh).2.bad :=
  (fail_tasks false true true (allBut (.threads true)) fresh fresh_idle (Or.inr (by decide))).2

example : (openStore true true (fun _ => true) fresh).1 = true :=
  (open_iff true true (fun _ => true) fresh fresh_idle).2 (by simp)

example : (closeStore true true ⟨parts true, [], 0⟩).bad = 1 :=
  (close_spec true true ⟨parts true, [], 0⟩ [] (by simp) (by simp)).2

example : (closeStore true false ⟨parts true, [], 0⟩).given.length = 19 ∧
    Reversed (closeStore true false ⟨parts true, [], 0⟩).given :=
  ⟨by decide, close_reversed true false ⟨parts true, [], 0⟩ [] (by simp) rfl⟩

example : (openStore true false (allBut .busy) fresh).2.given.length = 16 ∧
    Reversed (openStore true false (allBut .busy) fresh).2.given :=
  ⟨by decide, open_reversed true false (allBut .busy) fresh fresh_idle rfl⟩

example : (runAll [⟨true, false, fun _ => true, false⟩, ⟨false, true, allBut .stat, false⟩,
    ⟨false, true, allBut .falloc, false⟩] fresh).held.count .fd = 2 := by
  rw [runAll_held _ _ _ fresh_idle]; decide

example : (runAll [⟨true, false, fun _ => true, false⟩, ⟨false, true, allBut .stat, false⟩]
    fresh).bad = 0 := by
  refine runAll_bad _ fresh fresh_idle ?_
  intro c hc
  simp only [List.mem_cons, List.not_mem_nil, or_false] at hc
  rcases hc with rfl | rfl
  · refine ⟨rfl, fun x hx => ?_⟩
    have e : firstFail true false (fun _ => true) = none := by decide
    rw [e] at hx
    cases hx
  · refine ⟨rfl, fun x hx => ?_⟩
    have e : firstFail false true (allBut .stat) = some .stat := by decide
    rw [e] at hx
    cases hx
    rfl

end Splinter.Acquire
