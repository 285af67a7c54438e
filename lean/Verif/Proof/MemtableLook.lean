import Verif.Proof.MemtableAgents

/-! # Memtables: accepted messages, and what lookups see -/
namespace Splinter.Memtable
variable {M : Type}

/-! ## Accepted messages -/

def logOf (s : State M) (t : Nat) : List M := msgs (s.log.filter (·.2.1 = t))
def accepted (s : State M) (t : Nat) : List M := (s.done.filter (fun d => d.1 = t ∧ d.2.2 = true)).map (·.2.1)
def PC.flight : PC M → List M
  | .put2 m => [m]
  | _ => []

def Acc (s : State M) : Prop := ∀ t, logOf s t = accepted s t ++ (s.pc t).flight

theorem acc_same {s s' : State M} {t : Nat} {p : PC M} (h : Acc s) (hp : s'.pc = upd s.pc t p) (e1 : s'.log = s.log) (e2 : s'.done = s.done) (hf : (s.pc t).flight = p.flight) : Acc s' := by
  intro u
  have := h u
  unfold logOf accepted at *
  rw [e1, e2, this, hp]
  by_cases e : u = t
  · subst e; simp [upd, hf]
  · simp [upd, e]

theorem acc_step {N : Nat} {s s' : State M} {t : Nat} (h : Acc s) (hs : Step N s t s') : Acc s' := by
  cases hs
  case put m g hp =>
    intro u
    have := h u
    unfold logOf accepted at *
    simp only [State.to, State.setSl, upd, msgs, List.filter_append, List.map_append] at *
    by_cases e : u = t
    · subst e; rw [this, hp]; simp [PC.flight]
    · simp [e, Ne.symm e, this]
  case put2 m hp =>
    intro u
    have := h u
    unfold logOf accepted at *
    simp only [State.to, upd, msgs, List.filter_append, List.map_append] at *
    by_cases e : u = t
    · subst e; rw [this, hp]; simp [PC.flight]
    · simp [e, Ne.symm e, this]
  case rot1' m g hp =>
    intro u
    have := h u
    unfold logOf accepted at *
    simp only [State.to, upd, msgs, List.filter_append, List.map_append] at *
    by_cases e : u = t
    · subst e; rw [this, hp]; simp [PC.flight]
    · simp [e, this]
  case rec2 g k hp => exact acc_same h rfl rfl rfl (by rw [hp]; cases k <;> rfl)
  all_goals exact acc_same h rfl rfl rfl (by simp [*, PC.flight])

/-! ## Lookups -/

/-- `L` is what a lookup that started after `n` messages and read generation `g` may see. -/
structure Snap (s : State M) (n g : Nat) (L : List (Entry M)) : Prop where
  pre : L <+: s.log
  len : n ≤ L.length
  le : ∀ e ∈ L, e.1 ≤ g
  ge : ∀ e ∈ s.log.drop L.length, g ≤ e.1

def fromGen (l : List (Entry M)) (g : Nat) : List M := msgs (l.filter (g ≤ ·.1))

def Seen (s : State M) (n : Nat) (P : List M → Prop) : Prop := ∃ L, L <+: s.log ∧ n ≤ L.length ∧ P (msgs L)

def LKok (s : State M) : PC M → Prop
  | .lk0 n | .lk1 n => n ≤ s.log.length
  | .lk2 n g => ∃ L, Snap s n g L
  | .lk3 n g _ j obs | .lk4 n g _ j obs _ => s.ret ≤ g ∧ j ≤ g + 1 ∧ ∃ L, Snap s n g L ∧ obs = fromGen L j
  | .lk5 n obs => ∃ L, L <+: s.log ∧ n ≤ L.length ∧ (∀ e ∈ s.log.drop L.length, s.ret ≤ e.1) ∧ obs = fromGen L s.ret
  | .lk6 n obs r => Seen s n (r ++ obs = ·)
  | .lk7 n obs => Seen s n (obs <:+ ·)
  | .lk8 n obs => Seen s n (obs = ·)
  | _ => True

structure Look (s : State M) : Prop where
  pcs : ∀ t, LKok s (s.pc t)
  res : ∀ n c obs, (n, c, obs) ∈ s.results → Seen s n (fun l => obs <:+ l ∧ (c = true → obs = l))

/-- The log is the same or has one more message. -/
def Grow (s s' : State M) : Prop := s'.log = s.log ∨ ∃ t m, s'.log = s.log ++ [(s.gen, t, m)]

theorem grow_prefix {s s' : State M} (h : Grow s s') {L : List (Entry M)} (hL : L <+: s.log) : L <+: s'.log := by
  rcases h with h | ⟨t, m, h⟩ <;> rw [h]
  · exact hL
  · exact hL.trans (List.prefix_append _ _)

theorem grow_drop {s s' : State M} (h : Grow s s') {L : List (Entry M)} (hL : L <+: s.log) {g : Nat} (hg : g ≤ s.gen) (hd : ∀ e ∈ s.log.drop L.length, g ≤ e.1) : ∀ e ∈ s'.log.drop L.length, g ≤ e.1 := by
  rcases h with h | ⟨t, m, h⟩ <;> rw [h]
  · exact hd
  · rw [List.drop_append_of_le_length hL.length_le]
    intro e he
    rw [List.mem_append, List.mem_singleton] at he
    rcases he with he | rfl
    · exact hd e he
    · exact hg

theorem snap_grow {s s' : State M} (h : Grow s s') {n g : Nat} {L : List (Entry M)} (hg : g ≤ s.gen) (hs : Snap s n g L) : Snap s' n g L :=
  ⟨grow_prefix h hs.pre, hs.len, hs.le, grow_drop h hs.pre hg hs.ge⟩

theorem seen_grow {s s' : State M} (h : Grow s s') {n : Nat} {P : List M → Prop} (hs : Seen s n P) : Seen s' n P := by
  obtain ⟨L, h1, h2, h3⟩ := hs
  exact ⟨L, grow_prefix h h1, h2, h3⟩

/-- Other threads. -/
theorem lkok_grow {N : Nat} {s s' : State M} (h : Grow s s') {p : PC M} (ok : PCok N s p) (lk : LKok s p) (hlow : s.ret ≤ s.gen) (hr : s'.ret = s.ret ∨ p.holdsLookup = false) : LKok s' p := by
  have hlen : s.log.length ≤ s'.log.length := (grow_prefix h (List.prefix_refl _)).length_le
  cases p <;> try trivial
  case lk0 n => exact Nat.le_trans lk hlen
  case lk1 n => exact Nat.le_trans lk hlen
  case lk2 n g => obtain ⟨L, hL⟩ := lk; exact ⟨L, snap_grow h ok.2 hL⟩
  case lk3 n g e j obs =>
    obtain ⟨h1, h2, L, hL, h3⟩ := lk
    rcases hr with hr | hr
    · exact ⟨hr ▸ h1, h2, L, snap_grow h ok.2.2.2 hL, h3⟩
    · cases hr
  case lk4 n g e j obs pk =>
    obtain ⟨h1, h2, L, hL, h3⟩ := lk
    rcases hr with hr | hr
    · exact ⟨hr ▸ h1, h2, L, snap_grow h ok.2.2.2.1 hL, h3⟩
    · cases hr
  case lk5 n obs =>
    obtain ⟨L, h1, h2, h3, h4⟩ := lk
    rcases hr with hr | hr
    · refine ⟨L, grow_prefix h h1, h2, ?_, ?_⟩ <;> rw [hr]
      · exact grow_drop h h1 hlow h3
      · exact h4
    · cases hr
  case lk6 n obs r => exact seen_grow h lk
  case lk7 n obs => exact seen_grow h lk
  case lk8 n obs => exact seen_grow h lk

theorem look_mk {N : Nat} {s s' : State M} {t : Nat} {p : PC M} (h : Inv N s) (hk : Look s) (hp : s'.pc = upd s.pc t p) (hg : Grow s s') (hr : s'.ret = s.ret ∨ ∀ u, (s.pc u).holdsLookup = false)
    (hres : ∀ n c obs, (n, c, obs) ∈ s'.results → (n, c, obs) ∈ s.results ∨ Seen s' n (fun l => obs <:+ l ∧ (c = true → obs = l))) (ht : LKok s' p) : Look s' := by
  refine ⟨fun u => ?_, fun n c obs hm => (hres n c obs hm).elim (fun hm => seen_grow hg (hk.res n c obs hm)) id⟩
  rw [hp]
  by_cases e : u = t
  · simpa [upd, e] using ht
  · simp only [upd, e, if_false]
    exact lkok_grow hg (h.pcs u) (hk.pcs u) h.core.low (hr.imp id (fun h => h u))

theorem look_same {N : Nat} {s s' : State M} {t : Nat} {p : PC M} (h : Inv N s) (hk : Look s) (hp : s'.pc = upd s.pc t p) (hg : Grow s s') (hr : s'.ret = s.ret ∨ ∀ u, (s.pc u).holdsLookup = false)
    (hres : s'.results = s.results) (ht : LKok s' p) : Look s' := look_mk h hk hp hg hr (fun _ _ _ hm => .inl (hres ▸ hm)) ht

theorem filter_le_prefix {l : List (Entry M)} (hs : l.Pairwise (fun a b => a.1 ≤ b.1)) (g : Nat) : l.filter (·.1 ≤ g) <+: l ∧ ∀ e ∈ l.drop (l.filter (·.1 ≤ g)).length, g ≤ e.1 := by
  induction l with
  | nil => exact ⟨List.prefix_refl _, by simp⟩
  | cons a l ih =>
    rw [List.pairwise_cons] at hs
    by_cases ha : a.1 ≤ g
    · rw [List.filter_cons_of_pos (by simpa using ha)]
      obtain ⟨h1, h2⟩ := ih hs.2
      exact ⟨(List.prefix_cons_inj a).mpr h1, by simpa using h2⟩
    · have : (a :: l).filter (·.1 ≤ g) = [] := by
        rw [List.filter_eq_nil_iff]
        intro e he
        rcases List.mem_cons.mp he with rfl | he
        · simpa using ha
        · have := hs.1 e he; simp; omega
      rw [this]
      refine ⟨List.nil_prefix, ?_⟩
      intro e he
      rcases List.mem_cons.mp he with rfl | he
      · omega
      · have := hs.1 e he; omega

/-- Going one generation back. -/
theorem from_pred {l : List (Entry M)} (hs : l.Pairwise (fun a b => a.1 ≤ b.1)) (g : Nat) : fromGen l g = inGen l g ++ fromGen l (g + 1) := by
  unfold fromGen inGen msgs
  rw [← List.map_append]
  congr 1
  induction l with
  | nil => rfl
  | cons a l ih =>
    rw [List.pairwise_cons] at hs
    have ih := ih hs.2
    rcases Nat.lt_trichotomy a.1 g with h | h | h
    · simpa [List.filter_cons, show ¬ g ≤ a.1 by omega, show ¬ a.1 = g by omega, show ¬ g + 1 ≤ a.1 by omega] using ih
    · simpa [List.filter_cons, show g ≤ a.1 by omega, h, show ¬ g + 1 ≤ a.1 by omega] using ih
    · have hnil : l.filter (·.1 = g) = [] := by
        rw [List.filter_eq_nil_iff]; intro e he; have := hs.1 e he; simp; omega
      rw [hnil] at ih
      simp only [List.filter_cons, show g ≤ a.1 by omega, show ¬ a.1 = g by omega, show g + 1 ≤ a.1 by omega, decide_true, decide_false, if_true, hnil]
      simpa using ih

theorem lt_from {l : List (Entry M)} (hs : l.Pairwise (fun a b => a.1 ≤ b.1)) (g : Nat) : ltGen l g ++ fromGen l g = msgs l := by
  unfold fromGen ltGen msgs
  rw [← List.map_append]
  congr 1
  induction l with
  | nil => rfl
  | cons a l ih =>
    rw [List.pairwise_cons] at hs
    have ih := ih hs.2
    by_cases h : a.1 < g
    · simpa [List.filter_cons, h, show ¬ g ≤ a.1 by omega] using ih
    · have hnil : l.filter (·.1 < g) = [] := by
        rw [List.filter_eq_nil_iff]; intro e he; have := hs.1 e he; simp; omega
      rw [hnil] at ih
      simp only [List.filter_cons, h, show g ≤ a.1 by omega, decide_true, decide_false, if_true, hnil]
      simpa using ih

/-- Generations before `g` are complete in a snapshot. -/
theorem snap_in {s : State M} {L : List (Entry M)} (hp : L <+: s.log) {g j : Nat} (hd : ∀ e ∈ s.log.drop L.length, g ≤ e.1) (hj : j < g) : inGen s.log j = inGen L j := by
  obtain ⟨R, hR⟩ := hp
  have : s.log.drop L.length = R := by rw [← hR]; simp
  rw [this] at hd
  rw [← hR]
  unfold inGen msgs
  rw [List.filter_append, List.filter_eq_nil_iff (l := R) |>.mpr (fun e he => by have := hd e he; simp; omega), List.append_nil]

theorem snap_lt {s : State M} {L : List (Entry M)} (hp : L <+: s.log) {g : Nat} (hd : ∀ e ∈ s.log.drop L.length, g ≤ e.1) : ltGen s.log g = ltGen L g := by
  obtain ⟨R, hR⟩ := hp
  have : s.log.drop L.length = R := by rw [← hR]; simp
  rw [this] at hd
  rw [← hR]
  unfold ltGen msgs
  rw [List.filter_append, List.filter_eq_nil_iff (l := R) |>.mpr (fun e he => by have := hd e he; simp; omega), List.append_nil]

/-- Reading a memtable. -/
theorem read_slot {N : Nat} {s : State M} (c : Core N s) {n g j : Nat} {obs : List M} {L : List (Entry M)} (hs : Snap s n g L) (ho : obs = fromGen L j) (h1 : s.ret < j) (h2 : j ≤ g + 1) (h3 : g ≤ s.gen) :
    ∃ L', Snap s n g L' ∧ (s.sl N (j - 1)).data ++ obs = fromGen L' (j - 1) := by
  have hl := (c.live (j - 1) (by omega) (by omega)).2.2.1
  by_cases e : j = g + 1
  · subst e
    have hf := filter_le_prefix c.sorted g
    refine ⟨s.log.filter (·.1 ≤ g), ⟨hf.1, ?_, fun e he => by simpa using (List.mem_filter.mp he).2, hf.2⟩, ?_⟩
    · have hle : (L.filter (·.1 ≤ g)).length ≤ (s.log.filter (·.1 ≤ g)).length := (hs.pre.sublist.filter _).length_le
      rw [List.filter_eq_self.mpr (fun e he => by simpa using hs.le e he)] at hle
      exact Nat.le_trans hs.len hle
    · have hnil : fromGen L (g + 1) = [] := by
        unfold fromGen msgs
        rw [List.map_eq_nil_iff, List.filter_eq_nil_iff]
        intro e he; have := hs.le e he; simp; omega
      rw [ho, hnil, List.append_nil, hl]
      unfold inGen fromGen
      rw [List.filter_filter]
      congr 1
      apply List.filter_congr
      intro e _
      rw [Nat.add_sub_cancel, ← Bool.decide_and]
      congr 1
      rw [eq_iff_iff]
      omega
  · refine ⟨L, hs, ?_⟩
    have hsL : L.Pairwise (fun a b => a.1 ≤ b.1) := c.sorted.sublist hs.pre.sublist
    rw [ho, hl, snap_in hs.pre hs.ge (by omega : j - 1 < g), from_pred hsL (j - 1), show j - 1 + 1 = j by omega]

set_option maxHeartbeats 1000000 in
theorem look_step {N : Nat} {s s' : State M} {t : Nat} (h : Inv N s) (hl : Locks s) (hk : Look s) (hs : Step N s t s') : Look s' := by
  have ok := h.pcs t
  have lk := hk.pcs t
  have c := h.core
  cases hs
  case lookup hp => exact look_same h hk rfl (.inl rfl) (.inl rfl) rfl (Nat.le_refl _)
  case put m g hp =>
    rw [hp] at ok
    exact look_same h hk rfl (.inr ⟨t, m, by rw [← ok.1]; rfl⟩) (.inl rfl) rfl trivial
  case inc4 g nr hp => exact look_same h hk rfl (.inl rfl) (.inr (no_lookup hl (t := t) (by rw [hp]; rfl))) rfl trivial
  case rec2 g k hp => exact look_same h hk rfl (.inl rfl) (.inl rfl) rfl (by cases k <;> trivial)
  case lk0 n hp _ => rw [hp] at lk; exact look_same h hk rfl (.inl rfl) (.inl rfl) rfl lk
  case lk1 n hp =>
    rw [hp] at lk
    exact look_same h hk rfl (.inl rfl) (.inl rfl) rfl ⟨s.log, List.prefix_refl _, lk, c.logLe, by simp [State.to]⟩
  case lk2 n g hp =>
    rw [hp] at lk ok
    obtain ⟨L, hL⟩ := lk
    refine look_same h hk rfl (.inl rfl) (.inl rfl) rfl ⟨ok.1, Nat.le_refl _, L, ⟨hL.1, hL.2, hL.3, hL.4⟩, ?_⟩
    unfold fromGen msgs
    symm
    rw [List.map_eq_nil_iff, List.filter_eq_nil_iff]
    intro e he; have := hL.le e he; simp; omega
  case lk3 n g e obs hp =>
    rw [hp] at lk ok
    obtain ⟨h1, h2, L, hL, h3⟩ := lk
    refine look_same h hk rfl (.inl rfl) (.inl rfl) rfl ⟨L, hL.pre, hL.len, fun e he => Nat.le_trans h1 (hL.ge e he), ?_⟩
    rw [h3, ok.1]; rfl
  case lk3' n g e j obs hp _ _ =>
    rw [hp] at lk
    obtain ⟨h1, h2, L, hL, h3⟩ := lk
    exact look_same h hk rfl (.inl rfl) (.inl rfl) rfl ⟨h1, h2, L, ⟨hL.1, hL.2, hL.3, hL.4⟩, h3⟩
  case lk4 n g e j obs pk hp =>
    rw [hp] at lk ok
    obtain ⟨h1, h2, L, hL, h3⟩ := lk
    obtain ⟨o1, o2, o3, o4, o5⟩ := ok
    have hdata : (if pk then (s.sl N (j - 1)).cmt else (s.sl N (j - 1)).data) = (s.sl N (j - 1)).data := by
      cases pk
      · rfl
      · exact c.cmt _ (Nat.mod_lt _ (by have := c.two; omega)) (o5 rfl)
    rw [hdata]
    obtain ⟨L', hL', h4⟩ := read_slot c hL h3 (by omega) h2 o4
    refine look_same h hk rfl (.inl rfl) (.inl rfl) rfl ⟨L', hL'.pre, hL'.len, ?_⟩
    rw [h4, ← lt_from (c.sorted.sublist hL'.pre.sublist) (j - 1)]
    exact List.suffix_append _ _
  case lk4' n g e j obs pk hp =>
    rw [hp] at lk ok
    obtain ⟨h1, h2, L, hL, h3⟩ := lk
    obtain ⟨o1, o2, o3, o4, o5⟩ := ok
    have hdata : (if pk then (s.sl N (j - 1)).cmt else (s.sl N (j - 1)).data) = (s.sl N (j - 1)).data := by
      cases pk
      · rfl
      · exact c.cmt _ (Nat.mod_lt _ (by have := c.two; omega)) (o5 rfl)
    rw [hdata]
    obtain ⟨L', hL', h4⟩ := read_slot c hL h3 (by omega) h2 o4
    exact look_same h hk rfl (.inl rfl) (.inl rfl) rfl ⟨h1, by omega, L', ⟨hL'.1, hL'.2, hL'.3, hL'.4⟩, h4⟩
  case lk5 n obs hp =>
    rw [hp] at lk
    obtain ⟨L, h1, h2, h3, h4⟩ := lk
    have hr : s.root = ltGen s.log s.ret := by
      rcases h.root with hr | ⟨u, g, nr, hu⟩
      · exact hr
      · have := no_lookup hl (t := u) (by rw [hu]; rfl) t
        rw [hp] at this; cases this
    refine look_same h hk rfl (.inl rfl) (.inl rfl) rfl ⟨L, h1, h2, ?_⟩
    rw [hr, h4, snap_lt h1 h3]
    exact lt_from (c.sorted.sublist h1.sublist) s.ret
  case lk6 n obs r hp => rw [hp] at lk; exact look_same h hk rfl (.inl rfl) (.inl rfl) rfl lk
  case lk7 n obs hp =>
    rw [hp] at lk
    refine look_mk h hk rfl (.inl rfl) (.inl rfl) (fun n' c' obs' hm => ?_) trivial
    have hm : (n', c', obs') ∈ s.results ++ [(n, false, obs)] := hm
    rw [List.mem_append, List.mem_singleton] at hm
    rcases hm with hm | hm
    · exact .inl hm
    · injection hm with e1 e2
      injection e2 with e2 e3
      subst e1 e2 e3
      obtain ⟨L, h1, h2, h3⟩ := lk
      exact .inr ⟨L, h1, h2, h3, by simp⟩
  case lk8 n obs hp =>
    rw [hp] at lk
    refine look_mk h hk rfl (.inl rfl) (.inl rfl) (fun n' c' obs' hm => ?_) trivial
    have hm : (n', c', obs') ∈ s.results ++ [(n, true, obs)] := hm
    rw [List.mem_append, List.mem_singleton] at hm
    rcases hm with hm | hm
    · exact .inl hm
    · injection hm with e1 e2
      injection e2 with e2 e3
      subst e1 e2 e3
      obtain ⟨L, h1, h2, h3⟩ := lk
      exact .inr ⟨L, h1, h2, h3 ▸ List.suffix_refl _, fun _ => h3⟩
  all_goals exact look_same h hk rfl (.inl rfl) (.inl rfl) rfl trivial

theorem reach_acc {N : Nat} {s : State M} (h : Reachable N s) : Acc s := by
  induction h with
  | init => intro t; rfl
  | step t a h hs ih => exact acc_step ih (step_sound hs)
  | final h hi hn hf ih => obtain ⟨-, -, rfl⟩ := final_eq hf; exact ih

theorem reach_look {N : Nat} {s : State M} (hN : 2 ≤ N) (h : Reachable N s) : Look s := by
  induction h with
  | init => exact ⟨fun _ => trivial, fun _ _ _ h => (by cases h)⟩
  | step t a h hs ih => exact look_step (reach_inv hN h).2 (reach_inv hN h).1 ih (step_sound hs)
  | @final s s' h hi hn hf ih =>
    obtain ⟨-, -, rfl⟩ := final_eq hf
    refine ⟨fun t => ?_, ih.res⟩
    show LKok _ (s.pc t)
    exact lkok_grow (s := s) (by exact .inl rfl) ((reach_inv hN h).2.pcs t) (ih.pcs t) (reach_inv hN h).2.core.low (by exact .inl rfl)

/-! ## The tree is always a prefix of the generations -/

def RootOk (s : State M) : Prop := s.root = ltGen s.log s.ret ∨ (s.root = ltGen s.log (s.ret - 1) ∧ 0 < s.ret)

theorem rootOk_step {N : Nat} {s s' : State M} {t : Nat} (h : Inv N s) (hr : RootOk s) (hs : Step N s t s') : RootOk s' := by
  have ok := h.pcs t
  have c := h.core
  cases hs
  case put m g hp =>
    rw [hp] at ok
    have hlow := c.low
    unfold RootOk at *
    simp only [State.to, State.setSl]
    rw [ltGen_append _ _ _ _ _ (by have := ok.1; omega), ltGen_append _ _ _ _ _ (by have := ok.1; omega)]
    exact hr
  case inc4 g nr hp =>
    right
    refine ⟨?_, Nat.succ_pos _⟩
    show s.root = ltGen s.log (s.ret + 1 - 1)
    rw [Nat.add_sub_cancel]
    rcases h.root with hr | ⟨u, g', nr', hu⟩
    · exact hr
    · have : u = t := h.incs u t (by rw [hu]; rfl) (by rw [hp]; rfl)
      rw [this, hp] at hu
      cases hu
  case inc5 g nr hp =>
    rw [hp] at ok
    left
    show nr = ltGen s.log s.ret
    rw [ok.2.2.2.2.2, ok.1]
  all_goals exact hr

theorem reach_root {N : Nat} {s : State M} (hN : 2 ≤ N) (h : Reachable N s) : RootOk s := by
  induction h with
  | init => exact .inl rfl
  | step t a h hs ih => exact rootOk_step (reach_inv hN h).2 ih (step_sound hs)
  | final h hi hn hf ih => obtain ⟨-, -, rfl⟩ := final_eq hf; exact ih

/-! ## Memtables that have never been used -/

def Fresh (N : Nat) (s : State M) : Prop := ∀ i, i < N → (s.slots i).gen = i → s.gen < i → (s.slots i).st = .ready

theorem fresh_mk {N : Nat} {s s' : State M} (h : Fresh N s) (e : s.gen ≤ s'.gen)
    (hs : ∀ i, i < N → (s'.slots i).gen = i → s.gen < i → (s.slots i).gen = i ∧ ((s'.slots i).st = (s.slots i).st ∨ (s'.slots i).st = .ready)) : Fresh N s' := by
  intro i hi hg hlt
  obtain ⟨h1, h2⟩ := hs i hi hg (by omega)
  rcases h2 with h2 | h2
  · rw [h2]; exact h i hi h1 (by omega)
  · exact h2

theorem fresh_set {N : Nat} {s s' : State M} {g : Nat} {x : Slot M} (h : Fresh N s) (e1 : s'.slots = upd s.slots (g % N) x) (e2 : s'.gen = s.gen) (hx : x.gen = (s.sl N g).gen)
    (hle : x.st = (s.sl N g).st ∨ x.st = .ready ∨ (s.sl N g).gen ≤ s.gen) : Fresh N s' := by
  refine fresh_mk h (by omega) fun i hi hg hlt => ?_
  rw [e1] at hg ⊢
  unfold upd at hg ⊢
  by_cases e : i = g % N
  · rw [if_pos e] at hg ⊢
    have e' : s.slots i = s.sl N g := by rw [e]; rfl
    rw [e', ← hx]
    refine ⟨hg, ?_⟩
    rcases hle with h1 | h1 | h1
    · exact .inl h1
    · exact .inr h1
    · omega
  · rw [if_neg e] at hg ⊢; exact ⟨hg, .inl rfl⟩

theorem fresh_step {N : Nat} {s s' : State M} {t : Nat} (h : Inv N s) (hr : Fresh N s) (hs : Step N s t s') : Fresh N s' := by
  have ok := h.pcs t
  have c := h.core
  have hlow := c.low
  cases hs
  case rec1 g k hp =>
    rw [hp] at ok
    refine fresh_mk hr (Nat.le_refl _) fun i hi hg hlt => ?_
    simp only [State.to, State.setSl, upd] at hg ⊢
    by_cases e : i = g % N
    · rw [if_pos e] at hg
      have : (s.sl N g).gen + N = i := hg
      omega
    · rw [if_neg e] at hg ⊢; exact ⟨hg, .inl rfl⟩
  case rot5 m g hp h1 h2 => exact fresh_mk hr (Nat.le_succ _) fun i hi hg hlt => ⟨hg, .inl rfl⟩
  all_goals first
    | exact hr
    | (rename_i hp
       rw [hp] at ok
       simp only [PCok] at ok
       refine fresh_set hr (by exact rfl) (by exact rfl) (by exact rfl) (by first | exact .inl rfl | exact .inr (.inl rfl) | (right; right; omega)))
    | (rename_i hp _ _ _
       rw [hp] at ok
       simp only [PCok] at ok
       refine fresh_set hr (by exact rfl) (by exact rfl) (by exact rfl) (by first | exact .inl rfl | exact .inr (.inl rfl) | (right; right; omega)))
    | refine fresh_set hr (by exact rfl) (by exact rfl) (by exact rfl) (by first | exact .inl rfl | exact .inr (.inl rfl))

theorem reach_fresh {N : Nat} {s : State M} (hN : 2 ≤ N) (h : Reachable N s) : Fresh N s := by
  induction h with
  | init => intro i _ _ _; rfl
  | step t a h hs ih => exact fresh_step (reach_inv hN h).2 ih (step_sound hs)
  | @final s s' h hi hn hf ih =>
    obtain ⟨-, -, rfl⟩ := final_eq hf
    have c := (reach_inv hN h).2.core
    refine fresh_mk ih (Nat.le_succ _) fun i hi hg hlt => ?_
    simp only [State.setSl, upd] at hg ⊢
    by_cases e : i = s.gen % N
    · rw [if_pos e] at hg
      have h1 : (s.sl N s.gen).gen = i := hg
      have h2 := (c.live s.gen c.low (Nat.le_refl _)).1
      omega
    · rw [if_neg e] at hg ⊢; exact ⟨hg, .inl rfl⟩

end Splinter.Memtable
