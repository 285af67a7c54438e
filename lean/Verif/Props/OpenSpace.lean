import Verif.Proof.OpenSpace

/-
C66: opening and closing a table uses up no space, unless it has a log.
-/

namespace Splinter.OpenSpace

/-! ### Statement -/

/-- Closing a table gives back what opening it took. -/
def SameSpace (d : Disk) (c : Cfg) : Prop :=
  ∀ h r t s, mount d c h r = some (t, s) → unmount t s = some r

/-- Extents a session keeps for good. -/
def kept (c : Cfg) (w : Nat) : Nat := if c.useLog then 2 + w else 0

/-- Extents a session needs at once. -/
def need (c : Cfg) (w : Nat) : Nat := 9 * c.mts + 8 + kept c w

/-! ### Devices -/

/-- The scan from the first extent is one of the scans the theorems are about. -/
theorem first_scans (n : Nat) : (first n).Scans := by
  refine ⟨?_, ?_⟩
  · intro r e h
    have h1 := List.find?_some h
    have h2 := List.mem_of_find?_eq_some h
    exact ⟨List.mem_range.mp h2, by simpa using h1⟩
  · intro r h e he
    have := List.find?_eq_none.mp h e (List.mem_range.mpr he)
    simpa using this

/-! ### Without a log -/

/-- **C66.** Without a log, closing gives back exactly what opening took: every
count is as before, whatever the counts were and whichever free extents the scan
chose. -/
theorem reopen_same {d : Disk} (hd : d.Scans) {c : Cfg} (hc : c.useLog = false) :
    SameSpace d c := by
  intro h r t s hm
  obtain ⟨a1, a2, a3, a4, _⟩ := mount_spec hd hm
  have hl : t.logOwn = [] := by
    rw [hc] at a3; simpa using a3
  have := a1.took
  rw [hl, List.append_nil] at this
  rw [unmount_spec (tr := []) (by simpa using a1) a2, this.clear]

/-! ### With or without -/

/-- A session takes, for good, nothing without a log, and with one, two extents
and those the log filled. It changes no count of an extent in use. -/
theorem session_used {d : Disk} (hd : d.Scans) {c : Cfg} {h w : Nat} {r r' : Refs}
    (hs : session d c h w r = some r') :
    used d.n r' = used d.n r + kept c w ∧ ∀ e, r e ≠ 0 → r' e = r e := by
  unfold session at hs
  split at hs
  · cases hs
  · rename_i t s hm
    split at hs
    · cases hs
    · rename_i t' s' hf
      obtain ⟨a1, a2, a3, a4, _⟩ := mount_spec hd hm
      obtain ⟨b1, b2, b3, b4, b5, b6, _⟩ := logFill_spec hd w a1 hf
      rw [← b3] at b1 a2
      have hu := unmount_spec (tr := []) (by simpa using b1)
        (fun e he => by rw [b6 e (by rw [a2 e he]; decide), a2 e he])
      rw [hu] at hs
      cases hs
      have ht := b1.took
      rw [← List.append_assoc] at ht
      have ht := ht.give
      refine ⟨?_, fun e he => ht.keep he⟩
      rw [ht.used, b5, a3, a4, kept]
      split <;> simp

/-- A session with room for what it needs completes: no assertion fails in
opening or closing. -/
theorem session_ok {d : Disk} (hd : d.Scans) {c : Cfg} (h w : Nat) {r : Refs}
    (hr : used d.n r + need c w ≤ d.n) : ∃ r', session d c h w r = some r' := by
  have hk : (if c.useLog then 2 else 0) ≤ kept c w := by
    unfold kept; split <;> omega
  unfold need at hr
  obtain ⟨t, s, hm⟩ := mount_some hd (c := c) h (r := r) (by omega)
  obtain ⟨a1, a2, a3, a4, a5, a6⟩ := mount_spec hd hm
  have hfill : ∀ (w : Nat) (t : Table) (s : Refs), Live d.n r t s t.trunk.next →
      (∀ m, t.log = some m → m.next.length = 1) →
      used d.n s + (if t.log.isSome then w else 0) ≤ d.n →
      ∃ t' s', logFill d w t s = some (t', s') := by
    intro w
    induction w with
    | zero => intro t s _ _ _; exact ⟨t, s, rfl⟩
    | succ w ih =>
      intro t s hl hn hu
      cases ht : t.log with
      | none => exact ⟨t, s, by unfold logFill; simp only [ht]⟩
      | some m =>
        simp only [ht, Option.isSome_some, if_true] at hu
        obtain ⟨x, xs, hx⟩ : ∃ x xs, m.next = x :: xs := by
          have := hn m ht
          cases hmn : m.next with
          | nil => rw [hmn] at this; simp at this
          | cons x xs => exact ⟨x, xs, rfl⟩
        obtain ⟨e, s1, h1⟩ := alloc_some hd (r := s) (by omega)
        have htk : miniTake d m s =
            some ({ m with next := e :: xs, entries := x :: m.entries }, s1) := by
          unfold miniTake; simp only [hx, h1]
        have h1' : logFill d 1 t s =
            some ({ t with log := some { m with next := e :: xs, entries := x :: m.entries } }, s1) := by
          simp only [logFill, ht, htk]
        obtain ⟨b1, _⟩ := logFill_spec hd 1 hl h1'
        obtain ⟨c1, c2, c3⟩ := alloc_spec hd h1
        have hus : used d.n s1 = used d.n s + 1 := by
          rw [c3]; exact (Took.one c1 c2 (v := 2) (by decide)).used
        obtain ⟨t', s', h'⟩ := ih _ s1 b1 (by
          intro y hy
          cases hy
          have := hn m ht
          rw [hx] at this
          simpa using this) (by
          simp only [Option.isSome_some, if_true]; omega)
        exact ⟨t', s', by unfold logFill; simp only [ht, htk]; exact h'⟩
  have hlog : ∀ m, t.log = some m → m.next.length = 1 := fun m hmm => (mount_log hd hm hmm).1
  have hut := a1.took.used
  simp only [List.length_append, a3, a5, a6] at hut
  obtain ⟨t', s', hf⟩ := hfill w t s a1 hlog (by
    rw [hut, a4]
    unfold kept at hr
    split <;> simp_all <;> omega)
  obtain ⟨b1, b2, b3, b4, b5, b6, _⟩ := logFill_spec hd w a1 hf
  rw [← b3] at b1 a2
  have hu := unmount_spec (tr := []) (by simpa using b1)
    (fun e he => by rw [b6 e (by rw [a2 e he]; decide), a2 e he])
  exact ⟨_, by unfold session; simp only [hm, hf]; exact hu⟩

/-- Without a log a table can be opened and closed any number of times. -/
theorem sessions_any {d : Disk} (hd : d.Scans) {c : Cfg} (hc : c.useLog = false) (h : Nat)
    (ws : List Nat) {r : Refs} (hr : used d.n r + (9 * c.mts + 8) ≤ d.n) :
    ∃ r', sessions d c h ws r = some r' ∧ used d.n r' = used d.n r ∧
      ∀ e, r e ≠ 0 → r' e = r e := by
  induction ws generalizing r with
  | nil => exact ⟨r, rfl, rfl, fun _ _ => rfl⟩
  | cons w ws ih =>
    have hk : kept c w = 0 := by simp [kept, hc]
    obtain ⟨s, hs⟩ := session_ok hd h w (c := c) (r := r) (by unfold need; omega)
    obtain ⟨h1, h2⟩ := session_used hd hs
    obtain ⟨r', i1, i2, i3⟩ := ih (r := s) (by omega)
    refine ⟨r', by unfold sessions; simp only [hs]; exact i1, by omega, ?_⟩
    intro e he
    rw [i3 e (by rw [h2 e he]; exact he), h2 e he]

/-! ### With a log -/

/-- What sessions with a log keep adds up. -/
theorem sessions_used {d : Disk} (hd : d.Scans) {c : Cfg} (hc : c.useLog = true) {h : Nat}
    (ws : List Nat) {r r' : Refs} (hs : sessions d c h ws r = some r') :
    used d.n r' = used d.n r + 2 * ws.length + ws.sum := by
  induction ws generalizing r with
  | nil => cases hs; simp
  | cons w ws ih =>
    unfold sessions at hs
    split at hs
    · cases hs
    · rename_i s h1
      have h2 := (session_used hd h1).1
      have h3 := ih hs
      have hk : kept c w = 2 + w := by simp [kept, hc]
      simp only [List.length_cons, List.sum_cons]
      omega

/-- **C66, the exception.** With a log, opening and closing alone fills the
device: after half as many sessions as there are extents, even if nothing is
ever written, an assertion fails. -/
theorem sessions_fail {d : Disk} (hd : d.Scans) {c : Cfg} (hc : c.useLog = true) (h : Nat)
    (ws : List Nat) (r : Refs) (hw : d.n < 2 * ws.length) : sessions d c h ws r = none := by
  cases hs : sessions d c h ws r with
  | none => rfl
  | some r' =>
    have h1 := sessions_used hd hc ws hs
    have h2 := used_le d.n r'
    omega

/-- With a log the statement is false on every device with room for one
session. -/
theorem not_sameSpace {d : Disk} (hd : d.Scans) {c : Cfg} (hc : c.useLog = true)
    (hn : need c 0 ≤ d.n) : ¬ SameSpace d c := by
  intro h
  have h0 : used d.n (fun _ => 0) = 0 := by
    induction d.n with
    | zero => rfl
    | succ n ih => simp only [used, ih]; rfl
  obtain ⟨t, s, hm⟩ := mount_some hd (c := c) 0 (r := fun _ => 0) (by
    unfold need kept at hn; rw [h0]; simp only [hc, if_true] at hn ⊢; omega)
  have h1 := h 0 _ t s hm
  have h2 := session_used hd (c := c) (h := 0) (w := 0) (r := fun _ => 0) (r' := fun _ => 0) (by
    unfold session; simp only [hm, logFill]; exact h1)
  simp [kept, hc] at h2

/-- Dropping the log as the tests do (`shard_log_zap`) would still lose one extent a
session: the one waiting for the batch. -/
theorem zap_used {d : Disk} (hd : d.Scans) {c : Cfg} (hc : c.useLog = true) {h : Nat}
    {r s : Refs} {t : Table} (hm : mount d c h r = some (t, s)) :
    ∃ s1 s2, unmount t s = some s1 ∧ logZap t s1 = some s2 ∧
      used d.n s2 = used d.n r + 1 := by
  obtain ⟨a1, a2, a3, a4, _⟩ := mount_spec hd hm
  have hu := unmount_spec (tr := []) (by simpa using a1) a2
  have ht := a1.took
  rw [← List.append_assoc] at ht
  have ht := ht.give
  rw [hc] at a4
  obtain ⟨m, hmm⟩ := Option.isSome_iff_exists.mp a4
  have ho : t.logOwn = m.own := by simp [Table.logOwn, hmm]
  rw [ho] at ht a3
  have hr := a1.log m hmm
  have hdis : ∀ e, e ∈ m.own → e ∉ owns t.mts ++ t.trunk.next := by
    have hn := a1.took.nodup
    rw [← List.append_assoc, List.nodup_append, ho] at hn
    exact fun e he h' => hn.2.2 e h' e he rfl
  have hr1 : Ready m (clear (owns t.mts ++ t.trunk.next) s) :=
    hr.keep (fun e he => by simp only [clear, hdis e he, if_false])
  have hn := hr1.nodup
  simp only [Mini.own, List.nodup_cons, List.nodup_append, List.mem_append, not_or] at hn
  have hz := miniDec_spec (m := m) (by rw [List.nodup_cons]; exact ⟨hn.1.2, hn.2.2.1⟩)
    hr1.head hr1.entries
  refine ⟨_, _, hu, by unfold logZap; simp only [hmm]; exact hz, ?_⟩
  have hp : m.own.Perm ((m.head :: m.entries) ++ m.next) := by
    simp only [Mini.own, List.cons_append]
    exact List.Perm.cons _ List.perm_append_comm
  have h2 := (ht.perm hp).give
  rw [h2.used]
  rw [(mount_log hd hm hmm).1]

/-- Releasing the log's allocator first and then dropping the log would give back
everything, however much the log filled. -/
theorem release_zap_same {d : Disk} (hd : d.Scans) {c : Cfg} {h w : Nat}
    {r s s' : Refs} {t t' : Table} {m : Mini} (hm : mount d c h r = some (t, s))
    (hf : logFill d w t s = some (t', s')) (hl : t'.log = some m) :
    ∃ s1 s2, unmount t' s' = some s1 ∧ miniRelease m s1 = some s2 ∧
      logZap t' s2 = some r := by
  obtain ⟨a1, a2, a3, a4, _⟩ := mount_spec hd hm
  obtain ⟨b1, b2, b3, b4, b5, b6, _⟩ := logFill_spec hd w a1 hf
  rw [← b3] at b1 a2
  have hu := unmount_spec (tr := []) (by simpa using b1)
    (fun e he => by rw [b6 e (by rw [a2 e he]; decide), a2 e he])
  have ho : t'.logOwn = m.own := by simp [Table.logOwn, hl]
  have ht := b1.took
  rw [← List.append_assoc, ho] at ht
  have hn := ht.nodup
  rw [List.nodup_append] at hn
  have hr1 : Ready m (clear (owns t'.mts ++ t'.trunk.next) s') :=
    (b1.log m hl).keep (fun e he => by
      have : e ∉ owns t'.mts ++ t'.trunk.next := fun h' => hn.2.2 e h' e he rfl
      simp only [clear, this, if_false])
  have h1 := memtableDeinit_spec hr1
  rw [memtableDeinit, miniRelease_spec hr1] at h1
  refine ⟨_, _, hu, miniRelease_spec hr1, ?_⟩
  unfold logZap
  simp only [hl]
  simp only at h1
  rw [h1, ht.give.clear]

/-! ### Creating and destroying -/

/-- Destroying a table just created gives back everything but what its log
took. -/
theorem create_destroy {d : Disk} (hd : d.Scans) {c : Cfg} {r s : Refs} {t : Table}
    (hm : create d c r = some (t, s)) :
    ∃ s', destroy t s = some s' ∧ used d.n s' = used d.n r + kept c 0 ∧
      (c.useLog = false → s' = r) := by
  unfold create at hm
  split at hm
  · cases hm
  · rename_i t0 s0 h0
    split at hm
    · cases hm
    · rename_i ms s1 h1
      split at hm
      · cases hm
      · rename_i l s2 h2
        split at hm
        · cases hm
        · rename_i t1 s3 h3
          cases hm
          obtain ⟨_, p2, p3, _⟩ := miniNew_spec hd h0
          obtain ⟨_, a2, a3⟩ := memtables_spec hd _ h1
          obtain ⟨c1, c2, c3⟩ := logOpen_spec hd h2 { mts := ms, trunk := t1, log := l } rfl
          have r2 : Ready t0 s2 := (p3.keep (fun e he => a2.keep (p3.pos he))).keep
            (fun e he => c1.keep (by rw [a2.keep (p3.pos he)]; exact p3.pos he))
          obtain ⟨e, q1, q2, q3, _⟩ := miniTake_spec hd h3 r2
          have hall : Took d.n r s (owns ms ++ (t1.own ++
              Table.logOwn { mts := ms, trunk := t1, log := l })) := by
            refine (((p2.trans a2).trans c1).trans q1).perm ?_
            refine List.Perm.trans ?_ (List.Perm.append_left _ (List.Perm.append_right _ q3.symm))
            generalize Table.logOwn { mts := ms, trunk := t1, log := l } = lo
            rw [List.perm_iff_count]
            intro x
            simp only [List.count_append]
            omega
          have hmts : ∀ m, m ∈ ms → Ready m s := fun m hm =>
            (a3 m hm).keep (fun x hx => by
              have h1 := c1.keep ((a3 m hm).pos hx)
              rw [q1.keep (by rw [h1]; exact (a3 m hm).pos hx), h1])
          have hlog : ∀ m, l = some m → Ready m s := fun m hm =>
            (c2 m hm).keep (fun x hx => q1.keep ((c2 m hm).pos hx))
          have hperm : t1.own.Perm (t1.next ++ (t1.head :: t1.entries)) := by
            simp only [Mini.own]
            exact List.perm_middle.symm
          have hlive : Live d.n r { mts := ms, trunk := t1, log := l } s
              (t1.next ++ (t1.head :: t1.entries)) :=
            ⟨hall.perm (List.Perm.append_left _ (List.Perm.append_right _ hperm)), hmts, hlog⟩
          have hu := unmount_spec hlive q2.next
          have hn := hlive.took.nodup
          have ht := hlive.took
          rw [List.append_assoc, ← List.append_assoc] at hn ht
          rw [List.nodup_append, List.nodup_append (l₁ := t1.head :: t1.entries)] at hn
          have hk : ∀ x, x ∈ t1.head :: t1.entries →
              clear (owns ms ++ t1.next) s x = s x := fun x hx => by
            have : x ∉ owns ms ++ t1.next := fun h' =>
              hn.2.2 x h' x (List.mem_append.mpr (Or.inl hx)) rfl
            simp only [clear, this, if_false]
          have hz := miniDec_spec (m := t1) (r := clear (owns ms ++ t1.next) s) hn.2.1.1
            (by rw [hk _ (by simp), q2.head])
            (fun x hx => by rw [hk _ (by simp [hx]), q2.entries x hx])
          refine ⟨_, by unfold destroy; simp only [hu]; exact hz, ?_, ?_⟩
          · rw [ht.give.give.used, c3, kept]
          · intro hc
            have h4 := ht.give.give
            rw [hc] at c3
            have hlo : Table.logOwn { mts := ms, trunk := t1, log := l } = [] := by
              simpa using c3
            rw [hlo] at h4
            funext x
            exact h4.same x (by simp)

/-! ### Witnesses -/

/-- A device of 40 extents with a table in extents 0 and 1. -/
def demo : Refs := fun e => if e = 0 then 3 else if e = 1 then 2 else 0

example : (session (first 40) ⟨2, false⟩ 0 0 demo).map (used 40) = some 2 := by decide +kernel

example : (session (first 40) ⟨2, true⟩ 0 0 demo).map (used 40) = some 4 := by decide +kernel

example : (session (first 40) ⟨2, true⟩ 0 3 demo).map (used 40) = some 7 := by decide +kernel

example : (sessions (first 40) ⟨2, true⟩ 0 [0, 0, 0, 0, 0] demo).map (used 40) = some 12 := by
  decide +kernel

example : sessions (first 40) ⟨2, true⟩ 0 [0, 0, 0, 0, 0, 0, 0] demo = none := by
  cases h : sessions (first 40) ⟨2, true⟩ 0 [0, 0, 0, 0, 0, 0, 0] demo with
  | none => rfl
  | some r =>
    have : (sessions (first 40) ⟨2, true⟩ 0 [0, 0, 0, 0, 0, 0, 0] demo).isSome = false := by
      decide +kernel
    rw [h] at this
    cases this

example : ((create (first 40) ⟨2, true⟩ (fun _ => 0)).bind
    (fun p => destroy p.1 p.2)).map (used 40) = some 2 := by decide +kernel

/-- The hypotheses of `session_ok`, `sessions_any` and `not_sameSpace`. -/
example : (first 40).Scans ∧ used (first 40).n demo + need ⟨2, true⟩ 3 ≤ (first 40).n ∧
    used (first 40).n demo + (9 * 2 + 8) ≤ (first 40).n ∧ need ⟨2, true⟩ 0 ≤ (first 40).n :=
  ⟨first_scans 40, by decide +kernel, by decide +kernel, by decide +kernel⟩

end Splinter.OpenSpace
