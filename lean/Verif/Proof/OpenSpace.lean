import Verif.Model.OpenSpace

/-
Lemmas for C66: what taking and giving back extents does to the counts.
-/

namespace Splinter.OpenSpace

/-! ### Counting -/

theorem upd_same (r : Refs) (e v : Nat) : upd r e v e = v := by simp [upd]

theorem upd_ne (r : Refs) {e x : Nat} (v : Nat) (h : x ≠ e) : upd r e v x = r x := by
  simp [upd, h]

theorem used_congr {n : Nat} {r s : Refs} (h : ∀ e, e < n → r e = s e) :
    used n r = used n s := by
  induction n with
  | zero => rfl
  | succ n ih =>
    simp only [used]
    rw [ih (fun e he => h e (by omega)), h n (by omega)]

theorem used_le (n : Nat) (r : Refs) : used n r ≤ n := by
  induction n with
  | zero => simp [used]
  | succ n ih => simp only [used]; split <;> omega

theorem used_full {n : Nat} {r : Refs} (h : ∀ e, e < n → r e ≠ 0) : used n r = n := by
  induction n with
  | zero => rfl
  | succ n ih =>
    simp only [used]
    rw [ih (fun e he => h e (by omega)), if_neg (h n (by omega))]

theorem used_one {n e : Nat} {r : Refs} (he : e < n) (hr : r e ≠ 0) :
    used n r = used n (upd r e 0) + 1 := by
  induction n with
  | zero => omega
  | succ n ih =>
    simp only [used]
    by_cases h : e = n
    · subst h
      rw [if_neg hr, upd_same, if_pos rfl]
      rw [used_congr (r := upd r e 0) (s := r) (fun x hx => upd_ne r 0 (by omega))]
    · rw [ih (by omega), upd_ne r 0 (fun h' => h h'.symm)]
      omega

theorem used_add {n : Nat} (l : List Nat) : ∀ (r r' : Refs), l.Nodup →
    (∀ e, e ∈ l → e < n ∧ r e = 0 ∧ r' e ≠ 0) → (∀ e, e ∉ l → r' e = r e) →
    used n r' = used n r + l.length := by
  induction l with
  | nil =>
    intro r r' _ _ h
    rw [used_congr (fun e _ => h e (by simp))]; rfl
  | cons a l ih =>
    intro r r' hn h hs
    have ha := h a (by simp)
    rw [List.nodup_cons] at hn
    rw [used_one ha.1 ha.2.2]
    rw [ih r (upd r' a 0) hn.2 ?_ ?_]
    · simp only [List.length_cons]; omega
    · intro e he
      have hne : e ≠ a := fun h' => hn.1 (h' ▸ he)
      rw [upd_ne _ _ hne]
      exact h e (by simp [he])
    · intro e he
      by_cases hne : e = a
      · subst hne; rw [upd_same, ha.2.1]
      · rw [upd_ne _ _ hne]
        exact hs e (by simp [hne, he])

/-! ### Taking extents -/

theorem alloc_spec {d : Disk} (hd : d.Scans) {r r' : Refs} {e : Nat}
    (h : alloc d r = some (e, r')) : e < d.n ∧ r e = 0 ∧ r' = upd r e 2 := by
  unfold alloc at h
  split at h
  · cases h
  · rename_i x hx
    cases h
    exact ⟨(hd.free r _ hx).1, (hd.free r _ hx).2, rfl⟩

theorem alloc_some {d : Disk} (hd : d.Scans) {r : Refs} (h : used d.n r < d.n) :
    ∃ e r', alloc d r = some (e, r') := by
  unfold alloc
  split
  · rename_i hx
    have := used_full (hd.full r hx)
    omega
  · exact ⟨_, _, rfl⟩

/-- `l` was taken, free before, and nothing else changed. -/
structure Took (n : Nat) (r r' : Refs) (l : List Nat) : Prop where
  nodup : l.Nodup
  fresh : ∀ e, e ∈ l → e < n ∧ r e = 0 ∧ r' e ≠ 0
  same : ∀ e, e ∉ l → r' e = r e

theorem Took.used {n : Nat} {r r' : Refs} {l : List Nat} (h : Took n r r' l) :
    used n r' = OpenSpace.used n r + l.length :=
  used_add l r r' h.nodup h.fresh h.same

theorem Took.nil (n : Nat) (r : Refs) : Took n r r [] :=
  ⟨by simp, by simp, fun _ _ => rfl⟩

theorem Took.trans {n : Nat} {r s t : Refs} {l m : List Nat} (h : Took n r s l)
    (k : Took n s t m) : Took n r t (l ++ m) := by
  have hdis : ∀ e, e ∈ l → e ∉ m := fun e he hm =>
    (h.fresh e he).2.2 (k.fresh e hm).2.1
  refine ⟨?_, ?_, ?_⟩
  · rw [List.nodup_append]
    exact ⟨h.nodup, k.nodup, fun a ha b hb hab => hdis a ha (hab ▸ hb)⟩
  · intro e he
    rcases List.mem_append.mp he with he | he
    · refine ⟨(h.fresh e he).1, (h.fresh e he).2.1, ?_⟩
      rw [k.same e (hdis e he)]
      exact (h.fresh e he).2.2
    · have hl : e ∉ l := fun hl => hdis e hl he
      refine ⟨(k.fresh e he).1, ?_, (k.fresh e he).2.2⟩
      rw [← h.same e hl]
      exact (k.fresh e he).2.1
  · intro e he
    rw [List.mem_append, not_or] at he
    rw [k.same e he.2, h.same e he.1]

/-- What was set before is kept by what is taken later. -/
theorem Took.keep {n : Nat} {s t : Refs} {m : List Nat} (k : Took n s t m) {e : Nat}
    (h : s e ≠ 0) : t e = s e :=
  k.same e (fun hm => h (k.fresh e hm).2.1)

theorem Took.one {n e v : Nat} {r : Refs} (he : e < n) (hr : r e = 0) (hv : v ≠ 0) :
    Took n r (upd r e v) [e] :=
  ⟨by simp, by intro x hx; simp at hx; subst hx; exact ⟨he, hr, by rw [upd_same]; exact hv⟩,
    by intro x hx; simp at hx; exact upd_ne _ _ hx⟩

theorem allocN_spec {d : Disk} (hd : d.Scans) (k : Nat) : ∀ {r r' : Refs} {l : List Nat},
    allocN d k r = some (l, r') →
    l.length = k ∧ Took d.n r r' l ∧ ∀ e, e ∈ l → r' e = 2 := by
  induction k with
  | zero =>
    intro r r' l h
    simp only [allocN, Option.some.injEq, Prod.mk.injEq] at h
    obtain ⟨rfl, rfl⟩ := h
    exact ⟨rfl, Took.nil _ _, by simp⟩
  | succ k ih =>
    intro r r' l h
    unfold allocN at h
    split at h
    · cases h
    · rename_i e s hs
      split at h
      · cases h
      · rename_i m t ht
        cases h
        obtain ⟨h1, h2, h3⟩ := alloc_spec hd hs
        subst h3
        obtain ⟨i1, i2, i3⟩ := ih ht
        have hk := (Took.one h1 h2 (v := 2) (by decide)).trans i2
        refine ⟨by simp [i1], hk, ?_⟩
        intro x hx
        rcases List.mem_cons.mp hx with rfl | hx
        · rw [i2.keep (by rw [upd_same]; decide), upd_same]
        · exact i3 x hx

theorem allocN_some {d : Disk} (hd : d.Scans) (k : Nat) : ∀ {r : Refs},
    used d.n r + k ≤ d.n → ∃ l r', allocN d k r = some (l, r') := by
  induction k with
  | zero => intro r _; exact ⟨_, _, rfl⟩
  | succ k ih =>
    intro r h
    obtain ⟨e, s, hs⟩ := alloc_some hd (r := r) (by omega)
    obtain ⟨h1, h2, h3⟩ := alloc_spec hd hs
    have hu : used d.n s = used d.n r + 1 := by
      rw [h3]; exact (Took.one h1 h2 (v := 2) (by decide)).used
    obtain ⟨l, t, ht⟩ := ih (r := s) (by omega)
    exact ⟨e :: l, t, by unfold allocN; simp only [hs, ht]⟩

/-- All extents of an allocator. -/
def Mini.own (m : Mini) : List Nat := m.head :: (m.next ++ m.entries)

/-- The counts a live allocator has on its extents. -/
structure Ready (m : Mini) (r : Refs) : Prop where
  nodup : m.own.Nodup
  head : r m.head = 3
  next : ∀ e, e ∈ m.next → r e = 2
  entries : ∀ e, e ∈ m.entries → r e = 2

theorem Ready.pos {m : Mini} {r : Refs} (h : Ready m r) {e : Nat} (he : e ∈ m.own) :
    r e ≠ 0 := by
  simp only [Mini.own, List.mem_cons, List.mem_append] at he
  rcases he with rfl | he | he
  · rw [h.head]; decide
  · rw [h.next e he]; decide
  · rw [h.entries e he]; decide

theorem Ready.keep {m : Mini} {r s : Refs} (h : Ready m r)
    (hs : ∀ e, e ∈ m.own → s e = r e) : Ready m s :=
  ⟨h.nodup, by rw [hs _ (by simp [Mini.own]), h.head],
    fun e he => by rw [hs _ (by simp [Mini.own, he]), h.next e he],
    fun e he => by rw [hs _ (by simp [Mini.own, he]), h.entries e he]⟩

theorem miniNew_spec {d : Disk} (hd : d.Scans) {k : Nat} {r r' : Refs} {m : Mini}
    (h : miniNew d k r = some (m, r')) :
    m.own.length = k + 1 ∧ Took d.n r r' m.own ∧ Ready m r' ∧ m.next.length = k := by
  unfold miniNew at h
  split at h
  · cases h
  · rename_i e s hs
    split at h
    · cases h
    · rename_i l t ht
      cases h
      obtain ⟨h1, h2, h3⟩ := alloc_spec hd hs
      have hu : upd s e 3 = upd r e 3 := by
        subst h3; funext x; simp only [upd]; split <;> rfl
      rw [hu] at ht
      obtain ⟨i1, i2, i3⟩ := allocN_spec hd _ ht
      have hk := (Took.one h1 h2 (v := 3) (by decide)).trans i2
      have hown : Mini.own { head := e, next := l, entries := [] } = [e] ++ l := by
        simp [Mini.own]
      refine ⟨by rw [hown]; simp [i1], by rw [hown]; exact hk, ⟨by rw [hown]; exact hk.nodup, ?_, i3, by simp⟩, i1⟩
      show r' e = 3
      rw [i2.keep (by rw [upd_same]; decide), upd_same]

theorem miniNew_some {d : Disk} (hd : d.Scans) {k : Nat} {r : Refs}
    (h : used d.n r + (k + 1) ≤ d.n) : ∃ m r', miniNew d k r = some (m, r') := by
  obtain ⟨e, s, hs⟩ := alloc_some hd (r := r) (by omega)
  obtain ⟨h1, h2, h3⟩ := alloc_spec hd hs
  have hu : upd s e 3 = upd r e 3 := by
    subst h3; funext x; simp only [upd]; split <;> rfl
  have hus : used d.n (upd s e 3) = used d.n r + 1 := by
    rw [hu]; exact (Took.one h1 h2 (v := 3) (by decide)).used
  obtain ⟨l, t, ht⟩ := allocN_some hd k (r := upd s e 3) (by omega)
  exact ⟨{ head := e, next := l, entries := [] }, t, by unfold miniNew; simp only [hs, ht]⟩

theorem miniTake_spec {d : Disk} (hd : d.Scans) {r r' : Refs} {m m' : Mini}
    (h : miniTake d m r = some (m', r')) (hr : Ready m r) :
    ∃ e, Took d.n r r' [e] ∧ Ready m' r' ∧ m'.own.Perm (m.own ++ [e]) ∧ m'.head = m.head ∧
      m'.next.length = m.next.length := by
  unfold miniTake at h
  split at h
  · cases h
  · rename_i x xs hx
    split at h
    · cases h
    · rename_i e s hs
      cases h
      obtain ⟨h1, h2, rfl⟩ := alloc_spec hd hs
      have ht := Took.one h1 h2 (v := 2) (by decide)
      have hp : (Mini.own { m with next := e :: xs, entries := x :: m.entries }).Perm
          (m.own ++ [e]) := by
        simp only [Mini.own, hx, List.cons_append]
        refine List.Perm.cons _ ?_
        have a1 : (xs ++ x :: m.entries).Perm (x :: (xs ++ m.entries)) :=
          List.perm_middle
        exact (List.Perm.cons e a1).trans
          ((List.perm_append_singleton e (x :: (xs ++ m.entries))).symm.trans (by simp))
      have hne : ∀ y, y ∈ m.own → y ≠ e := fun y hy h' => hr.pos hy (h' ▸ h2)
      refine ⟨e, ht, ⟨?_, ?_, ?_, ?_⟩, hp, rfl, by rw [hx]; rfl⟩
      · rw [hp.nodup_iff, List.nodup_append]
        exact ⟨hr.nodup, by simp, fun a ha b hb hab => hne a ha (by simp at hb; rw [hab, hb])⟩
      · show upd r e 2 m.head = 3
        rw [upd_ne _ _ (hne _ (by simp [Mini.own])), hr.head]
      · intro y hy
        rcases List.mem_cons.mp hy with rfl | hy
        · exact upd_same _ _ _
        · rw [upd_ne _ _ (hne y (by simp [Mini.own, hx, hy]))]
          exact hr.next y (by simp [hx, hy])
      · intro y hy
        rcases List.mem_cons.mp hy with rfl | hy
        · rw [upd_ne _ _ (hne y (by simp [Mini.own, hx]))]
          exact hr.next y (by simp [hx])
        · rw [upd_ne _ _ (hne y (by simp [Mini.own, hy]))]
          exact hr.entries y hy

/-- All extents of some allocators. -/
def owns (l : List Mini) : List Nat := l.flatMap Mini.own

theorem memtables_spec {d : Disk} (hd : d.Scans) (k : Nat) :
    ∀ {r r' : Refs} {l : List Mini}, memtables d k r = some (l, r') →
    (owns l).length = 9 * k ∧ Took d.n r r' (owns l) ∧ ∀ m, m ∈ l → Ready m r' := by
  induction k with
  | zero =>
    intro r r' l h
    simp only [memtables, Option.some.injEq, Prod.mk.injEq] at h
    obtain ⟨rfl, rfl⟩ := h
    exact ⟨rfl, Took.nil _ _, by simp⟩
  | succ k ih =>
    intro r r' l h
    unfold memtables at h
    split at h
    · cases h
    · rename_i m s hs
      split at h
      · cases h
      · rename_i l' t ht
        cases h
        obtain ⟨h1, h2, h3, _⟩ := miniNew_spec hd hs
        obtain ⟨i1, i2, i3⟩ := ih ht
        refine ⟨by simp only [owns, List.flatMap_cons, List.length_append] at i1 ⊢; omega,
          by simpa [owns] using h2.trans i2, ?_⟩
        intro x hx
        rcases List.mem_cons.mp hx with rfl | hx
        · exact h3.keep (fun e he => i2.keep (h3.pos he))
        · exact i3 x hx

theorem memtables_some {d : Disk} (hd : d.Scans) (k : Nat) : ∀ {r : Refs},
    used d.n r + 9 * k ≤ d.n → ∃ l r', memtables d k r = some (l, r') := by
  induction k with
  | zero => intro r _; exact ⟨_, _, rfl⟩
  | succ k ih =>
    intro r h
    obtain ⟨m, s, hs⟩ := miniNew_some hd (k := 8) (r := r) (by omega)
    obtain ⟨h1, h2, _⟩ := miniNew_spec hd hs
    have := h2.used
    obtain ⟨l, t, ht⟩ := ih (r := s) (by omega)
    exact ⟨m :: l, t, by unfold memtables; simp only [hs, ht]⟩

/-! ### Giving extents back -/

theorem free2_spec {e : Nat} {r : Refs} (h : r e = 2) : free2 e r = some (upd r e 0) := by
  have h0 : upd (upd r e 1) e 0 = upd r e 0 := by
    funext x; simp only [upd]; split <;> rfl
  simp only [free2, dec, h, if_true, upd_same]
  simp [h0]

/-- A list of extents set free. -/
def clear (l : List Nat) (r : Refs) : Refs := fun e => if e ∈ l then 0 else r e

theorem freeAll_spec (l : List Nat) : ∀ {r : Refs}, l.Nodup → (∀ e, e ∈ l → r e = 2) →
    freeAll l r = some (clear l r) := by
  induction l with
  | nil => intro r _ _; simp only [freeAll, Option.some.injEq]; funext x; simp [clear]
  | cons a l ih =>
    intro r hn h
    rw [List.nodup_cons] at hn
    unfold freeAll
    rw [free2_spec (h a (by simp))]
    simp only
    rw [ih hn.2 (fun e he => by
      rw [upd_ne _ _ (show e ≠ a from fun h' => hn.1 (h' ▸ he))]; exact h e (by simp [he]))]
    congr 1
    funext x
    simp only [clear, upd, List.mem_cons]
    by_cases h1 : x = a <;> by_cases h2 : x ∈ l <;> simp [h1, h2]

theorem miniRelease_spec {m : Mini} {r : Refs} (h : Ready m r) :
    miniRelease m r = some (clear m.next r) := by
  have hn := h.nodup
  simp only [Mini.own, List.nodup_cons, List.nodup_append] at hn
  exact freeAll_spec _ hn.2.1 h.next

theorem miniDec_spec {m : Mini} {r : Refs} (hn : (m.head :: m.entries).Nodup)
    (hh : r m.head = 3) (he : ∀ e, e ∈ m.entries → r e = 2) :
    miniDec m r = some (clear (m.head :: m.entries) r) := by
  rw [List.nodup_cons] at hn
  have h1 : dec m.head 2 r = some (upd r m.head 2) := by simp [dec, hh]
  have h2 : freeAll m.entries (upd r m.head 2) =
      some (clear m.entries (upd r m.head 2)) := by
    refine freeAll_spec _ hn.2 (fun e h => ?_)
    rw [upd_ne _ _ (show e ≠ m.head from fun h' => hn.1 (h' ▸ h))]
    exact he e h
  have h3 : clear m.entries (upd r m.head 2) m.head = 2 := by
    simp [clear, hn.1, upd]
  simp only [miniDec, h1, h2, free2_spec h3]
  congr 1
  funext x
  simp only [clear, upd, List.mem_cons]
  by_cases a : x = m.head <;> by_cases b : x ∈ m.entries <;> simp [a, b]

theorem clear_append (l m : List Nat) (r : Refs) : clear l (clear m r) = clear (m ++ l) r := by
  funext x
  simp only [clear, List.mem_append]
  by_cases a : x ∈ l <;> by_cases b : x ∈ m <;> simp [a, b]

theorem clear_congr {l m : List Nat} (h : ∀ e, e ∈ l ↔ e ∈ m) (r : Refs) :
    clear l r = clear m r := by
  funext x
  simp only [clear, h]

theorem memtableDeinit_spec {m : Mini} {r : Refs} (h : Ready m r) :
    memtableDeinit m r = some (clear m.own r) := by
  have hn := h.nodup
  simp only [Mini.own, List.nodup_cons, List.nodup_append, List.mem_append, not_or] at hn
  have hk : ∀ e, e ∉ m.next → clear m.next r e = r e := fun e he => by simp [clear, he]
  have h1 := miniDec_spec (m := m) (r := clear m.next r)
    (by rw [List.nodup_cons]; exact ⟨hn.1.2, hn.2.2.1⟩)
    (by rw [hk _ hn.1.1, h.head])
    (fun e he => by
      rw [hk e (fun h' => hn.2.2.2 e h' e he rfl), h.entries e he])
  simp only [memtableDeinit, miniRelease_spec h, h1, clear_append]
  congr 1
  exact clear_congr (fun e => by simp only [Mini.own, List.mem_append, List.mem_cons]; grind) r

theorem memtablesDestroy_spec (l : List Mini) : ∀ {r : Refs}, (owns l).Nodup →
    (∀ m, m ∈ l → Ready m r) → memtablesDestroy l r = some (clear (owns l) r) := by
  induction l with
  | nil => intro r _ _; simp only [memtablesDestroy, Option.some.injEq]; funext x; simp [clear, owns]
  | cons m l ih =>
    intro r hn h
    have hn' : (m.own ++ owns l).Nodup := by simpa [owns] using hn
    rw [List.nodup_append] at hn'
    unfold memtablesDestroy
    rw [memtableDeinit_spec (h m (by simp))]
    simp only
    rw [ih hn'.2.1 (fun x hx => (h x (by simp [hx])).keep (fun e he => by
      have : e ∉ m.own := fun hm => hn'.2.2 e hm e (by
        simp only [owns, List.mem_flatMap]; exact ⟨x, hx, he⟩) rfl
      simp [clear, this]))]
    rw [clear_append]
    simp [owns]

theorem Took.clear {n : Nat} {r s : Refs} {l : List Nat} (h : Took n r s l) :
    OpenSpace.clear l s = r := by
  funext x
  simp only [OpenSpace.clear]
  split
  · rename_i hx; exact (h.fresh x hx).2.1.symm
  · rename_i hx; exact h.same x hx

theorem Took.perm {n : Nat} {r s : Refs} {l m : List Nat} (h : Took n r s l)
    (p : l.Perm m) : Took n r s m :=
  ⟨p.nodup_iff.mp h.nodup, fun e he => h.fresh e (p.mem_iff.mpr he),
    fun e he => h.same e (fun h' => he (p.mem_iff.mp h'))⟩

/-- Giving a part back leaves the rest taken. -/
theorem Took.give {n : Nat} {r s : Refs} {a b : List Nat} (h : Took n r s (a ++ b)) :
    Took n r (OpenSpace.clear a s) b := by
  have hn := h.nodup
  rw [List.nodup_append] at hn
  refine ⟨hn.2.1, ?_, ?_⟩
  · intro e he
    have ha : e ∉ a := fun h' => hn.2.2 e h' e he rfl
    have := h.fresh e (by simp [he])
    refine ⟨this.1, this.2.1, ?_⟩
    simp only [OpenSpace.clear, ha, if_false]
    exact this.2.2
  · intro e he
    simp only [OpenSpace.clear]
    split
    · rename_i ha; exact (h.fresh e (by simp [ha])).2.1.symm
    · rename_i ha; exact h.same e (by simp [ha, he])

/-! ### An open table -/

/-- The extents of the log. -/
def Table.logOwn (t : Table) : List Nat :=
  match t.log with
  | none => []
  | some m => m.own

/-- An open table over the counts `r` before it was opened; `tr` are the extents
its trunk took since. -/
structure Live (n : Nat) (r : Refs) (t : Table) (s : Refs) (tr : List Nat) : Prop where
  took : Took n r s (owns t.mts ++ (tr ++ t.logOwn))
  mts : ∀ m, m ∈ t.mts → Ready m s
  log : ∀ m, t.log = some m → Ready m s

theorem logOpen_spec {d : Disk} (hd : d.Scans) {c : Cfg} {r r' : Refs} {l : Option Mini}
    (h : logOpen d c r = some (l, r')) (t : Table) (ht : t.log = l) :
    Took d.n r r' t.logOwn ∧ (∀ m, l = some m → Ready m r') ∧
      (t.logOwn).length = if c.useLog then 2 else 0 := by
  unfold logOpen at h
  split at h
  · rename_i hc
    split at h
    · cases h
    · rename_i m s hs
      cases h
      obtain ⟨h1, h2, h3, _⟩ := miniNew_spec hd hs
      have : t.logOwn = m.own := by simp [Table.logOwn, ht]
      rw [this]
      refine ⟨h2, ?_, by rw [if_pos hc, h1]⟩
      intro x hx; cases hx; exact h3
  · rename_i hc
    cases h
    have : t.logOwn = [] := by simp [Table.logOwn, ht]
    rw [this]
    refine ⟨Took.nil _ _, ?_, by rw [if_neg hc]; rfl⟩
    intro m hm; cases hm

theorem logOpen_some {d : Disk} (hd : d.Scans) {c : Cfg} {r : Refs}
    (h : used d.n r + (if c.useLog then 2 else 0) ≤ d.n) :
    ∃ l r', logOpen d c r = some (l, r') := by
  unfold logOpen
  split
  · rename_i hc
    rw [if_pos hc] at h
    obtain ⟨m, s, hs⟩ := miniNew_some hd (k := 1) (r := r) h
    rw [hs]
    exact ⟨some m, s, rfl⟩
  · exact ⟨none, r, rfl⟩

theorem logOpen_isSome {d : Disk} {c : Cfg} {r r' : Refs} {l : Option Mini}
    (h : logOpen d c r = some (l, r')) : l.isSome = c.useLog := by
  unfold logOpen at h
  split at h
  · rename_i hc
    split at h
    · cases h
    · cases h; simp [hc]
  · rename_i hc
    cases h
    simp at hc
    simp [hc]

theorem mount_spec {d : Disk} (hd : d.Scans) {c : Cfg} {h : Nat} {r r' : Refs} {t : Table}
    (hm : mount d c h r = some (t, r')) :
    Live d.n r t r' t.trunk.next ∧ (∀ e, e ∈ t.trunk.next → r' e = 2) ∧
      t.logOwn.length = (if c.useLog then 2 else 0) ∧ t.log.isSome = c.useLog ∧
      (owns t.mts).length = 9 * c.mts ∧ t.trunk.next.length = 8 := by
  unfold mount at hm
  split at hm
  · cases hm
  · rename_i ms s1 h1
    split at hm
    · cases hm
    · rename_i tk s2 h2
      split at hm
      · cases hm
      · rename_i l s3 h3
        cases hm
        obtain ⟨a1, a2, a3⟩ := memtables_spec hd _ h1
        unfold miniLoad at h2
        split at h2
        · cases h2
        · rename_i nx s4 h4
          cases h2
          obtain ⟨b1, b2, b3⟩ := allocN_spec hd _ h4
          obtain ⟨c1, c2, c3⟩ := logOpen_spec hd h3
            { mts := ms, trunk := { head := h, next := nx, entries := [] }, log := l } rfl
          have b4 := b2.trans c1
          refine ⟨⟨a2.trans b4, ?_, c2⟩, ?_, c3, logOpen_isSome h3, a1, b1⟩
          · intro m hm
            exact (a3 m hm).keep (fun e he => b4.keep ((a3 m hm).pos he))
          · intro e he
            rw [c1.keep (by rw [b3 e he]; decide), b3 e he]

theorem mount_some {d : Disk} (hd : d.Scans) {c : Cfg} (h : Nat) {r : Refs}
    (hu : used d.n r + (9 * c.mts + 8 + if c.useLog then 2 else 0) ≤ d.n) :
    ∃ t r', mount d c h r = some (t, r') := by
  obtain ⟨ms, s1, h1⟩ := memtables_some hd c.mts (r := r) (by omega)
  obtain ⟨a1, a2, _⟩ := memtables_spec hd _ h1
  have u1 := a2.used
  obtain ⟨nx, s2, h2⟩ := allocN_some hd 8 (r := s1) (by omega)
  obtain ⟨b1, b2, _⟩ := allocN_spec hd _ h2
  have u2 := b2.used
  obtain ⟨l, s3, h3⟩ := logOpen_some hd (c := c) (r := s2) (by omega)
  exact ⟨{ mts := ms, trunk := { head := h, next := nx, entries := [] }, log := l }, s3, by
    unfold mount miniLoad; simp only [h1, h2, h3]⟩

theorem logFill_spec {d : Disk} (hd : d.Scans) (w : Nat) : ∀ {r s s' : Refs} {t t' : Table}
    {tr : List Nat}, Live d.n r t s tr → logFill d w t s = some (t', s') →
    Live d.n r t' s' tr ∧ t'.mts = t.mts ∧ t'.trunk = t.trunk ∧
      t'.log.isSome = t.log.isSome ∧
      t'.logOwn.length = t.logOwn.length + (if t.log.isSome then w else 0) ∧
      (∀ e, s e ≠ 0 → s' e = s e) ∧
      (∀ m m', t.log = some m → t'.log = some m' → m'.next.length = m.next.length) := by
  induction w with
  | zero =>
    intro r s s' t t' tr hl h
    simp only [logFill, Option.some.injEq, Prod.mk.injEq] at h
    obtain ⟨rfl, rfl⟩ := h
    refine ⟨hl, rfl, rfl, rfl, by simp, fun _ _ => rfl, ?_⟩
    intro m m' h1 h2
    rw [h1] at h2; cases h2; rfl
  | succ w ih =>
    intro r s s' t t' tr hl h
    unfold logFill at h
    split at h
    · rename_i hn
      cases h
      refine ⟨hl, rfl, rfl, rfl, by simp [hn], fun _ _ => rfl, ?_⟩
      intro m m' h1 h2
      rw [h1] at h2; cases h2; rfl
    · rename_i m hm
      split at h
      · cases h
      · rename_i m' s1 h1
        obtain ⟨e, a1, a2, a3, a4, a5⟩ := miniTake_spec hd h1 (hl.log m hm)
        have ho : t.logOwn = m.own := by simp [Table.logOwn, hm]
        have ho' : Table.logOwn { t with log := some m' } = m'.own := rfl
        have hl' : Live d.n r { t with log := some m' } s1 tr := by
          refine ⟨?_, ?_, ?_⟩
          · refine (hl.took.trans a1).perm ?_
            rw [ho, ho']
            simp only [List.append_assoc]
            exact List.Perm.append_left _ (List.Perm.append_left _ a3.symm)
          · intro x hx
            exact (hl.mts x hx).keep (fun y hy => a1.keep ((hl.mts x hx).pos hy))
          · intro x hx; cases hx; exact a2
        obtain ⟨i1, i2, i3, i4, i5, i6, i7⟩ := ih hl' h
        refine ⟨i1, i2, i3, by rw [i4, hm]; rfl, ?_, ?_, ?_⟩
        · rw [i5, ho', ho, a3.length_eq]
          simp only [hm, Option.isSome_some, if_true, List.length_append, List.length_singleton]
          omega
        · intro x hx
          have := a1.keep hx
          rw [i6 x (by rw [this]; exact hx), this]
        · intro x x' h1 h2
          rw [hm] at h1; cases h1
          rw [i7 m' x' rfl h2, a5]

theorem unmount_spec {n : Nat} {r s : Refs} {t : Table} {tr : List Nat}
    (h : Live n r t s (t.trunk.next ++ tr)) (h2 : ∀ e, e ∈ t.trunk.next → s e = 2) :
    unmount t s = some (clear (owns t.mts ++ t.trunk.next) s) := by
  have hn := h.took.nodup
  rw [List.append_assoc, List.nodup_append, List.nodup_append] at hn
  have h1 := memtablesDestroy_spec t.mts hn.1 h.mts
  have h3 : freeAll t.trunk.next (clear (owns t.mts) s) =
      some (clear t.trunk.next (clear (owns t.mts) s)) := by
    refine freeAll_spec _ hn.2.1.1 (fun e he => ?_)
    have : e ∉ owns t.mts := fun h' => hn.2.2 e h' e (by simp [he]) rfl
    simp only [clear, this, if_false]
    exact h2 e he
  simp only [unmount, h1, miniRelease, h3, clear_append]

/-- A log just opened has one extent waiting and none entered. -/
theorem mount_log {d : Disk} (hd : d.Scans) {c : Cfg} {h : Nat} {r s : Refs} {t : Table}
    (hm : mount d c h r = some (t, s)) {m : Mini} (hl : t.log = some m) :
    m.next.length = 1 ∧ m.entries = [] := by
  unfold mount at hm
  split at hm
  · cases hm
  · split at hm
    · cases hm
    · split at hm
      · cases hm
      · rename_i l s3 h3
        cases hm
        simp only at hl
        unfold logOpen at h3
        split at h3
        · split at h3
          · cases h3
          · rename_i m' s4 h4
            cases h3
            cases hl
            refine ⟨(miniNew_spec hd h4).2.2.2, ?_⟩
            unfold miniNew at h4
            split at h4
            · cases h4
            · split at h4
              · cases h4
              · cases h4; rfl
        · cases h3; cases hl

end Splinter.OpenSpace
