import Verif.Proof.TrunkCow3

/-! # Proofs about changing the trunk under running lookups: the steps that change pages -/
namespace Splinter.Trunk.Cow

variable {R α : Type} {V : List R → α} {p : Nat → List Nat} {s : State R} {w : Nat}

theorem inv_reader (I : Inv V p s) (i : Nat) (o : Option (Reader R)) (b : Bool)
    (h1 : ∀ r, o = some r → ReaderOk p s r)
    (h2 : ∀ r, o = some r → r.entry = s.ver ∨
      ∃ r0, s.readers i = some r0 ∧ r0.entry = r.entry ∧ r0.depth ≤ r.depth) :
    Inv V p { s with misread := b, readers := upd s.readers i o } := by
  have key : ∀ j r, upd s.readers i o j = some r → (o = some r ∧ j = i) ∨ s.readers j = some r := by
    intro j r e
    by_cases hj : j = i
    · subst hj; rw [upd_same] at e; exact .inl ⟨e, rfl⟩
    · rw [upd_ne _ _ hj] at e; exact .inr e
  refine ⟨⟨I.tree.root, I.tree.path, I.tree.bound, I.tree.nodup, I.tree.used, I.tree.says⟩,
    ⟨I.claims.flag, I.claims.one, I.claims.crash⟩, I.owns, ?_, ?_⟩
  · intro j r e
    have : ReaderOk p s r := by
      rcases key j r e with ⟨h, _⟩ | h
      · exact h1 r h
      · exact I.readers j r h
    exact ⟨this.entry, this.here, this.free, this.got, this.last⟩
  · intro w
    have W := I.writers w
    show WriterOk p _ (s.writers w)
    cases hst : s.writers w with
    | idle => trivial
    | claimed => trivial
    | building => rw [hst] at W; exact W
    | copied => rw [hst] at W; exact W
    | walking => rw [hst] at W; exact W
    | modified old n held dead gc v =>
      rw [hst] at W
      obtain ⟨g1, g2, g3, g4, g5, g6, g7⟩ := W
      refine ⟨g1, g2, g3, g4, g5, g6, fun a left e => ?_⟩
      obtain ⟨g8, g9, g10⟩ := g7 a left e
      refine ⟨g8, g9, fun j r e1 e2 => ?_⟩
      rcases key j r e1 with ⟨h, _⟩ | h
      · rcases h2 r h with h | ⟨r0, h3, h4, h5⟩
        · omega
        · have := g10 _ r0 h3 (h4.trans e2); omega
      · exact g10 j r h e2

theorem inv_enter (I : Inv V p s) (i : Nat) (hl : ¬ Locked s s.root) :
    Inv V p { s with readers := upd s.readers i (some ⟨s.root, [], (s.heap s.root).refs, s.ver, 0⟩) } := by
  have P := root_path I
  refine inv_reader I i _ s.misread (fun r e => ?_) (fun r e => by cases e; exact .inl rfl)
  cases e
  refine ⟨Nat.le_refl _, P.head, ?_, ?_, [], rfl⟩
  · intro j hj a e
    have : j = 0 := by simpa using hj
    subst this
    simp only at e
    rw [P.head] at e; cases e
    exact not_own hl
  · have h0 := P.head
    generalize hl' : p s.ver = l at h0
    cases l with
    | nil => simp at h0
    | cons a l => simp at h0; subst h0; simp [content, hl']

theorem inv_read (I : Inv V p s) (i : Nat) {r : Reader R} {x : R} {rest : List R} (b : Bool)
    (hr : s.readers i = some r) (ht : r.todo = x :: rest) :
    Inv V p { s with misread := b, readers := upd s.readers i (some { r with acc := r.acc ++ [x], todo := rest }) } := by
  have h := I.readers i r hr
  refine inv_reader I i _ b (fun r' e => ?_) (fun r' e => by cases e; exact .inr ⟨r, hr, rfl, Nat.le_refl _⟩)
  cases e
  obtain ⟨d, hd⟩ := h.last
  exact ⟨h.entry, h.here, h.free, by rw [← h.got, ht]; simp, d ++ [x], by rw [hd, ht]; simp⟩

theorem inv_down (I : Inv V p s) (i : Nat) {r : Reader R} {c : Nat} (hr : s.readers i = some r)
    (ht : r.todo = []) (hc : (s.heap r.addr).child = some c) (hl : ¬ Locked s c) :
    Inv V p { s with readers := upd s.readers i (some { r with addr := c, todo := (s.heap c).refs, depth := r.depth + 1 }) } := by
  have h := I.readers i r hr
  have hcc := (I.tree.path _ h.entry).child h.here hc
  refine inv_reader I i _ s.misread (fun r' e => ?_)
    (fun r' e => by cases e; exact .inr ⟨r, hr, rfl, Nat.le_succ _⟩)
  cases e
  refine ⟨h.entry, hcc, ?_, ?_, [], rfl⟩
  · intro j hj a e
    by_cases hj' : j = r.depth + 1
    · subst hj'
      simp only at e
      rw [hcc] at e; cases e; exact not_own hl
    · exact h.free j (by simp only at hj; omega) a e
  · show r.acc ++ _ = content s.heap ((p r.entry).take (r.depth + 1 + 1))
    rw [List.take_succ, content_append, ← h.got, ht, hcc]
    simp [content]

/-- Pages that only appear leave the tree as it is. -/
theorem tree_fresh (T : TreeOk V p s) {s' : State R} (hr : s'.root = s.root) (hv : s'.ver = s.ver)
    (hh : s'.hist = s.hist) (hs : s'.said = s.said) (hu : s'.used = s.used) (hn : s.next ≤ s'.next)
    (he : ∀ a, a < s.next → s'.heap a = s.heap a) :
    TreeOk V p s' ∧ ∀ v, v ≤ s.ver → content s'.heap (p v) = content s.heap (p v) := by
  have hc : ∀ v, v ≤ s.ver → content s'.heap (p v) = content s.heap (p v) := fun v h =>
    content_congr fun a ha => by rw [he a (T.bound v h a ha)]
  refine ⟨⟨by rw [hr, hh, hv]; exact T.root, ?_, ?_, ?_, ?_, ?_⟩, hc⟩ <;> rw [hv]
  · intro v h; rw [hh]; exact (T.path v h).congr fun a ha => by rw [he a (T.bound v h a ha)]
  · exact fun v h a ha => Nat.lt_of_lt_of_le (T.bound v h a ha) hn
  · intro v h; rw [hc v h]; exact T.nodup v h
  · intro v h; rw [hc v h, hu]; exact T.used v h
  · intro v h; rw [hc v h, hs]; exact T.says v h

theorem inv_copyRoot (I : Inv V p s) (hs : s.writers w = .claimed) (hl : ¬ Locked s s.root) :
    let s' : State R := { s with
      heap := upd s.heap s.next (s.heap s.root), next := s.next + 1
      writers := upd s.writers w (.copied s.root s.next) }
    Moved p p s s' w ∧ Inv V p s' := by
  intro s'
  have he : ∀ a, a < s.next → s'.heap a = s.heap a := fun a h => upd_ne _ _ (by omega)
  obtain ⟨T, hc⟩ := tree_fresh (s' := s') I.tree rfl rfl rfl rfl rfl (Nat.le_succ _) he
  have hrl : s.root < s.next :=
    I.tree.bound s.ver (Nat.le_refl _) _ (List.mem_of_getElem? (root_path I).head)
  have hw' : s'.writers w = .copied s.root s.next := upd_same _ _ _
  have M : Moved p p s s' w :=
    { others := fun w' h => upd_ne _ _ h
      own := fun a e => by rw [hw'] at e; cases e; exact .inr (Nat.le_refl _)
      next := Nat.le_succ _
      ver := Nat.le_refl _
      hist := fun _ _ => rfl
      stay := fun _ _ _ _ => rfl
      back := fun u hu a ha => .inl ⟨hu, ha⟩
      fwd := fun w' a _ _ u hu => ⟨fun _ h => h, fun h => absurd hu (by show ¬ u ≤ s.ver; omega)⟩
      heap := fun a h _ => he a h
      cont := fun u hu x _ hm => .inl ⟨hu, by rwa [hc u hu] at hm⟩
      readers := rfl
      quiet := .inl ⟨rfl, rfl⟩ }
  refine ⟨M, M.inv I T ?_ ?_⟩
  · have key : ∀ w', (s'.writers w').claiming = true → (s.writers w').claiming = true := by
      intro w' h
      by_cases e : w' = w
      · subst e; rw [hs]; rfl
      · rwa [M.others w' e] at h
    exact ⟨fun w' h => I.claims.flag w' (key w' h), fun w1 w2 e1 e2 => I.claims.one _ _ (key _ e1) (key _ e2),
      I.claims.crash⟩
  · rw [hw']
    refine ⟨rfl, ?_, Nat.lt_succ_self _, ?_, M.final (not_own hl) hrl⟩
    · show upd s.heap s.next (s.heap s.root) s.next = upd s.heap s.next (s.heap s.root) s.root
      rw [upd_same, upd_ne _ _ (by omega)]
    · intro u hu hm
      have := I.tree.bound u hu _ hm
      omega

theorem claims_release {s' : State R} (C : ClaimOk s) (hs : (s.writers w).claiming = true)
    (ho : ∀ w', w' ≠ w → s'.writers w' = s.writers w') (hw : (s'.writers w).claiming = false)
    (hc : s'.crashed = s.crashed) : ClaimOk s' := by
  have key : ∀ w', (s'.writers w').claiming = true → False := by
    intro w' h
    by_cases e : w' = w
    · subst e; rw [hw] at h; cases h
    · rw [ho w' e] at h
      exact e (C.one _ _ h hs)
  exact ⟨fun w' h => (key w' h).elim, fun w' _ h => (key w' h).elim, hc.trans C.crash⟩

theorem quiet_of_claim (C : ClaimOk s) (hs : (s.writers w).claiming = true) :
    ∀ w', w' ≠ w → (s.writers w').claiming = false := by
  intro w' h
  cases e : (s.writers w').claiming with
  | false => rfl
  | true => exact (h (C.one _ _ e hs)).elim

theorem inv_switch (I : Inv V p s) {old new : Nat} (hs : s.writers w = .copied old new) :
    let s' : State R := { s with
      root := new, claim := false
      writers := upd s.writers w (.walking old new 0 s.ver)
      ver := s.ver + 1
      hist := upd s.hist (s.ver + 1) new
      said := upd s.said (s.ver + 1) (s.said s.ver) }
    let p' := upd p (s.ver + 1) (new :: (p s.ver).tail)
    Moved p p' s s' w ∧ Inv V p' s' := by
  intro s' p'
  have hw := I.writers w
  rw [hs] at hw
  obtain ⟨h1, h2, h3, h4, h5⟩ := hw
  have P := root_path I
  have hcl : (s.writers w).claiming = true := by rw [hs]; rfl
  have hw' : s'.writers w = .walking old new 0 s.ver := upd_same _ _ _
  have hp : ∀ u, u ≤ s.ver → p' u = p u := fun u hu => upd_ne _ _ (by omega)
  have hpn : p' (s.ver + 1) = new :: (p s.ver).tail := upd_same _ _ _
  have hpv : p s.ver = s.root :: (p s.ver).tail := by
    have h0 := P.head
    generalize p s.ver = l at h0
    cases l with
    | nil => simp at h0
    | cons a l => simp at h0; simp [h0]
  have hcn : content s.heap (new :: (p s.ver).tail) = content s.heap (p s.ver) := by
    conv => rhs; rw [hpv]
    rw [content_cons, content_cons, h2]
  have hcase : ∀ u, u ≤ s'.ver → u ≤ s.ver ∨ u = s.ver + 1 := fun u hu => by
    have : u ≤ s.ver + 1 := hu
    omega
  have M : Moved p p' s s' w :=
    { others := fun w' h => upd_ne _ _ h
      own := fun a e => by
        rw [hw'] at e; rw [hs]; exact .inl e
      next := Nat.le_refl _
      ver := Nat.le_succ _
      hist := fun v hv => upd_ne _ _ (by omega)
      stay := fun v hv i _ => by rw [hp v hv]
      back := fun u hu a ha => by
        rcases hcase u hu with h | h
        · rw [hp u h] at ha; exact .inl ⟨h, ha⟩
        · subst h
          rw [hpn] at ha
          rcases List.mem_cons.mp ha with e | e
          · subst e; exact .inr (.inr (.inr (by rw [hs]; rfl)))
          · exact .inr (.inl ⟨Nat.lt_succ_self _, List.mem_of_mem_tail e⟩)
      fwd := fun w' a hne e u hu => by
        refine ⟨fun h ha => by rw [hp u h]; exact ha, fun h ha => ?_⟩
        have : u = s.ver + 1 := by rcases hcase u hu with h' | h' <;> omega
        subst this
        rw [hpn]
        rw [hpv] at ha
        rcases List.mem_cons.mp ha with e' | e'
        · subst e'; exact (h5 ⟨_, e⟩).elim
        · exact List.mem_cons_of_mem _ e'
      heap := fun _ _ _ => rfl
      cont := fun u hu x _ hm => by
        rcases hcase u hu with h | h
        · rw [hp u h] at hm; exact .inl ⟨h, hm⟩
        · subst h
          rw [hpn] at hm
          exact .inr ⟨Nat.lt_succ_self _, by rwa [show s'.heap = s.heap from rfl, hcn] at hm⟩
      readers := rfl
      quiet := .inr (quiet_of_claim I.claims hcl) }
  have hrl : s.root < s.next := I.tree.bound s.ver (Nat.le_refl _) _ (List.mem_of_getElem? P.head)
  refine ⟨M, M.inv I ?_ (claims_release I.claims hcl M.others (by rw [hw']; rfl) rfl) ?_⟩
  · refine ⟨(upd_same _ _ _).symm, ?_, ?_, ?_, ?_, ?_⟩
    · intro v hv
      rcases hcase v hv with h | h
      · rw [hp v h, M.hist v h]; exact I.tree.path v h
      · subst h
        rw [hpn, show s'.hist (s.ver + 1) = new from upd_same _ _ _]
        exact P.copy (by show (s.heap new).child = _; rw [h2])
    · intro v hv a ha
      rcases hcase v hv with h | h
      · rw [hp v h] at ha; exact I.tree.bound v h a ha
      · subst h
        rw [hpn] at ha
        rcases List.mem_cons.mp ha with e | e
        · subst e; exact h3
        · exact I.tree.bound _ (Nat.le_refl _) a (List.mem_of_mem_tail e)
    · intro v hv
      rcases hcase v hv with h | h
      · rw [hp v h]; exact I.tree.nodup v h
      · subst h; rw [hpn]
        show (content s.heap _).Nodup
        rw [hcn]; exact I.tree.nodup _ (Nat.le_refl _)
    · intro v hv
      rcases hcase v hv with h | h
      · rw [hp v h]; exact I.tree.used v h
      · subst h; rw [hpn]
        show ∀ x ∈ content s.heap _, _
        rw [hcn]; exact I.tree.used _ (Nat.le_refl _)
    · intro v hv q
      rcases hcase v hv with h | h
      · rw [hp v h, show s'.said v = s.said v from upd_ne _ _ (by omega)]; exact I.tree.says v h q
      · subst h; rw [hpn, show s'.said (s.ver + 1) = s.said s.ver from upd_same _ _ _]
        show V (q ++ content s.heap _) = _
        rw [hcn]; exact I.tree.says _ (Nat.le_refl _) q
  · rw [hw']
    have hnr : new ≠ s.root := by
      intro e
      refine h4 s.ver (Nat.le_refl _) ?_
      rw [e]; exact List.mem_of_getElem? P.head
    refine ⟨Nat.lt_succ_self _, ?_, ⟨h3, ?_⟩, ?_, s.root, ?_, h2⟩
    · rw [M.hist _ (Nat.le_refl _), h1, I.tree.root]
    · intro u hu
      rcases hcase u hu with h | h
      · rw [hp u h]; exact ⟨fun hm => (h4 u h hm).elim, fun h' => by omega⟩
      · subst h; rw [hpn]; exact ⟨fun _ => Nat.lt_succ_self _, fun _ => List.mem_cons_self⟩
    · intro i hi a e
      have : i = 0 := by omega
      subst this
      rw [hp _ (Nat.le_refl _), P.head] at e
      cases e
      refine ⟨M.final h5 hrl, fun u hu hu' hm => ?_⟩
      have : u = s.ver + 1 := by rcases hcase u hu' with h' | h' <;> omega
      subst this
      rw [hpn] at hm
      rcases List.mem_cons.mp hm with e' | e'
      · exact hnr e'.symm
      · have := P.nodup
        rw [hpv] at this
        exact (List.nodup_cons.mp this).1 e'
    · rw [hp _ (Nat.le_refl _)]; exact P.head

end Splinter.Trunk.Cow
