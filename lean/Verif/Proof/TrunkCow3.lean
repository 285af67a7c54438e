import Verif.Proof.TrunkCow2

/-! # Proofs about changing the trunk under running lookups: the steps -/
namespace Splinter.Trunk.Cow

variable {R α : Type} {V : List R → α} {p : Nat → List Nat} {s : State R} {w : Nat}

/-- The writer after a step of `w`. -/
abbrev State.setW (s : State R) (w : Nat) (W : Writer R) (c : Bool) (f : List R) : State R :=
  { s with writers := upd s.writers w W, claim := c, freed := f }

theorem moved_same {W : Writer R} {c : Bool} {f : List R}
    (ho : ∀ a, W.own = some a → (s.writers w).own = some a) : Moved p p s (s.setW w W c f) w where
  others w' h := upd_ne _ _ h
  own a e := .inl (ho a (by simpa [upd_same] using e))
  next := Nat.le_refl _
  ver := Nat.le_refl _
  hist _ _ := rfl
  stay _ _ _ _ := rfl
  back u hu a ha := .inl ⟨hu, ha⟩
  fwd w' a _ _ u hu := ⟨fun _ h => h, fun h => absurd hu (by simp only [State.setW]; omega)⟩
  heap _ _ _ := rfl
  cont u hu x _ hm := .inl ⟨hu, hm⟩
  readers := rfl
  quiet := .inl ⟨rfl, rfl⟩

theorem tree_same {W : Writer R} {c : Bool} {f : List R} (T : TreeOk V p s) :
    TreeOk V p (s.setW w W c f) := ⟨T.root, T.path, T.bound, T.nodup, T.used, T.says⟩

/-- A claim that is given up or kept. -/
theorem claims_drop {W : Writer R} {c : Bool} {f : List R} (C : ClaimOk s)
    (h1 : W.claiming = true → (s.writers w).claiming = true)
    (h2 : c = s.claim ∨ s.claim = false) : ClaimOk (s.setW w W c f) := by
  have key : ∀ w', ((s.setW w W c f).writers w').claiming = true → (s.writers w').claiming = true := by
    intro w' h
    by_cases e : w' = w
    · subst e; exact h1 (by simpa [upd_same] using h)
    · simpa [upd_ne _ _ e] using h
  refine ⟨fun w' h => ?_, fun w1 w2 e1 e2 => C.one _ _ (key _ e1) (key _ e2), C.crash⟩
  have := C.flag _ (key w' h)
  rcases h2 with h2 | h2
  · exact h2.trans this
  · rw [this] at h2; cases h2

theorem own_setW {W : Writer R} {c : Bool} {f : List R}
    (ho : ∀ a, W.own = some a → (s.writers w).own = some a) {a : Nat}
    (h : Own (s.setW w W c f) a) : Own s a := by
  obtain ⟨w', e⟩ := h
  by_cases e1 : w' = w
  · subst e1; exact ⟨_, ho a (by simpa [upd_same] using e)⟩
  · exact ⟨w', by simpa [upd_ne _ _ e1] using e⟩

theorem inv_same {W : Writer R} {c : Bool} {f : List R} (I : Inv V p s)
    (ho : ∀ a, W.own = some a → (s.writers w).own = some a)
    (h1 : W.claiming = true → (s.writers w).claiming = true)
    (h2 : c = s.claim ∨ s.claim = false)
    (hw : (∀ a, ¬ Own s a → ¬ Own (s.setW w W c f) a) → WriterOk p (s.setW w W c f) W) :
    Moved p p s (s.setW w W c f) w ∧ Inv V p (s.setW w W c f) := by
  have M := moved_same (p := p) (c := c) (f := f) ho
  refine ⟨M, M.inv I (tree_same I.tree) (claims_drop I.claims h1 h2) ?_⟩
  have : (s.setW w W c f).writers w = W := upd_same _ _ _
  rw [this]
  exact hw fun a h h' => h (own_setW ho h')

theorem inv_claim (I : Inv V p s) (hs : s.writers w = .idle) (hc : s.claim = false) :
    Moved p p s { s with claim := true, writers := upd s.writers w .claimed } w ∧
      Inv V p { s with claim := true, writers := upd s.writers w .claimed } := by
  have M := moved_same (p := p) (s := s) (w := w) (W := .claimed) (c := true) (f := s.freed)
    (fun a e => by simp [Writer.own] at e)
  refine ⟨M, M.inv I (tree_same I.tree) ?_ (by rw [show (s.setW w .claimed true s.freed).writers w = _ from upd_same _ _ _]; trivial)⟩
  have key : ∀ w', ((s.setW w .claimed true s.freed).writers w').claiming = true → w' = w := by
    intro w' h
    refine Classical.byContradiction fun e => ?_
    have : (s.writers w').claiming = true := by simpa [upd_ne _ _ e] using h
    rw [I.claims.flag _ this] at hc; cases hc
  exact ⟨fun _ _ => rfl, fun w1 w2 e1 e2 => (key w1 e1).trans (key w2 e2).symm, I.claims.crash⟩

theorem root_path (I : Inv V p s) : Path s.heap s.root (p s.ver) := by
  have := I.tree.path s.ver (Nat.le_refl _)
  rwa [← I.tree.root] at this

theorem inv_copyFirst (I : Inv V p s) (hs : s.writers w = .claimed) (hl : ¬ Locked s s.root) :
    let W : Writer R := .building (s.heap s.root).refs (s.heap s.root).child 1
    Moved p p s { s with writers := upd s.writers w W } w ∧
      Inv V p { s with writers := upd s.writers w W } := by
  intro W
  refine inv_same (c := s.claim) (f := s.freed) I (fun a e => by simp [W, Writer.own] at e)
    (fun _ => by rw [hs]; rfl) (.inl rfl) fun ho => ?_
  have P := root_path I
  have h0 := P.head
  have hlen : 0 < (p s.ver).length := (List.getElem?_eq_some_iff.mp h0).1
  refine ⟨?_, ?_, hlen, ?_⟩
  · have : (p s.ver).take 1 = [s.root] := by
      generalize hl' : p s.ver = l at h0 hlen
      cases l with
      | nil => simp at hlen
      | cons a l => simp at h0; simp [h0]
    show _ = content s.heap ((p s.ver).take 1)
    rw [this]; simp [content]
  · show (s.heap s.root).child = (p s.ver)[1]?
    cases hc : (s.heap s.root).child with
    | none => rw [List.getElem?_eq_none]; exact Nat.le_of_eq (P.last h0 hc)
    | some c => exact (P.child h0 hc).symm
  · intro i hi a e
    have : i = 0 := by omega
    subst this
    change (p s.ver)[0]? = some a at e
    rw [h0] at e; cases e
    exact ho _ (not_own hl)

theorem inv_copyMore (I : Inv V p s) {acc : List R} {c n : Nat}
    (hs : s.writers w = .building acc (some c) n) (hl : ¬ Locked s c) :
    let W : Writer R := .building (acc ++ (s.heap c).refs) (s.heap c).child (n + 1)
    Moved p p s { s with writers := upd s.writers w W } w ∧
      Inv V p { s with writers := upd s.writers w W } := by
  intro W
  have hw := I.writers w
  rw [hs] at hw
  obtain ⟨h1, h2, h3, h4⟩ := hw
  refine inv_same (c := s.claim) (f := s.freed) I (fun a e => by simp [W, Writer.own] at e)
    (fun _ => by rw [hs]; rfl) (.inl rfl) fun ho => ?_
  have P := root_path I
  have hn : n < (p s.ver).length := (List.getElem?_eq_some_iff.mp h2.symm).1
  refine ⟨?_, ?_, hn, ?_⟩
  · show _ = content s.heap ((p s.ver).take (n + 1))
    rw [List.take_succ, ← h2, content_append, ← h1]
    simp [content]
  · show (s.heap c).child = (p s.ver)[n + 1]?
    cases hc : (s.heap c).child with
    | none => rw [List.getElem?_eq_none]; exact Nat.le_of_eq (P.last h2.symm hc)
    | some d => exact (P.child h2.symm hc).symm
  · intro i hi a e
    by_cases hin : i = n
    · subst hin
      change (p s.ver)[i]? = some a at e
      rw [← h2] at e; cases e
      exact ho _ (not_own hl)
    · exact ho _ (h4 i (by omega) a e)

theorem inv_idle (I : Inv V p s) (c : Bool) (hc : c = s.claim ∨ s.claim = false) :
    Moved p p s { s with claim := c, writers := upd s.writers w .idle } w ∧
      Inv V p { s with claim := c, writers := upd s.writers w .idle } :=
  inv_same (f := s.freed) I (fun a e => by simp [Writer.own] at e)
    (fun h => by simp [Writer.claiming] at h) hc fun _ => trivial

theorem inv_modified (I : Inv V p s) {old n v : Nat} {held held' : Option Nat} {dead : List R}
    {gc gc' : Gc} {f : List R} (hs : s.writers w = .modified old n held dead gc v)
    (hh : held' = held ∨ held' = none) (hg : GcOk p s n v gc') :
    Moved p p s { s with freed := f, writers := upd s.writers w (.modified old n held' dead gc' v) } w ∧
      Inv V p { s with freed := f, writers := upd s.writers w (.modified old n held' dead gc' v) } := by
  have hw := I.writers w
  rw [hs] at hw
  obtain ⟨h1, h2, h3, h4, h5, h6, _⟩ := hw
  refine inv_same (c := s.claim) (f := f) I ?_ (fun h => by simp [Writer.claiming] at h) (.inl rfl)
    fun ho => ⟨h1, h2, ?_, ?_, h5, h6, hg⟩
  · intro a e
    rw [hs]
    simp only [Writer.own] at e ⊢
    rcases hh with hh | hh
    · rw [← hh]; exact e
    · rw [hh] at e; cases e
  · intro cur e
    rcases hh with hh | hh
    · exact h3 cur (hh ▸ e)
    · rw [hh] at e; cases e
  · exact fun i hi a e => ⟨ho a (h4 i hi a e).1, (h4 i hi a e).2⟩

theorem gcOk_root (I : Inv V p s) {old n v : Nat} {held : Option Nat} {dead : List R} {gc : Gc}
    (hs : s.writers w = .modified old n held dead gc v) (hn : ¬ Shared s old) :
    GcOk p s n v (.at old n) := by
  have hw := I.writers w
  rw [hs] at hw
  obtain ⟨h1, h2, _⟩ := hw
  intro a left e
  cases e
  have h0 : (p v)[0]? = some old := by rw [← h2]; exact (I.tree.path v (by omega)).head
  refine ⟨Nat.le_refl _, by rw [Nat.sub_self]; exact h0, fun i r e1 e2 => ?_⟩
  rw [Nat.sub_self]
  refine Nat.pos_of_ne_zero fun hd => hn ⟨i, r, e1, ?_⟩
  have := (I.readers i r e1).here
  rw [e2, hd, h0] at this; cases this; rfl

theorem gcOk_down (I : Inv V p s) {old n v a left c : Nat} {held : Option Nat} {dead : List R}
    (hs : s.writers w = .modified old n held dead (.at a (left + 1)) v)
    (hc : (s.heap a).child = some c) (hn : ¬ Shared s c) : GcOk p s n v (.at c left) := by
  have hw := I.writers w
  rw [hs] at hw
  obtain ⟨h1, h2, _, _, _, _, h7⟩ := hw
  obtain ⟨h8, h9, h10⟩ := h7 a (left + 1) rfl
  intro a' left' e
  cases e
  have he : n - left = n - (left + 1) + 1 := by omega
  have h0 : (p v)[n - left]? = some c := by
    rw [he]; exact (I.tree.path v (by omega)).child h9 hc
  refine ⟨by omega, h0, fun i r e1 e2 => ?_⟩
  have h11 := h10 i r e1 e2
  refine Nat.lt_of_le_of_ne (by omega) fun hd => hn ⟨i, r, e1, ?_⟩
  have := (I.readers i r e1).here
  rw [e2, ← hd, h0] at this; cases this; rfl

end Splinter.Trunk.Cow
