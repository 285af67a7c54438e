import Verif.Proof.TrunkCow5

/-! # Proofs about changing the trunk under running lookups: runs -/
namespace Splinter.Trunk.Cow

variable {R α : Type} {V : List R → α} {p p' : Nat → List Nat} {s s' : State R}

/-- Nothing released will be read. -/
structure Safe (p : Nat → List Nat) (s : State R) : Prop where
  cur : ∀ x ∈ s.freed, x ∈ s.used ∧ x ∉ content s.heap (p s.ver)
  ahead : ∀ i r, s.readers i = some r → ∀ x ∈ s.freed,
    x ∉ r.todo ∧ x ∉ content s.heap ((p r.entry).drop (r.depth + 1))
  ok : s.misread = false

theorem content_take_drop (h : Nat → Node R) (l : List Nat) (n : Nat) :
    content h l = content h (l.take n) ++ content h (l.drop n) := by
  rw [← content_append, List.take_append_drop]

theorem Safe.moved {w : Nat} (S : Safe p s) (M : Moved p p' s s' w) (I : Inv V p s) (I' : Inv V p' s')
    (hf : ∀ x ∈ s'.freed, x ∈ s.freed ∨ (x ∈ s'.used ∧ x ∉ content s'.heap (p' s'.ver) ∧
      ∀ i r, s'.readers i = some r → x ∉ r.todo ∧ x ∉ content s'.heap ((p' r.entry).drop (r.depth + 1))))
    (hu : ∀ x ∈ s.used, x ∈ s'.used) (hm : s'.misread = s.misread) : Safe p' s' := by
  refine ⟨fun x hx => ?_, fun i r e x hx => ?_, hm.trans S.ok⟩
  · rcases hf x hx with hx | ⟨h1, h2, _⟩
    · obtain ⟨h1, h2⟩ := S.cur x hx
      refine ⟨hu x h1, fun h => ?_⟩
      rcases M.cont _ (Nat.le_refl _) x h1 h with ⟨h3, h4⟩ | ⟨_, h4⟩
      · have : s'.ver = s.ver := Nat.le_antisymm h3 M.ver
        rw [this] at h4; exact h2 h4
      · exact h2 h4
    · exact ⟨h1, h2⟩
  · rcases hf x hx with hx | ⟨_, _, h3⟩
    · have e' := e
      rw [M.readers] at e'
      obtain ⟨h1, h2⟩ := S.ahead i r e' x hx
      refine ⟨h1, fun h => ?_⟩
      have hr := I.readers i r e'
      have hr' := I'.readers i r e
      have hxc : x ∈ content s'.heap (p' r.entry) := by
        rw [content_take_drop _ _ (r.depth + 1)]; exact List.mem_append_right _ h
      have hnd := I'.tree.nodup _ hr'.entry
      rw [content_take_drop _ _ (r.depth + 1), List.nodup_append] at hnd
      have hxt : x ∉ content s'.heap ((p' r.entry).take (r.depth + 1)) := fun ht => hnd.2.2 x ht x h rfl
      rcases M.cont _ hr'.entry x (S.cur x hx).1 hxc with ⟨_, h4⟩ | ⟨h4, _⟩
      · rw [content_take_drop _ _ (r.depth + 1)] at h4
        rcases List.mem_append.mp h4 with h4 | h4
        · rw [← hr'.got, hr.got] at hxt; exact hxt h4
        · exact h2 h4
      · have := hr.entry; omega
    · exact h3 i r e

theorem Safe.reader (S : Safe p s) (I : Inv V p s) (i : Nat) (o : Option (Reader R)) (b : Bool)
    (hb : b = false)
    (h : ∀ r, o = some r → (∀ x ∈ r.todo, x ∉ s.freed) ∧
      ∀ x ∈ content s.heap ((p r.entry).drop (r.depth + 1)), x ∉ s.freed) :
    Safe p { s with misread := b, readers := upd s.readers i o } := by
  refine ⟨S.cur, fun j r e x hx => ?_, hb⟩
  by_cases hj : j = i
  · subst hj
    have e' : o = some r := by rw [← e]; exact (upd_same _ _ _).symm
    exact ⟨fun h' => (h r e').1 x h' hx, fun h' => (h r e').2 x h' hx⟩
  · exact S.ahead j r (by rw [← e]; exact (upd_ne _ _ hj).symm) x hx

/-- Every step keeps the invariant, and a patient one also keeps lookups off what is released. -/
theorem step_inv {a : Act R} (I : Inv V p s) (hg : NoStray s a) (st : Step V s a s') :
    ∃ p', Inv V p' s' ∧ (Patient s a → Safe p s → Safe p' s') := by
  have plain : ∀ {q w}, Moved p q s s' w ∧ Inv V q s' → s'.freed = s.freed →
      (∀ x ∈ s.used, x ∈ s'.used) → s'.misread = s.misread →
      ∃ p', Inv V p' s' ∧ (Patient s a → Safe p s → Safe p' s') := fun h hf hu hm =>
    ⟨_, h.2, fun _ S => S.moved h.1 I h.2 (fun x hx => .inl (hf ▸ hx)) hu hm⟩
  cases st with
  | enter i h1 h2 =>
    refine ⟨p, inv_enter I i h2, fun _ S => ?_⟩
    refine S.reader I i _ s.misread S.ok fun r e => ?_
    cases e
    have key : ∀ x ∈ content s.heap (p s.ver), x ∉ s.freed := fun x hx hf => (S.cur x hf).2 hx
    have h0 := (root_path I).head
    refine ⟨fun x hx => key x (mem_content.mpr ⟨_, List.mem_of_getElem? h0, hx⟩), fun x hx => key x ?_⟩
    rw [content_take_drop _ _ 1]; exact List.mem_append_right _ hx
  | read i r x rest h1 h2 h3 =>
    refine ⟨p, inv_read I i s.misread h1 h2, fun _ S => ?_⟩
    refine S.reader I i _ s.misread S.ok fun r' e => ?_
    cases e
    have h := S.ahead i r h1
    exact ⟨fun y hy hf => (h y hf).1 (by rw [h2]; exact List.mem_cons_of_mem _ hy),
      fun y hy hf => (h y hf).2 hy⟩
  | misread i r x rest h1 h2 h3 =>
    refine ⟨p, inv_read I i true h1 h2, fun _ S => ?_⟩
    exact ((S.ahead i r h1 x h3).1 (by rw [h2]; exact List.mem_cons_self)).elim
  | down i r c h1 h2 h3 h4 =>
    refine ⟨p, inv_down I i h1 h2 h3 h4, fun _ S => ?_⟩
    refine S.reader I i _ s.misread S.ok fun r' e => ?_
    cases e
    have h := S.ahead i r h1
    have hr := I.readers i r h1
    have hcc := (I.tree.path _ hr.entry).child hr.here h3
    have hd : content s.heap ((p r.entry).drop (r.depth + 1)) =
        (s.heap c).refs ++ content s.heap ((p r.entry).drop (r.depth + 1 + 1)) := by
      rw [List.drop_eq_getElem_cons (List.getElem?_eq_some_iff.mp hcc).1,
        (List.getElem?_eq_some_iff.mp hcc).2, content_cons]
    rw [hd] at h
    exact ⟨fun y hy hf => (h y hf).2 (List.mem_append_left _ hy),
      fun y hy hf => (h y hf).2 (List.mem_append_right _ hy)⟩
  | leave i r h1 =>
    refine ⟨p, inv_reader I i none s.misread (fun r e => by cases e) (fun r e => by cases e), fun _ S => ?_⟩
    exact S.reader I i _ s.misread S.ok fun r' e => by cases e
  | claim w h1 h2 => exact plain (inv_claim I h1 h2) rfl (fun _ h => h) rfl
  | copyFirst w h1 h2 => exact plain (inv_copyFirst I h1 h2) rfl (fun _ h => h) rfl
  | copyMore w acc c n h1 h2 => exact plain (inv_copyMore I h1 h2) rfl (fun _ h => h) rfl
  | publish w acc nxt n z ls h1 _ h2 h3 h4 h5 =>
    exact plain (inv_publish I h1 h2 h3 h4 h5) rfl (fun _ h => List.mem_append_left _ h) rfl
  | publishCrash w acc nxt n h1 h2 =>
    have := I.claims.flag w (by rw [h1]; rfl)
    rw [h2] at this; cases this
  | copyRoot w h1 h2 => exact plain (inv_copyRoot I h1 h2) rfl (fun _ h => h) rfl
  | switch w old new h1 _ => exact plain (inv_switch I h1) rfl (fun _ h => h) rfl
  | switchCrash w old new h1 h2 =>
    have := I.claims.flag w (by rw [h1]; rfl)
    rw [h2] at this; cases this
  | descend w old cur n v c h1 h2 h3 => exact plain (inv_descend I h1 h2 h3) rfl (fun _ h => h) rfl
  | modify w old cur n v y dead eager h1 h2 h3 h4 h5 h6 =>
    obtain ⟨M, I', hgone⟩ := inv_modify (f := s.freed ++ eager) I h1 h2 h3 h4 h5
    refine ⟨p, I', fun hp S => S.moved M I I' (fun x hx => ?_) (fun _ h => List.mem_append_left _ h) rfl⟩
    rcases List.mem_append.mp hx with hx | hx
    · exact .inl hx
    · have hw := I.writers w
      rw [h1] at hw
      have hv : v < s.ver := hw.1
      have hxc := h6 x hx
      have g := fun u h h' => hgone u h h' x hxc.1 hxc.2
      have hcu : x ∈ s.used :=
        I.tree.used s.ver (Nat.le_refl _) x
          (mem_content.mpr ⟨cur, (hw.2.2.1.2 s.ver (Nat.le_refl _)).mpr hv, hxc.1⟩)
      refine .inr ⟨List.mem_append_left _ hcu, g s.ver hv (Nat.le_refl _), fun i r e => ?_⟩
      have hre := hp (List.ne_nil_of_mem hx) old cur n v h1 i r e
      have hr := I'.readers i r e
      have hn := g r.entry hre hr.entry
      rw [content_take_drop _ _ (r.depth + 1), ← hr.got] at hn
      simp only [List.mem_append, not_or] at hn
      exact ⟨hn.1.2, hn.2⟩
  | discard w old cur n v h1 => exact plain (inv_idle I s.claim (.inl rfl)) rfl (fun _ h => h) rfl
  | abort w old cur n v h1 h2 => exact plain (inv_idle I false (.inr hg)) rfl (fun _ h => h) rfl
  | unlock w old n cur dead gc v h1 =>
    have hw := I.writers w
    rw [h1] at hw
    exact plain (inv_modified (f := s.freed) I h1 (.inr rfl) hw.2.2.2.2.2.2) rfl (fun _ h => h) rfl
  | gcRoot w old n held dead v h1 h2 h3 =>
    exact plain (inv_modified (f := s.freed) I h1 (.inl rfl) (gcOk_root I h1 h3)) rfl (fun _ h => h) rfl
  | gcDown w old n held dead v a left c h1 h2 h3 h4 =>
    exact plain (inv_modified (f := s.freed) I h1 (.inl rfl) (gcOk_down I h1 h2 h4)) rfl (fun _ h => h) rfl
  | gcFree w old n held dead v a h1 =>
    obtain ⟨M, I'⟩ := inv_modified (f := s.freed ++ dead) (gc' := .done) I h1 (.inl rfl)
      (fun a left e => by cases e)
    refine ⟨p, I', fun hp S => S.moved M I I' (fun x hx => ?_) (fun _ h => h) rfl⟩
    rcases List.mem_append.mp hx with hx | hx
    · exact .inl hx
    · have hw := I.writers w
      rw [h1] at hw
      obtain ⟨g1, _, _, _, ⟨o, g5, g5'⟩, g6, g7⟩ := hw
      obtain ⟨_, g8, g9⟩ := g7 a 0 rfl
      have hoc : x ∈ content s.heap (p v) := mem_content.mpr ⟨o, List.mem_of_getElem? g5, g5' x hx⟩
      refine .inr ⟨I.tree.used v (by omega) x hoc, g6 s.ver g1 (Nat.le_refl _) x hx, fun i r e => ?_⟩
      have hr := I.readers i r e
      have hre := hp old n held dead _ v h1 i r e
      rcases Nat.lt_or_ge v r.entry with h | h
      · have hn := g6 r.entry h hr.entry x hx
        rw [content_take_drop _ _ (r.depth + 1), ← hr.got] at hn
        simp only [List.mem_append, not_or] at hn
        exact ⟨hn.1.2, hn.2⟩
      · have hev : r.entry = v := by omega
        have hd := g9 i r e hev
        rw [Nat.sub_zero] at hd
        have hnd := I.tree.nodup v (by omega)
        have hxt : x ∈ content s.heap ((p v).take (n + 1)) := by
          refine mem_content.mpr ⟨o, ?_, g5' x hx⟩
          refine List.mem_of_getElem? (i := n) ?_
          rw [List.getElem?_take, if_pos (by omega)]; exact g5
        have hsub : x ∈ content s.heap ((p v).take r.depth) := by
          obtain ⟨b, hb, hbx⟩ := mem_content.mp hxt
          refine mem_content.mpr ⟨b, ?_, hbx⟩
          exact (List.take_subset_take_left _ (by omega)) hb
        have hhere := hr.here
        rw [hev] at hhere ⊢
        have hsplit := content_split (h := s.heap) hhere
        rw [hsplit] at hnd
        have hnot := (List.nodup_append.mp hnd).2.2 x hsub
        refine ⟨fun ht => ?_, fun ht => hnot x (List.mem_append_right _ ht) rfl⟩
        -- the node's resources are not among those of the nodes above
        obtain ⟨d, hd'⟩ := hr.last
        have : x ∈ (s.heap r.addr).refs := by rw [hd']; exact List.mem_append_right _ ht
        exact hnot x (List.mem_append_left _ this) rfl
  | rest w old n dead v h1 => exact plain (inv_idle I s.claim (.inl rfl)) rfl (fun _ h => h) rfl

end Splinter.Trunk.Cow
