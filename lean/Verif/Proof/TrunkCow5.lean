import Verif.Proof.TrunkCow4

/-! # Proofs about changing the trunk under running lookups: publishing, copying down, changing -/
namespace Splinter.Trunk.Cow

variable {R α : Type} {V : List R → α} {p : Nat → List Nat} {s : State R} {w : Nat}

theorem spine_old (h : Nat → Node R) (ls : List (List R)) (nxt : Option Nat) (a b : Nat) (hb : b < a) :
    spine h a ls nxt b = h b := by
  induction ls generalizing a with
  | nil => rfl
  | cons l ls ih =>
    cases ls with
    | nil => exact upd_ne _ _ (by omega)
    | cons l' ls =>
      rw [spine, upd_ne _ _ (by omega)]
      exact ih (a + 1) (by omega)

theorem spine_path (h : Nat → Node R) (ls : List (List R)) (nxt : Option Nat) (a : Nat) (rest : List Nat)
    (hne : ls ≠ []) (hn : nxt = rest[0]?) (hp : ∀ b, nxt = some b → Path h b rest)
    (hl : ∀ b ∈ rest, b < a) :
    Path (spine h a ls nxt) a (List.range' a ls.length ++ rest) ∧
      content (spine h a ls nxt) (List.range' a ls.length ++ rest) = ls.flatten ++ content h rest := by
  induction ls generalizing a with
  | nil => exact (hne rfl).elim
  | cons l ls ih =>
    cases ls with
    | nil =>
      have e : spine h a [l] nxt a = ⟨nxt, l⟩ := upd_same _ _ _
      have hc : content (spine h a [l] nxt) rest = content h rest :=
        content_congr fun b hb => by rw [spine_old _ _ _ _ _ (hl b hb)]
      refine ⟨?_, ?_⟩
      · show Path _ a (a :: rest)
        cases hnx : nxt with
        | none =>
          have : rest = [] := by
            cases rest with
            | nil => rfl
            | cons b r => rw [hnx] at hn; simp at hn
          subst this
          exact .leaf (by rw [← hnx, e, hnx])
        | some b =>
          rw [← hnx]
          refine .down (c := b) (by rw [e, hnx]) ((hp b hnx).congr fun x hx => ?_)
          rw [spine_old _ _ _ _ _ (hl x hx)]
      · show content _ (a :: rest) = _
        rw [content_cons, e, hc]; simp
    | cons l' ls =>
      obtain ⟨h1, h2⟩ := ih (a + 1) (by simp) (fun b hb => by have := hl b hb; omega)
      have e : spine h a (l :: l' :: ls) nxt a = ⟨some (a + 1), l⟩ := upd_same _ _ _
      have e' : ∀ b ∈ List.range' (a + 1) (l' :: ls).length ++ rest,
          spine h a (l :: l' :: ls) nxt b = spine h (a + 1) (l' :: ls) nxt b := by
        intro b hb
        refine upd_ne _ _ ?_
        rcases List.mem_append.mp hb with hb | hb
        · have := (List.mem_range'_1.mp hb).1; omega
        · have := hl b hb; omega
      refine ⟨.down (c := a + 1) (by rw [e]) (h1.congr fun b hb => by rw [e' b hb]), ?_⟩
      show content _ (a :: (List.range' (a + 1) (l' :: ls).length ++ rest)) = _
      rw [content_cons, e, content_congr (h := spine h (a + 1) (l' :: ls) nxt) (fun b hb => by rw [e' b hb]), h2]
      simp

theorem inv_publish (I : Inv V p s) {acc : List R} {nxt : Option Nat} {k : Nat} {z : List R}
    {ls : List (List R)} (hs : s.writers w = .building acc nxt k)
    (hne : ls ≠ []) (hf : ls.flatten = z ++ acc) (hz : z.Nodup) (hfr : ∀ x ∈ z, x ∉ s.used) :
    let s' : State R := { s with
      heap := spine s.heap s.next ls nxt, next := s.next + ls.length, root := s.next
      claim := false, writers := upd s.writers w .idle, used := s.used ++ z, ver := s.ver + 1
      hist := upd s.hist (s.ver + 1) s.next, said := upd s.said (s.ver + 1) (z ++ s.said s.ver) }
    let p' := upd p (s.ver + 1) (List.range' s.next ls.length ++ (p s.ver).drop k)
    Moved p p' s s' w ∧ Inv V p' s' := by
  intro s' p'
  have hw := I.writers w
  rw [hs] at hw
  obtain ⟨h1, h2, h3, h4⟩ := hw
  have P := root_path I
  have hcl : (s.writers w).claiming = true := by rw [hs]; rfl
  have hw' : s'.writers w = .idle := upd_same _ _ _
  have hp : ∀ u, u ≤ s.ver → p' u = p u := fun u hu => upd_ne _ _ (by omega)
  have hpn : p' (s.ver + 1) = List.range' s.next ls.length ++ (p s.ver).drop k := upd_same _ _ _
  have he : ∀ a, a < s.next → s'.heap a = s.heap a := fun a h => spine_old _ _ _ _ _ h
  have hc : ∀ v, v ≤ s.ver → content s'.heap (p v) = content s.heap (p v) := fun v h =>
    content_congr fun a ha => by rw [he a (I.tree.bound v h a ha)]
  obtain ⟨q1, q2⟩ := spine_path s.heap ls nxt s.next ((p s.ver).drop k) hne (by rw [h2]; simp)
    (fun b hb => P.drop k b (by rw [← h2]; exact hb))
    (fun b hb => I.tree.bound _ (Nat.le_refl _) b (List.mem_of_mem_drop hb))
  have hcn : content s'.heap (p' (s.ver + 1)) = z ++ content s.heap (p s.ver) := by
    rw [hpn]
    refine q2.trans ?_
    rw [hf, h1, List.append_assoc, ← content_append, List.take_append_drop]
  have hcase : ∀ u, u ≤ s'.ver → u ≤ s.ver ∨ u = s.ver + 1 := fun u hu => by
    have : u ≤ s.ver + 1 := hu
    omega
  have M : Moved p p' s s' w :=
    { others := fun w' h => upd_ne _ _ h
      own := fun a e => by rw [hw'] at e; simp [Writer.own] at e
      next := Nat.le_add_right _ _
      ver := Nat.le_succ _
      hist := fun v hv => upd_ne _ _ (by omega)
      stay := fun v hv i _ => by rw [hp v hv]
      back := fun u hu a ha => by
        rcases hcase u hu with h | h
        · rw [hp u h] at ha; exact .inl ⟨h, ha⟩
        · subst h
          rw [hpn] at ha
          rcases List.mem_append.mp ha with e | e
          · exact .inr (.inr (.inl (List.mem_range'_1.mp e).1))
          · exact .inr (.inl ⟨Nat.lt_succ_self _, List.mem_of_mem_drop e⟩)
      fwd := fun w' a hne' e u hu => by
        refine ⟨fun h ha => by rw [hp u h]; exact ha, fun h ha => ?_⟩
        have : u = s.ver + 1 := by rcases hcase u hu with h' | h' <;> omega
        subst this
        rw [hpn]
        refine List.mem_append_right _ ?_
        rw [← List.take_append_drop k (p s.ver)] at ha
        rcases List.mem_append.mp ha with e' | e'
        · obtain ⟨i, hi, e2⟩ := List.getElem_of_mem e'
          have hik : i < k := by simp at hi; omega
          refine (h4 i hik a ?_ ⟨_, e⟩).elim
          have := List.getElem?_eq_getElem hi
          rw [e2, List.getElem?_take, if_pos hik] at this
          exact this
        · exact e'
      heap := fun a h _ => he a h
      cont := fun u hu x hx hm => by
        rcases hcase u hu with h | h
        · rw [hp u h, hc u h] at hm; exact .inl ⟨h, hm⟩
        · subst h
          rw [hcn] at hm
          rcases List.mem_append.mp hm with e | e
          · exact (hfr x e hx).elim
          · exact .inr ⟨Nat.lt_succ_self _, e⟩
      readers := rfl
      quiet := .inr (quiet_of_claim I.claims hcl) }
  refine ⟨M, M.inv I ?_ (claims_release I.claims hcl M.others (by rw [hw']; rfl) rfl)
    (by rw [hw']; trivial)⟩
  refine ⟨(upd_same _ _ _).symm, ?_, ?_, ?_, ?_, ?_⟩
  · intro v hv
    rcases hcase v hv with h | h
    · rw [hp v h, M.hist v h]
      exact (I.tree.path v h).congr fun a ha => by rw [he a (I.tree.bound v h a ha)]
    · subst h
      rw [hpn, show s'.hist (s.ver + 1) = s.next from upd_same _ _ _]
      exact q1
  · intro v hv a ha
    rcases hcase v hv with h | h
    · rw [hp v h] at ha; exact Nat.lt_of_lt_of_le (I.tree.bound v h a ha) M.next
    · subst h
      rw [hpn] at ha
      rcases List.mem_append.mp ha with e | e
      · exact (List.mem_range'_1.mp e).2
      · exact Nat.lt_of_lt_of_le (I.tree.bound _ (Nat.le_refl _) a (List.mem_of_mem_drop e)) M.next
  · intro v hv
    rcases hcase v hv with h | h
    · rw [hp v h, hc v h]; exact I.tree.nodup v h
    · subst h; rw [hcn, List.nodup_append]
      refine ⟨hz, I.tree.nodup _ (Nat.le_refl _), fun a ha b hb e => ?_⟩
      subst e; exact hfr a ha (I.tree.used _ (Nat.le_refl _) a hb)
  · intro v hv x hx
    show x ∈ s.used ++ z
    rcases hcase v hv with h | h
    · rw [hp v h, hc v h] at hx; exact List.mem_append_left _ (I.tree.used v h x hx)
    · subst h; rw [hcn] at hx
      rcases List.mem_append.mp hx with e | e
      · exact List.mem_append_right _ e
      · exact List.mem_append_left _ (I.tree.used _ (Nat.le_refl _) x e)
  · intro v hv q
    rcases hcase v hv with h | h
    · rw [hp v h, hc v h, show s'.said v = s.said v from upd_ne _ _ (by omega)]; exact I.tree.says v h q
    · subst h
      rw [hcn, show s'.said (s.ver + 1) = z ++ s.said s.ver from upd_same _ _ _, ← List.append_assoc,
        ← List.append_assoc]
      exact I.tree.says _ (Nat.le_refl _) (q ++ z)

theorem inv_descend (I : Inv V p s) {old cur n v c : Nat} (hs : s.writers w = .walking old cur n v)
    (hcc : (s.heap cur).child = some c) (hl : ¬ Locked s c) :
    let s' : State R := { s with
      heap := upd (upd s.heap s.next (s.heap c)) cur ⟨some s.next, (s.heap cur).refs⟩
      next := s.next + 1
      writers := upd s.writers w (.walking old s.next (n + 1) v) }
    let p' : Nat → List Nat := fun u =>
      if cur ∈ p u then (p u).map fun b => if b = c then s.next else b else p u
    Moved p p' s s' w ∧ Inv V p' s' := by
  intro s' p'
  have hw := I.writers w
  rw [hs] at hw
  obtain ⟨h1, h2, h3, h4, o, h5, h6⟩ := hw
  have hcur : (s.writers w).own = some cur := by rw [hs]; rfl
  have hw' : s'.writers w = .walking old s.next (n + 1) v := upd_same _ _ _
  have hno := not_own hl
  have hcl := h3.1
  have hin : ∀ u, u ≤ s.ver → v < u → p' u = (p u).map fun b => if b = c then s.next else b :=
    fun u hu hv => if_pos ((h3.2 u hu).mpr hv)
  have hout : ∀ u, u ≤ s.ver → ¬ v < u → p' u = p u := fun u hu hv =>
    if_neg fun h => hv ((h3.2 u hu).mp h)
  have hov : (s.heap o).child = some c := by rw [← h6]; exact hcc
  have hcv : (p v)[n + 1]? = some c := (I.tree.path v (by omega)).child h5 hov
  have hcn : c < s.next := I.tree.bound v (by omega) c (List.mem_of_getElem? hcv)
  have hccur : c ≠ cur := fun e => hno ⟨w, by rw [hcur, e]⟩
  have hnew : s'.heap s.next = s.heap c := by
    show upd (upd s.heap s.next (s.heap c)) cur _ s.next = _
    rw [upd_ne _ _ (by omega), upd_same]
  have hhc : s'.heap cur = ⟨some s.next, (s.heap cur).refs⟩ := upd_same _ _ _
  have he : ∀ a, a < s.next → a ≠ cur → s'.heap a = s.heap a := fun a h h' => by
    show upd (upd s.heap s.next (s.heap c)) cur _ a = _
    rw [upd_ne _ _ h', upd_ne _ _ (by omega)]
  have hrefs : ∀ a, a < s.next → (s'.heap a).refs = (s.heap a).refs := fun a h => by
    by_cases e : a = cur
    · subst e; rw [hhc]
    · rw [he a h e]
  have hcont : ∀ u, u ≤ s.ver → content s'.heap (p' u) = content s.heap (p u) := by
    intro u hu
    by_cases hv : v < u
    · rw [hin u hu hv]
      have hb := I.tree.bound u hu
      generalize p u = l at hb
      induction l with
      | nil => rfl
      | cons a l ih =>
        rw [List.map_cons, content_cons, content_cons, ih fun b hb' => hb b (by simp [hb'])]
        congr 1
        by_cases e : a = c
        · subst e; rw [if_pos rfl, hnew]
        · rw [if_neg e]; exact hrefs a (hb a (by simp))
    · rw [hout u hu hv]
      exact content_congr fun a ha => hrefs a (I.tree.bound u hu a ha)
  have hstay : ∀ u, u ≤ s.ver → ∀ i : Nat, (∀ j : Nat, j < i → ∀ a, (p u)[j]? = some a → ¬ Own s a) →
      (p' u)[i]? = (p u)[i]? := by
    intro u hu i hf
    by_cases hv : v < u
    · rw [hin u hu hv, List.getElem?_map]
      cases e : (p u)[i]? with
      | none => rfl
      | some a =>
        have hac : a ≠ c := by
          intro e'; subst e'
          obtain ⟨j, hj, ej⟩ := List.getElem_of_mem ((h3.2 u hu).mpr hv)
          have hj' : (p u)[j]? = some cur := by rw [List.getElem?_eq_getElem hj, ej]
          have hj2 := (I.tree.path u hu).child hj' hcc
          have := (I.tree.path u hu).index hj2 e
          exact hf j (by omega) cur hj' ⟨w, hcur⟩
        simp [hac]
    · rw [hout u hu hv]
  have hback : ∀ u, u ≤ s.ver → ∀ a ∈ p' u, a ∈ p u ∨ a = s.next := by
    intro u hu a ha
    by_cases hv : v < u
    · rw [hin u hu hv] at ha
      obtain ⟨b, hb, e⟩ := List.mem_map.mp ha
      by_cases hbc : b = c
      · rw [if_pos hbc] at e; exact .inr e.symm
      · rw [if_neg hbc] at e; exact .inl (e ▸ hb)
    · rw [hout u hu hv] at ha; exact .inl ha
  have M : Moved p p' s s' w :=
    { others := fun w' h => upd_ne _ _ h
      own := fun a e => by rw [hw'] at e; cases e; exact .inr (Nat.le_refl _)
      next := Nat.le_succ _
      ver := Nat.le_refl _
      hist := fun _ _ => rfl
      stay := hstay
      back := fun u hu a ha => by
        rcases hback u hu a ha with h | h
        · exact .inl ⟨hu, h⟩
        · exact .inr (.inr (.inl (by omega)))
      fwd := fun w' a hne e u hu => by
        refine ⟨fun h ha => ?_, fun h => absurd hu (by show ¬ u ≤ s.ver; omega)⟩
        by_cases hv : v < u
        · rw [hin u h hv]
          refine List.mem_map.mpr ⟨a, ha, if_neg fun e' => ?_⟩
          subst e'; exact hno ⟨_, e⟩
        · rw [hout u h hv]; exact ha
      heap := fun a h h' => he a h fun e => h' (by rw [hcur, e])
      cont := fun u hu x _ hm => .inl ⟨hu, by rwa [hcont u hu] at hm⟩
      readers := rfl
      quiet := .inl ⟨rfl, rfl⟩ }
  refine ⟨M, M.inv I ?_ ?_ ?_⟩
  · refine ⟨I.tree.root, ?_, ?_, ?_, ?_, ?_⟩
    · intro u hu
      by_cases hv : v < u
      · rw [hin u hu hv]
        refine (I.tree.path u hu).replace hcc ((h3.2 u hu).mpr hv) ?_ (by rw [hhc]) (by rw [hnew]) ?_
        · intro hm; have := I.tree.bound u hu _ hm; omega
        · intro b hb hne; rw [he b (I.tree.bound u hu b hb) hne]
      · rw [hout u hu hv]
        refine (I.tree.path u hu).congr fun a ha => ?_
        rw [he a (I.tree.bound u hu a ha)]
        intro e; subst e; exact hv ((h3.2 u hu).mp ha)
    · intro u hu a ha
      show a < s.next + 1
      rcases hback u hu a ha with h | h
      · have := I.tree.bound u hu a h; omega
      · omega
    · intro u hu; rw [hcont u hu]; exact I.tree.nodup u hu
    · intro u hu; rw [hcont u hu]; exact I.tree.used u hu
    · intro u hu; rw [hcont u hu]; exact I.tree.says u hu
  · have key : ∀ w', (s'.writers w').claiming = true → (s.writers w').claiming = true := by
      intro w' h
      by_cases e : w' = w
      · subst e; rw [hw'] at h; simp [Writer.claiming] at h
      · rwa [M.others w' e] at h
    exact ⟨fun w' h => I.claims.flag w' (key w' h), fun w1 w2 e1 e2 => I.claims.one _ _ (key _ e1) (key _ e2),
      I.claims.crash⟩
  · rw [hw']
    have hpv : p' v = p v := hout v (by omega) (by omega)
    refine ⟨h1, h2, ⟨Nat.lt_succ_self _, ?_⟩, ?_, c, by rw [hpv]; exact hcv, ?_⟩
    · intro u hu
      refine ⟨fun hm => Classical.byContradiction fun hv => ?_, fun hv => ?_⟩
      · rw [hout u hu hv] at hm
        have := I.tree.bound u hu _ hm; omega
      · rw [hin u hu hv]
        obtain ⟨j, hj, ej⟩ := List.getElem_of_mem ((h3.2 u hu).mpr hv)
        have hj2 := (I.tree.path u hu).child (i := j) (by rw [List.getElem?_eq_getElem hj, ej]) hcc
        exact List.mem_map.mpr ⟨c, List.mem_of_getElem? hj2, if_pos rfl⟩
    · intro i hi a e
      rw [hpv] at e
      by_cases hin' : i = n + 1
      · subst hin'
        rw [hcv] at e; cases e
        refine ⟨M.final hno hcn, fun u hu hu' hm => ?_⟩
        rw [hin u hu' hu] at hm
        obtain ⟨b, hb, e⟩ := List.mem_map.mp hm
        by_cases hbc : b = c
        · rw [if_pos hbc] at e; omega
        · rw [if_neg hbc] at e; exact hbc e
      · have := M.prefixOk I h1 h4 i (by omega) a (by rw [hpv]; exact e)
        exact this
    · rw [hnew, he c hcn hccur]

theorem content_split {h : Nat → Node R} {l : List Nat} {i a : Nat} (e : l[i]? = some a) :
    content h l = content h (l.take i) ++ ((h a).refs ++ content h (l.drop (i + 1))) := by
  conv => lhs; rw [← List.take_append_drop i l]
  rw [content_append, List.drop_eq_getElem_cons (List.getElem?_eq_some_iff.mp e).1,
    (List.getElem?_eq_some_iff.mp e).2, content_cons]

theorem inv_modify (I : Inv V p s) {old cur n v : Nat} {y dead f : List R}
    (hs : s.writers w = .walking old cur n v)
    (hk : Keeps V (s.heap cur).child.isNone (s.heap cur).refs y)
    (hy : y.Nodup) (hf : ∀ x ∈ y, x ∈ (s.heap cur).refs ∨ x ∉ s.used)
    (hd : ∀ x ∈ dead, x ∈ (s.heap cur).refs ∧ x ∉ y) :
    let s' : State R := { s with
      heap := upd s.heap cur ⟨(s.heap cur).child, y⟩, used := s.used ++ y, freed := f
      writers := upd s.writers w (.modified old n (some cur) dead .notYet v) }
    Moved p p s s' w ∧ Inv V p s' ∧
      ∀ u, v < u → u ≤ s.ver → ∀ x, x ∈ (s.heap cur).refs → x ∉ y → x ∉ content s'.heap (p u) := by
  intro s'
  have hw := I.writers w
  rw [hs] at hw
  obtain ⟨h1, h2, h3, h4, o, h5, h6⟩ := hw
  have hcur : (s.writers w).own = some cur := by rw [hs]; rfl
  have hw' : s'.writers w = .modified old n (some cur) dead .notYet v := upd_same _ _ _
  have hhc : s'.heap cur = ⟨(s.heap cur).child, y⟩ := upd_same _ _ _
  have he : ∀ a, a ≠ cur → s'.heap a = s.heap a := fun a h => upd_ne _ _ h
  have hchild : ∀ a, (s'.heap a).child = (s.heap a).child := fun a => by
    by_cases e : a = cur
    · subst e; rw [hhc]
    · rw [he a e]
  have hout : ∀ u, u ≤ s.ver → ¬ v < u → content s'.heap (p u) = content s.heap (p u) := fun u hu hv =>
    content_congr fun a ha => by
      rw [he a]; intro e; subst e; exact hv ((h3.2 u hu).mp ha)
  -- what the pages of a path with `cur` in it hold, before and after
  have hin : ∀ u, u ≤ s.ver → v < u → ∃ i, (p u)[i]? = some cur ∧
      content s.heap (p u) = content s.heap ((p u).take i) ++ ((s.heap cur).refs ++ content s.heap ((p u).drop (i + 1))) ∧
      content s'.heap (p u) = content s.heap ((p u).take i) ++ (y ++ content s.heap ((p u).drop (i + 1))) := by
    intro u hu hv
    obtain ⟨i, hi, ei⟩ := List.getElem_of_mem ((h3.2 u hu).mpr hv)
    have hi' : (p u)[i]? = some cur := by rw [List.getElem?_eq_getElem hi, ei]
    have hnd := (I.tree.path u hu).nodup
    refine ⟨i, hi', content_split hi', ?_⟩
    have hmem : ∀ j a, (p u)[j]? = some a → j ≠ i → a ≠ cur := by
      intro j a ej hj e; subst e
      exact hj ((I.tree.path u hu).index ej hi')
    rw [content_split hi', hhc]
    congr 1
    · refine content_congr fun a ha => by
        obtain ⟨j, hj, ej⟩ := List.getElem_of_mem ha
        have hji : j < i := by simp at hj; omega
        rw [he a]
        refine hmem j a ?_ (by omega)
        have := List.getElem?_eq_getElem hj
        rwa [ej, List.getElem?_take, if_pos hji] at this
    · congr 1
      refine content_congr fun a ha => by
        obtain ⟨j, hj, ej⟩ := List.getElem_of_mem ha
        rw [he a]
        refine hmem (i + 1 + j) a ?_ (by omega)
        have := List.getElem?_eq_getElem hj
        rwa [ej, List.getElem?_drop] at this
  have hgone : ∀ u, v < u → u ≤ s.ver → ∀ x, x ∈ (s.heap cur).refs → x ∉ y → x ∉ content s'.heap (p u) := by
    intro u hv hu x hx hxy hm
    obtain ⟨i, _, e1, e2⟩ := hin u hu hv
    have hnd := I.tree.nodup u hu
    rw [e1] at hnd
    rw [e2] at hm
    simp only [List.mem_append] at hm
    simp only [List.nodup_append] at hnd
    obtain ⟨_, ⟨_, _, n1⟩, n2⟩ := hnd
    rcases hm with hm | hm | hm
    · exact n2 x hm x (List.mem_append_left _ hx) rfl
    · exact hxy hm
    · exact n1 x hx x hm rfl
  have M : Moved p p s s' w :=
    { others := fun w' h => upd_ne _ _ h
      own := fun a e => by rw [hw'] at e; rw [hs]; exact .inl e
      next := Nat.le_refl _
      ver := Nat.le_refl _
      hist := fun _ _ => rfl
      stay := fun _ _ _ _ => rfl
      back := fun u hu a ha => .inl ⟨hu, ha⟩
      fwd := fun w' a _ _ u hu => ⟨fun _ h => h, fun h => absurd hu (by show ¬ u ≤ s.ver; omega)⟩
      heap := fun a _ h => he a fun e => h (by rw [hcur, e])
      cont := fun u hu x hx hm => by
        refine .inl ⟨hu, ?_⟩
        by_cases hv : v < u
        · obtain ⟨i, _, e1, e2⟩ := hin u hu hv
          rw [e2] at hm; rw [e1]
          simp only [List.mem_append] at hm ⊢
          rcases hm with hm | hm | hm
          · exact .inl hm
          · rcases hf x hm with h | h
            · exact .inr (.inl h)
            · exact (h hx).elim
          · exact .inr (.inr hm)
        · rwa [hout u hu hv] at hm
      readers := rfl
      quiet := .inl ⟨rfl, rfl⟩ }
  refine ⟨M, M.inv I ?_ ?_ ?_, hgone⟩
  · refine ⟨I.tree.root, fun u hu => (I.tree.path u hu).congr fun a _ => hchild a, I.tree.bound, ?_, ?_, ?_⟩
    · intro u hu
      by_cases hv : v < u
      · obtain ⟨i, _, e1, e2⟩ := hin u hu hv
        have hnd := I.tree.nodup u hu
        have hus := I.tree.used u hu
        rw [e1] at hnd hus
        rw [e2]
        simp only [List.nodup_append] at hnd ⊢
        obtain ⟨n0, ⟨_, n3, n1⟩, n2⟩ := hnd
        refine ⟨n0, ⟨hy, n3, fun a ha b hb e => ?_⟩, fun a ha b hb e => ?_⟩
        · subst e
          rcases hf a ha with h | h
          · exact n1 a h a hb rfl
          · exact h (hus a (by simp [hb]))
        · subst e
          rcases List.mem_append.mp hb with hb | hb
          · rcases hf a hb with h | h
            · exact n2 a ha a (List.mem_append_left _ h) rfl
            · exact h (hus a (by simp [ha]))
          · exact n2 a ha a (List.mem_append_right _ hb) rfl
      · rw [hout u hu hv]; exact I.tree.nodup u hu
    · intro u hu x hx
      show x ∈ s.used ++ y
      by_cases hv : v < u
      · obtain ⟨i, _, e1, e2⟩ := hin u hu hv
        have hus := I.tree.used u hu
        rw [e1] at hus
        rw [e2] at hx
        simp only [List.mem_append] at hx hus ⊢
        rcases hx with hx | hx | hx
        · exact .inl (hus x (.inl hx))
        · exact .inr hx
        · exact .inl (hus x (.inr (.inr hx)))
      · rw [hout u hu hv] at hx; exact List.mem_append_left _ (I.tree.used u hu x hx)
    · intro u hu q
      refine Eq.trans ?_ (I.tree.says u hu q)
      by_cases hv : v < u
      · obtain ⟨i, hi, e1, e2⟩ := hin u hu hv
        rw [e1, e2]
        have := hk (q ++ content s.heap ((p u).take i)) (content s.heap ((p u).drop (i + 1))) ?_
        · simpa [List.append_assoc] using this.symm
        · intro hleaf
          have hn : (s.heap cur).child = none := by simpa using hleaf
          have := (I.tree.path u hu).last hi hn
          rw [List.drop_of_length_le (by omega)]; rfl
      · rw [hout u hu hv]
  · have key : ∀ w', (s'.writers w').claiming = true → (s.writers w').claiming = true := by
      intro w' h
      by_cases e : w' = w
      · subst e; rw [hw'] at h; simp [Writer.claiming] at h
      · rwa [M.others w' e] at h
    exact ⟨fun w' h => I.claims.flag w' (key w' h), fun w1 w2 e1 e2 => I.claims.one _ _ (key _ e1) (key _ e2),
      I.claims.crash⟩
  · rw [hw']
    refine ⟨h1, h2, ?_, M.prefixOk I h1 h4, ⟨o, h5, fun x hx => ?_⟩, fun u hu hu' x hx =>
      hgone u hu hu' x (hd x hx).1 (hd x hx).2, fun a left e => by cases e⟩
    · intro c e; cases e; exact h3
    · rw [he o]
      · rw [← h6]; exact (hd x hx).1
      · intro e
        exact (h4 n (Nat.le_refl _) o h5).1 ⟨w, by rw [hcur, e]⟩

end Splinter.Trunk.Cow
