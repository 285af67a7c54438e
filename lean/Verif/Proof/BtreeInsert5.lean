import Verif.Proof.BtreeInsert4
/-!
Growing the root and splitting a page.
-/
namespace Splinter.BtreeIns
open Btree Search

variable {K M : Type} [LinearOrder K] [BoundedOrder K]

/-- `btree_grow_root`. -/
theorem growRoot_spec {st st' : Store K M} {root H new : Nat} {lv : Nat → List (K × Nat)}
    (T : Whole st root H lv) (he : growRoot st root new = some st') :
    ∃ lv' f, Whole st' root (H + 1) lv' ∧ Ext root [root] st H lv st' (H + 1) lv' ∧
      items st' lv' = items st lv ∧ firstKey st root = some f ∧ kids st' root = [(f, new)] := by
  obtain ⟨S, L⟩ := T
  have hm : (⊥, root) ∈ lv H := by rw [S.top]; simp
  unfold growRoot at he
  split at he
  · rename_i n f hn hf
    split at he
    · rename_i hfr
      simp only [isFresh, Bool.and_eq_true, Option.isNone_iff_eq_none, bne_iff_ne, ne_eq] at hfr
      simp only [Option.some.injEq] at he
      have hnr : new ≠ root := by rintro rfl; rw [hn] at hfr; simp at hfr
      obtain ⟨n', e1, e2, e3⟩ := S.page H le_rfl _ hm
      simp only at e1
      rw [hn] at e1
      obtain rfl : n = n' := by injection e1
      have hroot : st' root = some { n with height := n.height + 1, body := .index [⟨f, new, unknown⟩] } := by
        rw [← he]; simp [setAt]
      have hnew : st' new = some n := by rw [← he]; simp [setAt, hnr]
      have hne : ∀ x, x ≠ root → x ≠ new → st' x = st x := by
        intro x h1 h2; rw [← he]; simp [setAt, h1, h2]
      have hcore : ∀ x, x ≠ root → x ≠ new → (st' x).map core = (st x).map core := by
        intro x h1 h2; rw [hne x h1 h2]
      -- the page at `new` is the old root
      have hcopy : kids st' new = kids st root ∧ cont st' new = cont st root ∧
          firstKey st' new = firstKey st root ∧ (∀ g, Page st g root → Page st' g new) := by
        have e : st' new = st root := by rw [hnew, hn]
        refine ⟨by simp [kids, entsOf, e], by simp [cont, leafOf, e], by simp [firstKey, e], ?_⟩
        intro g ⟨x, h1, h2⟩
        exact ⟨x, by rw [e]; exact h1, h2⟩
      have hpr : Page st' (H + 1) root :=
        ⟨_, hroot, by simp [e2], .inr ⟨by omega, _, rfl, by simp⟩⟩
      obtain ⟨_, es, _, _, _, _, f5, f6, f7⟩ := hpr.index (by omega)
      have hes : es = [⟨f, new, unknown⟩] := by
        rw [entsOf_eq hroot rfl] at f5; injection f5 with f5; exact f5.symm
      subst hes
      have hlt : ∀ g < H, ∀ q ∈ lv g, q.2 ≠ root ∧ q.2 ≠ new := by
        intro g hg q hq
        constructor
        · intro h
          have := S.level (a := root) (Nat.le_of_lt hg) le_rfl (h ▸ List.mem_map_of_mem hq)
            (List.mem_map.2 ⟨_, hm, rfl⟩)
          omega
        · intro h
          obtain ⟨x, hx, _⟩ := S.page g (Nat.le_of_lt hg) q hq
          rw [h, hfr.1] at hx; cases hx
      obtain ⟨lv', hlv'⟩ : ∃ lv', lv' = upd (upd lv H [(f, new)]) (H + 1) [(⊥, root)] := ⟨_, rfl⟩
      have hl1 : lv' (H + 1) = [(⊥, root)] := by rw [hlv', upd_self]
      have hl0 : lv' H = [(f, new)] := by rw [hlv', upd_ne (by omega), upd_self]
      have hl : ∀ g < H, lv' g = lv g := by
        intro g hg; rw [hlv', upd_ne (by omega), upd_ne (by omega)]
      have hitems : items st' lv' = items st lv := by
        unfold items
        by_cases h0 : H = 0
        · subst h0
          rw [hl0, S.top]; simp [hcopy.2.1]
        · rw [hl 0 (by omega)]
          apply flatMap_same
          intro q hq
          obtain ⟨a, b⟩ := hlt 0 (by omega) q hq
          exact (same_kids (hcore q.2 a b)).2.1
      refine ⟨lv', f, ⟨⟨hl1, ?_, ?_, ?_, ?_, ?_, ?_⟩, ⟨?_, ?_, ?_⟩⟩, ⟨?_, ?_, ?_, by omega, .inr (by simp), ?_, ?_⟩,
        hitems, hf, by rw [f6]; rfl⟩
      · intro g hg q hq
        rcases Nat.lt_or_ge g H with h | h
        · rw [hl g h] at hq
          obtain ⟨a, b⟩ := hlt g h q hq
          exact (same_kids (hcore q.2 a b)).2.2.2 g (S.page g (by omega) q hq)
        · rcases Nat.lt_or_ge H g with h' | h'
          · obtain rfl : g = H + 1 := by omega
            rw [hl1] at hq
            simp only [List.mem_singleton] at hq
            subst hq; exact hpr
          · obtain rfl : g = H := by omega
            rw [hl0] at hq
            simp only [List.mem_singleton] at hq
            subst hq; exact hcopy.2.2.2 _ (S.page g le_rfl _ hm)
      · intro g hg
        rcases Nat.lt_or_ge g H with h | h
        · rw [hl g h, S.kids g h]
          rcases Nat.lt_or_ge (g + 1) H with h' | h'
          · rw [hl (g + 1) h']
            apply flatMap_same
            intro q hq
            obtain ⟨a, b⟩ := hlt (g + 1) h' q hq
            exact (same_kids (hcore q.2 a b)).1.symm
          · obtain rfl : H = g + 1 := by omega
            rw [hl0, S.top]; simp [hcopy.1]
        · obtain rfl : g = H := by omega
          rw [hl0, hl1]; simp [f6]
      · intro g hg
        rcases Nat.lt_or_ge g H with h | h
        · rw [hl g h]; exact S.nodup g (by omega)
        · rcases Nat.lt_or_ge H g with h' | h'
          · obtain rfl : g = H + 1 := by omega
            rw [hl1]; simp
          · obtain rfl : g = H := by omega
            rw [hl0]; simp
      · intro g hg q hq
        rcases Nat.lt_or_ge g H with h | h
        · rw [hl g h] at hq; exact S.nz g (by omega) q hq
        · rcases Nat.lt_or_ge H g with h' | h'
          · obtain rfl : g = H + 1 := by omega
            rw [hl1] at hq
            simp only [List.mem_singleton] at hq
            subst hq; exact S.nz H le_rfl _ hm
          · obtain rfl : g = H := by omega
            rw [hl0] at hq
            simp only [List.mem_singleton] at hq
            subst hq; exact hfr.2
      · intro g hg
        rcases Nat.lt_or_ge g H with h | h
        · rw [hl g h]; exact S.sorted g (by omega)
        · rcases Nat.lt_or_ge H g with h' | h'
          · obtain rfl : g = H + 1 := by omega
            rw [hl1]; simp
          · obtain rfl : g = H := by omega
            rw [hl0]; simp
      · intro g hg A q B hq y hy
        rcases Nat.lt_or_ge g H with h | h
        · rw [hl g h] at hq
          obtain ⟨a, b⟩ := hlt g h q (by rw [hq]; simp)
          rw [(same_kids (hcore q.2 a b)).2.2.1] at hy
          exact S.first g (by omega) A q B hq y hy
        · have one : ∀ z : K × Nat, [z] = A ++ q :: B → A = [] ∧ q = z := by
            intro z hz
            cases A with
            | nil => simp at hz; exact ⟨rfl, hz.1.symm⟩
            | cons w A => simp at hz
          rcases Nat.lt_or_ge H g with h' | h'
          · obtain rfl : g = H + 1 := by omega
            rw [hl1] at hq
            obtain ⟨rfl, rfl⟩ := one _ hq
            exact ⟨bot_le, by simp⟩
          · obtain rfl : g = H := by omega
            rw [hl0] at hq
            obtain ⟨rfl, rfl⟩ := one _ hq
            simp only at hy ⊢
            rw [hcopy.2.2.1, hf] at hy
            simp only [Option.mem_def, Option.some.injEq] at hy
            subst hy
            exact ⟨le_rfl, by simp⟩
      · have : ((lv' 0).flatMap fun q => cont st' q.2) = items st lv := hitems
        rw [this]; exact L.sorted
      · by_cases h0 : H = 0
        · subst h0
          have hc := L.chain
          rw [S.top] at hc
          rw [hl0]
          obtain ⟨⟨x, x1, x2, x3⟩, _⟩ := hc
          simp only at x1
          rw [hn] at x1
          cases x1
          exact ⟨⟨n, hnew, x2, x3⟩, trivial⟩
        · rw [hl 0 (by omega)]
          refine linked_congr (fun y hy => ?_) L.chain
          obtain ⟨q, hq, rfl⟩ := List.mem_map.1 hy
          obtain ⟨a, b⟩ := hlt 0 (by omega) q hq
          rw [hne q.2 a b]
      · intro _ q hq
        by_cases h0 : H = 0
        · subst h0
          rw [hl0] at hq
          simp only [List.mem_singleton] at hq
          subst hq
          simp only
          rw [hcopy.2.1]
          obtain ⟨_, es, _, _, _, _, g5, g6⟩ := (S.page 0 le_rfl _ hm).leaf
          simp only at g5 g6
          rw [g5]
          rintro rfl
          rw [hf] at g6
          simp at g6
        · rw [hl 0 (by omega)] at hq
          obtain ⟨a, b⟩ := hlt 0 (by omega) q hq
          rw [(same_kids (hcore q.2 a b)).2.1]
          exact L.ne h0 q hq
      · intro x hx hx'
        simp only [List.mem_singleton] at hx'
        have := same_kids (hcore x hx' (by rintro rfl; exact hx hfr.1))
        exact ⟨this.1, this.2.1⟩
      · intro x hx
        by_cases h1 : x = root
        · rw [h1, hroot]; simp
        · by_cases h2 : x = new
          · rw [h2, hnew]; simp
          · rw [hne x h1 h2]; exact hx
      · intro g hg k b a ha h
        simp only [List.mem_singleton] at ha
        refine ⟨b, le_rfl, ?_⟩
        obtain ⟨A, B, q1, q2, q3⟩ := h
        rcases Nat.lt_or_ge g H with h' | h'
        · exact ⟨A, B, by rw [hl g h']; exact q1, q2, q3⟩
        · obtain rfl : g = H := by omega
          exfalso
          rw [S.top] at q1
          cases A with
          | nil => simp at q1; exact ha q1.1.2.symm
          | cons w A => simp at q1
      · intro q hq
        by_cases h0 : H = 0
        · subst h0; rw [S.top] at hq; simp at hq
        · rw [hl 0 (by omega)]; exact hq
      · intro q hq
        by_cases h0 : H = 0
        · subst h0
          rw [hl0, List.mem_singleton] at hq
          subst hq
          exact .inr ⟨hfr.1, root, by simp, List.mem_map_of_mem hm⟩
        · rw [hl 0 (by omega)] at hq
          exact .inl (List.mem_map_of_mem hq)
    · cases he
  · cases he

/-- Splitting a page: the parent gets one more child. -/
theorem Skel.split {st st' : Store K M} {root H h p c new : Nat} {lv : Nat → List (K × Nat)} {pb b piv : K}
    {PA PB E1 E2 : List (K × Nat)} (S : Skel st root H lv) (hh : h < H)
    (ep : lv (h + 1) = PA ++ (pb, p) :: PB) (ek : BtreeIns.kids st p = E1 ++ (b, c) :: E2)
    (hnew : st new = none) (hnz : new ≠ 0)
    (hcore : ∀ x, x ≠ p → x ≠ c → x ≠ new → (st' x).map core = (st x).map core)
    (hP : Page st' (h + 1) p) (hkp : BtreeIns.kids st' p = E1 ++ (b, c) :: (piv, new) :: E2)
    (hC : Page st' h c) (hN : Page st' h new)
    (hfc : ∀ f ∈ firstKey st' c, b ≤ f ∧ (E1 ≠ [] ∨ PA ≠ [] → b = f))
    (hfn : firstKey st' new = some piv) (hb : b < piv)
    (hn : ∀ q ∈ E2 ++ PB.flatMap (fun q => BtreeIns.kids st q.2), piv < q.1)
    (hk : h ≠ 0 → BtreeIns.kids st' c ++ BtreeIns.kids st' new = BtreeIns.kids st c) :
    ∃ A B, lv h = A ++ (b, c) :: B ∧
      A = PA.flatMap (fun q => BtreeIns.kids st q.2) ++ E1 ∧ B = E2 ++ PB.flatMap (fun q => BtreeIns.kids st q.2) ∧
      Skel st' root H (upd lv h (A ++ (b, c) :: (piv, new) :: B)) := by
  obtain ⟨A, hA⟩ : ∃ A, A = PA.flatMap (fun q => BtreeIns.kids st q.2) ++ E1 := ⟨_, rfl⟩
  obtain ⟨B, hB⟩ : ∃ B, B = E2 ++ PB.flatMap (fun q => BtreeIns.kids st q.2) := ⟨_, rfl⟩
  have hlow : lv h = A ++ (b, c) :: B := by
    rw [S.kids h hh, ep, List.flatMap_append, List.flatMap_cons, ek, hA, hB]; simp
  refine ⟨A, B, hlow, hA, hB, ?_⟩
  have hpm : (pb, p) ∈ lv (h + 1) := by rw [ep]; simp
  have hcm : (b, c) ∈ lv h := by rw [hlow]; simp
  have hnn : ∀ g ≤ H, ∀ q ∈ lv g, q.2 ≠ new := by
    intro g hg q hq h'
    obtain ⟨x, hx, _⟩ := S.page g hg q hq
    rw [h', hnew] at hx; cases hx
  have hpl : ∀ g ≤ H, ∀ q ∈ lv g, q.2 = p → g = h + 1 := by
    intro g hg q hq h'
    exact S.level (a := p) hg hh (h' ▸ List.mem_map_of_mem hq) (List.mem_map.2 ⟨_, hpm, rfl⟩)
  have hcl : ∀ g ≤ H, ∀ q ∈ lv g, q.2 = c → g = h := by
    intro g hg q hq h'
    exact S.level (a := c) hg (by omega) (h' ▸ List.mem_map_of_mem hq) (List.mem_map.2 ⟨_, hcm, rfl⟩)
  have hndp := S.nodup (h + 1) hh
  have hndc := S.nodup h (by omega)
  rw [ep] at hndp
  rw [hlow] at hndc
  have hABc : ∀ x ∈ A ++ B, x.2 ≠ c := mid_ne hndc
  have hPABp : ∀ x ∈ PA ++ PB, x.2 ≠ p := mid_ne hndp
  have hABl : ∀ x ∈ A ++ B, x ∈ lv h := by
    intro x hx; rw [hlow]; simp only [List.mem_append, List.mem_cons] at hx ⊢; tauto
  have hPABl : ∀ x ∈ PA ++ PB, x ∈ lv (h + 1) := by
    intro x hx; rw [ep]; simp only [List.mem_append, List.mem_cons] at hx ⊢; tauto
  have sAB : ∀ x ∈ A ++ B, (st' x.2).map core = (st x.2).map core := by
    intro x hx
    refine hcore x.2 (fun h' => ?_) (hABc x hx) (hnn h (by omega) x (hABl x hx))
    have := hpl h (by omega) x (hABl x hx) h'
    omega
  have sPAB : ∀ x ∈ PA ++ PB, (st' x.2).map core = (st x.2).map core := by
    intro x hx
    refine hcore x.2 (hPABp x hx) (fun h' => ?_) (hnn (h + 1) hh x (hPABl x hx))
    have := hcl (h + 1) hh x (hPABl x hx) h'
    omega
  have sOther : ∀ g ≤ H, g ≠ h → g ≠ h + 1 → ∀ x ∈ lv g, (st' x.2).map core = (st x.2).map core := by
    intro g hg g1 g2 x hx
    exact hcore x.2 (fun h' => g2 (hpl g hg x hx h')) (fun h' => g1 (hcl g hg x hx h')) (hnn g hg x hx)
  obtain ⟨lv', hlv'⟩ : ∃ lv', lv' = upd lv h (A ++ (b, c) :: (piv, new) :: B) := ⟨_, rfl⟩
  rw [← hlv']
  have hl0 : lv' h = A ++ (b, c) :: (piv, new) :: B := by rw [hlv', upd_self]
  have hl : ∀ g, g ≠ h → lv' g = lv g := fun g hg => by rw [hlv', upd_ne hg]
  have hsort := S.sorted h (by omega)
  refine ⟨by rw [hl H (by omega)]; exact S.top, ?_, ?_, ?_, ?_, ?_, ?_⟩
  · intro g hg q hq
    by_cases g1 : g = h
    · subst g1
      rw [hl0] at hq
      have : q ∈ A ++ B ∨ q = (b, c) ∨ q = (piv, new) := by
        simp only [List.mem_append, List.mem_cons] at hq ⊢; tauto
      rcases this with h' | rfl | rfl
      · exact (same_kids (sAB q h')).2.2.2 g (S.page g hg q (hABl q h'))
      · exact hC
      · exact hN
    · rw [hl g g1] at hq
      by_cases g2 : g = h + 1
      · subst g2
        rw [ep] at hq
        have : q ∈ PA ++ PB ∨ q = (pb, p) := by
          simp only [List.mem_append, List.mem_cons] at hq ⊢; tauto
        rcases this with h' | rfl
        · exact (same_kids (sPAB q h')).2.2.2 _ (S.page _ hg q (hPABl q h'))
        · exact hP
      · exact (same_kids (sOther g hg g1 g2 q hq)).2.2.2 g (S.page g hg q hq)
  · intro g hg
    by_cases g1 : g = h
    · subst g1
      rw [hl0, hl (g + 1) (by omega), ep, List.flatMap_append, List.flatMap_cons, hkp, hA, hB]
      rw [flatMap_same (l := PA) fun q hq => (same_kids (sPAB q (by simp [hq]))).1,
        flatMap_same (l := PB) fun q hq => (same_kids (sPAB q (by simp [hq]))).1]
      simp
    · rw [hl g g1, S.kids g hg]
      by_cases g2 : g + 1 = h
      · subst g2
        rw [hl0, hlow, List.flatMap_append, List.flatMap_append, List.flatMap_cons, List.flatMap_cons,
          List.flatMap_cons]
        rw [flatMap_same (l := A) fun q hq => (same_kids (sAB q (by simp [hq]))).1,
          flatMap_same (l := B) fun q hq => (same_kids (sAB q (by simp [hq]))).1]
        have := hk (by omega)
        simp only
        rw [← this]
        simp
      · rw [hl (g + 1) g2]
        by_cases g3 : g + 1 = h + 1
        · omega
        · apply flatMap_same
          intro q hq
          exact (same_kids (sOther (g + 1) hg g2 g3 q hq)).1.symm
  · intro g hg
    by_cases g1 : g = h
    · subst g1
      rw [hl0]
      have hperm : (A ++ (b, c) :: (piv, new) :: B).Perm ((piv, new) :: (A ++ (b, c) :: B)) := by
        have := @List.perm_middle _ (piv, new) (A ++ [(b, c)]) B
        simpa using this
      rw [(hperm.map (·.2)).nodup_iff, List.map_cons, List.nodup_cons]
      refine ⟨?_, hndc⟩
      intro hx
      obtain ⟨q, hq, h'⟩ := List.mem_map.1 hx
      exact hnn g hg q (by rw [hlow]; exact hq) h'
    · rw [hl g g1]; exact S.nodup g hg
  · intro g hg q hq
    by_cases g1 : g = h
    · subst g1
      rw [hl0] at hq
      have : q ∈ lv g ∨ q = (piv, new) := by
        rw [hlow]; simp only [List.mem_append, List.mem_cons] at hq ⊢; tauto
      rcases this with h' | rfl
      · exact S.nz g hg q h'
      · exact hnz
    · rw [hl g g1] at hq; exact S.nz g hg q hq
  · intro g hg
    by_cases g1 : g = h
    · subst g1
      rw [hl0]
      rw [hlow, List.pairwise_append, List.pairwise_cons] at hsort
      rw [List.pairwise_append, List.pairwise_cons, List.pairwise_cons]
      refine ⟨hsort.1, ⟨?_, ?_, hsort.2.1.2⟩, ?_⟩
      · intro x hx
        rcases List.mem_cons.1 hx with rfl | hx
        · exact hb
        · exact hsort.2.1.1 x hx
      · intro x hx; exact hn x (by rw [← hB]; exact hx)
      · intro x hx y hy
        rcases List.mem_cons.1 hy with rfl | hy
        · exact hsort.2.2 x hx _ List.mem_cons_self
        · rcases List.mem_cons.1 hy with rfl | hy
          · exact (hsort.2.2 x hx _ List.mem_cons_self).trans hb
          · exact hsort.2.2 x hx y (List.mem_cons_of_mem _ hy)
    · rw [hl g g1]; exact S.sorted g hg
  · intro g hg A' q B' hq y hy
    by_cases g1 : g = h
    · subst g1
      have hnd' : ((A ++ (b, c) :: (piv, new) :: B).map (·.2)).Nodup := by
        have hperm : (A ++ (b, c) :: (piv, new) :: B).Perm ((piv, new) :: (A ++ (b, c) :: B)) := by
          have := @List.perm_middle _ (piv, new) (A ++ [(b, c)]) B
          simpa using this
        rw [(hperm.map (·.2)).nodup_iff, List.map_cons, List.nodup_cons]
        refine ⟨?_, hndc⟩
        intro hx
        obtain ⟨q, hq, h'⟩ := List.mem_map.1 hx
        exact hnn g hg q (by rw [hlow]; exact hq) h'
      rw [hl0] at hq
      by_cases q1 : q.2 = c
      · obtain ⟨rfl, rfl, rfl⟩ := split_same hnd' hq.symm q1
        have := hfc y hy
        refine ⟨this.1, fun h' => this.2 ?_⟩
        rw [hA] at h'
        by_cases hE : E1 = []
        · right; rintro rfl; simp [hE] at h'
        · exact .inl hE
      · by_cases q2 : q.2 = new
        · have hq' : A' ++ q :: B' = (A ++ [(b, c)]) ++ (piv, new) :: B := by rw [← hq]; simp
          obtain ⟨rfl, rfl, rfl⟩ := split_same (by simpa using hnd') hq' q2
          simp only at hy ⊢
          rw [hfn] at hy
          simp only [Option.mem_def, Option.some.injEq] at hy
          exact ⟨hy.le, fun _ => hy⟩
        · have hqAB : q ∈ A ++ B := by
            have : q ∈ A ++ (b, c) :: (piv, new) :: B := by rw [hq]; simp
            simp only [List.mem_append, List.mem_cons] at this ⊢
            rcases this with h' | rfl | rfl | h'
            · exact .inl h'
            · exact absurd rfl q1
            · exact absurd rfl q2
            · exact .inr h'
          rw [(same_kids (sAB q hqAB)).2.2.1] at hy
          rcases List.append_eq_append_iff.1 hq with ⟨C, c1, c2⟩ | ⟨C, c1, c2⟩
          · -- q at or after the split
            cases C with
            | nil => simp at c2; exact absurd (by rw [← c2.1]) q1
            | cons z C =>
              simp only [List.cons_append, List.cons.injEq] at c2
              cases C with
              | nil => simp at c2; exact absurd (by rw [← c2.2.1]) q2
              | cons w C =>
                simp only [List.cons_append, List.cons.injEq] at c2
                obtain ⟨c2, c3, c4⟩ := c2
                have := S.first g hg (A ++ (b, c) :: C) q B' (by rw [hlow, c4]; simp) y hy
                refine ⟨this.1, fun _ => this.2 (by simp)⟩
          · cases C with
            | nil => simp at c2; exact absurd (by rw [c2.1]) q1
            | cons z C =>
              simp only [List.cons_append, List.cons.injEq] at c2
              obtain ⟨rfl, c2⟩ := c2
              exact S.first g hg A' q (C ++ (b, c) :: B) (by rw [hlow, c1]; simp) y hy
    · rw [hl g g1] at hq
      by_cases g2 : g = h + 1
      · subst g2
        by_cases q1 : q.2 = p
        · obtain ⟨rfl, rfl, rfl⟩ := split_same hndp (hq.symm.trans ep) q1
          simp only at hy ⊢
          -- the first child of `p` is the same
          obtain ⟨_, es, _, _, _, _, _, k6, k7⟩ := (S.page _ hg _ hpm).index (by omega)
          obtain ⟨_, es', _, _, _, _, _, k6', k7'⟩ := hP.index (by omega)
          simp only at k6 k7
          have : firstKey st' p = firstKey st p := by
            rw [k7, k7']
            have e1 : es.head?.map (·.key) = (BtreeIns.kids st p).head?.map (·.1) := by
              rw [k6]; cases es <;> simp
            have e2 : es'.head?.map (·.key) = (BtreeIns.kids st' p).head?.map (·.1) := by
              rw [k6']; cases es' <;> simp
            rw [e1, e2, ek, hkp]
            cases E1 <;> simp
          rw [this] at hy
          exact S.first _ hg _ _ _ ep y hy
        · have hqm : q ∈ PA ++ PB := by
            have : q ∈ PA ++ (pb, p) :: PB := by rw [← ep, hq]; simp
            simp only [List.mem_append, List.mem_cons] at this ⊢
            rcases this with h' | rfl | h'
            · exact .inl h'
            · exact absurd rfl q1
            · exact .inr h'
          rw [(same_kids (sPAB q hqm)).2.2.1] at hy
          exact S.first _ hg A' q B' hq y hy
      · rw [(same_kids (sOther g hg g1 g2 q (by rw [hq]; simp))).2.2.1] at hy
        exact S.first g hg A' q B' hq y hy

end Splinter.BtreeIns
