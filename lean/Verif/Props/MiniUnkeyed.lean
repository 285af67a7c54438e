import Verif.Model.MiniUnkeyed
import Verif.Props.MiniPages
/-!
# C51: a mini allocator without keys frees what it took

For any number of threads allocating pages. Every extent taken from the extent allocator is a data extent in the meta pages, the one a batch has
ahead, or one of meta pages, and never two of these. So releasing the allocator and giving up the last reference frees each of them once, and the
extent of the first meta page, and no other; before the last one no reference frees anything.
-/
namespace Splinter.Mini
variable {K : Type}

/-! ### All extents are known -/

/-- Every extent taken is somewhere. -/
def Cov (c : Cfg K) (n : Nat) (s : State K) : Prop :=
  ∀ i < s.taken, (∃ b < n, s.nextExtent b = c.src i) ∨ c.src i ∈ listed s ∨ (∃ t b k, s.pc t = .list b k (c.src i)) ∨
    ∃ m ∈ s.metas, c.base m.1 = c.src i

/-- Meta pages go through their extents one after the other. -/
structure Runs (c : Cfg K) (head : Nat) (s : State K) : Prop where
  last : ∃ tl, (s.metas.map (·.1)).getLast? = some tl
  nodup : (deinitExts c (s.metas.map (·.1))).Nodup
  own : ∀ e ∈ deinitExts c (s.metas.map (·.1)), e = c.base head ∨ ∃ i < s.taken, e = c.src i
  all : ∀ m ∈ s.metas, c.base m.1 ∈ deinitExts c (s.metas.map (·.1))
  head : ∃ m ∈ s.metas, c.base m.1 = c.base head

/-- `Good` for allocators without keys: the extent at address 0 is not used. -/
structure GoodU (c : Cfg K) (head : Nat) : Prop extends Good c head where
  pos : ∀ i, c.src i ≠ 0
  headPos : c.base head ≠ 0

theorem base_src {c : Cfg K} {head : Nat} (g : Good c head) (i : Nat) : c.base (c.src i) = c.src i := by
  unfold Cfg.base
  exact Nat.div_mul_cancel (g.aligned i)

theorem base_next {c : Cfg K} {head : Nat} (g : Good c head) {a : Nat} (ha : c.ps ∣ a) (h : (a + c.ps) % c.es ≠ 0) : c.base (a + c.ps) = c.base a := by
  have hd : c.es ∣ c.base a := ⟨a / c.es, by unfold Cfg.base; exact Nat.mul_comm _ _⟩
  have hin : InExt c (c.base a) a := by
    have hp := g.es_pos
    have h1 := Nat.div_add_mod a c.es
    have h2 := Nat.mod_lt a hp
    rw [Nat.mul_comm] at h1
    exact inExt_of_page g ha hd (by unfold Cfg.base; omega) (by unfold Cfg.base; omega)
  exact base_of g hd (inExt_next g ha hd hin h)

theorem src_ne {c : Cfg K} {head : Nat} (g : GoodU c head) (i : Nat) : c.src i ≠ c.base head := g.headFresh i

theorem base_zero (c : Cfg K) : c.base 0 = 0 := by simp [Cfg.base]

theorem deinit_append {c : Cfg K} {tl x : Nat} (htl : c.base tl ≠ 0) (hx : c.base x ≠ 0) : ∀ {l : List Nat}, l.getLast? = some tl →
    deinitExts c (l ++ [x]) = if c.base tl = c.base x then deinitExts c l else deinitExts c l ++ [c.base x]
  | [], h => by cases h
  | [m], h => by
    obtain rfl : m = tl := by simpa using h
    show (if c.base m = c.base x then deinitExts c [x] else c.base m :: deinitExts c [x]) = _
    simp only [deinitExts, base_zero, hx, htl, if_false]
    split
    · rename_i e; rw [e]
    · rfl
  | m :: m' :: l, h => by
    have ih := deinit_append htl hx (l := m' :: l) (by rw [List.getLast?_cons_cons] at h; exact h)
    show (if c.base m = c.base m' then deinitExts c ((m' :: l) ++ [x]) else c.base m :: deinitExts c ((m' :: l) ++ [x])) = _
    rw [ih]
    show _ = if c.base tl = c.base x then (if c.base m = c.base m' then deinitExts c (m' :: l) else c.base m :: deinitExts c (m' :: l)) else
      (if c.base m = c.base m' then deinitExts c (m' :: l) else c.base m :: deinitExts c (m' :: l)) ++ [c.base x]
    split <;> split <;> rfl

theorem append_runs {c : Cfg K} {head : Nat} (g : GoodU c head) {s s' : State K} {e : Ent K} (h : Runs c head s) (hps : ∀ m ∈ s.metas, c.ps ∣ m.1)
    (hs : appendEntry c s e = some s') : Runs c head s' := by
  obtain ⟨tl, htl⟩ := h.last
  obtain ⟨s1, e1, _, _, _, _, _, hcase⟩ := append_spec g.toGood s e htl
  rw [hs] at e1
  cases e1
  have htlm : tl ∈ s.metas.map (·.1) := List.mem_of_getLast? htl
  obtain ⟨m, hm, em⟩ := List.mem_map.mp htlm
  have hall : ∀ a ∈ s.metas.map (·.1), c.base a ∈ deinitExts c (s.metas.map (·.1)) := by
    intro a ha
    obtain ⟨m, hm, rfl⟩ := List.mem_map.mp ha
    exact h.all m hm
  have hhead : ∃ a ∈ s.metas.map (·.1), c.base a = c.base head := by
    obtain ⟨m, hm, e⟩ := h.head
    exact ⟨m.1, List.mem_map_of_mem hm, e⟩
  have htl0 : c.base tl ≠ 0 := by
    rcases h.own _ (hall tl htlm) with e | ⟨i, _, e⟩
    · rw [e]; exact g.headPos
    · rw [e]; exact g.pos i
  have mk : ∀ s2 : State K, s.taken ≤ s2.taken → ∀ l, s2.metas.map (·.1) = l → (∃ tl, l.getLast? = some tl) → (deinitExts c l).Nodup →
      (∀ e ∈ deinitExts c l, e = c.base head ∨ ∃ i < s2.taken, e = c.src i) → (∀ a ∈ l, c.base a ∈ deinitExts c l) → (∃ a ∈ l, c.base a = c.base head) →
      Runs c head s2 := by
    intro s2 _ l hl h1 h2 h3 h4 h5
    subst hl
    refine ⟨h1, h2, h3, fun m hm => h4 m.1 (List.mem_map_of_mem hm), ?_⟩
    obtain ⟨a, ha, e⟩ := h5
    obtain ⟨m, hm, rfl⟩ := List.mem_map.mp ha
    exact ⟨m, hm, e⟩
  rcases hcase with ⟨t1, m1⟩ | ⟨t1, hne, m1⟩ | ⟨t1, m1⟩
  · refine mk s' (by omega) _ m1 ⟨tl, htl⟩ h.nodup (by rw [t1]; exact h.own) hall hhead
  · have hb : c.base (tl + c.ps) = c.base tl := base_next g.toGood (by rw [← em]; exact hps m hm) hne
    have hd := deinit_append (x := tl + c.ps) htl0 (by rw [hb]; exact htl0) htl
    rw [if_pos hb.symm] at hd
    refine mk s' (by omega) _ m1 ⟨_, List.getLast?_concat⟩ (by rw [hd]; exact h.nodup) (by rw [hd, t1]; exact h.own) (fun a ha => ?_) ?_
    · rw [hd]
      rcases List.mem_append.mp ha with ha | ha
      · exact hall a ha
      · cases List.mem_singleton.mp ha
        rw [hb]; exact hall tl htlm
    · obtain ⟨a, ha, e⟩ := hhead
      exact ⟨a, List.mem_append_left _ ha, e⟩
  · have hx0 : c.base (c.src s.taken) ≠ 0 := by rw [base_src g.toGood]; exact g.pos _
    have hnew : c.src s.taken ∉ deinitExts c (s.metas.map (·.1)) := by
      intro hx
      rcases h.own _ hx with e | ⟨i, hi, e⟩
      · exact g.headFresh _ e
      · have := g.inj _ _ e
        omega
    have hneq : c.base tl ≠ c.base (c.src s.taken) := by
      rw [base_src g.toGood]
      intro e
      exact hnew (e ▸ hall tl htlm)
    have hd := deinit_append (x := c.src s.taken) htl0 hx0 htl
    rw [if_neg hneq, base_src g.toGood] at hd
    refine mk s' (by omega) _ m1 ⟨_, List.getLast?_concat⟩ ?_ ?_ (fun a ha => ?_) ?_
    · rw [hd]
      exact List.Nodup.append h.nodup (List.nodup_singleton _) (by simpa using hnew)
    · rw [hd]
      intro e he
      rcases List.mem_append.mp he with he | he
      · rcases h.own e he with e1 | ⟨i, hi, e1⟩
        · exact .inl e1
        · exact .inr ⟨i, by omega, e1⟩
      · cases List.mem_singleton.mp he
        exact .inr ⟨s.taken, by omega, rfl⟩
    · rw [hd]
      rcases List.mem_append.mp ha with ha | ha
      · exact List.mem_append_left _ (hall a ha)
      · cases List.mem_singleton.mp ha
        rw [base_src g.toGood]
        exact List.mem_append_right _ (List.mem_singleton_self _)
    · obtain ⟨a, ha, e⟩ := hhead
      exact ⟨a, List.mem_append_left _ ha, e⟩

theorem cov_runs {c : Cfg K} {head n : Nat} (g : GoodU c head) {s : State K} (h : Reachable c head n s) : Cov c n s ∧ Runs c head s := by
  induction h with
  | init =>
    refine ⟨fun i hi => .inl ⟨i, hi, by simp [init, show i < n from hi]⟩, ⟨head, rfl⟩, ?_, ?_, ?_, (head, []), List.mem_singleton_self _, rfl⟩
    all_goals simp [init, deinitExts, base_zero, g.headPos]
  | @step s s' t a hr hs ih =>
    obtain ⟨hc, hru⟩ := ih
    obtain ⟨cls, hi⟩ := reachable_inv g.toGood hr
    have hps : ∀ m ∈ s.metas, c.ps ∣ m.1 := fun m hm => (hi.metas.own m.1 (List.mem_map_of_mem hm)).1
    unfold step at hs
    split at hs
    · rename_i b k hp
      split at hs
      · split at hs
        · cases hs
        · cases hs
          refine ⟨fun i hi => ?_, hru.last, hru.nodup, hru.own, hru.all, hru.head⟩
          rcases hc i hi with h | h | ⟨u, b', k', hu⟩ | h
          · exact .inl h
          · exact .inr (.inl h)
          · refine .inr (.inr (.inl ⟨u, b', k', ?_⟩))
            have : u ≠ t := fun e => by subst e; rw [hp] at hu; cases hu
            show upd s.pc t _ u = _
            rw [upd_other _ _ this]; exact hu
          · exact .inr (.inr (.inr h))
      · cases hs
    · rename_i b k a' hp
      split at hs
      · cases hs
        have hb := (hi.lock t b (by rw [hp]; rfl)).1
        refine ⟨fun i hi' => ?_, hru.last, hru.nodup, fun e he => ?_, hru.all, hru.head⟩
        · by_cases e : i = s.taken
          · exact .inl ⟨b, hb, by subst e; simp [upd]⟩
          · have hi2 : i < s.taken := by
              have : i < s.taken + 1 := hi'
              omega
            rcases hc i hi2 with ⟨b', hb', h⟩ | h | ⟨u, b', k', hu⟩ | h
            · by_cases eb : b' = b
              · subst eb
                exact .inr (.inr (.inl ⟨t, b', k, by show upd s.pc t _ t = _; rw [upd_same, h]⟩))
              · exact .inl ⟨b', hb', by show upd s.nextExtent b _ b' = _; rw [upd_other _ _ eb]; exact h⟩
            · exact .inr (.inl h)
            · refine .inr (.inr (.inl ⟨u, b', k', ?_⟩))
              have : u ≠ t := fun e => by subst e; rw [hp] at hu; cases hu
              show upd s.pc t _ u = _
              rw [upd_other _ _ this]; exact hu
            · exact .inr (.inr (.inr h))
        · rcases hru.own e he with h | ⟨i, hi, h⟩
          · exact .inl h
          · exact .inr ⟨i, Nat.lt_succ_of_lt hi, h⟩
      · cases hs
        refine ⟨fun i hi => ?_, hru.last, hru.nodup, hru.own, hru.all, hru.head⟩
        rcases hc i hi with h | h | ⟨u, b', k', hu⟩ | h
        · exact .inl h
        · exact .inr (.inl h)
        · refine .inr (.inr (.inl ⟨u, b', k', ?_⟩))
          have : u ≠ t := fun e => by subst e; rw [hp] at hu; cases hu
          show upd s.pc t _ u = _
          rw [upd_other _ _ this]; exact hu
        · exact .inr (.inr (.inr h))
    · rename_i b k e hp
      cases ha : appendEntry c s ⟨some e, b, k⟩ with
      | none => rw [ha] at hs; cases hs
      | some s1 =>
        rw [ha] at hs
        cases hs
        have hru1 := append_runs g hru hps ha
        refine ⟨fun i hi' => ?_, hru1.last, hru1.nodup, hru1.own, hru1.all, hru1.head⟩
        obtain ⟨tl, htl⟩ := hru.last
        obtain ⟨s2, e2, h1, _, h2, h3, _, h4⟩ := append_spec g.toGood s ⟨some e, b, k⟩ htl
        rw [ha] at e2
        cases e2
        have hl : listed s1 = listed s ++ [e] := by unfold listed; rw [h1]; simp
        have hold : i < s.taken → (∃ b < n, s1.nextExtent b = c.src i) ∨ c.src i ∈ listed s1 ∨ (∃ u b k, upd s1.pc t (.ret b e) u = .list b k (c.src i)) ∨
            ∃ m ∈ s1.metas, c.base m.1 = c.src i := by
          intro hlt
          rcases hc i hlt with ⟨b', hb', h⟩ | h | ⟨u, b', k', hu⟩ | ⟨m, hm, h⟩
          · exact .inl ⟨b', hb', by rw [h2]; exact h⟩
          · exact .inr (.inl (by rw [hl]; exact List.mem_append_left _ h))
          · by_cases eu : u = t
            · subst eu
              rw [hp] at hu
              cases hu
              exact .inr (.inl (by rw [hl]; exact List.mem_append_right _ (List.mem_singleton_self _)))
            · exact .inr (.inr (.inl ⟨u, b', k', by rw [upd_other _ _ eu, h3]; exact hu⟩))
          · refine .inr (.inr (.inr ?_))
            have : m.1 ∈ s1.metas.map (·.1) := by
              rcases h4 with ⟨_, e⟩ | ⟨_, _, e⟩ | ⟨_, e⟩ <;> rw [e]
              · exact List.mem_map_of_mem hm
              · exact List.mem_append_left _ (List.mem_map_of_mem hm)
              · exact List.mem_append_left _ (List.mem_map_of_mem hm)
            obtain ⟨m', hm', em⟩ := List.mem_map.mp this
            exact ⟨m', hm', by rw [em]; exact h⟩
        have hgo : i < s.taken ∨ (s1.taken = s.taken + 1 ∧ i = s.taken ∧ s1.metas.map (·.1) = s.metas.map (·.1) ++ [c.src s.taken]) := by
          have hi1 : i < s1.taken := hi'
          rcases h4 with ⟨e, _⟩ | ⟨e, _, _⟩ | ⟨e, m⟩
          · left; omega
          · left; omega
          · by_cases x : i = s.taken
            · exact .inr ⟨e, x, m⟩
            · left; omega
        rcases hgo with hlt | ⟨_, x, hm⟩
        · rcases hold hlt with h | h | ⟨u, b', k', hu⟩ | h
          · exact .inl h
          · exact .inr (.inl h)
          · refine .inr (.inr (.inl ⟨u, b', k', ?_⟩))
            by_cases eu : u = t
            · subst eu
              rw [upd_same] at hu
              cases hu
            · rw [upd_other _ _ eu] at hu
              show upd s1.pc t _ u = _
              rw [upd_other _ _ eu]; exact hu
          · exact .inr (.inr (.inr h))
        · refine .inr (.inr (.inr ?_))
          have : c.src s.taken ∈ s1.metas.map (·.1) := by rw [hm]; exact List.mem_append_right _ (List.mem_singleton_self _)
          obtain ⟨m', hm', em⟩ := List.mem_map.mp this
          exact ⟨m', hm', by rw [em, x, base_src g.toGood]⟩
    · rename_i b a' hp
      cases hs
      refine ⟨fun i hi => ?_, hru.last, hru.nodup, hru.own, hru.all, hru.head⟩
      rcases hc i hi with h | h | ⟨u, b', k', hu⟩ | h
      · exact .inl h
      · exact .inr (.inl h)
      · refine .inr (.inr (.inl ⟨u, b', k', ?_⟩))
        have : u ≠ t := fun e => by subst e; rw [hp] at hu; cases hu
        show upd s.pc t _ u = _
        rw [upd_other _ _ this]; exact hu
      · exact .inr (.inr (.inr h))
    · cases hs

/-! ### Freeing -/

theorem decByte_ok {e r : Nat} {refs : Nat → Nat} (h : refs e = r + 1) (hr : r < 255) : decByte e refs = some (r, upd refs e r) := by
  unfold decByte
  have : (refs e + 255) % 256 = r := by omega
  simp only [this]
  rw [if_neg (by omega)]

theorem freeExtent_ok {e : Nat} {refs : Nat → Nat} (h : refs e = 2) : freeExtent e refs = some (upd refs e 0) := by
  unfold freeExtent
  rw [decByte_ok (r := 1) h (by omega)]
  dsimp only
  rw [if_neg (by simp), decByte_ok (r := 0) (upd_same _ _ _) (by omega)]
  dsimp only
  rw [if_neg (by simp)]
  congr 1
  funext j
  simp only [upd]
  split <;> rfl

theorem freeAll_ok : ∀ {l : List Nat} {refs : Nat → Nat}, l.Nodup → (∀ e ∈ l, refs e = 2) →
    freeAll l refs = some (fun e => if e ∈ l then 0 else refs e)
  | [], refs, _, _ => by simp [freeAll]
  | e :: l, refs, hn, h => by
    rw [List.nodup_cons] at hn
    unfold freeAll
    rw [freeExtent_ok (h e List.mem_cons_self)]
    dsimp only
    rw [freeAll_ok hn.2 (fun x hx => by
      rw [upd_other _ _ (fun e' : x = e => hn.1 (e' ▸ hx))]
      exact h x (List.mem_cons_of_mem _ hx))]
    congr 1
    funext x
    simp only [List.mem_cons, upd]
    by_cases a : x = e <;> by_cases b : x ∈ l <;> simp [a, b]

/-! ### Theorems -/

/-- The counts while the allocator is in use by `r` users, after `mini_release`: one reference for each extent in use, `r` more for that of the first
meta page. -/
structure Counts (c : Cfg K) (head n : Nat) (s : State K) (r : Nat) (refs : Nat → Nat) : Prop where
  head : refs (c.base head) = 2 + r
  rest : ∀ i < s.taken, refs (c.src i) = if ∃ b < n, s.nextExtent b = c.src i then 0 else 2

theorem ahead_nodup {c : Cfg K} {head n : Nat} (g : Good c head) {s : State K} (h : Reachable c head n s) : ((List.range n).map s.nextExtent).Nodup := by
  obtain ⟨cls, hi⟩ := reachable_inv g h
  refine List.Nodup.map_on (fun a ha b hb e => ?_) List.nodup_range
  obtain ⟨i, _, h1, h2⟩ := hi.ahead a (List.mem_range.mp ha)
  obtain ⟨j, _, h3, h4⟩ := hi.ahead b (List.mem_range.mp hb)
  have := g.inj i j (h2.symm.trans (e.trans h4))
  subst this
  rw [h1] at h3
  cases h3
  rfl

/-- C51: releasing the allocator gives back the extents that batches have ahead, and no other. -/
theorem releaseRefs_ok {c : Cfg K} {head n : Nat} (g : GoodU c head) {s : State K} (h : Reachable c head n s) {refs : Nat → Nat} {r : Nat}
    (hr : ∀ i < s.taken, refs (c.src i) = 2) (hh : refs (c.base head) = 2 + r) :
    ∃ refs', releaseRefs n s refs = some refs' ∧ Counts c head n s r refs' ∧ ∀ e, (∀ i < s.taken, e ≠ c.src i) → refs' e = refs e := by
  obtain ⟨cls, hi⟩ := reachable_inv g.toGood h
  have e1 := freeAll_ok (refs := refs) (ahead_nodup g.toGood h) (fun e he => by
    obtain ⟨b, hb, rfl⟩ := List.mem_map.mp he
    obtain ⟨i, hlt, _, e⟩ := hi.ahead b (List.mem_range.mp hb)
    rw [e]; exact hr i hlt)
  refine ⟨_, e1, ⟨?_, fun i hlt => ?_⟩, fun e he => ?_⟩
  · rw [if_neg, hh]
    intro hx
    obtain ⟨b, hb, e⟩ := List.mem_map.mp hx
    obtain ⟨i, _, _, e2⟩ := hi.ahead b (List.mem_range.mp hb)
    exact g.headFresh i (e2.symm.trans e)
  · by_cases x : ∃ b < n, s.nextExtent b = c.src i
    · rw [if_pos x, if_pos]
      obtain ⟨b, hb, e⟩ := x
      exact List.mem_map.mpr ⟨b, List.mem_range.mpr hb, e⟩
    · rw [if_neg x, if_neg, hr i hlt]
      intro hx
      obtain ⟨b, hb, e⟩ := List.mem_map.mp hx
      exact x ⟨b, List.mem_range.mp hb, e⟩
  · rw [if_neg]
    intro hx
    obtain ⟨b, hb, e1⟩ := List.mem_map.mp hx
    obtain ⟨i, hlt, _, e2⟩ := hi.ahead b (List.mem_range.mp hb)
    exact he i hlt (e1.symm.trans e2)

/-- C51: a reference that is not the last frees nothing. -/
theorem dec_keeps {c : Cfg K} {head n : Nat} (g : GoodU c head) {s : State K} {refs : Nat → Nat} {r : Nat}
    (hc : Counts c head n s (r + 1) refs) (hr : 0 < r) (hb : r + 1 ≤ 253) :
    ∃ refs', unkeyedDec c head s refs = some (refs', false) ∧ Counts c head n s r refs' ∧ ∀ e, e ≠ c.base head → refs' e = refs e := by
  have hh := hc.head
  refine ⟨upd refs (c.base head) (2 + r), ?_, ⟨upd_same _ _ _, fun i hi => ?_⟩, fun e he => upd_other _ _ he⟩
  · unfold unkeyedDec decByte
    have : (refs (c.base head) + 255) % 256 = 2 + r := by omega
    simp only [this]
    rw [if_neg (by omega)]
    dsimp only
    rw [if_pos (by omega)]
  · rw [upd_other _ _ (src_ne g i)]
    exact hc.rest i hi

theorem inc_keeps {c : Cfg K} {head n : Nat} (g : GoodU c head) {s : State K} {refs : Nat → Nat} {r : Nat}
    (hc : Counts c head n s r refs) (hr : 0 < r) (hb : r < 253) :
    ∃ refs', unkeyedInc c head refs = some refs' ∧ Counts c head n s (r + 1) refs' ∧ ∀ e, e ≠ c.base head → refs' e = refs e := by
  have hh := hc.head
  refine ⟨upd refs (c.base head) (2 + (r + 1)), ?_, ⟨upd_same _ _ _, fun i hi => ?_⟩, fun e he => upd_other _ _ he⟩
  · unfold unkeyedInc
    have : (refs (c.base head) + 1) % 256 = 2 + (r + 1) := by omega
    simp only [this]
    rw [if_neg (by omega), if_neg (by omega)]
  · rw [upd_other _ _ (src_ne g i)]
    exact hc.rest i hi

/-- C51: the last reference frees the extents listed and those of the meta pages: then all extents taken are free, and others are as they were. -/
theorem last_dec {c : Cfg K} {head n : Nat} (g : GoodU c head) {s : State K} (h : Reachable c head n s) (hidle : ∀ t, s.pc t = .idle)
    {refs : Nat → Nat} (hc : Counts c head n s 1 refs) :
    ∃ refs', unkeyedDec c head s refs = some (refs', true) ∧ (∀ i < s.taken, refs' (c.src i) = 0) ∧ refs' (c.base head) = 0 ∧
      ∀ e, e ≠ c.base head → (∀ i < s.taken, e ≠ c.src i) → refs' e = refs e := by
  obtain ⟨cls, hi⟩ := reachable_inv g.toGood h
  obtain ⟨hcov, hru⟩ := cov_runs g h
  have hh := hc.head
  have hlst : ∀ e ∈ listed s, ∃ i b, i < s.taken ∧ cls i = .data b ∧ e = c.src i := by
    intro e he
    obtain ⟨x, hx, ex⟩ := List.mem_filterMap.mp he
    obtain ⟨_, i, y, h1, h2, h3, h4⟩ := hi.listedOwn x hx
    rw [h1] at ex
    cases ex
    exact ⟨i, _, h2, h3, h4⟩
  have hmet : ∀ e ∈ deinitExts c (s.metas.map (·.1)), e = c.base head ∨ ∃ i, i < s.taken ∧ cls i = .metas ∧ e = c.src i := by
    intro e he
    have hsub : ∀ l : List Nat, e ∈ deinitExts c l → ∃ a ∈ l, c.base a = e := by
      intro l
      induction l with
      | nil => intro h; cases h
      | cons m l ih =>
        intro h
        cases l with
        | nil =>
          unfold deinitExts at h
          split at h
          · cases h
          · exact ⟨m, List.mem_cons_self, (List.mem_singleton.mp h).symm⟩
        | cons m' l =>
          unfold deinitExts at h
          split at h
          · obtain ⟨a, ha, e⟩ := ih h
            exact ⟨a, List.mem_cons_of_mem _ ha, e⟩
          · rcases List.mem_cons.mp h with e | h
            · exact ⟨m, List.mem_cons_self, e.symm⟩
            · obtain ⟨a, ha, e⟩ := ih h
              exact ⟨a, List.mem_cons_of_mem _ ha, e⟩
    obtain ⟨a, ha, rfl⟩ := hsub _ he
    rcases (hi.metas.own a ha).2 with h1 | ⟨i, h1, h2, h3⟩
    · exact .inl (base_of g.toGood (head_dvd c head) h1)
    · exact .inr ⟨i, h1, h2, base_of g.toGood (g.aligned i) h3⟩
  have hahead : ∀ i < s.taken, (∃ b < n, s.nextExtent b = c.src i) → ∃ b, cls i = .ahead b := by
    rintro i _ ⟨b, hb, e⟩
    obtain ⟨j, _, h1, h2⟩ := hi.ahead b hb
    have := g.inj i j (e.symm.trans h2)
    subst this
    exact ⟨b, h1⟩
  have hval : ∀ i < s.taken, (∀ b, cls i ≠ .ahead b) → refs (c.src i) = 2 := by
    intro i hlt hx
    rw [hc.rest i hlt, if_neg]
    intro h
    obtain ⟨b, hb⟩ := hahead i hlt h
    exact hx b hb
  have e0 : decByte (c.base head) refs = some (2, upd refs (c.base head) 2) := by
    unfold decByte
    have : (refs (c.base head) + 255) % 256 = 2 := by omega
    simp [this]
  have e1 := freeAll_ok (l := listed s) (refs := upd refs (c.base head) 2) hi.listedNodup (fun e he => by
    obtain ⟨i, b, h1, h2, rfl⟩ := hlst e he
    rw [upd_other _ _ (src_ne g i)]
    exact hval i h1 (fun b' x => by rw [h2] at x; cases x))
  have hnl : ∀ e ∈ deinitExts c (s.metas.map (·.1)), e ∉ listed s := by
    intro e he hl
    obtain ⟨i, b, h1, h2, e1⟩ := hlst e hl
    rcases hmet e he with e2 | ⟨j, h3, h4, e2⟩
    · exact g.headFresh i (e1.symm.trans e2)
    · have := g.inj i j (e1.symm.trans e2)
      subst this
      rw [h2] at h4
      cases h4
  have e2 := freeAll_ok (l := deinitExts c (s.metas.map (·.1))) (refs := fun e => if e ∈ listed s then 0 else upd refs (c.base head) 2 e) hru.nodup (fun e he => by
    rw [if_neg (hnl e he)]
    rcases hmet e he with rfl | ⟨j, h3, h4, rfl⟩
    · rw [upd_same]
    · rw [upd_other _ _ (src_ne g j)]
      exact hval j h3 (fun b' x => by rw [h4] at x; cases x))
  refine ⟨fun e => if e ∈ deinitExts c (s.metas.map (·.1)) then 0 else if e ∈ listed s then 0 else upd refs (c.base head) 2 e, ?_, fun i hlt => ?_, ?_,
    fun e he hne => ?_⟩
  · unfold unkeyedDec
    rw [e0]
    dsimp only
    rw [if_neg (by simp)]
    have : s.entries.filterMap (·.ext) = listed s := rfl
    rw [this, e1]
    dsimp only
    rw [e2]
  · dsimp only
    by_cases x : c.src i ∈ deinitExts c (s.metas.map (·.1))
    · rw [if_pos x]
    rw [if_neg x]
    by_cases y : c.src i ∈ listed s
    · rw [if_pos y]
    rw [if_neg y, upd_other _ _ (src_ne g i)]
    rcases hcov i hlt with h | h | ⟨t, b, k, h⟩ | ⟨m, hm, e⟩
    · rw [hc.rest i hlt, if_pos h]
    · exact absurd h y
    · rw [hidle t] at h; cases h
    · exact absurd (e ▸ hru.all m hm) x
  · obtain ⟨m, hm, e⟩ := hru.head
    dsimp only
    rw [if_pos (e ▸ hru.all m hm)]
  · dsimp only
    rw [if_neg, if_neg, upd_other _ _ he]
    · intro hx
      obtain ⟨i, b, h1, _, h2⟩ := hlst e hx
      exact hne i h1 h2
    · intro hx
      rcases hru.own e hx with h1 | ⟨i, h1, h2⟩
      · exact he h1
      · exact hne i h1 h2

/-- Users in the run: how many are left, if the last one goes only at its end. -/
def users : List Bool → Nat → Option Nat
  | [], r => some r
  | true :: l, r => if r < 253 then users l (r + 1) else none
  | false :: l, r => if r = 1 then (if l = [] then some 0 else none) else users l (r - 1)

/-- C51: whatever the order in which users come and go, with no more than 253 at a time, nothing is freed before the last one goes, and then
everything is. -/
theorem life {c : Cfg K} {head n : Nat} (g : GoodU c head) {s : State K} (h : Reachable c head n s) (hidle : ∀ t, s.pc t = .idle) :
    ∀ (l : List Bool) {refs : Nat → Nat} {r r' : Nat}, 0 < r → r ≤ 253 → Counts c head n s r refs → users l r = some r' →
      ∃ refs', unkeyedRun c head s l refs = some (refs', decide (r' = 0)) ∧ (∀ e, e ≠ c.base head → (∀ i < s.taken, e ≠ c.src i) → refs' e = refs e) ∧
        (r' ≠ 0 → Counts c head n s r' refs') ∧ (r' = 0 → (∀ i < s.taken, refs' (c.src i) = 0) ∧ refs' (c.base head) = 0)
  | [], refs, r, r', h0, _, hc, hu => by
    cases hu
    refine ⟨refs, ?_, fun _ _ _ => rfl, fun _ => hc, fun e => absurd e (by omega)⟩
    unfold unkeyedRun
    rw [decide_eq_false (by omega)]
  | true :: l, refs, r, r', h0, hb, hc, hu => by
    unfold users at hu
    split at hu
    · rename_i hlt
      obtain ⟨refs1, e1, c1, o1⟩ := inc_keeps g hc h0 hlt
      obtain ⟨refs2, e2, o2, c2, c3⟩ := life g h hidle l (by omega) (by omega) c1 hu
      refine ⟨refs2, ?_, fun e he hne => (o2 e he hne).trans (o1 e he), c2, c3⟩
      unfold unkeyedRun
      rw [e1]
      exact e2
    · cases hu
  | false :: l, refs, r, r', h0, hb, hc, hu => by
    unfold users at hu
    split at hu
    · rename_i h1
      subst h1
      split at hu
      · rename_i hl
        cases hu
        obtain ⟨refs1, e1, c1, c2, c3⟩ := last_dec g h hidle hc
        refine ⟨refs1, ?_, c3, fun e => absurd rfl e, fun _ => ⟨c1, c2⟩⟩
        unfold unkeyedRun
        rw [e1]
        simp [hl]
      · cases hu
    · rename_i h1
      obtain ⟨q, rfl⟩ : ∃ q, r = q + 1 := ⟨r - 1, by omega⟩
      obtain ⟨refs1, e1, c1, o1⟩ := dec_keeps g hc (by omega) hb
      obtain ⟨refs2, e2, o2, c2, c3⟩ := life g h hidle l (by omega) (by omega) c1 hu
      refine ⟨refs2, ?_, fun e he hne => (o2 e he hne).trans (o1 e he), c2, c3⟩
      unfold unkeyedRun
      rw [e1]
      exact e2

/-- C51: from the counts that the extent allocator and `mini_init` set: after the release, and when all users are gone, the extents are free. -/
theorem all_freed {c : Cfg K} {head n : Nat} (g : GoodU c head) {s : State K} (h : Reachable c head n s) (hidle : ∀ t, s.pc t = .idle)
    {refs : Nat → Nat} (hr : ∀ i < s.taken, refs (c.src i) = 2) (hh : refs (c.base head) = 3) (l : List Bool) (hl : users l 1 = some 0) :
    ∃ refs1 refs2, releaseRefs n s refs = some refs1 ∧ unkeyedRun c head s l refs1 = some (refs2, true) ∧
      (∀ i < s.taken, refs2 (c.src i) = 0) ∧ refs2 (c.base head) = 0 ∧
      ∀ e, e ≠ c.base head → (∀ i < s.taken, e ≠ c.src i) → refs2 e = refs e := by
  obtain ⟨refs1, e1, c1, o1⟩ := releaseRefs_ok (r := 1) g h hr hh
  obtain ⟨refs2, e2, o2, _, c2⟩ := life g h hidle l (by omega) (by omega) c1 hl
  exact ⟨refs1, refs2, e1, e2, (c2 rfl).1, (c2 rfl).2, fun e he hne => (o2 e he hne).trans (o1 e hne)⟩

/-! ### Example -/

theorem exGoodU : GoodU exCfg 30 where
  toGood := ⟨by decide, ⟨2, by decide, rfl⟩, fun i => ⟨i + 2, by simp only [exCfg]; omega⟩, fun i j h => (by simp only [exCfg] at h; omega), ⟨3, rfl⟩,
    fun _ => Nat.le_succ 1, fun i => by simp only [exCfg]; omega⟩
  pos := fun i => by simp [exCfg]
  headPos := by decide

theorem appendEntry_pc {c : Cfg K} {s s' : State K} {e : Ent K} (h : appendEntry c s e = some s') : s'.pc = s.pc := by
  unfold appendEntry at h
  grind

theorem step_pc {c : Cfg K} {n : Nat} {s s' : State K} {t u : Nat} {a : Act K} (hu : u ≠ t) (h : step c n s t a = .ok s') : s'.pc u = s.pc u := by
  unfold step at h
  split at h
  · split at h
    · split at h
      · cases h
      · cases h; exact upd_other _ _ hu
    · cases h
  · split at h <;> (cases h; exact upd_other _ _ hu)
  · split at h
    · cases h
    · rename_i s1 e1
      cases h
      exact (upd_other _ _ hu).trans (congrFun (appendEntry_pc e1) u)
  · cases h; exact upd_other _ _ hu
  · cases h

theorem runFrom_pc {c : Cfg K} {n u : Nat} : ∀ (l : List (Nat × Act K)) {s s' : State K}, (∀ p ∈ l, u ≠ p.1) → runFrom c n s l = some s' → s'.pc u = s.pc u
  | [], _, _, _, h => by cases h; rfl
  | (t, a) :: l, s, s', hl, h => by
    rw [runFrom] at h
    cases hs : step c n s t a with
    | ok s1 =>
      rw [hs] at h
      exact (runFrom_pc l (fun p hp => hl p (List.mem_cons_of_mem _ hp)) h).trans (step_pc (hl _ List.mem_cons_self) hs)
    | blocked => rw [hs] at h; cases h
    | fault => rw [hs] at h; cases h

/-- Six extents taken by the run of `Props/MiniPages.lean`: three listed, one of meta pages, two ahead; the first meta page is in the extent at 20. A
second user comes, and both go. -/
example : ∃ (s : State Nat) (refs1 refs2 : Nat → Nat), Reachable exCfg 30 2 s ∧ s.taken = 6 ∧ listed s = [60, 40, 80] ∧
    deinitExts exCfg (s.metas.map (·.1)) = [20, 140] ∧
    releaseRefs 2 s (fun e => if e = 20 then 3 else if e = 1000 then 5 else 2) = some refs1 ∧
    unkeyedRun exCfg 30 s [true, false, false] refs1 = some (refs2, true) ∧ (∀ i < 6, refs2 (20 * i + 40) = 0) ∧ refs2 20 = 0 ∧ refs2 1000 = 5 := by
  have h1 : ((runFrom exCfg 2 (init exCfg 30 2) exRun).map fun s => (s.taken, listed s, deinitExts exCfg (s.metas.map (·.1)), (s.pc 0).batch, (s.pc 1).batch)) =
    some (6, [60, 40, 80], [20, 140], none, none) := by decide +kernel
  cases hr : runFrom exCfg 2 (init exCfg 30 2) exRun with
  | none => rw [hr] at h1; cases h1
  | some s =>
    rw [hr] at h1
    simp only [Option.map_some, Option.some.injEq, Prod.mk.injEq] at h1
    obtain ⟨h1, h2, h3, h4, h5⟩ := h1
    have hre : Reachable exCfg 30 2 s := runFrom_reachable _ _ _ .init hr
    have hb : ∀ p : PC Nat, p.batch = none → p = .idle := by
      intro p
      cases p <;> simp [PC.batch]
    have hidle : ∀ t, s.pc t = .idle := by
      intro t
      by_cases e0 : t = 0
      · subst e0; exact hb _ h4
      · by_cases e1 : t = 1
        · subst e1; exact hb _ h5
        · rw [runFrom_pc (u := t) exRun (fun p hp => by
            have : ∀ p ∈ exRun, p.1 = 0 ∨ p.1 = 1 := by simp [exRun]
            rcases this p hp with e | e <;> rw [e] <;> assumption) hr]
          rfl
    obtain ⟨refs1, refs2, e1, e2, e3, e4, e5⟩ := all_freed exGoodU hre hidle (refs := fun e => if e = 20 then 3 else if e = 1000 then 5 else 2)
      (fun i hi => by
        rw [h1] at hi
        have e : exCfg.src i = 20 * i + 40 := rfl
        rw [e, if_neg (by omega), if_neg (by omega)]) rfl [true, false, false] rfl
    refine ⟨s, refs1, refs2, hre, h1, h2, h3, e1, e2, fun i hi => e3 i (by omega), e4, (e5 1000 (by decide) (fun i hi => ?_)).trans rfl⟩
    rw [h1] at hi
    simp only [exCfg]
    omega

end Splinter.Mini
