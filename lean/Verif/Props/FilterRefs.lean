import Verif.Proof.FilterRefs
/-!
# C50: the trunk's references to filters

The count of a filter's references is the number of places in the trunk the filter is in: the filters of pivots, the slots of bundles,
new filters not yet in a pivot and filters of memtables. So no filter is freed while it is in one of them, giving up a reference
never fails, and after the last one the filter is freed. Three things are not as they should be: if a node is split while filters are built for
it, the old filters of the second part are never freed; the empty filter's references go to the extent of the super block, whose count
overflows; and the build reads old filters without a reference, after they were freed.
-/
namespace Splinter.FilterRefs

/-- The places of a filter. -/
def places (s : St) (f : Nat) : Nat :=
  (s.nodes.map fun d => (d.pivs.filter (fun p => p.filter = f)).length + (d.bus.map (·.count f)).sum).sum +
  s.fly.count f + (s.scr.map fun c => (c.made.filter (fun x => x.2 = f)).length).sum

theorem places_eq (s : St) (f : Nat) : places s f = s.held.count f := by
  have h1 : ∀ l : List Nd, (l.map fun d => (d.pivs.filter (fun p => p.filter = f)).length + (d.bus.map (·.count f)).sum).sum =
      (l.flatMap Nd.slots).count f := by
    intro l
    induction l with
    | nil => rfl
    | cons d l ih =>
      rw [List.map_cons, List.sum_cons, ih, List.flatMap_cons, List.count_append]
      congr 1
      unfold Nd.slots
      rw [List.count_append, List.count_flatten]
      congr 1
      rw [List.count, List.countP_map, List.countP_eq_length_filter]
      congr 1
  have h2 : ∀ l : List Scr, (l.map fun c => (c.made.filter (fun x => x.2 = f)).length).sum = (l.flatMap scrSlots).count f := by
    intro l
    induction l with
    | nil => rfl
    | cons d l ih =>
      rw [List.map_cons, List.sum_cons, ih, List.flatMap_cons, List.count_append]
      congr 1
      unfold scrSlots
      rw [List.count, List.countP_map, List.countP_eq_length_filter]
      congr 1
  unfold places
  rw [h1, h2, held_count]

/-- The count of a filter's extent is that of its places, with those lost. -/
theorem count_exact {s : St} (h : Reach s) {f : Nat} (hf : f ≠ 0) :
    s.refs f = if places s f + s.lost.count f = 0 then 0 else 2 + (places s f + s.lost.count f) := by
  have := ((reach_inv h).ok f hf).2
  rw [List.count_append, ← places_eq] at this
  exact this

/-- A filter is not freed while it is in some place. -/
theorem filter_kept {s : St} (h : Reach s) {f : Nat} (hf : f ≠ 0) (hp : 0 < places s f) : 2 < s.refs f := by
  rw [count_exact h hf, if_neg (by omega)]
  omega

/-- Partial: without the loss shown by `leak`, a filter in no place is freed. -/
theorem filter_freed_partial {s : St} (h : Reach s) {f : Nat} (hf : f ≠ 0) (hp : places s f = 0) (hl : f ∉ s.lost) : s.refs f = 0 := by
  rw [count_exact h hf, hp, List.count_eq_zero_of_not_mem hl]
  rfl

/-- A pivot with a filter has whole branches: when it is flushed, the filter goes along. -/
theorem filter_whole {s : St} (h : Reach s) {d : Nd} (hd : d ∈ s.nodes) {p : Piv} (hp : p ∈ d.pivs) (hf : p.filter ≠ 0) : 0 < p.whole :=
  (reach_inv h).whole d hd p hp hf

/-- References are lost only when new filters go into a later part of a node. -/
theorem lost_by_parts {s s' : St} (st : Step s s') : s'.lost = s.lost ∨ ∃ sc ∈ s.scr, sc.first = false := by
  cases st with
  | @replace sc rest d nrest R d' sc' ls hs ht hn hr =>
    by_cases c : sc.first = true
    · left
      unfold replaceIn at hr
      split at hr
      · cases hr
      split at hr
      · cases hr
      dsimp only at hr
      split at hr
      · cases hr
      cases hr
      simp [c]
    · right
      exact ⟨sc, hs.mem_iff.mpr List.mem_cons_self, by simpa using c⟩
  | _ => exact .inl rfl

/-! ### Nothing fails but the count of a byte -/

theorem inc_some {R : Refs} {H : List Nat} {f : Nat} (h : Ok R H) (hf : f ≠ 0 → f ∈ H) (h0 : 2 ≤ R 0) (hb : R f < 255) :
    ∃ R', inc f R = some R' ∧ (∀ g, R' g = R g + [f].count g) := by
  have : 2 ≤ R f := by
    by_cases z : f = 0
    · rw [z]; exact h0
    · have := (h f z).2
      have hc := List.count_pos_iff.mpr (hf z)
      rw [if_neg (by omega)] at this
      omega
  refine ⟨upd R f (R f + 1), ?_, fun g => ?_⟩
  · unfold inc
    dsimp only
    rw [Nat.mod_eq_of_lt (by omega), if_neg (by omega), if_neg (by omega)]
  · by_cases c : g = f
    · subst c; simp [upd]
    · simp [upd, c, List.count_cons, Ne.symm c]

theorem incAll_some : ∀ {l : List Nat} {R : Refs} {H : List Nat}, Ok R H → (∀ f ∈ l, f ≠ 0 → f ∈ H) → 2 ≤ R 0 → (∀ g, g ∈ l → R g + l.count g < 256) →
    ∃ R', incAll l R = some R' ∧ (∀ g, R' g = R g + l.count g)
  | [], R, H, _, _, _, _ => ⟨R, rfl, fun g => by simp⟩
  | f :: l, R, H, h, hf, h0, hb => by
    have hbf := hb f List.mem_cons_self
    rw [List.count_cons_self] at hbf
    obtain ⟨R1, e1, g1⟩ := inc_some h (hf f List.mem_cons_self) h0 (by omega)
    obtain ⟨R2, e2, g2⟩ := incAll_some (l := l) (inc_ok h e1) (fun x hx hz => List.mem_cons_of_mem _ (hf x (List.mem_cons_of_mem _ hx) hz))
      (by rw [g1]; omega)
      (fun g hg => by
        have := hb g (List.mem_cons_of_mem _ hg)
        rw [g1]
        have e : (f :: l).count g = [f].count g + l.count g := by rw [← List.count_append]; rfl
        omega)
    refine ⟨R2, ?_, fun g => ?_⟩
    · unfold incAll; rw [e1]; exact e2
    · rw [g2, g1]
      have e : (f :: l).count g = [f].count g + l.count g := by rw [← List.count_append]; rfl
      omega

theorem dec_zero {f : Nat} {R R' : Refs} (h : dec f R = some R') : R' 0 = R 0 := by
  unfold dec at h
  split at h
  · cases h; rfl
  · rename_i c
    dsimp only at h
    split at h
    · cases h
    split at h
    · cases h; simp [upd, Ne.symm c]
    split at h
    · cases h
    · cases h; simp [upd, Ne.symm c]

theorem decAll_zero : ∀ {l : List Nat} {R R' : Refs}, decAll l R = some R' → R' 0 = R 0
  | [], _, _, h => by cases h; rfl
  | f :: l, R, R', h => by
    unfold decAll at h
    split at h
    · cases h
    · rename_i R1 e
      exact (decAll_zero h).trans (dec_zero e)

theorem inc_zero_ge {f : Nat} {R R' : Refs} (h : inc f R = some R') (h2 : 2 ≤ R 0) : 2 ≤ R' 0 := by
  unfold inc at h
  dsimp only at h
  split at h
  · cases h
  split at h
  · cases h
  rename_i c _
  cases h
  by_cases c : f = 0
  · subst c
    simp only [upd, if_true]
    omega
  · simpa [upd, Ne.symm c] using h2

theorem incAll_zero_ge : ∀ {l : List Nat} {R R' : Refs}, incAll l R = some R' → 2 ≤ R 0 → 2 ≤ R' 0
  | [], _, _, h, h2 => by cases h; exact h2
  | f :: l, R, R', h, h2 => by
    unfold incAll at h
    split at h
    · cases h
    · rename_i R1 e
      exact incAll_zero_ge h (inc_zero_ge e h2)

/-- The count of the super block's extent never falls below its one reference. -/
theorem super_kept {s : St} (h : Reach s) : 2 ≤ s.refs 0 := by
  induction h with
  | init => decide
  | @step s s' _ st ih =>
    cases st with
    | @make f hf _ => simpa [upd, Ne.symm hf] using ih
    | @build _ _ _ _ _ f _ _ hf _ => simpa [upd, Ne.symm hf] using ih
    | @flush d c rest i p R _ _ hr =>
      unfold flushRefs at hr
      split at hr
      · cases hr
      · rename_i e
        show 2 ≤ R 0
        rw [decAll_zero hr]
        exact incAll_zero_ge e ih
    | @splitLeaf d rest p gen n R _ _ hr => exact incAll_zero_ge hr ih
    | @splitIndex d rest t R _ hr =>
      unfold splitIndexRefs at hr
      split at hr
      · cases hr
      · rename_i e
        split at hr
        · cases hr
        · rename_i e2
          show 2 ≤ R 0
          rw [decAll_zero hr, decAll_zero e2]
          exact incAll_zero_ge e ih
    | @keep sc rest g o l R _ _ hr =>
      split at hr
      · cases hr; exact ih
      · exact inc_zero_ge hr ih
    | @replace sc rest d nrest R d' sc' ls _ _ _ hr =>
      unfold replaceIn at hr
      split at hr
      · cases hr
      split at hr
      · cases hr
      dsimp only at hr
      split at hr
      · cases hr
      rename_i e
      cases hr
      show 2 ≤ R 0
      rw [decAll_zero e]
      exact ih
    | @finish _ _ _ _ _ hr => exact Nat.le_trans ih (Nat.le_of_eq (decAll_zero hr).symm)
    | @vanish _ _ _ _ _ _ _ hr => exact Nat.le_trans ih (Nat.le_of_eq (decAll_zero hr).symm)
    | @destroy _ _ _ _ hr => exact Nat.le_trans ih (Nat.le_of_eq (decAll_zero hr).symm)
    | _ => exact ih

theorem mem_held {s : St} {d : Nd} (hd : d ∈ s.nodes) {x : Nat} (hx : x ∈ d.slots) : x ∈ s.held ++ s.lost :=
  List.mem_append_left _ (List.mem_append_left _ (List.mem_append_left _ (List.mem_flatMap.mpr ⟨d, hd, hx⟩)))

theorem live_slots {d : Nd} {p : Piv} {x : Nat} (hx : x ∈ d.liveSlots p) : x ∈ d.slots := by
  unfold Nd.liveSlots at hx
  obtain ⟨l, hl, hx⟩ := List.mem_flatten.mp hx
  exact List.mem_append_right _ (List.mem_flatten.mpr ⟨l, List.mem_of_mem_drop hl, hx⟩)

/-- A flush fails only if a count does not fit into its byte. -/
theorem flush_ok {s : St} (h : Reach s) {d c : Nd} {rest : List Nd} (hn : s.nodes.Perm (d :: c :: rest)) {i : Nat} {p : Piv}
    (hp : d.pivs[i]? = some p) (hb : ∀ g ∈ d.liveSlots p, s.refs g + (d.liveSlots p).count g < 256) :
    ∃ R, flushRefs d i p s.refs = some R ∧ R 0 = s.refs 0 + (d.liveSlots p).count 0 := by
  have I := reach_inv h
  have hd : d ∈ s.nodes := hn.mem_iff.mpr List.mem_cons_self
  obtain ⟨R1, e1, g1⟩ := incAll_some I.ok (fun f hf _ => mem_held hd (live_slots hf)) (super_kept h) hb
  have h1 := incAll_ok I.ok e1
  obtain ⟨R2, e2, _, z2⟩ := decAll_ok (d.clear i p).resetDecs (R := R1) (H := (d.clear i p).reset.slots ++ wholeSlot p ++ d.liveSlots p ++
      c.slots ++ rest.flatMap Nd.slots ++ s.fly ++ s.scr.flatMap scrSlots ++ s.lost) (h1.congr (fun g hg => by
    simp only [List.count_append, held_count]
    rw [count_flat hn]
    simp only [List.flatMap_cons, List.count_append]
    have a1 := clear_count (f := g) hp hg
    have a2 := reset_count (f := g) (d.clear i p)
    have a3 := whole_count (I.whole d hd p (List.mem_of_getElem? hp)) hg
    omega))
  refine ⟨R2, ?_, by rw [z2, g1]⟩
  unfold flushRefs
  rw [e1]
  exact e2

/-- The same for splits. -/
theorem splitLeaf_ok {s : St} (h : Reach s) {d : Nd} {rest : List Nd} (hn : s.nodes.Perm (d :: rest)) {p : Piv} (hp : d.pivs = [p]) (gen n : Nat)
    (hb : ∀ g ∈ (d.rebundle p gen).bus.flatten, s.refs g + n * ((d.rebundle p gen).bus.flatten).count g < 256) :
    ∃ R, splitRefs n (d.rebundle p gen).bus.flatten s.refs = some R ∧ R 0 = s.refs 0 + n * ((d.rebundle p gen).bus.flatten).count 0 := by
  have I := reach_inv h
  have hd : d ∈ s.nodes := hn.mem_iff.mpr List.mem_cons_self
  obtain ⟨R1, e1, g1⟩ := incAll_some (l := (List.replicate n (d.rebundle p gen).bus.flatten).flatten) I.ok (fun f hf hz => by
      obtain ⟨l, hl, hf⟩ := List.mem_flatten.mp hf
      cases List.eq_of_mem_replicate hl
      refine mem_held hd ?_
      rw [← List.count_pos_iff, ← rebundle_count (gen := gen) hp hz, List.count_pos_iff]
      exact List.mem_append_right _ hf) (super_kept h)
    (fun g hg => by
      rw [replicate_count]
      obtain ⟨l, hl, hf⟩ := List.mem_flatten.mp hg
      cases List.eq_of_mem_replicate hl
      exact hb g hf)
  exact ⟨R1, e1, by rw [g1, replicate_count]⟩

theorem splitIndex_ok {s : St} (h : Reach s) {d : Nd} {rest : List Nd} (hn : s.nodes.Perm (d :: rest)) (t : Nat)
    (hb : ∀ g ∈ d.bus.flatten, s.refs g + (d.bus.flatten).count g < 256) :
    ∃ R, splitIndexRefs d t s.refs = some R ∧ R 0 = s.refs 0 + d.bus.flatten.count 0 := by
  have I := reach_inv h
  have hd : d ∈ s.nodes := hn.mem_iff.mpr List.mem_cons_self
  obtain ⟨R1, e1, g1⟩ := incAll_some I.ok (fun f hf _ => mem_held hd (List.mem_append_right _ hf)) (super_kept h) hb
  have h1 := incAll_ok I.ok e1
  obtain ⟨R2, e2, h2, z2⟩ := decAll_ok ({ d with pivs := d.pivs.drop t } : Nd).resetDecs (R := R1)
    (H := ({ d with pivs := d.pivs.take t } : Nd).resetDecs ++ (({ d with pivs := d.pivs.take t } : Nd).reset.slots ++
      ({ d with pivs := d.pivs.drop t } : Nd).reset.slots ++ rest.flatMap Nd.slots ++ s.fly ++ s.scr.flatMap scrSlots ++ s.lost))
    (h1.congr (fun g hg => by
      simp only [List.count_append, held_count]
      rw [count_flat hn]
      simp only [List.flatMap_cons, List.count_append]
      have a1 := split_count (f := g) d t
      have a2 := reset_count (f := g) ({ d with pivs := d.pivs.take t } : Nd)
      have a3 := reset_count (f := g) ({ d with pivs := d.pivs.drop t } : Nd)
      omega))
  obtain ⟨R3, e3, _, z3⟩ := decAll_ok ({ d with pivs := d.pivs.take t } : Nd).resetDecs h2
  refine ⟨R3, ?_, by rw [z3, z2, g1]⟩
  unfold splitIndexRefs
  rw [e1]
  dsimp only
  rw [e2]
  exact e3

/-- New filters go into a node without a failure if there is one for each pivot for which the bundle is live, and it is the first. -/
theorem replace_ok {s : St} (h : Reach s) {sc : Scr} {rest : List Scr} {d : Nd} {nrest : List Nd} (hs : s.scr.Perm (sc :: rest))
    (hn : s.nodes.Perm (d :: nrest)) (hf : d.has sc.no = true → sc.no = d.first) {r : Rep}
    (hr : replaceAll (d.liveFor sc.no) d.pivs sc.made = some r) :
    ∃ x, replaceIn d sc s.refs = some x ∧ x.1 0 = s.refs 0 := by
  have I := reach_inv h
  obtain ⟨R1, e1, _, z1⟩ := decAll_ok (r.decs ++ (if d.has sc.no then ({ d with pivs := r.pivs } : Nd).clearDecs else []) ++ (if sc.first then r.olds else []))
    (R := s.refs) (H := (r.pivs.map (·.filter)) ++ (if d.has sc.no then d.bus.tail.flatten else d.bus.flatten) ++ r.made.map (·.2) ++ (if sc.first then [] else r.olds) ++
      nrest.flatMap Nd.slots ++ rest.flatMap scrSlots ++ s.fly ++ s.lost) (I.ok.congr (fun g hg => by
      simp only [List.count_append, held_count]
      rw [count_flat hs, count_flat hn]
      simp only [List.flatMap_cons, List.count_append]
      have a1 := replaceAll_count (f := g) hr hg
      have a2 : d.slots.count g = (d.pivs.map (·.filter)).count g + d.bus.flatten.count g := by unfold Nd.slots; rw [List.count_append]
      have a5 : (scrSlots sc).count g = (sc.made.map (·.2)).count g := rfl
      have a7 : (if sc.first = true then r.olds else []).count g + (if sc.first = true then [] else r.olds).count g = r.olds.count g := by
        split <;> simp
      have a8 : (if d.has sc.no = true then ({ d with pivs := r.pivs } : Nd).clearDecs else []).count g +
          (if d.has sc.no = true then d.bus.tail.flatten else d.bus.flatten).count g = d.bus.flatten.count g := by
        split
        · unfold Nd.clearDecs
          dsimp only
          cases d.bus with
          | nil => rfl
          | cons b l => simp [List.count_append]
        · simp
      omega))
  unfold replaceIn
  rw [if_neg (fun c => c.2 (hf c.1)), hr]
  dsimp only
  rw [e1]
  exact ⟨_, rfl, z1⟩

/-- What is left of new filters can be given up. -/
theorem finish_ok {s : St} (h : Reach s) {sc : Scr} {rest : List Scr} (hs : s.scr.Perm (sc :: rest)) :
    ∃ R, decAll (sc.made.map (·.2)) s.refs = some R ∧ R 0 = s.refs 0 := by
  obtain ⟨R, e, _, z⟩ := decAll_ok (sc.made.map (·.2)) (R := s.refs) (H := s.nodes.flatMap Nd.slots ++ s.fly ++ rest.flatMap scrSlots ++ s.lost)
    ((reach_inv h).ok.congr (fun g _ => by
      simp only [List.count_append, held_count]
      rw [count_flat hs]
      simp only [List.flatMap_cons, List.count_append, scrSlots]
      omega))
  exact ⟨R, e, z⟩

/-- The filters of a bundle, or of a node, can be given up. -/
theorem vanish_ok {s : St} (h : Reach s) {d : Nd} {rest : List Nd} (hn : s.nodes.Perm (d :: rest)) {b : List (List Nat)} {l : List Nat} (hb : d.bus = b ++ [l]) :
    ∃ R, decAll l s.refs = some R ∧ R 0 = s.refs 0 := by
  obtain ⟨R, e, _, z⟩ := decAll_ok l (R := s.refs) (H := d.pivs.map (·.filter) ++ b.flatten ++ rest.flatMap Nd.slots ++ s.fly ++ s.scr.flatMap scrSlots ++ s.lost)
    ((reach_inv h).ok.congr (fun g _ => by
      simp only [List.count_append, held_count]
      rw [count_flat hn]
      simp only [List.flatMap_cons, List.count_append, Nd.slots, hb, List.flatten_append, List.flatten_cons, List.flatten_nil, List.append_nil]
      omega))
  exact ⟨R, e, z⟩

theorem destroy_ok {s : St} (h : Reach s) {d : Nd} {rest : List Nd} (hn : s.nodes.Perm (d :: rest)) :
    ∃ R, decAll d.slots s.refs = some R ∧ R 0 = s.refs 0 := by
  obtain ⟨R, e, _, z⟩ := decAll_ok d.slots (R := s.refs) (H := rest.flatMap Nd.slots ++ s.fly ++ s.scr.flatMap scrSlots ++ s.lost)
    ((reach_inv h).ok.congr (fun g _ => by
      simp only [List.count_append, held_count]
      rw [count_flat hn]
      simp only [List.flatMap_cons, List.count_append]
      omega))
  exact ⟨R, e, z⟩

/-- Partial: when everything is gone and nothing was lost, all filters are freed. -/
theorem destroyed_partial {s : St} (h : Reach s) (h1 : s.nodes = []) (h2 : s.fly = []) (h3 : s.scr = []) (h4 : s.lost = []) {f : Nat} (hf : f ≠ 0) :
    s.refs f = 0 :=
  filter_freed_partial h hf (by simp [places, h1, h2, h3]) (by simp [h4])

/-! ### The extent of the super block -/

/-- Partial: as long as no slot of a bundle has the empty filter, and no pivot with whole branches, steps leave the count of the super block's
extent alone. `superblock_overflow` shows it otherwise. -/
theorem super_same_partial {s s' : St} (st : Step s s') (hb : ∀ d ∈ s.nodes, 0 ∉ d.bus.flatten)
    (hw : ∀ d ∈ s.nodes, ∀ p ∈ d.pivs, 0 < p.whole → p.filter ≠ 0) : s'.refs 0 = s.refs 0 := by
  have key : ∀ {l : List Nat} {R R' : Refs}, incAll l R = some R' → 0 ∉ l → R' 0 = R 0 := by
    intro l
    induction l with
    | nil => intro R R' h _; cases h; rfl
    | cons f l ih =>
      intro R R' h hz
      unfold incAll at h
      split at h
      · cases h
      · rename_i R1 e
        rw [ih h (fun x => hz (List.mem_cons_of_mem _ x))]
        unfold inc at e
        dsimp only at e
        split at e
        · cases e
        split at e
        · cases e
        cases e
        have : f ≠ 0 := fun x => hz (by rw [x]; exact List.mem_cons_self)
        simp [upd, Ne.symm this]
  cases st with
  | @make f hf _ => simp [upd, Ne.symm hf]
  | @build _ _ _ _ _ f _ _ hf _ => simp [upd, Ne.symm hf]
  | @flush d c rest i p R hn _ hr =>
    have hd := hb d (hn.mem_iff.mpr List.mem_cons_self)
    unfold flushRefs at hr
    split at hr
    · cases hr
    · rename_i e
      show R 0 = _
      rw [decAll_zero hr, key e]
      intro hz
      obtain ⟨l, hl, hz⟩ := List.mem_flatten.mp hz
      exact hd (List.mem_flatten.mpr ⟨l, List.mem_of_mem_drop hl, hz⟩)
  | @splitLeaf d rest p gen n R hn hp hr =>
    have hd := hn.mem_iff.mpr List.mem_cons_self
    refine key hr (fun hz => ?_)
    obtain ⟨l, hl, hz⟩ := List.mem_flatten.mp hz
    cases List.eq_of_mem_replicate hl
    have : (d.rebundle p gen).bus.flatten = wholeSlot p ++ d.bus.flatten := by simp [Nd.rebundle]
    rw [this] at hz
    rcases List.mem_append.mp hz with hz | hz
    · unfold wholeSlot at hz
      split at hz
      · rename_i c
        exact hw d hd p (by rw [hp]; exact List.mem_singleton_self p) c (List.mem_singleton.mp hz).symm
      · cases hz
    · exact hb d hd hz
  | @splitIndex d rest t R hn hr =>
    have hd := hb d (hn.mem_iff.mpr List.mem_cons_self)
    unfold splitIndexRefs at hr
    split at hr
    · cases hr
    · rename_i e
      split at hr
      · cases hr
      · rename_i e2
        show R 0 = _
        rw [decAll_zero hr, decAll_zero e2, key e hd]
  | @keep sc rest g o l R _ _ hr =>
    split at hr
    · cases hr; rfl
    · rename_i c
      have : incAll [o] s.refs = some R := by unfold incAll; rw [hr]; rfl
      exact key this (by simpa using Ne.symm c)
  | @replace sc rest d nrest R d' sc' ls _ _ _ hr =>
    unfold replaceIn at hr
    split at hr
    · cases hr
    split at hr
    · cases hr
    dsimp only at hr
    split at hr
    · cases hr
    rename_i e
    cases hr
    exact decAll_zero e
  | @finish _ _ _ _ _ hr => exact decAll_zero hr
  | @vanish _ _ _ _ _ _ _ hr => exact decAll_zero hr
  | @destroy _ _ _ _ hr => exact decAll_zero hr
  | _ => rfl

/-! ### Runs -/

/-- There is a run to a state like this, with the count `z` at the super block's extent. -/
def At (nodes : List Nd) (fly : List Nat) (scr : List Scr) (lost : List Nat) (z : Nat) : Prop :=
  ∃ R : Refs, Reach ⟨nodes, fly, scr, R, lost⟩ ∧ R 0 = z

theorem refs_small {s : St} (h : Reach s) {f : Nat} (hf : f ≠ 0) : s.refs f ≤ 2 + s.held.length + s.lost.length := by
  rw [count_exact h hf, places_eq]
  have a := List.count_le_length (a := f) (l := s.held)
  have b := List.count_le_length (a := f) (l := s.lost)
  split <;> omega

section
variable {nodes : List Nd} {fly : List Nat} {scr : List Scr} {lost : List Nat} {z : Nat}

theorem At.make (h : At nodes fly scr lost z) {f : Nat} (hf : f ≠ 0) (hp : f ∉ (St.held ⟨nodes, fly, scr, fun _ => 0, lost⟩) ++ lost) :
    At nodes (f :: fly) scr lost z := by
  obtain ⟨R, hr, hz⟩ := h
  have : R f = 0 := by
    refine filter_freed_partial hr hf ?_ (fun x => hp (List.mem_append_right _ x))
    rw [places_eq]
    exact List.count_eq_zero_of_not_mem (fun x => hp (List.mem_append_left _ x))
  exact ⟨_, hr.step (.make hf this), by simp [upd, Ne.symm hf, hz]⟩

theorem At.build {sc : Scr} {rest : List Scr} {g o f : Nat} {l : List (Nat × Nat)} (h : At nodes fly scr lost z) (hs : scr.Perm (sc :: rest))
    (ht : sc.todo = (g, o) :: l) (hf : f ≠ 0) (hp : f ∉ (St.held ⟨nodes, fly, scr, fun _ => 0, lost⟩) ++ lost) :
    At nodes fly ({ sc with todo := l, made := (g, f) :: sc.made } :: rest) lost z := by
  obtain ⟨R, hr, hz⟩ := h
  have : R f = 0 := by
    refine filter_freed_partial hr hf ?_ (fun x => hp (List.mem_append_right _ x))
    rw [places_eq]
    exact List.count_eq_zero_of_not_mem (fun x => hp (List.mem_append_left _ x))
  exact ⟨_, hr.step (.build hs ht hf this), by simp [upd, Ne.symm hf, hz]⟩

theorem At.keep {sc : Scr} {rest : List Scr} {g : Nat} {l : List (Nat × Nat)} (h : At nodes fly scr lost z) (hs : scr.Perm (sc :: rest))
    (ht : sc.todo = (g, 0) :: l) : At nodes fly ({ sc with todo := l, made := (g, 0) :: sc.made } :: rest) lost z := by
  obtain ⟨R, hr, hz⟩ := h
  exact ⟨_, hr.step (.keep hs ht (by rfl)), hz⟩

theorem At.install {d : Nd} {rest : List Nd} {f : Nat} {fl : List Nat} (h : At nodes fly scr lost z) (hn : nodes.Perm (d :: rest)) (hf : fly.Perm (f :: fl)) :
    At (d.add [f] :: rest) fl scr lost z := by
  obtain ⟨R, hr, hz⟩ := h
  exact ⟨_, hr.step (.install hn hf), hz⟩

theorem At.prepare {d : Nd} (h : At nodes fly scr lost z) (hd : d ∈ nodes) (hb : d.bus ≠ []) : At nodes fly (FilterRefs.prepare d :: scr) lost z := by
  obtain ⟨R, hr, hz⟩ := h
  exact ⟨_, hr.step (.prepare hd hb), hz⟩

theorem At.newRoot (h : At nodes fly scr lost z) (gen first : Nat) : At (⟨[⟨gen, 0, 0, 0⟩], [], first⟩ :: nodes) fly scr lost z := by
  obtain ⟨R, hr, hz⟩ := h
  exact ⟨_, hr.step .newRoot, hz⟩

theorem At.addPivot {d : Nd} {rest : List Nd} {i : Nat} {p : Piv} (h : At nodes fly scr lost z) (hn : nodes.Perm (d :: rest)) (hp : d.pivs[i]? = some p)
    (hw : p.whole = 0) (hs : p.start = d.bus.length) (gen : Nat) : At (d.addPivot i gen p :: rest) fly scr lost z := by
  obtain ⟨R, hr, hz⟩ := h
  exact ⟨_, hr.step (.addPivot hn hp hw hs), hz⟩

theorem At.flush {d c : Nd} {rest : List Nd} {i : Nat} {p : Piv} (h : At nodes fly scr lost z) (hn : nodes.Perm (d :: c :: rest)) (hp : d.pivs[i]? = some p)
    (hb : 2 + (St.held ⟨nodes, fly, scr, fun _ => 0, lost⟩).length + lost.length + (d.liveSlots p).length < 256)
    (h0 : z + (d.liveSlots p).count 0 < 256) :
    At (flushParent d i p :: c.add (wholeSlot p ++ d.liveSlots p) :: rest) fly scr lost (z + (d.liveSlots p).count 0) := by
  obtain ⟨R, hr, hz⟩ := h
  obtain ⟨R', e, e0⟩ := flush_ok hr hn hp (fun g _ => by
    by_cases c : g = 0
    · subst c
      show R 0 + _ < 256
      rw [hz]; exact h0
    · have a := refs_small hr c
      have b := List.count_le_length (a := g) (l := d.liveSlots p)
      have e : (St.held ⟨nodes, fly, scr, R, lost⟩).length = (St.held ⟨nodes, fly, scr, fun _ => 0, lost⟩).length := rfl
      rw [e] at a
      dsimp only at a ⊢
      omega)
  exact ⟨R', hr.step (.flush hn hp e), by rw [e0]; show R 0 + _ = _; rw [hz]⟩

theorem At.splitIndex {d : Nd} {rest : List Nd} (t : Nat) (h : At nodes fly scr lost z) (hn : nodes.Perm (d :: rest))
    (hb : 2 + (St.held ⟨nodes, fly, scr, fun _ => 0, lost⟩).length + lost.length + (d.bus.flatten).length < 256)
    (h0 : z + (d.bus.flatten).count 0 < 256) :
    At (({ d with pivs := d.pivs.take t } : Nd).reset :: ({ d with pivs := d.pivs.drop t } : Nd).reset :: rest) fly scr lost (z + (d.bus.flatten).count 0) := by
  obtain ⟨R, hr, hz⟩ := h
  obtain ⟨R', e, e0⟩ := splitIndex_ok hr hn t (fun g _ => by
    by_cases c : g = 0
    · subst c
      show R 0 + _ < 256
      rw [hz]; exact h0
    · have a := refs_small hr c
      have b := List.count_le_length (a := g) (l := d.bus.flatten)
      have e : (St.held ⟨nodes, fly, scr, R, lost⟩).length = (St.held ⟨nodes, fly, scr, fun _ => 0, lost⟩).length := rfl
      rw [e] at a
      dsimp only at a ⊢
      omega)
  exact ⟨R', hr.step (.splitIndex hn e), by rw [e0]; show R 0 + _ = _; rw [hz]⟩

theorem At.replace {sc : Scr} {rest : List Scr} {d : Nd} {nrest : List Nd} (h : At nodes fly scr lost z) (hs : scr.Perm (sc :: rest)) (ht : sc.todo = [])
    (hn : nodes.Perm (d :: nrest)) (hf : d.has sc.no = true → sc.no = d.first) {r : Rep} (hr : replaceAll (d.liveFor sc.no) d.pivs sc.made = some r) :
    At ((if d.has sc.no then ({ d with pivs := r.pivs } : Nd).clearBundle else { d with pivs := r.pivs }) :: nrest) fly
      ({ sc with made := r.made, first := false } :: rest) ((if sc.first then [] else r.olds) ++ lost) z := by
  obtain ⟨R, h1, hz⟩ := h
  obtain ⟨⟨R', d', sc', ls⟩, e, e0⟩ := replace_ok h1 hs hn hf hr
  have hst := h1.step (.replace hs ht hn e)
  unfold replaceIn at e
  rw [if_neg (fun c => c.2 (hf c.1)), hr] at e
  dsimp only at e
  split at e
  · cases e
  · cases e
    exact ⟨_, hst, by rw [← hz]; exact e0⟩

theorem At.finish {sc : Scr} {rest : List Scr} (h : At nodes fly scr lost z) (hs : scr.Perm (sc :: rest)) (ht : sc.todo = []) : At nodes fly rest lost z := by
  obtain ⟨R, hr, hz⟩ := h
  obtain ⟨R', e, e0⟩ := finish_ok hr hs
  exact ⟨R', hr.step (.finish hs ht e), by rw [e0]; exact hz⟩

theorem At.vanish {d : Nd} {rest : List Nd} {b : List (List Nat)} {l : List Nat} (h : At nodes fly scr lost z) (hn : nodes.Perm (d :: rest)) (hb : d.bus = b ++ [l]) :
    At ({ d with bus := b, pivs := d.pivs.map (fun p => { p with start := min p.start b.length }) } :: rest) fly scr lost z := by
  obtain ⟨R, hr, hz⟩ := h
  obtain ⟨R', e, e0⟩ := vanish_ok hr hn hb
  exact ⟨R', hr.step (.vanish hn hb e), by rw [e0]; exact hz⟩

theorem At.splitLeaf {d : Nd} {rest : List Nd} {p : Piv} (gen n : Nat) (h : At nodes fly scr lost z) (hn : nodes.Perm (d :: rest)) (hp : d.pivs = [p])
    (hb : 2 + (St.held ⟨nodes, fly, scr, fun _ => 0, lost⟩).length + lost.length + n * ((d.rebundle p gen).bus.flatten).length < 256)
    (h0 : z + n * ((d.rebundle p gen).bus.flatten).count 0 < 256) :
    At (List.replicate (n + 1) (d.rebundle p gen) ++ rest) fly scr lost (z + n * ((d.rebundle p gen).bus.flatten).count 0) := by
  obtain ⟨R, hr, hz⟩ := h
  obtain ⟨R', e, e0⟩ := splitLeaf_ok hr hn hp gen n (fun g _ => by
    by_cases c : g = 0
    · subst c
      show R 0 + _ < 256
      rw [hz]; exact h0
    · have a := refs_small hr c
      have b := Nat.mul_le_mul_left n (List.count_le_length (a := g) (l := (d.rebundle p gen).bus.flatten))
      have e : (St.held ⟨nodes, fly, scr, R, lost⟩).length = (St.held ⟨nodes, fly, scr, fun _ => 0, lost⟩).length := rfl
      rw [e] at a
      dsimp only at a ⊢
      omega)
  exact ⟨R', hr.step (.splitLeaf hn hp e), by rw [e0]; show R 0 + _ = _; rw [hz]⟩

theorem At.init : At St.init.nodes [] [] [] 2 := ⟨_, .init, rfl⟩

end

/-! ### What goes wrong -/

/-- A filter build keeps the address of an old filter that was moved to a child by a flush and freed there. -/
theorem stale : ∃ s, Reach s ∧ ∃ sc ∈ s.scr, ∃ g o, (g, o) ∈ sc.todo ∧ o ≠ 0 ∧ s.refs o = 0 := by
  have s0 : At [⟨[⟨0, 0, 0, 0⟩], [], 0⟩, ⟨[⟨0, 0, 0, 0⟩], [], 0⟩] [] [] [] 2 := At.init
  have s1 : At [⟨[⟨0, 0, 0, 0⟩], [], 0⟩, ⟨[⟨0, 0, 0, 0⟩], [], 0⟩] [1] [] [] 2 := s0.make (by decide) (by decide)
  have s2 : At [⟨[⟨0, 0, 0, 0⟩], [[1]], 0⟩, ⟨[⟨0, 0, 0, 0⟩], [], 0⟩] [] [] [] 2 := s1.install (.refl _) (.refl _)
  have s3 : At [⟨[⟨0, 0, 0, 0⟩], [[1]], 0⟩, ⟨[⟨0, 0, 0, 0⟩], [], 0⟩] [] [⟨0, [(0, 0)], [], true⟩] [] 2 := s2.prepare List.mem_cons_self (by decide)
  have s4 : At [⟨[⟨0, 0, 0, 0⟩], [[1]], 0⟩, ⟨[⟨0, 0, 0, 0⟩], [], 0⟩] [] [⟨0, [], [(0, 2)], true⟩] [] 2 := s3.build (f := 2) (.refl _) rfl (by decide) (by decide)
  have s5 : At [⟨[⟨0, 2, 0, 1⟩], [], 1⟩, ⟨[⟨0, 0, 0, 0⟩], [], 0⟩] [] [⟨0, [], [(0, 0)], false⟩] [] 2 :=
    s4.replace (.refl _) rfl (.refl _) (by decide) (r := ⟨[⟨0, 2, 0, 0⟩], [(0, 0)], [], [0]⟩) rfl
  have s6 : At [⟨[⟨0, 2, 0, 1⟩], [], 1⟩, ⟨[⟨0, 0, 0, 0⟩], [], 0⟩] [] [] [] 2 := s5.finish (.refl _) rfl
  have s7 : At [⟨[⟨0, 2, 0, 1⟩], [], 1⟩, ⟨[⟨0, 0, 0, 0⟩], [], 0⟩] [1] [] [] 2 := s6.make (by decide) (by decide)
  have s8 : At [⟨[⟨0, 2, 0, 1⟩], [[1]], 1⟩, ⟨[⟨0, 0, 0, 0⟩], [], 0⟩] [] [] [] 2 := s7.install (.refl _) (.refl _)
  have s9 : At [⟨[⟨0, 2, 0, 1⟩], [[1]], 1⟩, ⟨[⟨0, 0, 0, 0⟩], [], 0⟩] [] [⟨1, [(0, 2)], [], true⟩] [] 2 := s8.prepare List.mem_cons_self (by decide)
  have s10 : At [⟨[⟨0, 0, 0, 0⟩], [], 2⟩, ⟨[⟨0, 0, 0, 0⟩], [[2, 1]], 0⟩] [] [⟨1, [(0, 2)], [], true⟩] [] 2 :=
    s9.flush (i := 0) (.refl _) rfl (by decide) (by decide)
  have s11 : At [⟨[⟨0, 0, 0, 0⟩], [], 2⟩, ⟨[⟨0, 0, 0, 0⟩], [[2, 1]], 0⟩] [] [⟨0, [(0, 0)], [], true⟩, ⟨1, [(0, 2)], [], true⟩] [] 2 :=
    s10.prepare (d := ⟨[⟨0, 0, 0, 0⟩], [[2, 1]], 0⟩) (by decide) (by decide)
  have s12 : At [⟨[⟨0, 0, 0, 0⟩], [], 2⟩, ⟨[⟨0, 0, 0, 0⟩], [[2, 1]], 0⟩] [] [⟨0, [], [(0, 3)], true⟩, ⟨1, [(0, 2)], [], true⟩] [] 2 :=
    s11.build (f := 3) (.refl _) rfl (by decide) (by decide)
  have s13 : At [⟨[⟨0, 3, 0, 1⟩], [], 1⟩, ⟨[⟨0, 0, 0, 0⟩], [], 2⟩] [] [⟨0, [], [(0, 0)], false⟩, ⟨1, [(0, 2)], [], true⟩] [] 2 :=
    s12.replace (.refl _) rfl (.swap _ _ _) (by decide) (r := ⟨[⟨0, 3, 0, 0⟩], [(0, 0)], [], [0]⟩) rfl
  obtain ⟨R, hr, _⟩ := s13
  exact ⟨_, hr, _, List.mem_cons_of_mem _ List.mem_cons_self, 0, 2, List.mem_cons_self, by decide,
    filter_freed_partial hr (by decide) (by rfl) List.not_mem_nil⟩

/-- A root with two pivots above two leaves. -/
theorem two_leaves : At [⟨[⟨0, 0, 0, 0⟩, ⟨1, 0, 0, 0⟩], [], 1⟩, ⟨[⟨1, 0, 0, 0⟩], [[1]], 1⟩, ⟨[⟨1, 0, 0, 0⟩], [[1]], 1⟩] [] [] [] 2 := by
  have s0 : At [⟨[⟨0, 0, 0, 0⟩], [], 0⟩, ⟨[⟨0, 0, 0, 0⟩], [], 0⟩] [] [] [] 2 := At.init
  have s1 : At [⟨[⟨0, 0, 0, 0⟩], [], 0⟩, ⟨[⟨0, 0, 0, 0⟩], [], 0⟩] [1] [] [] 2 := s0.make (by decide) (by decide)
  have s2 : At [⟨[⟨0, 0, 0, 0⟩], [[1]], 0⟩, ⟨[⟨0, 0, 0, 0⟩], [], 0⟩] [] [] [] 2 := s1.install (.refl _) (.refl _)
  have s3 : At [⟨[⟨0, 0, 0, 0⟩], [], 1⟩, ⟨[⟨0, 0, 0, 0⟩], [[1]], 0⟩] [] [] [] 2 := s2.flush (i := 0) (.refl _) rfl (by decide) (by decide)
  have s4 : At [⟨[⟨1, 0, 0, 0⟩], [[1]], 1⟩, ⟨[⟨1, 0, 0, 0⟩], [[1]], 1⟩, ⟨[⟨0, 0, 0, 0⟩], [], 1⟩] [] [] [] 2 :=
    s3.splitLeaf 1 1 (.swap _ _ _) rfl (by decide) (by decide)
  exact s4.addPivot (d := ⟨[⟨0, 0, 0, 0⟩], [], 1⟩) (i := 0) (by decide) rfl rfl rfl 1

/-- A filter that is in no place any more, and not freed: its pivot was in the second part of a node split while new filters were built. -/
theorem leak : ∃ s f, Reach s ∧ f ≠ 0 ∧ places s f = 0 ∧ s.scr = [] ∧ s.fly = [] ∧ s.refs f = 3 := by
  have s0 := two_leaves.make (f := 2) (by decide) (by decide)
  have s1 : At [⟨[⟨0, 0, 0, 0⟩, ⟨1, 0, 0, 0⟩], [[2]], 1⟩, ⟨[⟨1, 0, 0, 0⟩], [[1]], 1⟩, ⟨[⟨1, 0, 0, 0⟩], [[1]], 1⟩] [] [] [] 2 :=
    s0.install (.refl _) (.refl _)
  have s2 : At [⟨[⟨0, 0, 0, 0⟩, ⟨1, 0, 0, 0⟩], [[2]], 1⟩, ⟨[⟨1, 0, 0, 0⟩], [[1]], 1⟩, ⟨[⟨1, 0, 0, 0⟩], [[1]], 1⟩] []
    [⟨1, [(0, 0), (1, 0)], [], true⟩] [] 2 := s1.prepare List.mem_cons_self (by decide)
  have s3 := s2.build (f := 3) (.refl _) rfl (by decide) (by decide)
  have s4 : At [⟨[⟨0, 0, 0, 0⟩, ⟨1, 0, 0, 0⟩], [[2]], 1⟩, ⟨[⟨1, 0, 0, 0⟩], [[1]], 1⟩, ⟨[⟨1, 0, 0, 0⟩], [[1]], 1⟩] []
    [⟨1, [], [(1, 4), (0, 3)], true⟩] [] 2 := s3.build (f := 4) (.refl _) rfl (by decide) (by decide)
  have s5 : At [⟨[⟨0, 3, 0, 1⟩, ⟨1, 4, 0, 1⟩], [], 2⟩, ⟨[⟨1, 0, 0, 0⟩], [[1]], 1⟩, ⟨[⟨1, 0, 0, 0⟩], [[1]], 1⟩] []
    [⟨1, [], [(1, 0), (0, 0)], false⟩] [] 2 :=
    s4.replace (.refl _) rfl (.refl _) (by decide) (r := ⟨[⟨0, 3, 0, 0⟩, ⟨1, 4, 0, 0⟩], [(1, 0), (0, 0)], [], [0, 0]⟩) rfl
  have s6 := s5.finish (.refl _) rfl
  have s7 := s6.make (f := 2) (by decide) (by decide)
  have s8 : At [⟨[⟨0, 3, 0, 1⟩, ⟨1, 4, 0, 1⟩], [[2]], 2⟩, ⟨[⟨1, 0, 0, 0⟩], [[1]], 1⟩, ⟨[⟨1, 0, 0, 0⟩], [[1]], 1⟩] [] [] [] 2 :=
    s7.install (.refl _) (.refl _)
  have s9 : At [⟨[⟨0, 3, 0, 1⟩, ⟨1, 4, 0, 1⟩], [[2]], 2⟩, ⟨[⟨1, 0, 0, 0⟩], [[1]], 1⟩, ⟨[⟨1, 0, 0, 0⟩], [[1]], 1⟩] []
    [⟨2, [(0, 3), (1, 4)], [], true⟩] [] 2 := s8.prepare List.mem_cons_self (by decide)
  have s10 := s9.build (f := 5) (.refl _) rfl (by decide) (by decide)
  have s11 : At [⟨[⟨0, 3, 0, 1⟩, ⟨1, 4, 0, 1⟩], [[2]], 2⟩, ⟨[⟨1, 0, 0, 0⟩], [[1]], 1⟩, ⟨[⟨1, 0, 0, 0⟩], [[1]], 1⟩] []
    [⟨2, [], [(1, 6), (0, 5)], true⟩] [] 2 := s10.build (f := 6) (.refl _) rfl (by decide) (by decide)
  have s12 : At [⟨[⟨0, 3, 0, 1⟩], [[2]], 2⟩, ⟨[⟨1, 4, 0, 1⟩], [[2]], 2⟩, ⟨[⟨1, 0, 0, 0⟩], [[1]], 1⟩, ⟨[⟨1, 0, 0, 0⟩], [[1]], 1⟩] []
    [⟨2, [], [(1, 6), (0, 5)], true⟩] [] 2 := s11.splitIndex 1 (.refl _) (by decide) (by decide)
  have s13 : At [⟨[⟨0, 5, 0, 2⟩], [], 3⟩, ⟨[⟨1, 4, 0, 1⟩], [[2]], 2⟩, ⟨[⟨1, 0, 0, 0⟩], [[1]], 1⟩, ⟨[⟨1, 0, 0, 0⟩], [[1]], 1⟩] []
    [⟨2, [], [(1, 6), (0, 0)], false⟩] [] 2 :=
    s12.replace (.refl _) rfl (.refl _) (by decide) (r := ⟨[⟨0, 5, 0, 1⟩], [(1, 6), (0, 0)], [], [3]⟩) rfl
  have s14 : At [⟨[⟨1, 6, 0, 2⟩], [], 3⟩, ⟨[⟨0, 5, 0, 2⟩], [], 3⟩, ⟨[⟨1, 0, 0, 0⟩], [[1]], 1⟩, ⟨[⟨1, 0, 0, 0⟩], [[1]], 1⟩] []
    [⟨2, [], [(1, 0), (0, 0)], false⟩] [4] 2 :=
    s13.replace (.refl _) rfl (.swap _ _ _) (by decide) (r := ⟨[⟨1, 6, 0, 1⟩], [(1, 0), (0, 0)], [], [4]⟩) rfl
  obtain ⟨R, hr, _⟩ := s14.finish (.refl _) rfl
  exact ⟨_, 4, hr, by decide, by rfl, rfl, rfl, count_exact hr (by decide)⟩

/-! ### The count of the super block's extent overflows -/

/-- A tree of height two: the root, an index node and a leaf for each of its pivots. -/
def tree (a b c : Nat) : List Nd :=
  [⟨[⟨0, 0, 0, 0⟩, ⟨1, 0, 0, 0⟩], [], a⟩, ⟨[⟨0, 0, 0, 0⟩], [], b⟩, ⟨[⟨1, 0, 0, 0⟩], [], 1⟩, ⟨[⟨1, 0, 0, 0⟩], [], c⟩, ⟨[⟨1, 0, 0, 0⟩], [], 1⟩]

theorem tree_start : At (tree 0 1 1) [] [] [] 2 := by
  have s1 : At [⟨[⟨1, 0, 0, 0⟩], [], 1⟩, ⟨[⟨0, 0, 0, 0⟩, ⟨1, 0, 0, 0⟩], [], 1⟩, ⟨[⟨1, 0, 0, 0⟩], [[1]], 1⟩] [] [] [] 2 :=
    two_leaves.vanish (d := ⟨[⟨1, 0, 0, 0⟩], [[1]], 1⟩) (b := []) (by decide) rfl
  have s2 : At [⟨[⟨1, 0, 0, 0⟩], [], 1⟩, ⟨[⟨1, 0, 0, 0⟩], [], 1⟩, ⟨[⟨0, 0, 0, 0⟩, ⟨1, 0, 0, 0⟩], [], 1⟩] [] [] [] 2 :=
    s1.vanish (d := ⟨[⟨1, 0, 0, 0⟩], [[1]], 1⟩) (b := []) (by decide) rfl
  have s3 := s2.newRoot 0 0
  have s4 : At [⟨[⟨0, 0, 0, 0⟩], [], 1⟩, ⟨[⟨1, 0, 0, 0⟩], [], 1⟩, ⟨[⟨0, 0, 0, 0⟩], [], 0⟩, ⟨[⟨1, 0, 0, 0⟩], [], 1⟩, ⟨[⟨1, 0, 0, 0⟩], [], 1⟩] [] [] [] 2 :=
    s3.splitIndex (d := ⟨[⟨0, 0, 0, 0⟩, ⟨1, 0, 0, 0⟩], [], 1⟩) 1 (by decide) (by decide) (by decide)
  have s5 := s4.addPivot (d := ⟨[⟨0, 0, 0, 0⟩], [], 0⟩) (rest := [⟨[⟨0, 0, 0, 0⟩], [], 1⟩, ⟨[⟨1, 0, 0, 0⟩], [], 1⟩, ⟨[⟨1, 0, 0, 0⟩], [], 1⟩, ⟨[⟨1, 0, 0, 0⟩], [], 1⟩])
    (i := 0) (by decide) rfl rfl rfl 1
  exact s5

/-- Up to the second flush: keys of a memtable are all below the second pivot, which is flushed because of its number of branches. -/
theorem turn_half {nodes : List Nd} {a b c z : Nat} (hn : nodes.Perm (tree a b c)) (h : At nodes [] [] [] z) (hz : z < 256) :
    At [⟨[⟨0, 2, 0, 1⟩, ⟨1, 0, 0, 0⟩], [], a + 1⟩, ⟨[⟨1, 0, 0, 0⟩], [[0]], c⟩, ⟨[⟨0, 0, 0, 0⟩], [], b⟩, ⟨[⟨1, 0, 0, 0⟩], [], 1⟩, ⟨[⟨1, 0, 0, 0⟩], [], 1⟩] [] [] [] z := by
  have s1 := h.make (f := 1) (by decide) (by
    have hp : (nodes.flatMap Nd.slots).Perm ((tree a b c).flatMap Nd.slots) := hn.flatMap_right _
    intro hx
    have : 1 ∈ nodes.flatMap Nd.slots := by simpa [St.held] using hx
    have := hp.mem_iff.mp this
    simp [tree, Nd.slots] at this)
  have s2 : At [⟨[⟨0, 0, 0, 0⟩, ⟨1, 0, 0, 0⟩], [[1]], a⟩, ⟨[⟨0, 0, 0, 0⟩], [], b⟩, ⟨[⟨1, 0, 0, 0⟩], [], 1⟩, ⟨[⟨1, 0, 0, 0⟩], [], c⟩, ⟨[⟨1, 0, 0, 0⟩], [], 1⟩] [] [] [] z :=
    s1.install hn (.refl _)
  have s3 := s2.prepare List.mem_cons_self (by simp)
  have e : FilterRefs.prepare ⟨[⟨0, 0, 0, 0⟩, ⟨1, 0, 0, 0⟩], [[1]], a⟩ = ⟨a, [(0, 0), (1, 0)], [], true⟩ := by
    simp [FilterRefs.prepare, Nd.liveFor]
  rw [e] at s3
  have s4 := s3.build (f := 2) (.refl _) rfl (by decide) (by simp [St.held, Nd.slots, scrSlots])
  have s5 := s4.keep (.refl _) rfl
  have s6 := s5.replace (.refl _) rfl (.refl _) (fun _ => rfl) (r := ⟨[⟨0, 2, 0, 0⟩, ⟨1, 0, 0, 0⟩], [(1, 0), (0, 0)], [], [0, 0]⟩)
    (by simp [replaceAll, replaceOne, takeGen, Nd.liveFor])
  have e6 : Nd.has ⟨[⟨0, 0, 0, 0⟩, ⟨1, 0, 0, 0⟩], [[1]], a⟩ a = true := by simp [Nd.has]
  dsimp only at s6
  rw [e6] at s6
  have s7 : At [⟨[⟨0, 2, 0, 1⟩, ⟨1, 0, 0, 1⟩], [], a + 1⟩, ⟨[⟨0, 0, 0, 0⟩], [], b⟩, ⟨[⟨1, 0, 0, 0⟩], [], 1⟩, ⟨[⟨1, 0, 0, 0⟩], [], c⟩, ⟨[⟨1, 0, 0, 0⟩], [], 1⟩] [] [] [] z :=
    s6.finish (.refl _) rfl
  exact s7.flush (d := ⟨[⟨0, 2, 0, 1⟩, ⟨1, 0, 0, 1⟩], [], a + 1⟩) (c := ⟨[⟨1, 0, 0, 0⟩], [], c⟩)
    (rest := [⟨[⟨0, 0, 0, 0⟩], [], b⟩, ⟨[⟨1, 0, 0, 0⟩], [], 1⟩, ⟨[⟨1, 0, 0, 0⟩], [], 1⟩]) (i := 1) (p := ⟨1, 0, 0, 1⟩)
    (.cons _ (((List.Perm.swap _ _ _).cons _).trans (.swap _ _ _))) rfl (by simp [St.held, Nd.slots, Nd.liveSlots]) (by simpa [Nd.liveSlots] using hz)

theorem perm_swap2 {α : Type} (a b c d e : α) : [a, b, c, d, e].Perm [b, d, a, c, e] := by
  have h1 : [a, b, c, d, e].Perm [b, a, c, d, e] := .swap _ _ _
  have h2 : [b, a, c, d, e].Perm [b, a, d, c, e] := ((List.Perm.swap _ _ _).cons _).cons _
  have h3 : [b, a, d, c, e].Perm [b, d, a, c, e] := (List.Perm.swap _ _ _).cons _
  exact h1.trans (h2.trans h3)

/-- A whole turn: the tree is as before, and the super block's extent has one reference more. -/
theorem turn {nodes : List Nd} {a b c z : Nat} (hn : nodes.Perm (tree a b c)) (h : At nodes [] [] [] z) (hz : z < 255) :
    ∃ nodes', nodes'.Perm (tree (a + 1) (b + 1) (c + 1)) ∧ At nodes' [] [] [] (z + 1) := by
  have s0 := turn_half hn h (by omega)
  have s1 : At [⟨[⟨1, 0, 0, 0⟩], [], c + 1⟩, ⟨[⟨1, 0, 0, 0⟩], [[0]], 1⟩, ⟨[⟨0, 2, 0, 1⟩, ⟨1, 0, 0, 0⟩], [], a + 1⟩, ⟨[⟨0, 0, 0, 0⟩], [], b⟩, ⟨[⟨1, 0, 0, 0⟩], [], 1⟩]
      [] [] [] (z + 1) :=
    s0.flush (d := ⟨[⟨1, 0, 0, 0⟩], [[0]], c⟩) (c := ⟨[⟨1, 0, 0, 0⟩], [], 1⟩)
      (rest := [⟨[⟨0, 2, 0, 1⟩, ⟨1, 0, 0, 0⟩], [], a + 1⟩, ⟨[⟨0, 0, 0, 0⟩], [], b⟩, ⟨[⟨1, 0, 0, 0⟩], [], 1⟩]) (i := 0) (p := ⟨1, 0, 0, 0⟩)
      (perm_swap2 _ _ _ _ _) rfl (by simp [St.held, Nd.slots, Nd.liveSlots]) (by simp [Nd.liveSlots]; omega)
  have s2 : At [⟨[⟨1, 0, 0, 0⟩], [], 1⟩, ⟨[⟨1, 0, 0, 0⟩], [], c + 1⟩, ⟨[⟨0, 2, 0, 1⟩, ⟨1, 0, 0, 0⟩], [], a + 1⟩, ⟨[⟨0, 0, 0, 0⟩], [], b⟩, ⟨[⟨1, 0, 0, 0⟩], [], 1⟩]
      [] [] [] (z + 1) := s1.vanish (b := []) (.swap _ _ _) rfl
  have s3 : At [⟨[⟨0, 0, 0, 0⟩, ⟨1, 0, 0, 0⟩], [], a + 1⟩, ⟨[⟨0, 0, 0, 0⟩], [[2]], b⟩, ⟨[⟨1, 0, 0, 0⟩], [], 1⟩, ⟨[⟨1, 0, 0, 0⟩], [], c + 1⟩, ⟨[⟨1, 0, 0, 0⟩], [], 1⟩]
      [] [] [] (z + 1) :=
    s2.flush (d := ⟨[⟨0, 2, 0, 1⟩, ⟨1, 0, 0, 0⟩], [], a + 1⟩) (c := ⟨[⟨0, 0, 0, 0⟩], [], b⟩) (i := 0) (p := ⟨0, 2, 0, 1⟩)
      (rest := [⟨[⟨1, 0, 0, 0⟩], [], 1⟩, ⟨[⟨1, 0, 0, 0⟩], [], c + 1⟩, ⟨[⟨1, 0, 0, 0⟩], [], 1⟩])
      (((List.Perm.swap _ _ _).cons _ |>.trans (.swap _ _ _)).trans
        (((((List.Perm.swap _ _ _).cons _ |>.trans (.swap _ _ _))).cons _))) rfl
      (by simp [St.held, Nd.slots, Nd.liveSlots]) (by simp [Nd.liveSlots]; omega)
  have s4 : At [⟨[⟨0, 0, 0, 0⟩], [], b + 1⟩, ⟨[⟨1, 0, 0, 0⟩], [[2]], 1⟩, ⟨[⟨0, 0, 0, 0⟩, ⟨1, 0, 0, 0⟩], [], a + 1⟩, ⟨[⟨1, 0, 0, 0⟩], [], c + 1⟩, ⟨[⟨1, 0, 0, 0⟩], [], 1⟩]
      [] [] [] (z + 1) :=
    s3.flush (d := ⟨[⟨0, 0, 0, 0⟩], [[2]], b⟩) (c := ⟨[⟨1, 0, 0, 0⟩], [], 1⟩) (i := 0) (p := ⟨0, 0, 0, 0⟩)
      (rest := [⟨[⟨0, 0, 0, 0⟩, ⟨1, 0, 0, 0⟩], [], a + 1⟩, ⟨[⟨1, 0, 0, 0⟩], [], c + 1⟩, ⟨[⟨1, 0, 0, 0⟩], [], 1⟩])
      ((List.Perm.swap _ _ _).trans ((List.Perm.swap _ _ _).cons _)) rfl
      (by simp [St.held, Nd.slots, Nd.liveSlots]) (by simp [Nd.liveSlots]; omega)
  have s5 : At [⟨[⟨1, 0, 0, 0⟩], [], 1⟩, ⟨[⟨0, 0, 0, 0⟩], [], b + 1⟩, ⟨[⟨0, 0, 0, 0⟩, ⟨1, 0, 0, 0⟩], [], a + 1⟩, ⟨[⟨1, 0, 0, 0⟩], [], c + 1⟩, ⟨[⟨1, 0, 0, 0⟩], [], 1⟩]
      [] [] [] (z + 1) := s4.vanish (b := []) (.swap _ _ _) rfl
  refine ⟨_, ?_, s5⟩
  refine (((List.Perm.swap _ _ _).cons _).trans (.swap _ _ _)).trans ((List.Perm.swap _ _ _).cons _)

theorem turns : ∀ n, n ≤ 253 → ∃ nodes a b c, nodes.Perm (tree a b c) ∧ At nodes [] [] [] (2 + n)
  | 0, _ => ⟨_, _, _, _, .refl _, tree_start⟩
  | n + 1, h => by
    obtain ⟨nodes, a, b, c, hp, hs⟩ := turns n (by omega)
    obtain ⟨nodes', hp', hs'⟩ := turn hp hs (by omega)
    exact ⟨nodes', _, _, _, hp', hs'⟩

/-- The count of the super block's extent reaches the largest value of its byte, and a flush to a leaf then stops the program. -/
theorem superblock_overflow : ∃ s d p, Reach s ∧ d ∈ s.nodes ∧ d.pivs[0]? = some p ∧ s.refs 0 = 255 ∧ flushRefs d 0 p s.refs = none := by
  obtain ⟨nodes, a, b, c, hp, hs⟩ := turns 253 (by omega)
  obtain ⟨R, hr, hz⟩ := turn_half hp hs (by omega)
  refine ⟨_, ⟨[⟨1, 0, 0, 0⟩], [[0]], c⟩, ⟨1, 0, 0, 0⟩, hr, List.mem_cons_of_mem _ List.mem_cons_self, rfl, hz, ?_⟩
  unfold flushRefs
  have : incAll (Nd.liveSlots ⟨[⟨1, 0, 0, 0⟩], [[0]], c⟩ ⟨1, 0, 0, 0⟩) R = none := by
    show incAll [0] R = none
    unfold incAll inc
    simp [hz]
  dsimp only
  rw [this]

/-! ### The hypotheses can be met -/

example : ∃ s f, Reach s ∧ f ≠ 0 ∧ places s f = 2 ∧ s.refs f = 4 := by
  obtain ⟨R, hr, _⟩ := two_leaves
  exact ⟨_, 1, hr, by decide, by rfl, count_exact hr (by decide)⟩

example : ∃ s d c rest p, Reach s ∧ s.nodes.Perm (d :: c :: rest) ∧ d.pivs[0]? = some p ∧ d.liveSlots p = [2] ∧ wholeSlot p = [1] ∧
    ∀ g ∈ d.liveSlots p, s.refs g + (d.liveSlots p).count g < 256 := by
  have s0 : At [⟨[⟨0, 0, 0, 0⟩], [], 0⟩, ⟨[⟨0, 0, 0, 0⟩], [], 0⟩] [] [] [] 2 := At.init
  have s1 := s0.make (f := 2) (by decide) (by decide)
  have s2 : At [⟨[⟨0, 0, 0, 0⟩], [[2]], 0⟩, ⟨[⟨0, 0, 0, 0⟩], [], 0⟩] [] [] [] 2 := s1.install (.refl _) (.refl _)
  have s3 : At [⟨[⟨0, 0, 0, 0⟩], [[2]], 0⟩, ⟨[⟨0, 0, 0, 0⟩], [], 0⟩] [] [⟨0, [(0, 0)], [], true⟩] [] 2 := s2.prepare List.mem_cons_self (by decide)
  have s4 := s3.build (f := 1) (.refl _) rfl (by decide) (by decide)
  have s5 : At [⟨[⟨0, 1, 0, 1⟩], [], 1⟩, ⟨[⟨0, 0, 0, 0⟩], [], 0⟩] [] [⟨0, [], [(0, 0)], false⟩] [] 2 :=
    s4.replace (.refl _) rfl (.refl _) (by decide) (r := ⟨[⟨0, 1, 0, 0⟩], [(0, 0)], [], [0]⟩) rfl
  have s6 := s5.make (f := 2) (by decide) (by decide)
  obtain ⟨R, hr, _⟩ := s6.install (.refl _) (.refl _)
  refine ⟨_, _, _, _, ⟨0, 1, 0, 1⟩, hr, .refl _, rfl, rfl, rfl, fun g hg => ?_⟩
  cases List.mem_singleton.mp hg
  have : R 2 = 3 := count_exact hr (by decide)
  show R 2 + 1 < 256
  omega

end Splinter.FilterRefs
