import Verif.Model.FilterRefs
/-!
# Counting references to filters

Every step keeps the count of a filter equal to the number of places it is in, and giving up a reference never fails.
-/
namespace Splinter.FilterRefs

/-- The counts are right for the references `H`. -/
def Ok (R : Refs) (H : List Nat) : Prop := ∀ f, f ≠ 0 → R f < 256 ∧ R f = if H.count f = 0 then 0 else 2 + H.count f

theorem Ok.congr {R : Refs} {H H' : List Nat} (h : Ok R H) (e : ∀ f, f ≠ 0 → H.count f = H'.count f) : Ok R H' := by
  intro f hf
  rw [← e f hf]
  exact h f hf

theorem inc_ok {R R' : Refs} {H : List Nat} {f : Nat} (h : Ok R H) (e : inc f R = some R') : Ok R' (f :: H) := by
  intro g hg
  unfold inc at e
  dsimp only at e
  split at e
  · cases e
  split at e
  · cases e
  cases e
  have hh := h g hg
  by_cases c : g = f
  · subst c
    simp only [upd, if_true, List.count_cons_self]
    by_cases z : H.count g = 0
    · rw [if_pos z] at hh; omega
    · rw [if_neg z] at hh
      rw [if_neg (by omega)]
      omega
  · simp only [upd, if_neg c]
    rw [List.count_cons_of_ne (Ne.symm c)]
    exact hh

theorem make_ok {R : Refs} {H : List Nat} {f : Nat} (h : Ok R H) (hf : f ≠ 0) (hz : R f = 0) : Ok (upd R f 3) (f :: H) := by
  intro g hg
  have hh := h g hg
  by_cases c : g = f
  · subst c
    simp only [upd, if_true, List.count_cons_self]
    by_cases z : H.count g = 0
    · simp [z]
    · rw [if_neg z] at hh; omega
  · simp only [upd, if_neg c]
    rw [List.count_cons_of_ne (Ne.symm c)]
    exact hh

theorem dec_ok {R : Refs} {H : List Nat} {f : Nat} (h : Ok R (f :: H)) : ∃ R', dec f R = some R' ∧ Ok R' H ∧ R' 0 = R 0 := by
  unfold dec
  by_cases z : f = 0
  · rw [if_pos z]
    exact ⟨R, rfl, h.congr (fun g hg => by rw [z, List.count_cons_of_ne (Ne.symm hg)]), rfl⟩
  · rw [if_neg z]
    have hf := h f z
    rw [List.count_cons_self, if_neg (by omega)] at hf
    dsimp only
    rw [if_neg (by omega)]
    have rest : ∀ v, (v < 256 ∧ v = if H.count f = 0 then 0 else 2 + H.count f) → Ok (upd R f v) H := by
      intro v hv g hg
      by_cases c : g = f
      · subst c
        simp only [upd, if_true]
        exact hv
      · have := h g hg
        rw [List.count_cons_of_ne (Ne.symm c)] at this
        simp only [upd, if_neg c]
        exact this
    have h0 : ∀ v, upd R f v 0 = R 0 := fun v => by simp [upd, Ne.symm z]
    by_cases c : H.count f = 0
    · rw [if_pos (by omega)]
      exact ⟨_, rfl, rest 0 (by simp [c]), h0 _⟩
    · rw [if_neg (by omega), if_neg (by omega)]
      refine ⟨_, rfl, rest _ ?_, h0 _⟩
      rw [if_neg c]; omega

theorem incAll_ok : ∀ {l : List Nat} {R R' : Refs} {H : List Nat}, Ok R H → incAll l R = some R' → Ok R' (l ++ H)
  | [], R, R', H, h, e => by cases e; exact h
  | f :: l, R, R', H, h, e => by
    unfold incAll at e
    split at e
    · cases e
    · rename_i R1 e1
      refine (incAll_ok (inc_ok h e1) e).congr (fun g _ => ?_)
      simp only [List.count_append, List.count_cons]
      omega

theorem decAll_ok : ∀ (l : List Nat) {R : Refs} {H : List Nat}, Ok R (l ++ H) → ∃ R', decAll l R = some R' ∧ Ok R' H ∧ R' 0 = R 0
  | [], R, H, h => ⟨R, rfl, h, rfl⟩
  | f :: l, R, H, h => by
    obtain ⟨R1, e1, h1, z1⟩ := dec_ok h
    obtain ⟨R2, e2, h2, z2⟩ := decAll_ok l h1
    refine ⟨R2, ?_, h2, z2.trans z1⟩
    unfold decAll
    rw [e1]
    exact e2

/-- As `decAll_ok` for a call known to have succeeded. -/
theorem decAll_ok' {l : List Nat} {R R' : Refs} {H : List Nat} (h : Ok R (l ++ H)) (e : decAll l R = some R') : Ok R' H := by
  obtain ⟨R1, e1, h1, _⟩ := decAll_ok l h
  rw [e] at e1
  cases e1
  exact h1

/-! ### Where filters are -/

def scrSlots (sc : Scr) : List Nat := sc.made.map (·.2)

/-- All places with references. -/
def St.held (s : St) : List Nat := s.nodes.flatMap Nd.slots ++ s.fly ++ s.scr.flatMap scrSlots

structure Inv (s : St) : Prop where
  ok : Ok s.refs (s.held ++ s.lost)
  whole : ∀ d ∈ s.nodes, ∀ p ∈ d.pivs, p.filter ≠ 0 → 0 < p.whole

variable {f : Nat}

theorem count_flat {α : Type} {g : α → List Nat} {l l' : List α} (h : l.Perm l') : (l.flatMap g).count f = (l'.flatMap g).count f :=
  (h.flatMap_right g).count_eq f

theorem reset_count (d : Nd) : d.slots.count f = d.reset.slots.count f + d.resetDecs.count f := by
  unfold Nd.slots Nd.reset Nd.resetDecs
  simp only [List.map_map, List.count_append]
  have : d.bus.flatten.count f = (d.bus.take d.dead).flatten.count f + (d.bus.drop d.dead).flatten.count f := by
    rw [← List.count_append, ← List.flatten_append, List.take_append_drop]
  have e : ((fun x => x.filter) ∘ fun p : Piv => { p with start := p.start - d.dead }) = fun x => x.filter := rfl
  rw [e]
  omega

theorem set_count {l : List Nat} {i a b : Nat} (h : l[i]? = some a) : l.count f + [b].count f = (l.set i b).count f + [a].count f := by
  induction l generalizing i with
  | nil => simp at h
  | cons x l ih =>
    cases i with
    | zero => simp at h; subst h; simp [List.count_cons]; omega
    | succ i =>
      have := ih (i := i) (by simpa using h)
      simp only [List.set_cons_succ, List.count_cons (l := l), List.count_cons (l := l.set i b)]
      omega

theorem clear_count {d : Nd} {i : Nat} {p : Piv} (hp : d.pivs[i]? = some p) (hf : f ≠ 0) :
    d.slots.count f = (d.clear i p).slots.count f + [p.filter].count f := by
  unfold Nd.slots Nd.clear
  simp only [List.count_append, List.map_set]
  have := set_count (f := f) (l := d.pivs.map (·.filter)) (i := i) (a := p.filter) (b := 0) (by rw [List.getElem?_map, hp]; rfl)
  have z : [0].count f = 0 := by simp [List.count_cons, Ne.symm hf]
  omega

theorem whole_count {p : Piv} (h : p.filter ≠ 0 → 0 < p.whole) (hf : f ≠ 0) : [p.filter].count f = (wholeSlot p).count f := by
  unfold wholeSlot
  split
  · rfl
  · rename_i c
    have : p.filter = 0 := by
      refine Classical.byContradiction (fun x => ?_)
      exact c (h x)
    simp [this, List.count_cons, Ne.symm hf]

theorem add_count (d : Nd) (l : List Nat) : (d.add l).slots.count f = d.slots.count f + l.count f := by
  unfold Nd.slots Nd.add
  simp only [List.flatten_append, List.count_append, List.flatten_cons, List.flatten_nil, List.append_nil]
  omega

theorem rebundle_count {d : Nd} {p : Piv} {gen : Nat} (hp : d.pivs = [p]) (hf : f ≠ 0) : (d.rebundle p gen).slots.count f = d.slots.count f := by
  unfold Nd.slots Nd.rebundle wholeSlot
  rw [hp]
  by_cases c : 0 < p.whole <;> simp [c, List.count_cons, Ne.symm hf]

theorem split_count (d : Nd) (t : Nat) :
    d.slots.count f + d.bus.flatten.count f =
      ({ d with pivs := d.pivs.take t } : Nd).slots.count f + ({ d with pivs := d.pivs.drop t } : Nd).slots.count f := by
  unfold Nd.slots
  simp only [List.count_append]
  have : (d.pivs.map (·.filter)).count f = ((d.pivs.take t).map (·.filter)).count f + ((d.pivs.drop t).map (·.filter)).count f := by
    rw [← List.count_append, ← List.map_append, List.take_append_drop]
  omega

theorem addPivot_count {d : Nd} {i gen : Nat} {p : Piv} (hz : p.filter = 0) (hf : f ≠ 0) : (d.addPivot i gen p).slots.count f = d.slots.count f := by
  unfold Nd.slots Nd.addPivot
  simp only [List.count_append]
  by_cases c : i + 1 ≤ d.pivs.length
  · have hp := (List.perm_insertIdx { p with gen := gen } d.pivs c).map (·.filter)
    rw [hp.count_eq, List.map_cons, List.count_cons_of_ne (by simpa [hz] using Ne.symm hf)]
  · rw [List.insertIdx_of_length_lt (by omega)]

theorem takeGen_count {g x : Nat} : ∀ {m m' : List (Nat × Nat)}, takeGen g m = some (x, m') → f ≠ 0 →
    (m.map (·.2)).count f = (m'.map (·.2)).count f + [x].count f
  | [], m', h, _ => by cases h
  | (a, b) :: l, m', h, hf => by
    unfold takeGen at h
    split at h
    · cases h
      simp only [List.map_cons, List.count_cons, List.count_nil]
      have : (0 == f) = false := by simpa using Ne.symm hf
      rw [this]
      simp
    · split at h
      · cases h
      · rename_i y l' e
        cases h
        have := takeGen_count e hf
        simp only [List.map_cons, List.count_cons (l := List.map _ _)]
        omega

theorem replaceOne_count {live : Bool} {p : Piv} {m : List (Nat × Nat)} {r : Rep} (h : replaceOne live p m = some r) (hf : f ≠ 0) :
    [p.filter].count f + (m.map (·.2)).count f = (r.pivs.map (·.filter)).count f + (r.made.map (·.2)).count f + r.decs.count f + r.olds.count f := by
  unfold replaceOne at h
  split at h
  · split at h
    · cases h
    · rename_i e
      cases h
      have := takeGen_count e hf
      simp only [List.map_cons, List.map_nil, List.count_nil]
      omega
  · split at h
    · cases h
      simp
    · rename_i e
      cases h
      have := takeGen_count e hf
      simp only [List.map_cons, List.map_nil, List.count_nil]
      omega

theorem replaceAll_count {live : Piv → Bool} : ∀ {l : List Piv} {m : List (Nat × Nat)} {r : Rep}, replaceAll live l m = some r → f ≠ 0 →
    (l.map (·.filter)).count f + (m.map (·.2)).count f = (r.pivs.map (·.filter)).count f + (r.made.map (·.2)).count f + r.decs.count f + r.olds.count f
  | [], m, r, h, _ => by cases h; simp
  | p :: l, m, r, h, hf => by
    unfold replaceAll at h
    split at h
    · cases h
    · rename_i r1 e1
      split at h
      · cases h
      · rename_i r2 e2
        cases h
        have h1 := replaceOne_count e1 hf
        have h2 := replaceAll_count e2 hf
        have h3 : ((p :: l).map (·.filter)).count f = [p.filter].count f + (l.map (·.filter)).count f := by
          rw [← List.count_append]; rfl
        simp only [List.map_append, List.count_append]
        omega

theorem clearBundle_count (d : Nd) : d.slots.count f = d.clearBundle.slots.count f + d.clearDecs.count f := by
  unfold Nd.slots Nd.clearBundle Nd.clearDecs
  simp only [List.map_map, List.count_append]
  have e : ((fun x => x.filter) ∘ fun p : Piv => if p.start = 0 then { p with whole := p.whole + 1 } else { p with start := p.start - 1 }) = fun x => x.filter := by
    funext p
    show (if p.start = 0 then _ else _ : Piv).filter = _
    split <;> rfl
  rw [e]
  cases d.bus with
  | nil => simp
  | cons b l => simp [List.count_append]; omega

theorem replicate_count (n : Nat) (l : List Nat) : (List.replicate n l).flatten.count f = n * l.count f := by
  induction n with
  | zero => simp
  | succ n ih => rw [List.replicate_succ, List.flatten_cons, List.count_append, ih, Nat.succ_mul]; omega

theorem replicate_flatMap_count {α : Type} (g : α → List Nat) (n : Nat) (x : α) : ((List.replicate n x).flatMap g).count f = n * (g x).count f := by
  induction n with
  | zero => simp
  | succ n ih => rw [List.replicate_succ, List.flatMap_cons, List.count_append, ih, Nat.succ_mul]; omega

/-! ### Pivots with filters have whole branches -/

def Whole (l : List Piv) : Prop := ∀ p ∈ l, p.filter ≠ 0 → 0 < p.whole

theorem Whole.reset {d : Nd} (h : Whole d.pivs) : Whole d.reset.pivs := by
  intro p hp hf
  unfold Nd.reset at hp
  obtain ⟨q, hq, rfl⟩ := List.mem_map.mp hp
  exact h q hq hf

theorem Whole.clear {d : Nd} {i : Nat} {p : Piv} (h : Whole d.pivs) : Whole (d.clear i p).pivs := by
  intro q hq hf
  unfold Nd.clear at hq
  rcases List.mem_or_eq_of_mem_set hq with hq | rfl
  · exact h q hq hf
  · exact absurd rfl hf

theorem Whole.sub {l l' : List Piv} (h : Whole l) (hs : ∀ p ∈ l', p ∈ l) : Whole l' := fun p hp => h p (hs p hp)

/-- After the replacement the filters of live pivots are new, those of others are as they were. -/
theorem replaceAll_live {live : Piv → Bool} {q : Piv} : ∀ {l : List Piv} {m : List (Nat × Nat)} {r : Rep}, replaceAll live l m = some r →
    q ∈ r.pivs → ∃ p ∈ l, q.start = p.start ∧ q.whole = p.whole ∧ (live p = false → q = p)
  | [], m, r, h, hq => by cases h; cases hq
  | p :: l, m, r, h, hq => by
    unfold replaceAll at h
    split at h
    · cases h
    · rename_i r1 e1
      split at h
      · cases h
      · rename_i r2 e2
        cases h
        rcases List.mem_append.mp hq with hq | hq
        · refine ⟨p, List.mem_cons_self, ?_⟩
          unfold replaceOne at e1
          split at e1
          · rename_i c
            split at e1
            · cases e1
            · cases e1
              cases List.mem_singleton.mp hq
              exact ⟨rfl, rfl, fun hc => by simp [c] at hc⟩
          · split at e1 <;> cases e1 <;> cases List.mem_singleton.mp hq <;> exact ⟨rfl, rfl, fun _ => rfl⟩
        · obtain ⟨p', hp', h'⟩ := replaceAll_live e2 hq
          exact ⟨p', List.mem_cons_of_mem _ hp', h'⟩

/-! ### Steps -/

theorem Inv.node {s : St} {d : Nd} {rest : List Nd} (h : Inv s) (hp : s.nodes.Perm (d :: rest)) : Whole d.pivs :=
  h.whole d (hp.mem_iff.mpr List.mem_cons_self)

theorem Inv.rest {s : St} {l rest : List Nd} (h : Inv s) (hp : s.nodes.Perm (l ++ rest)) : ∀ d ∈ rest, Whole d.pivs :=
  fun d hd => h.whole d (hp.mem_iff.mpr (List.mem_append_right _ hd))

theorem whole_cons {d : Nd} {l : List Nd} (h : Whole d.pivs) (hl : ∀ d ∈ l, Whole d.pivs) : ∀ e ∈ d :: l, ∀ p ∈ e.pivs, p.filter ≠ 0 → 0 < p.whole := by
  intro e he
  rcases List.mem_cons.mp he with rfl | he
  · exact h
  · exact hl e he

theorem rebundle_whole {d : Nd} {p : Piv} {gen : Nat} (h : Whole d.pivs) (hp : d.pivs = [p]) : Whole (d.rebundle p gen).pivs := by
  intro q hq hf
  unfold Nd.rebundle at hq
  cases List.mem_singleton.mp hq
  have := h p (by rw [hp]; exact List.mem_singleton_self p)
  dsimp only at hf ⊢
  split at hf
  · exact absurd rfl hf
  · rename_i c
    exact absurd (this hf) c

theorem clearBundle_whole {d : Nd} {no : Nat} {m : List (Nat × Nat)} {r : Rep} (h : Whole d.pivs) (e : replaceAll (d.liveFor no) d.pivs m = some r) :
    Whole ({ d with pivs := r.pivs } : Nd).clearBundle.pivs := by
  intro q hq hf
  unfold Nd.clearBundle at hq
  obtain ⟨x, hx, rfl⟩ := List.mem_map.mp hq
  obtain ⟨p, hp, h1, h2, h3⟩ := replaceAll_live e hx
  by_cases c : x.start = 0
  · simp [c]
  · simp only [c, if_false] at hf ⊢
    have : d.liveFor no p = false := by
      unfold Nd.liveFor
      simp only [decide_eq_false_iff_not]
      rintro ⟨_, _, z⟩
      exact c (h1.trans z)
    rw [h3 this] at hf ⊢
    exact h p hp hf

theorem has_false {d : Nd} {no : Nat} {p : Piv} (h : d.has no = false) : d.liveFor no p = false := by
  unfold Nd.has at h
  unfold Nd.liveFor
  simp only [decide_eq_false_iff_not] at h ⊢
  rintro ⟨a, b, _⟩
  have := List.length_pos_iff.mpr b
  omega

theorem held_count (s : St) : s.held.count f = (s.nodes.flatMap Nd.slots).count f + s.fly.count f + (s.scr.flatMap scrSlots).count f := by
  unfold St.held
  simp only [List.count_append]

theorem step_inv {s s' : St} (h : Inv s) (st : Step s s') : Inv s' := by
  cases st with
  | @make f hf hz =>
    refine ⟨(make_ok h.ok hf hz).congr (fun g _ => ?_), h.whole⟩
    simp only [List.count_append, held_count, List.count_cons]
    omega
  | @install d rest f fly hn hfl =>
    refine ⟨h.ok.congr (fun g hg => ?_), whole_cons (d := d.add [f]) (show Whole d.pivs from h.node hn) (h.rest (l := [d]) hn)⟩
    simp only [List.count_append, held_count]
    rw [count_flat hn, hfl.count_eq, List.flatMap_cons, List.flatMap_cons, List.count_append, List.count_append, add_count]
    have : (f :: fly).count g = [f].count g + fly.count g := by rw [← List.count_append]; rfl
    omega
  | @flush d c rest i p R hn hp hr =>
    have hw := h.node hn
    have hpf := hw p (List.mem_of_getElem? hp)
    refine ⟨?_, whole_cons (Whole.reset (Whole.clear hw)) (fun e he => ?_)⟩
    · unfold flushRefs at hr
      split at hr
      · cases hr
      · rename_i R1 e1
        have h1 := incAll_ok h.ok e1
        refine decAll_ok' (h1.congr (fun g hg => ?_)) hr
        simp only [List.count_append, held_count]
        rw [count_flat hn]
        simp only [List.flatMap_cons, List.count_append, add_count]
        have a1 := clear_count (f := g) hp hg
        have a2 := reset_count (f := g) (d.clear i p)
        have a3 := whole_count hpf hg
        show _ = (d.clear i p).resetDecs.count g + _
        unfold flushParent
        omega
    · rcases List.mem_cons.mp he with rfl | he
      · exact h.rest (l := [d]) hn c List.mem_cons_self
      · exact h.rest (l := [d, c]) hn e he
  | @rebundle d rest p gen hn hp =>
    refine ⟨h.ok.congr (fun g hg => ?_), whole_cons (rebundle_whole (h.node hn) hp) (h.rest (l := [d]) hn)⟩
    simp only [List.count_append, held_count]
    rw [count_flat hn]
    simp only [List.flatMap_cons, List.count_append, rebundle_count hp hg]
  | @splitLeaf d rest p gen n R hn hp hr =>
    refine ⟨(incAll_ok h.ok hr).congr (fun g hg => ?_), fun e he => ?_⟩
    · simp only [List.count_append, held_count]
      rw [count_flat hn]
      simp only [List.flatMap_cons, List.flatMap_append, List.count_append, replicate_count, replicate_flatMap_count, Nat.add_mul, Nat.one_mul]
      have hz : (d.rebundle p gen).slots.count g = [if 0 < p.whole then 0 else p.filter].count g + (d.rebundle p gen).bus.flatten.count g := by
        unfold Nd.slots; rw [List.count_append]; rfl
      have hz' : [if 0 < p.whole then 0 else p.filter].count g = 0 := by
        split
        · simp [List.count_cons, Ne.symm hg]
        · rename_i c
          have : p.filter = 0 := by
            refine Classical.byContradiction (fun x => ?_)
            exact c (h.node hn p (by rw [hp]; exact List.mem_singleton_self p) x)
          simp [this, List.count_cons, Ne.symm hg]
      have := rebundle_count (f := g) (gen := gen) hp hg
      rw [hz, hz'] at this ⊢
      rw [Nat.zero_add] at this ⊢
      omega
    · rcases List.mem_append.mp he with he | he
      · cases List.eq_of_mem_replicate he
        exact rebundle_whole (h.node hn) hp
      · exact h.rest (l := [d]) hn e he
  | @splitIndex d rest t R hn hr =>
    have hw := h.node hn
    refine ⟨?_, whole_cons (Whole.reset (Whole.sub hw (fun p hp => List.mem_of_mem_take hp)))
      (whole_cons (Whole.reset (Whole.sub hw (fun p hp => List.mem_of_mem_drop hp))) (h.rest (l := [d]) hn))⟩
    unfold splitIndexRefs at hr
    split at hr
    · cases hr
    · rename_i R1 e1
      split at hr
      · cases hr
      · rename_i R2 e2
        have h1 := incAll_ok h.ok e1
        refine decAll_ok' (decAll_ok' (h1.congr (fun g hg => ?_)) e2) hr
        · simp only [List.count_append, held_count]
          rw [count_flat hn]
          simp only [List.flatMap_cons, List.count_append]
          have a1 := split_count (f := g) d t
          have a2 := reset_count (f := g) ({ d with pivs := d.pivs.take t } : Nd)
          have a3 := reset_count (f := g) ({ d with pivs := d.pivs.drop t } : Nd)
          omega
  | @addPivot d rest i p gen hn hp hw hs =>
    have hpf : p.filter = 0 := by
      refine Classical.byContradiction (fun x => ?_)
      have := h.node hn p (List.mem_of_getElem? hp) x
      omega
    refine ⟨h.ok.congr (fun g hg => ?_), whole_cons (fun q hq hf => ?_) (h.rest (l := [d]) hn)⟩
    · simp only [List.count_append, held_count]
      rw [count_flat hn]
      simp only [List.flatMap_cons, List.count_append, addPivot_count hpf hg]
    · unfold Nd.addPivot at hq
      have hq' := (List.mem_insertIdx (List.getElem?_eq_some_iff.mp hp).1).mp hq
      rcases hq' with rfl | hq
      · exact absurd hpf hf
      · exact h.node hn q hq hf
  | @newRoot gen first =>
    refine ⟨h.ok.congr (fun g hg => ?_), whole_cons (fun q hq hf => ?_) h.whole⟩
    · simp only [List.count_append, held_count, List.flatMap_cons]
      simp [Nd.slots, List.count_cons, Ne.symm hg]
    · cases List.mem_singleton.mp hq
      exact absurd rfl hf
  | @prepare d hd hb =>
    refine ⟨h.ok.congr (fun g hg => ?_), h.whole⟩
    simp only [List.count_append, held_count, List.flatMap_cons]
    simp [scrSlots, FilterRefs.prepare]
  | @build sc rest g o l f hs ht hf hz =>
    refine ⟨(make_ok h.ok hf hz).congr (fun x hx => ?_), h.whole⟩
    simp only [List.count_append, List.count_cons, held_count]
    rw [count_flat hs]
    simp only [List.flatMap_cons, List.count_append]
    simp only [scrSlots, List.map_cons, List.count_cons]
    omega
  | @keep sc rest g o l R hs ht hr =>
    refine ⟨?_, h.whole⟩
    have e : ∀ x, x ≠ 0 → (o :: (s.held ++ s.lost)).count x =
        (St.held { s with scr := { sc with todo := l, made := (g, o) :: sc.made } :: rest, refs := R } ++ s.lost).count x := by
      intro x hx
      simp only [List.count_append, List.count_cons, held_count]
      rw [count_flat hs]
      simp only [List.flatMap_cons, List.count_append]
      simp only [scrSlots, List.map_cons, List.count_cons]
      omega
    split at hr
    · rename_i z
      cases hr
      refine h.ok.congr (fun x hx => ?_)
      rw [← e x hx, List.count_cons_of_ne (by rw [z]; exact Ne.symm hx)]
    · exact (inc_ok h.ok hr).congr e
  | @replace sc rest d nrest R d' sc' ls hs ht hn hr =>
    unfold replaceIn at hr
    split at hr
    · cases hr
    split at hr
    · cases hr
    rename_i r er
    dsimp only at hr
    split at hr
    · cases hr
    rename_i R1 e1
    cases hr
    refine ⟨?_, whole_cons ?_ (h.rest (l := [d]) hn)⟩
    · refine decAll_ok' (h.ok.congr (fun g hg => ?_)) e1
      simp only [List.count_append, held_count]
      rw [count_flat hs, count_flat hn]
      simp only [List.flatMap_cons, List.count_append]
      have a1 := replaceAll_count (f := g) er hg
      have a2 : d.slots.count g = (d.pivs.map (·.filter)).count g + d.bus.flatten.count g := by unfold Nd.slots; rw [List.count_append]
      have a3 : ({ d with pivs := r.pivs } : Nd).slots.count g = (r.pivs.map (·.filter)).count g + d.bus.flatten.count g := by
        unfold Nd.slots; rw [List.count_append]
      have a4 := clearBundle_count (f := g) ({ d with pivs := r.pivs } : Nd)
      have a5 : (scrSlots sc).count g = (sc.made.map (·.2)).count g := rfl
      have a6 : (scrSlots { sc with made := r.made, first := false }).count g = (r.made.map (·.2)).count g := rfl
      have a7 : (if sc.first = true then r.olds else []).count g + (if sc.first = true then [] else r.olds).count g = r.olds.count g := by
        split <;> simp
      by_cases c : d.has sc.no = true
      · simp only [c, if_true]
        omega
      · simp only [c, List.count_nil]
        simp only [Bool.false_eq_true, if_false, List.count_nil]
        omega
    · by_cases c : d.has sc.no = true
      · simp only [c, if_true]
        exact clearBundle_whole (h.node hn) er
      · simp only [c]
        intro q hq hf
        obtain ⟨p, hp, _, h2, h3⟩ := replaceAll_live er hq
        have := h3 (has_false (by simpa using c))
        rw [this] at hf ⊢
        exact h.node hn p hp hf
  | @finish sc rest R hs ht hr =>
    refine ⟨decAll_ok' (h.ok.congr (fun g hg => ?_)) hr, h.whole⟩
    simp only [List.count_append, held_count]
    rw [count_flat hs]
    simp only [List.flatMap_cons, List.count_append, scrSlots]
    omega
  | @vanish d rest b l R hn hb hr =>
    refine ⟨decAll_ok' (h.ok.congr (fun g hg => ?_)) hr, whole_cons (fun q hq hf => ?_) (h.rest (l := [d]) hn)⟩
    · simp only [List.count_append, held_count]
      rw [count_flat hn]
      simp only [List.flatMap_cons, List.count_append, Nd.slots, hb, List.map_map, List.flatten_append, List.flatten_cons, List.flatten_nil,
        List.append_nil]
      have e : ((fun x => x.filter) ∘ fun p : Piv => { p with start := min p.start b.length }) = fun x => x.filter := rfl
      rw [e]
      omega
    · obtain ⟨x, hx, rfl⟩ := List.mem_map.mp hq
      exact h.node hn x hx hf
  | @destroy d rest R hn hr =>
    refine ⟨decAll_ok' (h.ok.congr (fun g hg => ?_)) hr, fun e he => h.rest (l := [d]) hn e he⟩
    simp only [List.count_append, held_count]
    rw [count_flat hn]
    simp only [List.flatMap_cons, List.count_append]
    omega

theorem init_inv : Inv St.init := by
  refine ⟨fun f hf => ?_, ?_⟩
  · have : (St.init.held ++ St.init.lost).count f = 0 := by
      show [0, 0].count f = 0
      simp [List.count_cons, Ne.symm hf]
    rw [this]
    simp [St.init, hf]
  · decide

theorem reach_inv {s : St} (h : Reach s) : Inv s := by
  induction h with
  | init => exact init_inv
  | step _ st ih => exact step_inv ih st

end Splinter.FilterRefs
