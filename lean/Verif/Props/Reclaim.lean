import Verif.Model.Reclaim
/-!
# C62: the queue of pivots to reclaim agrees with the tree
-/
namespace Splinter.Reclaim

/-- The queue and the tree agree: a pivot that says it is queued has an entry with its address and generation; an entry is for a pivot of the tree that says so. -/
structure Agree (s : State) : Prop where
  has : ∀ a l p i, s.live a = true → s.page a = some l → p ∈ l → p.idx = some i → s.queue i = some ⟨a, p.gen⟩
  from_tree : ∀ i e, s.queue i = some e → s.live e.addr = true ∧ ∃ l p, s.page e.addr = some l ∧ p ∈ l ∧ p.gen = e.gen ∧ p.idx = some i

/-- The full statement: whatever happens, the queue agrees with the tree when nobody is reclaiming, no assertion fails and no page is taken for a node that is none. Refuted below. -/
def Reclaims : Prop := ∀ l, run init l ≠ .fault ∧ ∀ s, run init l = .ok s → s.hand = none → Agree s

/-! ### What holds -/

/-- No node is copied, the root is not split, the store is not reopened; and nothing comes between taking an entry and reclaiming. -/
inductive Calm : List Op → Prop
  | nil : Calm []
  | enqueue {l} (a k i) : Calm l → Calm (l ++ [.enqueue a k i])
  | flush {l} (a k b) : Calm l → Calm (l ++ [.flush a k b])
  | rebundle {l} (a) : Calm l → Calm (l ++ [.rebundle a])
  | free {l} (a) : Calm l → Calm (l ++ [.free a])
  | splitIndex {l} (a n) : Calm l → Calm (l ++ [.splitIndex a n])
  | reclaim {l} (i) : Calm l → Calm (l ++ [.extract i, .reclaim])

/-- Generations in a node differ. -/
def Distinct (l : List Pivot) : Prop := ∀ (m n : Nat) (p q : Pivot), l[m]? = some p → l[n]? = some q → p.gen = q.gen → m = n

structure Inv (s : State) : Prop where
  agree : Agree s
  dist : ∀ a l, s.page a = some l → Distinct l
  old : ∀ a l p, s.page a = some l → p ∈ l → p.gen < s.gen
  live : ∀ a l, s.page a = some l → s.live a = true
  fresh : ∀ a, s.next ≤ a → s.page a = none ∧ s.live a = false
  hand : s.hand = none

theorem Inv.init : Inv init := by
  refine ⟨⟨?_, ?_⟩, ?_, ?_, ?_, ?_, rfl⟩
  · intro a l p i _ hp hm hi
    unfold Reclaim.init at hp
    dsimp only at hp
    split at hp
    · cases hp
      simp only [List.mem_singleton] at hm
      subst hm
      cases hi
    · cases hp
  · intro i e h; cases h
  · intro a l hp
    unfold Reclaim.init at hp
    dsimp only at hp
    split at hp
    · cases hp
      intro m n p q hm hn _
      match m, n with
      | 0, 0 => rfl
      | m + 1, _ => simp at hm
      | 0, n + 1 => simp at hn
    · cases hp
  · intro a l p hp hm
    unfold Reclaim.init at hp ⊢
    dsimp only at hp
    split at hp
    · cases hp
      simp only [List.mem_singleton] at hm
      subst hm
      exact Nat.one_pos
    · cases hp
  · intro a l hp
    unfold Reclaim.init at hp ⊢
    dsimp only at hp ⊢
    split at hp
    · next h => simp [h]
    · cases hp
  · intro a ha
    have : a ≠ 0 := by intro h; subst h; exact absurd ha (by decide)
    simp [Reclaim.init, this]

/-- A node is changed in its place. -/
theorem Inv.change {s : State} (inv : Inv s) {a : Nat} {l l' : List Pivot} {q' : Nat → Option Ent} {g' : Nat} (hp : s.page a = some l) (hd : Distinct l') (ho : ∀ p ∈ l', p.gen < g') (hg : s.gen ≤ g')
    (h1 : ∀ p ∈ l', ∀ i, p.idx = some i → q' i = some ⟨a, p.gen⟩)
    (h2 : ∀ i e, s.queue i = some e → e.addr ≠ a → q' i = some e)
    (h3 : ∀ i e, q' i = some e → (e.addr ≠ a ∧ s.queue i = some e) ∨ (e.addr = a ∧ ∃ p ∈ l', p.gen = e.gen ∧ p.idx = some i)) :
    Inv { s with page := upd s.page a (some l'), queue := q', gen := g' } := by
  have hpg : ∀ b m, upd s.page a (some l') b = some m → (b = a ∧ m = l') ∨ (b ≠ a ∧ s.page b = some m) := by
    intro b m h
    unfold upd at h
    split at h
    · next hb => cases h; exact .inl ⟨hb, rfl⟩
    · next hb => exact .inr ⟨hb, h⟩
  refine ⟨⟨?_, ?_⟩, ?_, ?_, ?_, ?_, inv.hand⟩
  · intro b m p i hl hm hpm hi
    rcases hpg b m hm with ⟨rfl, rfl⟩ | ⟨hb, hm⟩
    · exact h1 p hpm i hi
    · exact h2 i _ (inv.agree.has b m p i hl hm hpm hi) hb
  · intro i e he
    rcases h3 i e he with ⟨hne, hq⟩ | ⟨hea, p, hpl, hgen, hidx⟩
    · obtain ⟨hl, m, p, hm, hpm, hgen, hidx⟩ := inv.agree.from_tree i e hq
      exact ⟨hl, m, p, by simp [upd, hne, hm], hpm, hgen, hidx⟩
    · exact ⟨by rw [hea]; exact inv.live a l hp, l', p, by simp [upd, hea], hpl, hgen, hidx⟩
  · intro b m hm
    rcases hpg b m hm with ⟨rfl, rfl⟩ | ⟨hb, hm⟩
    · exact hd
    · exact inv.dist b m hm
  · intro b m p hm hpm
    rcases hpg b m hm with ⟨rfl, rfl⟩ | ⟨hb, hm⟩
    · exact ho p hpm
    · exact Nat.lt_of_lt_of_le (inv.old b m p hm hpm) hg
  · intro b m hm
    rcases hpg b m hm with ⟨rfl, rfl⟩ | ⟨hb, hm⟩
    · exact inv.live b l hp
    · exact inv.live b m hm
  · intro b hb
    have hba : b ≠ a := by
      intro h
      subst h
      have := (inv.fresh b hb).1
      rw [hp] at this
      cases this
    simp only [upd, hba, if_false]
    exact inv.fresh b hb

/-- Two pivots of a node with the same index in the queue are the same. -/
theorem Inv.same {s : State} (inv : Inv s) {a : Nat} {l : List Pivot} (hp : s.page a = some l) {m n : Nat} {p q : Pivot} {i : Nat} (hm : l[m]? = some p) (hn : l[n]? = some q)
    (h1 : p.idx = some i) (h2 : q.idx = some i) : m = n := by
  have e1 := inv.agree.has a l p i (inv.live a l hp) hp (List.mem_of_getElem? hm) h1
  have e2 := inv.agree.has a l q i (inv.live a l hp) hp (List.mem_of_getElem? hn) h2
  rw [e1] at e2
  simp only [Option.some.injEq, Ent.mk.injEq, true_and] at e2
  exact inv.dist a l hp m n p q hm hn e2

theorem Inv.dequeue {s : State} (inv : Inv s) {a : Nat} {l : List Pivot} (hp : s.page a = some l) {p : Pivot} (hm : p ∈ l) :
    ∃ q, dequeue s.queue p.idx = some q ∧ ∀ j, q j = if p.idx = some j then none else s.queue j := by
  cases hi : p.idx with
  | none => exact ⟨s.queue, rfl, fun j => by simp⟩
  | some i =>
    have h := inv.agree.has a l p i (inv.live a l hp) hp hm hi
    refine ⟨upd s.queue i none, by simp [Reclaim.dequeue, h], fun j => ?_⟩
    unfold upd
    by_cases hj : j = i
    · simp [hj]
    · rw [if_neg hj, if_neg]
      intro h'
      cases h'
      exact hj rfl

/-- A pivot leaves the queue; in its place there may be others that are not queued. -/
theorem Inv.leave {s : State} (inv : Inv s) {a k : Nat} {l l' : List Pivot} {p : Pivot} {q' : Nat → Option Ent} {g' : Nat} (hp : s.page a = some l) (hk : l[k]? = some p) (hg : s.gen ≤ g')
    (hq : ∀ j, q' j = if p.idx = some j then none else s.queue j)
    (hA : ∀ r ∈ l', r.idx ≠ none → ∃ m, m ≠ k ∧ l[m]? = some r) (hB : ∀ m r, m ≠ k → l[m]? = some r → r ∈ l') (hd : Distinct l') (ho : ∀ r ∈ l', r.gen < g') :
    Inv { s with page := upd s.page a (some l'), queue := q', gen := g' } := by
  refine inv.change hp hd ho hg ?_ ?_ ?_
  · intro r hr i hi
    obtain ⟨m, hmk, hm⟩ := hA r hr (by rw [hi]; simp)
    rw [hq i, if_neg]
    · exact inv.agree.has a l r i (inv.live a l hp) hp (List.mem_of_getElem? hm) hi
    · intro hpi
      exact hmk (inv.same hp hm hk hi hpi)
  · intro i e he hea
    rw [hq i, if_neg]
    · exact he
    · intro hpi
      have := inv.agree.has a l p i (inv.live a l hp) hp (List.mem_of_getElem? hk) hpi
      rw [he] at this
      cases this
      exact hea rfl
  · intro i e he
    rw [hq i] at he
    split at he
    · cases he
    · next hpi =>
      by_cases hea : e.addr = a
      · right
        refine ⟨hea, ?_⟩
        obtain ⟨-, m, r, hm, hr, hgen, hidx⟩ := inv.agree.from_tree i e he
        rw [hea, hp] at hm
        cases hm
        obtain ⟨n, hn⟩ := List.mem_iff_getElem?.mp hr
        refine ⟨r, hB n r ?_ hn, hgen, hidx⟩
        intro hnk
        rw [hnk, hk] at hn
        cases hn
        exact hpi hidx
      · exact .inl ⟨hea, he⟩

theorem set_distinct {l : List Pivot} (h : Distinct l) {k : Nat} {p p' : Pivot} (hk : l[k]? = some p) (hg : p'.gen = p.gen) : Distinct (l.set k p') := by
  have key : ∀ (m : Nat) (r : Pivot), (l.set k p')[m]? = some r → ∃ r' : Pivot, l[m]? = some r' ∧ r'.gen = r.gen := by
    intro m r hm
    rw [List.getElem?_set] at hm
    split at hm
    · next hkm =>
      split at hm
      · cases hm; exact ⟨p, hkm ▸ hk, hg.symm⟩
      · cases hm
    · exact ⟨r, hm, rfl⟩
  intro m n r1 r2 h1 h2 he
  obtain ⟨r1', a1, a2⟩ := key m r1 h1
  obtain ⟨r2', b1, b2⟩ := key n r2 h2
  exact h m n r1' r2' a1 b1 (by rw [a2, b2, he])

theorem set_mem {l : List Pivot} {k : Nat} {p r : Pivot} (h : r ∈ l.set k p) : r = p ∨ ∃ m, m ≠ k ∧ l[m]? = some r := by
  obtain ⟨m, hm⟩ := List.mem_iff_getElem?.mp h
  rw [List.getElem?_set] at hm
  split at hm
  · split at hm
    · cases hm; exact .inl rfl
    · cases hm
  · next hkm => exact .inr ⟨m, fun h => hkm h.symm, hm⟩

theorem mem_set {l : List Pivot} {k m : Nat} {p r : Pivot} (hm : m ≠ k) (h : l[m]? = some r) : r ∈ l.set k p := by
  refine List.mem_iff_getElem?.mpr ⟨m, ?_⟩
  rw [List.getElem?_set, if_neg (fun h => hm h.symm)]
  exact h

/-- What is at an index after a pivot was added. -/
theorem add_get {l : List Pivot} {k g : Nat} {p p' : Pivot} (hk : l[k]? = some p) (hg : p'.gen = p.gen) {m : Nat} {r : Pivot}
    (h : ((l.set k ⟨g, none⟩).insertIdx (k + 1) p')[m]? = some r) :
    (m = k ∧ r = ⟨g, none⟩) ∨ (∃ (n : Nat) (r' : Pivot), l[n]? = some r' ∧ r'.gen = r.gen ∧ m = (if n < k then n else n + 1) ∧ (n = k → r = p') ∧ (n ≠ k → r' = r)) := by
  rw [List.getElem?_insertIdx] at h
  split at h
  · next hm =>
    rw [List.getElem?_set] at h
    split at h
    · next hkm =>
      split at h
      · cases h; exact .inl ⟨hkm.symm, rfl⟩
      · cases h
    · next hkm => exact .inr ⟨m, r, h, rfl, by rw [if_pos (by omega)], fun h => absurd h.symm hkm, fun _ => rfl⟩
  · next hm =>
    split at h
    · next hmk =>
      split at h
      · cases h; exact .inr ⟨k, p, hk, hg.symm, by rw [if_neg (by omega)]; exact hmk, fun _ => rfl, fun h => absurd rfl h⟩
      · cases h
    · next hmk =>
      rw [List.getElem?_set, if_neg (by omega)] at h
      exact .inr ⟨m - 1, r, h, rfl, by rw [if_neg (by omega)]; omega, fun h => absurd h (by omega), fun _ => rfl⟩

theorem add_distinct {l : List Pivot} (hd : Distinct l) {k g : Nat} {p p' : Pivot} (hk : l[k]? = some p) (hg : p'.gen = p.gen) (ho : ∀ r ∈ l, r.gen < g) :
    Distinct ((l.set k ⟨g, none⟩).insertIdx (k + 1) p') := by
  intro m n r1 r2 h1 h2 he
  rcases add_get hk hg h1 with ⟨a1, a2⟩ | ⟨n1, r1', a1, a2, a3, -⟩ <;> rcases add_get hk hg h2 with ⟨b1, b2⟩ | ⟨n2, r2', b1, b2, b3, -⟩
  · rw [a1, b1]
  · have := ho r2' (List.mem_of_getElem? b1)
    rw [b2, ← he, a2] at this
    exact absurd this (Nat.lt_irrefl _)
  · have := ho r1' (List.mem_of_getElem? a1)
    rw [a2, he, b2] at this
    exact absurd this (Nat.lt_irrefl _)
  · have := hd n1 n2 r1' r2' a1 b1 (by rw [a2, b2, he])
    rw [a3, b3, this]

theorem add_mem {l : List Pivot} {k m : Nat} {p p' q' r : Pivot} (hk : l[k]? = some p) (hm : m ≠ k) (h : l[m]? = some r) : r ∈ (l.set k p').insertIdx (k + 1) q' := by
  have hlt : k < l.length := (List.getElem?_eq_some_iff.mp hk).1
  rw [List.mem_insertIdx (by simp; omega)]
  exact .inr (mem_set hm h)

/-- One step, and the rules of the invariant. -/
def Good : Res → Prop
  | .ok s => Inv s
  | .fault => False
  | .skip => True

theorem good_enqueue {s : State} (inv : Inv s) (a k i : Nat) : Good (step s (.enqueue a k i)) := by
  unfold step
  dsimp only
  split
  · next l hp =>
    split
    · next p hk =>
      split
      · next hc =>
        obtain ⟨-, hpi, hqi⟩ := hc
        refine inv.change hp (set_distinct (inv.dist a l hp) hk rfl) ?_ (Nat.le_refl _) ?_ ?_ ?_
        · intro r hr
          rcases set_mem hr with rfl | ⟨m, -, hm⟩
          · exact inv.old a l p hp (List.mem_of_getElem? hk)
          · exact inv.old a l r hp (List.mem_of_getElem? hm)
        · intro r hr j hj
          rcases set_mem hr with rfl | ⟨m, -, hm⟩
          · cases hj; simp [upd]
          · have := inv.agree.has a l r j (inv.live a l hp) hp (List.mem_of_getElem? hm) hj
            unfold upd
            rw [if_neg]
            · exact this
            · intro h; rw [h, hqi] at this; cases this
        · intro j e he _
          unfold upd
          rw [if_neg]
          · exact he
          · intro h; rw [h, hqi] at he; cases he
        · intro j e he
          unfold upd at he
          split at he
          · next hji =>
            cases he
            exact .inr ⟨rfl, { p with idx := some i }, by
              refine List.mem_iff_getElem?.mpr ⟨k, ?_⟩
              have hlt : k < l.length := (List.getElem?_eq_some_iff.mp hk).1
              simp [setPivot, hlt], rfl, by rw [hji]⟩
          · by_cases hea : e.addr = a
            · right
              refine ⟨hea, ?_⟩
              obtain ⟨-, m, r, hm, hr, hgen, hidx⟩ := inv.agree.from_tree j e he
              rw [hea, hp] at hm
              cases hm
              obtain ⟨n, hn⟩ := List.mem_iff_getElem?.mp hr
              refine ⟨r, mem_set ?_ hn, hgen, hidx⟩
              intro hnk
              rw [hnk, hk] at hn
              cases hn
              rw [hpi] at hidx
              cases hidx
            · exact .inl ⟨hea, he⟩
      · trivial
    · trivial
  · trivial

theorem good_free {s : State} (inv : Inv s) (a : Nat) : Good (step s (.free a)) := by
  unfold step
  dsimp only
  split
  · trivial
  · next h =>
    have : upd s.page a none = s.page := by
      funext b
      unfold upd
      split
      · next hb =>
        subst hb
        cases hp : s.page b with
        | none => rfl
        | some l => exact absurd (inv.live b l hp) h
      · rfl
    rw [this]
    exact inv

theorem set_good {s : State} (inv : Inv s) {a k : Nat} {l : List Pivot} {p : Pivot} {q : Nat → Option Ent} (hp : s.page a = some l) (hk : l[k]? = some p)
    (hq : ∀ j, q j = if p.idx = some j then none else s.queue j) :
    Inv { s with page := upd s.page a (some (setPivot l k ⟨p.gen, none⟩)), queue := q } := by
  refine inv.leave (g' := s.gen) hp hk (Nat.le_refl _) hq ?_ ?_ (set_distinct (inv.dist a l hp) hk rfl) ?_
  · intro r hr hi
    rcases set_mem hr with rfl | h
    · exact absurd rfl hi
    · exact h
  · intro m r hm h
    exact mem_set hm h
  · intro r hr
    rcases set_mem hr with rfl | ⟨m, -, hm⟩
    · exact inv.old a l p hp (List.mem_of_getElem? hk)
    · exact inv.old a l r hp (List.mem_of_getElem? hm)

theorem good_flush {s : State} (inv : Inv s) (a k : Nat) (b : Bool) : Good (step s (.flush a k b)) := by
  unfold step
  dsimp only
  split
  · next l hp =>
    split
    · next p hk =>
      split
      · obtain ⟨q, hdq, hq⟩ := inv.dequeue hp (List.mem_of_getElem? hk)
        rw [hdq]
        dsimp only
        cases b with
        | false => exact set_good inv hp hk hq
        | true =>
          simp only [addPivot, if_true]
          refine inv.leave (g' := s.gen + 1) hp hk (Nat.le_succ _) hq ?_ ?_ (add_distinct (inv.dist a l hp) hk rfl (fun r hr => inv.old a l r hp hr)) ?_
          · intro r hr hi
            obtain ⟨m, hm⟩ := List.mem_iff_getElem?.mp hr
            rcases add_get (p' := ⟨p.gen, none⟩) hk rfl hm with ⟨-, h⟩ | ⟨n, r', h1, -, -, h3, h4⟩
            · rw [h] at hi; exact absurd rfl hi
            · by_cases hnk : n = k
              · rw [h3 hnk] at hi; exact absurd rfl hi
              · exact ⟨n, hnk, h4 hnk ▸ h1⟩
          · intro m r hm h
            exact add_mem hk hm h
          · intro r hr
            obtain ⟨m, hm⟩ := List.mem_iff_getElem?.mp hr
            rcases add_get (p' := ⟨p.gen, none⟩) hk rfl hm with ⟨-, h⟩ | ⟨n, r', h1, h2, -⟩
            · rw [h]; exact Nat.lt_succ_self _
            · rw [← h2]; exact Nat.lt_succ_of_lt (inv.old a l r' hp (List.mem_of_getElem? h1))
      · trivial
    · trivial
  · trivial

theorem good_rebundle {s : State} (inv : Inv s) (a : Nat) : Good (step s (.rebundle a)) := by
  unfold step
  dsimp only
  split
  · next p hp =>
    split
    · obtain ⟨q, hdq, hq⟩ := inv.dequeue hp (List.mem_singleton.mpr rfl)
      rw [hdq]
      dsimp only
      refine inv.leave (k := 0) (g' := s.gen + 1) hp rfl (Nat.le_succ _) hq ?_ ?_ ?_ ?_
      · intro r hr hi
        rw [List.mem_singleton.mp hr] at hi
        exact absurd rfl hi
      · intro m r hm h
        match m with
        | 0 => exact absurd rfl hm
        | m + 1 => simp at h
      · intro m n r1 r2 h1 h2 _
        match m, n with
        | 0, 0 => rfl
        | m + 1, _ => simp at h1
        | 0, n + 1 => simp at h2
      · intro r hr
        rw [List.mem_singleton.mp hr]
        exact Nat.lt_succ_self _
    · trivial
  · trivial

theorem requeue_eq (a : Nat) (l : List Pivot) (q : Nat → Option Ent) (h : ∀ p ∈ l, ∀ i, p.idx = some i → ∃ e, q i = some e) :
    ∃ q', requeue a l q = some q' ∧ (∀ j, (∃ p ∈ l, p.idx = some j) → q' j = (q j).map fun e => ⟨a, e.gen⟩) ∧ (∀ j, (¬ ∃ p ∈ l, p.idx = some j) → q' j = q j) := by
  induction l generalizing q with
  | nil => exact ⟨q, rfl, fun j ⟨p, hp, _⟩ => (by cases hp), fun _ _ => rfl⟩
  | cons p l ih =>
    unfold requeue
    cases hi : p.idx with
    | none =>
      obtain ⟨q', h1, h2, h3⟩ := ih q (fun r hr => h r (List.mem_cons_of_mem _ hr))
      refine ⟨q', h1, ?_, ?_⟩
      · rintro j ⟨r, hr, hj⟩
        rcases List.mem_cons.mp hr with rfl | hr
        · rw [hi] at hj; cases hj
        · exact h2 j ⟨r, hr, hj⟩
      · intro j hj
        exact h3 j (fun ⟨r, hr, hrj⟩ => hj ⟨r, List.mem_cons_of_mem _ hr, hrj⟩)
    | some i =>
      obtain ⟨e, he⟩ := h p List.mem_cons_self i hi
      have hstep : ∀ j, j ≠ i → upd q i (some { e with addr := a }) j = q j := fun j hj => by simp [upd, hj]
      have hat : upd q i (some { e with addr := a }) i = some ⟨a, e.gen⟩ := by simp [upd]
      obtain ⟨q', h1, h2, h3⟩ := ih (upd q i (some { e with addr := a })) (by
        intro r hr j hj
        by_cases hji : j = i
        · rw [hji]; exact ⟨_, hat⟩
        · rw [hstep j hji]; exact h r (List.mem_cons_of_mem _ hr) j hj)
      refine ⟨q', by simp only [he]; exact h1, ?_, ?_⟩
      · rintro j ⟨r, hr, hj⟩
        by_cases hji : j = i
        · subst hji
          by_cases hex : ∃ r ∈ l, r.idx = some j
          · rw [h2 j hex, hat, he]; rfl
          · rw [h3 j hex, hat, he]; rfl
        · rcases List.mem_cons.mp hr with rfl | hr
          · rw [hi] at hj; cases hj; exact absurd rfl hji
          · rw [h2 j ⟨r, hr, hj⟩, hstep j hji]
      · intro j hj
        have hji : j ≠ i := fun h => hj ⟨p, List.mem_cons_self, h ▸ hi⟩
        rw [h3 j (fun ⟨r, hr, hrj⟩ => hj ⟨r, List.mem_cons_of_mem _ hr, hrj⟩), hstep j hji]

theorem take_distinct {l : List Pivot} (h : Distinct l) (n : Nat) : Distinct (l.take n) := by
  intro m m' p q h1 h2 he
  rw [List.getElem?_take] at h1 h2
  split at h1
  · split at h2
    · exact h m m' p q h1 h2 he
    · cases h2
  · cases h1

theorem drop_distinct {l : List Pivot} (h : Distinct l) (n : Nat) : Distinct (l.drop n) := by
  intro m m' p q h1 h2 he
  rw [List.getElem?_drop] at h1 h2
  have := h _ _ p q h1 h2 he
  omega

theorem good_splitIndex {s : State} (inv : Inv s) (a n : Nat) : Good (step s (.splitIndex a n)) := by
  unfold step
  dsimp only
  split
  · next l hp =>
    split
    · next hl =>
      have hall : ∀ p ∈ l, ∀ i, p.idx = some i → s.queue i = some ⟨a, p.gen⟩ := fun p hm i hi => inv.agree.has a l p i hl hp hm hi
      obtain ⟨q', hq, hq1, hq2⟩ := requeue_eq s.next (l.drop n) s.queue (fun p hm i hi => ⟨_, hall p (List.mem_of_mem_drop hm) i hi⟩)
      rw [hq]
      have hfp := (inv.fresh s.next (Nat.le_refl _)).1
      have hane : a ≠ s.next := fun h => by rw [h, hfp] at hp; cases hp
      -- a pivot that stays is not one that goes
      have hstay : ∀ p ∈ l.take n, ∀ i, p.idx = some i → ¬ ∃ r ∈ l.drop n, r.idx = some i := by
        rintro p hpt i hi ⟨r, hrd, hri⟩
        obtain ⟨m, hm⟩ := List.mem_iff_getElem?.mp hpt
        obtain ⟨m', hm'⟩ := List.mem_iff_getElem?.mp hrd
        rw [List.getElem?_drop] at hm'
        rw [List.getElem?_take] at hm
        split at hm
        · next hmn =>
          have := inv.same hp hm hm' hi hri
          omega
        · cases hm
      have hpg : ∀ b m, upd (upd s.page a (some (l.take n))) s.next (some (l.drop n)) b = some m →
          (b = s.next ∧ m = l.drop n) ∨ (b ≠ s.next ∧ b = a ∧ m = l.take n) ∨ (b ≠ s.next ∧ b ≠ a ∧ s.page b = some m) := by
        intro b m h
        unfold upd at h
        split at h
        · next hb => cases h; exact .inl ⟨hb, rfl⟩
        · next hb =>
          split at h
          · next hba => cases h; exact .inr (.inl ⟨hb, hba, rfl⟩)
          · next hba => exact .inr (.inr ⟨hb, hba, h⟩)
      refine ⟨⟨?_, ?_⟩, ?_, ?_, ?_, ?_, inv.hand⟩
      · intro b m p i hlb hm hpm hi
        rcases hpg b m hm with ⟨rfl, rfl⟩ | ⟨hb, rfl, rfl⟩ | ⟨hb, hba, hm⟩
        · dsimp only
          rw [hq1 i ⟨p, hpm, hi⟩, hall p (List.mem_of_mem_drop hpm) i hi]
          rfl
        · dsimp only
          rw [hq2 i (hstay p hpm i hi)]
          exact hall p (List.mem_of_mem_take hpm) i hi
        · have hb' := inv.agree.has b m p i (inv.live b m hm) hm hpm hi
          dsimp only
          rw [hq2 i]
          · exact hb'
          · rintro ⟨r, hr, hri⟩
            rw [hall r (List.mem_of_mem_drop hr) i hri] at hb'
            simp only [Option.some.injEq, Ent.mk.injEq] at hb'
            exact hba hb'.1.symm
      · intro i e he
        dsimp only at he ⊢
        by_cases hex : ∃ r ∈ l.drop n, r.idx = some i
        · rw [hq1 i hex] at he
          obtain ⟨r, hr, hri⟩ := hex
          rw [hall r (List.mem_of_mem_drop hr) i hri] at he
          cases he
          exact ⟨by simp [upd], l.drop n, r, by simp [upd], hr, rfl, hri⟩
        · rw [hq2 i hex] at he
          obtain ⟨h1, m, r, hm, hr, hgen, hidx⟩ := inv.agree.from_tree i e he
          have hen : e.addr ≠ s.next := fun h => by rw [h, hfp] at hm; cases hm
          refine ⟨by simp [upd, hen, h1], ?_⟩
          by_cases hea : e.addr = a
          · rw [hea, hp] at hm
            cases hm
            refine ⟨l.take n, r, by simp [upd, hea, hane], ?_, hgen, hidx⟩
            rw [← List.take_append_drop n l] at hr
            rcases List.mem_append.mp hr with hr | hr
            · exact hr
            · exact absurd ⟨r, hr, hidx⟩ hex
          · exact ⟨m, r, by simp [upd, hen, hea, hm], hr, hgen, hidx⟩
      · intro b m hm
        rcases hpg b m hm with ⟨rfl, rfl⟩ | ⟨hb, rfl, rfl⟩ | ⟨hb, hba, hm⟩
        · exact drop_distinct (inv.dist a l hp) n
        · exact take_distinct (inv.dist _ l hp) n
        · exact inv.dist b m hm
      · intro b m p hm hpm
        rcases hpg b m hm with ⟨rfl, rfl⟩ | ⟨hb, rfl, rfl⟩ | ⟨hb, hba, hm⟩
        · exact inv.old a l p hp (List.mem_of_mem_drop hpm)
        · exact inv.old _ l p hp (List.mem_of_mem_take hpm)
        · exact inv.old b m p hm hpm
      · intro b m hm
        dsimp only
        rcases hpg b m hm with ⟨rfl, rfl⟩ | ⟨hb, rfl, rfl⟩ | ⟨hb, hba, hm⟩
        · simp [upd]
        · simp [upd, hb, hl]
        · simp [upd, hb, inv.live b m hm]
      · intro b hb
        dsimp only at hb ⊢
        have h1 : b ≠ s.next := by omega
        have h2 := inv.fresh b (by omega)
        have h3 : b ≠ a := fun h => by rw [h, hp] at h2; cases h2.1
        simp [upd, h1, h3, h2]
    · trivial
  · trivial

theorem good_reclaim {s : State} (inv : Inv s) (i : Nat) : Good (run s [.extract i, .reclaim]) := by
  have hh := inv.hand
  cases hq : s.queue i with
  | none =>
    have : step s (.extract i) = .skip := by simp [step, hq]
    simp only [run, this]
    trivial
  | some e =>
    have h1 : step s (.extract i) = .ok { s with queue := upd s.queue i none, hand := some e } := by simp [step, hq, hh]
    obtain ⟨-, l, p, hp, hpl, hgen, hidx⟩ := inv.agree.from_tree i e hq
    obtain ⟨k, hk⟩ := List.mem_iff_getElem?.mp hpl
    have hlt : k < l.length := (List.getElem?_eq_some_iff.mp hk).1
    have hfind : l.findIdx? (fun r => decide (r.gen = e.gen)) = some k := by
      rw [List.findIdx?_eq_some_iff_getElem]
      refine ⟨hlt, ?_, ?_⟩
      · rw [(List.getElem?_eq_some_iff.mp hk).2]; simpa using hgen
      · intro j hj hjg
        have hjl : j < l.length := by omega
        have := inv.dist _ l hp j k l[j] p (List.getElem?_eq_getElem hjl) hk (by rw [hgen]; simpa using hjg)
        omega
    have h2 : step { s with queue := upd s.queue i none, hand := some e } .reclaim =
        .ok { s with queue := upd s.queue i none, hand := none, page := upd s.page e.addr (some (setPivot l k ⟨e.gen, none⟩)) } := by
      simp only [step, hp, hfind]
    simp only [run, h1, h2]
    have := set_good inv (q := upd s.queue i none) hp hk (by
      intro j
      unfold upd
      rw [hidx]
      by_cases hj : j = i
      · simp [hj]
      · rw [if_neg hj, if_neg (fun h => hj (by cases h; rfl))])
    rw [hgen] at this
    simp only [hh] at this
    exact this

theorem run_append (s : State) (l m : List Op) : run s (l ++ m) = match run s l with
    | .ok s' => run s' m
    | r => r := by
  induction l generalizing s with
  | nil => rfl
  | cons o l ih =>
    simp only [List.cons_append, run]
    split
    · exact ih _
    · rfl
    · rfl

theorem run_one (s : State) (o : Op) : run s [o] = step s o := by
  simp only [run]
  cases step s o <;> rfl

theorem calm_good {l : List Op} (h : Calm l) : Good (run init l) := by
  have app : ∀ (l m : List Op), Good (run init l) → (∀ s, Inv s → Good (run s m)) → Good (run init (l ++ m)) := by
    intro l m h1 h2
    rw [run_append]
    cases hr : run init l with
    | ok s => rw [hr] at h1; exact h2 s h1
    | fault => rw [hr] at h1; exact h1.elim
    | skip => trivial
  induction h with
  | nil => exact Inv.init
  | enqueue a k i _ ih => exact app _ _ ih (fun s inv => by rw [run_one]; exact good_enqueue inv a k i)
  | flush a k b _ ih => exact app _ _ ih (fun s inv => by rw [run_one]; exact good_flush inv a k b)
  | rebundle a _ ih => exact app _ _ ih (fun s inv => by rw [run_one]; exact good_rebundle inv a)
  | free a _ ih => exact app _ _ ih (fun s inv => by rw [run_one]; exact good_free inv a)
  | splitIndex a n _ ih => exact app _ _ ih (fun s inv => by rw [run_one]; exact good_splitIndex inv a n)
  | reclaim i _ ih => exact app _ _ ih (fun s inv => good_reclaim inv i)

/-- **C62** (partial). As long as no node is copied, the root is not split, the store is not mounted again, and reclaiming is not disturbed, the queue and the tree agree and no assertion fails. The full statement is `Reclaims`. -/
theorem reclaims_partial (l : List Op) (h : Calm l) : run init l ≠ .fault ∧ ∀ s, run init l = .ok s → Agree s := by
  have := calm_good h
  refine ⟨fun hf => ?_, fun s hs => ?_⟩
  · rw [hf] at this; exact this
  · rw [hs] at this; exact this.agree

/-! ### With the default threshold

`reclaim_threshold` is `UINT64_MAX` if not set (splinterdb.c), and no pivot enters the queue. -/

structure Idle (s : State) : Prop where
  queue : ∀ i, s.queue i = none
  idx : ∀ a l p, s.page a = some l → p ∈ l → p.idx = none
  hand : s.hand = none

theorem idle_page {s : State} (h : Idle s) (a : Nat) (l : List Pivot) (hl : ∀ p ∈ l, p.idx = none) :
    ∀ b m p, upd s.page a (some l) b = some m → p ∈ m → p.idx = none := by
  intro b m p hm hp
  unfold upd at hm
  split at hm
  · cases hm; exact hl p hp
  · exact h.idx b m p hm hp

theorem requeue_idle (a : Nat) (l : List Pivot) (q : Nat → Option Ent) (h : ∀ p ∈ l, p.idx = none) : requeue a l q = some q := by
  induction l with
  | nil => rfl
  | cons p l ih =>
    unfold requeue
    rw [h p List.mem_cons_self]
    exact ih (fun r hr => h r (List.mem_cons_of_mem _ hr))

def StaysIdle : Res → Prop
  | .ok s => Idle s
  | .fault => False
  | .skip => True

theorem idle_step {s : State} (h : Idle s) (o : Op) (ho : ∀ a k i, o ≠ .enqueue a k i) : StaysIdle (step s o) := by
  cases o with
  | copy a =>
    unfold step
    dsimp only
    cases hp : s.page a with
    | none => trivial
    | some l =>
      cases hl : s.live a with
      | false => simp [StaysIdle]
      | true =>
        simp only [if_true]
        exact ⟨h.queue, idle_page h _ l (fun p hm => h.idx a l p hp hm), h.hand⟩
  | free a =>
    unfold step
    dsimp only
    cases hl : s.live a with
    | true => simp [StaysIdle]
    | false =>
      simp only [Bool.false_eq_true, if_false]
      refine ⟨h.queue, ?_, h.hand⟩
      intro b m p hm hpm
      simp only [upd] at hm
      split at hm
      · cases hm
      · exact h.idx b m p hm hpm
  | enqueue a k i => exact absurd rfl (ho a k i)
  | flush a k b =>
    unfold step
    dsimp only
    cases hp : s.page a with
    | none => trivial
    | some l =>
      simp only
      cases hk : l[k]? with
      | none => trivial
      | some p =>
        have hpi := h.idx a l p hp (List.mem_of_getElem? hk)
        cases hl : s.live a with
        | false => simp [StaysIdle]
        | true =>
          simp only [if_true, hpi, dequeue]
          have hlt : k < l.length := (List.getElem?_eq_some_iff.mp hk).1
          cases b with
          | false =>
            refine ⟨h.queue, idle_page h _ _ ?_, h.hand⟩
            intro r hr
            rcases set_mem hr with rfl | ⟨m, -, hm⟩
            · rfl
            · exact h.idx a l r hp (List.mem_of_getElem? hm)
          | true =>
            simp only [addPivot, if_true]
            refine ⟨h.queue, idle_page h _ _ ?_, h.hand⟩
            intro r hr
            rw [List.mem_insertIdx (by simp [setPivot]; omega)] at hr
            rcases hr with rfl | hr
            · rfl
            · rcases set_mem hr with rfl | ⟨m, -, hm⟩
              · rfl
              · exact h.idx a l r hp (List.mem_of_getElem? hm)
  | rebundle a =>
    unfold step
    dsimp only
    split
    · next p hp =>
      have hpi := h.idx a [p] p hp (List.mem_singleton.mpr rfl)
      cases hl : s.live a with
      | false => simp [StaysIdle]
      | true =>
        simp only [if_true, hpi, dequeue]
        exact ⟨h.queue, idle_page h _ _ (fun r hr => by rw [List.mem_singleton.mp hr]), h.hand⟩
    · trivial
  | splitIndex a n =>
    unfold step
    dsimp only
    cases hp : s.page a with
    | none => trivial
    | some l =>
      have hall := fun p hm => h.idx a l p hp hm
      cases hl : s.live a with
      | false => simp [StaysIdle]
      | true =>
        simp only [if_true, requeue_idle s.next (l.drop n) s.queue (fun p hm => hall p (List.mem_of_mem_drop hm))]
        have h' : Idle { s with page := upd s.page a (some (l.take n)) } := ⟨h.queue, idle_page h _ _ (fun p hm => hall p (List.mem_of_mem_take hm)), h.hand⟩
        exact ⟨h.queue, idle_page h' _ _ (fun p hm => hall p (List.mem_of_mem_drop hm)), h.hand⟩
  | splitRoot a =>
    unfold step
    dsimp only
    cases hp : s.page a with
    | none => trivial
    | some l =>
      cases hl : s.live a with
      | false => simp [StaysIdle]
      | true =>
        simp only [if_true]
        have h' : Idle { s with page := upd s.page a (some [⟨s.gen, none⟩]) } := ⟨h.queue, idle_page h _ _ (fun p hm => by rw [List.mem_singleton.mp hm]), h.hand⟩
        exact ⟨h.queue, idle_page h' _ _ (fun p hm => h.idx a l p hp hm), h.hand⟩
  | extract i => simp [step, h.queue i, StaysIdle]
  | reclaim => simp [step, h.hand, StaysIdle]
  | reopen => exact ⟨fun _ => rfl, h.idx, rfl⟩

/-- With the default threshold nothing goes wrong: the queue stays empty, no pivot says that it is queued, no assertion fails, whatever else happens. -/
theorem default_threshold (l : List Op) (h : ∀ a k i, Op.enqueue a k i ∉ l) : run init l ≠ .fault ∧ ∀ s, run init l = .ok s → Agree s ∧ ∀ i, s.queue i = none := by
  have gen : ∀ s, Idle s → run s l ≠ .fault ∧ ∀ s', run s l = .ok s' → Idle s' := by
    induction l with
    | nil => intro s hs; exact ⟨fun h => (by cases h), fun s' h => (by cases h; exact hs)⟩
    | cons o l ih =>
      intro s hs
      have hst := idle_step hs o (fun a k i ho => h a k i (by rw [ho]; exact List.mem_cons_self))
      simp only [run]
      cases hr : step s o with
      | ok s' => rw [hr] at hst; exact ih (fun a k i hm => h a k i (List.mem_cons_of_mem _ hm)) s' hst
      | fault => rw [hr] at hst; exact hst.elim
      | skip => exact ⟨fun h => (by cases h), fun s' h => (by cases h)⟩
  have hinit : Idle init := by
    refine ⟨fun _ => rfl, ?_, rfl⟩
    intro a l p hp hm
    unfold init at hp
    dsimp only at hp
    split at hp
    · cases hp
      rw [List.mem_singleton.mp hm]
    · cases hp
  obtain ⟨h1, h2⟩ := gen init hinit
  refine ⟨h1, fun s hs => ?_⟩
  have hi := h2 s hs
  refine ⟨⟨?_, ?_⟩, hi.queue⟩
  · intro a l p i _ hp hm hpi
    rw [hi.idx a l p hp hm] at hpi
    cases hpi
  · intro i e he
    rw [hi.queue i] at he
    cases he

/-! ### What does not hold -/

/-- A copied node: the entry of each of its queued pivots names a node that is not in the tree any more. -/
theorem copy_strands {s : State} (ha : Agree s) {a : Nat} {l : List Pivot} {p : Pivot} {i : Nat} (hn : a < s.next) (hp : s.page a = some l) (hl : s.live a = true) (hm : p ∈ l) (hi : p.idx = some i) :
    ∃ s' e, step s (.copy a) = .ok s' ∧ s'.queue i = some e ∧ s'.live e.addr = false := by
  have hst : step s (.copy a) = .ok { s with page := upd s.page s.next (some l), live := upd (upd s.live a false) s.next true, next := s.next + 1 } := by simp only [step, hp, hl, if_true]
  refine ⟨_, ⟨a, p.gen⟩, hst, ha.has a l p i hl hp hm hi, ?_⟩
  have : a ≠ s.next := by omega
  simp [upd, this]

/-- The same for a root that is split: its pivots have moved, and the entries name a node without them. -/
theorem splitRoot_strands {s : State} (ha : Agree s) {a : Nat} {l : List Pivot} {p : Pivot} {i : Nat} (hp : s.page a = some l) (hn : a < s.next) (hg : p.gen < s.gen) (hl : s.live a = true) (hm : p ∈ l) (hi : p.idx = some i) :
    ∃ s' e, step s (.splitRoot a) = .ok s' ∧ s'.queue i = some e ∧ ∀ m, s'.page e.addr = some m → ∀ r ∈ m, r.gen ≠ e.gen := by
  have hst : step s (.splitRoot a) = .ok { s with page := upd (upd s.page a (some [⟨s.gen, none⟩])) s.next (some l), live := upd s.live s.next true, next := s.next + 1, gen := s.gen + 1 } := by
    simp only [step, hp, hl, if_true]
  refine ⟨_, ⟨a, p.gen⟩, hst, ha.has a l p i hl hp hm hi, ?_⟩
  have : a ≠ s.next := by omega
  intro m hm r hr
  simp only [upd, this, if_false, if_true, Option.some.injEq] at hm
  rw [← hm] at hr
  rw [List.mem_singleton.mp hr]
  simp only
  omega

def faults (l : List Op) : Bool := match run init l with
  | .fault => true
  | _ => false

theorem faults_iff {l : List Op} (h : faults l = true) : run init l = .fault := by
  unfold faults at h
  split at h
  · assumption
  · cases h

/-- The entry is looked up in the old copy of the node; the new one keeps the index, and the next flush deletes an index that is not in use. -/
theorem copy_faults : run init [.enqueue 0 0 0, .copy 0, .extract 0, .reclaim, .flush 1 0 false] = .fault := faults_iff (by decide +kernel)

/-- Reclaiming reads a page that is freed. -/
theorem reads_freed : run init [.enqueue 0 0 0, .copy 0, .free 0, .extract 0, .reclaim] = .fault := faults_iff (by decide +kernel)

/-- The indexes are on disk, the queue is not. -/
theorem reopen_faults : run init [.enqueue 0 0 0, .reopen, .flush 0 0 false] = .fault := faults_iff (by decide +kernel)

/-- The same for a split of the node. -/
theorem reopen_split_faults : run init [.flush 0 0 true, .enqueue 0 1 5, .reopen, .splitIndex 0 1] = .fault := faults_iff (by decide +kernel)

/-- A flush while another thread has taken the entry and not yet locked the node. -/
theorem race_faults : run init [.enqueue 0 0 0, .extract 0, .flush 0 0 false] = .fault := faults_iff (by decide +kernel)

/-- A split of the root, and then reclaiming finds no pivot; the flush of the one that was queued fails. -/
theorem splitRoot_faults : run init [.enqueue 0 0 0, .splitRoot 0, .extract 0, .reclaim, .flush 1 0 false] = .fault := faults_iff (by decide +kernel)

/-- Between taking the entry and reclaiming, the index is given to another pivot: the flush of the first deletes the entry of the second, which then says it is queued and is not. -/
theorem race_steals : ∃ s, run init [.flush 0 0 true, .enqueue 0 0 0, .extract 0, .enqueue 0 1 0, .flush 0 0 false, .reclaim] = .ok s ∧ s.page 0 = some [⟨1, none⟩, ⟨0, some 0⟩] ∧ s.queue 0 = none :=
  ⟨_, rfl, by decide +kernel, by decide +kernel⟩

/-- The full statement does not hold. -/
theorem not_reclaims : ¬ Reclaims := fun h => (h _).1 race_faults

/-! ### Examples -/

/-- A calm run: a pivot is queued, the node gets pivots, is split, the entry follows, and is reclaimed. -/
example : Calm [.flush 0 0 true, .enqueue 0 1 5, .splitIndex 0 1, .extract 5, .reclaim] :=
  .reclaim (l := [.flush 0 0 true, .enqueue 0 1 5, .splitIndex 0 1]) 5 (.splitIndex (l := [.flush 0 0 true, .enqueue 0 1 5]) 0 1
    (.enqueue (l := [.flush 0 0 true]) 0 1 5 (.flush (l := []) 0 0 true .nil)))

example : ∃ s, run init [.flush 0 0 true, .enqueue 0 1 5, .splitIndex 0 1] = .ok s ∧ s.queue 5 = some ⟨1, 0⟩ ∧ s.page 1 = some [⟨0, some 5⟩] :=
  ⟨_, rfl, by decide +kernel, by decide +kernel⟩

example : ∃ s, run init [.flush 0 0 true, .enqueue 0 1 5, .splitIndex 0 1, .extract 5, .reclaim] = .ok s ∧ s.queue 5 = none ∧ s.page 1 = some [⟨0, none⟩] :=
  ⟨_, rfl, by decide +kernel, by decide +kernel⟩

/-- With the default threshold: copies, splits and mounts. -/
example : ∃ s, run init [.copy 0, .flush 1 0 true, .splitRoot 1, .copy 2, .splitIndex 3 1, .free 0, .reopen, .flush 3 0 false] = .ok s ∧ s.next = 5 :=
  ⟨_, rfl, by decide +kernel⟩

/-- The hypotheses of `copy_strands` and `splitRoot_strands`. -/
example : ∃ s, run init [.enqueue 0 0 7] = .ok s ∧ Agree s ∧ s.page 0 = some [⟨0, some 7⟩] ∧ s.live 0 = true ∧ 0 < s.next ∧ 0 < s.gen :=
  ⟨_, rfl, (reclaims_partial [.enqueue 0 0 7] (.enqueue (l := []) 0 0 7 .nil)).2 _ rfl, by decide +kernel, by decide +kernel, by decide +kernel, by decide +kernel⟩

end Splinter.Reclaim
