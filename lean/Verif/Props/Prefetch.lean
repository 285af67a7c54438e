import Verif.Model.Prefetch
/-!
# C63: reading ahead does not change what readers get
-/
namespace Splinter.Prefetch

/-- What a reader of page `p` gets: the cached page, or what the device has if the page is not cached or still being read. -/
def view (s : State) (p : Nat) : Nat := match s.lookup p with
  | some e => match (s.ent e).st with
    | .valid _ => (s.ent e).data
    | _ => s.disk p
  | none => s.disk p

/-- The effect of an operation on the contents of pages: only a write changes any. -/
def apply (f : Nat → Nat) : Op → Nat → Nat
  | .modify p v => fun q => if q = p then v else f q
  | _ => f

/-! ### The invariant -/

/-- Who will clear the loading flag of an entry. -/
inductive Owner where
  | thr (t : Nat)
  | req (i : Nat)
deriving DecidableEq

structure Own (N : Nat) (s : State) (own : Nat → Option Owner) : Prop where
  map : ∀ p e, s.lookup p = some e → (s.ent e).page = p ∧ (s.ent e).st ≠ .free
  val : ∀ e d, (s.ent e).st = .valid d → s.lookup (s.ent e).page = some e
  clean : ∀ e, (s.ent e).st = .valid false → (s.ent e).data = s.disk (s.ent e).page
  loads : ∀ e, (s.ent e).st = .loading ↔ own e ≠ none
  cur : ∀ t T, s.thr t = some T → ∀ (k e : Nat), T.cur[k]? = some e → own e = some (.thr t) ∧ s.lookup (T.start + k) = some e
  free : ∀ t T e, s.thr t = some T → T.free = some e → own e = some (.thr t) ∧ (s.ent e).page = T.base + T.off ∧ ∀ p, s.lookup p ≠ some e
  pos : ∀ t T, s.thr t = some T → T.cur ≠ [] → T.start + T.cur.length = T.base + T.off ∧ T.base ≤ T.start
  ext : ∀ t T, s.thr t = some T → T.off ≤ T.n ∧ T.base % N + T.n ≤ N ∧ (T.free ≠ none → T.off < T.n)
  req : ∀ i r, s.reqs i = some r → ∀ (k e : Nat), r.ents[k]? = some e → own e = some (.req i) ∧ s.lookup (r.start + k) = some e
  rext : ∀ i r, s.reqs i = some r → r.ents ≠ [] ∧ r.start % N + r.ents.length ≤ N
  othr : ∀ e t, own e = some (.thr t) → ∃ T, s.thr t = some T ∧ (e ∈ T.cur ∨ T.free = some e)
  oreq : ∀ e i, own e = some (.req i) → ∃ r, s.reqs i = some r ∧ e ∈ r.ents
  fresh : ∀ i, s.next ≤ i → s.reqs i = none

theorem Own.init (N : Nat) (d : Nat → Nat) : Own N (init d) (fun _ => none) := by
  constructor <;> simp [Prefetch.init]

theorem load_eq (d : Nat → Nat) (p : Nat) (l : List Nat) (f : Nat → Ent) (h : ∀ (k e : Nat), l[k]? = some e → (f e).page = p + k) (e : Nat) :
    load d p l f e = if e ∈ l then { f e with st := .valid false, data := d (f e).page } else f e := by
  induction l generalizing p f with
  | nil => simp [load]
  | cons a l ih =>
    have h0 := h 0 a rfl
    simp only [load]
    rw [ih]
    · by_cases hea : e = a
      · subst hea
        simp [upd, h0]
      · simp [upd, hea]
    · intro k b hb
      have := h (k + 1) b (by simpa using hb)
      unfold upd
      split
      · next hba => subst hba; simp only; omega
      · omega

section
variable {N : Nat} {s s' : State} {own : Nat → Option Owner}

theorem own_start (h : Own N s own) (t b n : Nat) (hs : step N s (.start t b n) = some s') : Own N s' own := by
  simp only [step] at hs
  split at hs
  · split at hs
    · cases hs
      obtain ⟨h1, h2, h3, h4, h5, h6, h7, h8, h9, h10, h11, h12, h13⟩ := h
      constructor <;> grind [upd]
    · cases hs
  · cases hs

theorem own_miss (h : Own N s own) (t e : Nat) (hs : step N s (.miss t e) = some s') : Own N s' (upd own e (some (.thr t))) := by
  simp only [step] at hs
  split at hs
  · split at hs
    · cases hs
      obtain ⟨h1, h2, h3, h4, h5, h6, h7, h8, h9, h10, h11, h12, h13⟩ := h
      constructor <;> grind [upd]
    · cases hs
  · cases hs

theorem own_evict (h : Own N s own) (e : Nat) (hs : step N s (.evict e) = some s') : Own N s' own := by
  simp only [step] at hs
  split at hs
  · cases hs
    obtain ⟨h1, h2, h3, h4, h5, h6, h7, h8, h9, h10, h11, h12, h13⟩ := h
    constructor <;> grind [upd]
  · cases hs

theorem own_writeback (h : Own N s own) (e : Nat) (hs : step N s (.writeback e) = some s') : Own N s' own := by
  simp only [step] at hs
  split at hs
  · cases hs
    obtain ⟨h1, h2, h3, h4, h5, h6, h7, h8, h9, h10, h11, h12, h13⟩ := h
    constructor <;> grind [upd]
  · cases hs

theorem own_modify (h : Own N s own) (p v : Nat) (hs : step N s (.modify p v) = some s') : Own N s' own := by
  simp only [step] at hs
  split at hs
  · split at hs
    · cases hs
      obtain ⟨h1, h2, h3, h4, h5, h6, h7, h8, h9, h10, h11, h12, h13⟩ := h
      constructor <;> grind [upd]
    · cases hs
  · cases hs

theorem own_cas (h : Own N s own) (t : Nat) (hs : step N s (.cas t) = some s') : ∃ own', Own N s' own' := by
  simp only [step] at hs
  split at hs
  · next T hT =>
    split at hs
    · next e he =>
      split at hs
      · next hl =>
        cases hs
        refine ⟨own, ?_⟩
        obtain ⟨h1, h2, h3, h4, h5, h6, h7, h8, h9, h10, h11, h12, h13⟩ := h
        have hcur := h5 t T hT
        have hpos := h7 t T hT
        have hnew : ∀ (k x : Nat), (T.cur ++ [e])[k]? = some x → (T.cur[k]? = some x ∧ T.cur ≠ []) ∨ (k = T.cur.length ∧ x = e) := by
          intro k x hx
          rw [List.getElem?_append] at hx
          split at hx
          · next hk => exact .inl ⟨hx, fun h => by rw [h] at hk; simp at hk⟩
          · next hk =>
            match hm : k - T.cur.length with
            | 0 => rw [hm] at hx; simp at hx; exact .inr ⟨by omega, hx.symm⟩
            | m + 1 => rw [hm] at hx; simp at hx
        constructor
        case cur =>
          intro t' T' hT' k x hx
          simp only [upd] at hT' ⊢
          split at hT'
          · next htt =>
            cases hT'
            simp only at hx ⊢
            rcases hnew k x hx with ⟨hx, hne⟩ | ⟨rfl, rfl⟩
            · rw [if_neg hne]
              obtain ⟨a1, a2⟩ := hcur k x hx
              refine ⟨htt ▸ a1, ?_⟩
              rw [if_neg (by intro hc; rw [hc, hl] at a2; cases a2)]
              exact a2
            · refine ⟨htt ▸ (h6 t T x hT he).1, ?_⟩
              by_cases hne : T.cur = []
              · simp [hne]
              · rw [if_neg hne, (hpos hne).1]; simp
          · obtain ⟨a1, a2⟩ := h5 t' T' hT' k x hx
            refine ⟨a1, ?_⟩
            rw [if_neg (by intro hc; rw [hc, hl] at a2; cases a2)]
            exact a2
        case pos =>
          intro t' T' hT' hne
          simp only [upd] at hT'
          split at hT'
          · cases hT'
            simp only [List.length_append, List.length_singleton]
            by_cases hc : T.cur = []
            · simp [hc]; omega
            · rw [if_neg hc]; have := hpos hc; omega
          · exact h7 t' T' hT' hne
        all_goals grind [upd]
      · cases hs
        refine ⟨upd own e none, ?_⟩
        obtain ⟨h1, h2, h3, h4, h5, h6, h7, h8, h9, h10, h11, h12, h13⟩ := h
        have hncur : ∀ (k : Nat), T.cur[k]? ≠ some e := fun k hk => (h6 t T e hT he).2.2 _ (h5 t T hT k e hk).2
        constructor <;> grind [upd]
    · cases hs
  · cases hs

/-- The request that was put together is sent off. -/
theorem own_issue (h : Own N s own) (t : Nat) {T : Thread} (hT : s.thr t = some T) (hf : T.free = none) (X : Option Thread) (hX : ∀ Y, X = some Y → Y.cur = [] ∧ Y.free = none ∧ Y.off ≤ Y.n ∧ Y.base % N + Y.n ≤ N) :
    ∃ own', Own N { issue s T with thr := upd s.thr t X } own' := by
  unfold issue
  split
  · next hc =>
    refine ⟨own, ?_⟩
    obtain ⟨h1, h2, h3, h4, h5, h6, h7, h8, h9, h10, h11, h12, h13⟩ := h
    constructor <;> grind [upd]
  · next hc =>
    refine ⟨fun e => if own e = some (.thr t) then some (.req s.next) else own e, ?_⟩
    obtain ⟨h1, h2, h3, h4, h5, h6, h7, h8, h9, h10, h11, h12, h13⟩ := h
    have hcur := h5 t T hT
    have hpos := h7 t T hT hc
    have hext := h8 t T hT
    have hmod : T.start % N + T.cur.length ≤ N := by
      obtain ⟨p1, p2⟩ := hpos
      obtain ⟨p3, p4, -⟩ := hext
      have hlen : 0 < T.cur.length := List.length_pos_iff.mpr hc
      have e1 : T.start = T.base + (T.start - T.base) := by omega
      have hlt : T.base % N + (T.start - T.base) < N := by omega
      have : T.start % N = T.base % N + (T.start - T.base) := by
        conv => lhs; rw [e1, ← Nat.mod_add_mod]
        exact Nat.mod_eq_of_lt hlt
      omega
    constructor
    case rext => grind [upd]
    case loads => intro e; rw [h4 e]; split <;> simp_all
    case req =>
      intro i r hr k e hk
      simp only [upd] at hr
      split at hr
      · next hi =>
        cases hr
        obtain ⟨a1, a2⟩ := hcur k e hk
        exact ⟨by rw [if_pos a1, hi], a2⟩
      · obtain ⟨a1, a2⟩ := h9 i r hr k e hk
        exact ⟨by rw [a1]; simp, a2⟩
    case oreq =>
      intro e i he
      split at he
      · next ho =>
        cases he
        obtain ⟨T', hT', hm⟩ := h11 e t ho
        rw [hT] at hT'
        cases hT'
        refine ⟨⟨T.start, T.cur⟩, by simp [upd], ?_⟩
        rcases hm with hm | hm
        · exact hm
        · rw [hf] at hm; cases hm
      · obtain ⟨r, hr, hm⟩ := h12 e i he
        have : i ≠ s.next := fun hi => by rw [hi, h13 s.next (Nat.le_refl _)] at hr; cases hr
        exact ⟨r, by simp [upd, this, hr], hm⟩
    all_goals grind [upd]

theorem own_hit (h : Own N s own) (t : Nat) (hs : step N s (.hit t) = some s') : ∃ own', Own N s' own' := by
  simp only [step] at hs
  split at hs
  · next T hT =>
    split at hs
    · next hc =>
      cases hs
      refine own_issue h t hT hc.2.1 _ ?_
      intro Y hY
      cases hY
      exact ⟨rfl, hc.2.1, hc.1, (h.ext t T hT).2.1⟩
    · cases hs
  · cases hs

theorem own_finish (h : Own N s own) (t : Nat) (hs : step N s (.finish t) = some s') : ∃ own', Own N s' own' := by
  simp only [step] at hs
  split at hs
  · next T hT =>
    split at hs
    · next hc =>
      cases hs
      exact own_issue h t hT hc.2 none (fun Y hY => by cases hY)
    · cases hs
  · cases hs

theorem own_complete (h : Own N s own) (i : Nat) (hs : step N s (.complete i) = some s') : ∃ own', Own N s' own' := by
  simp only [step] at hs
  split at hs
  · next r hr =>
    cases hs
    refine ⟨fun e => if own e = some (.req i) then none else own e, ?_⟩
    have hload := load_eq s.disk r.start r.ents s.ent (fun k e hk => (h.map _ e (h.req i r hr k e hk).2).1)
    have hent : load s.disk r.start r.ents s.ent = fun e => if own e = some (.req i) then { s.ent e with st := .valid false, data := s.disk (s.ent e).page } else s.ent e := by
      funext e
      rw [hload e]
      have : e ∈ r.ents ↔ own e = some (.req i) := by
        constructor
        · intro he
          obtain ⟨k, hk⟩ := List.mem_iff_getElem?.mp he
          exact (h.req i r hr k e hk).1
        · intro ho
          obtain ⟨r', hr', hm⟩ := h.oreq e i ho
          rw [hr] at hr'
          cases hr'
          exact hm
      by_cases hm : e ∈ r.ents
      · rw [if_pos hm, if_pos (this.mp hm)]
      · rw [if_neg hm, if_neg (fun ho => hm (this.mpr ho))]
    rw [hent]
    have hmap : ∀ e, own e = some (.req i) → s.lookup (s.ent e).page = some e := by
      intro e ho
      obtain ⟨r', hr', hm⟩ := h.oreq e i ho
      obtain ⟨k, hk⟩ := List.mem_iff_getElem?.mp hm
      have hl := (h.req i r' hr' k e hk).2
      rw [(h.map _ e hl).1]
      exact hl
    obtain ⟨h1, h2, h3, h4, h5, h6, h7, h8, h9, h10, h11, h12, h13⟩ := h
    constructor <;> grind [upd]
  · cases hs
end

theorem own_step {N : Nat} {s s' : State} {own : Nat → Option Owner} (h : Own N s own) (o : Op) (hs : step N s o = some s') : ∃ own', Own N s' own' := by
  cases o with
  | start t b n => exact ⟨_, own_start h t b n hs⟩
  | hit t => exact own_hit h t hs
  | miss t e => exact ⟨_, own_miss h t e hs⟩
  | cas t => exact own_cas h t hs
  | finish t => exact own_finish h t hs
  | complete i => exact own_complete h i hs
  | evict e => exact ⟨_, own_evict h e hs⟩
  | modify p v => exact ⟨_, own_modify h p v hs⟩
  | writeback e => exact ⟨_, own_writeback h e hs⟩

theorem issue_view (s : State) (T : Thread) (f : Nat → Option Thread) : view { issue s T with thr := f } = view s := by
  unfold issue
  split <;> rfl

theorem view_step {N : Nat} {s s' : State} {own : Nat → Option Owner} (h : Own N s own) (o : Op) (hs : step N s o = some s') : view s' = apply (view s) o := by
  have key : ∀ p, view s p = (match s.lookup p with | some e => (match (s.ent e).st with | .valid _ => (s.ent e).data | _ => s.disk p) | none => s.disk p) := fun _ => rfl
  cases o with
  | start t b n =>
    simp only [step] at hs
    split at hs
    · split at hs
      · cases hs; rfl
      · cases hs
    · cases hs
  | hit t =>
    simp only [step] at hs
    split at hs
    · split at hs
      · cases hs; exact issue_view _ _ _
      · cases hs
    · cases hs
  | miss t e =>
    simp only [step] at hs
    split at hs
    · split at hs
      · next hc =>
        cases hs
        funext p
        have := h.map p
        simp only [apply, view, upd]
        grind
      · cases hs
    · cases hs
  | cas t =>
    simp only [step] at hs
    split at hs
    · next T hT =>
      split at hs
      · next e he =>
        have hf := h.free t T e hT he
        have hst : (s.ent e).st = .loading := (h.loads e).mpr (by rw [hf.1]; simp)
        split at hs
        · cases hs
          funext p
          simp only [apply, view, upd]
          grind
        · cases hs
          funext p
          simp only [apply, view, upd]
          grind
      · cases hs
    · cases hs
  | finish t =>
    simp only [step] at hs
    split at hs
    · split at hs
      · cases hs; exact issue_view _ _ _
      · cases hs
    · cases hs
  | complete i =>
    simp only [step] at hs
    split at hs
    · next r hr =>
      cases hs
      have hload := load_eq s.disk r.start r.ents s.ent (fun k e hk => (h.map _ e (h.req i r hr k e hk).2).1)
      have hld : ∀ e ∈ r.ents, (s.ent e).st = .loading := by
        intro e he
        obtain ⟨k, hk⟩ := List.mem_iff_getElem?.mp he
        exact (h.loads e).mpr (by rw [(h.req i r hr k e hk).1]; simp)
      funext p
      simp only [apply, view]
      cases hl : s.lookup p with
      | none => rfl
      | some e =>
        have hm := h.map p e hl
        simp only [hload e]
        by_cases he : e ∈ r.ents
        · simp only [if_pos he, hld e he, hm.1]
        · simp only [if_neg he]
    · cases hs
  | evict e =>
    simp only [step] at hs
    split at hs
    · next hc =>
      cases hs
      have h1 := h.clean e hc
      have h2 := h.val e _ hc
      have h3 := h.map
      funext p
      simp only [apply, view, upd]
      grind
    · cases hs
  | modify p v =>
    simp only [step] at hs
    split at hs
    · next e he =>
      split at hs
      · next d hd =>
        cases hs
        have h3 := h.map
        funext q
        simp only [apply, view, upd]
        grind
      · cases hs
    · cases hs
  | writeback e =>
    simp only [step] at hs
    split at hs
    · next hc =>
      cases hs
      have h2 := h.val e _ hc
      have h3 := h.map
      funext p
      simp only [apply, view, upd]
      grind
    · cases hs

theorem own_run {N : Nat} {s s' : State} {own : Nat → Option Owner} (h : Own N s own) (l : List Op) (hr : run N s l = some s') :
    (∃ own', Own N s' own') ∧ view s' = l.foldl apply (view s) := by
  induction l generalizing s own with
  | nil => cases hr; exact ⟨⟨own, h⟩, rfl⟩
  | cons o l ih =>
    simp only [run] at hr
    cases hs : step N s o with
    | none => rw [hs] at hr; cases hr
    | some s1 =>
      rw [hs] at hr
      obtain ⟨own1, h1⟩ := own_step h o hs
      have := ih h1 hr
      rw [view_step h o hs] at this
      exact this

/-! ### What is claimed -/

/-- **C63** (1). Whatever threads read ahead, evict and write back, in any order: what a reader of a page gets changes with writes to that page only. -/
theorem prefetch_view (N : Nat) (d : Nat → Nat) (l : List Op) (s : State) (hr : run N (init d) l = some s) : view s = l.foldl apply d :=
  (own_run (Own.init N d) l hr).2

/-- **C63** (2). A read that is under way has at least one page and stays in one extent, which is what the device takes in one request. The page after the first by `k` goes to the entry that the table has for it, which is loading;
no other read writes to that entry, and no thread has it. -/
theorem prefetch_reads (N : Nat) (d : Nat → Nat) (l : List Op) (s : State) (hr : run N (init d) l = some s) (i : Nat) (r : Req) (hi : s.reqs i = some r) :
    r.ents ≠ [] ∧ r.start % N + r.ents.length ≤ N ∧
    ∀ (k e : Nat), r.ents[k]? = some e → s.lookup (r.start + k) = some e ∧ (s.ent e).st = .loading ∧ (s.ent e).page = r.start + k ∧
      (∀ (j : Nat) (q : Req) (m : Nat), s.reqs j = some q → q.ents[m]? = some e → j = i ∧ m = k) ∧
      ∀ t T, s.thr t = some T → e ∉ T.cur ∧ T.free ≠ some e := by
  obtain ⟨⟨own, h⟩, -⟩ := own_run (Own.init N d) l hr
  refine ⟨(h.rext i r hi).1, (h.rext i r hi).2, ?_⟩
  intro k e hk
  obtain ⟨h1, h2⟩ := h.req i r hi k e hk
  refine ⟨h2, (h.loads e).mpr (by rw [h1]; simp), (h.map _ e h2).1, ?_, ?_⟩
  · intro j q m hj hm
    obtain ⟨h3, h4⟩ := h.req j q hj m e hm
    rw [h1] at h3
    simp only [Option.some.injEq, Owner.req.injEq] at h3
    subst h3
    rw [hi] at hj
    simp only [Option.some.injEq] at hj
    subst hj
    have := (h.map _ e h2).1
    have := (h.map _ e h4).1
    exact ⟨rfl, by omega⟩
  · intro t T hT
    refine ⟨fun hm => ?_, fun hf => ?_⟩
    · obtain ⟨m, hm⟩ := List.mem_iff_getElem?.mp hm
      have := (h.cur t T hT m e hm).1
      rw [h1] at this
      cases this
    · have := (h.free t T e hT hf).1
      rw [h1] at this
      cases this

/-- **C63** (3). No entry is left loading for ever: one that is loading is in a read that is under way or with a thread that has not finished. -/
theorem prefetch_loading (N : Nat) (d : Nat → Nat) (l : List Op) (s : State) (hr : run N (init d) l = some s) (e : Nat) (he : (s.ent e).st = .loading) :
    (∃ i r, s.reqs i = some r ∧ e ∈ r.ents) ∨ ∃ t T, s.thr t = some T ∧ (e ∈ T.cur ∨ T.free = some e) := by
  obtain ⟨⟨own, h⟩, -⟩ := own_run (Own.init N d) l hr
  cases ho : own e with
  | none => exact absurd ho ((h.loads e).mp he)
  | some o =>
    cases o with
    | thr t => obtain ⟨T, hT, hm⟩ := h.othr e t ho; exact .inr ⟨t, T, hT, hm⟩
    | req i => obtain ⟨r, hr, hm⟩ := h.oreq e i ho; exact .inl ⟨i, r, hr, hm⟩

/-- **C63** (4). A read completes whatever else goes on, and then each of its pages is in the cache with the contents that the device has. -/
theorem prefetch_complete (N : Nat) (d : Nat → Nat) (l : List Op) (s : State) (hr : run N (init d) l = some s) (i : Nat) (r : Req) (hi : s.reqs i = some r) :
    ∃ s', step N s (.complete i) = some s' ∧ s'.reqs i = none ∧ s'.lookup = s.lookup ∧ s'.disk = s.disk ∧
      (∀ (k e : Nat), r.ents[k]? = some e → (s'.ent e).st = .valid false ∧ (s'.ent e).data = s.disk (r.start + k)) ∧ ∀ e, e ∉ r.ents → s'.ent e = s.ent e := by
  obtain ⟨⟨own, h⟩, -⟩ := own_run (Own.init N d) l hr
  have hload := load_eq s.disk r.start r.ents s.ent (fun k e hk => (h.map _ e (h.req i r hi k e hk).2).1)
  refine ⟨{ s with ent := load s.disk r.start r.ents s.ent, reqs := upd s.reqs i none }, by simp only [step, hi], by simp [upd], rfl, rfl, ?_, ?_⟩
  · intro k e hk
    have hp := (h.map _ e (h.req i r hi k e hk).2).1
    simp only [hload e, if_pos (List.mem_of_getElem? hk)]
    exact ⟨trivial, by rw [hp]⟩
  · intro e he
    simp only [hload e, if_neg he]

/-- Pages that a thread has gone past are in the table. -/
def Past (s : State) : Prop := ∀ t T, s.thr t = some T → ∀ j, j < T.off → s.lookup (T.base + j) ≠ none

theorem past_step {N : Nat} {s s' : State} (h : Past s) (o : Op) (ho : ∀ e, o ≠ .evict e) (hs : step N s o = some s') : Past s' ∧ ∀ p, s.lookup p ≠ none → s'.lookup p ≠ none := by
  have hil : ∀ T, (issue s T).lookup = s.lookup := fun T => by unfold issue; split <;> rfl
  have same : s'.lookup = s.lookup → s'.thr = s.thr → Past s' ∧ ∀ p, s.lookup p ≠ none → s'.lookup p ≠ none := fun h1 h2 => by
    unfold Past; rw [h1, h2]; exact ⟨h, fun _ h => h⟩
  have one : ∀ t X, s'.lookup = s.lookup → s'.thr = upd s.thr t X → (∀ Y, X = some Y → ∀ j, j < Y.off → s.lookup (Y.base + j) ≠ none) → Past s' ∧ ∀ p, s.lookup p ≠ none → s'.lookup p ≠ none := by
    intro t X h1 h2 hX
    unfold Past
    rw [h1, h2]
    refine ⟨fun t' T' hT' => ?_, fun _ h => h⟩
    unfold upd at hT'
    split at hT'
    · exact hX T' hT'
    · exact h t' T' hT'
  cases o with
  | evict e => exact absurd rfl (ho e)
  | start t b n =>
    simp only [step] at hs
    split at hs
    · split at hs
      · cases hs; exact one t _ rfl rfl (fun Y hY j hj => by cases hY; exact absurd hj (Nat.not_lt_zero _))
      · cases hs
    · cases hs
  | hit t =>
    simp only [step] at hs
    split at hs
    · next T hT =>
      split at hs
      · next hc =>
        cases hs
        refine one t _ (hil T) rfl (fun Y hY j hj => ?_)
        cases hY
        simp only at hj ⊢
        by_cases hjo : j = T.off
        · rw [hjo]; exact hc.2.2
        · exact h t T hT j (by omega)
      · cases hs
    · cases hs
  | miss t e =>
    simp only [step] at hs
    split at hs
    · next T hT =>
      split at hs
      · cases hs; exact one t _ rfl rfl (fun Y hY j hj => by cases hY; exact h t T hT j hj)
      · cases hs
    · cases hs
  | cas t =>
    simp only [step] at hs
    split at hs
    · next T hT =>
      split at hs
      · next e he =>
        split at hs
        · cases hs
          have mono : ∀ p, s.lookup p ≠ none → upd s.lookup (T.base + T.off) (some e) p ≠ none := by
            intro p hp
            unfold upd
            split
            · simp
            · exact hp
          refine ⟨?_, mono⟩
          intro t' T' hT' j hj
          simp only [upd] at hT'
          split at hT'
          · cases hT'
            simp only at hj ⊢
            by_cases hjo : j = T.off
            · simp [hjo, upd]
            · exact mono _ (h t T hT j (by omega))
          · exact mono _ (h t' T' hT' j hj)
        · cases hs; exact one t _ rfl rfl (fun Y hY j hj => by cases hY; exact h t T hT j hj)
      · cases hs
    · cases hs
  | finish t =>
    simp only [step] at hs
    split at hs
    · next T hT =>
      split at hs
      · cases hs; exact one t _ (hil T) rfl (fun Y hY => by cases hY)
      · cases hs
    · cases hs
  | complete i =>
    simp only [step] at hs
    split at hs
    · cases hs; exact same rfl rfl
    · cases hs
  | modify p v =>
    simp only [step] at hs
    split at hs
    · split at hs
      · cases hs; exact same rfl rfl
      · cases hs
    · cases hs
  | writeback e =>
    simp only [step] at hs
    split at hs
    · cases hs; exact same rfl rfl
    · cases hs

theorem past_run {N : Nat} {s s' : State} (h : Past s) (l : List Op) (ho : ∀ e, Op.evict e ∉ l) (hr : run N s l = some s') : Past s' := by
  induction l generalizing s with
  | nil => cases hr; exact h
  | cons o l ih =>
    simp only [run] at hr
    cases hs : step N s o with
    | none => rw [hs] at hr; cases hr
    | some s1 =>
      rw [hs] at hr
      exact ih (past_step h o (fun e he => ho e (by rw [he]; exact List.mem_cons_self)) hs).1 (fun e he => ho e (List.mem_cons_of_mem _ he)) hr

/-- **C63** (5). If nothing is evicted meanwhile, each page that was asked for is in the table when the call ends: cached, or being read. -/
theorem prefetch_covers (N : Nat) (d : Nat → Nat) (l : List Op) (s s' : State) (hr : run N (init d) l = some s) (ho : ∀ e, Op.evict e ∉ l) (t : Nat) (T : Thread) (hT : s.thr t = some T)
    (hs : step N s (.finish t) = some s') : ∀ j, j < T.n → s'.lookup (T.base + j) ≠ none := by
  have hp : Past s := past_run (fun t T h => by cases h) l ho hr
  have h2 := (past_step hp (.finish t) (fun e h => by cases h) hs).2
  have hoff : T.off = T.n := by
    simp only [step, hT] at hs
    split at hs
    · next h => exact h.1
    · cases hs
  intro j hj
  exact h2 _ (hp t T hT j (by omega))

/-! ### `clockcache_extent_sync` -/

/-- The pages of some writes, in order. -/
def pagesOf (l : List (Nat × Nat)) : List Nat := l.flatMap fun r => List.range' r.1 r.2

/-- The pages that were set to writeback: `l` from page `p` on. -/
def marked : Nat → List Bool → List Nat
  | _, [] => []
  | p, true :: l => p :: marked (p + 1) l
  | p, false :: l => marked (p + 1) l

theorem sync_pages_aux (p : Nat) (l : List Bool) (q c : Nat) (hq : c ≠ 0 → q + c = p) : pagesOf (sync p l q c) = List.range' q c ++ marked p l := by
  induction l generalizing p q c with
  | nil =>
    simp only [sync, marked]
    split
    · simp [pagesOf]
    · next h => have : c = 0 := by omega
                subst this; simp [pagesOf]
  | cons b l ih =>
    cases b with
    | true =>
      simp only [sync, marked]
      by_cases hc : c = 0
      · subst hc
        rw [if_pos rfl, ih _ _ _ (fun _ => rfl)]
        simp
      · rw [if_neg hc, ih _ _ _ (fun _ => by have := hq hc; omega)]
        rw [List.range'_1_concat, hq hc]
        simp
    | false =>
      simp only [sync, marked]
      split
      · next hc =>
        have := ih (p + 1) q 0 (fun h => absurd rfl h)
        simp only [pagesOf, List.flatMap_cons] at this ⊢
        rw [this]
        simp
      · next hc =>
        have : c = 0 := by omega
        subst this
        exact ih (p + 1) q 0 (fun h => absurd rfl h)

/-- **C64** (1). The writes have exactly the pages that were set to writeback, each one once and in its place. -/
theorem sync_pages (p : Nat) (l : List Bool) : pagesOf (sync p l 0 0) = marked p l := by
  simpa using sync_pages_aux p l 0 0 (fun h => absurd rfl h)

theorem sync_sizes (p : Nat) (l : List Bool) (q c : Nat) : ∀ r ∈ sync p l q c, 0 < r.2 ∧ r.2 ≤ c + l.length := by
  induction l generalizing p q c with
  | nil =>
    intro r hr
    simp only [sync] at hr
    split at hr
    · simp only [List.mem_singleton] at hr; subst hr; simp only [List.length_nil]; omega
    · cases hr
  | cons b l ih =>
    intro r hr
    cases b with
    | true =>
      simp only [sync] at hr
      have := ih _ _ _ r hr
      simp only [List.length_cons]
      omega
    | false =>
      simp only [sync] at hr
      simp only [List.length_cons]
      split at hr
      · rcases List.mem_cons.mp hr with rfl | hr
        · simp only; omega
        · have := ih _ _ _ r hr; omega
      · have := ih _ _ _ r hr; omega

theorem length_pagesOf (l : List (Nat × Nat)) : (pagesOf l).length = issued l := by
  induction l with
  | nil => rfl
  | cons r l ih =>
    simp only [pagesOf, issued, List.flatMap_cons, List.length_append, List.length_range', List.map_cons, List.sum_cons] at ih ⊢
    rw [ih]

/-- **C64** (2). The counter goes up by the number of pages that are being written. -/
theorem sync_issued (p : Nat) (l : List Bool) : issued (sync p l 0 0) = (marked p l).length := by
  rw [← length_pagesOf, sync_pages]

/-- The full statement: when all writes are done the counter is where it was. Refuted below. -/
def SyncCounts : Prop := ∀ (logPage p : Nat) (l : List Bool) (out : Nat), l.length < 2 ^ logPage → (sync p l 0 0).foldl (callback logPage) (out + issued (sync p l 0 0)) = out

/-- The callbacks never take anything off, as an extent has fewer pages than a page has bytes. -/
theorem sync_stuck (logPage p : Nat) (l : List Bool) (out : Nat) (h : l.length < 2 ^ logPage) : (sync p l 0 0).foldl (callback logPage) out = out := by
  have hs := sync_sizes p l 0 0
  generalize sync p l 0 0 = rs at hs
  induction rs generalizing out with
  | nil => rfl
  | cons r rs ih =>
    have h1 := hs r List.mem_cons_self
    have : callback logPage out r = out := by
      unfold callback
      rw [Nat.shiftRight_eq_div_pow, Nat.div_eq_of_lt (by omega)]
      rfl
    rw [List.foldl_cons, this]
    exact ih out (fun x hx => hs x (List.mem_cons_of_mem _ hx))

/-- **C64** (partial). The counter is right when nothing had to be written. The full statement is `SyncCounts`. -/
theorem sync_counts_partial (logPage p : Nat) (l : List Bool) (out : Nat) (h : l.length < 2 ^ logPage) (hn : ∀ b ∈ l, b = false) :
    (sync p l 0 0).foldl (callback logPage) (out + issued (sync p l 0 0)) = out := by
  rw [sync_stuck logPage p l _ h, sync_issued]
  have : ∀ p, marked p l = [] := by
    induction l with
    | nil => intro p; rfl
    | cons b l ih =>
      intro p
      rw [hn b List.mem_cons_self]
      exact ih (by simp only [List.length_cons] at h; omega) (fun x hx => hn x (List.mem_cons_of_mem _ hx)) (p + 1)
  rw [this p]
  rfl

theorem not_syncCounts : ¬ SyncCounts := by
  intro h
  have := h 12 0 [true] 0 (by decide)
  rw [sync_stuck 12 0 [true] _ (by decide)] at this
  revert this
  decide

/-! ### Examples -/

/-- Two threads read the same extent of four pages, of which page 5 is cached and changed. Thread 1 loses page 4 to thread 0, gets page 6 and loses page 7. -/
def exampleOps : List Op :=
  [.start 2 5 1, .miss 2 9, .cas 2, .finish 2, .complete 0, .modify 5 77,
   .start 0 4 4, .start 1 4 4, .miss 0 0, .miss 1 1, .cas 0, .cas 1, .hit 0, .hit 1, .hit 1, .miss 1 1, .cas 1, .hit 0, .miss 0 2, .cas 0,
   .miss 1 3, .cas 1, .hit 1, .finish 0, .finish 1, .complete 2, .complete 1, .complete 3]

def exampleAt (k : Nat) : Option State := run 4 (init fun p => p * 10) (exampleOps.take k)

/-- Page 4 is in a read under way, page 6 with thread 1, page 7 with thread 0. -/
example : (exampleAt 20).map (fun s => s.reqs 1) = some (some ⟨4, [0]⟩) := by decide +kernel

example : (exampleAt 20).map (fun s => [4, 5, 6, 7].map s.lookup) = some [some 0, some 9, some 1, some 2] := by decide +kernel

example : (exampleAt 20).map (fun s => [4, 5, 6, 7].map (view s)) = some [40, 77, 60, 70] := by decide +kernel

example : (exampleAt 20).map (fun s => (s.ent 1).st) = some .loading := by decide +kernel

/-- `prefetch_covers` applies to the end of either call. -/
example : (exampleAt 23).bind (step 4 · (.finish 0)) ≠ none := by
  have : ((exampleAt 23).bind (step 4 · (.finish 0))).isSome = true := by decide +kernel
  intro h
  rw [h] at this
  cases this

/-- In the end all four are cached, page 5 with the change. -/
example : (exampleAt 28).map (fun s => [0, 9, 1, 2].map s.ent) = some [⟨.valid false, 4, 40⟩, ⟨.valid true, 5, 77⟩, ⟨.valid false, 6, 60⟩, ⟨.valid false, 7, 70⟩] := by decide +kernel

example : sync 8 [true, true, false, true] 0 0 = [(8, 2), (11, 1)] := by decide

example : sync 8 [false, false] 0 0 = [] := by decide

end Splinter.Prefetch
