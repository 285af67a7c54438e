import Verif.Proof.Flush2
/-!
# C60: flushing and evicting the cache

`clockcache_flush` writes every dirty page that nobody has locked, once, to its own place on the device, in runs as long as the extent allows; flushing and evicting never change what
a reader of a page gets, and afterwards the device alone has everything.
-/
namespace Splinter.Flush

/-- What a reader of page `p` gets: the entry of the cache, or else the device. -/
def view (s : State) (p : Nat) : Nat := match s.lookup p with
  | some e => (s.entry e).data
  | none => s.dev p

/-- Entries marked clean have what the device has (C22). -/
def InSync (s : State) : Prop := ∀ e p, (s.entry e).page = some p → (s.entry e).st.clean = true → s.dev p = (s.entry e).data

/-- All mapped entries are in the array. -/
def Fits (P : Par) (s : State) : Prop := ∀ p e, s.lookup p = some e → e < P.cap * batchSize

/-- The page of `e` has changes that are not on the device, and nobody has locked it: its flags are none, or only "accessed". -/
def Dirty (s : State) (e : Nat) : Prop := (s.entry e).st = stCleanable1 ∨ (s.entry e).st = stCleanable2

/-- Nobody is loading, locking or writing a page. -/
def Idle (s : State) : Prop := ∀ e, (s.entry e).page ≠ none → Dirty s e ∨ (s.entry e).st = stEvictable ∨ (s.entry e).st = { stEvictable with accessed := true }

theorem can_dirty {s : State} {e : Nat} : can true s e ↔ Dirty s e := by simp [can, okToWriteback, Dirty]

theorem flush_eq (P : Par) (s : State) : flush P s = (List.range (P.cap * batchSize)).foldl (startOne P true) s := foldl_batches (startOne P true) P.cap s

theorem flush_rel {P : Par} (hppe : 0 < P.ppe) {s : State} (w : WF s) (hf : Fits P s) (h0 : s.reqs = []) :
    Rel P true s (flush P s) ∧ ∀ p, p ∈ written (flush P s) ↔ ∃ e, s.lookup p = some e ∧ Dirty s e := by
  rw [flush_eq]
  obtain ⟨r, h1, -⟩ := Rel.fold hppe w (List.range (P.cap * batchSize)) s (Rel.init h0)
  refine ⟨r, fun p => ⟨fun hp => ?_, ?_⟩⟩
  · obtain ⟨e, h2, h3⟩ := r.src p hp
    exact ⟨e, h2, can_dirty.mp h3⟩
  · rintro ⟨e, h2, h3⟩
    by_contra hn
    exact h1 e (List.mem_range.mpr (hf p e h2)) ((r.can_iff ((w.link e p).mpr h2)).mpr ⟨can_dirty.mpr h3, hn⟩)

/-- Every dirty page is written to its own place and marked clean; no other page of the device and no other entry changes. -/
theorem flush_writes {P : Par} (hppe : 0 < P.ppe) {s : State} (w : WF s) (hf : Fits P s) (h0 : s.reqs = []) :
    (∀ e p, (s.entry e).page = some p → Dirty s e → (flush P s).dev p = (s.entry e).data ∧ (flush P s).entry e = { s.entry e with st := { (s.entry e).st with clean := true } }) ∧
    (∀ e, ¬ Dirty s e → (flush P s).entry e = s.entry e) ∧
    (∀ p, (∀ e, s.lookup p = some e → ¬ Dirty s e) → (flush P s).dev p = s.dev p) ∧
    (flush P s).lookup = s.lookup := by
  obtain ⟨r, hw⟩ := flush_rel hppe w hf h0
  refine ⟨fun e p hp hd => ?_, fun e hd => ?_, fun p hp => ?_, r.lookup⟩
  · have hl := (w.link e p).mp hp
    have hm := (hw p).mpr ⟨e, hl, hd⟩
    refine ⟨?_, ?_⟩
    · rw [r.dev p, if_pos hm, hl]; rfl
    · rw [r.ent e, if_pos ⟨p, hm, hp⟩]; rfl
  · rw [r.ent e, if_neg]
    rintro ⟨p, hp, hp'⟩
    obtain ⟨e', h1, h2⟩ := (hw p).mp hp
    have := (w.link e p).mp hp'
    rw [h1] at this
    cases this
    exact hd h2
  · rw [r.dev p, if_neg]
    intro hm
    obtain ⟨e, h1, h2⟩ := (hw p).mp hm
    exact hp e h1 h2

/-- The writes are for exactly the dirty pages, each once. Each is for consecutive pages of one extent, no more than an extent has, with the entry of each page in its place. -/
theorem flush_requests {P : Par} (hppe : 0 < P.ppe) {s : State} (w : WF s) (hf : Fits P s) (h0 : s.reqs = []) :
    (written (flush P s)).Nodup ∧ (∀ p, p ∈ written (flush P s) ↔ ∃ e, s.lookup p = some e ∧ Dirty s e) ∧
    ∀ r ∈ (flush P s).reqs, 0 < r.iov.length ∧ r.iov.length ≤ P.ppe ∧ (∀ i < r.iov.length, r.iov[i]? = some (s.lookup (r.first + i)) ∧ (r.first + i) / P.ppe = r.first / P.ppe) := by
  obtain ⟨r, hw⟩ := flush_rel hppe w hf h0
  refine ⟨r.nodup, hw, fun q hq => ?_⟩
  have g := r.good q hq
  have hext : ∀ i < q.iov.length, (q.first + i) / P.ppe = q.first / P.ppe := by
    intro i hi
    exact g.ext _ (by simp only [Req.pages, List.mem_range'_1]; omega)
  refine ⟨g.pos, ?_, fun i hi => ⟨?_, hext i hi⟩⟩
  · by_contra hlt
    have h1 := hext P.ppe (by omega)
    rw [Nat.add_div_right _ hppe] at h1
    omega
  · rw [g.iov]
    simp [Req.pages, hi]

/-- The runs are as long as possible: the pages before and after a write are in another extent, or not in the cache, or not dirty. -/
theorem flush_runs_maximal {P : Par} (hppe : 0 < P.ppe) {s : State} (w : WF s) (hf : Fits P s) (h0 : s.reqs = []) {r : Req} (hr : r ∈ (flush P s).reqs) (q : Nat)
    (hq : q + 1 = r.first ∨ q = r.first + r.iov.length) (hext : q / P.ppe = r.first / P.ppe) : ∀ e, s.lookup q = some e → ¬ Dirty s e := by
  have g := (flush_rel hppe w hf h0).1.good r hr
  intro e he hd
  have bad : ¬ Bound P true s (r.first / P.ppe) q := by
    rintro (h | h | ⟨e', h, h'⟩)
    · exact h hext
    · rw [he] at h; cases h
    · rw [he] at h; cases h; exact h' (can_dirty.mpr hd)
  rcases hq with hq | hq
  · rcases g.lo with h | h
    · omega
    · rw [show r.first - 1 = q by omega] at h; exact bad h
  · exact bad (hq ▸ g.hi)

theorem flush_insync {P : Par} (hppe : 0 < P.ppe) {s : State} (w : WF s) (hf : Fits P s) (h0 : s.reqs = []) (hs : InSync s) : InSync (flush P s) := by
  obtain ⟨r, hw⟩ := flush_rel hppe w hf h0
  obtain ⟨f1, f2, f3, -⟩ := flush_writes hppe w hf h0
  intro e p hp hc
  rw [r.page] at hp
  rw [r.data]
  by_cases hd : Dirty s e
  · exact (f1 e p hp hd).1
  · rw [f2 e hd] at hc
    rw [f3 p fun e' he => ?_]
    · exact hs e p hp hc
    · rw [(w.link e p).mp hp] at he
      cases he
      exact hd

/-- Flushing does not change what readers get. -/
theorem flush_view {P : Par} (hppe : 0 < P.ppe) {s : State} (w : WF s) (hf : Fits P s) (h0 : s.reqs = []) (p : Nat) : view (flush P s) p = view s p := by
  obtain ⟨r, hw⟩ := flush_rel hppe w hf h0
  unfold view
  rw [r.lookup]
  cases hl : s.lookup p with
  | some e => exact r.data e
  | none =>
    simp only
    exact (flush_writes hppe w hf h0).2.2.1 p (fun e he => by rw [hl] at he; cases he)

/-- After a flush of an idle cache every entry is free or clean, and the device has what a reader gets. -/
theorem flush_saves {P : Par} (hppe : 0 < P.ppe) {s : State} (w : WF s) (hf : Fits P s) (h0 : s.reqs = []) (hi : Idle s) (hs : InSync s) :
    (∀ e, ((flush P s).entry e).st.free = true ∨ ((flush P s).entry e).st.clean = true) ∧ ∀ p, (flush P s).dev p = view s p := by
  obtain ⟨r, hw⟩ := flush_rel hppe w hf h0
  obtain ⟨f1, f2, f3, -⟩ := flush_writes hppe w hf h0
  have hcl : ∀ e, (s.entry e).page ≠ none → ((flush P s).entry e).st.clean = true := by
    intro e hp
    obtain ⟨p, hp⟩ := Option.ne_none_iff_exists'.mp hp
    by_cases hd : Dirty s e
    · rw [(f1 e p hp hd).2]
    · rw [f2 e hd]
      rcases hi e (by rw [hp]; simp) with h | h | h
      · exact absurd h hd
      · rw [h]; rfl
      · rw [h]; rfl
  constructor
  · intro e
    cases hp : (s.entry e).page with
    | none =>
      left
      exact (r.wf w).mapped e (by rw [r.page]; exact hp)
    | some p => exact .inr (hcl e (by rw [hp]; simp))
  · intro p
    unfold view
    cases hl : s.lookup p with
    | none => exact f3 p (fun e he => by rw [hl] at he; cases he)
    | some e =>
      have hp := (w.link e p).mpr hl
      have := flush_insync hppe w hf h0 hs e p (by rw [r.page]; exact hp) (hcl e (by rw [hp]; simp))
      rw [this, r.data]

/-- The cleaner's pass over one batch: it writes the pages of the batch that are dirty and not recently accessed, and beyond the batch only such pages; each once. An accessed page is written only by a flush.
Readers see no change. -/
theorem batch_writes {P : Par} (hppe : 0 < P.ppe) {s : State} (w : WF s) (h0 : s.reqs = []) (b : Nat) :
    (written (startBatch P false s b)).Nodup ∧
    (∀ p ∈ written (startBatch P false s b), ∃ e, s.lookup p = some e ∧ (s.entry e).st = stCleanable1 ∧ (startBatch P false s b).dev p = (s.entry e).data) ∧
    (∀ e p, b * batchSize ≤ e → e < (b + 1) * batchSize → s.lookup p = some e → (s.entry e).st = stCleanable1 → p ∈ written (startBatch P false s b)) ∧
    ∀ p, view (startBatch P false s b) p = view s p := by
  have hcan : ∀ t e, can false t e ↔ (t.entry e).st = stCleanable1 := fun t e => by simp [can, okToWriteback]
  obtain ⟨r, h1, -⟩ := Rel.fold hppe w (u := false) (List.range' (b * batchSize) batchSize) s (Rel.init h0)
  change Rel P false s (startBatch P false s b) at r
  refine ⟨r.nodup, fun p hp => ?_, fun e p ha hb hl hd => ?_, fun p => ?_⟩
  · obtain ⟨e, h2, h3⟩ := r.src p hp
    refine ⟨e, h2, (hcan s e).mp h3, ?_⟩
    rw [r.dev p, if_pos hp, h2]
    rfl
  · by_contra hn
    refine h1 e (List.mem_range'_1.mpr ⟨ha, by rw [Nat.add_mul] at hb; omega⟩) ((r.can_iff ((w.link e p).mpr hl)).mpr ⟨(hcan s e).mpr hd, hn⟩)
  · unfold view
    rw [r.lookup]
    cases hl : s.lookup p with
    | some e => exact r.data e
    | none =>
      simp only
      rw [r.dev p, if_neg]
      intro hp
      obtain ⟨e, h2, -⟩ := r.src p hp
      rw [hl] at h2
      cases h2

/-! ### Eviction -/

theorem tryEvict_insync {s : State} (hs : InSync s) (e : Nat) : InSync (tryEvict s e) := by
  intro j p hp hc
  rw [tryEvict_dev]
  by_cases hj : j = e
  · subst hj
    rw [tryEvict_self] at hp hc ⊢
    split at hp
    · cases hp
    · next he => rw [if_neg he] at hc ⊢; exact hs j p hp hc
  · rw [tryEvict_other s hj] at hp hc ⊢
    exact hs j p hp hc

theorem tryEvict_view {s : State} (w : WF s) (hs : InSync s) (e p : Nat) : view (tryEvict s e) p = view s p := by
  unfold view
  rw [tryEvict_lookup, tryEvict_dev]
  by_cases h : Evictable (s.entry e) ∧ (s.entry e).page = some p
  · rw [if_pos h, (w.link e p).mp h.2]
    exact hs e p h.2 (by rw [h.1.1]; rfl)
  · rw [if_neg h]
    cases hl : s.lookup p with
    | none => rfl
    | some j =>
      simp only
      by_cases hj : j = e
      · subst hj
        rw [tryEvict_self]
        split <;> rfl
      · rw [tryEvict_other s hj]

/-- What one look at an entry does to it. -/
def look (x : Entry) : Entry := if Evictable x then { x with page := none, st := stFree } else { x with st := unaccess x.st }

theorem fold_evict : ∀ (L : List Nat), L.Nodup → ∀ s : State, WF s → WF (L.foldl tryEvict s) ∧ (L.foldl tryEvict s).dev = s.dev ∧
    (∀ e, (L.foldl tryEvict s).entry e = if e ∈ L then look (s.entry e) else s.entry e) ∧
    (InSync s → InSync (L.foldl tryEvict s) ∧ ∀ p, view (L.foldl tryEvict s) p = view s p) := by
  intro L
  induction L with
  | nil => intro _ s w; exact ⟨w, rfl, by simp, fun h => ⟨h, fun _ => rfl⟩⟩
  | cons a L ih =>
    intro hn s w
    obtain ⟨hn1, hn2⟩ := List.nodup_cons.mp hn
    obtain ⟨h1, h2, h3, h4⟩ := ih hn2 (tryEvict s a) (w.tryEvict a)
    refine ⟨h1, by rw [List.foldl_cons, h2, tryEvict_dev], ?_, ?_⟩
    · intro e
      rw [List.foldl_cons, h3 e]
      by_cases he : e = a
      · subst he
        rw [if_neg hn1, if_pos (List.mem_cons_self ..), tryEvict_self]
        rfl
      · rw [tryEvict_other s he]
        simp [he]
    · intro hs
      obtain ⟨h5, h6⟩ := h4 (tryEvict_insync hs a)
      exact ⟨h5, fun p => by rw [List.foldl_cons, h6 p, tryEvict_view w hs]⟩

theorem evictAll_spec (P : Par) {s : State} (w : WF s) : WF (evictAll P s) ∧ (evictAll P s).dev = s.dev ∧
    (∀ e, (evictAll P s).entry e = if e < P.cap * batchSize then look (look (s.entry e)) else s.entry e) ∧
    (InSync s → InSync (evictAll P s) ∧ ∀ p, view (evictAll P s) p = view s p) := by
  unfold evictAll
  induction P.cap with
  | zero => exact ⟨w, rfl, by simp, fun h => ⟨h, fun _ => rfl⟩⟩
  | succ n ih =>
    rw [List.range_succ, List.foldl_append, List.foldl_cons, List.foldl_nil]
    generalize (List.range n).foldl (fun s b => evictBatch (evictBatch s b) b) s = t at ih ⊢
    obtain ⟨w1, d1, e1, v1⟩ := ih
    have hn : (List.range' (n * batchSize) batchSize).Nodup := List.nodup_range'
    obtain ⟨w2, d2, e2, v2⟩ := fold_evict _ hn t w1
    obtain ⟨w3, d3, e3, v3⟩ := fold_evict _ hn _ w2
    refine ⟨w3, d3.trans (d2.trans d1), ?_, ?_⟩
    · intro e
      simp only [evictBatch]
      rw [e3 e, e2 e, e1 e]
      simp only [List.mem_range'_1, Nat.add_mul, Nat.one_mul]
      by_cases ha : e < n * batchSize
      · rw [if_pos ha, if_neg (by omega), if_neg (by omega), if_pos (by omega)]
      · by_cases hb : e < n * batchSize + batchSize
        · rw [if_neg ha, if_pos (by omega), if_pos (by omega), if_pos (by omega)]
        · rw [if_neg ha, if_neg (by omega), if_neg (by omega), if_neg (by omega)]
    · intro hs
      obtain ⟨i1, j1⟩ := v1 hs
      obtain ⟨i2, j2⟩ := v2 i1
      obtain ⟨i3, j3⟩ := v3 i2
      exact ⟨i3, fun p => (j3 p).trans ((j2 p).trans (j1 p))⟩

/-- Evicting does not change the device, nor what readers get, in any state of the locks. -/
theorem evict_view (P : Par) {s : State} (w : WF s) (hs : InSync s) (p : Nat) : view (evictAll P s) p = view s p ∧ (evictAll P s).dev = s.dev :=
  ⟨((evictAll_spec P w).2.2.2 hs).2 p, (evictAll_spec P w).2.1⟩

/-- A page that is read, pinned, dirty or locked stays in its entry. -/
theorem evict_keeps (P : Par) {s : State} (w : WF s) (e : Nat) (h : (s.entry e).ref ≠ 0 ∨ (s.entry e).pin ≠ 0 ∨ { (s.entry e).st with accessed := false } ≠ stEvictable) :
    ((evictAll P s).entry e).page = (s.entry e).page ∧ ((evictAll P s).entry e).data = (s.entry e).data := by
  rw [(evictAll_spec P w).2.2.1 e]
  split
  · have hne : ¬ Evictable (s.entry e) := by
      rintro ⟨h1, h2, h3⟩
      rcases h with h | h | h
      · exact h h2
      · exact h h3
      · exact h (by rw [h1]; rfl)
    have hl : look (s.entry e) = { s.entry e with st := unaccess (s.entry e).st } := if_neg hne
    have hne2 : ¬ Evictable (look (s.entry e)) := by
      rw [hl]
      rintro ⟨h1, h2, h3⟩
      rcases h with h | h | h
      · exact h h2
      · exact h h3
      · exact h h1
    have hl2 : look (look (s.entry e)) = { look (s.entry e) with st := unaccess (look (s.entry e)).st } := if_neg hne2
    rw [hl2, hl]
    exact ⟨rfl, rfl⟩
  · exact ⟨rfl, rfl⟩

/-- After flushing and evicting an idle cache without readers and pins the cache is empty and the device has everything. -/
theorem flush_evict_empty {P : Par} (hppe : 0 < P.ppe) {s : State} (w : WF s) (hf : Fits P s) (h0 : s.reqs = []) (hi : Idle s) (hs : InSync s)
    (href : ∀ e, (s.entry e).ref = 0 ∧ (s.entry e).pin = 0) :
    (∀ p, (evictAll P (flush P s)).lookup p = none) ∧ ∀ p, (evictAll P (flush P s)).dev p = view s p := by
  obtain ⟨r, hw⟩ := flush_rel hppe w hf h0
  obtain ⟨f1, f2, f3, -⟩ := flush_writes hppe w hf h0
  obtain ⟨w', d', e', -⟩ := evictAll_spec P (r.wf w)
  refine ⟨fun p => ?_, fun p => by rw [d']; exact (flush_saves hppe w hf h0 hi hs).2 p⟩
  by_contra hne
  obtain ⟨e, he⟩ := Option.ne_none_iff_exists'.mp hne
  have hp := (w'.link e p).mpr he
  rw [e'] at hp
  have hst : ∀ x : Entry, x.ref = 0 → x.pin = 0 → (x.st = stEvictable ∨ x.st = { stEvictable with accessed := true }) → (look (look x)).page = none := by
    intro x h1 h2 h3
    rcases h3 with h3 | h3
    · have : look x = { x with page := none, st := stFree } := if_pos ⟨h3, h1, h2⟩
      rw [this]
      unfold look
      split <;> rfl
    · have hne : ¬ Evictable x := fun h => by have := h.1; rw [h3] at this; cases this
      have : look x = { x with st := unaccess x.st } := if_neg hne
      rw [this, h3]
      have : Evictable { x with st := unaccess { stEvictable with accessed := true } } := ⟨rfl, h1, h2⟩
      unfold look
      rw [if_pos this]
  have hpage : ∀ q, (s.entry e).page = some q → ((flush P s).entry e).ref = 0 ∧ ((flush P s).entry e).pin = 0 ∧
      (((flush P s).entry e).st = stEvictable ∨ ((flush P s).entry e).st = { stEvictable with accessed := true }) := by
    intro q hq
    by_cases hd : Dirty s e
    · rw [(f1 e q hq hd).2]
      refine ⟨(href e).1, (href e).2, ?_⟩
      rcases hd with h | h
      · left; rw [h]; rfl
      · right; rw [h]; rfl
    · rw [f2 e hd]
      refine ⟨(href e).1, (href e).2, ?_⟩
      rcases hi e (by rw [hq]; simp) with h | h | h
      · exact absurd h hd
      · exact .inl h
      · exact .inr h
  have hpages : ∀ x : Entry, x.page = none → (look (look x)).page = none := by
    have h1 : ∀ x : Entry, x.page = none → (look x).page = none := by
      intro x hx
      unfold look
      split
      · rfl
      · exact hx
    exact fun x hx => h1 _ (h1 x hx)
  cases hq : (s.entry e).page with
  | none =>
    have h1 : ((flush P s).entry e).page = none := by rw [r.page]; exact hq
    split at hp
    · rw [hpages _ h1] at hp; cases hp
    · rw [h1] at hp; cases hp
  | some q =>
    obtain ⟨h1, h2, h3⟩ := hpage q hq
    rw [if_pos (hf q e ((w.link e q).mp hq))] at hp
    rw [hst _ h1 h2 h3] at hp
    cases hp

/-! ### Examples -/

/-- One batch of entries, extents of four pages. Pages 4, 5 and 6 are in entries 2, 0 and 1; page 6 is accessed, page 9 in entry 3 is clean. -/
def par : Par := ⟨1, 4⟩

def ex : State :=
  { entry := fun e => match e with
      | 0 => ⟨some 5, 50, stCleanable1, 0, 0⟩
      | 1 => ⟨some 6, 60, stCleanable2, 0, 0⟩
      | 2 => ⟨some 4, 40, stCleanable1, 0, 0⟩
      | 3 => ⟨some 9, 90, { stEvictable with accessed := true }, 0, 0⟩
      | _ => ⟨none, 0, stFree, 0, 0⟩
    lookup := fun p => match p with
      | 5 => some 0
      | 6 => some 1
      | 4 => some 2
      | 9 => some 3
      | _ => none
    dev := fun p => if p = 9 then 90 else p
    reqs := [] }

theorem ex_wf : WF ex := by
  refine ⟨fun e p => ?_, fun e he => ?_⟩
  · unfold ex
    dsimp only
    split <;> split <;> simp_all <;> omega
  · unfold ex at he ⊢
    dsimp only at he ⊢
    split <;> simp_all [stFree]

theorem ex_fits : Fits par ex := by
  intro p e h
  unfold ex at h
  dsimp only at h
  split at h <;> cases h <;> decide

theorem ex_idle : Idle ex := by
  intro e he
  unfold ex Dirty at *
  dsimp only at he ⊢
  split <;> simp_all

theorem ex_insync : InSync ex := by
  intro e p hp hc
  unfold ex at *
  dsimp only at hp hc ⊢
  split at hp <;> simp_all [stCleanable1, stCleanable2]

/-- The three dirty pages are one write, with the entries in the order of the pages; page 9 is not written. -/
example : (flush par ex).reqs = [⟨4, [some 2, some 0, some 1]⟩] ∧ (flush par ex).dev 6 = 60 := ⟨by decide +kernel, by decide +kernel⟩

/-- The cleaner leaves the accessed page 6. -/
example : (startBatch par false ex 0).reqs = [⟨4, [some 2, some 0]⟩] := by decide +kernel

example : (∀ p, (evictAll par (flush par ex)).lookup p = none) ∧ ∀ p, (evictAll par (flush par ex)).dev p = view ex p :=
  flush_evict_empty (by decide) ex_wf ex_fits rfl ex_idle ex_insync (fun e => by unfold ex; dsimp only; split <;> exact ⟨rfl, rfl⟩)

example : (evictAll par (flush par ex)).lookup 9 = none ∧ (evictAll par (flush par ex)).dev 5 = 50 := ⟨by decide +kernel, by decide +kernel⟩

/-- With page 5 claimed the flush is silent about it: pages 4 and 6 are written in two pieces, page 5 stays dirty and the device keeps the old contents. -/
def exClaimed : State := ex.setSt 0 { stCleanable1 with claimed := true }

theorem flush_skips_claimed : (flush par exClaimed).reqs = [⟨6, [some 1]⟩, ⟨4, [some 2]⟩] ∧ (flush par exClaimed).dev 5 = 5 ∧ view exClaimed 5 = 50 ∧
    ((flush par exClaimed).entry 0).st.clean = false := ⟨by decide +kernel, by decide +kernel, rfl, by decide +kernel⟩

end Splinter.Flush
