import Verif.Proof.CacheRun

/-!
# C21, C22: the page cache

`Model/Cache.lean` describes `src/clockcache.c`: any number of agents get, claim, lock, write, allocate, discard,
prefetch, evict and write back pages, each step being one access to shared memory. What a client may do with a page
is said here without reference to the invariant of the proof: `Holds`, `Writes`, `WritesBack`.
-/
namespace Splinter.Cache

/-- A client has read access to page `a`, which is in entry `e`: between `clockcache_get` and `clockcache_unget`,
also while it waits in `clockcache_lock`. -/
def Holds (p : PC) (a e : Nat) : Prop :=
  p = .rd a e ∨ p = .cl a e ∨ (∃ m, p = .wr a e m) ∨ p = .wSet (.get a) e ∨ p = .wWb (.get a) e ∨ ∃ k, p = .wRef (.get a) e k

/-- A client has write access: between `clockcache_lock` or `clockcache_alloc` and `clockcache_unlock`. -/
def Writes (p : PC) (a e : Nat) : Prop := ∃ m, p = .wr a e m

/-- The entry is being written to the device. -/
def WritesBack (p : PC) (a e : Nat) : Prop := p = .wbIov a e ∨ p = .wbIo a e ∨ p = .wbCln a e

/-- The entry is being filled from the device. -/
def Fills (p : PC) (a e : Nat) : Prop := p = .gRead a e ∨ p = .pRead a e ∨ p = .gClr a e ∨ p = .pClr a e

/-- The entry is being taken away from its page, or belongs to no page. -/
def Frees (p : PC) (e : Nat) : Prop :=
  (∃ a, p = .eLk e a) ∨ (∃ a, p = .eAd e a) ∨ p = .eFr e ∨ (∃ a, p = .dLk a e) ∨ (∃ a, p = .dAd a e) ∨ (∃ a, p = .dFr a e) ∨
  (∃ m a, p = .aInc m a e) ∨ (∃ m a, p = .aStat m a e)

theorem holds_mp {p a e} (h : Holds p a e) : mp p = some (a, e) := by
  rcases h with rfl | rfl | ⟨m, rfl⟩ | rfl | rfl | ⟨k, rfl⟩ <;> rfl

theorem holds_nl {p a e} (h : Holds p a e) : nl p = some e := by
  rcases h with rfl | rfl | ⟨m, rfl⟩ | rfl | rfl | ⟨k, rfl⟩ <;> rfl

theorem holds_cases {p a e} (h : Holds p a e) : clm p = some e ∨ pas p = some (a, e) := by
  rcases h with rfl | rfl | ⟨m, rfl⟩ | rfl | rfl | ⟨k, rfl⟩ <;> simp [clm, pas]

/-- C21. While one client has write access to a page, no other client has read or write access to it, in whatever
entry of the cache, and none has access to another page in the same entry. -/
theorem C21_exclusive_partial {P : Par} {s : State} (hP : P.ok = true) (h : Reachable P s) {i j a b e e' : Nat} (hij : i ≠ j)
    (hi : Writes (s.pc i) a e) (hj : Holds (s.pc j) b e') : b ≠ a ∧ e' ≠ e := by
  have hv := inv_reachable hP h
  obtain ⟨m, hi⟩ := hi
  have h1 := (hv.loc i).mp a e (by rw [hi]; rfl)
  have h2 := (hv.loc j).mp b e' (holds_mp hj)
  have hp := hv.pair i j hij
  have key : ¬ (b = a ∧ e' = e) := by
    rintro ⟨rfl, rfl⟩
    rcases holds_cases hj with x | x
    · exact hp.clm _ (by rw [hi]; rfl) x
    · exact hp.x3 _ _ m hi x
  refine ⟨?_, ?_⟩
  · rintro rfl; rw [h1.2] at h2; exact key ⟨rfl, (Option.some.inj h2.2).symm⟩
  · rintro rfl; rw [h1.1] at h2; exact key ⟨(Option.some.inj h2.1).symm, rfl⟩

/-- Two clients that have access to the same page use the same entry. -/
theorem C21_one_copy_partial {P : Par} {s : State} (hP : P.ok = true) (h : Reachable P s) {i j a e e' : Nat}
    (hi : Holds (s.pc i) a e) (hj : Holds (s.pc j) a e') : e = e' := by
  have hv := inv_reachable hP h
  have h1 := (hv.loc i).mp a e (holds_mp hi)
  have h2 := (hv.loc j).mp a e' (holds_mp hj)
  rw [h1.2] at h2; exact Option.some.inj h2.2

/-- No entry is filled from the device, evicted, discarded or allocated while a client has access to it. -/
theorem C21_pinned_partial {P : Par} {s : State} (hP : P.ok = true) (h : Reachable P s) {i j a b e : Nat} (hij : i ≠ j)
    (hi : Holds (s.pc i) a e) : ¬ Fills (s.pc j) b e ∧ ¬ Frees (s.pc j) e := by
  have hv := inv_reachable hP h
  have h1 := (hv.loc i).mp a e (holds_mp hi)
  have hn := (hv.loc i).nl e (holds_nl hi)
  have hp := hv.pair j i (Ne.symm hij)
  refine ⟨?_, ?_⟩
  · intro hj
    have : ldr (s.pc j) = some (b, e) := by rcases hj with x | x | x | x <;> rw [x] <;> rfl
    have := (hv.loc j).ldr _ _ this
    simp_all
  · intro hj
    have hc : clm (s.pc j) = some e ∧ (exF (s.pc j) = some e ∨ um (s.pc j) = some e) := by
      rcases hj with ⟨c, x⟩ | ⟨c, x⟩ | x | ⟨c, x⟩ | ⟨c, x⟩ | ⟨c, x⟩ | ⟨m, c, x⟩ | ⟨m, c, x⟩ <;> rw [x] <;> simp [clm, exF, um]
    rcases holds_cases hi with x | x
    · exact hp.clm e hc.1 x
    · rcases hc.2 with y | y
      · exact hp.x2 e a y x
      · exact (hv.loc j).um e y a h1.2

/-- No page is written to the device while a client may change it: no torn writes. -/
theorem no_torn_write {P : Par} {s : State} (hP : P.ok = true) (h : Reachable P s) {i j a b e : Nat}
    (hi : Writes (s.pc i) a e) : ¬ WritesBack (s.pc j) b e := by
  have hv := inv_reachable hP h
  obtain ⟨m, hi⟩ := hi
  have h1 := (hv.loc i).nowb e (by rw [hi]; rfl)
  intro hj
  have : wbo (s.pc j) = some e := by rcases hj with x | x | x <;> rw [x] <;> rfl
  have := (hv.loc j).wbo e this
  simp_all

/-- The cache never uses an unmapped entry or address as an index. -/
theorem no_crash {P : Par} {s : State} (hP : P.ok = true) (h : Reachable P s) (i : Nat) : s.pc i ≠ .crash :=
  ((inv_reachable hP h).loc i).nc

/-! ### C22 -/

/-- Steps between two states in which nobody writes to page `a`, completes its allocation or discards it. -/
inductive Quiet (P : Par) (a : Nat) : State → State → Prop where
  | refl (s) : Quiet P a s s
  | step {s s1 s2 t} : Quiet P a s s1 → t < P.n → Step P s1 t s2 → (∀ e m, s1.pc t ≠ .wr a e m) →
      (∀ e, s1.pc t ≠ .lLk a e) → (∀ e, s1.pc t ≠ .dLk a e) → Quiet P a s s2

theorem Quiet.reachable {P a s s'} (h : Quiet P a s s') (hr : Reachable P s) : Reachable P s' := by
  induction h with
  | refl => exact hr
  | step _ ht st _ _ _ ih => exact .step ih ht st

theorem Quiet.cur {P a s s'} (h : Quiet P a s s') : s'.cur a = s.cur a := by
  induction h with
  | refl => rfl
  | step _ ht st h1 h2 h3 ih =>
    rw [← ih]
    cases st <;> first | rfl | skip
    · rename_i b e m v hp
      refine upd_ne _ _ ?_
      rintro rfl; exact h1 e m hp
    · rename_i b e hp
      refine upd_ne _ _ ?_
      rintro rfl; exact h3 e hp
    · rename_i b e hp
      refine upd_ne _ _ ?_
      rintro rfl; exact h2 e hp

theorem holds_data {P : Par} {s : State} (hP : P.ok = true) (h : Reachable P s) {i a e : Nat} (hi : Holds (s.pc i) a e) :
    (s.ent e).data = s.cur a := by
  have hv := inv_reachable hP h
  have h1 := (hv.loc i).mp a e (holds_mp hi)
  exact hv.glob.d1 e a h1.1 h1.2 ((hv.loc i).nl e (holds_nl hi))

/-- C22. A client that has write access to page `a` changes it, leaving it with contents `v`. Whoever has access to the
page later, in whatever entry, after any eviction and write-back, finds `v`, as long as nobody else has written to it
or discarded it. -/
theorem C22_read_after_write_partial {P : Par} {s0 s1 s2 : State} (hP : P.ok = true) (h : Reachable P s0)
    {t a e v i e' : Nat} (ht : t < P.n) (hw : Writes (s0.pc t) a e) (st : Step P s0 t s1) (hv : (s1.ent e).data = v)
    (hq : Quiet P a s1 s2) (hi : Holds (s2.pc i) a e') : (s2.ent e').data = v := by
  obtain ⟨m, hw⟩ := hw
  have hr := Reachable.step h ht st
  rw [holds_data hP (hq.reachable hr) hi, hq.cur]
  have hh : Holds (s1.pc t) a e := by
    cases st <;> simp_all [Holds, upd]
  rw [← holds_data hP hr hh, hv]

/-- C22. A page that nobody has written is read as it is on the device. -/
theorem C22_read_device_partial {P : Par} {s0 s : State} (hP : P.ok = true) (h : Init s0) {a i e : Nat}
    (hq : Quiet P a s0 s) (hi : Holds (s.pc i) a e) : (s.ent e).data = s0.disk a := by
  rw [holds_data hP (hq.reachable (.init h)) hi, hq.cur, h.cur]

/-- What was written last to a page that is not in the cache is on the device. -/
theorem evicted_on_device {P : Par} {s : State} (hP : P.ok = true) (h : Reachable P s) {a : Nat} (hl : s.look a = none) :
    s.disk a = s.cur a := by
  rcases (inv_reachable hP h).glob.d2 a with x | ⟨e, x, _⟩
  · exact x
  · simp [hl] at x

/-- What was written last to a page that is marked clean is on the device, unless a client still has it locked. -/
theorem clean_on_device {P : Par} {s : State} (hP : P.ok = true) (h : Reachable P s) {a e : Nat} (hl : s.look a = some e)
    (hc : (s.ent e).clean = true) (hn : ∀ i, ¬ Writes (s.pc i) a e) : s.disk a = s.cur a := by
  rcases (inv_reachable hP h).glob.d2 a with x | ⟨e', x1, _, _, x4⟩
  · exact x
  · rw [hl] at x1; cases x1
    rcases x4 with y | ⟨i, y⟩
    · simp [hc] at y
    · exact absurd ⟨_, y⟩ (hn i)

/-! ### Concrete executions -/

def okPar : Par := { n := 3, tid := id, bat := id, ok := true }
def racyPar : Par := { n := 3, tid := id, bat := id, ok := false }

def asyncRun : List (Nat × Act) :=
  [(0, .acquire 0), (0, .get 5), (0, .gMiss 5 .get), (0, .take .get 5 0), (0, .aInc .get 5 0),
   (0, .aStat .get 5 0), (0, .gCas 5 0), (0, .gSet 5 0), (1, .get 5), (1, .gHit 5 0), (1, .rTest (.get 5) 0),
   (1, .rInc (.get 5) 0), (1, .rFree (.get 5) 0), (1, .rPass (.get 5) 0), (1, .gAddr 5 0), (0, .noReq 5 0),
   (0, .nA1 5 0), (0, .nA2 5 0), (0, .nA3 5 0), (0, .rDec 0), (1, .gLoaded 5 0), (0, .new 6), (0, .take .new 6 0),
   (0, .aInc .new 6 0), (0, .aStat .new 6 0), (0, .lSet 6 0), (0, .lLk 6 0)]

def prefetchRun : List (Nat × Act) :=
  [(2, .acquire 0), (2, .get 5), (2, .gMiss 5 .get), (2, .take .get 5 0), (2, .aInc .get 5 0),
   (2, .aStat .get 5 0), (2, .gCas 5 0), (2, .gSet 5 0), (2, .gReq 5 0), (2, .gRead 5 0), (2, .gClr 5 0),
   (2, .unget 5 0), (2, .rDec 0), (1, .get 5), (1, .gHit 5 0), (1, .rTest (.get 5) 0), (2, .evict 0),
   (2, .rTest .evict 0), (2, .rInc .evict 0), (2, .rFree .evict 0), (2, .rPass .evict 0), (2, .eClaim 0),
   (2, .eLoad 0), (2, .wSet .evict 0), (2, .wWb .evict 0), (2, .wRef .evict 0 0), (2, .wRef .evict 0 1),
   (2, .wRef .evict 0 2), (2, .wRef .evict 0 3), (2, .wDone .evict 0 4), (2, .eStat 0 5), (2, .eLk 0 5),
   (2, .eAd 0 5), (2, .eFr 0), (2, .rDec 0), (2, .get 5), (2, .gMiss 5 .pre), (2, .take .pre 5 0), (2, .aIncP 5 0),
   (2, .aStat .pre 5 0), (2, .pSet 5 0), (0, .acquire 1), (0, .get 5), (0, .gMiss 5 .get), (0, .take .get 5 1),
   (0, .aInc .get 5 1), (0, .aStat .get 5 1), (0, .gCas 5 1), (2, .pCasX 5 0), (1, .rInc (.get 5) 0),
   (1, .rFree (.get 5) 0), (1, .rPass (.get 5) 0), (1, .gAddr 5 0), (2, .pAb1 5 0), (2, .pAb2 5 0),
   (1, .gLoaded 5 0), (0, .gSet 5 1), (0, .gReq 5 1), (0, .gRead 5 1), (0, .gClr 5 1), (0, .claim 5 1),
   (0, .lock 5 1), (0, .wSet (.get 5) 1), (0, .wWb (.get 5) 1), (0, .wRef (.get 5) 1 0), (0, .wRef (.get 5) 1 1),
   (0, .wRef (.get 5) 1 2), (0, .wRef (.get 5) 1 3), (0, .wDone (.get 5) 1 4), (0, .write 5 1 false 7)]

def batchRun : List (Nat × Act) :=
  [(2, .acquire 0), (2, .get 5), (2, .gMiss 5 .get), (2, .take .get 5 0), (2, .aInc .get 5 0),
   (2, .aStat .get 5 0), (2, .gCas 5 0), (2, .gSet 5 0), (2, .gReq 5 0), (2, .gRead 5 0), (2, .gClr 5 0),
   (2, .unget 5 0), (2, .rDec 0), (1, .near 5 true), (1, .nHit 5 true 0), (2, .evict 0), (2, .rTest .evict 0),
   (2, .rInc .evict 0), (2, .rFree .evict 0), (2, .rPass .evict 0), (2, .eClaim 0), (2, .eLoad 0),
   (2, .wSet .evict 0), (2, .wWb .evict 0), (2, .wRef .evict 0 0), (2, .wRef .evict 0 1), (2, .wRef .evict 0 2),
   (2, .wRef .evict 0 3), (2, .wDone .evict 0 4), (2, .eStat 0 5), (2, .eLk 0 5), (2, .eAd 0 5), (2, .eFr 0),
   (2, .rDec 0), (2, .new 6), (2, .take .new 6 0), (2, .aInc .new 6 0), (2, .aStat .new 6 0), (2, .lSet 6 0),
   (2, .lLk 6 0), (2, .write 6 0 false 9), (2, .mark 6 0 true), (2, .unlock 6 0 true), (2, .unclaim 6 0),
   (2, .unget 6 0), (2, .rDec 0), (1, .nCas 5 0 true), (1, .wbIov0 5 0)]

def syncRun : List (Nat × Act) :=
  [(2, .acquire 0), (2, .get 5), (2, .gMiss 5 .get), (2, .take .get 5 0), (2, .aInc .get 5 0),
   (2, .aStat .get 5 0), (2, .gCas 5 0), (2, .gSet 5 0), (2, .gReq 5 0), (2, .gRead 5 0), (2, .gClr 5 0),
   (2, .unget 5 0), (2, .rDec 0), (1, .near 5 false), (1, .nHit 5 false 0), (2, .evict 0), (2, .rTest .evict 0),
   (2, .rInc .evict 0), (2, .rFree .evict 0), (2, .rPass .evict 0), (2, .eClaim 0), (2, .eLoad 0),
   (2, .wSet .evict 0), (2, .wWb .evict 0), (2, .wRef .evict 0 0), (2, .wRef .evict 0 1), (2, .wRef .evict 0 2),
   (2, .wRef .evict 0 3), (2, .wDone .evict 0 4), (2, .eStat 0 5), (2, .eLk 0 5), (2, .eAd 0 5), (2, .eFr 0),
   (2, .rDec 0), (2, .new 6), (2, .take .new 6 0), (2, .aInc .new 6 0), (2, .aStat .new 6 0), (2, .lSet 6 0),
   (2, .lLk 6 0), (2, .write 6 0 false 9), (2, .mark 6 0 true), (2, .unlock 6 0 true), (2, .unclaim 6 0),
   (2, .unget 6 0), (2, .rDec 0), (1, .nCas 5 0 false), (1, .wbIo 5 0), (0, .acquire 1), (0, .get 5),
   (0, .gMiss 5 .get), (0, .take .get 5 1), (0, .aInc .get 5 1), (0, .aStat .get 5 1), (0, .gCas 5 1),
   (0, .gSet 5 1), (0, .gReq 5 1), (0, .gRead 5 1), (0, .gClr 5 1)]

def goodRun : List (Nat × Act) :=
  [(0, .acquire 0), (0, .get 5), (0, .gMiss 5 .get), (0, .take .get 5 0), (0, .aInc .get 5 0),
   (0, .aStat .get 5 0), (0, .gCas 5 0), (0, .gSet 5 0), (0, .gReq 5 0), (0, .gRead 5 0), (0, .gClr 5 0),
   (0, .claim 5 0), (0, .lock 5 0), (0, .wSet (.get 5) 0), (0, .wWb (.get 5) 0), (0, .wRef (.get 5) 0 0),
   (0, .wRef (.get 5) 0 1), (0, .wRef (.get 5) 0 2), (0, .wRef (.get 5) 0 3), (0, .wDone (.get 5) 0 4),
   (0, .write 5 0 false 7), (0, .mark 5 0 true), (1, .get 5), (1, .gHit 5 0)]

def cycleTail : List (Nat × Act) :=
  [(1, .rConf (.get 5) 0), (0, .unlock 5 0 true), (0, .unclaim 5 0), (0, .unget 5 0), (0, .rDec 0), (2, .wb 0),
   (2, .wbAd 0 5), (2, .wbIov 5 0 0), (2, .wbIo 5 0), (2, .wbCln 5 0), (2, .wbClr 5 0), (0, .evict 0),
   (0, .rTest .evict 0), (0, .rInc .evict 0), (0, .rFree .evict 0), (0, .rPass .evict 0), (0, .eClaim 0),
   (0, .eLoad 0), (0, .wSet .evict 0), (0, .wWb .evict 0), (0, .wRef .evict 0 0), (0, .wRef .evict 0 1),
   (0, .wRef .evict 0 2), (0, .wRef .evict 0 3), (0, .wDone .evict 0 4), (0, .eStat 0 5), (0, .eLk 0 5),
   (0, .eAd 0 5), (0, .eFr 0), (0, .rDec 0), (0, .get 5), (0, .gMiss 5 .get), (0, .take .get 5 0),
   (0, .aInc .get 5 0), (0, .aStat .get 5 0), (0, .gCas 5 0), (0, .gSet 5 0), (0, .gReq 5 0), (0, .gRead 5 0),
   (0, .gClr 5 0), (1, .get 5), (1, .gHit 5 0), (1, .rTest (.get 5) 0), (1, .rInc (.get 5) 0),
   (1, .rFree (.get 5) 0), (1, .rPass (.get 5) 0), (1, .gAddr 5 0), (1, .gLoaded 5 0)]

def tornRun : List (Nat × Act) :=
  [(0, .acquire 0), (0, .get 5), (0, .gMiss 5 .get), (0, .take .get 5 0), (0, .aInc .get 5 0),
   (0, .aStat .get 5 0), (0, .gCas 5 0), (0, .gSet 5 0), (0, .gReq 5 0), (0, .gRead 5 0), (0, .gClr 5 0),
   (0, .claim 5 0), (0, .lock 5 0), (0, .wSet (.get 5) 0), (0, .wWb (.get 5) 0), (0, .wRef (.get 5) 0 0),
   (0, .wRef (.get 5) 0 1), (0, .wRef (.get 5) 0 2), (0, .wRef (.get 5) 0 3), (0, .wDone (.get 5) 0 4),
   (0, .write 5 0 false 7), (0, .mark 5 0 true), (0, .unlock 5 0 true), (0, .unclaim 5 0), (0, .unget 5 0),
   (0, .rDec 0), (2, .wb 0), (2, .wbAd 0 5), (2, .wbIov 5 0 0)]

/-- Agent 0 has loaded page 5 and writes it, while agent 1 has looked it up. -/
example : ∃ s, Reachable okPar s ∧ (Writes (s.pc 0) 5 0 ∧ s.pc 1 = .rTest (.get 5) 0 ∧ (s.ent 0).data = 7) := by
  obtain ⟨s, h1, h2⟩ := run_witness (P := okPar) (l := goodRun)
    (C := fun s => decide (s.pc 0 = .wr 5 0 true ∧ s.pc 1 = .rTest (.get 5) 0 ∧ (s.ent 0).data = 7)) (by decide +kernel)
  simp at h2
  exact ⟨s, h1, ⟨true, h2.1⟩, h2.2.1, h2.2.2⟩

/-- Then the page is written back, evicted and loaded again, and both agents have read access to it: `7` is read. -/
example : ∃ s, Reachable okPar s ∧ (Holds (s.pc 0) 5 0 ∧ Holds (s.pc 1) 5 0 ∧ (s.ent 0).data = 7 ∧ s.disk 5 = 7) := by
  obtain ⟨s, h1, h2⟩ := run_witness (P := okPar) (l := goodRun ++ cycleTail)
    (C := fun s => decide (s.pc 0 = .rd 5 0 ∧ s.pc 1 = .rd 5 0 ∧ (s.ent 0).data = 7 ∧ s.disk 5 = 7)) (by decide +kernel)
  simp at h2
  exact ⟨s, h1, .inl h2.1, .inl h2.2.1, h2.2.2⟩

/-- A page is being written back. -/
example : ∃ s, Reachable okPar s ∧ WritesBack (s.pc 2) 5 0 := by
  obtain ⟨s, h1, h2⟩ := run_witness (P := okPar) (l := tornRun) (C := fun s => decide (s.pc 2 = .wbIo 5 0)) (by decide +kernel)
  simp at h2
  exact ⟨s, h1, .inr (.inl h2)⟩

/-! ### Three races that break C21 and C22

`okPar.ok` leaves out three interleavings that the code permits. -/

/-- `clockcache_get_async` finds no free request (2458-2469) and frees the entry that it has published, with a plain store
of `CC_FREE_STATUS`. Agent 1, in `clockcache_get_internal`, has passed `try_get_read` and the test of `disk_addr` and waits
for LOADING to be cleared (2137-2142): it then returns a page in an entry that is free. The entry contains something else,
and it can be allocated for page 6, so that one agent has write access to an entry that another one reads. -/
theorem C21_async_abort_race : ∃ s, Reachable racyPar s ∧ Writes (s.pc 0) 6 0 ∧ Holds (s.pc 1) 5 0 ∧
    (s.ent 0).data ≠ s.cur 5 := by
  obtain ⟨s, h1, h2⟩ := run_witness (P := racyPar) (l := asyncRun)
    (C := fun s => decide (s.pc 0 = .wr 6 0 false ∧ s.pc 1 = .rd 5 0 ∧ (s.ent 0).data ≠ s.cur 5)) (by decide +kernel)
  simp at h2
  exact ⟨s, h1, ⟨false, h2.1⟩, .inl h2.2.1, h2.2.2⟩

/-- `clockcache_prefetch` sets `disk_addr` before it tries to publish its entry, and frees it if that fails (2971-2979).
Agent 1, which looked the page up before its eviction, meets the same entry with the same address and waits for LOADING:
it gets a second copy of page 5 while agent 0 writes the other one. -/
theorem C22_prefetch_abort_race : ∃ s, Reachable racyPar s ∧ Writes (s.pc 0) 5 1 ∧ Holds (s.pc 1) 5 0 ∧
    (s.ent 0).data ≠ s.cur 5 := by
  obtain ⟨s, h1, h2⟩ := run_witness (P := racyPar) (l := prefetchRun)
    (C := fun s => decide (s.pc 0 = .wr 5 1 true ∧ s.pc 1 = .rd 5 0 ∧ (s.ent 0).data ≠ s.cur 5)) (by decide +kernel)
  simp at h2
  exact ⟨s, h1, ⟨true, h2.1⟩, .inl h2.2.1, h2.2.2⟩

/-- `clockcache_batch_start_writeback` looks up the neighbours of a page (1346-1352, 1361-1367) and then sets WRITEBACK in the
entry it found, which may meanwhile belong to another page: the lookup for the iovec (1390-1394) then uses
`CC_UNMAPPED_ENTRY` as an index. -/
theorem batch_writeback_race : ∃ s, Reachable racyPar s ∧ s.pc 1 = .crash := by
  obtain ⟨s, h1, h2⟩ := run_witness (P := racyPar) (l := batchRun) (C := fun s => decide (s.pc 1 = .crash)) (by decide +kernel)
  simp at h2
  exact ⟨s, h1, h2⟩

/-- `clockcache_extent_sync` (2797-2812) does the same and writes the contents of page 6 to the address of page 5; the next
client that loads page 5 reads them. -/
theorem C22_extent_sync_race : ∃ s, Reachable racyPar s ∧ Holds (s.pc 0) 5 1 ∧ (s.ent 1).data = s.cur 6 ∧ s.cur 5 ≠ s.cur 6 := by
  obtain ⟨s, h1, h2⟩ := run_witness (P := racyPar) (l := syncRun)
    (C := fun s => decide (s.pc 0 = .rd 5 1 ∧ (s.ent 1).data = s.cur 6 ∧ s.cur 5 ≠ s.cur 6)) (by decide +kernel)
  simp at h2
  exact ⟨s, h1, .inl h2.1, h2.2.1, h2.2.2⟩

end Splinter.Cache
