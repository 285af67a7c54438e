import Verif.Proof.CacheStep1

/-!
Steps of the page cache that change mappings and contents: writers, eviction and discarding.
-/
namespace Splinter.Cache

section GX
variable {ent : Nat → Entry} {look : Nat → Option Nat} {disk cur : Nat → Nat} {p q : PC}
    {AD GS AB GL WR : Nat → Nat → Prop} {AN LD : Nat → Prop} {a e : Nat}

theorem gx_unlock {m : Bool} (h : GlobX ent look disk cur (.wr a e m) AD GS AB GL WR AN LD)
    (hm : m = true → (ent e).clean = false) :
    GlobX (upd ent e { ent e with wl := false }) look disk cur (.cl a e) AD GS AB GL WR AN LD := by
  obtain ⟨g1, g2, g3, g4, g5, g6, g7, g8⟩ := h
  simp only [ad, an, ldr, abt, reduceCtorEq, false_or, exists_false, Option.some.injEq, Prod.mk.injEq, exists_eq_left'] at g1 g2 g3 g4 g5 g6 g7 g8
  constructor <;> (try simp only [ad, an, ldr, abt, reduceCtorEq, false_or, exists_false, Option.some.injEq, Prod.mk.injEq, exists_eq_left']) <;> grind [upd]

theorem gx_write {m : Bool} {v : Nat} (h : GlobX ent look disk cur (.wr a e m) AD GS AB GL WR AN LD)
    (h1 : (ent e).addr = some a) (h2 : look a = some e) (h3 : (ent e).loading = false) :
    GlobX (upd ent e { ent e with data := v }) look disk (upd cur a v) (.wr a e true) AD GS AB GL WR AN LD := by
  obtain ⟨g1, g2, g3, g4, g5, g6, g7, g8⟩ := h
  simp only [ad, an, ldr, abt, reduceCtorEq, false_or, exists_false, Option.some.injEq, Prod.mk.injEq, exists_eq_left'] at g1 g2 g3 g4 g5 g6 g7 g8
  constructor <;> (try simp only [ad, an, ldr, abt, reduceCtorEq, false_or, exists_false, Option.some.injEq, Prod.mk.injEq, exists_eq_left']) <;> grind [upd]

theorem gx_mark {m : Bool} (h : GlobX ent look disk cur (.wr a e m) AD GS AB GL WR AN LD) :
    GlobX (upd ent e { ent e with clean := false }) look disk cur (.wr a e m) AD GS AB GL WR AN LD := by
  obtain ⟨g1, g2, g3, g4, g5, g6, g7, g8⟩ := h
  simp only [ad, an, ldr, abt, reduceCtorEq, false_or, exists_false, Option.some.injEq, Prod.mk.injEq, exists_eq_left'] at g1 g2 g3 g4 g5 g6 g7 g8
  constructor <;> (try simp only [ad, an, ldr, abt, reduceCtorEq, false_or, exists_false, Option.some.injEq, Prod.mk.injEq, exists_eq_left']) <;> grind [upd]

theorem gx_eLk (h : GlobX ent look disk cur (.eLk e a) AD GS AB GL WR AN LD)
    (h1 : (ent e).addr = some a) (h2 : look a = some e) (h3 : (ent e).clean = true)
    (h4 : ∀ a, ¬ GL a e) (h5 : ∀ a, ¬ WR a e) :
    GlobX ent (upd look a none) disk cur (.eAd e a) AD GS AB GL WR AN LD := by
  obtain ⟨g1, g2, g3, g4, g5, g6, g7, g8⟩ := h
  simp only [ad, an, ldr, abt, reduceCtorEq, false_or, exists_false, Option.some.injEq, Prod.mk.injEq, exists_eq_left'] at g1 g2 g3 g4 g5 g6 g7 g8
  constructor <;> (try simp only [ad, an, ldr, abt, reduceCtorEq, false_or, exists_false, Option.some.injEq, Prod.mk.injEq, exists_eq_left']) <;> grind [upd]

theorem gx_dLk (h : GlobX ent look disk cur (.dLk a e) AD GS AB GL WR AN LD)
    (h1 : (ent e).addr = some a) (h2 : look a = some e) (h4 : ∀ a, ¬ GL a e) :
    GlobX ent (upd look a none) disk (upd cur a (disk a)) (.dAd a e) AD GS AB GL WR AN LD := by
  obtain ⟨g1, g2, g3, g4, g5, g6, g7, g8⟩ := h
  simp only [ad, an, ldr, abt, reduceCtorEq, false_or, exists_false, Option.some.injEq, Prod.mk.injEq, exists_eq_left'] at g1 g2 g3 g4 g5 g6 g7 g8
  constructor <;> (try simp only [ad, an, ldr, abt, reduceCtorEq, false_or, exists_false, Option.some.injEq, Prod.mk.injEq, exists_eq_left']) <;> grind [upd]

theorem gx_nA1 (h : GlobX ent look disk cur (.nA1 a e) AD GS AB GL WR AN LD)
    (h1 : (ent e).addr = some a) (h2 : look a = some e) (h3 : (ent e).loading = true) :
    GlobX ent (upd look a none) disk cur (.nA2 a e) AD GS AB GL WR AN LD := by
  obtain ⟨g1, g2, g3, g4, g5, g6, g7, g8⟩ := h
  simp only [ad, an, ldr, abt, reduceCtorEq, false_or, exists_false, Option.some.injEq, Prod.mk.injEq, exists_eq_left'] at g1 g2 g3 g4 g5 g6 g7 g8
  constructor <;> (try simp only [ad, an, ldr, abt, reduceCtorEq, false_or, exists_false, Option.some.injEq, Prod.mk.injEq, exists_eq_left']) <;> grind [upd]

/-- The address of an entry is cleared. -/
theorem gx_unaddr (h : GlobX ent look disk cur p AD GS AB GL WR AN LD) (hum : ∀ a, look a ≠ some e)
    (c1 : ad p = some (a, e)) (c2 : an q = some e) (c3 : ∀ x, ldr p = some x → ldr q = some x)
    (c4 : ∀ x, abt p = some x → abt q = some x) (c5 : ∀ a e, p ≠ .gSet a e) (c6 : ∀ a e, p ≠ .wr a e true)
    (c7 : ∀ a e, q ≠ .gLoad a e) (c8 : an p = none) (c9 : (ent e).addr = some a) :
    GlobX (upd ent e { ent e with addr := none }) look disk cur q AD GS AB GL WR AN LD := by
  obtain ⟨g1, g2, g3, g4, g5, g6, g7, g8⟩ := h
  constructor
  · grind [upd]
  · grind [upd]
  · grind [upd]
  · grind [upd]
  · grind [upd]
  · grind [upd]
  · grind [upd]
  · grind [upd]

/-- An entry is freed. -/
theorem gx_free (h : GlobX ent look disk cur p AD GS AB GL WR AN LD) (hum : ∀ a, look a ≠ some e)
    (han : (ent e).addr = none) (c1 : ad p = none) (c2 : ∀ x, an p = some x → x = e)
    (c3 : ∀ a' e', ldr p = some (a', e') → e' = e) (c4 : ∀ a' e', abt p = some (a', e') → e' = e)
    (c5 : ∀ a e, p ≠ .gSet a e) (c6 : ∀ a e, p ≠ .wr a e true)
    (c7 : ∀ a e, q ≠ .gLoad a e) (c8 : ∀ a, ¬ GL a e) :
    GlobX (upd ent e (ent e).setFree) look disk cur q AD GS AB GL WR AN LD := by
  obtain ⟨g1, g2, g3, g4, g5, g6, g7, g8⟩ := h
  unfold Entry.setFree
  constructor
  · grind [upd]
  · grind [upd]
  · grind [upd]
  · grind [upd]
  · grind [upd]
  · grind [upd]
  · grind [upd]
  · grind [upd]

theorem gx_take {m : Mode} (h : GlobX ent look disk cur (.want m a) AD GS AB GL WR AN LD) (hf : (ent e).isFree = true) :
    GlobX (upd ent e (ent e).setAlloc) look disk cur (.aInc m a e) AD GS AB GL WR AN LD := by
  obtain ⟨g1, g2, g3, g4, g5, g6, g7, g8⟩ := h
  simp only [ad, an, ldr, abt, reduceCtorEq, false_or, exists_false, Option.some.injEq, Prod.mk.injEq, exists_eq_left'] at g1 g2 g3 g4 g5 g6 g7 g8
  unfold Entry.setAlloc
  simp [Entry.isFree] at hf
  constructor <;> (try simp only [ad, an, ldr, abt, reduceCtorEq, false_or, exists_false, Option.some.injEq, Prod.mk.injEq, exists_eq_left']) <;> grind [upd]

theorem gx_aStatN (h : GlobX ent look disk cur (.aStat .new a e) AD GS AB GL WR AN LD) (h1 : (ent e).addr = none)
    (h2 : (ent e).loading = false) :
    GlobX (upd ent e (ent e).setAlloc) look disk cur (.lSet a e) AD GS AB GL WR AN LD := by
  obtain ⟨g1, g2, g3, g4, g5, g6, g7, g8⟩ := h
  simp only [ad, an, ldr, abt, reduceCtorEq, false_or, exists_false, Option.some.injEq, Prod.mk.injEq, exists_eq_left'] at g1 g2 g3 g4 g5 g6 g7 g8
  unfold Entry.setAlloc
  constructor <;> (try simp only [ad, an, ldr, abt, reduceCtorEq, false_or, exists_false, Option.some.injEq, Prod.mk.injEq, exists_eq_left']) <;> grind [upd]

theorem gx_aStatL {m : Mode} (h : GlobX ent look disk cur (.aStat m a e) AD GS AB GL WR AN LD) (h1 : (ent e).addr = none)
    (c1 : ad q = none) (c2 : an q = some e) (c3 : ldr q = some (a, e)) (c5 : ∀ a e, q ≠ .gLoad a e) :
    GlobX (upd ent e (ent e).setLoading) look disk cur q AD GS AB GL WR AN LD := by
  obtain ⟨g1, g2, g3, g4, g5, g6, g7, g8⟩ := h
  simp only [ad, an, ldr, abt, reduceCtorEq, false_or, exists_false, Option.some.injEq, Prod.mk.injEq, exists_eq_left'] at g1 g2 g3 g4 g5 g6 g7 g8
  unfold Entry.setLoading
  constructor <;> grind [upd]

theorem gx_gCas (h : GlobX ent look disk cur (.gCas a e) AD GS AB GL WR AN LD) (h1 : (ent e).addr = none)
    (h2 : look a = none) (h3 : (ent e).loading = true) :
    GlobX ent (upd look a (some e)) disk cur (.gSet a e) AD GS AB GL WR AN LD := by
  obtain ⟨g1, g2, g3, g4, g5, g6, g7, g8⟩ := h
  simp only [ad, an, ldr, abt, reduceCtorEq, false_or, exists_false, Option.some.injEq, Prod.mk.injEq, exists_eq_left'] at g1 g2 g3 g4 g5 g6 g7 g8
  constructor <;> (try simp only [ad, an, ldr, abt, reduceCtorEq, false_or, exists_false, Option.some.injEq, Prod.mk.injEq, exists_eq_left']) <;> grind [upd]

theorem gx_gSet (h : GlobX ent look disk cur (.gSet a e) AD GS AB GL WR AN LD) (h1 : (ent e).addr = none)
    (h2 : look a = some e) (h3 : (ent e).loading = true) (h4 : ∀ a, ¬ GS a e) :
    GlobX (upd ent e { ent e with addr := some a }) look disk cur (.gReq a e) AD GS AB GL WR AN LD := by
  obtain ⟨g1, g2, g3, g4, g5, g6, g7, g8⟩ := h
  simp only [ad, an, ldr, abt, reduceCtorEq, false_or, exists_false, Option.some.injEq, Prod.mk.injEq, exists_eq_left'] at g1 g2 g3 g4 g5 g6 g7 g8
  constructor <;> (try simp only [ad, an, ldr, abt, reduceCtorEq, false_or, exists_false, Option.some.injEq, Prod.mk.injEq, exists_eq_left']) <;> grind [upd]

/-- An address is stored in an entry that is not mapped. -/
theorem gx_addr (h : GlobX ent look disk cur p AD GS AB GL WR AN LD) (h1 : (ent e).addr = none)
    (h2 : ∀ a, look a ≠ some e) (h3 : (ent e).free = false) (c1 : ad q = some (a, e)) (c2 : ad p = none)
    (c3 : ∀ x, ldr p = some x → ldr q = some x) (c4 : abt p = none) (c5 : ∀ a e, p ≠ .gSet a e)
    (c6 : ∀ a e, p ≠ .wr a e true) (c7 : ∀ a e, q ≠ .gLoad a e) (c8 : an p = some e) :
    GlobX (upd ent e { ent e with addr := some a }) look disk cur q AD GS AB GL WR AN LD := by
  obtain ⟨g1, g2, g3, g4, g5, g6, g7, g8⟩ := h
  constructor
  · grind [upd]
  · grind [upd]
  · grind [upd]
  · grind [upd]
  · grind [upd]
  · grind [upd]
  · grind [upd]
  · grind [upd]

theorem gx_pCas (h : GlobX ent look disk cur (.pCas a e) AD GS AB GL WR AN LD) (h1 : (ent e).addr = some a)
    (h2 : look a = none) (h3 : (ent e).loading = true) :
    GlobX ent (upd look a (some e)) disk cur (.pRead a e) AD GS AB GL WR AN LD := by
  obtain ⟨g1, g2, g3, g4, g5, g6, g7, g8⟩ := h
  simp only [ad, an, ldr, abt, reduceCtorEq, false_or, exists_false, Option.some.injEq, Prod.mk.injEq, exists_eq_left'] at g1 g2 g3 g4 g5 g6 g7 g8
  constructor <;> (try simp only [ad, an, ldr, abt, reduceCtorEq, false_or, exists_false, Option.some.injEq, Prod.mk.injEq, exists_eq_left']) <;> grind [upd]

/-- A page is read. -/
theorem gx_read {v : Nat} (h : GlobX ent look disk cur p AD GS AB GL WR AN LD) (hc : Cov p q) (hg : ∀ a e, q ≠ .gLoad a e)
    (h3 : (ent e).loading = true) :
    GlobX (upd ent e { ent e with data := v }) look disk cur q AD GS AB GL WR AN LD := by
  obtain ⟨g1, g2, g3, g4, g5, g6, g7, g8⟩ := h
  obtain ⟨c1, c2, c3, c4, c5, c6⟩ := hc
  constructor <;> grind [upd]

/-- LOADING is cleared. -/
theorem gx_clr (h : GlobX ent look disk cur p AD GS AB GL WR AN LD) (hg : ∀ a e, q ≠ .gLoad a e)
    (h1 : (ent e).addr = some a) (h2 : look a = some e) (h3 : (ent e).data = cur a) (h4 : (ent e).loading = true)
    (c1 : ad p = none) (c2 : an p = none) (c3 : ldr p = some (a, e)) (c4 : abt p = none)
    (c5 : ∀ a e, p ≠ .gSet a e) (c6 : ∀ a e, p ≠ .wr a e true) :
    GlobX (upd ent e { ent e with loading := false }) look disk cur q AD GS AB GL WR AN LD := by
  obtain ⟨g1, g2, g3, g4, g5, g6, g7, g8⟩ := h
  constructor <;> grind [upd]

theorem gx_lLk (h : GlobX ent look disk cur (.lLk a e) AD GS AB GL WR AN LD) (h1 : (ent e).addr = some a)
    (h2 : look a = none) (h3 : (ent e).loading = false) (h4 : (ent e).clean = false) (h5 : (ent e).free = false) :
    GlobX ent (upd look a (some e)) disk (upd cur a (ent e).data) (.wr a e false) AD GS AB GL WR AN LD := by
  obtain ⟨g1, g2, g3, g4, g5, g6, g7, g8⟩ := h
  simp only [ad, an, ldr, abt, reduceCtorEq, false_or, exists_false, Option.some.injEq, Prod.mk.injEq, exists_eq_left'] at g1 g2 g3 g4 g5 g6 g7 g8
  constructor <;> (try simp only [ad, an, ldr, abt, reduceCtorEq, false_or, exists_false, Option.some.injEq, Prod.mk.injEq, exists_eq_left']) <;> grind [upd]

theorem gx_wbIo (h : GlobX ent look disk cur (.wbIo a e) AD GS AB GL WR AN LD) (h1 : (ent e).data = cur a) :
    GlobX ent look (upd disk a (ent e).data) cur (.wbCln a e) AD GS AB GL WR AN LD := by
  obtain ⟨g1, g2, g3, g4, g5, g6, g7, g8⟩ := h
  simp only [ad, an, ldr, abt, reduceCtorEq, false_or, exists_false, Option.some.injEq, Prod.mk.injEq, exists_eq_left'] at g1 g2 g3 g4 g5 g6 g7 g8
  constructor <;> (try simp only [ad, an, ldr, abt, reduceCtorEq, false_or, exists_false, Option.some.injEq, Prod.mk.injEq, exists_eq_left']) <;> grind [upd]

theorem gx_wbCln (h : GlobX ent look disk cur (.wbCln a e) AD GS AB GL WR AN LD) (h1 : (ent e).addr = some a)
    (h2 : disk a = cur a) :
    GlobX (upd ent e { ent e with clean := true }) look disk cur (.wbClr a e) AD GS AB GL WR AN LD := by
  obtain ⟨g1, g2, g3, g4, g5, g6, g7, g8⟩ := h
  simp only [ad, an, ldr, abt, reduceCtorEq, false_or, exists_false, Option.some.injEq, Prod.mk.injEq, exists_eq_left'] at g1 g2 g3 g4 g5 g6 g7 g8
  constructor <;> (try simp only [ad, an, ldr, abt, reduceCtorEq, false_or, exists_false, Option.some.injEq, Prod.mk.injEq, exists_eq_left']) <;> grind [upd]

end GX

end Splinter.Cache
