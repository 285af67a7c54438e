import Verif.Model.Cache
import Mathlib.Tactic.Tauto

/-!
The invariant of the page cache.
-/
namespace Splinter.Cache

@[grind =] theorem upd_apply {A : Type} (f : Nat → A) (i j : Nat) (v : A) :
    upd f i v j = if j = i then v else f j := rfl

theorem upd_self {A : Type} (f : Nat → A) (i : Nat) (v : A) : upd f i v i = v := by simp [upd]
theorem upd_ne {A : Type} (f : Nat → A) {i j : Nat} (v : A) (h : j ≠ i) : upd f i v j = f j := by simp [upd, h]

/-- The entry on which an agent counts as a reader. -/
def ref : PC → Option Nat
  | .rFree _ e | .rW _ e _ | .rDec e | .gAddr _ e | .gLoad _ e | .rd _ e | .cl _ e | .wr _ e _ => some e
  | .dLoad _ e | .dAddr _ e | .dClaim _ e | .eClaim e | .eLoad e => some e
  | .wSet _ e | .wWb _ e | .wRef _ e _ | .eStat e | .eLk e _ | .eAd e _ | .eFr e | .xW e | .xC e => some e
  | .dLk _ e | .dAd _ e | .dFr _ e => some e
  | .aStat .get _ e | .aStat .new _ e => some e
  | .gCas _ e | .gAb1 _ e | .gAb3 _ e | .gSet _ e | .gReq _ e | .gRead _ e | .gClr _ e => some e
  | .nA1 _ e | .nA2 _ e | .nA3 _ e | .lSet _ e | .lLk _ e => some e
  | _ => none

/-- The entry whose bit CLAIMED an agent has set. -/
def clm : PC → Option Nat
  | .cl _ e | .wr _ e _ | .eLoad e | .wSet _ e | .wWb _ e | .wRef _ e _ => some e
  | .eStat e | .eLk e _ | .eAd e _ | .eFr e | .xW e | .xC e | .dLk _ e | .dAd _ e | .dFr _ e => some e
  | .aInc _ _ e | .aStat _ _ e | .lSet _ e | .lLk _ e => some e
  | _ => none

/-- The entry whose bit WRITELOCKED an agent has set. -/
def wlk : PC → Option Nat
  | .wr _ e _ | .wWb _ e | .wRef _ e _ => some e
  | .eStat e | .eLk e _ | .eAd e _ | .eFr e | .xW e | .dLk _ e | .dAd _ e | .dFr _ e => some e
  | .aInc _ _ e | .aStat _ _ e | .lSet _ e | .lLk _ e => some e
  | _ => none

/-- The agent has passed `try_get_read` of `e` for page `a`. -/
def pas : PC → Option (Nat × Nat)
  | .gAddr a e | .gLoad a e | .rd a e | .dLoad a e | .dAddr a e | .dClaim a e => some (a, e)
  | _ => none

/-- The agent has `e` for itself, in order to free it. -/
def exF : PC → Option Nat
  | .eStat e | .eLk e _ | .eAd e _ | .eFr e | .dLk _ e | .dAd _ e | .dFr _ e => some e
  | _ => none

/-- The agent knows that `e` is mapped to `a` in both directions. -/
def mp : PC → Option (Nat × Nat)
  | .rd a e | .cl a e | .wr a e _ | .dClaim a e | .dLk a e | .eLk e a => some (a, e)
  | .wSet (.get a) e | .wWb (.get a) e | .wRef (.get a) e _ => some (a, e)
  | .wSet (.disc a) e | .wWb (.disc a) e | .wRef (.disc a) e _ => some (a, e)
  | .gReq a e | .gRead a e | .gClr a e | .nA1 a e | .pRead a e | .pClr a e => some (a, e)
  | .wbIov a e | .wbIo a e | .wbCln a e | .wbClr a e => some (a, e)
  | _ => none

/-- The agent knows that `e` is not loading. -/
def nl : PC → Option Nat
  | .rd _ e | .cl _ e | .wr _ e _ | .dClaim _ e | .dLk _ e | .dAd _ e | .dFr _ e => some e
  | .wSet _ e | .wWb _ e | .wRef _ e _ | .eStat e => some e
  | .eLk e _ | .eAd e _ | .eFr e | .aInc _ _ e | .aStat _ _ e | .lSet _ e | .lLk _ e => some e
  | .wbAd e | .wbIov _ e | .wbIo _ e | .wbCln _ e | .wbClr _ e => some e
  | _ => none

/-- The agent knows that no address is mapped to `e`. -/
def um : PC → Option Nat
  | .aInc _ _ e | .aStat _ _ e | .lSet _ e | .lLk _ e | .gCas _ e | .gAb1 _ e | .gAb2 _ e | .gAb3 _ e => some e
  | .pSet _ e | .pCas _ e | .pAb1 _ e | .pAb2 _ e | .nA2 _ e | .nA3 _ e => some e
  | .eAd e _ | .eFr e | .dAd _ e | .dFr _ e => some e
  | _ => none

/-- The agent knows that `e` has no address. -/
def an : PC → Option Nat
  | .aInc _ _ e | .aStat _ _ e | .lSet _ e | .gCas _ e | .gAb1 _ e | .gAb2 _ e | .gAb3 _ e | .gSet _ e => some e
  | .pSet _ e | .pAb2 _ e | .nA3 _ e | .eFr e | .dFr _ e => some e
  | _ => none

/-- `e` has the address `a` without being mapped, because of this agent. -/
def ad : PC → Option (Nat × Nat)
  | .lLk a e | .pCas a e | .pAb1 a e | .nA2 a e | .eAd e a | .dAd a e => some (a, e)
  | _ => none

/-- The agent has set LOADING. -/
def ldr : PC → Option (Nat × Nat)
  | .gCas a e | .gAb1 a e | .gAb2 a e | .gAb3 a e | .gSet a e | .gReq a e | .gRead a e | .gClr a e => some (a, e)
  | .nA1 a e | .nA2 a e | .nA3 a e => some (a, e)
  | .pSet a e | .pCas a e | .pAb1 a e | .pAb2 a e | .pRead a e | .pClr a e => some (a, e)
  | _ => none

/-- The agent has set WRITEBACK. -/
def wbo : PC → Option Nat
  | .wbAd e | .wbIov _ e | .wbIo _ e | .wbCln _ e | .wbClr _ e => some e
  | _ => none

/-- The agent knows that `e` is not being written back. -/
def nowb : PC → Option Nat
  | .wRef _ e _ | .wr _ e _ | .eStat e | .eLk e _ | .eAd e _ | .eFr e | .dLk _ e | .dAd _ e | .dFr _ e => some e
  | .aInc _ _ e | .aStat _ _ e | .lSet _ e | .lLk _ e => some e
  | _ => none

/-- Entries with `CC_ALLOC_STATUS`. -/
def alc : PC → Option Nat
  | .aInc _ _ e | .aStat _ _ e | .lSet _ e | .lLk _ e => some e
  | _ => none

/-- The agent has read the page. -/
def clr : PC → Option (Nat × Nat)
  | .gClr a e | .pClr a e => some (a, e)
  | _ => none

/-- The agent is allocating page `a`. -/
def alo : PC → Option Nat
  | .want .new a | .aInc .new a _ | .aStat .new a _ | .lSet a _ | .lLk a _ => some a
  | _ => none

/-- An agent that will free `e`, which is still loading. -/
def abt : PC → Option (Nat × Nat)
  | .pCas a e | .pAb1 a e | .pAb2 a e | .nA2 a e | .nA3 a e => some (a, e)
  | _ => none

/-- What agent `i` at `p` knows. -/
structure Loc (P : Par) (ent : Nat → Entry) (look : Nat → Option Nat) (disk cur : Nat → Nat)
    (own : Nat → Option Nat) (i : Nat) (p : PC) : Prop where
  mp : ∀ a e, mp p = some (a, e) → (ent e).addr = some a ∧ look a = some e
  nl : ∀ e, nl p = some e → (ent e).loading = false
  um : ∀ e, um p = some e → ∀ a, look a ≠ some e
  an : ∀ e, an p = some e → (ent e).addr = none
  ad : ∀ a e, ad p = some (a, e) → (ent e).addr = some a
  gs : ∀ a e, p = .gSet a e → look a = some e
  wad : ∀ e, p = .wbAd e → ∃ a, (ent e).addr = some a ∧ look a = some e
  cm : ∀ e, clm p = some e → (ent e).cm = true
  wl : ∀ e, wlk p = some e → (ent e).wl = true
  ldr : ∀ a e, ldr p = some (a, e) → (ent e).loading = true
  wbo : ∀ e, wbo p = some e → (ent e).wb = true
  nowb : ∀ e, nowb p = some e → (ent e).wb = false
  alc : ∀ e, alc p = some e → (ent e).clean = false ∧ (ent e).free = false
  cln : ∀ e a, p = .eLk e a → (ent e).clean = true
  clr : ∀ a e, clr p = some (a, e) → (ent e).data = cur a
  wbc : ∀ a e, p = .wbCln a e → disk a = cur a
  alo : ∀ a, alo p = some a → look a = none
  own : ∀ e, bent p = some e → own (P.bat e) = some i
  lt : p ≠ .idle → i < P.n
  nc : p ≠ .crash

/-- How two different agents exclude each other. -/
structure Pair (P : Par) (j : Nat) (p q : PC) : Prop where
  clm : ∀ e, clm p = some e → clm q ≠ some e
  ldr : ∀ a b e, ldr p = some (a, e) → ldr q ≠ some (b, e)
  wbo : ∀ e, wbo p = some e → wbo q ≠ some e
  xcl : ∀ a, xcl p = some a → tgt q ≠ some a
  x1 : ∀ r e k a, p = .wRef r e k → pas q = some (a, e) → k ≤ P.slot j
  x2 : ∀ e a, exF p = some e → pas q ≠ some (a, e)
  x3 : ∀ a e m, p = .wr a e m → pas q ≠ some (a, e)

/-- Facts about the entries. -/
structure Glob (s : State) : Prop where
  f1 : ∀ e, (s.ent e).free = true → (s.ent e).loading = false ∧ (s.ent e).addr = none ∧ ∀ a, s.look a ≠ some e
  f2 : ∀ e a, (s.ent e).addr = some a → s.look a = some e ∨ ∃ i, ad (s.pc i) = some (a, e)
  f2' : ∀ e a, s.look a = some e → (s.ent e).addr = some a ∨ ∃ i, s.pc i = .gSet a e
  f3 : ∀ e, (s.ent e).free = false → (∃ a, (s.ent e).addr = some a) ∨ ∃ i, an (s.pc i) = some e
  l3 : ∀ e, (s.ent e).loading = true → ∃ i a, ldr (s.pc i) = some (a, e)
  m4 : ∀ j a e, s.pc j = .gLoad a e → ((s.ent e).addr = some a ∧ s.look a = some e) ∨ ∃ i, abt (s.pc i) = some (a, e)
  d1 : ∀ e a, (s.ent e).addr = some a → s.look a = some e → (s.ent e).loading = false → (s.ent e).data = s.cur a
  d2 : ∀ a, s.disk a = s.cur a ∨ ∃ e, s.look a = some e ∧ (s.ent e).addr = some a ∧ (s.ent e).loading = false ∧
    ((s.ent e).clean = false ∨ ∃ i, s.pc i = .wr a e true)

/-- The counters. -/
def Cnt (P : Par) (s : State) : Prop :=
  ∀ e k, s.cnt e k = (List.range P.n).countP (fun i => decide (P.slot i = k) && decide (ref (s.pc i) = some e))

structure Inv (P : Par) (s : State) : Prop where
  loc : ∀ i, Loc P s.ent s.look s.disk s.cur s.own i (s.pc i)
  pair : ∀ i j, i ≠ j → Pair P j (s.pc i) (s.pc j)
  glob : Glob s
  cnt : Cnt P s

/-! ### How the classes of positions are related -/

theorem wlk_clm {p e} : wlk p = some e → clm p = some e := by cases p <;> simp [wlk, clm]
theorem pas_ref {p a e} : pas p = some (a, e) → ref p = some e := by cases p <;> simp [pas, ref]
theorem pas_tgt {p a e} : pas p = some (a, e) → tgt p = some a := by cases p <;> simp [pas, tgt] <;> tauto
theorem exF_clm {p e} : exF p = some e → clm p = some e := by cases p <;> simp [exF, clm]
theorem exF_nowb {p e} : exF p = some e → nowb p = some e := by cases p <;> simp [exF, nowb]
theorem xcl_tgt {p a} : xcl p = some a → tgt p = some a := by
  intro h; unfold xcl at h; split at h <;> simp_all [tgt]
theorem alo_xcl {p a} : alo p = some a → xcl p = some a := by
  intro h; unfold alo at h; split at h <;> simp_all [xcl]
theorem an_cases {p e} : an p = some e → clm p = some e ∨ ∃ a, ldr p = some (a, e) := by
  cases p <;> simp [an, clm, ldr]
theorem ad_cases {p a e} : ad p = some (a, e) → clm p = some e ∨ ldr p = some (a, e) := by
  cases p <;> simp [ad, clm, ldr] <;> tauto
theorem um_cases {p e} : um p = some e → clm p = some e ∨ ∃ a, ldr p = some (a, e) := by
  cases p <;> simp [um, clm, ldr]
theorem ldr_tgt {p a e} : ldr p = some (a, e) → tgt p = some a := by
  cases p <;> simp [ldr, tgt] <;> intros <;> assumption
theorem abt_ldr {p a e} : abt p = some (a, e) → ldr p = some (a, e) := by cases p <;> simp [ldr, abt]
theorem clr_ldr {p a e} : clr p = some (a, e) → ldr p = some (a, e) := by cases p <;> simp [ldr, clr]
theorem clr_mp {p a e} : clr p = some (a, e) → mp p = some (a, e) := by cases p <;> simp [mp, clr]
theorem alc_clm {p e} : alc p = some e → clm p = some e := by cases p <;> simp [alc, clm]
/-- Why a page that an agent uses is mapped. -/
theorem mp_cases {p a e} : mp p = some (a, e) →
    clm p = some e ∨ pas p = some (a, e) ∨ ldr p = some (a, e) ∨ wbo p = some e := by
  intro h; unfold mp at h; split at h <;> simp_all [clm, pas, ldr, wbo]
theorem nl_cases {p e} : nl p = some e → clm p = some e ∨ (∃ a, pas p = some (a, e)) ∨ wbo p = some e := by
  intro h; unfold nl at h; split at h <;> simp_all [clm, pas, wbo]
theorem mp_nl {p a e} : mp p = some (a, e) → nl p = some e ∨ ldr p = some (a, e) := by
  intro h; unfold mp at h; split at h <;> simp_all [nl, ldr]
theorem ad_nl {p a e} : ad p = some (a, e) → nl p = some e ∨ ldr p = some (a, e) := by
  cases p <;> simp [ad, nl, ldr] <;> tauto
theorem clm_nl {p e} : clm p = some e → nl p = some e ∨ bent p = some e := by
  intro h; unfold clm at h; split at h <;> simp_all [nl, bent]
theorem alc_um {p e} : alc p = some e → um p = some e := by cases p <;> simp [alc, um]
theorem exF_nl {p e} : exF p = some e → nl p = some e := by cases p <;> simp [exF, nl]
theorem nl_mp {p e} : nl p = some e → clm p = some e ∨ (∃ a, mp p = some (a, e)) ∨ wbo p = some e := by
  intro h; unfold nl at h; split at h <;> simp_all [clm, mp, wbo]
theorem nowb_clm {p e} : nowb p = some e → clm p = some e := by cases p <;> simp [nowb, clm]
theorem wbo_mp {p e} : wbo p = some e → p = .wbAd e ∨ ∃ a, mp p = some (a, e) := by cases p <;> simp [wbo, mp]
theorem wbo_nl {p e} : wbo p = some e → nl p = some e := by cases p <;> simp [wbo, nl]

end Splinter.Cache
