import Verif.Proof.CacheStep4

/-!
The invariant of the page cache holds in every reachable state.
-/
namespace Splinter.Cache

theorem inv_step {P : Par} {s s' : State} {t : Nat} (hP : P.ok = true) (h : Inv P s) (ht : t < P.n) (st : Step P s t s') :
    Inv P s' := by
  cases st with
  | acquire b h1 h2 => exact m_own h h1 (.inl h2)
  | release b h1 h2 => exact m_own h h1 (.inr h2)
  | give b i h1 h2 h3 => exact m_own h h1 (.inr h2)
  | get a h1 h2 => exact m_get h h1 ht h2
  | gHit a e h1 h2 => exact m_gHit h h1
  | gMiss a m h1 h2 h3 =>
    cases m with
    | get => exact m_gMiss1 h h1
    | pre => exact m_gMiss2 h h1
    | new => exact absurd rfl h3
  | rTest p e h1 h2 => exact m_rTest h h1
  | rConf p e h1 h2 => exact m_rConf h h1
  | rInc p e h1 => exact m_rInc h h1
  | rFree p e h1 => exact m_rFree h h1
  | rPass p e h1 h2 => exact m_rPass h h1 h2
  | rFail p e f h1 h2 => exact m_rFail h h1
  | rDec e h1 => exact m_rDec h h1
  | gAddr a e h1 h2 => exact m_gAddr h h1 h2
  | gOther a e h1 => exact m_gOther h h1
  | gLoaded a e h1 h2 => exact m_gLoaded h h1 h2
  | gBusy a e h1 h2 => exact m_gBusy h h1
  | unget a e h1 => exact m_unget h h1
  | claim a e h1 h2 => exact m_claim h h1 h2
  | unclaim a e h1 => exact m_unclaim h h1
  | lock a e h1 => exact m_lock h h1
  | write a e m v h1 => exact m_write h h1
  | mark a e m h1 => exact m_mark h h1
  | unlock a e m h1 h2 => exact m_unlock h h1 h2
  | wSet p e h1 => exact m_wSet h h1
  | wWb p e h1 h2 => exact m_wWb h h1 h2
  | wWbX e h1 h2 => exact m_wWbX h h1
  | wRef p e k h1 h2 h3 => exact m_wRef h h1 h3
  | wRefX e k h1 h2 h3 => exact m_wRefX h h1
  | wDone p e k h1 h2 => exact m_wDone h h1 h2
  | evict e h1 h2 => exact m_evict h h1 h2 ht
  | eClaim e h1 h2 => exact m_eClaim h h1 h2
  | eConf e h1 h2 => exact m_eConf h h1
  | eLoad e h1 h2 => exact m_eLoad h h1 h2
  | eLoadX e h1 h2 => exact m_eLoadX h h1
  | eStat e a h1 h2 h3 => exact m_eStat h h1 h2 h3
  | eStat0 e h1 h2 h3 => exact m_eStat0 h h1 h2 h3
  | eStatX e h1 => exact m_eStatX h h1
  | eLk e a h1 => exact m_eLk h h1
  | eAd e a h1 => exact m_eAd h h1
  | eFr e h1 => exact m_eFr h h1
  | xW e h1 => exact m_xW h h1
  | xC e h1 => exact m_xC h h1
  | disc a h1 h2 => exact m_disc h h1 ht h2
  | dHit a e h1 h2 => exact m_dHit h h1
  | dMiss a h1 h2 => exact m_dMiss h h1
  | dLoad a e h1 h2 => exact m_dLoad h h1
  | dAddr a e h1 h2 => exact m_dAddr h h1 h2
  | dOther a e h1 h2 => exact m_dOther h h1
  | dClaim a e h1 h2 => exact m_dClaim h h1 h2
  | dConf a e h1 h2 => exact m_dConf h h1
  | dLk a e h1 => exact m_dLk h h1
  | dAd a e h1 => exact m_dAd h h1
  | dFr a e h1 => exact m_dFr h h1
  | new a h1 h2 h3 => exact m_new h h1 ht h2 h3
  | take m a e h1 h2 h3 => exact m_take h h1 h2 h3
  | full m a h1 h2 => exact m_full h h1
  | aInc m a e h1 h2 => exact m_aInc h h1 h2
  | aIncP a e h1 => exact m_aIncP h h1
  | aStat m a e h1 =>
    cases m with
    | get => exact m_aStatG h h1
    | pre => exact m_aStatP h h1
    | new => exact m_aStatN h h1
  | gCas a e h1 h2 => exact m_gCas h h1 h2
  | gCasX a e h1 h2 => exact m_gCasX h h1
  | gCasY a e h1 h2 => exact m_gCasY h h1
  | gAb1 a e h1 => exact m_gAb1 h h1
  | gAb2 a e h1 => exact m_gAb2 h h1
  | gAb3 a e h1 => exact m_gAb3 h h1
  | gSet a e h1 => exact m_gSet h h1
  | gReq a e h1 => exact m_gReq h h1
  | gRead a e h1 => exact m_gRead h h1
  | gClr a e h1 => exact m_gClr h h1
  | noReq a e h1 => exact m_noReq h h1
  | nA1 a e h1 => exact m_nA1 h h1
  | nA2 a e h1 => exact m_nA2 h h1
  | nA3 a e h1 h2 => exact m_nA3 h h1 (h2 hP)
  | pSet a e h1 => exact m_pSet h h1
  | pCas a e h1 h2 => exact m_pCas h h1 h2
  | pCasX a e h1 h2 => exact m_pCasX h h1
  | pAb1 a e h1 => exact m_pAb1 h h1
  | pAb2 a e h1 h2 => exact m_pAb2 h h1 (h2 hP)
  | pRead a e h1 => exact m_pRead h h1
  | pClr a e h1 => exact m_pClr h h1
  | lSet a e h1 => exact m_lSet h h1
  | lLk a e h1 => exact m_lLk h h1
  | wb e h1 h2 => exact m_setWb h h1 ht h2 (.inl rfl) (.inl rfl)
  | wbAd e a h1 h2 => exact m_wbAd h h1 h2
  | wbAd0 e h1 h2 => exact m_wbAd0 h h1 h2
  | wbIov a e e2 h1 h2 => exact m_wbIov h h1 h2
  | wbIov0 a e h1 h2 => exact m_wbIov0 h h1 h2
  | wbIo a e h1 => exact m_wbIo h h1
  | wbCln a e h1 => exact m_wbCln h h1
  | wbClr a e h1 => exact m_wbClr h h1
  | sync i a e h1 h2 h3 =>
    have hm := (h.loc i).mp a e (by rw [h2]; rfl)
    exact m_setWb h h1 ht h3 (.inl rfl) (.inr ⟨a, hm.1, hm.2, .inr rfl⟩)
  | near a b h1 => exact m_near h h1 ht
  | nHit a b e h1 h2 => exact m_nHit h h1
  | nMiss a b h1 h2 => exact m_nMiss h h1
  | nCas a e b h1 h2 h3 =>
    obtain ⟨a', h4, h5⟩ := dirty_map h h2
    rw [h3 hP] at h4; cases h4
    refine m_setWb h h1 ht h2 (.inr ⟨a, b, rfl⟩) (.inr ⟨a, h3 hP, h5, ?_⟩)
    cases b <;> simp
  | nCasX a e b h1 h2 => exact m_nCasX h h1

theorem inv_init {P : Par} {s : State} (h : Init s) : Inv P s := by
  have hi : ∀ i, s.pc i = .idle := h.pc
  have he : ∀ e, (s.ent e).free = true ∧ (s.ent e).loading = false ∧ (s.ent e).addr = none := by
    intro e
    have := h.ent e
    simp [Entry.isFree] at this
    tauto
  refine ⟨fun i => ?_, fun i j _ => ?_, ?_, ?_⟩
  · rw [hi]
    constructor <;> cls
  · rw [hi, hi]
    refine mkPair ?_ ?_ ?_ ?_ ?_ ?_ ?_ <;> cls
  · constructor
    · intro e _; exact ⟨(he e).2.1, (he e).2.2, fun a => by rw [h.look]; simp⟩
    · intro e a x; simp [(he e).2.2] at x
    · intro e a x; simp [h.look] at x
    · intro e x; simp [(he e).1] at x
    · intro e x; simp [(he e).2.1] at x
    · intro j a e x; simp [hi] at x
    · intro e a x; simp [(he e).2.2] at x
    · intro a; exact .inl (h.cur a).symm
  · intro e k
    rw [h.cnt]
    symm
    rw [List.countP_eq_zero]
    intro i _
    rw [hi]
    cls

theorem inv_reachable {P : Par} {s : State} (hP : P.ok = true) (h : Reachable P s) : Inv P s := by
  induction h with
  | init h => exact inv_init h
  | step _ ht st ih => exact inv_step hP ih ht st

end Splinter.Cache
