import Verif.Proof.StoreExec
import Verif.Props.Trunk
/-!
# C56: inserts and lookups of concurrent threads are linearizable

An execution is a sequence of steps of any number of threads, each step one access to shared memory or one maintenance
action on the trunk, in any order. The specification does not mention memtables or the trunk: there is a way to let each write take
effect at one step between its call and its return, so that each lookup reports what is left of the writes that took
effect before some moment between its own call and return.

The theorems have the suffix `_partial` because `Legal` asks of maintenance what C01 asks of it (`Trunk.Legal`).
-/
namespace Splinter.Store
open Splinter.Spec (eval UpdateSem Implements report)
open Memtable (Res)

variable {K V F : Type} [LinearOrder K]

/-- `n` steps from the empty store: state before each step, thread, action, and what is reported. -/
structure Exec (P : Par K V F) where
  n : Nat
  st : Nat → St K V F
  who : Nat → Nat
  act : Nat → Act K V
  out : Nat → Out V
  start : st 0 = init P
  next : ∀ i, i < n → step P (st i) (who i) (act i) = .ok (st (i + 1), out i)
  legal : ∀ i, i < n → Legal P (st i) (act i)

namespace Spec
variable {P : Par K V F}

/-- Thread `t` makes a call at step `i` and step `j` is the first to report something to it. -/
structure Call (e : Exec P) (t i j : Nat) : Prop where
  lt : i < j
  le : j < e.n
  call : e.who i = t
  ret : e.who j = t
  quiet : ∀ x, i ≤ x → x < j → e.who x = t → e.out x = .nothing

/-- The writes that took effect in the first `p` steps, to one key, in order. `ef` says which write takes effect at a step. -/
def effects (ef : Nat → Option (K × Msg V)) (p : Nat) (k : K) : List (Msg V) :=
  (((List.range p).filterMap ef).filter (·.1 = k)).map (·.2)

/-- Each write takes effect once, between call and return, or not at all if it reports an error; each lookup reports what the writes that took effect
before some moment between its call and its return have left. -/
structure Linearization (sem : UpdateSem K V) (e : Exec P) (ef : Nat → Option (K × Msg V)) : Prop where
  accepted : ∀ t i j k m, Call e t i j → e.act i = .insert k m → e.out j = .inserted true →
    ∃ p, i < p ∧ p < j ∧ e.who p = t ∧ ef p = some (k, m) ∧ ∀ x, i ≤ x → x ≤ j → e.who x = t → x ≠ p → ef x = none
  busy : ∀ t i j k m, Call e t i j → e.act i = .insert k m → e.out j = .inserted false → ∀ x, i ≤ x → x ≤ j → e.who x = t → ef x = none
  refused : ∀ i, i < e.n → e.out i = .refused → ef i = none
  source : ∀ p, p < e.n → ∀ k m, ef p = some (k, m) →
    ∃ i, i < p ∧ e.who i = e.who p ∧ e.act i = .insert k m ∧ ∀ x, i ≤ x → x ≤ p → e.who x = e.who p → e.out x = .nothing
  lookup : ∀ t i j k r, Call e t i j → e.act i = .lookup k → e.out j = .looked r →
    ∃ p, i < p ∧ p ≤ j ∧ r = report (eval sem k (effects ef p k))

end Spec
open Splinter.Store.Spec (Call effects Linearization)

variable {P : Par K V F} {sem : UpdateSem K V}

theorem Exec.ok {L : Trunk.FilterLaws P.ops} (hN : 2 ≤ P.N) (H : Implements P.cfg sem) (hlt : P.lo < P.hi) (e : Exec P) : ∀ i, i ≤ e.n → Ok L sem (e.st i)
  | 0, _ => by rw [e.start]; exact ok_init hlt
  | i + 1, h => by
    have ih := e.ok (L := L) hN H hlt i (by omega)
    refine move_ok hN H ih (e.legal i h) (step_move (fun n hn => ?_) (e.next i h))
    obtain ⟨l, hl, _⟩ := ih.looks _ n hn
    exact ⟨l, hl⟩

theorem Exec.move (L : Trunk.FilterLaws P.ops) (hN : 2 ≤ P.N) (H : Implements P.cfg sem) (hlt : P.lo < P.hi) (e : Exec P) {i : Nat} (h : i < e.n) :
    Move P (e.st i) (e.who i) (e.act i) (e.st (i + 1)) (e.out i) :=
  step_move (fun n hn => let ⟨l, hl, _⟩ := (e.ok (L := L) hN H hlt i (Nat.le_of_lt h)).looks _ n hn; ⟨l, hl⟩) (e.next i h)

/-- The write that takes effect at a step: the one that is put into a memtable. -/
def Exec.effect (e : Exec P) (p : Nat) : Option (K × Msg V) := ((e.st (p + 1)).m.log.drop (e.st p).m.log.length).head?.map (·.2.2)

theorem effect_none (e : Exec P) {p : Nat} (h : (e.st (p + 1)).m.log = (e.st p).m.log) : e.effect p = none := by
  unfold Exec.effect; rw [h]; simp

theorem effect_some (e : Exec P) {p g t : Nat} {x : K × Msg V} (h : (e.st (p + 1)).m.log = (e.st p).m.log ++ [(g, t, x)]) : e.effect p = some x := by
  unfold Exec.effect; rw [h]; simp

/-- An insert of a key that is too long is refused at once. -/
theorem insert_refused (e : Exec P) {i : Nat} (hi : i < e.n) {k : K} {m : Msg V} (ha : e.act i = .insert k m) (hk : P.keyOk k = false) : e.out i = .refused := by
  have hst := e.next i hi
  rw [ha] at hst
  simp only [step, hk, Bool.false_eq_true, if_false] at hst
  split at hst
  · simp only [Res.ok.injEq, Prod.mk.injEq] at hst; exact hst.2.symm
  · cases hst

theorem call_keyOk {e : Exec P} {t i j : Nat} {k : K} {m : Msg V} (hc : Call e t i j) (ha : e.act i = .insert k m) : P.keyOk k = true := by
  by_contra hk
  have := insert_refused e (show i < e.n by have := hc.lt; have := hc.le; omega) ha (by simpa using hk)
  rw [hc.quiet i (Nat.le_refl _) hc.lt hc.call] at this
  cases this

section
variable (L : Trunk.FilterLaws P.ops) (hN : 2 ≤ P.N) (H : Implements P.cfg sem) (hlt : P.lo < P.hi) (e : Exec P)
include L hN H hlt

theorem effects_log : ∀ p, p ≤ e.n → (List.range p).filterMap e.effect = (e.st p).m.log.map (·.2.2)
  | 0, _ => by rw [e.start]; rfl
  | p + 1, h => by
    rw [List.range_succ, List.filterMap_append, effects_log p (by omega)]
    rcases move_log (e.move L hN H hlt h) with h1 | ⟨g, x, _, _, h1⟩
    · simp [effect_none e h1, h1]
    · simp [effect_some e h1, h1]

theorem effects_eq {p : Nat} (h : p ≤ e.n) (k : K) : effects e.effect p k = ofKey k ((e.st p).m.log.map (·.2.2)) := by
  unfold effects ofKey; rw [effects_log L hN H hlt e p h]

/-- The thread of a call of insert: nothing has taken effect, or the message has, once. -/
theorem insert_track {t i j : Nat} {k : K} {m : Msg V} (hc : Call e t i j) (ha : e.act i = .insert k m) (hk : P.keyOk k = true) :
    ∀ d, i + 1 + d ≤ j → ((e.st (i + 1 + d)).m.pc t).payload = some (k, m) ∧
      (((∀ y, (e.st (i + 1 + d)).m.pc t ≠ .put2 y) ∧ ∀ x, i ≤ x → x < i + 1 + d → e.who x = t → e.effect x = none) ∨
       ((∃ y, (e.st (i + 1 + d)).m.pc t = .put2 y) ∧ ∃ p, i < p ∧ p < i + 1 + d ∧ e.who p = t ∧ e.effect p = some (k, m) ∧
          ∀ x, i ≤ x → x < i + 1 + d → e.who x = t → x ≠ p → e.effect x = none))
  | 0, h => by
    have hlt' : i < e.n := by have := hc.lt; have := hc.le; omega
    have hm := e.move L hN H hlt hlt'
    rw [hc.call, ha] at hm
    generalize hs' : e.st (i + 1) = s' at hm
    generalize ho : e.out i = o at hm
    have hlog : s'.m.log = (e.st i).m.log ∧ s'.m.pc t = .begin (k, m) := by
      have hst := e.next i hlt'
      rw [ha, hc.call, hs'] at hst
      simp only [step, hk, if_true] at hst
      obtain ⟨m', e1, e2, -⟩ := mem_ok hst
      have hp := step_idle e1 (by simp)
      simp only [Memtable.step, hp, Res.ok.injEq] at e1
      rw [e2, ← e1]
      exact ⟨rfl, by simp⟩
    simp only [Nat.add_zero]
    refine ⟨by rw [hlog.2]; rfl, .inl ⟨by rw [hlog.2]; simp, fun x h1 h2 _ => ?_⟩⟩
    obtain rfl : x = i := by omega
    exact effect_none e (by rw [hs']; exact hlog.1)
  | d + 1, h => by
    obtain ⟨ih1, ih2⟩ := insert_track hc ha hk d (by omega)
    have hlt' : i + 1 + d < e.n := by have := hc.le; omega
    have hm := e.move L hN H hlt hlt'
    rw [show i + 1 + (d + 1) = i + 1 + d + 1 by omega]
    generalize hq : i + 1 + d = q at *
    by_cases hw : e.who q = t
    · rw [hw] at hm
      have hqo := hc.quiet q (by omega) (by omega) hw
      rcases move_insert hm ih1 with ⟨_, h2, h3⟩ | ⟨h2, h3⟩
      · refine ⟨h2, ?_⟩
        rcases h3 with ⟨h3, h4⟩ | ⟨h3, h4⟩
        · rw [h3]
          have he := effect_none e h4
          rcases ih2 with ⟨i1, i2⟩ | ⟨i1, p, i2, i3, i4, i5, i6⟩
          · refine .inl ⟨i1, fun x x1 x2 x3 => ?_⟩
            rcases Nat.lt_or_eq_of_le (Nat.lt_succ_iff.mp x2) with x4 | rfl
            · exact i2 x x1 x4 x3
            · exact he
          · refine .inr ⟨i1, p, i2, by omega, i4, i5, fun x x1 x2 x3 x4 => ?_⟩
            rcases Nat.lt_or_eq_of_le (Nat.lt_succ_iff.mp x2) with x5 | rfl
            · exact i6 x x1 x5 x3 x4
            · exact he
        · rcases ih2 with ⟨i1, i2⟩ | ⟨⟨y, i1⟩, -⟩
          · by_cases hput : ∀ y, (e.st (q + 1)).m.pc t ≠ .put2 y
            · have he := effect_none e (h4.mp hput)
              refine .inl ⟨hput, fun x x1 x2 x3 => ?_⟩
              rcases Nat.lt_or_eq_of_le (Nat.lt_succ_iff.mp x2) with x4 | rfl
              · exact i2 x x1 x4 x3
              · exact he
            · have hne : ¬ (e.st (q + 1)).m.log = (e.st q).m.log := fun hx => hput (h4.mpr hx)
              rcases move_log hm with hx | ⟨g, x, hx1, hx2, hx3⟩
              · exact absurd hx hne
              · have hxe : x = (k, m) := by rw [hx2] at h2; exact Option.some.inj h2
                subst hxe
                refine .inr ⟨⟨_, hx2⟩, q, by omega, by omega, hw, effect_some e hx3, fun x x1 x2 x3 x4 => ?_⟩
                exact i2 x x1 (by omega) x3
          · exact absurd i1 (h3 y)
      · rcases h3 with ⟨h3, -⟩ | ⟨h3, -⟩ <;> rw [hqo] at h3 <;> cases h3
    · have hpc := (move_other hm (fun e' => hw e'.symm)).1
      rw [hpc]
      refine ⟨ih1, ?_⟩
      rcases ih2 with ⟨i1, i2⟩ | ⟨i1, p, i2, i3, i4, i5, i6⟩
      · refine .inl ⟨i1, fun x x1 x2 x3 => ?_⟩
        rcases Nat.lt_or_eq_of_le (Nat.lt_succ_iff.mp x2) with x4 | rfl
        · exact i2 x x1 x4 x3
        · exact absurd x3 hw
      · refine .inr ⟨i1, p, i2, by omega, i4, i5, fun x x1 x2 x3 x4 => ?_⟩
        rcases Nat.lt_or_eq_of_le (Nat.lt_succ_iff.mp x2) with x5 | rfl
        · exact i6 x x1 x5 x3 x4
        · exact absurd x3 hw

/-- A thread that is in an insert has called it. -/
theorem payload_source : ∀ p, p ≤ e.n → ∀ t x, ((e.st p).m.pc t).payload = some x →
    ∃ i, i < p ∧ e.who i = t ∧ e.act i = .insert x.1 x.2 ∧ ∀ y, i ≤ y → y < p → e.who y = t → e.out y = .nothing
  | 0, _, t, x, hx => by rw [e.start] at hx; cases hx
  | p + 1, h, t, x, hx => by
    have hm := e.move L hN H hlt h
    rcases move_payload hm hx with ⟨h1, h2⟩ | ⟨h1, -, h2, -, h3⟩
    · obtain ⟨i, i1, i2, i3, i4⟩ := payload_source p (by omega) t x h1
      refine ⟨i, by omega, i2, i3, fun y y1 y2 y3 => ?_⟩
      rcases Nat.lt_or_eq_of_le (Nat.lt_succ_iff.mp y2) with y4 | rfl
      · exact i4 y y1 y4 y3
      · exact h2 y3.symm
    · refine ⟨p, by omega, h1.symm, h2, fun y y1 y2 _ => ?_⟩
      obtain rfl : y = p := by omega
      exact h3

/-- A thread in a lookup. -/
theorem lookup_track {t i j : Nat} {k : K} (hc : Call e t i j) (ha : e.act i = .lookup k) :
    ∀ d, i + 1 + d ≤ j → lkN ((e.st (i + 1 + d)).m.pc t) = some (e.st i).m.log.length ∧ ∃ l, (e.st (i + 1 + d)).look t = some l ∧ l.key = k
  | 0, h => by
    have hlt' : i < e.n := by have := hc.lt; have := hc.le; omega
    have hst := e.next i hlt'
    rw [ha, hc.call] at hst
    simp only [step] at hst
    obtain ⟨m', e1, e2, -⟩ := memLook_ok hst
    have hp := step_idle e1 (by simp)
    simp only [Memtable.step, hp, Res.ok.injEq] at e1
    simp only [Nat.add_zero]
    rw [e2, ← e1]
    exact ⟨by simp [lkN], ⟨k, none, none⟩, by simp [Memtable.upd], rfl⟩
  | d + 1, h => by
    obtain ⟨ih1, l, ih2, ih3⟩ := lookup_track hc ha d (by omega)
    have hlt' : i + 1 + d < e.n := by have := hc.le; omega
    have hm := e.move L hN H hlt hlt'
    rw [show i + 1 + (d + 1) = i + 1 + d + 1 by omega]
    generalize hq : i + 1 + d = q at *
    by_cases hw : e.who q = t
    · rw [hw] at hm
      have hqo := hc.quiet q (by omega) (by omega) hw
      rcases move_lookup hm ih1 ih2 with ⟨_, h2, l', h3, h4⟩ | ⟨h2, -⟩
      · exact ⟨h2, l', h3, h4.trans ih3⟩
      · rw [hqo] at h2; cases h2
    · obtain ⟨h1, h2⟩ := move_other hm (fun e' => hw e'.symm)
      rw [h1, h2]
      exact ⟨ih1, l, ih2, ih3⟩

/-- The log passes through all its prefixes. -/
theorem log_prefix {a : Nat} : ∀ d, a + d ≤ e.n → ∀ L', L' <+: (e.st (a + d)).m.log → (e.st a).m.log.length ≤ L'.length →
    ∃ p, a ≤ p ∧ p ≤ a + d ∧ (e.st p).m.log = L'
  | 0, _, L', h1, h2 => ⟨a, Nat.le_refl _, Nat.le_refl _, (h1.eq_of_length_le h2).symm⟩
  | d + 1, h, L', h1, h2 => by
    have hm := e.move L hN H hlt (i := a + d) (by omega)
    by_cases hx : L' <+: (e.st (a + d)).m.log
    · obtain ⟨p, p1, p2, p3⟩ := log_prefix d (by omega) L' hx h2
      exact ⟨p, p1, by omega, p3⟩
    · refine ⟨a + (d + 1), by omega, Nat.le_refl _, ?_⟩
      rcases move_log hm with h3 | ⟨g, x, _, _, h3⟩
      · rw [← Nat.add_assoc, h3] at h1; exact absurd h1 hx
      · rw [← Nat.add_assoc, h3] at h1 ⊢
        rcases List.prefix_concat_iff.mp (by simpa using h1) with h4 | h4
        · rw [h4]
        · exact absurd h4 hx

/-- C56. Every execution has a linearization. -/
theorem linearizable_partial : ∃ ef, Linearization sem e ef := by
  refine ⟨e.effect, ?_, ?_, ?_, ?_, ?_⟩
  · intro t i j k m hc ha ho
    have hkk := call_keyOk hc ha
    have hj : i + 1 + (j - i - 1) = j := by have := hc.lt; omega
    obtain ⟨h1, h2⟩ := insert_track L hN H hlt e hc ha hkk (j - i - 1) (by omega)
    rw [hj] at h1 h2
    have hm := e.move L hN H hlt hc.le
    rw [hc.ret, ho] at hm
    rcases move_insert hm h1 with ⟨h3, -⟩ | ⟨h3, h4⟩
    · cases h3
    · rcases h4 with ⟨-, y, h4⟩ | ⟨h4, -⟩
      · rcases h2 with ⟨h2, -⟩ | ⟨-, p, p1, p2, p3, p4, p5⟩
        · exact absurd h4 (h2 y)
        · refine ⟨p, p1, p2, p3, p4, fun x x1 x2 x3 x4 => ?_⟩
          rcases Nat.lt_or_eq_of_le x2 with x5 | rfl
          · exact p5 x x1 x5 x3 x4
          · exact effect_none e h3
      · cases h4
  · intro t i j k m hc ha ho
    have hj : i + 1 + (j - i - 1) = j := by have := hc.lt; omega
    obtain ⟨h1, h2⟩ := insert_track L hN H hlt e hc ha (call_keyOk hc ha) (j - i - 1) (by omega)
    rw [hj] at h1 h2
    have hm := e.move L hN H hlt hc.le
    rw [hc.ret, ho] at hm
    rcases move_insert hm h1 with ⟨h3, -⟩ | ⟨h3, h4⟩
    · cases h3
    · rcases h4 with ⟨h4, -⟩ | ⟨-, h4⟩
      · cases h4
      · rcases h2 with ⟨-, h2⟩ | ⟨⟨y, h2⟩, -⟩
        · intro x x1 x2 x3
          rcases Nat.lt_or_eq_of_le x2 with x5 | rfl
          · exact h2 x x1 x5 x3
          · exact effect_none e h3
        · exact absurd h2 (h4 y)
  · intro i hi ho
    have hm := e.move L hN H hlt hi
    rcases move_log hm with h1 | ⟨g, x, h1, h2, h3⟩
    · exact effect_none e h1
    · have hpay : ((e.st i).m.pc (e.who i)).payload = some x := by rw [h1]; rfl
      rcases move_insert hm hpay with ⟨h4, -⟩ | ⟨h4, -⟩
      · rw [ho] at h4; cases h4
      · rw [h3] at h4; simp at h4
  · intro p hp k m hef
    have hm := e.move L hN H hlt hp
    rcases move_log hm with h1 | ⟨g, x, h1, h2, h3⟩
    · rw [effect_none e h1] at hef; cases hef
    · rw [effect_some e h3] at hef
      obtain rfl := Option.some.inj hef
      have hpay : ((e.st p).m.pc (e.who p)).payload = some (k, m) := by rw [h1]; rfl
      obtain ⟨i, i1, i2, i3, i4⟩ := payload_source L hN H hlt e p (by omega) _ _ hpay
      refine ⟨i, i1, i2, i3, fun y y1 y2 y3 => ?_⟩
      rcases Nat.lt_or_eq_of_le y2 with y4 | rfl
      · exact i4 y y1 y4 y3
      · rcases move_insert hm hpay with ⟨h4, -⟩ | ⟨h4, -⟩
        · exact h4
        · rw [h3] at h4; simp at h4
  · intro t i j k r hc ha ho
    have hj : i + 1 + (j - i - 1) = j := by have := hc.lt; omega
    obtain ⟨h1, l, h2, h3⟩ := lookup_track L hN H hlt e hc ha (j - i - 1) (by omega)
    rw [hj] at h1 h2
    have hm := e.move L hN H hlt hc.le
    rw [hc.ret, ho] at hm
    rcases move_lookup hm h1 h2 with ⟨h4, -⟩ | ⟨h4, h5⟩
    · exact absurd rfl (h4 r)
    · obtain ⟨L', c1, c2, c3⟩ := look_result hN H (e.ok (L := L) hN H hlt j (Nat.le_of_lt hc.le)) h2 h5
      have hlog : (e.st (i + 1)).m.log = (e.st i).m.log := by
        have hst := e.next i (by have := hc.lt; have := hc.le; omega)
        rw [ha, hc.call] at hst
        simp only [step] at hst
        obtain ⟨m', e1, e2, -⟩ := memLook_ok hst
        have hp := step_idle e1 (by simp)
        simp only [Memtable.step, hp, Res.ok.injEq] at e1
        rw [e2, ← e1]
        rfl
      obtain ⟨p, p1, p2, p3⟩ := log_prefix L hN H hlt e (a := i + 1) (j - i - 1) (by have := hc.le; omega) L' (by rw [hj]; exact c1) (by rw [hlog]; exact c2)
      refine ⟨p, by omega, by omega, ?_⟩
      rw [effects_eq L hN H hlt e (by have := hc.le; omega), p3]
      injection h4 with h4
      rw [h4, c3, h3]

/-- C56. No assertion fails, no callback is used wrongly, whatever the next step of whichever thread is. -/
theorem no_fault_partial {i : Nat} (hi : i ≤ e.n) (t : Nat) (a : Act K V) : step P (e.st i) t a ≠ .fault :=
  ok_no_fault hN H (e.ok (L := L) hN H hlt i hi) t a

end

/-! ### A concrete execution -/

/-- The state after `i` steps of a list, and what the last of them reported. -/
def trace (P : Par K V F) (as : List (Nat × Act K V)) : Nat → Option (St K V F × Out V)
  | 0 => some (init P, .nothing)
  | i + 1 =>
    match trace P as i, as[i]? with
    | some s, some a => match step P s.1 a.1 a.2 with
      | .ok x => some x
      | _ => none
    | _, _ => none

/-- A check that implies `Legal`. -/
def legalB (P : Par Nat Nat (List (Nat × Nat))) (s : St Nat Nat (List (Nat × Nat))) : Act Nat Nat → Bool
  | .insert k _ | .lookup k => decide (P.lo ≤ k ∧ k < P.hi)
  | .maint (.flush j k) => decide (P.lo ≤ k ∧ k < P.hi) && Trunk.flushLegalB s.t j k
  | .maint (.filters _) => true
  | .maint _ => false
  | _ => true

def checkB (P : Par Nat Nat (List (Nat × Nat))) : St Nat Nat (List (Nat × Nat)) → List (Nat × Act Nat Nat) → Bool
  | _, [] => true
  | s, a :: as => legalB P s a.2 && match step P s a.1 a.2 with
    | .ok x => checkB P x.1 as
    | _ => false

/-- What is reported, with the step and the thread. -/
def reports (P : Par Nat Nat (List (Nat × Nat))) : Nat → St Nat Nat (List (Nat × Nat)) → List (Nat × Act Nat Nat) → List (Nat × Nat × Out Nat)
  | _, _, [] => []
  | i, s, a :: as => match step P s a.1 a.2 with
    | .ok x => (match x.2 with | .nothing => [] | o => [(i, a.1, o)]) ++ reports P (i + 1) x.1 as
    | _ => []

def demoPar : Par Nat Nat (List (Nat × Nat)) := ⟨2, counterCfg, Trunk.setFilter, fun k => decide (k < 50), 0, 100⟩

def gos (t n : Nat) : List (Nat × Act Nat Nat) := List.replicate n (t, .go false)

/-- Thread 0 writes, finds the memtable full and writes into the next; thread 1 looks up the key three times; thread 2 incorporates the first memtable;
thread 3 flushes the root to the leaf. -/
def demo : List (Nat × Act Nat Nat) :=
  [(0, .insert 5 ⟨.insert, 3⟩)] ++ gos 0 6 ++
  [(0, .insert 60 ⟨.insert, 3⟩)] ++
  [(0, .insert 5 ⟨.update, 4⟩)] ++ gos 0 3 ++ [(0, .go true)] ++ gos 0 7 ++
  [(1, .lookup 5)] ++ gos 1 2 ++
  [(2, .flush 0)] ++ gos 2 6 ++
  gos 0 6 ++
  gos 1 6 ++
  gos 2 8 ++
  [(1, .lookup 5)] ++ gos 1 7 ++
  [(3, .maint (.filters 0)), (3, .maint (.flush 0 5))] ++
  [(0, .insert 5 ⟨.delete, 0⟩)] ++ gos 0 6 ++
  gos 1 2 ++
  [(1, .lookup 5)] ++ gos 1 6

theorem legalB_sound {P : Par Nat Nat (List (Nat × Nat))} {s : St Nat Nat (List (Nat × Nat))} {a : Act Nat Nat} (h : legalB P s a = true) : Legal P s a := by
  cases a with
  | insert k m => exact of_decide_eq_true (p := P.lo ≤ k ∧ k < P.hi) h
  | lookup k => exact of_decide_eq_true (p := P.lo ≤ k ∧ k < P.hi) h
  | maint o =>
    cases o with
    | flush j k =>
      obtain ⟨h1, h2⟩ := (Bool.and_eq_true _ _).mp h
      exact ⟨(of_decide_eq_true h1).1, (of_decide_eq_true h1).2, Trunk.flushLegalB_sound h2⟩
    | filters n => trivial
    | _ => cases h
  | _ => trivial

theorem trace_ok {P : Par Nat Nat (List (Nat × Nat))} {as : List (Nat × Act Nat Nat)} (h : checkB P (init P) as = true) :
    ∀ i, i ≤ as.length → ∃ x, trace P as i = some x ∧ checkB P x.1 (as.drop i) = true
  | 0, _ => ⟨_, rfl, h⟩
  | i + 1, hi => by
    obtain ⟨x, h1, h2⟩ := trace_ok h i (by omega)
    have ha : as[i]? = some as[i] := List.getElem?_eq_getElem (by omega)
    rw [List.drop_eq_getElem_cons (by omega), checkB] at h2
    obtain ⟨-, h3⟩ := (Bool.and_eq_true _ _).mp h2
    split at h3
    · next y hy => exact ⟨y, by simp only [trace, h1, ha, hy], h3⟩
    · cases h3

/-- The execution of a list of steps that passes the check. -/
def Exec.ofList {P : Par Nat Nat (List (Nat × Nat))} (as : List (Nat × Act Nat Nat)) (h : checkB P (init P) as = true) : Exec P where
  n := as.length
  st i := ((trace P as i).map (·.1)).getD (init P)
  who i := (as[i]?.map (·.1)).getD 0
  act i := (as[i]?.map (·.2)).getD .iter
  out i := ((trace P as (i + 1)).map (·.2)).getD .nothing
  start := rfl
  next i hi := by
    obtain ⟨x, h1, h2⟩ := trace_ok h i (Nat.le_of_lt hi)
    have ha : as[i]? = some as[i] := List.getElem?_eq_getElem hi
    rw [List.drop_eq_getElem_cons hi, checkB] at h2
    obtain ⟨-, h3⟩ := (Bool.and_eq_true _ _).mp h2
    split at h3
    · next y hy =>
      have h4 : trace P as (i + 1) = some y := by simp only [trace, h1, ha, hy]
      simp only [h1, h4, ha, Option.map_some, Option.getD_some, hy]
    · cases h3
  legal i hi := by
    obtain ⟨x, h1, h2⟩ := trace_ok h i (Nat.le_of_lt hi)
    have ha : as[i]? = some as[i] := List.getElem?_eq_getElem hi
    rw [List.drop_eq_getElem_cons hi, checkB] at h2
    obtain ⟨h3, -⟩ := (Bool.and_eq_true _ _).mp h2
    simp only [h1, ha, Option.map_some, Option.getD_some]
    exact legalB_sound h3

theorem demo_check : checkB demoPar (init demoPar) demo = true := by decide +kernel

/-- The lookup that began before the second write returned has seen it; the second goes on in the old trunk and does not see the delete that returned before it; the third does.
The insert of a key that is too long is refused. -/
theorem demo_reports : reports demoPar 0 (init demoPar) demo = [(6, 0, .inserted true), (7, 0, .refused), (35, 0, .inserted true),
    (41, 1, .looked (.found 7)), (49, 2, .other), (66, 0, .inserted true), (68, 1, .looked (.found 7)), (75, 1, .looked .notFound)] := by decide +kernel

/-- Instance of `linearizable_partial`. -/
example : ∃ ef, Linearization counterSem (Exec.ofList demo demo_check) ef :=
  linearizable_partial Trunk.setFilter_laws (by decide) counter_implements (by decide) _

end Splinter.Store
