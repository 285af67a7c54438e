import Verif.Model.LiveScan
import Verif.Proof.RangeIter
import Verif.Props.Reopen
import Verif.Props.LiveScanSpec
/-!
Scans of a store that is being written to.
-/
namespace Splinter.LiveScan

section
variable {K V : Type} [LinearOrder K] {val : Nat → K → Option V} {p q p' q' : Nat} {P P' Q : K → Prop}
  {out out' : List (K × Msg V)}

theorem Reported.shrink (h : Reported val p q P out) (hs : ∀ k, P' k → P k) (ho : ∀ x ∈ out, P' x.1) :
    Reported val p q P' out := by
  obtain ⟨h1, T, h2, h3, h4⟩ := h
  refine ⟨h1, T, fun k hk => h2 k (hs k hk), fun k k' hk hk' => h3 k k' (hs k hk) (hs k' hk'), fun k m => ?_⟩
  rw [h4]
  constructor
  · intro h
    exact ⟨ho (k, m) ((h4 k m).2 h), h.2⟩
  · rintro ⟨a, b⟩
    exact ⟨hs k a, b⟩

theorem Reported.mono (h : Reported val p q P out) (h1 : p' ≤ p) (h2 : q ≤ q') : Reported val p' q' P out := by
  obtain ⟨a, T, b, c, d⟩ := h
  exact ⟨a, T, fun k hk => ⟨h1.trans (b k hk).1, (b k hk).2.trans h2⟩, c, d⟩

theorem Reported.congr (h : Reported val p q P out) (hp : ∀ k, P' k ↔ P k) : Reported val p q P' out :=
  h.shrink (fun k => (hp k).1) fun x hx => (hp x.1).2 (by
    obtain ⟨_, _, _, _, h4⟩ := h
    exact ((h4 x.1 x.2).1 hx).1)

/-- The first part of a report. -/
theorem Reported.pre (h : Reported val p q P (out ++ out')) :
    Reported val p q (fun k => P k ∧ ∃ x ∈ out, k ≤ x.1) out := by
  obtain ⟨h1, T, h2, h3, h4⟩ := h
  rw [List.pairwise_append] at h1
  refine ⟨h1.1, T, fun k hk => h2 k hk.1, fun k k' hk hk' => h3 k k' hk.1 hk'.1, fun k m => ?_⟩
  constructor
  · intro hk
    have := (h4 k m).1 (List.mem_append_left _ hk)
    exact ⟨⟨this.1, _, hk, le_rfl⟩, this.2⟩
  · rintro ⟨⟨a, x, hx, hle⟩, b⟩
    rcases List.mem_append.1 ((h4 k m).2 ⟨a, b⟩) with h | h
    · exact h
    · exact absurd (h1.2.2 x hx _ h) (not_lt.2 hle)

/-- One report after another. -/
theorem Reported.append (h : Reported val p q P out) (h' : Reported val q q' Q out') (hqq : q ≤ q')
    (hpq : p ≤ q) (hlt : ∀ k k', P k → Q k' → k < k') (hP' : ∀ k, P' k ↔ P k ∨ Q k) :
    Reported val p q' P' (out ++ out') := by
  classical
  obtain ⟨h1, T, h2, h3, h4⟩ := h
  obtain ⟨g1, U, g2, g3, g4⟩ := h'
  have hQP : ∀ k, Q k → ¬ P k := fun k b a => lt_irrefl _ (hlt k k a b)
  refine ⟨?_, fun k => if P k then T k else U k, ?_, ?_, ?_⟩
  · rw [List.pairwise_append]
    exact ⟨h1, g1, fun x hx y hy => hlt _ _ ((h4 x.1 x.2).1 hx).1 ((g4 y.1 y.2).1 hy).1⟩
  · intro k hk
    simp only
    split
    · rename_i h
      exact ⟨(h2 k h).1, (h2 k h).2.trans hqq⟩
    · rename_i h
      have hk := ((hP' k).1 hk).resolve_left h
      exact ⟨hpq.trans (g2 k hk).1, (g2 k hk).2⟩
  · intro k k' hk hk' hle
    simp only
    split
    · rename_i h
      split
      · rename_i h'; exact h3 k k' h h' hle
      · rename_i h'
        exact (h2 k h).2.trans (g2 k' (((hP' k').1 hk').resolve_left h')).1
    · rename_i h
      have hk := ((hP' k).1 hk).resolve_left h
      split
      · rename_i h'
        exact absurd (hlt k' k h' hk) (not_lt.2 hle)
      · rename_i h'
        exact g3 k k' hk (((hP' k').1 hk').resolve_left h') hle
  · intro k m
    rw [List.mem_append, h4, g4, hP']
    by_cases hk : P k
    · simp only [hk, if_true, true_and, true_or]
      constructor
      · rintro (h | h)
        · exact h
        · exact absurd hk (hQP k h.1)
      · exact .inl
    · simp only [hk, false_and, false_or, if_false]

end

end Splinter.LiveScan

namespace Splinter.Trunk
open Splinter.Merge (SortedRun MIter)
open Splinter.Spec (msgsOf actAll eval UpdateSem Implements)
open LiveScan Written

variable {K V F : Type} [LinearOrder K] {cfg : DataCfg K V} {ops : FilterOps K F} {keyOk : K → Bool} {lo hi : K}
  {sem : UpdateSem K V} {L : FilterLaws ops} {s s' : State K V F} {hist : K → List (Msg V)}

theorem run_append (a b : List (Op K V)) (s : State K V F) :
    run cfg ops keyOk s (a ++ b) = (run cfg ops keyOk s a).bind (fun s' => run cfg ops keyOk s' b) := by
  induction a generalizing s with
  | nil => simp [run]
  | cons o a ih =>
    simp only [List.cons_append, run]
    cases step cfg ops keyOk s o with
    | none => rfl
    | some s1 => simp [ih]

theorem legal_append {a b : List (Op K V)} {s s1 : State K V F} (h : LegalRun cfg ops keyOk lo hi s (a ++ b))
    (hr : run cfg ops keyOk s a = some s1) :
    LegalRun cfg ops keyOk lo hi s a ∧ LegalRun cfg ops keyOk lo hi s1 b := by
  induction a generalizing s with
  | nil =>
    simp only [run, Option.some.injEq] at hr
    subst hr
    exact ⟨trivial, h⟩
  | cons o a ih =>
    simp only [List.cons_append, LegalRun] at h ⊢
    simp only [run] at hr
    cases e : step cfg ops keyOk s o with
    | none => rw [e] at hr; cases hr
    | some s2 =>
    rw [e] at hr
    simp only at hr
    refine ⟨⟨h.1, fun s' hs' => ?_⟩, ?_⟩
    · obtain rfl := Option.some.inj hs'
      exact (ih (h.2 _ e) hr).1
    · exact (ih (h.2 _ e) hr).2

/-- No step but a rotation puts another memtable first, and only inserts change it. -/
theorem step_head {o : Op K V} (hs : step cfg ops keyOk s o = some s') (hno : o ≠ .rotate) {b : Branch K V}
    {r : List (Branch K V)} (hm : s.mems = b :: r) :
    (∃ r', s'.mems = b :: r' ∧ ∀ k, written keyOk k [o] = []) ∨
    ∃ k m b' r', o = .insert k m ∧ keyOk k = true ∧ memInsert cfg k m b = some b' ∧ s'.mems = b' :: r' := by
  cases o with
  | insert k m =>
    simp only [step, doInsert] at hs
    split at hs
    · rename_i hk
      rw [hm] at hs
      simp only at hs
      split at hs
      · cases hs
      · rename_i b' hb
        obtain rfl := Option.some.inj hs
        exact .inr ⟨k, m, b', r, rfl, hk, hb, rfl⟩
    · rename_i hk
      obtain rfl := Option.some.inj hs
      exact .inl ⟨r, hm, by intro k'; simp [written, hk]⟩
  | rotate => exact absurd rfl hno
  | incorporate =>
    simp only [step, doIncorporate, hm] at hs
    left
    cases r with
    | nil => cases hs
    | cons c r =>
      simp only at hs
      split at hs
      · cases hs
      · obtain rfl := Option.some.inj hs
        exact ⟨_, rfl, by intro k; rfl⟩
  | flush j k =>
    have : s'.mems = s.mems := by
      simp only [step, doFlush] at hs
      grind
    exact .inl ⟨r, this ▸ hm, by intro k; rfl⟩
  | splitIndex j k =>
    have : s'.mems = s.mems := by
      simp only [step, doSplitIndex] at hs
      grind
    exact .inl ⟨r, this ▸ hm, by intro k; rfl⟩
  | splitLeaf k ks =>
    have : s'.mems = s.mems := by
      simp only [step, doSplitLeaf] at hs
      grind
    exact .inl ⟨r, this ▸ hm, by intro k; rfl⟩
  | splitRoot =>
    have : s'.mems = s.mems := by
      simp only [step, doSplitRoot] at hs
      grind
    exact .inl ⟨r, this ▸ hm, by intro k; rfl⟩
  | startCompact i =>
    have : s'.mems = s.mems := by
      simp only [step, doStart] at hs
      grind
    exact .inl ⟨r, this ▸ hm, by intro k; rfl⟩
  | replace i =>
    have : s'.mems = s.mems := by
      simp only [step, doReplace] at hs
      grind
    exact .inl ⟨r, this ▸ hm, by intro k; rfl⟩
  | filters i =>
    have : s'.mems = s.mems := by
      simp only [step, doFilters] at hs
      repeat' split at hs
      all_goals first | (obtain rfl := Option.some.inj hs; rfl) | cases hs
    exact .inl ⟨r, this ▸ hm, by intro k; rfl⟩

/-- The store at one time with the newest memtable of a later one. -/
theorem virtual (H : Implements cfg sem) : ∀ (os : List (Op K V)) (s : State K V F) {b : Branch K V} {r : List (Branch K V)}
    {hist : K → List (Msg V)} (s0 : State K V F) (_ : s.mems = b :: r) (r0 : List (Branch K V)),
    Inv L sem lo hi { s0 with mems := b :: r0 } hist → LegalRun cfg ops keyOk lo hi s os → (∀ o ∈ os, o ≠ .rotate) →
    ∀ s', run cfg ops keyOk s os = some s' → ∃ b' r', s'.mems = b' :: r' ∧
      Inv L sem lo hi { s0 with mems := b' :: r0 } (fun k => hist k ++ written keyOk k os)
  | [], s, b, r, hist, s0, hm, r0, I, _, _, s', hr => by
    simp only [run, Option.some.injEq] at hr
    subst hr
    exact ⟨b, r, hm, by simpa [written] using I⟩
  | o :: os, s, b, r, hist, s0, hm, r0, I, hl, hno, s', hr => by
    simp only [run] at hr
    cases e : step cfg ops keyOk s o with
    | none => rw [e] at hr; cases hr
    | some s1 =>
      rw [e] at hr
      simp only at hr
      have hno' : ∀ o ∈ os, o ≠ .rotate := fun x hx => hno x (List.mem_cons_of_mem _ hx)
      rcases step_head e (hno o List.mem_cons_self) hm with ⟨r', h1, h2⟩ | ⟨k, m, b', r', rfl, hk, hb, h1⟩
      · obtain ⟨b', r'', h3, h4⟩ := virtual H os s1 s0 h1 r0 I (hl.2 _ e) hno' s' hr
        refine ⟨b', r'', h3, ?_⟩
        have : (fun k => hist k ++ written keyOk k (o :: os)) = fun k => hist k ++ written keyOk k os := by
          funext k
          rw [written_cons, h2 k, List.nil_append]
        rw [this]; exact h4
      · have I' := I.insert H hl.1.1 hl.1.2 m (b := b) (r := r0) rfl hb
        obtain ⟨b'', r'', h3, h4⟩ := virtual H os s1 s0 h1 r0 I' (hl.2 _ e) hno' s' hr
        refine ⟨b'', r'', h3, ?_⟩
        have : (fun k' => hist k' ++ written keyOk k' (Op.insert k m :: os)) =
            fun k' => addHist hist k m k' ++ written keyOk k' os := by
          funext k'
          unfold addHist
          rw [written]
          by_cases h : k = k'
          · subst h; simp [hk]
          · have h' : ¬ k' = k := fun e => h e.symm
            simp [h, h']
        rw [this]; exact h4

theorem Chain.le {s0 : State K V F} {os : List (Op K V)} {a b : Nat} {vs : List (Visit K V F)}
    (h : Chain cfg ops keyOk s0 os a b vs) : a ≤ b := by
  induction h with
  | nil h => exact h
  | cons h hv _ ih => exact h.trans (hv.le.trans ih)

theorem Seen.inv {os : List (Op K V)} {p q : Nat} {v : Visit K V F} {s0 : State K V F} (H : Implements cfg sem)
    (I0 : Inv L sem lo hi s0 (fun _ => [])) (hl : LegalRun cfg ops keyOk lo hi s0 os) {s1 : State K V F}
    (hr : run cfg ops keyOk s0 os = some s1) (h : Seen cfg ops keyOk s0 os p q v) :
    ∃ τ : K → Nat, (∀ k, p ≤ τ k ∧ τ k ≤ q) ∧ (∀ k k', k ≤ k' → τ k ≤ τ k') ∧
      Inv L sem lo hi { v.s with mems := v.mems } (fun k => written keyOk k (os.take (τ k))) := by
  obtain ⟨hs, τ, t1, t2, t3⟩ := h.reads
  have hp : p ≤ os.length := h.le.trans h.len
  have hl1 := legal_append (a := os.take p) (b := os.drop p) (by rwa [List.take_append_drop]) h.start
  have I1 := run_inv H _ _ _ _ I0 hl1.1 h.start
  simp only [List.nil_append] at I1
  obtain ⟨b, r, hm⟩ := List.exists_cons_of_ne_nil I1.memsNe
  have key : ∀ t, p ≤ t → t ≤ q → ∃ b' , (∀ k, headAt cfg ops keyOk s0 os t k = b'.get k) ∧
      Inv L sem lo hi { v.s with mems := b' :: r } (fun k => written keyOk k (os.take t)) := by
    intro t h1 h2
    have e : os.take t = os.take p ++ (os.drop p).take (t - p) := by
      rw [← List.take_add]; congr 1; omega
    have hrun : ∃ s2, run cfg ops keyOk v.s ((os.drop p).take (t - p)) = some s2 := by
      have : os = os.take p ++ (os.drop p).take (t - p) ++ os.drop t := by rw [← e, List.take_append_drop]
      rw [this, List.append_assoc, run_append, h.start] at hr
      simp only [Option.bind_some] at hr
      rw [run_append] at hr
      obtain ⟨s2, h3, _⟩ := Option.bind_eq_some_iff.1 hr
      exact ⟨s2, h3⟩
    obtain ⟨s2, hs2⟩ := hrun
    have hl2 : LegalRun cfg ops keyOk lo hi v.s ((os.drop p).take (t - p)) := by
      have := hl1.2
      rw [← List.take_append_drop (t - p) (os.drop p)] at this
      exact (legal_append this hs2).1
    have hno : ∀ o ∈ (os.drop p).take (t - p), o ≠ Op.rotate := by
      intro o ho
      apply h.same o
      rw [List.drop_take]
      exact (List.take_sublist_take_left (by omega)).subset ho
    obtain ⟨b', r', e1, e2⟩ := virtual H _ v.s v.s hm r (by rw [← hm]; exact I1) hl2 hno s2 hs2
    refine ⟨b', fun k => ?_, ?_⟩
    · unfold headAt
      rw [e, run_append, h.start]
      simp [hs2, e1]
    · rw [e]
      simpa [written_append] using e2
  refine ⟨τ, t1, t2, ?_⟩
  have hmems : v.mems = v.rep :: r := by unfold Visit.mems; rw [hm]; rfl
  have hget : ∀ (k : K) (b' : K → Branch K V), (∀ k, headAt cfg ops keyOk s0 os (τ k) k = (b' k).get k) →
      v.rep.get k = (b' k).get k := by
    intro k b' hb
    rw [← hb k]
    apply Option.ext
    intro m
    rw [← t3]
    exact ⟨Branch.get_mem, fun h => SortedRun.mem_get hs h⟩
  obtain ⟨b', hb⟩ := Classical.axiomOfChoice fun k => key (τ k) (t1 k).1 (t1 k).2
  have hg : ∀ k, v.rep.get k = (b' k).get k := fun k => hget k b' fun k => (hb k).1 k
  refine ⟨I1.pos, I1.good, by simp [hmems], ?_, I1.lvls, I1.ids, I1.rids, I1.reqs, I1.apart, ?_⟩
  · intro m hm'
    simp only [hmems] at hm'
    rcases List.mem_cons.1 hm' with rfl | hm'
    · refine ⟨hs, fun x hx => ?_⟩
      have h1 := SortedRun.mem_get hs (k := x.1) (m := x.2) hx
      rw [hg] at h1
      exact ((hb x.1).2.mems _ List.mem_cons_self).2 _ (Branch.get_mem h1)
    · exact I1.mems m (by rw [hm]; exact List.mem_cons_of_mem _ hm')
  · intro k k1 k2
    have := (hb k).2.value k k1 k2
    simp only [hmems, List.reverse_cons, ← List.append_assoc] at this ⊢
    rw [msgsOf_append, actAll_append] at this ⊢
    rw [msgsOf_congr (hg k)]
    exact this

/-- What is left of a leaf, and what comes after it. -/
theorem rscanL_leaf {cut : Branch K V → K → Nat} {mn mx lmn lmx : K} {vs : List (Visit K V F)} :
    ∀ (d : Nat) (m : MIter K V) (l : List (K × Msg V)), Merge.drain Merge.next d m = .ok l → m.canCurr = true →
      m.forwards = true → ∀ n,
      (∃ l1 l2, l = l1 ++ l2 ∧ rscanL cfg cut n vs ⟨mn, mx, lmn, lmx, m, true, true⟩ = .ok (l1, false)) ∨
      (lmx < mx ∧ ∃ n', rscanL cfg cut n vs ⟨mn, mx, lmn, lmx, m, true, true⟩ =
        (scanL cfg cut mn mx n' vs lmx).map (fun y => (l ++ y.1, y.2))) ∨
      (¬ lmx < mx ∧ rscanL cfg cut n vs ⟨mn, mx, lmn, lmx, m, true, true⟩ = .ok (l, true))
  | 0, _, _, h, _, _, _ => by cases h
  | d + 1, m, l, h, hc, hf, 0 => .inl ⟨[], l, rfl, by rw [rscanL]⟩
  | d + 1, m, l, h, hc, hf, n + 1 => by
    have hcp : m.canPrev = true := by
      unfold MIter.canCurr at hc; rw [Bool.and_eq_true] at hc; exact hc.2
    rw [Merge.drain, if_pos hc] at h
    rw [rscanL]
    simp only [RIter.valid, Bool.and_self, if_true]
    cases hcur : m.cur with
    | none => rw [hcur] at h; cases h
    | some x =>
      rw [hcur] at h
      simp only at h ⊢
      cases hnx : Merge.next m with
      | error e => rw [hnx] at h; cases h
      | ok m' =>
        have hstep : rnextL cfg cut vs ⟨mn, mx, lmn, lmx, m, true, true⟩ =
            if m'.canNext then .ok (⟨mn, mx, lmn, lmx, m', true, true⟩, vs)
            else if lmx < mx then rinitL cfg cut mn mx vs lmx
            else .ok (⟨mn, mx, lmn, lmx, m', true, false⟩, vs) := by
          unfold rnextL; simp only [hnx]
        rw [hnx] at h
        simp only at h
        cases hdr : Merge.drain Merge.next d m' with
        | error e => rw [hdr] at h; cases h
        | ok l' =>
          rw [hdr] at h
          simp only [Except.ok.injEq] at h
          subst h
          obtain ⟨k1, k2⟩ := Merge.next_keep hf hnx
          rw [hcp] at k2
          by_cases hcn : m'.canNext = true
          · rw [hstep, if_pos hcn]
            simp only
            rcases rscanL_leaf d m' l' hdr (by simp [MIter.canCurr, hcn, k2]) k1 n with
              ⟨l1, l2, rfl, h⟩ | ⟨h1, n', h⟩ | ⟨h1, h⟩
            · rw [h]; exact .inl ⟨x :: l1, l2, rfl, rfl⟩
            · rw [h]
              refine .inr (.inl ⟨h1, n', ?_⟩)
              cases scanL cfg cut mn mx n' vs lmx <;> rfl
            · rw [h]; exact .inr (.inr ⟨h1, rfl⟩)
          · have hl' : l' = [] := by
              cases d with
              | zero => cases hdr
              | succ d =>
                rw [Merge.drain, if_neg (by simp [MIter.canCurr, hcn])] at hdr
                cases hdr; rfl
            subst hl'
            rw [hstep, if_neg hcn]
            by_cases hm : lmx < mx
            · rw [if_pos hm]
              refine .inr (.inl ⟨hm, n, ?_⟩)
              unfold scanL
              cases rinitL cfg cut mn mx vs lmx with
              | error e => rfl
              | ok y => rfl
            · rw [if_neg hm]
              simp only
              cases n with
              | zero => exact .inl ⟨[x], [], rfl, rfl⟩
              | succ n =>
                refine .inr (.inr ⟨hm, ?_⟩)
                rw [rscanL]
                simp [RIter.valid, Except.map]

theorem scanL_spec (H : Implements cfg sem) (cut : Branch K V → K → Nat) {s0 s1 : State K V F} {os : List (Op K V)}
    (I0 : Inv L sem lo hi s0 (fun _ => [])) (hl : LegalRun cfg ops keyOk lo hi s0 os)
    (hr : run cfg ops keyOk s0 os = some s1) {mn mx : K} (b1 : lo ≤ mn) (b2 : mn ≤ mx) (b3 : mx ≤ hi) (b4 : mn < hi) :
    ∀ (vs : List (Visit K V F)) (a b : Nat) (start : K) (n : Nat), Chain cfg ops keyOk s0 os a b vs → start < hi →
    (scanL cfg cut mn mx n vs start = .error .fuel ∧ ∀ B : List K, (∀ v ∈ vs, ∀ x ∈ leafBounds v.s.h v.s.root, x ∈ B) →
      vs.length ≤ B.countP (fun x => decide (start < x))) ∨ ∃ out fin, scanL cfg cut mn mx n vs start = .ok (out, fin) ∧
      Reported (fun t k => eval sem k (written keyOk k (os.take t))) a b (Range mn mx start fin out) out := by
  intro vs
  induction vs with
  | nil => intro a b start n _ _; exact .inl ⟨rfl, fun _ _ => Nat.zero_le _⟩
  | cons v vs ih =>
    intro a b start n hch hst
    cases hch with
    | cons hap hv hvs =>
    rename_i p q
    obtain ⟨τ, t1, t2, I⟩ := hv.inv H I0 hl hr
    generalize hst1 : (if start < mn then mn else start) = st1
    generalize hst2 : (if mx ≤ st1 then mx else st1) = st
    have hs1 : mn ≤ st1 ∧ start ≤ st1 ∧ st1 < hi ∧ ∀ k, start ≤ k → mn ≤ k → st1 ≤ k := by
      rw [← hst1]
      split
      · rename_i h; exact ⟨le_rfl, h.le, b4, fun k _ h => h⟩
      · rename_i h; exact ⟨not_lt.1 h, le_rfl, hst, fun k h _ => h⟩
    have hs2 : mn ≤ st ∧ st < hi ∧ ∀ k, k < mx → (st ≤ k ↔ start ≤ k ∧ mn ≤ k) := by
      rw [← hst2]
      split
      · rename_i h
        refine ⟨b2, lt_of_le_of_lt h hs1.2.2.1, fun k hk => ?_⟩
        constructor
        · intro h'; exact absurd hk (not_lt.2 h')
        · rintro ⟨h1, h2⟩
          exact absurd (lt_of_le_of_lt (h.trans (hs1.2.2.2 k h1 h2)) hk) (lt_irrefl _)
      · refine ⟨hs1.1, hs1.2.2.1, fun k hk => ⟨fun h => ⟨hs1.2.1.trans h, hs1.1.trans h⟩, fun h => hs1.2.2.2 k h.1 h.2⟩⟩
    obtain ⟨bs, llo, lhi, m, out1, d, e1, e2, e3, e4, e5, e6, e7, e8, e9⟩ := leaf_spec I H cut (mx := mx) b1 hs2.1 hs2.2.1
    simp only at e1 e5 e6
    generalize hlmn : (if mn < llo then llo else mn) = lmn at e6
    generalize hlmx : (if lhi < mx then lhi else mx) = lmx at e6 e9
    have hlm : lmx ≤ mx := by
      rw [← hlmx]; split
      · rename_i h; exact h.le
      · exact le_rfl
    have hstl : lmx < mx → st < lmx := by
      intro h
      rw [← hlmx] at h ⊢
      split
      · exact e3
      · rename_i h'; rw [if_neg h'] at h; exact absurd h (lt_irrefl _)
    have R1 : Reported (fun t k => eval sem k (written keyOk k (os.take t))) a q (fun k => st ≤ k ∧ k < lmx) out1 := by
      refine ⟨e8, τ, fun k _ => ⟨hap.trans (t1 k).1, (t1 k).2⟩, fun k k' _ _ => t2 k k', fun k x => ?_⟩
      rw [e9]
      exact ⟨fun h => ⟨⟨h.1, h.2.1⟩, h.2.2⟩, fun h => ⟨h.1.1, h.1.2, h.2⟩⟩
    have hq := hvs.le
    have last : lmx = mx → Reported (fun t k => eval sem k (written keyOk k (os.take t))) a b
        (Range mn mx start true out1) out1 := by
      intro h
      refine (R1.mono le_rfl hq).congr fun k => ?_
      simp only [Range, Bool.true_eq_false, false_implies, and_true, h]
      constructor
      · rintro ⟨h1, h2, h3⟩; exact ⟨(hs2.2.2 k h3).2 ⟨h1, h2⟩, h3⟩
      · rintro ⟨h1, h3⟩; exact ⟨((hs2.2.2 k h3).1 h1).1, ((hs2.2.2 k h3).1 h1).2, h3⟩
    have early : ∀ l1 l2, out1 = l1 ++ l2 → Reported (fun t k => eval sem k (written keyOk k (os.take t))) a b
        (Range mn mx start false l1) l1 := by
      rintro l1 l2 rfl
      refine (R1.pre.mono le_rfl hq).congr fun k => ?_
      simp only [Range, forall_true_left]
      constructor
      · rintro ⟨h1, h2, h3, x, hx, hle⟩
        have hxl := ((e9 x.1 x.2).1 (List.mem_append_left _ hx)).2.1
        exact ⟨⟨(hs2.2.2 k h3).2 ⟨h1, h2⟩, lt_of_le_of_lt hle hxl⟩, x, hx, hle⟩
      · rintro ⟨⟨h1, h2⟩, h4⟩
        have h3 := lt_of_lt_of_le h2 hlm
        exact ⟨((hs2.2.2 k h3).1 h1).1, ((hs2.2.2 k h3).1 h1).2, h3, h4⟩
    have rest : lmx < mx → ∀ n', (scanL cfg cut mn mx n' vs lmx = .error .fuel ∧
        ∀ B : List K, (∀ w ∈ v :: vs, ∀ x ∈ leafBounds w.s.h w.s.root, x ∈ B) →
          (v :: vs).length ≤ B.countP (fun x => decide (start < x))) ∨
        ∃ out fin, scanL cfg cut mn mx n' vs lmx = .ok (out, fin) ∧
        Reported (fun t k => eval sem k (written keyOk k (os.take t))) a b (Range mn mx start fin (out1 ++ out))
          (out1 ++ out) := by
      intro h n'
      rcases ih q b lmx n' hvs (lt_of_lt_of_le h b3) with ⟨h', hB⟩ | ⟨out, fin, h', R2⟩
      · refine .inl ⟨h', fun B hBB => ?_⟩
        have h1 := hB B fun w hw => hBB w (List.mem_cons_of_mem _ hw)
        have hl : lmx = lhi := by
          rw [← hlmx]; split
          · rfl
          · rename_i h2; rw [← hlmx, if_neg h2] at h; exact absurd h (lt_irrefl _)
        have hlt : start < lmx := by
          have h2 := hstl h
          rw [← hst2] at h2
          split at h2
          · exact absurd (h2.trans h) (lt_irrefl _)
          · exact lt_of_le_of_lt hs1.2.1 h2
        have h2 : B.countP (fun x => decide (lmx < x)) < B.countP (fun x => decide (start < x)) := by
          have hmem : lmx ∈ B := by rw [hl]; exact hBB v List.mem_cons_self _ e5
          obtain ⟨B1, B2, rfl⟩ := List.append_of_mem hmem
          have hm : ∀ l : List K, l.countP (fun x => decide (lmx < x)) ≤ l.countP (fun x => decide (start < x)) := by
            intro l
            apply List.countP_mono_left
            intro x _ hx
            simp only [decide_eq_true_eq] at hx ⊢
            exact hlt.trans hx
          have := hm B1
          have := hm B2
          simp only [List.countP_append, List.countP_cons, lt_irrefl, hlt, decide_false, decide_true]
          simp only [Bool.false_eq_true, if_false, if_true]
          omega
        simp only [List.length_cons]
        omega
      · refine .inr ⟨out, fin, h', ?_⟩
        have hmnl : mn ≤ lmx := hs2.1.trans (hstl h).le
        have hap' : a ≤ q := hap.trans hv.le
        cases fin with
        | true =>
          refine R1.append R2 hq hap' ?_ fun k => ?_
          · rintro k k' ⟨_, h1⟩ ⟨h2, _⟩; exact lt_of_lt_of_le h1 h2
          · simp only [Range, Bool.true_eq_false, false_implies, and_true]
            constructor
            · rintro ⟨h1, h2, h3⟩
              rcases lt_or_ge k lmx with h4 | h4
              · exact .inl ⟨(hs2.2.2 k h3).2 ⟨h1, h2⟩, h4⟩
              · exact .inr ⟨h4, h2, h3⟩
            · rintro (⟨h1, h4⟩ | ⟨h1, h2, h3⟩)
              · have h3 := h4.trans h
                exact ⟨((hs2.2.2 k h3).1 h1).1, ((hs2.2.2 k h3).1 h1).2, h3⟩
              · have := ((hs2.2.2 k h3).1 ((hstl h).le.trans h1))
                exact ⟨this.1, h2, h3⟩
        | false =>
          have R3 := R1.append R2 (P' := fun k => (st ≤ k ∧ k < lmx) ∨ Range mn mx lmx false out k) hq hap'
            (by rintro k k' ⟨_, h1⟩ ⟨h2, _⟩; exact lt_of_lt_of_le h1 h2) fun k => Iff.rfl
          refine R3.shrink ?_ ?_
          · rintro k ⟨h1, h2, h3, h4⟩
            obtain ⟨x, hx, hle⟩ := h4 rfl
            rcases lt_or_ge k lmx with h5 | h5
            · exact .inl ⟨(hs2.2.2 k h3).2 ⟨h1, h2⟩, h5⟩
            · refine .inr ⟨h5, h2, h3, fun _ => ?_⟩
              rcases List.mem_append.1 hx with hx | hx
              · have := ((e9 x.1 x.2).1 hx).2.1
                exact absurd (lt_of_le_of_lt (h5.trans hle) this) (lt_irrefl _)
              · exact ⟨x, hx, hle⟩
          · intro x hx
            obtain ⟨_, _, _, _, R4⟩ := R3
            have hR := ((R4 x.1 x.2).1 hx).1
            rcases hR with ⟨h1, h4⟩ | ⟨h1, h2, h3, _⟩
            · have h3 := h4.trans h
              exact ⟨((hs2.2.2 _ h3).1 h1).1, ((hs2.2.2 _ h3).1 h1).2, h3, fun _ => ⟨x, hx, le_rfl⟩⟩
            · have := ((hs2.2.2 _ h3).1 ((hstl h).le.trans h1))
              exact ⟨this.1, h2, h3, fun _ => ⟨x, hx, le_rfl⟩⟩
    have hinit : rinitL cfg cut mn mx (v :: vs) start =
        if m.canCurr then .ok (⟨mn, mx, lmn, lmx, m, true, true⟩, vs)
        else if lmx < mx then rinitL cfg cut mn mx vs lmx
        else .ok (⟨mn, mx, lmn, lmx, m, m.canPrev, false⟩, vs) := by
      rw [rinitL]
      simp only [hst1, hst2, e1, hlmn, hlmx, e6]
    have hnot : ¬ lmx < mx → lmx = mx := fun h => le_antisymm hlm (not_lt.1 h)
    by_cases hc : m.canCurr = true
    · have hs : scanL cfg cut mn mx n (v :: vs) start =
          rscanL cfg cut n vs ⟨mn, mx, lmn, lmx, m, true, true⟩ := by
        unfold scanL; rw [hinit, if_pos hc]
      rw [hs]
      rcases rscanL_leaf (cfg := cfg) (cut := cut) (vs := vs) (mn := mn) (mx := mx) (lmn := lmn) (lmx := lmx) d m out1 e7 hc
        (Merge.create_forwards e6) n with ⟨l1, l2, h1, h2⟩ | ⟨h1, n', h2⟩ | ⟨h1, h2⟩
      · exact .inr ⟨l1, false, h2, early l1 l2 h1⟩
      · rw [h2]
        rcases rest h1 n' with ⟨h, hB⟩ | ⟨out, fin, h, R⟩
        · rw [h]; exact .inl ⟨rfl, hB⟩
        · rw [h]; exact .inr ⟨_, fin, rfl, R⟩
      · exact .inr ⟨out1, true, h2, last (hnot h1)⟩
    · have ho := drain_nil hc e7
      subst ho
      by_cases hm : lmx < mx
      · have hs : scanL cfg cut mn mx n (v :: vs) start = scanL cfg cut mn mx n vs lmx := by
          unfold scanL; rw [hinit, if_neg hc, if_pos hm]
        rw [hs]
        rcases rest hm n with h | ⟨out, fin, h, R⟩
        · exact .inl h
        · exact .inr ⟨out, fin, h, by simpa using R⟩
      · have hs : scanL cfg cut mn mx n (v :: vs) start =
            rscanL cfg cut n vs ⟨mn, mx, lmn, lmx, m, m.canPrev, false⟩ := by
          unfold scanL; rw [hinit, if_neg hc, if_neg hm]
        rw [hs]
        cases n with
        | zero => exact .inr ⟨[], false, rfl, early [] [] rfl⟩
        | succ n =>
          refine .inr ⟨[], true, ?_, last (hnot hm)⟩
          rw [rscanL]
          simp [RIter.valid]

end Splinter.Trunk
