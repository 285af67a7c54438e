import Verif.Proof.MergeIter
/-! Lemmas about the merge iterator model (src/merge.c): one output step. -/
namespace Splinter.Merge
open Splinter
variable {K V : Type} [LinearOrder K]

/-- Callbacks never fail. -/
def Total (cfg : DataCfg K V) : Prop :=
  ∀ k, (∀ old acc, dataMergeTuples cfg k old acc ≠ none) ∧ ∀ a, dataMergeTuplesFinal cfg k a ≠ none

/-- Either success satisfying `P`, or a failed merge callback. -/
def Post {α : Type} (cfg : DataCfg K V) (x : Except Err α) (P : α → Prop) : Prop :=
  match x with
  | .ok a => P a
  | .error e => e = .mergeFailed ∧ ¬ Total cfg

/-- `ms` lists, newest first, exactly the pairs satisfying `P`. -/
def Newest (P : Nat → Msg V → Prop) (ms : List (Nat × Msg V)) : Prop :=
  ms.Pairwise (fun a b => b.1 < a.1) ∧ ∀ s d, (s, d) ∈ ms ↔ P s d

/-- Combination of messages, newest first. -/
def mergeDown (cfg : DataCfg K V) (k : K) (acc : Msg V) : List (Msg V) → Option (Msg V)
  | [] => some acc
  | d :: ds => (dataMergeTuples cfg k d acc).bind fun a => mergeDown cfg k a ds

/-- The part of the invariant that survives dropping inputs. -/
structure LPre (fwd : Bool) (L D : List (OItor K V)) : Prop where
  live : ∀ o ∈ L, ∃ kd r, view fwd o = kd :: r ∧ o.currKey = some kd.1 ∧ o.currData = some kd.2
  dead : ∀ o ∈ D, view fwd o = []
  sorted : L.Pairwise (ILt fwd)
  runs : ∀ o ∈ L ++ D, (view fwd o).Pairwise (fun a b => dlt fwd a.1 b.1)
  seqs : ((L ++ D).map (·.seq)).Nodup

theorem LInv.pre {fwd : Bool} {L D : List (OItor K V)} (H : LInv fwd L D) : LPre fwd L D :=
  ⟨H.live, H.dead, H.sorted, H.runs, H.seqs⟩

theorem LInv.tail {fwd : Bool} {o : OItor K V} {L D : List (OItor K V)} (H : LInv fwd (o :: L) D) :
    LPre fwd L D where
  live x hx := H.live x (List.mem_cons_of_mem _ hx)
  dead := H.dead
  sorted := (List.pairwise_cons.mp H.sorted).2
  runs x hx := H.runs x (List.mem_cons_of_mem _ hx)
  seqs := (List.nodup_cons.mp H.seqs).2

/-- The first live input holds the least pending (key, -seq). -/
theorem head_has {fwd : Bool} {o : OItor K V} {L D : List (OItor K V)} (H : LPre fwd (o :: L) D) :
    ∃ k d, o.currKey = some k ∧ o.currData = some d ∧ Has fwd (o :: (L ++ D)) o.seq k d ∧
      (∀ s' k' d', Has fwd (o :: (L ++ D)) s' k' d' → dlt fwd k k' ∨ (k' = k ∧ s' ≤ o.seq)) ∧
      (∀ d', Has fwd (o :: (L ++ D)) o.seq k d' → d' = d) := by
  obtain ⟨kd, r, hv, hk, hd⟩ := H.live o List.mem_cons_self
  have hr := H.runs o (by simp)
  rw [hv] at hr
  have hr' := (List.pairwise_cons.mp hr).1
  refine ⟨kd.1, kd.2, hk, hd, ⟨o, by simp, rfl, by simp [hv]⟩, ?_, ?_⟩
  · rintro s' k' d' ⟨x, hx, rfl, hm⟩
    rcases List.mem_cons.mp hx with rfl | hx
    · rw [hv] at hm
      rcases List.mem_cons.mp hm with h | h
      · right; rw [← h]; exact ⟨rfl, Nat.le_refl _⟩
      · left; exact hr' _ h
    · rcases List.mem_append.mp hx with hx | hx
      · obtain ⟨a, b, ha, hb, hab⟩ := (List.pairwise_cons.mp H.sorted).1 x hx
        rw [hk] at ha; cases ha
        obtain ⟨kd2, r2, hv2, hk2, hd2⟩ := H.live x (List.mem_cons_of_mem _ hx)
        rw [hk2] at hb; cases hb
        rw [hv2] at hm
        have hrx := H.runs x (by simp [hx])
        rw [hv2] at hrx
        rcases List.mem_cons.mp hm with h | h
        · have : k' = kd2.1 := by rw [← h]
          subst this
          rcases hab with hab | hab
          · exact .inl hab
          · exact .inr ⟨hab.1.symm, Nat.le_of_lt hab.2⟩
        · have h3 : dlt fwd kd2.1 k' := (List.pairwise_cons.mp hrx).1 _ h
          left
          rcases hab with hab | hab
          · exact dlt_trans hab h3
          · rw [hab.1]; exact h3
      · rw [H.dead x hx] at hm; simp at hm
  · rintro d' ⟨x, hx, hs, hm⟩
    rcases List.mem_cons.mp hx with rfl | hx
    · rw [hv] at hm
      rcases List.mem_cons.mp hm with h | h
      · rw [← h]
      · exact absurd (hr' _ h) dlt_irrefl
    · exfalso
      have := (List.nodup_cons.mp H.seqs).1
      exact this (by show o.seq ∈ _; rw [← hs]; exact List.mem_map_of_mem hx)

theorem flag_true {fwd : Bool} {o : OItor K V} {L D : List (OItor K V)} (H : LInv fwd (o :: L) D)
    (h : o.nextEq = true) : ∃ b L1, L = b :: L1 ∧ b.currKey = o.currKey := by
  have hf := H.flags
  cases L with
  | nil => simp [Flags, h] at hf
  | cons b L1 =>
    refine ⟨b, L1, rfl, ?_⟩
    have := hf.1; rw [h] at this; simpa [eq_comm] using this

theorem flag_false {fwd : Bool} {o : OItor K V} {L D : List (OItor K V)} (H : LInv fwd (o :: L) D)
    (h : o.nextEq = false) {k : K} (hk : o.currKey = some k) {s : Nat} {d : Msg V}
    (hh : Has fwd (o :: (L ++ D)) s k d) : s = o.seq := by
  rcases Has.cons.mp hh with hh | hh
  · exact hh.1.symm
  · exfalso
    cases L with
    | nil =>
      obtain ⟨x, hx, _, hm⟩ := hh
      rw [H.dead x (by simpa using hx)] at hm; simp at hm
    | cons b L1 =>
      have hf := H.flags.1
      rw [h] at hf
      have hne : o.currKey ≠ b.currKey := by simpa using hf.symm
      obtain ⟨k1, d1, hk1, _, _, hmin, _⟩ := head_has H.tail
      obtain ⟨x, y, hx, hy, hxy⟩ := (List.pairwise_cons.mp H.sorted).1 b List.mem_cons_self
      rw [hk] at hx; cases hx
      rw [hk1] at hy; cases hy
      have hlt : dlt fwd k k1 := by
        rcases hxy with h | h
        · exact h
        · exact absurd (by rw [hk, hk1, h.1]) hne
      rcases hmin s k d hh with h | h
      · exact dlt_asymm hlt h
      · rw [h.1] at hlt; exact dlt_irrefl hlt

theorem resolveLoop_succ (fuel : Nat) (m : MIter K V) (acc : Msg V) (o b : OItor K V)
    (R : List (OItor K V)) (k : K) (db : Msg V) (harr : m.arr = o :: b :: R)
    (hmk : m.currKey = some k) (hdb : b.currData = some db) :
    resolveLoop (fuel + 1) m acc =
      match dataMergeTuples m.cfg k db acc with
      | none => .error .mergeFailed
      | some acc =>
        match advanceResort { m with currKey := b.currKey } with
        | .error e => .error e
        | .ok m =>
          match m.arr with
          | [] => .error .ub
          | o :: _ => if o.nextEq then resolveLoop fuel m acc else .ok (m, acc) := by
  rw [resolveLoop]
  simp only [harr, hmk, hdb]
  cases dataMergeTuples m.cfg k db acc <;> rfl

theorem resolveLoop_spec (fuel : Nat) : ∀ (m : MIter K V) (o : OItor K V) (L D : List (OItor K V))
    (acc : Msg V) (k : K), m.arr = o :: L ++ D → m.numRemaining = L.length + 1 →
    LInv m.forwards (o :: L) D → m.currKey = some k → o.currKey = some k → o.nextEq = true →
    o.seq ≤ fuel →
    Post m.cfg (resolveLoop fuel m acc) fun r =>
      ∃ o' L' D' ms d0, r.1 = { m with arr := o' :: L' ++ D', numRemaining := L'.length + 1 } ∧
        LInv m.forwards (o' :: L') D' ∧ (o' :: L' ++ D').length = m.arr.length ∧
        remItems m.forwards (o' :: L' ++ D') ≤ remItems m.forwards m.arr ∧
        o'.currKey = some k ∧ o'.nextEq = false ∧ o.currData = some d0 ∧
        Newest (fun s d => Has m.forwards m.arr s k d) ((o.seq, d0) :: ms) ∧
        mergeDown m.cfg k acc (ms.map (·.2)) = some r.2 ∧
        ∀ s k' d, Has m.forwards (o' :: L' ++ D') s k' d ↔
          Has m.forwards m.arr s k' d ∧ (k' = k → s = o'.seq) := by
  induction fuel with
  | zero =>
    intro m o L D acc k harr hn H hmk hk hf hfu
    exfalso
    obtain ⟨b, L1, rfl, hb⟩ := flag_true H hf
    obtain ⟨x, y, hx, hy, hxy⟩ := (List.pairwise_cons.mp H.sorted).1 b List.mem_cons_self
    rw [hb, hx] at hy; cases hy
    rcases hxy with h | h
    · exact dlt_irrefl h
    · omega
  | succ fuel ih =>
    intro m o L D acc k harr hn H hmk hk hf hfu
    obtain ⟨b, L1, rfl, hb⟩ := flag_true H hf
    have hlt : b.seq < o.seq := by
      obtain ⟨x, y, hx, hy, hxy⟩ := (List.pairwise_cons.mp H.sorted).1 b List.mem_cons_self
      rw [hb, hx] at hy; cases hy
      rcases hxy with h | h
      · exact absurd h dlt_irrefl
      · exact h.2
    obtain ⟨kb, db, hkb, hdb, hbhas, hbmin, hbuniq⟩ := head_has H.tail
    have hkbk : kb = k := by rw [hb, hk] at hkb; exact (Option.some.inj hkb).symm
    subst hkbk
    obtain ⟨ko, d0, hko, hd0, hohas, homin, houniq⟩ := head_has H.pre
    rw [hk] at hko; cases hko
    simp only [harr]
    rw [resolveLoop_succ fuel m acc o b (L1 ++ D) kb db (by simpa using harr) hmk hdb]
    cases hmt : dataMergeTuples m.cfg kb db acc with
    | none => exact ⟨rfl, fun ht => (ht kb).1 _ _ hmt⟩
    | some acc1 =>
      simp only
      obtain ⟨L', D', h1, h2, h3, h3r, h4, h5⟩ :=
        advanceResort_spec { m with currKey := b.currKey } o (b :: L1) D harr hn H
      obtain ⟨c, L1', rfl, hc⟩ := h4 b L1 rfl hb
      have hcs : c.seq = b.seq := show (core c).seq = (core b).seq by rw [hc]
      have hck : c.currKey = b.currKey := show (core c).currKey = (core b).currKey by rw [hc]
      have hcd : c.currData = b.currData := show (core c).currData = (core b).currData by rw [hc]
      have e : ({ m with currKey := b.currKey } : MIter K V) = m := by rw [hkb, ← hmk]
      rw [e] at h1 h2 h3r h5
      rw [e, h1]
      simp only [List.cons_append]
      have hold : ∀ s d, Has m.forwards (o :: (b :: L1 ++ D)) s kb d ↔
          (s = o.seq ∧ d = d0) ∨ Has m.forwards (c :: L1' ++ D') s kb d := by
        intro s d
        rw [h5 s kb d, hk]
        constructor
        · intro hh
          by_cases hs : s = o.seq
          · subst hs; exact .inl ⟨rfl, houniq d hh⟩
          · exact .inr ⟨hh, fun e => hs e.1⟩
        · rintro (⟨rfl, rfl⟩ | h)
          · exact hohas
          · exact h.1
      have hnewle : ∀ s d, Has m.forwards (c :: L1' ++ D') s kb d → s ≤ b.seq := by
        intro s d hh
        obtain ⟨kc, dc, hkc, hdc, _, hcmin, _⟩ := head_has h2.pre
        rw [hck, hkb] at hkc; cases hkc
        rcases hcmin s kb d hh with h | h
        · exact absurd h dlt_irrefl
        · rw [← hcs]; exact h.2
      by_cases hcf : c.nextEq = true
      · simp only [hcf, if_true]
        have hih := ih { m with arr := c :: L1' ++ D', numRemaining := (c :: L1').length } c L1' D'
          acc1 kb rfl rfl h2 hmk (by rw [hck, hkb]) hcf (by rw [hcs]; omega)
        simp only [List.length_cons, List.cons_append] at hih ⊢
        cases hr : resolveLoop fuel { m with arr := c :: (L1' ++ D'), numRemaining := L1'.length + 1 } acc1 with
        | error e => rw [hr] at hih; exact hih
        | ok r =>
          rw [hr] at hih
          obtain ⟨o', L', D2, ms, dc, e1, e2, e3, e3r, e4, e5, e6, e7, e8, e9⟩ := hih
          rw [hcd, hdb] at e6; cases e6
          refine ⟨o', L', D2, (b.seq, db) :: ms, d0, e1, e2, ?_, ?_, e4, e5, hd0, ⟨?_, ?_⟩, ?_, ?_⟩
          · simp at e3 h3 ⊢; omega
          · simp at e3r h3r ⊢; omega
          · rw [List.pairwise_cons]
            refine ⟨?_, by rw [← hcs]; exact e7.1⟩
            intro a ha
            rw [← hcs] at ha
            have := (e7.2 a.1 a.2).mp ha
            have := hnewle a.1 a.2 this
            simp; omega
          · intro s d
            rw [List.mem_cons, ← hcs, e7.2 s d]
            have := hold s d
            simp only [List.cons_append] at this ⊢
            rw [this]; simp
          · simp only [List.map_cons, mergeDown, hmt, Option.bind_some]; exact e8
          · intro s k' d
            have a1 := e9 s k' d
            have a2 := h5 s k' d
            simp only [List.cons_append] at a1 a2 ⊢
            rw [a1, a2, hk]
            constructor
            · rintro ⟨⟨x, _⟩, y⟩; exact ⟨x, y⟩
            · rintro ⟨x, y⟩
              refine ⟨⟨x, ?_⟩, y⟩
              rintro ⟨rfl, e⟩
              cases e
              -- o'.seq ≤ b.seq < o.seq
              have hos : Has m.forwards (o' :: (L' ++ D2)) o'.seq kb = fun d => Has m.forwards (o' :: (L' ++ D2)) o'.seq kb d := rfl
              obtain ⟨k2, d2, hk2, _, hh2, _, _⟩ := head_has e2.pre
              rw [e4] at hk2; cases hk2
              have := ((e9 o'.seq kb d2).mp (by simpa using hh2)).1
              have := hnewle _ _ (by simpa using this)
              have := y rfl
              omega
      · simp only [hcf, Bool.false_eq_true, if_false]
        have hcf' : c.nextEq = false := by simpa using hcf
        have honly : ∀ s d, Has m.forwards (c :: L1' ++ D') s kb d ↔ s = b.seq ∧ d = db := by
          obtain ⟨kc, dc, hkc, hdc, hch, _, hcu⟩ := head_has h2.pre
          rw [hck, hkb] at hkc; cases hkc
          rw [hcd, hdb] at hdc; cases hdc
          intro s d
          constructor
          · intro hh
            have hs := flag_false h2 hcf' (by rw [hck, hkb]) hh
            subst hs
            exact ⟨hcs, hcu d hh⟩
          · rintro ⟨rfl, rfl⟩
            rw [← hcs]; exact hch
        refine ⟨c, L1', D', [(b.seq, db)], d0, ?_, h2, ?_, ?_, by rw [hck, hkb], hcf', hd0, ⟨?_, ?_⟩, ?_, ?_⟩
        · simp
        · simp at h3 ⊢; omega
        · simp at h3r ⊢; omega
        · simp [hlt]
        · intro s d
          have := hold s d
          simp only [List.cons_append] at this ⊢
          rw [this]
          have := honly s d
          simp only [List.cons_append] at this
          rw [this]; simp
        · simp [mergeDown, hmt]
        · intro s k' d
          have a2 := h5 s k' d
          have a3 := honly s d
          simp only [List.cons_append] at a2 a3 ⊢
          rw [a2, hk]
          constructor
          · rintro ⟨x, y⟩
            refine ⟨x, ?_⟩
            rintro rfl
            have := a3.mp (a2.mpr ⟨x, by rw [hk]; exact y⟩)
            rw [hcs]; exact this.1
          · rintro ⟨x, y⟩
            refine ⟨x, ?_⟩
            rintro ⟨rfl, e⟩
            cases e
            have := y rfl
            omega

end Splinter.Merge
