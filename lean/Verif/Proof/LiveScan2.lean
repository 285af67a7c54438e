import Verif.Proof.LiveScan
import Verif.Proof.BtreeScanSys
import Verif.Props.BtreeScan
/-!
What a scan of a memtable reports while it takes inserts, as a report of the newest memtable
of a store.
-/
namespace Splinter.Trunk
open Splinter.Merge (SortedRun)
open Splinter.Spec (UpdateSem Implements)
open LiveScan Written
open BtreeIns (valueOf Swept From UpTo)

variable {K V F : Type} [LinearOrder K] {cfg : DataCfg K V} {ops : FilterOps K F} {keyOk : K → Bool} {lo hi : K}
  {sem : UpdateSem K V}

/-- The message an operation puts into the newest memtable. -/
def inserted (keyOk : K → Bool) : Op K V → Option (K × Msg V)
  | .insert k m => if keyOk k then some (k, m) else none
  | _ => none

/-- The messages of the newest memtable after one more operation. -/
def recentStep (keyOk : K → Bool) (l : List (K × Msg V)) : Op K V → List (K × Msg V)
  | .rotate => []
  | o => l ++ (inserted keyOk o).toList

/-- The messages of the newest memtable, in the order they were inserted: those since the
last rotation. -/
def recent (keyOk : K → Bool) (os : List (Op K V)) : List (K × Msg V) := os.foldl (recentStep keyOk) []

/-- How the memtable puts two messages together: `merge_tuples`, which does not fail. -/
def mrgOf (cfg : DataCfg K V) (k : K) (old new : Msg V) : Msg V := (dataMergeTuples cfg k old new).getD new

theorem memInsert_exact (H : Implements cfg sem) {k : K} {m : Msg V} : ∀ {b b' : Branch K V}, SortedRun b →
    memInsert cfg k m b = some b' → ∀ k', b'.get k' =
      if k = k' then some (match b.get k with | none => m | some o => mrgOf cfg k o m) else b.get k'
  | [], b', _, h, k' => by
    simp only [memInsert, Option.some.injEq] at h
    subst h
    by_cases e : k = k'
    · simp [Branch.get, e]
    · simp [Branch.get, e]
  | (k1, m1) :: r, b', hs, h, k' => by
    have h1 := List.pairwise_cons.mp hs
    have hnone : k < k1 → Branch.get ((k1, m1) :: r) k = none := by
      intro hlt
      by_contra hne
      obtain ⟨x, hx, rfl⟩ := Branch.get_ne hne
      rcases List.mem_cons.mp hx with rfl | hx
      · exact lt_irrefl _ hlt
      · exact lt_asymm hlt (h1.1 x hx)
    unfold memInsert at h
    by_cases hlt : k < k1
    · rw [if_pos hlt] at h
      obtain rfl := Option.some.inj h
      rw [hnone hlt]
      by_cases e : k = k'
      · simp [Branch.get, e]
      · rw [if_neg e]
        unfold Branch.get
        rw [List.find?_cons_of_neg (by simpa using e)]
    · rw [if_neg hlt] at h
      by_cases heq : k = k1
      · rw [if_pos heq] at h
        subst heq
        obtain ⟨x, hx, _⟩ := Splinter.dataMergeTuples_act H k m1 m
        rw [hx] at h
        obtain rfl := Option.some.inj h
        by_cases e : k = k'
        · subst e
          simp [Branch.get, mrgOf, hx]
        · rw [if_neg e]
          unfold Branch.get
          rw [List.find?_cons_of_neg (by simpa using e), List.find?_cons_of_neg (by simpa using e)]
      · rw [if_neg heq] at h
        cases hr : memInsert cfg k m r with
        | none => rw [hr] at h; cases h
        | some r' =>
          rw [hr] at h
          obtain rfl := Option.some.inj h
          have ih := memInsert_exact H h1.2 hr k'
          have hg : Branch.get ((k1, m1) :: r) k = Branch.get r k := by
            unfold Branch.get
            rw [List.find?_cons_of_neg (by simpa using Ne.symm heq)]
          rw [hg]
          by_cases e' : k1 = k'
          · subst e'
            rw [if_neg heq]
            simp [Branch.get]
          · have : ∀ r : Branch K V, Branch.get ((k1, m1) :: r) k' = Branch.get r k' := by
              intro r
              unfold Branch.get
              rw [List.find?_cons_of_neg (by simpa using e')]
            rw [this, this, ih]

/-- The newest memtable holds the messages since the last rotation, put together. -/
theorem head_recent (H : Implements cfg sem) : ∀ (os : List (Op K V)) {s s' : State K V F} {b : Branch K V}
    {r : List (Branch K V)} {l : List (K × Msg V)}, s.mems = b :: r → SortedRun b →
    (∀ k, b.get k = valueOf (mrgOf cfg) k l) → run cfg ops keyOk s os = some s' →
    ∃ b' r', s'.mems = b' :: r' ∧ SortedRun b' ∧ ∀ k, b'.get k = valueOf (mrgOf cfg) k
      (os.foldl (recentStep keyOk) l)
  | [], s, s', b, r, l, hm, hs, hb, hr => by
    simp only [run, Option.some.injEq] at hr
    subst hr
    exact ⟨b, r, hm, hs, hb⟩
  | o :: os, s, s', b, r, l, hm, hs, hb, hr => by
    simp only [run] at hr
    cases e : step cfg ops keyOk s o with
    | none => rw [e] at hr; cases hr
    | some s1 =>
      rw [e] at hr
      simp only at hr
      rw [List.foldl_cons]
      by_cases hrot : o = .rotate
      · subst hrot
        simp only [step, Option.some.injEq] at e
        subst e
        exact head_recent H os (b := []) (r := s.mems) rfl List.Pairwise.nil (fun k => rfl) hr
      · rcases step_head e hrot hm with ⟨r', h1, h2⟩ | ⟨k, m, b', r', rfl, hk, hbb, h1⟩
        · have : recentStep keyOk l o = l := by
            cases o with
            | insert k m =>
              have h3 := h2 k
              simp only [written, true_and] at h3
              by_cases hk : keyOk k = true
              · simp [hk] at h3
              · simp [recentStep, inserted, hk]
            | rotate => exact absurd rfl hrot
            | _ => simp [recentStep, inserted]
          rw [this]
          exact head_recent H os h1 hs hb hr
        · obtain ⟨b'', e1, e2, _⟩ := memInsert_spec H k m b hs
          rw [hbb] at e1
          obtain rfl := Option.some.inj e1
          refine head_recent H os h1 e2 ?_ hr
          intro k'
          rw [memInsert_exact H hs hbb k']
          simp only [recentStep, inserted, hk, if_true, Option.toList_some]
          rw [BtreeIns.valueOf_append, hb k, hb k']
          by_cases hkk : k = k'
          · simp only [if_pos hkk]
            cases valueOf (mrgOf cfg) k l <;> rfl
          · simp only [if_neg hkk]

/-- Without a rotation the messages are only added to. -/
theorem recent_append {a b : List (Op K V)} (h : ∀ o ∈ b, o ≠ .rotate) :
    recent keyOk (a ++ b) = recent keyOk a ++ b.filterMap (inserted keyOk) := by
  induction b generalizing a with
  | nil => simp
  | cons o b ih =>
    rw [show a ++ o :: b = (a ++ [o]) ++ b by simp, ih fun x hx => h x (List.mem_cons_of_mem _ hx)]
    have : recent keyOk (a ++ [o]) = recent keyOk a ++ (inserted keyOk o).toList := by
      unfold recent
      rw [List.foldl_append]
      cases o with
      | rotate => exact absurd rfl (h _ List.mem_cons_self)
      | _ => rfl
    rw [this, List.append_assoc]
    congr 1
    cases hi : inserted keyOk o with
    | none => simp [hi]
    | some x => simp [hi]

/-- The times at which the newest memtable had so many messages. -/
theorem times {os : List (Op K V)} {p q : Nat} (hpq : p ≤ q) (hq : q ≤ os.length)
    (hno : ∀ o ∈ (os.take q).drop p, o ≠ Op.rotate) :
    ∃ pos : Nat → Nat, (∀ t t', t ≤ t' → pos t ≤ pos t') ∧
      ∀ t, (recent keyOk (os.take p)).length ≤ t → t ≤ (recent keyOk (os.take q)).length →
        p ≤ pos t ∧ pos t ≤ q ∧ recent keyOk (os.take (pos t)) = (recent keyOk (os.take q)).take t := by
  classical
  have hseg : ∀ x, p ≤ x → x ≤ q → os.take x = os.take p ++ (os.drop p).take (x - p) ∧
      (∀ o ∈ (os.drop p).take (x - p), o ≠ Op.rotate) := by
    intro x h1 h2
    refine ⟨by rw [← List.take_add]; congr 1; omega, fun o ho => hno o ?_⟩
    rw [List.drop_take]
    exact (List.take_sublist_take_left (by omega)).subset ho
  have hrec : ∀ x, p ≤ x → x ≤ q → recent keyOk (os.take x) =
      recent keyOk (os.take p) ++ ((os.drop p).take (x - p)).filterMap (inserted keyOk) := by
    intro x h1 h2
    rw [(hseg x h1 h2).1, recent_append (hseg x h1 h2).2]
  have hpre : ∀ x, p ≤ x → x ≤ q → recent keyOk (os.take x) =
      (recent keyOk (os.take q)).take (recent keyOk (os.take x)).length := by
    intro x h1 h2
    have : recent keyOk (os.take x) <+: recent keyOk (os.take q) := by
      have e : os.take q = os.take x ++ (os.drop x).take (q - x) := by rw [← List.take_add]; congr 1; omega
      rw [e, recent_append]
      · exact List.prefix_append _ _
      · intro o ho
        apply hno o
        rw [← List.drop_take, show x = p + (x - p) by omega, ← List.drop_drop] at ho
        exact List.mem_of_mem_drop ho
    exact List.prefix_iff_eq_take.1 this
  have hstep : ∀ x, p ≤ x → x + 1 ≤ q → (recent keyOk (os.take (x + 1))).length ≤ (recent keyOk (os.take x)).length + 1 := by
    intro x h1 h2
    rw [hrec x h1 (by omega), hrec (x + 1) (by omega) h2, show x + 1 - p = x - p + 1 by omega, List.take_succ,
      List.filterMap_append]
    simp only [List.length_append]
    have : ((os.drop p)[x - p]?.toList.filterMap (inserted keyOk)).length ≤ 1 :=
      (List.length_filterMap_le _ _).trans (by cases (os.drop p)[x - p]? <;> simp)
    omega
  let Q : Nat → Nat → Prop := fun t x => p ≤ x ∧ (t ≤ (recent keyOk (os.take x)).length ∨ q ≤ x)
  have hex : ∀ t, ∃ x, Q t x := fun t => ⟨q, hpq, .inr le_rfl⟩
  refine ⟨fun t => Nat.find (hex t), fun t t' h => ?_, fun t h1 h2 => ?_⟩
  · apply Nat.find_min'
    have := Nat.find_spec (hex t')
    exact ⟨this.1, this.2.imp (fun x => h.trans x) id⟩
  · have hs := Nat.find_spec (hex t)
    have hle : Nat.find (hex t) ≤ q := Nat.find_min' _ ⟨hpq, .inl h2⟩
    refine ⟨hs.1, hle, ?_⟩
    show recent keyOk (os.take (Nat.find (hex t))) = _
    generalize hx : Nat.find (hex t) = x at hs hle ⊢
    have hge : t ≤ (recent keyOk (os.take x)).length := by
      rcases hs.2 with h | h
      · exact h
      · rw [show x = q by omega]; exact h2
    have heq : (recent keyOk (os.take x)).length = t := by
      refine le_antisymm ?_ hge
      rcases Nat.lt_or_ge p x with h | h
      · have hn := Nat.find_min (hex t) (m := x - 1) (by omega)
        have h3 : ¬ t ≤ (recent keyOk (os.take (x - 1))).length := fun hc => hn ⟨by omega, .inl hc⟩
        have := hstep (x - 1) (by omega) (by omega)
        rw [show x - 1 + 1 = x by omega] at this
        omega
      · rw [show x = p by have := hs.1; omega]; exact h1
    have := hpre x hs.1 hle
    rw [heq] at this
    exact this

/-- A scan of part of the newest memtable, closed before it was full, is part of a visit. -/
theorem swept_visit (H : Implements cfg sem) {os : List (Op K V)} {s : State K V F}
    (hr : run cfg ops keyOk (init ops lo hi) os = some s) {p q : Nat} (hpq : p ≤ q) (hq : q ≤ os.length)
    (hno : ∀ o ∈ (os.take q).drop p, o ≠ Op.rotate) {l : List (K × Msg V)} {n0 n1 : Nat} {P : K → Prop}
    {out : List (K × Msg V)} (hl : l.take n1 = recent keyOk (os.take q)) (hn1 : n1 = (recent keyOk (os.take q)).length)
    (hn0 : n0 = (recent keyOk (os.take p)).length) (hP : ∀ k k' k'', P k → P k'' → k ≤ k' → k' ≤ k'' → P k')
    (h : Swept (mrgOf cfg) l n0 n1 P out) :
    ∃ rep, Sampled (headAt cfg ops keyOk (init ops lo hi) os) p q rep ∧ ∀ k v, P k → ((k, v) ∈ rep ↔ (k, v) ∈ out) := by
  classical
  obtain ⟨_, τ, h2, h3, h4⟩ := h
  obtain ⟨pos, g1, g2⟩ := times (keyOk := keyOk) hpq hq hno
  have hhead : ∀ x, x ≤ os.length → ∃ b : Branch K V, SortedRun b ∧ (∀ k, headAt cfg ops keyOk (init ops lo hi) os x k = b.get k) ∧
      ∀ k, b.get k = valueOf (mrgOf cfg) k (recent keyOk (os.take x)) := by
    intro x hx
    rw [← List.take_append_drop x os, run_append] at hr
    obtain ⟨s2, hs2, _⟩ := Option.bind_eq_some_iff.1 hr
    obtain ⟨b', r', e1, e2, e3⟩ := head_recent (l := []) H (os.take x) (b := []) (r := []) rfl List.Pairwise.nil
      (fun k => rfl) hs2
    refine ⟨b', e2, fun k => ?_, e3⟩
    unfold headAt
    rw [hs2]
    simp [e1]
  let τ' : K → Nat := fun k => if P k then pos (τ k) else if ∃ x, P x ∧ k ≤ x then p else q
  have hpos : ∀ k, P k → p ≤ pos (τ k) ∧ pos (τ k) ≤ q ∧
      recent keyOk (os.take (pos (τ k))) = l.take (τ k) := by
    intro k hk
    obtain ⟨a, b, c⟩ := g2 (τ k) (by rw [← hn0]; exact (h2 k hk).1) (by rw [← hn1]; exact (h2 k hk).2)
    refine ⟨a, b, ?_⟩
    rw [c, ← hl, List.take_take, Nat.min_eq_left (h2 k hk).2]
  have hτ : ∀ k, p ≤ τ' k ∧ τ' k ≤ q := by
    intro k
    simp only [τ']
    split
    · rename_i hk; exact ⟨(hpos k hk).1, (hpos k hk).2.1⟩
    · split
      · exact ⟨le_rfl, hpq⟩
      · exact ⟨hpq, le_rfl⟩
  obtain ⟨bq, q1, q2, q3⟩ := hhead q hq
  have hkeep : ∀ k x, p ≤ x → x ≤ q → (headAt cfg ops keyOk (init ops lo hi) os x k).isSome → (bq.get k).isSome := by
    intro k x hx1 hx2 hsome
    obtain ⟨b, _, b2, b3⟩ := hhead x (hx2.trans hq)
    rw [b2, b3] at hsome
    rw [q3]
    have e : os.take q = os.take x ++ (os.take q).drop x := by
      conv_lhs => rw [← List.take_append_drop x (os.take q)]
      rw [List.take_take, Nat.min_eq_left hx2]
    have hno' : ∀ o ∈ (os.take q).drop x, o ≠ Op.rotate := by
      intro o ho
      apply hno o
      rw [show x = p + (x - p) by omega, ← List.drop_drop] at ho
      exact List.mem_of_mem_drop ho
    rw [e, recent_append hno']
    have := BtreeIns.valueOf_keeps (mrg := mrgOf cfg) (k := k)
      (hist := recent keyOk (os.take x) ++ ((os.take q).drop x).filterMap (inserted keyOk))
      (i := (recent keyOk (os.take x)).length)
      (j := (recent keyOk (os.take x) ++ ((os.take q).drop x).filterMap (inserted keyOk)).length)
      (by simp) (by rwa [List.take_left])
    rwa [List.take_length] at this
  refine ⟨bq.filterMap fun x => (headAt cfg ops keyOk (init ops lo hi) os (τ' x.1) x.1).map fun v => (x.1, v), ?_, ?_⟩
  · refine ⟨?_, τ', hτ, ?_, ?_⟩
    · rw [List.pairwise_filterMap]
      refine List.Pairwise.imp ?_ q1
      rintro x y hxy a ha b hb
      obtain ⟨_, _, rfl⟩ := Option.map_eq_some_iff.1 ha
      obtain ⟨_, _, rfl⟩ := Option.map_eq_some_iff.1 hb
      exact hxy
    · intro k k' hkk
      by_cases hk : P k
      · by_cases hk' : P k'
        · simp only [τ', hk, hk', if_true]; exact g1 _ _ (h3 k k' hk hk' hkk)
        · have : ¬ ∃ x, P x ∧ k' ≤ x := fun ⟨x, hx, hle⟩ => hk' (hP k k' x hk hx hkk hle)
          have e : τ' k' = q := by simp only [τ', hk', if_false, this]
          rw [e]; exact (hτ k).2
      · by_cases hA : ∃ x, P x ∧ k ≤ x
        · have e : τ' k = p := by simp only [τ', hk, if_false, hA, if_true]
          rw [e]; exact (hτ k').1
        · have hk' : ¬ P k' := fun hc => hA ⟨k', hc, hkk⟩
          have hA' : ¬ ∃ x, P x ∧ k' ≤ x := fun ⟨x, hx, hle⟩ => hA ⟨x, hx, hkk.trans hle⟩
          have e : τ' k = τ' k' := by simp only [τ', hk, hk', hA, hA', if_false]
          rw [e]
    · intro k v
      rw [List.mem_filterMap]
      constructor
      · rintro ⟨x, _, hx⟩
        obtain ⟨v', hv, e⟩ := Option.map_eq_some_iff.1 hx
        cases e
        exact hv
      · intro hv
        obtain ⟨m, hm⟩ := Option.isSome_iff_exists.1 (hkeep k (τ' k) (hτ k).1 (hτ k).2 (by rw [hv]; rfl))
        exact ⟨(k, m), Branch.get_mem hm, by simp only [hv, Option.map_some]⟩
  · intro k v hk
    have e : τ' k = pos (τ k) := by simp only [τ', hk, if_true]
    obtain ⟨b, _, b2, b3⟩ := hhead (pos (τ k)) ((hpos k hk).2.1.trans hq)
    have hv : headAt cfg ops keyOk (init ops lo hi) os (τ' k) k = valueOf (mrgOf cfg) k (l.take (τ k)) := by
      rw [e, b2, b3, (hpos k hk).2.2]
    rw [List.mem_filterMap, h4]
    constructor
    · rintro ⟨x, _, hx⟩
      obtain ⟨v', hv', e'⟩ := Option.map_eq_some_iff.1 hx
      cases e'
      exact ⟨hk, by rw [← hv]; exact hv'⟩
    · rintro ⟨_, hv'⟩
      rw [← hv] at hv'
      obtain ⟨m, hm⟩ := Option.isSome_iff_exists.1 (hkeep k (τ' k) (hτ k).1 (hτ k).2 (by rw [hv']; rfl))
      exact ⟨(k, m), Branch.get_mem hm, by simp only [hv', Option.map_some]⟩

end Splinter.Trunk
