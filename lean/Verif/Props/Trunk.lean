import Verif.Proof.TrunkLookup
import Mathlib.Order.Nat
/-!
# C01, C03, C07, C32: lookups report the history, whatever maintenance did

The specification is a history of writes per key (`Written.written`) and the value
it leaves (`Spec.eval`, `Spec.report` of `Props/Message.lean`).

The theorems carry the suffix `_partial`: they need `FlushLegal`, that no pivot is
flushed while a merged branch is on its way into a bundle live for that pivot, and
`VanishLegal`, that a bundle whose merge left no tuples is the newest of its node when it
is removed. The code ensures neither, and without them the property is false
(`lookup_loses_key_after_race`, `lookup_loses_key_after_vanish`, `vanish_stops_store`).
-/
namespace Splinter.Trunk
open Splinter.Spec (eval UpdateSem Implements report)

namespace Written
variable {K V : Type} [DecidableEq K]

/-- Messages accepted for a key by a sequence of operations, in call order. -/
def written (keyOk : K → Bool) (k : K) : List (Op K V) → List (Msg V)
  | [] => []
  | .insert k' m :: os => if k' = k ∧ keyOk k' = true then m :: written keyOk k os else written keyOk k os
  | _ :: os => written keyOk k os

end Written

open Written (written)

variable {K V F : Type} [LinearOrder K]

/-- What each operation needs: keys lie between the two infinite keys, flushes do not
overtake a merge, and only newest bundles vanish. -/
def Legal (lo hi : K) (s : State K V F) : Op K V → Prop
  | .insert k _ => lo ≤ k ∧ k < hi
  | .flush j k => lo ≤ k ∧ k < hi ∧ FlushLegal s j k
  | .splitIndex _ k => lo ≤ k ∧ k < hi
  | .splitLeaf k _ => lo ≤ k ∧ k < hi
  | .replace i => VanishLegal s i
  | _ => True

/-- Every operation of a run is legal when it is executed. -/
def LegalRun (cfg : DataCfg K V) (ops : FilterOps K F) (keyOk : K → Bool) (lo hi : K) :
    State K V F → List (Op K V) → Prop
  | _, [] => True
  | s, o :: os => Legal lo hi s o ∧ ∀ s', step cfg ops keyOk s o = some s' → LegalRun cfg ops keyOk lo hi s' os

variable {cfg : DataCfg K V} {ops : FilterOps K F} {keyOk : K → Bool} {sem : UpdateSem K V} {lo hi : K}
  {s s' : State K V F}

theorem step_inv {L : FilterLaws ops} (H : Implements cfg sem) {hist : K → List (Msg V)} (I : Inv L sem lo hi s hist)
    {o : Op K V} (hl : Legal lo hi s o) (hs : step cfg ops keyOk s o = some s') :
    Inv L sem lo hi s' (fun k => hist k ++ written keyOk k [o]) := by
  have hn : ∀ {s'' : State K V F}, Inv L sem lo hi s'' hist → Inv L sem lo hi s'' (fun k => hist k ++ []) := by
    intro s'' h; simpa using h
  cases o with
  | insert k m =>
    simp only [step, doInsert] at hs
    split at hs
    · rename_i hk
      split at hs
      · cases hs
      · rename_i b r hm
        split at hs
        · cases hs
        · rename_i b' hb
          obtain rfl := Option.some.inj hs
          have := I.insert H hl.1 hl.2 m hm hb
          have e : (fun k' => hist k' ++ written keyOk k' [Op.insert k m]) = addHist hist k m := by
            funext k'
            unfold addHist written
            by_cases h : k' = k
            · subst h; simp [hk, written]
            · have h' : ¬ k = k' := fun e => h e.symm
              simp [h, h', written]
          rw [e]; exact this
    · rename_i hk
      obtain rfl := Option.some.inj hs
      have e : (fun k' => hist k' ++ written keyOk k' [Op.insert k m]) = hist := by
        funext k'
        simp [written, hk]
      rw [e]; exact I
  | rotate =>
    simp only [step] at hs
    obtain rfl := Option.some.inj hs
    exact hn I.rotate
  | incorporate => exact hn (I.incorporate hs)
  | flush j k => exact hn (I.flush hl.1 hl.2.1 hl.2.2 hs)
  | splitIndex j k => exact hn (I.splitIndex hl.1 hl.2 hs)
  | splitLeaf k ks => exact hn (I.splitLeaf hl.1 hl.2 hs)
  | splitRoot => exact hn (I.splitRoot hs)
  | startCompact i => exact hn (I.start H hs)
  | replace i => exact hn (I.replace hl hs)
  | filters i => exact hn (I.filters hs)

theorem written_cons (keyOk : K → Bool) (k : K) (o : Op K V) (os : List (Op K V)) :
    written keyOk k (o :: os) = written keyOk k [o] ++ written keyOk k os := by
  cases o <;> simp [written]
  split <;> simp

theorem run_inv {L : FilterLaws ops} (H : Implements cfg sem) : ∀ (os : List (Op K V)) (s s' : State K V F)
    (hist : K → List (Msg V)), Inv L sem lo hi s hist → LegalRun cfg ops keyOk lo hi s os →
    run cfg ops keyOk s os = some s' → Inv L sem lo hi s' (fun k => hist k ++ written keyOk k os)
  | [], s, s', hist, I, _, hr => by
    obtain rfl := Option.some.inj hr
    simpa [written] using I
  | o :: os, s, s', hist, I, hl, hr => by
    unfold run at hr
    cases hst : step cfg ops keyOk s o with
    | none => rw [hst] at hr; cases hr
    | some s1 =>
      rw [hst] at hr
      have I1 := step_inv H I hl.1 hst
      have := run_inv H os s1 s' _ I1 (hl.2 s1 hst) hr
      have e : (fun k => hist k ++ written keyOk k (o :: os)) =
          fun k => (hist k ++ written keyOk k [o]) ++ written keyOk k os := by
        funext k; rw [written_cons, List.append_assoc]
      rw [e]; exact this

/-- C01. After any legal run from an empty store, a lookup reports the value left by
the writes to its key, in call order. -/
theorem lookup_after_run_partial (L : FilterLaws ops) (H : Implements cfg sem) (hlt : lo < hi) (os : List (Op K V))
    (hl : LegalRun cfg ops keyOk lo hi (init ops lo hi) os)
    (hr : run cfg ops keyOk (init ops lo hi) os = some s) {k : K} (k1 : lo ≤ k) (k2 : k < hi) :
    lookup cfg ops s k = .ok (report (eval sem k (written keyOk k os))) := by
  have I := run_inv (L := L) H os _ s _ (inv_init hlt) hl hr
  have := I.lookup H k1 k2
  simpa using this

/-- The store was reached by a legal run. -/
def Reachable (cfg : DataCfg K V) (ops : FilterOps K F) (keyOk : K → Bool) (lo hi : K) (s : State K V F) : Prop :=
  ∃ os, LegalRun cfg ops keyOk lo hi (init ops lo hi) os ∧ run cfg ops keyOk (init ops lo hi) os = some s

theorem Reachable.inv (L : FilterLaws ops) (H : Implements cfg sem) (hlt : lo < hi)
    (h : Reachable cfg ops keyOk lo hi s) : ∃ hist, Inv L sem lo hi s hist := by
  obtain ⟨os, hl, hr⟩ := h
  exact ⟨_, run_inv H os _ s _ (inv_init hlt) hl hr⟩

/-- Everything but a write. -/
def Op.maintenance : Op K V → Bool
  | .insert _ _ => false
  | _ => true

/-- C07. A maintenance action leaves every lookup as it was. -/
theorem maintenance_invisible_partial (L : FilterLaws ops) (H : Implements cfg sem) (hlt : lo < hi)
    (hs : Reachable cfg ops keyOk lo hi s) {o : Op K V} (ho : o.maintenance = true) (hl : Legal lo hi s o)
    (hst : step cfg ops keyOk s o = some s') {k : K} (k1 : lo ≤ k) (k2 : k < hi) :
    lookup cfg ops s' k = lookup cfg ops s k := by
  obtain ⟨hist, I⟩ := hs.inv L H hlt
  have I' := step_inv H I hl hst
  rw [I.lookup H k1 k2, I'.lookup H k1 k2]
  have : written keyOk k [o] = [] := by cases o <;> first | rfl | cases ho
  rw [this, List.append_nil]

/-- C03. Once the last write to a key is a delete, lookups do not find it, whatever
maintenance ran since. -/
theorem delete_hides_partial (L : FilterLaws ops) (H : Implements cfg sem) (hlt : lo < hi) (os : List (Op K V))
    (hl : LegalRun cfg ops keyOk lo hi (init ops lo hi) os)
    (hr : run cfg ops keyOk (init ops lo hi) os = some s) {k : K} (k1 : lo ≤ k) (k2 : k < hi)
    {before : List (Msg V)} {d : V} (hd : written keyOk k os = before ++ [⟨.delete, d⟩]) :
    lookup cfg ops s k = .ok .notFound := by
  rw [lookup_after_run_partial L H hlt os hl hr k1 k2, hd]
  unfold Spec.eval
  rw [List.foldl_append]
  rfl

/-- C32. A write whose key fails the length check changes nothing. -/
theorem rejected_write {k : K} (hk : keyOk k = false) (m : Msg V) :
    step cfg ops keyOk s (.insert k m) = some s := by
  simp [step, doInsert, hk]

/-- C32. An accepted write changes only the lookup of its own key, to the value its
message makes of the old one. -/
theorem accepted_write_partial (L : FilterLaws ops) (H : Implements cfg sem) (hlt : lo < hi)
    (hs : Reachable cfg ops keyOk lo hi s) {k : K} (hk : keyOk k = true) (k1 : lo ≤ k) (k2 : k < hi) (m : Msg V) :
    ∃ s', step cfg ops keyOk s (.insert k m) = some s' ∧
      (∀ k', k' ≠ k → lo ≤ k' → k' < hi → lookup cfg ops s' k' = lookup cfg ops s k') ∧
      ∃ v, lookup cfg ops s k = .ok (report v) ∧ lookup cfg ops s' k = .ok (report (Spec.act sem k m v)) := by
  obtain ⟨hist, I⟩ := hs.inv L H hlt
  obtain ⟨b, r, hm⟩ : ∃ b r, s.mems = b :: r := by
    cases h : s.mems with
    | nil => exact absurd h I.memsNe
    | cons b r => exact ⟨b, r, rfl⟩
  obtain ⟨b', hb', _⟩ := memInsert_spec H k m b (I.mems b (by rw [hm]; exact List.mem_cons_self)).1
  have hst : step cfg ops keyOk s (.insert k m) = some { s with mems := b' :: r } := by
    simp [step, doInsert, hk, hm, hb']
  have I' := step_inv H I (o := .insert k m) ⟨k1, k2⟩ hst
  refine ⟨_, hst, ?_, _, I.lookup H k1 k2, ?_⟩
  · intro k' hne a1 a2
    rw [I.lookup H a1 a2, I'.lookup H a1 a2]
    have : written keyOk k' [Op.insert k m] = [] := by
      have h' : ¬ k = k' := fun e => hne e.symm
      simp [written, h']
    rw [this, List.append_nil]
  · rw [I'.lookup H k1 k2]
    have : written keyOk k [Op.insert k m] = [m] := by simp [written, hk]
    rw [this]
    unfold Spec.eval
    rw [List.foldl_append]
    rfl

/-! ### A filter that is a set of pairs -/

/-- Exact filter: pairs of key and value. -/
def setFilter : FilterOps Nat (List (Nat × Nat)) where
  empty := []
  add f ks n := f ++ ks.map (fun k => (k, n))
  vals f k := ((List.range ((f.map (·.2)).foldl max 0 + 1)).filter (fun n => f.contains (k, n))).reverse

theorem foldl_max_le (l : List Nat) : ∀ (a n : Nat), n = a ∨ n ∈ l → n ≤ l.foldl max a := by
  induction l with
  | nil => intro a n h; rcases h with rfl | h; exact Nat.le_refl _; cases h
  | cons x l ih =>
    intro a n h
    rw [List.foldl_cons]
    rcases h with rfl | h
    · exact Nat.le_trans (Nat.le_max_left _ _) (ih (max n x) (max n x) (.inl rfl))
    · rcases List.mem_cons.mp h with rfl | h
      · exact Nat.le_trans (Nat.le_max_right _ _) (ih (max a n) (max a n) (.inl rfl))
      · exact ih _ _ (.inr h)

theorem setFilter_mem {f : List (Nat × Nat)} {k v : Nat} : v ∈ setFilter.vals f k ↔ (k, v) ∈ f := by
  simp only [setFilter, List.mem_reverse, List.mem_filter, List.mem_range, List.contains_iff_mem]
  constructor
  · exact fun h => h.2
  · intro h
    refine ⟨Nat.lt_succ_of_le (foldl_max_le _ _ _ (.inr ?_)), h⟩
    exact List.mem_map.mpr ⟨(k, v), h, rfl⟩

/-- The laws asked of filters can be met. -/
def setFilter_laws : FilterLaws setFilter where
  Has f k v := (k, v) ∈ f
  Bounded f n := ∀ x ∈ f, x.2 < n
  has_vals h := setFilter_mem.mpr h
  has_old _ h := List.mem_append_left _ h
  has_new _ h := List.mem_append_right _ (List.mem_map.mpr ⟨_, h, rfl⟩)
  bounded_vals hb hv := hb _ (setFilter_mem.mp hv)
  bounded_empty _ x hx := by cases hx
  bounded_add hb x hx := by
    rcases List.mem_append.mp hx with h | h
    · exact Nat.lt_succ_of_lt (hb x h)
    · obtain ⟨k, _, rfl⟩ := List.mem_map.mp h
      exact Nat.lt_succ_self _
  bounded_mono hb hle x hx := Nat.lt_of_lt_of_le (hb x hx) hle
  vals_desc f k := by
    unfold setFilter
    simp only
    rw [List.pairwise_reverse]
    exact List.Pairwise.filter _ List.pairwise_lt_range

/-! ### The race -/

/-- Operations that build a tree of height 2 whose left index node has two children. -/
def raceSetup : List (Op Nat Nat) :=
  [.insert 60 ⟨.insert, 0⟩, .rotate, .incorporate, .filters 0, .flush 0 60, .splitLeaf 60 [20, 50, 70], .splitRoot]

/-- Keys 10 and 30 reach the left index node and are merged there. -/
def raceCompact : List (Op Nat Nat) :=
  [.insert 10 ⟨.insert, 1⟩, .insert 30 ⟨.insert, 3⟩, .rotate, .incorporate, .filters 4, .flush 1 10, .startCompact 4]

/-- The merge is installed and filters are built. -/
def raceInstall : List (Op Nat Nat) := [.replace 4, .filters 4]

/-- Runs operations and looks a key up. -/
def runLookup (os : List (Op Nat Nat)) (k : Nat) : Option (Except LErr (LookupOut Nat)) :=
  (run counterCfg setFilter (fun _ => true) (init setFilter 0 100) os).map (fun s => lookup counterCfg setFilter s k)

/-- C01 and C07 fail for runs that are not legal: key 30 was written and never
deleted, and is found before the last maintenance action but not after it. The flush
of the pivot `[0, 20)` overtakes the merge of keys 10 and 30. -/
theorem lookup_loses_key_after_race :
    written (fun _ => true) 30 (raceSetup ++ raceCompact ++ [.flush 0 5] ++ raceInstall) = [⟨.insert, 3⟩] ∧
    runLookup (raceSetup ++ raceCompact ++ [.flush 0 5, .replace 4]) 30 = some (.ok (.found 3)) ∧
    runLookup (raceSetup ++ raceCompact ++ [.flush 0 5, .replace 4, .filters 4]) 30 = some (.ok .notFound) := by
  decide +kernel

/-! ### Vanishing bundles -/

/-- A tombstone reaches the leaf as bundle 0; its merge has no output. -/
def vanishSetup : List (Op Nat Nat) :=
  [.insert 5 ⟨.delete, 0⟩, .rotate, .incorporate, .filters 0, .flush 0 5, .startCompact 0]

/-- Key 7 reaches the leaf as bundle 1 before the output is installed. -/
def vanishLater : List (Op Nat Nat) := [.insert 7 ⟨.insert, 1⟩, .rotate, .incorporate, .filters 1, .flush 0 7]

/-- C01 and C07 fail when a bundle vanishes that is not the newest: with two later
bundles, the filter of the first of them is replaced by that of the second, and key 7 is
no longer found. -/
theorem lookup_loses_key_after_vanish :
    written (fun _ => true) 7 (vanishSetup ++ vanishLater ++
      [.insert 9 ⟨.insert, 2⟩, .rotate, .incorporate, .filters 2, .flush 0 9, .replace 0]) = [⟨.insert, 1⟩] ∧
    runLookup (vanishSetup ++ vanishLater ++
      [.insert 9 ⟨.insert, 2⟩, .rotate, .incorporate, .filters 2, .flush 0 9]) 7 = some (.ok (.found 1)) ∧
    runLookup (vanishSetup ++ vanishLater ++
      [.insert 9 ⟨.insert, 2⟩, .rotate, .incorporate, .filters 2, .flush 0 9, .replace 0]) 7 = some (.ok .notFound) := by
  decide +kernel

/-- And the merge of a later bundle, on its way when its bundle changes its number, fails
the assertion trunk.c 5403–5405 that bundles do not leave a leaf. -/
theorem vanish_stops_store :
    ((run counterCfg setFilter (fun _ => true) (init setFilter 0 100)
        (vanishSetup ++ vanishLater ++ [.startCompact 1, .replace 0])).map fun s =>
      (s.reqs.map fun r => (r.ht, r.no), (nodeAt 0 7 s.h s.root).map fun n => n.bundles.map (·.no),
        (step counterCfg setFilter (fun _ => true) s (.replace 0)).isNone)) =
      some ([(0, 1)], some [0], true) := by
  decide +kernel

/-! ### A legal run -/

/-- `FlushLegal`, computed. -/
def flushLegalB (s : State Nat Nat (List (Nat × Nat))) (j k : Nat) : Bool :=
  match nodeAt (j + 1) k s.h s.root with
  | none => true
  | some n => s.reqs.all (fun r => r.ht != j + 1 ||
      match r.phase with
      | .compacted out _ cur => out.isEmpty || n.pivots.all (fun x => !(decide (x.1.key ≤ k) && decide (k < x.2)) ||
          !((n.bundles.drop x.1.bskip).any (fun b => b.no == r.no)) ||
          decide (x.2 ≤ cur) || decide (x.2 ≤ r.start) || decide (r.stop ≤ x.1.key))
      | _ => true)

theorem flushLegalB_sound {s : State Nat Nat (List (Nat × Nat))} {j k : Nat} (h : flushLegalB s j k = true) :
    FlushLegal s j k := by
  intro r hr hj out full cur hp ho n hn x hx a1 a2 hb
  unfold flushLegalB at h
  rw [hn] at h
  have h1 := List.all_eq_true.mp h r hr
  rw [hp] at h1
  have ho' : out.isEmpty = false := by cases out <;> simp_all
  simp only [hj, bne_self_eq_false, Bool.false_or, ho'] at h1
  have h2 := List.all_eq_true.mp h1 x hx
  have h3 : (n.bundles.drop x.1.bskip).any (fun b => b.no == r.no) = true := by
    rw [List.any_eq_true]
    obtain ⟨b, hb, e⟩ := hb
    exact ⟨b, hb, by simp [e]⟩
  rw [h3] at h2
  simp only [a1, a2, decide_true, Bool.and_self, Bool.not_true, Bool.false_or, Bool.or_eq_true, decide_eq_true_eq] at h2
  rcases h2 with (h2 | h2) | h2
  · exact .inl h2
  · exact .inr (.inl h2)
  · exact .inr (.inr h2)

/-- `VanishLegal`, computed. -/
def vanishLegalB (s : State Nat Nat (List (Nat × Nat))) (i : Nat) : Bool :=
  match s.reqs[i]? with
  | none => true
  | some r =>
    match r.phase with
    | .compacted [] _ cur =>
      match nodeAt r.ht cur s.h s.root with
      | none => true
      | some n => !(n.bundles.any (fun b => b.no == r.no)) || n.endB == r.no + 1
    | _ => true

theorem vanishLegalB_sound {s : State Nat Nat (List (Nat × Nat))} {i : Nat} (h : vanishLegalB s i = true) :
    VanishLegal s i := by
  intro r full cur hr hp n hn _ hb
  unfold vanishLegalB at h
  simpa [hr, hp, hn, hb] using h

def legalB (s : State Nat Nat (List (Nat × Nat))) : Op Nat Nat → Bool
  | .insert k _ => decide (k < 100)
  | .flush j k => decide (k < 100) && flushLegalB s j k
  | .splitIndex _ k => decide (k < 100)
  | .splitLeaf k _ => decide (k < 100)
  | .replace i => vanishLegalB s i
  | _ => true

def legalRunB : State Nat Nat (List (Nat × Nat)) → List (Op Nat Nat) → Bool
  | _, [] => true
  | s, o :: os => legalB s o &&
    match step counterCfg setFilter (fun _ => true) s o with
    | none => true
    | some s' => legalRunB s' os

theorem legalRunB_sound : ∀ (os : List (Op Nat Nat)) (s : State Nat Nat (List (Nat × Nat))), legalRunB s os = true →
    LegalRun counterCfg setFilter (fun _ => true) 0 100 s os
  | [], _, _ => trivial
  | o :: os, s, h => by
    unfold legalRunB at h
    rw [Bool.and_eq_true] at h
    refine ⟨?_, fun s' hs' => ?_⟩
    · cases o with
      | flush j k =>
        have := h.1
        simp only [legalB, Bool.and_eq_true, decide_eq_true_eq] at this
        exact ⟨Nat.zero_le _, this.1, flushLegalB_sound this.2⟩
      | insert k m => exact ⟨Nat.zero_le _, by simpa [legalB] using h.1⟩
      | splitIndex j k => exact ⟨Nat.zero_le _, by simpa [legalB] using h.1⟩
      | splitLeaf k ks => exact ⟨Nat.zero_le _, by simpa [legalB] using h.1⟩
      | rotate => trivial
      | incorporate => trivial
      | splitRoot => trivial
      | startCompact i => trivial
      | replace i => exact vanishLegalB_sound h.1
      | filters i => trivial
    · have := h.2
      rw [hs'] at this
      exact legalRunB_sound os s' this

/-- The same operations in a legal order, then more writes: an update of key 30, a
delete of key 10, and further maintenance including a merge in a leaf. -/
def demoRun : List (Op Nat Nat) :=
  raceSetup ++ raceCompact ++ raceInstall ++
  [.flush 0 5, .insert 30 ⟨.update, 4⟩, .insert 10 ⟨.delete, 0⟩, .rotate, .incorporate, .filters 5,
   .flush 1 10, .startCompact 5, .replace 5, .filters 5, .flush 0 30, .flush 0 10,
   .startCompact 5, .replace 5, .filters 5, .startCompact 4, .replace 4, .filters 4]

/-- A legal run in which a bundle vanishes: a delete reaches an empty leaf; afterwards
the number of the bundle is used again. -/
example : (do
    let s ← run counterCfg setFilter (fun _ => true) (init setFilter 0 100)
      (vanishSetup ++ [.replace 0, .insert 7 ⟨.insert, 1⟩, .rotate, .incorporate, .filters 0, .flush 0 7])
    some (lookup counterCfg setFilter s 7, lookup counterCfg setFilter s 5,
      (nodeAt 0 7 s.h s.root).map fun n => n.bundles.map (·.no))) = some (.ok (.found 1), .ok .notFound, some [0]) ∧
    LegalRun counterCfg setFilter (fun _ => true) 0 100 (init setFilter 0 100)
      (vanishSetup ++ [.replace 0, .insert 7 ⟨.insert, 1⟩, .rotate, .incorporate, .filters 0, .flush 0 7]) :=
  ⟨by decide +kernel, legalRunB_sound _ _ (by decide +kernel)⟩

/-- Instance of `lookup_after_run_partial`. -/
example : (do
    let s ← run counterCfg setFilter (fun _ => true) (init setFilter 0 100) demoRun
    some (lookup counterCfg setFilter s 30, lookup counterCfg setFilter s 10)) = some (.ok (.found 7), .ok .notFound) := by
  have hsome : (run counterCfg setFilter (fun _ => true) (init setFilter 0 100) demoRun).isSome = true := by
    decide +kernel
  obtain ⟨s, hs⟩ := Option.isSome_iff_exists.mp hsome
  have hl : LegalRun counterCfg setFilter (fun _ => true) 0 100 (init setFilter 0 100) demoRun :=
    legalRunB_sound _ _ (by decide +kernel)
  have h1 := lookup_after_run_partial setFilter_laws counter_implements (by decide) demoRun hl hs (k := 30) (by decide) (by decide)
  have h2 := delete_hides_partial setFilter_laws counter_implements (by decide) demoRun hl hs (k := 10) (by decide) (by decide)
    (before := [⟨.insert, 1⟩]) (d := 0) (by decide +kernel)
  rw [hs]
  show some (_, _) = _
  rw [h1, h2]
  decide +kernel

/-- Instance of `maintenance_invisible_partial` and `accepted_write_partial`: a flush in
the middle of the run above. -/
example : ∃ s s', Reachable counterCfg setFilter (fun _ => true) 0 100 s ∧
    step counterCfg setFilter (fun _ => true) s (.flush 0 5) = some s' ∧
    lookup counterCfg setFilter s' 30 = lookup counterCfg setFilter s 30 := by
  have h0 : (run counterCfg setFilter (fun _ => true) (init setFilter 0 100) (raceSetup ++ raceCompact ++ raceInstall)).isSome = true := by
    decide +kernel
  obtain ⟨s, hs⟩ := Option.isSome_iff_exists.mp h0
  have hl : LegalRun counterCfg setFilter (fun _ => true) 0 100 (init setFilter 0 100) (raceSetup ++ raceCompact ++ raceInstall) :=
    legalRunB_sound _ _ (by decide +kernel)
  have h1 : (do
      let s ← run counterCfg setFilter (fun _ => true) (init setFilter 0 100) (raceSetup ++ raceCompact ++ raceInstall)
      some ((step counterCfg setFilter (fun _ => true) s (.flush 0 5)).isSome && flushLegalB s 0 5)) = some true := by
    decide +kernel
  rw [hs] at h1
  have h1 := Option.some.inj h1
  rw [Bool.and_eq_true] at h1
  obtain ⟨s', hs'⟩ := Option.isSome_iff_exists.mp h1.1
  have hreach : Reachable counterCfg setFilter (fun _ => true) 0 100 s := ⟨_, hl, hs⟩
  exact ⟨s, s', hreach, hs', maintenance_invisible_partial setFilter_laws counter_implements (by decide)
    hreach (o := .flush 0 5) rfl ⟨by decide, by decide, flushLegalB_sound h1.2⟩ hs' (by decide) (by decide)⟩

/-- Instance of `rejected_write`. -/
example : step counterCfg setFilter (fun k => decide (k < 50)) (init setFilter 0 100) (.insert 60 ⟨.insert, 1⟩) =
    some (init setFilter 0 100) := rejected_write (by decide) _

end Splinter.Trunk
