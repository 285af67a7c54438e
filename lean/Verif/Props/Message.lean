import Verif.Model.Message
/-!
# C02: message merging is history-faithful, whatever the grouping

The specification says what an update *means* on values; the contract says the
two application callbacks implement that meaning.  The theorems say that every
way of combining stored messages gives the value obtained by applying the
messages one at a time, oldest first.
-/
namespace Splinter
namespace Spec

/-- Meaning of an update: how update data `d` changes the value of key `k`
(`none` = absent). -/
structure UpdateSem (K V : Type) where
  apply : K → V → Option V → Option V

variable {K V : Type}

/-- Effect of one message on the value of its key. -/
def act (sem : UpdateSem K V) (k : K) (m : Msg V) (v : Option V) : Option V :=
  match m.type with
  | .insert => some m.data
  | .delete => none
  | .update => sem.apply k m.data v

/-- Value after a history of messages for one key, oldest first. -/
def eval (sem : UpdateSem K V) (k : K) (hist : List (Msg V)) : Option V :=
  hist.foldl (fun v m => act sem k m v) none

/-- The contract on the application's callbacks (include/splinterdb/data.h:112-133):
both succeed on the inputs they may be given; merging an update over an older
insert/update is composition of effects; finalising yields an insert or a delete
with the effect of the update on an absent value. -/
structure Implements (cfg : DataCfg K V) (sem : UpdateSem K V) : Prop where
  merge : ∀ k (old : Msg V) d, old.type ≠ .delete →
    ∃ m, cfg.mergeTuples k old d = some m ∧
      ∀ v, act sem k m v = sem.apply k d (act sem k old v)
  final : ∀ k d, ∃ m, cfg.mergeFinal k d = some m ∧ m.type ≠ .update ∧
      ∀ v, act sem k m v = sem.apply k d none

/-- What the API should report for a value. -/
def report : Option V → LookupOut V
  | some v => .found v
  | none => .notFound

end Spec

open Spec

variable {K V : Type} {cfg : DataCfg K V} {sem : UpdateSem K V}

theorem act_definitive (k : K) (m : Msg V) (h : m.definitive = true) (v w : Option V) :
    act sem k m v = act sem k m w := by
  unfold Msg.definitive at h; unfold act
  cases hm : m.type <;> simp_all

/-- Merging an older message under an accumulator composes their effects. -/
theorem dataMergeTuples_act (H : Implements cfg sem) (k : K) (old acc : Msg V) :
    ∃ m, dataMergeTuples cfg k old acc = some m ∧
      ∀ v, act sem k m v = act sem k acc (act sem k old v) := by
  unfold dataMergeTuples
  by_cases hd : acc.definitive = true
  · simp only [hd, if_true]
    exact ⟨acc, rfl, fun v => act_definitive k acc hd _ _⟩
  · have hu : acc.type = .update := by
      unfold Msg.definitive at hd; cases h : acc.type <;> simp_all
    simp only [hd, Bool.false_eq_true, if_false]
    by_cases ho : old.type = .delete
    · simp only [ho, if_true]
      obtain ⟨m, h1, _, h3⟩ := H.final k acc.data
      refine ⟨m, h1, fun v => ?_⟩
      rw [h3]; simp [act, hu, ho]
    · simp only [ho, if_false]
      obtain ⟨m, h1, h2⟩ := H.merge k old acc.data ho
      refine ⟨m, h1, fun v => ?_⟩
      rw [h2]; simp [act, hu]

/-- Effect of an optional accumulator. -/
def actO (sem : UpdateSem K V) (k : K) : Option (Msg V) → Option V → Option V
  | none, v => v
  | some m, v => act sem k m v

private theorem evalR (k : K) (ms : List (Msg V)) :
    eval sem k ms.reverse = ms.foldr (fun m v => act sem k m v) none := by
  simp [eval]

theorem accumulateAll_spec (H : Implements cfg sem) (k : K) (ms : List (Msg V))
    (acc : Option (Msg V)) (hacc : ∀ a, acc = some a → a.definitive = false) :
    ∃ r, accumulateAll cfg k acc ms = some r ∧
      actO sem k acc (ms.foldr (fun m v => act sem k m v) none) = actO sem k r none := by
  induction ms generalizing acc with
  | nil => exact ⟨acc, rfl, rfl⟩
  | cons m ms ih =>
    unfold accumulateAll accumulate
    cases acc with
    | none =>
      simp only
      by_cases hd : m.definitive = true
      · simp only [hd, if_true]
        exact ⟨some m, rfl, by simpa [actO] using act_definitive k m hd _ _⟩
      · simp only [hd, Bool.false_eq_true, if_false]
        obtain ⟨r, h1, h2⟩ := ih (some m) (by intro a h; cases h; simpa using hd)
        exact ⟨r, h1, by simpa [actO] using h2⟩
    | some a =>
      obtain ⟨c, hc1, hc2⟩ := dataMergeTuples_act H k m a
      simp only [hc1, Option.map_some]
      by_cases hd : c.definitive = true
      · simp only [hd, if_true]
        refine ⟨some c, rfl, ?_⟩
        simp only [actO, List.foldr_cons]
        rw [← hc2]; exact act_definitive k c hd _ _
      · simp only [hd, Bool.false_eq_true, if_false]
        obtain ⟨r, h1, h2⟩ := ih (some c) (by intro a h; cases h; simpa using hd)
        refine ⟨r, h1, ?_⟩
        rw [← h2]; simp [actO, hc2]

theorem finishLookup_spec (H : Implements cfg sem) (k : K) (r : Option (Msg V)) :
    finishLookup cfg k r = report (actO sem k r none) := by
  cases r with
  | none => rfl
  | some a =>
    unfold finishLookup dataMergeTuplesFinal
    by_cases hd : a.definitive = true
    · simp only [hd, if_true, actO]
      unfold Msg.definitive at hd
      cases h : a.type <;> simp_all [act, report]
    · have hu : a.type = .update := by
        unfold Msg.definitive at hd; cases h : a.type <;> simp_all
      simp only [hd, Bool.false_eq_true, if_false]
      obtain ⟨m, h1, h2, h3⟩ := H.final k a.data
      have h4 := h3 none
      simp only [h1, actO, act, hu]
      rw [← h4]
      cases h : m.type with
      | insert => simp [act, report, h]
      | delete => simp [act, report, h]
      | update => exact absurd h h2

/-- C02a.  A lookup over the messages stored for a key, newest first, reports the
value obtained by applying them oldest first. -/
theorem lookupMsgs_spec (H : Implements cfg sem) (k : K) (ms : List (Msg V)) :
    lookupMsgs cfg k ms = report (eval sem k ms.reverse) := by
  unfold lookupMsgs
  obtain ⟨r, h1, h2⟩ := accumulateAll_spec H k ms none (by simp)
  rw [h1]; simp only; rw [finishLookup_spec H, evalR]
  change report _ = report _
  exact congrArg report h2.symm

/-- `Merged cfg k ms m`: message `m` was obtained from the messages `ms` (newest
first, contiguous in the history) by merging adjacent groups in some order, as
memtable inserts and compactions do. -/
inductive Merged (cfg : DataCfg K V) (k : K) : List (Msg V) → Msg V → Prop where
  | one (m) : Merged cfg k [m] m
  | merge {newer older : List (Msg V)} {a b c : Msg V} :
      Merged cfg k newer a → Merged cfg k older b → dataMergeTuples cfg k b a = some c →
      Merged cfg k (newer ++ older) c

private theorem merged_act (H : Implements cfg sem) (k : K) {ms : List (Msg V)} {m : Msg V}
    (h : Merged cfg k ms m) (v : Option V) :
    act sem k m v = ms.foldr (fun m v => act sem k m v) v := by
  induction h generalizing v with
  | one m => rfl
  | @merge newer older a b c _ _ hc iha ihb =>
    obtain ⟨c', h1, h2⟩ := dataMergeTuples_act H k b a
    rw [hc] at h1; cases h1
    rw [h2, List.foldr_append, ← ihb, ← iha]

/-- C02b.  Grouping independence: if the stored runs hold, newest run first,
messages `groups[i].2` that were merged from the history fragments
`groups[i].1` in any order, a lookup still reports the value of the whole
history. -/
theorem lookup_grouping (H : Implements cfg sem) (k : K)
    (groups : List (List (Msg V) × Msg V)) (hg : ∀ g ∈ groups, Merged cfg k g.1 g.2) :
    lookupMsgs cfg k (groups.map (·.2)) =
      report (eval sem k (groups.map (·.1)).flatten.reverse) := by
  rw [lookupMsgs_spec H, evalR, evalR]
  congr 1
  induction groups with
  | nil => rfl
  | cons g gs ih =>
    simp only [List.map_cons, List.foldr_cons, List.flatten_cons, List.foldr_append]
    rw [ih (fun g' h' => hg g' (List.mem_cons_of_mem _ h')),
      merged_act H k (hg g List.mem_cons_self)]

/-- C02c.  Merging never fails and never loses the "definitive" property: once a
group's newest message is an insert or delete the merged message is that one. -/
theorem merged_definitive (k : K) {ms : List (Msg V)} {m : Msg V}
    (h : Merged cfg k ms m) (hd : ∀ x, ms.head? = some x → x.definitive = true) :
    ms.head? = some m := by
  induction h with
  | one m => rfl
  | @merge newer older a b c ha _ hc iha _ =>
    have hne : newer ≠ [] := by
      clear hc iha hd; induction ha with
      | one => simp
      | merge _ _ _ ih _ => simp [ih]
    have hh : (newer ++ older).head? = newer.head? := by
      cases newer with
      | nil => exact absurd rfl hne
      | cons x xs => rfl
    rw [hh] at hd ⊢
    have hs := iha hd
    have hda := hd a hs
    unfold dataMergeTuples at hc
    simp only [hda, if_true] at hc
    rw [hs, ← hc]

/-! ### The contract is satisfiable by a non-trivial configuration -/

/-- Counter semantics: an update adds to the value, absent counts as 0. -/
def counterSem : UpdateSem Nat Nat where
  apply _ d v := some (v.getD 0 + d)

/-- Callbacks a counter application would register. -/
def counterCfg : DataCfg Nat Nat where
  mergeTuples _ old d := some ⟨old.type, old.data + d⟩
  mergeFinal _ d := some ⟨.insert, d⟩

theorem counter_implements : Implements counterCfg counterSem where
  merge k old d h := by
    refine ⟨_, rfl, fun v => ?_⟩
    cases ht : old.type <;> simp_all [act, counterSem]
    omega
  final k d := ⟨_, rfl, by simp, fun v => by simp [act, counterSem]⟩

/-- A non-commutative one: an update appends bytes. -/
def appendSem : UpdateSem Nat (List Nat) where
  apply _ d v := some (v.getD [] ++ d)

def appendCfg : DataCfg Nat (List Nat) where
  mergeTuples _ old d := some ⟨old.type, old.data ++ d⟩
  mergeFinal _ d := some ⟨.insert, d⟩

theorem append_implements : Implements appendCfg appendSem where
  merge k old d h := by
    refine ⟨_, rfl, fun v => ?_⟩
    cases ht : old.type <;> simp_all [act, appendSem]
  final k d := ⟨_, rfl, by simp, fun v => by simp [act, appendSem]⟩

/-- Hypotheses of `lookupMsgs_spec` and `lookup_grouping` met by a concrete case:
updates 3 and 4 over an insert of 10, the two updates merged in one run. -/
example : lookupMsgs counterCfg 0 [⟨.update, 7⟩, ⟨.insert, 10⟩] = .found 17 := by
  have h := lookup_grouping counter_implements 0
    [([⟨.update, 4⟩, ⟨.update, 3⟩], ⟨.update, 7⟩), ([⟨.insert, 10⟩], ⟨.insert, 10⟩)]
    (by
      intro g hg
      simp at hg
      rcases hg with h | h <;> subst h
      · exact .merge (newer := [⟨.update, 4⟩]) (.one _) (.one _) rfl
      · exact .one _)
  exact h

end Splinter
