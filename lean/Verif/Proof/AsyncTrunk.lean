import Verif.Model.Async
/-!
The invariant of `trunk_lookup_async`: the branches still to be read, applied to the
result so far, give what reading all branches in the order of `trunk_lookup` gives.
-/
namespace Splinter.Trunk.Async
open Splinter.Async (Ans)

set_option linter.unusedSectionVars false
variable {K V F : Type} [LinearOrder K]

/-! ### Reading a list of branches -/

theorem runProbes_cont {cfg : DataCfg K V} {k : K} : ∀ (l : List (Option (Branch K V))) (acc r : Option (Msg V)),
    runProbes cfg k acc l = .ok r → r.any Msg.definitive = false →
    ∀ l', runProbes cfg k acc (l ++ l') = runProbes cfg k r l' := by
  intro l
  induction l with
  | nil => intro acc r h _ l'; cases h; rfl
  | cons o l ih =>
    intro acc r h hr l'
    cases o with
    | none => cases h
    | some b =>
      simp only [runProbes, List.cons_append] at h ⊢
      cases hb : b.get k with
      | none => rw [hb] at h; exact ih _ _ h hr l'
      | some m =>
        rw [hb] at h
        simp only at h ⊢
        cases ha : accumulate cfg k acc m with
        | none => rw [ha] at h; cases h
        | some x =>
          rw [ha] at h
          cases x with
          | none => exact ih _ _ h hr l'
          | some a =>
            simp only at h ⊢
            split at h
            · cases h; simp_all
            · rename_i hd; rw [if_neg hd]; exact ih _ _ h hr l'

theorem runProbes_stop {cfg : DataCfg K V} {k : K} : ∀ (l : List (Option (Branch K V))) (acc r : Option (Msg V)),
    runProbes cfg k acc l = .ok r → r.any Msg.definitive = true → acc.any Msg.definitive = false →
    ∀ l', runProbes cfg k acc (l ++ l') = .ok r := by
  intro l
  induction l with
  | nil => intro acc r h h1 h2 l'; cases h; rw [h1] at h2; cases h2
  | cons o l ih =>
    intro acc r h h1 h2 l'
    cases o with
    | none => cases h
    | some b =>
      simp only [runProbes, List.cons_append] at h ⊢
      cases hb : b.get k with
      | none => rw [hb] at h; exact ih _ _ h h1 h2 l'
      | some m =>
        rw [hb] at h
        simp only at h ⊢
        cases ha : accumulate cfg k acc m with
        | none => rw [ha] at h; cases h
        | some x =>
          rw [ha] at h
          cases x with
          | none => exact ih _ _ h h1 rfl l'
          | some a =>
            simp only at h ⊢
            split at h
            · rename_i hd; rw [if_pos hd]; exact h
            · rename_i hd; rw [if_neg hd]; exact ih _ _ h h1 (by simpa using hd) l'

theorem runProbes_error {cfg : DataCfg K V} {k : K} : ∀ (l : List (Option (Branch K V))) (acc : Option (Msg V)) (x : LErr),
    runProbes cfg k acc l = .error x → ∀ l', runProbes cfg k acc (l ++ l') = .error x := by
  intro l
  induction l with
  | nil => intro acc x h; cases h
  | cons o l ih =>
    intro acc x h l'
    cases o with
    | none => exact h
    | some b =>
      simp only [runProbes, List.cons_append] at h ⊢
      cases hb : b.get k with
      | none => rw [hb] at h; exact ih _ _ h l'
      | some m =>
        rw [hb] at h
        simp only at h ⊢
        cases ha : accumulate cfg k acc m with
        | none => rw [ha] at h; exact h
        | some y =>
          rw [ha] at h
          cases y with
          | none => exact ih _ _ h l'
          | some a =>
            simp only at h ⊢
            split at h
            · cases h
            · rename_i hd; rw [if_neg hd]; exact ih _ _ h l'

/-! ### What is left to read -/

/-- A subbundle the asynchronous lookup can pass without failing an assertion. -/
def SbGood (e : Env K V F) (sb : SB K V F) : Prop :=
  (sb.compacted = true → sb.filters ≠ []) ∧ ∀ f ∈ sb.filters, e.isNull f = false

/-- On the path of the key: a leaf's only pivot is the one the search finds, and all
subbundles satisfy `Q`. -/
def PathOk (Q : SB K V F → Prop) (k : K) : (h : Nat) → Node K V F (Sub K V F h) → Prop
  | 0, n => n.find k = 0 ∧ ∀ b ∈ n.bundles, ∀ sb ∈ b.sbs, Q sb
  | h + 1, n => (∀ b ∈ n.bundles, ∀ sb ∈ b.sbs, Q sb) ∧
      ∀ p c, n.pivots[n.find k]? = some (p, c) → PathOk Q k h c

theorem PathOk.sbs {Q : SB K V F → Prop} {k : K} : ∀ {h : Nat} {n : Node K V F (Sub K V F h)}, PathOk Q k h n →
    ∀ b ∈ n.bundles, ∀ sb ∈ b.sbs, Q sb
  | 0, _, H => H.2
  | _ + 1, _, H => H.1

/-- The branches of the compacted subbundle that filters from number `j` on lead to. -/
def compFrom (e : Env K V F) (sb : SB K V F) (j : Nat) : List (Option (Branch K V)) :=
  if (sb.filters.drop j).any (fun f => !(e.ops.vals f e.key).isEmpty) then [sb.branches[0]?] else []

theorem compFrom_step {e : Env K V F} {sb : SB K V F} {j : Nat} {f : F} (h : sb.filters[j]? = some f) :
    compFrom e sb j = if (e.ops.vals f e.key).isEmpty then compFrom e sb (j + 1) else [sb.branches[0]?] := by
  unfold compFrom
  obtain ⟨hj, hf⟩ := List.getElem?_eq_some_iff.mp h
  rw [List.drop_eq_getElem_cons hj, hf, List.any_cons]
  cases (e.ops.vals f e.key).isEmpty <;> simp

theorem compFrom_end {e : Env K V F} {sb : SB K V F} {j : Nat} (h : sb.filters.length ≤ j) : compFrom e sb j = [] := by
  unfold compFrom
  rw [List.drop_eq_nil_of_le h]
  simp

/-- Probes of the child. -/
def tailP (e : Env K V F) (c : Ctx K V F) : List (Option (Branch K V)) :=
  match c.below with
  | none => []
  | some ⟨h, n⟩ => probes e.ops h n e.key

/-- Probes of the pivot's whole branches and what follows. -/
def pivP (e : Env K V F) (c : Ctx K V F) : List (Option (Branch K V)) :=
  match c.pdata with
  | none => []
  | some p => filterProbes e.ops p.filter c.pivotBranches e.key ++ tailP e c

/-- Probes of subbundles and what follows. -/
def sbsP (e : Env K V F) (c : Ctx K V F) (l : List (SB K V F)) : List (Option (Branch K V)) :=
  l.flatMap (fun sb => sbProbes e.ops sb e.key) ++ pivP e c

/-- Where the branches of the current filter begin, and what follows them. -/
def curP (e : Env K V F) (c : Ctx K V F) : List (Branch K V) × List (Option (Branch K V)) :=
  match c.lst with
  | .pivot => (c.pivotBranches, tailP e c)
  | _ => ((c.sbs.head?.map (·.branches)).getD [], sbsP e c c.sbs.tail)

/-- Probes in `async_state_next_in_node`. -/
def nextP (e : Env K V F) (c : Ctx K V F) : List (Option (Branch K V)) :=
  match c.lst, c.sbs with
  | .comp, sb :: l => (if c.vals.isEmpty then compFrom e sb (c.filterNo + 1) else []) ++ sbsP e c l
  | .comp, [] => []
  | _, _ => (if c.value = none then [] else c.vals.map (fun v => (curP e c).1[v]?)) ++ (curP e c).2

/-! ### Steps that are left -/

def valsCost (n : Nat) : Nat := 3 * n + 2

def sbCost (e : Env K V F) (sb : SB K V F) : Nat :=
  if sb.compacted then 6 * sb.filters.length
  else 3 + valsCost ((sb.filters[0]?.map (fun f => (e.ops.vals f e.key).length)).getD 0)

def sbsCost (e : Env K V F) (l : List (SB K V F)) : Nat := (l.map (sbCost e)).sum

/-- From `async_state_subbundle_lookup` with no subbundle left to the end of the node. -/
def pivCost (e : Env K V F) (p : PData K F) : Nat := 4 + valsCost (e.ops.vals p.filter e.key).length

def nodeCost (e : Env K V F) : (h : Nat) → Node K V F (Sub K V F h) → Nat
  | 0, n =>
    match n.pivots[n.find e.key]? with
    | none => 1
    | some (p, _) =>
      1 + sbsCost e ((n.bundles.drop p.bskip).reverse.flatMap (fun b => b.sbs.reverse)) + pivCost e p + 3
  | h + 1, n =>
    match n.pivots[n.find e.key]? with
    | none => 1
    | some (p, c) =>
      1 + sbsCost e ((n.bundles.drop p.bskip).reverse.flatMap (fun b => b.sbs.reverse)) + pivCost e p +
        (3 + nodeCost e h c)

/-- From `async_state_trunk_node_done`. -/
def endCost (e : Env K V F) (c : Ctx K V F) : Nat :=
  match c.below with
  | none => 3
  | some ⟨h, n⟩ => 3 + nodeCost e h n

def pivCost' (e : Env K V F) (c : Ctx K V F) : Nat := (c.pdata.map (pivCost e)).getD 0 + endCost e c

/-- After the current filter. -/
def afterCost (e : Env K V F) (c : Ctx K V F) : Nat :=
  match c.lst, c.sbs with
  | .pivot, _ => endCost e c
  | .sub, l => sbsCost e l.tail + pivCost' e c
  | .comp, sb :: l => 6 * (sb.filters.length - c.filterNo - 1) + sbsCost e l + pivCost' e c
  | .comp, [] => 0

def nextCost (e : Env K V F) (c : Ctx K V F) : Nat :=
  match c.lst with
  | .comp => 1 + afterCost e c
  | _ => (if c.value = none then 1 else 1 + valsCost c.vals.length) + afterCost e c

def filterLen (e : Env K V F) (c : Ctx K V F) : Nat := (c.filter.map (fun f => (e.ops.vals f e.key).length)).getD 0

/-- Steps until the lookup returns if no page is refused. -/
def cost (e : Env K V F) (c : Ctx K V F) : Nat :=
  match c.pc with
  | .start | .memtable | .getRoot => nodeCost e e.h e.root + 3
  | .node => (match c.node with | none => 0 | some ⟨h, n⟩ => nodeCost e h n)
  | .subbundle =>
    (match c.sbs with
      | [] => 0
      | sb :: l => (if sb.compacted then 6 * (sb.filters.length - c.filterNo) else sbCost e sb) + sbsCost e l) +
      pivCost' e c
  | .pivot => 3 + valsCost ((c.pdata.map (fun p => (e.ops.vals p.filter e.key).length)).getD 0) + endCost e c
  | .filterStart => (if c.lst = .comp then 5 else 2 + valsCost (filterLen e c)) + afterCost e c
  | .filter => (if c.lst = .comp then 4 else 1 + valsCost (filterLen e c)) + afterCost e c
  | .branchStart => (if c.lst = .comp then 3 else valsCost c.vals.length) + afterCost e c
  | .branch => 1 + nextCost e c
  | .next => nextCost e c
  | .nodeDone => endCost e c
  | .getChild => endCost e c - 1
  | .ungetParent => endCost e c - 2
  | .early => 2
  | .fin => 1
  | .returned => 0

/-! ### The invariant -/

/-- All branches in the order of `trunk_lookup`, the memtables `r` times more. -/
def total (e : Env K V F) (r : Nat) : Except LErr (Option (Msg V)) :=
  runProbes e.cfg e.key none ((List.replicate (r + 1) e.mems).flatten.map some ++ probes e.ops e.h e.root e.key)

/-- What is left to read gives the total. -/
def Ok (e : Env K V F) (c : Ctx K V F) (l : List (Option (Branch K V))) : Prop :=
  c.result.any Msg.definitive = false ∧ total e c.retries = runProbes e.cfg e.key c.result l

/-- The lookup is inside of a node. -/
def InNode (Q : SB K V F → Prop) (e : Env K V F) (c : Ctx K V F) : Prop :=
  (∃ h n p, c.node = some ⟨h, n⟩ ∧ c.pdata = some p ∧ (h = 0 ↔ c.below = none)) ∧
  (∀ h n, c.below = some ⟨h, n⟩ → PathOk Q e.key h n) ∧ ∀ sb ∈ c.sbs, Q sb

/-- The current filter. -/
def CurFilter (c : Ctx K V F) : Prop :=
  match c.lst, c.sbs with
  | .pivot, l => l = [] ∧ c.filterNo = 0 ∧ ∃ p, c.pdata = some p ∧ c.filter = some p.filter
  | .sub, sb :: _ => sb.compacted = false ∧ c.filterNo = 0 ∧ c.filter = sb.filters[0]? ∧ c.filter.isSome = true
  | .comp, sb :: _ => sb.compacted = true ∧ c.filter = sb.filters[c.filterNo]? ∧ c.filter.isSome = true
  | _, [] => False

/-- The out parameter agrees with the end of `trunk_lookup`. -/
def outOf (r : Option (Msg V)) : LookupOut V :=
  match r with
  | none => .notFound
  | some m => if m.type = .delete then .notFound else .found m.data

def At (Q : SB K V F → Prop) (e : Env K V F) (c : Ctx K V F) : Prop :=
  match c.pc with
  | .start => c.retries = 0
  | .memtable => c.result.any Msg.definitive = false ∧
      ∀ L, runProbes e.cfg e.key none ((List.replicate c.retries e.mems).flatten.map some ++ L) =
        runProbes e.cfg e.key c.result L
  | .getRoot => False
  | .node => ∃ h n, c.node = some ⟨h, n⟩ ∧ PathOk Q e.key h n ∧ Ok e c (probes e.ops h n e.key)
  | .subbundle => InNode Q e c ∧
      match c.sbs with
      | [] => Ok e c (pivP e c) ∧ c.filterNo = 0
      | sb :: l =>
        if sb.compacted then (c.filterNo = 0 ∨ c.filterNo < sb.filters.length) ∧
          Ok e c (compFrom e sb c.filterNo ++ sbsP e c l)
        else c.filterNo = 0 ∧ Ok e c (sbProbes e.ops sb e.key ++ sbsP e c l)
  | .pivot => InNode Q e c ∧ c.lst = .pivot ∧ c.sbs = [] ∧ c.filterNo = 0 ∧ Ok e c (pivP e c)
  | .filterStart | .filter => InNode Q e c ∧ CurFilter c ∧ ∃ f, c.filter = some f ∧
      Ok e c (match c.lst, c.sbs with
        | .comp, sb :: l => compFrom e sb c.filterNo ++ sbsP e c l
        | _, _ => filterProbes e.ops f (curP e c).1 e.key ++ (curP e c).2)
  | .branchStart => InNode Q e c ∧ CurFilter c ∧
      Ok e c (match c.lst, c.sbs with
        | .comp, sb :: l => (if c.vals.isEmpty then compFrom e sb (c.filterNo + 1) else [sb.branches[0]?]) ++ sbsP e c l
        | _, _ => c.vals.map (fun v => (curP e c).1[v]?) ++ (curP e c).2)
  | .branch => InNode Q e c ∧ CurFilter c ∧ (∃ b, c.branch = some b) ∧
      (c.lst = .comp → c.vals.isEmpty = false) ∧ Ok e c (c.branch :: nextP e c)
  | .next => InNode Q e c ∧ CurFilter c ∧ Ok e c (nextP e c)
  | .nodeDone => InNode Q e c ∧ Ok e c (tailP e c)
  | .getChild => InNode Q e c ∧ c.below.isSome = true ∧ Ok e c (tailP e c)
  | .ungetParent => InNode Q e c ∧ c.page.isSome = true ∧ c.page = c.below ∧ Ok e c (tailP e c)
  | .early => c.result.any Msg.definitive = true ∧ total e c.retries = .ok c.result
  | .fin => ∃ r, total e c.retries = .ok r ∧ finishLookup e.cfg e.key r = outOf c.result
  | .returned => ∃ r o, total e c.retries = .ok r ∧ finishLookup e.cfg e.key r = o ∧ c.out = some o

/-- Pages and locks held. -/
def Held (c : Ctx K V F) : Prop :=
  c.locks = c.retries ∧
  match c.pc with
  | .start | .memtable | .getRoot | .early | .fin | .returned => c.node = none ∧ c.refs = 0
  | .ungetParent => c.refs = 2
  | _ => c.refs = 1

/-- The state the callback leaves behind after reading the root from disk. -/
def Broken (c : Ctx K V F) : Prop := c.pc = .ungetParent ∧ c.node = none

/-- What the synchronous lookup would have to do, or what a subbundle would have to look
like, for a step to fail. -/
def Excuse (Q : SB K V F → Prop) (e : Env K V F) (r : Nat) : Prop :=
  (∃ x, total e r = .error x) ∨ (∃ o, total e r = .ok o ∧ finishLookup e.cfg e.key o = .mergeError) ∨
    ∃ sb, Q sb ∧ ¬SbGood e sb

/-- What a step does. -/
def StepOk (Q : SB K V F → Prop) (e : Env K V F) (a : Ans) (c : Ctx K V F) (x : Except Err (Ctx K V F)) : Prop :=
  match x with
  | .error _ => Excuse Q e c.retries
  | .ok c' => At Q e c' ∧ Held c' ∧ cost e c' ≤ cost e c ∧ (a = .ok → cost e c' ≤ cost e c - 1)

variable {Q : SB K V F → Prop} {e : Env K V F} {c : Ctx K V F} {a : Ans}

/-- `total` in terms of what is left after `r` rounds over the memtables. -/
theorem total_eq {r : Nat} {res : Option (Msg V)}
    (h : ∀ L, runProbes e.cfg e.key none ((List.replicate r e.mems).flatten.map some ++ L) =
      runProbes e.cfg e.key res L) :
    total e r = runProbes e.cfg e.key res (e.mems.map some ++ probes e.ops e.h e.root e.key) := by
  unfold total
  rw [List.replicate_succ', List.flatten_append, List.map_append, List.append_assoc, h]
  simp

theorem memBody_ok (hroot : PathOk Q e.key e.h e.root) (hp : c.pc = .memtable)
    (hdef : c.result.any Msg.definitive = false)
    (hL : ∀ L, runProbes e.cfg e.key none ((List.replicate c.retries e.mems).flatten.map some ++ L) =
      runProbes e.cfg e.key c.result L) (hlocks : c.locks = c.retries) (hn : c.node = none) (hr : c.refs = 0) :
    (a = .io ∧ ∃ c', memBody e a c = .ok c' ∧ Broken c') ∨ StepOk Q e a c (memBody e a c) := by
  have hT := total_eq hL
  unfold memBody
  simp only
  cases hm : runProbes e.cfg e.key c.result (e.mems.map some) with
  | error x => exact .inr (.inl ⟨x, by rw [hT]; exact runProbes_error _ _ _ hm _⟩)
  | ok r =>
    simp only
    by_cases hd : r.any Msg.definitive = true
    · rw [if_pos hd]
      refine .inr ⟨⟨hd, ?_⟩, ⟨?_, hn, hr⟩, ?_, fun _ => ?_⟩
      · show total e c.retries = .ok r
        rw [hT]; exact runProbes_stop _ _ _ hm hd hdef _
      · show c.locks + 1 - 1 = c.retries
        omega
      · simp [cost, hp]
      · simp [cost, hp]
    · rw [if_neg hd]
      have hd : r.any Msg.definitive = false := by simpa using hd
      have hc := runProbes_cont _ _ _ hm hd
      cases a with
      | ok =>
        refine .inr ⟨⟨e.h, e.root, rfl, hroot, hd, ?_⟩, ⟨?_, ?_⟩, ?_, fun _ => ?_⟩
        · show total e c.retries = _
          rw [hT, hc]; rfl
        · show c.locks + 1 - 1 = c.retries
          omega
        · show c.refs + 1 = 1
          omega
        · simp [cost, hp, rootBody]
        · simp [cost, hp, rootBody]
      | again =>
        refine .inr ?_
        simp only [rootBody, StepOk]
        refine ⟨?_, ?_, ?_, fun h => by cases h⟩
        · unfold At
          simp only [hp]
          refine ⟨hd, fun L => ?_⟩
          rw [List.replicate_succ', List.flatten_append, List.map_append, List.append_assoc, hL]
          simp only [List.flatten_cons, List.flatten_nil, List.append_nil]
          exact hc L
        · refine ⟨by simp only; omega, ?_⟩
          simp only [hp]
          exact ⟨hn, hr⟩
        · simp [cost, hp]
      | io =>
        refine .inl ⟨rfl, _, rfl, ?_, ?_⟩
        · simp [rootBody, hp]
        · simp [rootBody, hn]

theorem nodeBody_ok (hp : c.pc = .node) (hl : c.locks = c.retries) (hr : c.refs = 1)
    {h : Nat} {n : Node K V F (Sub K V F h)} (hn : c.node = some ⟨h, n⟩) (H : PathOk Q e.key h n)
    (O : Ok e c (probes e.ops h n e.key)) : StepOk Q e a c (nodeBody e c) := by
  unfold nodeBody
  rw [hn]
  simp only
  cases hpv : n.pivots[n.find e.key]? with
  | none =>
    refine .inl ⟨.badBranch, ?_⟩
    rw [O.2]
    cases h with
    | zero => have := H.1; rw [this] at hpv; simp [probes, hpv, runProbes]
    | succ h => simp [probes, hpv, runProbes]
  | some pc =>
    obtain ⟨p, x⟩ := pc
    simp only
    have hpr : probes e.ops h n e.key = pivotProbes e.ops n p e.key ++
        (match belowOf h x with | none => [] | some ⟨h, n⟩ => probes e.ops h n e.key) := by
      cases h with
      | zero => have := H.1; rw [this] at hpv; simp [probes, hpv, belowOf]
      | succ h => simp [probes, hpv, belowOf]
    have hfl : ∀ (l : List (Bundle K V F)), l.flatMap (fun b => bundleProbes e.ops b e.key) =
        (l.flatMap (fun b => b.sbs.reverse)).flatMap (fun sb => sbProbes e.ops sb e.key) := by
      intro l
      rw [List.flatMap_assoc]; rfl
    have hsb : ∀ sb ∈ (n.bundles.drop p.bskip).reverse.flatMap (fun b => b.sbs.reverse), Q sb := by
      intro sb hsb
      obtain ⟨b, hb, hs⟩ := List.mem_flatMap.mp hsb
      exact H.sbs b (List.mem_of_mem_drop (List.mem_reverse.mp hb)) sb (List.mem_reverse.mp hs)
    have hcost : nodeCost e h n = 1 + (sbsCost e ((n.bundles.drop p.bskip).reverse.flatMap (fun b => b.sbs.reverse)) +
        (pivCost e p + (match belowOf h x with | none => 3 | some ⟨h, n⟩ => 3 + nodeCost e h n))) := by
      cases h with
      | zero => simp only [nodeCost, hpv, belowOf]; omega
      | succ h =>
        simp only [nodeCost, hpv, belowOf]
        show _ = 1 + (_ + (_ + (3 + nodeCost e h x)))
        omega
    rw [hpr] at O
    unfold pivotProbes at O
    rw [hfl, List.append_assoc] at O
    generalize hsbs : (n.bundles.drop p.bskip).reverse.flatMap (fun b => b.sbs.reverse) = sbs at *
    refine ⟨⟨⟨⟨h, n, p, rfl, rfl, ?_⟩, ?_, hsb⟩, ?_⟩, ⟨hl, hr⟩, ?_, fun _ => ?_⟩
    · cases h <;> simp [belowOf]
    · intro h' n' hb
      cases h with
      | zero => cases hb
      | succ h =>
        have hb := Option.some.inj hb
        obtain ⟨rfl, hb⟩ := Sigma.mk.inj hb
        obtain rfl := eq_of_heq hb
        exact H.2 p x hpv
    · cases sbs with
      | nil =>
        refine ⟨?_, rfl⟩
        simpa [Ok, pivP, Ctx.pivotBranches, hn, tailP] using O
      | cons sb l =>
        simp only
        split
        · rename_i hcm
          refine ⟨.inl (by trivial), ?_⟩
          have : compFrom e sb 0 = sbProbes e.ops sb e.key := by simp [compFrom, sbProbes, hcm, compactedProbes]
          rw [this]
          simpa [Ok, sbsP, pivP, Ctx.pivotBranches, hn, tailP] using O
        · refine ⟨by trivial, ?_⟩
          simpa [Ok, sbsP, pivP, Ctx.pivotBranches, hn, tailP] using O
    · have : cost e c = nodeCost e h n := by simp [cost, hp, hn]
      rw [this, hcost]
      cases sbs with
      | nil => simp [cost, pivCost', endCost, sbsCost]
      | cons sb l =>
        simp only [cost, pivCost', endCost, sbsCost, List.map_cons, List.sum_cons, sbCost, Option.map_some,
          Option.getD_some]
        split <;> omega
    · have : cost e c = nodeCost e h n := by simp [cost, hp, hn]
      rw [this, hcost]
      cases sbs with
      | nil => simp [cost, pivCost', endCost, sbsCost]
      | cons sb l =>
        simp only [cost, pivCost', endCost, sbsCost, List.map_cons, List.sum_cons, sbCost, Option.map_some,
          Option.getD_some]
        split <;> omega

theorem subbundleBody_ok (hp : c.pc = .subbundle) (A : At Q e c) (hh : Held c) :
    StepOk Q e a c (subbundleBody c) := by
  obtain ⟨pc, res, node, page, pdata, below, sbs, fno, lst, flt, vals, value, br, locks, refs, ret, out⟩ := c
  simp only at hp
  subst hp
  obtain ⟨IN, A⟩ := A
  obtain ⟨hl, hr⟩ := hh
  cases sbs with
  | nil =>
    obtain ⟨O, h0⟩ := A
    refine ⟨⟨IN, rfl, rfl, h0, O⟩, ⟨hl, hr⟩, ?_, fun _ => ?_⟩
    all_goals
      obtain ⟨⟨h, n, p, _, hpd, _⟩, _⟩ := IN
      simp only at hpd
      subst hpd
      simp [cost, pivCost', pivCost, endCost]
      try omega
  | cons sb l =>
    have hq : Q sb := IN.2.2 sb List.mem_cons_self
    simp only [subbundleBody]
    cases hf : sb.filters[fno]? with
    | none =>
      simp only at A ⊢
      by_cases hc : sb.compacted = true
      · rw [if_pos hc] at A
        refine .inr (.inr ⟨sb, hq, fun hg => ?_⟩)
        rcases A.1 with h0 | h0
        · subst h0
          refine hg.1 hc ?_
          cases hfs : sb.filters with
          | nil => rfl
          | cons x y => rw [hfs] at hf; cases hf
        · exact absurd hf (by simp [h0])
      · rw [if_neg hc] at A
        obtain ⟨h0, O⟩ := A
        subst h0
        refine .inl ⟨.badBranch, ?_⟩
        have hfs : sb.filters = [] := by
          cases hfs : sb.filters with
          | nil => rfl
          | cons x y => rw [hfs] at hf; cases hf
        rw [O.2]
        simp [sbProbes, hc, hfs, runProbes]
    | some f =>
      simp only at A ⊢
      by_cases hc : sb.compacted = true
      · rw [if_pos hc] at A
        simp only [if_pos hc]
        refine ⟨⟨IN, ⟨hc, hf.symm, rfl⟩, f, rfl, A.2⟩, ⟨hl, hr⟩, ?_, fun _ => ?_⟩
        all_goals
          obtain ⟨hlt, _⟩ := List.getElem?_eq_some_iff.mp hf
          simp only [cost, afterCost, hc, if_true]
          have e1 : ∀ (x : Nat), x = pivCost' e ⟨PC.filterStart, res, node, page, pdata, below, sb :: l, fno, LState.comp, some f, vals, value, br, locks, refs, ret, out⟩ → x = pivCost' e ⟨PC.subbundle, res, node, page, pdata, below, sb :: l, fno, lst, flt, vals, value, br, locks, refs, ret, out⟩ := fun x h => h
          have := e1 _ rfl
          omega
      · rw [if_neg hc] at A
        simp only [if_neg hc]
        obtain ⟨h0, O⟩ := A
        subst h0
        obtain ⟨t, hfs⟩ : ∃ t, sb.filters = f :: t := by
          cases hfs : sb.filters with
          | nil => rw [hfs] at hf; cases hf
          | cons x y => rw [hfs] at hf; cases hf; exact ⟨_, rfl⟩
        refine ⟨⟨IN, ⟨by simpa using hc, rfl, hf.symm, rfl⟩, f, rfl, ?_⟩, ⟨hl, hr⟩, ?_, fun _ => ?_⟩
        · have : sbProbes e.ops sb e.key = filterProbes e.ops f sb.branches e.key := by
            simp [sbProbes, hc, hfs]
          rw [this] at O
          exact O
        all_goals
          simp [cost, afterCost, hc, sbCost, hfs, filterLen]
          simp only [pivCost', endCost]
          omega

theorem pivotBody_ok (hp : c.pc = .pivot) (A : At Q e c) (hh : Held c) : StepOk Q e a c (pivotBody c) := by
  obtain ⟨pc, res, node, page, pdata, below, sbs, fno, lst, flt, vals, value, br, locks, refs, ret, out⟩ := c
  simp only at hp
  subst hp
  obtain ⟨IN, h1, h2, h3, O⟩ := A
  simp only at h1 h2 h3
  subst h1 h2 h3
  obtain ⟨hl, hr⟩ := hh
  have IN' := IN
  obtain ⟨⟨h, n, p, _, hpd, _⟩, _⟩ := IN
  simp only at hpd
  subst hpd
  refine ⟨⟨IN', ⟨rfl, rfl, p, rfl, rfl⟩, p.filter, rfl, O⟩, ⟨hl, hr⟩, ?_, fun _ => ?_⟩
  all_goals
    simp [cost, afterCost, filterLen, endCost]
    try omega

theorem filterStartBody_ok (hnull : ∀ f, e.isNull f = true → e.ops.vals f e.key = []) (hp : c.pc = .filterStart)
    (A : At Q e c) (hh : Held c) : StepOk Q e a c (filterStartBody e c) := by
  obtain ⟨pc, res, node, page, pdata, below, sbs, fno, lst, flt, vals, value, br, locks, refs, ret, out⟩ := c
  simp only at hp
  subst hp
  obtain ⟨IN, CF, f, hf, O⟩ := A
  obtain ⟨hl, hr⟩ := hh
  simp only at hf
  subst hf
  simp only [filterStartBody]
  by_cases hn : e.isNull f = true
  · rw [if_pos hn]
    by_cases hlst : lst = .pivot
    · rw [if_pos hlst]
      subst hlst
      refine ⟨⟨IN, CF, ?_⟩, ⟨hl, hr⟩, ?_, fun _ => ?_⟩
      · simp only [filterProbes, hnull f hn, List.map_nil, List.nil_append] at O
        exact O
      all_goals
        simp [cost, nextCost, afterCost, filterLen, endCost]
        try omega
    · rw [if_neg hlst]
      refine .inr (.inr ?_)
      cases lst with
      | pivot => exact absurd rfl hlst
      | sub =>
        cases sbs with
        | nil => exact CF.elim
        | cons sb l =>
          refine ⟨sb, IN.2.2 sb List.mem_cons_self, fun hg => ?_⟩
          have := hg.2 f (List.mem_of_getElem? CF.2.2.1.symm)
          rw [hn] at this; cases this
      | comp =>
        cases sbs with
        | nil => exact CF.elim
        | cons sb l =>
          refine ⟨sb, IN.2.2 sb List.mem_cons_self, fun hg => ?_⟩
          have := hg.2 f (List.mem_of_getElem? CF.2.1.symm)
          rw [hn] at this; cases this
  · rw [if_neg hn]
    refine ⟨⟨IN, CF, f, rfl, O⟩, ⟨hl, hr⟩, ?_, fun _ => ?_⟩
    all_goals
      cases lst <;> simp [cost, afterCost, filterLen, endCost, pivCost'] <;> omega

theorem filterBody_ok (hp : c.pc = .filter) (A : At Q e c) (hh : Held c) : StepOk Q e a c (filterBody e a c) := by
  obtain ⟨pc, res, node, page, pdata, below, sbs, fno, lst, flt, vals, value, br, locks, refs, ret, out⟩ := c
  simp only at hp
  subst hp
  have A0 := A
  obtain ⟨IN, CF, f, hf, O⟩ := A
  obtain ⟨hl, hr⟩ := hh
  simp only at hf
  subst hf
  simp only [filterBody]
  by_cases ha : a = .ok
  · rw [if_pos ha]
    refine ⟨⟨IN, CF, ?_⟩, ⟨hl, hr⟩, ?_, fun _ => ?_⟩
    · cases lst with
      | pivot => exact O
      | sub => exact O
      | comp =>
        cases sbs with
        | nil => exact CF.elim
        | cons sb l =>
          simp only at O ⊢
          rw [compFrom_step CF.2.1.symm] at O
          exact O
    all_goals
      cases lst <;> simp [cost, afterCost, filterLen, endCost, pivCost'] <;> omega
  · rw [if_neg ha]
    exact ⟨A0, ⟨hl, hr⟩, Nat.le_refl _, fun h => absurd h ha⟩

theorem toBranch_ok {c' : Ctx K V F} {ob : Option (Branch K V)} {l : List (Option (Branch K V))}
    (O : Ok e c (ob :: l)) (hres : c'.result = c.result) (hret : c'.retries = c.retries) (hl : c'.locks = c.retries)
    (hr : c'.refs = 1) (IN : InNode Q e c') (CF : CurFilter c') (hv : c'.lst = .comp → c'.vals.isEmpty = false)
    (hn : nextP e c' = l) (hc : 1 + nextCost e c' ≤ cost e c - 1) : StepOk Q e a c (toBranch c' ob) := by
  obtain ⟨pc, res, node, page, pdata, below, sbs, fno, lst, flt, vals, value, br, locks, refs, ret, out⟩ := c'
  cases ob with
  | none => exact .inl ⟨.badBranch, by rw [O.2]; rfl⟩
  | some b =>
    simp only at hres hret hl hr hv
    subst hres hret hl hr hn
    refine ⟨⟨IN, CF, ⟨b, rfl⟩, hv, O.1, O.2⟩, ⟨rfl, rfl⟩, ?_, fun _ => hc⟩
    exact Nat.le_trans hc (Nat.sub_le _ _)

theorem branchStartBody_ok (hp : c.pc = .branchStart) (A : At Q e c) (hh : Held c) :
    StepOk Q e a c (branchStartBody c) := by
  obtain ⟨pc, res, node, page, pdata, below, sbs, fno, lst, flt, vals, value, br, locks, refs, ret, out⟩ := c
  simp only at hp
  subst hp
  obtain ⟨IN, CF, O⟩ := A
  obtain ⟨hl, hr⟩ := hh
  cases lst with
  | pivot =>
    simp only [branchStartBody]
    cases vals with
    | nil =>
      refine ⟨⟨IN, CF, O⟩, ⟨hl, hr⟩, ?_, fun _ => ?_⟩
      all_goals simp [cost, nextCost, afterCost, endCost, valsCost]
    | cons v vs =>
      refine toBranch_ok O rfl rfl hl hr IN CF (by simp) rfl ?_
      simp [cost, nextCost, afterCost, endCost, valsCost]
      omega
  | sub =>
    cases sbs with
    | nil => exact CF.elim
    | cons sb l =>
      simp only [branchStartBody]
      cases vals with
      | nil =>
        refine ⟨⟨IN, CF, O⟩, ⟨hl, hr⟩, ?_, fun _ => ?_⟩
        all_goals simp [cost, nextCost, afterCost, endCost, valsCost, pivCost']
      | cons v vs =>
        refine toBranch_ok O rfl rfl hl hr IN CF (by simp) rfl ?_
        simp [cost, nextCost, afterCost, endCost, valsCost, pivCost']
        omega
  | comp =>
    cases sbs with
    | nil => exact CF.elim
    | cons sb l =>
      simp only [branchStartBody]
      by_cases hv : vals.isEmpty = true
      · rw [if_pos hv]
        simp only [hv, if_true] at O
        refine ⟨⟨IN, CF, ?_⟩, ⟨hl, hr⟩, ?_, fun _ => ?_⟩
        · simp only [nextP, hv, if_true]; exact O
        all_goals
          simp [cost, nextCost, afterCost, endCost, valsCost, pivCost']
          try omega
      · rw [if_neg hv]
        simp only [hv] at O
        refine toBranch_ok O rfl rfl hl hr IN CF (fun _ => by simpa using hv) ?_ ?_
        · simp only [nextP, hv]; rfl
        · simp [cost, nextCost, afterCost, endCost, valsCost, pivCost']
          try omega

theorem endCost_ge : 3 ≤ endCost e c := by
  unfold endCost
  split
  · exact Nat.le_refl _
  · omega

theorem nextCost_ge (CF : CurFilter c) : 3 ≤ nextCost e c := by
  have h := endCost_ge (e := e) (c := c)
  obtain ⟨pc, res, node, page, pdata, below, sbs, fno, lst, flt, vals, value, br, locks, refs, ret, out⟩ := c
  cases lst with
  | pivot => simp only [nextCost, afterCost]; omega
  | sub => simp only [nextCost, afterCost, pivCost']; omega
  | comp =>
    cases sbs with
    | nil => exact CF.elim
    | cons sb l => simp only [nextCost, afterCost, pivCost']; omega

theorem branchBody_ok (hp : c.pc = .branch) (A : At Q e c) (hh : Held c) : StepOk Q e a c (branchBody e a c) := by
  obtain ⟨pc, res, node, page, pdata, below, sbs, fno, lst, flt, vals, value, br, locks, refs, ret, out⟩ := c
  simp only at hp
  subst hp
  have A0 := A
  obtain ⟨IN, CF, ⟨b, hb⟩, hv, O⟩ := A
  obtain ⟨hl, hr⟩ := hh
  simp only at hb hr hl
  subst hb hr hl
  simp only [branchBody]
  by_cases ha : a = .ok
  · rw [if_pos ha]
    have hT := O.2
    simp only [runProbes] at hT
    have hnx : ∀ (r : Option (Msg V)), nextP e ⟨.next, r, node, page, pdata, below, sbs, fno, lst, flt, vals, value, some b, locks, 1, locks, out⟩ =
        nextP e ⟨.branch, res, node, page, pdata, below, sbs, fno, lst, flt, vals, value, some b, locks, 1, locks, out⟩ := fun _ => rfl
    have hco : ∀ (r : Option (Msg V)), cost e ⟨.next, r, node, page, pdata, below, sbs, fno, lst, flt, vals, value, some b, locks, 1, locks, out⟩ + 1 =
        cost e ⟨.branch, res, node, page, pdata, below, sbs, fno, lst, flt, vals, value, some b, locks, 1, locks, out⟩ := fun _ => by
      rw [Nat.add_comm]; rfl
    cases hg : b.get e.key with
    | none =>
      rw [hg] at hT
      refine ⟨⟨IN, CF, O.1, hT⟩, ⟨rfl, rfl⟩, ?_, fun _ => ?_⟩
      · have := hco res; omega
      · have := hco res; omega
    | some m =>
      rw [hg] at hT
      simp only at hT ⊢
      cases hac : accumulate e.cfg e.key res m with
      | none => exact .inl ⟨.mergeFailed, by rw [hac] at hT; exact hT⟩
      | some r =>
        rw [hac] at hT
        simp only
        by_cases hd : r.any Msg.definitive = true
        · rw [if_pos hd]
          have hT' : total e locks = .ok r := by
            cases r with
            | none => cases hd
            | some x => simp only at hT; rw [hT, if_pos (by simpa using hd)]
          refine ⟨⟨hd, hT'⟩, ⟨rfl, rfl, rfl⟩, ?_, fun _ => ?_⟩
          all_goals
            have := nextCost_ge (e := e) CF
            simp only [cost]
            omega
        · rw [if_neg hd]
          have hd : r.any Msg.definitive = false := by simpa using hd
          have hT' : total e locks = runProbes e.cfg e.key r (nextP e ⟨.branch, res, node, page, pdata, below, sbs, fno, lst, flt, vals, value, some b, locks, 1, locks, out⟩) := by
            cases r with
            | none => exact hT
            | some x => simp only at hT; rw [hT, if_neg (by simpa using hd)]
          refine ⟨⟨IN, CF, hd, hT'⟩, ⟨rfl, rfl⟩, ?_, fun _ => ?_⟩
          · have := hco r; omega
          · have := hco r; omega
  · rw [if_neg ha]
    exact ⟨A0, ⟨rfl, rfl⟩, Nat.le_refl _, fun h => absurd h ha⟩

theorem nextBody_ok (hp : c.pc = .next) (A : At Q e c) (hh : Held c) : StepOk Q e a c (.ok (nextBody c)) := by
  obtain ⟨pc, res, node, page, pdata, below, sbs, fno, lst, flt, vals, value, br, locks, refs, ret, out⟩ := c
  simp only at hp
  subst hp
  obtain ⟨IN, CF, O⟩ := A
  obtain ⟨hl, hr⟩ := hh
  have hsub : ∀ sb l, sbs = sb :: l → InNode Q e ⟨.subbundle, res, node, page, pdata, below, l, fno, lst, flt, vals, value, br, locks, refs, ret, out⟩ :=
    fun sb l h => ⟨IN.1, IN.2.1, fun x hx => IN.2.2 x (by simp only [h]; exact List.mem_cons_of_mem _ hx)⟩
  cases lst with
  | pivot =>
    simp only [nextBody]
    by_cases hv : value = none
    · rw [if_pos hv]
      refine ⟨⟨IN, ?_⟩, ⟨hl, hr⟩, ?_, fun _ => ?_⟩
      · simp only [nextP, hv, if_true, List.nil_append] at O; exact O
      all_goals simp [cost, nextCost, afterCost, hv, endCost]
    · rw [if_neg hv]
      refine ⟨⟨IN, CF, ?_⟩, ⟨hl, hr⟩, ?_, fun _ => ?_⟩
      · simp only [nextP, hv, if_false] at O; exact O
      all_goals simp [cost, nextCost, afterCost, hv, endCost] <;> try omega
  | sub =>
    cases sbs with
    | nil => exact CF.elim
    | cons sb l =>
      simp only [nextBody]
      by_cases hv : value = none
      · rw [if_pos hv]
        obtain ⟨_, h0, _⟩ := CF
        simp only at h0
        subst h0
        refine ⟨⟨hsub sb l rfl, ?_⟩, ⟨hl, hr⟩, ?_, fun _ => ?_⟩
        · simp only [nextP, hv, if_true, List.nil_append] at O
          cases l with
          | nil => exact ⟨O, rfl⟩
          | cons sb' l' =>
            have O : Ok e _ (sbsP e _ (sb' :: l')) := O
            simp only [sbsP, List.flatMap_cons, List.append_assoc] at O
            simp only [List.tail_cons]
            split
            · rename_i hc
              refine ⟨.inl (by trivial), ?_⟩
              have : compFrom e sb' 0 = sbProbes e.ops sb' e.key := by simp [compFrom, sbProbes, hc, compactedProbes]
              rw [this]
              exact O
            · exact ⟨by trivial, O⟩
        all_goals
          cases l with
          | nil => simp [cost, nextCost, afterCost, hv, endCost, sbsCost, pivCost']
          | cons sb' l' =>
            by_cases hc' : sb'.compacted = true <;>
              simp [cost, nextCost, afterCost, hv, endCost, sbsCost, pivCost', sbCost, hc'] <;> omega
      · rw [if_neg hv]
        refine ⟨⟨IN, CF, ?_⟩, ⟨hl, hr⟩, ?_, fun _ => ?_⟩
        · simp only [nextP, hv, if_false] at O; exact O
        all_goals simp [cost, nextCost, afterCost, hv, endCost, pivCost'] <;> try omega
  | comp =>
    cases sbs with
    | nil => exact CF.elim
    | cons sb l =>
      have hgo : Ok e ⟨.next, res, node, page, pdata, below, sb :: l, fno, .comp, flt, vals, value, br, locks, refs, ret, out⟩ (sbsP e ⟨.next, res, node, page, pdata, below, sb :: l, fno, .comp, flt, vals, value, br, locks, refs, ret, out⟩ l) →
          StepOk Q e a ⟨.next, res, node, page, pdata, below, sb :: l, fno, .comp, flt, vals, value, br, locks, refs, ret, out⟩
            (.ok ⟨.subbundle, res, node, page, pdata, below, l, 0, .comp, flt, vals, value, br, locks, refs, ret, out⟩) := by
        intro O
        refine ⟨⟨hsub sb l rfl, ?_⟩, ⟨hl, hr⟩, ?_, fun _ => ?_⟩
        · cases l with
          | nil => exact ⟨O, rfl⟩
          | cons sb' l' =>
            simp only [sbsP, List.flatMap_cons, List.append_assoc] at O
            simp only
            split
            · rename_i hc
              refine ⟨.inl (by trivial), ?_⟩
              have : compFrom e sb' 0 = sbProbes e.ops sb' e.key := by simp [compFrom, sbProbes, hc, compactedProbes]
              rw [this]
              exact O
            · exact ⟨by trivial, O⟩
        all_goals
          cases l with
          | nil => simp [cost, nextCost, afterCost, endCost, sbsCost, pivCost'] <;> try omega
          | cons sb' l' =>
            by_cases hc' : sb'.compacted = true <;>
              simp [cost, nextCost, afterCost, endCost, sbsCost, pivCost', sbCost, hc'] <;> omega
      simp only [nextBody]
      by_cases hv : vals.isEmpty = true
      · rw [if_neg (by simp [hv])]
        simp only [nextP, hv, if_true] at O
        simp only [List.head?_cons, Option.map_some, Option.getD_some, List.tail_cons]
        by_cases hle : sb.filters.length ≤ fno + 1
        · simp only [hle, if_true]
          rw [compFrom_end hle] at O
          exact hgo O
        · simp only [hle, if_false]
          refine ⟨⟨IN, ?_⟩, ⟨hl, hr⟩, ?_, fun _ => ?_⟩
          · simp only
            rw [if_pos CF.1]
            exact ⟨.inr (by omega), O⟩
          all_goals
            have hcm : sb.compacted = true := CF.1
            simp [cost, nextCost, afterCost, endCost, sbsCost, pivCost', hcm] <;> omega
      · rw [if_pos (by simpa using hv)]
        simp only [nextP, hv] at O
        exact hgo O

theorem nodeDoneBody_ok (hp : c.pc = .nodeDone) (A : At Q e c) (hh : Held c) : StepOk Q e a c (nodeDoneBody e c) := by
  obtain ⟨pc, res, node, page, pdata, below, sbs, fno, lst, flt, vals, value, br, locks, refs, ret, out⟩ := c
  simp only at hp
  subst hp
  obtain ⟨IN, O⟩ := A
  obtain ⟨hl, hr⟩ := hh
  simp only at hl hr
  subst hl hr
  have IN' := IN
  obtain ⟨⟨h, n, p, hn, hpd, hb⟩, _⟩ := IN
  simp only at hn hpd hb
  subst hn hpd
  cases h with
  | zero =>
    have hb' : below = none := hb.mp rfl
    subst hb'
    have hT := O.2
    simp only [tailP, runProbes] at hT
    simp only [nodeDoneBody]
    cases res with
    | none => exact ⟨⟨none, hT, rfl⟩, ⟨rfl, rfl, rfl⟩, by simp [cost, endCost], fun _ => by simp [cost, endCost]⟩
    | some m =>
      simp only
      have hnd : m.definitive = false := by simpa [Ok] using O.1
      by_cases hi : m.type = .insert
      · simp [Msg.definitive, hi] at hnd
      · rw [if_neg hi]
        cases hf : dataMergeTuplesFinal e.cfg e.key m with
        | none => exact .inr (.inl ⟨some m, hT, by simp [finishLookup, hf]⟩)
        | some m' =>
          refine ⟨⟨some m, hT, ?_⟩, ⟨rfl, rfl, rfl⟩, by simp [cost, endCost], fun _ => by simp [cost, endCost]⟩
          simp only [finishLookup, hf, outOf]
          cases m'.type <;> simp
  | succ h =>
    have hbs : below.isSome = true := by
      cases below with
      | none => exact absurd (hb.mpr rfl) (by omega)
      | some x => rfl
    exact ⟨⟨IN', hbs, O⟩, ⟨rfl, rfl⟩, by simp [cost, endCost], fun _ => by simp [cost, endCost]⟩

theorem getChildBody_ok (hp : c.pc = .getChild) (A : At Q e c) (hh : Held c) : StepOk Q e a c (getChildBody a c) := by
  obtain ⟨pc, res, node, page, pdata, below, sbs, fno, lst, flt, vals, value, br, locks, refs, ret, out⟩ := c
  simp only at hp
  subst hp
  have A0 := A
  obtain ⟨IN, hb, O⟩ := A
  obtain ⟨hl, hr⟩ := hh
  simp only at hl hr hb
  subst hl hr
  cases below with
  | none => cases hb
  | some x =>
    simp only [getChildBody]
    by_cases ha : a = .again
    · rw [if_pos ha]
      exact ⟨A0, ⟨rfl, rfl⟩, Nat.le_refl _, fun h => by rw [h] at ha; cases ha⟩
    · rw [if_neg ha]
      exact ⟨⟨IN, rfl, rfl, O⟩, ⟨rfl, rfl⟩, by simp [cost, endCost]; omega, fun _ => by simp [cost, endCost]; omega⟩

theorem ungetParentBody_ok (hp : c.pc = .ungetParent) (A : At Q e c) (hh : Held c) :
    StepOk Q e a c (ungetParentBody c) := by
  obtain ⟨pc, res, node, page, pdata, below, sbs, fno, lst, flt, vals, value, br, locks, refs, ret, out⟩ := c
  simp only at hp
  subst hp
  obtain ⟨IN, hpg, hb, O⟩ := A
  obtain ⟨hl, hr⟩ := hh
  simp only at hl hr hpg hb
  subst hl hr hb
  obtain ⟨⟨h, n, p, hn, hpd, hb⟩, hpath, _⟩ := IN
  simp only at hn
  subst hn
  cases page with
  | none => cases hpg
  | some x =>
    obtain ⟨h', n'⟩ := x
    exact ⟨⟨h', n', rfl, hpath h' n' rfl, O⟩, ⟨rfl, rfl⟩, by simp [cost, endCost]; omega, fun _ => by simp [cost, endCost]; omega⟩

/-- One step from a state the invariant holds in. -/
theorem step_ok (hnull : ∀ f, e.isNull f = true → e.ops.vals f e.key = []) (hroot : PathOk Q e.key e.h e.root)
    (A : At Q e c) (hh : Held c) :
    ((c.pc = .start ∨ c.pc = .memtable) ∧ a = .io ∧ ∃ c', step e a c = .ok c' ∧ Broken c') ∨
      StepOk Q e a c (step e a c) := by
  unfold step
  cases hp : c.pc with
  | start =>
    simp only
    unfold At Held at *
    rw [hp] at A hh
    obtain ⟨h1, h2, h3⟩ := hh
    have hL : ∀ L, runProbes e.cfg e.key none ((List.replicate c.retries e.mems).flatten.map some ++ L) =
        runProbes e.cfg e.key none L := by
      intro L
      have : c.retries = 0 := A
      rw [this]; rfl
    have := memBody_ok (a := a) (c := { c with pc := .memtable, result := none }) hroot rfl rfl hL h1 h2 h3
    rcases this with h | h
    · exact .inl ⟨.inl trivial, h⟩
    · right
      revert h
      generalize memBody e a _ = x
      intro h
      cases x with
      | error x => exact h
      | ok c' =>
        refine ⟨h.1, h.2.1, ?_, fun ha => ?_⟩
        · have := h.2.2.1; simp only [cost, hp] at this ⊢; exact this
        · have := h.2.2.2 ha; simp only [cost, hp] at this ⊢; exact this
  | memtable =>
    simp only
    unfold At Held at *
    rw [hp] at A hh
    rcases memBody_ok (a := a) hroot hp A.1 A.2 hh.1 hh.2.1 hh.2.2 with h | h
    · exact .inl ⟨.inr trivial, h⟩
    · exact .inr h
  | getRoot => unfold At at A; rw [hp] at A; exact A.elim
  | node =>
    unfold At at A
    rw [hp] at A
    obtain ⟨h, n, hn, H, O⟩ := A
    unfold Held at hh
    rw [hp] at hh
    exact .inr (nodeBody_ok hp hh.1 hh.2 hn H O)
  | subbundle => exact .inr (subbundleBody_ok hp A hh)
  | pivot => exact .inr (pivotBody_ok hp A hh)
  | filterStart => exact .inr (filterStartBody_ok hnull hp A hh)
  | filter => exact .inr (filterBody_ok hp A hh)
  | branchStart => exact .inr (branchStartBody_ok hp A hh)
  | branch => exact .inr (branchBody_ok hp A hh)
  | next => exact .inr (nextBody_ok hp A hh)
  | nodeDone => exact .inr (nodeDoneBody_ok hp A hh)
  | getChild => exact .inr (getChildBody_ok hp A hh)
  | ungetParent => exact .inr (ungetParentBody_ok hp A hh)
  | early =>
    right
    unfold At at A
    rw [hp] at A
    unfold Held at hh
    rw [hp] at hh
    refine ⟨⟨c.result, A.2, ?_⟩, hh, by simp [cost, hp], fun _ => by simp [cost, hp]⟩
    cases hr : c.result with
    | none => rw [hr] at A; cases A.1
    | some m =>
      have hd : m.definitive = true := by have := A.1; rw [hr] at this; exact this
      simp only [finishLookup, dataMergeTuplesFinal, if_pos hd, outOf]
      cases hm : m.type <;> simp
  | fin =>
    right
    unfold At at A
    rw [hp] at A
    unfold Held at hh
    rw [hp] at hh
    obtain ⟨r, h1, h2⟩ := A
    exact ⟨⟨r, _, h1, h2, rfl⟩, hh, by simp [cost, hp, endBody], fun _ => by simp [cost, hp, endBody]⟩
  | returned => exact .inr ⟨A, hh, Nat.le_refl _, fun _ => by simp [cost, hp]⟩

theorem broken_stuck (H : Broken c) : step e a c = .error .nullNode := by
  simp [step, H.1, ungetParentBody, H.2]

theorem nodeCost_pos (e : Env K V F) (h : Nat) (n : Node K V F (Sub K V F h)) : 1 ≤ nodeCost e h n := by
  cases h <;> unfold nodeCost <;> split <;> omega

theorem cost_pos (A : At Q e c) (h : c.pc ≠ .returned) : 1 ≤ cost e c := by
  have h3 := endCost_ge (e := e) (c := c)
  unfold cost
  unfold At at A
  cases hp : c.pc <;> rw [hp] at A <;> simp only
  case returned => exact absurd hp h
  case node =>
    obtain ⟨h, n, hn, _⟩ := A
    rw [hn]
    exact nodeCost_pos e h n
  case subbundle => unfold pivCost'; omega
  case filterStart => split <;> omega
  case filter => split <;> omega
  case branchStart => split <;> (try unfold valsCost) <;> omega
  case next => have := nextCost_ge (e := e) A.2.1; omega
  all_goals omega

/-- Past the root. -/
def Past (c : Ctx K V F) : Prop := c.pc ≠ .start ∧ c.pc ≠ .memtable ∧ c.pc ≠ .getRoot

theorem step_past (H : Past c) {c' : Ctx K V F} (h : step e a c = .ok c') : Past c' ∧ c'.retries = c.retries := by
  obtain ⟨pc, res, node, page, pdata, below, sbs, fno, lst, flt, vals, value, br, locks, refs, ret, out⟩ := c
  obtain ⟨h1, h2, h3⟩ := H
  have tb : ∀ (x : Ctx K V F) ob, toBranch x ob = .ok c' → Past c' ∧ c'.retries = x.retries := by
    intro x ob hx
    cases ob with
    | none => cases hx
    | some b => cases hx; exact ⟨⟨by simp, by simp, by simp⟩, rfl⟩
  cases pc with
  | start => exact absurd rfl h1
  | memtable => exact absurd rfl h2
  | getRoot => exact absurd rfl h3
  | branchStart =>
    simp only [step, branchStartBody] at h
    repeat' split at h
    all_goals first
      | (have := tb _ _ h; exact this)
      | (cases h; exact ⟨⟨by simp, by simp, by simp⟩, rfl⟩)
      | cases h
  | _ =>
    simp only [step, nodeBody, subbundleBody, pivotBody, filterStartBody, filterBody, branchBody, nextBody,
      nodeDoneBody, getChildBody, ungetParentBody, endBody] at h
    repeat' split at h
    all_goals first
      | (cases h; exact ⟨⟨by simp, by simp, by simp⟩, rfl⟩)
      | cases h
      | (cases h; refine ⟨⟨?_, ?_, ?_⟩, rfl⟩ <;> simp only <;> split <;> simp)

/-- Nothing goes wrong without an excuse once the root is there, and each answered
request brings the end nearer. -/
theorem run_ok (hnull : ∀ f, e.isNull f = true → e.ops.vals f e.key = []) (hroot : PathOk Q e.key e.h e.root) :
    ∀ (as : List Ans) (c : Ctx K V F), ¬Excuse Q e c.retries → At Q e c → Held c → Past c →
      ∃ c', run e as c = .ok c' ∧ At Q e c' ∧ Held c' ∧ c'.retries = c.retries ∧
        cost e c' ≤ cost e c - as.count .ok := by
  intro as
  induction as with
  | nil => intro c _ A H _; exact ⟨c, rfl, A, H, rfl, by simp⟩
  | cons a as ih =>
    intro c hex A H hp
    rcases step_ok (a := a) hnull hroot A H with ⟨h, _⟩ | h
    · rcases h with h | h
      · exact absurd h hp.1
      · exact absurd h hp.2.1
    · cases hs : step e a c with
      | error x => rw [hs] at h; exact absurd h hex
      | ok c1 =>
        rw [hs] at h
        obtain ⟨A1, H1, l1, l2⟩ := h
        obtain ⟨p1, r1⟩ := step_past hp hs
        obtain ⟨c2, e2, A2, H2, r2, l3⟩ := ih c1 (by rw [r1]; exact hex) A1 H1 p1
        refine ⟨c2, by simp [run, hs, e2], A2, H2, r2.trans r1, ?_⟩
        by_cases ha : a = .ok
        · have := l2 ha; subst ha; rw [List.count_cons_self]; omega
        · rw [List.count_cons_of_ne (by simpa using ha)]; omega

/-- Every state reached satisfies the invariant, or is the one left behind by reading
the root from disk. -/
theorem run_at (hnull : ∀ f, e.isNull f = true → e.ops.vals f e.key = []) (hroot : PathOk Q e.key e.h e.root) :
    ∀ (as : List Ans) (c c' : Ctx K V F), At Q e c ∧ Held c ∨ Broken c → run e as c = .ok c' →
      At Q e c' ∧ Held c' ∨ Broken c' := by
  intro as
  induction as with
  | nil => intro c c' h hr; cases hr; exact h
  | cons a as ih =>
    intro c c' h hr
    unfold run at hr
    rcases h with ⟨A, H⟩ | hb
    · cases hs : step e a c with
      | error x => rw [hs] at hr; cases hr
      | ok c1 =>
        rw [hs] at hr
        rcases step_ok (a := a) hnull hroot A H with ⟨_, _, c2, h1, h2⟩ | h
        · rw [hs] at h1; cases h1; exact ih _ _ (.inr h2) hr
        · rw [hs] at h; exact ih _ _ (.inl ⟨h.1, h.2.1⟩) hr
    · rw [broken_stuck hb] at hr; cases hr

theorem at_init : At Q e (init : Ctx K V F) ∧ Held (init : Ctx K V F) := ⟨rfl, rfl, rfl, rfl⟩

end Splinter.Trunk.Async
