import Verif.Proof.PagedTrunkOps
import Verif.Props.Trunk
/-!
# C49: lookups through the pages of the trunk

The store of `Props/Trunk.lean` runs beside a tree of node pages. After any run, lookups
that find bundles, subbundles, filters and branches through the circular arrays on the
pages report the outcome of the writes.

The theorems carry the suffix `_partial`: besides what C01 needs (`Legal`), the filters
must fit and requests must not be older than twelve bundles (`Fits`). The code checks
neither, and without them the property is false (`lookup_loses_key_filters_full`,
`lookup_loses_key_late_filters`).
-/
namespace Splinter.Trunk.Paged

open Splinter.Spec (eval UpdateSem Implements report)
open Written (written)
open NodeArr (maxBu maxSb maxF Node.nBr Node.nSb Node.nF)

variable {K V F : Type} [LinearOrder K] {H : Nat}

/-- A request's bundle number can still be told from later ones in the node it is about
to change. -/
def ReqYoung (s : State K V F) (i : Nat) : Prop :=
  ∀ r cur, s.reqs[i]? = some r → ((∃ out full, r.phase = .compacted out full cur) ∨ ∃ out, r.phase = .filters out cur) →
    ∀ n, nodeAt r.ht cur s.h s.root = some n → Young r.no n.endB n.bundles

/-- `FlushFits` for a node of the tree. -/
def flushQ (H : Nat) (k : K) : (h : Nat) → Node K V F (Sub K V F h) → Prop
  | 0, _ => True
  | _ + 1, n => FlushFits H n (n.find k)

/-- `LeafFits` for a node of the tree. -/
def leafQ (k : K) : (h : Nat) → Node K V F (Sub K V F h) → Prop
  | 0, _ => True
  | _ + 1, n => LeafFits n (n.find k)

/-- What an operation needs on pages: the code's checks for room (incorporate: trunk.c 3676,
2204–2273; flush: 4604–4619, 4674; leaf split: 2204–2292), room for the filters, and young
requests. -/
def Fits (H : Nat) (s : State K V F) : Op K V → Prop
  | .incorporate => (Node.nBr s.root + 2 < H ∧ s.root.bundles.length + 1 < maxBu ∧ Node.nSb s.root + 1 < maxSb) ∧
      Node.nF s.root + 1 < maxF
  | .flush j k => At (j + 1) k (flushQ H k) s.h s.root
  | .splitLeaf k _ => At 1 k (leafQ k) s.h s.root
  | .replace i => ReqYoung s i
  | .filters i => ReqYoung s i
  | _ => True

/-- Every operation of a run fits when it is executed. -/
def FitsRun (H : Nat) (cfg : DataCfg K V) (ops : FilterOps K F) (keyOk : K → Bool) : State K V F → List (Op K V) → Prop
  | _, [] => True
  | s, o :: os => Fits H s o ∧ ∀ s', Trunk.step cfg ops keyOk s o = some s' → FitsRun H cfg ops keyOk s' os

variable {cfg : DataCfg K V} {ops : FilterOps K F} {keyOk : K → Bool} {sem : UpdateSem K V} {lo hi : K}
  {s s' : State K V F} {t : Tree (Branch K V) F}

omit [LinearOrder K] in
theorem init_rep (h0 : 0 < H) (h1 : H ≤ 65536) (zb : Branch K V) (zf : F) :
    RepT H 1 (Trunk.init (V := V) ops lo hi).root (init zb zf ops) :=
  ⟨fresh_rep h0 h1 zb zf ops.empty _ _ _ _ _ _, fun sb hs => by simp [Trunk.init, NodeArr.sbsOf] at hs,
    .cons ⟨fresh_rep h0 h1 zb zf ops.empty _ _ _ _ _ _, fun sb hs => by simp [NodeArr.sbsOf] at hs, _, _, rfl, rfl, rfl⟩ .nil⟩

theorem replace_step (i : Nat) (zb : Branch K V) (zf : F) (r : RepT H s.h s.root t) (hv : VanishLegal s i)
    (hy : ReqYoung s i) (e : doReplace s i = some s') :
    ∃ t', step H zb zf ops s t (.replace i) = some t' ∧ RepT H s'.h s'.root t' := by
  unfold doReplace at e
  unfold step
  cases hq : s.reqs[i]? with
  | none => rw [hq] at e; cases e
  | some q =>
    rw [hq] at e
    dsimp only at e
    cases hph : q.phase with
    | created => rw [hph] at e; cases e
    | filters _ _ => rw [hph] at e; cases e
    | compacted out full cur =>
      rw [hph] at e
      dsimp only at e
      cases hn : nodeAt q.ht cur s.h s.root with
      | none => rw [hn] at e; cases e
      | some n =>
        rw [hn] at e
        dsimp only at e
        have hyn := hy q cur hq (.inl ⟨_, _, hph⟩) n hn
        simp only [hq, hph, hn]
        by_cases hid : q.ht = 0 ∧ n.id ≠ q.id
        · rw [if_pos hid] at e ⊢
          obtain rfl := Option.some.inj e
          exact ⟨t, rfl, r⟩
        · rw [if_neg hid] at e ⊢
          have hat := at_info s.h s.root hn
          have hskip : n.bundles.any (fun b => b.no == q.no) = false → q.ht ≠ 0 →
              ∃ t', updT q.ht cur (fun _ _ u => replaceT H (q.ht == 0) q.no (if out.isEmpty then none else some out) u)
                s.h s.root t = some t' ∧ RepT H s.h s.root t' := by
            intro hd hht
            refine upd_rep (Q := fun _ m => m.info = n) ?_ s.h s.root s.root t r hat (upd_same s.h s.root hn)
            intro m u m' hr hm em
            obtain rfl := Option.some.inj em
            subst hm
            refine ⟨u, ?_, hr⟩
            rw [show (q.ht == 0) = false by simpa using hht]
            exact skip_rep hr hyn hd _
          by_cases ho : out.isEmpty = true
          · rw [if_pos ho] at e
            split at e
            · rename_i hlive
              split at e
              · cases e
              · rename_i root' hu
                obtain rfl := Option.some.inj e
                refine upd_rep (Q := fun _ m => m.info = n) ?_ s.h s.root root' t r hat hu
                intro m u m' hr hm em
                obtain rfl := Option.some.inj em
                subst hm
                rw [if_pos ho]
                have ho' : out = [] := by simpa using ho
                subst ho'
                exact vanish_rep _ hr hlive (hv q full cur hq hph _ hn (fun h => by
                  by_contra hc; exact hid ⟨h, hc⟩) hlive)
            · rename_i hlive
              split at e
              · cases e
              · rename_i hht
                obtain rfl := Option.some.inj e
                exact hskip (by simpa using hlive) hht
          · rw [if_neg ho] at e
            split at e
            · rename_i hlive
              split at e
              · cases e
              · rename_i root' hu
                obtain rfl := Option.some.inj e
                refine upd_rep (Q := fun _ m => m.info = n) ?_ s.h s.root root' t r hat hu
                intro m u m' hr hm em
                obtain rfl := Option.some.inj em
                subst hm
                rw [if_neg ho]
                exact replace_rep _ hr hlive out
            · rename_i hlive
              split at e
              · cases e
              · rename_i hht
                obtain rfl := Option.some.inj e
                exact hskip (by simpa using hlive) hht

theorem filters_step (i : Nat) (zb : Branch K V) (zf : F) (r : RepT H s.h s.root t)
    (hy : ReqYoung s i) (e : doFilters ops s i = some s') :
    ∃ t', step H zb zf ops s t (.filters i) = some t' ∧ RepT H s'.h s'.root t' := by
  unfold doFilters at e
  unfold step
  cases hq : s.reqs[i]? with
  | none => rw [hq] at e; cases e
  | some q =>
    rw [hq] at e
    dsimp only at e
    cases hph : q.phase with
    | created => rw [hph] at e; cases e
    | compacted _ _ _ => rw [hph] at e; cases e
    | filters out cur =>
      rw [hph] at e
      dsimp only at e
      cases hn : nodeAt q.ht cur s.h s.root with
      | none => rw [hn] at e; cases e
      | some n =>
        rw [hn] at e
        dsimp only at e
        have hyn := hy q cur hq (.inr ⟨_, hph⟩) n hn
        simp only [hq, hph, hn]
        by_cases hid : q.ht = 0 ∧ n.id ≠ q.id
        · rw [if_pos hid] at e ⊢
          obtain rfl := Option.some.inj e
          exact ⟨t, rfl, r⟩
        · rw [if_neg hid] at e ⊢
          have hat := at_info s.h s.root hn
          have hsame : (∀ (m : Node K V F (Sub K V F q.ht)) u sl, m.info = n → RepT H q.ht m u → filtersT H ops.add q.no sl u = u) →
              ∃ t', updT q.ht cur (fun _ m u => some (filtersT H ops.add q.no
                (m.pivots.map fun y => q.slice (out.map (·.1)) y.1.gen) u)) s.h s.root t = some t' ∧ RepT H s.h s.root t' := by
            intro hd
            refine upd_rep (Q := fun _ m => m.info = n) ?_ s.h s.root s.root t r hat (upd_same s.h s.root hn)
            intro m u m' hr hm em
            obtain rfl := Option.some.inj em
            refine ⟨u, ?_, hr⟩
            rw [hd m u _ hm hr]
          by_cases hlive : n.bundles.any (fun b => b.no == q.no) = true
          · rw [if_pos hlive] at e
            cases hb : n.bundles with
            | nil => rw [hb] at e; cases e
            | cons b rest =>
              rw [hb] at e
              dsimp only at e
              by_cases hno : b.no = q.no
              · rw [if_neg (by simpa using hno)] at e
                split at e
                · cases e
                · rename_i root' hu
                  obtain rfl := Option.some.inj e
                  refine upd_rep (Q := fun _ m => m.info = n) ?_ s.h s.root root' t r hat hu
                  intro m u m' hr hm em
                  obtain rfl := Option.some.inj em
                  subst hm
                  exact ⟨_, rfl, filters_rep hr hb hno _⟩
              · rw [if_pos hno] at e
                obtain rfl := Option.some.inj e
                refine hsame fun m u sl hm hr => ?_
                subst hm
                exact filters_wait hr hb hno hlive sl
          · rw [if_neg hlive] at e
            obtain rfl := Option.some.inj e
            refine hsame fun m u sl hm hr => ?_
            subst hm
            exact filters_skip hr hyn (Bool.not_eq_true _ ▸ hlive) sl

/-- One operation keeps pages and lists in step. -/
theorem step_rep (h0 : 0 < H) (h1 : H ≤ 65536) (zb : Branch K V) (zf : F) (r : RepT H s.h s.root t) {o : Op K V}
    (hl : Legal lo hi s o) (hf : Fits H s o) (e : Trunk.step cfg ops keyOk s o = some s') :
    ∃ t', step H zb zf ops s t o = some t' ∧ RepT H s'.h s'.root t' := by
  cases o with
  | insert k m =>
    refine ⟨t, rfl, ?_⟩
    simp only [Trunk.step, doInsert] at e
    split at e
    · split at e
      · cases e
      · split at e
        · cases e
        · obtain rfl := Option.some.inj e; exact r
    · obtain rfl := Option.some.inj e; exact r
  | rotate => obtain rfl := Option.some.inj e; exact ⟨t, rfl, r⟩
  | incorporate =>
    simp only [Trunk.step, doIncorporate] at e
    unfold step
    split at e
    · cases e
    · cases e
    · rename_i m0 b l hm
      rw [hm]
      dsimp only
      split at e
      · cases e
      · obtain rfl := Option.some.inj e
        obtain ⟨f1, f2⟩ := hf
        have hs := NodeArr.install_spec r.rep ((b :: l).getLast (by simp))
          (ops.add ops.empty (((b :: l).getLast (by simp)).map (·.1)) 0) f2
        rw [if_pos f1] at hs
        obtain ⟨a, g1, g2⟩ := hs
        rw [g1]
        exact ⟨_, rfl, RepT.set r g2 (NodeOk.addBundle r.ok (by simp)) id rfl⟩
  | flush j k =>
    simp only [Trunk.step, doFlush] at e
    split at e
    · cases e
    · split at e
      · cases e
      · rename_i root' hu
        obtain rfl := Option.some.inj e
        exact upd_rep (Q := flushQ H k) (fun n u n' hr hq en => flush_rep hr hq en) s.h s.root root' t r hf hu
  | splitIndex j k =>
    simp only [Trunk.step, doSplitIndex] at e
    split at e
    · cases e
    · split at e
      · cases e
      · split at e
        · cases e
        · rename_i root' hu
          split at e
          · cases e
          · obtain rfl := Option.some.inj e
            exact upd_rep (Q := fun _ _ => True) (fun n u n' hr _ en => splitIndex_rep hr en) s.h s.root root' t r
              (at_all (fun _ => trivial) _ _) hu
  | splitLeaf k ks =>
    simp only [Trunk.step, doSplitLeaf] at e
    split at e
    · cases e
    · split at e
      · cases e
      · rename_i root' hu
        obtain rfl := Option.some.inj e
        exact upd_rep (Q := leafQ k) (fun n u n' hr hq en => splitLeaf_rep hr hq en) s.h s.root root' t r hf hu
  | splitRoot =>
    simp only [Trunk.step, doSplitRoot] at e
    split at e
    · cases e
    · rename_i root' hu
      obtain rfl := Option.some.inj e
      exact splitRoot_rep zb zf h0 h1 r hu
  | startCompact i =>
    refine ⟨t, rfl, ?_⟩
    simp only [Trunk.step, doStart] at e
    split at e
    · cases e
    · split at e
      · split at e
        · cases e
        · split at e
          · cases e
          · split at e
            · split at e
              · cases e
              · obtain rfl := Option.some.inj e; exact r
            · obtain rfl := Option.some.inj e; exact r
      · cases e
  | replace i => exact replace_step i zb zf r hl hf e
  | filters i => exact filters_step i zb zf r hf e

/-- C49 (partial): pages and lists stay in step, and the pages never fail an assertion. -/
theorem run_rep_partial (h0 : 0 < H) (h1 : H ≤ 65536) (zb : Branch K V) (zf : F) : ∀ (os : List (Op K V)) (s s' : State K V F)
    (t : Tree (Branch K V) F), RepT H s.h s.root t → LegalRun cfg ops keyOk lo hi s os → FitsRun H cfg ops keyOk s os →
    Trunk.run cfg ops keyOk s os = some s' → ∃ t', run H cfg zb zf ops keyOk s t os = some (s', t') ∧ RepT H s'.h s'.root t'
  | [], s, s', t, r, _, _, e => by
    obtain rfl := Option.some.inj e
    exact ⟨t, rfl, r⟩
  | o :: os, s, s', t, r, hl, hf, e => by
    unfold Trunk.run at e
    cases hst : Trunk.step cfg ops keyOk s o with
    | none => rw [hst] at e; cases e
    | some s1 =>
      rw [hst] at e
      obtain ⟨t1, g1, g2⟩ := step_rep h0 h1 zb zf r hl.1 hf.1 hst
      obtain ⟨t', g3, g4⟩ := run_rep_partial h0 h1 zb zf os s1 s' t1 g2 (hl.2 s1 hst) (hf.2 s1 hst) e
      refine ⟨t', ?_, g4⟩
      unfold run
      rw [hst, g1]
      exact g3

/-! ### Lookups -/

/-- What a page reads where the lists name a branch. -/
def Agrees (x y : Option (Branch K V)) : Prop := ∀ b, y = some b → x = some b

omit [LinearOrder K] in
theorem pivot_agrees {C : Type} {a : NodeArr.Hdr (Branch K V) F} {n : Node K V F C} (r : NodeArr.Rep H a n) (ok : NodeOk n) {i : Nat}
    {q : PData K F × C} (hq : n.pivots[i]? = some q) (k : K) : ∃ x, a.pivots[i]? = some x ∧
      List.Forall₂ Agrees ((NodeArr.pivotReads H ops.vals a x k).map some) (pivotProbes ops n q.1 k) := by
  obtain ⟨b0, s0, f0, u0, R⟩ := r
  obtain ⟨x, hx, P⟩ := R.pivot hq
  refine ⟨x, hx, ?_⟩
  rw [List.forall₂_map_left_iff]
  exact (NodeArr.pivotReads_spec (ops := ops) R ok P k).imp fun _ _ h b e => by rw [h b e]

theorem reads_agree (k : K) : ∀ (h : Nat) (n : Node K V F (Sub K V F h)) (t : Tree (Branch K V) F), RepT H h n t →
    List.Forall₂ Agrees (reads H ops h n t k) (probes ops h n k)
  | 0, n, t, r => by
    obtain ⟨r1, r2, p, c, e, -, -⟩ := r
    have hq : n.pivots[0]? = some (p, c) := by rw [e]; rfl
    obtain ⟨x, hx, hp⟩ := pivot_agrees (ops := ops) r1 r2 hq k
    unfold reads probes
    rw [hx, hq]
    exact hp
  | h + 1, n, t, r => by
    obtain ⟨r1, r2, r3⟩ := r
    unfold reads probes
    cases hq : n.pivots[n.find k]? with
    | none =>
      have : t.page.pivots[n.find k]? = none := by
        rw [List.getElem?_eq_none_iff] at hq ⊢
        rw [Rep.pivots_length r1]; exact hq
      rw [this]
      exact .cons (fun b e => by cases e) .nil
    | some q =>
      obtain ⟨x, hx, hp⟩ := pivot_agrees (ops := ops) r1 r2 hq k
      obtain ⟨u, hu, hr⟩ := forall₂_get r3 (i := n.find k) (x := q.2) (by rw [List.getElem?_map, hq]; rfl)
      rw [hx, hu]
      exact List.rel_append hp (reads_agree k h q.2 u hr)

theorem runProbes_agree {k : K} {a : Option (Msg V)} : ∀ {xs ys : List (Option (Branch K V))} (acc : Option (Msg V)),
    List.Forall₂ Agrees xs ys → runProbes cfg k acc ys = .ok a → runProbes cfg k acc xs = .ok a
  | _, _, acc, .nil, e => e
  | x :: xs, y :: ys, acc, .cons h t, e => by
    cases y with
    | none => simp [runProbes] at e
    | some b =>
      rw [h b rfl]
      unfold runProbes at e ⊢
      cases hb : b.get k with
      | none =>
        rw [hb] at e
        exact runProbes_agree acc t e
      | some m =>
        rw [hb] at e
        dsimp only at e ⊢
        cases hc : accumulate cfg k acc m with
        | none => rw [hc] at e; cases e
        | some o =>
          rw [hc] at e
          cases o with
          | none => exact runProbes_agree none t e
          | some a' =>
            dsimp only at e ⊢
            split
            · rename_i hd
              rw [if_pos hd] at e; exact e
            · rename_i hd
              rw [if_neg hd] at e; exact runProbes_agree (some a') t e

/-- A lookup that ends well on the lists ends the same on the pages. -/
theorem lookup_agree (r : RepT H s.h s.root t) {k : K} {o : LookupOut V} (e : Trunk.lookup cfg ops s k = .ok o) :
    lookup H cfg ops s t k = .ok o := by
  unfold Trunk.lookup at e
  unfold lookup
  cases hp : runProbes cfg k none (s.mems.map some ++ probes ops s.h s.root k) with
  | error x => rw [hp] at e; cases e
  | ok a =>
    rw [hp] at e
    have hm : List.Forall₂ Agrees (s.mems.map some) (s.mems.map some) :=
      List.forall₂_same.mpr fun x _ b e => e
    rw [runProbes_agree none (List.rel_append hm (reads_agree k s.h s.root t r)) hp]
    exact e

/-- C49 (partial: `Legal`, `Fits`). After any run the pages exist, and a lookup through them
reports the outcome of all the writes to its key, in call order. -/
theorem lookup_pages_partial (L : FilterLaws ops) (hi' : Implements cfg sem) (hlt : lo < hi) (h0 : 0 < H) (h1 : H ≤ 65536)
    (zb : Branch K V) (zf : F) (os : List (Op K V))
    (hl : LegalRun cfg ops keyOk lo hi (Trunk.init ops lo hi) os) (hf : FitsRun H cfg ops keyOk (Trunk.init ops lo hi) os)
    (hr : Trunk.run cfg ops keyOk (Trunk.init ops lo hi) os = some s) {k : K} (k1 : lo ≤ k) (k2 : k < hi) :
    ∃ t, run H cfg zb zf ops keyOk (Trunk.init ops lo hi) (init zb zf ops) os = some (s, t) ∧
      lookup H cfg ops s t k = .ok (report (eval sem k (written keyOk k os))) := by
  obtain ⟨t, g1, g2⟩ := run_rep_partial h0 h1 zb zf os _ s _ (init_rep h0 h1 zb zf) hl hf hr
  exact ⟨t, g1, lookup_agree g2 (lookup_after_run_partial L hi' hlt os hl hr k1 k2)⟩

/-! ### Runs and counterexamples -/

namespace Demo

/-- Both lookups after a run: on lists and on pages. -/
def both (os : List (Op Nat Nat)) (k : Nat) : Option (Except LErr (LookupOut Nat) × Except LErr (LookupOut Nat)) :=
  (run 48 counterCfg [] [] setFilter (fun _ => true) (Trunk.init setFilter 0 100) (init [] [] setFilter) os).map
    fun x => (Trunk.lookup counterCfg setFilter x.1 k, lookup 48 counterCfg setFilter x.1 x.2 k)

/-- A memtable with one key moves into the root. -/
def load (k : Nat) : List (Op Nat Nat) := [.insert k ⟨.insert, k⟩, .rotate, .incorporate]

/-- Eleven memtables move into the root, are flushed into the leaf and merged there, before
any filter of the root is built: request number `r` times eleven is the leaf's. -/
def round (r : Nat) : List (Op Nat Nat) :=
  (List.range' (r * 11 + 1) 11).flatMap load ++ [.flush 0 0, .startCompact (r * 12 + 11), .replace (r * 12 + 11)]

/-- `At`, computed. -/
def atB (j : Nat) (k : K) (q : (h : Nat) → Node K V F (Sub K V F h) → Bool) : (h : Nat) → Node K V F (Sub K V F h) → Bool
  | 0, n => if j = 0 then q 0 n else true
  | h + 1, n =>
    if h + 1 = j then q (h + 1) n
    else
      match n.pivots[n.find k]? with
      | none => true
      | some (_, c) => atB j k q h c

theorem atB_sound {j : Nat} {k : K} {q : (h : Nat) → Node K V F (Sub K V F h) → Bool}
    {Q : (h : Nat) → Node K V F (Sub K V F h) → Prop} (hq : ∀ h n, q h n = true → Q h n) :
    ∀ (h : Nat) (n : Node K V F (Sub K V F h)), atB j k q h n = true → At j k Q h n
  | 0, n, e => by
    unfold atB at e
    unfold At
    split
    · rename_i hj; rw [if_pos hj] at e; exact hq 0 n e
    · trivial
  | h + 1, n, e => by
    unfold atB at e
    unfold At
    split
    · rename_i hj; rw [if_pos hj] at e; exact hq _ n e
    · rename_i hj
      rw [if_neg hj] at e
      cases hp : n.pivots[n.find k]? with
      | none => trivial
      | some x => rw [hp] at e; exact atB_sound hq h x.2 e

def flushB (H : Nat) (k : K) : (h : Nat) → Node K V F (Sub K V F h) → Bool
  | 0, _ => true
  | _ + 1, n =>
    match n.pivots[n.find k]? with
    | none => true
    | some (p, c) => decide (Node.nBr c + (NodeArr.brsOf (flushSbs n p)).length < H ∧ c.bundles.length + 2 ≤ maxBu ∧
        Node.nSb c + ((NodeArr.sbsOf (n.bundles.drop p.bskip)).length + 1) + 1 < maxSb ∧
        Node.nF c + (NodeArr.flsOf (flushSbs n p)).length < maxF)

theorem flushB_sound {k : K} (h : Nat) (n : Node K V F (Sub K V F h)) (e : flushB H k h n = true) : flushQ H k h n := by
  cases h with
  | zero => trivial
  | succ h =>
    intro p c hp
    unfold flushB at e
    dsimp only at e
    rw [hp] at e
    exact of_decide_eq_true e

def leafB (k : K) : (h : Nat) → Node K V F (Sub K V F h) → Bool
  | 0, _ => true
  | _ + 1, n =>
    match n.pivots[n.find k]? with
    | none => true
    | some (_, c) => !(c.whole.isEmpty && c.bundles.isEmpty) && decide (c.bundles.length + 1 < maxBu) &&
        (c.whole.isEmpty || decide (Node.nSb c + 1 < maxSb ∧ Node.nF c + 1 < maxF))

theorem leafB_sound {k : K} (h : Nat) (n : Node K V F (Sub K V F h)) (e : leafB k h n = true) : leafQ k h n := by
  cases h with
  | zero => trivial
  | succ h =>
    intro p c hp
    unfold leafB at e
    dsimp only at e
    rw [hp] at e
    simp only [Bool.and_eq_true, Bool.not_eq_true', Bool.and_eq_false_iff, decide_eq_true_eq, Bool.or_eq_true] at e
    obtain ⟨⟨h1, h2⟩, h3⟩ := e
    refine ⟨?_, h2, fun hw => ?_⟩
    · rcases h1 with h1 | h1
      · exact .inl (by simpa using h1)
      · exact .inr (by simpa using h1)
    · rcases h3 with h3 | h3
      · exact absurd (by simpa using h3) hw
      · exact h3

def youngB (s : State K V F) (i : Nat) : Bool :=
  match s.reqs[i]? with
  | none => true
  | some r =>
    match (match r.phase with | .created => none | .compacted _ _ cur => some cur | .filters _ cur => some cur) with
    | none => true
    | some cur =>
      match nodeAt r.ht cur s.h s.root with
      | none => true
      | some n => n.bundles.any (fun b => b.no == r.no) || decide (r.no < n.endB ∧ n.endB ≤ r.no + maxBu)

theorem youngB_sound {s : State K V F} {i : Nat} (e : youngB s i = true) : ReqYoung s i := by
  intro r cur hr hp n hn
  unfold youngB at e
  rw [hr] at e
  have hph : (match r.phase with | .created => none | .compacted _ _ cur => some cur | .filters _ cur => some cur) = some cur := by
    rcases hp with ⟨o, f, hp⟩ | ⟨o, hp⟩ <;> rw [hp]
  dsimp only at e
  rw [hph] at e
  dsimp only at e
  rw [hn] at e
  simpa [Young] using e

/-- `Fits`, computed. -/
def fitsB (H : Nat) (s : State K V F) : Op K V → Bool
  | .incorporate => decide ((Node.nBr s.root + 2 < H ∧ s.root.bundles.length + 1 < maxBu ∧ Node.nSb s.root + 1 < maxSb) ∧
      Node.nF s.root + 1 < maxF)
  | .flush j k => atB (j + 1) k (flushB H k) s.h s.root
  | .splitLeaf k _ => atB 1 k (leafB k) s.h s.root
  | .replace i => youngB s i
  | .filters i => youngB s i
  | _ => true

theorem fitsB_sound {s : State K V F} {o : Op K V} (e : fitsB H s o = true) : Fits H s o := by
  cases o with
  | incorporate =>
    unfold fitsB at e
    unfold Fits
    exact of_decide_eq_true e
  | flush j k => exact atB_sound flushB_sound _ _ e
  | splitLeaf k ks => exact atB_sound leafB_sound _ _ e
  | replace i => exact youngB_sound e
  | filters i => exact youngB_sound e
  | insert => trivial
  | rotate => trivial
  | splitIndex => trivial
  | splitRoot => trivial
  | startCompact => trivial

def fitsRunB (H : Nat) (cfg : DataCfg K V) (ops : FilterOps K F) (keyOk : K → Bool) : State K V F → List (Op K V) → Bool
  | _, [] => true
  | s, o :: os => fitsB H s o &&
    match Trunk.step cfg ops keyOk s o with
    | none => true
    | some s' => fitsRunB H cfg ops keyOk s' os

theorem fitsRunB_sound : ∀ (os : List (Op K V)) (s : State K V F), fitsRunB H cfg ops keyOk s os = true →
    FitsRun H cfg ops keyOk s os
  | [], _, _ => trivial
  | o :: os, s, h => by
    unfold fitsRunB at h
    rw [Bool.and_eq_true] at h
    refine ⟨fitsB_sound h.1, fun s' hs' => ?_⟩
    have := h.2
    rw [hs'] at this
    exact fitsRunB_sound os s' this

end Demo

/-- Instance of `lookup_pages_partial`: splits of a leaf and the root, flushes, merges,
filters, an update and a delete, on pages. -/
example : ∃ s t, run 48 counterCfg [] [] setFilter (fun _ => true) (Trunk.init setFilter 0 100) (init [] [] setFilter) demoRun = some (s, t) ∧
    lookup 48 counterCfg setFilter s t 30 = .ok (.found 7) ∧ s.h = 2 := by
  have hsome : (Trunk.run counterCfg setFilter (fun _ => true) (Trunk.init setFilter 0 100) demoRun).map (·.h) = some 2 := by
    decide +kernel
  obtain ⟨s, hs, hh⟩ := Option.map_eq_some_iff.mp hsome
  obtain ⟨t, h1, h2⟩ := lookup_pages_partial (H := 48) setFilter_laws counter_implements (by decide) (by decide) (by decide) [] [] demoRun
    (legalRunB_sound _ _ (by decide +kernel)) (Demo.fitsRunB_sound _ _ (by decide +kernel)) hs (k := 30) (by decide) (by decide)
  refine ⟨s, t, h1, ?_, hh⟩
  rw [h2]
  decide +kernel

/-- Without room for the filters the property is false (trunk.c 2255–2273, 4604–4619): after
three rounds every check of the code has passed and the run is legal; the leaf has three
bundles with eleven filters each in an array of 24. Key 5 was written and is not found on the
pages. -/
theorem lookup_loses_key_filters_full :
    Demo.both ((List.range 3).flatMap Demo.round) 5 = some (.ok (.found 5), .ok .notFound) ∧
    legalRunB (Trunk.init setFilter 0 100) ((List.range 3).flatMap Demo.round) = true := by
  constructor <;> decide +kernel

/-- With two rounds it is found. -/
example : Demo.both ((List.range 2).flatMap Demo.round) 5 = some (.ok (.found 5), .ok (.found 5)) := by decide +kernel

/-- Without young requests the property is false (trunk.c 2183–2190, 3998–4030): the filters
of bundle 0 are built late, when it has been flushed and bundle 12 has taken its place on the
page. Key 60, in that bundle, is lost. -/
theorem lookup_loses_key_late_filters :
    let os := Demo.load 50 ++ [.flush 0 0] ++ (List.range' 1 11).flatMap (fun k => if k = 6 then Demo.load k ++ [.flush 0 0] else Demo.load k) ++
      [.flush 0 0] ++ Demo.load 60
    Demo.both os 60 = some (.ok (.found 60), .ok (.found 60)) ∧
    Demo.both (os ++ [.filters 0]) 60 = some (.ok (.found 60), .ok .notFound) ∧
    legalRunB (Trunk.init setFilter 0 100) (os ++ [.filters 0]) = true := by
  decide +kernel

end Splinter.Trunk.Paged
