import Mathlib.Tactic.ByContra
import Verif.Proof.Async
import Verif.Proof.AsyncTrunk
import Verif.Props.Trunk
import Verif.Props.Ring
import Verif.Props.Pack
import Verif.Props.Filter
/-!
# C36: asynchronous lookup

The asynchronous lookup of a key gives what the synchronous one gives, whatever pages
are refused or have to be read from disk, and gives back all page references and locks
– provided that the root's page is available at the first try.  When it is refused,
the memtables are read once more (`retry_reads_memtables_again`); when it has to be
read from disk, the lookup runs into a null page (`root_io_breaks`).
-/
namespace Splinter.Async

/-- The routing filter part: for every sequence of answers the asynchronous filter
lookup gives the bits of the synchronous one, holds no page afterwards, and returns
after four requests that are not refused. -/
theorem filter_async {c : Splinter.Filter.Cfg} {dev : Nat → Splinter.Log.Mem} {f : Splinter.Filter.Filter} {h v : Nat}
    (ha : f.addr ≠ 0) (hl : Splinter.Filter.lookup c dev f h = some v) (as : List Ans) :
    ∃ x, Filter.run c dev f h as Filter.init = some x ∧ (x.pc = .returned → x.refs = 0 ∧ x.found = some v) ∧
      (4 ≤ as.countP (· ≠ .again) → x.pc = .returned) :=
  Filter.run_inv ha hl as

/-- The B-tree part: on a search tree of height `h`, for every sequence of answers, the
asynchronous lookup finds exactly the message stored under the key, holds no page
afterwards, and returns after `2 * h + 3` requests that are not refused. -/
theorem btree_async {K M : Type} [LinearOrder K] [BoundedOrder K] [Inhabited K]
    {E : Splinter.Btree.Entry K → List (K × M) → Prop} {st : Splinter.Btree.Store K M} {h a : Nat}
    {s : Splinter.Btree.Sub K M} (H : Splinter.Btree.Holds E st h a s) (hne : h ≠ 0 → s.items ≠ []) {t : K}
    (ht : t ≠ ⊤) (as : List Ans) :
    ∃ x, Btree.run st a t as Btree.init = some x ∧
      (x.pc = .returned → x.refs = 0 ∧ x.found = some ((s.items.find? fun y => decide (y.1 = t)).map (·.2))) ∧
      (2 * h + 3 ≤ as.countP (· ≠ .again) → x.pc = .returned) :=
  Btree.run_inv ht H (Splinter.Btree.lookup_holds H hne t) as

/-- In a packed branch the asynchronous lookup agrees with the synchronous one. -/
theorem packed_async {K M : Type} [LinearOrder K] [BoundedOrder K] [Inhabited K] {P : Splinter.Btree.Env K M}
    (inj : ∀ i j, P.page i = P.page j → i = j) {xs : List (K × M)}
    (hs : xs.Pairwise (fun x y => x.1 < y.1)) (hne : xs ≠ []) {t : Splinter.Btree.Packed K M}
    (e : Splinter.Btree.pack P xs = .ok t) {k : K} (hk : k ≠ ⊤) (as : List Ans) :
    ∃ x, Btree.run t.store t.root k as Btree.init = some x ∧
      (x.pc = .returned → x.refs = 0 ∧ x.found = Splinter.Btree.lookup t.store t.root k) := by
  obtain ⟨_, _, _, _, _, h⟩ := Splinter.Btree.pack_spec inj hs e
  obtain ⟨_, h, s, _, H, hi, _⟩ := h hne
  obtain ⟨x, h1, h2, _⟩ := btree_async H (fun _ => by rw [hi]; exact hne) hk as
  refine ⟨x, h1, fun hp => ⟨(h2 hp).1, ?_⟩⟩
  rw [(h2 hp).2, Splinter.Btree.lookup_holds H (fun _ => by rw [hi]; exact hne) k]

open Splinter.Btree in
/-- The packed example tree of height 3, with a page read from disk and a refusal on
the way: key 20 is found. -/
example : ∃ t x, pack exEnv exStream = .ok t ∧
    Btree.run t.store t.root 20 [.again, .io, .ok, .again, .ok, .ok, .io, .ok, .ok, .ok, .ok] Btree.init = some x ∧
    x.pc = .returned ∧ x.refs = 0 ∧ x.found = some (some 7) := by
  have hp : ∃ t, pack exEnv exStream = .ok t := ⟨_, rfl⟩
  obtain ⟨t, ht⟩ := hp
  have hs : exStream.Pairwise (fun x y => x.1 < y.1) := by decide
  have inj : ∀ i j, exEnv.page i = exEnv.page j → i = j := fun i j h => Nat.succ.inj h
  obtain ⟨x, h1, h2⟩ := packed_async inj hs (by decide) ht (k := 20) (by decide)
    [.again, .io, .ok, .again, .ok, .ok, .io, .ok, .ok, .ok, .ok]
  have hr : x.pc = .returned := by
    have h3 : (match pack exEnv exStream with
      | .ok t => (Btree.run t.store t.root 20 [.again, .io, .ok, .again, .ok, .ok, .io, .ok, .ok, .ok, .ok] Btree.init).map
          (fun x => x.pc)
      | .error _ => none) = some Btree.PC.returned := by decide +kernel
    rw [ht] at h3
    simp only [h1, Option.map_some, Option.some.injEq] at h3
    exact h3
  refine ⟨t, x, ht, h1, hr, (h2 hr).1, ?_⟩
  rw [(h2 hr).2, (pack_lookup inj hs (by decide) ht 20).1 7 (by decide)]

open Splinter.Filter Splinter.Filter.Ex in
/-- A filter with 32 hashes: the asynchronous lookup reports the bit of value 3 after a
refusal and a disk read. -/
example : ∃ dev f U x v, Reach c dev f U [(hsB, 3), (hsA, 0)] ∧
    Filter.run c dev f 288609294 [.again, .io, .ok, .again, .ok, .ok] Filter.init = some x ∧ x.pc = .returned ∧
    x.refs = 0 ∧ x.found = some v ∧ v.testBit 3 = true := by
  obtain ⟨dev, f, U, r⟩ := reach
  obtain ⟨v, hv, hb⟩ := never_hides_partial good r (by decide) (show (hsB, 3) ∈ [(hsB, 3), (hsA, 0)] by simp)
    (h := 288609294) (by decide) (by decide)
  have ha : f.addr ≠ 0 := by
    intro h0
    rw [show lookup c dev f 288609294 = some 0 from by unfold lookup; simp [h0]] at hv
    cases hv
    simp at hb
  obtain ⟨x, h1, h2, h3⟩ := filter_async ha hv [.again, .io, .ok, .again, .ok, .ok]
  have hr := h3 (by decide)
  exact ⟨dev, f, U, x, v, r, h1, hr, (h2 hr).1, (h2 hr).2, hb⟩

end Splinter.Async

namespace Splinter.Trunk.Async
open Splinter.Async (Ans)
open Splinter.Spec (report eval UpdateSem Implements)
set_option linter.unusedSectionVars false

variable {K V F : Type} [LinearOrder K] {cfg : DataCfg K V} {ops : FilterOps K F} {sem : UpdateSem K V}
  {keyOk : K → Bool} {lo hi k : K} {s : State K V F} {isNull : F → Bool}

/-- An asynchronous lookup of `k` in a store. -/
def envOf (cfg : DataCfg K V) (ops : FilterOps K F) (isNull : F → Bool) (s : State K V F) (k : K) : Env K V F :=
  ⟨cfg, ops, isNull, s.mems, s.h, s.root, k⟩

/-- Every subbundle on the key's way down has a filter and none of its filters is the
null filter. -/
def PathFilters (isNull : F → Bool) (k : K) : (h : Nat) → Node K V F (Sub K V F h) → Prop
  | 0, n => ∀ b ∈ n.bundles, ∀ sb ∈ b.sbs, (sb.compacted = true → sb.filters ≠ []) ∧ ∀ f ∈ sb.filters, isNull f = false
  | h + 1, n => (∀ b ∈ n.bundles, ∀ sb ∈ b.sbs, (sb.compacted = true → sb.filters ≠ []) ∧ ∀ f ∈ sb.filters, isNull f = false) ∧
      ∀ p c, n.pivots[n.find k]? = some (p, c) → PathFilters isNull k h c

theorem path_true : ∀ (h : Nat) (n : Node K V F (Sub K V F h)) (lo hi : K), Good h n lo hi → lo ≤ k → k < hi →
    PathOk (fun _ => True) k h n
  | 0, n, lo, hi, g, h1, h2 => by
    obtain ⟨p, c, hp, _, _⟩ := g.2
    exact ⟨by simp [Node.find, hp, Search.findPivot], fun _ _ _ _ => trivial⟩
  | h + 1, n, lo, hi, g, h1, h2 => by
    obtain ⟨p, c, ph, hr⟩ := g.node.route (k := k)
    have hrg := g.node.range h1 h2 hr
    obtain ⟨a, b, e1, e2, _⟩ := g.node.find h1 h2 hr
    have hf : n.pivots[n.find k]? = some (p, c) := by rw [e2, e1]; simp
    refine ⟨fun _ _ _ _ => trivial, fun p' c' hpc => ?_⟩
    rw [hf] at hpc
    obtain ⟨rfl, rfl⟩ := Prod.mk.inj (Option.some.inj hpc)
    exact path_true h c p.key ph (g.2 k p c ph h1 h2 hr) hrg.2.1 hrg.2.2.1

theorem path_good {e : Env K V F} (hk : e.key = k) : ∀ (h : Nat) (n : Node K V F (Sub K V F h)),
    PathOk (fun _ => True) k h n → PathFilters e.isNull k h n → PathOk (SbGood e) k h n
  | 0, _, h1, h2 => ⟨h1.1, h2⟩
  | h + 1, _, h1, h2 => ⟨h2.1, fun p c hpc => path_good hk h c (h1.2 p c hpc) (h2.2 p c hpc)⟩

/-! ### The result -/

/-- What an asynchronous lookup returns: the outcome of reading the memtables once for
each time the root was refused, then once more, and then the tree. It leaves as many
memtable locks behind as the root was refused, and no page. -/
theorem async_result (L : FilterLaws ops) (H : Implements cfg sem) (hlt : lo < hi)
    (hs : Reachable cfg ops keyOk lo hi s) (k1 : lo ≤ k) (k2 : k < hi)
    (hnull : ∀ f, isNull f = true → ops.vals f k = []) {as : List Ans} {c : Ctx K V F}
    (hr : run (envOf cfg ops isNull s k) as init = .ok c) (hp : c.pc = .returned) :
    ∃ acc, runProbes cfg k none ((List.replicate (c.retries + 1) s.mems).flatten.map some ++ probes ops s.h s.root k) =
        .ok acc ∧ c.out = some (finishLookup cfg k acc) ∧ c.locks = c.retries ∧ c.refs = 0 ∧ c.node = none := by
  obtain ⟨hist, I⟩ := hs.inv L H hlt
  have hroot := path_true s.h s.root lo hi I.good k1 k2
  have := run_at (e := envOf cfg ops isNull s k) (Q := fun _ => True) hnull hroot as init c (.inl at_init) hr
  rcases this with ⟨A, Hd⟩ | hb
  · unfold At at A
    rw [hp] at A
    unfold Held at Hd
    rw [hp] at Hd
    obtain ⟨r, o, h1, h2, h3⟩ := A
    exact ⟨r, h1, by rw [h3, ← h2]; rfl, Hd.1, Hd.2.2, Hd.2.1⟩
  · rw [hb.1] at hp; cases hp

/-- C36. When the root was not refused, the asynchronous lookup returns what
`trunk_lookup` returns, with all locks and pages given back. -/
theorem async_equals_sync_partial (L : FilterLaws ops) (H : Implements cfg sem) (hlt : lo < hi)
    (hs : Reachable cfg ops keyOk lo hi s) (k1 : lo ≤ k) (k2 : k < hi)
    (hnull : ∀ f, isNull f = true → ops.vals f k = []) {as : List Ans} {c : Ctx K V F}
    (hr : run (envOf cfg ops isNull s k) as init = .ok c) (hp : c.pc = .returned) (h0 : c.retries = 0) :
    ∃ o, lookup cfg ops s k = .ok o ∧ c.out = some o ∧ c.locks = 0 ∧ c.refs = 0 := by
  obtain ⟨acc, h1, h2, h3, h4, _⟩ := async_result L H hlt hs k1 k2 hnull hr hp
  rw [h0] at h1 h3
  refine ⟨_, ?_, h2, h3, h4⟩
  unfold lookup
  have : (List.replicate (0 + 1) s.mems).flatten = s.mems := by simp
  rw [this] at h1
  rw [h1]

theorem runProbes_skip (ps qs : List (Option (Branch K V)))
    (h : ∀ p ∈ ps, ∃ b, p = some b ∧ b.get k = none) (acc : Option (Msg V)) :
    runProbes cfg k acc (ps ++ qs) = runProbes cfg k acc qs := by
  induction ps with
  | nil => rfl
  | cons p ps ih =>
    obtain ⟨b, rfl, hb⟩ := h p List.mem_cons_self
    rw [List.cons_append, runProbes, hb]
    exact ih (fun p hp => h p (List.mem_cons_of_mem _ hp))

/-- C36. However often the root was refused, a key the memtables hold no message for
is reported as `trunk_lookup` reports it. -/
theorem async_equals_sync_flushed_partial (L : FilterLaws ops) (H : Implements cfg sem) (hlt : lo < hi)
    (hs : Reachable cfg ops keyOk lo hi s) (k1 : lo ≤ k) (k2 : k < hi)
    (hnull : ∀ f, isNull f = true → ops.vals f k = []) {as : List Ans} {c : Ctx K V F}
    (hr : run (envOf cfg ops isNull s k) as init = .ok c) (hp : c.pc = .returned)
    (hm : ∀ m ∈ s.mems, ∀ x ∈ m, x.1 ≠ k) :
    ∃ o, lookup cfg ops s k = .ok o ∧ c.out = some o := by
  obtain ⟨acc, h1, h2, _⟩ := async_result L H hlt hs k1 k2 hnull hr hp
  refine ⟨_, ?_, h2⟩
  have hg : ∀ m ∈ s.mems, Branch.get m k = none := by
    intro m hmm
    unfold Branch.get
    have : m.find? (fun x => decide (x.1 = k)) = none :=
      List.find?_eq_none.mpr fun x hx => by simpa using hm m hmm x hx
    rw [this]; rfl
  unfold lookup
  rw [runProbes_skip _ _ (by
    intro p hp
    obtain ⟨b, hb, rfl⟩ := List.mem_map.mp hp
    exact ⟨b, rfl, hg b hb⟩)]
  rw [runProbes_skip _ _ (by
    intro p hp
    obtain ⟨b, hb, rfl⟩ := List.mem_map.mp hp
    obtain ⟨l, hl, hb⟩ := List.mem_flatten.mp hb
    rw [List.eq_of_mem_replicate hl] at hb
    exact ⟨b, rfl, hg b hb⟩)] at h1
  rw [h1]

/-! ### Termination -/

theorem runProbes_total (H : Implements cfg sem) : ∀ (ps : List (Option (Branch K V))) (acc : Option (Msg V)),
    (∀ p ∈ ps, p ≠ none) → ∃ r, runProbes cfg k acc ps = .ok r := by
  intro ps
  induction ps with
  | nil => intro acc _; exact ⟨_, rfl⟩
  | cons p ps ih =>
    intro acc h
    have ih := fun acc => ih acc (fun p hp => h p (List.mem_cons_of_mem _ hp))
    cases p with
    | none => exact absurd rfl (h none List.mem_cons_self)
    | some b =>
      unfold runProbes
      cases b.get k with
      | none => exact ih acc
      | some m =>
        have : ∃ r, accumulate cfg k acc m = some r := by
          cases acc with
          | none => exact ⟨_, rfl⟩
          | some a =>
            unfold accumulate dataMergeTuples
            simp only
            by_cases hd : a.definitive = true
            · exact ⟨some a, by simp [hd]⟩
            · by_cases ht : m.type = .delete
              · obtain ⟨x, hx, _⟩ := H.final k a.data
                exact ⟨some x, by simp [hd, ht, hx]⟩
              · obtain ⟨x, hx, _⟩ := H.merge k m a.data ht
                exact ⟨some x, by simp [hd, ht, hx]⟩
        obtain ⟨r, hr⟩ := this
        simp only [hr]
        cases r with
        | none => exact ih none
        | some a =>
          simp only
          split
          · exact ⟨_, rfl⟩
          · exact ih _

theorem finish_ok (H : Implements cfg sem) (o : Option (Msg V)) : finishLookup cfg k o ≠ .mergeError := by
  cases o with
  | none => simp [finishLookup]
  | some a =>
    have : ∃ x, dataMergeTuplesFinal cfg k a = some x := by
      unfold dataMergeTuplesFinal
      split
      · exact ⟨_, rfl⟩
      · obtain ⟨x, hx, _⟩ := H.final k a.data
        exact ⟨x, hx⟩
    obtain ⟨x, hx⟩ := this
    simp only [finishLookup, hx]
    cases x.type <;> simp

theorem step_root {e : Env K V F} {c c' : Ctx K V F} {a : Ans} (hpc : c.pc = .start ∨ c.pc = .memtable)
    (ha : a = .ok ∨ a = .again) (hs : step e a c = .ok c') :
    ((a = .ok ∨ c'.pc ≠ .memtable) → Past c') ∧ c'.retries ≤ c.retries + (if a = .ok then 0 else 1) := by
  have key : ∀ x : Ctx K V F, x.pc = .memtable → memBody e a x = .ok c' →
      ((a = .ok ∨ c'.pc ≠ .memtable) → Past c') ∧ c'.retries ≤ x.retries + (if a = .ok then 0 else 1) := by
    intro x hx hm
    unfold memBody at hm
    simp only at hm
    split at hm
    · cases hm
    · split at hm
      · cases hm; exact ⟨fun _ => ⟨by simp, by simp, by simp⟩, Nat.le_add_right _ _⟩
      · cases hm
        rcases ha with rfl | rfl
        · exact ⟨fun _ => ⟨by simp [rootBody], by simp [rootBody], by simp [rootBody]⟩, Nat.le_refl _⟩
        · refine ⟨fun h => ?_, Nat.le_refl _⟩
          simp [rootBody, hx] at h
  unfold step at hs
  rcases hpc with h | h
  · rw [h] at hs; exact key { c with pc := .memtable, result := none } rfl hs
  · rw [h] at hs; exact key _ h hs

/-- C36. There is a number of requests such that a lookup that finds the root at the
first try after `r` refusals, and then gets at least that many requests answered, has
returned – whatever else is refused or read from disk in between. -/
theorem async_returns_partial (L : FilterLaws ops) (H : Implements cfg sem) (hlt : lo < hi)
    (hs : Reachable cfg ops keyOk lo hi s) (k1 : lo ≤ k) (k2 : k < hi)
    (hnull : ∀ f, isNull f = true → ops.vals f k = []) (hf : PathFilters isNull k s.h s.root) :
    ∃ N, ∀ r (as : List Ans), N ≤ as.count .ok →
      ∃ c, run (envOf cfg ops isNull s k) (List.replicate r .again ++ .ok :: as) init = .ok c ∧ c.pc = .returned ∧
        c.retries ≤ r := by
  obtain ⟨hist, I⟩ := hs.inv L H hlt
  have hroot : PathOk (SbGood (envOf cfg ops isNull s k)) k s.h s.root :=
    path_good (e := envOf cfg ops isNull s k) rfl _ _ (path_true s.h s.root lo hi I.good k1 k2) hf
  have hfound := found_view (L := L) (view s.h s.root k) (I.lvls k k1 k2)
  rw [← probes_eq ops s.h s.root lo hi k I.good k1 k2] at hfound
  have hex : ∀ r, ¬Excuse (SbGood (envOf cfg ops isNull s k)) (envOf cfg ops isNull s k) r := by
    intro r h
    rcases h with ⟨x, hx⟩ | ⟨o, _, ho⟩ | ⟨sb, h1, h2⟩
    · obtain ⟨y, hy⟩ := runProbes_total (k := k) H
        ((List.replicate (r + 1) s.mems).flatten.map some ++ probes ops s.h s.root k) none (by
          intro p hp
          rcases List.mem_append.mp hp with h | h
          · obtain ⟨b, _, rfl⟩ := List.mem_map.mp h; simp
          · exact hfound.1 p h)
      have hx : runProbes cfg k none ((List.replicate (r + 1) s.mems).flatten.map some ++ probes ops s.h s.root k) =
        .error x := hx
      rw [hy] at hx; cases hx
    · exact finish_ok H o ho
    · exact h2 h1
  refine ⟨nodeCost (envOf cfg ops isNull s k) s.h s.root + 3, fun r as hN => ?_⟩
  -- once past the root
  have fin : ∀ (c : Ctx K V F) (bs : List Ans), At (SbGood (envOf cfg ops isNull s k)) (envOf cfg ops isNull s k) c → Held c →
      Past c → cost (envOf cfg ops isNull s k) c ≤ bs.count .ok →
      ∃ c', run (envOf cfg ops isNull s k) bs c = .ok c' ∧ c'.pc = .returned ∧ c'.retries = c.retries := by
    intro c bs A Hd P hN
    obtain ⟨c', e1, A', Hd', r', l'⟩ := run_ok (e := envOf cfg ops isNull s k) hnull hroot bs c (hex _) A Hd P
    refine ⟨c', e1, ?_, r'⟩
    by_contra hne
    have := cost_pos A' hne
    omega
  have start : ∀ r (c : Ctx K V F), At (SbGood (envOf cfg ops isNull s k)) (envOf cfg ops isNull s k) c → Held c →
      (c.pc = .start ∨ c.pc = .memtable) →
      ∃ c', run (envOf cfg ops isNull s k) (List.replicate r .again ++ .ok :: as) c = .ok c' ∧ c'.pc = .returned ∧
        c'.retries ≤ c.retries + r := by
    intro r
    induction r with
    | zero =>
      intro c A Hd hpc
      have hcost : cost (envOf cfg ops isNull s k) c = nodeCost (envOf cfg ops isNull s k) s.h s.root + 3 := by
        rcases hpc with h | h <;> simp only [cost, h] <;> rfl
      rcases step_ok (a := .ok) hnull hroot A Hd with ⟨_, h, _⟩ | h
      · cases h
      · cases hs : step (envOf cfg ops isNull s k) .ok c with
        | error x => rw [hs] at h; exact absurd h (hex _)
        | ok c1 =>
          rw [hs] at h
          obtain ⟨A1, H1, l1, l2⟩ := h
          obtain ⟨p1, r1⟩ := step_root hpc (.inl rfl) hs
          obtain ⟨c', e1, e2, e3⟩ := fin c1 as A1 H1 (p1 (.inl rfl)) (by have := l2 rfl; omega)
          refine ⟨c', ?_, e2, by rw [e3]; simpa using r1⟩
          show run _ (.ok :: as) c = _
          simp only [run, hs, e1]
    | succ r ih =>
      intro c A Hd hpc
      rcases step_ok (a := .again) hnull hroot A Hd with ⟨_, h, _⟩ | h
      · cases h
      · cases hs : step (envOf cfg ops isNull s k) .again c with
        | error x => rw [hs] at h; exact absurd h (hex _)
        | ok c1 =>
          rw [hs] at h
          obtain ⟨A1, H1, l1, l2⟩ := h
          obtain ⟨p1, r1⟩ := step_root hpc (.inr rfl) hs
          have hrun : run (envOf cfg ops isNull s k) (List.replicate (r + 1) .again ++ .ok :: as) c =
              run (envOf cfg ops isNull s k) (List.replicate r .again ++ .ok :: as) c1 := by
            rw [List.replicate_succ, List.cons_append, run, hs]
          rw [hrun]
          by_cases hm : c1.pc = .memtable
          · obtain ⟨c', e1, e2, e3⟩ := ih c1 A1 H1 (.inr hm)
            exact ⟨c', e1, e2, by have : c1.retries ≤ c.retries + 1 := r1; omega⟩
          · have hcost : cost (envOf cfg ops isNull s k) c = nodeCost (envOf cfg ops isNull s k) s.h s.root + 3 := by
              rcases hpc with h | h <;> simp only [cost, h] <;> rfl
            obtain ⟨c', e1, e2, e3⟩ := fin c1 (List.replicate r .again ++ .ok :: as) A1 H1 (p1 (.inr hm)) (by
              rw [List.count_append, List.count_cons_self]; omega)
            exact ⟨c', e1, e2, by have : c1.retries ≤ c.retries + 1 := r1; omega⟩
  have I0 := at_init (Q := SbGood (envOf cfg ops isNull s k)) (e := envOf cfg ops isNull s k)
  obtain ⟨c', e1, e2, e3⟩ := start r init I0.1 I0.2 (.inl rfl)
  exact ⟨c', e1, e2, by simpa [init] using e3⟩

/-! ### Where C36 fails -/

/-- The root's page has to be read from disk: the memtable lock is not given back, and
the next invocation gives back a page it does not have. -/
theorem root_io_breaks {e : Env K V F} {r : Option (Msg V)} (hm : runProbes e.cfg e.key none (e.mems.map some) = .ok r)
    (hd : r.any Msg.definitive = false) (a : Ans) (as : List Ans) :
    (∃ c, run e [.io] init = .ok c ∧ c.locks = 1) ∧ run e (.io :: a :: as) init = .error .nullNode := by
  have h1 : ∃ c, step e .io init = .ok c ∧ c.locks = 1 ∧ c.pc = .ungetParent ∧ c.node = none := by
    unfold step memBody
    simp only [init, hm, hd]
    exact ⟨_, rfl, rfl, rfl, rfl⟩
  obtain ⟨c, hc, hl, hp, hn⟩ := h1
  refine ⟨⟨c, by simp only [run, hc], hl⟩, ?_⟩
  have h2 : step e a c = .error .nullNode := by simp [step, hp, ungetParentBody, hn]
  simp only [run, hc, h2]

/-- A store with 5 under key 30 in the tree and an update by 4 in the memtable. -/
def retryRun : List (Op Nat Nat) := [.insert 30 ⟨.insert, 5⟩, .rotate, .incorporate, .insert 30 ⟨.update, 4⟩]

/-- The root is refused once: the update is counted twice and a lock is lost. -/
theorem retry_reads_memtables_again :
    (Trunk.run counterCfg setFilter (fun _ => true) (Trunk.init setFilter 0 100) retryRun).map (fun s =>
      ((lookup counterCfg setFilter s 30).toOption,
       (run (envOf counterCfg setFilter (fun _ => false) s 30) (.again :: List.replicate 40 .ok) init).toOption.map
         (fun c => (c.pc, c.out, c.locks)))) =
    some (some (.found 9), some (.returned, some (.found 13), 1)) := by
  decide +kernel

/-- The slot `async_state_btree_lookup_start` reads for a subbundle is the one
`trunk_lookup` reads exactly when the branches up to it do not wrap around the end of
the node's array. -/
theorem subBranchNo_eq_iff {h start v : Nat} (h1 : h ≤ 32768) (hs : start < h) (hv : v < h) :
    subBranchNo start v = Ring.add h start v ↔ start + v < h := by
  unfold subBranchNo Ring.add
  rw [Nat.mod_eq_of_lt (by omega : start + v < 65536)]
  constructor
  · intro e
    have := Nat.mod_lt (start + v) (by omega : 0 < h)
    have h3 := Nat.mod_le ((start + v) % h) 65536
    omega
  · intro hlt
    rw [Nat.mod_eq_of_lt hlt, Nat.mod_eq_of_lt (by omega)]

/-- When they do wrap, the slot is beyond the array. -/
theorem subBranchNo_beyond {h start v : Nat} (h1 : h ≤ 32768) (hs : start < h) (hv : v < h)
    (hw : subBranchNo start v ≠ Ring.add h start v) : h ≤ subBranchNo start v := by
  rw [Ne, subBranchNo_eq_iff h1 hs hv] at hw
  unfold subBranchNo
  rw [Nat.mod_eq_of_lt (by omega)]
  omega

example : subBranchNo 30 5 = 35 ∧ Ring.add 32 30 5 = 3 := by decide

/-! ### Instances -/

/-- `demoRun`, then an update of key 30 in the memtable. -/
def asyncRun : List (Op Nat Nat) := demoRun ++ [.insert 30 ⟨.update, 1⟩]

/-- Instance of `async_equals_sync_partial` and `async_returns_partial`: pages below the root
are refused or read from disk. -/
example : ∃ s c, Reachable counterCfg setFilter (fun _ => true) 0 100 s ∧
    run (envOf counterCfg setFilter (fun f => f.isEmpty) s 30)
      ([.ok, .again, .io, .again, .ok, .io, .ok, .again] ++ List.replicate 60 .ok) init = .ok c ∧
    c.out = some (.found 8) ∧ c.locks = 0 ∧ c.refs = 0 := by
  obtain ⟨s, hs⟩ := Option.isSome_iff_exists.mp
    (show (Trunk.run counterCfg setFilter (fun _ => true) (Trunk.init setFilter 0 100) asyncRun).isSome = true by
      decide +kernel)
  have hl : LegalRun counterCfg setFilter (fun _ => true) 0 100 (Trunk.init setFilter 0 100) asyncRun :=
    legalRunB_sound _ _ (by decide +kernel)
  have hreach : Reachable counterCfg setFilter (fun _ => true) 0 100 s := ⟨_, hl, hs⟩
  have hrun : (Trunk.run counterCfg setFilter (fun _ => true) (Trunk.init setFilter 0 100) asyncRun).map (fun s =>
      ((run (envOf counterCfg setFilter (fun f => f.isEmpty) s 30)
      ([.ok, .again, .io, .again, .ok, .io, .ok, .again] ++ List.replicate 60 .ok) init).toOption.map
        (fun c => (c.pc, c.retries)), (lookup counterCfg setFilter s 30).toOption)) =
      some (some (.returned, 0), some (.found 8)) := by decide +kernel
  rw [hs] at hrun
  have hrun := Option.some.inj hrun
  simp only [Prod.mk.injEq] at hrun
  cases hc : run (envOf counterCfg setFilter (fun f => f.isEmpty) s 30)
      ([.ok, .again, .io, .again, .ok, .io, .ok, .again] ++ List.replicate 60 .ok) init with
  | error x => rw [hc] at hrun; cases hrun.1
  | ok c =>
    rw [hc] at hrun
    have h1 := Option.some.inj hrun.1
    simp only [Prod.mk.injEq] at h1
    obtain ⟨o, e1, e2, e3, e4⟩ := async_equals_sync_partial setFilter_laws counter_implements (by decide) hreach
      (k := 30) (by decide) (by decide) (by intro f hf; simp at hf; subst hf; rfl) hc h1.1 h1.2
    rw [e1] at hrun
    have : o = .found 8 := Option.some.inj hrun.2
    exact ⟨s, c, hreach, hc, by rw [e2, this], e3, e4⟩

/-- `PathFilters`, computed. -/
def pathFiltersB (isNull : F → Bool) (k : K) : (h : Nat) → Node K V F (Sub K V F h) → Bool
  | 0, n => n.bundles.all (fun b => b.sbs.all (fun sb => (!sb.compacted || !sb.filters.isEmpty) && sb.filters.all (fun f => !isNull f)))
  | h + 1, n =>
    n.bundles.all (fun b => b.sbs.all (fun sb => (!sb.compacted || !sb.filters.isEmpty) && sb.filters.all (fun f => !isNull f))) &&
      match n.pivots[n.find k]? with
      | none => true
      | some (_, c) => pathFiltersB isNull k h c

theorem sbsB_sound {bs : List (Bundle K V F)} (h : bs.all (fun b => b.sbs.all (fun sb =>
    (!sb.compacted || !sb.filters.isEmpty) && sb.filters.all (fun f => !isNull f))) = true) :
    ∀ b ∈ bs, ∀ sb ∈ b.sbs, (sb.compacted = true → sb.filters ≠ []) ∧ ∀ f ∈ sb.filters, isNull f = false := by
  intro b hb sb hsb
  have := List.all_eq_true.mp (List.all_eq_true.mp h b hb) sb hsb
  simp only [Bool.and_eq_true, Bool.or_eq_true, Bool.not_eq_true', List.all_eq_true] at this
  refine ⟨fun hc => ?_, this.2⟩
  rcases this.1 with h1 | h1
  · rw [hc] at h1; cases h1
  · intro h0; rw [h0] at h1; cases h1

theorem pathFiltersB_sound : ∀ (h : Nat) (n : Node K V F (Sub K V F h)), pathFiltersB isNull k h n = true →
    PathFilters isNull k h n
  | 0, _, h => sbsB_sound h
  | h + 1, n, hb => by
    unfold pathFiltersB at hb
    rw [Bool.and_eq_true] at hb
    refine ⟨sbsB_sound hb.1, fun p c hpc => ?_⟩
    have h2 := hb.2
    rw [hpc] at h2
    exact pathFiltersB_sound h c h2

/-- Instance of `async_returns_partial`, and of `async_equals_sync_flushed_partial` for the key 10
that is in the tree only: the root is refused three times. -/
example : ∃ s, Reachable counterCfg setFilter (fun _ => true) 0 100 s ∧ s.mems ≠ [[]] ∧ ∃ N, ∀ as : List Ans, N ≤ as.count .ok →
    ∃ c, run (envOf counterCfg setFilter (fun f => f.isEmpty) s 9) (List.replicate 3 .again ++ .ok :: as) init = .ok c ∧
      ∃ o, lookup counterCfg setFilter s 9 = .ok o ∧ c.out = some o := by
  obtain ⟨s, hs⟩ := Option.isSome_iff_exists.mp
    (show (Trunk.run counterCfg setFilter (fun _ => true) (Trunk.init setFilter 0 100)
      (retryRun ++ [.rotate, .incorporate, .insert 30 ⟨.update, 4⟩])).isSome = true by decide +kernel)
  have hl : LegalRun counterCfg setFilter (fun _ => true) 0 100 (Trunk.init setFilter 0 100)
      (retryRun ++ [.rotate, .incorporate, .insert 30 ⟨.update, 4⟩]) := legalRunB_sound _ _ (by decide +kernel)
  have hreach : Reachable counterCfg setFilter (fun _ => true) 0 100 s := ⟨_, hl, hs⟩
  have hb : (Trunk.run counterCfg setFilter (fun _ => true) (Trunk.init setFilter 0 100)
      (retryRun ++ [.rotate, .incorporate, .insert 30 ⟨.update, 4⟩])).map (fun s =>
      (pathFiltersB (fun f => f.isEmpty) 9 s.h s.root, s.mems.all (fun m => m.all (fun x => x.1 != 9)),
        decide (s.mems = [[]]))) = some (true, true, false) := by decide +kernel
  rw [hs] at hb
  have hb := Option.some.inj hb
  simp only [Prod.mk.injEq, decide_eq_false_iff_not] at hb
  have hnull : ∀ f : List (Nat × Nat), f.isEmpty = true → setFilter.vals f 9 = [] := by
    intro f hf; simp at hf; subst hf; rfl
  obtain ⟨N, hN⟩ := async_returns_partial setFilter_laws counter_implements (by decide) hreach (k := 9) (by decide) (by decide)
    hnull (pathFiltersB_sound _ _ hb.1)
  refine ⟨s, hreach, hb.2.2, N, fun as ha => ?_⟩
  obtain ⟨c, h1, h2, _⟩ := hN 3 as ha
  refine ⟨c, h1, async_equals_sync_flushed_partial setFilter_laws counter_implements (by decide) hreach (by decide) (by decide)
    hnull h1 h2 ?_⟩
  intro m hm x hx
  have := List.all_eq_true.mp (List.all_eq_true.mp hb.2.1 m hm) x hx
  simpa using this

end Splinter.Trunk.Async
