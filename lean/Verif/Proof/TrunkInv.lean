import Verif.Proof.TrunkSplit2
/-!
The invariant of the store.
-/
namespace Splinter.Trunk
open Splinter.Merge (SortedRun)
open Splinter.Spec (msgsOf actAll eval act UpdateSem)
set_option linter.unusedSectionVars false

variable {K V F C : Type} [LinearOrder K]

/-- What the trunk relies on about routing filters: `Has f k v` – key `k` was added
under value `v`; `Bounded f n` – all values are below `n`. -/
structure FilterLaws (ops : FilterOps K F) where
  Has : F → K → Nat → Prop
  Bounded : F → Nat → Prop
  has_vals : ∀ {f k v}, Has f k v → v ∈ ops.vals f k
  has_old : ∀ {f k v ks n}, Bounded f n → Has f k v → Has (ops.add f ks n) k v
  has_new : ∀ {f k ks n}, Bounded f n → k ∈ ks → Has (ops.add f ks n) k n
  bounded_vals : ∀ {f k v n}, Bounded f n → v ∈ ops.vals f k → v < n
  bounded_empty : ∀ n, Bounded ops.empty n
  bounded_add : ∀ {f ks n}, Bounded f n → Bounded (ops.add f ks n) (n + 1)
  bounded_mono : ∀ {f n m}, Bounded f n → n ≤ m → Bounded f m
  vals_desc : ∀ f k, (ops.vals f k).Pairwise (· > ·)

variable {ops : FilterOps K F}

/-- The filter knows every branch that has the key. -/
structure SoundW (L : FilterLaws ops) (k : K) (f : F) (bs : List (Branch K V)) : Prop where
  bounded : L.Bounded f bs.length
  has : ∀ i b, bs[i]? = some b → b.get k ≠ none → L.Has f k i

/-- A subbundle is consistent for a key. -/
def SBOk (L : FilterLaws ops) (k : K) (sb : SB K V F) : Prop :=
  if sb.compacted then ∃ br, sb.branches = [br] ∧ (br.get k ≠ none → ∃ f ∈ sb.filters, ops.vals f k ≠ [])
  else ∃ f, sb.filters = [f] ∧ SoundW L k f sb.branches

/-- A level is consistent for a key. -/
structure LvlOk (L : FilterLaws ops) (k : K) (l : Lvl K V F) : Prop where
  filter : SoundW L k l.filter l.whole
  sbs : ∀ b ∈ l.bundles, ∀ sb ∈ b.sbs, SBOk L k sb

def Bundle.branches (b : Bundle K V F) : List (Branch K V) := b.sbs.flatMap (·.branches)

/-- Branches of a level, oldest first. -/
def Lvl.branches (l : Lvl K V F) : List (Branch K V) := l.whole ++ l.bundles.flatMap (·.branches)

/-- Branches a key passes, oldest first. -/
def viewBranches (v : List (Lvl K V F)) : List (Branch K V) := v.reverse.flatMap (·.branches)

/-- Relation between a merged branch and the bundle it replaces. -/
structure CompOk (sem : UpdateSem K V) (k : K) (out : Branch K V) (full : Bool) (l : Lvl K V F) (b : Bundle K V F) :
    Prop where
  sub : out.get k ≠ none → ∃ br ∈ b.branches, br.get k ≠ none
  inter : full = false → ∀ v, actAll sem k (msgsOf k b.branches) v = actAll sem k (msgsOf k [out]) v
  full : full = true → l.ht = 0 ∧ l.whole = [] ∧ l.bundles.head? = some b ∧
    actAll sem k (msgsOf k b.branches) none = actAll sem k (msgsOf k [out]) none

/-- Phase-dependent condition on a live bundle of a request. -/
def PhaseOk (sem : UpdateSem K V) (r : Req K V) (k : K) (l : Lvl K V F) (b : Bundle K V F) : Prop :=
  match r.phase with
  | .created => True
  | .compacted out full cur => if cur ≤ k then CompOk sem k out full l b else ∃ fs, b.sbs = [⟨true, [out], fs⟩]
  | .filters out cur => cur ≤ k → ∃ fs, b.sbs = [⟨true, [out], fs⟩]

/-- The level of a request at a key: same height, and the same leaf. -/
def Req.at (r : Req K V) (l : Lvl K V F) : Prop := l.ht = r.ht ∧ (r.ht = 0 → l.id = r.id)

/-- The merged branch still has to be installed at `k`. -/
def Req.pending (r : Req K V) (k : K) : Prop :=
  match r.phase with
  | .compacted out _ cur => cur ≤ k ∧ out.get k ≠ none
  | _ => False

/-- Tuples of `out` in `[lo, hi)` below `cur`. -/
def countTo (out : Branch K V) (lo hi cur : K) : Nat :=
  (out.filter (fun x => decide (lo ≤ x.1 ∧ x.1 < hi ∧ x.1 < cur))).length

/-- The merged branch of a request and its tuple counts. -/
structure OutOk (r : Req K V) (out : Branch K V) (cur : K) : Prop where
  sorted : SortedRun out
  cover : ∀ x ∈ out, r.start ≤ x.1 ∧ x.1 < r.stop ∧ ∃ g ∈ r.rngs, g.2.1 ≤ x.1 ∧ x.1 < g.2.2
  counts : ∀ (i : Nat) g, r.rngs[i]? = some g → r.cnts[i]? = some (countTo out g.2.1 g.2.2 cur)

/-- Phase-dependent condition on a request. -/
def PhaseInv (r : Req K V) : Prop :=
  match r.phase with
  | .created => ∀ i, i < r.rngs.length → r.cnts[i]? = some 0
  | .compacted out _ cur => r.start ≤ cur ∧ cur < r.stop ∧ OutOk r out cur
  | .filters out cur => r.start ≤ cur ∧ cur < r.stop ∧ OutOk r out r.stop

/-- Next key the request works on. -/
def Req.cur (r : Req K V) : K :=
  match r.phase with
  | .created => r.start
  | .compacted _ _ cur => cur
  | .filters _ cur => cur

/-- A request fits the tree. -/
structure ReqOk (sem : UpdateSem K V) (lo hi : K) (h : Nat) (v : K → List (Lvl K V F)) (r : Req K V) : Prop where
  lo : lo ≤ r.start
  hi : r.stop ≤ hi
  lt : r.start < r.stop
  ht : r.ht ≤ h
  gens : (r.rngs.map (·.1)).Nodup
  rngs : r.rngs.Pairwise (fun a b => a.2.2 ≤ b.2.1)
  len : r.cnts.length = r.rngs.length
  phase : PhaseInv r
  noLt : ∀ k, r.start ≤ k → k < r.stop → ∀ l ∈ v k, r.at l → r.no < l.endB
  rng : ∀ k, r.start ≤ k → k < r.stop → ∀ l ∈ v k, r.at l → ∀ b ∈ l.bundles, b.no = r.no →
    (l.gen, l.plo, l.phi) ∈ r.rngs
  live : ∀ k, r.start ≤ k → k < r.stop → ∀ l ∈ v k, r.at l → ∀ b ∈ l.bundles, b.no = r.no →
    PhaseOk sem r k l b
  fresh : ∀ k, r.start ≤ k → k < r.stop → r.pending k → ∀ l ∈ v k, r.at l → ∃ b ∈ l.bundles, b.no = r.no
  bound : ∀ k, r.start ≤ k → k < r.stop → ∀ l ∈ v k, r.at l →
    r.start ≤ l.nlo ∧ l.nhi ≤ r.stop ∧ (r.cur ≤ k → r.cur ≤ l.nlo)
  created : r.phase = .created → r.ht < h ∧ ∀ k, r.start ≤ k → k < r.stop → ∀ l ∈ v k, l.ht = r.ht →
    l.nlo = r.start ∧ l.nhi = r.stop ∧ (r.ht = 0 → l.id = r.id)

/-- Two requests do not meet in a bundle. -/
def Apart (a b : Req K V) : Prop :=
  a.ht = b.ht → a.no = b.no → a.stop ≤ b.start ∨ b.stop ≤ a.start ∨ (a.ht = 0 ∧ a.id ≠ b.id)

theorem Apart.symm {a b : Req K V} (h : Apart a b) : Apart b a := by
  intro h1 h2
  rcases h h1.symm h2.symm with h' | h' | h'
  · exact .inr (.inl h')
  · exact .inl h'
  · exact .inr (.inr ⟨h1 ▸ h'.1, Ne.symm h'.2⟩)

/-- The invariant; `hist k` are the messages written for `k`, oldest first. -/
structure Inv (L : FilterLaws ops) (sem : UpdateSem K V) (lo hi : K) (s : State K V F) (hist : K → List (Msg V)) :
    Prop where
  pos : 1 ≤ s.h
  good : Good s.h s.root lo hi
  memsNe : s.mems ≠ []
  mems : ∀ m ∈ s.mems, SortedRun m ∧ ∀ x ∈ m, lo ≤ x.1 ∧ x.1 < hi
  lvls : ∀ k, lo ≤ k → k < hi → ∀ l ∈ view s.h s.root k, LvlOk L k l
  ids : ∀ k, lo ≤ k → k < hi → ∀ l ∈ view s.h s.root k, l.id < s.nextId
  rids : ∀ r ∈ s.reqs, r.id < s.nextId
  reqs : ∀ r ∈ s.reqs, ReqOk sem lo hi s.h (view s.h s.root) r
  apart : s.reqs.Pairwise Apart
  value : ∀ k, lo ≤ k → k < hi →
    actAll sem k (msgsOf k (viewBranches (view s.h s.root k) ++ s.mems.reverse)) none = actAll sem k (hist k) none

/-! ### Facts from well-formedness -/

structure LvlWF (k : K) (l : Lvl K V F) : Prop where
  plo : l.plo ≤ k
  phi : k < l.phi
  nlo : l.nlo ≤ l.plo
  nhi : l.phi ≤ l.nhi
  nos : (l.bundles.map (·.no)).Pairwise (· < ·)
  noLt : ∀ b ∈ l.bundles, b.no < l.endB
  runs : ∀ br ∈ l.branches, SortedRun br

theorem mkLvl_wf {n : Node K V F C} {lo hi k : K} (ok : NodeOk n lo hi) (k1 : lo ≤ k) (k2 : k < hi) {p c ph}
    (hr : routeL n.maxKey k n.pivots = some (p, c, ph)) (ht : Nat) : LvlWF k (mkLvl ht n p ph) := by
  have hrg := ok.range k1 k2 hr
  constructor
  · exact hrg.2.1
  · exact hrg.2.2.1
  · show n.keyAt 0 ≤ _; rw [ok.hmin]; exact hrg.2.2.2.1
  · show _ ≤ n.maxKey; rw [ok.hmax]; exact hrg.2.2.2.2
  · show (List.map _ (n.bundles.drop _)).Pairwise _
    rw [List.map_drop]
    exact List.Pairwise.sublist (List.drop_sublist _ _) ok.nos
  · intro b hb; exact ok.noLt b (List.mem_of_mem_drop hb)
  · intro br hbr
    rcases List.mem_append.mp hbr with h | h
    · exact ok.runsW br (List.mem_of_mem_drop h)
    · obtain ⟨b, hb, h'⟩ := List.mem_flatMap.mp h
      obtain ⟨sb, hsb, h''⟩ := List.mem_flatMap.mp h'
      exact ok.runsB b (List.mem_of_mem_drop hb) sb hsb br h''

theorem view_wf : ∀ (h : Nat) (n : Node K V F (Sub K V F h)) (lo hi k : K), Good h n lo hi → lo ≤ k → k < hi →
    ∀ l ∈ view h n k, LvlWF k l
  | 0, n, lo, hi, k, g, h1, h2, l, hl => by
    obtain ⟨p, c, ph, hr⟩ := g.node.route (k := k)
    simp only [view, hr, List.mem_singleton] at hl
    subst hl; exact mkLvl_wf g.node h1 h2 hr 0
  | h + 1, n, lo, hi, k, g, h1, h2, l, hl => by
    obtain ⟨p, c, ph, hr⟩ := g.node.route (k := k)
    simp only [view, hr, List.mem_cons] at hl
    have hrg := g.node.range h1 h2 hr
    rcases hl with rfl | hl
    · exact mkLvl_wf g.node h1 h2 hr _
    · exact view_wf h c p.key ph k (g.2 k p c ph h1 h2 hr) hrg.2.1 hrg.2.2.1 l hl

/-- Some level has each height. -/
theorem view_has (j : Nat) : ∀ (h : Nat) (n : Node K V F (Sub K V F h)) (lo hi k : K), Good h n lo hi → lo ≤ k → k < hi →
    j ≤ h → ∃ l ∈ view h n k, l.ht = j
  | 0, n, lo, hi, k, g, h1, h2, hj => by
    obtain ⟨p, c, ph, hr⟩ := g.node.route (k := k)
    exact ⟨mkLvl 0 n p ph, by simp [view, hr], by show 0 = j; omega⟩
  | h + 1, n, lo, hi, k, g, h1, h2, hj => by
    obtain ⟨p, c, ph, hr⟩ := g.node.route (k := k)
    have hrg := g.node.range h1 h2 hr
    by_cases e : j = h + 1
    · exact ⟨mkLvl (h + 1) n p ph, by simp [view, hr], e.symm⟩
    · obtain ⟨l, hl, he⟩ := view_has j h c p.key ph k (g.2 k p c ph h1 h2 hr) hrg.2.1 hrg.2.2.1 (by omega)
      exact ⟨l, by simp [view, hr, hl], he⟩

/-! ### Messages -/

theorem msgsOf_append (k : K) (a b : List (Branch K V)) : msgsOf k (a ++ b) = msgsOf k a ++ msgsOf k b := by
  unfold msgsOf; rw [List.filterMap_append]

theorem actAll_append (sem : UpdateSem K V) (k : K) (a b : List (Msg V)) (v : Option V) :
    actAll sem k (a ++ b) v = actAll sem k b (actAll sem k a v) := by
  unfold actAll; rw [List.foldl_append]

theorem viewBranches_append (a b : List (Lvl K V F)) :
    viewBranches (a ++ b) = viewBranches b ++ viewBranches a := by
  unfold viewBranches; rw [List.reverse_append, List.flatMap_append]

theorem viewBranches_cons (l : Lvl K V F) (b : List (Lvl K V F)) :
    viewBranches (l :: b) = viewBranches b ++ l.branches := by
  unfold viewBranches; rw [List.reverse_cons, List.flatMap_append]; simp

theorem flushSbs_branches (l : Lvl K V F) : l.flushSbs.flatMap (·.branches) = l.branches := by
  unfold Lvl.flushSbs Lvl.branches
  rw [List.flatMap_append]
  congr 1
  · split
    · rename_i h; simp only [List.isEmpty_iff] at h; rw [h]; rfl
    · simp
  · rw [List.flatMap_assoc]; rfl

theorem addBundle_branches (l : Lvl K V F) (sbs : List (SB K V F)) :
    (l.addBundle sbs).branches = l.branches ++ sbs.flatMap (·.branches) := by
  unfold Lvl.addBundle Lvl.branches
  simp [List.flatMap_append, Bundle.branches]

theorem cleared_branches (ops : FilterOps K F) (l : Lvl K V F) : (l.cleared ops).branches = [] := rfl

theorem rebundled_branches (ops : FilterOps K F) (l : Lvl K V F) (g i : Nat) (lo hi : K) :
    (l.rebundled ops g i lo hi).branches = l.branches := by
  rw [← flushSbs_branches l]
  unfold Lvl.rebundled Lvl.branches
  simp [Bundle.branches]

theorem filtered_branches (ops : FilterOps K F) (sl : Nat → List K) (no : Nat) (l : Lvl K V F) :
    (l.filtered ops sl no).branches = l.branches := by
  unfold Lvl.filtered
  split
  · rfl
  · rename_i b r hb
    split
    · unfold Lvl.branches
      simp only [hb, List.flatMap_cons, List.append_assoc]
      rfl
    · rfl

/-! ### Consistency of levels under the operations -/

variable {L : FilterLaws ops}

theorem SBOk.flushed {k : K} {l : Lvl K V F} (h : LvlOk L k l) : ∀ sb ∈ l.flushSbs, SBOk L k sb := by
  intro sb hsb
  unfold Lvl.flushSbs at hsb
  rcases List.mem_append.mp hsb with h' | h'
  · split at h'
    · cases h'
    · simp only [List.mem_singleton] at h'
      subst h'
      unfold SBOk
      simp only [Bool.false_eq_true, if_false]
      exact ⟨_, rfl, h.filter⟩
  · obtain ⟨b, hb, hs⟩ := List.mem_flatMap.mp h'
    exact h.sbs b hb sb hs

theorem LvlOk.addBundle {k : K} {l : Lvl K V F} (h : LvlOk L k l) {sbs : List (SB K V F)}
    (hs : ∀ sb ∈ sbs, SBOk L k sb) : LvlOk L k (l.addBundle sbs) where
  filter := h.filter
  sbs b hb := by
    simp only [Lvl.addBundle, List.mem_append, List.mem_singleton] at hb
    rcases hb with hb | rfl
    · exact h.sbs b hb
    · exact hs

theorem soundW_empty (k : K) (f : F) (hf : ∀ n, L.Bounded f n) : SoundW L k f ([] : List (Branch K V)) where
  bounded := hf 0
  has i b hi := by simp at hi

theorem LvlOk.cleared {k : K} {l : Lvl K V F} : LvlOk L k (l.cleared ops) where
  filter := soundW_empty k _ L.bounded_empty
  sbs b hb := by cases hb

theorem LvlOk.rebundled {k : K} {l : Lvl K V F} (h : LvlOk L k l) (g i : Nat) (lo hi : K) :
    LvlOk L k (l.rebundled ops g i lo hi) where
  filter := by
    unfold Lvl.rebundled
    simp only
    split
    · rename_i hw
      simp only [List.isEmpty_iff] at hw
      have := h.filter
      rw [hw] at this
      exact this
    · exact soundW_empty k _ L.bounded_empty
  sbs b hb := by
    simp only [Lvl.rebundled, List.mem_singleton] at hb
    subst hb
    exact SBOk.flushed h

/-- A subbundle with the key has a filter that reports it. -/
theorem SBOk.found {k : K} {sb : SB K V F} (h : SBOk L k sb) {br : Branch K V} (hb : br ∈ sb.branches)
    (hg : br.get k ≠ none) : ∃ f ∈ sb.filters, ops.vals f k ≠ [] := by
  unfold SBOk at h
  split at h
  · obtain ⟨br', e, h'⟩ := h
    rw [e] at hb
    simp only [List.mem_singleton] at hb
    subst hb
    exact h' hg
  · obtain ⟨f, e, hs⟩ := h
    obtain ⟨i, hi, hbi⟩ := List.getElem_of_mem hb
    have := L.has_vals (hs.has i br (by rw [List.getElem?_eq_getElem hi, hbi]) hg)
    exact ⟨f, by rw [e]; exact List.mem_cons_self, List.ne_nil_of_mem this⟩

theorem LvlOk.replaceBundle {k : K} {l : Lvl K V F} (h : LvlOk L k l) (no : Nat) (out : Branch K V)
    (hsub : ∀ b ∈ l.bundles, b.no = no → out.get k ≠ none → ∃ br ∈ b.branches, br.get k ≠ none) :
    LvlOk L k (l.replaceBundle no out) where
  filter := h.filter
  sbs b hb sb hsb := by
    simp only [Lvl.replaceBundle, List.mem_map] at hb
    obtain ⟨b0, hb0, rfl⟩ := hb
    unfold repl at hsb
    split at hsb
    · rename_i hno
      simp only [beq_iff_eq] at hno
      simp only [Bundle.compacted, List.mem_singleton] at hsb
      subst hsb
      unfold SBOk
      simp only [if_true]
      refine ⟨out, rfl, fun hg => ?_⟩
      obtain ⟨br, hbr, hg'⟩ := hsub b0 hb0 hno hg
      obtain ⟨sb, hsb, hbr'⟩ := List.mem_flatMap.mp hbr
      obtain ⟨f, hf, hv⟩ := (h.sbs b0 hb0 sb hsb).found hbr' hg'
      exact ⟨f, List.mem_flatMap.mpr ⟨sb, hsb, hf⟩, hv⟩
    · exact h.sbs b0 hb0 sb hsb

theorem LvlOk.vanish {k : K} {l : Lvl K V F} (h : LvlOk L k l) (no : Nat) : LvlOk L k (l.vanish no) where
  filter := h.filter
  sbs b hb := h.sbs b (List.mem_of_mem_filter hb)

theorem LvlOk.filtered {k : K} {l : Lvl K V F} (h : LvlOk L k l) (sl : Nat → List K) (no : Nat)
    (hb : ∀ b ∈ l.bundles, b.no = no → ∃ out fs, b.sbs = [⟨true, [out], fs⟩] ∧ (out.get k ≠ none → k ∈ sl l.gen)) :
    LvlOk L k (l.filtered ops sl no) := by
  unfold Lvl.filtered
  split
  · exact h
  · rename_i b r hbr
    split
    swap
    · exact h
    rename_i hno
    obtain ⟨out, fs, e, hk⟩ := hb b (by rw [hbr]; exact List.mem_cons_self) hno
    constructor
    · simp only [e, List.flatMap_cons, List.flatMap_nil, List.append_nil]
      have hs := h.filter
      constructor
      · rw [List.length_append, List.length_singleton]
        split
        · exact L.bounded_mono hs.bounded (Nat.le_succ _)
        · exact L.bounded_add hs.bounded
      · intro i br hi hg
        rcases Nat.lt_or_ge i l.whole.length with hlt | hge
        · rw [List.getElem?_append_left hlt] at hi
          have := hs.has i br hi hg
          split
          · exact this
          · exact L.has_old hs.bounded this
        · rw [List.getElem?_append_right hge] at hi
          have hi0 : i - l.whole.length = 0 := by
            by_contra hne
            obtain ⟨q, hq⟩ := Nat.exists_eq_succ_of_ne_zero hne
            rw [hq] at hi
            simp at hi
          rw [hi0] at hi
          simp only [List.getElem?_cons_zero, Option.some.injEq] at hi
          subst hi
          have hmem := hk hg
          have hie : i = l.whole.length := by omega
          subst hie
          have hne : (sl l.gen).isEmpty = false := by
            cases hl : sl l.gen with
            | nil => rw [hl] at hmem; cases hmem
            | cons x xs => rfl
          rw [hne]
          exact L.has_new hs.bounded hmem
    · intro b' hb' sb hsb
      exact h.sbs b' (by rw [hbr]; exact List.mem_cons_of_mem _ hb') sb hsb

/-! ### Requests under a change of the view -/

/-- A request is not disturbed when level `l` becomes `l'`. -/
structure Keeps (r : Req K V) (k : K) (l l' : Lvl K V F) : Prop where
  ht : l'.ht = l.ht
  id : r.ht = 0 → l'.id = l.id
  endB : r.no < l.endB → r.no < l'.endB
  live : ∀ b ∈ l'.bundles, b.no = r.no → b ∈ l.bundles ∧ l'.gen = l.gen ∧ l'.plo = l.plo ∧ l'.phi = l.phi ∧
    (l.ht = 0 → l.whole = [] → l.bundles.head? = some b → l'.whole = [] ∧ l'.bundles.head? = some b)
  fresh : r.pending k → (∃ b ∈ l.bundles, b.no = r.no) → ∃ b ∈ l'.bundles, b.no = r.no
  sub : l.nlo ≤ l'.nlo ∧ l'.nhi ≤ l.nhi
  range : r.phase = .created → l'.nlo = l.nlo ∧ l'.nhi = l.nhi

theorem Keeps.refl (r : Req K V) (k : K) (l : Lvl K V F) : Keeps r k l l where
  ht := rfl
  id _ := rfl
  endB h := h
  live b hb _ := ⟨hb, rfl, rfl, rfl, fun _ h1 h2 => ⟨h1, h2⟩⟩
  fresh _ h := h
  sub := ⟨le_refl _, le_refl _⟩
  range _ := ⟨rfl, rfl⟩

theorem ReqOk.keep {sem : UpdateSem K V} {lo hi : K} {h h' : Nat} {v v' : K → List (Lvl K V F)} {r : Req K V}
    (ok : ReqOk sem lo hi h v r) (hh : h ≤ h')
    (hv : ∀ k, r.start ≤ k → k < r.stop → ∀ l' ∈ v' k, l'.ht = r.ht →
      (r.phase ≠ .created → r.ht = 0 → l'.id = r.id) →
      ∃ l ∈ v k, l.ht = r.ht ∧ (r.phase ≠ .created → r.ht = 0 → l.id = r.id) ∧
        (r.no < l.endB → Keeps r k l l')) :
    ReqOk sem lo hi h' v' r := by
  have key : ∀ k, r.start ≤ k → k < r.stop → ∀ l' ∈ v' k, l'.ht = r.ht →
      (r.phase ≠ .created → r.ht = 0 → l'.id = r.id) →
      ∃ l ∈ v k, r.at l ∧ r.no < l.endB ∧ Keeps r k l l' := by
    intro k k1 k2 l' hl' h1 h2
    obtain ⟨l, hl, h3, h4, h5⟩ := hv k k1 k2 l' hl' h1 h2
    have ha : r.at l := by
      refine ⟨h3, ?_⟩
      by_cases hc : r.phase = .created
      · exact ((ok.created hc).2 k k1 k2 l hl h3).2.2
      · exact h4 hc
    have hn := ok.noLt k k1 k2 l hl ha
    exact ⟨l, hl, ha, hn, h5 hn⟩
  exact {
    lo := ok.lo
    hi := ok.hi
    lt := ok.lt
    ht := Nat.le_trans ok.ht hh
    gens := ok.gens
    rngs := ok.rngs
    len := ok.len
    phase := ok.phase
    noLt := by
      intro k k1 k2 l' hl' ha
      obtain ⟨l, _, _, hn, hk⟩ := key k k1 k2 l' hl' ha.1 (fun _ => ha.2)
      exact hk.endB hn
    rng := by
      intro k k1 k2 l' hl' ha b hb hno
      obtain ⟨l, hl, hla, hn, hk⟩ := key k k1 k2 l' hl' ha.1 (fun _ => ha.2)
      obtain ⟨e1, e2, e3, e4, _⟩ := hk.live b hb hno
      rw [e2, e3, e4]
      exact ok.rng k k1 k2 l hl hla b e1 hno
    live := by
      intro k k1 k2 l' hl' ha b hb hno
      obtain ⟨l, hl, hla, hn, hk⟩ := key k k1 k2 l' hl' ha.1 (fun _ => ha.2)
      obtain ⟨e1, e2, e3, e4, e5⟩ := hk.live b hb hno
      have := ok.live k k1 k2 l hl hla b e1 hno
      unfold PhaseOk at this ⊢
      split
      · trivial
      · rename_i out full cur hp
        rw [hp] at this
        simp only at this
        split
        · rename_i hc
          rw [if_pos hc] at this
          refine ⟨this.sub, this.inter, fun hf => ?_⟩
          obtain ⟨f1, f2, f3, f4⟩ := this.full hf
          obtain ⟨g1, g2⟩ := e5 f1 f2 f3
          exact ⟨hk.ht.trans f1, g1, g2, f4⟩
        · rename_i hc
          rw [if_neg hc] at this
          exact this
      · rename_i out cur hp
        rw [hp] at this
        exact this
    fresh := by
      intro k k1 k2 hp l' hl' ha
      obtain ⟨l, hl, hla, hn, hk⟩ := key k k1 k2 l' hl' ha.1 (fun _ => ha.2)
      exact hk.fresh hp (ok.fresh k k1 k2 hp l hl hla)
    bound := by
      intro k k1 k2 l' hl' ha
      obtain ⟨l, hl, hla, hn, hk⟩ := key k k1 k2 l' hl' ha.1 (fun _ => ha.2)
      obtain ⟨a1, a2, a3⟩ := ok.bound k k1 k2 l hl hla
      exact ⟨le_trans a1 hk.sub.1, le_trans hk.sub.2 a2, fun h => le_trans (a3 h) hk.sub.1⟩
    created := by
      intro hc
      obtain ⟨c1, c2⟩ := ok.created hc
      refine ⟨Nat.lt_of_lt_of_le c1 hh, fun k k1 k2 l' hl' h1 => ?_⟩
      obtain ⟨l, hl, hla, hn, hk⟩ := key k k1 k2 l' hl' h1 (fun h => absurd hc h)
      obtain ⟨d1, d2, d3⟩ := c2 k k1 k2 l hl hla.1
      obtain ⟨e1, e2⟩ := hk.range hc
      exact ⟨e1.trans d1, e2.trans d2, fun h0 => (hk.id h0).trans (d3 h0)⟩ }

end Splinter.Trunk
