import Verif.Proof.TrunkOps4
/-!
Starting a compaction preserves the invariant.
-/
namespace Splinter.Trunk
open Splinter.Merge (SortedRun mergeAll fromPos merge_intermediate_spec merge_full_spec)
open Splinter.Spec (msgsOf actAll eval act UpdateSem Implements)
set_option linter.unusedSectionVars false

variable {K V F C : Type} [LinearOrder K] {ops : FilterOps K F} {L : FilterLaws ops} {sem : UpdateSem K V}
  {cfg : DataCfg K V} {lo hi : K} {s s' : State K V F} {hist : K → List (Msg V)}

theorem get_filter {b : Branch K V} {p : K → Bool} {k : K} (hp : p k = true) :
    Branch.get (b.filter (fun x => p x.1)) k = b.get k := by
  unfold Branch.get
  induction b with
  | nil => rfl
  | cons x b ih =>
    by_cases hx : x.1 = k
    · have : p x.1 = true := by rw [hx]; exact hp
      rw [List.filter_cons_of_pos (by simpa using this), List.find?_cons_of_pos (by simpa using hx),
        List.find?_cons_of_pos (by simpa using hx)]
    · rw [List.find?_cons_of_neg (by simpa using hx), ← ih]
      by_cases hpx : p x.1 = true
      · rw [List.filter_cons_of_pos (by simpa using hpx), List.find?_cons_of_neg (by simpa using hx)]
      · rw [List.filter_cons_of_neg (by simpa using hpx)]

theorem nos_inj {bs : List (Bundle K V F)} (h : (bs.map (·.no)).Pairwise (· < ·)) {i j : Nat} {a b : Bundle K V F}
    (hi : bs[i]? = some a) (hj : bs[j]? = some b) (e : a.no = b.no) : i = j := by
  have key : ∀ i j : Nat, ∀ a b : Bundle K V F, bs[i]? = some a → bs[j]? = some b → i < j → a.no < b.no := by
    intro i j a b hi hj hlt
    obtain ⟨hi1, hi2⟩ := List.getElem?_eq_some_iff.mp hi
    obtain ⟨hj1, hj2⟩ := List.getElem?_eq_some_iff.mp hj
    have := List.pairwise_iff_getElem.mp h i j (by simpa using hi1) (by simpa using hj1) hlt
    simp only [List.getElem_map, hi2, hj2] at this
    exact this
  rcases Nat.lt_trichotomy i j with hlt | he | hgt
  · have := key i j a b hi hj hlt; omega
  · exact he
  · have := key j i b a hj hi hgt; omega

theorem findIdx_spec {bs : List (Bundle K V F)} {no : Nat} (h : bs.any (fun b => b.no == no) = true) :
    ∃ b, bs[bs.findIdx (fun b => b.no == no)]? = some b ∧ b.no = no := by
  have hx : ∃ x ∈ bs, (x.no == no) = true := List.any_eq_true.mp h
  have hlt := List.findIdx_lt_length_of_exists hx
  refine ⟨_, List.getElem?_eq_getElem hlt, ?_⟩
  have := List.findIdx_getElem (w := hlt)
  simpa using this

/-- The bundle is live for the pivot exactly when the level has it. -/
theorem live_iff {nd : Node K V F C} {nlo nhi : K} (ok : NodeOk nd nlo nhi) {no : Nat} {b : Bundle K V F} {m : Nat}
    (hb : nd.bundles[nd.bundles.findIdx (fun b => b.no == no)]? = some b) (hno : b.no = no) :
    (∀ b' ∈ nd.bundles.drop m, b'.no = no → b' = b ∧ m ≤ nd.bundles.findIdx (fun b => b.no == no)) ∧
    (m ≤ nd.bundles.findIdx (fun b => b.no == no) → b ∈ nd.bundles.drop m) := by
  generalize nd.bundles.findIdx (fun b => b.no == no) = idx at hb
  constructor
  · intro b' hb' hno'
    obtain ⟨i, hi⟩ := List.getElem?_of_mem hb'
    rw [List.getElem?_drop] at hi
    have := nos_inj ok.nos hi hb (hno'.trans hno.symm)
    rw [this, hb] at hi
    exact ⟨(Option.some.inj hi).symm, by omega⟩
  · intro hm
    refine List.mem_of_getElem? (i := idx - m) ?_
    rw [List.getElem?_drop, show m + (idx - m) = idx by omega]
    exact hb

/-- Pivot of a key in the list with upper bounds. -/
theorem pivots_mem {nd : Node K V F C} {nlo nhi k : K} (ok : NodeOk nd nlo nhi) (k1 : nlo ≤ k) (k2 : k < nhi) {p c ph}
    (hr : routeL nd.maxKey k nd.pivots = some (p, c, ph)) :
    (p, ph) ∈ nd.info.pivots ∧ p.key ≤ k ∧ k < ph ∧
    ∀ x ∈ nd.info.pivots, x.1.key ≤ k → k < x.2 → x = (p, ph) := by
  have hs : SortedP nd.maxKey nd.pivots := by rw [ok.hmax]; exact ok.sorted
  have h0 : hd nd.maxKey nd.pivots ≤ k := by rw [← keyAt_zero, ok.hmin]; exact k1
  have h1 : k < nd.maxKey := by rw [ok.hmax]; exact k2
  have hm := (withHi_mem hs h0 h1 (p := p) (ph := ph)).mpr ⟨c, hr⟩
  refine ⟨hm.1, hm.2.1, hm.2.2, fun x hx a b => ?_⟩
  obtain ⟨c', hr'⟩ := (withHi_mem hs h0 h1 (p := x.1) (ph := x.2)).mp ⟨hx, a, b⟩
  rw [hr] at hr'
  obtain ⟨e1, e2⟩ := Prod.mk.inj (Option.some.inj hr')
  obtain ⟨_, e3⟩ := Prod.mk.inj e2
  exact (Prod.ext e1 e3).symm

theorem liveKey_iff {nd : Node K V F C} {nlo nhi k : K} (ok : NodeOk nd nlo nhi) (k1 : nlo ≤ k) (k2 : k < nhi) {p c ph}
    (hr : routeL nd.maxKey k nd.pivots = some (p, c, ph)) (idx : Nat) :
    nd.info.liveKey idx k = true ↔ p.bskip ≤ idx := by
  obtain ⟨h1, h2, h3, h4⟩ := pivots_mem ok k1 k2 hr
  unfold NodeInfo.liveKey
  simp only [List.any_eq_true, decide_eq_true_eq]
  constructor
  · rintro ⟨x, hx, a, b, c⟩
    have := h4 x hx b c
    subst this
    exact a
  · intro h
    exact ⟨(p, ph), h1, h, h2, h3⟩

theorem msgsOf_map {k : K} (f : Branch K V → Branch K V) (bs : List (Branch K V))
    (h : ∀ b ∈ bs, (f b).get k = b.get k) : msgsOf k (bs.map f) = msgsOf k bs := by
  rw [msgsOf_eq, msgsOf_eq, List.filterMap_map]
  exact List.filterMap_congr (fun b hb => h b hb)

theorem msgsOf_zero {k : K} {b : Branch K V} (h : b.get k = none) : msgsOf k [b] = [] := by
  rw [msgsOf_eq, List.filterMap_cons, h]; rfl

theorem msgsOf_nil_iff {k : K} {bs : List (Branch K V)} : msgsOf k bs = [] ↔ ∀ b ∈ bs, b.get k = none := by
  rw [msgsOf_eq, List.filterMap_eq_nil_iff]

/-- The merge of a bundle in a node. -/
theorem compactOut_spec (H : Implements cfg sem) {j : Nat} {nd : Node K V F (Sub K V F j)} {nlo nhi : K}
    (g : Good j nd nlo nhi) {no : Nat} {out : Branch K V} {full : Bool}
    (hc : compactOut cfg j nd.info no = some (out, full)) :
    SortedRun out ∧
    (∀ x ∈ out, nlo ≤ x.1 ∧ x.1 < nhi ∧ ∃ gg ∈ (newReq j nd.info nd.endB : Req K V).rngs, gg.2.1 ≤ x.1 ∧ x.1 < gg.2.2) ∧
    ∀ k, nlo ≤ k → k < nhi → ∀ l r, view j nd k = l :: r →
      (∀ b ∈ l.bundles, b.no = no → CompOk sem k out full l b) ∧
      (out.get k ≠ none → ∃ b ∈ l.bundles, b.no = no) := by
  have ok := g.node
  unfold compactOut at hc
  simp only at hc
  have ebu : nd.info.bundles = nd.bundles := rfl
  have ewh : nd.info.whole = nd.whole := rfl
  rw [ebu, ewh] at hc
  cases hb : nd.bundles[nd.bundles.findIdx (fun b => b.no == no)]? with
  | none => rw [hb] at hc; cases hc
  | some b =>
  rw [hb] at hc
  simp only at hc
  have hbn : b.no = no := by
    obtain ⟨hi1, hi2⟩ := List.getElem?_eq_some_iff.mp hb
    have := List.findIdx_getElem (w := hi1)
    rw [hi2] at this
    simpa using this
  have hliv := fun m => live_iff ok (m := m) hb hbn
  generalize hidx : nd.bundles.findIdx (fun b => b.no == no) = idx at hc hb hliv
  generalize hins : (b.sbs.flatMap (·.branches)).map (fun br => br.filter (fun x => nd.info.liveKey idx x.1)) = ins at hc
  generalize hfl : (j == 0 && idx == 0 && nd.whole.isEmpty) = fl at hc
  have hins' : ins = b.branches.map (fun br => br.filter (fun x => nd.info.liveKey idx x.1)) := hins.symm
  have hbm : b ∈ nd.bundles := List.mem_of_getElem? hb
  have hsorted : ∀ x ∈ ins.map (fun r => (r, 1)), SortedRun x.1 := by
    intro x hx
    obtain ⟨r, hr, rfl⟩ := List.mem_map.mp hx
    rw [hins'] at hr
    obtain ⟨br, hbr, rfl⟩ := List.mem_map.mp hr
    obtain ⟨sb, hsb, hbr'⟩ := List.mem_flatMap.mp hbr
    exact (ok.runsB b hbm sb hsb br hbr').filter _
  have hpos : ∀ x ∈ ins.map (fun r => (r, 1)), 1 ≤ x.2 := by
    intro x hx
    obtain ⟨r, hr, rfl⟩ := List.mem_map.mp hx
    exact Nat.le_refl _
  have hfuel : ((ins.map (fun r => (r, 1))).map (fun x => x.1.length)).sum < (ins.map (·.length)).sum + 1 := by
    rw [List.map_map]
    exact Nat.lt_succ_self _
  have hfrom : (ins.map (fun r => (r, 1))).map fromPos = ins := by
    rw [List.map_map]
    have : (fromPos ∘ fun r : Branch K V => (r, 1)) = id := by
      funext r; rfl
    rw [this, List.map_id]
  -- keys of the inputs
  have hkey : ∀ r ∈ ins, ∀ y ∈ r, nd.info.liveKey idx y.1 = true ∧ ∃ br ∈ b.branches, y ∈ br := by
    intro r hr y hy
    rw [hins'] at hr
    obtain ⟨br, hbr, rfl⟩ := List.mem_map.mp hr
    obtain ⟨h1, h2⟩ := List.mem_filter.mp hy
    exact ⟨h2, br, hbr, h1⟩
  have hmsg : ∀ k, nd.info.liveKey idx k = true → msgsOf k ins = msgsOf k b.branches := by
    intro k hk
    rw [hins']
    exact msgsOf_map _ _ (fun br _ => get_filter (p := nd.info.liveKey idx) hk)
  have hmsg0 : ∀ k, nd.info.liveKey idx k = false → msgsOf k ins = [] := by
    intro k hk
    rw [msgsOf_nil_iff]
    intro r hr
    by_contra hne
    obtain ⟨x, hx, rfl⟩ := Branch.get_ne hne
    have := (hkey r hr x hx).1
    rw [hk] at this
    cases this
  -- what both modes share
  have main : SortedRun out ∧ full = fl ∧
      (∀ k, out.get k ≠ none → msgsOf k ins ≠ []) ∧
      (fl = false → ∀ k v, actAll sem k (msgsOf k ins) v = actAll sem k (msgsOf k [out]) v) ∧
      (fl = true → ∀ k, actAll sem k (msgsOf k ins) none = actAll sem k (msgsOf k [out]) none) := by
    cases fl with
    | false =>
      obtain ⟨out', e1, e2, e3, e4⟩ := merge_intermediate_spec H (ins.map (fun r => (r, 1))) hsorted hpos _ hfuel
      simp only [Bool.false_eq_true, if_false] at hc
      rw [e1] at hc
      obtain ⟨rfl, rfl⟩ := Prod.mk.inj (Option.some.inj hc)
      rw [hfrom] at e3 e4
      have hgetnone : ∀ k, Branch.get out' k = none → msgsOf k ins = [] := by
        intro k hk
        rw [msgsOf_nil_iff]
        intro r hr
        by_contra hne
        obtain ⟨x, hx, rfl⟩ := Branch.get_ne hne
        obtain ⟨y, hy, hyx⟩ := List.mem_map.mp ((e3 x.1).mpr ⟨r, hr, List.mem_map_of_mem hx⟩)
        have := get_of_mem e2 hy
        rw [hyx, hk] at this
        cases this
      refine ⟨e2, rfl, ?_, ?_, (fun h => by cases h)⟩
      · intro k hne
        obtain ⟨x, hx, rfl⟩ := Branch.get_ne hne
        obtain ⟨r, hr, hk⟩ := (e3 x.1).mp (List.mem_map_of_mem hx)
        intro hnil
        rw [msgsOf_nil_iff] at hnil
        have h1 := hnil r hr
        obtain ⟨y, hy, hyx⟩ := List.mem_map.mp hk
        have h2 := get_of_mem (hsorted (r, 1) (List.mem_map_of_mem hr)) hy
        simp only at h2
        rw [hyx, h1] at h2
        cases h2
      · intro _ k v
        cases hg : Branch.get out' k with
        | none =>
          rw [hgetnone k hg, msgsOf_zero hg]
        | some m =>
          rw [msgsOf_one hg, ← e4 k m (Branch.get_mem hg) v]
          rfl
    | true =>
      obtain ⟨out', e1, e2, e3⟩ := merge_full_spec H (ins.map (fun r => (r, 1))) hsorted hpos _ hfuel
      simp only [if_true] at hc
      rw [e1] at hc
      obtain ⟨rfl, rfl⟩ := Prod.mk.inj (Option.some.inj hc)
      rw [hfrom] at e3
      refine ⟨e2, rfl, ?_, (fun h => by cases h), ?_⟩
      · intro k hne hnil
        obtain ⟨m, hm⟩ := Option.ne_none_iff_exists'.mp hne
        have := ((e3 k m).mp (Branch.get_mem hm)).2
        rw [hnil] at this
        cases this
      · intro _ k
        cases hg : Branch.get out' k with
        | none =>
          rw [msgsOf_zero hg]
          show eval sem k (msgsOf k ins) = none
          cases he : eval sem k (msgsOf k ins) with
          | none => rfl
          | some d =>
            have := (e3 k ⟨.insert, d⟩).mpr ⟨rfl, he⟩
            rw [SortedRun.mem_get e2 this] at hg
            cases hg
        | some m =>
          obtain ⟨t1, t2⟩ := (e3 k m).mp (Branch.get_mem hg)
          rw [msgsOf_one hg]
          show eval sem k (msgsOf k ins) = act sem k m none
          rw [t2]
          unfold act
          rw [t1]
  obtain ⟨m1, rfl, m3, m4, m5⟩ := main
  have hlive : ∀ k, out.get k ≠ none → nd.info.liveKey idx k = true := by
    intro k hne
    cases hk : nd.info.liveKey idx k with
    | true => rfl
    | false => exact absurd (hmsg0 k hk) (m3 k hne)
  refine ⟨m1, ?_, ?_⟩
  · intro x hx
    have := hlive x.1 (by rw [get_of_mem m1 hx]; simp)
    unfold NodeInfo.liveKey at this
    simp only [List.any_eq_true, decide_eq_true_eq] at this
    obtain ⟨p, hp, a, b', c⟩ := this
    have hr := (withHi_ranges (mx := nd.maxKey) (l := nd.pivots) (by rw [ok.hmax]; exact ok.sorted)).2 p hp
    rw [← keyAt_zero, ok.hmin, ok.hmax] at hr
    exact ⟨le_trans hr.1 b', lt_of_lt_of_le c hr.2.2, _, List.mem_map_of_mem hp, b', c⟩
  · intro k k1 k2 l r hv
    obtain ⟨p, c, ph, rest, hr, hv', _⟩ := view_cons j nd nlo nhi k g k1 k2
    rw [hv] at hv'
    obtain ⟨rfl, rfl⟩ := List.cons.inj hv'
    have hl := liveKey_iff ok k1 k2 hr idx
    constructor
    · intro b' hb' hno'
      obtain ⟨rfl, hle⟩ := (hliv p.bskip).1 b' hb' hno'
      have hlv := hl.mpr hle
      have hm := hmsg k hlv
      refine ⟨?_, ?_, ?_⟩
      · intro hne
        have := m3 k hne
        rw [hm] at this
        by_contra hcon
        refine this (msgsOf_nil_iff.mpr fun br hbr => ?_)
        by_contra hg
        exact hcon ⟨br, hbr, hg⟩
      · intro hf v
        rw [← hm]
        exact m4 hf k v
      · intro hf
        rw [hf] at hfl
        simp only [Bool.and_eq_true, beq_iff_eq, List.isEmpty_iff] at hfl
        obtain ⟨⟨t1, t2⟩, t3⟩ := hfl
        obtain ⟨p0, c0, q1, q2, q3⟩ := (good_iff.mp g).2.1 t1
        have hpm := (ok.range k1 k2 hr).1
        rw [q1, List.mem_singleton] at hpm
        obtain ⟨rfl, _⟩ := Prod.mk.inj hpm
        refine ⟨t1, ?_, ?_, ?_⟩
        · show nd.whole.drop _ = []
          rw [t3]; simp
        · show (nd.bundles.drop _).head? = _
          rw [q3, List.drop_zero, List.head?_eq_getElem?, ← t2]
          exact hb
        · rw [← hm]
          exact m5 hf k
    · intro hne
      exact ⟨b, (hliv p.bskip).2 (hl.mp (hlive k hne)), hbn⟩

theorem set_map {α β : Type} (f : α → β) {l : List α} {i : Nat} {a a' : α} (h : l[i]? = some a) (e : f a' = f a) :
    (l.set i a').map f = l.map f := by
  rw [List.map_set, e]
  apply List.ext_getElem?
  intro n
  rw [List.getElem?_set]
  split
  · rename_i hin
    subst hin
    rw [List.getElem?_map, h]
    have := (List.getElem?_eq_some_iff.mp h).1
    simp [this]
  · rfl

/-- What `Apart` looks at. -/
def Req.proj (r : Req K V) : Nat × Nat × Nat × K × K := (r.ht, r.no, r.id, r.start, r.stop)

def ApartP (a b : Nat × Nat × Nat × K × K) : Prop :=
  a.1 = b.1 → a.2.1 = b.2.1 → a.2.2.2.2 ≤ b.2.2.2.1 ∨ b.2.2.2.2 ≤ a.2.2.2.1 ∨ (a.1 = 0 ∧ a.2.2.1 ≠ b.2.2.1)

theorem apart_set {l : List (Req K V)} {i : Nat} {a a' : Req K V} (hl : l.Pairwise Apart) (h : l[i]? = some a)
    (e : a'.proj = a.proj) : (l.set i a').Pairwise Apart := by
  have h1 : ∀ l : List (Req K V), l.Pairwise Apart ↔ (l.map Req.proj).Pairwise ApartP := by
    intro l
    rw [List.pairwise_map]
    rfl
  rw [h1, set_map Req.proj h e, ← h1]
  exact hl

theorem mem_set_cases {α : Type} {l : List α} {i : Nat} {a x : α} (h : x ∈ l.set i a) :
    x = a ∨ ∃ j, j ≠ i ∧ l[j]? = some x := by
  obtain ⟨j, hj⟩ := List.getElem?_of_mem h
  rw [List.getElem?_set] at hj
  split at hj
  · split at hj
    · exact .inl (Option.some.inj hj).symm
    · cases hj
  · rename_i hne
    exact .inr ⟨j, Ne.symm hne, hj⟩

/-- Different requests are apart. -/
theorem apart_ne {l : List (Req K V)} (hl : l.Pairwise Apart) {i j : Nat} {a b : Req K V} (hi : l[i]? = some a)
    (hj : l[j]? = some b) (hne : j ≠ i) : Apart b a := by
  obtain ⟨hi1, hi2⟩ := List.getElem?_eq_some_iff.mp hi
  obtain ⟨hj1, hj2⟩ := List.getElem?_eq_some_iff.mp hj
  have := List.pairwise_iff_getElem.mp hl
  rcases Nat.lt_or_ge j i with h | h
  · have := this j i hj1 hi1 h
    rw [hi2, hj2] at this
    exact this
  · have := this i j hi1 hj1 (by omega)
    rw [hi2, hj2] at this
    exact this.symm

/-- Dropping a request. -/
theorem Inv.erase (I : Inv L sem lo hi s hist) (i : Nat) : Inv L sem lo hi { s with reqs := s.reqs.eraseIdx i } hist :=
  ⟨I.pos, I.good, I.memsNe, I.mems, I.lvls, I.ids, fun r hr => I.rids r (List.mem_of_mem_eraseIdx hr),
    fun r hr => I.reqs r (List.mem_of_mem_eraseIdx hr), I.apart.sublist (List.eraseIdx_sublist _ _), I.value⟩

/-- Replacing a request by one with the same place. -/
theorem Inv.setReq (I : Inv L sem lo hi s hist) {i : Nat} {r r' : Req K V} (hr : s.reqs[i]? = some r)
    (e : r'.proj = r.proj) (ok : ReqOk sem lo hi s.h (view s.h s.root) r') :
    Inv L sem lo hi { s with reqs := s.reqs.set i r' } hist := by
  refine ⟨I.pos, I.good, I.memsNe, I.mems, I.lvls, I.ids, fun x hx => ?_, fun x hx => ?_, apart_set I.apart hr e, I.value⟩
  · rcases List.mem_or_eq_of_mem_set hx with h | rfl
    · exact I.rids x h
    · have := I.rids r (List.mem_of_getElem? hr)
      have e' : x.id = r.id := congrArg (fun t => t.2.2.1) e
      show x.id < s.nextId
      omega
  · rcases List.mem_or_eq_of_mem_set hx with h | rfl
    · exact I.reqs x h
    · exact ok

theorem Inv.start (I : Inv L sem lo hi s hist) (H : Implements cfg sem) {i : Nat} (hs : doStart cfg s i = some s') :
    Inv L sem lo hi s' hist := by
  unfold doStart at hs
  split at hs
  · cases hs
  rename_i r hr
  have okr := I.reqs r (List.mem_of_getElem? hr)
  split at hs
  swap
  · cases hs
  rename_i hph
  split at hs
  · cases hs
  rename_i n hn
  split at hs
  · cases hs
  split at hs
  swap
  · obtain rfl := Option.some.inj hs
    exact I.erase i
  split at hs
  · cases hs
  rename_i out full hco
  obtain rfl := Option.some.inj hs
  have g := I.good
  have a1 := okr.lo
  have a2 := lt_of_lt_of_le okr.lt okr.hi
  obtain ⟨nd, nlo, nhi, e1, e2, e3, e4, e5, e6, e7⟩ := nodeAt_spec r.ht r.start s.h s.root lo hi g a1 a2 okr.ht
  rw [hn] at e1
  obtain rfl := Option.some.inj e1
  obtain ⟨hch, hcl⟩ := okr.created hph
  have hrange : nlo = r.start ∧ nhi = r.stop := by
    obtain ⟨l, r', h1, h2, h3, h4, h5, h6, _⟩ := head_facts e2 e3 e4
    obtain ⟨pre, q1, q2⟩ := e7 r.start e3 e4
    obtain ⟨c1, c2, _⟩ := hcl r.start (le_refl _) okr.lt l (by rw [q2, h1]; simp) h2
    exact ⟨h5.symm.trans c1, h6.symm.trans c2⟩
  obtain ⟨rfl, rfl⟩ := hrange
  obtain ⟨c1, c2, c3⟩ := compactOut_spec H e2 hco
  have hlvl : ∀ k, r.start ≤ k → k < r.stop → ∀ l ∈ view s.h s.root k, l.ht = r.ht → ∃ r', view r.ht nd k = l :: r' := by
    intro k k1 k2 l hl he
    obtain ⟨l0, r', h1, h2, _⟩ := head_facts e2 k1 k2
    obtain ⟨pre, q1, q2⟩ := e7 k k1 k2
    have : l = l0 := level_eq g (le_trans a1 k1) (lt_of_lt_of_le k2 okr.hi) q2 h1 h2 hl he
    subst this
    exact ⟨r', h1⟩
  refine I.setReq hr rfl ?_
  refine { lo := okr.lo, hi := okr.hi, lt := okr.lt, ht := okr.ht, gens := okr.gens, rngs := okr.rngs, len := okr.len,
           phase := ?_, noLt := okr.noLt, rng := okr.rng, live := ?_, fresh := ?_, bound := ?_, created := ?_ }
  · show _ ∧ _ ∧ _
    refine ⟨le_refl _, okr.lt, c1, ?_, ?_⟩
    · intro x hx
      obtain ⟨x1, x2, _⟩ := c2 x hx
      refine ⟨x1, x2, ?_⟩
      obtain ⟨l, rr, h1, h2, _⟩ := head_facts e2 x1 x2
      obtain ⟨b, hb, hno⟩ := (c3 x.1 x1 x2 l rr h1).2 (by rw [get_of_mem c1 hx]; simp)
      obtain ⟨pre, q1, q2⟩ := e7 x.1 x1 x2
      have hl : l ∈ view s.h s.root x.1 := by rw [q2, h1]; simp
      obtain ⟨_, _, hid⟩ := hcl x.1 x1 x2 l hl h2
      have hwf := view_wf s.h s.root lo hi x.1 g (le_trans a1 x1) (lt_of_lt_of_le x2 okr.hi) l hl
      exact ⟨_, okr.rng x.1 x1 x2 l hl ⟨h2, hid⟩ b hb hno, hwf.plo, hwf.phi⟩
    · intro q gg hgg
      have hp := okr.phase
      unfold PhaseInv at hp
      rw [hph] at hp
      have := hp q (List.getElem?_eq_some_iff.mp hgg).1
      show r.cnts[q]? = _
      rw [this]
      have : countTo out gg.2.1 gg.2.2 r.start = 0 := by
        unfold countTo
        rw [List.length_eq_zero_iff, List.filter_eq_nil_iff]
        intro x hx
        have := (c2 x hx).1
        simp only [decide_eq_true_eq, not_and, not_lt]
        intro _ _
        exact this
      rw [this]
  · intro k k1 k2 l hl ha b hb hno
    obtain ⟨r', h1⟩ := hlvl k k1 k2 l hl ha.1
    unfold PhaseOk
    simp only
    split
    · exact (c3 k k1 k2 l r' h1).1 b hb hno
    · rename_i hcon; exact absurd k1 hcon
  · intro k k1 k2 hp l hl ha
    obtain ⟨r', h1⟩ := hlvl k k1 k2 l hl ha.1
    exact (c3 k k1 k2 l r' h1).2 hp.2
  · intro k k1 k2 l hl ha
    obtain ⟨b1, b2, b3⟩ := okr.bound k k1 k2 l hl ha
    exact ⟨b1, b2, fun _ => b1⟩
  · intro hc
    cases hc

end Splinter.Trunk
