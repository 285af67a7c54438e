import Verif.Proof.BtreeLock
import Verif.Props.BtreeLockSpec
/-!
# Proofs about the locks of a memtable tree: the threads can always finish

First the threads that hold a page are moved, one that is not stuck at a time
(`not_all_stuck`), until no thread holds a page: each such move makes a measure smaller. Then the
threads that are left run to their ends one after the other.
-/
namespace Splinter.BtreeLock

set_option linter.unusedSimpArgs false

theorem Force.trans {bad ht P Q s} (h : Force bad ht P s) (hQ : ∀ t, P t → Force bad ht Q t) :
    Force bad ht Q s := by
  induction h with
  | here hp => exact hQ _ hp
  | go i h1 _ ih => exact .go i h1 ih
  | close i l g h1 _ ih => exact .close i l g h1 ih

/-- The leaf splits after a move. -/
def Eff.sp (S : Nat) : Eff → Nat
  | .split => S + 1
  | _ => S

theorem put_splits (s : Sys) (i : Nat) (q : Pc) (e : Eff) : (s.put i q e).splits = e.sp s.splits := by
  cases e <;> rfl

/-- The moves left to an iterator that gets a leaf. -/
def hopc (f : Bool) (R S g : Nat) : Nat := if f then 12 + (if g = S then 0 else 20 * R + 100) else 0

/-- The moves left at the leaf a descent leads to. -/
def kap (f : Bool) (R S : Nat) : Kind → Nat
  | .ins => 1000
  | .look => 5
  | .start => (30 + hopc f R S S) + 20 * R + 30
  | .stop _ => 30 + hopc f R S S
  | .again _ => 10 + hopc f R S S

/-- The moves left to a thread; without `f`, until it holds nothing. -/
def dist (f : Bool) (N : Nat) (ht : Nat → Nat) (R S : Nat) : Pc → Nat
  | .idle => 0
  | .root (.stop l) => kap f R S (.stop l) + 20 * R + 30
  | .root .ins => if f then 1000 + 20 * R + 30 + 100 * (N + 1) + 100 else 0
  | .root k => if f then kap f R S k + 20 * R + 30 else 0
  | .top => 1000 + 20 * R + 100 * (N + 1) + 40
  | .topLock => 1000 + 20 * R + 100 * (N + 1) + 38
  | .desc k p => kap f R S k + 20 * hgt ht R p + 10
  | .down k p _ => kap f R S k + 20 * hgt ht R p + 8
  | .pair p _ => 1000 + 20 * hgt ht R p + 6
  | .pairC _ p _ => 1000 + 20 * hgt ht R p + 4
  | .lockP p _ => 1000 + 20 * hgt ht R p + 3
  | .lockZ p _ => 1000 + 20 * hgt ht R p + 2
  | .leaf _ => 10
  | .leafC _ => 8
  | .lockLeaf _ => 5
  | .spin p _ => 1000 + 20 * hgt ht R p + 3
  | .both _ _ => 900
  | .slockP _ _ => 800
  | .getNext _ _ _ j => 3 * (150 - j) + 102
  | .gotNext _ _ _ j => 3 * (150 - j) + 101
  | .slockN _ _ _ => 50
  | .slockZ _ _ _ => 40
  | .leafL k _ => kap f R S k + 5
  | .found _ g => 20 + hopc f R S g
  | .hop _ g => hopc f R S g
  | .got _ g => 6 + (if f then (if g = S then 0 else 20 * R + 100) else 0)
  | .back _ _ o j => if f then 10 + 8 * (S - o - j) else 0
  | .gotB _ _ o j => 6 + (if f then 8 * (S - o - j) else 0)
  | .rest _ _ => 3
  | .free l q => l.length + 1 + dist f N ht R S q
  | .lost _ => 0

theorem opt_len {α} (o : Option α) : o.toList.length ≤ 1 := by cases o <;> simp

/-- A move other than to get again a leaf that is spun on brings the thread nearer to its
end. -/
theorem next_dec {ht s i q q' e} (f : Bool) (N : Nat) (h : Next false ht s i q q' e) (ho : q.ok ht s.rootHt)
    (hf : f = true → ∀ a, s.alone i a = true) (ha : f = false → q.active = true) (hs : ∀ p z, q ≠ .spin p z) :
    dist f N ht (e.root s.rootHt) (e.sp s.splits) q' + (if e = .grow then 100 * (N + 1) else 0)
      < dist f N ht s.rootHt s.splits q := by
  have hcl : ∀ {a}, ¬ s.claimable i a = true → f = false := by
    intro a hc
    by_contra hff
    exact hc (alone_claimable (hf (by simpa using hff) a))
  cases h with
  | rootIns _ =>
    cases f
    · simp [Pc.active, Pc.holds, Kind.base] at ha
    · simp [dist, kap, Eff.root, Eff.sp] <;> omega
  | rootRead hk _ =>
    rename_i k _
    cases f
    · cases k <;> simp [Pc.active, Pc.holds, Kind.base] at ha
      simp [dist, kap, Eff.root, Eff.sp, hgt]
    · cases k <;> simp [dist, kap, Eff.root, Eff.sp, hgt] <;> omega
  | topFail hc => cases hcl hc; simp [dist, Eff.root, Eff.sp] <;> omega
  | topGrow => simp [dist, kap, Eff.root, Eff.sp, hgt] <;> omega
  | topSet => simp [dist, kap, Eff.root, Eff.sp, hgt] <;> omega
  | topOn => simp [dist, kap, Eff.root, Eff.sp, hgt] <;> omega
  | topClaim => simp [dist, Eff.root, Eff.sp]
  | topDone => simp [dist, Eff.root, Eff.sp] <;> omega
  | descDown => simp [dist, Eff.root, Eff.sp]
  | descLeaf => simp [dist, Eff.root, Eff.sp] <;> omega
  | downIns => simp [dist, kap, Eff.root, Eff.sp]
  | downRead hk =>
    rename_i k p z _
    simp only [Pc.ok] at ho
    have hz : hgt ht s.rootHt z = ht z := by simp [hgt, ho.1]
    simp [dist, Eff.root, Eff.sp, ho.2, hz] <;> omega
  | pairOn =>
    rename_i p z _
    simp only [Pc.ok] at ho
    have hz : hgt ht s.rootHt z = ht z := by simp [hgt, ho.1]
    simp [dist, kap, Eff.root, Eff.sp, ho.2, hz] <;> omega
  | pairClaim => simp [dist, Eff.root, Eff.sp]
  | pairFail hc => cases hcl hc; simp [dist, Eff.root, Eff.sp] <;> omega
  | pairLeaf => simp [dist, Eff.root, Eff.sp] <;> omega
  | pairErr hb => cases hb
  | idxClaim => simp [dist, Eff.root, Eff.sp]
  | idxFail _ hc => cases hcl hc; simp [dist, Eff.root, Eff.sp] <;> omega
  | lockP => simp [dist, Eff.root, Eff.sp]
  | lockZ h1 h2 h3 =>
    rename_i p z z' rc
    simp only [Pc.ok] at ho
    have hz : hgt ht s.rootHt z' = ht z := by
      rcases h3 with rfl | h3
      · simp [hgt, ho.1]
      · simp [hgt, (h2 _ h3).1, (h2 _ h3).2.1]
    have := opt_len rc
    simp only [dist, kap, Eff.root, Eff.sp, hz, ho.2.1, List.length_append, List.length_cons, List.length_nil]
    simp; omega
  | leafClaim => simp [dist, Eff.root, Eff.sp]
  | leafFail hc => cases hcl hc; simp [dist, Eff.root, Eff.sp]
  | leafC => simp [dist, Eff.root, Eff.sp]
  | lockLeaf => simp [dist, Eff.root, Eff.sp]
  | leafBoth => simp [dist, Eff.root, Eff.sp] <;> omega
  | leafSpin => simp [dist, Eff.root, Eff.sp]
  | spin => exact absurd rfl (hs _ _)
  | leafErr hb => cases hb
  | defrag => simp [dist, Eff.root, Eff.sp]
  | split => simp [dist, Eff.root, Eff.sp]
  | slockP => simp [dist, Eff.root, Eff.sp]
  | slockLast => simp [dist, Eff.root, Eff.sp]
  | getNext => simp [dist, Eff.root, Eff.sp]
  | nextClaim => simp [dist, Eff.root, Eff.sp] <;> omega
  | nextRetry _ hj => simp [dist, Eff.root, Eff.sp] <;> omega
  | nextGiveUp hc => cases hcl hc; simp [dist, Eff.root, Eff.sp] <;> omega
  | slockN => simp [dist, Eff.root, Eff.sp]
  | slockZ =>
    rename_i p z n rc _ _
    have h1 := opt_len rc
    have h2 := opt_len n
    simp only [dist, List.length_append, List.length_cons, List.length_nil]
    simp; omega
  | lookDone => simp [dist, kap, Eff.root, Eff.sp]
  | startClaim => simp [dist, kap, Eff.root, Eff.sp]
  | startFail hc => cases hcl hc; simp [dist, Eff.root, Eff.sp, kap] <;> omega
  | stop => simp [dist, kap, Eff.root, Eff.sp] <;> omega
  | again => simp [dist, kap, Eff.root, Eff.sp] <;> omega
  | foundRest => simp [dist, Eff.root, Eff.sp] <;> omega
  | foundNext => simp [dist, Eff.root, Eff.sp] <;> omega
  | foundPrev => simp [dist, Eff.root, Eff.sp]; split <;> omega
  | hop =>
    cases f
    · simp [Pc.active, Pc.holds] at ha
    · rename_i n g _
      by_cases hg : g = s.splits <;> simp [dist, hopc, Eff.root, Eff.sp, hg]
  | gotRest => simp [dist, Eff.root, Eff.sp] <;> omega
  | gotAgain hg =>
    cases f
    · simp [dist, Eff.root, Eff.sp]
    · simp [dist, kap, hopc, Eff.root, Eff.sp, hg] <;> omega
  | back =>
    cases f
    · simp [Pc.active, Pc.holds] at ha
    · simp [dist, Eff.root, Eff.sp]
  | backRest => simp [dist, Eff.root, Eff.sp] <;> omega
  | backOn hj =>
    cases f
    · simp [dist, Eff.root, Eff.sp]
    · simp [dist, Eff.root, Eff.sp] <;> omega
  | free => simp [dist, Eff.root, Eff.sp]
  | freed => simp [dist, Eff.root, Eff.sp]

/-- A thread that is not stuck, not idle and no iterator at rest can move. -/
theorem can_step {ht s i q} (hh : AllHeights ht) (hi : s.ths[i]? = some q) (ho : q.ok ht s.rootHt)
    (hs : s.stuck i q = false) (h1 : q ≠ .idle) (h2 : ∀ l g, q ≠ .rest l g) : ∃ t, Step false ht s i t := by
  suffices h : ∃ q' e, Next false ht s i q q' e from h.elim fun q' h => h.elim fun e h => ⟨_, .mk hi h⟩
  cases q with
  | idle => exact absurd rfl h1
  | rest l g => exact absurd rfl (h2 _ _)
  | lost p => exact ho.elim
  | root k =>
    simp [Sys.stuck] at hs
    by_cases hk : k = .ins
    · subst hk; exact ⟨_, _, .rootIns hs⟩
    · exact ⟨_, _, .rootRead hk hs⟩
  | top =>
    by_cases hc : s.claimable i 0 = true
    · exact ⟨_, _, .topClaim hc⟩
    · exact ⟨_, _, .topFail hc⟩
  | topLock => simp [Sys.stuck] at hs; exact ⟨_, _, .topGrow hs⟩
  | desc k p =>
    by_cases hp : hgt ht s.rootHt p = 0
    · exact ⟨_, _, .descLeaf (fun hk => by have := ho hk; omega) hp⟩
    · obtain ⟨z, hz, hz2⟩ := hh (hgt ht s.rootHt p - 1)
      exact ⟨_, _, .descDown (by omega) hz (by omega)⟩
  | down k p z =>
    simp [Sys.stuck] at hs
    by_cases hk : k = .ins
    · subst hk; exact ⟨_, _, .downIns hs⟩
    · exact ⟨_, _, .downRead hk hs⟩
  | pair p z =>
    by_cases hc : s.claimable i p = true
    · exact ⟨_, _, .pairClaim hc⟩
    · exact ⟨_, _, .pairFail hc⟩
  | pairC b p z =>
    by_cases hz : ht z = 0 <;> by_cases hc : s.claimable i z = true
    · exact ⟨_, _, .leafBoth hz hc⟩
    · exact ⟨_, _, .leafSpin hz hc⟩
    · exact ⟨_, _, .idxClaim (by omega) hc⟩
    · exact ⟨_, _, .idxFail (by omega) hc⟩
  | lockP p z => simp [Sys.stuck] at hs; exact ⟨_, _, .lockP hs⟩
  | lockZ p z => simp [Sys.stuck] at hs; exact ⟨_, _, .lockZ (rc := none) hs (by simp) (Or.inl rfl)⟩
  | leaf z =>
    by_cases hc : s.claimable i z = true
    · exact ⟨_, _, .leafClaim hc⟩
    · exact ⟨_, _, .leafFail hc⟩
  | leafC z => exact ⟨_, _, .leafC⟩
  | lockLeaf z => simp [Sys.stuck] at hs; exact ⟨_, _, .lockLeaf hs⟩
  | spin p z => simp [Sys.stuck] at hs; exact ⟨_, _, .spin (claimable_readable hs)⟩
  | both p z => exact ⟨_, _, .split⟩
  | slockP p z => simp [Sys.stuck] at hs; exact ⟨_, _, .slockLast hs⟩
  | getNext p z n j => simp [Sys.stuck] at hs; exact ⟨_, _, .getNext hs⟩
  | gotNext p z n j =>
    by_cases hc : s.claimable i n = true
    · exact ⟨_, _, .nextClaim hc⟩
    · by_cases hj : j < 100
      · exact ⟨_, _, .nextRetry hc hj⟩
      · exact ⟨_, _, .nextGiveUp hc (by omega)⟩
  | slockN p z n => simp [Sys.stuck] at hs; exact ⟨_, _, .slockN hs⟩
  | slockZ p z n => simp [Sys.stuck] at hs; exact ⟨_, _, .slockZ (rc := none) hs (by simp)⟩
  | leafL k z =>
    cases k with
    | ins => exact (ho rfl).elim
    | look => exact ⟨_, _, .lookDone⟩
    | start =>
      by_cases hc : s.claimable i z = true
      · exact ⟨_, _, .startClaim hc⟩
      · exact ⟨_, _, .startFail hc⟩
    | stop l => exact ⟨_, _, .stop⟩
    | again n => exact ⟨_, _, .again⟩
  | found l g => exact ⟨_, _, .foundRest⟩
  | hop n g => simp [Sys.stuck] at hs; exact ⟨_, _, .hop hs⟩
  | got n g => exact ⟨_, _, .gotRest⟩
  | back n g o j => simp [Sys.stuck] at hs; exact ⟨_, _, .back hs⟩
  | gotB n g o j => exact ⟨_, _, .backRest⟩
  | free l q =>
    cases l with
    | nil => exact ⟨_, _, .freed⟩
    | cons x l => exact ⟨_, _, .free⟩

/-! ## All threads, until none holds a page -/

theorem sum_set {α} (g g' : α → Nat) (c : Nat) (x : α) : ∀ (l : List α) (i : Nat) (y : α), l[i]? = some y →
    (∀ (j : Nat) (z : α), j ≠ i → l[j]? = some z → g' z ≤ g z + c) →
    ((l.set i x).map g').sum + g y ≤ (l.map g).sum + g' x + c * l.length
  | [], i, y, h, _ => by simp at h
  | a :: l, 0, y, h, hc => by
    simp at h; subst h
    have : (l.map g').sum ≤ (l.map g).sum + c * l.length := by
      have hc' : ∀ z ∈ l, g' z ≤ g z + c := by
        intro z hz
        obtain ⟨j, hj⟩ := List.mem_iff_getElem?.mp hz
        exact hc (j + 1) z (by simp) (by simpa using hj)
      clear hc
      induction l with
      | nil => simp
      | cons b l ih =>
        have h1 := hc' b (by simp)
        have h2 := ih (fun z hz => hc' z (by simp [hz]))
        simp only [List.map_cons, List.sum_cons, List.length_cons, Nat.mul_succ]
        omega
    simp only [List.set_cons_zero, List.map_cons, List.sum_cons, List.length_cons, Nat.mul_succ]
    omega
  | a :: l, i + 1, y, h, hc => by
    have h1 := hc 0 a (by simp) (by simp)
    have h2 := sum_set g g' c x l i y (by simpa using h)
      (fun j z hj hz => hc (j + 1) z (by omega) (by simpa using hz))
    simp only [List.set_cons_succ, List.map_cons, List.sum_cons, List.length_cons, Nat.mul_succ]
    omega

/-- Together. -/
def total (ht : Nat → Nat) (s : Sys) : Nat := (s.ths.map (dist false s.ths.length ht s.rootHt s.splits)).sum

theorem dist_splits {N ht R S S'} (q : Pc) : dist false N ht R S q = dist false N ht R S' q := by
  induction q with
  | free l q ih => simp [dist, ih]
  | root k => cases k <;> simp [dist, kap, hopc]
  | desc k p => cases k <;> simp [dist, kap, hopc]
  | down k p z => cases k <;> simp [dist, kap, hopc]
  | leafL k z => cases k <;> simp [dist, kap, hopc]
  | _ => simp [dist, hopc]

theorem dist_grow {N ht R S} (q : Pc) (h0 : ∀ m, (0, m) ∉ q.holds) :
    dist false N ht (R + 1) S q ≤ dist false N ht R S q + 100 := by
  induction q with
  | free l q ih =>
    have := ih (fun m hm => h0 m (by simp [Pc.holds, hm]))
    simp only [dist]; omega
  | root k => cases k <;> simp [dist, kap, hopc]; omega
  | desc k p =>
    have : p ≠ 0 := fun e => h0 .r (by simp [Pc.holds, e])
    cases k <;> simp [dist, kap, hopc, hgt, this]; omega
  | down k p z =>
    have : p ≠ 0 := fun e => h0 .r (by simp [Pc.holds, e])
    cases k <;> simp [dist, kap, hopc, hgt, this]; omega
  | leafL k z => cases k <;> simp [dist, kap, hopc]; omega
  | pair p z =>
    have : p ≠ 0 := fun e => h0 .r (by simp [Pc.holds, e])
    simp [dist, hgt, this]
  | pairC b p z | spin p z =>
    have : p ≠ 0 := fun e => h0 .c (by simp [Pc.holds, e])
    simp [dist, hgt, this]
  | lockP p z | lockZ p z =>
    have : p ≠ 0 := fun e => h0 .w (by simp [Pc.holds, e])
    simp [dist, hgt, this]
  | top => exact absurd (by simp [Pc.holds]) (h0 .r)
  | topLock => exact absurd (by simp [Pc.holds]) (h0 .w)
  | _ => simp [dist, hopc]

theorem total_put {ht s i q q' e} (hi : s.ths[i]? = some q) (hg : e = .grow → s.alone i 0 = true)
    (hd : dist false s.ths.length ht (e.root s.rootHt) (e.sp s.splits) q' +
      (if e = .grow then 100 * (s.ths.length + 1) else 0) < dist false s.ths.length ht s.rootHt s.splits q) :
    total ht (s.put i q' e) < total ht s := by
  unfold total
  rw [put_ths, put_root, put_splits, List.length_set]
  have := sum_set (dist false s.ths.length ht s.rootHt s.splits)
    (dist false s.ths.length ht (e.root s.rootHt) (e.sp s.splits)) (if e = .grow then 100 else 0) q' s.ths i q hi
    (by
      intro j z hj hz
      rw [dist_splits z (S' := s.splits)]
      cases e with
      | grow => simpa [Eff.root] using dist_grow z (fun m => alone_of (hg rfl) hj hz)
      | _ => simp [Eff.root])
  cases e <;> simp only [reduceCtorEq, if_false, if_true, Nat.mul_add] at this hd ⊢ <;> omega

/-- The threads in an operation. -/
def busy (s : Sys) : Nat := s.ths.countP (· != .idle)

theorem countP_set {α} (f : α → Bool) (x : α) : ∀ (l : List α) (i : Nat) (y : α), l[i]? = some y → f y = true →
    (l.set i x).countP f + (if f x then 0 else 1) = l.countP f
  | [], i, y, h, _ => by simp at h
  | a :: l, 0, y, h, hy => by
    simp at h; subst h
    by_cases hx : f x = true <;> simp [List.countP_cons, hx, hy]
  | a :: l, i + 1, y, h, hy => by
    have := countP_set f x l i y (by simpa using h) hy
    simp only [List.set_cons_succ, List.countP_cons]
    omega

theorem busy_put {s : Sys} {i : Nat} {q q' : Pc} {e : Eff} (hi : s.ths[i]? = some q) (hq : q ≠ .idle) :
    busy (s.put i q' e) ≤ busy s := by
  have := countP_set (· != Pc.idle) q' s.ths i q hi (by simpa using hq)
  unfold busy
  rw [put_ths]
  omega

/-- The leaf a thread spins on can be claimed: it gets it. -/
theorem force_spin {ht s i p z} {P : Sys → Prop} (h : Inv ht s) (hi : s.ths[i]? = some (.spin p z))
    (hc : s.claimable i z = true) (hP : ∀ t, t = s.put i (.both p z) .none → Force false ht P t) :
    Force false ht P s := by
  have ho := h.ok hi
  simp only [Pc.ok] at ho
  refine .go i ⟨_, .mk hi (.spin (claimable_readable hc))⟩ ?_
  rintro _ ⟨hi', hn⟩
  rw [hi] at hi'; cases hi'
  cases hn with
  | spin hr =>
    have hlt : i < s.ths.length := (List.getElem?_eq_some_iff.mp hi).1
    have hi2 : (s.put i (.pairC true p z) .none).ths[i]? = some (.pairC true p z) := by
      simp [Sys.put, hlt]
    have hc2 : (s.put i (.pairC true p z) .none).claimable i z = true := by
      by_contra hn
      obtain ⟨j, q, m, h1, h2, h3, h4⟩ := not_claimable (by simpa using hn)
      rcases put_get hi h2 with ⟨h5, _⟩ | ⟨_, h5⟩
      · exact h1 h5
      · exact h4 (claimable_of hc h1 h5 h3)
    refine .go i ⟨_, .mk hi2 (.leafBoth ho.2.2 hc2)⟩ ?_
    rintro _ ⟨hi3, hn⟩
    rw [hi2] at hi3; cases hi3
    cases hn with
    | leafBoth => exact hP _ (by simp [Sys.put])
    | leafSpin _ hc3 => exact absurd hc2 hc3
    | idxClaim hz => omega
    | idxFail hz => omega
    | leafErr hb => cases hb

/-- The threads that hold a page can be brought to let go of all. -/
theorem force_release {ht : Nat → Nat} (hh : AllHeights ht) : ∀ (m : Nat) (s : Sys), Inv ht s → total ht s < m →
    Force false ht (fun t => Inv ht t ∧ (∀ q ∈ t.ths, q.active = false) ∧ busy t ≤ busy s) s := by
  intro m
  induction m with
  | zero => intro s _ hm; omega
  | succ m ih =>
    intro s hI hm
    by_cases ha : ∃ (i : Nat) (q : Pc), s.ths[i]? = some q ∧ q.active = true
    swap
    · refine .here ⟨hI, ?_, Nat.le_refl _⟩
      intro q hq
      obtain ⟨i, hi⟩ := List.mem_iff_getElem?.mp hq
      by_contra hc
      exact ha ⟨i, q, hi, by simpa using hc⟩
    obtain ⟨i, q, hi, hact, hs⟩ := not_all_stuck hI ha
    have hne : q ≠ .idle := by rintro rfl; simp [Pc.active, Pc.holds] at hact
    have ho := hI.ok hi
    have again : ∀ t, Inv ht t → total ht t < total ht s → busy t ≤ busy s →
        Force false ht (fun t => Inv ht t ∧ (∀ q ∈ t.ths, q.active = false) ∧ busy t ≤ busy s) t := by
      intro t hIt hlt hb
      exact (ih t hIt (by omega)).trans (fun u hu => .here ⟨hu.1, hu.2.1, Nat.le_trans hu.2.2 hb⟩)
    by_cases hr : ∃ l g, q = .rest l g
    · obtain ⟨l, g, rfl⟩ := hr
      refine .close i l g hi (again _ (inv_call hI (.close hi)) ?_ (busy_put hi hne))
      exact total_put hi (by simp) (by simp [dist])
    by_cases hsp : ∃ p z, q = .spin p z
    · obtain ⟨p, z, rfl⟩ := hsp
      have hc : s.claimable i z = true := by simpa [Sys.stuck] using hs
      refine force_spin hI hi hc ?_
      rintro t rfl
      refine again _ ?_ ?_ (busy_put hi hne)
      · refine inv_put hI hi ?_ ho (by simp)
        intro a m hm
        simp [Pc.holds] at hm
        rcases hm with ⟨rfl, rfl⟩ | ⟨rfl, rfl⟩
        · exact Or.inr (Or.inl ⟨.c, by simp, by simp [Pc.holds]⟩)
        · exact Or.inr (Or.inr hc)
      · exact total_put hi (by simp) (by simp [dist]; omega)
    refine .go i (can_step hh hi ho hs hne (fun l g e => hr ⟨l, g, e⟩)) ?_
    intro t hst
    have hIt := inv_step hI hst
    obtain ⟨hi', hn⟩ := hst
    rw [hi] at hi'; cases hi'
    refine again _ hIt (total_put hi (fun e => by subst e; exact next_grow hn) ?_) (busy_put hi hne)
    exact next_dec false _ hn ho (by simp) (fun _ => hact) (fun p z e => hsp ⟨p, z, e⟩)

/-! ## One thread, when no other holds a page -/

theorem alone_all {s : Sys} {i : Nat} (h : ∀ (j : Nat) (p : Pc), j ≠ i → s.ths[j]? = some p → p.holds = []) (a : Nat) :
    s.alone i a = true := by
  by_contra hc
  obtain ⟨j, q, m, h1, h2, h3⟩ := not_alone (by simpa using hc)
  rw [h j q h1 h2] at h3
  simp at h3

/-- A thread runs to its end when no other holds a page. -/
theorem force_solo {ht : Nat → Nat} (hh : AllHeights ht) (i : Nat) : ∀ (m : Nat) (s : Sys) (q : Pc), Inv ht s →
    s.ths[i]? = some q → (∀ (j : Nat) (p : Pc), j ≠ i → s.ths[j]? = some p → p.holds = []) →
    dist true 0 ht s.rootHt s.splits q < m →
    Force false ht (fun t => Inv ht t ∧ t.ths = s.ths.set i .idle) s := by
  intro m
  induction m with
  | zero => intro s q _ _ _ hm; omega
  | succ m ih =>
    intro s q hI hi hoth hm
    have hlt : i < s.ths.length := (List.getElem?_eq_some_iff.mp hi).1
    have hal := alone_all hoth
    have ho := hI.ok hi
    have again : ∀ (q' : Pc) (e : Eff), Inv ht (s.put i q' e) →
        dist true 0 ht (e.root s.rootHt) (e.sp s.splits) q' < dist true 0 ht s.rootHt s.splits q →
        Force false ht (fun t => Inv ht t ∧ t.ths = s.ths.set i .idle) (s.put i q' e) := by
      intro q' e hIt hd
      refine (ih (s.put i q' e) q' hIt (by simp [put_ths, hlt]) ?_ ?_).trans ?_
      · intro j p hj hp
        rcases put_get hi hp with ⟨h1, _⟩ | ⟨_, h1⟩
        · exact absurd h1 hj
        · exact hoth j p hj h1
      · rw [put_root, put_splits]; omega
      · rintro u ⟨h1, h2⟩
        refine .here ⟨h1, ?_⟩
        rw [h2, put_ths, List.set_set]
    by_cases hid : q = .idle
    · subst hid
      refine .here ⟨hI, ?_⟩
      apply List.ext_getElem?
      intro j
      rw [List.getElem?_set]
      by_cases hj : i = j
      · subst hj; simp only [if_true, hlt, hi]
      · simp [hj]
    have hs : s.stuck i q = false := by
      have hcl : ∀ a, s.claimable i a = true := fun a => alone_claimable (hal a)
      have hrd : ∀ a, s.readable i a = true := fun a => claimable_readable (hcl a)
      cases q <;> simp [Sys.stuck, hal, hcl, hrd]
    by_cases hr : ∃ l g, q = .rest l g
    · obtain ⟨l, g, rfl⟩ := hr
      exact .close i l g hi (again _ _ (inv_call hI (.close hi)) (by simp [dist, Eff.root, Eff.sp]))
    by_cases hsp : ∃ p z, q = .spin p z
    · obtain ⟨p, z, rfl⟩ := hsp
      have hc : s.claimable i z = true := alone_claimable (hal z)
      refine force_spin hI hi hc ?_
      rintro t rfl
      refine again _ _ ?_ (by simp [dist, Eff.root, Eff.sp]; omega)
      refine inv_put hI hi ?_ ho (by simp)
      intro a m hm
      simp [Pc.holds] at hm
      rcases hm with ⟨rfl, rfl⟩ | ⟨rfl, rfl⟩
      · exact Or.inr (Or.inl ⟨.c, by simp, by simp [Pc.holds]⟩)
      · exact Or.inr (Or.inr hc)
    refine .go i (can_step hh hi ho hs hid (fun l g e => hr ⟨l, g, e⟩)) ?_
    intro t hst
    have hIt := inv_step hI hst
    obtain ⟨hi', hn⟩ := hst
    rw [hi] at hi'; cases hi'
    refine again _ _ hIt ?_
    have := next_dec true 0 hn ho (fun _ => hal) (by simp) (fun p z e => hsp ⟨p, z, e⟩)
    omega

/-- All threads can be brought to the ends of their operations. -/
theorem force_quiet {ht : Nat → Nat} (hh : AllHeights ht) : ∀ (n : Nat) (s : Sys), Inv ht s → busy s ≤ n →
    Force false ht Quiet s := by
  intro n
  induction n with
  | zero =>
    intro s _ hb
    refine .here (fun q hq => ?_)
    have : busy s = 0 := by omega
    unfold busy at this
    rw [List.countP_eq_zero] at this
    simpa using this q hq
  | succ n ih =>
    intro s hI hb
    refine (force_release hh _ s hI (Nat.lt_succ_self _)).trans ?_
    rintro t ⟨hIt, hact, hbt⟩
    by_cases hq : Quiet t
    · exact .here hq
    simp only [Quiet, not_forall] at hq
    obtain ⟨q, hmem, hne⟩ := hq
    obtain ⟨i, hi⟩ := List.mem_iff_getElem?.mp hmem
    refine (force_solo hh i _ t q hIt hi ?_ (Nat.lt_succ_self _)).trans ?_
    · intro j p _ hp
      have := hact p (List.mem_of_getElem? hp)
      simpa [Pc.active] using this
    · rintro u ⟨hIu, hu⟩
      refine ih u hIu ?_
      have := countP_set (· != Pc.idle) Pc.idle t.ths i q hi (by simpa using hne)
      unfold busy at hbt ⊢ hb
      rw [hu]
      simp at this
      omega

end Splinter.BtreeLock
