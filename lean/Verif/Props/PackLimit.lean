import Verif.Props.Pack
/-!
When `btree_pack` stops early, and what counters it cannot know.
-/
namespace Splinter.Btree
open Search

variable {K M : Type} [LinearOrder K]

section
omit [LinearOrder K]

theorem placeIndex_limit {P : Env K M} {create : Req K M → Nat → Except Fail (Req K M)} {h : Nat} {e : Entry K}
    {r : Req K M} (hc : ∀ r h, create r h ≠ .error .limit) : placeIndex P create h e r ≠ .error .limit := by
  unfold placeIndex
  split
  · simp
  · split
    · rename_i f hf
      intro he
      simp only [Except.error.injEq] at he
      subst he
      exact hc _ _ hf
    · split <;> simp

theorem linkNode_limit {P : Env K M} {create : Req K M → Nat → Except Fail (Req K M)} {h off : Nat}
    {r : Req K M} (hc : ∀ r h, create r h ≠ .error .limit) : linkNode P create h off r ≠ .error .limit := by
  unfold linkNode
  split
  · simp
  · split
    · simp
    · split
      · rename_i f hf
        intro he
        simp only [Except.error.injEq] at he
        subst he
        exact placeIndex_limit hc hf
      · simp

theorem linkLoop_limit {P : Env K M} {create : Req K M → Nat → Except Fail (Req K M)} {h : Nat}
    (hc : ∀ r h, create r h ≠ .error .limit) : ∀ n off (r : Req K M), linkLoop P create h off n r ≠ .error .limit := by
  intro n
  induction n with
  | zero => intro off r; simp [linkLoop]
  | succ n ih =>
    intro off r
    simp only [linkLoop]
    split
    · rename_i f hf
      intro he
      simp only [Except.error.injEq] at he
      subst he
      exact linkNode_limit hc hf
    · exact ih _ _

theorem linkExtent_limit {P : Env K M} {create : Req K M → Nat → Except Fail (Req K M)} {h : Nat}
    {r : Req K M} (hc : ∀ r h, create r h ≠ .error .limit) : linkExtent P create h r ≠ .error .limit := by
  unfold linkExtent
  split
  · rename_i f hf
    intro he
    simp only [Except.error.injEq] at he
    subst he
    exact linkLoop_limit hc _ _ _ hf
  · simp

theorem createNext_limit {P : Env K M} : ∀ f (r : Req K M) h, createNext P f r h ≠ .error .limit := by
  intro f
  induction f with
  | zero => intro r h; simp [createNext]
  | succ f ih =>
    intro r h
    simp only [createNext]
    split
    · rename_i x hx
      intro he
      simp only [Except.error.injEq] at he
      subst he
      split at hx
      · simp at hx
      · split at hx
        · simp at hx
        · exact linkExtent_limit ih hx
    · split <;> simp

theorem placeLeaf_limit {P : Env K M} {x : K × M} {r : Req K M} : placeLeaf P x r ≠ .error .limit := by
  unfold placeLeaf
  split
  · simp
  · split
    · rename_i f hf
      intro he
      simp only [Except.error.injEq] at he
      subst he
      exact createNext_limit _ _ _ hf
    · split <;> simp

theorem finishLoop_limit {P : Env K M} : ∀ f h (r : Req K M), finishLoop P f h r ≠ .error .limit := by
  intro f
  induction f with
  | zero => intro h r; simp [finishLoop]
  | succ f ih =>
    intro h r
    simp only [finishLoop]
    split
    · split
      · rename_i x hx
        intro he
        simp only [Except.error.injEq] at he
        subst he
        exact linkExtent_limit (createNext_limit f) hx
      · exact ih _ _
    · simp
end

theorem packAll_limit {P : Env K M} (inj : ∀ i j, P.page i = P.page j → i = j) :
    ∀ (ys : List (K × M)) {r : Req K M} {pend : Open K M} {xs : List (K × M)},
      PInv P r (fun _ => 0) pend xs 0 none → (pend 0 = [] → xs = []) → Totals P r xs →
      (xs ++ ys).Pairwise (fun x y => x.1 < y.1) →
      (∀ {r' : Req K M}, packAll P ys r = .ok r' → (ys = [] ∨ (xs ++ ys).length ≤ P.maxTuples) ∧
        ∀ y ∈ ys, P.bad y.2 = false) ∧
      (packAll P ys r = .error .limit → P.maxTuples < (xs ++ ys).length) := by
  intro ys
  induction ys with
  | nil => intro r pend xs _ _ _ _; simp [packAll]
  | cons y ys ih =>
    intro r pend xs inv h0 ht hs
    have hs1 : xs ++ y :: ys = xs ++ [y] ++ ys := by simp
    simp only [packAll]
    cases hp : packOne P r y with
    | error f =>
      refine ⟨by simp, ?_⟩
      simp only [Except.error.injEq]
      rintro rfl
      have htu := ht.tuples
      unfold packOne at hp
      split at hp
      · simp; omega
      · split at hp
        · simp at hp
        · split at hp
          · rename_i f hf
            simp only [Except.error.injEq] at hp
            subst hp
            exact absurd hf placeLeaf_limit
          · simp at hp
    | ok r1 =>
      rw [hs1] at hs
      obtain ⟨pend1, i1, i2, i3⟩ := packOne_spec inj inv h0 ht (List.pairwise_append.1 hs).1 hp
      obtain ⟨k1, k2⟩ := ih i1 (fun h => absurd h i2) i3 hs
      have hlt : r.numTuples < P.maxTuples ∧ P.bad y.2 = false := by
        unfold packOne at hp
        split at hp
        · simp at hp
        · split at hp
          · simp at hp
          · rename_i h1 h2
            exact ⟨by omega, by simpa using h2⟩
      have htu := ht.tuples
      rw [hs1]
      refine ⟨fun e => ?_, k2⟩
      obtain ⟨k3, k4⟩ := k1 e
      refine ⟨.inr ?_, ?_⟩
      · rcases k3 with rfl | k3
        · simp; omega
        · exact k3
      · intro z hz
        rcases List.mem_cons.1 hz with rfl | hz
        · exact hlt.2
        · exact k4 z hz

/-- **C14**: a packed tree has no more tuples than asked for and no invalid message; packing
stops with "limit exceeded" only if the stream is longer than that. -/
theorem pack_limit {P : Env K M} (inj : ∀ i j, P.page i = P.page j → i = j) {xs : List (K × M)}
    (hs : xs.Pairwise (fun x y => x.1 < y.1)) :
    (∀ t : Packed K M, pack P xs = .ok t → xs.length ≤ P.maxTuples ∧ ∀ x ∈ xs, P.bad x.2 = false) ∧
    (pack P xs = .error .limit → P.maxTuples < xs.length) := by
  obtain ⟨h1, h2⟩ := packAll_limit inj xs (setup_inv P) (fun _ => rfl)
    ⟨rfl, rfl, rfl, by cases P.hash <;> rfl⟩ (by simpa using hs)
  refine ⟨fun t e => ?_, fun e => ?_⟩
  · unfold pack at e
    split at e
    · simp at e
    · rename_i r hr
      obtain ⟨k1, k2⟩ := h1 hr
      refine ⟨?_, k2⟩
      rcases k1 with rfl | k1
      · simp
      · simpa using k1
  · unfold pack at e
    split at e
    · rename_i f hf
      simp only [Except.error.injEq] at e
      subst e
      simpa using h2 hf
    · rename_i r hr
      unfold finish at e
      split at e
      · simp at e
      · split at e
        · rename_i f hf
          simp only [Except.error.injEq] at e
          subst e
          exact absurd hf (finishLoop_limit _ _ _)
        · split at e <;> simp at e

/-! ### Unknown counters -/

/-- A counter of a `Stats`. -/
inductive Ctr | kvs | kb | mb
  deriving DecidableEq, Repr

def Ctr.of : Ctr → Stats → Nat
  | .kvs, s => s.kvs
  | .kb, s => s.kb
  | .mb, s => s.mb

theorem acc_unknown {c : Ctr} {d s : Stats} (h : c.of d = UNK ∨ c.of s = UNK) : c.of (d.acc s) = UNK := by
  cases c <;> simp only [Ctr.of, Stats.acc, addUnk] at h ⊢ <;>
    exact if_neg fun hh => h.elim hh.1 hh.2

omit [LinearOrder K] in
theorem foldl_unknown {c : Ctr} {es : List (Entry K)} : ∀ {s : Stats},
    (c.of s = UNK ∨ ∃ e ∈ es, c.of e.stats = UNK) → c.of (es.foldl (fun s e => s.acc e.stats) s) = UNK := by
  induction es with
  | nil => intro s h; rcases h with h | ⟨_, h, _⟩; exact h; cases h
  | cons e es ih =>
    intro s h
    rw [List.foldl_cons]
    refine ih ?_
    rcases h with h | ⟨x, hx, h⟩
    · exact .inl (acc_unknown (.inl h))
    · rcases List.mem_cons.1 hx with rfl | hx
      · exact .inl (acc_unknown (.inr h))
      · exact .inr ⟨x, hx, h⟩

variable [BoundedOrder K] [Inhabited K]

/-- The search for `k` from page `a` passes, at some level, a child left of its path whose
counter `c` is unknown. -/
inductive Passes (st : Store K M) (c : Ctr) (k : K) : Nat → Nat → Prop
  | here {d a : Nat} {n : Node K M} {es : List (Entry K)} {e : Entry K} (h : st a = some n)
      (b : n.body = .index es) (hm : e ∈ es.take (childIdx es k)) (hu : c.of e.stats = UNK) : Passes st c k (d + 1) a
  | deeper {d a : Nat} {n : Node K M} {es : List (Entry K)} {e : Entry K} (h : st a = some n)
      (b : n.body = .index es) (hi : es[childIdx es k]? = some e) (hp : Passes st c k d e.child) :
      Passes st c k (d + 1) a

theorem descend_unknown {st : Store K M} {c : Ctr} {k : K} : ∀ (d : Nat) {a b : Nat} {s q : Stats},
    descend st k d a s = some (b, q) → (c.of s = UNK ∨ Passes st c k d a) → c.of q = UNK := by
  intro d
  induction d with
  | zero =>
    intro a b s q e h
    simp only [descend, Option.some.injEq, Prod.mk.injEq] at e
    rw [← e.2]
    rcases h with h | h
    · exact h
    · cases h
  | succ d ih =>
    intro a b s q e h
    obtain ⟨n, hn, e⟩ := Option.bind_eq_some_iff.1 e
    split at e
    · cases e
    · rename_i es hb
      obtain ⟨x, hx, e⟩ := Option.bind_eq_some_iff.1 e
      refine ih e ?_
      rcases h with h | h
      · exact .inl (foldl_unknown (.inl h))
      · cases h with
        | here h b hm hu =>
          rw [hn] at h; cases h
          rw [hb] at b; cases b
          exact .inl (foldl_unknown (.inr ⟨_, hm, hu⟩))
        | deeper h b hi hp =>
          rw [hn] at h; cases h
          rw [hb] at b; cases b
          rw [hx] at hi; cases hi
          exact .inr hp

omit [LinearOrder K] [BoundedOrder K] [Inhabited K] in
theorem accLeaf_unknown {ksz : K → Nat} {msz : M → Nat} {es : List (K × M)} {i : Nat} {s : Stats} :
    (s.kb = UNK → (accLeaf ksz msz es i s).kb = UNK) ∧ (s.mb = UNK → (accLeaf ksz msz es i s).mb = UNK) := by
  have : ∀ (l : List (K × M)) (s : Stats),
      (s.kb = UNK → (l.foldl (fun s e => { s with kb := addUnk s.kb (ksz e.1), mb := addUnk s.mb (msz e.2) }) s).kb = UNK) ∧
      (s.mb = UNK → (l.foldl (fun s e => { s with kb := addUnk s.kb (ksz e.1), mb := addUnk s.mb (msz e.2) }) s).mb = UNK) := by
    intro l
    induction l with
    | nil => intro s; exact ⟨id, id⟩
    | cons e l ih =>
      intro s
      obtain ⟨h1, h2⟩ := ih ⟨s.kvs, addUnk s.kb (ksz e.1), addUnk s.mb (msz e.2)⟩
      refine ⟨fun h => h1 ?_, fun h => h2 ?_⟩ <;> simp [addUnk, h]
  exact this (es.take i) s

/-- **C40**: a byte total that the tree does not know is reported as unknown: a rank whose
path passes a child with an unknown byte counter has that counter unknown. -/
theorem rank_unknown {ksz : K → Nat} {msz : M → Nat} {st : Store K M} {root : Nat} {k : K} {q : Stats}
    {n : Node K M} (hn : st root = some n) (e : getRank ksz msz st root k = some q) :
    (Passes st .kb k n.height root → q.kb = UNK) ∧ (Passes st .mb k n.height root → q.mb = UNK) := by
  unfold getRank at e
  obtain ⟨⟨a, s⟩, h1, e⟩ := Option.bind_eq_some_iff.1 e
  obtain ⟨es, h2, e⟩ := Option.bind_eq_some_iff.1 e
  simp only [Option.some.injEq] at e
  subst e
  unfold lookupNode at h1
  rw [hn] at h1
  simp only [Option.bind_eq_bind, Option.bind_some, Nat.sub_zero] at h1
  exact ⟨fun h => accLeaf_unknown.1 (descend_unknown (c := .kb) _ h1 (.inr h)),
    fun h => accLeaf_unknown.2 (descend_unknown (c := .mb) _ h1 (.inr h))⟩

/-- A tree with unknown counters: a root over two leaves, as `btree_insert` leaves it. -/
def unkTree : Store (Fin 8) Nat := fun a =>
  if a = 1 then some ⟨1, 0, 0, .index [⟨0, 2, ⟨UNK, UNK, UNK⟩⟩, ⟨3, 3, ⟨UNK, UNK, UNK⟩⟩]⟩
  else if a = 2 then some ⟨0, 3, 0, .leaf [(0, 0), (1, 0), (2, 0)]⟩
  else if a = 3 then some ⟨0, 0, 2, .leaf [(3, 0), (4, 0)]⟩
  else none

/-- The number of keys is not treated so: `accumulate_node_ranks` adds the position in the
leaf without looking, and reports a number that is neither the rank, which is 4, nor
"unknown". -/
theorem rank_unknown_wrong :
    (getRank (fun _ => 1) (fun _ => 1) unkTree 1 4).map (·.kvs) = some (UNK + 1) ∧
    (getRank (fun _ => 1) (fun _ => 1) unkTree 1 4).map (·.kb) = some UNK := by
  decide +kernel

example : Passes unkTree .kb 4 1 1 :=
  .here (n := ⟨1, 0, 0, .index [⟨0, 2, ⟨UNK, UNK, UNK⟩⟩, ⟨3, 3, ⟨UNK, UNK, UNK⟩⟩]⟩) rfl rfl
    (e := ⟨0, 2, ⟨UNK, UNK, UNK⟩⟩) (by decide +kernel) rfl

/-- Eleven tuples, at most ten asked for. -/
example : (match pack { exEnv with maxTuples := 10 } exStream with
    | .error .limit => true
    | _ => false) = true ∧ exStream.length = 11 :=
  ⟨by decide +kernel, rfl⟩

end Splinter.Btree
