import Verif.Model.Async
import Verif.Proof.Btree
/-!
Invariants of the asynchronous lookups.
-/
namespace Splinter.Async

namespace Filter
open Splinter.Filter Splinter.PA
open Splinter.Log (Mem)

/-- What is known in each state. The parameters are those of the synchronous lookup. -/
def FInv (c : Cfg) (f : Splinter.Filter.Filter) (dev : Nat → Mem) (rs bucket index rem v : Nat) (x : Ctx) : Prop :=
  let raw := rd (dev (f.addr + c.ps * (index / (c.ps / 8)))) (8 * (index % (c.ps / 8))) 8
  let par := x.rs = rs ∧ x.bucket = bucket ∧ x.index = index ∧ x.remainder = rem
  match x.pc with
  | .start => x.refs = 0
  | .getIndex => par ∧ x.refs = 0 ∧ x.pageAddr = f.addr + c.ps * (index / (c.ps / 8))
  | .gotIndex => par ∧ x.refs = 1 ∧ x.page = f.addr + c.ps * (index / (c.ps / 8))
  | .getFilter => par ∧ x.refs = 0 ∧ x.headerAddr = raw ∧ x.pageAddr = raw - raw % c.ps
  | .gotFilter => par ∧ x.refs = 1 ∧ x.headerAddr = raw ∧ x.page = raw - raw % c.ps
  | .returned => x.refs = 0 ∧ x.found = some v

/-- Steps that are left if no page is refused. -/
def left : PC → Nat
  | .start => 4
  | .getIndex => 4
  | .gotIndex => 3
  | .getFilter => 2
  | .gotFilter => 1
  | .returned => 0

theorem step_inv {c : Cfg} {dev : Nat → Mem} {f : Splinter.Filter.Filter} {h v : Nat} (ha : f.addr ≠ 0)
    (hl : lookup c dev f h = some v) :
    ∃ rs bucket index rem, ∀ a x, FInv c f dev rs bucket index rem v x → ∃ x', step c dev f h a x = some x' ∧
      FInv c f dev rs bucket index rem v x' ∧ left x'.pc ≤ left x.pc ∧
      (a ≠ .again → left x'.pc ≤ left x.pc - 1) := by
  unfold lookup at hl
  rw [if_neg ha] at hl
  obtain ⟨lb, h1, hl⟩ := Option.bind_eq_some_iff.mp hl
  split at hl
  · cases hl
  rename_i hF
  obtain ⟨bucket, h2, hl⟩ := Option.bind_eq_some_iff.mp hl
  obtain ⟨index, h3, hl⟩ := Option.bind_eq_some_iff.mp hl
  obtain ⟨⟨pa, off⟩, h4, hl⟩ := Option.bind_eq_some_iff.mp hl
  obtain ⟨n, h5, hl⟩ := Option.bind_eq_some_iff.mp hl
  obtain ⟨⟨s, t⟩, h6, hl⟩ := Option.bind_eq_some_iff.mp hl
  unfold getHeader at h4
  simp only at h4
  split at h4
  · cases h4
  split at h4
  · cases h4
  obtain ⟨rfl, rfl⟩ := Prod.mk.inj (Option.some.inj h4)
  refine ⟨c.F - lb, bucket, index, (h >>> (32 - c.F)) &&& (2 ^ (c.F - lb) - 1), fun a x I => ?_⟩
  obtain ⟨pc, xrs, xb, xi, xrem, xpa, xha, xpg, xrefs, xf⟩ := x
  cases pc with
  | start =>
    simp only [FInv] at I
    subst I
    simp only [step, h1, Option.bind_some, if_neg hF, h2, h3]
    refine ⟨_, rfl, ?_⟩
    cases a <;> simp [getBody, FInv, left]
  | getIndex =>
    simp only [FInv] at I
    refine ⟨_, rfl, ?_⟩
    cases a <;> simp [getBody, FInv, left, I]
  | gotIndex =>
    simp only [FInv] at I
    refine ⟨_, rfl, ?_⟩
    simp [FInv, left, I]
  | getFilter =>
    simp only [FInv] at I
    refine ⟨_, rfl, ?_⟩
    cases a <;> simp [getBody, FInv, left, I]
  | gotFilter =>
    simp only [FInv] at I
    obtain ⟨⟨rfl, rfl, rfl, rfl⟩, rfl, rfl, rfl⟩ := I
    simp only [step, h5, Option.bind_some, h6]
    have hv : collect (words (dev (rd (dev (f.addr + c.ps * (xi / (c.ps / 8)))) (8 * (xi % (c.ps / 8))) 8 -
        rd (dev (f.addr + c.ps * (xi / (c.ps / 8)))) (8 * (xi % (c.ps / 8))) 8 % c.ps))
        (rd (dev (f.addr + c.ps * (xi / (c.ps / 8)))) (8 * (xi % (c.ps / 8))) 8 % c.ps + headerLength c n)
        ((c.ps - (rd (dev (f.addr + c.ps * (xi / (c.ps / 8)))) (8 * (xi % (c.ps / 8))) 8 % c.ps +
          headerLength c n)) / 4)) (c.F - lb + f.vs) f.vs (h >>> (32 - c.F) &&& 2 ^ (c.F - lb) - 1) s (t - s) 0 =
        some v := by
      simp only [h6, Option.bind_some] at hl
      by_cases e : s = t
      · subst e; rw [if_pos rfl] at hl; rw [Nat.sub_self]; exact hl
      · rw [if_neg e] at hl; exact hl
    rw [hv]
    exact ⟨_, rfl, by simp [FInv, left]⟩
  | returned =>
    exact ⟨_, rfl, I, by simp [left]⟩

theorem run_inv {c : Cfg} {dev : Nat → Mem} {f : Splinter.Filter.Filter} {h v : Nat} (ha : f.addr ≠ 0)
    (hl : lookup c dev f h = some v) (as : List Ans) :
    ∃ x, run c dev f h as init = some x ∧ (x.pc = .returned → x.refs = 0 ∧ x.found = some v) ∧
      (4 ≤ as.countP (· ≠ .again) → x.pc = .returned) := by
  obtain ⟨rs, bucket, index, rem, S⟩ := step_inv ha hl
  have key : ∀ (as : List Ans) x, FInv c f dev rs bucket index rem v x → ∃ x', run c dev f h as x = some x' ∧
      FInv c f dev rs bucket index rem v x' ∧ left x'.pc ≤ left x.pc - as.countP (· ≠ .again) := by
    intro as
    induction as with
    | nil => intro x I; exact ⟨x, rfl, I, by simp⟩
    | cons a as ih =>
      intro x I
      obtain ⟨x1, e1, I1, m1, m2⟩ := S a x I
      obtain ⟨x2, e2, I2, m3⟩ := ih x1 I1
      refine ⟨x2, by simp [run, e1, e2], I2, ?_⟩
      rw [List.countP_cons]
      by_cases h : a = .again
      · simp [h]; simp at m3; omega
      · have := m2 h; simp [h]; simp at m3; omega
  obtain ⟨x, e, I, m⟩ := key as init (by simp [FInv, init])
  refine ⟨x, e, fun hp => ?_, fun hc => ?_⟩
  · unfold FInv at I; rw [hp] at I; exact I
  · have : left x.pc = 0 := by
      have e4 : left init.pc = 4 := rfl
      omega
    cases hp : x.pc <;> rw [hp] at this <;> first | rfl | (simp [left] at this)

end Filter

namespace Btree
open Splinter.Btree Splinter.Search

variable {K M : Type} [LinearOrder K] [BoundedOrder K] [Inhabited K]

theorem childIdx_eq (es : List (Entry K)) {t : K} (ht : t ≠ ⊤) : childIdx es t = Splinter.Btree.childIdx es t := by
  unfold childIdx Splinter.Btree.childIdx
  rw [if_neg ht]

/-- The stats do not matter for where the descent goes. -/
theorem descend_stats (st : Store K M) (t : K) : ∀ (d a : Nat) (s s' : Stats),
    (descend st t d a s).map (·.1) = (descend st t d a s').map (·.1) := by
  intro d
  induction d with
  | zero => intro a s s'; rfl
  | succ d ih =>
    intro a s s'
    unfold descend
    cases st a with
    | none => rfl
    | some n =>
      obtain ⟨_, _, _, b⟩ := n
      cases b with
      | leaf es => rfl
      | index es =>
        cases h : es[Splinter.Btree.childIdx es t]? with
        | none => simp [h]
        | some e => simp only [h, Option.bind_eq_bind, Option.bind_some]; exact ih _ _ _

/-- What is known in each state: `h` is the height of the page about to be read or just
read, from which the synchronous descent reaches `leaf`. -/
def BInv (E : Entry K → List (K × M) → Prop) (st : Store K M) (t : K) (root leaf : Nat) (out : Option M) (x : Ctx M)
    (m : Nat) : Prop :=
  match x.pc with
  | .start => x.refs = 0 ∧ ∃ h s, Holds E st h root s ∧ (descend st t h root .zero).map (·.1) = some leaf ∧
      m = 2 * h + 3
  | .getNode => x.refs = (if x.node.isSome then 1 else 0) ∧ ∃ h s, Holds E st h x.childAddr s ∧
      (descend st t h x.childAddr .zero).map (·.1) = some leaf ∧ m = 2 * h + 3
  | .gotIndex => x.refs = (if x.node.isSome then 2 else 1) ∧ ∃ h s, Holds E st h x.page s ∧
      (descend st t h x.page .zero).map (·.1) = some leaf ∧ m = 2 * h + 2
  | .gotLeaf => x.refs = 1 ∧ x.node = some leaf ∧ m = 1
  | .returned => x.refs = 0 ∧ x.found = some out ∧ m = 0

theorem step_inv {E : Entry K → List (K × M) → Prop} {st : Store K M} {t : K} {root leaf : Nat} {out : Option M}
    (ht : t ≠ ⊤) (hleaf : (do
      let es ← leafOf st leaf
      let (i, found) := btreeFind (es.map (·.1)) t
      if found then
        let e ← es[i.toNat]?
        some (some e.2)
      else some none) = some out) (a : Ans) (x : Ctx M) (m : Nat) (I : BInv E st t root leaf out x m) :
    ∃ x' m', step st root t a x = some x' ∧ BInv E st t root leaf out x' m' ∧ m' ≤ m ∧ (a ≠ .again → m' ≤ m - 1) := by
  obtain ⟨pc, ca, nd, pg, refs, fd⟩ := x
  cases pc with
  | start =>
    obtain ⟨h0, h, s, H, hd, hm⟩ := I
    simp only at h0
    subst h0
    by_cases e : a = .again
    · refine ⟨_, m, rfl, ?_, Nat.le_refl _, fun h => absurd e h⟩
      rw [getBody, if_pos e]
      exact ⟨rfl, h, s, H, hd, hm⟩
    · refine ⟨_, 2 * h + 2, rfl, ?_, by omega, fun _ => by omega⟩
      rw [getBody, if_neg e]
      exact ⟨rfl, h, s, H, hd, rfl⟩
  | getNode =>
    obtain ⟨h0, h, s, H, hd, hm⟩ := I
    simp only at h0 H hd
    by_cases e : a = .again
    · refine ⟨_, m, rfl, ?_, Nat.le_refl _, fun h => absurd e h⟩
      rw [getBody, if_pos e]
      exact ⟨h0, h, s, H, hd, hm⟩
    · refine ⟨_, 2 * h + 2, rfl, ?_, by omega, fun _ => by omega⟩
      rw [getBody, if_neg e]
      refine ⟨?_, h, s, H, hd, rfl⟩
      simp only [h0]
      split <;> rfl
  | gotIndex =>
    obtain ⟨h0, h, s, H, hd, hm⟩ := I
    simp only at h0 H hd
    have hr : (if nd.isSome then refs - 1 else refs) = 1 := by
      rw [h0]; split <;> rfl
    cases h with
    | zero =>
      obtain ⟨n, e1, e2, _⟩ := H
      have : pg = leaf := by simpa [descend] using hd
      subst this
      refine ⟨_, 1, by simp only [step, e1, Option.bind_eq_bind, Option.bind_some, if_pos e2]; rfl, ?_, by omega,
        fun _ => by omega⟩
      exact ⟨hr, rfl, rfl⟩
    | succ h =>
      obtain ⟨n, cs, e1, e2, e3, hc, _⟩ := H
      unfold descend at hd
      rw [e1] at hd
      simp only [e3, Option.bind_eq_bind, Option.bind_some, ← childIdx_eq _ ht] at hd
      cases he : (cs.map (·.1))[childIdx (cs.map (·.1)) t]? with
      | none => rw [he] at hd; cases hd
      | some e =>
        rw [he] at hd
        simp only [Option.bind_some] at hd
        obtain ⟨c, hcm, hce⟩ := List.mem_map.mp (List.mem_of_getElem? he)
        refine ⟨_, 2 * h + 3, by
          simp only [step, e1, Option.bind_eq_bind, Option.bind_some, e2, e3, Nat.succ_ne_zero, if_false, he]; rfl, ?_,
          by omega, fun _ => by omega⟩
        refine ⟨by simpa using hr, h, c.2, ?_, ?_, rfl⟩
        · show Holds E st h e.child c.2
          rw [← hce]; exact (hc c hcm).1
        · show (descend st t h e.child .zero).map (·.1) = some leaf
          rw [descend_stats st t h e.child .zero]; exact hd
  | gotLeaf =>
    obtain ⟨h0, h1, h2⟩ := I
    simp only at h0 h1
    subst h0 h1 h2
    obtain ⟨es, h3, h4⟩ := Option.bind_eq_some_iff.mp hleaf
    simp only at h4
    by_cases hf : (btreeFind (es.map (·.1)) t).2 = true
    · rw [if_pos hf] at h4
      obtain ⟨e, h5, h6⟩ := Option.bind_eq_some_iff.mp h4
      refine ⟨_, 0, by simp only [step, Option.bind_eq_bind, Option.bind_some, h3, if_pos hf, h5]; rfl, ?_, by omega,
        fun _ => by omega⟩
      exact ⟨rfl, h6, rfl⟩
    · rw [if_neg hf] at h4
      refine ⟨_, 0, by simp only [step, Option.bind_eq_bind, Option.bind_some, h3, if_neg hf]; rfl, ?_, by omega,
        fun _ => by omega⟩
      exact ⟨rfl, h4, rfl⟩
  | returned => exact ⟨_, m, rfl, I, Nat.le_refl _, fun _ => by have := I.2.2; omega⟩

theorem run_inv {E : Entry K → List (K × M) → Prop} {st : Store K M} {t : K} {h a : Nat} {s : Splinter.Btree.Sub K M}
    {out : Option M} (ht : t ≠ ⊤) (H : Holds E st h a s) (hl : lookup st a t = some out) (as : List Ans) :
    ∃ x, run st a t as init = some x ∧ (x.pc = .returned → x.refs = 0 ∧ x.found = some out) ∧
      (2 * h + 3 ≤ as.countP (· ≠ .again) → x.pc = .returned) := by
  unfold lookup at hl
  obtain ⟨⟨leaf, z⟩, h1, h2⟩ := Option.bind_eq_some_iff.mp hl
  have hd : (descend st t h a .zero).map (·.1) = some leaf := by
    unfold lookupNode at h1
    obtain ⟨n, n1, n2⟩ := Option.bind_eq_some_iff.mp h1
    have : n.height = h := by
      cases h with
      | zero => obtain ⟨n', e1, e2, _⟩ := H; rw [n1] at e1; cases e1; exact e2
      | succ h => obtain ⟨n', cs, e1, e2, _⟩ := H; rw [n1] at e1; cases e1; exact e2
    rw [this, Nat.sub_zero] at n2
    rw [n2]; rfl
  have key : ∀ (as : List Ans) x m, BInv E st t a leaf out x m → ∃ x' m', run st a t as x = some x' ∧
      BInv E st t a leaf out x' m' ∧ m' ≤ m - as.countP (· ≠ .again) := by
    intro as
    induction as with
    | nil => intro x m I; exact ⟨x, m, rfl, I, by simp⟩
    | cons b as ih =>
      intro x m I
      obtain ⟨x1, m1, e1, I1, l1, l2⟩ := step_inv ht h2 b x m I
      obtain ⟨x2, m2, e2, I2, l3⟩ := ih x1 m1 I1
      refine ⟨x2, m2, by simp [run, e1, e2], I2, ?_⟩
      rw [List.countP_cons]
      by_cases h : b = .again
      · simp [h]; simp at l3; omega
      · have := l2 h; simp [h]; simp at l3; omega
  obtain ⟨x, m, e, I, l⟩ := key as init (2 * h + 3) ⟨rfl, h, s, H, hd, rfl⟩
  refine ⟨x, e, fun hp => ?_, fun hc => ?_⟩
  · unfold BInv at I; rw [hp] at I; exact ⟨I.1, I.2.1⟩
  · have h0 : m = 0 := by omega
    subst h0
    unfold BInv at I
    cases hp : x.pc <;> rw [hp] at I
    · obtain ⟨_, h, _, _, _, e⟩ := I; omega
    · obtain ⟨_, h, _, _, _, e⟩ := I; omega
    · obtain ⟨_, h, _, _, _, e⟩ := I; omega
    · obtain ⟨_, _, e⟩ := I; omega

end Btree

end Splinter.Async
