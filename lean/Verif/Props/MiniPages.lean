import Verif.Props.Mini
import Mathlib.Data.List.Chain
import Mathlib.Data.List.Nodup

/-!
# C38: pages handed out by a mini allocator

For any number of threads allocating pages from any batches. `Good` collects what is assumed about the
configuration: extents are a whole number of pages, the extent allocator returns extent-aligned addresses and
never the same extent twice (C17), and not the extent of the first meta page.
-/
namespace Splinter.Mini
variable {K : Type}

structure Good (c : Cfg K) (head : Nat) : Prop where
  ps : 1 < c.ps
  pages : ∃ p, 0 < p ∧ c.es = p * c.ps
  aligned : ∀ i, c.es ∣ c.src i
  inj : ∀ i j, c.src i = c.src j → i = j
  headPage : c.ps ∣ head
  fits : ∀ k, c.sz k ≤ c.cap
  headFresh : ∀ i, c.src i ≠ head / c.es * c.es

/-- What an extent is used for. -/
inductive Own where
  | data (b : Nat)
  | ahead (b : Nat)
  | metas
deriving DecidableEq

/-- The page at `a` lies in extent `e`. -/
def InExt (c : Cfg K) (e a : Nat) : Prop := e ≤ a ∧ a + c.ps ≤ e + c.es

theorem Good.es_pos {c : Cfg K} {head : Nat} (g : Good c head) : 0 < c.es := by
  obtain ⟨p, hp, he⟩ := g.pages
  rw [he]; exact Nat.mul_pos hp (by have := g.ps; omega)

theorem base_of {c : Cfg K} {head : Nat} (g : Good c head) {e a : Nat} (he : c.es ∣ e) (h : InExt c e a) : a / c.es * c.es = e := by
  obtain ⟨q, rfl⟩ := he
  have hp := g.es_pos
  have h1 := g.ps
  obtain ⟨h2, h3⟩ := h
  have : a / c.es = q := by
    rw [Nat.div_eq_iff hp]
    rw [Nat.mul_comm c.es q] at h2 h3
    omega
  rw [this, Nat.mul_comm]

theorem ext_unique {c : Cfg K} {head : Nat} (g : Good c head) {i j a : Nat} (hi : InExt c (c.src i) a) (hj : InExt c (c.src j) a) : i = j :=
  g.inj i j ((base_of g (g.aligned i) hi).symm.trans (base_of g (g.aligned j) hj))

def listed (s : State K) : List Nat := s.entries.filterMap (·.ext)

/-- Address `a` is a page of an extent of batch `b` (a listed one if `l`), above all pages handed out of that extent. -/
def Room (l : Bool) (c : Cfg K) (s : State K) (cls : Nat → Own) (b a : Nat) : Prop :=
  c.ps ∣ a ∧ ∃ i, i < s.taken ∧ cls i = .data b ∧ InExt c (c.src i) a ∧ (∀ x ∈ s.out, InExt c (c.src i) x.2 → x.2 < a) ∧
    (l = true → c.src i ∈ listed s)

def outOf (s : State K) (b : Nat) : List Nat := (s.out.filter (·.1 = b)).map (·.2)

/-- Successive pages of a batch: adjacent, or the last page of an extent and the first of another. -/
def Next (c : Cfg K) (x a : Nat) : Prop := a = x + c.ps ∨ (a % c.es = 0 ∧ (x + c.ps) % c.es = 0)

def NextOpt (c : Cfg K) : Option Nat → Nat → Prop
  | none, a => a % c.es = 0
  | some x, a => Next c x a

def AfterOpt (c : Cfg K) : Option Nat → Nat → Prop
  | none, a => a = 0
  | some x, a => a = x + c.ps

def Ready (c : Cfg K) (s : State K) (cls : Nat → Own) (b a : Nat) : Prop :=
  (a % c.es = 0 ∨ Room true c s cls b a) ∧ AfterOpt c (outOf s b).getLast? a

def PC.batch : PC K → Option Nat
  | .idle => none
  | .locked b _ _ => some b
  | .list b _ _ => some b
  | .ret b _ => some b

def PCok (c : Cfg K) (s : State K) (cls : Nat → Own) : PC K → Prop
  | .idle => True
  | .locked b _ a => Ready c s cls b a
  | .list b _ e => Room false c s cls b e ∧ e % c.es = 0 ∧ (∀ x, (outOf s b).getLast? = some x → (x + c.ps) % c.es = 0) ∧ e ∉ listed s
  | .ret b a => Room true c s cls b a ∧ NextOpt c (outOf s b).getLast? a

/-- The addresses of the meta pages. -/
structure MetaInv (c : Cfg K) (head taken : Nat) (cls : Nat → Own) (ms : List Nat) : Prop where
  nodup : ms.Nodup
  own : ∀ m ∈ ms, c.ps ∣ m ∧ (InExt c (head / c.es * c.es) m ∨ ∃ i, i < taken ∧ cls i = .metas ∧ InExt c (c.src i) m)
  top : ∃ tl, ms.getLast? = some tl ∧ ∀ m ∈ ms, m / c.es = tl / c.es → m ≤ tl

structure Inv (c : Cfg K) (head n : Nat) (s : State K) (cls : Nat → Own) : Prop where
  lock : ∀ t b, (s.pc t).batch = some b → b < n ∧ s.nextAddr b = 1
  one : ∀ t u b, (s.pc t).batch = some b → (s.pc u).batch = some b → t = u
  pcs : ∀ t, PCok c s cls (s.pc t)
  next : ∀ b, b < n → s.nextAddr b ≠ 1 → Ready c s cls b (s.nextAddr b)
  ahead : ∀ b, b < n → ∃ i, i < s.taken ∧ cls i = .ahead b ∧ s.nextExtent b = c.src i
  outs : ∀ x ∈ s.out, x.1 < n ∧ c.ps ∣ x.2 ∧ ∃ i, i < s.taken ∧ cls i = .data x.1 ∧ InExt c (c.src i) x.2 ∧ c.src i ∈ listed s
  nodup : (s.out.map (·.2)).Nodup
  chain : ∀ b, (outOf s b).IsChain (Next c)
  first : ∀ b x, (outOf s b).head? = some x → x % c.es = 0
  listedNodup : (listed s).Nodup
  listedOwn : ∀ e ∈ s.entries, e.batch < n ∧ ∃ i x, e.ext = some x ∧ i < s.taken ∧ cls i = .data e.batch ∧ x = c.src i
  metas : MetaInv c head s.taken cls (s.metas.map (·.1))

/-! ### Steps that leave batch `b` alone -/

structure Frame (c : Cfg K) (s : State K) (cls : Nat → Own) (s' : State K) (cls' : Nat → Own) (b : Nat) : Prop where
  taken : s.taken ≤ s'.taken
  keep : ∀ i, i < s.taken → cls i = .data b → cls' i = .data b
  listed : ∀ e ∈ listed s, e ∈ Mini.listed s'
  newListed : ∀ e ∈ Mini.listed s', e ∈ Mini.listed s ∨ ∃ b' i, b' ≠ b ∧ i < s.taken ∧ cls i = .data b' ∧ e = c.src i
  out : ∀ x ∈ s'.out, x ∈ s.out ∨ ∃ b' i, b' ≠ b ∧ i < s.taken ∧ cls i = .data b' ∧ InExt c (c.src i) x.2
  outOf : outOf s' b = Mini.outOf s b

theorem Room.frame {c : Cfg K} {head : Nat} (g : Good c head) {s s' : State K} {cls cls' : Nat → Own} {b a : Nat} {l : Bool}
    (h : Room l c s cls b a) (f : Frame c s cls s' cls' b) : Room l c s' cls' b a := by
  obtain ⟨h1, i, h2, h3, h4, h5, h6⟩ := h
  refine ⟨h1, i, by have := f.taken; omega, f.keep i h2 h3, h4, fun x hx hi => ?_, fun hl => f.listed _ (h6 hl)⟩
  rcases f.out x hx with h7 | ⟨b', j, h7, _, h9, h10⟩
  · exact h5 x h7 hi
  · have := ext_unique g hi h10
    subst this
    rw [h3] at h9
    injection h9 with h9
    exact absurd h9.symm h7

theorem Ready.frame {c : Cfg K} {head : Nat} (g : Good c head) {s s' : State K} {cls cls' : Nat → Own} {b a : Nat}
    (h : Ready c s cls b a) (f : Frame c s cls s' cls' b) : Ready c s' cls' b a :=
  ⟨h.1.imp id fun h => h.frame g f, by rw [f.outOf]; exact h.2⟩

theorem src_of_aligned {c : Cfg K} {head : Nat} (g : Good c head) {i e : Nat} (h : InExt c (c.src i) e) (he : e % c.es = 0) : e = c.src i := by
  have h1 := base_of g (g.aligned i) h
  have h2 := Nat.div_add_mod e c.es
  rw [he, Nat.mul_comm] at h2
  omega

theorem PCok.frame {c : Cfg K} {head : Nat} (g : Good c head) {s s' : State K} {cls cls' : Nat → Own} {p : PC K}
    (h : PCok c s cls p) (f : ∀ b, p.batch = some b → Frame c s cls s' cls' b) : PCok c s' cls' p := by
  cases p with
  | idle => trivial
  | locked b k a => exact Ready.frame g h (f b rfl)
  | list b k e =>
    obtain ⟨h1, h2, h3, h4⟩ := h
    have ff := f b rfl
    refine ⟨h1.frame g ff, h2, by rw [ff.outOf]; exact h3, fun hl => ?_⟩
    rcases ff.newListed e hl with h5 | ⟨b', j, h5, _, h7, h8⟩
    · exact h4 h5
    · obtain ⟨_, i, _, h9, h10, _⟩ := h1
      have := src_of_aligned g h10 h2
      have := g.inj i j (this.symm.trans h8)
      subst this
      rw [h9] at h7
      injection h7 with h7
      exact h5 h7.symm
  | ret b a =>
    have ff := f b rfl
    exact ⟨h.1.frame g ff, by rw [ff.outOf]; exact h.2⟩

/-! ### Listing an extent -/

theorem append_spec {c : Cfg K} {head : Nat} (g : Good c head) (s : State K) (e : Ent K) {tl : Nat} (ht : (s.metas.map (·.1)).getLast? = some tl) :
    ∃ s', appendEntry c s e = some s' ∧ s'.entries = s.entries ++ [e] ∧ s'.nextAddr = s.nextAddr ∧ s'.nextExtent = s.nextExtent ∧
      s'.pc = s.pc ∧ s'.out = s.out ∧
      ((s'.taken = s.taken ∧ s'.metas.map (·.1) = s.metas.map (·.1)) ∨
       (s'.taken = s.taken ∧ (tl + c.ps) % c.es ≠ 0 ∧ s'.metas.map (·.1) = s.metas.map (·.1) ++ [tl + c.ps]) ∨
       (s'.taken = s.taken + 1 ∧ s'.metas.map (·.1) = s.metas.map (·.1) ++ [c.src s.taken])) := by
  rw [List.getLast?_map] at ht
  cases hl : s.metas.getLast? with
  | none => rw [hl] at ht; cases ht
  | some m =>
    obtain ⟨a, l⟩ := m
    rw [hl] at ht
    simp only [Option.map_some, Option.some.injEq] at ht
    subst ht
    have hd : s.metas = s.metas.dropLast ++ [(a, l)] := by
      rw [List.getLast?_eq_some_iff] at hl
      obtain ⟨ys, hy⟩ := hl
      rw [hy, List.dropLast_concat]
    unfold appendEntry
    rw [hl]
    simp only [g.fits, if_true]
    by_cases h1 : used c l + c.sz e.key ≤ c.cap
    · rw [if_pos h1]
      refine ⟨_, rfl, ?_, rfl, rfl, rfl, rfl, .inl ⟨rfl, ?_⟩⟩
      · unfold State.entries
        conv => rhs; rw [hd]
        simp [List.flatMap_append]
      · conv => rhs; rw [hd]
        simp
    · rw [if_neg h1]
      by_cases h2 : (a + c.ps) % c.es = 0
      · rw [if_pos h2]
        refine ⟨_, rfl, ?_, rfl, rfl, rfl, rfl, .inr (.inr ⟨rfl, ?_⟩)⟩
        · simp [State.entries, List.flatMap_append]
        · simp
      · rw [if_neg h2]
        refine ⟨_, rfl, ?_, rfl, rfl, rfl, rfl, .inr (.inl ⟨rfl, h2, ?_⟩)⟩
        · simp [State.entries, List.flatMap_append]
        · simp

theorem inExt_of_page {c : Cfg K} {head : Nat} (g : Good c head) {e a : Nat} (ha : c.ps ∣ a) (he : c.es ∣ e) (h1 : e ≤ a) (h2 : a < e + c.es) : InExt c e a := by
  obtain ⟨p, _, hp⟩ := g.pages
  obtain ⟨x, rfl⟩ := ha
  obtain ⟨y, rfl⟩ := he
  have : c.es * y + c.es = c.ps * (p * y + p) := by
    rw [hp, Nat.mul_add, Nat.mul_comm c.ps (p * y), Nat.mul_right_comm, Nat.mul_comm c.ps p]
  refine ⟨h1, ?_⟩
  rw [this] at h2 ⊢
  have h3 := Nat.lt_of_mul_lt_mul_left h2
  calc c.ps * x + c.ps = c.ps * (x + 1) := rfl
    _ ≤ _ := Nat.mul_le_mul_left _ h3

theorem inExt_next {c : Cfg K} {head : Nat} (g : Good c head) {e a : Nat} (ha : c.ps ∣ a) (he : c.es ∣ e) (h : InExt c e a) (hn : (a + c.ps) % c.es ≠ 0) :
    InExt c e (a + c.ps) := by
  refine inExt_of_page g (Nat.dvd_add ha (Nat.dvd_refl _)) he (by have := h.1; omega) (Nat.lt_of_le_of_ne h.2 fun hh => hn ?_)
  rw [hh]
  exact Nat.mod_eq_zero_of_dvd (Nat.dvd_add he (Nat.dvd_refl _))

theorem inExt_prev {c : Cfg K} {head : Nat} (g : Good c head) {e a : Nat} (ha : c.ps ∣ a) (he : c.es ∣ e) (h : InExt c e (a + c.ps)) (hn : (a + c.ps) % c.es ≠ 0) :
    InExt c e a := by
  refine inExt_of_page g ha he ?_ (by have := h.2; have := g.ps; omega)
  apply Decidable.byContradiction
  intro hlt
  have hlt : a < e := by omega
  obtain ⟨p, _, hp⟩ := g.pages
  have hd : c.ps ∣ e := Nat.dvd_trans ⟨p, by rw [hp, Nat.mul_comm]⟩ he
  obtain ⟨x, rfl⟩ := ha
  obtain ⟨y, hy⟩ := hd
  rw [hy] at hlt
  have h3 := Nat.lt_of_mul_lt_mul_left hlt
  have h4 : c.ps * (x + 1) ≤ c.ps * y := Nat.mul_le_mul_left _ h3
  have h5 := h.1
  have h6 : c.ps * x + c.ps = c.ps * (x + 1) := rfl
  have h7 : c.ps * x + c.ps = e := by omega
  rw [h7] at hn
  exact hn (Nat.mod_eq_zero_of_dvd he)

theorem src_inExt {c : Cfg K} {head : Nat} (g : Good c head) (i : Nat) : InExt c (c.src i) (c.src i) := by
  obtain ⟨p, hp, he⟩ := g.pages
  refine ⟨Nat.le_refl _, ?_⟩
  have : 1 * c.ps ≤ p * c.ps := Nat.mul_le_mul_right _ hp
  omega

theorem src_page {c : Cfg K} {head : Nat} (g : Good c head) (i : Nat) : c.ps ∣ c.src i := by
  obtain ⟨p, _, hp⟩ := g.pages
  exact Nat.dvd_trans ⟨p, by rw [hp, Nat.mul_comm]⟩ (g.aligned i)

theorem head_dvd (c : Cfg K) (head : Nat) : c.es ∣ head / c.es * c.es := ⟨_, Nat.mul_comm _ _⟩

theorem head_inExt {c : Cfg K} {head : Nat} (g : Good c head) : InExt c (head / c.es * c.es) head := by
  refine inExt_of_page g g.headPage (head_dvd c head) (Nat.div_mul_le_self _ _) ?_
  have := Nat.lt_div_mul_add g.es_pos (a := head)
  exact this

def setOwn (cls : Nat → Own) (i : Nat) (o : Own) : Nat → Own := fun j => if j = i then o else cls j

theorem MetaInv.mono {c : Cfg K} {head t t' : Nat} {cls cls' : Nat → Own} {ms : List Nat} (h : MetaInv c head t cls ms) (ht : t ≤ t')
    (hc : ∀ i, i < t → cls i = .metas → cls' i = .metas) : MetaInv c head t' cls' ms :=
  ⟨h.nodup, fun m hm => ⟨(h.own m hm).1, (h.own m hm).2.imp id fun ⟨i, h1, h2, h3⟩ => ⟨i, by omega, hc i h1 h2, h3⟩⟩, h.top⟩

theorem MetaInv.next {c : Cfg K} {head t : Nat} (g : Good c head) {cls : Nat → Own} {ms : List Nat} {tl : Nat} (h : MetaInv c head t cls ms) (htl : ms.getLast? = some tl)
    (hn : (tl + c.ps) % c.es ≠ 0) : MetaInv c head t cls (ms ++ [tl + c.ps]) := by
  obtain ⟨tl', h1, h2⟩ := h.top
  rw [htl] at h1
  injection h1 with h1
  subst h1
  have hm : tl ∈ ms := List.mem_of_getLast? htl
  obtain ⟨h3, h4⟩ := h.own tl hm
  have hps := g.ps
  have hdiv : (tl + c.ps) / c.es = tl / c.es := by
    rcases h4 with h4 | ⟨i, _, _, h4⟩
    · have e1 := base_of g (head_dvd c head) h4
      have e2 := base_of g (head_dvd c head) (inExt_next g h3 (head_dvd c head) h4 hn)
      exact Nat.eq_of_mul_eq_mul_right g.es_pos (e2.trans e1.symm)
    · have e1 := base_of g (g.aligned i) h4
      have e2 := base_of g (g.aligned i) (inExt_next g h3 (g.aligned i) h4 hn)
      exact Nat.eq_of_mul_eq_mul_right g.es_pos (e2.trans e1.symm)
  refine ⟨?_, ?_, tl + c.ps, by simp, ?_⟩
  · rw [List.nodup_append]
    refine ⟨h.nodup, by simp, fun a ha b hb => ?_⟩
    rw [List.mem_singleton] at hb
    subst hb
    rintro rfl
    have := h2 _ ha hdiv
    omega
  · intro m hm'
    rcases List.mem_append.1 hm' with hm' | hm'
    · exact h.own m hm'
    · rw [List.mem_singleton] at hm'
      subst hm'
      refine ⟨Nat.dvd_add h3 (Nat.dvd_refl _), h4.imp (fun h4 => inExt_next g h3 (head_dvd c head) h4 hn) ?_⟩
      rintro ⟨i, h5, h6, h7⟩
      exact ⟨i, h5, h6, inExt_next g h3 (g.aligned i) h7 hn⟩
  · intro m hm' hd
    rcases List.mem_append.1 hm' with hm' | hm'
    · have := h2 m hm' (hd.trans hdiv)
      omega
    · rw [List.mem_singleton] at hm'
      omega

theorem MetaInv.fresh {c : Cfg K} {head t : Nat} (g : Good c head) {cls : Nat → Own} {ms : List Nat} (h : MetaInv c head t cls ms) :
    MetaInv c head (t + 1) (setOwn cls t .metas) (ms ++ [c.src t]) := by
  have hne : ∀ m ∈ ms, m / c.es ≠ c.src t / c.es := by
    intro m hm he
    have e3 := base_of g (g.aligned t) (src_inExt g t)
    rcases (h.own m hm).2 with h4 | ⟨i, hi, _, h4⟩
    · have e1 := base_of g (head_dvd c head) h4
      rw [he, e3] at e1
      exact g.headFresh t e1
    · have e1 := base_of g (g.aligned i) h4
      rw [he, e3] at e1
      have := g.inj t i e1
      omega
  refine ⟨?_, ?_, c.src t, by simp, ?_⟩
  · rw [List.nodup_append]
    refine ⟨h.nodup, by simp, fun a ha b hb => ?_⟩
    rw [List.mem_singleton] at hb
    subst hb
    rintro rfl
    exact hne _ ha rfl
  · intro m hm
    rcases List.mem_append.1 hm with hm | hm
    · obtain ⟨h1, h2⟩ := h.own m hm
      refine ⟨h1, h2.imp id fun ⟨i, h3, h4, h5⟩ => ⟨i, by omega, ?_, h5⟩⟩
      simp only [setOwn]
      rw [if_neg (by omega)]
      exact h4
    · rw [List.mem_singleton] at hm
      subst hm
      exact ⟨src_page g t, .inr ⟨t, by omega, by simp [setOwn], src_inExt g t⟩⟩
  · intro m hm hd
    rcases List.mem_append.1 hm with hm | hm
    · exact absurd hd (hne m hm)
    · rw [List.mem_singleton] at hm
      omega

theorem init_inv {c : Cfg K} {head : Nat} (g : Good c head) (n : Nat) : Inv c head n (init c head n) .ahead := by
  refine ⟨fun t b h => (by cases h), fun t u b h => (by cases h), fun t => trivial, fun b hb _ => ⟨.inl ?_, rfl⟩, fun b hb => ⟨b, hb, rfl, ?_⟩, fun x hx => (by cases hx),
    .nil, fun b => .nil, fun b x h => (by cases h), ?_, fun e he => ?_, ⟨by simp [init], ?_, head, rfl, fun m hm _ => ?_⟩⟩
  · simp [init]
  · simp [init, hb]
  · simp [listed, State.entries, init]
  · simp [State.entries, init] at he
  · intro m hm
    simp [init] at hm
    subst hm
    exact ⟨g.headPage, .inl (head_inExt g)⟩
  · simp [init] at hm
    omega

theorem upd_same {α : Type} (f : Nat → α) (i : Nat) (x : α) : upd f i x i = x := by simp [upd]
theorem upd_other {α : Type} (f : Nat → α) {i j : Nat} (x : α) (h : j ≠ i) : upd f i x j = f j := by simp [upd, h]

theorem frame_same (c : Cfg K) {s s' : State K} {cls cls' : Nat → Own} (b : Nat) (h1 : s'.out = s.out) (h2 : s'.metas = s.metas) (h3 : s.taken ≤ s'.taken)
    (h4 : ∀ i, i < s.taken → cls i = .data b → cls' i = .data b) : Frame c s cls s' cls' b := by
  have hl : listed s' = listed s := by unfold listed State.entries; rw [h2]
  exact ⟨h3, h4, fun e he => by rw [hl]; exact he, fun e he => .inl (by rw [← hl]; exact he), fun x hx => .inl (by rw [← h1]; exact hx), by unfold outOf; rw [h1]⟩

/-- Lines 579-587: take the lock of a batch. -/
theorem alloc_inv {c : Cfg K} {head n : Nat} (g : Good c head) {s : State K} {cls : Nat → Own} (h : Inv c head n s cls) {t b : Nat} {k : K} (hp : s.pc t = .idle)
    (hb : b < n) (hw : s.nextAddr b ≠ 1) :
    Inv c head n { s with nextAddr := upd s.nextAddr b 1, pc := upd s.pc t (.locked b k (s.nextAddr b)) } cls := by
  have fr : ∀ b', Frame c s cls { s with nextAddr := upd s.nextAddr b 1, pc := upd s.pc t (.locked b k (s.nextAddr b)) } cls b' :=
    fun b' => frame_same c b' rfl rfl (Nat.le_refl _) fun _ _ h => h
  have free : ∀ u, (s.pc u).batch ≠ some b := fun u hu => hw (h.lock u b hu).2
  refine ⟨fun u b' hu => ?_, fun u v b' hu hv => ?_, fun u => ?_, fun b' hb' hn => ?_, h.ahead, h.outs, h.nodup, h.chain, h.first, h.listedNodup, h.listedOwn, h.metas⟩
  · show b' < n ∧ upd s.nextAddr b 1 b' = 1
    by_cases e : b' = b
    · subst e; exact ⟨hb, upd_same _ _ _⟩
    · rw [upd_other _ _ e]
      refine h.lock u b' ?_
      by_cases e' : u = t
      · subst e'
        simp only [upd_same, PC.batch, Option.some.injEq] at hu
        exact absurd hu.symm e
      · simp only [upd_other _ _ e'] at hu
        exact hu
  · by_cases e1 : u = t <;> by_cases e2 : v = t
    · rw [e1, e2]
    · subst e1
      simp only [upd_same, upd_other _ _ e2, PC.batch, Option.some.injEq] at hu hv
      subst hu
      exact absurd hv (free v)
    · subst e2
      simp only [upd_same, upd_other _ _ e1, PC.batch, Option.some.injEq] at hu hv
      subst hv
      exact absurd hu (free u)
    · simp only [upd_other _ _ e1, upd_other _ _ e2] at hu hv
      exact h.one u v b' hu hv
  · show PCok c _ cls (upd s.pc t (.locked b k (s.nextAddr b)) u)
    by_cases e : u = t
    · subst e
      rw [upd_same]
      exact (h.next b hb hw).frame g (fr b)
    · rw [upd_other _ _ e]
      exact (h.pcs u).frame g fun b' _ => fr b'
  · change upd s.nextAddr b 1 b' ≠ 1 at hn
    show Ready c _ cls b' (upd s.nextAddr b 1 b')
    by_cases e : b' = b
    · subst e; rw [upd_same] at hn; exact absurd rfl hn
    · rw [upd_other _ _ e] at hn ⊢
      exact (h.next b' hb' hn).frame g (fr b')

/-- What all steps of a thread that holds the lock of a batch have in common. -/
theorem holder_step {c : Cfg K} {head n : Nat} (g : Good c head) {s s' : State K} {cls cls' : Nat → Own} (h : Inv c head n s cls) {t b : Nat} {p : PC K}
    (hp : (s.pc t).batch = some b) (hq : p.batch = some b) (hpc : s'.pc = upd s.pc t p) (hna : s'.nextAddr = s.nextAddr)
    (fr : ∀ b', b' ≠ b → Frame c s cls s' cls' b') (hok : PCok c s' cls' p) :
    (∀ t b, (s'.pc t).batch = some b → b < n ∧ s'.nextAddr b = 1) ∧ (∀ t u b, (s'.pc t).batch = some b → (s'.pc u).batch = some b → t = u) ∧
    (∀ t, PCok c s' cls' (s'.pc t)) ∧ (∀ b, b < n → s'.nextAddr b ≠ 1 → Ready c s' cls' b (s'.nextAddr b)) := by
  have hbt : ∀ u, (s'.pc u).batch = (s.pc u).batch := by
    intro u
    rw [hpc]
    by_cases e : u = t
    · subst e; rw [upd_same, hp, hq]
    · rw [upd_other _ _ e]
  refine ⟨fun u b' hu => ?_, fun u v b' hu hv => ?_, fun u => ?_, fun b' hb' hn => ?_⟩
  · rw [hna]; exact h.lock u b' (by rw [← hbt]; exact hu)
  · rw [hbt] at hu hv; exact h.one u v b' hu hv
  · rw [hpc]
    by_cases e : u = t
    · subst e; rw [upd_same]; exact hok
    · rw [upd_other _ _ e]
      refine (h.pcs u).frame g fun b' hb' => fr b' fun hh => e (h.one u t b (hh ▸ hb') hp)
  · rw [hna] at hn ⊢
    refine (h.next b' hb' hn).frame g (fr b' ?_)
    rintro rfl
    exact hn (h.lock t b' hp).2

theorem outs_mono {c : Cfg K} {n : Nat} {s s' : State K} {cls cls' : Nat → Own} (ho : s'.out = s.out) (ht : s.taken ≤ s'.taken)
    (hk : ∀ i b, i < s.taken → cls i = .data b → cls' i = .data b) (hl : ∀ e ∈ listed s, e ∈ listed s')
    (h : ∀ x ∈ s.out, x.1 < n ∧ c.ps ∣ x.2 ∧ ∃ i, i < s.taken ∧ cls i = .data x.1 ∧ InExt c (c.src i) x.2 ∧ c.src i ∈ listed s) :
    ∀ x ∈ s'.out, x.1 < n ∧ c.ps ∣ x.2 ∧ ∃ i, i < s'.taken ∧ cls' i = .data x.1 ∧ InExt c (c.src i) x.2 ∧ c.src i ∈ listed s' := by
  intro x hx
  rw [ho] at hx
  obtain ⟨h1, h2, i, h3, h4, h5, h6⟩ := h x hx
  exact ⟨h1, h2, i, by omega, hk i _ h3 h4, h5, hl _ h6⟩

theorem outOf_congr {s s' : State K} (h : s'.out = s.out) (b : Nat) : outOf s' b = outOf s b := by unfold outOf; rw [h]

theorem mem_outOf {s : State K} {b x : Nat} : x ∈ outOf s b ↔ (b, x) ∈ s.out := by
  simp [outOf]

theorem last_out {s : State K} {b x : Nat} (h : (outOf s b).getLast? = some x) : (b, x) ∈ s.out := mem_outOf.1 (List.mem_of_getLast? h)

/-- Line 606, `next_addr` inside an extent. -/
theorem cont_inv {c : Cfg K} {head n : Nat} (g : Good c head) {s : State K} {cls : Nat → Own} (h : Inv c head n s cls) {t b a : Nat} {k : K} (hp : s.pc t = .locked b k a)
    (ha : a % c.es ≠ 0) : Inv c head n { s with pc := upd s.pc t (.ret b a) } cls := by
  have hok : Ready c s cls b a := by have := h.pcs t; rw [hp] at this; exact this
  obtain ⟨h1, h2, h3, h4⟩ := holder_step (s' := { s with pc := upd s.pc t (.ret b a) }) (cls' := cls) g h (t := t) (b := b) (by rw [hp]; rfl) (p := .ret b a) rfl rfl rfl
    (fun b' _ => frame_same c b' rfl rfl (Nat.le_refl _) fun _ _ h => h) (by
      obtain ⟨h1, h2⟩ := hok
      refine ⟨h1.resolve_left ha, ?_⟩
      show NextOpt c (outOf s b).getLast? a
      cases hl : (outOf s b).getLast? with
      | none => rw [hl] at h2; simp only [AfterOpt] at h2; subst h2; exact absurd (Nat.zero_mod _) ha
      | some x => rw [hl] at h2; exact .inl h2)
  exact ⟨h1, h2, h3, h4, h.ahead, h.outs, h.nodup, h.chain, h.first, h.listedNodup, h.listedOwn, h.metas⟩

/-- Lines 591-596: take the extent that was obtained ahead, and obtain another one. -/
theorem take_inv {c : Cfg K} {head n : Nat} (g : Good c head) {s : State K} {cls : Nat → Own} (h : Inv c head n s cls) {t b a : Nat} {k : K} (hp : s.pc t = .locked b k a)
    (ha : a % c.es = 0) : ∃ cls',
    Inv c head n { s with nextExtent := upd s.nextExtent b (c.src s.taken), taken := s.taken + 1, pc := upd s.pc t (.list b k (s.nextExtent b)) } cls' := by
  have hok : Ready c s cls b a := by have := h.pcs t; rw [hp] at this; exact this
  have hbt : (s.pc t).batch = some b := by rw [hp]; rfl
  obtain ⟨hb, _⟩ := h.lock t b hbt
  obtain ⟨i0, hi1, hi2, hi3⟩ := h.ahead b hb
  obtain ⟨cls', hc⟩ : ∃ cls', cls' = setOwn (setOwn cls i0 (.data b)) s.taken (.ahead b) := ⟨_, rfl⟩
  have c1 : cls' i0 = .data b := by rw [hc]; simp only [setOwn]; rw [if_neg (by omega)]; simp
  have c2 : cls' s.taken = .ahead b := by rw [hc]; simp [setOwn]
  have c3 : ∀ i, i < s.taken → i ≠ i0 → cls' i = cls i := by
    intro i h1 h2
    rw [hc]; simp only [setOwn]; rw [if_neg (by omega), if_neg h2]
  have keep : ∀ i o, i < s.taken → (∀ b, o ≠ .ahead b) → cls i = o → cls' i = o := by
    intro i o h1 h2 h3
    rw [c3 i h1 ?_]
    · exact h3
    · rintro rfl
      exact h2 b (h3.symm.trans hi2)
  have fr : ∀ b', Frame c s cls { s with nextExtent := upd s.nextExtent b (c.src s.taken), taken := s.taken + 1, pc := upd s.pc t (.list b k (s.nextExtent b)) } cls' b' :=
    fun b' => frame_same c b' rfl rfl (Nat.le_succ _) fun i h1 h2 => keep i _ h1 (fun _ h => by cases h) h2
  have hnot : ∀ x ∈ s.out, ¬ InExt c (c.src i0) x.2 := by
    intro x hx hin
    obtain ⟨_, _, i, _, h4, h5, _⟩ := h.outs x hx
    have := ext_unique g hin h5
    subst this
    rw [hi2] at h4
    cases h4
  obtain ⟨h1, h2, h3, h4⟩ := holder_step (s' := { s with nextExtent := upd s.nextExtent b (c.src s.taken), taken := s.taken + 1, pc := upd s.pc t (.list b k (s.nextExtent b)) }) (cls' := cls')
    g h hbt (p := .list b k (s.nextExtent b)) rfl rfl rfl (fun b' _ => fr b') (by
      refine ⟨⟨?_, i0, Nat.lt_succ_of_lt hi1, c1, ?_, fun x hx hin => absurd hin (hnot x hx), fun h => by cases h⟩, ?_, ?_, ?_⟩
      · rw [hi3]; exact src_page g i0
      · rw [hi3]; exact src_inExt g i0
      · rw [hi3]; exact Nat.mod_eq_zero_of_dvd (g.aligned i0)
      · intro x hx
        have h2 := hok.2
        change (outOf s b).getLast? = some x at hx
        rw [hx] at h2
        simp only [AfterOpt] at h2
        rw [← h2]; exact ha
      · intro hm
        change s.nextExtent b ∈ listed s at hm
        obtain ⟨e, he, hx⟩ := List.mem_filterMap.1 hm
        obtain ⟨_, i, x, h5, _, h6, h7⟩ := h.listedOwn e he
        rw [h5] at hx
        injection hx with hx
        have := g.inj i i0 (h7.symm.trans (hx.trans hi3))
        subst this
        rw [hi2] at h6
        cases h6)
  refine ⟨cls', h1, h2, h3, h4, fun b' hb' => ?_, ?_, h.nodup, h.chain, h.first, h.listedNodup, ?_, ?_⟩
  · show ∃ i, i < s.taken + 1 ∧ cls' i = .ahead b' ∧ upd s.nextExtent b (c.src s.taken) b' = c.src i
    by_cases e : b' = b
    · subst e
      exact ⟨s.taken, by omega, c2, upd_same _ _ _⟩
    · obtain ⟨i, h5, h6, h7⟩ := h.ahead b' hb'
      refine ⟨i, by omega, ?_, by rw [upd_other _ _ e]; exact h7⟩
      rw [c3 i h5 ?_]
      · exact h6
      · rintro rfl
        rw [hi2] at h6
        injection h6 with h6
        exact e h6.symm
  · exact outs_mono (s := s) (cls := cls) rfl (Nat.le_succ _) (fun i b' h1 h2 => keep i _ h1 (fun _ h => by cases h) h2) (fun _ h => h) h.outs
  · intro e he
    obtain ⟨h5, i, x, h6, h7, h8, h9⟩ := h.listedOwn e he
    exact ⟨h5, i, x, h6, Nat.lt_succ_of_lt h7, keep i _ h7 (fun _ h => by cases h) h8, h9⟩
  · exact h.metas.mono (Nat.le_succ _) fun i h1 h2 => keep i _ h1 (fun _ h => by cases h) h2

/-- Lines 597-604: list the extent. -/
theorem list_inv {c : Cfg K} {head n : Nat} (g : Good c head) {s : State K} {cls : Nat → Own} (h : Inv c head n s cls) {t b e : Nat} {k : K} (hp : s.pc t = .list b k e) :
    ∃ s1, appendEntry c s ⟨some e, b, k⟩ = some s1 ∧ ∃ cls', Inv c head n { s1 with pc := upd s1.pc t (.ret b e) } cls' := by
  have hbt : (s.pc t).batch = some b := by rw [hp]; rfl
  obtain ⟨hr, he, hlast, hnl⟩ : PCok c s cls (.list b k e) := by rw [← hp]; exact h.pcs t
  obtain ⟨hb, _⟩ := h.lock t b hbt
  obtain ⟨tl, htl, _⟩ := h.metas.top
  obtain ⟨s1, ha, hent, hna, hne, hpc, hout, hcase⟩ := append_spec g s ⟨some e, b, k⟩ htl
  refine ⟨s1, ha, ?_⟩
  obtain ⟨cls', ht, keep, hm⟩ : ∃ cls', s.taken ≤ s1.taken ∧ (∀ i, i < s.taken → cls' i = cls i) ∧ MetaInv c head s1.taken cls' (s1.metas.map (·.1)) := by
    rcases hcase with ⟨h1, h2⟩ | ⟨h1, h2, h3⟩ | ⟨h1, h2⟩
    · exact ⟨cls, by omega, fun _ _ => rfl, by rw [h1, h2]; exact h.metas⟩
    · exact ⟨cls, by omega, fun _ _ => rfl, by rw [h1, h3]; exact h.metas.next g htl h2⟩
    · refine ⟨setOwn cls s.taken .metas, by omega, fun i hi => ?_, by rw [h1, h2]; exact h.metas.fresh g⟩
      simp only [setOwn]; rw [if_neg (by omega)]
  have hl : listed s1 = listed s ++ [e] := by unfold listed; rw [hent]; simp
  obtain ⟨hrp, i0, hi1, hi2, hi3, hi4, _⟩ := hr
  have hei := src_of_aligned g hi3 he
  have fr : ∀ b', b' ≠ b → Frame c s cls { s1 with pc := upd s1.pc t (.ret b e) } cls' b' := by
    intro b' hne'
    refine ⟨ht, fun i h1 h2 => by rw [keep i h1]; exact h2, fun x hx => ?_, fun x hx => ?_, fun x hx => .inl (by rw [← hout]; exact hx), outOf_congr hout b'⟩
    · show x ∈ listed s1
      rw [hl]; exact List.mem_append_left _ hx
    · change x ∈ listed s1 at hx
      rw [hl] at hx
      rcases List.mem_append.1 hx with hx | hx
      · exact .inl hx
      · rw [List.mem_singleton] at hx
        exact .inr ⟨b, i0, hne'.symm, hi1, hi2, by rw [hx, hei]⟩
  obtain ⟨h1, h2, h3, h4⟩ := holder_step (s' := { s1 with pc := upd s1.pc t (.ret b e) }) (cls' := cls') g h hbt (p := .ret b e) rfl (by rw [hpc]) hna fr (by
      refine ⟨⟨hrp, i0, by show i0 < s1.taken; omega, by rw [keep i0 hi1]; exact hi2, hi3, fun x hx => ?_, fun _ => ?_⟩, ?_⟩
      · change x ∈ s1.out at hx
        rw [hout] at hx
        exact hi4 x hx
      · show c.src i0 ∈ listed s1
        rw [hl, ← hei]; simp
      · show NextOpt c (outOf s1 b).getLast? e
        rw [outOf_congr hout]
        cases hl : (outOf s b).getLast? with
        | none => exact he
        | some x => exact .inr ⟨he, hlast x hl⟩)
  refine ⟨cls', h1, h2, h3, h4, fun b' hb' => ?_, ?_, ?_, fun b' => ?_, fun b' => ?_, ?_, ?_, hm⟩
  · obtain ⟨i, h5, h6, h7⟩ := h.ahead b' hb'
    exact ⟨i, Nat.lt_of_lt_of_le h5 ht, by rw [keep i h5]; exact h6, by show s1.nextExtent b' = _; rw [hne]; exact h7⟩
  · refine outs_mono (s := s) (cls := cls) hout ht (fun i b' h1 h2 => by rw [keep i h1]; exact h2) (fun x hx => ?_) h.outs
    show x ∈ listed s1
    rw [hl]; exact List.mem_append_left _ hx
  · show (s1.out.map _).Nodup
    rw [hout]; exact h.nodup
  · show (outOf s1 b').IsChain _
    rw [outOf_congr hout]; exact h.chain b'
  · show ∀ x, (outOf s1 b').head? = some x → _
    rw [outOf_congr hout]; exact h.first b'
  · show (listed s1).Nodup
    rw [hl, List.nodup_append]
    refine ⟨h.listedNodup, by simp, fun x hx y hy => ?_⟩
    rw [List.mem_singleton] at hy
    subst hy
    rintro rfl
    exact hnl hx
  · intro x hx
    change x ∈ s1.entries at hx
    rw [hent] at hx
    rcases List.mem_append.1 hx with hx | hx
    · obtain ⟨h5, i, y, h6, h7, h8, h9⟩ := h.listedOwn x hx
      exact ⟨h5, i, y, h6, Nat.lt_of_lt_of_le h7 ht, by rw [keep i h7]; exact h8, h9⟩
    · rw [List.mem_singleton] at hx
      subst hx
      exact ⟨hb, i0, e, rfl, Nat.lt_of_lt_of_le hi1 ht, by rw [keep i0 hi1]; exact hi2, hei⟩

theorem outOf_append (s : State K) (b a b' : Nat) (s' : State K) (h : s'.out = s.out ++ [(b, a)]) :
    outOf s' b' = if b' = b then outOf s b' ++ [a] else outOf s b' := by
  unfold outOf
  rw [h]
  by_cases e : b' = b
  · subst e; simp
  · have e' : b ≠ b' := fun h => e h.symm
    simp [e, e']

/-- Lines 607-609: unlock and return. -/
theorem ret_inv {c : Cfg K} {head n : Nat} (g : Good c head) {s : State K} {cls : Nat → Own} (h : Inv c head n s cls) {t b a : Nat} (hp : s.pc t = .ret b a) :
    Inv c head n { s with nextAddr := upd s.nextAddr b (a + c.ps), pc := upd s.pc t .idle, out := s.out ++ [(b, a)] } cls := by
  have hbt : (s.pc t).batch = some b := by rw [hp]; rfl
  obtain ⟨⟨hr, i0, hi1, hi2, hi3, hi4, hi5⟩, hnx⟩ : PCok c s cls (.ret b a) := by rw [← hp]; exact h.pcs t
  obtain ⟨hb, _⟩ := h.lock t b hbt
  obtain ⟨s', hs⟩ : ∃ s', s' = { s with nextAddr := upd s.nextAddr b (a + c.ps), pc := upd s.pc t .idle, out := s.out ++ [(b, a)] } := ⟨_, rfl⟩
  rw [← hs]
  have hout : s'.out = s.out ++ [(b, a)] := by rw [hs]
  have hpc : s'.pc = upd s.pc t .idle := by rw [hs]
  have hna : s'.nextAddr = upd s.nextAddr b (a + c.ps) := by rw [hs]
  have htk : s'.taken = s.taken := by rw [hs]
  have hent : s'.entries = s.entries := by rw [hs]; rfl
  have hl : listed s' = listed s := by unfold listed; rw [hent]
  have hps := g.ps
  have fr : ∀ b', b' ≠ b → Frame c s cls s' cls b' := by
    intro b' hne
    refine ⟨by omega, fun _ _ h => h, fun x hx => by rw [hl]; exact hx, fun x hx => .inl (by rw [← hl]; exact hx), fun x hx => ?_, ?_⟩
    · rw [hout] at hx
      rcases List.mem_append.1 hx with hx | hx
      · exact .inl hx
      · rw [List.mem_singleton] at hx
        subst hx
        exact .inr ⟨b, i0, hne.symm, hi1, hi2, hi3⟩
    · rw [outOf_append s b a b' s' hout, if_neg hne]
  have hbt' : ∀ u b', (s'.pc u).batch = some b' → u ≠ t ∧ (s.pc u).batch = some b' ∧ b' ≠ b := by
    intro u b' hu
    rw [hpc] at hu
    by_cases e : u = t
    · subst e; rw [upd_same] at hu; cases hu
    · rw [upd_other _ _ e] at hu
      refine ⟨e, hu, ?_⟩
      rintro rfl
      exact e (h.one u t _ hu hbt)
  refine ⟨fun u b' hu => ?_, fun u v b' hu hv => ?_, fun u => ?_, fun b' hb' hn => ?_, ?_, fun x hx => ?_, ?_, fun b' => ?_, fun b' x hx => ?_, by rw [hl]; exact h.listedNodup,
    by rw [hent, htk]; exact h.listedOwn, by rw [hs]; exact h.metas⟩
  · obtain ⟨_, h2, h3⟩ := hbt' u b' hu
    rw [hna, upd_other _ _ h3]
    exact h.lock u b' h2
  · exact h.one u v b' (hbt' u b' hu).2.1 (hbt' v b' hv).2.1
  · rw [hpc]
    by_cases e : u = t
    · subst e; rw [upd_same]; trivial
    · rw [upd_other _ _ e]
      exact (h.pcs u).frame g fun b' hb' => fr b' fun hh => e (h.one u t b (hh ▸ hb') hbt)
  · rw [hna] at hn ⊢
    by_cases e : b' = b
    · subst e
      rw [upd_same]
      refine ⟨?_, ?_⟩
      · by_cases hz : (a + c.ps) % c.es = 0
        · exact .inl hz
        · refine .inr ⟨Nat.dvd_add hr (Nat.dvd_refl _), i0, by omega, hi2, inExt_next g hr (g.aligned i0) hi3 hz, fun x hx hin => ?_, fun _ => by rw [hl]; exact hi5 rfl⟩
          rw [hout] at hx
          rcases List.mem_append.1 hx with hx | hx
          · have := hi4 x hx hin; omega
          · rw [List.mem_singleton] at hx
            subst hx
            show a < _
            omega
      · rw [outOf_append s b' a b' s' hout, if_pos rfl]
        simp [AfterOpt]
    · rw [upd_other _ _ e] at hn ⊢
      exact (h.next b' hb' hn).frame g (fr b' e)
  · rw [hs]; exact h.ahead
  · rw [hout] at hx
    rw [htk, hl]
    rcases List.mem_append.1 hx with hx | hx
    · exact h.outs x hx
    · rw [List.mem_singleton] at hx
      subst hx
      exact ⟨hb, hr, i0, hi1, hi2, hi3, hi5 rfl⟩
  · rw [hout, List.map_append, List.nodup_append]
    refine ⟨h.nodup, by simp, fun x hx y hy => ?_⟩
    obtain ⟨z, hz, rfl⟩ := List.mem_map.1 hx
    simp only [List.map_cons, List.map_nil, List.mem_singleton] at hy
    subst hy
    intro he
    have := hi4 z hz (by rw [he]; exact hi3)
    omega
  · rw [outOf_append s b a b' s' hout]
    by_cases e : b' = b
    · subst e
      rw [if_pos rfl]
      rw [List.isChain_append]
      refine ⟨h.chain b', by simp, fun x hx y hy => ?_⟩
      simp only [List.head?_cons, Option.mem_def, Option.some.injEq] at hy
      subst hy
      rw [Option.mem_def] at hx
      rw [hx] at hnx
      exact hnx
    · rw [if_neg e]; exact h.chain b'
  · rw [outOf_append s b a b' s' hout] at hx
    by_cases e : b' = b
    · subst e
      rw [if_pos rfl] at hx
      cases hL : outOf s b' with
      | nil =>
        rw [hL] at hx hnx
        simp only [List.nil_append, List.head?_cons, Option.some.injEq] at hx
        subst hx
        exact hnx
      | cons y ys =>
        rw [hL] at hx
        exact h.first b' x (by rw [hL]; exact hx)
    · rw [if_neg e] at hx; exact h.first b' x hx

theorem step_inv {c : Cfg K} {head n : Nat} (g : Good c head) {s : State K} {cls : Nat → Own} (h : Inv c head n s cls) (t : Nat) (a : Act K) :
    step c n s t a ≠ .fault ∧ ∀ s', step c n s t a = .ok s' → ∃ cls', Inv c head n s' cls' := by
  unfold step
  cases hp : s.pc t with
  | idle =>
    cases a with
    | go => exact ⟨fun h => (by cases h), fun s' h => (by cases h)⟩
    | alloc b k =>
      simp only
      split
      · rename_i hb
        split
        · exact ⟨fun h => (by cases h), fun s' h => (by cases h)⟩
        · rename_i hw
          exact ⟨fun h => (by cases h), fun s' e => ⟨cls, by injection e with e; rw [← e]; exact alloc_inv g h hp hb hw⟩⟩
      · exact ⟨fun h => (by cases h), fun s' h => (by cases h)⟩
  | locked b k x =>
    cases a with
    | alloc b k => exact ⟨fun h => (by cases h), fun s' h => (by cases h)⟩
    | go =>
      simp only
      split
      · rename_i hx
        exact ⟨fun h => (by cases h), fun s' e => by injection e with e; rw [← e]; exact take_inv g h hp hx⟩
      · rename_i hx
        exact ⟨fun h => (by cases h), fun s' e => ⟨cls, by injection e with e; rw [← e]; exact cont_inv g h hp hx⟩⟩
  | list b k x =>
    cases a with
    | alloc b k => exact ⟨fun h => (by cases h), fun s' h => (by cases h)⟩
    | go =>
      obtain ⟨s1, h1, h2⟩ := list_inv g h hp
      simp only [h1]
      exact ⟨fun h => (by cases h), fun s' e => by injection e with e; rw [← e]; exact h2⟩
  | ret b x =>
    cases a with
    | alloc b k => exact ⟨fun h => (by cases h), fun s' h => (by cases h)⟩
    | go => exact ⟨fun h => (by cases h), fun s' e => ⟨cls, by injection e with e; rw [← e]; exact ret_inv g h hp⟩⟩

theorem reachable_inv {c : Cfg K} {head n : Nat} (g : Good c head) {s : State K} (h : Reachable c head n s) : ∃ cls, Inv c head n s cls := by
  induction h with
  | init => exact ⟨_, init_inv g n⟩
  | step t a _ hs ih =>
    obtain ⟨cls, ih⟩ := ih
    exact (step_inv g ih t a).2 _ hs

/-! ### Theorems -/

/-- C38: no page is handed out twice, whatever the threads do. -/
theorem pages_distinct {c : Cfg K} {head n : Nat} (g : Good c head) {s : State K} (h : Reachable c head n s) : (s.out.map (·.2)).Nodup :=
  let ⟨_, hi⟩ := reachable_inv g h; hi.nodup

/-- C38: pages are aligned and lie in an extent that the run obtained and has listed (so that it will be released with it). -/
theorem page_owned {c : Cfg K} {head n : Nat} (g : Good c head) {s : State K} (h : Reachable c head n s) {b a : Nat} (hx : (b, a) ∈ s.out) :
    c.ps ∣ a ∧ ∃ i, i < s.taken ∧ c.src i ≤ a ∧ a + c.ps ≤ c.src i + c.es ∧ ∃ e ∈ s.entries, e.ext = some (c.src i) ∧ e.batch = b := by
  obtain ⟨cls, hi⟩ := reachable_inv g h
  obtain ⟨_, h2, i, h3, h4, h5, h6⟩ := hi.outs _ hx
  refine ⟨h2, i, h3, h5.1, h5.2, ?_⟩
  obtain ⟨e, he, hx⟩ := List.mem_filterMap.1 h6
  refine ⟨e, he, hx, ?_⟩
  obtain ⟨_, j, x, h7, h8, h9, h10⟩ := hi.listedOwn e he
  rw [h7] at hx
  injection hx with hx
  have := g.inj i j (hx.symm.trans h10)
  subst this
  rw [h4] at h9
  injection h9 with h9
  exact h9.symm

/-- C38: successive pages of a batch are adjacent, except that after the last page of an extent comes the first of another; the first
page of a batch begins an extent. -/
theorem batch_contiguous {c : Cfg K} {head n : Nat} (g : Good c head) {s : State K} (h : Reachable c head n s) (b : Nat) :
    (outOf s b).IsChain (fun x a => a = x + c.ps ∨ (a % c.es = 0 ∧ (x + c.ps) % c.es = 0)) ∧ ∀ x, (outOf s b).head? = some x → x % c.es = 0 :=
  let ⟨_, hi⟩ := reachable_inv g h; ⟨hi.chain b, hi.first b⟩

/-- C38: an extent serves one batch. -/
theorem batch_extents {c : Cfg K} {head n : Nat} (g : Good c head) {s : State K} (h : Reachable c head n s) {b b' a a' : Nat} (hx : (b, a) ∈ s.out)
    (hx' : (b', a') ∈ s.out) (he : a / c.es = a' / c.es) : b = b' := by
  obtain ⟨cls, hi⟩ := reachable_inv g h
  obtain ⟨_, _, i, _, h4, h5, _⟩ := hi.outs _ hx
  obtain ⟨_, _, j, _, h6, h7, _⟩ := hi.outs _ hx'
  have e1 := base_of g (g.aligned i) h5
  have e2 := base_of g (g.aligned j) h7
  simp only at e1 e2
  rw [he] at e1
  have := g.inj i j (e1.symm.trans e2)
  subst this
  rw [h4] at h6
  injection h6

/-- C38: meta pages are distinct, and none is handed out, nor any page of the extents they are in. -/
theorem meta_pages {c : Cfg K} {head n : Nat} (g : Good c head) {s : State K} (h : Reachable c head n s) :
    (s.metas.map (·.1)).Nodup ∧ ∀ m ∈ s.metas, c.ps ∣ m.1 ∧ ∀ x ∈ s.out, x.2 / c.es ≠ m.1 / c.es := by
  obtain ⟨cls, hi⟩ := reachable_inv g h
  refine ⟨hi.metas.nodup, fun m hm => ?_⟩
  obtain ⟨h1, h2⟩ := hi.metas.own m.1 (List.mem_map_of_mem hm)
  refine ⟨h1, fun x hx he => ?_⟩
  obtain ⟨_, _, i, _, h4, h5, _⟩ := hi.outs x hx
  have e1 := base_of g (g.aligned i) h5
  rcases h2 with h2 | ⟨j, _, h6, h7⟩
  · have e2 := base_of g (head_dvd c head) h2
    rw [he] at e1
    exact g.headFresh i (e1.symm.trans e2)
  · have e2 := base_of g (g.aligned j) h7
    rw [he] at e1
    have := g.inj i j (e1.symm.trans e2)
    subst this
    rw [h4] at h6
    cases h6

/-- No assertion fails. -/
theorem alloc_ok {c : Cfg K} {head n : Nat} (g : Good c head) {s : State K} (h : Reachable c head n s) (t : Nat) (a : Act K) : step c n s t a ≠ .fault :=
  let ⟨_, hi⟩ := reachable_inv g h; (step_inv g hi t a).1

/-- A thread that is not waiting for the lock of a batch can always go on. -/
theorem alloc_progress {c : Cfg K} {head n : Nat} (g : Good c head) {s : State K} (h : Reachable c head n s) {t : Nat} (hp : s.pc t ≠ .idle) :
    ∃ s', step c n s t .go = .ok s' := by
  have hf := alloc_ok g h t .go
  unfold step at hf ⊢
  cases hpc : s.pc t with
  | idle => exact absurd hpc hp
  | locked b k x => simp only; split <;> exact ⟨_, rfl⟩
  | list b k x =>
    simp only [hpc] at hf ⊢
    cases ha : appendEntry c s ⟨some x, b, k⟩ with
    | none => rw [ha] at hf; exact absurd rfl hf
    | some s' => exact ⟨_, rfl⟩
  | ret b x => exact ⟨_, rfl⟩

theorem releaseFrom_spec {c : Cfg K} {head : Nat} (g : Good c head) (k : K) : ∀ (bs : List Nat) (s : State K), (∃ tl, (s.metas.map (·.1)).getLast? = some tl) →
    ∃ s', releaseFrom c k bs s = some s' ∧ s'.entries = s.entries ++ bs.map fun b => ⟨none, b, k⟩
  | [], s, _ => ⟨s, rfl, by simp⟩
  | b :: bs, s, ⟨tl, h⟩ => by
    obtain ⟨s1, h1, h2, _, _, _, _, h3⟩ := append_spec g s ⟨none, b, k⟩ h
    obtain ⟨s2, h4, h5⟩ := releaseFrom_spec g k bs s1 (by
      rcases h3 with ⟨_, h3⟩ | ⟨_, _, h3⟩ | ⟨_, h3⟩ <;> rw [h3]
      · exact ⟨tl, h⟩
      · exact ⟨tl + c.ps, by simp⟩
      · exact ⟨c.src s.taken, by simp⟩)
    refine ⟨s2, by simp only [releaseFrom, h1]; exact h4, ?_⟩
    rw [h5, h2, List.append_assoc]; rfl

/-- The extents listed for a batch, with the keys they were taken for. -/
def extsOf (s : State K) (b : Nat) : List (Nat × K) := (s.entries.filter (·.batch = b)).filterMap fun e => e.ext.map (·, e.key)

theorem filter_terminals (k : K) (n b : Nat) (h : b < n) :
    ((List.range n).map fun b => (⟨none, b, k⟩ : Ent K)).filter (·.batch = b) = [⟨none, b, k⟩] := by
  have h1 : ∀ n, ((List.range n).map fun b => (⟨none, b, k⟩ : Ent K)).filter (·.batch = b) = if b < n then [⟨none, b, k⟩] else [] := by
    intro n
    induction n with
    | zero => rfl
    | succ n ih =>
      rw [List.range_succ, List.map_append, List.filter_append, ih]
      by_cases e : n = b
      · subst e; simp
      · have : b < n + 1 ↔ b < n := by omega
        simp [e, this]
  rw [h1, if_pos h]

/-- C38 meets C18: releasing any allocator state leaves meta pages of the form that the reference counting theorems need, if the keys
passed by the caller were increasing in each batch. -/
theorem layout_of_release [LinearOrder K] {c : Cfg K} {head n : Nat} (g : Good c head) {s : State K} (h : Reachable c head n s) (k : K)
    (hk : ∀ b, ((s.entries.filter (·.batch = b)).map (·.key)).Pairwise (· ≤ ·)) :
    ∃ s', release c n s k = some s' ∧ Layout s'.entries n (extsOf s) := by
  obtain ⟨cls, hi⟩ := reachable_inv g h
  obtain ⟨tl, htl, _⟩ := hi.metas.top
  obtain ⟨s', h1, h2⟩ := releaseFrom_spec g k (List.range n) s ⟨tl, htl⟩
  have key : ∀ (b : Nat) (l : List (Ent K)), (∀ e ∈ l, e.batch = b ∧ ∃ x, e.ext = some x) →
      l = (l.filterMap fun e => e.ext.map (·, e.key)).map fun x => ⟨some x.1, b, x.2⟩ := by
    intro b l
    induction l with
    | nil => intro _; rfl
    | cons e l ih =>
      intro he
      obtain ⟨e1, x, e2⟩ := he e (List.mem_cons_self ..)
      obtain ⟨ex, eb, ek⟩ := e
      simp only at e1 e2
      subst e1; subst e2
      simp only [List.filterMap_cons, Option.map_some, List.map_cons]
      rw [← ih fun e h => he e (List.mem_cons_of_mem _ h)]
  have keyk : ∀ (l : List (Ent K)), (∀ e ∈ l, ∃ x, e.ext = some x) → (l.filterMap fun e => e.ext.map (·, e.key)).map (·.2) = l.map (·.key) := by
    intro l
    induction l with
    | nil => intro _; rfl
    | cons e l ih =>
      intro he
      obtain ⟨x, e2⟩ := he e (List.mem_cons_self ..)
      simp only [List.filterMap_cons, e2, Option.map_some, List.map_cons]
      rw [ih fun e h => he e (List.mem_cons_of_mem _ h)]
  have key1 : ∀ (l : List (Ent K)), (l.filterMap fun e => e.ext.map (·, e.key)).map (·.1) = l.filterMap (·.ext) := by
    intro l
    induction l with
    | nil => rfl
    | cons e l ih =>
      obtain ⟨ex, eb, ek⟩ := e
      cases ex <;> simp [ih]
  have some' : ∀ e ∈ s.entries, ∃ x, e.ext = some x := fun e he => let ⟨_, _, x, h, _⟩ := hi.listedOwn e he; ⟨x, h⟩
  refine ⟨s', h1, fun b hb => ⟨k, ?_⟩, fun e he => ?_, fun b _ => ?_, ?_⟩
  · rw [h2, List.filter_append, filter_terminals k n b hb]
    congr 1
    refine key b _ fun e he => ?_
    rw [List.mem_filter] at he
    exact ⟨by simpa using he.2, some' e he.1⟩
  · rw [h2] at he
    rcases List.mem_append.1 he with he | he
    · exact (hi.listedOwn e he).1
    · obtain ⟨b, hb, rfl⟩ := List.mem_map.1 he
      exact List.mem_range.1 hb
  · unfold extsOf
    rw [keyk _ fun e he => some' e (List.mem_filter.1 he).1]
    exact hk b
  · rw [List.nodup_flatMap]
    refine ⟨fun b _ => ?_, ?_⟩
    · unfold extsOf
      rw [key1]
      exact hi.listedNodup.sublist (List.Sublist.filterMap _ List.filter_sublist)
    · refine (List.nodup_range (n := n)).imp ?_
      intro b b' hne
      simp only [Function.onFun, List.disjoint_left]
      intro x hx hx'
      unfold extsOf at hx hx'
      rw [key1] at hx hx'
      obtain ⟨e, he, hx⟩ := List.mem_filterMap.1 hx
      obtain ⟨e', he', hx'⟩ := List.mem_filterMap.1 hx'
      rw [List.mem_filter] at he he'
      obtain ⟨_, i, y, h3, _, h5, h6⟩ := hi.listedOwn e he.1
      obtain ⟨_, j, z, h7, _, h9, h10⟩ := hi.listedOwn e' he'.1
      rw [hx] at h3
      rw [hx'] at h7
      injection h3 with h3
      injection h7 with h7
      have := g.inj i j (by rw [← h6, ← h10, ← h3, h7])
      subst this
      rw [h5] at h9
      injection h9 with h9
      have b1 : e.batch = b := by simpa using he.2
      have b2 : e'.batch = b' := by simpa using he'.2
      exact hne (by rw [← b1, ← b2, h9])

/-! ### Example: two pages per extent, two threads in two batches -/

def exCfg : Cfg Nat := ⟨20, 10, fun i => 20 * i + 40, fun _ => 1, 2⟩

theorem exGood : Good exCfg 0 :=
  ⟨by decide, ⟨2, by decide, rfl⟩, fun i => ⟨i + 2, by simp only [exCfg]; omega⟩, fun i j h => (by simp only [exCfg] at h; omega), ⟨0, rfl⟩, fun _ => Nat.le_succ 1, fun i => by simp [exCfg]⟩

def runFrom (c : Cfg K) (n : Nat) (s : State K) : List (Nat × Act K) → Option (State K)
  | [] => some s
  | (t, a) :: l =>
    match step c n s t a with
    | .ok s => runFrom c n s l
    | _ => none

theorem runFrom_reachable {c : Cfg K} {head n : Nat} : ∀ (l : List (Nat × Act K)) (s s' : State K), Reachable c head n s → runFrom c n s l = some s' → Reachable c head n s'
  | [], _, _, h, e => by cases e; exact h
  | (t, a) :: l, s, s', h, e => by
    rw [runFrom] at e
    cases hs : step c n s t a with
    | ok s1 => rw [hs] at e; exact runFrom_reachable l s1 s' (h.step t a hs) e
    | blocked => rw [hs] at e; cases e
    | fault => rw [hs] at e; cases e

def exRun : List (Nat × Act Nat) :=
  [(0, .alloc 0 1), (1, .alloc 1 1), (0, .go), (1, .go), (1, .go), (0, .go), (0, .go), (1, .go), (0, .alloc 0 2), (0, .go), (0, .go),
   (1, .alloc 0 5), (1, .go), (0, .alloc 1 6), (0, .go), (1, .go), (0, .go), (1, .go)]

example : ((runFrom exCfg 2 (init exCfg 0 2) exRun).map fun s => (s.out, s.entries.map fun e => (e.ext, e.batch, e.key), s.metas.map (·.1), s.taken)) =
    some ([(0, 40), (1, 60), (0, 50), (1, 70), (0, 80)], [(some 60, 1, 1), (some 40, 0, 1), (some 80, 0, 5)], [0, 10], 5) := by decide +kernel

example : ∃ s, Reachable exCfg 0 2 s ∧ s.out = [(0, 40), (1, 60), (0, 50), (1, 70), (0, 80)] ∧ outOf s 0 = [40, 50, 80] ∧
    ∀ b, ((s.entries.filter (·.batch = b)).map (·.key)).Pairwise (· ≤ ·) := by
  have h1 : ((runFrom exCfg 2 (init exCfg 0 2) exRun).map fun s => (s.out, s.entries)) =
    some ([(0, 40), (1, 60), (0, 50), (1, 70), (0, 80)], [⟨some 60, 1, 1⟩, ⟨some 40, 0, 1⟩, ⟨some 80, 0, 5⟩]) := by decide +kernel
  cases hr : runFrom exCfg 2 (init exCfg 0 2) exRun with
  | none => rw [hr] at h1; cases h1
  | some s =>
    rw [hr] at h1
    simp only [Option.map_some, Option.some.injEq, Prod.mk.injEq] at h1
    refine ⟨s, runFrom_reachable _ _ _ .init hr, h1.1, by unfold outOf; rw [h1.1]; decide, fun b => ?_⟩
    rw [h1.2]
    by_cases e0 : b = 0
    · subst e0; decide
    · by_cases e1 : b = 1
      · subst e1; decide
      · have n0 : 0 ≠ b := fun h => e0 h.symm
        have n1 : 1 ≠ b := fun h => e1 h.symm
        simp [n0, n1]

end Splinter.Mini
