import Verif.Proof.Log

/-!
# C28: the log reads back what was written

`Reachable c T s`: any interleaving of writes by the threads in `T`, from arbitrary device contents, of records that fit a page.
`s.hist` lists page, thread and record of every write; `s.full p` says that page `p` has been completed.
-/
namespace Splinter.Log
variable {c : Cfg} {T : Nat → Prop} {s : State}

namespace Spec

/-- The records written to page `p`, in order. -/
def written (s : State) (p : Nat) : List Rec := (s.hist.filter (·.1 = p)).map (·.2.2)

/-- The records written to completed pages, in order. -/
def completed (s : State) : List Rec := (s.hist.filter (fun e => s.full e.1)).map (·.2.2)

/-- What is assumed of `platform_sort_slow` (`qsort_r`): it permutes, and it sorts if the comparison is a preorder on the elements. -/
structure Sorts (f : (Rec → Rec → Int) → List Rec → List Rec) : Prop where
  perm : ∀ cmp l, (f cmp l).Perm l
  sorted : ∀ cmp l, (∀ a ∈ l, ∀ b ∈ l, cmp a b ≤ 0 ∨ cmp b a ≤ 0) → (∀ a ∈ l, ∀ b ∈ l, ∀ d ∈ l, cmp a b ≤ 0 → cmp b d ≤ 0 → cmp a d ≤ 0) →
    (f cmp l).Pairwise (fun a b => cmp a b ≤ 0)

end Spec
open Spec

/-- No write goes over the end of a page. -/
theorem no_overrun (g : Good c) (h : Reachable c T s) (t : Nat) (a : Act) : step c s t a ≠ .fault := by
  have hi := reach_inv g h
  unfold step
  split
  · split
    · simp
    · split <;> simp
  · split <;> simp
  · rename_i r hp
    obtain ⟨-, p, off, h1, h2⟩ := hi.put t r hp
    rw [h1]
    simp only
    rw [if_neg (by omega)]
    simp
  · simp

/-- Iteration returns the records of the completed pages before the first page that is not complete, in order; the entry count of the first pass is
right, and neither buffer overflows. Assumed: the first page that is not complete is not valid by accident (its checksum does not match, it is not
a page of another log with the same magic number). `_partial`: C28 asks for the records of all completed pages; see `completed_page_missed`. -/
theorem read_prefix_partial (g : Good c) (h : Reachable c T s) {k : Nat} (hk : ∀ p, p < k → s.full p = true) (hn : valid c (s.dev (c.addr k)) = false)
    {live : Nat → Bool} (hl : ∀ j, j * c.P ≤ k → live (c.ext j) = true) {fuel : Nat} (hf : k / c.P < fuel) (garbage : Mem) :
    readLog c live s.dev garbage fuel = some (some ((((List.range k).flatMap (written s)).length, (List.range k).flatMap (written s)))) := by
  have hi := reach_inv g h
  have hP := g.P
  have hd : ∀ p, p < k → ∃ off, Done c p (s.dev (c.addr p)) (recsOf s p) off := fun p hp => (hi.full p (hk p hp)).2
  have hE : k / c.P < c.E := by
    cases k with
    | zero => rw [Nat.zero_div]; exact g.E
    | succ k =>
      have h1 := hi.bound k (hi.full k (hk k (Nat.lt_succ_self _))).1
      have h2 : (k + 1) / c.P ≤ k / c.P + 1 := by
        rw [Nat.succ_div]; split <;> omega
      omega
  have hw := walk_eq g (live := live) (dev := s.dev) (n := k) (fun p hp => (hd p hp).elim fun _ d => d.valid) (fun p hp => (hd p hp).elim fun _ d => d.page.next) hn hl hE
    (fuel := fuel) (k := 0) (by omega) (by omega)
  rw [Nat.zero_mul, Nat.sub_zero, ← List.range_eq_range'] at hw
  unfold readLog
  rw [hw, Option.map_some]
  simp only
  -- counts
  have hnum : (((List.range k).map c.addr).map fun a => unle (get (s.dev a) 32 2)).sum = ((List.range k).flatMap (written s)).length := by
    rw [List.length_flatMap, List.map_map]
    refine congrArg List.sum (List.map_congr_left fun p hp => ?_)
    obtain ⟨_, d⟩ := hd p (List.mem_range.1 hp)
    show unle (get (s.dev (c.addr p)) 32 2) = (recsOf s p).length
    exact d.page.num
  rw [hnum, List.length_map, List.length_range]
  refine congrArg some ?_
  -- a page as a function of its address
  have hps : 0 < k → 0 < c.PS := fun h0 => by
    obtain ⟨_, d⟩ := hd 0 h0
    have := d.page.enc.le
    have := d.page.le
    omega
  have hinj : ∀ p q, p < k → q < k → c.addr p = c.addr q → p = q := fun p q hp hq e => by
    have hlt : ∀ x, x < k → x / c.P < c.E := fun x hx => Nat.lt_of_le_of_lt (Nat.div_le_div_right (Nat.le_of_lt hx)) hE
    exact addr_inj g (hps (by omega)) (hlt p hp) (hlt q hq) e
  classical
  let q : Nat → Nat := fun a => if h : ∃ p, p < k ∧ c.addr p = a then h.choose else 0
  have hq : ∀ p, p < k → q (c.addr p) = p := fun p hp => by
    have hex : ∃ p', p' < k ∧ c.addr p' = c.addr p := ⟨p, hp, rfl⟩
    show (if h : ∃ p', p' < k ∧ c.addr p' = c.addr p then h.choose else 0) = p
    rw [dif_pos hex]
    exact hinj _ _ hex.choose_spec.1 hp hex.choose_spec.2
  let O : Nat → Nat := fun a => if h : ∃ off, Done c (q a) (s.dev a) (recsOf s (q a)) off then h.choose else 0
  have hall : ∀ a ∈ (List.range k).map c.addr, Done c (q a) (s.dev a) (recsOf s (q a)) (O a) := by
    intro a ha
    rw [List.mem_map] at ha
    obtain ⟨p, hp, rfl⟩ := ha
    have hp := List.mem_range.1 hp
    have hex : ∃ off, Done c (q (c.addr p)) (s.dev (c.addr p)) (recsOf s (q (c.addr p))) off := by rw [hq p hp]; exact hd p hp
    have hO : O (c.addr p) = hex.choose := dif_pos hex
    rw [hO]
    exact hex.choose_spec
  have hcnt : (((List.range k).map c.addr).map fun a => (recsOf s (q a)).length).sum = ((List.range k).flatMap (written s)).length := by
    rw [List.length_flatMap, List.map_map]
    refine congrArg List.sum (List.map_congr_left fun p hp => ?_)
    show (recsOf s (q (c.addr p))).length = (recsOf s p).length
    rw [hq p (List.mem_range.1 hp)]
  obtain ⟨y, hy1, hy2⟩ := copyPages_done (cap := k * c.PS) (num := ((List.range k).flatMap (written s)).length) (R := fun a => recsOf s (q a)) hall ⟨garbage, 0, []⟩
    (by rw [List.length_map, List.length_range]; show 0 + _ ≤ _; omega) (by rw [hcnt]; exact Nat.le_of_eq (Nat.zero_add _)) (fun o ho => (by cases ho))
  have hfin : ((List.range k).map c.addr).flatMap (fun a => recsOf s (q a)) = (List.range k).flatMap (written s) := by
    rw [List.flatMap_map]
    unfold List.flatMap
    refine congrArg List.flatten (List.map_congr_left fun p hp => ?_)
    show recsOf s (q (c.addr p)) = recsOf s p
    rw [hq p (List.mem_range.1 hp)]
  rw [hfin] at hy2
  rw [hy1, Option.map_some, hy2, List.map_nil, List.nil_append]

/-- With one writing thread, iteration returns exactly the records of the completed pages, in the order they were written. -/
theorem read_single (g : Good c) {t : Nat} (h : Reachable c (· = t) s) (hn : ∀ p, s.full p = false → valid c (s.dev (c.addr p)) = false)
    {live : Nat → Bool} (hl : ∀ j, j * c.P ≤ s.n → live (c.ext j) = true) {fuel : Nat} (hf : s.n < fuel) (garbage : Mem) :
    readLog c live s.dev garbage fuel = some (some ((completed s).length, completed s)) := by
  obtain ⟨k, hk, hfull⟩ := single_full g h
  have e : completed s = (List.range k).flatMap (written s) := by
    have := flat_sorted (reach_single g h).sorted k
    unfold completed
    show _ = (List.range k).flatMap (fun p => (s.hist.filter (·.1 = p)).map (·.2.2))
    rw [this]
    congr 1
    apply List.filter_congr
    intro x _
    have := hfull x.1
    cases hx : s.full x.1
    · rw [hx] at this; simpa using this
    · rw [hx] at this; simpa using this
  rw [e]
  refine read_prefix_partial g h (fun p hp => (hfull p).2 hp) (hn k ?_) (fun j hj => hl j (by omega)) (Nat.lt_of_le_of_lt (Nat.div_le_self _ _) (by omega)) garbage
  cases hx : s.full k
  · rfl
  · have := (hfull k).1 hx; omega

/-- The comparison is the difference if that fits an `int`. -/
theorem compare_exact {a b : Nat} (h1 : a < b + 2 ^ 31) (h2 : b < a + 2 ^ 31) : compare a b = (a : Int) - b := by
  unfold compare
  rw [Int.bmod_eq_of_le] <;> omega

/-- Sorted by generation, if generations are less than 2^31 apart. -/
theorem sorted_by_generation {f : (Rec → Rec → Int) → List Rec → List Rec} (hf : Sorts f) {l : List Rec} {lo : Nat} (h : ∀ r ∈ l, lo ≤ r.gen ∧ r.gen < lo + 2 ^ 31) :
    (f (fun a b => compare a.gen b.gen) l).Perm l ∧ (f (fun a b => compare a.gen b.gen) l).Pairwise (fun a b => a.gen ≤ b.gen) := by
  have he : ∀ a ∈ l, ∀ b ∈ l, compare a.gen b.gen = (a.gen : Int) - b.gen := fun a ha b hb => by
    have := h a ha
    have := h b hb
    exact compare_exact (by omega) (by omega)
  refine ⟨hf.perm _ _, ?_⟩
  have hs := hf.sorted (fun a b => compare a.gen b.gen) l (fun a ha b hb => by rw [he a ha b hb, he b hb a ha]; omega)
    (fun a ha b hb d hd => by rw [he a ha b hb, he b hb d hd, he a ha d hd]; omega)
  refine hs.imp_of_mem fun {a b} ha hb hab => ?_
  have ha := (hf.perm _ _).mem_iff.1 ha
  have hb := (hf.perm _ _).mem_iff.1 hb
  rw [he a ha b hb] at hab
  omega

/-- Generations further apart compare the wrong way round, or as equal. -/
theorem compare_wraps : compare (2 ^ 31) 0 < 0 ∧ compare (2 ^ 32) 0 = 0 := by decide +kernel

/-! ### Examples -/

/-- Merge sort is such a sort. -/
example : Sorts (fun cmp l => (l.attach.mergeSort (fun a b => decide (cmp a.1 b.1 ≤ 0))).map (·.1)) where
  perm cmp l := by
    have := (List.mergeSort_perm l.attach (fun a b => decide (cmp a.1 b.1 ≤ 0))).map (·.1)
    rwa [List.attach_map_subtype_val] at this
  sorted cmp l h1 h2 := by
    rw [List.pairwise_map]
    have := List.pairwise_mergeSort (le := fun a b : { x // x ∈ l } => decide (cmp a.1 b.1 ≤ 0))
      (fun a b d => by simpa using h2 a.1 a.2 b.1 b.2 d.1 d.2) (fun a b => by simpa using h1 a.1 a.2 b.1 b.2) l.attach
    exact this.imp (by simp)

/-- Pages of 64 bytes, extents of two pages, ten extents. -/
def tiny : Cfg := ⟨64, 2, 10, fun k => 128 * (k + 1), 7, fun l => List.replicate 16 (l.sum % 251 + 1)⟩

theorem tiny_good : Good tiny := by
  refine ⟨by decide, by decide, fun l => by simp [tiny], by decide, by decide, fun k hk => ?_, fun k hk => ?_, fun k hk => ?_, fun j k hj hk e => ?_⟩ <;> simp only [tiny] at * <;> omega

def run (c : Cfg) : List (Nat × Act) → State → Option State
  | [], s => some s
  | (t, a) :: l, s => match step c s t a with | .ok s' => run c l s' | _ => none

def zeros : State := ⟨fun _ _ => 0, 0, fun _ => none, fun _ => .idle, [], fun _ => false⟩

def Act.rec? : Act → Option Rec
  | .write r => some r
  | .go => none

theorem run_reachable {l : List (Nat × Act)} {s s' : State} (h : Reachable c T s) (hl : ∀ x ∈ l, ∀ r, x.2 = .write r → T x.1 ∧ r.fits c) (hr : run c l s = some s') : Reachable c T s' := by
  induction l generalizing s with
  | nil => cases hr; exact h
  | cons x l ih =>
    obtain ⟨t, a⟩ := x
    simp only [run] at hr
    split at hr
    · rename_i e
      refine ih ?_ (fun y hy => hl y (List.mem_cons_of_mem _ hy)) hr
      cases a with
      | write r => have := hl (t, .write r) List.mem_cons_self r rfl; exact .write t r h this.1 this.2 e
      | go => exact .go t h e
    · cases hr

/-- A record of generation `g`. -/
def rcd (g : Nat) : Rec := ⟨g, [g, g + 1], 1, [5]⟩

/-- The first write of a thread takes three steps, as does one that finds the page full; the others take two. -/
def three : List (Nat × Act) := [(0, .write (rcd 10)), (0, .go), (0, .go), (0, .write (rcd 11)), (0, .go), (0, .go), (0, .write (rcd 12)), (0, .go), (0, .go)]

/-- For `read_single`: three records, one per page; two pages are complete. -/
example : ∃ s, Reachable tiny (· = 0) s ∧ (s.n, s.full 0, s.full 1, s.full 2) = (3, true, true, false) ∧ completed s = [rcd 10, rcd 11] ∧
    readLog tiny (fun _ => true) s.dev (fun _ => 0) 10 = some (some (2, [rcd 10, rcd 11])) := by
  have h' : ((run tiny three zeros).map fun s => (s.n, s.full 0, s.full 1, s.full 2)) = some (3, true, true, false) := by decide +kernel
  have h : ((run tiny three zeros).map fun s => (completed s, readLog tiny (fun _ => true) s.dev (fun _ => 0) 10)) = some ([rcd 10, rcd 11], some (some (2, [rcd 10, rcd 11]))) := by
    decide +kernel
  cases e : run tiny three zeros with
  | none => rw [e] at h; cases h
  | some s =>
    rw [e] at h h'
    simp only [Option.map_some, Option.some.injEq, Prod.mk.injEq] at h
    refine ⟨s, run_reachable (.init _) ?_ e, Option.some.inj h', h.1, h.2⟩
    simp only [three]
    intro x hx r hr
    simp only [List.mem_cons, List.not_mem_nil, or_false] at hx
    rcases hx with rfl | rfl | rfl | rfl | rfl | rfl | rfl | rfl | rfl <;> simp_all <;> subst hr <;> exact ⟨by decide, by decide, by decide⟩

/-- Two threads: thread 1 completes its page, but it comes after the page of thread 0, which is not complete: its record is not returned. -/
def missed : List (Nat × Act) :=
  [(0, .write (rcd 10)), (0, .go), (0, .go), (1, .write (rcd 20)), (1, .go), (1, .go), (1, .write (rcd 21)), (1, .go), (1, .go)]

theorem completed_page_missed : ∃ s, Reachable tiny (fun _ => True) s ∧ s.full 1 = true ∧ completed s = [rcd 20] ∧ readLog tiny (fun _ => true) s.dev (fun _ => 0) 10 = some (some (0, [])) := by
  have h : ((run tiny missed zeros).map fun s => (s.full 1, completed s, readLog tiny (fun _ => true) s.dev (fun _ => 0) 10)) =
      some (true, [rcd 20], some (some (0, []))) := by decide +kernel
  cases e : run tiny missed zeros with
  | none => rw [e] at h; cases h
  | some s =>
    rw [e] at h
    simp only [Option.map_some, Option.some.injEq, Prod.mk.injEq] at h
    refine ⟨s, run_reachable (.init _) ?_ e, h.1, h.2.1, h.2.2⟩
    simp only [missed]
    intro x hx r hr
    simp only [List.mem_cons, List.not_mem_nil, or_false] at hx
    rcases hx with rfl | rfl | rfl | rfl | rfl | rfl | rfl | rfl | rfl <;> simp_all <;> subst hr <;> exact ⟨by decide, by decide, by decide⟩

/-- The magic number is a hash of a counter that starts at 0 in every process (shard_log.c:22, 98-99), so the first log of every process has the same
one. A new log in extents that had the log of an earlier process returns its records: here nothing has been written to the new log. -/
theorem stale_log_returned : ∃ dev : Nat → Mem, ∃ s : State, Reachable tiny (fun _ => False) s ∧ s.dev = dev ∧ s.hist = [] ∧
    readLog tiny (fun _ => true) s.dev (fun _ => 0) 10 = some (some (2, [rcd 10, rcd 11])) := by
  have h : ((run tiny three zeros).map fun s => readLog tiny (fun _ => true) s.dev (fun _ => 0) 10) = some (some (some (2, [rcd 10, rcd 11]))) := by decide +kernel
  cases e : run tiny three zeros with
  | none => rw [e] at h; cases h
  | some s =>
    rw [e] at h
    simp only [Option.map_some, Option.some.injEq] at h
    exact ⟨s.dev, _, .init s.dev, rfl, rfl, h⟩

end Splinter.Log
