import Verif.Model.Ring
/-!
C34: circular arithmetic agrees with an unrolled list. A window of absolute
positions `[lo, hi)` of fewer than `h` entries is stored with cursors `lo % h` and
`hi % h`; every operation on cursors does what it says on the window.
-/
namespace Splinter.Ring

/-! ## Specification: the window of absolute positions -/
namespace Spec

/-- The absolute positions of a window, oldest first. -/
def window (lo hi : Nat) : List Nat := (List.range (hi - lo)).map (lo + ·)

/-- Window `[lo, hi)` in a ring of `h` slots (one slot always stays empty). -/
structure Win (h lo hi : Nat) : Prop where
  pos : 0 < h
  cursor : h ≤ 65536
  le : lo ≤ hi
  room : hi - lo < h

end Spec
open Spec

/-! ## Arithmetic -/

theorem mod_u16 {h x : Nat} (h0 : 0 < h) (h1 : h ≤ 65536) : x % h % 65536 = x % h :=
  Nat.mod_eq_of_lt (Nat.lt_of_lt_of_le (Nat.mod_lt _ h0) h1)

/-- Advancing a cursor advances the position. -/
theorem add_spec {h : Nat} (h0 : 0 < h) (h1 : h ≤ 65536) (x k : Nat) :
    add h (x % h) k = (x + k) % h := by
  unfold add; rw [mod_u16 h0 h1, Nat.mod_add_mod]

theorem sub_mod {h : Nat} (h0 : 0 < h) (x d : Nat) (hd : d ≤ h) :
    ((x + d) % h + h - d) % h = x % h := by
  have e := Nat.div_add_mod (x + d) h
  have hlt := Nat.mod_lt (x + d) h0
  generalize hr : (x + d) % h = r at *
  have : (r + h - d + h * ((x + d) / h)) = x + h := by omega
  have h2 : (r + h - d + h * ((x + d) / h)) % h = (r + h - d) % h := Nat.add_mul_mod_self_left _ _ _
  rw [← h2, this, Nat.add_mod_right]

/-- Retreating a cursor undoes advancing it. -/
theorem sub_spec {h : Nat} (h0 : 0 < h) (h1 : h ≤ 65536) (x k : Nat) (hk : k ≤ h) :
    sub h ((x + k) % h) k = x % h := by
  unfold sub; rw [mod_u16 h0 h1, sub_mod h0 x k hk]

/-- C34: distance between two cursors is the distance between the positions. -/
theorem distance_spec {h lo hi : Nat} (w : Win h lo hi) : sub h (hi % h) (lo % h) = hi - lo := by
  obtain ⟨h0, h1, hle, hroom⟩ := w
  unfold sub
  rw [mod_u16 h0 h1]
  have el := Nat.div_add_mod lo h
  have hl := Nat.mod_lt lo h0
  generalize lo % h = r at *
  have hx : hi = (h * (lo / h) + (hi - lo)) + r := by omega
  have := sub_mod h0 (h * (lo / h) + (hi - lo)) r (by omega)
  rw [← hx] at this
  rw [this, Nat.mul_add_mod, Nat.mod_eq_of_lt hroom]

/-- C34: the range test is membership in the window. `x` ranges over the `h`
positions from `lo` on, so over every slot. -/
theorem inRange_spec {h lo hi x : Nat} (w : Win h lo hi) (hx : lo ≤ x) (hx2 : x < lo + h) :
    inRange h (x % h) (lo % h) (hi % h) = true ↔ x < hi := by
  unfold inRange
  rw [distance_spec w, distance_spec ⟨w.pos, w.cursor, hx, by omega⟩, decide_eq_true_iff]
  have := w.le
  omega

/-- Every slot number is the slot of exactly one of the `h` positions from `lo`. -/
theorem slot_position {h : Nat} (h0 : 0 < h) (lo c : Nat) (hc : c < h) :
    ∃ x, lo ≤ x ∧ x < lo + h ∧ x % h = c := by
  have el := Nat.div_add_mod lo h
  have hl := Nat.mod_lt lo h0
  by_cases hle : lo % h ≤ c
  · exact ⟨h * (lo / h) + c, by omega, by omega, by rw [Nat.mul_add_mod, Nat.mod_eq_of_lt hc]⟩
  · refine ⟨h * (lo / h + 1) + c, ?_, ?_, by rw [Nat.mul_add_mod, Nat.mod_eq_of_lt hc]⟩ <;>
    rw [Nat.mul_add, Nat.mul_one] <;> omega

/-- Distinct positions of a window use distinct slots. -/
theorem slot_inj {h lo x y : Nat} (h0 : 0 < h) (hx : lo ≤ x) (hx2 : x < lo + h) (hy : lo ≤ y)
    (hy2 : y < lo + h) (e : x % h = y % h) : x = y := by
  have ex := Nat.div_add_mod x h
  have ey := Nat.div_add_mod y h
  rw [e] at ex
  have hlx := Nat.mod_lt y h0
  rcases Nat.lt_trichotomy (x / h) (y / h) with hl | he | hl
  · have := Nat.mul_le_mul_left h (Nat.succ_le_of_lt hl)
    rw [Nat.succ_eq_add_one, Nat.mul_add, Nat.mul_one] at this; omega
  · rw [he] at ex; omega
  · have := Nat.mul_le_mul_left h (Nat.succ_le_of_lt hl)
    rw [Nat.succ_eq_add_one, Nat.mul_add, Nat.mul_one] at this; omega

theorem window_cons {lo hi : Nat} (h : lo < hi) : window lo hi = lo :: window (lo + 1) hi := by
  unfold window
  obtain ⟨n, rfl⟩ : ∃ n, hi = lo + 1 + n := ⟨hi - lo - 1, by omega⟩
  rw [show lo + 1 + n - lo = n + 1 by omega, show lo + 1 + n - (lo + 1) = n by omega,
    List.range_succ_eq_map]
  simp only [List.map_cons, List.map_map, Nat.add_zero, List.cons.injEq, true_and]
  apply List.map_congr_left
  intro i _; simp only [Function.comp_apply]; omega

/-- C34: walking from the start cursor to the end cursor visits the slots of the
window, oldest first, and stops. -/
theorem enum_spec {h lo hi : Nat} (w : Win h lo hi) (fuel : Nat) (hf : h ≤ fuel) :
    enum h fuel (lo % h) (hi % h) = some ((window lo hi).map (· % h)) := by
  obtain ⟨h0, h1, hle, hroom⟩ := w
  have key : ∀ (n fuel lo : Nat), hi - lo = n → lo ≤ hi → n < h → n < fuel →
      enum h fuel (lo % h) (hi % h) = some ((window lo hi).map (· % h)) := by
    intro n
    induction n with
    | zero =>
      intro fuel lo hn hl _ hfu
      have : lo = hi := by omega
      subst this
      cases fuel with
      | zero => omega
      | succ f => simp [enum, window]
    | succ n ih =>
      intro fuel lo hn hl hnh hfu
      cases fuel with
      | zero => omega
      | succ f =>
        have hne : lo % h ≠ hi % h := by
          intro e
          have := slot_inj (lo := lo) h0 (Nat.le_refl _) (by omega) hl (by omega) e
          omega
        unfold enum
        rw [if_neg hne, add_spec h0 h1, ih f (lo + 1) (by omega) (by omega) (by omega) (by omega),
          window_cons (by omega : lo < hi)]
        simp
  exact key (hi - lo) fuel lo rfl hle hroom (by omega)

/-- C34: the walk visits exactly the slots the range test accepts, each once. -/
theorem enum_inRange {h lo hi : Nat} (w : Win h lo hi) (c : Nat) (hc : c < h) (l : List Nat)
    (hl : enum h h (lo % h) (hi % h) = some l) :
    l.Nodup ∧ (c ∈ l ↔ inRange h c (lo % h) (hi % h) = true) := by
  rw [enum_spec w h (Nat.le_refl _)] at hl
  injection hl with hl
  subst hl
  constructor
  · unfold window
    rw [List.map_map]
    refine (List.pairwise_map.2 ?_)
    refine List.Pairwise.imp_of_mem ?_ List.nodup_range
    intro a b ha hb hab e
    rw [List.mem_range] at ha hb
    have hroom := w.room
    exact hab (by
      have := slot_inj (x := lo + a) (y := lo + b) (lo := lo) w.pos (by omega) (by omega) (by omega) (by omega) e
      omega)
  · obtain ⟨x, x1, x2, rfl⟩ := slot_position w.pos lo c hc
    rw [inRange_spec w x1 x2]
    unfold window
    simp only [List.map_map, List.mem_map, List.mem_range, Function.comp_apply]
    have hroom := w.room
    have hle := w.le
    constructor
    · rintro ⟨k, k1, k2⟩
      have := slot_inj (lo := lo) w.pos (by omega) (by omega) x1 x2 k2
      omega
    · intro hx
      exact ⟨x - lo, by omega, by rw [show lo + (x - lo) = x by omega]⟩

/-- C34: the newest-first walk of lookups is the reverse of the window. -/
theorem newestFirst_spec {h lo hi : Nat} (w : Win h lo hi) :
    newestFirst h (hi % h) (sub h (hi % h) (lo % h)) = ((window lo hi).map (· % h)).reverse := by
  rw [distance_spec w]
  obtain ⟨h0, h1, hle, hroom⟩ := w
  unfold newestFirst window
  apply List.ext_getElem
  · simp
  · intro i hi1 hi2
    simp only [List.length_map, List.length_range] at hi1
    simp only [List.getElem_map, List.getElem_range, List.getElem_reverse, List.length_map,
      List.length_range]
    have := sub_spec h0 h1 (hi - (i + 1)) (i + 1) (by omega)
    rw [show hi - (i + 1) + (i + 1) = hi by omega] at this
    rw [this]
    congr 1; omega

/-! ## Contents: the logical list stored in a ring -/

/-- C34: taking a new slot fails only when the ring is full, and storing in it
appends to the logical list without touching the rest. -/
theorem alloc_spec {α : Type} {h lo hi : Nat} (w : Win h lo hi) (slots : Nat → α) (v : α) :
    if hi - lo + 1 < h then
      ∃ slot, alloc h (lo % h) (hi % h) = some (slot, (hi + 1) % h) ∧ Win h lo (hi + 1) ∧
        (window lo (hi + 1)).map (fun x => if x % h = slot then v else slots (x % h)) =
          (window lo hi).map (fun x => slots (x % h)) ++ [v]
    else alloc h (lo % h) (hi % h) = none := by
  have hle := w.le
  have hroom := w.room
  unfold alloc
  simp only [add_spec w.pos w.cursor]
  split
  · rename_i hr
    have hne : (hi + 1) % h ≠ lo % h := by
      intro e
      have := slot_inj (lo := lo) w.pos (by omega) (by omega) (Nat.le_refl _) (by have := w.pos; omega) e
      omega
    rw [if_pos hne]
    refine ⟨_, rfl, ⟨w.pos, w.cursor, by omega, by omega⟩, ?_⟩
    unfold window
    rw [show hi + 1 - lo = hi - lo + 1 by omega, List.range_succ]
    simp only [List.map_append, List.map_map, List.map_cons, List.map_nil]
    congr 1
    · apply List.map_congr_left
      intro k hk
      rw [List.mem_range] at hk
      simp only [Function.comp_apply]
      rw [if_neg]
      intro e
      have := slot_inj (lo := lo) w.pos (by omega) (by omega) (by omega) (by omega) e
      omega
    · rw [if_pos]; rw [show lo + (hi - lo) = hi by omega]
  · rename_i hr
    have hh : hi + 1 = lo + h := by omega
    rw [if_neg]
    rw [hh, Nat.add_mod_right]; simp

/-- C34: taking a slot at the head. Positions start at 1 here because the window
grows downwards. -/
theorem allocHead_spec {h lo hi : Nat} (w : Win h (lo + 1) hi) :
    if hi - lo < h then allocHead h ((lo + 1) % h) (hi % h) = some (lo % h) ∧ Win h lo hi
    else allocHead h ((lo + 1) % h) (hi % h) = none := by
  have hle := w.le
  have hroom := w.room
  unfold allocHead
  simp only [sub_spec w.pos w.cursor lo 1 w.pos]
  split
  · have hne : lo % h ≠ hi % h := by
      intro e
      have := slot_inj (lo := lo) w.pos (by omega) (by omega) (by omega : lo ≤ hi) (by omega) e
      omega
    rw [if_pos hne]
    exact ⟨rfl, w.pos, w.cursor, by omega, by omega⟩
  · rw [if_neg]
    have : hi = lo + h := by omega
    rw [this, Nat.add_mod_right]; simp

/-- C34: the new start of a node is the oldest start of any of its pivots, or the
end if no pivot has a live entry. -/
theorem resetStart_spec {h lo hi : Nat} (w : Win h lo hi) (starts : List Nat)
    (hs : ∀ x ∈ starts, lo ≤ x ∧ x ≤ hi) :
    ∃ m, resetStart h (hi % h) (starts.map (· % h)) = m % h ∧ m ≤ hi ∧ (∀ x ∈ starts, m ≤ x) ∧
      (m = hi ∨ m ∈ starts) := by
  have hroom := w.room
  have key : ∀ (l : List Nat) (cur : Nat), (∀ x ∈ l, lo ≤ x ∧ x ≤ hi) → lo ≤ cur → cur ≤ hi →
      ∃ m, (l.map (· % h)).foldl (fun cur s => if sub h (hi % h) s > sub h (hi % h) cur then s else cur)
        (cur % h) = m % h ∧ m ≤ cur ∧ (∀ x ∈ l, m ≤ x) ∧ (m = cur ∨ m ∈ l) := by
    intro l
    induction l with
    | nil => intro cur _ _ _; exact ⟨cur, rfl, Nat.le_refl _, by simp, .inl rfl⟩
    | cons s l ih =>
      intro cur hl h1 h2
      obtain ⟨s1, s2⟩ := hl s (by simp)
      simp only [List.map_cons, List.foldl_cons]
      rw [distance_spec ⟨w.pos, w.cursor, s2, by omega⟩, distance_spec ⟨w.pos, w.cursor, h2, by omega⟩]
      by_cases hc : hi - s > hi - cur
      · rw [if_pos hc]
        obtain ⟨m, m1, m2, m3, m4⟩ := ih s (fun x hx => hl x (by simp [hx])) s1 s2
        refine ⟨m, m1, by omega, ?_, ?_⟩
        · intro x hx
          rcases List.mem_cons.1 hx with rfl | hx
          · exact m2
          · exact m3 x hx
        · rcases m4 with rfl | m4
          · exact .inr (by simp)
          · exact .inr (by simp [m4])
      · rw [if_neg hc]
        obtain ⟨m, m1, m2, m3, m4⟩ := ih cur (fun x hx => hl x (by simp [hx])) h1 h2
        refine ⟨m, m1, m2, ?_, ?_⟩
        · intro x hx
          rcases List.mem_cons.1 hx with rfl | hx
          · omega
          · exact m3 x hx
        · rcases m4 with rfl | m4
          · exact .inl rfl
          · exact .inr (by simp [m4])
  exact key starts hi hs w.le (Nat.le_refl _)

/-! ## A window that wraps: bundles 10, 11, 0, 1 of 12 -/

example : Win 12 10 14 := ⟨by omega, by omega, by omega, by omega⟩
example : enum 12 12 10 2 = some [10, 11, 0, 1] := enum_spec (h := 12) (lo := 10) (hi := 14) ⟨by omega, by omega, by omega, by omega⟩ 12 (by omega)
example : newestFirst 12 2 4 = [1, 0, 11, 10] := by decide
example : inRange 12 0 10 2 = true ∧ inRange 12 2 10 2 = false ∧ inRange 12 9 10 2 = false := by decide
example : resetStart 12 2 [0, 11, 1] = 11 := by decide

end Splinter.Ring
