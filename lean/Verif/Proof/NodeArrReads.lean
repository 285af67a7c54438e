import Verif.Proof.NodeArrOps
/-!
# Further operations on the page of a trunk node, and lookups in it
-/
namespace Splinter.Trunk.NodeArr
open Splinter.Ring (slot_inj add_spec sub_spec distance_spec enum_spec)
open Splinter.Ring.Spec (Win window)

variable {K V F C : Type} {H b0 s0 f0 u0 : Nat} {a : Hdr (Branch K V) F} {n : Node K V F C}

/-! ### A new node -/

/-- Zeroed memory (trunk.c 7710) with one pivot. -/
def blank (zb : Branch K V) (zf : F) (x : PRec F) : Hdr (Branch K V) F :=
  ⟨0, 0, 0, 0, 0, 0, 0, 0, 0, fun _ => (0, 0), fun _ => ⟨false, 0, 0, 0, 0⟩, fun _ => zf, fun _ => zb, [x]⟩

theorem blank_rep (h0 : 0 < H) (h1 : H ≤ 65536) (zb : Branch K V) (zf : F) (k : K) (mk : K) (id g ng : Nat) (c : C) :
    Rep H (blank zb zf ⟨0, 0, zf⟩) (⟨id, mk, ng, 0, [], [], [(⟨k, 0, 0, zf, g⟩, c)]⟩ : Node K V F C) := by
  refine ⟨0, 0, 0, 0, ⟨⟨⟨h0, h1, by simp, by simpa using h0⟩, by simp [blank], by simp [blank], holds_nil⟩,
    ⟨⟨by decide, by decide, by simp, by simp [sbRecs]⟩, by simp [blank], by simp [blank, sbRecs], holds_nil⟩,
    ⟨⟨by decide, by decide, by simp, by simp⟩, by simp [blank], by simp [blank], holds_nil⟩, by simp [blank]⟩,
    ⟨⟨by decide, by decide, by simp, by simp [buRecs]⟩, by simp [blank], by simp [blank, buRecs], holds_nil⟩,
    by simp, by simp, ?_, by simp, by simp⟩
  refine .cons ⟨?_, ?_, rfl, by simp, by simp, Or.inl rfl⟩ .nil
  · simp [off]
  · simp

/-! ### The newest bundle vanishes -/

theorem findIdx_last {pre : List (Bundle K V F)} {b : Bundle K V F} (h : ∀ x ∈ pre, x.no ≠ b.no) :
    (pre ++ [b]).findIdx (fun x => x.no == b.no) = pre.length := by
  rw [List.findIdx_eq (by simp)]
  refine ⟨by simp, fun j hj => ?_⟩
  rw [List.getElem_append_left hj]
  have := h _ (List.getElem_mem hj)
  simpa using this

theorem vanish_list {pre : List (Bundle K V F)} {b : Bundle K V F} (e : n.bundles = pre ++ [b])
    (h : ∀ x ∈ pre, x.no ≠ b.no) : n.vanish b.no = { n with
      bundles := pre
      endB := n.endB - 1
      pivots := n.pivots.map (fun x => (if pre.length < x.1.bskip then { x.1 with bskip := x.1.bskip - 1 } else x.1, x.2)) } := by
  unfold Node.vanish Node.bundleIdx
  rw [e, findIdx_last h]
  simp [movedBundles]

theorem window_self (x : Nat) : window x x = [] := by simp [window]

theorem sum_filters {W : List (Branch K V)} : ∀ (S2 S1 S3 : List (SB K V F)), Core H b0 s0 f0 a W (S1 ++ S2 ++ S3) →
    (((window (s0 + S1.length) (s0 + S1.length + S2.length)).map (· % maxSb)).map
      fun y => Ring.sub maxSb (a.sb y).endF (a.sb y).startF).sum = (flsOf S2).length
  | [], S1, S3, _ => by simp [window]
  | sb :: S2, S1, S3, R => by
    have R1 : Core H b0 s0 f0 a W (S1 ++ sb :: (S2 ++ S3)) := by simpa using R
    obtain ⟨h1, -, -, -, h5⟩ := R1.at
    have ih := sum_filters S2 (S1 ++ [sb]) S3 (by simpa using R)
    rw [List.length_append, List.length_singleton, ← Nat.add_assoc] at ih
    rw [Ring.window_cons (by simp), List.map_cons, List.map_cons, List.sum_cons, h1, List.length_cons,
      show s0 + S1.length + (S2.length + 1) = s0 + S1.length + 1 + S2.length by omega, ih]
    dsimp only
    rw [distance_spec (h := 24) ⟨by decide, by decide, by omega, by simp only [maxF] at h5; omega⟩, flsOf_cons, List.length_append]
    omega

theorem vanish_newest (R : Rep H a n) {pre : List (Bundle K V F)} {b : Bundle K V F} (e : n.bundles = pre ++ [b]) :
    ∃ a', vanish H a (b.no % maxBu) = some a' ∧ Rep H a' (n.vanish b.no) := by
  obtain ⟨b0, s0, f0, u0, R⟩ := R
  obtain ⟨hno, hn1, -⟩ := R.no_ne e
  obtain ⟨h1, h2, h3⟩ := R.bundleBr e
  have hu := R.bundleAt e
  obtain ⟨hp1, hp2⟩ := R.allFull.pos (b := b) (by rw [e]; simp)
  have hW := R.core.br.win
  have hs : sbsOf n.bundles = sbsOf pre ++ b.sbs := by rw [e]; simp
  have hlb := R.core.br.lt
  have hls := R.core.sb.lt
  have hlf := R.core.fl.lt
  have hlu := R.bu.lt
  rw [length_sbRecs, hs] at hls
  rw [length_buRecs, e] at hlu
  rw [hs, flsOf_append] at hlf
  rw [hs, brsOf_append] at hlb
  simp only [List.length_append, List.length_cons, List.length_nil] at hlb hls hlu hlf
  have hno' : b.no % maxBu = (u0 + pre.length) % maxBu := by rw [hno]
  set P := b0 + n.whole.length + (brsOf (sbsOf pre)).length with hP
  set L := (brsOf b.sbs).length with hL
  set Sx := s0 + (sbsOf pre).length with hSx
  set M := b.sbs.length with hM
  set Fx := f0 + (flsOf (sbsOf pre)).length with hFx
  have eb : a.endBr = (P + L) % H := by
    rw [R.core.br.e, hs]; simp only [brsOf_append, List.length_append]; congr 1; omega
  have es : a.endSb = (Sx + M) % maxSb := by
    rw [R.core.sb.e, length_sbRecs, hs]; simp only [List.length_append]; congr 1; omega
  have ef : a.endF = (Fx + (flsOf b.sbs).length) % maxF := by
    rw [R.core.fl.e, hs]; simp only [flsOf_append, List.length_append]; congr 1; omega
  have eu : a.endBu = (u0 + pre.length + 1) % maxBu := by
    rw [R.bu.e, length_buRecs, e]; simp [Nat.add_assoc]
  have hdiff : Ring.sub H ((P + L) % H) (P % H) = L := by
    rw [distance_spec ⟨hW.pos, hW.cursor, by omega, by omega⟩]; omega
  have hdiffs : Ring.sub maxSb ((Sx + M) % maxSb) (Sx % maxSb) = M := by
    rw [distance_spec ⟨by decide, by decide, by omega, by omega⟩]; omega
  have hr : Ring.add maxBu ((u0 + pre.length) % maxBu) 1 = (u0 + pre.length + 1) % maxBu := add_spec (by decide) (by decide) _ _
  have hr2 : Ring.add maxBu ((u0 + pre.length + 1) % maxBu) 1 = (u0 + pre.length + 2) % maxBu := add_spec (by decide) (by decide) _ _
  have hr3 : Ring.sub maxBu ((u0 + pre.length + 1) % maxBu) 1 = (u0 + pre.length) % maxBu := sub_spec (by decide) (by decide) _ _ (by decide)
  have en0 : ∀ h x, Ring.enum h (h + 1) x x = some [] := by intro h x; simp [Ring.enum]
  have en1 : Ring.enum maxSb (maxSb + 1) (Sx % maxSb) ((Sx + M) % maxSb) =
      some ((window Sx (Sx + M)).map (· % maxSb)) :=
    enum_spec ⟨by decide, by decide, by omega, by omega⟩ _ (by decide)
  have hsum : (((window Sx (Sx + M)).map (· % maxSb)).map
      fun y => Ring.sub maxSb (a.sb y).endF (a.sb y).startF).sum = (flsOf b.sbs).length := by
    have := R.core
    rw [hs] at this
    exact sum_filters b.sbs (sbsOf pre) [] (by simpa using this)
  have sb1 : Ring.sub H ((P + L) % H) L = P % H := sub_spec hW.pos hW.cursor _ _ (by omega)
  have sb2 : Ring.sub maxSb ((Sx + M) % maxSb) M = Sx % maxSb := sub_spec (by decide) (by decide) _ _ (by omega)
  have sb3 : Ring.sub maxF ((Fx + (flsOf b.sbs).length) % maxF) (flsOf b.sbs).length = Fx % maxF :=
    sub_spec (by decide) (by decide) _ _ (by omega)
  unfold vanish
  rw [hno']
  simp only [h1, h2, h3]
  simp only [hu, hr, hr2, hr3, hdiff, hdiffs, eb, es, eu, ef, en0, en1, hsum, moveDown, List.foldl_nil, sb1, sb2, sb3]
  refine ⟨_, rfl, b0, s0, f0, u0, ?_⟩
  rw [vanish_list e hn1]
  refine ⟨⟨⟨?_, R.core.br.s, ?_, ?_⟩, ⟨?_, R.core.sb.s, ?_, ?_⟩, ⟨?_, R.core.fl.s, ?_, ?_⟩, R.core.frac⟩,
    ⟨?_, R.bu.s, ?_, ?_⟩, ?_, ?_, ?_, ?_, ?_⟩
  · exact ⟨hW.pos, hW.cursor, by omega, by simp only [List.length_append]; omega⟩
  · simp only [List.length_append]; rw [hP, Nat.add_assoc]
  · have := R.core.br.holds
    rw [hs, brsOf_append, ← List.append_assoc] at this
    exact (holds_append.mp this).1
  · dsimp only; rw [length_sbRecs]; exact ⟨by decide, by decide, by omega, by omega⟩
  · dsimp only; rw [length_sbRecs]
  · have := R.core.sb.holds
    rw [hs, sbRecs_append] at this
    exact (holds_append.mp this).1
  · exact ⟨by decide, by decide, by omega, by dsimp only; omega⟩
  · rfl
  · have := R.core.fl.holds
    rw [hs, flsOf_append] at this
    exact (holds_append.mp this).1
  · dsimp only; rw [length_buRecs]; exact ⟨by decide, by decide, by omega, by omega⟩
  · dsimp only; rw [length_buRecs]
  · have := R.bu.holds
    rw [e, buRecs_append] at this
    exact (holds_append.mp this).1
  · have := R.no
    simp only [e] at this
    rw [no_append] at this
    exact this.1
  · dsimp only
    rw [R.endB, e]; simp
  · dsimp only
    rw [List.forall₂_map_left_iff, List.forall₂_map_right_iff]
    refine R.piv.imp fun x y Pv => ?_
    have hble := Pv.ble
    have hwle := Pv.wle
    have hor := Pv.order
    have hoff := Pv.off_le
    rw [e] at hble
    simp only [List.length_append, List.length_cons, List.length_nil] at hble
    have hMb : maxBu = 12 := rfl
    by_cases c : pre.length < y.1.bskip
    · have hc : y.1.bskip = pre.length + 1 := by omega
      have hin : Ring.inRange maxBu x.startBu ((u0 + pre.length + 1) % maxBu) ((u0 + pre.length + 2) % maxBu) = true := by
        rw [Pv.startBu, Ring.inRange_spec ⟨by decide, by decide, by omega, by omega⟩ (by omega) (by omega)]; omega
      have hoe : off n.bundles y.1.wskip y.1.bskip = n.whole.length + (brsOf (sbsOf pre)).length + L := by
        unfold off
        rw [hc, e, List.take_of_length_le (by simp)]
        simp only [sbsOf_append, sbsOf_cons, sbsOf_nil, List.append_nil, brsOf_append, List.length_append]; omega
      have hnl : ¬ (brLiveFor H a { x with startBu := Ring.sub maxBu x.startBu 1 } (P % H) = true) := by
        unfold brLiveFor
        dsimp only
        rw [Pv.startBr, eb, hoe]
        have : P % H = (P + H) % H := by rw [Nat.add_mod_right]
        rw [this, Ring.inRange_spec ⟨hW.pos, hW.cursor, by omega, by omega⟩ (by omega) (by omega)]
        omega
      simp only [hin, if_true, c]
      rw [if_neg hnl]
      refine ⟨?_, ?_, Pv.filter, hwle, ?_, ?_⟩
      · dsimp only
        rw [Pv.startBr, hoe, show b0 + (n.whole.length + (brsOf (sbsOf pre)).length + L) = P + L by omega, sb1]
        unfold off
        rw [hc, List.take_of_length_le (by omega)]; congr 1; omega
      · dsimp only
        rw [Pv.startBu, hc, ← Nat.add_assoc, hr3]; congr 1
      · dsimp only; omega
      · dsimp only; omega
    · have hin : ¬ (Ring.inRange maxBu x.startBu ((u0 + pre.length + 1) % maxBu) ((u0 + pre.length + 2) % maxBu) = true) := by
        have hm : (u0 + y.1.bskip) % maxBu = (u0 + y.1.bskip + maxBu) % maxBu := by rw [Nat.add_mod_right]
        rw [Pv.startBu, hm, Ring.inRange_spec ⟨by decide, by decide, by omega, by omega⟩ (by omega) (by omega)]; omega
      have et : n.bundles.take y.1.bskip = pre.take y.1.bskip := by
        rw [e, List.take_append_of_le_length (by omega)]
      have el : (brsOf (sbsOf (pre.take y.1.bskip))).length ≤ (brsOf (sbsOf pre)).length := by
        have : brsOf (sbsOf pre) = brsOf (sbsOf (pre.take y.1.bskip)) ++ brsOf (sbsOf (pre.drop y.1.bskip)) := by
          rw [← brsOf_append, ← sbsOf_append, List.take_append_drop]
        rw [this, List.length_append]; omega
      have hlive : brLiveFor H a x (P % H) = true := by
        unfold brLiveFor
        rw [Pv.startBr, eb]
        have : off n.bundles y.1.wskip y.1.bskip ≤ n.whole.length + (brsOf (sbsOf pre)).length := by
          unfold off; rw [et]; omega
        rw [Ring.inRange_spec ⟨hW.pos, hW.cursor, by omega, by omega⟩ (by omega) (by omega)]
        omega
      simp only [hin, hlive, Bool.false_eq_true, if_true, if_false, c]
      refine ⟨?_, Pv.startBu, Pv.filter, hwle, by omega, hor⟩
      rw [Pv.startBr]; unfold off; rw [et]
  · intro x hx; exact R.full x (by rw [e]; exact List.mem_append_left _ hx)
  · intro x hx; exact R.fullSb x (by rw [hs]; exact List.mem_append_left _ hx)

/-! ### All branches of a leaf into one bundle -/

theorem RR.shift {α : Type} {h s e x : Nat} {arr : Nat → α} {l : List α} (R : RR h arr s e x l) : RR h arr s e (x + h) l where
  win := R.mkWin (by omega) (by have := R.lt; omega)
  s := by rw [Nat.add_mod_right]; exact R.s
  e := by rw [show x + h + l.length = x + l.length + h by omega, Nat.add_mod_right]; exact R.e
  holds := fun i hi => by
    rw [show x + h + i = x + i + h by omega, Nat.add_mod_right]; exact R.holds i hi

theorem RR.pushHead {α : Type} {h s e x : Nat} {arr : Nat → α} {l : List α} (R : RR h arr s e (x + 1) l) (hl : l.length + 1 < h) (v : α) :
    RR h (upd arr (x % h) v) (x % h) e x (v :: l) where
  win := R.mkWin (by omega) (by rw [List.length_cons]; omega)
  s := rfl
  e := by rw [R.e, List.length_cons]; congr 1; omega
  holds := by
    rw [holds_cons, upd_self]
    exact ⟨rfl, R.holds.upd_out R.win.pos (lo := x) (by omega) (by omega) (by omega) (by have := R.win.pos; omega) (by omega)⟩

theorem RR.allocHead {α : Type} {h s e x : Nat} {arr : Nat → α} {l : List α} (R : RR h arr s e (x + 1) l) :
    Ring.allocHead h s e = if l.length + 1 < h then some (x % h) else none := by
  have hw := R.win
  unfold Ring.allocHead
  rw [R.s, R.e, sub_spec hw.pos hw.cursor x 1 hw.pos]
  by_cases c : l.length + 1 < h
  · rw [if_pos c]
    have : x % h ≠ (x + 1 + l.length) % h := fun e => by
      have := slot_inj hw.pos (lo := x) (by omega) (by omega) (by omega) (by omega) e
      omega
    simp [this]
  · rw [if_neg c]
    have : l.length + 1 = h := by have := R.lt; omega
    have : (x + 1 + l.length) % h = x % h := by rw [Nat.add_assoc, Nat.add_comm 1, this, Nat.add_mod_right]
    simp [this]

theorem sbRecs_shift (H : Nat) : ∀ (l : List (SB K V F)) (b f : Nat), sbRecs H b (f + maxF) l = sbRecs H b f l
  | [], _, _ => rfl
  | s :: r, b, f => by
    have e : f + maxF + s.filters.length = f + s.filters.length + maxF := by omega
    simp only [sbRecs]
    rw [e, Nat.add_mod_right, Nat.add_mod_right, sbRecs_shift H r]

/-- A leaf's only pivot starts at the first branch and bundle (`trunk_pivot_clear` and
splits of leaves do not move it). -/
theorem rebundle_spec {ops : FilterOps K F} (R : Rep H a n) {p : PData K F} {c : C} (hp : n.pivots = [(p, c)])
    (hw : p.wskip = 0) (hbk : p.bskip = 0) (hne : n.whole ≠ [] ∨ n.bundles ≠ []) :
    if n.bundles.length + 1 < maxBu ∧ (n.whole ≠ [] → Node.nSb n + 1 < maxSb ∧ Node.nF n + 1 < maxF) then
      ∃ a', NodeArr.rebundle H ops.empty a = some a' ∧ Rep H a' (Trunk.rebundle ops n)
    else NodeArr.rebundle H ops.empty a = none := by
  obtain ⟨b0, s0, f0, u0, R⟩ := R
  obtain ⟨x, hx, P⟩ : ∃ x, a.pivots = [x] ∧ PivRep H b0 u0 n.whole n.bundles x p := by
    have := R.piv
    rw [hp] at this
    obtain ⟨x, r, h, t, e⟩ := List.forall₂_cons_right_iff.mp this
    rw [List.forall₂_nil_right_iff.mp t] at e
    exact ⟨x, e, h⟩
  have hxb : x.startBr = b0 % H := by rw [P.startBr, hw, hbk]; simp [off]
  have hl := R.core.br.lt
  have hlu := R.bu.lt
  rw [length_buRecs] at hlu
  have hwh : isWhole H a a.startBr = true ↔ 0 < n.whole.length := by
    have := isWhole_spec R.core (i := 0) (by omega)
    rw [Nat.add_zero, ← R.core.br.s] at this
    exact this
  have RS : RR maxSb a.sb a.startSb a.endSb (s0 + 23 + 1) _ := R.core.sb.shift
  have RF : RR maxF a.filt a.startF a.endF (f0 + 23 + 1) _ := R.core.fl.shift
  have hal1 := RS.allocHead
  have hal2 := RF.allocHead
  rw [length_sbRecs] at hal1
  unfold NodeArr.rebundle
  rw [R.newBundle, hx]
  by_cases cu : n.bundles.length + 1 < maxBu
  swap
  · rw [if_neg (fun h => cu h.1), if_neg cu]
  simp only [cu, true_and]
  have hwh' : isWhole H { a with endBu := (u0 + n.bundles.length + 1) % maxBu, pivots := [x] } a.startBr = isWhole H a a.startBr := rfl
  by_cases cw : n.whole = []
  · -- no whole branches
    have hnw : ¬ (isWhole H a a.startBr = true) := fun h => by
      have := hwh.mp h; rw [cw] at this; simp at this
    have : (n.whole ≠ [] → Node.nSb n + 1 < maxSb ∧ Node.nF n + 1 < maxF) := fun h => absurd cw h
    rw [if_pos this]
    simp only [cu, hwh', hnw, Bool.false_eq_true, if_false, if_true]
    refine ⟨_, rfl, b0, s0, f0, u0 + n.bundles.length, ?_⟩
    have hl2 : Trunk.rebundle ops n = { n with
        whole := []
        bundles := [⟨n.endB, sbsOf n.bundles⟩]
        endB := n.endB + 1
        nextGen := n.nextGen + 1
        pivots := [({ p with wskip := 0, bskip := 0, filter := p.filter, gen := n.nextGen }, c)] } := by
      unfold Trunk.rebundle
      rw [hp, cw]; rfl
    rw [hl2]
    have hsb : sbsOf [(⟨n.endB, sbsOf n.bundles⟩ : Bundle K V F)] = sbsOf n.bundles := by simp
    have hb : n.bundles ≠ [] := by rcases hne with h | h <;> [exact absurd cw h; exact h]
    refine ⟨⟨?_, ?_, ?_, ?_⟩, ?_, ?_, ?_, ?_, ?_, ?_⟩
    · dsimp only; rw [hsb]; have := R.core.br; rw [cw] at this; exact this
    · dsimp only; rw [hsb]; have := R.core.sb; rw [cw] at this; exact this
    · dsimp only; rw [hsb]; exact R.core.fl
    · dsimp only; rw [R.core.br.s]; rfl
    · dsimp only
      have hd := R.bu.drop (k := n.bundles.length) (by rw [length_buRecs])
      rw [← length_buRecs n.bundles s0, List.drop_length] at hd
      have hd := hd.push (by decide) (a.startSb, a.endSb)
      rw [length_buRecs] at hd
      have e1 : buRecs s0 [(⟨n.endB, sbsOf n.bundles⟩ : Bundle K V F)] = [(a.startSb, a.endSb)] := by
        rw [R.core.sb.s, R.core.sb.e, length_sbRecs]; rfl
      have e2 : Ring.add maxBu a.endBu 1 = (u0 + n.bundles.length + 1) % maxBu := by
        rw [R.bu.e, add_spec (by decide) (by decide), length_buRecs]
      have e3 : a.endBu = (u0 + n.bundles.length) % maxBu := by rw [R.bu.e, length_buRecs]
      rw [e1, ← e2]
      rw [← e3] at hd
      exact hd
    · intro i hi
      have : i = 0 := by simpa using hi
      subst this
      exact R.endB
    · dsimp only; rw [R.endB]; rfl
    · simp only [List.modifyHead_cons]
      refine .cons ⟨?_, ?_, P.filter, by simp, by simp, Or.inl rfl⟩ .nil
      · dsimp only; rw [hxb]; simp [off]
      · dsimp only; rw [R.bu.e, length_buRecs]; rfl
    · intro y hy
      rw [List.mem_singleton.mp hy]
      obtain ⟨b, r, e⟩ := List.exists_cons_of_ne_nil hb
      have := R.full b (by rw [e]; simp)
      rw [e]; simp only [sbsOf_cons]
      exact List.append_ne_nil_of_left_ne_nil this _
    · dsimp only; rw [hsb]; exact R.fullSb
  · have hwl : 0 < n.whole.length := List.length_pos_of_ne_nil cw
    have hyw := hwh.mpr hwl
    by_cases cs : Node.nSb n + 1 < maxSb
    swap
    · rw [if_neg (fun h => cs (h cw).1)]
      have cs' : ¬ (sbsOf n.bundles).length + 1 < maxSb := cs
      simp only [cu, hwh', hyw, if_true, headSb, hal1, hal2, cs', if_false]
      rfl
    by_cases cf : Node.nF n + 1 < maxF
    swap
    · rw [if_neg (fun h => cf (h cw).2)]
      have cf' : ¬ (flsOf (sbsOf n.bundles)).length + 1 < maxF := cf
      have cs' : (sbsOf n.bundles).length + 1 < maxSb := cs
      simp only [cu, hwh', hyw, if_true, headSb, hal1, hal2, cs', cf', if_false]
      rfl
    rw [if_pos (fun _ => ⟨cs, cf⟩)]
    have cs' : (sbsOf n.bundles).length + 1 < maxSb := cs
    have cf' : (flsOf (sbsOf n.bundles)).length + 1 < maxF := cf
    simp only [cu, hwh', hyw, headSb, hal1, hal2, cs', cf', if_true, Option.map_some]
    refine ⟨_, rfl, b0, s0 + 23, f0 + 23, u0 + n.bundles.length, ?_⟩
    have hie : n.whole.isEmpty = false := by simpa using cw
    have hl2 : Trunk.rebundle ops n = { n with
        whole := []
        bundles := [⟨n.endB, ⟨false, n.whole, [p.filter]⟩ :: sbsOf n.bundles⟩]
        endB := n.endB + 1
        nextGen := n.nextGen + 1
        pivots := [({ p with wskip := 0, bskip := 0, filter := ops.empty, gen := n.nextGen }, c)] } := by
      unfold Trunk.rebundle
      rw [hp, hie]; rfl
    rw [hl2]
    set head : SB K V F := ⟨false, n.whole, [p.filter]⟩ with hhead
    have hsb : sbsOf [(⟨n.endB, head :: sbsOf n.bundles⟩ : Bundle K V F)] = head :: sbsOf n.bundles := by simp
    have RS2 := RS.pushHead (by rw [length_sbRecs]; exact cs) ⟨false, a.startBr, a.fracBr, (f0 + 23) % maxF, a.startF⟩
    have RF2 := RF.pushHead cf p.filter
    have erec : sbRecs H b0 (f0 + 23) (head :: sbsOf n.bundles) =
        ⟨false, a.startBr, a.fracBr, (f0 + 23) % maxF, a.startF⟩ :: sbRecs H (b0 + n.whole.length) f0 (sbsOf n.bundles) := by
      simp only [sbRecs, hhead, List.length_singleton]
      rw [← R.core.br.s, ← R.core.frac, show f0 + 23 + 1 = f0 + maxF from rfl, sbRecs_shift, Nat.add_mod_right, ← R.core.fl.s]
    refine ⟨⟨?_, ?_, ?_, ?_⟩, ?_, ?_, ?_, ?_, ?_, ?_⟩
    · dsimp only; rw [hsb, brsOf_cons]; exact R.core.br
    · dsimp only; rw [hsb, List.length_nil, show b0 + 0 = b0 from rfl, erec]; exact RS2
    · dsimp only; rw [hsb, flsOf_cons, P.filter]; exact RF2
    · dsimp only; rw [R.core.br.s]; rfl
    · dsimp only
      have hd := R.bu.drop (k := n.bundles.length) (by rw [length_buRecs])
      rw [← length_buRecs n.bundles s0, List.drop_length] at hd
      have hd := hd.push (by decide) ((s0 + 23) % maxSb, a.endSb)
      rw [length_buRecs] at hd
      have e1 : buRecs (s0 + 23) [(⟨n.endB, head :: sbsOf n.bundles⟩ : Bundle K V F)] = [((s0 + 23) % maxSb, a.endSb)] := by
        rw [RS2.e]; simp [buRecs]
      have e2 : Ring.add maxBu a.endBu 1 = (u0 + n.bundles.length + 1) % maxBu := by
        rw [R.bu.e, add_spec (by decide) (by decide), length_buRecs]
      have e3 : a.endBu = (u0 + n.bundles.length) % maxBu := by rw [R.bu.e, length_buRecs]
      rw [e1, ← e2]
      rw [← e3] at hd
      exact hd
    · intro i hi
      have : i = 0 := by simpa using hi
      subst this
      exact R.endB
    · dsimp only; rw [R.endB]; rfl
    · simp only [List.modifyHead_cons]
      refine .cons ⟨?_, ?_, rfl, by simp, by simp, Or.inl rfl⟩ .nil
      · dsimp only; rw [hxb]; simp [off]
      · dsimp only; rw [R.bu.e, length_buRecs]; rfl
    · intro y hy
      rw [List.mem_singleton.mp hy]; simp
    · dsimp only; rw [hsb]
      intro y hy
      rcases List.mem_cons.mp hy with h | h
      · rw [h]; exact cw
      · exact R.fullSb y h

/-! ### Filters of the pivots -/

/-- `trunk_pivot_whole_branch_count`. -/
theorem PivRep.pivWhole (R : RepAt H b0 s0 f0 u0 a n) {x : PRec F} {p : PData K F} (P : PivRep H b0 u0 n.whole n.bundles x p) :
    NodeArr.pivWhole H a x = n.whole.length - p.wskip := by
  have hl := R.core.br.lt
  have hW := R.core.br.win
  have hw := P.wle
  rw [List.length_append] at hl
  unfold NodeArr.pivWhole
  by_cases c : p.wskip < n.whole.length
  · rw [if_pos ((P.isWhole R).mpr c)]
    have h0 : p.bskip = 0 := by rcases P.order with h | h <;> omega
    have hs : x.startBr = (b0 + p.wskip) % H := by rw [P.startBr]; simp [off, h0]
    rw [hs, R.core.frac, distance_spec ⟨hW.pos, hW.cursor, by omega, by omega⟩]; omega
  · rw [if_neg (fun h => c ((P.isWhole R).mp h))]; omega

/-- `trunk_bundle_live_for_pivot` of a bundle of the node. -/
theorem PivRep.buLiveFor (R : RepAt H b0 s0 f0 u0 a n) {x : PRec F} {p : PData K F} (P : PivRep H b0 u0 n.whole n.bundles x p)
    {i : Nat} (hi : i < n.bundles.length) : NodeArr.buLiveFor a x ((u0 + i) % maxBu) = true ↔ p.bskip ≤ i := by
  have hlu := R.bu.lt
  have hb := P.ble
  rw [length_buRecs] at hlu
  unfold NodeArr.buLiveFor
  rw [P.startBu, R.bu.e, length_buRecs]
  by_cases c : p.bskip ≤ i
  · rw [Ring.inRange_spec ⟨by decide, by decide, by omega, by omega⟩ (by omega) (by omega)]; omega
  · have : (u0 + i) % maxBu = (u0 + i + maxBu) % maxBu := by rw [Nat.add_mod_right]
    rw [this, Ring.inRange_spec ⟨by decide, by decide, by omega, by omega⟩ (by omega) (by omega)]; omega

theorem buildFilters_spec {ops : FilterOps K F} (R : Rep H a n) (hb : n.bundles ≠ []) (slice : Nat → List K) :
    Rep H (NodeArr.buildFilters H ops.add a (n.pivots.map (fun y => slice y.1.gen))) (n.buildFilters ops slice) := by
  obtain ⟨b0, s0, f0, u0, R⟩ := R
  refine ⟨b0, s0, f0, u0, ⟨⟨R.core.br, R.core.sb, R.core.fl, R.core.frac⟩, R.bu, R.no, R.endB, ?_, R.full, R.fullSb⟩⟩
  unfold NodeArr.buildFilters Node.buildFilters
  dsimp only
  have hp := R.piv
  rw [List.forall₂_iff_get] at hp ⊢
  refine ⟨by simp [hp.1], fun i h1 h2 => ?_⟩
  have hi : i < n.pivots.length := by simpa using h2
  have P := hp.2 i (by rw [hp.1]; exact hi) hi
  simp only [List.get_eq_getElem] at P ⊢
  simp only [List.getElem_zipWith, List.getElem_map]
  have hlv := P.buLiveFor R (i := 0) (List.length_pos_of_ne_nil hb)
  rw [Nat.add_zero, ← R.bu.s, Nat.le_zero] at hlv
  by_cases c : n.pivots[i].1.bskip = 0
  · rw [hlv.mpr c]
    simp only [c, if_true, Bool.true_and]
    by_cases ce : (slice n.pivots[i].1.gen).isEmpty = true
    · simp only [ce, Bool.not_true, Bool.false_eq_true, if_false, if_true]
      exact P
    · simp only [ce, Bool.not_false, if_true, Bool.false_eq_true, if_false]
      refine ⟨?_, ?_, ?_, P.wle, by simp, Or.inl rfl⟩
      · have := P.startBr; rw [c] at this; exact this
      · have := P.startBu; rw [c] at this; exact this
      · dsimp only
        rw [P.pivWhole R, P.filter]
  · have : NodeArr.buLiveFor a a.pivots[i] a.startBu = false := by
      rw [Bool.eq_false_iff]; exact fun h => c (hlv.mp h)
    rw [this]
    simp only [c, Bool.false_and, Bool.false_eq_true, if_false]
    exact P

/-! ### Fewer pivots -/

/-- Half of an index node that is split: the same arrays, some of the pivots. -/
theorem pivots_spec (R : Rep H a n) {l : List (PData K F × C)} {r : List (PRec F)} {id : Nat} {k : K}
    (h : (r = a.pivots.take (n.pivots.length / 2) ∧ l = n.pivots.take (n.pivots.length / 2)) ∨
      (r = a.pivots.drop (n.pivots.length / 2) ∧ l = n.pivots.drop (n.pivots.length / 2))) :
    ∃ a', NodeArr.resetStart H { a with pivots := r } = some a' ∧
      Rep H a' ({ n with id := id, maxKey := k, pivots := l } : Node K V F C).resetStart := by
  obtain ⟨b0, s0, f0, u0, R⟩ := R
  have hp : List.Forall₂ (fun x y => PivRep H b0 u0 n.whole n.bundles x y.1) r l := by
    rcases h with ⟨rfl, rfl⟩ | ⟨rfl, rfl⟩
    · exact List.forall₂_take _ R.piv
    · exact List.forall₂_drop _ R.piv
  have R' : RepAt H b0 s0 f0 u0 { a with pivots := r } ({ n with id := id, maxKey := k, pivots := l } : Node K V F C) :=
    ⟨⟨R.core.br, R.core.sb, R.core.fl, R.core.frac⟩, R.bu, R.no, R.endB, hp, R.full, R.fullSb⟩
  obtain ⟨a', b0', s0', f0', u0', h1, h2⟩ := R'.resetStart
  exact ⟨a', h1, _, _, _, _, h2⟩

/-! ### Is a bundle live? -/

/-- `trunk_bundle_live` compares 4-bit numbers: right for the twelve newest numbers. -/
theorem buLive_spec (R : Rep H a n) {no : Nat} (h1 : no < n.endB) (h2 : n.endB ≤ no + maxBu) :
    buLive a (no % maxBu) = n.bundleLive no := by
  obtain ⟨b0, s0, f0, u0, R⟩ := R
  have hlu := R.bu.lt
  rw [length_buRecs] at hlu
  have he := R.endB
  have hl : n.bundleLive no = true ↔ u0 ≤ no := by
    unfold Node.bundleLive
    rw [List.any_eq_true]
    constructor
    · rintro ⟨b, hb, e⟩
      obtain ⟨i, hi, rfl⟩ := List.getElem_of_mem hb
      rw [R.no i hi] at e
      have : u0 + i = no := by simpa using e
      omega
    · intro h
      refine ⟨n.bundles[no - u0]'(by omega), List.getElem_mem _, ?_⟩
      rw [R.no]; simp; omega
  have hr : buLive a (no % maxBu) = true ↔ u0 ≤ no := by
    unfold buLive
    rw [R.bu.s, R.bu.e, length_buRecs]
    by_cases c : u0 ≤ no
    · rw [Ring.inRange_spec ⟨by decide, by decide, by omega, by omega⟩ (by omega) (by omega)]; omega
    · have : no % maxBu = (no + maxBu) % maxBu := by rw [Nat.add_mod_right]
      rw [this, Ring.inRange_spec ⟨by decide, by decide, by omega, by omega⟩ (by omega) (by omega)]; omega
  rw [Bool.eq_iff_iff, hl, hr]

/-! ### Lookups -/

/-- A branch read is the one the list model names, if it names one. -/
def Reads (x : Branch K V) (y : Option (Branch K V)) : Prop := ∀ b, y = some b → x = b

theorem forall₂_flatMap {α β γ δ : Type} {P : α → β → Prop} {Q : γ → δ → Prop} {f : α → List γ} {g : β → List δ} :
    ∀ {l : List α} {r : List β}, List.Forall₂ P l r → (∀ x y, P x y → List.Forall₂ Q (f x) (g y)) →
      List.Forall₂ Q (l.flatMap f) (r.flatMap g)
  | [], [], _, _ => .nil
  | x :: l, y :: r, .cons h t, hf => by
    rw [List.flatMap_cons, List.flatMap_cons]
    exact List.rel_append (hf x y h) (forall₂_flatMap t hf)

theorem filterReads_spec {ops : FilterOps K F} {f : F} {x : Nat} {bs : List (Branch K V)} (h0 : 0 < H) (h1 : H ≤ 65536)
    (hb : Holds H a.branch x bs) (k : K) :
    List.Forall₂ Reads (filterReads H ops.vals a f (x % H) k) (filterProbes ops f bs k) := by
  unfold filterReads filterProbes
  rw [List.forall₂_map_left_iff, List.forall₂_map_right_iff]
  refine List.forall₂_same.mpr fun v _ b e => ?_
  obtain ⟨hv, e⟩ := List.getElem?_eq_some_iff.mp e
  rw [add_spec h0 h1, hb v hv, e]

theorem sbReads_spec {ops : FilterOps K F} {W : List (Branch K V)} {S1 S2 : List (SB K V F)} {sb : SB K V F}
    (R : Core H b0 s0 f0 a W (S1 ++ sb :: S2)) (hf : sb.compacted = false → sb.filters ≠ []) (k : K) :
    List.Forall₂ Reads (sbReads H ops.vals a (a.sb ((s0 + S1.length) % maxSb)) k) (sbProbes ops sb k) := by
  obtain ⟨h1, h2, h3, h4, h5⟩ := R.at
  have hw := R.br.win
  rw [h1]
  unfold sbReads sbProbes
  dsimp only
  by_cases c : sb.compacted = true
  · rw [if_pos c, if_pos c]
    unfold compactedProbes
    have hd : Ring.sub maxSb ((f0 + (flsOf S1).length + sb.filters.length) % maxF) ((f0 + (flsOf S1).length) % maxF) =
        sb.filters.length := by
      rw [distance_spec (h := 24) ⟨by decide, by decide, by omega, by simp only [maxF] at h5; omega⟩]; omega
    have hl : (List.range sb.filters.length).map (fun i => a.filt (Ring.add maxF ((f0 + (flsOf S1).length) % maxF) i)) = sb.filters := by
      apply List.ext_getElem
      · simp
      · intro i h1 h2
        simp only [List.getElem_map, List.getElem_range]
        rw [add_spec (by decide) (by decide)]
        exact h3 i h2
    have ha : (List.range sb.filters.length).any
        (fun i => !(ops.vals (a.filt (Ring.add maxF ((f0 + (flsOf S1).length) % maxF) i)) k).isEmpty) =
        sb.filters.any (fun f => !(ops.vals f k).isEmpty) := by
      conv_rhs => rw [← hl, List.any_map]
      rfl
    rw [hd, ha]
    split
    · refine .cons (fun b e => ?_) .nil
      obtain ⟨hv, e⟩ := List.getElem?_eq_some_iff.mp e
      have := h2 0 hv
      rw [Nat.add_zero] at this
      rw [this, e]
    · exact .nil
  · rw [if_neg c, if_neg c]
    cases e : sb.filters with
    | nil => exact absurd e (hf (by simpa using c))
    | cons f r =>
      have : a.filt (Ring.add maxF ((f0 + (flsOf S1).length) % maxF) 0) = f := by
        rw [add_spec (by decide) (by decide), h3 0 (by rw [e]; simp)]; simp [e]
      rw [this]
      exact filterReads_spec hw.pos hw.cursor h2 k

/-- Positions and the entries at them. -/
theorem forall₂_window {β : Type} (h x : Nat) (l : List β) (P : Nat → β → Prop)
    (hP : ∀ i (hi : i < l.length), P ((x + i) % h) l[i]) : List.Forall₂ P ((window x (x + l.length)).map (· % h)) l := by
  rw [List.forall₂_iff_get]
  refine ⟨by simp [window], fun i h1 h2 => ?_⟩
  simp only [window, List.get_eq_getElem, List.getElem_map, List.getElem_range]
  exact hP i h2

theorem split_at {α : Type} {l : List α} {i : Nat} (hi : i < l.length) : l = l.take i ++ l[i] :: l.drop (i + 1) := by
  rw [List.getElem_cons_drop, List.take_append_drop]

theorem bundleReads_spec {ops : FilterOps K F} (R : RepAt H b0 s0 f0 u0 a n)
    (hf : ∀ sb ∈ sbsOf n.bundles, sb.compacted = false → sb.filters ≠ []) {pre post : List (Bundle K V F)} {b : Bundle K V F}
    (e : n.bundles = pre ++ b :: post) (k : K) :
    List.Forall₂ Reads (bundleReads H ops.vals a (a.bundle ((u0 + pre.length) % maxBu)) k) (bundleProbes ops b k) := by
  rw [R.bundleAt e]
  unfold bundleReads bundleProbes
  dsimp only
  have hs : sbsOf n.bundles = sbsOf pre ++ (b.sbs ++ sbsOf post) := by rw [e]; simp
  have hl := R.core.sb.lt
  rw [length_sbRecs, hs, List.length_append, List.length_append] at hl
  rw [Ring.newestFirst_spec ⟨by decide, by decide, by omega, by omega⟩]
  refine forall₂_flatMap (P := fun no sb => List.Forall₂ Reads (sbReads H ops.vals a (a.sb no) k) (sbProbes ops sb k)) ?_ (fun _ _ h => h)
  rw [List.forall₂_reverse_iff]
  refine forall₂_window _ _ _ _ fun i hi => ?_
  have hc := R.core
  rw [hs] at hc
  conv at hc => rw [split_at hi]
  rw [List.append_assoc, List.cons_append, ← List.append_assoc] at hc
  have := sbReads_spec (ops := ops) hc (hf _ (by rw [hs]; simp [List.getElem_mem])) k
  rw [List.length_append, List.length_take, Nat.min_eq_left (by omega), ← Nat.add_assoc] at this
  exact this

/-- The branches a lookup reads through a pivot are those of the list model, in the same
order. -/
theorem pivotReads_spec {ops : FilterOps K F} (R : RepAt H b0 s0 f0 u0 a n)
    (hf : ∀ sb ∈ sbsOf n.bundles, sb.compacted = false → sb.filters ≠ []) {x : PRec F} {p : PData K F}
    (P : PivRep H b0 u0 n.whole n.bundles x p) (k : K) :
    List.Forall₂ Reads (pivotReads H ops.vals a x k) (pivotProbes ops n p k) := by
  have hW := R.core.br.win
  have hlu := R.bu.lt
  have hb := P.ble
  rw [length_buRecs] at hlu
  unfold pivotReads pivotProbes
  refine List.rel_append ?_ ?_
  · unfold pivBundles
    rw [R.bu.e, P.startBu, length_buRecs, Ring.newestFirst_spec ⟨by decide, by decide, by omega, by omega⟩]
    refine forall₂_flatMap (P := fun no b => List.Forall₂ Reads (bundleReads H ops.vals a (a.bundle no) k) (bundleProbes ops b k)) ?_
      (fun _ _ h => h)
    rw [List.forall₂_reverse_iff]
    have e : u0 + n.bundles.length = u0 + p.bskip + (n.bundles.drop p.bskip).length := by rw [List.length_drop]; omega
    rw [e]
    refine forall₂_window _ _ _ _ fun i hi => ?_
    rw [List.length_drop] at hi
    have := bundleReads_spec (ops := ops) R hf (split_at (l := n.bundles) (i := p.bskip + i) (by omega)) k
    rw [List.length_take, Nat.min_eq_left (by omega), ← Nat.add_assoc] at this
    rw [List.getElem_drop]; exact this
  · rw [P.filter]
    rcases P.order with h | h
    · have hs : x.startBr = (b0 + p.wskip) % H := by rw [P.startBr, h]; simp [off]
      rw [hs]
      refine filterReads_spec hW.pos hW.cursor ?_ k
      exact (holds_append.mp R.core.br.holds).1.drop _ P.wle
    · rw [h, List.drop_length]
      unfold filterReads filterProbes
      rw [List.forall₂_map_left_iff, List.forall₂_map_right_iff]
      exact List.forall₂_same.mpr fun v _ b e => by simp at e

end Splinter.Trunk.NodeArr
