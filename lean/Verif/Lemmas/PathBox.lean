import Verif.Lemmas.BezierBox
import Verif.Lemmas.Clean
import Verif.Lemmas.Draw

/-!
# Lemmas about the bounding boxes and the handles of paths
-/

namespace Verif.Path

open Verif Verif.Spec XNum

set_option linter.unusedSectionVars false
set_option linter.unusedSimpArgs false

/-! ### Finite paths in extended arithmetic -/

section Fin

variable {K : Type*} [Field K] [LinearOrder K]

theorem newPoint_fin (x y : K) : newPoint (fin x) (fin y) = finPt (newPoint x y) := by
  rw [newPoint_eq]
  simp only [newPoint, finPt, Arith.zero, lit_zero_fin, eq_fin, Int.cast_zero, Int.cast_neg, Int.cast_one]
  by_cases hx : x = 0 <;> by_cases hy : y = 0 <;> simp [hx, hy]

theorem origin_fin : (origin : Point (XNum K)) = finPt origin := by
  simp only [origin, Arith.zero, lit_zero_fin, newPoint_fin]
  simp

theorem zeroPoint_fin : (zeroPoint : Point (XNum K)) = finPt zeroPoint := by
  simp [zeroPoint, finPt, Arith.zero]

theorem clone_fin (p : Point K) : (finPt p).clone = finPt p.clone := by
  simp only [Point.clone, finPt, newPoint_fin]

@[simp] theorem isMove_finSeg (s : Segment K) : (finSeg s).isMove = s.isMove := by cases s <;> rfl
@[simp] theorem start_finSeg (s : Segment K) : (finSeg s).start = finPt s.start := by cases s <;> rfl
@[simp] theorem stop_finSeg (s : Segment K) : (finSeg s).stop = finPt s.stop := by cases s <;> rfl

@[simp] theorem finPath_nil : finPath ([] : Path K) = [] := rfl
@[simp] theorem finPath_cons (s : Segment K) (p : Path K) : finPath (s :: p) = finSeg s :: finPath p := rfl

theorem finPt_inj {p q : Point K} : finPt p = finPt q ↔ p = q := by
  cases p
  cases q
  simp [finPt]

theorem finPath_injective : Function.Injective (finPath : Path K → Path (XNum K)) := by
  refine List.map_injective_iff.mpr ?_
  intro a b hab
  cases a <;> cases b <;> simp_all [finSeg, finPt_inj]

theorem fixHeadMove_fin (p : Path K) : fixHeadMove (finPath p) = finPath (fixHeadMove p) := by
  match p with
  | [] => rfl
  | .move a b :: rest =>
    simp only [finPath_cons, finSeg, fixHeadMove, finPt, Arith.zero, lit_zero_fin, eq_fin, Arith.eq_field, Arith.lit_zero_field, Int.cast_zero]
    split <;> simp [finSeg, finPt, zeroPoint, Arith.zero]
  | .line _ _ :: _ => rfl
  | .curve _ _ _ _ :: _ => rfl

theorem headMove_fin (p : Path K) : headMove (finPath p) = finPath (headMove p) := by
  match p with
  | [] => rfl
  | s :: rest =>
    simp only [finPath_cons, headMove, isMove_finSeg, start_finSeg, origin_fin]
    split <;> rfl

theorem newPath_fin (p : Path K) : newPath (finPath p) = finPath (newPath p) := by
  simp only [newPath, headMove_fin, fixHeadMove_fin]

theorem trimTailMove_fin (p : Path K) : trimTailMove (finPath p) = finPath (trimTailMove p) := by
  simp only [trimTailMove, finPath, ← List.map_reverse, List.dropWhile_map]
  congr 3
  funext s
  simp

theorem trimMove_fin (p : Path K) : trimMove (finPath p) = finPath (trimMove p) := by
  induction p with
  | nil => rfl
  | cons s rest ih =>
    simp only [finPath_cons, trimMove, isMove_finSeg]
    split
    · exact ih
    · exact trimTailMove_fin (s :: rest)

theorem mapPath_fin (f' : Point (XNum K) → Point (XNum K)) (f : Point K → Point K) (h : ∀ q, f' (finPt q) = finPt (f q)) (p : Path K) :
    mapPath f' (finPath p) = finPath (mapPath f p) := by
  simp only [mapPath, ← newPath_fin]
  congr 1
  simp only [finPath, List.map_map]
  congr 1
  funext s
  cases s <;> simp [finSeg, Segment.mapPoints, h]

theorem shift_fin (dx dy : K) (p : Path K) : shift (fin dx) (fin dy) (finPath p) = finPath (shift dx dy p) := by
  refine mapPath_fin _ _ ?_ p
  intro q
  simp only [finPt, add_fin]
  rw [newPoint_fin]
  simp [finPt]

theorem scaleBy_fin (sx sy : K) (p : Path K) : scaleBy (fin sx) (fin sy) (finPath p) = finPath (scaleBy sx sy p) := by
  refine mapPath_fin _ _ ?_ p
  intro q
  simp only [finPt, mul_fin]
  rw [newPoint_fin]
  simp [finPt]

end Fin

/-! ### Boxes -/

section BoxOf

variable {K : Type*} [Field K] [LinearOrder K]

theorem _root_.Verif.Spec.BoxOf.unique {D : Pt K → Prop} {a b c d : Pt K} (h : BoxOf D a b) (g : BoxOf D c d) : a = c ∧ b = d := by
  obtain ⟨q1, h1, e1⟩ := h.left
  obtain ⟨q2, h2, e2⟩ := h.right
  obtain ⟨q3, h3, e3⟩ := h.top
  obtain ⟨q4, h4, e4⟩ := h.bottom
  obtain ⟨r1, g1, f1⟩ := g.left
  obtain ⟨r2, g2, f2⟩ := g.right
  obtain ⟨r3, g3, f3⟩ := g.top
  obtain ⟨r4, g4, f4⟩ := g.bottom
  have i1 := g.inside _ h1
  have i2 := g.inside _ h2
  have i3 := g.inside _ h3
  have i4 := g.inside _ h4
  have j1 := h.inside _ g1
  have j2 := h.inside _ g2
  have j3 := h.inside _ g3
  have j4 := h.inside _ g4
  rw [e1] at i1
  rw [e2] at i2
  rw [e3] at i3
  rw [e4] at i4
  rw [f1] at j1
  rw [f2] at j2
  rw [f3] at j3
  rw [f4] at j4
  exact ⟨Prod.ext (le_antisymm j1.1 i1.1) (le_antisymm j3.2.2.1 i3.2.2.1), Prod.ext (le_antisymm i2.2.1 j2.2.1) (le_antisymm i4.2.2.2 j4.2.2.2)⟩

theorem _root_.Verif.Spec.BoxOf.congr {D E : Pt K → Prop} {a b : Pt K} (h : BoxOf D a b) (e : ∀ q, D q ↔ E q) : BoxOf E a b := by
  have : D = E := funext fun q => propext (e q)
  exact this ▸ h

/-- A union of two drawings has the union of the boxes. -/
theorem _root_.Verif.Spec.BoxOf.union {D E : Pt K → Prop} {a b c d : Pt K} (h : BoxOf D a b) (g : BoxOf E c d) :
    BoxOf (fun q => D q ∨ E q) (min a.1 c.1, min a.2 c.2) (max b.1 d.1, max b.2 d.2) where
  inside := by
    rintro q (hq | hq)
    · have := h.inside q hq
      exact ⟨min_le_of_left_le this.1, le_max_of_le_left this.2.1, min_le_of_left_le this.2.2.1, le_max_of_le_left this.2.2.2⟩
    · have := g.inside q hq
      exact ⟨min_le_of_right_le this.1, le_max_of_le_right this.2.1, min_le_of_right_le this.2.2.1, le_max_of_le_right this.2.2.2⟩
  left := by
    rcases min_choice a.1 c.1 with e | e
    · obtain ⟨q, h1, h2⟩ := h.left
      exact ⟨q, Or.inl h1, by simp [e, h2]⟩
    · obtain ⟨q, h1, h2⟩ := g.left
      exact ⟨q, Or.inr h1, by simp [e, h2]⟩
  right := by
    rcases max_choice b.1 d.1 with e | e
    · obtain ⟨q, h1, h2⟩ := h.right
      exact ⟨q, Or.inl h1, by simp [e, h2]⟩
    · obtain ⟨q, h1, h2⟩ := g.right
      exact ⟨q, Or.inr h1, by simp [e, h2]⟩
  top := by
    rcases min_choice a.2 c.2 with e | e
    · obtain ⟨q, h1, h2⟩ := h.top
      exact ⟨q, Or.inl h1, by simp [e, h2]⟩
    · obtain ⟨q, h1, h2⟩ := g.top
      exact ⟨q, Or.inr h1, by simp [e, h2]⟩
  bottom := by
    rcases max_choice b.2 d.2 with e | e
    · obtain ⟨q, h1, h2⟩ := h.bottom
      exact ⟨q, Or.inl h1, by simp [e, h2]⟩
    · obtain ⟨q, h1, h2⟩ := g.bottom
      exact ⟨q, Or.inr h1, by simp [e, h2]⟩

end BoxOf

/-- The points of one stroke. -/
def On {K : Type*} [Field K] [LinearOrder K] (s : Stroke K) (q : Pt K) : Prop := ∃ t : K, 0 ≤ t ∧ t ≤ 1 ∧ s.at t = q

theorem at_line_box {K : Type*} [Field K] [LinearOrder K] [IsStrictOrderedRing K] (a b : Pt K) : BoxOf (On (.line a b)) (min a.1 b.1, min a.2 b.2) (max a.1 b.1, max a.2 b.2) := by
  have key : ∀ x y t : K, 0 ≤ t → t ≤ 1 → min x y ≤ (1 - t) * x + t * y ∧ (1 - t) * x + t * y ≤ max x y := by
    intro x y t h0 h1
    constructor
    · nlinarith [min_le_left x y, min_le_right x y]
    · nlinarith [le_max_left x y, le_max_right x y]
  have at0 : On (.line a b) a := ⟨0, le_refl _, by norm_num, by simp [Stroke.at]⟩
  have at1 : On (.line a b) b := ⟨1, by norm_num, le_refl _, by simp [Stroke.at]⟩
  refine ⟨?_, ?_, ?_, ?_, ?_⟩
  · rintro q ⟨t, h0, h1, rfl⟩
    exact ⟨(key _ _ t h0 h1).1, (key _ _ t h0 h1).2, (key _ _ t h0 h1).1, (key _ _ t h0 h1).2⟩
  · rcases min_choice a.1 b.1 with e | e
    · exact ⟨a, at0, by simp [e]⟩
    · exact ⟨b, at1, by simp [e]⟩
  · rcases max_choice a.1 b.1 with e | e
    · exact ⟨a, at0, by simp [e]⟩
    · exact ⟨b, at1, by simp [e]⟩
  · rcases min_choice a.2 b.2 with e | e
    · exact ⟨a, at0, by simp [e]⟩
    · exact ⟨b, at1, by simp [e]⟩
  · rcases max_choice a.2 b.2 with e | e
    · exact ⟨a, at0, by simp [e]⟩
    · exact ⟨b, at1, by simp [e]⟩

/-- The model point of a pair. -/
def mk (q : Pt ℝ) : Point ℝ := ⟨q.1, q.2, -1⟩

theorem newPoint_mk (x y : ℝ) : newPoint (fin x) (fin y) = finPt (mk (x, y)) := by
  rw [newPoint_fin, newPoint_eq]
  rfl

theorem if_lt_min (a b : ℝ) : (if (fin b : XNum ℝ) <. fin a then (fin b, fin a) else (fin a, fin b)) = ((fin (min a b) : XNum ℝ), fin (max a b)) := by
  simp only [lt_fin, decide_eq_true_eq]
  split
  · rename_i h
    rw [min_eq_right h.le, max_eq_left h.le]
  · rename_i h
    rw [min_eq_left (not_lt.mp h), max_eq_right (not_lt.mp h)]

theorem lineBox_fin (seg : Segment ℝ) (a b : Point ℝ) (h : seg = .move a b ∨ seg = .line a b) :
    segBox (finSeg seg) = (finPt (mk (min a.x b.x, min a.y b.y)), finPt (mk (max a.x b.x, max a.y b.y))) := by
  rcases h with rfl | rfl <;>
  · change (newPoint (if (fin b.x : XNum ℝ) <. fin a.x then (fin b.x, fin a.x) else (fin a.x, fin b.x)).1
          (if (fin b.y : XNum ℝ) <. fin a.y then (fin b.y, fin a.y) else (fin a.y, fin b.y)).1,
        newPoint (if (fin b.x : XNum ℝ) <. fin a.x then (fin b.x, fin a.x) else (fin a.x, fin b.x)).2
          (if (fin b.y : XNum ℝ) <. fin a.y then (fin b.y, fin a.y) else (fin a.y, fin b.y)).2) = _
    rw [if_lt_min, if_lt_min]
    simp only [newPoint_mk]

theorem segBox_fin (seg : Segment ℝ) (s : Stroke ℝ) (hs : strokeOf seg = some s) (h : Small [seg]) :
    ∃ tl br : Pt ℝ, segBox (finSeg seg) = (finPt (mk tl), finPt (mk br)) ∧ BoxOf (On s) tl br := by
  cases seg with
  | move a b => simp [strokeOf] at hs
  | line a b =>
    simp only [strokeOf, Option.some.injEq] at hs
    subst hs
    exact ⟨_, _, lineBox_fin _ a b (Or.inr rfl), at_line_box (pt a) (pt b)⟩
  | curve a c d b =>
    simp only [strokeOf, Option.some.injEq] at hs
    subst hs
    obtain ⟨hx, hy⟩ := h (pt a) (pt c) (pt d) (pt b) (by simp [strokes, strokeOf])
    obtain ⟨tl, br, e, ex, ey⟩ := Bezier.boundingBox_exact (bezOf a c d b) hx hy
    refine ⟨(tl.x, tl.y), (br.x, br.y), ?_, ?_⟩
    · have : bezOf (finPt a) (finPt c) (finPt d) (finPt b) = finCurve (bezOf a c d b) := rfl
      simp only [segBox, finSeg, this, e, finPoint]
      rw [newPoint_mk, newPoint_mk]
    · have at_eq : ∀ t, (Stroke.curve (pt a) (pt c) (pt d) (pt b)).at t = curveAt (bezOf a c d b) t := by
        intro t
        rfl
      obtain ⟨ix, ⟨t1, h1, h1', e1⟩, ⟨t2, h2, h2', e2⟩⟩ := ex
      obtain ⟨iy, ⟨t3, h3, h3', e3⟩, ⟨t4, h4, h4', e4⟩⟩ := ey
      refine ⟨?_, ⟨_, ⟨t1, h1, h1', rfl⟩, ?_⟩, ⟨_, ⟨t2, h2, h2', rfl⟩, ?_⟩, ⟨_, ⟨t3, h3, h3', rfl⟩, ?_⟩, ⟨_, ⟨t4, h4, h4', rfl⟩, ?_⟩⟩
      · rintro q ⟨t, h0, h1, rfl⟩
        rw [at_eq]
        exact ⟨(ix t h0 h1).1, (ix t h0 h1).2, (iy t h0 h1).1, (iy t h0 h1).2⟩
      · rw [at_eq]; exact e1
      · rw [at_eq]; exact e2
      · rw [at_eq]; exact e3
      · rw [at_eq]; exact e4

theorem growBox_fin (a b c d : Pt ℝ) :
    growBox (finPt (mk a), finPt (mk b)) (finPt (mk c), finPt (mk d)) =
      (finPt (mk (min a.1 c.1, min a.2 c.2)), finPt (mk (max b.1 d.1, max b.2 d.2))) := by
  have h1 : ∀ x y : ℝ, (if (fin y : XNum ℝ) <. fin x then (fin y : XNum ℝ) else fin x) = fin (min x y) := by
    intro x y
    simp only [lt_fin, decide_eq_true_eq]
    split
    · rename_i h; rw [min_eq_right h.le]
    · rename_i h; rw [min_eq_left (not_lt.mp h)]
  have h2 : ∀ x y : ℝ, (if (fin x : XNum ℝ) <. fin y then (fin y : XNum ℝ) else fin x) = fin (max x y) := by
    intro x y
    simp only [lt_fin, decide_eq_true_eq]
    split
    · rename_i h; rw [max_eq_right h.le]
    · rename_i h; rw [max_eq_left (not_lt.mp h)]
  have e1 := h1 a.1 c.1
  have e2 := h1 a.2 c.2
  have e3 := h2 b.1 d.1
  have e4 := h2 b.2 d.2
  simp only [growBox, finPt, mk, ← e1, ← e2, ← e3, ← e4]
  rfl

theorem drawn_cons {K : Type*} [Field K] [LinearOrder K] (s : Segment K) (p : Path K) (q : Pt K) :
    Drawn (s :: p) q ↔ (∃ t, strokeOf s = some t ∧ On t q) ∨ Drawn p q := by
  simp only [Drawn, strokes_cons, List.mem_append, Option.mem_toList, Option.mem_def, On]
  constructor
  · rintro ⟨x, h | h, h'⟩
    · exact Or.inl ⟨x, h, h'⟩
    · exact Or.inr ⟨x, h, h'⟩
  · rintro (⟨x, h, h'⟩ | ⟨x, h, h'⟩)
    · exact ⟨x, Or.inl h, h'⟩
    · exact ⟨x, Or.inr h, h'⟩

theorem _root_.Verif.Spec.Small.head {s : Segment ℝ} {p : Path ℝ} (h : Small (s :: p)) : Small [s] := by
  intro a c d b hm
  refine h a c d b ?_
  rw [strokes_cons] at hm ⊢
  simp only [strokes, List.filterMap_nil, List.append_nil] at hm
  exact List.mem_append_left _ hm

theorem _root_.Verif.Spec.Small.tail {s : Segment ℝ} {p : Path ℝ} (h : Small (s :: p)) : Small p := by
  intro a c d b hm
  refine h a c d b ?_
  rw [strokes_cons]
  exact List.mem_append_right _ hm

/-- The loop of `boundingBox` extends the box of what came before. -/
theorem boxLoop_fin (p : Path ℝ) : ∀ (D : Pt ℝ → Prop) (a b : Pt ℝ), Small p → BoxOf D a b →
    ∃ c d : Pt ℝ, (finPath p).foldl (fun b s => if s.isMove then b else growBox b (segBox s)) (finPt (mk a), finPt (mk b)) =
        (finPt (mk c), finPt (mk d)) ∧ BoxOf (fun q => D q ∨ Drawn p q) c d := by
  induction p with
  | nil =>
    intro D a b _ h
    refine ⟨a, b, rfl, h.congr ?_⟩
    intro q
    simp [Drawn, strokes]
  | cons s rest ih =>
    intro D a b hs h
    simp only [finPath_cons, List.foldl_cons, isMove_finSeg]
    cases hm : strokeOf s with
    | none =>
      rw [if_pos (strokeOf_eq_none.mp hm)]
      obtain ⟨c, d, e, g⟩ := ih D a b hs.tail h
      refine ⟨c, d, e, g.congr ?_⟩
      intro q
      rw [drawn_cons, hm]
      simp
    | some t =>
      have hnm : s.isMove = false := by
        cases hb : s.isMove with
        | false => rfl
        | true => rw [strokeOf_eq_none.mpr hb] at hm; cases hm
      obtain ⟨tl, br, e1, h1⟩ := segBox_fin s t hm hs.head
      rw [hnm, if_neg (by simp), e1, growBox_fin]
      obtain ⟨c, d, e, g⟩ := ih _ _ _ hs.tail (h.union h1)
      refine ⟨c, d, e, g.congr ?_⟩
      intro q
      rw [drawn_cons, hm]
      simp only [Option.some.injEq, exists_eq_left']
      exact or_assoc

theorem pathBox_fin {p : Path ℝ} (hne : p ≠ []) (hh : ∀ s, p.head? = some s → s.isMove = false) (hs : Small p) :
    ∃ tl br : Pt ℝ, pathBox (finPath p) = (finPt (mk tl), finPt (mk br)) ∧ BoxOf (Drawn p) tl br := by
  match p, hne with
  | s :: rest, _ =>
    have hm := hh s rfl
    cases hst : strokeOf s with
    | none => rw [strokeOf_eq_none.mp hst] at hm; cases hm
    | some t =>
      obtain ⟨tl, br, e1, h1⟩ := segBox_fin s t hst hs.head
      simp only [finPath_cons, pathBox, e1]
      obtain ⟨c, d, e, g⟩ := boxLoop_fin rest _ _ _ hs.tail h1
      refine ⟨c, d, e, g.congr ?_⟩
      intro q
      rw [drawn_cons, hst]
      simp

theorem _root_.Verif.Spec.Small.congr {p q : Path ℝ} (h : Small p) (e : strokes p = strokes q) : Small q := by
  intro a c d b hm
  exact h a c d b (e ▸ hm)

theorem _root_.Verif.Spec.Drawn.congr {K : Type*} [Field K] [LinearOrder K] {p q : Path K} (e : strokes p = strokes q) (x : Pt K) : Drawn p x ↔ Drawn q x := by
  simp only [Drawn, e]

theorem newPathWithoutMove_trim {F : Type*} [Arith F] (p : Path F) : newPathWithoutMove (trimMove p) = trimMove p := by
  have := trimMove_head p
  match h : trimMove p with
  | [] => rfl
  | .move a b :: rest => rw [h] at this; have := this _ rfl; cases this
  | .line _ _ :: _ => rfl
  | .curve _ _ _ _ :: _ => rfl

theorem trimmedBox_fin {p : Path ℝ} (hne : strokes p ≠ []) (hs : Small p) :
    ∃ tl br : Pt ℝ, trimmedBox (finPath p) = (finPt (mk tl), finPt (mk br)) ∧ BoxOf (Drawn p) tl br := by
  have e : strokes (trimMove p) = strokes p := trimMove_strokes p
  have hne' : trimMove p ≠ [] := by
    intro h
    rw [h] at e
    exact hne e.symm
  obtain ⟨tl, br, h1, h2⟩ := pathBox_fin hne' (trimMove_head p) (hs.congr e.symm)
  refine ⟨tl, br, ?_, h2.congr (Drawn.congr e)⟩
  simp only [trimmedBox]
  rw [newPathWithoutMove_trim, trimMove_fin, h1]

/-! ### Handles -/

section Handles

variable {F : Type*} [Trig F]
/-- The name of an attribute has no comma and no dot, and is found again. -/
theorem split_text (a : Attr) : splitOn ',' a.text [] = [a.text] ∧ splitOn '.' a.text [] = [a.text] ∧ Attr.ofText a.text = some a := by
  cases a <;> decide +kernel

theorem pointAttribute_text (a : Attr) (p : Path F) : pointAttribute a.text p =
    match namedValue a p with
    | .ok (.point q, _) => .ok q
    | .ok (.number _, _) => .err
    | .err => .err
    | .panic => .panic := by
  obtain ⟨h1, h2, h3⟩ := split_text a
  have h : (parsePoint a.text : Option (Point F)) = none := by
    unfold parsePoint
    rw [h1]
  unfold pointAttribute pathAttribute
  rw [h, h2]
  simp only [h3]
  rcases namedValue a p with ⟨v, b⟩ | _ | _
  · cases v <;> cases b <;> rfl
  · rfl
  · rfl

theorem handleOf_text (a : Attr) : handleOf a.text = a.text := by
  cases a <;> decide +kernel

end Handles

/-! ### Mapped drawings -/

section Mapped

variable {K : Type*} [Field K] [LinearOrder K]

/-- The map of the plane with matrix `a c e / b d f`, as in SVG. -/
def affine (a b c d e f : K) (q : Pt K) : Pt K := (q.1 * a + q.2 * c + e, q.1 * b + q.2 * d + f)

theorem at_affine (a b c d e f : K) (s : Stroke K) (t : K) : (s.map (affine a b c d e f)).at t = affine a b c d e f (s.at t) := by
  cases s <;> simp only [Stroke.map, Stroke.at, affine] <;> ext <;> simp only [] <;> ring

theorem drawn_map {p q : Path K} {g : Pt K → Pt K} (hg : ∀ s t, (Stroke.map g s).at t = g (s.at t))
    (h : strokes q = (strokes p).map (Stroke.map g)) (y : Pt K) : Drawn q y ↔ ∃ x, Drawn p x ∧ g x = y := by
  simp only [Drawn, h, List.mem_map]
  constructor
  · rintro ⟨_, ⟨s, hs, rfl⟩, t, h0, h1, e⟩
    exact ⟨s.at t, ⟨s, hs, t, h0, h1, rfl⟩, by rw [← hg, e]⟩
  · rintro ⟨_, ⟨s, hs, t, h0, h1, rfl⟩, e⟩
    exact ⟨s.map g, ⟨s, hs, rfl⟩, t, h0, h1, by rw [hg, e]⟩

/-- The box of a drawing whose coordinates are mapped by increasing functions. -/
theorem boxOf_mono {D E : Pt K → Prop} {g h : K → K} {tl br : Pt K} (hg : Monotone g) (hh : Monotone h)
    (e : ∀ y, E y ↔ ∃ x, D x ∧ (g x.1, h x.2) = y) (b : BoxOf D tl br) : BoxOf E (g tl.1, h tl.2) (g br.1, h br.2) where
  inside := by
    intro y hy
    obtain ⟨x, hx, rfl⟩ := (e y).mp hy
    obtain ⟨h1, h2, h3, h4⟩ := b.inside x hx
    exact ⟨hg h1, hg h2, hh h3, hh h4⟩
  left := by
    obtain ⟨x, hx, ex⟩ := b.left
    exact ⟨_, (e _).mpr ⟨x, hx, rfl⟩, by simp [ex]⟩
  right := by
    obtain ⟨x, hx, ex⟩ := b.right
    exact ⟨_, (e _).mpr ⟨x, hx, rfl⟩, by simp [ex]⟩
  top := by
    obtain ⟨x, hx, ex⟩ := b.top
    exact ⟨_, (e _).mpr ⟨x, hx, rfl⟩, by simp [ex]⟩
  bottom := by
    obtain ⟨x, hx, ex⟩ := b.bottom
    exact ⟨_, (e _).mpr ⟨x, hx, rfl⟩, by simp [ex]⟩

theorem boxOf_flipX {D E : Pt K → Prop} {g h : K → K} {tl br : Pt K} (hg : Antitone g) (hh : Monotone h)
    (e : ∀ y, E y ↔ ∃ x, D x ∧ (g x.1, h x.2) = y) (b : BoxOf D tl br) : BoxOf E (g br.1, h tl.2) (g tl.1, h br.2) where
  inside := by
    intro y hy
    obtain ⟨x, hx, rfl⟩ := (e y).mp hy
    obtain ⟨h1, h2, h3, h4⟩ := b.inside x hx
    exact ⟨hg h2, hg h1, hh h3, hh h4⟩
  left := by
    obtain ⟨x, hx, ex⟩ := b.right
    exact ⟨_, (e _).mpr ⟨x, hx, rfl⟩, by simp [ex]⟩
  right := by
    obtain ⟨x, hx, ex⟩ := b.left
    exact ⟨_, (e _).mpr ⟨x, hx, rfl⟩, by simp [ex]⟩
  top := by
    obtain ⟨x, hx, ex⟩ := b.top
    exact ⟨_, (e _).mpr ⟨x, hx, rfl⟩, by simp [ex]⟩
  bottom := by
    obtain ⟨x, hx, ex⟩ := b.bottom
    exact ⟨_, (e _).mpr ⟨x, hx, rfl⟩, by simp [ex]⟩

theorem boxOf_flipY {D E : Pt K → Prop} {g h : K → K} {tl br : Pt K} (hg : Monotone g) (hh : Antitone h)
    (e : ∀ y, E y ↔ ∃ x, D x ∧ (g x.1, h x.2) = y) (b : BoxOf D tl br) : BoxOf E (g tl.1, h br.2) (g br.1, h tl.2) where
  inside := by
    intro y hy
    obtain ⟨x, hx, rfl⟩ := (e y).mp hy
    obtain ⟨h1, h2, h3, h4⟩ := b.inside x hx
    exact ⟨hg h1, hg h2, hh h4, hh h3⟩
  left := by
    obtain ⟨x, hx, ex⟩ := b.left
    exact ⟨_, (e _).mpr ⟨x, hx, rfl⟩, by simp [ex]⟩
  right := by
    obtain ⟨x, hx, ex⟩ := b.right
    exact ⟨_, (e _).mpr ⟨x, hx, rfl⟩, by simp [ex]⟩
  top := by
    obtain ⟨x, hx, ex⟩ := b.bottom
    exact ⟨_, (e _).mpr ⟨x, hx, rfl⟩, by simp [ex]⟩
  bottom := by
    obtain ⟨x, hx, ex⟩ := b.top
    exact ⟨_, (e _).mpr ⟨x, hx, rfl⟩, by simp [ex]⟩

end Mapped

end Verif.Path
