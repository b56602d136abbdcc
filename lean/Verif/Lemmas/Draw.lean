import Verif.Lemmas.Path
import Verif.Model.DrawCmd

set_option linter.unusedSectionVars false
set_option linter.unusedSimpArgs false

/-! # Lemmas about drawing -/

namespace Verif.Path

open Verif Verif.Spec

universe u

section Lawless

variable {F : Type u}

/-- A step that only appends connected segments. -/
def GoodStep [Arith F] (p q : Path F) : Prop := p <+: q ∧ (Connected p → Connected q)

theorem GoodStep.refl [Arith F] (p : Path F) : GoodStep p p := ⟨List.prefix_refl p, id⟩

theorem GoodStep.trans [Arith F] {p q r : Path F} (h1 : GoodStep p q) (h2 : GoodStep q r) : GoodStep p r :=
  ⟨h1.1.trans h2.1, h2.2 ∘ h1.2⟩

theorem goodStep_snoc [Arith F] (p : Path F) {s : Segment F} (h : s.start = currentPosition p) : GoodStep p (p ++ [s]) :=
  ⟨List.prefix_append _ _, fun hp => (connected_snoc p s).2 ⟨hp, h ▸ meets_refl _⟩⟩

theorem goodStep_moveTo [Arith F] (p : Path F) (q) : GoodStep p (moveTo p q) := goodStep_snoc p rfl
theorem goodStep_lineTo [Arith F] (p : Path F) (q) : GoodStep p (lineTo p q) := goodStep_snoc p rfl
theorem goodStep_curveTo [Arith F] (p : Path F) (a b c) : GoodStep p (curveTo p a b c) := goodStep_snoc p rfl

theorem goodStep_addSegments [Arith F] (p : Path F) (segs) : GoodStep p (addSegments p segs) :=
  ⟨addSegments_prefix _ _, addSegments_connected _⟩

theorem goodStep_run [Trig F] (c : Cmd F) (p : Path F) : GoodStep p (c.run p) := by
  cases c with
  | moveTo | relMoveTo => exact goodStep_moveTo _ _
  | lineTo | relLineTo | hLineTo | relHLineTo | vLineTo | relVLineTo => exact goodStep_lineTo _ _
  | lineByAngle => exact goodStep_snoc _ rfl
  | curveTo | relCurveTo | smoothCurveTo | relSmoothCurveTo | qCurveTo | relQCurveTo => exact goodStep_curveTo _ _ _ _
  | roundedCornerTo | relRoundedCornerTo =>
    exact ((goodStep_lineTo _ _).trans (goodStep_curveTo _ _ _ _)).trans (goodStep_lineTo _ _)
  | circle r =>
    exact (((((goodStep_moveTo _ _).trans (goodStep_curveTo _ _ _ _)).trans (goodStep_curveTo _ _ _ _)).trans
      (goodStep_curveTo _ _ _ _)).trans (goodStep_curveTo _ _ _ _))
  | rect w h =>
    exact (((goodStep_lineTo _ _).trans (goodStep_lineTo _ _)).trans (goodStep_lineTo _ _)).trans (goodStep_lineTo _ _)
  | addSegment s => exact ⟨addSegment_prefix _ _, fun h => addSegment_connected h s⟩
  | addSegments s => exact goodStep_addSegments _ _
  | svgPath s =>
    show GoodStep p (svgPath p s)
    unfold svgPath
    split
    · exact GoodStep.refl _
    · exact goodStep_addSegments _ _

theorem goodStep_runAll_from [Trig F] (cmds : List (Cmd F)) : ∀ p : Path F, GoodStep p (cmds.foldl (fun p c => c.run p) p) := by
  induction cmds with
  | nil => intro p; exact GoodStep.refl p
  | cons c cmds ih => intro p; exact (goodStep_run c p).trans (ih _)

end Lawless

section Field

variable {K : Type u} [Field K] [LinearOrder K]

@[simp] theorem newPoint_x (x y : K) : (newPoint x y).x = x := by
  simp only [newPoint, Arith.eq_field, Arith.lit_zero_field, Int.cast_zero]
  split
  · next h => simpa using (of_decide_eq_true h).symm
  · rfl

@[simp] theorem newPoint_y (x y : K) : (newPoint x y).y = y := by
  simp only [newPoint, Arith.eq_field, Arith.lit_zero_field, Int.cast_zero]
  split
  · next h => simpa using (of_decide_eq_true h).symm
  · rfl

theorem newPoint_eq (x y : K) : newPoint x y = ⟨x, y, -1⟩ := by
  have hx := newPoint_x x y
  have hy := newPoint_y x y
  have ht : (newPoint x y).t = -1 := by simp [newPoint]
  cases h : newPoint x y
  simp_all

@[simp] theorem pt_newPoint (x y : K) : pt (newPoint x y) = (x, y) := by simp [pt]

@[simp] theorem pt_origin : pt (origin : Point K) = (0, 0) := by simp [origin]
@[simp] theorem pt_zeroPoint : pt (zeroPoint : Point K) = (0, 0) := by simp [zeroPoint, pt]

theorem equals_iff {p q : Point K} : p.equals q = true ↔ pt p = pt q := by
  simp [Point.equals, pt]

theorem meets_iff {p q : Point K} : Meets p q ↔ pt p = pt q := by
  simp [Meets, equals_iff]

@[simp] theorem currentPosition_lineTo (p : Path K) (q : Point K) : currentPosition (lineTo p q) = q := by
  simp [lineTo, Segment.stop]
@[simp] theorem currentPosition_moveTo (p : Path K) (q : Point K) : currentPosition (moveTo p q) = q := by
  simp [moveTo, Segment.stop]
@[simp] theorem currentPosition_curveTo (p : Path K) (a b q : Point K) : currentPosition (curveTo p a b q) = q := by
  simp [curveTo, Segment.stop]

@[simp] theorem toAbs_x (p : Path K) (d : Point K) : (toAbs p d).x = (currentPosition p).x + d.x := by simp [toAbs]
@[simp] theorem toAbs_y (p : Path K) (d : Point K) : (toAbs p d).y = (currentPosition p).y + d.y := by simp [toAbs]

@[simp] theorem currentPosition_relLineTo (p : Path K) (d : Point K) : currentPosition (relLineTo p d) = toAbs p d := by
  simp [relLineTo]
@[simp] theorem currentPosition_relMoveTo (p : Path K) (d : Point K) : currentPosition (relMoveTo p d) = toAbs p d := by
  simp [relMoveTo]
@[simp] theorem currentPosition_relCurveTo (p : Path K) (a b d : Point K) :
    currentPosition (relCurveTo p a b d) = toAbs p d := by simp [relCurveTo]

theorem strokes_lineTo (p : Path K) (q : Point K) :
    strokes (lineTo p q) = strokes p ++ [.line (pt (currentPosition p)) (pt q)] := by
  simp [lineTo, strokes_cons, strokeOf]
theorem strokes_moveTo (p : Path K) (q : Point K) : strokes (moveTo p q) = strokes p := by
  simp [moveTo, strokes_cons, strokeOf]
theorem strokes_curveTo (p : Path K) (a b q : Point K) :
    strokes (curveTo p a b q) = strokes p ++ [.curve (pt (currentPosition p)) (pt a) (pt b) (pt q)] := by
  simp [curveTo, strokes_cons, strokeOf]

theorem strokes_relLineTo (p : Path K) (d : Point K) :
    strokes (relLineTo p d) = strokes p ++ [.line (pt (currentPosition p)) (pt (toAbs p d))] := strokes_lineTo _ _
theorem strokes_relMoveTo (p : Path K) (d : Point K) : strokes (relMoveTo p d) = strokes p := strokes_moveTo _ _
theorem strokes_relCurveTo (p : Path K) (a b d : Point K) :
    strokes (relCurveTo p a b d) =
      strokes p ++ [.curve (pt (currentPosition p)) (pt (toAbs p a)) (pt (toAbs p b)) (pt (toAbs p d))] :=
  strokes_curveTo _ _ _ _

end Field

/-! ### Circles -/

/-- The squared distance from the centre of a point of the quarter arc from `(0,-r)` to `(r,0)` with control length `k*r`. -/
theorem quarter_error {k : ℝ} (hk : 9 * k ^ 2 + 24 * k - 16 = 0) (r t : ℝ) :
    ((1 - t) ^ 3 * 0 + 3 * (1 - t) ^ 2 * t * (k * r) + 3 * (1 - t) * t ^ 2 * r + t ^ 3 * r) ^ 2 +
      ((1 - t) ^ 3 * r + 3 * (1 - t) ^ 2 * t * r + 3 * (1 - t) * t ^ 2 * (k * r) + t ^ 3 * 0) ^ 2 =
    r ^ 2 * (1 + (10 - 18 * k) * ((t * (1 - t)) ^ 2 * (1 - 2 * t) ^ 2)) := by
  linear_combination r ^ 2 * (t ^ 2 * (1 - t) ^ 2 - 2 * t ^ 3 * (1 - t) ^ 3) * hk

theorem quarter_bound (t : ℝ) (h0 : 0 ≤ t) (h1 : t ≤ 1) : (t * (1 - t)) ^ 2 * (1 - 2 * t) ^ 2 ≤ 1 / 108 := by
  have hs : 0 ≤ t * (1 - t) := mul_nonneg h0 (by linarith)
  have e : (1 - 2 * t) ^ 2 = 1 - 4 * (t * (1 - t)) := by ring
  rw [e]
  generalize t * (1 - t) = s at hs
  nlinarith [mul_nonneg hs (sq_nonneg (6 * s - 1)), sq_nonneg (6 * s - 1)]

/-- The control length of `Circle`. -/
theorem circleCtrl_real : (circleCtrl : ℝ) = 4 * (Real.sqrt 2 - 1) / 3 := by
  simp [circleCtrl, Arith.two, Arith.one]

theorem circleCtrl_eq : 9 * (circleCtrl : ℝ) ^ 2 + 24 * circleCtrl - 16 = 0 := by
  have h : Real.sqrt 2 ^ 2 = 2 := Real.sq_sqrt (by norm_num)
  rw [circleCtrl_real]
  linear_combination 16 * h

theorem circleCtrl_bounds : 0.5522 ≤ (circleCtrl : ℝ) ∧ (circleCtrl : ℝ) ≤ 5 / 9 := by
  have h : Real.sqrt 2 ^ 2 = 2 := Real.sq_sqrt (by norm_num)
  have h0 : 0 ≤ Real.sqrt 2 := Real.sqrt_nonneg 2
  rw [circleCtrl_real]
  constructor <;> nlinarith

/-- A point whose offset from the centre has the components of a quarter arc is within 0.03% of the radius. -/
theorem quarter_close {r t a b : ℝ} (h0 : 0 ≤ t) (h1 : t ≤ 1)
    (h : a ^ 2 + b ^ 2 = r ^ 2 * (1 + (10 - 18 * circleCtrl) * ((t * (1 - t)) ^ 2 * (1 - 2 * t) ^ 2))) :
    r ^ 2 ≤ a ^ 2 + b ^ 2 ∧ a ^ 2 + b ^ 2 ≤ (1.0003 * r) ^ 2 := by
  obtain ⟨hl, hu⟩ := circleCtrl_bounds
  have hb := quarter_bound t h0 h1
  have hn : 0 ≤ (t * (1 - t)) ^ 2 * (1 - 2 * t) ^ 2 := by positivity
  generalize (t * (1 - t)) ^ 2 * (1 - 2 * t) ^ 2 = e at *
  generalize (circleCtrl : ℝ) = k at *
  have hr : 0 ≤ r ^ 2 := sq_nonneg r
  have hke : 0 ≤ (10 - 18 * k) * e := mul_nonneg (by linarith) hn
  have hke2 : (10 - 18 * k) * e ≤ 0.0604 * (1 / 108) := mul_le_mul (by linarith) hb hn (by norm_num)
  rw [h]
  constructor
  · nlinarith
  · have : (1.0003 * r) ^ 2 = r ^ 2 * 1.00060009 := by ring
    rw [this]
    apply mul_le_mul_of_nonneg_left _ hr
    linarith

/-- The strokes of a circle, written out. -/
theorem strokes_circle (p : Path ℝ) (r : ℝ) :
    strokes (circle p r) = strokes p ++
      [.curve ((currentPosition p).x + r, (currentPosition p).y)
          ((currentPosition p).x + r + circleCtrl * r, (currentPosition p).y)
          ((currentPosition p).x + 2 * r, (currentPosition p).y + r - circleCtrl * r)
          ((currentPosition p).x + 2 * r, (currentPosition p).y + r),
       .curve ((currentPosition p).x + 2 * r, (currentPosition p).y + r)
          ((currentPosition p).x + 2 * r, (currentPosition p).y + r + circleCtrl * r)
          ((currentPosition p).x + r + circleCtrl * r, (currentPosition p).y + 2 * r)
          ((currentPosition p).x + r, (currentPosition p).y + 2 * r),
       .curve ((currentPosition p).x + r, (currentPosition p).y + 2 * r)
          ((currentPosition p).x + r - circleCtrl * r, (currentPosition p).y + 2 * r)
          ((currentPosition p).x, (currentPosition p).y + r + circleCtrl * r)
          ((currentPosition p).x, (currentPosition p).y + r),
       .curve ((currentPosition p).x, (currentPosition p).y + r)
          ((currentPosition p).x, (currentPosition p).y + r - circleCtrl * r)
          ((currentPosition p).x + r - circleCtrl * r, (currentPosition p).y)
          ((currentPosition p).x + r, (currentPosition p).y)] := by
  simp only [circle, strokes_relCurveTo, strokes_relMoveTo, List.append_assoc, List.cons_append, List.nil_append,
    List.append_cancel_left_eq, List.cons.injEq, and_true, Stroke.curve.injEq, Prod.ext_iff, pt, toAbs_x, toAbs_y, newPoint_x,
    newPoint_y, Arith.neg_field, Arith.add_field, Arith.sub_field, Arith.mul_field, Arith.zero, Arith.lit_zero_field, Int.cast_zero,
    currentPosition_relMoveTo, currentPosition_relCurveTo]
  refine ⟨⟨⟨?_, ?_⟩, ⟨?_, ?_⟩, ⟨?_, ?_⟩, ⟨?_, ?_⟩⟩, ⟨⟨?_, ?_⟩, ⟨?_, ?_⟩, ⟨?_, ?_⟩, ⟨?_, ?_⟩⟩,
    ⟨⟨?_, ?_⟩, ⟨?_, ?_⟩, ⟨?_, ?_⟩, ⟨?_, ?_⟩⟩, ⟨⟨?_, ?_⟩, ⟨?_, ?_⟩, ⟨?_, ?_⟩, ⟨?_, ?_⟩⟩⟩ <;> first | trivial | ring

end Verif.Path
