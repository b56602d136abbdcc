import Verif.Props.Transform

/-!
# C87: scaling with given factors, and scaling to two given points
-/

set_option linter.unusedSectionVars false

namespace Verif.Path

open Verif Verif.Spec XNum

/-- A scaling without a width or a height, with the points `S` and `T` and the factors `u` and `v`. -/
def scaleTo (u v : ℝ) (S T : Point ℝ) (w h : ℝ) : Scale (XNum ℝ) := ⟨fin u, fin v, finPt S, finPt T, fin w, fin h⟩

theorem startAndEndOf_fin {p : Path ℝ} {a b : Segment ℝ} (ha : p.head? = some a) (hb : p.getLast? = some b) :
    startAndEndOf (finPath p) = (finPt a.stop, finPt b.stop) := by
  cases p with
  | nil => simp at ha
  | cons s rest =>
    simp only [List.head?_cons, Option.some.injEq] at ha
    subst ha
    have e : (finPath (s :: rest)).getLast? = some (finSeg b) := by
      simp only [finPath, List.getLast?_map, hb, Option.map_some]
    have f : ∀ x : Segment ℝ, (finSeg x).stop = finPt x.stop := fun x => by cases x <;> rfl
    rw [finPath_cons] at e ⊢
    rw [List.getLast?_eq_getLast_of_ne_nil (by simp)] at e
    simp only [Option.some.injEq] at e
    simp only [startAndEndOf, startAndEnd, Option.getD_some, e, f]

theorem abs_ne {x y : ℝ} (h : x ≠ y) : |y - x| ≠ 0 := abs_ne_zero.mpr (sub_ne_zero.mpr (Ne.symm h))

theorem scale_of_factors {st : Scale (XNum ℝ)} {p : Path ℝ} {kx ky : ℝ} (h : scaleFactors st (finPath p) = (fin kx, fin ky)) :
    scale st (finPath p) = finPath (scaleBy kx ky p) := by
  simp only [scale, h]
  exact scaleBy_fin _ _ _

/-- **C87.** Without a size and without two points (the default is the origin twice), the coordinates of every stroke are multiplied by
the given factors. -/
theorem C87_factors (p : Path ℝ) (u v w h : ℝ) (hw : w ≤ 0) (hh : h ≤ 0) (S : Point ℝ) :
    ∃ q : Path ℝ, scale (scaleTo u v S S w h) (finPath p) = finPath q ∧ strokes q = (strokes p).map (Stroke.map (scalePt u v)) := by
  refine ⟨scaleBy u v p, scale_of_factors ?_, C30_strokes u v p⟩
  simp only [scaleFactors, scaleTo, zero_lt_fin, not_lt.mpr hw, not_lt.mpr hh, decide_false, Bool.or_self, Bool.false_eq_true,
    if_false, Point.equals, finPt, eq_fin, decide_true, Bool.and_self, Bool.not_true]

/-- The strokes of `q` are those of `p` with the coordinates multiplied by two factors that are not negative, and the factors bring the
displacement from `s` to `e` to the size of the displacement from `S` to `T` in the directions marked by `x` and `y`. -/
def Displaced (p q : Path ℝ) (s e S T : Point ℝ) (x y uniform : Prop) : Prop :=
  ∃ kx ky : ℝ, 0 ≤ kx ∧ 0 ≤ ky ∧ strokes q = (strokes p).map (Stroke.map (scalePt kx ky)) ∧
    (x → |(scalePt kx ky (pt e)).1 - (scalePt kx ky (pt s)).1| = |T.x - S.x|) ∧
    (y → |(scalePt kx ky (pt e)).2 - (scalePt kx ky (pt s)).2| = |T.y - S.y|) ∧ (uniform → kx = ky)

theorem scaled_abs {a b c d : ℝ} (h : a ≠ b) : |b * (|d - c| / |b - a|) - a * (|d - c| / |b - a|)| = |d - c| := by
  rw [← sub_mul, abs_mul, abs_div, abs_abs, abs_abs, mul_div_cancel₀ _ (abs_ne h)]

theorem factors_to (p : Path ℝ) (a b : Segment ℝ) (ha : p.head? = some a) (hb : p.getLast? = some b) (u v w h : ℝ) (hw : w ≤ 0)
    (hh : h ≤ 0) (S T : Point ℝ) (hne : S.x ≠ T.x ∨ S.y ≠ T.y) (x y : XNum ℝ)
    (hx : x = if |T.x - S.x| = 0 ∨ |b.stop.x - a.stop.x| = 0 then (fin |T.y - S.y| : XNum ℝ) /. fin |b.stop.y - a.stop.y|
      else (fin |T.x - S.x| : XNum ℝ) /. fin |b.stop.x - a.stop.x|)
    (hy : y = if |T.y - S.y| = 0 ∨ |b.stop.y - a.stop.y| = 0 then x else (fin |T.y - S.y| : XNum ℝ) /. fin |b.stop.y - a.stop.y|) :
    scaleFactors (scaleTo u v S T w h) (finPath p) = (x, y) := by
  have e : Point.equals (⟨fin S.x, fin S.y, fin S.t⟩ : Point (XNum ℝ)) ⟨fin T.x, fin T.y, fin T.t⟩ = false := by
    rcases hne with h | h <;> simp [Point.equals, h]
  subst hy
  subst hx
  simp only [scaleFactors, scaleTo, zero_lt_fin, not_lt.mpr hw, not_lt.mpr hh, decide_false, Bool.or_self, Bool.false_eq_true,
    if_false, e, Bool.not_false, if_true, startAndEndOf_fin ha hb, finPt, sub_fin, abs_fin]
  simp only [Bezier.zero_fin, eq_fin, Bool.or_eq_true, decide_eq_true_eq]

/-- **C87.** With two points that differ in both directions and a path whose start and end differ in both directions, the displacement
from the start to the end becomes as long as the requested one, in each direction. -/
theorem C87_both (p : Path ℝ) (a b : Segment ℝ) (ha : p.head? = some a) (hb : p.getLast? = some b) (u v w h : ℝ) (hw : w ≤ 0)
    (hh : h ≤ 0) (S T : Point ℝ) (nx : S.x ≠ T.x) (ny : S.y ≠ T.y) (ox : a.stop.x ≠ b.stop.x) (oy : a.stop.y ≠ b.stop.y) :
    ∃ q : Path ℝ, scale (scaleTo u v S T w h) (finPath p) = finPath q ∧ Displaced p q a.stop b.stop S T True True False := by
  refine ⟨_, scale_of_factors (kx := |T.x - S.x| / |b.stop.x - a.stop.x|) (ky := |T.y - S.y| / |b.stop.y - a.stop.y|)
    (factors_to p a b ha hb u v w h hw hh S T (Or.inl nx) _ _ ?_ ?_), _, _,
    by positivity, by positivity, C30_strokes _ _ p, fun _ => ?_, fun _ => ?_, fun h => h.elim⟩
  · rw [if_neg (not_or.mpr ⟨abs_ne nx, abs_ne ox⟩), div_fin_ne (abs_ne ox)]
  · rw [if_neg (not_or.mpr ⟨abs_ne ny, abs_ne oy⟩), div_fin_ne (abs_ne oy)]
  · simpa only [scalePt, pt] using scaled_abs ox
  · simpa only [scalePt, pt] using scaled_abs oy

theorem abs_zero_of {x y : ℝ} (h : x = y) : |y - x| = 0 := by rw [h, sub_self, abs_zero]

/-- **C87.** If the points or the ends of the path are level, both directions are scaled by the factor that fits the width. -/
theorem C87_level (p : Path ℝ) (a b : Segment ℝ) (ha : p.head? = some a) (hb : p.getLast? = some b) (u v w h : ℝ) (hw : w ≤ 0)
    (hh : h ≤ 0) (S T : Point ℝ) (nx : S.x ≠ T.x) (ox : a.stop.x ≠ b.stop.x) (y : S.y = T.y ∨ a.stop.y = b.stop.y) :
    ∃ q : Path ℝ, scale (scaleTo u v S T w h) (finPath p) = finPath q ∧ Displaced p q a.stop b.stop S T True False True := by
  refine ⟨_, scale_of_factors (kx := |T.x - S.x| / |b.stop.x - a.stop.x|) (ky := |T.x - S.x| / |b.stop.x - a.stop.x|)
    (factors_to p a b ha hb u v w h hw hh S T (Or.inl nx) _ _ ?_ ?_), _, _,
    by positivity, by positivity, C30_strokes _ _ p, fun _ => ?_, fun h => h.elim, fun _ => rfl⟩
  · rw [if_neg (not_or.mpr ⟨abs_ne nx, abs_ne ox⟩), div_fin_ne (abs_ne ox)]
  · rw [if_pos (y.imp abs_zero_of abs_zero_of)]
  · simpa only [scalePt, pt] using scaled_abs ox

/-- **C87.** If the points or the ends of the path are one above the other, both directions are scaled by the factor that fits the
height. -/
theorem C87_upright (p : Path ℝ) (a b : Segment ℝ) (ha : p.head? = some a) (hb : p.getLast? = some b) (u v w h : ℝ) (hw : w ≤ 0)
    (hh : h ≤ 0) (S T : Point ℝ) (ny : S.y ≠ T.y) (oy : a.stop.y ≠ b.stop.y) (x : S.x = T.x ∨ a.stop.x = b.stop.x) :
    ∃ q : Path ℝ, scale (scaleTo u v S T w h) (finPath p) = finPath q ∧ Displaced p q a.stop b.stop S T False True True := by
  refine ⟨_, scale_of_factors (kx := |T.y - S.y| / |b.stop.y - a.stop.y|) (ky := |T.y - S.y| / |b.stop.y - a.stop.y|)
    (factors_to p a b ha hb u v w h hw hh S T (Or.inr ny) _ _ ?_ ?_), _, _,
    by positivity, by positivity, C30_strokes _ _ p, fun h => h.elim, fun _ => ?_, fun _ => rfl⟩
  · rw [if_pos (x.imp abs_zero_of abs_zero_of), div_fin_ne (abs_ne oy)]
  · rw [if_neg (not_or.mpr ⟨abs_ne ny, abs_ne oy⟩), div_fin_ne (abs_ne oy)]
  · simpa only [scalePt, pt] using scaled_abs oy

/-- **C87.** An upright path scaled to two level points collapses: every point drawn is the origin. -/
theorem C87_collapse (p : Path ℝ) (a b : Segment ℝ) (ha : p.head? = some a) (hb : p.getLast? = some b) (u v w h : ℝ) (hw : w ≤ 0)
    (hh : h ≤ 0) (S T : Point ℝ) (nx : S.x ≠ T.x) (ny : S.y = T.y) (ox : a.stop.x = b.stop.x) (oy : a.stop.y ≠ b.stop.y) :
    ∃ q : Path ℝ, scale (scaleTo u v S T w h) (finPath p) = finPath q ∧ ∀ z, Drawn q z → z = (0, 0) := by
  refine ⟨_, scale_of_factors (kx := 0) (ky := 0) (factors_to p a b ha hb u v w h hw hh S T (Or.inl nx) _ _ ?_ ?_), fun z hz => ?_⟩
  · rw [if_pos (Or.inr (abs_zero_of ox)), div_fin_ne (abs_ne oy), abs_zero_of ny, zero_div]
  · rw [if_pos (Or.inl (abs_zero_of ny))]
  · obtain ⟨x, -, rfl⟩ := (drawn_scale 0 0 p z).mp hz
    simp [scalePt]

/-- **C87.** A level path scaled to two points one above the other gets infinite factors. -/
theorem C87_infinite (p : Path ℝ) (a b : Segment ℝ) (ha : p.head? = some a) (hb : p.getLast? = some b) (u v w h : ℝ) (hw : w ≤ 0)
    (hh : h ≤ 0) (S T : Point ℝ) (nx : S.x = T.x) (ny : S.y ≠ T.y) (oy : a.stop.y = b.stop.y) :
    scale (scaleTo u v S T w h) (finPath p) = scaleBy pinf pinf (finPath p) := by
  have e : (fin |T.y - S.y| : XNum ℝ) /. fin |b.stop.y - a.stop.y| = pinf := by
    have h1 : (0:ℝ) < |T.y - S.y| := abs_pos.mpr (sub_ne_zero.mpr (Ne.symm ny))
    rw [abs_zero_of oy]
    simp [div_fin, infTimes, h1, h1.ne']
  simp only [scale, factors_to p a b ha hb u v w h hw hh S T (Or.inr ny) pinf pinf
    (by rw [if_pos (Or.inl (abs_zero_of nx)), e]) (by rw [if_pos (Or.inr (abs_zero_of oy))])]

/-- Scaling to two points makes the path start at the one and end at the other, up to a shift. -/
def C87_reach_statement : Prop :=
  ∀ (p : Path ℝ) (a b : Segment ℝ), p.head? = some a → p.getLast? = some b → ∀ S T : Point ℝ, S.x ≠ T.x → S.y ≠ T.y →
    a.stop.x ≠ b.stop.x → a.stop.y ≠ b.stop.y → ∃ kx ky : ℝ, scale (scaleTo 1 1 S T 0 0) (finPath p) = finPath (scaleBy kx ky p) ∧
      b.stop.x * kx - a.stop.x * kx = T.x - S.x ∧ b.stop.y * ky - a.stop.y * ky = T.y - S.y

/-- A line from `(0, 0)` to `(1, 1)`. -/
def diagonalPath : Path ℝ := [.move ⟨0, 0, 0⟩ ⟨0, 0, 0⟩, .line ⟨0, 0, 0⟩ ⟨1, 1, 0⟩]

/-- **C87.** This is false, because the factors are never negative: a path that goes the other way is not turned around. -/
theorem C87_reach_false : ¬ C87_reach_statement := by
  intro H
  obtain ⟨kx, ky, h1, h2, -⟩ := H diagonalPath _ _ rfl rfl ⟨1, 1, 0⟩ ⟨0, 0, 0⟩ (by norm_num) (by norm_num) (by norm_num [Segment.stop])
    (by norm_num [Segment.stop])
  obtain ⟨q, h3, k, l, hk, -, h4, -⟩ := C87_both diagonalPath _ _ rfl rfl 1 1 0 0 le_rfl le_rfl ⟨1, 1, 0⟩ ⟨0, 0, 0⟩ (by norm_num)
    (by norm_num) (by norm_num [Segment.stop]) (by norm_num [Segment.stop])
  have e : scaleBy kx ky diagonalPath = q := finPath_injective (h1.symm.trans h3)
  rw [← e, C30_strokes] at h4
  simp only [diagonalPath, strokes, strokeOf, List.filterMap_cons, List.filterMap_nil, List.map_cons, List.map_nil, Stroke.map,
    scalePt, pt, List.cons.injEq, Stroke.line.injEq, Prod.mk.injEq] at h4
  simp only [List.getLast_cons_cons, List.getLast_singleton, Segment.stop] at h2
  linarith [h4.1.2.1]

/-- Not vacuous: a line from `(0, 0)` to `(1, 1)` is stretched to a displacement of `2` by `3`. -/
example : ∃ q : Path ℝ, scale (scaleTo 1 1 ⟨5, 5, 0⟩ ⟨7, 2, 0⟩ 0 0) (finPath diagonalPath) = finPath q ∧
    Displaced diagonalPath q ⟨0, 0, 0⟩ ⟨1, 1, 0⟩ ⟨5, 5, 0⟩ ⟨7, 2, 0⟩ True True False :=
  C87_both diagonalPath _ _ rfl rfl 1 1 0 0 le_rfl le_rfl ⟨5, 5, 0⟩ ⟨7, 2, 0⟩ (by norm_num) (by norm_num) (by norm_num [Segment.stop])
    (by norm_num [Segment.stop])

/-- Not vacuous: an upright line and two level points. -/
example : ∃ q : Path ℝ, scale (scaleTo 1 1 ⟨0, 0, 0⟩ ⟨1, 0, 0⟩ 0 0) (finPath [.move ⟨0, 0, 0⟩ ⟨1, 1, 0⟩, .line ⟨1, 1, 0⟩ ⟨1, 2, 0⟩]) = finPath q ∧
    ∀ z, Drawn q z → z = (0, 0) :=
  C87_collapse _ (.move ⟨0, 0, 0⟩ ⟨1, 1, 0⟩) (.line ⟨1, 1, 0⟩ ⟨1, 2, 0⟩) rfl rfl 1 1 0 0 le_rfl le_rfl ⟨0, 0, 0⟩ ⟨1, 0, 0⟩ (by norm_num) rfl rfl (by norm_num [Segment.stop])

end Verif.Path
