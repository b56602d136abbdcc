import Verif.Spec.Curve
import Mathlib.Tactic.Ring
import Mathlib.Tactic.FieldSimp
import Mathlib.Tactic.LinearCombination
import Mathlib.Tactic.Linarith

/-!
# Lemmas about the cubic curve package, exact arithmetic
-/

namespace Verif.Bezier

open Verif Verif.Spec

universe u

set_option linter.unusedSectionVars false
set_option linter.unusedSimpArgs false

section Field

variable {K : Type u} [Field K] [LinearOrder K] [IsStrictOrderedRing K]

theorem findPoint_field (c : Curve K) (t : K) :
    findPoint c t = ⟨(curveAt c t).1, (curveAt c t).2⟩ := by
  unfold findPoint
  by_cases h0 : t = 0
  · simp [h0, curveAt, bernstein, Arith.zero]
  by_cases h1 : t = 1
  · simp [h1, curveAt, bernstein, Arith.zero, Arith.one]
  simp only [Arith.zero, Arith.one, Arith.lit_zero_field, Arith.eq_field, Int.cast_zero, Int.cast_one, h0, h1, decide_false,
    Bool.false_eq_true, if_false]
  simp only [curveAt, bernstein, Arith.add_field, Arith.sub_field, Arith.mul_field, Arith.lit_zero_field]
  refine congrArg₂ _ ?_ ?_ <;> (push_cast; ring)

theorem deCasteljau_field (c : Curve K) (t : K) :
    deCasteljau c t = some ⟨(curveAt c t).1, (curveAt c t).2⟩ := by
  simp only [deCasteljau, casteljauStep, List.head?_cons, curveAt, bernstein, Arith.zero, Arith.one, Arith.lit_zero_field,
    Arith.add_field, Arith.sub_field, Arith.mul_field, Int.cast_one]
  refine congrArg some (congrArg₂ _ ?_ ?_) <;> ring

theorem halves_left (c : Curve K) (t u : K) : curveAt (halves c t).1 u = curveAt c (t * u) := by
  simp only [halves, lerp, curveAt, bernstein, Arith.add_field, Arith.sub_field, Arith.mul_field]
  refine Prod.ext ?_ ?_ <;> simp only <;> ring

theorem halves_right (c : Curve K) (t u : K) : curveAt (halves c t).2 u = curveAt c (t + (1 - t) * u) := by
  simp only [halves, lerp, curveAt, bernstein, Arith.add_field, Arith.sub_field, Arith.mul_field]
  refine Prod.ext ?_ ?_ <;> simp only <;> ring

theorem mapRange_field (v ds de ts te : K) : mapRange v ds de ts te = ts + (te - ts) * ((v - ds) / (de - ds)) := rfl

theorem splitOnce_field (s : Section K) {t : K} (h : t ≠ 0) : splitOnce s t = splitAt s t := by
  simp [splitOnce, Arith.zero, h]

theorem splitSection_field (s : Section K) {t1 t2 : K} (h1 : 0 ≤ t1) (h1' : t1 ≠ 1) (h12 : t1 < t2) :
    Retraces (splitSection s t1 t2).1.curve s.curve t1 t2 := by
  intro u
  have h2 : t2 ≠ 0 := (lt_of_le_of_lt h1 h12).ne'
  unfold splitSection
  by_cases h0 : t1 = 0
  · subst h0
    simp only [Arith.zero, Arith.lit_zero_field, Arith.eq_field, Int.cast_zero, decide_true, if_true]
    rw [splitOnce_field s h2]
    simp only [splitAt, halves_left]
    congr 1; ring
  · by_cases h3 : t2 = 1
    · subst h3
      simp only [Arith.zero, Arith.one, Arith.lit_zero_field, Arith.eq_field, Int.cast_zero, Int.cast_one, h0, decide_true,
        decide_false, if_true, Bool.false_eq_true, if_false]
      rw [splitOnce_field s h0]
      simp only [splitAt, halves_right]
    · have h4 : ¬ t2 < 0 := not_lt.2 (h1.trans h12.le)
      simp only [Arith.zero, Arith.one, Arith.lit_zero_field, Arith.eq_field, Arith.lt_field, Int.cast_zero, Int.cast_one, h0, h3, h4,
        decide_false, if_false, Bool.false_eq_true, mapRange_field]
      have h5 : (1 : K) - t1 ≠ 0 := sub_ne_zero.2 (Ne.symm h1')
      have h6 : (0 : K) + (1 - 0) * ((t2 - t1) / (1 - t1)) ≠ 0 := by
        simp only [sub_zero, one_mul, zero_add]
        exact div_ne_zero (sub_ne_zero.2 h12.ne') h5
      rw [splitOnce_field _ h6]
      simp only [splitAt, halves_left, halves_right]
      congr 1
      field_simp
      ring

theorem splitCurve_field (c : Curve K) {t : K} (h : t ≠ 0) : splitCurve c t = halves c t := by
  have h1 : ¬ ((-1 : Int) : K) = 1 := by norm_num
  have h2 : ((-1 : Int) : K) < 0 := by norm_num
  simp only [splitCurve, splitSection, Arith.zero, Arith.one, Arith.lit_zero_field, Arith.eq_field, Arith.lt_field, Int.cast_zero,
    Int.cast_one, h, h1, h2, decide_false, decide_true, Bool.false_eq_true, if_false, if_true, splitAt]

theorem derivative_field (c : Curve K) (t : K) :
    derivative c t =
      ⟨(1 - t) ^ 2 * (3 * (c.p1.x - c.p0.x)) + 2 * (1 - t) * t * (3 * (c.p2.x - c.p1.x)) + t ^ 2 * (3 * (c.p3.x - c.p2.x)),
       (1 - t) ^ 2 * (3 * (c.p1.y - c.p0.y)) + 2 * (1 - t) * t * (3 * (c.p2.y - c.p1.y)) + t ^ 2 * (3 * (c.p3.y - c.p2.y))⟩ := by
  simp only [derivative, derive1, deriveStep, Arith.one, Arith.lit_zero_field, Arith.add_field, Arith.sub_field, Arith.mul_field]
  refine congrArg₂ _ ?_ ?_ <;> (push_cast; ring)

theorem lli4_field (p1 p2 p3 p4 : Point K) :
    lli4 p1 p2 p3 p4 =
      let d := (p1.x - p2.x) * (p3.y - p4.y) - (p1.y - p2.y) * (p3.x - p4.x)
      if d = 0 then (false, ⟨0, 0⟩)
      else (true, ⟨((p1.x * p2.y - p1.y * p2.x) * (p3.x - p4.x) - (p1.x - p2.x) * (p3.x * p4.y - p3.y * p4.x)) / d,
        ((p1.x * p2.y - p1.y * p2.x) * (p3.y - p4.y) - (p1.y - p2.y) * (p3.x * p4.y - p3.y * p4.x)) / d⟩) := by
  simp [lli4, Arith.zero]

end Field

end Verif.Bezier
