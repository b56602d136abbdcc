import Verif.Lemmas.BezierPairs

/-!
# Reducing a straight curve
-/

namespace Verif.Bezier

open Verif Verif.Spec XNum

set_option linter.unusedSimpArgs false

/-- A straight curve run through at constant speed. -/
def straight (p v : Point ℝ) : Curve ℝ := ⟨p, ⟨p.x + v.x, p.y + v.y⟩, ⟨p.x + 2 * v.x, p.y + 2 * v.y⟩, ⟨p.x + 3 * v.x, p.y + 3 * v.y⟩⟩

theorem derivative_fin (c : Curve ℝ) (t : ℝ) : derivative (finCurve c) (fin t) = finPoint (derivative c t) := by
  simp only [derivative, derive1, deriveStep, finCurve, finPoint, lit_zero_fin, one_fin, sub_fin, mul_fin, add_fin]
  simp [Arith.one]

theorem derivative_straight (p v : Point ℝ) (t : ℝ) : derivative (straight p v) t = ⟨3 * v.x, 3 * v.y⟩ := by
  rw [derivative_field]
  simp only [straight]
  congr 1 <;> ring

theorem normal_straight (p v : Point ℝ) (hv : 0 < v.x ^ 2 + v.y ^ 2) (t : ℝ) : ∃ n : Point ℝ, normal (finCurve (straight p v)) (fin t) = finPoint n ∧
    n.x * n.x + n.y * n.y = 1 ∧ n = ⟨-(3 * v.y) / Real.sqrt (3 * v.x * (3 * v.x) + 3 * v.y * (3 * v.y)),
      3 * v.x / Real.sqrt (3 * v.x * (3 * v.x) + 3 * v.y * (3 * v.y))⟩ := by
  have hpos : 0 < 3 * v.x * (3 * v.x) + 3 * v.y * (3 * v.y) := by nlinarith
  have hq : 0 < Real.sqrt (3 * v.x * (3 * v.x) + 3 * v.y * (3 * v.y)) := Real.sqrt_pos.2 hpos
  have hs : Real.sqrt (3 * v.x * (3 * v.x) + 3 * v.y * (3 * v.y)) ^ 2 = 3 * v.x * (3 * v.x) + 3 * v.y * (3 * v.y) := Real.sq_sqrt hpos.le
  refine ⟨_, ?_, ?_, rfl⟩
  · simp only [normal, derivative_fin, derivative_straight, finPoint, mul_fin, add_fin, neg_fin, sqrt_fin, not_lt.2 hpos.le, if_false,
      div_fin_ne hq.ne']
  · simp only
    generalize Real.sqrt (3 * v.x * (3 * v.x) + 3 * v.y * (3 * v.y)) = q at *
    field_simp
    linear_combination -hs

theorem isSimple_straight (p v : Point ℝ) (hv : 0 < v.x ^ 2 + v.y ^ 2) : isSimple (finCurve (straight p v)) = true := by
  obtain ⟨n, e, hn, hn'⟩ := normal_straight p v hv 0
  obtain ⟨m, e', hm, hm'⟩ := normal_straight p v hv 1
  have hnm : n = m := by rw [hn', hm']
  subst hnm
  have harg : ∀ k : ℝ, 0 < k → angle (finPoint p) (finPoint ⟨p.x + 3 * v.x, p.y + 3 * v.y⟩) (finPoint ⟨p.x + k * v.x, p.y + k * v.y⟩) = fin 0 := by
    intro k hk
    simp only [angle, finPoint, sub_fin, mul_fin, add_fin, atan2_fin, fin.injEq]
    have e1 : (p.x + 3 * v.x - p.x) * (p.y + k * v.y - p.y) - (p.y + 3 * v.y - p.y) * (p.x + k * v.x - p.x) = 0 := by ring
    have e2 : (p.x + 3 * v.x - p.x) * (p.x + k * v.x - p.x) + (p.y + 3 * v.y - p.y) * (p.y + k * v.y - p.y) =
        3 * k * (v.x ^ 2 + v.y ^ 2) := by ring
    rw [e1, e2]
    have : (⟨3 * k * (v.x ^ 2 + v.y ^ 2), 0⟩ : ℂ) = ((3 * k * (v.x ^ 2 + v.y ^ 2) : ℝ) : ℂ) := rfl
    rw [this, Complex.arg_ofReal_of_nonneg (by positivity)]
  have a1 := harg 1 one_pos
  have a2 := harg 2 two_pos
  rw [one_mul, one_mul] at a1
  have h3 : ((3 : Int) : ℝ) ≠ 0 := by norm_num
  unfold isSimple
  rw [zero_fin, one_fin, e, e']
  simp only [finCurve, straight]
  simp only [finPoint] at a1 a2 ⊢
  simp only [a1, a2, lt_fin, lt_irrefl, decide_false, Bool.false_and, Bool.or_self, Bool.false_eq_true, if_false, mul_fin, add_fin, hn]
  have : ¬ ((1 : ℝ) < -1 ∨ (1 : ℝ) < 1) := by norm_num
  simp only [acos_fin, this, if_false, pi_fin, lit_zero_fin, div_fin_ne h3, abs_fin, lt_fin, Real.arccos_one, abs_zero, decide_eq_true_eq]
  have := Real.pi_pos
  push_cast
  linarith

theorem splitSection_zero (s : Section ℝ) {t : ℝ} (ht : t ≠ 0) : (splitSection s 0 t).1 = (splitAt s t).1 := by
  unfold splitSection
  rw [splitOnce_field s ht]
  simp [Arith.zero]

theorem splitAt_straight (p v : Point ℝ) (a b t : ℝ) :
    (splitAt (⟨straight p v, a, b⟩ : Section ℝ) t).1.curve = straight p ⟨t * v.x, t * v.y⟩ := by
  simp only [splitAt, halves, lerp, straight, Arith.add_field, Arith.mul_field, Arith.sub_field, Curve.mk.injEq, Point.mk.injEq, Arith.one,
    Arith.lit_zero_field, Int.cast_one]
  refine ⟨trivial, ⟨?_, ?_⟩, ⟨?_, ?_⟩, ?_, ?_⟩ <;> ring

theorem simple_sub (p v : Point ℝ) (hv : 0 < v.x ^ 2 + v.y ^ 2) (a b : ℝ) {t : ℝ} (ht : 0 < t) :
    isSimple (splitSection (finSection (⟨straight p v, a, b⟩ : Section ℝ)) (fin 0) (fin t)).1.curve = true := by
  rw [splitSection_fin _ _ (zero_ne_one' ℝ), splitSection_zero _ ht.ne']
  show isSimple (finCurve (splitAt (⟨straight p v, a, b⟩ : Section ℝ) t).1.curve) = true
  rw [splitAt_straight]
  apply isSimple_straight
  simp only
  have := mul_pos (pow_pos ht 2) hv
  nlinarith

theorem pass2Loop_straight (p v : Point ℝ) (hv : 0 < v.x ^ 2 + v.y ^ 2) (a b : ℝ) (n fuel : Nat) (t2 : ℝ) (ht : 0 < t2)
    (hn : 1 + 1 / 100 < t2 + n * (1 / 100)) (hf : n < fuel) :
    pass2Loop (finSection (⟨straight p v, a, b⟩ : Section ℝ)) fuel (fin 0) (fin t2) [] = .done ([], fin 0) := by
  induction fuel generalizing n t2 with
  | zero => omega
  | succ fuel ih =>
    unfold pass2Loop
    simp only [reduceStep_fin, one_fin, add_fin, sub_fin, le_fin, abs_fin, lt_fin, simple_sub p v hv a b ht]
    by_cases h2 : t2 ≤ 1 + 1 / 100
    · simp only [h2, decide_true, if_true]
      have hn0 : n ≠ 0 := by
        rintro rfl
        simp only [Nat.cast_zero, zero_mul, add_zero] at hn
        linarith
      obtain ⟨m, rfl⟩ := Nat.exists_eq_succ_of_ne_zero hn0
      push_cast at hn
      exact ih m (t2 + 1 / 100) (by linarith) (by linarith) (by omega)
    · have h1 : ¬ t2 ≤ 1 := by linarith
      simp only [h2, h1, decide_false, if_false, Bool.false_eq_true]

theorem cuts_straight (p v : Point ℝ) : cuts (finCurve (straight p v)) = [fin 0, fin 1] := by
  have hx : (extrema (finCurve (straight p v))).1 = [] := by
    have e1 : p.x + v.x - p.x = v.x := by ring
    have e2 : p.x + 2 * v.x - (p.x + v.x) = v.x := by ring
    have e3 : p.x + 3 * v.x - (p.x + 2 * v.x) = v.x := by ring
    simp only [extrema, derive1, derive2, deriveStep, finCurve, finPoint, straight, List.map, sub_fin, lit_zero_fin, mul_fin, e1, e2, e3,
      droots, add_fin, zero_fin, eq_fin, Int.cast_zero]
    have e4 : (3 : ℝ) * v.x - 2 * (3 * v.x) + 3 * v.x = 0 := by ring
    simp [e4, inUnit]
  have hy : (extrema (finCurve (straight p v))).2 = [] := by
    have e1 : p.y + v.y - p.y = v.y := by ring
    have e2 : p.y + 2 * v.y - (p.y + v.y) = v.y := by ring
    have e3 : p.y + 3 * v.y - (p.y + 2 * v.y) = v.y := by ring
    simp only [extrema, derive1, derive2, deriveStep, finCurve, finPoint, straight, List.map, sub_fin, lit_zero_fin, mul_fin, e1, e2, e3,
      droots, add_fin, zero_fin, eq_fin, Int.cast_zero]
    have e4 : (3 : ℝ) * v.y - 2 * (3 * v.y) + 3 * v.y = 0 := by ring
    simp [e4, inUnit]
  simp only [cuts, hx, hy, List.nil_append, List.append_nil, deDup, contains, zero_fin, one_fin, eq_fin, List.any_nil, List.any_cons,
    Bool.false_eq_true, if_false, sortFloats, insertSorted, List.foldr]
  norm_num [deDup, contains, eq_fin, insertSorted, lt_fin, sortFloats]

theorem reduce_straight (p v : Point ℝ) (hv : 0 < v.x ^ 2 + v.y ^ 2) :
    reduce (finCurve (straight p v)) = [finSection ⟨straight p v, 0, 1⟩] := by
  have e0 : (⟨finCurve (straight p v), Arith.zero, Arith.zero⟩ : Section (XNum ℝ)) = finSection ⟨straight p v, 0, 0⟩ := by
    simp [finSection, zero_fin]
  have e1 : ∀ a b : ℝ, (splitSection (finSection (⟨straight p v, a, b⟩ : Section ℝ)) (fin 0) (fin 1)).1.curve = finCurve (straight p v) := by
    intro a b
    rw [splitSection_fin _ _ (zero_ne_one' ℝ), splitSection_zero _ one_ne_zero]
    show finCurve (splitAt (⟨straight p v, a, b⟩ : Section ℝ) 1).1.curve = _
    rw [splitAt_straight, one_mul, one_mul]
  have hp : pass2 300 (finSection (⟨straight p v, 0, 1⟩ : Section ℝ)) = .done [finSection ⟨straight p v, 0, 1⟩] := by
    have h10 : (1 : ℝ) - 0 ≠ 0 := by norm_num
    unfold pass2
    rw [zero_fin, reduceStep_fin, add_fin, pass2Loop_straight p v hv 0 1 101 300 _ (by norm_num) (by norm_num) (by norm_num)]
    simp only [one_fin, lt_fin, e1, zero_lt_one, decide_true, if_true, List.nil_append]
    simp only [finSection, mapRange_fin h10, mapRange_field]
    norm_num
  unfold reduce reduceFuel
  rw [cuts_straight]
  simp only [pass1, e0, e1]
  have : (⟨finCurve (straight p v), fin 0, fin 1⟩ : Section (XNum ℝ)) = finSection ⟨straight p v, 0, 1⟩ := rfl
  rw [this]
  simp only [pass2All, hp]
  rfl

end Verif.Bezier
