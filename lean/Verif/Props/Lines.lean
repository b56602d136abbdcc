import Verif.Lemmas.PathBox

/-!
# C39, C40 and C66: intersections, parallels and points of straight lines

Over the real numbers extended by the IEEE special values, because slopes of vertical lines are infinite or NaN.
-/

namespace Verif.Path

open Verif Verif.Spec XNum

/-- The point is on the line through `a` and `b`. -/
def OnLine (a b q : Pt ℝ) : Prop := ∃ t : ℝ, q.1 = a.1 + t * (b.1 - a.1) ∧ q.2 = a.2 + t * (b.2 - a.2)

/-! ## C39 Line intersection is on both lines -/

/-- Two numbers that do not print the same are different. -/
theorem precisionEquals_ne {n : Int} {x y : XNum ℝ} (h : precisionEquals x y n = false) (hx : ∃ r, x = fin r) : x ≠ y := by
  rintro rfl
  obtain ⟨r, rfl⟩ := hx
  unfold precisionEquals at h
  split at h <;> simp at h

theorem slope_fin {a b : Point ℝ} (h : a.x ≠ b.x) : slope (finPt a) (finPt b) = fin ((b.y - a.y) / (b.x - a.x)) := by
  simp only [slope, finPt, sub_fin]
  exact div_fin_ne (sub_ne_zero.mpr h.symm)

theorem evalX_fin {a b : Point ℝ} (h : a.x ≠ b.x) (x : ℝ) :
    evalX (finPt a) (finPt b) (fin x) = fin (a.y + (b.y - a.y) / (b.x - a.x) * (x - a.x)) := by
  simp only [evalX, yIntercept, slope_fin h]
  simp only [finPt, mul_fin, sub_fin, add_fin]
  congr 1
  ring

theorem onLine_evalX {a b : Point ℝ} (h : a.x ≠ b.x) (x : ℝ) :
    OnLine (pt a) (pt b) (x, a.y + (b.y - a.y) / (b.x - a.x) * (x - a.x)) := by
  have h' : b.x - a.x ≠ 0 := sub_ne_zero.mpr h.symm
  refine ⟨(x - a.x) / (b.x - a.x), ?_, ?_⟩
  · simp only [pt]
    field_simp
    ring
  · simp only [pt]
    field_simp

theorem onLine_vertical {a b : Point ℝ} (hx : a.x = b.x) (h : pt a ≠ pt b) (y : ℝ) : OnLine (pt a) (pt b) (a.x, y) := by
  have hy : b.y - a.y ≠ 0 := by
    intro e
    refine h (Prod.ext hx ?_)
    simp only [pt]
    linarith
  refine ⟨(y - a.y) / (b.y - a.y), ?_, ?_⟩
  · simp [pt, hx]
  · simp only [pt]
    field_simp
    ring

theorem isVertical_ne {n : Int} {a b : Point ℝ} (h : isVertical n (finPt a, finPt b) = false) : a.x ≠ b.x := by
  intro e
  refine precisionEquals_ne h ⟨a.x, rfl⟩ ?_
  simp [finPt, e]

/-- The lines are vertical exactly or not at all to the precision. -/
def Clear (n : Int) (a b : Point ℝ) : Prop := isVertical n (finPt a, finPt b) = true → a.x = b.x

/-- **C39.** A reported intersection is on both lines. Each line is exactly vertical, or not vertical to the precision. -/
theorem C39_on_both (n : Int) (a b c d : Point ℝ) (hab : pt a ≠ pt b) (hcd : pt c ≠ pt d) (h1 : Clear n a b) (h2 : Clear n c d)
    (p : Point (XNum ℝ)) (h : lineIntersection n (finPt a, finPt b) (finPt c, finPt d) = some p) :
    ∃ q : Point ℝ, p = finPt q ∧ OnLine (pt a) (pt b) (pt q) ∧ OnLine (pt c) (pt d) (pt q) := by
  unfold lineIntersection at h
  split at h
  · cases h
  · rename_i hs
    split at h
    · rename_i hv1
      split at h
      · cases h
      · rename_i hv2
        have hx := h1 hv1
        have hx' := isVertical_ne (by simpa using hv2)
        simp only [Option.some.injEq] at h
        refine ⟨mk (a.x, c.y + (d.y - c.y) / (d.x - c.x) * (a.x - c.x)), ?_, onLine_vertical hx hab _, onLine_evalX hx' _⟩
        rw [← h]
        have : (finPt a).x = fin a.x := rfl
        rw [this, evalX_fin hx', newPoint_mk]
    · rename_i hv1
      have hx := isVertical_ne (by simpa using hv1)
      split at h
      · rename_i hv2
        have hx' := h2 hv2
        simp only [Option.some.injEq] at h
        refine ⟨mk (c.x, a.y + (b.y - a.y) / (b.x - a.x) * (c.x - a.x)), ?_, onLine_evalX hx _, onLine_vertical hx' hcd _⟩
        rw [← h]
        have : (finPt c).x = fin c.x := rfl
        rw [this, evalX_fin hx, newPoint_mk]
      · rename_i hv2
        have hx' := isVertical_ne (by simpa using hv2)
        simp only [slope_fin hx, slope_fin hx'] at h hs
        have hne : (b.y - a.y) / (b.x - a.x) - (d.y - c.y) / (d.x - c.x) ≠ 0 := by
          intro e
          refine precisionEquals_ne (by simpa using hs) ⟨_, rfl⟩ ?_
          rw [sub_eq_zero.mp e]
        simp only [yIntercept, slope_fin hx, slope_fin hx'] at h
        have e1 : ∀ z : ℝ, evalX (finPt a) (finPt b) (fin z) = fin (a.y + (b.y - a.y) / (b.x - a.x) * (z - a.x)) := evalX_fin hx
        simp only [finPt, mul_fin, sub_fin, div_fin_ne hne] at h
        have e2 := e1 (((c.y - (d.y - c.y) / (d.x - c.x) * c.x) - (a.y - (b.y - a.y) / (b.x - a.x) * a.x)) /
          ((b.y - a.y) / (b.x - a.x) - (d.y - c.y) / (d.x - c.x)))
        simp only [finPt] at e2
        rw [e2] at h
        simp only [isNaN_fin, Bool.or_self, Bool.false_eq_true, if_false, Option.some.injEq, newPoint_mk] at h
        refine ⟨_, h.symm, onLine_evalX hx _, ?_⟩
        have e4 := onLine_evalX (a := c) (b := d) hx' (((c.y - (d.y - c.y) / (d.x - c.x) * c.x) - (a.y - (b.y - a.y) / (b.x - a.x) * a.x)) /
          ((b.y - a.y) / (b.x - a.x) - (d.y - c.y) / (d.x - c.x)))
        convert e4 using 1
        simp only [pt, mk, Prod.mk.injEq, true_and]
        clear e4 e2 e1 h
        generalize (b.y - a.y) / (b.x - a.x) = m1 at hne ⊢
        generalize (d.y - c.y) / (d.x - c.x) = m2 at hne ⊢
        have e3 := div_mul_cancel₀ ((c.y - m2 * c.x) - (a.y - m1 * a.x)) hne
        linear_combination e3

/-- **C39.** The lines are reported to meet exactly when their slopes do not print the same, and not both are vertical to the precision. -/
theorem C39_found (n : Int) (a b c d : Point ℝ) :
    (∃ p, lineIntersection n (finPt a, finPt b) (finPt c, finPt d) = some p) ↔
      precisionEquals (slope (finPt a) (finPt b)) (slope (finPt c) (finPt d)) n = false ∧
        ¬ (isVertical n (finPt a, finPt b) = true ∧ isVertical n (finPt c, finPt d) = true) := by
  unfold lineIntersection
  split
  · rename_i h
    simp only [] at h
    simp [h]
  · rename_i hs
    simp only [Bool.not_eq_true] at hs
    simp only [hs, true_and]
    split
    · rename_i hv1
      split
      · rename_i hv2
        simp [hv1, hv2]
      · rename_i hv2
        simp [hv2]
    · rename_i hv1
      split
      · simp [hv1]
      · rename_i hv2
        have hx := isVertical_ne (by simpa using hv1)
        have hx' := isVertical_ne (by simpa using hv2)
        rw [slope_fin hx, slope_fin hx'] at hs
        have hne : (b.y - a.y) / (b.x - a.x) - (d.y - c.y) / (d.x - c.x) ≠ 0 := by
          intro e
          refine precisionEquals_ne hs ⟨_, rfl⟩ ?_
          rw [sub_eq_zero.mp e]
        have key : ∃ z : ℝ, ((yIntercept (finPt c) (finPt d) -. yIntercept (finPt a) (finPt b)) /.
            (slope (finPt a) (finPt b) -. slope (finPt c) (finPt d)) : XNum ℝ) = fin z := by
          simp only [yIntercept, slope_fin hx, slope_fin hx']
          simp only [finPt, mul_fin, sub_fin, div_fin_ne hne]
          exact ⟨_, rfl⟩
        obtain ⟨z, hz⟩ := key
        simp only [hz, evalX_fin hx, isNaN_fin, Bool.or_self, Bool.false_eq_true, if_false]
        simp [hv1]

/-- **C39.** Parallel lines are never reported to meet. -/
theorem C39_parallel (n : Int) (a b c d : Point ℝ) (hab : pt a ≠ pt b) (hcd : pt c ≠ pt d)
    (h : (b.x - a.x) * (d.y - c.y) = (b.y - a.y) * (d.x - c.x)) :
    lineIntersection n (finPt a, finPt b) (finPt c, finPt d) = none := by
  have refl : ∀ x : ℝ, precisionEquals (fin x : XNum ℝ) (fin x) n = true := by
    intro x
    unfold precisionEquals
    split <;> simp
  by_contra hc
  obtain ⟨p, hp⟩ := Option.ne_none_iff_exists'.mp hc
  obtain ⟨h1, h2⟩ := (C39_found n a b c d).mp ⟨p, hp⟩
  by_cases hx : a.x = b.x
  · have hy : b.y - a.y ≠ 0 := by
      intro e
      exact hab (Prod.ext hx (by simp only [pt]; linarith))
    have hx' : c.x = d.x := by
      rw [hx, sub_self, zero_mul] at h
      have := (mul_eq_zero.mp h.symm).resolve_left hy
      linarith
    refine h2 ⟨?_, ?_⟩
    · simp only [isVertical, finPt, hx]
      exact refl _
    · simp only [isVertical, finPt, hx']
      exact refl _
  · have hx' : c.x ≠ d.x := by
      intro e
      rw [e, sub_self, mul_zero] at h
      have := (mul_eq_zero.mp h).resolve_left (sub_ne_zero.mpr (Ne.symm hx))
      exact hcd (Prod.ext e (by simp only [pt]; linarith))
    rw [slope_fin hx, slope_fin hx'] at h1
    have e : (b.y - a.y) / (b.x - a.x) = (d.y - c.y) / (d.x - c.x) := by
      rw [div_eq_div_iff (sub_ne_zero.mpr (Ne.symm hx)) (sub_ne_zero.mpr (Ne.symm hx'))]
      linarith
    rw [e, refl] at h1
    cases h1

/-- **C39.** Without the hypothesis on nearly vertical lines the point need not be on both lines: to three decimals the line from `(0, 0)`
to `(0.0001, 1)` is vertical, and its intersection with `y = 1/2` is reported at `x = 0`. -/
theorem C39_nearly_vertical_false : ¬ ∀ (a b c d : Point ℝ), pt a ≠ pt b → pt c ≠ pt d → ∀ p : Point (XNum ℝ),
    lineIntersection 3 (finPt a, finPt b) (finPt c, finPt d) = some p →
      ∃ q : Point ℝ, p = finPt q ∧ OnLine (pt a) (pt b) (pt q) ∧ OnLine (pt c) (pt d) (pt q) := by
  intro h
  have hv : Decimal.fmt 3 (0 : ℝ) = Decimal.fmt 3 (1 / 10000 : ℝ) := by
    rw [Decimal.fmt_eq_iff]
    refine ⟨by norm_num, ?_⟩
    have h0 : |(0:ℝ)| * 10 ^ 3 = 0 := by norm_num
    have h1 : |(1 / 10000:ℝ)| * 10 ^ 3 = 1 / 10 := by rw [abs_of_pos (by norm_num)]; norm_num
    have hf : ⌊(1 / 10 : ℝ)⌋ = 0 := by
      rw [Int.floor_eq_iff]
      norm_num
    rw [h0, h1]
    simp only [Decimal.roundHalfEven, hf, Int.floor_zero]
    norm_num
  have hd : Decimal.fmt 3 (0 : ℝ) ≠ Decimal.fmt 3 (1 : ℝ) := by
    intro e
    have := Decimal.fmt_close e
    norm_num at this
  have hs : Decimal.fmt 3 (10000 : ℝ) ≠ Decimal.fmt 3 (0 : ℝ) := by
    intro e
    have := Decimal.fmt_close e
    norm_num at this
  have hi : lineIntersection 3 (finPt ⟨0, 0, 0⟩, finPt ⟨1 / 10000, 1, 0⟩) (finPt ⟨0, 1 / 2, 0⟩, finPt ⟨1, 1 / 2, 0⟩) =
      some (finPt (mk (0, 1 / 2))) := by
    have e1 : (slope (finPt ⟨0, 0, 0⟩) (finPt ⟨1 / 10000, 1, 0⟩) : XNum ℝ) = fin 10000 := by
      rw [slope_fin (by norm_num)]
      norm_num
    have e2 : (slope (finPt ⟨0, 1 / 2, 0⟩) (finPt ⟨1, 1 / 2, 0⟩) : XNum ℝ) = fin 0 := by
      rw [slope_fin (by norm_num)]
      norm_num
    have e3 := evalX_fin (a := ⟨0, 1 / 2, 0⟩) (b := ⟨1, 1 / 2, 0⟩) (by norm_num) 0
    norm_num at e3
    simp only [lineIntersection, e1, e2]
    rw [if_neg (by simp [precisionEquals, hs]), if_pos (by simpa [isVertical, precisionEquals, finPt] using hv),
      if_neg (by simpa [isVertical, precisionEquals, finPt] using hd)]
    simp only [finPt] at e3 ⊢
    norm_num
    rw [e3, newPoint_mk]
    norm_num [finPt, mk]
  obtain ⟨q, hq, ⟨t, h1, h2⟩, -⟩ := h _ _ _ _ (by norm_num [pt]) (by norm_num [pt]) _ hi
  rw [finPt_inj] at hq
  subst hq
  simp only [pt, mk] at h1 h2
  linarith

/-- Not vacuous: the diagonals of a square meet in its middle. -/
example : lineIntersection (-1) (finPt ⟨0, 0, 0⟩, finPt ⟨2, 2, 0⟩) (finPt ⟨0, 2, 0⟩, finPt ⟨2, 0, 0⟩) = some (finPt (mk (1, 1))) := by
  have e1 : (slope (finPt ⟨0, 0, 0⟩) (finPt ⟨2, 2, 0⟩) : XNum ℝ) = fin 1 := by
    rw [slope_fin (by norm_num)]
    norm_num
  have e2 : (slope (finPt ⟨0, 2, 0⟩) (finPt ⟨2, 0, 0⟩) : XNum ℝ) = fin (-1) := by
    rw [slope_fin (by norm_num)]
    norm_num
  simp only [lineIntersection, isVertical, precisionEquals, yIntercept, evalX, e1, e2]
  norm_num [finPt, newPoint_mk, mk]

/-! ## C40 A parallel line keeps its distance -/

/-- The length of the line from `a` to `b`. -/
noncomputable def len (a b : Pt ℝ) : ℝ := Real.sqrt ((a.1 - b.1) ^ 2 + (a.2 - b.2) ^ 2)

theorem len_pos {a b : Pt ℝ} (h : a ≠ b) : 0 < len a b := by
  apply Real.sqrt_pos.mpr
  by_contra hc
  have h1 := sq_nonneg (a.1 - b.1)
  have h2 := sq_nonneg (a.2 - b.2)
  have e1 : (a.1 - b.1) ^ 2 = 0 := by linarith
  have e2 : (a.2 - b.2) ^ 2 = 0 := by linarith
  exact h (Prod.ext (by have := pow_eq_zero_iff (two_ne_zero) |>.mp e1; linarith) (by have := pow_eq_zero_iff (two_ne_zero) |>.mp e2; linarith))

theorem len_sq (a b : Pt ℝ) : len a b ^ 2 = (a.1 - b.1) ^ 2 + (a.2 - b.2) ^ 2 := Real.sq_sqrt (by positivity)

/-- **C40.** The parallel of a line at distance `d` has the same direction and the same length; the vector from the line to its parallel
is square to the line, has length `|d|`, and points to the side given by the sign of `d`. -/
theorem C40_parallel (a b : Point ℝ) (h : pt a ≠ pt b) (d : ℝ) :
    ∃ a' b' : Point ℝ, parallel (finPt a, finPt b) (fin d) = (finPt a', finPt b') ∧
      b'.x - a'.x = b.x - a.x ∧ b'.y - a'.y = b.y - a.y ∧
      (a'.x - a.x) * (b.x - a.x) + (a'.y - a.y) * (b.y - a.y) = 0 ∧
      len (pt a) (pt a') = |d| ∧
      (b.x - a.x) * (a'.y - a.y) - (b.y - a.y) * (a'.x - a.x) = -(d * len (pt a) (pt b)) := by
  have hl := len_pos h
  have hsq := len_sq (pt a) (pt b)
  set l := len (pt a) (pt b) with hldef
  refine ⟨mk (a.x + d * (b.y - a.y) / l, a.y + d * (a.x - b.x) / l), mk (b.x + d * (b.y - a.y) / l, b.y + d * (a.x - b.x) / l), ?_, ?_, ?_,
    ?_, ?_, ?_⟩
  · have e : Trig.sqrt ((fin a.x -. fin b.x) *. (fin a.x -. fin b.x) +. (fin a.y -. fin b.y) *. (fin a.y -. fin b.y)) = fin l := by
      simp only [sub_fin, mul_fin, add_fin, sqrt_fin]
      rw [if_neg (by nlinarith [mul_self_nonneg (a.x - b.x), mul_self_nonneg (a.y - b.y)])]
      rw [hldef, len]
      simp only [pt, sq]
    simp only [parallel]
    simp only [finPt] at e ⊢
    rw [e]
    simp only [sub_fin, mul_fin, div_fin_ne hl.ne', add_fin]
    rw [newPoint_mk, newPoint_mk]
    rfl
  · simp only [mk]
    ring
  · simp only [mk]
    ring
  · simp only [mk]
    field_simp
    ring
  · have e : len (pt a) (pt (mk (a.x + d * (b.y - a.y) / l, a.y + d * (a.x - b.x) / l))) = Real.sqrt (d ^ 2) := by
      unfold len
      congr 1
      simp only [pt, mk]
      simp only [pt] at hsq
      field_simp
      linear_combination (-d ^ 2) * hsq
    rw [e, Real.sqrt_sq_eq_abs]
  · simp only [mk]
    simp only [pt] at hsq
    field_simp
    linear_combination d * hsq

/-- **C40.** The offset of a straight segment by the code is the parallel on the other side; a segment whose ends print the same has no
offset. -/
theorem C40_offset (n : Int) (a b : Point ℝ) (d : ℝ) :
    offsetSegment n (.line (finPt a) (finPt b)) (fin d) =
      if (finPt a).equalsPrecision (finPt b) n then []
      else [.line (parallel (finPt a, finPt b) (fin (-d))).1 (parallel (finPt a, finPt b) (fin (-d))).2] := by
  simp only [offsetSegment, Segment.start, Segment.stop, neg_fin]
  rfl

/-- **C40.** A segment without length has no parallel: the coordinates are NaN. -/
theorem C40_point_nan (a : Point ℝ) (d : ℝ) : Arith.isNaN (parallel (finPt a, finPt a) (fin d)).1.x = true := by
  have e : (parallel (finPt a, finPt a) (fin d)).1 = newPoint (nan : XNum ℝ) nan := by
    simp [parallel, finPt, sqrt_fin, div_fin, infTimes]
    rfl
  rw [e]
  rfl

/-- Not vacuous: the parallel of `(0, 0) - (3, 4)` at distance 5. -/
example : parallel (finPt ⟨0, 0, 0⟩, finPt ⟨3, 4, 0⟩) (fin 5) = (finPt (mk (4, -3)), finPt (mk (7, 1))) := by
  have e : Real.sqrt 25 = 5 := by
    rw [show (25 : ℝ) = 5 ^ 2 by norm_num]
    exact Real.sqrt_sq (by norm_num)
  simp only [parallel, finPt, sub_fin, mul_fin, add_fin, sqrt_fin]
  norm_num [e, newPoint_mk, finPt, mk]

/-! ## C66 The point at a distance along a line -/

/-- The point at distance `d` from `a` in the direction of `b`. -/
noncomputable def along (a b : Pt ℝ) (d : ℝ) : Pt ℝ := (a.1 + d * ((b.1 - a.1) / len a b), a.2 + d * ((b.2 - a.2) / len a b))

/-- The lines on which `PointAtDistance` is right: exactly vertical or horizontal ones, and those that go to the right and are neither
vertical nor horizontal to three decimals. -/
def Forward (a b : Point ℝ) : Prop :=
  a.x = b.x ∨ a.y = b.y ∧ isVertical 3 (finPt a, finPt b) = false ∨
    a.x < b.x ∧ isVertical 3 (finPt a, finPt b) = false ∧ isHorizontal 3 (finPt a, finPt b) = false

/-- **C66.** On such lines `PointAtDistance` is the point at that distance in the direction of the end. -/
theorem C66_forward (a b : Point ℝ) (h : pt a ≠ pt b) (hf : Forward a b) (d : ℝ) :
    ∃ q : Point ℝ, pointAtDistance (finPt a) (finPt b) (fin d) = finPt q ∧ pt q = along (pt a) (pt b) d := by
  have refl : ∀ x : ℝ, precisionEquals (fin x : XNum ℝ) (fin x) 3 = true := by
    intro x
    simp [precisionEquals]
  refine ⟨mk (along (pt a) (pt b) d), ?_, rfl⟩
  rcases hf with hx | ⟨hy, hv⟩ | ⟨hx, hv, hh⟩
  · have hy : a.y ≠ b.y := fun e => h (Prod.ext hx e)
    have hlen : len (pt a) (pt b) = |b.y - a.y| := by
      simp only [len, pt, hx, sub_self]
      rw [← Real.sqrt_sq_eq_abs]
      congr 1
      ring
    unfold pointAtDistance
    rw [if_pos (by simp only [finPt, hx]; exact refl _)]
    simp only [finPt, lt_fin, Arith.one, lit_zero_fin, decide_eq_true_eq]
    simp only [along, hlen]
    rcases lt_or_gt_of_ne hy with hlt | hlt
    · rw [if_neg (not_lt.mpr hlt.le), abs_of_pos (by linarith)]
      simp only [mul_fin, add_fin, newPoint_mk, finPt, mk, pt]
      have : b.y - a.y ≠ 0 := by linarith
      simp [hx, div_self this]
    · rw [if_pos hlt, abs_of_neg (by linarith)]
      simp only [mul_fin, add_fin, newPoint_mk, finPt, mk, pt]
      have : b.y - a.y ≠ 0 := by linarith
      rw [div_neg (b.y - a.y), div_self this]
      simp [hx]
  · have hx : a.x ≠ b.x := isVertical_ne hv
    have hlen : len (pt a) (pt b) = |b.x - a.x| := by
      simp only [len, pt, hy, sub_self]
      rw [← Real.sqrt_sq_eq_abs]
      congr 1
      ring
    unfold pointAtDistance
    rw [if_neg (by simpa [isVertical] using hv), if_pos (by simp only [finPt, hy]; exact refl _)]
    simp only [finPt, lt_fin, Arith.one, lit_zero_fin, decide_eq_true_eq]
    simp only [along, hlen]
    rcases lt_or_gt_of_ne hx with hlt | hlt
    · rw [if_neg (not_lt.mpr hlt.le), abs_of_pos (by linarith)]
      simp only [mul_fin, add_fin, newPoint_mk, finPt, mk, pt]
      have : b.x - a.x ≠ 0 := by linarith
      simp [hy, div_self this]
    · rw [if_pos hlt, abs_of_neg (by linarith)]
      simp only [mul_fin, add_fin, newPoint_mk, finPt, mk, pt]
      have : b.x - a.x ≠ 0 := by linarith
      rw [div_neg (b.x - a.x), div_self this]
      simp [hy]
  · have hdx : 0 < b.x - a.x := sub_pos.mpr hx
    unfold pointAtDistance
    rw [if_neg (by simpa [isVertical] using hv), if_neg (by simpa [isHorizontal] using hh), slope_fin hx.ne]
    simp only [atan_fin, cos_fin, sin_fin, mul_fin]
    simp only [finPt, add_fin, Real.cos_arctan, Real.sin_arctan]
    have e : Real.sqrt (1 + ((b.y - a.y) / (b.x - a.x)) ^ 2) = len (pt a) (pt b) / (b.x - a.x) := by
      rw [eq_div_iff hdx.ne', len, ← Real.sqrt_sq hdx.le, ← Real.sqrt_mul (by positivity)]
      congr 1
      rw [Real.sqrt_sq hdx.le]
      simp only [pt]
      field_simp
      ring
    rw [e, newPoint_mk]
    have hl := len_pos h
    simp only [finPt, mk, along, pt]
    congr 2 <;> field_simp <;> ring

/-- **C66.** A line that goes to the left and is neither vertical nor horizontal is followed backwards: the point is at that distance on the
side away from the end. -/
theorem C66_leftwards (a b : Point ℝ) (hx : b.x < a.x) (hv : isVertical 3 (finPt a, finPt b) = false)
    (hh : isHorizontal 3 (finPt a, finPt b) = false) (d : ℝ) :
    ∃ q : Point ℝ, pointAtDistance (finPt a) (finPt b) (fin d) = finPt q ∧ pt q = along (pt a) (pt b) (-d) := by
  refine ⟨mk (along (pt a) (pt b) (-d)), ?_, rfl⟩
  have h : pt a ≠ pt b := fun e => hx.ne' (congrArg Prod.fst e)
  have hdx : 0 < a.x - b.x := sub_pos.mpr hx
  unfold pointAtDistance
  rw [if_neg (by simpa [isVertical] using hv), if_neg (by simpa [isHorizontal] using hh), slope_fin hx.ne']
  simp only [atan_fin, cos_fin, sin_fin, mul_fin]
  simp only [finPt, add_fin, Real.cos_arctan, Real.sin_arctan]
  have hne : b.x - a.x ≠ 0 := by linarith
  have e : Real.sqrt (1 + ((b.y - a.y) / (b.x - a.x)) ^ 2) = len (pt a) (pt b) / (a.x - b.x) := by
    rw [eq_div_iff hdx.ne', len, ← Real.sqrt_sq hdx.le, ← Real.sqrt_mul (by positivity)]
    congr 1
    simp only [pt]
    field_simp
    ring
  rw [e, newPoint_mk]
  have hl := len_pos h
  simp only [finPt, mk, along, pt]
  congr 2 <;> field_simp <;> ring

/-- **C66.** So "the point at that distance towards the end" is false. -/
theorem C66_towards_end_false : ¬ ∀ (a b : Point ℝ), pt a ≠ pt b → ∀ d : ℝ,
    ∃ q : Point ℝ, pointAtDistance (finPt a) (finPt b) (fin d) = finPt q ∧ pt q = along (pt a) (pt b) d := by
  intro h
  have hd : ∀ z : ℝ, z < -2 → Decimal.fmt 3 (0 : ℝ) ≠ Decimal.fmt 3 z := by
    intro z hz e
    have := Decimal.fmt_close e
    rw [abs_of_pos (by linarith)] at this
    norm_num at this
    linarith
  have h1 := hd (-3) (by norm_num)
  have h2 := hd (-4) (by norm_num)
  obtain ⟨q, e1, e2⟩ := h ⟨0, 0, 0⟩ ⟨-3, -4, 0⟩ (by norm_num [pt]) 5
  obtain ⟨q', e1', e2'⟩ := C66_leftwards ⟨0, 0, 0⟩ ⟨-3, -4, 0⟩ (by norm_num) (by simpa [isVertical, precisionEquals, finPt] using h1)
    (by simpa [isHorizontal, precisionEquals, finPt] using h2) 5
  rw [e1, finPt_inj] at e1'
  subst e1'
  rw [e2] at e2'
  have e : Real.sqrt 25 = 5 := by
    rw [show (25 : ℝ) = 5 ^ 2 by norm_num]
    exact Real.sqrt_sq (by norm_num)
  norm_num [along, len, e, pt] at e2'

/-- Not vacuous: 5 along the line from the origin to `(3, 4)`. -/
example : along (0, 0) (3, 4) 5 = (3, 4) := by
  have e : Real.sqrt 25 = 5 := by
    rw [show (25 : ℝ) = 5 ^ 2 by norm_num]
    exact Real.sqrt_sq (by norm_num)
  norm_num [along, len, e]

end Verif.Path
