import Verif.Lemmas.BezierRoots

/-!
# C21-C25: cubic curves
-/

namespace Verif.Bezier

open Verif Verif.Spec XNum

universe u

/-! ## C21 A curve's bounding box is exact -/

/-- **C21.** For every curve with finite control points the bounding box is finite, contains the curve, and each of its four sides is
touched by it (`ExactRange`: smallest and largest value are taken on `[0, 1]`). -/
theorem C21_box (c : Curve ℝ) (hx : |c.p0.x| < 2 ^ 63) (hy : |c.p0.y| < 2 ^ 63) :
    ∃ tl br : Point ℝ, boundingBox (finCurve c) = (finPoint tl, finPoint br) ∧
      (∀ t, 0 ≤ t → t ≤ 1 → tl.x ≤ (curveAt c t).1 ∧ (curveAt c t).1 ≤ br.x ∧ tl.y ≤ (curveAt c t).2 ∧ (curveAt c t).2 ≤ br.y) ∧
      (∃ t, 0 ≤ t ∧ t ≤ 1 ∧ (curveAt c t).1 = tl.x) ∧ (∃ t, 0 ≤ t ∧ t ≤ 1 ∧ (curveAt c t).1 = br.x) ∧
      (∃ t, 0 ≤ t ∧ t ≤ 1 ∧ (curveAt c t).2 = tl.y) ∧ ∃ t, 0 ≤ t ∧ t ≤ 1 ∧ (curveAt c t).2 = br.y := by
  obtain ⟨tl, br, h, ⟨hx1, hx2, hx3⟩, ⟨hy1, hy2, hy3⟩⟩ := boundingBox_exact c hx hy
  exact ⟨tl, br, h, fun t h0 h1 => ⟨(hx1 t h0 h1).1, (hx1 t h0 h1).2, (hy1 t h0 h1).1, (hy1 t h0 h1).2⟩, hx2, hx3, hy2, hy3⟩

/-- The magnitude bound is needed: the search starts with `2^63`, so a curve beyond it gets the starting value as its left side. -/
theorem C21_bound_needed : ∃ c : Curve ℝ, ∀ tl br : Point ℝ, boundingBox (finCurve c) = (finPoint tl, finPoint br) →
    ∀ t, (curveAt c t).1 ≠ tl.x := by
  refine ⟨⟨⟨2 ^ 64, 0⟩, ⟨2 ^ 64, 0⟩, ⟨2 ^ 64, 0⟩, ⟨2 ^ 64, 0⟩⟩, fun tl br h t => ?_⟩
  have hc : ∀ s : ℝ, bernstein (2 ^ 64 : ℝ) (2 ^ 64) (2 ^ 64) (2 ^ 64) s = 2 ^ 64 := by
    intro s; unfold bernstein; ring
  have e1 : insertIfAbsent (insertIfAbsent (extrema (finCurve (⟨⟨2 ^ 64, 0⟩, ⟨2 ^ 64, 0⟩, ⟨2 ^ 64, 0⟩, ⟨2 ^ 64, 0⟩⟩ : Curve ℝ))).1
      Arith.zero) Arith.one = tries (2 ^ 64) (2 ^ 64) (2 ^ 64) (2 ^ 64) := by
    simp [tries, extrema, derive1, derive2, deriveStep, finCurve, finPoint]
  obtain ⟨lo, hi, h1, h2, -, h4, -, -⟩ := minMaxLoop_fin (finCurve (⟨⟨2 ^ 64, 0⟩, ⟨2 ^ 64, 0⟩, ⟨2 ^ 64, 0⟩, ⟨2 ^ 64, 0⟩⟩ : Curve ℝ))
    Point.x (bernstein (2 ^ 64 : ℝ) (2 ^ 64) (2 ^ 64) (2 ^ 64)) (tries (2 ^ 64) (2 ^ 64) (2 ^ 64) (2 ^ 64)) (2 ^ 63) (-2 ^ 63)
    (fun x hx => let ⟨t, h, _⟩ := tries_fin hx; ⟨t, h⟩) (fun t => by rw [findPoint_fin]; rfl)
  have h5 : fin tl.x = fin lo := by
    have := congrArg (fun b => b.1.x) h
    simp only [boundingBox, e1, sentinel_fin, neg_fin, h1, finPoint] at this
    exact this.symm
  injection h5 with h5
  show bernstein (2 ^ 64 : ℝ) (2 ^ 64) (2 ^ 64) (2 ^ 64) t ≠ tl.x
  rw [hc, h5]
  intro h6
  rw [← h6] at h4
  norm_num at h4

/-- Non-vacuity: an S-shaped curve whose box is wider than the box of its end points. -/
example : |((⟨⟨0, 0⟩, ⟨3, 1⟩, ⟨-2, 1⟩, ⟨1, 0⟩⟩ : Curve ℝ)).p0.x| < 2 ^ 63 ∧
    (curveAt (⟨⟨0, 0⟩, ⟨3, 1⟩, ⟨-2, 1⟩, ⟨1, 0⟩⟩ : Curve ℝ) (1 / 5)).1 > 23 / 25 ∧
    (curveAt (⟨⟨0, 0⟩, ⟨3, 1⟩, ⟨-2, 1⟩, ⟨1, 0⟩⟩ : Curve ℝ) (1 / 2)).2 = 3 / 4 := by
  refine ⟨by norm_num, ?_, ?_⟩ <;> · simp only [curveAt, bernstein]; norm_num

/-! ## C22 Splitting a curve retraces it -/

section Split

variable {K : Type u} [Field K] [LinearOrder K] [IsStrictOrderedRing K]

/-- **C22.** Splitting at `t ≠ 0` gives a curve running through the original from `0` to `t` and one running from `t` to `1`; the first
starts where the original starts, the second ends where it ends, and they meet at the original's point at `t`. -/
theorem C22_split (c : Curve K) (t : K) (ht : t ≠ 0) :
    Retraces (splitCurve c t).1 c 0 t ∧ Retraces (splitCurve c t).2 c t 1 ∧
      (splitCurve c t).1.p0 = c.p0 ∧ (splitCurve c t).1.p3 = (splitCurve c t).2.p0 ∧ (splitCurve c t).2.p3 = c.p3 ∧
      ((splitCurve c t).1.p3.x, (splitCurve c t).1.p3.y) = curveAt c t := by
  rw [splitCurve_field c ht]
  refine ⟨fun u => ?_, fun u => ?_, rfl, rfl, rfl, ?_⟩
  · rw [halves_left]; congr 1; ring
  · exact halves_right c t u
  · have := halves_left c t 1
    rw [mul_one] at this
    rw [← this]
    simp [curveAt, bernstein]

/-- **C22.** Cutting out the section from `t1` to `t2` gives a curve running through the original from `t1` to `t2`. -/
theorem C22_section (c : Curve K) (t1 t2 : K) (h0 : 0 ≤ t1) (h1 : t1 ≠ 1) (h12 : t1 < t2) :
    Retraces (splitCurveSection c t1 t2) c t1 t2 := splitSection_field ⟨c, t1, t2⟩ h0 h1 h12

/-- At the very start the code goes wrong: splitting at `0` is taken as splitting at `-1`, so the left curve leaves the original. (The
property is about the open interval; this records what happens at its border.) -/
theorem C22_zero_false : ¬ ∀ c : Curve ℚ, Retraces (splitCurve c 0).1 c 0 0 := by
  intro h
  have := h ⟨⟨0, 0⟩, ⟨1, 0⟩, ⟨2, 0⟩, ⟨3, 0⟩⟩ 1
  revert this
  decide +kernel

/-- The empty section goes wrong in the same way. -/
theorem C22_empty_section_false : ¬ ∀ (c : Curve ℚ) (t : ℚ), 0 ≤ t → t < 1 → Retraces (splitCurveSection c t t) c t t := by
  intro h
  have := h ⟨⟨0, 0⟩, ⟨1, 0⟩, ⟨2, 0⟩, ⟨3, 0⟩⟩ (1 / 2) (by decide +kernel) (by decide +kernel) 1
  revert this
  decide +kernel

/-- Non-vacuity: a curve split in two different halves. -/
example : splitCurve (⟨⟨0, 0⟩, ⟨0, 8⟩, ⟨8, 8⟩, ⟨8, 0⟩⟩ : Curve ℚ) (1 / 2) =
    (⟨⟨0, 0⟩, ⟨0, 4⟩, ⟨2, 6⟩, ⟨4, 6⟩⟩, ⟨⟨4, 6⟩, ⟨6, 6⟩, ⟨8, 4⟩, ⟨8, 0⟩⟩) := by decide +kernel

end Split

/-! ## C23 Curve evaluation and derivative are mutually consistent -/

/-- **C23.** Both ways of evaluating a curve give its point, for every parameter. -/
theorem C23_evaluation {K : Type u} [Field K] [LinearOrder K] [IsStrictOrderedRing K] (c : Curve K) (t : K) :
    findPoint c t = ⟨(curveAt c t).1, (curveAt c t).2⟩ ∧ deCasteljau c t = some (findPoint c t) :=
  ⟨findPoint_field c t, by rw [findPoint_field, deCasteljau_field]⟩

/-- **C23.** The reported derivative is the derivative of the point with respect to the parameter. -/
theorem C23_derivative (c : Curve ℝ) (t : ℝ) :
    HasDerivAt (fun s => (findPoint c s).x) (derivative c t).x t ∧ HasDerivAt (fun s => (findPoint c s).y) (derivative c t).y t := by
  simp only [findPoint_field, derivative_field]
  exact ⟨hasDerivAt_bernstein _ _ _ _ t, hasDerivAt_bernstein _ _ _ _ t⟩

/-- Non-vacuity: a curve with a non-constant derivative. -/
example : findPoint (⟨⟨0, 0⟩, ⟨0, 8⟩, ⟨8, 8⟩, ⟨8, 0⟩⟩ : Curve ℚ) (1 / 2) = ⟨4, 6⟩ ∧
    derivative (⟨⟨0, 0⟩, ⟨0, 8⟩, ⟨8, 8⟩, ⟨8, 0⟩⟩ : Curve ℚ) (1 / 2) = ⟨12, 0⟩ ∧
    derivative (⟨⟨0, 0⟩, ⟨0, 8⟩, ⟨8, 8⟩, ⟨8, 0⟩⟩ : Curve ℚ) 0 = ⟨0, 24⟩ := by decide +kernel

/-! ## C24 Line/curve intersections are on both -/

/-- The point `q` lies on the straight segment from `l1` to `l2`. -/
def OnSegment (l1 l2 : Point ℝ) (q : ℝ × ℝ) : Prop :=
  ∃ u, 0 ≤ u ∧ u ≤ 1 ∧ q = ((1 - u) * l1.x + u * l2.x, (1 - u) * l1.y + u * l2.y)

/-- The signed distance of a point from the line through `l1` and `l2`. -/
noncomputable def lineDist (l1 l2 : Point ℝ) (q : ℝ × ℝ) : ℝ := cross l1 l2 q / len l1 l2

/-- **C24**, the full statement: the reported parameters are exactly those where the curve is on the segment. -/
def C24_statement : Prop := ∀ (c : Curve ℝ) (l1 l2 : Point ℝ) (t : ℝ),
  fin t ∈ intersectsLine (finCurve c) (finPoint l1) (finPoint l2) ↔ 0 ≤ t ∧ t ≤ 1 ∧ OnSegment l1 l2 (curveAt c t)

/-- **C24** is false: for a segment drawn downwards only its lower end is accepted, so a horizontal line crossing a vertical segment in
the middle is missed. -/
theorem C24_false : ¬ C24_statement := by
  intro h
  have h1 := (h ⟨⟨-1, 0⟩, ⟨-1 / 3, 0⟩, ⟨1 / 3, 0⟩, ⟨1, 0⟩⟩ ⟨0, 1⟩ ⟨0, -1⟩ (1 / 2)).2
    ⟨by norm_num, by norm_num, 1 / 2, by norm_num, by norm_num, by simp only [curveAt, bernstein]; norm_num⟩
  rw [mem_intersectsLine, findPoint_fin] at h1
  have h2 := between_imp h1.2.2
  simp only [curveAt, bernstein] at h2
  norm_num at h2

/-- **C24**, what holds (soundness): whatever is reported is a parameter in `[0, 1]` whose point is within `2e-6` of the line and, up to
`1e-6`, in the box of the segment. Missing: exactness, and for segments drawn downwards, completeness. -/
theorem C24_sound_partial (c : Curve ℝ) (l1 l2 : Point ℝ) (hl : l1 ≠ l2) (x : XNum ℝ)
    (h : x ∈ intersectsLine (finCurve c) (finPoint l1) (finPoint l2)) :
    ∃ t : ℝ, x = fin t ∧ 0 ≤ t ∧ t ≤ 1 ∧ |lineDist l1 l2 (curveAt c t)| ≤ 2 / 1000000 ∧
      min l1.x l2.x - 1 / 1000000 ≤ (curveAt c t).1 ∧ (curveAt c t).1 ≤ max l1.x l2.x + 1 / 1000000 ∧
      min l1.y l2.y - 1 / 1000000 ≤ (curveAt c t).2 ∧ (curveAt c t).2 ≤ max l1.y l2.y + 1 / 1000000 := by
  rw [mem_intersectsLine] at h
  obtain ⟨hr, hx, hy⟩ := h
  obtain ⟨pa, pb, pc, pd, e, -, -, -, -, hb⟩ := roots_fin c l1 l2
  rw [e] at hr
  obtain ⟨t, rfl, h0, h1⟩ := bernsteinRoots_fin hr
  have hs := bernsteinRoots_small hr
  rw [findPoint_fin] at hx hy
  have hx' := between_imp hx
  have hy' := between_imp hy
  have hlen := len_pos hl
  refine ⟨t, rfl, h0, h1, ?_, ?_, ?_, ?_, ?_⟩
  · rw [lineDist, ← hb t, mul_div_cancel_left₀ _ hlen.ne']; exact hs
  · exact le_trans (sub_le_sub_right (le_min le_rfl (min_le_max)) _) hx'.1
  · exact hx'.2.trans (add_le_add_left (max_le (min_le_max) le_rfl) _)
  · exact le_trans (sub_le_sub_right (le_min le_rfl (min_le_right _ _)) _) hy'.1
  · exact hy'.2.trans (add_le_add_left (max_le ((min_le_left _ _).trans (le_max_left _ _)) (le_max_right _ _)) _)

/-- The coefficients of the signed distance from the line along the curve, as a polynomial in the parameter. -/
noncomputable def distCoeffs (c : Curve ℝ) (l1 l2 : Point ℝ) : ℝ × ℝ × ℝ :=
  let a := lineDist l1 l2 (c.p0.x, c.p0.y)
  let b := lineDist l1 l2 (c.p1.x, c.p1.y)
  let d := lineDist l1 l2 (c.p2.x, c.p2.y)
  let e := lineDist l1 l2 (c.p3.x, c.p3.y)
  (-a + 3 * b - 3 * d + e, 3 * a - 6 * b + 3 * d, -3 * a + 3 * b)

/-- The curve does not lie on the line, and no coefficient of its distance from the line is tiny without being zero. -/
def Generic (c : Curve ℝ) (l1 l2 : Point ℝ) : Prop :=
  NotTiny (distCoeffs c l1 l2).1 ∧ NotTiny (distCoeffs c l1 l2).2.1 ∧ NotTiny (distCoeffs c l1 l2).2.2 ∧
    ∃ t, lineDist l1 l2 (curveAt c t) ≠ 0

/-- `Roots` finds exactly the parameters where a generic curve is on the line. -/
theorem C24_roots_exact (c : Curve ℝ) (l1 l2 : Point ℝ) (hl : l1 ≠ l2) (hg : Generic c l1 l2) (t : ℝ) :
    fin t ∈ roots (finCurve c) (finPoint l1) (finPoint l2) ↔ lineDist l1 l2 (curveAt c t) = 0 ∧ 0 ≤ t ∧ t ≤ 1 := by
  obtain ⟨pa, pb, pc, pd, e, ha, hb, hc, hd, hall⟩ := roots_fin c l1 l2
  have hlen := len_pos hl
  have key : ∀ {h : ℝ} {q : ℝ × ℝ}, len l1 l2 * h = cross l1 l2 q → lineDist l1 l2 q = h := by
    intro h q hq
    rw [lineDist, ← hq, mul_div_cancel_left₀ _ hlen.ne']
  obtain ⟨g1, g2, g3, s, g4⟩ := hg
  simp only [distCoeffs, key ha, key hb, key hc, key hd] at g1 g2 g3
  rw [key (hall s)] at g4
  rw [e, bernsteinRoots_iff g1 g2 g3, key (hall t)]
  rintro ⟨rfl, rfl, rfl, rfl⟩
  apply g4
  simp [bernstein]

/-- **C24**, what holds (completeness): for a segment not drawn downwards, every parameter where a generic curve is on the segment is
reported. -/
theorem C24_complete_partial (c : Curve ℝ) (l1 l2 : Point ℝ) (hl : l1 ≠ l2) (hup : l1.y ≤ l2.y) (hg : Generic c l1 l2) (t : ℝ)
    (h0 : 0 ≤ t) (h1 : t ≤ 1) (h : OnSegment l1 l2 (curveAt c t)) :
    fin t ∈ intersectsLine (finCurve c) (finPoint l1) (finPoint l2) := by
  obtain ⟨u, hu0, hu1, hu⟩ := h
  rw [mem_intersectsLine, C24_roots_exact c l1 l2 hl hg, findPoint_fin]
  refine ⟨⟨?_, h0, h1⟩, ?_, ?_⟩
  · rw [lineDist, hu, cross]
    rw [div_eq_zero_iff]
    left; ring
  · simp only [finPoint]
    rw [between_fin, decide_eq_true_eq]
    right; right; left
    rw [hu]
    constructor
    · rcases le_total l1.x l2.x with h | h
      · rw [min_eq_left h]; nlinarith
      · rw [min_eq_right h]; nlinarith
    · rcases le_total l1.x l2.x with h | h
      · rw [max_eq_right h]; nlinarith
      · rw [max_eq_left h]; nlinarith
  · simp only [finPoint]
    rw [between_fin, decide_eq_true_eq]
    right; right; left
    rw [hu, min_eq_left hup]
    constructor <;> nlinarith

/-- Non-vacuity: the same crossing as in the counterexample, with the segment drawn upwards, is generic, so it is reported. -/
example : (fin (1 / 2) : XNum ℝ) ∈ intersectsLine (finCurve ⟨⟨-1, 0⟩, ⟨-1 / 3, 0⟩, ⟨1 / 3, 0⟩, ⟨1, 0⟩⟩) (finPoint ⟨0, -1⟩) (finPoint ⟨0, 1⟩) := by
  have hlen : len ⟨0, -1⟩ ⟨0, 1⟩ = 2 := by
    simp only [len]
    rw [show ((0 : ℝ) - 0) ^ 2 + (1 - -1) ^ 2 = 2 ^ 2 by norm_num]
    exact Real.sqrt_sq (by norm_num)
  apply C24_complete_partial
  · intro h; injection h with _ h; norm_num at h
  · norm_num
  · refine ⟨.inl ?_, .inl ?_, .inr ?_, 0, ?_⟩
    · simp only [distCoeffs, lineDist, cross, hlen]; norm_num
    · simp only [distCoeffs, lineDist, cross, hlen]; norm_num
    · simp only [distCoeffs, lineDist, cross, hlen]; norm_num
    · simp only [lineDist, cross, hlen, curveAt, bernstein]; norm_num
  · norm_num
  · norm_num
  · exact ⟨1 / 2, by norm_num, by norm_num, by simp only [curveAt, bernstein]; norm_num⟩

/-! ## C25 Projecting a point on a curve finds the nearest point -/

/-- The distance of two points. -/
noncomputable def dist (p q : Point ℝ) : ℝ := Real.sqrt ((p.x - q.x) ^ 2 + (p.y - q.y) ^ 2)

/-- **C25**, the full statement: the sample picked by the coarse search is as near to the given point as any other sample. -/
def C25_statement : Prop := ∀ (samples : List (Point ℝ)) (p : Point ℝ), samples ≠ [] → (∀ q ∈ samples, dist p q < 2 ^ 63) →
  ∃ q, samples[(closest samples p).2]? = some q ∧ ∀ r ∈ samples, dist p q ≤ dist p r

theorem distance_real (p q : Point ℝ) : distance p q = dist p q := by
  simp only [distance, dist, Arith.sub_field, Arith.mul_field, Arith.add_field, Trig.sqrt_real]
  congr 1; ring

/-- The search compares with the origin instead of the given point: among the samples it picks the first one nearest to the origin. -/
theorem closestLoop_spec (l : List (Point ℝ)) (i : Nat) (d : ℝ) (best : Nat) :
    (closestLoop l i d best).1 ≤ d ∧ (∀ q ∈ l, (closestLoop l i d best).1 ≤ dist ⟨0, 0⟩ q) ∧
      (closestLoop l i d best = (d, best) ∨
        ∃ k q, (closestLoop l i d best).2 = i + k ∧ l[k]? = some q ∧ (closestLoop l i d best).1 = dist ⟨0, 0⟩ q ∧
          (closestLoop l i d best).1 < d) := by
  induction l generalizing i d best with
  | nil => exact ⟨le_rfl, by simp, .inl rfl⟩
  | cons p l ih =>
    have e0 : distance (⟨Arith.zero, Arith.zero⟩ : Point ℝ) p = dist ⟨0, 0⟩ p := by
      rw [distance_real]; simp [Arith.zero]
    by_cases h : dist ⟨0, 0⟩ p < d
    · have e : closestLoop (p :: l) i d best = closestLoop l (i + 1) (dist ⟨0, 0⟩ p) i := by
        simp only [closestLoop, e0, Arith.lt_field, h, decide_true, if_true]
      rw [e]
      obtain ⟨h1, h2, h3⟩ := ih (i + 1) (dist ⟨0, 0⟩ p) i
      refine ⟨h1.trans h.le, ?_, .inr ?_⟩
      · intro q hq
        rcases List.mem_cons.1 hq with rfl | hq
        · exact h1
        · exact h2 q hq
      · rcases h3 with h3 | ⟨k, q, h3, h4, h5, h6⟩
        · exact ⟨0, p, by rw [h3]; rfl, rfl, by rw [h3], by rw [h3]; exact h⟩
        · exact ⟨k + 1, q, by rw [h3]; omega, by simpa using h4, h5, h6.trans h⟩
    · have e : closestLoop (p :: l) i d best = closestLoop l (i + 1) d best := by
        simp only [closestLoop, e0, Arith.lt_field, h, decide_false, if_false, Bool.false_eq_true]
      rw [e]
      obtain ⟨h1, h2, h3⟩ := ih (i + 1) d best
      refine ⟨h1, ?_, ?_⟩
      · intro q hq
        rcases List.mem_cons.1 hq with rfl | hq
        · exact h1.trans (not_lt.1 h)
        · exact h2 q hq
      · rcases h3 with h3 | ⟨k, q, h3, h4, h5, h6⟩
        · exact .inl h3
        · exact .inr ⟨k + 1, q, by rw [h3]; omega, by simpa using h4, h5, h6⟩

theorem sentinel_real : (sentinel : ℝ) = 2 ^ 63 := by
  simp only [sentinel, Arith.lit_zero_field]
  norm_num

/-- **C25**, what holds: the search returns the sample nearest to the origin and its distance from the origin, whatever point was asked
for; this is right when the point asked for is the origin. -/
theorem C25_nearest_origin_partial (samples : List (Point ℝ)) (p : Point ℝ) (hne : samples ≠ [])
    (h : ∀ q ∈ samples, dist ⟨0, 0⟩ q < 2 ^ 63) :
    ∃ q, samples[(closest samples p).2]? = some q ∧ (closest samples p).1 = dist ⟨0, 0⟩ q ∧
      ∀ r ∈ samples, dist ⟨0, 0⟩ q ≤ dist ⟨0, 0⟩ r := by
  obtain ⟨-, h2, h3⟩ := closestLoop_spec samples 0 sentinel 0
  unfold closest
  rcases h3 with h3 | ⟨k, q, h3, h4, h5, -⟩
  · exfalso
    obtain ⟨q, hq⟩ := List.exists_mem_of_ne_nil samples hne
    have := h2 q hq
    rw [h3, sentinel_real] at this
    exact absurd (h q hq) (not_lt.2 this)
  · refine ⟨q, by rw [h3, zero_add]; exact h4, h5, fun r hr => ?_⟩
    rw [← h5]
    exact h2 r hr

/-- **C25** is false: the point asked for is ignored. -/
theorem C25_false : ¬ C25_statement := by
  intro h
  have d0 : ∀ a : ℝ, dist ⟨a, 0⟩ ⟨a, 0⟩ = 0 := fun a => by simp [dist]
  have d1 : dist ⟨1, 0⟩ ⟨0, 0⟩ = 1 := by simp [dist]
  have d2 : dist ⟨0, 0⟩ ⟨1, 0⟩ = 1 := by simp [dist]
  obtain ⟨q, h1, h2⟩ := h [⟨0, 0⟩, ⟨1, 0⟩] ⟨1, 0⟩ (by simp) (by simp [d0, d1]; norm_num)
  obtain ⟨q', h3, -, h5⟩ := C25_nearest_origin_partial [⟨0, 0⟩, ⟨1, 0⟩] ⟨1, 0⟩ (by simp) (by simp [d0, d2]; norm_num)
  have e : q = q' := by rw [h1] at h3; exact Option.some.inj h3
  subst e
  have hm : q ∈ [(⟨0, 0⟩ : Point ℝ), ⟨1, 0⟩] := List.mem_of_getElem? h1
  simp only [List.mem_cons, List.not_mem_nil, or_false] at hm
  rcases hm with rfl | rfl
  · have := h2 ⟨1, 0⟩ (by simp)
    rw [d1, d0] at this
    norm_num at this
  · have := h5 ⟨0, 0⟩ (by simp)
    rw [d2, d0] at this
    norm_num at this

/-- Non-vacuity: two samples, the second is nearer to the origin. -/
example : ∃ q, [(⟨3, 0⟩ : Point ℝ), ⟨0, 1⟩][(closest [(⟨3, 0⟩ : Point ℝ), ⟨0, 1⟩] ⟨3, 0⟩).2]? = some q ∧ q = ⟨0, 1⟩ := by
  have e1 : dist ⟨0, 0⟩ ⟨3, 0⟩ = 3 := by simp [dist]
  have e2 : dist ⟨0, 0⟩ ⟨0, 1⟩ = 1 := by simp [dist]
  obtain ⟨q, h1, -, h2⟩ := C25_nearest_origin_partial [⟨3, 0⟩, ⟨0, 1⟩] ⟨3, 0⟩ (by simp) (by simp [e1, e2]; norm_num)
  refine ⟨q, h1, ?_⟩
  have hm := List.mem_of_getElem? h1
  simp only [List.mem_cons, List.not_mem_nil, or_false] at hm
  rcases hm with rfl | rfl
  · have := h2 ⟨0, 1⟩ (by simp)
    rw [e1, e2] at this
    norm_num at this
  · rfl

end Verif.Bezier
