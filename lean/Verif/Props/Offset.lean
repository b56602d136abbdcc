import Verif.Props.CurveOps

/-!
# C67: offsetting a curve
-/

namespace Verif.Bezier

open Verif Verif.Spec XNum

universe u

theorem normal_fin (c : Curve ℝ) (t : ℝ) (hv : (derivative c t).x ^ 2 + (derivative c t).y ^ 2 ≠ 0) :
    normal (finCurve c) (fin t) = finPoint (normal c t) := by
  have hpos : 0 < (derivative c t).x * (derivative c t).x + (derivative c t).y * (derivative c t).y :=
    lt_of_le_of_ne (by nlinarith [sq_nonneg (derivative c t).x, sq_nonneg (derivative c t).y]) (by intro h; apply hv; linear_combination -h)
  have hq := Real.sqrt_pos.2 hpos
  simp only [normal, derivative_fin, finPoint, mul_fin, add_fin, neg_fin, sqrt_fin, not_lt.2 hpos.le, if_false, div_fin_ne hq.ne',
    Arith.add_field, Arith.mul_field, Arith.div_field, Arith.neg_field, Trig.sqrt_real]

theorem lli4_fin (a b c d : Point ℝ) : lli4 (finPoint a) (finPoint b) (finPoint c) (finPoint d) =
    ((lli4 a b c d).1, finPoint (lli4 a b c d).2) := by
  rw [lli4_field]
  simp only [lli4, finPoint, mul_fin, sub_fin, zero_fin, eq_fin]
  by_cases h : (a.x - b.x) * (c.y - d.y) - (a.y - b.y) * (c.x - d.x) = 0
  · simp [h]
  · simp [h, div_fin_ne h]

theorem normalize_apart {c : Curve ℝ} (h0 : c.p0 ≠ c.p1) (h3 : c.p3 ≠ c.p2) : normalize c = c := by
  have e0 : (decide (c.p0.x = c.p1.x) && decide (c.p0.y = c.p1.y)) = false := by
    rw [Bool.eq_false_iff]
    intro h
    rw [Bool.and_eq_true, decide_eq_true_eq, decide_eq_true_eq] at h
    apply h0
    cases hh : c.p0; cases hh' : c.p1
    rw [hh, hh'] at h
    simp only at h
    rw [h.1, h.2]
  have e3 : (decide (c.p3.x = c.p2.x) && decide (c.p3.y = c.p2.y)) = false := by
    rw [Bool.eq_false_iff]
    intro h
    rw [Bool.and_eq_true, decide_eq_true_eq, decide_eq_true_eq] at h
    apply h3
    cases hh : c.p3; cases hh' : c.p2
    rw [hh, hh'] at h
    simp only at h
    rw [h.1, h.2]
  simp only [normalize, Arith.eq_field, e0, e3, Bool.false_eq_true, if_false]

theorem normalize_apart_fin {c : Curve ℝ} (h0 : c.p0 ≠ c.p1) (h3 : c.p3 ≠ c.p2) : normalize (finCurve c) = finCurve c := by
  have e0 : (decide (c.p0.x = c.p1.x) && decide (c.p0.y = c.p1.y)) = false := by
    rw [Bool.eq_false_iff]
    intro h
    rw [Bool.and_eq_true, decide_eq_true_eq, decide_eq_true_eq] at h
    apply h0
    cases hh : c.p0; cases hh' : c.p1
    rw [hh, hh'] at h
    simp only at h
    rw [h.1, h.2]
  have e3 : (decide (c.p3.x = c.p2.x) && decide (c.p3.y = c.p2.y)) = false := by
    rw [Bool.eq_false_iff]
    intro h
    rw [Bool.and_eq_true, decide_eq_true_eq, decide_eq_true_eq] at h
    apply h3
    cases hh : c.p3; cases hh' : c.p2
    rw [hh, hh'] at h
    simp only at h
    rw [h.1, h.2]
  simp only [normalize, finCurve, finPoint, eq_fin, e0, e3, Bool.false_eq_true, if_false]

theorem point_ne {p q : Point ℝ} (h : p ≠ q) : 0 < (q.x - p.x) ^ 2 + (q.y - p.y) ^ 2 := by
  rcases eq_or_ne p.x q.x with hx | hx
  · rcases eq_or_ne p.y q.y with hy | hy
    · exact absurd (by cases p; cases q; simp_all) h
    · have : 0 < (q.y - p.y) ^ 2 := by
        have := sub_ne_zero.2 hy.symm
        positivity
      positivity
  · have : 0 < (q.x - p.x) ^ 2 := by
      have := sub_ne_zero.2 hx.symm
      positivity
    positivity

theorem derivative_zero (c : Curve ℝ) : derivative c 0 = ⟨3 * (c.p1.x - c.p0.x), 3 * (c.p1.y - c.p0.y)⟩ := by
  rw [derivative_field]
  congr 1 <;> ring

theorem derivative_one (c : Curve ℝ) : derivative c 1 = ⟨3 * (c.p3.x - c.p2.x), 3 * (c.p3.y - c.p2.y)⟩ := by
  rw [derivative_field]
  congr 1 <;> ring

theorem speed_start {c : Curve ℝ} (h0 : c.p0 ≠ c.p1) : (derivative c 0).x ^ 2 + (derivative c 0).y ^ 2 ≠ 0 := by
  rw [derivative_zero]
  have := point_ne h0
  simp only
  nlinarith

theorem speed_end {c : Curve ℝ} (h3 : c.p3 ≠ c.p2) : (derivative c 1).x ^ 2 + (derivative c 1).y ^ 2 ≠ 0 := by
  rw [derivative_one]
  have := point_ne h3
  simp only
  nlinarith

theorem offsetPoint_fin {c : Curve ℝ} (h0 : c.p0 ≠ c.p1) (h3 : c.p3 ≠ c.p2) (t d : ℝ)
    (hv : (derivative c t).x ^ 2 + (derivative c t).y ^ 2 ≠ 0) :
    offsetPoint (finCurve c) (fin t) (fin d) = finPoint (offsetPoint c t d) := by
  simp only [offsetPoint, normalize_apart h0 h3, normalize_apart_fin h0 h3, findPoint_fin, normal_fin c t hv, findPoint_field]
  simp only [finPoint, mul_fin, add_fin, Arith.add_field, Arith.mul_field]

/-- On finite curves the scaling is that of exact arithmetic. -/
theorem scale_fin {c : Curve ℝ} (h0 : c.p0 ≠ c.p1) (h3 : c.p3 ≠ c.p2) (d : ℝ) :
    scale (finCurve c) (fin d) = (scale c d).map finCurve := by
  have v0 := speed_start h0
  have v1 := speed_end h3
  have e10 : (Arith.lit 10 0 : XNum ℝ) = fin 10 := by simp
  have r10 : (Arith.lit 10 0 : ℝ) = 10 := by simp
  have f0 : (Arith.lit 0 0 : ℝ) = 0 := by simp
  have f1 : (Arith.lit 1 0 : ℝ) = 1 := by simp
  unfold scale
  simp only [e10, r10, zero_fin, one_fin, Arith.zero, Arith.one, f0, f1, offsetPoint_fin h0 h3 _ _ v0, offsetPoint_fin h0 h3 _ _ v1,
    findPoint_fin, findPoint_field, normal_fin c _ v0, normal_fin c _ v1, derivative_fin, lli4_fin]
  split
  · simp only [finCurve, Option.map_some, Option.some.injEq]
    have p0 : (⟨(finPoint c.p0).x +. fin d *. (finPoint (normal c 0)).x, (finPoint c.p0).y +. fin d *. (finPoint (normal c 0)).y⟩ : Point (XNum ℝ)) =
        finPoint ⟨c.p0.x +. d *. (normal c 0).x, c.p0.y +. d *. (normal c 0).y⟩ := by
      simp only [finPoint, mul_fin, add_fin, Arith.add_field, Arith.mul_field]
    have p3 : (⟨(finPoint c.p3).x +. fin d *. (finPoint (normal c 1)).x, (finPoint c.p3).y +. fin d *. (finPoint (normal c 1)).y⟩ : Point (XNum ℝ)) =
        finPoint ⟨c.p3.x +. d *. (normal c 1).x, c.p3.y +. d *. (normal c 1).y⟩ := by
      simp only [finPoint, mul_fin, add_fin, Arith.add_field, Arith.mul_field]
    have t0 : (⟨(finPoint c.p0).x +. fin d *. (finPoint (normal c 0)).x +. (finPoint (derivative c 0)).x,
        (finPoint c.p0).y +. fin d *. (finPoint (normal c 0)).y +. (finPoint (derivative c 0)).y⟩ : Point (XNum ℝ)) =
        finPoint ⟨c.p0.x +. d *. (normal c 0).x +. (derivative c 0).x, c.p0.y +. d *. (normal c 0).y +. (derivative c 0).y⟩ := by
      simp only [finPoint, mul_fin, add_fin, Arith.add_field, Arith.mul_field]
    have t3 : (⟨(finPoint c.p3).x +. fin d *. (finPoint (normal c 1)).x +. (finPoint (derivative c 1)).x,
        (finPoint c.p3).y +. fin d *. (finPoint (normal c 1)).y +. (finPoint (derivative c 1)).y⟩ : Point (XNum ℝ)) =
        finPoint ⟨c.p3.x +. d *. (normal c 1).x +. (derivative c 1).x, c.p3.y +. d *. (normal c 1).y +. (derivative c 1).y⟩ := by
      simp only [finPoint, mul_fin, add_fin, Arith.add_field, Arith.mul_field]
    rw [p0, p3, t0, t3, lli4_fin, lli4_fin]
  · rfl

/-- The scaling of a real curve, written out. -/
theorem scale_real {c : Curve ℝ} (h0 : c.p0 ≠ c.p1) (h3 : c.p3 ≠ c.p2) (d : ℝ) :
    scale c d =
      let n0 := normal c 0
      let n1 := normal c 1
      let r := lli4 ⟨c.p0.x + n0.x * 10, c.p0.y + n0.y * 10⟩ c.p0 ⟨c.p3.x + n1.x * 10, c.p3.y + n1.y * 10⟩ c.p3
      if r.1 then
        let q0 : Point ℝ := ⟨c.p0.x + d * n0.x, c.p0.y + d * n0.y⟩
        let q3 : Point ℝ := ⟨c.p3.x + d * n1.x, c.p3.y + d * n1.y⟩
        some ⟨q0, (lli4 q0 ⟨q0.x + 3 * (c.p1.x - c.p0.x), q0.y + 3 * (c.p1.y - c.p0.y)⟩ r.2 c.p1).2,
          (lli4 q3 ⟨q3.x + 3 * (c.p3.x - c.p2.x), q3.y + 3 * (c.p3.y - c.p2.y)⟩ r.2 c.p2).2, q3⟩
      else none := by
  have r10 : (Arith.lit 10 0 : ℝ) = 10 := by simp
  have f0 : (Arith.lit 0 0 : ℝ) = 0 := by simp
  have f1 : (Arith.lit 1 0 : ℝ) = 1 := by simp
  have c0 : curveAt c 0 = (c.p0.x, c.p0.y) := by simp [curveAt, bernstein]
  have c1 : curveAt c 1 = (c.p3.x, c.p3.y) := by simp [curveAt, bernstein]
  unfold scale
  simp only [r10, Arith.zero, Arith.one, f0, f1, offsetPoint, normalize_apart h0 h3, findPoint_field, derivative_zero, derivative_one,
    Arith.add_field, Arith.mul_field, c0, c1]

/-- The direction of the normal at an end, from the end point and the control point. -/
theorem normal_of {c : Curve ℝ} {t : ℝ} (hv : (derivative c t).x ^ 2 + (derivative c t).y ^ 2 ≠ 0) :
    ∃ q : ℝ, 0 < q ∧ q ^ 2 = (derivative c t).x ^ 2 + (derivative c t).y ^ 2 ∧ normal c t = ⟨-(derivative c t).y / q, (derivative c t).x / q⟩ := by
  have hpos : 0 < (derivative c t).x * (derivative c t).x + (derivative c t).y * (derivative c t).y :=
    lt_of_le_of_ne (by nlinarith [sq_nonneg (derivative c t).x, sq_nonneg (derivative c t).y]) (by intro h; apply hv; linear_combination -h)
  refine ⟨_, Real.sqrt_pos.2 hpos, ?_, ?_⟩
  · rw [Real.sq_sqrt hpos.le]
    ring
  · simp only [normal, Arith.add_field, Arith.mul_field, Arith.div_field, Arith.neg_field, Trig.sqrt_real]

/-- **C67.** Scaling a curve is possible exactly when its end directions are not parallel. -/
theorem C67_possible (c : Curve ℝ) (d : ℝ) (h0 : c.p0 ≠ c.p1) (h3 : c.p3 ≠ c.p2) :
    (scale (finCurve c) (fin d)).isSome ↔
      (c.p1.x - c.p0.x) * (c.p3.y - c.p2.y) - (c.p1.y - c.p0.y) * (c.p3.x - c.p2.x) ≠ 0 := by
  obtain ⟨q, hq, -, e0⟩ := normal_of (speed_start h0)
  obtain ⟨r, hr, -, e1⟩ := normal_of (speed_end h3)
  rw [scale_fin h0 h3, scale_real h0 h3]
  simp only [e0, e1, derivative_zero, derivative_one]
  have key := C60_found_iff (K := ℝ) ⟨c.p0.x + -(3 * (c.p1.y - c.p0.y)) / q * 10, c.p0.y + 3 * (c.p1.x - c.p0.x) / q * 10⟩ c.p0
    ⟨c.p3.x + -(3 * (c.p3.y - c.p2.y)) / r * 10, c.p3.y + 3 * (c.p3.x - c.p2.x) / r * 10⟩ c.p3
  have e : ((c.p0.x - (c.p0.x + -(3 * (c.p1.y - c.p0.y)) / q * 10)) * (c.p3.y - (c.p3.y + 3 * (c.p3.x - c.p2.x) / r * 10)) =
      (c.p0.y - (c.p0.y + 3 * (c.p1.x - c.p0.x) / q * 10)) * (c.p3.x - (c.p3.x + -(3 * (c.p3.y - c.p2.y)) / r * 10))) ↔
      (c.p1.x - c.p0.x) * (c.p3.y - c.p2.y) - (c.p1.y - c.p0.y) * (c.p3.x - c.p2.x) = 0 := by
    generalize c.p1.x - c.p0.x = a
    generalize c.p1.y - c.p0.y = b
    generalize c.p3.x - c.p2.x = a'
    generalize c.p3.y - c.p2.y = b'
    constructor
    · intro h
      field_simp at h
      nlinarith
    · intro h
      field_simp
      linear_combination 900 * h
  simp only [ne_eq] at key
  rw [e] at key
  rw [ne_eq, ← key]
  split
  · next h => simp [h]
  · next h => simp [h]

/-- One end of a scaled curve: `p` is the end point, `e` the direction there (the control point is `p + k e`), `o` the centre. -/
theorem scaled_end {p o q m : Point ℝ} {ex ey : ℝ} {k d s : ℝ} (hs : 0 < s) (hss : s ^ 2 = (3 * ex) ^ 2 + (3 * ey) ^ 2)
    (hq : q = ⟨p.x + d * (-(3 * ey) / s), p.y + d * (3 * ex / s)⟩) (ho : (o.x - p.x) * ex + (o.y - p.y) * ey = 0)
    (hm : m = (lli4 q ⟨q.x + 3 * ex, q.y + 3 * ey⟩ o ⟨p.x + k * ex, p.y + k * ey⟩).2) :
    ((q.x - p.x) ^ 2 + (q.y - p.y) ^ 2 = d ^ 2 ∧ (q.x - p.x) * ex + (q.y - p.y) * ey = 0 ∧
      (0 < d → 0 < ex * (q.y - p.y) - ey * (q.x - p.x))) ∧
    (o ≠ p → ex * (m.y - q.y) - ey * (m.x - q.x) = 0 ∧ OnLine o ⟨p.x + k * ex, p.y + k * ey⟩ m) := by
  have hpos : 0 < ex ^ 2 + ey ^ 2 := by nlinarith [pow_pos hs 2]
  refine ⟨⟨?_, ?_, ?_⟩, fun hop => ?_⟩
  · subst hq
    simp only
    field_simp
    linear_combination -(d ^ 2) * hss
  · subst hq
    simp only
    field_simp
    ring
  · intro hd
    subst hq
    have e : ex * (p.y + d * (3 * ex / s) - p.y) - ey * (p.x + d * (-(3 * ey) / s) - p.x) = 3 * (ex ^ 2 + ey ^ 2) * d / s := by
      field_simp
      ring
    simp only
    rw [e]
    positivity
  · have hne : (lli4 q ⟨q.x + 3 * ex, q.y + 3 * ey⟩ o ⟨p.x + k * ex, p.y + k * ey⟩).1 = true := by
      rw [C60_found_iff]
      simp only
      intro h
      apply hop
      have h1 : ex * (p.y - o.y) - ey * (p.x - o.x) = 0 := by linear_combination h / 3
      have hx : (ex ^ 2 + ey ^ 2) * (o.x - p.x) = 0 := by linear_combination ex * ho + ey * h1
      have hy : (ex ^ 2 + ey ^ 2) * (o.y - p.y) = 0 := by linear_combination ey * ho - ex * h1
      have hx' := sub_eq_zero.1 ((mul_eq_zero.1 hx).resolve_left hpos.ne')
      have hy' := sub_eq_zero.1 ((mul_eq_zero.1 hy).resolve_left hpos.ne')
      cases o; cases p; simp_all
    have := C60_on_both q ⟨q.x + 3 * ex, q.y + 3 * ey⟩ o ⟨p.x + k * ex, p.y + k * ey⟩ m (by rw [hm, ← hne])
    obtain ⟨h1, h2⟩ := this
    refine ⟨?_, h2⟩
    simp only [OnLine] at h1
    linear_combination h1 / 3

/-- **C67.** A scaled curve: both ends have moved by the given distance, square to the curve and to its left for a positive distance. Let `o`
be the point where the normals at the two ends meet. Unless `o` is an end point, the direction of the curve at that end is kept, and its control
point has moved along the line to `o`. -/
theorem C67_scale (c : Curve ℝ) (d : ℝ) (h0 : c.p0 ≠ c.p1) (h3 : c.p3 ≠ c.p2) (x : Curve (XNum ℝ))
    (h : scale (finCurve c) (fin d) = some x) :
    ∃ (c' : Curve ℝ) (o : Point ℝ), x = finCurve c' ∧
      ((o.x - c.p0.x) * (c.p1.x - c.p0.x) + (o.y - c.p0.y) * (c.p1.y - c.p0.y) = 0 ∧
        (o.x - c.p3.x) * (c.p3.x - c.p2.x) + (o.y - c.p3.y) * (c.p3.y - c.p2.y) = 0) ∧
      ((c'.p0.x - c.p0.x) ^ 2 + (c'.p0.y - c.p0.y) ^ 2 = d ^ 2 ∧
        (c'.p0.x - c.p0.x) * (c.p1.x - c.p0.x) + (c'.p0.y - c.p0.y) * (c.p1.y - c.p0.y) = 0 ∧
        (0 < d → 0 < (c.p1.x - c.p0.x) * (c'.p0.y - c.p0.y) - (c.p1.y - c.p0.y) * (c'.p0.x - c.p0.x))) ∧
      ((c'.p3.x - c.p3.x) ^ 2 + (c'.p3.y - c.p3.y) ^ 2 = d ^ 2 ∧
        (c'.p3.x - c.p3.x) * (c.p3.x - c.p2.x) + (c'.p3.y - c.p3.y) * (c.p3.y - c.p2.y) = 0 ∧
        (0 < d → 0 < (c.p3.x - c.p2.x) * (c'.p3.y - c.p3.y) - (c.p3.y - c.p2.y) * (c'.p3.x - c.p3.x))) ∧
      (o ≠ c.p0 → (c.p1.x - c.p0.x) * (c'.p1.y - c'.p0.y) - (c.p1.y - c.p0.y) * (c'.p1.x - c'.p0.x) = 0 ∧ OnLine o c.p1 c'.p1) ∧
      (o ≠ c.p3 → (c.p3.x - c.p2.x) * (c'.p2.y - c'.p3.y) - (c.p3.y - c.p2.y) * (c'.p2.x - c'.p3.x) = 0 ∧ OnLine o c.p2 c'.p2) := by
  obtain ⟨q, hq, hqq, e0⟩ := normal_of (speed_start h0)
  obtain ⟨r, hr, hrr, e1⟩ := normal_of (speed_end h3)
  rw [derivative_zero] at e0 hqq
  rw [derivative_one] at e1 hrr
  rw [scale_fin h0 h3, scale_real h0 h3] at h
  simp only [e0, e1] at h hqq hrr
  split at h
  · next hf =>
    simp only [Option.map_some, Option.some.injEq] at h
    generalize hl : lli4 (⟨c.p0.x + -(3 * (c.p1.y - c.p0.y)) / q * 10, c.p0.y + 3 * (c.p1.x - c.p0.x) / q * 10⟩ : Point ℝ) c.p0
      ⟨c.p3.x + -(3 * (c.p3.y - c.p2.y)) / r * 10, c.p3.y + 3 * (c.p3.x - c.p2.x) / r * 10⟩ c.p3 = l at h hf
    obtain ⟨b, o⟩ := l
    simp only at hf
    subst hf
    obtain ⟨o1, o2⟩ := C60_on_both _ _ _ _ _ hl
    simp only [OnLine] at o1 o2
    have ho0 : (o.x - c.p0.x) * (c.p1.x - c.p0.x) + (o.y - c.p0.y) * (c.p1.y - c.p0.y) = 0 := by
      field_simp at o1
      nlinarith
    have ho3 : (o.x - c.p3.x) * (c.p3.x - c.p2.x) + (o.y - c.p3.y) * (c.p3.y - c.p2.y) = 0 := by
      field_simp at o2
      nlinarith
    refine ⟨_, o, h.symm, ⟨ho0, ho3⟩, ?_⟩
    have s0 := scaled_end (p := c.p0) (o := o) (k := 1) (d := d) hq hqq rfl ho0 rfl
    have s3 := scaled_end (p := c.p3) (o := o) (k := -1) (d := d) hr hrr rfl ho3 rfl
    have k0 : (⟨c.p0.x + 1 * (c.p1.x - c.p0.x), c.p0.y + 1 * (c.p1.y - c.p0.y)⟩ : Point ℝ) = c.p1 := by
      cases hh : c.p1
      congr 1 <;> ring
    have k3 : (⟨c.p3.x + -1 * (c.p3.x - c.p2.x), c.p3.y + -1 * (c.p3.y - c.p2.y)⟩ : Point ℝ) = c.p2 := by
      cases hh : c.p2
      congr 1 <;> ring
    rw [k0] at s0
    rw [k3] at s3
    exact ⟨s0.1, s3.1, s0.2, s3.2⟩
  · simp at h

/-- **C67.** When the normals meet in an end point of the curve, the control point there becomes the origin of the plane, wherever the curve is. -/
theorem C67_centre_false : ∃ (c c' : Curve ℝ), c.p0 ≠ c.p1 ∧ c.p3 ≠ c.p2 ∧ scale (finCurve c) (fin 1) = some (finCurve c') ∧
    c'.p1 = ⟨0, 0⟩ ∧ (c.p1.x - c.p0.x) * (c'.p1.y - c'.p0.y) - (c.p1.y - c.p0.y) * (c'.p1.x - c'.p0.x) ≠ 0 := by
  have h0 : (⟨10, 0⟩ : Point ℝ) ≠ ⟨11, 1⟩ := by intro h; injection h with h; norm_num at h
  have h3 : (⟨12, 0⟩ : Point ℝ) ≠ ⟨12, 1⟩ := by intro h; injection h with _ h; norm_num at h
  let c : Curve ℝ := ⟨⟨10, 0⟩, ⟨11, 1⟩, ⟨12, 1⟩, ⟨12, 0⟩⟩
  obtain ⟨q, hq, hqq, e0⟩ := normal_of (c := c) (speed_start h0)
  obtain ⟨r, hr, hrr, e1⟩ := normal_of (c := c) (speed_end h3)
  have d0 : derivative c 0 = ⟨3, 3⟩ := by rw [derivative_zero]; simp only [c]; norm_num
  have d1 : derivative c 1 = ⟨0, -3⟩ := by rw [derivative_one]; simp only [c]; norm_num
  rw [d0] at e0 hqq
  rw [d1] at e1
  simp only at e0 e1 hqq
  have hc : lli4 (⟨c.p0.x + -3 / q * 10, c.p0.y + 3 / q * 10⟩ : Point ℝ) c.p0 ⟨c.p3.x + - -3 / r * 10, c.p3.y + 0 / r * 10⟩ c.p3 =
      (true, ⟨10, 0⟩) := by
    rw [lli4_field]
    have hd : (c.p0.x + -3 / q * 10 - c.p0.x) * (c.p3.y + 0 / r * 10 - c.p3.y) -
        (c.p0.y + 3 / q * 10 - c.p0.y) * (c.p3.x + - -3 / r * 10 - c.p3.x) = -(30 / q) * (30 / r) := by
      field_simp
      ring
    have hne : -(30 / q) * (30 / r) ≠ 0 := by
      have : 0 < (30 / q) * (30 / r) := by positivity
      nlinarith
    simp only [hd, if_neg hne]
    simp only [c]
    congr 2
    · field_simp
      ring
    · field_simp
      ring
  have hs := scale_real (c := c) h0 h3 1
  simp only [e0, e1, hc, if_true] at hs
  have hm : (lli4 (⟨c.p0.x + 1 * (-3 / q), c.p0.y + 1 * (3 / q)⟩ : Point ℝ)
      ⟨c.p0.x + 1 * (-3 / q) + 3 * (c.p1.x - c.p0.x), c.p0.y + 1 * (3 / q) + 3 * (c.p1.y - c.p0.y)⟩ ⟨10, 0⟩ c.p1).2 = ⟨0, 0⟩ := by
    rw [lli4_field]
    simp only [c]
    rw [if_pos (by ring)]
  rw [hm] at hs
  refine ⟨c, _, h0, h3, by rw [scale_fin h0 h3, hs]; rfl, rfl, ?_⟩
  simp only [c]
  intro h
  have h' : 10 * q = 6 := by
    field_simp at h
    linarith
  nlinarith

/-- **C67.** Offsetting gives the scaled simple pieces in order; if a piece cannot be scaled, it and all later ones are missing. -/
theorem C67_offset {F : Type u} [Trig F] (c : Curve F) (d : F) :
    List.Forall₂ (fun s c' => scale s.curve d = some c') ((reduce (normalize c)).take (offset c d).length) (offset c d) ∧
      ((offset c d).length = (reduce (normalize c)).length ∨
        ∃ s, (reduce (normalize c))[(offset c d).length]? = some s ∧ scale s.curve d = none) := by
  unfold offset
  generalize reduce (normalize c) = l
  induction l with
  | nil => exact ⟨.nil, .inl rfl⟩
  | cons s l ih =>
    rw [scalePieces]
    cases h : scale s.curve d with
    | none => exact ⟨.nil, .inr ⟨s, rfl, h⟩⟩
    | some c' =>
      refine ⟨.cons h ih.1, ?_⟩
      rcases ih.2 with e | ⟨t, e1, e2⟩
      · exact .inl (by simp [e])
      · exact .inr ⟨t, by simpa using e1, e2⟩

/-- **C67.** A straight curve has no offset at all: its normals are parallel. -/
theorem C67_straight_false (p v : Point ℝ) (hv : 0 < v.x ^ 2 + v.y ^ 2) (d : ℝ) : offset (finCurve (straight p v)) (fin d) = [] := by
  have h0 : (straight p v).p0 ≠ (straight p v).p1 := by
    intro h
    simp only [straight] at h
    have hx := congrArg Point.x h
    have hy := congrArg Point.y h
    simp only at hx hy
    have : v.x = 0 := by linarith
    have : v.y = 0 := by linarith
    simp_all
  have h3 : (straight p v).p3 ≠ (straight p v).p2 := by
    intro h
    simp only [straight] at h
    have hx := congrArg Point.x h
    have hy := congrArg Point.y h
    simp only at hx hy
    have : v.x = 0 := by linarith
    have : v.y = 0 := by linarith
    simp_all
  rw [offset, normalize_apart_fin h0 h3, reduce_straight p v hv, scalePieces]
  have e := (C67_possible (straight p v) d h0 h3).not
  have : scale (finSection ⟨straight p v, 0, 1⟩).curve (fin d) = none := by
    rw [← Option.not_isSome_iff_eq_none]
    refine e.2 ?_
    simp only [straight]
    ring_nf
    simp
  rw [this]

/-- Not vacuous: a quarter turn can be scaled. -/
example : (scale (finCurve (⟨⟨1, 0⟩, ⟨1, 1 / 2⟩, ⟨1 / 2, 1⟩, ⟨0, 1⟩⟩ : Curve ℝ)) (fin 3)).isSome :=
  (C67_possible ⟨⟨1, 0⟩, ⟨1, 1 / 2⟩, ⟨1 / 2, 1⟩, ⟨0, 1⟩⟩ 3 (by intro h; injection h with _ h; norm_num at h)
    (by intro h; injection h with h; norm_num at h)).2 (by norm_num)

/-! ## C67 Control points on the ends -/

/-- The point of a curve at a parameter, as a point. -/
noncomputable def pointAt (c : Curve ℝ) (t : ℝ) : Point ℝ := ⟨(curveAt c t).1, (curveAt c t).2⟩

theorem coords_eq (p q : Point ℝ) : (decide (p.x = q.x) && decide (p.y = q.y)) = decide (p = q) := by
  cases p; cases q
  simp

theorem normalize_real (c : Curve ℝ) :
    normalize c =
      let c' := if c.p0 = c.p1 then { c with p1 := pointAt c (1 / 10) } else c
      if c'.p3 = c'.p2 then { c' with p2 := pointAt c' (99 / 100) } else c' := by
  have a1 : (Arith.lit 1 1 : ℝ) = 1 / 10 := by rw [Arith.lit_field]; norm_num
  have a2 : (Arith.one -. Arith.lit 1 2 : ℝ) = 99 / 100 := by
    rw [Arith.sub_field, Arith.one, Arith.lit_field, Arith.lit_field]; norm_num
  simp only [normalize, Arith.eq_field, coords_eq, decide_eq_true_eq, a1, a2, findPoint_field, pointAt]
  split <;> split <;> rfl

theorem normalize_fin (c : Curve ℝ) : normalize (finCurve c) = finCurve (normalize c) := by
  have b1 : (Arith.lit 1 1 : XNum ℝ) = fin (1 / 10) := by
    rw [lit_fin]; norm_num
  have b2 : (Arith.one -. Arith.lit 1 2 : XNum ℝ) = fin (99 / 100) := by
    rw [one_fin, lit_fin, sub_fin]; norm_num
  have f1 (c : Curve ℝ) : (if ((finCurve c).p0.x ==. (finCurve c).p1.x) && ((finCurve c).p0.y ==. (finCurve c).p1.y) then
      { finCurve c with p1 := findPoint (finCurve c) (Arith.lit 1 1) } else finCurve c) =
      finCurve (if c.p0 = c.p1 then { c with p1 := pointAt c (1 / 10) } else c) := by
    rw [b1, findPoint_fin]
    simp only [finCurve, finPoint, eq_fin, coords_eq, decide_eq_true_eq]
    split <;> rfl
  have f2 (c : Curve ℝ) : (if ((finCurve c).p3.x ==. (finCurve c).p2.x) && ((finCurve c).p3.y ==. (finCurve c).p2.y) then
      { finCurve c with p2 := findPoint (finCurve c) (Arith.one -. Arith.lit 1 2) } else finCurve c) =
      finCurve (if c.p3 = c.p2 then { c with p2 := pointAt c (99 / 100) } else c) := by
    rw [b2, findPoint_fin]
    simp only [finCurve, finPoint, eq_fin, coords_eq, decide_eq_true_eq]
    split <;> rfl
  rw [normalize_real, normalize]
  simp only [f1, f2]

/-- **C67.** Before a curve is offset, a first control point on the start is moved to the curve's point at 0.1; then a second control
point on the end is moved to the point at 0.99 of the curve with the first control point already moved. Nothing else changes. -/
theorem C67_doubled (c : Curve ℝ) :
    ∃ c' c'' : Curve ℝ, c'.p0 = c.p0 ∧ c'.p2 = c.p2 ∧ c'.p3 = c.p3 ∧
      (c.p0 = c.p1 → c'.p1 = pointAt c (1 / 10)) ∧ (c.p0 ≠ c.p1 → c'.p1 = c.p1) ∧
      c''.p0 = c.p0 ∧ c''.p1 = c'.p1 ∧ c''.p3 = c.p3 ∧
      (c.p3 = c.p2 → c''.p2 = pointAt c' (99 / 100)) ∧ (c.p3 ≠ c.p2 → c''.p2 = c.p2) ∧
      normalize (finCurve c) = finCurve c'' := by
  refine ⟨if c.p0 = c.p1 then { c with p1 := pointAt c (1 / 10) } else c, normalize c, ?_⟩
  rw [normalize_fin, normalize_real]
  by_cases h0 : c.p0 = c.p1 <;> by_cases h3 : c.p3 = c.p2 <;> simp [h0, h3]

/-- **C67.** The moved control point is off the start, as it is meant to be, unless the curve comes back to the start at 0.1. -/
theorem C67_doubled_apart (c : Curve ℝ) (h0 : c.p0 = c.p1) (h : pointAt c (1 / 10) ≠ c.p0) : (normalize c).p0 ≠ (normalize c).p1 := by
  rw [normalize_real]
  by_cases h3 : c.p3 = c.p2 <;> simp only [h0, h3, if_true, if_false] <;> exact fun e => h (e.symm.trans h0.symm)

/-- Not vacuous: a curve with both control points on the ends. -/
example : (normalize (⟨⟨0, 0⟩, ⟨0, 0⟩, ⟨10, 0⟩, ⟨10, 0⟩⟩ : Curve ℝ)).p0 ≠ (normalize (⟨⟨0, 0⟩, ⟨0, 0⟩, ⟨10, 0⟩, ⟨10, 0⟩⟩ : Curve ℝ)).p1 :=
  C67_doubled_apart _ rfl (by intro h; have := congrArg Point.x h; norm_num [pointAt, curveAt, bernstein] at this)

/-- **C67.** It can come back: the curve still has its first control point on the start, and no direction there. -/
theorem C67_doubled_false : ∃ c : Curve ℝ, c.p0 ≠ c.p2 ∧ c.p0 ≠ c.p3 ∧ (normalize c).p0 = (normalize c).p1 := by
  refine ⟨⟨⟨0, 0⟩, ⟨0, 0⟩, ⟨1, 0⟩, ⟨-27, 0⟩⟩, ?_, ?_, ?_⟩
  · intro h; have := congrArg Point.x h; norm_num at this
  · intro h; have := congrArg Point.x h; norm_num at this
  · rw [normalize_real]
    have h : ¬(⟨-27, 0⟩ : Point ℝ) = ⟨1, 0⟩ := by intro h; have := congrArg Point.x h; norm_num at this
    simp only [if_true, h, if_false, pointAt, curveAt, bernstein]
    norm_num

end Verif.Bezier
