import Verif.Props.Offset
import Verif.Spec.OffsetFunc

/-!
# C131: scaling a curve with distances that change along it
-/

namespace Verif.Bezier

open Verif Verif.Spec XNum

/-- **C131.** (a) A curve counts as clockwise exactly when its first control point is on the positive side of the line from start to end, or straight
behind the start. -/
theorem C131_clockwise (c : Curve ℝ) : isClockwise (finCurve c) = true ↔ BendsPositive c := by
  simp only [isClockwise, angle, finCurve, finPoint, Arith.zero, lit_zero_fin, sub_fin, mul_fin, add_fin, atan2_fin, lt_fin, decide_eq_true_eq,
    Int.cast_zero, BendsPositive]
  generalize (c.p3.x - c.p0.x) * (c.p1.y - c.p0.y) - (c.p3.y - c.p0.y) * (c.p1.x - c.p0.x) = y
  generalize (c.p3.x - c.p0.x) * (c.p1.x - c.p0.x) + (c.p3.y - c.p0.y) * (c.p1.y - c.p0.y) = x
  have h1 := Complex.arg_nonneg_iff (z := ⟨x, y⟩)
  have h2 := Complex.arg_eq_zero_iff (z := ⟨x, y⟩)
  simp only at h1 h2
  constructor
  · intro h
    have hy := h1.1 h.le
    rcases hy.lt_or_eq with h' | h'
    · exact .inl h'
    · refine .inr ⟨h'.symm, ?_⟩
      by_contra hx
      exact h.ne' (h2.2 ⟨not_lt.1 hx, h'.symm⟩)
  · rintro (h | ⟨h, h'⟩)
    · exact lt_of_le_of_ne (h1.2 h.le) fun e => h.ne' (h2.1 e.symm).2
    · exact lt_of_le_of_ne (h1.2 h.ge) fun e => absurd (h2.1 e.symm).1 (not_le.2 h')

/-- `p` moved away from `o` by `d`. -/
noncomputable def away (o p : Point ℝ) (d : ℝ) : Point ℝ :=
  ⟨p.x + d * ((p.x - o.x) / Real.sqrt ((p.x - o.x) ^ 2 + (p.y - o.y) ^ 2)), p.y + d * ((p.y - o.y) / Real.sqrt ((p.x - o.x) ^ 2 + (p.y - o.y) ^ 2))⟩

/-- The control points and the centre of a scaled curve. -/
theorem moved_control {o p : Point ℝ} (h : o ≠ p) (d : ℝ) :
    (⟨(finPoint p).x +. fin d *. (((finPoint p).x -. (finPoint o).x) /. Trig.sqrt (((finPoint p).x -. (finPoint o).x) *. ((finPoint p).x -. (finPoint o).x) +.
        ((finPoint p).y -. (finPoint o).y) *. ((finPoint p).y -. (finPoint o).y))),
      (finPoint p).y +. fin d *. (((finPoint p).y -. (finPoint o).y) /. Trig.sqrt (((finPoint p).x -. (finPoint o).x) *. ((finPoint p).x -. (finPoint o).x) +.
        ((finPoint p).y -. (finPoint o).y) *. ((finPoint p).y -. (finPoint o).y)))⟩ : Point (XNum ℝ)) =
    finPoint (away o p d) := by
  have hp := point_ne h
  have e : (p.x - o.x) * (p.x - o.x) + (p.y - o.y) * (p.y - o.y) = (p.x - o.x) ^ 2 + (p.y - o.y) ^ 2 := by ring
  simp only [away, finPoint, sub_fin, mul_fin, add_fin, sqrt_fin, e, not_lt.2 hp.le, if_false, div_fin_ne (Real.sqrt_pos.2 hp).ne']

theorem moved_away {o p : Point ℝ} (h : o ≠ p) (d : ℝ) :
    MovedAway o p d (away o p d) := by
  have hp := point_ne h
  have hm := Real.sqrt_pos.2 hp
  have hmm := Real.sq_sqrt hp.le
  have e : d * ((p.x - o.x) / Real.sqrt ((p.x - o.x) ^ 2 + (p.y - o.y) ^ 2)) * (p.x - o.x) +
      d * ((p.y - o.y) / Real.sqrt ((p.x - o.x) ^ 2 + (p.y - o.y) ^ 2)) * (p.y - o.y) = d * Real.sqrt ((p.x - o.x) ^ 2 + (p.y - o.y) ^ 2) := by
    generalize Real.sqrt ((p.x - o.x) ^ 2 + (p.y - o.y) ^ 2) = m at *
    field_simp
    linear_combination -d * hmm
  simp only [away, MovedAway, add_sub_cancel_left, e]
  generalize Real.sqrt ((p.x - o.x) ^ 2 + (p.y - o.y) ^ 2) = m at *
  refine ⟨?_, by ring, fun hd => mul_pos hd hm, fun hd => mul_neg_of_neg_of_pos hd hm⟩
  field_simp
  linear_combination -d ^ 2 * hmm

theorem moved_square {p : Point ℝ} {ex ey d s : ℝ} (hs : 0 < s) (hss : s ^ 2 = (3 * ex) ^ 2 + (3 * ey) ^ 2) :
    MovedSquare p ex ey d ⟨p.x + d * (-(3 * ey) / s), p.y + d * (3 * ex / s)⟩ := by
  have hpos : 0 < ex ^ 2 + ey ^ 2 := by nlinarith [pow_pos hs 2]
  have e : ex * (d * (3 * ex / s)) - ey * (d * (-(3 * ey) / s)) = 3 * (ex ^ 2 + ey ^ 2) / s * d := by
    field_simp
    ring
  simp only [MovedSquare, add_sub_cancel_left, e]
  have hk : 0 < 3 * (ex ^ 2 + ey ^ 2) / s := by positivity
  refine ⟨?_, ?_, fun hd => mul_pos hk hd, fun hd => mul_neg_of_pos_of_neg hk hd⟩
  · field_simp
    linear_combination -(d ^ 2) * hss
  · field_simp
    ring

/-- Where the normals meet. -/
theorem centre_of (c : Curve ℝ) (h0 : c.p0 ≠ c.p1) (h3 : c.p3 ≠ c.p2) {b : Bool} {o : Point ℝ}
    (hl : lli4 ⟨c.p0.x + (normal c 0).x * 10, c.p0.y + (normal c 0).y * 10⟩ c.p0 ⟨c.p3.x + (normal c 1).x * 10, c.p3.y + (normal c 1).y * 10⟩ c.p3 = (b, o)) :
    (b = true ↔ (c.p1.x - c.p0.x) * (c.p3.y - c.p2.y) - (c.p1.y - c.p0.y) * (c.p3.x - c.p2.x) ≠ 0) ∧ (b = true → IsCentre c o) := by
  obtain ⟨q, hq, -, e0⟩ := normal_of (speed_start h0)
  obtain ⟨r, hr, -, e1⟩ := normal_of (speed_end h3)
  constructor
  · have hp := C67_possible c 0 h0 h3
    rw [scale_fin h0 h3, scale_real h0 h3] at hp
    simp only [hl] at hp
    rw [← hp]
    cases b <;> simp
  · rintro rfl
    rw [e0, e1, derivative_zero, derivative_one] at hl
    obtain ⟨o1, o2⟩ := C60_on_both _ _ _ _ _ hl
    simp only [OnLine] at o1 o2
    constructor
    · field_simp at o1
      nlinarith
    · field_simp at o2
      nlinarith

/-- The scaling of a finite curve with finite distances, written out. -/
theorem scaleByFunc_fin {c : Curve ℝ} (h0 : c.p0 ≠ c.p1) (h3 : c.p3 ≠ c.p2) (f : XNum ℝ → XNum ℝ) :
    ∃ b o, lli4 ⟨c.p0.x + (normal c 0).x * 10, c.p0.y + (normal c 0).y * 10⟩ c.p0 ⟨c.p3.x + (normal c 1).x * 10, c.p3.y + (normal c 1).y * 10⟩ c.p3
        = (b, o) ∧
      scaleByFunc (finCurve c) f =
        let move (p : Point (XNum ℝ)) (d : XNum ℝ) : Point (XNum ℝ) :=
          let m := Trig.sqrt ((p.x -. (finPoint o).x) *. (p.x -. (finPoint o).x) +. (p.y -. (finPoint o).y) *. (p.y -. (finPoint o).y))
          ⟨p.x +. d *. ((p.x -. (finPoint o).x) /. m), p.y +. d *. ((p.y -. (finPoint o).y) /. m)⟩
        let turned (d : XNum ℝ) : XNum ℝ := if isClockwise (finCurve c) then d else -. d
        if b then
          some ⟨⟨(finPoint c.p0).x +. f (fin 0) *. (finPoint (normal c 0)).x, (finPoint c.p0).y +. f (fin 0) *. (finPoint (normal c 0)).y⟩,
            move (finPoint c.p1) (turned (f (fin (1 / 3)))), move (finPoint c.p2) (turned (f (fin (2 / 3)))),
            ⟨(finPoint c.p3).x +. f (fin 1) *. (finPoint (normal c 1)).x, (finPoint c.p3).y +. f (fin 1) *. (finPoint (normal c 1)).y⟩⟩
        else none := by
  have v0 := speed_start h0
  have v1 := speed_end h3
  have e10 : (Arith.lit 10 0 : XNum ℝ) = fin 10 := by simp
  have e3 : (Arith.lit 3 0 : XNum ℝ) = fin 3 := by simp
  have r10 : (Arith.lit 10 0 : ℝ) = 10 := by simp
  have z0 : (Arith.zero : XNum ℝ) = fin 0 := by simp [Arith.zero]
  have z1 : (Arith.one : XNum ℝ) = fin 1 := by simp [Arith.one]
  have c0 : curveAt c 0 = (c.p0.x, c.p0.y) := by simp [curveAt, bernstein]
  have c1 : curveAt c 1 = (c.p3.x, c.p3.y) := by simp [curveAt, bernstein]
  refine ⟨_, _, rfl, ?_⟩
  have o0 : offsetPoint c 0 10 = ⟨c.p0.x + (normal c 0).x * 10, c.p0.y + (normal c 0).y * 10⟩ := by
    simp only [offsetPoint, normalize_apart h0 h3, findPoint_field, c0, Arith.add_field, Arith.mul_field]
  have o1 : offsetPoint c 1 10 = ⟨c.p3.x + (normal c 1).x * 10, c.p3.y + (normal c 1).y * 10⟩ := by
    simp only [offsetPoint, normalize_apart h0 h3, findPoint_field, c1, Arith.add_field, Arith.mul_field]
  have t0 : (fin 0 +. fin 1 : XNum ℝ) /. fin 3 = fin (1 / 3) := by
    rw [add_fin, div_fin_ne (by norm_num)]
    norm_num
  have t1 : (fin 1 +. fin 1 : XNum ℝ) /. fin 3 = fin (2 / 3) := by
    rw [add_fin, div_fin_ne (by norm_num)]
    norm_num
  unfold scaleByFunc
  simp only [e10, e3, z0, z1, offsetPoint_fin h0 h3 _ _ v0, offsetPoint_fin h0 h3 _ _ v1, findPoint_fin, normal_fin c _ v0, normal_fin c _ v1, lli4_fin,
    o0, o1, findPoint_field, c0, c1, t0, t1]
  rfl

/-- **C131.** (b) Scaling is possible exactly when the end directions are not parallel, whatever the distances are. -/
theorem C131_possible (c : Curve ℝ) (f : XNum ℝ → XNum ℝ) (h0 : c.p0 ≠ c.p1) (h3 : c.p3 ≠ c.p2) :
    (scaleByFunc (finCurve c) f).isSome ↔ (c.p1.x - c.p0.x) * (c.p3.y - c.p2.y) - (c.p1.y - c.p0.y) * (c.p3.x - c.p2.x) ≠ 0 := by
  obtain ⟨b, o, hl, e⟩ := scaleByFunc_fin h0 h3 f
  rw [← (centre_of c h0 h3 hl).1, e]
  cases b <;> simp

/-- **C131.** (c) The ends are moved square to the curve by the distances at 0 and 1, to the left for positive distances. Let `o` be the point where
the normals at the ends meet. The control points are not `o`, and they are moved along their lines from `o` by the distances at 1/3 and 2/3: away
from `o` for a positive distance if the curve bends to the positive side, and towards `o` otherwise. -/
theorem C131_scaled (c : Curve ℝ) (f : XNum ℝ → XNum ℝ) (g : ℝ → ℝ) (hf : ∀ t, f (fin t) = fin (g t)) (h0 : c.p0 ≠ c.p1) (h3 : c.p3 ≠ c.p2)
    (x : Curve (XNum ℝ)) (h : scaleByFunc (finCurve c) f = some x) :
    ∃ (o : Point ℝ) (c' : Curve ℝ), IsCentre c o ∧ o ≠ c.p1 ∧ o ≠ c.p2 ∧ x = finCurve c' ∧
      MovedSquare c.p0 (c.p1.x - c.p0.x) (c.p1.y - c.p0.y) (g 0) c'.p0 ∧ MovedSquare c.p3 (c.p3.x - c.p2.x) (c.p3.y - c.p2.y) (g 1) c'.p3 ∧
      ∀ s : ℝ, (BendsPositive c → s = 1) → (¬ BendsPositive c → s = -1) →
        MovedAway o c.p1 (s * g (1 / 3)) c'.p1 ∧ MovedAway o c.p2 (s * g (2 / 3)) c'.p2 := by
  obtain ⟨b, o, hl, e⟩ := scaleByFunc_fin h0 h3 f
  rw [e] at h
  cases hb : b with
  | false => rw [hb] at h; simp at h
  | true =>
    obtain ⟨q, hq, hqq, n0⟩ := normal_of (speed_start h0)
    obtain ⟨r, hr, hrr, n1⟩ := normal_of (speed_end h3)
    rw [derivative_zero] at n0 hqq
    rw [derivative_one] at n1 hrr
    simp only [hb, if_true, Option.some.injEq, hf] at h
    subst h
    have turned : ∀ (s d : ℝ), (BendsPositive c → s = 1) → (¬ BendsPositive c → s = -1) →
        (if isClockwise (finCurve c) = true then (fin d : XNum ℝ) else -. fin d) = fin (s * d) := by
      intro s d p1 p2
      by_cases hc : BendsPositive c
      · rw [if_pos ((C131_clockwise c).2 hc), p1 hc, one_mul]
      · rw [if_neg fun h => hc ((C131_clockwise c).1 h), p2 hc, neg_fin]
        congr 1
        ring
    have hc := (centre_of c h0 h3 hl).2 hb
    have ne1 : o ≠ c.p1 := by
      rintro rfl
      have h1 := hc.1
      have := point_ne h0
      nlinarith
    have ne2 : o ≠ c.p2 := by
      rintro rfl
      have h1 := hc.2
      have := point_ne h3
      nlinarith
    obtain ⟨s, s1, s2⟩ : ∃ s : ℝ, (BendsPositive c → s = 1) ∧ (¬ BendsPositive c → s = -1) := by
      by_cases hc : BendsPositive c
      · exact ⟨1, fun _ => rfl, fun h => absurd hc h⟩
      · exact ⟨-1, fun h => absurd h hc, fun _ => rfl⟩
    refine ⟨o, ⟨⟨c.p0.x + g 0 * (-(3 * (c.p1.y - c.p0.y)) / q), c.p0.y + g 0 * (3 * (c.p1.x - c.p0.x) / q)⟩, away o c.p1 (s * g (1 / 3)), away o c.p2 (s * g (2 / 3)),
      ⟨c.p3.x + g 1 * (-(3 * (c.p3.y - c.p2.y)) / r), c.p3.y + g 1 * (3 * (c.p3.x - c.p2.x) / r)⟩⟩, hc, ne1, ne2, ?_, moved_square hq hqq, moved_square hr hrr, ?_⟩
    rotate_left
    · intro s' p1 p2
      have : s' = s := by
        by_cases hc : BendsPositive c
        · rw [p1 hc, s1 hc]
        · rw [p2 hc, s2 hc]
      subst this
      exact ⟨moved_away ne1 _, moved_away ne2 _⟩
    · simp only [turned s _ s1 s2]
      have k1 := moved_control ne1 (s * g (1 / 3))
      have k2 := moved_control ne2 (s * g (2 / 3))
      simp only [finCurve]
      rw [k1, k2]
      congr 1
      · rw [n0]
        simp only [finPoint, mul_fin, add_fin]
      · rw [n1]
        simp only [finPoint, mul_fin, add_fin]

/-- **C131.** (d) Unlike C67, the direction at the ends is not kept, though the code says so: the curve from (3, 0) over (3, 4) and (4, 3) to (0, 3)
starts upwards; with the distance 1 everywhere the result does not. -/
theorem C131_tangent_false : ∃ (c : Curve ℝ) (x : Curve (XNum ℝ)) (q0 q1 : Point ℝ), c.p0 ≠ c.p1 ∧ c.p3 ≠ c.p2 ∧
    scaleByFunc (finCurve c) (fun _ => fin 1) = some x ∧ x.p0 = finPoint q0 ∧ x.p1 = finPoint q1 ∧
    (c.p1.x - c.p0.x) * (q1.y - q0.y) - (c.p1.y - c.p0.y) * (q1.x - q0.x) ≠ 0 := by
  have h0 : (⟨3, 0⟩ : Point ℝ) ≠ ⟨3, 4⟩ := by intro h; injection h with _ h; norm_num at h
  have h3 : (⟨0, 3⟩ : Point ℝ) ≠ ⟨4, 3⟩ := by intro h; injection h with h; norm_num at h
  have hp := (C131_possible ⟨⟨3, 0⟩, ⟨3, 4⟩, ⟨4, 3⟩, ⟨0, 3⟩⟩ (fun _ => fin 1) h0 h3).2 (by norm_num)
  obtain ⟨x, hx⟩ := Option.isSome_iff_exists.1 hp
  obtain ⟨o, ⟨e0, q1, q2, e3⟩, ho, -, -, p0, ⟨m1, m2, m3, -⟩, -, hc⟩ := C131_scaled ⟨⟨3, 0⟩, ⟨3, 4⟩, ⟨4, 3⟩, ⟨0, 3⟩⟩ (fun _ => fin 1) (fun _ => 1) (fun _ => rfl) h0 h3 x hx
  obtain ⟨o1, o2⟩ := ho
  norm_num at o1 o2 m1 m2 m3
  have ex : o.x = 0 := o2
  have ey : o.y = 0 := o1
  have hb : ¬ BendsPositive ⟨⟨3, 0⟩, ⟨3, 4⟩, ⟨4, 3⟩, ⟨0, 3⟩⟩ := by
    unfold BendsPositive
    norm_num
  obtain ⟨n1, n2, -, n4⟩ := (hc (-1) (fun h => absurd h hb) fun _ => rfl).1
  norm_num [ex, ey] at n1 n2 n4
  refine ⟨_, x, e0, q1, h0, h3, hx, by rw [p0]; rfl, by rw [p0]; rfl, ?_⟩
  have hq : q1.x < 3 := by nlinarith
  have hq1 : (q1.x - 3) ^ 2 = (3 / 5) ^ 2 := by
    have : q1.y - 4 = (q1.x - 3) * 4 / 3 := by linarith
    rw [this] at n1
    linarith
  have hqx : q1.x = 12 / 5 := by
    rcases sq_eq_sq_iff_eq_or_eq_neg.1 hq1 with h | h <;> linarith
  have he : e0.x = 2 := by
    rw [m2] at m1
    have : (e0.x - 3) ^ 2 = 1 ^ 2 := by linarith
    rcases sq_eq_sq_iff_eq_or_eq_neg.1 this with h | h <;> linarith
  norm_num [hqx, he]

end Verif.Bezier
