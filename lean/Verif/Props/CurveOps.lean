import Verif.Lemmas.BezierComplete
import Verif.Lemmas.BezierStraight
import Verif.Props.Curve

/-!
# C59-C65: reducing, offsetting and intersecting cubic curves
-/

namespace Verif.Bezier

open Verif Verif.Spec XNum

universe u

/-! ## C59 Reducing a curve retraces it -/

/-- **C59.** Reducing a curve gives either nothing at all or pieces that, one after the other and without gap, run through the whole curve
from `0` to `1`, each labelled with its parameters (`Covers`). -/
theorem C59_reduce (c : Curve ℝ) : reduce (finCurve c) = [] ∨ Covers c 0 1 (reduce (finCurve c)) := reduce_covers c

/-- **C59.** The two nested loops of the second pass always come to an end: 204 rounds are enough. -/
theorem C59_terminates (c : Curve ℝ) (fuel : Nat) (hf : 204 ≤ fuel) : reduceFuel fuel (finCurve c) ≠ .outOfFuel := reduce_fuel c fuel hf

/-- A curve that starts with speed zero is not simple for the code: its normal is `0/0`. -/
theorem not_simple_of_flat {c : Curve ℝ} (h : c.p0 = c.p1) : isSimple (finCurve c) = false := by
  have hd : derivative (finCurve c) Arith.zero = finPoint ⟨0, 0⟩ := by
    rw [zero_fin, derivative_fin, derivative_field]
    simp [h]
  have hn : normal (finCurve c) Arith.zero = ⟨nan, nan⟩ := by
    simp only [normal, hd, finPoint, mul_fin, add_fin, neg_fin, sqrt_fin]
    simp [div_fin, infTimes]
  unfold isSimple
  simp only [hn]
  split
  · rfl
  · rfl

/-- Reducing gives nothing when the curve starts with speed zero, that is, when the first control point is the start point. -/
theorem C59_flat_start (c : Curve ℝ) (h : c.p0 = c.p1) : reduce (finCurve c) = [] := by
  obtain ⟨rest, h1, h2, h3, h4⟩ := cuts_spec (finCurve c)
  cases rest with
  | nil => cases h3
  | cons x rest =>
    obtain ⟨s, rfl, s0, s1⟩ := h4 x (by rw [h1]; simp)
    have hs : s ≠ 0 := by
      rw [h1] at h2
      obtain ⟨a, -⟩ := List.pairwise_cons.1 h2
      obtain ⟨a', b', e1, e2, hlt⟩ := a (fin s) (by simp)
      cases e1; cases e2
      exact hlt.ne'
    have key : ∀ (t : ℝ) (sec : Section ℝ), t ≠ 0 → sec.curve.p0 = sec.curve.p1 →
        (splitSection sec 0 t).1.curve.p0 = (splitSection sec 0 t).1.curve.p1 := by
      intro t sec ht hsec
      have e : (splitSection sec 0 t).1 = (splitAt sec t).1 := by
        unfold splitSection
        rw [splitOnce_field sec ht]
        simp [Arith.zero]
      rw [e]
      simp [splitAt, halves, lerp, hsec]
    have hp : pass2 300 (⟨(splitSection (⟨finCurve c, Arith.zero, Arith.zero⟩ : Section (XNum ℝ)) (fin 0) (fin s)).1.curve,
        fin 0, fin s⟩ : Section (XNum ℝ)) = .abort := by
      have e0 : (⟨finCurve c, Arith.zero, Arith.zero⟩ : Section (XNum ℝ)) = finSection ⟨c, 0, 0⟩ := by simp [finSection, zero_fin]
      rw [e0, splitSection_fin _ _ (zero_ne_one' ℝ)]
      set p : Section ℝ := ⟨(splitSection ⟨c, 0, 0⟩ 0 s).1.curve, 0, s⟩ with hpdef
      have ep : (⟨(finSection (splitSection ⟨c, 0, 0⟩ 0 s).1).curve, fin 0, fin s⟩ : Section (XNum ℝ)) = finSection p := rfl
      have hpp : p.curve.p0 = p.curve.p1 := key s ⟨c, 0, 0⟩ hs h
      show pass2 300 (⟨(finSection (splitSection ⟨c, 0, 0⟩ 0 s).1).curve, fin 0, fin s⟩ : Section (XNum ℝ)) = .abort
      rw [ep]
      unfold pass2 pass2Loop
      simp only [zero_fin, one_fin, reduceStep_fin, add_fin, sub_fin, le_fin, abs_fin, lt_fin, zero_add]
      have hsm : (1 / 100 : ℝ) ≤ 1 + 1 / 100 := by norm_num
      have hns : isSimple (splitSection (finSection p) (fin 0) (fin (1 / 100))).1.curve = false := by
        rw [splitSection_fin _ _ (zero_ne_one' ℝ)]
        exact not_simple_of_flat (key (1 / 100) p (by norm_num) hpp)
      have hab : |(0 : ℝ) - (1 / 100 - 1 / 100)| < 1 / 100 := by norm_num
      simp only [hsm, hns, hab, decide_true, if_true, Bool.false_eq_true, if_false]
    unfold reduce reduceFuel
    rw [h1]
    simp only [pass1, pass2All]
    rw [hp]

/-- **C59.** A straight curve run through at constant speed is one piece. -/
theorem C59_straight (p v : Point ℝ) (hv : 0 < v.x ^ 2 + v.y ^ 2) :
    reduce (finCurve (straight p v)) = [finSection ⟨straight p v, 0, 1⟩] := reduce_straight p v hv

/-- Non-vacuity: the curve has pieces to cover, and the pieces of the first pass are more than one. -/
example : Covers ⟨⟨0, 0⟩, ⟨1, 1⟩, ⟨2, 2⟩, ⟨3, 3⟩⟩ 0 1
    [finSection ⟨⟨⟨0, 0⟩, ⟨1 / 2, 1 / 2⟩, ⟨1, 1⟩, ⟨3 / 2, 3 / 2⟩⟩, 0, 1 / 2⟩,
     finSection ⟨⟨⟨3 / 2, 3 / 2⟩, ⟨2, 2⟩, ⟨5 / 2, 5 / 2⟩, ⟨3, 3⟩⟩, 1 / 2, 1⟩] := by
  refine .cons ⟨⟨⟨0, 0⟩, ⟨1 / 2, 1 / 2⟩, ⟨1, 1⟩, ⟨3 / 2, 3 / 2⟩⟩, 0, 1 / 2⟩ 1 _ (by norm_num) ?_ ?_
  · intro u; simp only [curveAt, bernstein]; refine Prod.ext ?_ ?_ <;> simp only <;> ring
  · refine .cons ⟨⟨⟨3 / 2, 3 / 2⟩, ⟨2, 2⟩, ⟨5 / 2, 5 / 2⟩, ⟨3, 3⟩⟩, 1 / 2, 1⟩ 1 _ (by norm_num) ?_ (.nil 1)
    intro u; simp only [curveAt, bernstein]; refine Prod.ext ?_ ?_ <;> simp only <;> ring

/-! ## C60 The intersection of two lines is on both -/

section Lines

variable {K : Type u} [Field K] [LinearOrder K] [IsStrictOrderedRing K]

/-- The point `q` is on the line through `a` and `b`. -/
def OnLine (a b q : Point K) : Prop := (b.x - a.x) * (q.y - a.y) = (b.y - a.y) * (q.x - a.x)

/-- **C60.** A reported intersection is on both lines. -/
theorem C60_on_both (p1 p2 p3 p4 q : Point K) (h : lli4 p1 p2 p3 p4 = (true, q)) : OnLine p1 p2 q ∧ OnLine p3 p4 q := by
  rw [lli4_field] at h
  simp only at h
  split at h
  · cases h
  · next hd =>
    injection h with _ h
    subst h
    constructor
    · simp only [OnLine]
      rw [div_sub' hd, div_sub' hd, mul_div_assoc', mul_div_assoc']
      congr 1
      ring
    · simp only [OnLine]
      rw [div_sub' hd, div_sub' hd, mul_div_assoc', mul_div_assoc']
      congr 1
      ring

/-- **C60.** An intersection is reported exactly when the lines are not parallel, and then every common point is the reported one. -/
theorem C60_found_iff (p1 p2 p3 p4 : Point K) :
    (lli4 p1 p2 p3 p4).1 = true ↔ (p2.x - p1.x) * (p4.y - p3.y) ≠ (p2.y - p1.y) * (p4.x - p3.x) := by
  rw [lli4_field]
  simp only
  split
  · next h => simp only [Bool.false_eq_true, false_iff, not_not]; linear_combination h
  · next h => simp only [true_iff]; intro hh; apply h; linear_combination hh

theorem C60_unique (p1 p2 p3 p4 q r : Point K) (h : lli4 p1 p2 p3 p4 = (true, q)) (h1 : OnLine p1 p2 r) (h2 : OnLine p3 p4 r) :
    r = q := by
  obtain ⟨g1, g2⟩ := C60_on_both p1 p2 p3 p4 q h
  have hd := (C60_found_iff p1 p2 p3 p4).1 (by rw [h])
  have hD : (p2.x - p1.x) * (p4.y - p3.y) - (p2.y - p1.y) * (p4.x - p3.x) ≠ 0 := sub_ne_zero.2 hd
  simp only [OnLine] at g1 g2 h1 h2
  have ex : ((p2.x - p1.x) * (p4.y - p3.y) - (p2.y - p1.y) * (p4.x - p3.x)) * (r.x - q.x) = 0 := by
    linear_combination (p4.x - p3.x) * (h1 - g1) - (p2.x - p1.x) * (h2 - g2)
  have ey : ((p2.x - p1.x) * (p4.y - p3.y) - (p2.y - p1.y) * (p4.x - p3.x)) * (r.y - q.y) = 0 := by
    linear_combination (p4.y - p3.y) * (h1 - g1) - (p2.y - p1.y) * (h2 - g2)
  have ex' := (mul_eq_zero.1 ex).resolve_left hD
  have ey' := (mul_eq_zero.1 ey).resolve_left hD
  cases r; cases q
  simp only at ex' ey'
  rw [sub_eq_zero.1 ex', sub_eq_zero.1 ey']

example : lli4 (⟨0, 0⟩ : Point ℚ) ⟨2, 2⟩ ⟨0, 2⟩ ⟨2, 0⟩ = (true, ⟨1, 1⟩) ∧ (lli4 (⟨0, 0⟩ : Point ℚ) ⟨2, 2⟩ ⟨0, 1⟩ ⟨2, 3⟩).1 = false := by
  decide +kernel

end Lines

/-! ## C61 An offset point is at the requested distance, square to the curve -/

/-- **C61.** For a curve whose control points are not on its ends and that has nonzero speed at `t`, the offset point is at distance
`|d|` from the curve's point, in the direction square to the curve, to the left for positive `d` (turning from x towards y). -/
theorem C61_offset_point (c : Curve ℝ) (t d : ℝ) (h0 : c.p0 ≠ c.p1) (h3 : c.p3 ≠ c.p2)
    (hv : (derivative c t).x ^ 2 + (derivative c t).y ^ 2 ≠ 0) :
    let q := offsetPoint c t d
    (q.x - (curveAt c t).1) ^ 2 + (q.y - (curveAt c t).2) ^ 2 = d ^ 2 ∧
      (q.x - (curveAt c t).1) * (derivative c t).x + (q.y - (curveAt c t).2) * (derivative c t).y = 0 ∧
      (0 < d → 0 < (derivative c t).x * (q.y - (curveAt c t).2) - (derivative c t).y * (q.x - (curveAt c t).1)) := by
  have hn : normalize c = c := by
    have e0 : (decide (c.p0.x = c.p1.x) && decide (c.p0.y = c.p1.y)) = false := by
      rw [Bool.eq_false_iff]
      intro h
      rw [Bool.and_eq_true, decide_eq_true_eq, decide_eq_true_eq] at h
      apply h0
      cases hh : c.p0; cases hh' : c.p1
      rw [hh, hh'] at h
      simp only at h
      rw [h.1, h.2]
    have e3 : (decide (c.p3.x = c.p2.x) && decide (c.p3.y = c.p2.y)) = false := by
      rw [Bool.eq_false_iff]
      intro h
      rw [Bool.and_eq_true, decide_eq_true_eq, decide_eq_true_eq] at h
      apply h3
      cases hh : c.p3; cases hh' : c.p2
      rw [hh, hh'] at h
      simp only at h
      rw [h.1, h.2]
    simp only [normalize, Arith.eq_field, e0, e3, Bool.false_eq_true, if_false]
  have hpos : 0 < (derivative c t).x ^ 2 + (derivative c t).y ^ 2 := lt_of_le_of_ne (by positivity) (Ne.symm hv)
  simp only [offsetPoint, hn, findPoint_field, normal, Arith.add_field, Arith.mul_field, Arith.div_field, Arith.neg_field, Trig.sqrt_real]
  generalize (derivative c t).x = dx at *
  generalize (derivative c t).y = dy at *
  have hs : Real.sqrt (dx * dx + dy * dy) ^ 2 = dx ^ 2 + dy ^ 2 := by
    rw [Real.sq_sqrt (by nlinarith)]; ring
  have hq : 0 < Real.sqrt (dx * dx + dy * dy) := Real.sqrt_pos.2 (by nlinarith)
  generalize Real.sqrt (dx * dx + dy * dy) = q at *
  refine ⟨?_, ?_, ?_⟩
  · field_simp
    linear_combination -(d ^ 2) * hs
  · field_simp
    ring
  · intro hd
    have e : dx * ((curveAt c t).2 + dx / q * d - (curveAt c t).2) - dy * ((curveAt c t).1 + -dy / q * d - (curveAt c t).1) =
        (dx ^ 2 + dy ^ 2) * d / q := by field_simp; ring
    rw [e]
    positivity

/-- Non-vacuity: a straight curve along the x axis; the offset point is square above it. -/
example : (offsetPoint (⟨⟨0, 0⟩, ⟨1, 0⟩, ⟨2, 0⟩, ⟨3, 0⟩⟩ : Curve ℝ) (1 / 2) 5).y ^ 2 = 25 := by
  have hx : (derivative (⟨⟨0, 0⟩, ⟨1, 0⟩, ⟨2, 0⟩, ⟨3, 0⟩⟩ : Curve ℝ) (1 / 2)).x = 3 := by rw [derivative_field]; norm_num
  have hy : (derivative (⟨⟨0, 0⟩, ⟨1, 0⟩, ⟨2, 0⟩, ⟨3, 0⟩⟩ : Curve ℝ) (1 / 2)).y = 0 := by rw [derivative_field]; norm_num
  have h := C61_offset_point ⟨⟨0, 0⟩, ⟨1, 0⟩, ⟨2, 0⟩, ⟨3, 0⟩⟩ (1 / 2) 5 (by intro h; injection h with h; norm_num at h)
    (by intro h; injection h with h; norm_num at h) (by rw [hx, hy]; norm_num)
  have e2 : (curveAt (⟨⟨0, 0⟩, ⟨1, 0⟩, ⟨2, 0⟩, ⟨3, 0⟩⟩ : Curve ℝ) (1 / 2)).2 = 0 := by simp [curveAt, bernstein]
  simp only [hx, hy, e2] at h
  obtain ⟨h1, h2, -⟩ := h
  nlinarith

/-! ## C62 Two boxes overlap exactly when they share inner points -/

/-- **C62.** Two boxes are said to overlap exactly when in both directions each begins before the other ends. -/
theorem C62_overlap (tl1 br1 tl2 br2 : Point ℝ) :
    boxesOverlap (finPoint tl1) (finPoint br1) (finPoint tl2) (finPoint br2) = true ↔
      (tl1.x < br2.x ∧ tl2.x < br1.x) ∧ tl1.y < br2.y ∧ tl2.y < br1.y := by
  rw [boxesOverlap_fin, abs_lt, abs_lt]
  constructor
  · rintro ⟨⟨h1, h2⟩, h3, h4⟩
    exact ⟨⟨by linarith, by linarith⟩, by linarith, by linarith⟩
  · rintro ⟨⟨h1, h2⟩, h3, h4⟩
    exact ⟨⟨by linarith, by linarith⟩, by linarith, by linarith⟩

/-- **C62.** For boxes of positive size: exactly when some point is strictly inside both. -/
theorem C62_inner_points (tl1 br1 tl2 br2 : Point ℝ) (hx1 : tl1.x < br1.x) (hy1 : tl1.y < br1.y) (hx2 : tl2.x < br2.x)
    (hy2 : tl2.y < br2.y) :
    boxesOverlap (finPoint tl1) (finPoint br1) (finPoint tl2) (finPoint br2) = true ↔
      ∃ x y, (tl1.x < x ∧ x < br1.x ∧ tl1.y < y ∧ y < br1.y) ∧ tl2.x < x ∧ x < br2.x ∧ tl2.y < y ∧ y < br2.y := by
  rw [C62_overlap]
  constructor
  · rintro ⟨⟨h1, h2⟩, h3, h4⟩
    obtain ⟨x, a, b⟩ := exists_between (max_lt (lt_min hx1 h1) (lt_min h2 hx2))
    obtain ⟨y, c, d⟩ := exists_between (max_lt (lt_min hy1 h3) (lt_min h4 hy2))
    rw [max_lt_iff] at a c
    rw [lt_min_iff] at b d
    exact ⟨x, y, ⟨a.1, b.1, c.1, d.1⟩, a.2, b.2, c.2, d.2⟩
  · rintro ⟨x, y, ⟨h1, h2, h3, h4⟩, h5, h6, h7, h8⟩
    exact ⟨⟨h1.trans h6, h5.trans h2⟩, h3.trans h8, h7.trans h4⟩

example : boxesOverlap (finPoint ⟨0, 0⟩) (finPoint ⟨2, 2⟩) (finPoint ⟨1, 1⟩) (finPoint (⟨3, 3⟩ : Point ℝ)) = true ∧
    ¬ boxesOverlap (finPoint ⟨0, 0⟩) (finPoint ⟨2, 2⟩) (finPoint ⟨2, 0⟩) (finPoint (⟨3, 3⟩ : Point ℝ)) = true := by
  constructor
  · rw [C62_overlap]; norm_num
  · rw [C62_overlap]; norm_num

/-! ## C63 A projection reports its distance and its parameter -/

/-- **C63**, the full statement: the projection returns a point of the curve together with its distance from the given point and its
parameter. -/
def C63_statement : Prop := ∀ (c : Curve ℝ) (p : Point ℝ),
  (project c p).2.1 = dist p (project c p).1 ∧ (project c p).1 = findPoint c (project c p).2.2

/-- **C63** is false: when the coarse search stops at an end, distance and parameter are returned in each other's place. -/
theorem C63_false : ¬ C63_statement := by
  intro h
  obtain ⟨h1, -⟩ := h ⟨⟨3, 0⟩, ⟨2, 0⟩, ⟨1, 0⟩, ⟨0, 0⟩⟩ ⟨0, 0⟩
  set c : Curve ℝ := ⟨⟨3, 0⟩, ⟨2, 0⟩, ⟨1, 0⟩, ⟨0, 0⟩⟩ with hc
  have hpt : ∀ t : ℝ, findPoint c t = ⟨3 - 3 * t, 0⟩ := by
    intro t
    rw [findPoint_field]
    simp only [hc, curveAt, bernstein]
    congr 1 <;> ring
  have hlut : ∀ k : Nat, k < 100 → (lut c 100)[k]? = some (⟨3 - 3 * ((k : ℝ) / 99), 0⟩ : Point ℝ) := by
    intro k hk
    simp [lut, hk, hpt]
  have hmem : ∀ q ∈ lut c 100, ∃ k : Nat, k < 100 ∧ q = (⟨3 - 3 * ((k : ℝ) / 99), 0⟩ : Point ℝ) := by
    intro q hq
    simp only [lut, List.mem_map, List.mem_range] at hq
    obtain ⟨k, hk, rfl⟩ := hq
    exact ⟨k, hk, by rw [hpt]; simp⟩
  have h99 : (⟨0, 0⟩ : Point ℝ) ∈ lut c 100 := by
    have := List.mem_of_getElem? (hlut 99 (by norm_num))
    norm_num at this
    exact this
  have dz : dist ⟨0, 0⟩ (⟨0, 0⟩ : Point ℝ) = 0 := by simp [dist]
  obtain ⟨q, g1, g2, g3⟩ := C25_nearest_origin_partial (lut c 100) ⟨0, 0⟩ (List.ne_nil_of_mem h99) (by
    intro q hq
    obtain ⟨k, hk, rfl⟩ := hmem q hq
    have hk' : (k : ℝ) ≤ 99 := by exact_mod_cast (by omega : k ≤ 99)
    have hk0 : (0 : ℝ) ≤ k := Nat.cast_nonneg k
    have : dist ⟨0, 0⟩ (⟨3 - 3 * ((k : ℝ) / 99), 0⟩ : Point ℝ) = |3 - 3 * ((k : ℝ) / 99)| := by
      simp [dist, Real.sqrt_sq_eq_abs, abs_sub_comm]
    rw [this, abs_lt]
    constructor <;> linarith)
  have gq : dist ⟨0, 0⟩ q = 0 := le_antisymm ((g3 _ h99).trans_eq dz) (Real.sqrt_nonneg _)
  have hidx : (closest (lut c 100) ⟨0, 0⟩).2 = 99 := by
    have hlt : (closest (lut c 100) ⟨0, 0⟩).2 < 100 := by
      by_contra hcon
      have hn : (lut c 100)[(closest (lut c 100) ⟨0, 0⟩).2]? = none := by
        rw [List.getElem?_eq_none_iff]
        have hl : (lut c 100).length = 100 := by simp [lut]
        rw [hl]
        omega
      rw [hn] at g1
      cases g1
    rw [hlut _ hlt] at g1
    injection g1 with g1
    rw [← g1] at gq
    set k := (closest (lut c 100) ⟨0, 0⟩).2
    have : dist ⟨0, 0⟩ (⟨3 - 3 * ((k : ℝ) / 99), 0⟩ : Point ℝ) = |3 - 3 * ((k : ℝ) / 99)| := by
      simp [dist, Real.sqrt_sq_eq_abs, abs_sub_comm]
    rw [this, abs_eq_zero] at gq
    have : (k : ℝ) = 99 := by linarith
    exact_mod_cast this
  have hp : project c ⟨0, 0⟩ = (⟨0, 0⟩, 1, 0) := by
    unfold project
    simp only [hidx, or_true, if_true, hlut 99 (by norm_num), Option.getD_some]
    rw [g2, gq]
    norm_num
  rw [hp, dz] at h1
  norm_num at h1

theorem projectLoop_spec (c : Curve ℝ) (p : Point ℝ) (stop step : ℝ) (fuel : Nat) (t m f : ℝ) :
    projectLoop c p stop step fuel t m f = (m, f) ∨
      ((projectLoop c p stop step fuel t m f).1 = dist p (findPoint c (projectLoop c p stop step fuel t m f).2) ∧
        (projectLoop c p stop step fuel t m f).1 < m) := by
  induction fuel generalizing t m f with
  | zero => exact .inl rfl
  | succ fuel ih =>
    unfold projectLoop
    simp only [Arith.lt_field, distance_real, Arith.add_field]
    by_cases h1 : t < stop
    · by_cases h2 : dist p (findPoint c t) < m
      · simp only [h1, h2, decide_true, if_true]
        right
        rcases ih (t + step) (dist p (findPoint c t)) t with h | ⟨h, h'⟩
        · rw [h]; exact ⟨rfl, h2⟩
        · exact ⟨h, h'.trans h2⟩
      · simp only [h1, h2, decide_true, decide_false, if_true, Bool.false_eq_true, if_false]
        exact ih _ _ _
    · exact .inl (by simp [h1])

/-- **C63**, what holds: when the coarse search does not stop at an end, the returned point is the curve's point at the returned
parameter, and the returned number is the distance of that point unless no sample was nearer than the coarse search's result plus one.
Missing: the ends, where the two numbers are exchanged. -/
theorem C63_inside_partial (c : Curve ℝ) (p : Point ℝ) (h0 : (closest (lut c 100) p).2 ≠ 0) (h1 : (closest (lut c 100) p).2 ≠ 99) :
    (project c p).1 = findPoint c (project c p).2.2 ∧
      ((project c p).2.1 = dist p (project c p).1 ∨ (project c p).2.1 = (closest (lut c 100) p).1 + 1) := by
  unfold project
  simp only [h0, h1, or_self, if_false, true_and]
  rcases projectLoop_spec c p (((Arith.lit (closest (lut c 100) p).2 0 : ℝ) +. Arith.one) /. Arith.lit 99 0 +. (Arith.lit 1 1 /. Arith.lit 99 0))
    ((Arith.lit 1 1 : ℝ) /. Arith.lit 99 0) 100 (((Arith.lit (closest (lut c 100) p).2 0 : ℝ) -. Arith.one) /. Arith.lit 99 0)
    ((closest (lut c 100) p).1 +. Arith.one) (((Arith.lit (closest (lut c 100) p).2 0 : ℝ) -. Arith.one) /. Arith.lit 99 0) with h | ⟨h, -⟩
  · right
    rw [h]
    simp [Arith.one]
  · exact .inl h

/-! ## C64 Reported crossings of two curves are crossings -/

/-- **C64.** Every reported pair of parameters is, up to the five decimals it is given with, a pair of parameters of points that are
closer than twice the threshold. -/
theorem C64_sound (c d : Curve ℝ) (hc : Bounded c) (hd : Bounded d) (θ : ℝ) (fuel : Nat) (l : List (XNum ℝ × XNum ℝ))
    (h : intersectsCurve (fin θ) fuel (finCurve c) (finCurve d) = some l) : ∀ v ∈ l, Close c d θ v :=
  sectionsIntersect_close hc hd θ fuel _ _ (reduce_mem c) (reduce_mem d) l h

/-- **C64.** For a positive threshold the search ends. -/
theorem C64_terminates (c d : Curve ℝ) (hc : Bounded c) (hd : Bounded d) (θ : ℝ) (hθ : 0 < θ) :
    ∃ n, ∀ fuel, n < fuel → ∃ l, intersectsCurve (fin θ) fuel (finCurve c) (finCurve d) = some l := by
  obtain ⟨n, hn⟩ := sectionsIntersect_terminates hc hd hθ
  exact ⟨n, fun fuel hf => hn fuel hf _ _ (reduce_mem c) (reduce_mem d)⟩

/-- **C64.** The same for crossings of a curve with itself. -/
theorem C64_self (c : Curve ℝ) (hc : Bounded c) (θ : ℝ) (fuel : Nat) (v : XNum ℝ × XNum ℝ)
    (h : intersectsSelf (fin θ) fuel (finCurve c) = some (some v)) : Close c c θ v := by
  unfold intersectsSelf at h
  obtain ⟨ys, e1, e2⟩ := Option.map_eq_some_iff.1 h
  have hv := List.mem_of_head? e2
  rw [List.mem_flatten] at hv
  obtain ⟨zs, hz, hvz⟩ := hv
  obtain ⟨i, -, he⟩ := mapM_mem _ _ _ e1 zs hz
  refine sectionsIntersect_close hc hc θ fuel _ _ ?_ ?_ zs he v hvz
  · intro x hx; exact reduce_mem c x (List.mem_of_mem_drop (List.mem_of_mem_take hx))
  · intro x hx; exact reduce_mem c x (List.mem_of_mem_drop hx)

/-- Non-vacuity: bounded curves and positive thresholds exist. -/
example : Bounded ⟨⟨0, 0⟩, ⟨1, 1⟩, ⟨2, 2⟩, ⟨3, 3⟩⟩ := by
  refine ⟨⟨?_, ?_, ?_, ?_⟩, ?_, ?_, ?_, ?_⟩ <;> norm_num [abs_of_nonneg]

/-! ## C65 Every crossing of two curves is reported -/

/-- **C65**, the full statement: if two curves meet, something is reported. -/
def C65_statement : Prop := ∀ (c d : Curve ℝ) (θ s t : ℝ) (fuel : Nat) (l : List (XNum ℝ × XNum ℝ)), Bounded c → Bounded d → 0 < θ →
  0 ≤ s → s ≤ 1 → 0 ≤ t → t ≤ 1 → curveAt c s = curveAt d t →
  intersectsCurve (fin θ) fuel (finCurve c) (finCurve d) = some l → l ≠ []

/-- **C65** is false: a curve whose first control point is its start point (a straight line drawn as a curve, say) is never reported to
cross anything. -/
theorem C65_false : ¬ C65_statement := by
  intro h
  have hb : ∀ x y : ℝ, |x| < 2 ^ 63 → |y| < 2 ^ 63 → Bounded ⟨⟨0, x⟩, ⟨0, x⟩, ⟨2, y⟩, ⟨2, y⟩⟩ := by
    intro x y hx hy
    refine ⟨⟨?_, ?_, ?_, ?_⟩, hx, hx, hy, hy⟩ <;> norm_num
  refine h ⟨⟨0, 0⟩, ⟨0, 0⟩, ⟨2, 2⟩, ⟨2, 2⟩⟩ ⟨⟨0, 2⟩, ⟨0, 2⟩, ⟨2, 0⟩, ⟨2, 0⟩⟩ 1 (1 / 2) (1 / 2) 1 [] (hb _ _ (by norm_num) (by norm_num))
    (hb _ _ (by norm_num) (by norm_num)) (by norm_num) (by norm_num) (by norm_num) (by norm_num) (by norm_num) ?_ ?_ rfl
  · simp only [curveAt, bernstein]; norm_num
  · unfold intersectsCurve
    rw [C59_flat_start _ rfl]
    rfl

/-- **C65**, what holds: if both curves can be reduced and the first is moving in both directions at the crossing, and the crossing is not
at a parameter reached by halving its piece, then the crossing is reported. Missing: curves for which reducing gives nothing, crossings
exactly at such parameters, and crossings where the curve runs along or turns back in one direction. -/
theorem C65_reported_partial (c d : Curve ℝ) (hc : Bounded c) (hd : Bounded d) (θ : ℝ) (fuel : Nat) (a b : ℝ) (a0 : 0 ≤ a) (a1 : a ≤ 1)
    (b0 : 0 ≤ b) (b1 : b ≤ 1) (hm : Moving c a) (he : curveAt c a = curveAt d b) (rc : reduce (finCurve c) ≠ [])
    (rd : reduce (finCurve d) ≠ []) (hn : ∀ s, finSection s ∈ reduce (finCurve c) → NotHalving s.t1 s.t2 a)
    (l : List (XNum ℝ × XNum ℝ)) (h : intersectsCurve (fin θ) fuel (finCurve c) (finCurve d) = some l) : Reported c d θ a b l :=
  intersectsCurve_reports hc hd θ fuel a0 a1 b0 b1 hm he rc rd hn l h

/-- Non-vacuity of the two conditions on the crossing. -/
example : Moving ⟨⟨0, 0⟩, ⟨1, 1⟩, ⟨2, 2⟩, ⟨3, 3⟩⟩ (1 / 3) ∧ NotHalving 0 1 (1 / 3) := by
  constructor
  · constructor <;> norm_num [bernstein']
  · intro n k h
    have h2 : (2 : ℝ) ^ n = 3 * k := by field_simp at h; linarith
    have h3 : 2 ^ n = 3 * k := by exact_mod_cast h2
    have h4 : 3 ∣ 2 ^ n := ⟨k, h3⟩
    have := (Nat.Prime.dvd_of_dvd_pow Nat.prime_three h4)
    omega

/-- Non-vacuity: two straight curves that cross at a third of each; the search ends and reports the crossing. -/
example : ∃ n, ∀ fuel, n < fuel → ∃ l, intersectsCurve (fin (1 / 2)) fuel (finCurve (straight ⟨0, 0⟩ ⟨1, 1⟩))
    (finCurve (straight ⟨0, 2⟩ ⟨1, -1⟩)) = some l ∧ Reported (straight ⟨0, 0⟩ ⟨1, 1⟩) (straight ⟨0, 2⟩ ⟨1, -1⟩) (1 / 2) (1 / 3) (1 / 3) l := by
  have hc : Bounded (straight ⟨0, 0⟩ ⟨1, 1⟩) := by
    refine ⟨⟨?_, ?_, ?_, ?_⟩, ?_, ?_, ?_, ?_⟩ <;> norm_num [straight, abs_of_nonneg]
  have hd : Bounded (straight ⟨0, 2⟩ ⟨1, -1⟩) := by
    refine ⟨⟨?_, ?_, ?_, ?_⟩, ?_, ?_, ?_, ?_⟩ <;> norm_num [straight, abs_of_nonneg, abs_of_neg]
  have rc := C59_straight ⟨0, 0⟩ ⟨1, 1⟩ (by norm_num)
  have rd := C59_straight ⟨0, 2⟩ ⟨1, -1⟩ (by norm_num)
  obtain ⟨n, hn⟩ := C64_terminates _ _ hc hd (1 / 2) (by norm_num)
  refine ⟨n, fun fuel hf => ?_⟩
  obtain ⟨l, hl⟩ := hn fuel hf
  refine ⟨l, hl, C65_reported_partial _ _ hc hd _ fuel _ _ (by norm_num) (by norm_num) (by norm_num) (by norm_num) ?_ ?_ (by rw [rc]; simp)
    (by rw [rd]; simp) ?_ l hl⟩
  · constructor <;> norm_num [bernstein', straight]
  · simp only [curveAt, bernstein, straight]; norm_num
  · intro s hs
    rw [rc, List.mem_singleton] at hs
    have e1 : s.t1 = 0 := fin.inj (congrArg Section.t1 hs)
    have e2 : s.t2 = 1 := fin.inj (congrArg Section.t2 hs)
    rw [e1, e2]
    intro n k h
    have h2 : (2 : ℝ) ^ n = 3 * k := by field_simp at h; linarith
    have h3 : 2 ^ n = 3 * k := by exact_mod_cast h2
    have := (Nat.Prime.dvd_of_dvd_pow Nat.prime_three (⟨k, h3⟩ : 3 ∣ 2 ^ n))
    omega

end Verif.Bezier
