import Verif.Lemmas.BezierBox
import Verif.Lemmas.NearCurve

/-!
# Property C126: curves with the rounding of doubles

C22 and C23 are about exact arithmetic. Here is what is left of them with IEEE doubles: for coordinates up to `B`, the error is a small multiple of
`eps * B = 2 ^ (-53) * B`, half a unit in the last place of `B`.
-/

namespace Verif.Bezier

open Verif Verif.Spec Verif.Double

/-- **C126.** (a) The point of a curve at a parameter, with doubles: within 64 half units in the last place of the exact point. -/
theorem C126_point {B : ℚ} (h1 : 1 ≤ B) (hB : B ≤ 10 ^ 100) (c : Curve Double) (hc : CurveUpTo B c) (t : Double) (ht : t.Finite) (t0 : 0 ≤ t.val)
    (t1 : t.val ≤ 1) : (findPoint c t).x.Finite ∧ (findPoint c t).y.Finite ∧
      NearPt (64 * (eps * B)) ((findPoint c t).x.val, (findPoint c t).y.val) (curveAt (valCurve c) t.val) := by
  obtain ⟨⟨a1, a2, a3, a4⟩, ⟨b1, b2, b3, b4⟩, ⟨c1, c2, c3, c4⟩, d1, d2, d3, d4⟩ := hc
  have h0 : 0 ≤ 64 * (eps * B) := mul_nonneg (by norm_num) (mul_nonneg (by norm_num) (by linarith))
  have e0 := eq_finite ht near_zero.fin
  have e1 := eq_finite ht near_one.fin
  rw [zero_val] at e0
  rw [one_val] at e1
  unfold findPoint
  split
  · next h =>
    rw [e0] at h
    simp only [NearPt, curveAt, valCurve, valPoint, h, bernstein_zero, sub_self, abs_zero]
    exact ⟨a1, a2, h0, h0⟩
  · split
    · next h =>
      rw [e1] at h
      simp only [NearPt, curveAt, valCurve, valPoint, h, bernstein_one, sub_self, abs_zero]
      exact ⟨d1, d2, h0, h0⟩
    · have hx := findPoint_near h1 hB ht t0 t1 (Near.self a1 a3) (Near.self b1 b3) (Near.self c1 c3) (Near.self d1 d3)
      have hy := findPoint_near h1 hB ht t0 t1 (Near.self a2 a4) (Near.self b2 b4) (Near.self c2 c4) (Near.self d2 d4)
      exact ⟨hx.fin, hy.fin, hx.err, hy.err⟩

/-- **C126.** (b) The same point by de Casteljau's algorithm: within 18 half units. -/
theorem C126_casteljau {B : ℚ} (h1 : 1 ≤ B) (hB : B ≤ 10 ^ 100) (c : Curve Double) (hc : CurveUpTo B c) (t : Double) (ht : t.Finite) (t0 : 0 ≤ t.val)
    (t1 : t.val ≤ 1) : ∃ p, deCasteljau c t = some p ∧ p.x.Finite ∧ p.y.Finite ∧
      NearPt (18 * (eps * B)) (p.x.val, p.y.val) (curveAt (valCurve c) t.val) := by
  obtain ⟨⟨a1, a2, a3, a4⟩, ⟨b1, b2, b3, b4⟩, ⟨c1, c2, c3, c4⟩, d1, d2, d3, d4⟩ := hc
  have key : ∀ {p q r s : Double}, Off B 0 p p.val → Off B 0 q q.val → Off B 0 r r.val → Off B 0 s s.val →
      Off B 18 ((Arith.one -. t) *. ((Arith.one -. t) *. ((Arith.one -. t) *. p +. t *. q) +. t *. ((Arith.one -. t) *. q +. t *. r)) +.
        t *. ((Arith.one -. t) *. ((Arith.one -. t) *. q +. t *. r) +. t *. ((Arith.one -. t) *. r +. t *. s))) (bernstein p.val q.val r.val s.val t.val) := by
    intro p q r s hp hq hr hs
    have k1 := casteljau_off h1 hB (by norm_num) hp hq ht t0 t1
    have k2 := casteljau_off h1 hB (by norm_num) hq hr ht t0 t1
    have k3 := casteljau_off h1 hB (by norm_num) hr hs ht t0 t1
    have k4 := casteljau_off h1 hB (by norm_num) k1 k2 ht t0 t1
    have k5 := casteljau_off h1 hB (by norm_num) k2 k3 ht t0 t1
    have k6 := casteljau_off h1 hB (by norm_num) k4 k5 ht t0 t1
    rw [show (0 : ℚ) + 6 + 6 + 6 = 18 by norm_num] at k6
    convert k6 using 1
    unfold bernstein
    ring
  refine ⟨_, rfl, ?_⟩
  have hx := key (Off.self a1 a3) (Off.self b1 b3) (Off.self c1 c3) (Off.self d1 d3)
  have hy := key (Off.self a2 a4) (Off.self b2 b4) (Off.self c2 c4) (Off.self d2 d4)
  exact ⟨hx.fin, hy.fin, hx.err, hy.err⟩

/-- **C126.** (c) The derivative: within 180 half units of the slope of the exact curve (over the real numbers, where there are derivatives). -/
theorem C126_derivative {B : ℚ} (h1 : 1 ≤ B) (hB : B ≤ 10 ^ 100) (c : Curve Double) (hc : CurveUpTo B c) (t : Double) (ht : t.Finite) (t0 : 0 ≤ t.val)
    (t1 : t.val ≤ 1) : (derivative c t).x.Finite ∧ (derivative c t).y.Finite ∧ ∃ vx vy : ℝ,
      HasDerivAt (fun s => (curveAt (realCurve c) s).1) vx t.val ∧ HasDerivAt (fun s => (curveAt (realCurve c) s).2) vy t.val ∧
      |(derivative c t).x.val - vx| ≤ 180 * (eps * B) ∧ |(derivative c t).y.val - vy| ≤ 180 * (eps * B) := by
  obtain ⟨⟨a1, a2, a3, a4⟩, ⟨b1, b2, b3, b4⟩, ⟨c1, c2, c3, c4⟩, d1, d2, d3, d4⟩ := hc
  have hx := derivative_near h1 hB ht t0 t1 (Near.self a1 a3) (Near.self b1 b3) (Near.self c1 c3) (Near.self d1 d3)
  have hy := derivative_near h1 hB ht t0 t1 (Near.self a2 a4) (Near.self b2 b4) (Near.self c2 c4) (Near.self d2 d4)
  refine ⟨hx.fin, hy.fin, _, _, hasDerivAt_bernstein _ _ _ _ _, hasDerivAt_bernstein _ _ _ _ _, ?_, ?_⟩
  · have h := (Rat.cast_le (K := ℝ)).2 hx.err
    push_cast at h ⊢
    exact h
  · have h := (Rat.cast_le (K := ℝ)).2 hy.err
    push_cast at h ⊢
    exact h

/-- **C126.** (d) Splitting a curve at a parameter above zero: the pieces run through the curve up to the parameter and from there on, up to 24 half units; the
first one begins exactly where the curve begins, the second one begins exactly where the first one ends, and ends exactly where the curve ends. -/
theorem C126_split {B : ℚ} (h1 : 1 ≤ B) (hB : B ≤ 10 ^ 100) (c : Curve Double) (hc : CurveUpTo B c) (t : Double) (ht : t.Finite) (t0 : 0 < t.val)
    (t1 : t.val ≤ 1) :
    RetracesNearly (24 * (eps * B)) (valCurve (splitCurve c t).1) (valCurve c) 0 t.val ∧
    RetracesNearly (24 * (eps * B)) (valCurve (splitCurve c t).2) (valCurve c) t.val 1 ∧
    (splitCurve c t).1.p0 = c.p0 ∧ (splitCurve c t).1.p3 = (splitCurve c t).2.p0 ∧ (splitCurve c t).2.p3 = c.p3 ∧
    CurveUpTo (B + 24 * (eps * B)) (splitCurve c t).1 ∧ CurveUpTo (B + 24 * (eps * B)) (splitCurve c t).2 := by
  rw [splitCurve_double c ht t0.ne']
  have h := halves_off h1 hB le_rfl le_rfl (by norm_num) (by norm_num) (off_self hc) (param_self ht t0.le t1)
  have hl : OffCurve B 24 (halves c t).1 (halves (valCurve c) t.val).1 := by simpa [OffCurve] using h _ (List.mem_cons_self ..)
  have hr : OffCurve B 24 (halves c t).2 (halves (valCurve c) t.val).2 := by simpa [OffCurve] using h _ (List.mem_cons_of_mem _ (List.mem_cons_self ..))
  refine ⟨fun u u0 u1 => ?_, fun u u0 u1 => ?_, rfl, rfl, rfl, hl.finite h1 (by norm_num), hr.finite h1 (by norm_num)⟩
  · have := hl.near u0 u1
    rw [halves_left] at this
    rwa [show 0 + (t.val - 0) * u = t.val * u by ring]
  · have := hr.near u0 u1
    rwa [halves_right] at this

/-- **C126.** (e) The section of a curve between two parameters, up to 72 half units. -/
theorem C126_section {B : ℚ} (h1 : 1 ≤ B) (hB : B ≤ 10 ^ 100) (c : Curve Double) (hc : CurveUpTo B c) (s t : Double) (hs : s.Finite) (ht : t.Finite)
    (s0 : 0 ≤ s.val) (st : s.val < t.val) (t1 : t.val ≤ 1) :
    RetracesNearly (72 * (eps * B)) (valCurve (splitCurveSection c s t)) (valCurve c) s.val t.val ∧
      CurveUpTo (B + 72 * (eps * B)) (splitCurveSection c s t) := by
  have hB0 : (0 : ℚ) ≤ eps * B := mul_nonneg (by norm_num) (by linarith)
  have wide : ∀ {l : Curve Double} {d : Curve ℚ}, OffCurve B 24 l d → OffCurve B 72 l d := by
    intro l d ⟨⟨a1, a2⟩, ⟨b1, b2⟩, ⟨c1, c2⟩, d1, d2⟩
    have m : ∀ {x : Double} {p : ℚ}, Off B 24 x p → Off B 72 x p := fun h => h.mono (by linarith) (by norm_num)
    exact ⟨⟨m a1, m a2⟩, ⟨m b1, m b2⟩, ⟨m c1, m c2⟩, m d1, m d2⟩
  have halve : ∀ {l : Double}, l.Finite → 0 ≤ l.val → l.val ≤ 1 → OffCurve B 24 (halves c l).1 (halves (valCurve c) l.val).1 ∧
      OffCurve B 24 (halves c l).2 (halves (valCurve c) l.val).2 := by
    intro l hl l0 l1
    have h := halves_off h1 hB le_rfl le_rfl (by norm_num) (by norm_num) (off_self hc) (param_self hl l0 l1)
    exact ⟨by simpa [OffCurve] using h _ (List.mem_cons_self ..), by simpa [OffCurve] using h _ (List.mem_cons_of_mem _ (List.mem_cons_self ..))⟩
  have es := eq_finite hs near_zero.fin
  have et := eq_finite ht near_one.fin
  have et0 := eq_finite ht near_zero.fin
  rw [zero_val] at es et0
  rw [one_val] at et
  have ht0 : (t ==. Arith.zero) = false := by
    rw [Bool.eq_false_iff, Ne, et0]
    exact (s0.trans_lt st).ne'
  by_cases hs0 : s.val = 0
  · have e : splitCurveSection c s t = (halves c t).1 := by
      simp only [splitCurveSection, splitSection, es.2 hs0, if_true, splitOnce, ht0, Bool.false_eq_true, if_false, splitAt]
    have h := wide (halve ht (by linarith) t1).1
    rw [e]
    refine ⟨fun u u0 u1 => ?_, h.finite h1 (by norm_num)⟩
    have := h.near u0 u1
    rw [halves_left] at this
    rwa [hs0, show 0 + (t.val - 0) * u = t.val * u by ring]
  · have hs0' : (s ==. Arith.zero) = false := by
      rw [Bool.eq_false_iff, Ne, es]
      exact hs0
    by_cases ht1 : t.val = 1
    · have e : splitCurveSection c s t = (halves c s).2 := by
        simp only [splitCurveSection, splitSection, hs0', et.2 ht1, if_true, splitOnce, Bool.false_eq_true, if_false, splitAt]
      have h := wide (halve hs s0 (by linarith)).2
      rw [e]
      refine ⟨fun u u0 u1 => ?_, h.finite h1 (by norm_num)⟩
      have := h.near u0 u1
      rw [halves_right] at this
      rwa [ht1]
    · have ht1' : (t ==. Arith.one) = false := by
        rw [Bool.eq_false_iff, Ne, et]
        exact ht1
      have hlt : (t <. Arith.zero) = false := by
        rw [Bool.eq_false_iff, Ne, ht.eq.1, near_zero.fin.eq.1, zero_val]
        show ¬decide _ = true
        rw [decide_eq_true_iff]
        linarith
      obtain ⟨hp, hp0⟩ := mapRange_param hs ht s0 st t1 (by linarith)
      have hm0 : (mapRange t s Arith.one Arith.zero Arith.one ==. Arith.zero) = false := by
        rw [Bool.eq_false_iff, Ne, eq_finite hp.fin near_zero.fin, zero_val]
        exact hp0
      have e : splitCurveSection c s t = (halves (halves c s).2 (mapRange t s Arith.one Arith.zero Arith.one)).1 := by
        simp only [splitCurveSection, splitSection, hs0', ht1', hlt, splitOnce, hm0, Bool.false_eq_true, if_false, splitAt]
      have h := halves_off h1 hB (by norm_num) (by norm_num) (by norm_num) (by norm_num) (halve hs s0 (by linarith)).2 hp _ (List.mem_cons_self ..)
      have h : OffCurve B 72 (halves (halves c s).2 (mapRange t s Arith.one Arith.zero Arith.one)).1
          (halves (halves (valCurve c) s.val).2 ((t.val - s.val) / (1 - s.val))).1 := by
        rw [show (24 : ℚ) + 6 * 4 + 24 = 72 by norm_num] at h
        exact h
      rw [e]
      refine ⟨fun u u0 u1 => ?_, h.finite h1 (by norm_num)⟩
      have := h.near u0 u1
      rw [halves_left, halves_right] at this
      have h5 : (1 : ℚ) - s.val ≠ 0 := by linarith
      rwa [show s.val + (1 - s.val) * ((t.val - s.val) / (1 - s.val) * u) = s.val + (t.val - s.val) * u by field_simp] at this

/-- A curve from the origin to (1, 1) by (0.1, 0.3) and (0.7, 0.2). -/
def tenths : Curve Double := ⟨⟨Arith.lit 0 0, Arith.lit 0 0⟩, ⟨Arith.lit 1 1, Arith.lit 3 1⟩, ⟨Arith.lit 7 1, Arith.lit 2 1⟩, ⟨Arith.lit 1 0, Arith.lit 1 0⟩⟩

/-- The premises hold of it, and the computed points, slopes and pieces are not the exact ones. -/
example : CurveUpTo 1 tenths ∧ (Arith.lit 3 1 : Double).Finite ∧ 0 < (Arith.lit 3 1 : Double).val ∧ (Arith.lit 3 1 : Double).val ≤ 1
    ∧ (findPoint tenths (Arith.lit 3 1)).x.val ≠ (curveAt (valCurve tenths) (Arith.lit 3 1 : Double).val).1
    ∧ curveAt (valCurve (splitCurve tenths (Arith.lit 3 1)).1) 1 ≠ curveAt (valCurve tenths) (Arith.lit 3 1 : Double).val
    ∧ curveAt (valCurve (splitCurveSection tenths (Arith.lit 3 1) (Arith.lit 6 1))) 1 ≠ curveAt (valCurve tenths) (Arith.lit 6 1 : Double).val := by
  unfold CurveUpTo PointUpTo
  decide +kernel

end Verif.Bezier
