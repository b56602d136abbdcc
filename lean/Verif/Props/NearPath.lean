import Verif.Lemmas.NearPath
import Verif.Model.Files

/-!
# Property C127: moving, scaling and transforming paths with the rounding of doubles

The paths of C08 and of the transforms, with IEEE doubles instead of exact arithmetic.
-/

namespace Verif.Path

open Verif Verif.Spec Verif.Double

/-- **C127.** (a) A shifted path draws the shifted strokes, up to 3 half units in the last place of `B`. -/
theorem C127_shift {B : ℚ} (h1 : 1 ≤ B) (hB : B ≤ 10 ^ 100) (dx dy : Double) (hx : dx.Finite) (hy : dy.Finite) (bx : |dx.val| ≤ B) (bz : |dy.val| ≤ B)
    (p : Path Double) (hp : ∀ s ∈ strokes p, StrokeUpTo B s) :
    DrawsNearly (3 * B) (3 * (eps * B)) (fun q => (q.1 + dx.val, q.2 + dy.val)) p (shift dx dy p) := by
  have key : ∀ {x d : Double}, x.Finite → |x.val| ≤ B → d.Finite → |d.val| ≤ B → Near (x +. d) (x.val + d.val) (3 * B) (3 * (eps * B)) := by
    intro x d h2 h3 h4 h5
    refine ((Near.self h2 h3).add (Near.self h4 h5) ?_).mono ?_ ?_
    · exact (add_le_add hB hB).trans (by norm_num)
    · have : (1 : ℚ) / 10 ^ 40 ≤ 1 / 2 := by norm_num
      unfold eps
      linarith
    · have : (1 : ℚ) / 10 ^ 40 ≤ eps * 1 := by norm_num
      have : eps * 1 ≤ eps * B := mul_le_mul_of_nonneg_left h1 (by norm_num)
      linarith
  have e : (fun q : Pt ℚ => (q.1 + dx.val, q.2 + dy.val)) = affine 1 0 0 1 dx.val dy.val := by
    funext q
    simp [affine]
  rw [e]
  refine mapPath_near _ (fun q => pt (newPoint (q.1 +. dx) (q.2 +. dy))) (fun q => rfl) _ _ _ _ _ _ ?_ p hp
  rintro q ⟨f1, f2, b1, b2⟩
  obtain ⟨n1, n2⟩ := newPoint_near (key f1 b1 hx bx) (key f2 b2 hy bz)
  refine ⟨⟨n1.fin, n2.fin, n1.mag, n2.mag⟩, ?_⟩
  rw [← e]
  exact ⟨n1.err, n2.err⟩

/-- **C127.** (b) A scaled path draws the scaled strokes, up to 2 half units in the last place of `S * B`, where the factors are up to `S`. -/
theorem C127_scale {B S : ℚ} (h1 : 1 ≤ B) (hB : B ≤ 10 ^ 100) (hS1 : 1 ≤ S) (hS : S ≤ 10 ^ 50) (sx sy : Double) (hx : sx.Finite) (hy : sy.Finite)
    (bx : |sx.val| ≤ S) (bz : |sy.val| ≤ S) (p : Path Double) (hp : ∀ s ∈ strokes p, StrokeUpTo B s) :
    DrawsNearly (2 * (B * S)) (2 * (eps * (B * S))) (fun q => (q.1 * sx.val, q.2 * sy.val)) p (scaleBy sx sy p) := by
  have hBS : 1 ≤ B * S := one_le_mul_of_one_le_of_one_le h1 hS1
  have key : ∀ {x d : Double}, x.Finite → |x.val| ≤ B → d.Finite → |d.val| ≤ S →
      Near (x *. d) (x.val * d.val) (2 * (B * S)) (2 * (eps * (B * S))) := by
    intro x d h2 h3 h4 h5
    refine ((Near.self h2 h3).mul (Near.self h4 h5) ?_).mono ?_ ?_
    · exact (mul_le_mul hB hS (by linarith) (by norm_num)).trans (by norm_num)
    · have : (1 : ℚ) / 10 ^ 40 ≤ 1 / 2 := by norm_num
      unfold eps
      linarith
    · have : (1 : ℚ) / 10 ^ 40 ≤ eps * 1 := by norm_num
      have : eps * 1 ≤ eps * (B * S) := mul_le_mul_of_nonneg_left hBS (by norm_num)
      linarith
  have e : (fun q : Pt ℚ => (q.1 * sx.val, q.2 * sy.val)) = affine sx.val 0 0 sy.val 0 0 := by
    funext q
    simp [affine]
  rw [e]
  refine mapPath_near _ (fun q => pt (newPoint (q.1 *. sx) (q.2 *. sy))) (fun q => rfl) _ _ _ _ _ _ ?_ p hp
  rintro q ⟨f1, f2, b1, b2⟩
  obtain ⟨n1, n2⟩ := newPoint_near (key f1 b1 hx bx) (key f2 b2 hy bz)
  refine ⟨⟨n1.fin, n2.fin, n1.mag, n2.mag⟩, ?_⟩
  rw [← e]
  exact ⟨n1.err, n2.err⟩

/-- **C127.** (c) A path under a matrix draws the mapped strokes, up to 8 half units in the last place of `A * B`, where the four factors are up to
`A` and the shift up to `A * B`. -/
theorem C127_matrix {B A : ℚ} (h1 : 1 ≤ B) (hB : B ≤ 10 ^ 100) (hA1 : 1 ≤ A) (hA : A ≤ 10 ^ 50) (a b c d k l : Double) (ha : a.Finite) (hb : b.Finite)
    (hc : c.Finite) (hd : d.Finite) (hk : k.Finite) (hl : l.Finite) (ba : |a.val| ≤ A) (bb : |b.val| ≤ A) (bc : |c.val| ≤ A) (bd : |d.val| ≤ A)
    (bk : |k.val| ≤ A * B) (bl : |l.val| ≤ A * B) (p : Path Double) (hp : ∀ s ∈ strokes p, StrokeUpTo B s) :
    DrawsNearly (4 * (A * B)) (8 * (eps * (A * B)))
      (fun q => (q.1 * a.val + q.2 * c.val + k.val, q.1 * b.val + q.2 * d.val + l.val)) p (matrixTransform a b c d k l p) := by
  have hAB : 1 ≤ A * B := one_le_mul_of_one_le_of_one_le hA1 h1
  have hAB' : A * B ≤ 10 ^ 150 := (mul_le_mul hA hB (by linarith) (by norm_num)).trans (by norm_num)
  have key : ∀ {x y m n o : Double}, x.Finite → |x.val| ≤ B → y.Finite → |y.val| ≤ B → m.Finite → |m.val| ≤ A → n.Finite → |n.val| ≤ A → o.Finite →
      |o.val| ≤ A * B → Near (x *. m +. y *. n +. o) (x.val * m.val + y.val * n.val + o.val) (4 * (A * B)) (8 * (eps * (A * B))) := by
    intro x y m n o x1 x2 y1 y2 m1 m2 n1 n2 o1 o2
    have e0 : (1 : ℚ) / 10 ^ 40 ≤ eps / 1000 * (A * B) := by
      have : eps / 1000 * 1 ≤ eps / 1000 * (A * B) := mul_le_mul_of_nonneg_left hAB (by norm_num)
      refine le_trans ?_ this
      norm_num
    have hm : ∀ {x m : Double}, x.Finite → |x.val| ≤ B → m.Finite → |m.val| ≤ A →
        Near (x *. m) (x.val * m.val) (1001 / 1000 * (A * B)) (1001 / 1000 * (eps * (A * B))) := by
      intro x m h2 h3 h4 h5
      refine ((Near.self h2 h3).mul (Near.self h4 h5) ?_).mono ?_ ?_
      · rw [mul_comm]
        exact hAB'.trans (by norm_num)
      · rw [mul_comm B A]
        unfold eps at *
        linarith
      · rw [mul_comm B A]
        linarith
    have h2 := (hm x1 x2 m1 m2).add (hm y1 y2 n1 n2) (by
      have : (10 : ℚ) ^ 150 * 3 ≤ 10 ^ 200 := by norm_num
      linarith)
    have h3 := (h2.mono (m' := 21 / 10 * (A * B)) (e' := 41 / 10 * (eps * (A * B)))
      (by
        unfold eps at *
        linarith)
      (by linarith)).add (Near.self o1 o2) (by
      have : (10 : ℚ) ^ 150 * 4 ≤ 10 ^ 200 := by norm_num
      linarith)
    refine h3.mono ?_ ?_
    · unfold eps at *
      linarith
    · linarith
  refine mapPath_near _ (fun q => pt (newPoint (q.1 *. a +. q.2 *. c +. k) (q.1 *. b +. q.2 *. d +. l))) (fun q => rfl) _ _ _ _ _ _ ?_ p hp
  rintro q ⟨f1, f2, b1, b2⟩
  obtain ⟨n1, n2⟩ := newPoint_near (key f1 b1 f2 b2 ha ba hc bc hk bk) (key f1 b1 f2 b2 hb bb hd bd hl bl)
  exact ⟨⟨n1.fin, n2.fin, n1.mag, n2.mag⟩, n1.err, n2.err⟩

/-- A square from (0, 0) to (1, 1), with one curved side, moved by a tenth: the tenth and the sums are rounded. -/
def rounded : Path Double :=
  [.line (newPoint (Arith.lit 0 0) (Arith.lit 0 0)) (newPoint (Arith.lit 1 0) (Arith.lit 0 0)),
   .curve (newPoint (Arith.lit 1 0) (Arith.lit 0 0)) (newPoint (Arith.lit 7 1) (Arith.lit 3 1)) (newPoint (Arith.lit 13 1) (Arith.lit 6 1))
     (newPoint (Arith.lit 1 0) (Arith.lit 1 0))]

/-- The premises of (a)-(c) hold of it, and the sums are not the exact ones. -/
example : (∀ s ∈ strokes rounded, StrokeUpTo 2 s) ∧ (Arith.lit 1 1 : Double).Finite ∧ |(Arith.lit 1 1 : Double).val| ≤ 2
    ∧ (strokes (shift (Arith.lit 1 1) (Arith.lit 2 1) rounded)).length = 2
    ∧ (strokes (shift (Arith.lit 1 1 : Double) (Arith.lit 2 1) rounded)).map (fun s => ((s.map valPt).at (1 / 2)).2)
      ≠ (strokes rounded).map fun s => ((s.map valPt).at (1 / 2)).2 + (Arith.lit 2 1 : Double).val := by
  decide +kernel

end Verif.Path

namespace Verif.Files

open Verif Verif.Spec Verif.Double

theorem lit254 : (Arith.lit 254 1 : Double).Finite ∧ |(Arith.lit 254 1 : Double).val - 254 / 10| ≤ 13 * eps ∧ 25 ≤ (Arith.lit 254 1 : Double).val := by
  decide +kernel

/-- **C127.** (d) A length in inches is converted to millimetres up to 40 half units in the last place of `B`, millimetres to inches up to one, and inches
to millimetres and back up to 3. -/
theorem C127_units {B : ℚ} (h1 : 1 ≤ B) (hB : B ≤ 10 ^ 100) (x : Double) (hx : x.Finite) (bx : |x.val| ≤ B) :
    (inchToMM x).Finite ∧ |(inchToMM x).val - 254 / 10 * x.val| ≤ 40 * (eps * B) ∧
    (mmToInch x).Finite ∧ |(mmToInch x).val - x.val / (254 / 10)| ≤ 1 * (eps * B) ∧
    (mmToInch (inchToMM x)).Finite ∧ |(mmToInch (inchToMM x)).val - x.val| ≤ 3 * (eps * B) := by
  obtain ⟨f0, e0, p0⟩ := lit254
  unfold inchToMM mmToInch
  generalize (Arith.lit 254 1 : Double) = r at *
  have r0 : 0 < r.val := by linarith
  have r2 : r.val ≤ 26 := by
    have h2 := (abs_le.1 e0).2
    norm_num at h2
    linarith
  have hη : (1 : ℚ) / 10 ^ 40 ≤ eps / 1000 * B := by
    have : eps / 1000 * 1 ≤ eps / 1000 * B := mul_le_mul_of_nonneg_left h1 (by norm_num)
    refine le_trans ?_ this
    norm_num
  have heB : 0 ≤ eps * B := by
    have : (0 : ℚ) ≤ eps := by norm_num
    positivity
  have e1 : |x.val * (r.val - 254 / 10)| ≤ 13 * (eps * B) := by
    rw [abs_mul]
    calc |x.val| * |r.val - 254 / 10| ≤ B * (13 * eps) := mul_le_mul bx e0 (abs_nonneg _) (by linarith)
      _ = _ := by ring
  have m1 := (Near.self hx bx).mul (Near.self f0 (abs_of_pos r0).le) (by
    have : (10 : ℚ) ^ 100 * 26 ≤ 10 ^ 200 := by norm_num
    nlinarith)
  have m2 := (Near.self hx bx).div f0 r0 (le_abs_self _) (by
    rw [div_le_iff₀ r0]
    have : (10 : ℚ) ^ 100 ≤ 10 ^ 200 * 25 := by norm_num
    linarith)
  have m3 := m1.div f0 r0 (le_abs_self _) (by
    rw [div_le_iff₀ r0]
    have : (10 : ℚ) ^ 100 * 60 ≤ 10 ^ 200 * 25 := by norm_num
    have : B * r.val ≤ B * 26 := mul_le_mul_of_nonneg_left r2 (by linarith)
    unfold eps at *
    linarith)
  have hq : x.val * r.val / r.val = x.val := mul_div_cancel_right₀ _ r0.ne'
  rw [hq] at m3
  simp only [mul_zero, zero_mul, add_zero, zero_add, zero_div] at m1 m2 m3
  refine ⟨m1.fin, ?_, m2.fin, ?_, m3.fin, ?_⟩
  · have h2 := m1.err
    have h3 : eps * (B * r.val) ≤ eps * (B * 26) := mul_le_mul_of_nonneg_left (mul_le_mul_of_nonneg_left r2 (by linarith)) (by norm_num)
    rw [show eps * (B * 26) = 26 * (eps * B) by ring] at h3
    rw [show eps / 1000 * B = eps * B / 1000 by ring] at hη
    have h4 := abs_add_le ((x *. r).val - x.val * r.val) (x.val * (r.val - 254 / 10))
    rw [show (x *. r).val - x.val * r.val + x.val * (r.val - 254 / 10) = (x *. r).val - 254 / 10 * x.val by ring] at h4
    refine h4.trans ((add_le_add (h2.trans (add_le_add h3 hη)) e1).trans ?_)
    generalize eps * B = E at *
    linarith
  · have h2 := m2.err
    have h3 : B / r.val ≤ B / 25 := div_le_div_of_nonneg_left (by linarith) (by norm_num) p0
    have h5 : eps * (B / r.val) ≤ eps * (B / 25) := mul_le_mul_of_nonneg_left h3 (by norm_num)
    rw [show eps * (B / 25) = eps * B / 25 by ring] at h5
    rw [show eps / 1000 * B = eps * B / 1000 by ring] at hη
    have h6 : x.val / r.val - x.val / (254 / 10) = -(x.val * (r.val - 254 / 10)) / (r.val * (254 / 10)) := by
      field_simp
      ring
    have h7 : |x.val / r.val - x.val / (254 / 10)| ≤ 13 * (eps * B) / 600 := by
      rw [h6, abs_div, abs_neg, abs_of_pos (show 0 < r.val * (254 / 10) by positivity)]
      exact div_le_div₀ (by positivity) e1 (by norm_num) (by linarith)
    have h4 := abs_add_le ((x /. r).val - x.val / r.val) (x.val / r.val - x.val / (254 / 10))
    rw [show (x /. r).val - x.val / r.val + (x.val / r.val - x.val / (254 / 10)) = (x /. r).val - x.val / (254 / 10) by ring] at h4
    linarith
  · refine m3.err.trans ?_
    have d1 : ∀ k : ℚ, B * r.val * k / r.val = B * k := by
      intro k
      field_simp
    have d2 : (1 : ℚ) / 10 ^ 40 / r.val ≤ 1 / 10 ^ 40 / 1 := div_le_div_of_nonneg_left (by norm_num) (by norm_num) (by linarith)
    have d3 : eps * (B * r.val) / r.val = eps * B := by
      field_simp
    rw [add_div, add_div, d1, d3]
    rw [show eps / 1000 * B = eps * B / 1000 by ring] at hη
    have d4 : eps * (B * (1 + eps) + 1 / 10 ^ 40 / r.val) ≤ eps * (B * (1 + 1 / 1000) + B / 1000) := by
      refine mul_le_mul_of_nonneg_left ?_ (by norm_num)
      have : B * (1 + eps) ≤ B * (1 + 1 / 1000) := mul_le_mul_of_nonneg_left (by norm_num) (by linarith)
      have : (1 : ℚ) / 10 ^ 40 / 1 ≤ 1 / 1000 := by norm_num
      linarith
    rw [show eps * (B * (1 + 1 / 1000) + B / 1000) = (1 + 2 / 1000) * (eps * B) by ring] at d4
    linarith

/-- A tenth of an inch: 2.54 mm up to 4.5 · 10^-15, and back again exactly. -/
example : (Arith.lit 1 1 : Double).Finite ∧ (inchToMM (Arith.lit 1 1 : Double)).val ≠ 254 / 100 := by
  decide +kernel

end Verif.Files
