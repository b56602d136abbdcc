import Verif.Lemmas.BezierBox
import Mathlib.Analysis.Complex.Trigonometric
import Mathlib.Analysis.SpecialFunctions.Trigonometric.Basic
import Mathlib.Algebra.Order.Ring.Pow
import Mathlib.Algebra.Ring.Parity
import Mathlib.Tactic.Positivity

/-!
# Lemmas about solving cubic equations (Cardano's formula as written in `Roots`)
-/

namespace Verif.Bezier

open Verif Verif.Spec XNum

set_option linter.unusedSectionVars false
set_option linter.unusedSimpArgs false

theorem cube_inj {x y : ℝ} (h : x ^ 3 = y ^ 3) : x = y := (Odd.strictMono_pow (by decide : Odd 3)).injective h

/-- `Crt` computes the real cube root. -/
theorem crt_fin (v : ℝ) : ∃ w : ℝ, crt (fin v) = fin w ∧ w ^ 3 = v := by
  have key : ∀ x : ℝ, 0 ≤ x → Trig.pow (fin x) (Arith.one /. Arith.lit 3 0) = fin (x ^ ((3 : ℕ) : ℝ)⁻¹) := by
    intro x hx
    have h3 : ((3 : Int) : ℝ) ≠ 0 := by norm_num
    rw [one_fin, lit_zero_fin, div_fin_ne h3, pow_fin_nonneg hx (by norm_num)]
    congr 2
    norm_num
  unfold crt
  rw [zero_fin, lt_fin]
  by_cases h : v < 0
  · simp only [h, decide_true, if_true, neg_fin]
    rw [key _ (by linarith)]
    refine ⟨_, neg_fin _, ?_⟩
    have := Real.rpow_inv_natCast_pow (show (0 : ℝ) ≤ -v by linarith) (by norm_num : (3 : ℕ) ≠ 0)
    linear_combination -this
  · simp only [h, decide_false, if_false, Bool.false_eq_true]
    rw [key _ (not_lt.1 h)]
    exact ⟨_, rfl, Real.rpow_inv_natCast_pow (not_lt.1 h) (by norm_num)⟩

/-- Cardano's formulas give exactly the real solutions. -/
theorem cubicRoots_iff (a b c t : ℝ) : fin t ∈ cubicRoots (fin a) (fin b) (fin c) ↔ t ^ 3 + a * t ^ 2 + b * t + c = 0 := by
  have h3 : ((3 : Int) : ℝ) ≠ 0 := by norm_num
  have h2 : ((2 : Int) : ℝ) ≠ 0 := by norm_num
  have h27 : ((27 : Int) : ℝ) ≠ 0 := by norm_num
  unfold cubicRoots
  simp only [lit_zero_fin, zero_fin, one_fin, mul_fin, sub_fin, add_fin, neg_fin, div_fin_ne h3, div_fin_ne h2, div_fin_ne h27,
    lt_fin, eq_fin, pi_fin]
  push_cast
  set p : ℝ := (3 * b - a * a) / 3 with hp
  set q : ℝ := (2 * a * a * a - 9 * a * b + 27 * c) / 27 with hq
  have dep : ∀ y : ℝ, t = y - a / 3 → (t ^ 3 + a * t ^ 2 + b * t + c = 0 ↔ y ^ 3 + p * y + q = 0) := by
    intro y hy
    have : t ^ 3 + a * t ^ 2 + b * t + c = y ^ 3 + p * y + q := by rw [hy, hp, hq]; ring
    rw [this]
  obtain ⟨y, hy⟩ : ∃ y, t = y - a / 3 := ⟨t + a / 3, by ring⟩
  rw [dep y hy]
  have hmem : ∀ z : ℝ, (fin t = fin (z - a / 3) ↔ y = z) := by
    intro z
    rw [hy]
    constructor
    · intro h; injection h with h; linarith
    · rintro rfl; rfl
  have disc_eq : q / 2 * (q / 2) + p / 3 * (p / 3) * (p / 3) = q ^ 2 / 4 + p ^ 3 / 27 := by ring
  rw [disc_eq]
  by_cases hneg : q ^ 2 / 4 + p ^ 3 / 27 < 0
  · -- three real solutions
    simp only [hneg, decide_true, if_true]
    have hm3 : 0 < -p / 3 * (-p / 3) * (-p / 3) := by nlinarith [sq_nonneg q]
    have hm : 0 < -p / 3 := by
      by_contra hcon
      have h1 : -p / 3 ≤ 0 := not_lt.1 hcon
      nlinarith [mul_nonneg_of_nonpos_of_nonpos h1 h1, mul_nonpos_of_nonneg_of_nonpos (mul_nonneg_of_nonpos_of_nonpos h1 h1) h1]
    simp only [sqrt_fin, not_lt.2 hm3.le, if_false]
    set r : ℝ := Real.sqrt (-p / 3 * (-p / 3) * (-p / 3)) with hr
    have hr0 : 0 < r := Real.sqrt_pos.2 hm3
    have hr2 : r ^ 2 = -p / 3 * (-p / 3) * (-p / 3) := Real.sq_sqrt hm3.le
    have hden : (2 : ℝ) * r ≠ 0 := by positivity
    have e1 : (fin 2 : XNum ℝ) *. fin r = fin (2 * r) := rfl
    rw [e1, div_fin_ne hden]
    simp only [lt_fin]
    have hrange : (-q / (2 * r)) ^ 2 < 1 := by
      rw [div_pow, div_lt_one (by positivity), mul_pow, hr2]
      nlinarith
    have hl : ¬ -q / (2 * r) < -1 := by
      intro h; nlinarith
    have hu : ¬ 1 < -q / (2 * r) := by
      intro h; nlinarith
    simp only [hl, hu, decide_false, if_false, Bool.false_eq_true, acos_fin, or_self]
    set φ := Real.arccos (-q / (2 * r)) with hφ
    have hcos : Real.cos φ = -q / (2 * r) := Real.cos_arccos (not_lt.1 hl) (not_lt.1 hu)
    obtain ⟨k, hk, hk3⟩ := crt_fin r
    rw [hk]
    have hk2 : k ^ 2 = -p / 3 := by
      apply cube_inj
      have : (k ^ 2) ^ 3 = (k ^ 3) ^ 2 := by ring
      rw [this, hk3, hr2]
      ring
    simp only [mul_fin, add_fin, sub_fin, div_fin_ne (show (3 : ℝ) ≠ 0 by norm_num), cos_fin, List.mem_cons, List.not_mem_nil,
      or_false, hmem]
    have c1 : Real.cos ((φ + 2 * Real.pi) / 3) = -(1 / 2) * Real.cos (φ / 3) - Real.sqrt 3 / 2 * Real.sin (φ / 3) := by
      have : (φ + 2 * Real.pi) / 3 = φ / 3 + (Real.pi - Real.pi / 3) := by ring
      rw [this, Real.cos_add, Real.cos_pi_sub, Real.sin_pi_sub, Real.cos_pi_div_three, Real.sin_pi_div_three]
      ring
    have c2 : Real.cos ((φ + 2 * (2 * Real.pi)) / 3) = -(1 / 2) * Real.cos (φ / 3) + Real.sqrt 3 / 2 * Real.sin (φ / 3) := by
      have : (φ + 2 * (2 * Real.pi)) / 3 = φ / 3 + (Real.pi / 3 + Real.pi) := by ring
      rw [this, Real.cos_add, Real.cos_add_pi, Real.sin_add_pi, Real.cos_pi_div_three, Real.sin_pi_div_three]
      ring
    rw [c1, c2]
    have hs3 : Real.sqrt 3 ^ 2 = 3 := Real.sq_sqrt (by norm_num)
    have hsin : Real.sin (φ / 3) ^ 2 = 1 - Real.cos (φ / 3) ^ 2 := Real.sin_sq _
    have htri : 4 * Real.cos (φ / 3) ^ 3 - 3 * Real.cos (φ / 3) = -q / (2 * r) := by
      rw [← hcos, ← Real.cos_three_mul]
      congr 1; ring
    have htri' : 2 * r * (4 * Real.cos (φ / 3) ^ 3 - 3 * Real.cos (φ / 3)) = -q := by
      rw [htri]; field_simp
    generalize Real.cos (φ / 3) = C at *
    generalize Real.sin (φ / 3) = S at *
    generalize Real.sqrt 3 = w at *
    have hprod : y ^ 3 + p * y + q =
        (y - 2 * k * C) * ((y - 2 * k * (-(1 / 2) * C - w / 2 * S)) * (y - 2 * k * (-(1 / 2) * C + w / 2 * S))) := by
      have hp' : p = -3 * k ^ 2 := by rw [hk2]; ring
      have hq' : q = -(2 * k ^ 3 * (4 * C ^ 3 - 3 * C)) := by rw [hk3]; linarith
      rw [hp', hq']
      linear_combination (k ^ 2 * (y - 2 * k * C)) * (w ^ 2 * hsin + (1 - C ^ 2) * hs3)
    rw [hprod, mul_eq_zero, mul_eq_zero, sub_eq_zero, sub_eq_zero, sub_eq_zero]
  · simp only [hneg, decide_false, if_false, Bool.false_eq_true]
    by_cases hz : q ^ 2 / 4 + p ^ 3 / 27 = 0
    · -- a double solution
      simp only [hz, decide_true, if_true]
      obtain ⟨k, hk, hk3⟩ := crt_fin (q / 2)
      rw [hk]
      simp only [neg_fin, mul_fin, sub_fin, List.mem_cons, List.not_mem_nil, or_false, hmem]
      have hp' : p = -3 * k ^ 2 := by
        apply cube_inj
        have : (-3 * k ^ 2) ^ 3 = -27 * (k ^ 3) ^ 2 := by ring
        rw [this, hk3]
        linarith
      have hq' : q = 2 * k ^ 3 := by rw [hk3]; ring
      have hprod : y ^ 3 + p * y + q = (y - 2 * -k) * ((y - - -k) * (y - - -k)) := by
        rw [hp', hq']; ring
      rw [hprod, mul_eq_zero, mul_self_eq_zero, sub_eq_zero, sub_eq_zero]
    · -- one solution
      simp only [hz, decide_false, if_false, Bool.false_eq_true, sqrt_fin, hneg]
      have hpos : 0 < q ^ 2 / 4 + p ^ 3 / 27 := lt_of_le_of_ne (not_lt.1 hneg) (Ne.symm hz)
      set sd := Real.sqrt (q ^ 2 / 4 + p ^ 3 / 27) with hsd
      have hsd0 : 0 < sd := Real.sqrt_pos.2 hpos
      have hsd2 : sd ^ 2 = q ^ 2 / 4 + p ^ 3 / 27 := Real.sq_sqrt hpos.le
      simp only [add_fin]
      obtain ⟨u, hu, hu3⟩ := crt_fin (-(q / 2) + sd)
      obtain ⟨v, hv, hv3⟩ := crt_fin (q / 2 + sd)
      rw [hu, hv]
      simp only [sub_fin, List.mem_singleton, hmem]
      have huv : u * v = p / 3 := by
        apply cube_inj
        rw [mul_pow, hu3, hv3]
        linear_combination hsd2
      have hp' : p = 3 * (u * v) := by rw [huv]; ring
      have hq' : q = v ^ 3 - u ^ 3 := by rw [hu3, hv3]; ring
      have hprod : y ^ 3 + p * y + q = (y - (u - v)) * (y ^ 2 + (u - v) * y + (u ^ 2 + u * v + v ^ 2)) := by
        rw [hp', hq']; ring
      have huv0 : u + v ≠ 0 := by
        intro h
        have : u = -v := by linarith
        rw [this] at hu3
        have : (-v) ^ 3 = -v ^ 3 := by ring
        rw [this, hv3] at hu3
        linarith
      have hne : y ^ 2 + (u - v) * y + (u ^ 2 + u * v + v ^ 2) ≠ 0 := by
        have : 0 < (u + v) ^ 2 := by positivity
        nlinarith [sq_nonneg (y + (u - v) / 2)]
      rw [hprod, mul_eq_zero, sub_eq_zero, or_iff_left hne]

/-- The quadratic formula gives exactly the real solutions. -/
theorem quadRoots_iff {a : ℝ} (b c t : ℝ) (ha : a ≠ 0) :
    fin t ∈ [(Trig.sqrt (fin b *. fin b -. fin 4 *. fin a *. fin c) -. fin b) /. (fin 2 *. fin a),
      ((-. fin b) -. Trig.sqrt (fin b *. fin b -. fin 4 *. fin a *. fin c)) /. (fin 2 *. fin a)] ↔ a * t ^ 2 + b * t + c = 0 := by
  simp only [mul_fin, sub_fin, neg_fin, sqrt_fin]
  have h2a : (2 : ℝ) * a ≠ 0 := mul_ne_zero two_ne_zero ha
  have hsq : (2 * a * t + b) ^ 2 = b * b - 4 * a * c + 4 * a * (a * t ^ 2 + b * t + c) := by ring
  by_cases h : b * b - 4 * a * c < 0
  · simp only [h, if_true]
    have h1 : ((nan : XNum ℝ) -. fin b) /. fin (2 * a) = nan := rfl
    have h2 : ((fin (-b) : XNum ℝ) -. nan) /. fin (2 * a) = nan := rfl
    rw [h1, h2]
    constructor
    · intro hm; simp at hm
    · intro h0
      rw [h0] at hsq
      nlinarith [sq_nonneg (2 * a * t + b)]
  · simp only [h, if_false, sub_fin, div_fin_ne h2a, List.mem_cons, List.not_mem_nil, or_false, XNum.fin.injEq, eq_div_iff h2a]
    have hs : Real.sqrt (b * b - 4 * a * c) ^ 2 = b * b - 4 * a * c := Real.sq_sqrt (not_lt.1 h)
    have : a * t ^ 2 + b * t + c = 0 ↔ (t * (2 * a) - (Real.sqrt (b * b - 4 * a * c) - b)) *
        (t * (2 * a) - (-b - Real.sqrt (b * b - 4 * a * c))) = 0 := by
      have e : (t * (2 * a) - (Real.sqrt (b * b - 4 * a * c) - b)) *
          (t * (2 * a) - (-b - Real.sqrt (b * b - 4 * a * c))) = 4 * a * (a * t ^ 2 + b * t + c) := by
        linear_combination -hs
      rw [e, mul_eq_zero, or_iff_right (mul_ne_zero (by norm_num) ha)]
    rw [this, mul_eq_zero, sub_eq_zero, sub_eq_zero]

/-- The coefficients of the polynomial form. -/
theorem bernstein_poly (pa pb pc pd t : ℝ) : bernstein pa pb pc pd t =
    (-pa + 3 * pb - 3 * pc + pd) * t ^ 3 + (3 * pa - 6 * pb + 3 * pc) * t ^ 2 + (-3 * pa + 3 * pb) * t + pa := by
  unfold bernstein; ring

theorem approx_fin (a b : ℝ) : approx (fin a) (fin b) = decide (|a - b| ≤ 1 / 1000000) := by
  simp only [approx, sub_fin, abs_fin, lit_fin, le_fin]
  norm_num

/-- `bernsteinRoots` on finite numbers, by cases. -/
theorem bernsteinRoots_eq (pa pb pc pd : ℝ) :
    bernsteinRoots (fin pa) (fin pb) (fin pc) (fin pd) =
      let d := -pa + 3 * pb - 3 * pc + pd
      let a := 3 * pa - 6 * pb + 3 * pc
      let b := -3 * pa + 3 * pb
      if |d| ≤ 1 / 1000000 then
        if |a| ≤ 1 / 1000000 then
          if |b| ≤ 1 / 1000000 then [] else inUnit [fin (-pa / b)]
        else inUnit [(Trig.sqrt (fin b *. fin b -. fin 4 *. fin a *. fin pa) -. fin b) /. (fin 2 *. fin a),
          ((-. fin b) -. Trig.sqrt (fin b *. fin b -. fin 4 *. fin a *. fin pa)) /. (fin 2 *. fin a)]
      else inUnit (cubicRoots (fin (a / d)) (fin (b / d)) (fin (pa / d))) := by
  have hne : ∀ {x : ℝ}, ¬ |x| ≤ 1 / 1000000 → x ≠ 0 := by
    rintro x h rfl; apply h; norm_num
  unfold bernsteinRoots
  simp only [lit_zero_fin, zero_fin, mul_fin, sub_fin, add_fin, neg_fin, approx_fin, sub_zero]
  push_cast
  simp only [sub_zero]
  by_cases hd : |-pa + 3 * pb - 3 * pc + pd| ≤ 1 / 1000000
  · by_cases ha : |3 * pa - 6 * pb + 3 * pc| ≤ 1 / 1000000
    · by_cases hb : |-3 * pa + 3 * pb| ≤ 1 / 1000000
      · simp only [hd, ha, hb, decide_true, if_true]
      · simp only [hd, ha, hb, decide_true, decide_false, if_true, if_false, Bool.false_eq_true, div_fin_ne (hne hb)]
    · simp only [hd, ha, decide_true, decide_false, if_true, if_false, Bool.false_eq_true]
  · simp only [hd, decide_false, if_false, Bool.false_eq_true, div_fin_ne (hne hd)]

theorem mem_inUnit_iff {l : List (XNum ℝ)} {t : ℝ} : fin t ∈ inUnit l ↔ fin t ∈ l ∧ 0 ≤ t ∧ t ≤ 1 := by
  constructor
  · intro h
    obtain ⟨h1, s, e, h2⟩ := inUnit_fin h
    cases e
    exact ⟨h1, h2⟩
  · rintro ⟨h, h0, h1⟩; exact mem_inUnit h h0 h1

theorem bernsteinRoots_fin {pa pb pc pd : ℝ} {x : XNum ℝ} (h : x ∈ bernsteinRoots (fin pa) (fin pb) (fin pc) (fin pd)) :
    ∃ t : ℝ, x = fin t ∧ 0 ≤ t ∧ t ≤ 1 := by
  rw [bernsteinRoots_eq] at h
  simp only at h
  split at h
  · split at h
    · split at h
      · cases h
      · exact (inUnit_fin h).2
    · exact (inUnit_fin h).2
  · exact (inUnit_fin h).2

theorem ne_zero_of_not_small {x : ℝ} (h : ¬ |x| ≤ 1 / 1000000) : x ≠ 0 := by
  rintro rfl; apply h; norm_num

/-- A properly cubic polynomial: the reported parameters are exactly its zeros in the interval. -/
theorem bernsteinRoots_cubic {pa pb pc pd t : ℝ} (hd : ¬ |-pa + 3 * pb - 3 * pc + pd| ≤ 1 / 1000000) :
    fin t ∈ bernsteinRoots (fin pa) (fin pb) (fin pc) (fin pd) ↔ bernstein pa pb pc pd t = 0 ∧ 0 ≤ t ∧ t ≤ 1 := by
  rw [bernsteinRoots_eq]
  simp only [hd, if_false]
  have hd0 := ne_zero_of_not_small hd
  rw [mem_inUnit_iff, cubicRoots_iff, bernstein_poly]
  set d := -pa + 3 * pb - 3 * pc + pd
  have e : ∀ a b : ℝ, d * t ^ 3 + a * t ^ 2 + b * t + pa = d * (t ^ 3 + a / d * t ^ 2 + b / d * t + pa / d) := by
    intro a b; field_simp
  rw [e, mul_eq_zero, or_iff_right hd0]

/-- Whatever the coefficients, a reported parameter is a zero up to `2e-6`. -/
theorem bernsteinRoots_small {pa pb pc pd t : ℝ} (h : fin t ∈ bernsteinRoots (fin pa) (fin pb) (fin pc) (fin pd)) :
    |bernstein pa pb pc pd t| ≤ 2 / 1000000 := by
  by_cases hd : |-pa + 3 * pb - 3 * pc + pd| ≤ 1 / 1000000
  · obtain ⟨s, e, h0, h1⟩ := bernsteinRoots_fin h
    cases e
    have t3 : t ^ 3 ≤ 1 := pow_le_one₀ h0 h1
    have t2 : t ^ 2 ≤ 1 := pow_le_one₀ h0 h1
    have p3 : 0 ≤ t ^ 3 := pow_nonneg h0 3
    have p2 : 0 ≤ t ^ 2 := pow_nonneg h0 2
    rw [bernsteinRoots_eq] at h
    simp only [hd, if_true] at h
    rw [bernstein_poly]
    set d := -pa + 3 * pb - 3 * pc + pd
    have hdt : |d * t ^ 3| ≤ 1 / 1000000 := by
      rw [abs_mul, abs_of_nonneg p3]
      exact (mul_le_of_le_one_right (abs_nonneg _) t3).trans hd
    by_cases ha : |3 * pa - 6 * pb + 3 * pc| ≤ 1 / 1000000
    · by_cases hb : |-3 * pa + 3 * pb| ≤ 1 / 1000000
      · simp only [ha, hb, if_true] at h; cases h
      · simp only [ha, hb, if_true, if_false] at h
        obtain ⟨hm, -, -⟩ := mem_inUnit_iff.1 h
        rw [List.mem_singleton] at hm
        injection hm with hm
        have hb0 := ne_zero_of_not_small hb
        have hlin : (-3 * pa + 3 * pb) * t + pa = 0 := by rw [eq_div_iff hb0] at hm; linarith
        set a := 3 * pa - 6 * pb + 3 * pc
        have hat : |a * t ^ 2| ≤ 1 / 1000000 := by
          rw [abs_mul, abs_of_nonneg p2]
          exact (mul_le_of_le_one_right (abs_nonneg _) t2).trans ha
        have : d * t ^ 3 + a * t ^ 2 + (-3 * pa + 3 * pb) * t + pa = d * t ^ 3 + a * t ^ 2 := by linarith
        rw [this]
        exact (abs_add_le _ _).trans (by linarith)
    · simp only [ha, if_false] at h
      obtain ⟨hm, -, -⟩ := mem_inUnit_iff.1 h
      rw [quadRoots_iff _ _ _ (ne_zero_of_not_small ha)] at hm
      set a := 3 * pa - 6 * pb + 3 * pc
      have : d * t ^ 3 + a * t ^ 2 + (-3 * pa + 3 * pb) * t + pa = d * t ^ 3 := by linarith
      rw [this]
      linarith
  · rw [((bernsteinRoots_cubic hd).1 h).1]; norm_num

/-- A number that is either zero or not tiny. -/
def NotTiny (x : ℝ) : Prop := x = 0 ∨ 1 / 1000000 < |x|

/-- No coefficient of the polynomial form is tiny without being zero, and it is not the zero polynomial: then the reported
parameters are exactly the zeros. -/
theorem bernsteinRoots_iff {pa pb pc pd t : ℝ} (hd : NotTiny (-pa + 3 * pb - 3 * pc + pd)) (ha : NotTiny (3 * pa - 6 * pb + 3 * pc))
    (hb : NotTiny (-3 * pa + 3 * pb)) (hne : ¬ (pa = 0 ∧ pb = 0 ∧ pc = 0 ∧ pd = 0)) :
    fin t ∈ bernsteinRoots (fin pa) (fin pb) (fin pc) (fin pd) ↔ bernstein pa pb pc pd t = 0 ∧ 0 ≤ t ∧ t ≤ 1 := by
  rcases hd with hd | hd
  swap
  · exact bernsteinRoots_cubic (not_le.2 hd)
  have hd' : |-pa + 3 * pb - 3 * pc + pd| ≤ 1 / 1000000 := by rw [hd]; norm_num
  rw [bernsteinRoots_eq, bernstein_poly]
  simp only [hd', if_true]
  rw [hd]
  rcases ha with ha | ha
  swap
  · simp only [not_le.2 ha, if_false]
    rw [mem_inUnit_iff, quadRoots_iff _ _ _ (ne_zero_of_not_small (not_le.2 ha))]
    simp only [zero_mul, zero_add]
  have ha' : |3 * pa - 6 * pb + 3 * pc| ≤ 1 / 1000000 := by rw [ha]; norm_num
  simp only [ha', if_true]
  rw [ha]
  rcases hb with hb | hb
  swap
  · simp only [not_le.2 hb, if_false]
    have hb0 := ne_zero_of_not_small (not_le.2 hb)
    rw [mem_inUnit_iff, List.mem_singleton, XNum.fin.injEq, eq_div_iff hb0]
    simp only [zero_mul, zero_add]
    constructor
    · rintro ⟨h, h'⟩; exact ⟨by linarith, h'⟩
    · rintro ⟨h, h'⟩; exact ⟨by linarith, h'⟩
  have hb' : |-3 * pa + 3 * pb| ≤ 1 / 1000000 := by rw [hb]; norm_num
  simp only [hb', if_true, List.not_mem_nil, false_iff]
  rw [hb]
  rintro ⟨h, -⟩
  apply hne
  simp only [zero_mul, zero_add] at h
  refine ⟨h, ?_, ?_, ?_⟩ <;> linarith

/-- Twice the signed area of the triangle `l1 l2 p`: zero exactly when `p` is on the line through `l1` and `l2`. -/
def cross (l1 l2 : Point ℝ) (p : ℝ × ℝ) : ℝ := (l2.x - l1.x) * (p.2 - l1.y) - (l2.y - l1.y) * (p.1 - l1.x)

/-- The distance of two points. -/
noncomputable def len (l1 l2 : Point ℝ) : ℝ := Real.sqrt ((l2.x - l1.x) ^ 2 + (l2.y - l1.y) ^ 2)

theorem norm_mk (x y : ℝ) : ‖(⟨x, y⟩ : ℂ)‖ = Real.sqrt (x ^ 2 + y ^ 2) := by
  rw [Complex.norm_def, Complex.normSq_mk]
  congr 1; ring

/-- The aligned ordinate is the signed distance from the line. -/
theorem alignY_fin (p l1 l2 : Point ℝ) : ∃ h : ℝ, alignY (finPoint p) (finPoint l1) (finPoint l2) = fin h ∧
    len l1 l2 * h = cross l1 l2 (p.x, p.y) := by
  simp only [alignY, finPoint, sub_fin, atan2_fin, neg_fin, sin_fin, cos_fin, mul_fin, add_fin]
  refine ⟨_, rfl, ?_⟩
  have h1 := Complex.norm_mul_cos_arg (⟨l2.x - l1.x, l2.y - l1.y⟩ : ℂ)
  have h2 := Complex.norm_mul_sin_arg (⟨l2.x - l1.x, l2.y - l1.y⟩ : ℂ)
  rw [norm_mk] at h1 h2
  rw [Real.sin_neg, Real.cos_neg]
  simp only [len, cross]
  simp only at h1 h2
  linear_combination (p.y - l1.y) * h1 - (p.x - l1.x) * h2

theorem len_pos {l1 l2 : Point ℝ} (h : l1 ≠ l2) : 0 < len l1 l2 := by
  apply Real.sqrt_pos.2
  by_contra hcon
  apply h
  have hx : l2.x - l1.x = 0 := by nlinarith [sq_nonneg (l2.x - l1.x), sq_nonneg (l2.y - l1.y)]
  have hy : l2.y - l1.y = 0 := by nlinarith [sq_nonneg (l2.x - l1.x), sq_nonneg (l2.y - l1.y)]
  cases l1; cases l2
  simp only at hx hy
  congr 1 <;> linarith

theorem cross_curveAt (c : Curve ℝ) (l1 l2 : Point ℝ) (t : ℝ) :
    bernstein (cross l1 l2 (c.p0.x, c.p0.y)) (cross l1 l2 (c.p1.x, c.p1.y)) (cross l1 l2 (c.p2.x, c.p2.y))
      (cross l1 l2 (c.p3.x, c.p3.y)) t = cross l1 l2 (curveAt c t) := by
  simp only [cross, curveAt, bernstein]; ring

theorem bernstein_smul (k a b c d t : ℝ) : bernstein (k * a) (k * b) (k * c) (k * d) t = k * bernstein a b c d t := by
  simp only [bernstein]; ring

/-- The four aligned ordinates of a curve. -/
theorem roots_fin (c : Curve ℝ) (l1 l2 : Point ℝ) : ∃ pa pb pc pd : ℝ,
    roots (finCurve c) (finPoint l1) (finPoint l2) = bernsteinRoots (fin pa) (fin pb) (fin pc) (fin pd) ∧
    len l1 l2 * pa = cross l1 l2 (c.p0.x, c.p0.y) ∧ len l1 l2 * pb = cross l1 l2 (c.p1.x, c.p1.y) ∧
    len l1 l2 * pc = cross l1 l2 (c.p2.x, c.p2.y) ∧ len l1 l2 * pd = cross l1 l2 (c.p3.x, c.p3.y) ∧
    ∀ t, len l1 l2 * bernstein pa pb pc pd t = cross l1 l2 (curveAt c t) := by
  obtain ⟨pa, ha, ha'⟩ := alignY_fin c.p0 l1 l2
  obtain ⟨pb, hb, hb'⟩ := alignY_fin c.p1 l1 l2
  obtain ⟨pc, hc, hc'⟩ := alignY_fin c.p2 l1 l2
  obtain ⟨pd, hd, hd'⟩ := alignY_fin c.p3 l1 l2
  refine ⟨pa, pb, pc, pd, ?_, ha', hb', hc', hd', fun t => ?_⟩
  · simp only [roots, finCurve, ha, hb, hc, hd]
  · rw [← cross_curveAt, ← ha', ← hb', ← hc', ← hd', bernstein_smul]

theorem between_fin (r a b : ℝ) : between (fin r) (fin a) (fin b) =
    decide (|r - a| ≤ 1 / 1000000 ∨ |r - b| ≤ 1 / 1000000 ∨ (a ≤ r ∧ r ≤ b) ∨ (r ≤ a ∧ b ≤ r)) := by
  simp only [between, approx_fin, le_fin]
  by_cases h1 : |r - a| ≤ 1 / 1000000
  · simp only [h1, decide_true, Bool.true_or, if_true, true_or]
  · by_cases h2 : |r - b| ≤ 1 / 1000000
    · simp only [h2, decide_true, Bool.or_true, if_true, true_or, or_true]
    · simp only [h1, h2, decide_false, Bool.or_self, Bool.false_eq_true, if_false, false_or]
      rw [Bool.eq_iff_iff]
      simp

/-- `between` accepts what is between, up to `1e-6`. -/
theorem between_imp {r a b : ℝ} (h : between (fin r) (fin a) (fin b) = true) :
    min a b - 1 / 1000000 ≤ r ∧ r ≤ max a b + 1 / 1000000 := by
  rw [between_fin, decide_eq_true_eq] at h
  have e : (0 : ℝ) ≤ 1 / 1000000 := by norm_num
  have h1 := min_le_left a b
  have h2 := min_le_right a b
  have h3 := le_max_left a b
  have h4 := le_max_right a b
  rcases h with h | h | ⟨h, h'⟩ | ⟨h, h'⟩
  · rw [abs_le] at h; exact ⟨by linarith [h.1], by linarith [h.2]⟩
  · rw [abs_le] at h; exact ⟨by linarith [h.1], by linarith [h.2]⟩
  · exact ⟨by linarith, by linarith⟩
  · exact ⟨by linarith, by linarith⟩

theorem mem_intersectsLine {c : Curve ℝ} {l1 l2 : Point ℝ} {x : XNum ℝ} :
    x ∈ intersectsLine (finCurve c) (finPoint l1) (finPoint l2) ↔ x ∈ roots (finCurve c) (finPoint l1) (finPoint l2) ∧
      between (findPoint (finCurve c) x).x (fin (min l1.x l2.x)) (fin (max l1.x l2.x)) = true ∧
      between (findPoint (finCurve c) x).y (fin (min l1.y l2.y)) (fin l2.y) = true := by
  simp only [intersectsLine, List.mem_filter, Bool.and_eq_true, finPoint, min_fin, max_fin, max_self]

end Verif.Bezier
