import Verif.Double

/-!
# Error bounds for doubles

`Near x q m e`: the double `x` is finite, at most `m` in absolute value, and differs from `q` by at most `e`. The lemmas tell what an operation does to the
bounds, so the error of a formula is found by composing them.
-/

namespace Verif.Double

open Verif

/-- Half a unit in the last place of 1. -/
abbrev eps : ℚ := 1 / 9007199254740992

instance : DecidablePred Double.Finite := fun x =>
  match h : x.num with
  | .fin q => if hq : rnd q = q then .isTrue ⟨q, h, hq⟩ else .isFalse fun ⟨r, h1, h2⟩ => by
      rw [h, XNum.fin.injEq] at h1
      exact hq (h1 ▸ h2)
  | .pinf => .isFalse fun ⟨r, h1, _⟩ => by simp [h] at h1
  | .ninf => .isFalse fun ⟨r, h1, _⟩ => by simp [h] at h1
  | .nan => .isFalse fun ⟨r, h1, _⟩ => by simp [h] at h1

theorem eps_eq : eps = 2 ^ (-53 : ℤ) := by norm_num

/-- The error of rounding, with a bound for underflow. -/
theorem rnd_err (q : ℚ) : |rnd q - q| ≤ eps * |q| + 1 / 10 ^ 40 := by
  have key : ∀ q : ℚ, 0 ≤ q → |rnd q - q| ≤ eps * |q| + 1 / 10 ^ 40 := by
    intro q h
    rcases h.lt_or_eq with h' | rfl
    · rw [rnd_nonneg h]
      have hp := two_pow_pos (ulp q)
      have hq : q = q / 2 ^ ulp q * 2 ^ ulp q := by field_simp
      have hc := Decimal.roundHalfEven_close (div_nonneg (abs_nonneg q) hp.le)
      rw [abs_of_nonneg h] at hc ⊢
      have he : |(Decimal.roundHalfEven (q / 2 ^ ulp q) : ℚ) * 2 ^ ulp q - q| = |(Decimal.roundHalfEven (q / 2 ^ ulp q) : ℚ) - q / 2 ^ ulp q| * 2 ^ ulp q := by
        rw [← abs_of_pos hp, ← abs_mul, abs_of_pos hp, sub_mul, ← hq]
      rw [he]
      have h0 : 0 ≤ eps * q := mul_nonneg (by norm_num) h
      rcases le_total (-1074) (Int.log 2 |q| - 52) with hu | hu
      · have hu' : ulp q = Int.log 2 q - 52 := by rw [ulp, max_eq_left hu, abs_of_nonneg h]
        have hl : (2 : ℚ) ^ Int.log 2 q ≤ q := by exact_mod_cast Int.zpow_log_le_self (b := 2) (by norm_num) h'
        have h2 : (1 / 2 : ℚ) * 2 ^ ulp q = eps * 2 ^ Int.log 2 q := by
          rw [eps_eq, hu', sub_eq_add_neg, zpow_add₀ (by norm_num), show (-53 : ℤ) = -52 + -1 by norm_num, zpow_add₀ (by norm_num)]
          norm_num
          ring
        calc _ ≤ (1 / 2 : ℚ) * 2 ^ ulp q := mul_le_mul_of_nonneg_right hc hp.le
          _ = eps * 2 ^ Int.log 2 q := h2
          _ ≤ eps * q := mul_le_mul_of_nonneg_left hl (by norm_num)
          _ ≤ _ := le_add_of_nonneg_right (by norm_num)
      · have hu' : ulp q = -1074 := max_eq_right hu
        calc _ ≤ (1 / 2 : ℚ) * 2 ^ ulp q := mul_le_mul_of_nonneg_right hc hp.le
          _ ≤ 1 / 10 ^ 40 := by rw [hu']; decide +kernel
          _ ≤ _ := le_add_of_nonneg_left h0
    · simp
  rcases le_total 0 q with h | h
  · exact key q h
  · have := key (-q) (by linarith)
    rw [rnd_neg, abs_neg, ← abs_neg] at this
    convert this using 2
    ring

/-- The double `x` is finite, at most `m` in absolute value, and `e` away from `q`. -/
structure Near (x : Double) (q m e : ℚ) : Prop where
  fin : x.Finite
  mag : |x.val| ≤ m
  err : |x.val - q| ≤ e

theorem Near.mono {x : Double} {q m e m' e' : ℚ} (h : Near x q m e) (hm : m ≤ m') (he : e ≤ e') : Near x q m' e' :=
  ⟨h.fin, h.mag.trans hm, h.err.trans he⟩

/-- A given number has no error. -/
theorem Near.self {x : Double} {m : ℚ} (h : x.Finite) (hm : |x.val| ≤ m) : Near x x.val m 0 := ⟨h, hm, by simp⟩

theorem Near.mag_nonneg {x : Double} {q m e : ℚ} (h : Near x q m e) : 0 ≤ m := (abs_nonneg _).trans h.mag

theorem Near.err_nonneg {x : Double} {q m e : ℚ} (h : Near x q m e) : 0 ≤ e := (abs_nonneg _).trans h.err

/-- The rounding of an exact result. -/
theorem near_of {r q m e : ℚ} (hr : |r| ≤ m) (he : |r - q| ≤ e) (hm : m ≤ 10 ^ 200) :
    Near (of (.fin r)) q (m * (1 + eps) + 1 / 10 ^ 40) (e + (eps * m + 1 / 10 ^ 40)) := by
  have h1 := rnd_err r
  have h2 : eps * |r| ≤ eps * m := mul_le_mul_of_nonneg_left hr (by norm_num)
  have h3 : |rnd r| ≤ |rnd r - r| + |r| := by
    have := abs_add_le (rnd r - r) r
    rwa [sub_add_cancel] at this
  have h4 : |rnd r| ≤ m * (1 + eps) + 1 / 10 ^ 40 := by linarith
  have h5 : (10 : ℚ) ^ 200 * (1 + eps) + 1 / 10 ^ 40 ≤ big := by decide +kernel
  have h6 : m * (1 + eps) ≤ 10 ^ 200 * (1 + eps) := mul_le_mul_of_nonneg_right hm (by norm_num)
  rw [of_fin (by linarith)]
  refine ⟨⟨_, rfl, rnd_rnd r⟩, h4, ?_⟩
  show |rnd r - q| ≤ _
  have := abs_add_le (rnd r - r) (r - q)
  rw [sub_add_sub_cancel] at this
  linarith

theorem add_eq_of {a b : Double} (ha : a.Finite) (hb : b.Finite) : a +. b = of (.fin (a.val + b.val)) := by
  show of (a.num +. b.num) = _
  conv_lhs => rw [ha.eq.1, hb.eq.1]
  rfl

theorem sub_eq_of {a b : Double} (ha : a.Finite) (hb : b.Finite) : a -. b = of (.fin (a.val - b.val)) := by
  show of (a.num -. b.num) = _
  conv_lhs => rw [ha.eq.1, hb.eq.1]
  simp only [XNum.sub_fin]

theorem mul_eq_of {a b : Double} (ha : a.Finite) (hb : b.Finite) : a *. b = of (.fin (a.val * b.val)) := by
  show of (a.num *. b.num) = _
  conv_lhs => rw [ha.eq.1, hb.eq.1]
  rfl

theorem div_eq_of {a b : Double} (ha : a.Finite) (hb : b.Finite) (h0 : b.val ≠ 0) : a /. b = of (.fin (a.val / b.val)) := by
  show of (a.num /. b.num) = _
  conv_lhs => rw [ha.eq.1, hb.eq.1]
  congr 1
  show XNum.div _ _ = _
  simp [XNum.div, h0]

theorem Near.add {x y : Double} {p q m e m' e' : ℚ} (hx : Near x p m e) (hy : Near y q m' e') (hm : m + m' ≤ 10 ^ 200) :
    Near (x +. y) (p + q) ((m + m') * (1 + eps) + 1 / 10 ^ 40) (e + e' + (eps * (m + m') + 1 / 10 ^ 40)) := by
  rw [add_eq_of hx.fin hy.fin]
  refine near_of ((abs_add_le _ _).trans (add_le_add hx.mag hy.mag)) ?_ hm
  rw [show x.val + y.val - (p + q) = (x.val - p) + (y.val - q) by ring]
  exact (abs_add_le _ _).trans (add_le_add hx.err hy.err)

theorem Near.sub {x y : Double} {p q m e m' e' : ℚ} (hx : Near x p m e) (hy : Near y q m' e') (hm : m + m' ≤ 10 ^ 200) :
    Near (x -. y) (p - q) ((m + m') * (1 + eps) + 1 / 10 ^ 40) (e + e' + (eps * (m + m') + 1 / 10 ^ 40)) := by
  rw [sub_eq_of hx.fin hy.fin]
  refine near_of ((abs_sub _ _).trans (add_le_add hx.mag hy.mag)) ?_ hm
  rw [show x.val - y.val - (p - q) = (x.val - p) - (y.val - q) by ring]
  exact (abs_sub _ _).trans (add_le_add hx.err hy.err)

theorem Near.mul {x y : Double} {p q m e m' e' : ℚ} (hx : Near x p m e) (hy : Near y q m' e') (hm : m * m' ≤ 10 ^ 200) :
    Near (x *. y) (p * q) (m * m' * (1 + eps) + 1 / 10 ^ 40) (m * e' + e * (m' + e') + (eps * (m * m') + 1 / 10 ^ 40)) := by
  rw [mul_eq_of hx.fin hy.fin]
  refine near_of (by rw [abs_mul]; exact mul_le_mul hx.mag hy.mag (abs_nonneg _) hx.mag_nonneg) ?_ hm
  rw [show x.val * y.val - p * q = x.val * (y.val - q) + (x.val - p) * q by ring]
  have hq : |q| ≤ m' + e' := by
    have := abs_add_le (q - y.val) y.val
    rw [sub_add_cancel, abs_sub_comm] at this
    linarith [hy.mag, hy.err]
  refine (abs_add_le _ _).trans (add_le_add ?_ ?_)
  · rw [abs_mul]
    exact mul_le_mul hx.mag hy.err (abs_nonneg _) hx.mag_nonneg
  · rw [abs_mul]
    exact mul_le_mul hx.err hq (abs_nonneg _) hx.err_nonneg

/-- A quotient by a given number that is not small. -/
theorem Near.div {x y : Double} {p m e d : ℚ} (hx : Near x p m e) (hy : y.Finite) (hd : 0 < d) (hyd : d ≤ |y.val|) (hm : m / d ≤ 10 ^ 200) :
    Near (x /. y) (p / y.val) (m / d * (1 + eps) + 1 / 10 ^ 40) (e / d + (eps * (m / d) + 1 / 10 ^ 40)) := by
  have h0 : y.val ≠ 0 := by
    intro h
    rw [h, abs_zero] at hyd
    linarith
  rw [div_eq_of hx.fin hy h0]
  have key : ∀ a b : ℚ, |a| ≤ b → |a / y.val| ≤ b / d := by
    intro a b h
    rw [abs_div]
    exact div_le_div₀ ((abs_nonneg _).trans h) h hd hyd
  refine near_of (key _ _ hx.mag) ?_ hm
  rw [← sub_div]
  exact key _ _ hx.err

theorem eq_finite {a b : Double} (ha : a.Finite) (hb : b.Finite) : (a ==. b) = true ↔ a.val = b.val := by
  rw [ha.eq.1, hb.eq.1]
  show decide _ = true ↔ _
  exact decide_eq_true_iff

/-- Whole numbers up to `2 ^ 53` are exact. -/
theorem near_lit (n : Nat) (h : n ≤ 2 ^ 53) : Near (Arith.lit n 0 : Double) n n 0 := by
  have hr : rnd n = n := by
    have := rnd_digits (n := n) (k := 0) h (by norm_num)
    simpa using this
  have hb : |rnd (n : ℚ)| ≤ big := by
    rw [hr, abs_of_nonneg (Nat.cast_nonneg n)]
    have : (n : ℚ) ≤ 2 ^ 53 := by exact_mod_cast h
    have : (2 : ℚ) ^ 53 ≤ big := by decide +kernel
    linarith
  have e : (Arith.lit n 0 : Double) = ⟨.fin n⟩ := by
    show of (Arith.lit n 0) = _
    have : (Arith.lit n 0 : XNum ℚ) = .fin n := by
      show XNum.fin _ = _
      simp
    rw [this, of_fin hb, hr]
  rw [e]
  exact ⟨⟨_, rfl, hr⟩, (abs_of_nonneg (Nat.cast_nonneg n)).le, by show |(n : ℚ) - n| ≤ 0; simp⟩

theorem near_one : Near (Arith.one : Double) 1 1 0 := by
  have := near_lit 1 (by norm_num)
  simpa using this

theorem near_zero : Near (Arith.zero : Double) 0 0 0 := by
  have := near_lit 0 (by norm_num)
  simpa using this

theorem one_val : (Arith.one : Double).val = 1 := by decide +kernel

theorem zero_val : (Arith.zero : Double).val = 0 := by decide +kernel

/-- `1 - t` for a parameter. -/
theorem near_one_sub {t : Double} (ht : t.Finite) (h0 : 0 ≤ t.val) (h1 : t.val ≤ 1) :
    Near (Arith.one -. t) (1 - t.val) (1001 / 1000) (1001 / 1000 * eps) := by
  rw [sub_eq_of near_one.fin ht, one_val]
  refine (near_of (m := 1) (e := 0) ?_ (by simp) (by norm_num)).mono (by norm_num) (by norm_num)
  rw [abs_of_nonneg (by linarith)]
  linarith

/-- A double is its own rounding. -/
theorem of_val {a : Double} (h : a.Finite) (hb : |a.val| ≤ big) : of (.fin a.val) = a := by
  obtain ⟨h1, h2⟩ := h.eq
  rw [of_fin (by rw [h2]; exact hb), h2, ← h1]

/-- What is not smaller than the smallest double is not rounded to zero. -/
theorem rnd_pos_of_le {q : ℚ} (h : 2 ^ (-1074 : ℤ) ≤ q) : 0 < rnd q := by
  have hq : 0 < q := (two_pow_pos _).trans_le h
  have hp := two_pow_pos (ulp q)
  have hu : (2 : ℚ) ^ ulp q ≤ q := by
    rcases le_total (Int.log 2 |q| - 52) (-1074) with hu | hu
    · rw [ulp, max_eq_right hu]; exact h
    · rw [ulp, max_eq_left hu, abs_of_pos hq]
      have hl : (2 : ℚ) ^ Int.log 2 q ≤ q := by exact_mod_cast Int.zpow_log_le_self (b := 2) (by norm_num) hq
      exact (zpow_le_zpow_right₀ (by norm_num) (by omega)).trans hl
  have hd : 1 ≤ |q| / 2 ^ ulp q := by
    rw [abs_of_pos hq, le_div_iff₀ hp, one_mul]
    exact hu
  have hc := (abs_le.1 (Decimal.roundHalfEven_close (div_nonneg (abs_nonneg q) hp.le))).1
  have : (0 : ℚ) < Decimal.roundHalfEven (|q| / 2 ^ ulp q) := by linarith
  rw [rnd_nonneg hq.le]
  exact mul_pos this hp

/-- A positive double is not smaller than the smallest one. -/
theorem le_of_grid {q : ℚ} (h : 0 < q) (hg : Grid q) : 2 ^ (-1074 : ℤ) ≤ q := by
  obtain ⟨n, rfl⟩ := hg
  have hp := two_pow_pos (-1074)
  have : (0 : ℚ) < n := by
    by_contra hc
    have := mul_nonpos_of_nonpos_of_nonneg (not_lt.1 hc) hp.le
    linarith
  have : 0 < n := by exact_mod_cast this
  have : (1 : ℚ) ≤ n := by exact_mod_cast this
  calc (2 : ℚ) ^ (-1074 : ℤ) = 1 * 2 ^ (-1074 : ℤ) := (one_mul _).symm
    _ ≤ _ := mul_le_mul_of_nonneg_right this hp.le

theorem finite_rnd (q : ℚ) : Double.Finite ⟨.fin (rnd q)⟩ := ⟨rnd q, rfl, rnd_rnd q⟩

/-- A ratio of differences of parameters: three roundings. -/
theorem ratio_near {s t : Double} (hs : s.Finite) (ht : t.Finite) (h0 : 0 ≤ s.val) (h1 : s.val < t.val) (h2 : t.val ≤ 1) (h3 : s.val < 1) :
    ((t -. s) /. (Arith.one -. s)).Finite ∧ 0 < ((t -. s) /. (Arith.one -. s)).val ∧
      |((t -. s) /. (Arith.one -. s)).val - (t.val - s.val) / (1 - s.val)| ≤ 4 * eps := by
  have g1 : Grid (t.val - s.val) := (grid_rnd ht.eq.2).sub (grid_rnd hs.eq.2)
  have g2 : Grid (1 - s.val) := by
    have := (grid_rnd near_one.fin.eq.2).sub (grid_rnd hs.eq.2)
    rwa [one_val] at this
  have hb : ∀ x : ℚ, 0 ≤ x → x ≤ 2 → |x| ≤ big := by
    intro x h h'
    have : (2 : ℚ) ≤ big := by decide +kernel
    rw [abs_of_nonneg h]
    linarith
  obtain ⟨n, hn⟩ : ∃ n, n = rnd (t.val - s.val) := ⟨_, rfl⟩
  obtain ⟨d, hd⟩ : ∃ d, d = rnd (1 - s.val) := ⟨_, rfl⟩
  have n1 := rnd_near_nonneg (by linarith) g1
  have d1 := rnd_near_nonneg (by linarith) g2
  have n0 := rnd_pos (by linarith) g1
  have d0 := rnd_pos (by linarith) g2
  have n2 : rnd (t.val - s.val) ≤ 1 := rnd_le (by linarith) (by linarith) (by decide +kernel)
  have d2 : rnd (1 - s.val) ≤ 1 := rnd_le (by linarith) (by linarith) (by decide +kernel)
  have ng : 2 ^ (-1074 : ℤ) ≤ n := by
    rw [hn]
    exact le_of_grid n0 (grid_rnd (rnd_rnd _))
  rw [← eps_eq] at n1 d1
  rw [← hn] at n0 n1 n2
  rw [← hd] at d0 d1 d2
  have e1 : t -. s = ⟨.fin n⟩ := by
    rw [sub_eq_of ht hs, of_fin (hb _ (by rw [← hn]; exact n0.le) (by rw [← hn]; linarith)), ← hn]
  have e2 : (Arith.one : Double) -. s = ⟨.fin d⟩ := by
    rw [sub_eq_of near_one.fin hs, one_val, of_fin (hb _ (by rw [← hd]; exact d0.le) (by rw [← hd]; linarith)), ← hd]
  rw [e1, e2]
  have f1 : Double.Finite ⟨.fin n⟩ := by rw [hn]; exact finite_rnd _
  have f2 : Double.Finite ⟨.fin d⟩ := by rw [hd]; exact finite_rnd _
  rw [abs_le] at n1 d1
  have x0 : 0 < 1 - s.val := by linarith
  have y0 : 0 < t.val - s.val := by linarith
  have yx : t.val - s.val ≤ 1 - s.val := by linarith
  generalize 1 - s.val = x at *
  generalize t.val - s.val = y at *
  obtain ⟨r, hr⟩ : ∃ r, r = y / x := ⟨_, rfl⟩
  have hyx : y = r * x := by rw [hr]; field_simp
  have r1 : r ≤ 1 := by rw [hr]; exact (div_le_one x0).2 yx
  have r0 : 0 ≤ r := by rw [hr]; exact div_nonneg y0.le x0.le
  rw [← hr]
  have q1 : n / d ≤ r * (1 + 5 / 2 * eps) := by
    rw [div_le_iff₀ d0]
    have k1 : y * (1 + eps) ≤ r * (1 + 5 / 2 * eps) * (x * (1 - eps)) := by
      rw [show r * (1 + 5 / 2 * eps) * (x * (1 - eps)) = (r * x) * ((1 + 5 / 2 * eps) * (1 - eps)) by ring, ← hyx]
      exact mul_le_mul_of_nonneg_left (by norm_num) y0.le
    have hz : 0 ≤ r * (1 + 5 / 2 * eps) := mul_nonneg r0 (by norm_num)
    have k2 : r * (1 + 5 / 2 * eps) * (x * (1 - eps)) ≤ r * (1 + 5 / 2 * eps) * d := mul_le_mul_of_nonneg_left (by linarith [d1.1]) hz
    refine le_trans ?_ (k1.trans k2)
    linarith [n1.2]
  have q2 : r * (1 - 5 / 2 * eps) ≤ n / d := by
    rw [le_div_iff₀ d0]
    have k1 : r * (1 - 5 / 2 * eps) * (x * (1 + eps)) ≤ y * (1 - eps) := by
      rw [show r * (1 - 5 / 2 * eps) * (x * (1 + eps)) = (r * x) * ((1 - 5 / 2 * eps) * (1 + eps)) by ring, ← hyx]
      exact mul_le_mul_of_nonneg_left (by norm_num) y0.le
    have hz : 0 ≤ r * (1 - 5 / 2 * eps) := mul_nonneg r0 (by norm_num)
    have k2 : r * (1 - 5 / 2 * eps) * d ≤ r * (1 - 5 / 2 * eps) * (x * (1 + eps)) := mul_le_mul_of_nonneg_left (by linarith [d1.2]) hz
    refine (k2.trans k1).trans ?_
    linarith [n1.1]
  have q3 : n / d ≤ 1 + 5 / 2 * eps := by
    have : r * (1 + 5 / 2 * eps) ≤ 1 * (1 + 5 / 2 * eps) := mul_le_mul_of_nonneg_right r1 (by norm_num)
    linarith
  have q4 : n ≤ n / d := by
    rw [le_div_iff₀ d0]
    nlinarith
  have q5 : 0 ≤ n / d := n0.le.trans q4
  have q6 : |n / d - r| ≤ 5 / 2 * eps := by
    have : r * (5 / 2 * eps) ≤ 1 * (5 / 2 * eps) := mul_le_mul_of_nonneg_right r1 (by norm_num)
    rw [abs_le]
    constructor <;> linarith
  rw [div_eq_of f1 f2 d0.ne']
  have hnear := near_of (r := n / d) (q := r) (m := 1 + 5 / 2 * eps) (by rw [abs_of_nonneg q5]; exact q3) q6 (by norm_num)
  refine ⟨hnear.fin, ?_, hnear.err.trans (by norm_num)⟩
  have hp := rnd_pos_of_le (ng.trans q4)
  have hm : |rnd (n / d)| ≤ big := by
    have h1 := rnd_err (n / d)
    have h2 : |rnd (n / d)| ≤ |rnd (n / d) - n / d| + |n / d| := by
      have := abs_add_le (rnd (n / d) - n / d) (n / d)
      rwa [sub_add_cancel] at this
    rw [abs_of_nonneg q5] at h1 h2
    have h3 : (10 : ℚ) ≤ big := by decide +kernel
    norm_num at h1 q3
    linarith
  show 0 < (of (.fin (n / d))).val
  rw [of_fin hm]
  exact hp

end Verif.Double
