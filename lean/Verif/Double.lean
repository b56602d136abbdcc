import Verif.NumClass
import Mathlib.Data.Int.Log

/-!
# IEEE doubles

Go's `float64` itself: the numbers `n * 2 ^ e` with at most 53 binary digits and `e ≥ -1074`, up to `(2 ^ 53 - 1) * 2 ^ 971`, the infinities and NaN. Every
operation is the exact one, rounded to the nearest such number, ties to even; a result whose rounding is too large is an infinity. As in `XNum` there
is a single zero, which counts as positive. The functions of package `math` that are not rounded correctly (`sin`, `pow`, ...) are not modelled for
doubles. Everything here can be computed.
-/

namespace Verif

/-- Go's `float64`. -/
structure Double where
  num : XNum ℚ
deriving Repr, DecidableEq

namespace Double

/-- The exponent of the last binary digit of a double of the size of `q`. -/
def ulp (q : ℚ) : ℤ := max (Int.log 2 |q| - 52) (-1074)

/-- Rounding to 53 binary digits, ties to even, without regard for overflow. -/
def rnd (q : ℚ) : ℚ :=
  let m : ℚ := (Decimal.roundHalfEven (|q| / 2 ^ ulp q) : ℚ) * 2 ^ ulp q
  if q < 0 then -m else m

/-- The largest double. -/
def big : ℚ := (2 ^ 53 - 1) * 2 ^ 971

/-- The double that is nearest to an exact result. -/
def of : XNum ℚ → Double
  | .fin q => if big < rnd q then ⟨.pinf⟩ else if rnd q < -big then ⟨.ninf⟩ else ⟨.fin (rnd q)⟩
  | x => ⟨x⟩

instance : Num Double where
  add a b := of (a.num +. b.num)
  sub a b := of (a.num -. b.num)
  mul a b := of (a.num *. b.num)
  div a b := of (a.num /. b.num)
  neg a := ⟨-. a.num⟩
  lit m e := of (Arith.lit m e)
  lt a b := a.num <. b.num
  le a b := a.num <=. b.num
  eq a b := a.num ==. b.num
  isNaN a := Arith.isNaN a.num
  fmt n a := Num.fmt n a.num
  /- a number that is too large is an error -/
  parse s := match (Num.parse s : Option (XNum ℚ)) with
    | some (.fin q) => match of (.fin q) with
      | ⟨.fin r⟩ => some ⟨.fin r⟩
      | _ => none
    | some x => some ⟨x⟩
    | none => none
  floor a := ⟨Num.floor a.num⟩
  round a := ⟨Num.round a.num⟩
  abs a := ⟨Num.abs a.num⟩
  max a b := ⟨Num.max a.num b.num⟩
  min a b := ⟨Num.min a.num b.num⟩

/-- The number that a double stands for (`0` for the infinities and NaN). -/
def val (a : Double) : ℚ :=
  match a.num with
  | .fin q => q
  | _ => 0

/-- A finite double. -/
def Finite (a : Double) : Prop := ∃ q, a.num = .fin q ∧ rnd q = q

/-- Famous: `0.1 + 0.2` is not `0.3`. -/
example : ((Arith.lit 1 1 +. Arith.lit 2 1 : Double) ==. Arith.lit 3 1) = false := by decide +kernel

/-- The double nearest to `0.1`. -/
example : (Arith.lit 1 1 : Double).val = 3602879701896397 / 2 ^ 55 := by decide +kernel

/-- `9007199254740993 = 2 ^ 53 + 1` is rounded to even. -/
example : (Arith.lit 9007199254740993 0 : Double).val = 9007199254740992 := by decide +kernel

/-! ## Rounding -/

theorem roundHalfEven_le {y : ℚ} (hy : 0 ≤ y) {m : Nat} (h : y ≤ m) : Decimal.roundHalfEven y ≤ m := by
  have := (abs_le.1 (Decimal.roundHalfEven_close hy)).2
  have : (Decimal.roundHalfEven y : ℚ) < (m : ℚ) + 1 := by linarith
  have : Decimal.roundHalfEven y < m + 1 := by exact_mod_cast this
  omega

theorem rnd_nonneg {q : ℚ} (h : 0 ≤ q) : rnd q = (Decimal.roundHalfEven (|q| / 2 ^ ulp q) : ℚ) * 2 ^ ulp q := by
  rw [rnd, if_neg (not_lt.2 h)]

theorem rnd_neg (q : ℚ) : rnd (-q) = -rnd q := by
  have hu : ulp (-q) = ulp q := by rw [ulp, ulp, abs_neg]
  rcases lt_trichotomy q 0 with h | h | h
  · rw [rnd, if_neg (by linarith), rnd, if_pos h, hu, abs_neg, neg_neg]
  · subst h
    rw [neg_zero, rnd_nonneg le_rfl, abs_zero, zero_div]
    have : Decimal.roundHalfEven (0 : ℚ) = 0 := by exact_mod_cast Decimal.roundHalfEven_nat (K := ℚ) 0
    simp [this]
  · rw [rnd, if_pos (by linarith), rnd, if_neg (by linarith), hu, abs_neg]

theorem zero_le_rnd {q : ℚ} (h : 0 ≤ q) : 0 ≤ rnd q := by
  rw [rnd_nonneg h]
  positivity

@[simp] theorem rnd_zero : rnd 0 = 0 := by
  have : Decimal.roundHalfEven (0 : ℚ) = 0 := by exact_mod_cast Decimal.roundHalfEven_nat (K := ℚ) 0
  rw [rnd_nonneg le_rfl, abs_zero, zero_div, this]
  simp

theorem two_pow_pos (e : ℤ) : (0 : ℚ) < 2 ^ e := zpow_pos (by norm_num) e

/-- A multiple of a power of two is one of a smaller power. -/
theorem multiple {e k : ℤ} (h : e ≤ k) (n : Nat) : ∃ m : Nat, (n : ℚ) * 2 ^ k = m * 2 ^ e := by
  obtain ⟨d, rfl⟩ : ∃ d : Nat, k = e + d := ⟨(k - e).toNat, by omega⟩
  refine ⟨n * 2 ^ d, ?_⟩
  rw [zpow_add₀ (by norm_num), zpow_natCast]
  push_cast
  ring

/-- A number that is not above a double is not rounded to above it. -/
theorem rnd_le {d a : ℚ} (hd : 0 ≤ d) (h : d ≤ a) (ha : rnd a = a) : rnd d ≤ a := by
  rcases hd.lt_or_eq with hd' | rfl
  · have hu : ulp d ≤ ulp a := by
      refine max_le_max (sub_le_sub_right ?_ _) le_rfl
      rw [abs_of_nonneg hd, abs_of_nonneg (hd.trans h)]
      exact Int.log_mono_right hd' h
    rw [rnd_nonneg (hd.trans h)] at ha
    obtain ⟨m, hm⟩ := multiple hu (Decimal.roundHalfEven (|a| / 2 ^ ulp a))
    rw [ha] at hm
    rw [rnd_nonneg hd, hm]
    refine mul_le_mul_of_nonneg_right ?_ (two_pow_pos _).le
    have : d / 2 ^ ulp d ≤ m := by
      rw [div_le_iff₀ (two_pow_pos _), ← hm]
      exact h
    rw [abs_of_nonneg hd]
    exact_mod_cast roundHalfEven_le (div_nonneg hd (two_pow_pos _).le) this
  · simpa using h

/-- The multiples of the smallest double: all doubles, their sums and differences. -/
def Grid (q : ℚ) : Prop := ∃ n : ℤ, q = n * 2 ^ (-1074 : ℤ)

theorem grid_rnd {q : ℚ} (h : rnd q = q) : Grid q := by
  obtain ⟨m, hm⟩ := multiple (e := -1074) (k := ulp q) (le_max_right _ _) (Decimal.roundHalfEven (|q| / 2 ^ ulp q))
  rw [rnd, hm] at h
  split at h
  · exact ⟨-m, by rw [← h]; push_cast; ring⟩
  · exact ⟨m, by rw [← h]; push_cast; ring⟩

theorem Grid.add {p q : ℚ} (hp : Grid p) (hq : Grid q) : Grid (p + q) := by
  obtain ⟨n, rfl⟩ := hp
  obtain ⟨m, rfl⟩ := hq
  exact ⟨n + m, by push_cast; ring⟩

theorem Grid.sub {p q : ℚ} (hp : Grid p) (hq : Grid q) : Grid (p - q) := by
  obtain ⟨n, rfl⟩ := hp
  obtain ⟨m, rfl⟩ := hq
  exact ⟨n - m, by push_cast; ring⟩

/-- The relative error of rounding is at most `2 ^ (-53)`, as long as there is no underflow. -/
theorem rnd_near_nonneg {q : ℚ} (h : 0 ≤ q) (hg : Grid q) : |rnd q - q| ≤ 2 ^ (-53 : ℤ) * q := by
  rcases h.lt_or_eq with h' | rfl
  · rw [rnd_nonneg h]
    have hp := two_pow_pos (ulp q)
    have hq : q = q / 2 ^ ulp q * 2 ^ ulp q := by field_simp
    have hc := Decimal.roundHalfEven_close (div_nonneg (abs_nonneg q) hp.le)
    rw [abs_of_nonneg h] at hc ⊢
    have he : |(Decimal.roundHalfEven (q / 2 ^ ulp q) : ℚ) * 2 ^ ulp q - q| = |(Decimal.roundHalfEven (q / 2 ^ ulp q) : ℚ) - q / 2 ^ ulp q| * 2 ^ ulp q := by
      rw [← abs_of_pos hp, ← abs_mul, abs_of_pos hp, sub_mul, ← hq]
    rw [he]
    rcases le_total (-1074) (Int.log 2 |q| - 52) with hu | hu
    · have hu' : ulp q = Int.log 2 q - 52 := by rw [ulp, max_eq_left hu, abs_of_nonneg h]
      have hl : (2 : ℚ) ^ Int.log 2 q ≤ q := by exact_mod_cast Int.zpow_log_le_self (b := 2) (by norm_num) h'
      have h2 : (1 / 2 : ℚ) * 2 ^ ulp q = 2 ^ (-53 : ℤ) * 2 ^ Int.log 2 q := by
        rw [hu', sub_eq_add_neg, zpow_add₀ (by norm_num), show (-53 : ℤ) = -52 + -1 by norm_num, zpow_add₀ (by norm_num)]
        norm_num
        ring
      calc _ ≤ (1 / 2 : ℚ) * 2 ^ ulp q := mul_le_mul_of_nonneg_right hc hp.le
        _ = 2 ^ (-53 : ℤ) * 2 ^ Int.log 2 q := h2
        _ ≤ _ := mul_le_mul_of_nonneg_left hl (two_pow_pos _).le
    · have hu' : ulp q = -1074 := max_eq_right hu
      obtain ⟨n, hn⟩ := hg
      have hn0 : 0 ≤ n := by
        by_contra hc
        have : (n : ℚ) < 0 := by exact_mod_cast not_le.1 hc
        have := mul_neg_of_neg_of_pos this (two_pow_pos (-1074))
        rw [hn] at h
        linarith
      obtain ⟨k, rfl⟩ := Int.eq_ofNat_of_zero_le hn0
      have hd : q / 2 ^ ulp q = (k : ℚ) := by
        rw [hu', hn, mul_div_assoc, div_self (two_pow_pos _).ne', mul_one]
        push_cast
        rfl
      rw [hd, Decimal.roundHalfEven_nat, sub_self, abs_zero, zero_mul]
      exact mul_nonneg (two_pow_pos _).le h
  · simp

/-- There is no underflow to zero. -/
theorem rnd_pos {q : ℚ} (h : 0 < q) (hg : Grid q) : 0 < rnd q := by
  have hn := rnd_near_nonneg h.le hg
  rw [abs_le] at hn
  have hs : (2 : ℚ) ^ (-53 : ℤ) < 1 := by decide +kernel
  nlinarith [hn.1]

theorem rnd_near {q : ℚ} (hg : Grid q) : |rnd q - q| ≤ 2 ^ (-53 : ℤ) * |q| := by
  rcases le_total 0 q with h | h
  · rw [abs_of_nonneg h]
    exact rnd_near_nonneg h hg
  · have := rnd_near_nonneg (q := -q) (by linarith) (by obtain ⟨n, rfl⟩ := hg; exact ⟨-n, by push_cast; ring⟩)
    rw [rnd_neg, ← abs_neg] at this
    rw [abs_of_nonpos h]
    convert this using 2
    ring

/-- A multiple of the last digit is a double. -/
theorem rnd_exact {q : ℚ} (h : 0 ≤ q) {k : ℤ} (hk : ulp q ≤ k) (n : Nat) (hq : q = n * 2 ^ k) : rnd q = q := by
  obtain ⟨m, hm⟩ := multiple hk n
  rw [hm] at hq
  have hd : |q| / 2 ^ ulp q = (m : ℚ) := by
    rw [abs_of_nonneg h, div_eq_iff (two_pow_pos _).ne']
    exact hq
  rw [rnd_nonneg h, hd, Decimal.roundHalfEven_nat, ← hq]

/-- Numbers with at most 53 binary digits are doubles. -/
theorem rnd_digits {n : Nat} {k : ℤ} (hn : n ≤ 2 ^ 53) (hk : -1074 ≤ k) : rnd (n * 2 ^ k) = n * 2 ^ k := by
  have h0 : (0 : ℚ) ≤ n * 2 ^ k := by positivity
  rcases n.eq_zero_or_pos with rfl | hpos
  · simp
  have hp : (0 : ℚ) < n * 2 ^ k := mul_pos (by exact_mod_cast hpos) (two_pow_pos k)
  rcases hn.lt_or_eq with hn | rfl
  · refine rnd_exact h0 (max_le ?_ hk) n rfl
    rw [abs_of_nonneg h0]
    have : Int.log 2 ((n : ℚ) * 2 ^ k) < k + 53 := by
      refine (Int.lt_zpow_iff_log_lt (by norm_num) hp).1 ?_
      push_cast
      rw [add_comm, zpow_add₀ (by norm_num)]
      refine mul_lt_mul_of_pos_right ?_ (two_pow_pos k)
      exact_mod_cast hn
    omega
  · have e : (((2 ^ 53 : Nat) : ℚ)) * 2 ^ k = ((2 : Nat) : ℚ) ^ (k + 53) := by
      push_cast
      rw [add_comm, zpow_add₀ (by norm_num)]
      rfl
    have e' : (((2 ^ 53 : Nat) : ℚ)) * 2 ^ k = ((2 ^ 52 : Nat) : ℚ) * 2 ^ (k + 1) := by
      push_cast
      rw [zpow_add₀ (by norm_num)]
      ring
    refine rnd_exact h0 (k := k + 1) ?_ (2 ^ 52) e'
    rw [ulp, abs_of_nonneg h0, e, Int.log_zpow (by norm_num)]
    omega

/-- Rounding twice is rounding once. -/
theorem rnd_rnd (q : ℚ) : rnd (rnd q) = rnd q := by
  have key : ∀ q : ℚ, 0 ≤ q → rnd (rnd q) = rnd q := by
    intro q h
    rcases h.lt_or_eq with h' | rfl
    · rw [rnd_nonneg h]
      refine rnd_digits ?_ (le_max_right _ _)
      refine roundHalfEven_le (div_nonneg (abs_nonneg _) (two_pow_pos _).le) ?_
      rw [abs_of_nonneg h, div_le_iff₀ (two_pow_pos _)]
      have hl : q < ((2 : Nat) : ℚ) ^ (Int.log 2 q + 1) := Int.lt_zpow_succ_log_self (by norm_num) q
      refine hl.le.trans ?_
      push_cast
      rw [show (9007199254740992 : ℚ) = 2 ^ (53 : ℤ) by norm_num, ← zpow_add₀ (by norm_num)]
      refine zpow_le_zpow_right₀ (by norm_num) ?_
      have : Int.log 2 q - 52 ≤ ulp q := by
        rw [ulp, abs_of_nonneg h]
        exact le_max_left _ _
      omega
    · simp
  rcases le_total 0 q with h | h
  · exact key q h
  · have := key (-q) (by linarith)
    rwa [rnd_neg, rnd_neg, neg_inj] at this

theorem of_fin {q : ℚ} (h : |rnd q| ≤ big) : of (.fin q) = ⟨.fin (rnd q)⟩ := by
  rw [abs_le] at h
  rw [of, if_neg (not_lt.2 h.2), if_neg (not_lt.2 h.1)]

/-- Sums and differences in the range are finite and rounded. -/
theorem of_grid {q M : ℚ} (hg : Grid q) (hM : M ≤ 2 ^ (1000 : ℤ)) (h : |q| ≤ M) :
    of (.fin q) = ⟨.fin (rnd q)⟩ ∧ |rnd q - q| ≤ 2 ^ (-53 : ℤ) * M := by
  have h1 := rnd_near hg
  have hp : (0 : ℚ) < 2 ^ (-53 : ℤ) := two_pow_pos _
  have h2 : (2 : ℚ) ^ (-53 : ℤ) * |q| ≤ 2 ^ (-53 : ℤ) * M := mul_le_mul_of_nonneg_left h hp.le
  refine ⟨of_fin ?_, h1.trans h2⟩
  have h3 : |rnd q| ≤ |rnd q - q| + |q| := by
    have := abs_add_le (rnd q - q) q
    rwa [sub_add_cancel] at this
  have h4 : (2 : ℚ) ^ (-53 : ℤ) * M ≤ 2 ^ (-53 : ℤ) * 2 ^ (1000 : ℤ) := mul_le_mul_of_nonneg_left hM hp.le
  have h5 : (2 : ℚ) ^ (-53 : ℤ) * 2 ^ (1000 : ℤ) + 2 ^ (1000 : ℤ) ≤ big := by decide +kernel
  linarith

theorem Finite.eq {a : Double} (h : a.Finite) : a = ⟨.fin a.val⟩ ∧ rnd a.val = a.val := by
  obtain ⟨q, h1, h2⟩ := h
  obtain ⟨n⟩ := a
  simp only at h1
  subst h1
  exact ⟨rfl, h2⟩

end Double

end Verif
