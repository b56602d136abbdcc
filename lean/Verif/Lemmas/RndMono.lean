import Verif.Double
import Mathlib.Tactic.Linarith
import Mathlib.Tactic.NormNum
import Mathlib.Tactic.Positivity

/-!
# Rounding to doubles is monotone
-/

namespace Verif.Double

theorem roundHalfEven_mono {y z : ℚ} (hy : 0 ≤ y) (h : y ≤ z) : Decimal.roundHalfEven y ≤ Decimal.roundHalfEven z := by
  have hz : 0 ≤ z := hy.trans h
  have e1 : ((⌊y⌋.toNat : ℕ) : ℤ) = ⌊y⌋ := Int.toNat_of_nonneg (Int.floor_nonneg.2 hy)
  have e2 : ((⌊z⌋.toNat : ℕ) : ℤ) = ⌊z⌋ := Int.toNat_of_nonneg (Int.floor_nonneg.2 hz)
  have hf : ⌊y⌋.toNat ≤ ⌊z⌋.toNat := Int.toNat_le_toNat (Int.floor_mono h)
  unfold Decimal.roundHalfEven
  simp only
  generalize ⌊y⌋.toNat = f at *
  generalize ⌊z⌋.toNat = g at *
  rcases hf.lt_or_eq with hf | rfl
  · split_ifs <;> omega
  · split_ifs <;> first | omega | linarith

theorem rnd_mono_nonneg {d D : ℚ} (hd : 0 ≤ d) (h : d ≤ D) : rnd d ≤ rnd D := by
  rcases hd.lt_or_eq with hd' | rfl
  swap
  · simpa using zero_le_rnd h
  have hD : 0 ≤ D := hd.trans h
  have hD' : 0 < D := hd'.trans_le h
  have hlog : Int.log 2 d ≤ Int.log 2 D := Int.log_mono_right hd' h
  have hu : ulp d ≤ ulp D := by
    refine max_le_max (sub_le_sub_right ?_ _) le_rfl
    rwa [abs_of_nonneg hd, abs_of_nonneg hD]
  rcases hu.lt_or_eq with hu | hu
  · have hl : Int.log 2 d < Int.log 2 D ∧ ulp D = Int.log 2 D - 52 ∧ -1074 ≤ ulp D := by
      rw [ulp, ulp, abs_of_nonneg hd, abs_of_nonneg hD] at hu
      rw [ulp, abs_of_nonneg hD]
      refine ⟨?_, ?_, le_max_right _ _⟩
      · by_contra hc
        have : Int.log 2 d = Int.log 2 D := le_antisymm hlog (not_lt.1 hc)
        rw [this] at hu
        exact lt_irrefl _ hu
      · rcases le_total (Int.log 2 D - 52) (-1074) with k | k
        · rw [max_eq_right k] at hu
          exact absurd hu (not_lt.2 (le_max_right _ _))
        · exact max_eq_left k
    obtain ⟨l1, l2, l3⟩ := hl
    have ha := rnd_digits (n := 2 ^ 52) (k := ulp D) (by norm_num) l3
    have e : (((2 ^ 52 : Nat) : ℚ)) * 2 ^ ulp D = ((2 : Nat) : ℚ) ^ Int.log 2 D := by
      rw [l2]
      push_cast
      rw [show (4503599627370496 : ℚ) = 2 ^ (52 : ℤ) by norm_num, ← zpow_add₀ (by norm_num)]
      congr 1
      omega
    have k1 : d ≤ ((2 ^ 52 : Nat) : ℚ) * 2 ^ ulp D := by
      rw [e]
      have hl : d < ((2 : Nat) : ℚ) ^ (Int.log 2 d + 1) := Int.lt_zpow_succ_log_self (by norm_num) d
      refine hl.le.trans ?_
      push_cast
      exact zpow_le_zpow_right₀ (by norm_num) (by omega)
    have k2 : ((2 ^ 52 : Nat) : ℚ) * 2 ^ ulp D ≤ D := by
      rw [e]
      exact Int.zpow_log_le_self (by norm_num) hD'
    refine (rnd_le hd k1 ha).trans ?_
    rw [rnd_nonneg hD]
    refine mul_le_mul_of_nonneg_right ?_ (two_pow_pos _).le
    have := roundHalfEven_mono (y := ((2 ^ 52 : Nat) : ℚ)) (z := |D| / 2 ^ ulp D) (Nat.cast_nonneg _) (by
      rw [abs_of_nonneg hD, le_div_iff₀ (two_pow_pos _)]
      exact k2)
    rw [Decimal.roundHalfEven_nat] at this
    exact_mod_cast this
  · rw [rnd_nonneg hd, rnd_nonneg hD, hu]
    refine mul_le_mul_of_nonneg_right ?_ (two_pow_pos _).le
    have := roundHalfEven_mono (y := |d| / 2 ^ ulp D) (z := |D| / 2 ^ ulp D) (div_nonneg (abs_nonneg _) (two_pow_pos _).le) (by
      rw [abs_of_nonneg hd, abs_of_nonneg hD]
      exact div_le_div_of_nonneg_right h (two_pow_pos _).le)
    exact_mod_cast this

/-- Rounding keeps the order. -/
theorem rnd_mono {d D : ℚ} (h : d ≤ D) : rnd d ≤ rnd D := by
  rcases le_total 0 d with hd | hd
  · exact rnd_mono_nonneg hd h
  · have key : rnd d ≤ 0 := by
      have := zero_le_rnd (q := -d) (by linarith)
      rw [rnd_neg] at this
      linarith
    rcases le_total 0 D with hD | hD
    · exact key.trans (zero_le_rnd hD)
    · have := rnd_mono_nonneg (d := -D) (D := -d) (by linarith) (by linarith)
      rw [rnd_neg, rnd_neg] at this
      linarith

end Verif.Double
