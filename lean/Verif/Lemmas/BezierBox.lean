import Verif.Lemmas.Bezier
import Mathlib.Topology.Order.Compact
import Mathlib.Analysis.Calculus.LocalExtr.Basic
import Mathlib.Analysis.Calculus.Deriv.Pow
import Mathlib.Analysis.Calculus.Deriv.Mul

/-!
# Lemmas about bounding boxes of curves

Over the real numbers extended by the IEEE special values, because `droots` takes square roots of negative numbers.
-/

namespace Verif.Bezier

open Verif Verif.Spec XNum

set_option linter.unusedSectionVars false
set_option linter.unusedSimpArgs false

theorem zero_fin : (Arith.zero : XNum ℝ) = fin 0 := by simp [Arith.zero]
theorem one_fin : (Arith.one : XNum ℝ) = fin 1 := by simp [Arith.one]

theorem findPoint_fin (c : Curve ℝ) (t : ℝ) : findPoint (finCurve c) (fin t) = finPoint ⟨(curveAt c t).1, (curveAt c t).2⟩ := by
  unfold findPoint
  by_cases h0 : t = 0
  · simp [h0, curveAt, bernstein, zero_fin, finCurve, finPoint]
  by_cases h1 : t = 1
  · simp [h1, curveAt, bernstein, zero_fin, one_fin, finCurve, finPoint]
  simp only [zero_fin, one_fin, Int.cast_zero, Int.cast_one, eq_fin, h0, h1, decide_false, Bool.false_eq_true, if_false, finCurve, finPoint, curveAt, bernstein,
    add_fin, sub_fin, mul_fin, lit_zero_fin]
  refine congrArg₂ _ (congrArg fin ?_) (congrArg fin ?_) <;> (push_cast; ring)

/-- The values of the list are finite and in `[0, 1]`. -/
theorem inUnit_fin {l : List (XNum ℝ)} {x : XNum ℝ} (h : x ∈ inUnit l) : x ∈ l ∧ ∃ t : ℝ, x = fin t ∧ 0 ≤ t ∧ t ≤ 1 := by
  simp only [inUnit, List.mem_filter, Bool.and_eq_true, zero_fin, one_fin] at h
  refine ⟨h.1, ?_⟩
  obtain ⟨_, h0, h1⟩ := h
  cases x with
  | fin t => exact ⟨t, rfl, by simpa using h0, by simpa using h1⟩
  | pinf => cases h1
  | ninf => cases h0
  | nan => cases h0

theorem mem_inUnit {l : List (XNum ℝ)} {t : ℝ} (h : fin t ∈ l) (h0 : 0 ≤ t) (h1 : t ≤ 1) : fin t ∈ inUnit l := by
  simp [inUnit, zero_fin, one_fin, h, h0, h1]

/-- `droots` finds every root of the quadratic Bernstein polynomial that is not identically zero. -/
theorem droots_complete {a b c t : ℝ} (h : (1 - t) ^ 2 * a + 2 * (1 - t) * t * b + t ^ 2 * c = 0) (hne : ¬ (a = 0 ∧ b = 0 ∧ c = 0)) :
    fin t ∈ droots [fin a, fin b, fin c] := by
  simp only [droots, zero_fin, lit_zero_fin, Int.cast_zero, eq_fin, add_fin, sub_fin, mul_fin, neg_fin, sqrt_fin]
  by_cases hd : a - ((2 : Int) : ℝ) * b + c = 0
  · have hd' : a - 2 * b + c = 0 := by simpa using hd
    by_cases hbc : b = c
    · exfalso
      subst hbc
      have : a = b := by linarith
      subst this
      have : a = 0 := by linear_combination h
      exact hne ⟨this, this, this⟩
    · simp only [hd, hbc, decide_true, decide_false, Bool.not_true, Bool.not_false, Bool.false_eq_true, if_false, if_true]
      have h2 : ((2 : Int) : ℝ) * (b - c) ≠ 0 := by
        simpa using sub_ne_zero.2 hbc
      rw [div_fin_ne h2, List.mem_singleton]
      congr 1
      rw [eq_div_iff h2]
      push_cast
      have ha : a = 2 * b - c := by linarith
      subst ha
      linear_combination -h
  · have hd' : a - 2 * b + c ≠ 0 := by simpa using hd
    simp only [hd, decide_false, Bool.not_false, if_true]
    have hsq : (t * (a - 2 * b + c) + (b - a)) ^ 2 = b * b - a * c := by linear_combination (a - 2 * b + c) * h
    have hnn : ¬ b * b - a * c < 0 := not_lt.2 (hsq ▸ sq_nonneg _)
    simp only [hnn, if_false, neg_fin, add_fin]
    rw [div_fin_ne hd, div_fin_ne hd]
    have hs : Real.sqrt (b * b - a * c) = |t * (a - 2 * b + c) + (b - a)| := by rw [← hsq, Real.sqrt_sq_eq_abs]
    rw [hs]
    simp only [List.mem_cons, List.not_mem_nil, or_false]
    push_cast
    rcases abs_cases (t * (a - 2 * b + c) + (b - a)) with ⟨e, _⟩ | ⟨e, _⟩
    · left
      congr 1
      rw [e, eq_div_iff hd']
      ring
    · right
      congr 1
      rw [e, eq_div_iff hd']
      ring

/-- One of the two loops of `getMinMax`, seen from the outside. -/
theorem minMaxLoop_fin (c : Curve (XNum ℝ)) (get : Point (XNum ℝ) → XNum ℝ) (f : ℝ → ℝ)
    (ts : List (XNum ℝ)) (lo hi : ℝ) (hts : ∀ x ∈ ts, ∃ t : ℝ, x = fin t) (hf : ∀ t, get (findPoint c (fin t)) = fin (f t)) :
    ∃ lo' hi' : ℝ, minMaxLoop c get ts (fin lo) (fin hi) = (fin lo', fin hi') ∧
      (lo' = lo ∨ ∃ t, fin t ∈ ts ∧ f t = lo') ∧ (hi' = hi ∨ ∃ t, fin t ∈ ts ∧ f t = hi') ∧ lo' ≤ lo ∧ hi ≤ hi' ∧
      ∀ t, fin t ∈ ts → lo' ≤ f t ∧ f t ≤ hi' := by
  induction ts generalizing lo hi with
  | nil => exact ⟨lo, hi, rfl, .inl rfl, .inl rfl, le_rfl, le_rfl, by simp⟩
  | cons x ts ih =>
    obtain ⟨t, rfl⟩ := hts x (by simp)
    have e : minMaxLoop c get (fin t :: ts) (fin lo) (fin hi) = minMaxLoop c get ts (fin (min (f t) lo)) (fin (max (f t) hi)) := by
      simp only [minMaxLoop, List.foldl_cons, hf, lt_fin]
      congr 1
      refine Prod.ext ?_ ?_
      · by_cases h : f t < lo
        · simp [h, min_eq_left h.le]
        · simp [h, min_eq_right (not_lt.1 h)]
      · by_cases h : hi < f t
        · simp [h, max_eq_left h.le]
        · simp [h, max_eq_right (not_lt.1 h)]
    obtain ⟨lo', hi', h1, h2, h3, h4, h5, h6⟩ := ih (min (f t) lo) (max (f t) hi) (fun x hx => hts x (by simp [hx]))
    refine ⟨lo', hi', e.trans h1, ?_, ?_, h4.trans (min_le_right _ _), (le_max_right _ _).trans h5, ?_⟩
    · rcases h2 with h2 | ⟨s, hs, h2⟩
      · rcases min_choice (f t) lo with h | h
        · exact .inr ⟨t, by simp, by rw [h2, h]⟩
        · exact .inl (by rw [h2, h])
      · exact .inr ⟨s, by simp [hs], h2⟩
    · rcases h3 with h3 | ⟨s, hs, h3⟩
      · rcases max_choice (f t) hi with h | h
        · exact .inr ⟨t, by simp, by rw [h3, h]⟩
        · exact .inl (by rw [h3, h])
      · exact .inr ⟨s, by simp [hs], h3⟩
    · intro s hs
      rcases List.mem_cons.1 hs with h | h
      · cases h
        exact ⟨h4.trans (min_le_left _ _), (le_max_left _ _).trans h5⟩
      · exact h6 s h

theorem hasDerivAt_bernstein (a b c d t : ℝ) :
    HasDerivAt (bernstein a b c d)
      ((1 - t) ^ 2 * (3 * (b - a)) + 2 * (1 - t) * t * (3 * (c - b)) + t ^ 2 * (3 * (d - c))) t := by
  have h1 : HasDerivAt (fun t : ℝ => 1 - t) (-1) t := by simpa using (hasDerivAt_id t).const_sub 1
  have ht : HasDerivAt (fun t : ℝ => t) 1 t := hasDerivAt_id t
  have := ((((h1.pow 3).mul_const a).add (((h1.pow 2).const_mul 3).mul ht |>.mul_const b)).add
    (((h1.const_mul 3).mul (ht.pow 2)).mul_const c)).add ((ht.pow 3).mul_const d)
  refine (this.congr_deriv ?_)
  simp
  ring

theorem continuous_bernstein (a b c d : ℝ) : Continuous (bernstein a b c d) :=
  continuous_iff_continuousAt.2 fun t => (hasDerivAt_bernstein a b c d t).continuousAt

/-- The parameters tried for one coordinate. -/
noncomputable def tries (a b c d : ℝ) : List (XNum ℝ) :=
  let p := [fin (3 * (b - a)), fin (3 * (c - b)), fin (3 * (d - c))]
  let q := [fin (2 * (3 * (c - b) - 3 * (b - a))), fin (2 * (3 * (d - c) - 3 * (c - b)))]
  insertIfAbsent (insertIfAbsent (inUnit (droots p ++ droots q)) Arith.zero) Arith.one

theorem mem_insertIfAbsent (l : List (XNum ℝ)) (x : ℝ) (y : XNum ℝ) : y ∈ insertIfAbsent l (fin x) ↔ y ∈ l ∨ y = fin x := by
  unfold insertIfAbsent contains
  split
  next h =>
    rw [List.any_eq_true] at h
    obtain ⟨n, hn, hx⟩ := h
    have : n = fin x := by
      cases n with
      | fin k => simp at hx; rw [hx]
      | _ => cases hx
    constructor
    · exact .inl
    · rintro (h | rfl)
      · exact h
      · exact this ▸ hn
  next h => simp

theorem tries_fin {a b c d : ℝ} {x : XNum ℝ} (h : x ∈ tries a b c d) : ∃ t : ℝ, x = fin t ∧ 0 ≤ t ∧ t ≤ 1 := by
  simp only [tries, zero_fin, one_fin, mem_insertIfAbsent] at h
  rcases h with (h | rfl) | rfl
  · exact (inUnit_fin h).2
  · exact ⟨0, rfl, le_rfl, zero_le_one⟩
  · exact ⟨1, rfl, zero_le_one, le_rfl⟩

theorem zero_mem_tries (a b c d : ℝ) : fin 0 ∈ tries a b c d := by simp [tries, zero_fin, one_fin, mem_insertIfAbsent]
theorem one_mem_tries (a b c d : ℝ) : fin 1 ∈ tries a b c d := by simp [tries, zero_fin, one_fin, mem_insertIfAbsent]

/-- Where the derivative vanishes inside the interval, the value is tried. -/
theorem critical_mem_tries {a b c d t : ℝ} (h0 : 0 ≤ t) (h1 : t ≤ 1)
    (h : (1 - t) ^ 2 * (3 * (b - a)) + 2 * (1 - t) * t * (3 * (c - b)) + t ^ 2 * (3 * (d - c)) = 0) :
    ∃ s, fin s ∈ tries a b c d ∧ bernstein a b c d s = bernstein a b c d t := by
  by_cases hz : 3 * (b - a) = 0 ∧ 3 * (c - b) = 0 ∧ 3 * (d - c) = 0
  · refine ⟨0, zero_mem_tries a b c d, ?_⟩
    have h1 : b = a := by linarith [hz.1]
    have h2 : c = a := by linarith [hz.2.1]
    have h3 : d = a := by linarith [hz.2.2]
    subst h1 h2 h3
    unfold bernstein
    ring
  · refine ⟨t, ?_, rfl⟩
    simp only [tries, zero_fin, one_fin, mem_insertIfAbsent]
    exact .inl (.inl (mem_inUnit (List.mem_append_left _ (droots_complete h hz)) h0 h1))

/-- The smallest value on the interval is taken at a tried parameter. -/
theorem exists_min_tries (a b c d : ℝ) :
    ∃ s, fin s ∈ tries a b c d ∧ ∀ t, 0 ≤ t → t ≤ 1 → bernstein a b c d s ≤ bernstein a b c d t := by
  obtain ⟨t, ht, hmin⟩ := isCompact_Icc.exists_isMinOn (Set.nonempty_Icc.2 (zero_le_one' ℝ)) (continuous_bernstein a b c d).continuousOn
  have hmin' : ∀ u, 0 ≤ u → u ≤ 1 → bernstein a b c d t ≤ bernstein a b c d u := fun u h0 h1 => hmin ⟨h0, h1⟩
  rcases eq_or_lt_of_le ht.1 with h0 | h0
  · exact ⟨0, zero_mem_tries a b c d, h0 ▸ hmin'⟩
  rcases eq_or_lt_of_le ht.2 with h1 | h1
  · exact ⟨1, one_mem_tries a b c d, h1 ▸ hmin'⟩
  have hloc : IsLocalMin (bernstein a b c d) t := hmin.isLocalMin (Icc_mem_nhds h0 h1)
  obtain ⟨s, hs, he⟩ := critical_mem_tries ht.1 ht.2 (hloc.hasDerivAt_eq_zero (hasDerivAt_bernstein a b c d t))
  exact ⟨s, hs, he ▸ hmin'⟩

theorem exists_max_tries (a b c d : ℝ) :
    ∃ s, fin s ∈ tries a b c d ∧ ∀ t, 0 ≤ t → t ≤ 1 → bernstein a b c d t ≤ bernstein a b c d s := by
  obtain ⟨t, ht, hmax⟩ := isCompact_Icc.exists_isMaxOn (Set.nonempty_Icc.2 (zero_le_one' ℝ)) (continuous_bernstein a b c d).continuousOn
  have hmax' : ∀ u, 0 ≤ u → u ≤ 1 → bernstein a b c d u ≤ bernstein a b c d t := fun u h0 h1 => hmax ⟨h0, h1⟩
  rcases eq_or_lt_of_le ht.1 with h0 | h0
  · exact ⟨0, zero_mem_tries a b c d, h0 ▸ hmax'⟩
  rcases eq_or_lt_of_le ht.2 with h1 | h1
  · exact ⟨1, one_mem_tries a b c d, h1 ▸ hmax'⟩
  have hloc : IsLocalMax (bernstein a b c d) t := hmax.isLocalMax (Icc_mem_nhds h0 h1)
  obtain ⟨s, hs, he⟩ := critical_mem_tries ht.1 ht.2 (hloc.hasDerivAt_eq_zero (hasDerivAt_bernstein a b c d t))
  exact ⟨s, hs, he ▸ hmax'⟩

theorem sentinel_fin : (sentinel : XNum ℝ) = fin (2 ^ 63) := by
  simp only [sentinel, lit_zero_fin]
  norm_num

/-- `lo` and `hi` are the smallest and the largest value of `f` on `[0, 1]`. -/
def ExactRange (f : ℝ → ℝ) (lo hi : ℝ) : Prop :=
  (∀ t, 0 ≤ t → t ≤ 1 → lo ≤ f t ∧ f t ≤ hi) ∧ (∃ t, 0 ≤ t ∧ t ≤ 1 ∧ f t = lo) ∧ ∃ t, 0 ≤ t ∧ t ≤ 1 ∧ f t = hi

theorem minMax_exact (c : Curve (XNum ℝ)) (get : Point (XNum ℝ) → XNum ℝ) (p q r s : ℝ)
    (hf : ∀ t, get (findPoint c (fin t)) = fin (bernstein p q r s t)) (hp : |p| < 2 ^ 63) :
    ∃ lo hi : ℝ, minMaxLoop c get (tries p q r s) sentinel (-. sentinel) = (fin lo, fin hi) ∧ ExactRange (bernstein p q r s) lo hi := by
  obtain ⟨lo, hi, h1, h2, h3, h4, h5, h6⟩ := minMaxLoop_fin c get (bernstein p q r s) (tries p q r s) (2 ^ 63) (-2 ^ 63)
    (fun x hx => let ⟨t, h, _⟩ := tries_fin hx; ⟨t, h⟩) hf
  rw [sentinel_fin, neg_fin]
  refine ⟨lo, hi, h1, fun t t0 t1 => ?_, ?_, ?_⟩
  · obtain ⟨u, hu, hmin⟩ := exists_min_tries p q r s
    obtain ⟨v, hv, hmax⟩ := exists_max_tries p q r s
    exact ⟨(h6 u hu).1.trans (hmin t t0 t1), (hmax t t0 t1).trans (h6 v hv).2⟩
  · rcases h2 with h2 | ⟨t, ht, h2⟩
    · exfalso
      have := (h6 0 (zero_mem_tries p q r s)).1
      rw [h2] at this
      have e : bernstein p q r s 0 = p := by simp [bernstein]
      rw [e] at this
      exact absurd (abs_lt.1 hp).2 (not_lt.2 this)
    · obtain ⟨t', e, t0, t1⟩ := tries_fin ht
      cases e
      exact ⟨t, t0, t1, h2⟩
  · rcases h3 with h3 | ⟨t, ht, h3⟩
    · exfalso
      have := (h6 0 (zero_mem_tries p q r s)).2
      rw [h3] at this
      have e : bernstein p q r s 0 = p := by simp [bernstein]
      rw [e] at this
      exact absurd (abs_lt.1 hp).1 (not_lt.2 this)
    · obtain ⟨t', e, t0, t1⟩ := tries_fin ht
      cases e
      exact ⟨t, t0, t1, h3⟩

theorem boundingBox_exact (c : Curve ℝ) (hx : |c.p0.x| < 2 ^ 63) (hy : |c.p0.y| < 2 ^ 63) :
    ∃ tl br : Point ℝ, boundingBox (finCurve c) = (finPoint tl, finPoint br) ∧
      ExactRange (fun t => (curveAt c t).1) tl.x br.x ∧ ExactRange (fun t => (curveAt c t).2) tl.y br.y := by
  obtain ⟨lx, hx', h1, h2⟩ := minMax_exact (finCurve c) Point.x c.p0.x c.p1.x c.p2.x c.p3.x
    (fun t => by rw [findPoint_fin]; rfl) hx
  obtain ⟨ly, hy', h3, h4⟩ := minMax_exact (finCurve c) Point.y c.p0.y c.p1.y c.p2.y c.p3.y
    (fun t => by rw [findPoint_fin]; rfl) hy
  refine ⟨⟨lx, ly⟩, ⟨hx', hy'⟩, ?_, h2, h4⟩
  have e1 : insertIfAbsent (insertIfAbsent (extrema (finCurve c)).1 Arith.zero) Arith.one = tries c.p0.x c.p1.x c.p2.x c.p3.x := by
    simp [tries, extrema, derive1, derive2, deriveStep, finCurve, finPoint]
  have e2 : insertIfAbsent (insertIfAbsent (extrema (finCurve c)).2 Arith.zero) Arith.one = tries c.p0.y c.p1.y c.p2.y c.p3.y := by
    simp [tries, extrema, derive1, derive2, deriveStep, finCurve, finPoint]
  simp only [boundingBox, e1, e2, h1, h3, finPoint]

end Verif.Bezier
