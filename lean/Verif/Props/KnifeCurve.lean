import Verif.Props.Meeting

/-!
# C144: cutting a curve with the knife

Over the real numbers extended by the IEEE special values.
-/

namespace Verif.Path

open Verif Verif.Spec Verif.XNum

set_option linter.unusedSectionVars false

/-! ### Runs through a curve -/

theorem through_append {c : Bezier.Curve ℝ} {P : ℝ → Prop} {m t : ℝ} {r : List (Bezier.Curve ℝ)} (hP : P m) (hmt : m < t) (hr : Through c P m t r) :
    ∀ {l : List (Bezier.Curve ℝ)} {s : ℝ}, s < m → Through c P s m l → Through c P s t (l ++ r) := by
  intro l
  induction l with
  | nil => intro s _ h; exact h.elim
  | cons k l ih =>
    intro s hs h
    cases l with
    | nil =>
      cases r with
      | nil => exact hr.elim
      | cons k' r => exact ⟨m, hs, hmt, hP, h, hr⟩
    | cons k' l =>
      obtain ⟨x, h1, h2, h3, h4, h5⟩ := h
      exact ⟨x, h1, h2.trans hmt, h3, h4, ih h2 h5⟩

theorem retraces_trans {k j c : Bezier.Curve ℝ} {s t a b : ℝ} (h : Retraces k c s t) (h' : Retraces j k a b) :
    Retraces j c (s + (t - s) * a) (s + (t - s) * b) := by
  intro u
  rw [h' u, h]
  congr 1
  ring

theorem through_sub {k c : Bezier.Curve ℝ} {P Q : ℝ → Prop} {s t : ℝ} (h : Retraces k c s t) (hst : s < t)
    (hPQ : ∀ u, P u → Q (s + (t - s) * u)) : ∀ {l : List (Bezier.Curve ℝ)} {a b : ℝ}, Through k P a b l →
      Through c Q (s + (t - s) * a) (s + (t - s) * b) l := by
  have mono : ∀ {x y : ℝ}, x < y → s + (t - s) * x < s + (t - s) * y := by
    intro x y hxy
    have : (t - s) * x < (t - s) * y := mul_lt_mul_of_pos_left hxy (by linarith)
    linarith
  intro l
  induction l with
  | nil => intro a b h; exact h.elim
  | cons j l ih =>
    intro a b hl
    cases l with
    | nil => exact retraces_trans h hl
    | cons j' l =>
      obtain ⟨x, h1, h2, h3, h4, h5⟩ := hl
      exact ⟨_, mono h1, mono h2, hPQ x h3, retraces_trans h h4, ih h5⟩

/-! ### The cuts -/

/-- The knife meets a curve only in points of the curve that are as good as on the knife. -/
theorem intersect_knife (n : Int) (a b s c1 c2 e : Point ℝ) (hab : pt a ≠ pt b) :
    ∃ ts : List ℝ, intersect n 0 (.line (finPt a) (finPt b)) (finSeg (.curve s c1 c2 e)) =
        some (ts.map fun t => finPt (meetPt (bezOf s c1 c2 e) t)) ∧
      ∀ t ∈ ts, 0 ≤ t ∧ t ≤ 1 ∧ NearKnife (pt a) (pt b) (curveAt (bezOf s c1 c2 e) t) := by
  set c := bezOf s c1 c2 e with hc
  obtain ⟨ts, hts⟩ := fin_list (Bezier.intersectsLine (finCurve c) (finPoint (toBez a)) (finPoint (toBez b))) (by
    intro x hx
    obtain ⟨t, h, -⟩ := Bezier.C24_sound_partial c (toBez a) (toBez b) (toBez_ne hab) x hx
    exact ⟨t, h⟩)
  refine ⟨ts, ?_, ?_⟩
  · show some ((Bezier.intersectsLine (finCurve c) (finPoint (toBez a)) (finPoint (toBez b))).map (pointAt (finCurve c))) = _
    rw [hts, List.map_map]
    congr 1
    exact List.map_congr_left fun t _ => pointAt_fin c t
  · intro t ht
    have hx : (fin t : XNum ℝ) ∈ Bezier.intersectsLine (finCurve c) (finPoint (toBez a)) (finPoint (toBez b)) := by
      rw [hts]; exact List.mem_map_of_mem ht
    obtain ⟨t', e', h0, h1, h2, h3⟩ := Bezier.C24_sound_partial c (toBez a) (toBez b) (toBez_ne hab) _ hx
    cases e'
    refine ⟨h0, h1, ?_, h3⟩
    have hlen := Bezier.len_pos (toBez_ne hab)
    rw [Bezier.lineDist, abs_div, abs_of_pos hlen, div_le_iff₀ hlen] at h2
    have e1 : Bezier.len (toBez a) (toBez b) = farness (pt b) (pt a) := by
      simp only [Bezier.len, farness, toBez, pt, sq]
    rw [e1] at h2
    exact h2

theorem bezOf_curveOf (c : Bezier.Curve ℝ) : ∃ s c1 c2 e : Point ℝ, curveOf c = .curve s c1 c2 e ∧ bezOf s c1 c2 e = c := by
  refine ⟨_, _, _, _, rfl, ?_⟩
  simp only [ofBez, newPoint_real, bezOf, toBez]

theorem along_bezOf (s c1 c2 e : Point ℝ) : strokes [(.curve s c1 c2 e : Segment ℝ)] = [curveStroke (bezOf s c1 c2 e)] := rfl

/-- **C144.** Whatever the knife: the pieces of a curve run one after the other through the whole of it, and they change where the curve
is on the knife. -/
theorem C144_pieces (n : Int) (a b : Point ℝ) (hab : pt a ≠ pt b) (fuel : Nat) : ∀ (s c1 c2 e : Point ℝ) (l : List (Segment (XNum ℝ))),
    knifeCut n (finPt a, finPt b) fuel (finSeg (.curve s c1 c2 e)) = some l →
      ∃ (q : Path ℝ) (ks : List (Bezier.Curve ℝ)), l = finPath q ∧ strokes q = ks.map curveStroke ∧ (∀ x ∈ q, x.isMove = false) ∧
        Through (bezOf s c1 c2 e) (fun t => NearKnife (pt a) (pt b) (curveAt (bezOf s c1 c2 e) t)) 0 1 ks := by
  induction fuel with
  | zero => intro s c1 c2 e l h; cases h
  | succ fuel ih =>
    intro s c1 c2 e l h
    have one : some [finSeg (.curve s c1 c2 e)] = some l → ∃ (q : Path ℝ) (ks : List (Bezier.Curve ℝ)), l = finPath q ∧
        strokes q = ks.map curveStroke ∧ (∀ x ∈ q, x.isMove = false) ∧
        Through (bezOf s c1 c2 e) (fun t => NearKnife (pt a) (pt b) (curveAt (bezOf s c1 c2 e) t)) 0 1 ks := by
      intro h
      cases h
      refine ⟨[.curve s c1 c2 e], [bezOf s c1 c2 e], rfl, rfl, by simp [Segment.isMove], fun u => ?_⟩
      congr 1; ring
    obtain ⟨ts, h1, h2⟩ := intersect_knife n a b s c1 c2 e hab
    rw [knifeCut] at h
    simp only [h1] at h
    match ts, h2, h with
    | [], _, h => exact one h
    | t :: ts, h2, h =>
      obtain ⟨t0, t1, hn⟩ := h2 t (by simp)
      simp only [List.map_cons] at h
      rcases split_meet s c1 c2 e t0 with ⟨-, g2⟩ | ⟨g1, gt, g2⟩
      · rw [g2] at h
        exact one h
      · rw [g2] at h
        simp only at h
        have t1' : t < 1 := lt_of_le_of_ne t1 fun hh => g1 (.inr (.inr (.inr (by rw [hh]))))
        set c := bezOf s c1 c2 e with hc
        obtain ⟨r1, r2, -⟩ := Bezier.C22_split c t gt.ne'
        obtain ⟨s1, d1, d2, e1, k1, k2⟩ := bezOf_curveOf (Bezier.splitCurve c t).1
        obtain ⟨s1', d1', d2', e1', k1', k2'⟩ := bezOf_curveOf (Bezier.splitCurve c t).2
        split at h
        · next x y hx hy =>
          rw [k1] at hx
          rw [k1'] at hy
          obtain ⟨q, ks, i0, i1, im, i2⟩ := ih _ _ _ _ _ hx
          obtain ⟨q', ks', i0', i1', im', i2'⟩ := ih _ _ _ _ _ hy
          rw [k2] at i2
          rw [k2'] at i2'
          cases h
          refine ⟨q ++ q', ks ++ ks', by rw [i0, i0', finPath, finPath, finPath, List.map_append],
            by rw [strokes_append, i1, i1', List.map_append], ?_, ?_⟩
          · intro x hx
            rcases List.mem_append.1 hx with hx | hx
            · exact im x hx
            · exact im' x hx
          · have w1 := through_sub (Q := fun u => NearKnife (pt a) (pt b) (curveAt c u)) r1 gt
              (fun u hu => by simpa only [r1 u] using hu) i2
            have w2 := through_sub (Q := fun u => NearKnife (pt a) (pt b) (curveAt c u)) r2 t1'
              (fun u hu => by simpa only [r2 u] using hu) i2'
            simp only [sub_zero, mul_zero, mul_one, zero_add, add_zero, add_sub_cancel] at w1 w2
            exact through_append hn t1' w2 gt w1
        · cases h

/-- **C144.** A curve that meets the knife, drawn not downwards, away from its ends is cut. -/
theorem C144_cut (n : Int) (a b : Point ℝ) (hab : pt a ≠ pt b) (hup : a.y ≤ b.y) (fuel : Nat) (s c1 c2 e : Point ℝ)
    (hg : Bezier.Generic (bezOf s c1 c2 e) (toBez a) (toBez b)) (t : ℝ) (t0 : 0 ≤ t) (t1 : t ≤ 1)
    (ht : Bezier.OnSegment (toBez a) (toBez b) (curveAt (bezOf s c1 c2 e) t))
    (haway : ∀ t, MeetsAt (pt a) (pt b) (bezOf s c1 c2 e) t → ¬ AtEnd (bezOf s c1 c2 e) t) (q : Path ℝ)
    (h : knifeCut n (finPt a, finPt b) fuel (finSeg (.curve s c1 c2 e)) = some (finPath q)) : 2 ≤ (strokes q).length := by
  cases fuel with
  | zero => cases h
  | succ fuel =>
    set c := bezOf s c1 c2 e with hc
    have hm := Bezier.C24_complete_partial c (toBez a) (toBez b) (toBez_ne hab) hup hg t t0 t1 ht
    have hi : intersect n 0 (.line (finPt a) (finPt b)) (finSeg (.curve s c1 c2 e)) =
        some ((Bezier.intersectsLine (finCurve c) (finPoint (toBez a)) (finPoint (toBez b))).map (pointAt (finCurve c))) := rfl
    obtain ⟨x, rest, hx⟩ := List.exists_cons_of_ne_nil (List.ne_nil_of_mem hm)
    have hx' : x ∈ Bezier.intersectsLine (finCurve c) (finPoint (toBez a)) (finPoint (toBez b)) := by rw [hx]; simp
    obtain ⟨u, rfl, u0, u1, -⟩ := Bezier.C24_sound_partial c (toBez a) (toBez b) (toBez_ne hab) x hx'
    have hu : MeetsAt (pt a) (pt b) c u := by
      have := (Bezier.mem_intersectsLine.1 hx').1
      rw [Bezier.C24_roots_exact c (toBez a) (toBez b) (toBez_ne hab) hg u, ← inLine_iff hab] at this
      exact ⟨u0, u1, this.1⟩
    rw [knifeCut] at h
    simp only [hi, hx, List.map_cons, pointAt_fin] at h
    rcases split_meet s c1 c2 e u0 with ⟨g1, -⟩ | ⟨g1, gt, g2⟩
    · exact absurd g1 (haway u hu)
    · rw [g2] at h
      simp only at h
      obtain ⟨s1, d1, d2, e1, k1, k2⟩ := bezOf_curveOf (Bezier.splitCurve c u).1
      obtain ⟨s1', d1', d2', e1', k1', k2'⟩ := bezOf_curveOf (Bezier.splitCurve c u).2
      split at h
      · next x y hx hy =>
        rw [k1] at hx
        rw [k1'] at hy
        obtain ⟨q1, ks, i0, i1, -, i2⟩ := C144_pieces n a b hab fuel _ _ _ _ _ hx
        obtain ⟨q2, ks', i0', i1', -, i2'⟩ := C144_pieces n a b hab fuel _ _ _ _ _ hy
        have hq : finPath q = finPath (q1 ++ q2) := by
          rw [Option.some.injEq] at h
          rw [← h, i0, i0', finPath, finPath, finPath, List.map_append]
        rw [finPath_injective hq, strokes_append, i1, i1', List.length_append, List.length_map, List.length_map]
        cases ks with
        | nil => exact i2.elim
        | cons k ks =>
          cases ks' with
          | nil => exact i2'.elim
          | cons k' ks' => simp only [List.length_cons]; omega
      · cases h

/-! ### The cutting ends -/

theorem round_to {y : ℝ} (hy : 0 ≤ y) {m : Nat} (h : |y - m| < 1 / 2) : Decimal.roundHalfEven y = m := by
  have h1 := Decimal.roundHalfEven_close hy
  rw [abs_lt] at h
  rw [abs_le] at h1
  have h2 : (Decimal.roundHalfEven y : ℝ) < m + 1 := by linarith [h1.2, h.2]
  have h3 : (m : ℝ) < Decimal.roundHalfEven y + 1 := by linarith [h1.1, h.1]
  have h2' : Decimal.roundHalfEven y < m + 1 := by exact_mod_cast h2
  have h3' : m < Decimal.roundHalfEven y + 1 := by exact_mod_cast h3
  omega

theorem fmt7_zero {u : ℝ} (h0 : 0 ≤ u) (h : u < 4 / 10 ^ 8) : Decimal.fmt 7 u = Decimal.fmt 7 (0 : ℝ) := by
  rw [Decimal.fmt_eq_iff]
  refine ⟨by constructor <;> intro h' <;> linarith, ?_⟩
  rw [abs_of_nonneg h0, abs_zero, zero_mul, round_to (m := 0) (by positivity) ?_, round_to (m := 0) le_rfl (by norm_num)]
  rw [abs_lt]
  push_cast
  constructor <;> linarith

theorem fmt7_one {u : ℝ} (h0 : u ≤ 1) (h : 1 - 4 / 10 ^ 8 < u) : Decimal.fmt 7 u = Decimal.fmt 7 (1 : ℝ) := by
  have hu : 0 < u := by linarith
  rw [Decimal.fmt_eq_iff]
  refine ⟨by constructor <;> intro h' <;> linarith, ?_⟩
  rw [abs_of_pos hu, abs_one, one_mul, round_to (m := 10 ^ 7) (by positivity) ?_, round_to (m := 10 ^ 7) (by norm_num) (by norm_num)]
  rw [abs_lt]
  push_cast
  constructor <;> linarith

/-- A cut is away from both ends by a fixed part of the length. -/
theorem not_atEnd {c : Bezier.Curve ℝ} {u : ℝ} (h0 : 0 ≤ u) (h1 : u ≤ 1) (h : ¬ AtEnd c u) : 4 / 10 ^ 8 ≤ u ∧ u ≤ 1 - 4 / 10 ^ 8 := by
  constructor
  · by_contra hc
    exact h (.inr (.inr (.inl (fmt7_zero h0 (by linarith)))))
  · by_contra hc
    exact h (.inr (.inr (.inr (fmt7_one h1 (by linarith)))))

/-- The distance of the points of a curve from a line is a polynomial in the parameter. -/
theorem lineDist_curveAt (c : Bezier.Curve ℝ) {l1 l2 : Bezier.Point ℝ} (hl : l1 ≠ l2) (t : ℝ) :
    Bezier.lineDist l1 l2 (curveAt c t) = (Bezier.distCoeffs c l1 l2).1 * t ^ 3 + (Bezier.distCoeffs c l1 l2).2.1 * t ^ 2 +
      (Bezier.distCoeffs c l1 l2).2.2 * t + Bezier.lineDist l1 l2 (c.p0.x, c.p0.y) := by
  have hlen := (Bezier.len_pos hl).ne'
  simp only [Bezier.distCoeffs, Bezier.lineDist, Bezier.cross, curveAt, bernstein]
  field_simp
  ring

/-- A bound for the coefficients of the distance on short pieces. -/
noncomputable def spread (c : Bezier.Curve ℝ) (l1 l2 : Bezier.Point ℝ) : ℝ :=
  6 * |(Bezier.distCoeffs c l1 l2).1| + 3 * |(Bezier.distCoeffs c l1 l2).2.1| + |(Bezier.distCoeffs c l1 l2).2.2|

theorem coeffs_small {k c : Bezier.Curve ℝ} {l1 l2 : Bezier.Point ℝ} (hl : l1 ≠ l2) {s t : ℝ} (h : Retraces k c s t) (h0 : 0 ≤ s) (hst : s ≤ t)
    (h1 : t ≤ 1) : |(Bezier.distCoeffs k l1 l2).1| ≤ (t - s) * spread c l1 l2 ∧ |(Bezier.distCoeffs k l1 l2).2.1| ≤ (t - s) * spread c l1 l2 ∧
      |(Bezier.distCoeffs k l1 l2).2.2| ≤ (t - s) * spread c l1 l2 := by
  have key : ∀ u, (Bezier.distCoeffs k l1 l2).1 * u ^ 3 + (Bezier.distCoeffs k l1 l2).2.1 * u ^ 2 +
      (Bezier.distCoeffs k l1 l2).2.2 * u + Bezier.lineDist l1 l2 (k.p0.x, k.p0.y) = (Bezier.distCoeffs c l1 l2).1 * (s + (t - s) * u) ^ 3 +
      (Bezier.distCoeffs c l1 l2).2.1 * (s + (t - s) * u) ^ 2 + (Bezier.distCoeffs c l1 l2).2.2 * (s + (t - s) * u) +
      Bezier.lineDist l1 l2 (c.p0.x, c.p0.y) := by
    intro u
    rw [← lineDist_curveAt k hl, ← lineDist_curveAt c hl, h u]
  unfold spread
  generalize (Bezier.distCoeffs k l1 l2).1 = d' at *
  generalize (Bezier.distCoeffs k l1 l2).2.1 = a' at *
  generalize (Bezier.distCoeffs k l1 l2).2.2 = b' at *
  generalize (Bezier.distCoeffs c l1 l2).1 = d at *
  generalize (Bezier.distCoeffs c l1 l2).2.1 = a at *
  generalize (Bezier.distCoeffs c l1 l2).2.2 = b at *
  generalize Bezier.lineDist l1 l2 (k.p0.x, k.p0.y) = A' at *
  generalize Bezier.lineDist l1 l2 (c.p0.x, c.p0.y) = A at *
  obtain ⟨r, hr⟩ : ∃ r, r = t - s := ⟨_, rfl⟩
  rw [← hr] at key ⊢
  have r0 : 0 ≤ r := by linarith
  have r1 : r ≤ 1 := by linarith
  have s1 : s ≤ 1 := by linarith
  have k0 := key 0
  have k1 := key 1
  have k2 := key (-1)
  have k3 := key 2
  have e1 : d' = d * r ^ 3 := by linarith
  have e2 : a' = r ^ 2 * (a + 3 * d * s) := by linarith
  have e3 : b' = r * (b + 2 * a * s + 3 * d * s ^ 2) := by linarith
  have r3 : r ^ 3 ≤ r := by nlinarith [mul_nonneg r0 r0]
  have r2 : r ^ 2 ≤ r := by nlinarith
  have m1 := abs_nonneg d
  have m2 := abs_nonneg a
  have m3 := abs_nonneg b
  have s2 : s ^ 2 ≤ 1 := by nlinarith
  have bs : |3 * d * s| ≤ 3 * |d| := by
    rw [abs_mul, abs_mul, abs_of_nonneg h0, abs_of_nonneg (by norm_num : (0:ℝ) ≤ 3)]
    nlinarith
  have bs2 : |3 * d * s ^ 2| ≤ 3 * |d| := by
    rw [abs_mul, abs_mul, abs_of_nonneg (sq_nonneg s), abs_of_nonneg (by norm_num : (0:ℝ) ≤ 3)]
    nlinarith
  have bs1 : |2 * a * s| ≤ 2 * |a| := by
    rw [abs_mul, abs_mul, abs_of_nonneg h0, abs_of_nonneg (by norm_num : (0:ℝ) ≤ 2)]
    nlinarith
  refine ⟨?_, ?_, ?_⟩
  · rw [e1, abs_mul, abs_of_nonneg (pow_nonneg r0 3)]
    calc |d| * r ^ 3 ≤ |d| * r := mul_le_mul_of_nonneg_left r3 m1
      _ = r * |d| := mul_comm _ _
      _ ≤ r * (6 * |d| + 3 * |a| + |b|) := mul_le_mul_of_nonneg_left (by linarith) r0
  · rw [e2, abs_mul, abs_of_nonneg (pow_nonneg r0 2)]
    have := abs_add_le a (3 * d * s)
    have h3 : |a + 3 * d * s| ≤ 6 * |d| + 3 * |a| + |b| := by linarith
    have h4 := abs_nonneg (a + 3 * d * s)
    exact (mul_le_mul_of_nonneg_right r2 h4).trans (mul_le_mul_of_nonneg_left h3 r0)
  · rw [e3, abs_mul, abs_of_nonneg r0]
    have x1 := abs_add_le (b + 2 * a * s) (3 * d * s ^ 2)
    have x2 := abs_add_le b (2 * a * s)
    exact mul_le_mul_of_nonneg_left (by linarith) r0

/-- Nothing is found on a piece whose distance from the line hardly changes. -/
theorem roots_flat (c : Bezier.Curve ℝ) {l1 l2 : Bezier.Point ℝ} (hl : l1 ≠ l2) (h1 : |(Bezier.distCoeffs c l1 l2).1| ≤ 1 / 1000000)
    (h2 : |(Bezier.distCoeffs c l1 l2).2.1| ≤ 1 / 1000000) (h3 : |(Bezier.distCoeffs c l1 l2).2.2| ≤ 1 / 1000000) :
    Bezier.roots (finCurve c) (finPoint l1) (finPoint l2) = [] := by
  obtain ⟨pa, pb, pc, pd, e, ha, hb, hc, hd, -⟩ := Bezier.roots_fin c l1 l2
  have hlen := Bezier.len_pos hl
  have key : ∀ {h : ℝ} {q : ℝ × ℝ}, Bezier.len l1 l2 * h = Bezier.cross l1 l2 q → Bezier.lineDist l1 l2 q = h := by
    intro h q hq
    rw [Bezier.lineDist, ← hq, mul_div_cancel_left₀ _ hlen.ne']
  simp only [Bezier.distCoeffs, key ha, key hb, key hc, key hd] at h1 h2 h3
  rw [e, Bezier.bernsteinRoots_eq]
  simp only [h1, h2, h3, if_true]

/-- **C144.** Cutting a curve ends, whatever the knife and the curve. -/
theorem C144_ends (n : Int) (a b : Point ℝ) (hab : pt a ≠ pt b) (s c1 c2 e : Point ℝ) :
    ∃ N, ∀ fuel, N ≤ fuel → ∃ l, knifeCut n (finPt a, finPt b) fuel (finSeg (.curve s c1 c2 e)) = some l := by
  have hl := toBez_ne hab
  set c := bezOf s c1 c2 e with hc
  set M := spread c (toBez a) (toBez b) with hM
  have M0 : 0 ≤ M := by rw [hM]; unfold spread; positivity
  have step : ∀ (N : Nat) (s' d1 d2 e' : Point ℝ) (x y : ℝ), Retraces (bezOf s' d1 d2 e') c x y → 0 ≤ x → x ≤ y → y ≤ 1 →
      (y - x) * M * (1 - 4 / 10 ^ 8) ^ N ≤ 1 / 1000000 → ∀ fuel, N + 1 ≤ fuel →
        ∃ l, knifeCut n (finPt a, finPt b) fuel (finSeg (.curve s' d1 d2 e')) = some l := by
    intro N
    induction N with
    | zero =>
      intro s' d1 d2 e' x y hr x0 hxy y1 hs fuel hf
      obtain ⟨fuel, rfl⟩ : ∃ f, fuel = f + 1 := ⟨fuel - 1, by omega⟩
      rw [pow_zero, mul_one] at hs
      obtain ⟨g1, g2, g3⟩ := coeffs_small hl hr x0 hxy y1
      have := roots_flat (bezOf s' d1 d2 e') hl (g1.trans hs) (g2.trans hs) (g3.trans hs)
      have hi : intersect n 0 (.line (finPt a) (finPt b)) (finSeg (.curve s' d1 d2 e')) = some [] := by
        show some ((Bezier.intersectsLine (finCurve (bezOf s' d1 d2 e')) (finPoint (toBez a)) (finPoint (toBez b))).map
          (pointAt (finCurve (bezOf s' d1 d2 e')))) = _
        rw [Bezier.intersectsLine, this]
        rfl
      rw [knifeCut]
      simp only [hi]
      exact ⟨_, rfl⟩
    | succ N ih =>
      intro s' d1 d2 e' x y hr x0 hxy y1 hs fuel hf
      obtain ⟨fuel, rfl⟩ : ∃ f, fuel = f + 1 := ⟨fuel - 1, by omega⟩
      obtain ⟨ts, h1, h2⟩ := intersect_knife n a b s' d1 d2 e' hab
      rw [knifeCut]
      simp only [h1]
      match ts, h2 with
      | [], _ => exact ⟨_, rfl⟩
      | t :: ts, h2 =>
        obtain ⟨t0, t1, -⟩ := h2 t (by simp)
        simp only [List.map_cons]
        rcases split_meet s' d1 d2 e' t0 with ⟨-, g2⟩ | ⟨g1, gt, g2⟩
        · rw [g2]
          exact ⟨_, rfl⟩
        · rw [g2]
          simp only
          obtain ⟨n1, n2⟩ := not_atEnd t0 t1 g1
          obtain ⟨r1, r2, -⟩ := Bezier.C22_split (bezOf s' d1 d2 e') t gt.ne'
          obtain ⟨s1, f1, f2, e1, k1, k2⟩ := bezOf_curveOf (Bezier.splitCurve (bezOf s' d1 d2 e') t).1
          obtain ⟨s1', f1', f2', e1', k1', k2'⟩ := bezOf_curveOf (Bezier.splitCurve (bezOf s' d1 d2 e') t).2
          rw [k1, k1']
          rw [← k2] at r1
          rw [← k2'] at r2
          have q1 := retraces_trans hr r1
          have q2 := retraces_trans hr r2
          have hz : (0:ℝ) ≤ (1 - 4 / 10 ^ 8) ^ N := by positivity
          have small : ∀ w, 0 ≤ w → w ≤ 1 - 4 / 10 ^ 8 → (y - x) * w * M * (1 - 4 / 10 ^ 8) ^ N ≤ 1 / 1000000 := by
            intro w w0 w1
            refine le_trans ?_ hs
            rw [pow_succ (1 - 4 / 10 ^ 8 : ℝ) N]
            have hyx : 0 ≤ (y - x) * M := mul_nonneg (by linarith) M0
            have : (y - x) * w * M * (1 - 4 / 10 ^ 8) ^ N = (y - x) * M * ((1 - 4 / 10 ^ 8) ^ N * w) := by ring
            rw [this]
            exact mul_le_mul_of_nonneg_left (mul_le_mul_of_nonneg_left w1 hz) hyx
          have hyx : 0 ≤ y - x := by linarith
          obtain ⟨l1, i1⟩ := ih s1 f1 f2 e1 _ _ q1 (by nlinarith) (by nlinarith) (by nlinarith)
            (by
              have := small t t0 n2
              have e : (x + (y - x) * t - (x + (y - x) * 0)) = (y - x) * t := by ring
              rw [e]; exact this) fuel (by omega)
          obtain ⟨l2, i2⟩ := ih s1' f1' f2' e1' _ _ q2 (by nlinarith) (by nlinarith) (by nlinarith)
            (by
              have := small (1 - t) (by linarith) (by linarith)
              have e : (x + (y - x) * 1 - (x + (y - x) * t)) = (y - x) * (1 - t) := by ring
              rw [e]; exact this) fuel (by omega)
          rw [i1, i2]
          exact ⟨_, rfl⟩
  obtain ⟨N, hN⟩ := exists_pow_lt_of_lt_one (show (0:ℝ) < 1 / 1000000 / (M + 1) by positivity) (show (1 - 4 / 10 ^ 8 : ℝ) < 1 by norm_num)
  refine ⟨N + 1, fun fuel hf => step N s c1 c2 e 0 1 (fun u => by congr 1; ring) le_rfl zero_le_one le_rfl ?_ fuel hf⟩
  rw [lt_div_iff₀ (by linarith)] at hN
  have hz : (0:ℝ) ≤ (1 - 4 / 10 ^ 8) ^ N := by positivity
  nlinarith

/-- Not vacuous: a straight curve from `(2, 1)` to `(4, -1)` is cut by a knife along the axis. -/
example : ∃ N, ∀ fuel, N ≤ fuel → ∃ q : Path ℝ, knifeCut 3 (finPt ⟨0, 0, 0⟩, finPt ⟨5, 0, 0⟩) fuel (finSeg (.curve ⟨2, 1, 0⟩ ⟨2 + (1 + 1) / 3, 1 - (1 + 1) / 3, 0⟩
    ⟨2 + 2 * (1 + 1) / 3, 1 - 2 * (1 + 1) / 3, 0⟩ ⟨3 + 1, -1, 0⟩)) = some (finPath q) ∧ 2 ≤ (strokes q).length := by
  have hab : pt (⟨0, 0, 0⟩ : Point ℝ) ≠ pt ⟨5, 0, 0⟩ := by simp [pt]
  obtain ⟨N, hN⟩ := C144_ends 3 ⟨0, 0, 0⟩ ⟨5, 0, 0⟩ hab ⟨2, 1, 0⟩ ⟨2 + (1 + 1) / 3, 1 - (1 + 1) / 3, 0⟩ ⟨2 + 2 * (1 + 1) / 3, 1 - 2 * (1 + 1) / 3, 0⟩ ⟨3 + 1, -1, 0⟩
  refine ⟨N, fun fuel hf => ?_⟩
  obtain ⟨l, hl⟩ := hN fuel hf
  obtain ⟨q, ks, h1, -⟩ := C144_pieces 3 ⟨0, 0, 0⟩ ⟨5, 0, 0⟩ hab fuel _ _ _ _ l hl
  rw [h1] at hl
  refine ⟨q, hl, ?_⟩
  refine C144_cut 3 ⟨0, 0, 0⟩ ⟨5, 0, 0⟩ hab le_rfl fuel _ _ _ _ (slantBack_generic_long 1 5 zero_le_one (by norm_num)) (1 / 2) (by norm_num)
    (by norm_num) ?_ ?_ q hl
  · refine ⟨3 / 5, by norm_num, by norm_num, (slantBack_at 1 (1 / 2)).trans ?_⟩
    norm_num [toBez]
  · intro t ht
    have h2 : curveAt (slantBack 1) t = (2 + (1 + 1) * t, 1 - (1 + 1) * t) := slantBack_at 1 t
    have h3 : InLine (pt (⟨0, 0, 0⟩ : Point ℝ)) (pt ⟨5, 0, 0⟩) (curveAt (slantBack 1) t) := ht.2.2
    rw [h2] at h3
    simp only [InLine, pt] at h3
    have ht : t = 1 / 2 := by linarith
    subst ht
    exact slantBack_middle

end Verif.Path
