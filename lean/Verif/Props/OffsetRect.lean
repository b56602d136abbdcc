import Verif.Lemmas.JoinRect
import Verif.Props.PathOffset
import Verif.Spec.OffsetRect

/-!
# Offsetting a rectangle

The offset of a rectangle with sides along the axes is the rectangle with every side moved outwards, or inwards, by the distance.
-/

namespace Verif.Path

open Verif Verif.Spec Verif.XNum

set_option linter.unusedSectionVars false

/-- The number after it has been printed with seven decimals and read again. -/
noncomputable def round7 (x : ℝ) : ℝ := Decimal.rounded 7 x

theorem round7_diff (a b : ℝ) : |a - b| - 1 / 10 ^ 7 ≤ |round7 a - round7 b| ∧ |round7 a - round7 b| ≤ |a - b| + 1 / 10 ^ 7 := by
  have h1 := Decimal.rounded_close 7 a
  have h2 := Decimal.rounded_close 7 b
  unfold round7
  rw [abs_le] at h1 h2
  constructor
  · have : |a - b| ≤ |Decimal.rounded 7 a - Decimal.rounded 7 b| + 1 / 10 ^ 7 := by
      rw [abs_le]
      have := neg_abs_le (Decimal.rounded 7 a - Decimal.rounded 7 b)
      have := le_abs_self (Decimal.rounded 7 a - Decimal.rounded 7 b)
      constructor <;> linarith [h1.1, h1.2, h2.1, h2.2]
    linarith
  · rw [abs_le]
    have := neg_abs_le (a - b)
    have := le_abs_self (a - b)
    constructor <;> linarith [h1.1, h1.2, h2.1, h2.2]

/-- The offset of a line along one of the axes. -/
theorem offset_side (so : Int) (d : ℝ) (sw : Bool) {xa xb y s : ℝ} (hs : s = 1 ∨ s = -1) (hx : 0 < s * (xb - xa)) (hl : 1 / 10 ^ so.toNat < |xa - xb|)
    {A B : Point ℝ} (hA : pt A = turned sw xa y) (hB : pt B = turned sw xb y) :
    ∃ A' B' : Point ℝ, offsetSegment so (finSeg (.line A B)) (fin d) = [finSeg (.line A' B')] ∧
      pt A' = turned sw xa (y + (if sw then -d else d) * s) ∧ pt B' = turned sw xb (y + (if sw then -d else d) * s) := by
  have hne : pt A ≠ pt B := by
    rw [hA, hB]
    rintro e
    have : xa = xb := by cases sw <;> simp [turned] at e <;> exact e
    rw [this] at hx
    simp at hx
  obtain ⟨A', B', e, p1, p2, p3, p4, p5⟩ := C40_parallel A B hne (-d)
  have hap : (finPt A).equalsPrecision (finPt B) so = false := by
    apply apart_equalsPrecision
    cases sw <;> simp only [turned, pt, Prod.mk.injEq, Bool.false_eq_true, if_false, if_true] at hA hB
    · left; rw [hA.1, hB.1]; exact hl
    · right; rw [hA.2, hB.2]; exact hl
  refine ⟨A', B', ?_, ?_⟩
  · show offsetSegment so (.line (finPt A) (finPt B)) (fin d) = _
    rw [C40_offset, hap, e]
    rfl
  · have hlen : len (pt A) (pt B) = s * (xb - xa) := by
      rw [hA, hB, len]
      have : Real.sqrt ((s * (xb - xa)) ^ 2) = s * (xb - xa) := Real.sqrt_sq hx.le
      rw [← this]
      congr 1
      rcases hs with rfl | rfl <;> cases sw <;> simp [turned] <;> ring
    rw [hlen] at p5
    have hd : xb - xa ≠ 0 := by rintro e; rw [e] at hx; simp at hx
    have hs2 : s * s = 1 := by rcases hs with rfl | rfl <;> norm_num
    cases sw <;> simp only [turned, pt, Prod.mk.injEq, Bool.false_eq_true, if_false, if_true] at hA hB ⊢
    · rw [hA.1, hA.2, hB.1, hB.2] at p3 p5
      rw [hA.1, hB.1] at p1
      rw [hA.2, hB.2] at p2
      have q1 : A'.x = xa := by
        have : (A'.x - xa) * (xb - xa) = 0 := by linear_combination p3
        have := (mul_eq_zero.1 this).resolve_right hd
        linarith
      have q2 : A'.y = y + d * s := by
        have : (A'.y - y - d * s) * (xb - xa) = 0 := by linear_combination p5
        have := (mul_eq_zero.1 this).resolve_right hd
        linarith
      exact ⟨⟨q1, q2⟩, by linarith, by linarith⟩
    · rw [hA.1, hA.2, hB.1, hB.2] at p3 p5
      rw [hA.1, hB.1] at p1
      rw [hA.2, hB.2] at p2
      have q1 : A'.y = xa := by
        have : (A'.y - xa) * (xb - xa) = 0 := by linear_combination p3
        have := (mul_eq_zero.1 this).resolve_right hd
        linarith
      have q2 : A'.x = y + -d * s := by
        have : (A'.x - y + d * s) * (xb - xa) = 0 := by linear_combination -p5
        have := (mul_eq_zero.1 this).resolve_right hd
        linarith
      exact ⟨⟨q2, q1⟩, by linarith, by linarith⟩

theorem pt_round7 {P : Point ℝ} {sw : Bool} {x y : ℝ} (h : pt P = turned sw x y) : pt (roundPoint 7 P) = turned sw (round7 x) (round7 y) := by
  rw [roundPoint, pt_newPoint]
  cases sw <;> simp only [turned, pt, Prod.mk.injEq, Bool.false_eq_true, if_false, if_true] at h ⊢ <;> rw [h.1, h.2] <;> exact ⟨rfl, rfl⟩

/-- A run of four lines. -/
theorem run_cycle {run : Path ℝ} {sw : Bool} {x0 y0 x1 y1 : ℝ} (hm : ∀ s ∈ run, s.isMove = false) (h : strokes run = cycle sw x0 y0 x1 y1) :
    ∃ P1 Q1 P2 Q2 P3 Q3 P4 Q4 : Point ℝ, run = [.line P1 Q1, .line P2 Q2, .line P3 Q3, .line P4 Q4] ∧
      pt P1 = turned sw x0 y0 ∧ pt Q1 = turned sw x1 y0 ∧ pt P2 = turned sw x1 y0 ∧ pt Q2 = turned sw x1 y1 ∧
      pt P3 = turned sw x1 y1 ∧ pt Q3 = turned sw x0 y1 ∧ pt P4 = turned sw x0 y1 ∧ pt Q4 = turned sw x0 y0 := by
  obtain ⟨s1, r1, e1, k1, h⟩ := run_cons hm h
  obtain ⟨s2, r2, rfl, k2, h⟩ := run_cons (fun s hs => hm s (by rw [e1]; simp [hs])) h
  obtain ⟨s3, r3, rfl, k3, h⟩ := run_cons (fun s hs => hm s (by rw [e1]; simp [hs])) h
  obtain ⟨s4, r4, rfl, k4, h⟩ := run_cons (fun s hs => hm s (by rw [e1]; simp [hs])) h
  obtain rfl := run_nil (fun s hs => hm s (by rw [e1]; simp [hs])) h
  obtain ⟨P1, Q1, rfl, a1, b1⟩ := strokeOf_line k1
  obtain ⟨P2, Q2, rfl, a2, b2⟩ := strokeOf_line k2
  obtain ⟨P3, Q3, rfl, a3, b3⟩ := strokeOf_line k3
  obtain ⟨P4, Q4, rfl, a4, b4⟩ := strokeOf_line k4
  exact ⟨P1, Q1, P2, Q2, P3, Q3, P4, Q4, e1, a1, b1, a2, b2, a3, b3, a4, b4⟩

/-- The offset of a rectangle without regard to the size. The sides move outwards by `δ`. -/
theorem offsetPlain_rect (n : Nat) (so : Int) (d t : ℝ) (ht : 0 < t) (hn : 1 / 10 ^ n ≤ t) (hso : 1 / 10 ^ so.toNat ≤ t) (hd : t + 1 / 10 ^ 7 < |d|)
    (sw : Bool) {x0 y0 x1 y1 sx sy δ : ℝ} (hsx : sx = 1 ∨ sx = -1) (hsy : sy = 1 ∨ sy = -1)
    (hx : 2 * |d| + t + 1 / 10 ^ 6 < sx * (x1 - x0)) (hy : 2 * |d| + t + 1 / 10 ^ 6 < sy * (y1 - y0))
    (hδ : δ = (if sw then d else -d) * sx * sy) (m a : Point ℝ) {run tail : Path ℝ} (htail : tail = [] ∨ ∃ c e, tail = [.move c e]) (hm : ∀ s ∈ run, s.isMove = false)
    (hr : strokes run = cycle sw x0 y0 x1 y1) {u v u' v' : ℝ}
    (hb : InBounds u v u' v' sw (round7 (x0 - δ * sx)) (round7 (y0 - δ * sy)) (round7 (x1 + δ * sx)) (round7 (y1 + δ * sy))) :
    ∃ (r : Path ℝ) (sw' : Bool) (T R B L : ℝ), offsetPlain n so (fin d) (finPath (.move m a :: (run ++ tail))) = .ok (finPath r) ∧
      InBounds u v u' v' sw' L T R B ∧ strokes r = cycle sw' L T R B ∧ Inked none r := by
  obtain ⟨P1, Q1, P2, Q2, P3, Q3, P4, Q4, rfl, a1, b1, a2, b2, a3, b3, a4, b4⟩ := run_cycle hm hr
  have ax : |x1 - x0| = sx * (x1 - x0) := by
    rcases hsx with rfl | rfl
    · rw [abs_of_pos (by linarith [abs_nonneg d, (by norm_num : (0:ℝ) < 1 / 10 ^ 6)])]; ring
    · rw [abs_of_neg (by linarith [abs_nonneg d, (by norm_num : (0:ℝ) < 1 / 10 ^ 6)])]; ring
  have ay : |y1 - y0| = sy * (y1 - y0) := by
    rcases hsy with rfl | rfl
    · rw [abs_of_pos (by linarith [abs_nonneg d, (by norm_num : (0:ℝ) < 1 / 10 ^ 6)])]; ring
    · rw [abs_of_neg (by linarith [abs_nonneg d, (by norm_num : (0:ℝ) < 1 / 10 ^ 6)])]; ring
  have hd0 := abs_nonneg d
  have h67 : (10:ℝ) * (1 / 10 ^ 7) = 1 / 10 ^ 6 := by norm_num
  have h7 : (0:ℝ) < 1 / 10 ^ 7 := by norm_num
  have hxx : 1 / 10 ^ so.toNat < |x1 - x0| := by rw [ax]; linarith
  have hyy : 1 / 10 ^ so.toNat < |y1 - y0| := by rw [ay]; linarith
  have hxx' : 1 / 10 ^ so.toNat < |x0 - x1| := by rw [abs_sub_comm]; exact hxx
  have hyy' : 1 / 10 ^ so.toNat < |y0 - y1| := by rw [abs_sub_comm]; exact hyy
  have dδ : |δ| = |d| := by
    rw [hδ, abs_mul, abs_mul]
    rcases hsx with rfl | rfl <;> rcases hsy with rfl | rfl <;> cases sw <;> simp
  have hsx' : -sx = 1 ∨ -sx = -1 := by rcases hsx with rfl | rfl <;> norm_num
  have hsy' : -sy = 1 ∨ -sy = -1 := by rcases hsy with rfl | rfl <;> norm_num
  obtain ⟨A1, B1, o1, c1, d1⟩ := offset_side so d sw hsx (by linarith) hxx' a1 b1
  obtain ⟨A3, B3, o3, c3, d3⟩ := offset_side so d sw hsx' (by linarith) hxx a3 b3
  rw [← turned_not] at a2 b2 a4 b4
  obtain ⟨A2, B2, o2, c2, d2⟩ := offset_side so d (!sw) hsy (by linarith) hyy' a2 b2
  obtain ⟨A4, B4, o4, c4, d4⟩ := offset_side so d (!sw) hsy' (by linarith) hyy a4 b4
  rw [turned_not] at a2 b2 a4 b4 c2 d2 c4 d4
  have eT : y0 + (if sw then -d else d) * sx = y0 - δ * sy := by
    rw [hδ]; rcases hsy with rfl | rfl <;> cases sw <;> simp [sub_eq_add_neg]
  have eB : y1 + (if sw then -d else d) * -sx = y1 + δ * sy := by
    rw [hδ]; rcases hsy with rfl | rfl <;> cases sw <;> simp
  have eR : x1 + (if (!sw) then -d else d) * sy = x1 + δ * sx := by
    rw [hδ]; rcases hsx with rfl | rfl <;> cases sw <;> simp
  have eL : x0 + (if (!sw) then -d else d) * -sy = x0 - δ * sx := by
    rw [hδ]; rcases hsx with rfl | rfl <;> cases sw <;> simp [sub_eq_add_neg]
  rw [eT] at c1 d1
  rw [eB] at c3 d3
  rw [eR] at c2 d2
  rw [eL] at c4 d4
  have eo : offsetSegments so (fin d) (finPath (.move m a :: ([.line P1 Q1, .line P2 Q2, .line P3 Q3, .line P4 Q4] ++ tail))) =
      finPath (sepLines [(⟨0, 0, 0⟩, A1, B1), (⟨0, 0, 0⟩, A2, B2), (⟨0, 0, 0⟩, A3, B3), (⟨0, 0, 0⟩, A4, B4)]) := by
    have hz : (zeroPoint : Point (XNum ℝ)) = finPt ⟨0, 0, 0⟩ := by simp [zeroPoint, finPt, Arith.zero]
    have step : ∀ (P Q A B : Point ℝ) (rest : Path (XNum ℝ)), offsetSegment so (finSeg (.line P Q)) (fin d) = [finSeg (.line A B)] →
        offsetSegments so (fin d) (finSeg (.line P Q) :: rest) =
          finSeg (.move ⟨0, 0, 0⟩ A) :: finSeg (.line A B) :: offsetSegments so (fin d) rest := by
      intro P Q A B rest h
      unfold offsetSegments
      rw [List.flatMap_cons, if_neg (by simp [finSeg, Segment.isMove]), h, hz]
      rfl
    have e0 : offsetSegments so (fin d) (finPath (.move m a :: ([.line P1 Q1, .line P2 Q2, .line P3 Q3, .line P4 Q4] ++ tail))) =
      offsetSegments so (fin d) (finPath [.line P1 Q1, .line P2 Q2, .line P3 Q3, .line P4 Q4]) := by
      rcases htail with rfl | ⟨c, e, rfl⟩ <;> rfl
    rw [e0]
    simp only [finPath_cons]
    rw [step _ _ _ _ _ o1, step _ _ _ _ _ o2, step _ _ _ _ _ o3, step _ _ _ _ _ o4]
    rfl
  obtain ⟨m', en⟩ := newPath_sep ((⟨0, 0, 0⟩ : Point ℝ), A1, B1) [(⟨0, 0, 0⟩, A2, B2), (⟨0, 0, 0⟩, A3, B3), (⟨0, 0, 0⟩, A4, B4)]
  obtain ⟨l', er, hl'⟩ := rebuild_sep [(m', A1, B1), (⟨0, 0, 0⟩, A2, B2), (⟨0, 0, 0⟩, A3, B3), (⟨0, 0, 0⟩, A4, B4)]
  have gapT : |(y0 - δ * sy) - y0| = |d| := by
    rw [← dδ]; rcases hsy with rfl | rfl <;> simp
  have gapB : |(y1 + δ * sy) - y1| = |d| := by
    rw [← dδ]; rcases hsy with rfl | rfl <;> simp
  have gapR : |(x1 + δ * sx) - x1| = |d| := by
    rw [← dδ]; rcases hsx with rfl | rfl <;> simp
  have gapL : |(x0 - δ * sx) - x0| = |d| := by
    rw [← dδ]; rcases hsx with rfl | rfl <;> simp
  have near : ∀ {p q : ℝ}, |p - q| = |d| → t < |round7 p - round7 q| ∧ |round7 p - round7 q| ≤ |d| + 1 / 10 ^ 7 := by
    intro p q h
    have := round7_diff p q
    rw [h] at this
    exact ⟨by linarith [this.1], this.2⟩
  have wide : 2 * (|d| + 1 / 10 ^ 7) + t < |round7 x1 - round7 x0| := by
    have := (round7_diff x1 x0).1
    rw [ax] at this
    linarith
  have high : 2 * (|d| + 1 / 10 ^ 7) + t < |round7 y1 - round7 y0| := by
    have := (round7_diff y1 y0).1
    rw [ay] at this
    linarith
  have hf : Frame t (|d| + 1 / 10 ^ 7) (round7 x0) (round7 x1) (round7 y0) (round7 y1) (round7 (y0 - δ * sy)) (round7 (x1 + δ * sx))
      (round7 (y1 + δ * sy)) (round7 (x0 - δ * sx)) :=
    ⟨ht, near gapT, near gapR, near gapB, near gapL, by linarith, by linarith⟩
  obtain ⟨r, sw', T', R', B', L', ej, hb', hr', hi'⟩ := join_rect hn hso hf wide high hb (l := l') hl' (pt_round7 c1) (pt_round7 d1) (pt_round7 c2)
    (pt_round7 d2) (pt_round7 c3) (pt_round7 d3) (pt_round7 c4) (pt_round7 d4)
  refine ⟨r, sw', T', R', B', L', ?_, hb', hr', hi'⟩
  have et : trimMove (finPath (.move m a :: ([.line P1 Q1, .line P2 Q2, .line P3 Q3, .line P4 Q4] ++ tail))) =
      [finSeg (.line P1 Q1), finSeg (.line P2 Q2), finSeg (.line P3 Q3), finSeg (.line P4 Q4)] := by
    rcases htail with rfl | ⟨c, e, rfl⟩ <;> rfl
  have ec : (finSeg (.line P1 Q1)).start.equals (finSeg (.line P4 Q4)).stop = true := by
    show (finPt P1).equals (finPt Q4) = true
    rw [equals_fin, equals_iff, a1, b4]
  simp only [offsetPlain, et, eo, newPath_fin, en, er, bind, Res.bind, List.head?_cons, List.getLast?_cons_cons, List.getLast?_singleton, ec]
  exact ej

/-! ## The box of a rectangle -/

theorem line_between {u v a b t : ℝ} (ha : u ≤ a ∧ a ≤ v) (hb : u ≤ b ∧ b ≤ v) (h0 : 0 ≤ t) (h1 : t ≤ 1) :
    u ≤ (1 - t) * a + t * b ∧ (1 - t) * a + t * b ≤ v := by
  constructor
  · nlinarith [mul_nonneg h0 (sub_nonneg.2 hb.1), mul_nonneg (sub_nonneg.2 h1) (sub_nonneg.2 ha.1)]
  · nlinarith [mul_nonneg h0 (sub_nonneg.2 hb.2), mul_nonneg (sub_nonneg.2 h1) (sub_nonneg.2 ha.2)]

theorem SamePair.between {u v a b : ℝ} (h : SamePair u v a b) (huv : u ≤ v) : (u ≤ a ∧ a ≤ v) ∧ (u ≤ b ∧ b ≤ v) := by
  rcases h with ⟨rfl, rfl⟩ | ⟨rfl, rfl⟩
  · exact ⟨⟨le_refl _, huv⟩, huv, le_refl _⟩
  · exact ⟨⟨huv, le_refl _⟩, le_refl _, huv⟩

theorem box_cycle {u v u' v' : ℝ} (huv : u ≤ v) (huv' : u' ≤ v') {sw : Bool} {L T R B : ℝ} (hb : InBounds u v u' v' sw L T R B) {p : Path ℝ}
    (hp : strokes p = cycle sw L T R B) : BoxOf (Drawn p) (u, u') (v, v') := by
  have hc : ∀ x y, x = L ∨ x = R → y = T ∨ y = B → (u ≤ (turned sw x y).1 ∧ (turned sw x y).1 ≤ v) ∧ u' ≤ (turned sw x y).2 ∧ (turned sw x y).2 ≤ v' := by
    intro x y hx hy
    cases sw
    · obtain ⟨k1, k2⟩ := hb.1.between huv
      obtain ⟨k3, k4⟩ := hb.2.between huv'
      rcases hx with rfl | rfl <;> rcases hy with rfl | rfl
      exacts [⟨k1, k3⟩, ⟨k1, k4⟩, ⟨k2, k3⟩, ⟨k2, k4⟩]
    · obtain ⟨k1, k2⟩ := hb.1.between huv
      obtain ⟨k3, k4⟩ := hb.2.between huv'
      rcases hx with rfl | rfl <;> rcases hy with rfl | rfl
      exacts [⟨k1, k3⟩, ⟨k2, k3⟩, ⟨k1, k4⟩, ⟨k2, k4⟩]
  have hd : ∀ x y, x = L ∨ x = R → y = T ∨ y = B → Drawn p (turned sw x y) := by
    have start : ∀ a b : Pt ℝ, Stroke.line a b ∈ strokes p → Drawn p a := fun a b h => ⟨_, h, 0, le_refl _, zero_le_one, by simp [Stroke.at]⟩
    intro x y hx hy
    rcases hx with rfl | rfl <;> rcases hy with rfl | rfl
    · exact start _ (turned sw R y) (by rw [hp]; simp [cycle])
    · exact start _ (turned sw x T) (by rw [hp]; simp [cycle])
    · exact start _ (turned sw x B) (by rw [hp]; simp [cycle])
    · exact start _ (turned sw L y) (by rw [hp]; simp [cycle])
  have pick : ∀ q : Pt ℝ, (q.1 = u ∨ q.1 = v) → (q.2 = u' ∨ q.2 = v') → Drawn p q := by
    intro q h1 h2
    cases sw
    · refine hd q.1 q.2 ?_ ?_
      · rcases hb.1 with ⟨rfl, rfl⟩ | ⟨rfl, rfl⟩
        · exact h1
        · exact h1.symm
      · rcases hb.2 with ⟨rfl, rfl⟩ | ⟨rfl, rfl⟩
        · exact h2
        · exact h2.symm
    · refine hd q.2 q.1 ?_ ?_
      · rcases hb.2 with ⟨rfl, rfl⟩ | ⟨rfl, rfl⟩
        · exact h2
        · exact h2.symm
      · rcases hb.1 with ⟨rfl, rfl⟩ | ⟨rfl, rfl⟩
        · exact h1
        · exact h1.symm
  refine ⟨?_, ⟨(u, u'), pick _ (.inl rfl) (.inl rfl), rfl⟩, ⟨(v, u'), pick _ (.inr rfl) (.inl rfl), rfl⟩, ⟨(u, u'), pick _ (.inl rfl) (.inl rfl), rfl⟩,
    ⟨(u, v'), pick _ (.inl rfl) (.inr rfl), rfl⟩⟩
  rintro q ⟨s, hs, t, h0, h1, rfl⟩
  rw [hp] at hs
  have ends : ∃ a b, s = .line a b ∧ ((u ≤ a.1 ∧ a.1 ≤ v) ∧ u' ≤ a.2 ∧ a.2 ≤ v') ∧ ((u ≤ b.1 ∧ b.1 ≤ v) ∧ u' ≤ b.2 ∧ b.2 ≤ v') := by
    simp only [cycle, List.mem_cons, List.not_mem_nil, or_false] at hs
    rcases hs with rfl | rfl | rfl | rfl
    · exact ⟨_, _, rfl, hc _ _ (.inl rfl) (.inl rfl), hc _ _ (.inr rfl) (.inl rfl)⟩
    · exact ⟨_, _, rfl, hc _ _ (.inr rfl) (.inl rfl), hc _ _ (.inr rfl) (.inr rfl)⟩
    · exact ⟨_, _, rfl, hc _ _ (.inr rfl) (.inr rfl), hc _ _ (.inl rfl) (.inr rfl)⟩
    · exact ⟨_, _, rfl, hc _ _ (.inl rfl) (.inr rfl), hc _ _ (.inl rfl) (.inl rfl)⟩
  obtain ⟨a, b, rfl, k1, k2⟩ := ends
  have c1 := line_between k1.1 k2.1 h0 h1
  have c2 := line_between k1.2 k2.2 h0 h1
  exact ⟨c1.1, c1.2, c2.1, c2.2⟩

theorem small_cycle {sw : Bool} {L T R B : ℝ} {p : Path ℝ} (hp : strokes p = cycle sw L T R B) : Small p := by
  intro a c d b h
  rw [hp] at h
  simp [cycle] at h

theorem measure_cycle {u v u' v' : ℝ} (huv : u ≤ v) (huv' : u' ≤ v') {sw : Bool} {L T R B : ℝ} (hb : InBounds u v u' v' sw L T R B) {p : Path ℝ}
    (hp : strokes p = cycle sw L T R B) : measure (finPath p) = (fin (v - u), fin (v' - u')) :=
  measure_fin (by rw [hp]; simp [cycle]) (small_cycle hp) (box_cycle huv huv' hb hp)

/-! ## The transform -/

theorem splitLoop_tail {F : Type*} [Arith F] (run tail : Path F) (htail : tail = [] ∨ ∃ c e, tail = [.move c e]) :
    ∀ p : Path F, (∀ s ∈ run, s.isMove = false) → (splitLoop (run ++ tail) p []).length ≤ 1 := by
  induction run with
  | nil =>
    intro p _
    rcases htail with rfl | ⟨c, e, rfl⟩
    · exact splitLoop_run [] p (by simp)
    · have key : isEmptyPath (addSegment ([] : Path F) (.move c e)) = true := by
        simp only [isEmptyPath, addSegment]
        split <;> split <;> simp [Segment.isMove, Segment.setStart]
      simp only [List.nil_append, splitLoop, Segment.isMove, if_true, key]
      split <;> simp
  | cons s run ih =>
    intro p hm
    have hs := hm s (by simp)
    simp only [List.cons_append, splitLoop, hs, Bool.false_eq_true, if_false]
    exact ih _ (fun x hx => hm x (by simp [hx]))

theorem InBounds.other {u v u' v' : ℝ} {sw : Bool} {L T R B : ℝ} (h : InBounds u v u' v' sw L T R B) : InBounds u v u' v' (!sw) T L B R := by
  cases sw
  · exact h
  · exact h

/-- The reversed drawing of a rectangle. -/
theorem reverse_cycle (m a : Point ℝ) {run : Path ℝ} {sw : Bool} {x0 y0 x1 y1 : ℝ} (hm : ∀ s ∈ run, s.isMove = false)
    (hr : strokes run = cycle sw x0 y0 x1 y1) : ∃ (m' a' : Point ℝ) (run' : Path ℝ) (c e : Point ℝ),
      reversePath (.move m a :: run) = .move m' a' :: (run' ++ [.move c e]) ∧ (∀ s ∈ run', s.isMove = false) ∧ strokes run' = cycle (!sw) y0 x0 y1 x1 := by
  obtain ⟨P1, Q1, P2, Q2, P3, Q3, P4, Q4, rfl, a1, b1, a2, b2, a3, b3, a4, b4⟩ := run_cycle hm hr
  have q1 : P4.equals Q3 = true := by rw [equals_iff, a4, b3]
  have q2 : P3.equals Q2 = true := by rw [equals_iff, a3, b2]
  have q3 : P2.equals Q1 = true := by rw [equals_iff, a2, b1]
  have q0 : Q4.equals Q4 = true := by rw [equals_iff]
  by_cases q4 : P1.equals a = true
  · refine ⟨origin, Q4, [.line Q4 P4, .line Q3 P3, .line Q2 P2, .line Q1 P1], a, m, ?_, by simp [Segment.isMove], ?_⟩
    · simp [reversePath, addSegments, addSegment, Segment.reverse, Segment.isMove, Segment.start, Segment.stop, currentPosition, q0, q1, q2, q3, q4]
    · simp [strokes, strokeOf, a1, b1, a2, b2, a3, b3, a4, b4, cycle, turned_not]
  · refine ⟨origin, Q4, [.line Q4 P4, .line Q3 P3, .line Q2 P2, .line Q1 P1], P1, m, ?_, by simp [Segment.isMove], ?_⟩
    · simp [reversePath, addSegments, addSegment, Segment.reverse, Segment.isMove, Segment.start, Segment.stop, Segment.setStart, currentPosition, q0, q1, q2, q3, q4]
    · simp [strokes, strokeOf, a1, b1, a2, b2, a3, b3, a4, b4, cycle, turned_not]

section Rect

variable (n : Nat) (so : Int) (d t : ℝ) (ht : 0 < t) (hn : 1 / 10 ^ n ≤ t) (hso : 1 / 10 ^ so.toNat ≤ t) (hd : t + 1 / 10 ^ 7 < |d|)
    (sw : Bool) {x0 y0 x1 y1 sx sy : ℝ} (hsx : sx = 1 ∨ sx = -1) (hsy : sy = 1 ∨ sy = -1)
    (hx : 2 * |d| + t + 1 / 10 ^ 6 < sx * (x1 - x0)) (hy : 2 * |d| + t + 1 / 10 ^ 6 < sy * (y1 - y0))
include ht hn hso hd hsx hsy hx hy

theorem offset_rect_tail (fuel : Nat) {δ : ℝ} (hδ : δ = (if sw then d else -d) * sx * sy) (m a : Point ℝ) {run tail : Path ℝ}
    (htail : tail = [] ∨ ∃ c e, tail = [.move c e]) (hm : ∀ s ∈ run, s.isMove = false)
    (hr : strokes run = cycle sw x0 y0 x1 y1) {u v u' v' : ℝ}
    (hb : InBounds u v u' v' sw (round7 (x0 - δ * sx)) (round7 (y0 - δ * sy)) (round7 (x1 + δ * sx)) (round7 (y1 + δ * sy))) :
    ∃ (r : Path ℝ) (sw' : Bool) (T R B L : ℝ), offsetPath n so (fin d) (fuel + 1) .unknown (finPath (.move m a :: (run ++ tail))) = some (.ok (finPath r)) ∧
      InBounds u v u' v' sw' L T R B ∧ strokes r = cycle sw' L T R B ∧ Inked none r := by
  obtain ⟨r, sw', T, R, B, L, e, h1, h2, h3⟩ := offsetPlain_rect n so d t ht hn hso hd sw hsx hsy hx hy hδ m a htail hm hr hb
  refine ⟨r, sw', T, R, B, L, ?_, h1, h2, h3⟩
  have hd0 : d ≠ 0 := by
    rintro rfl
    rw [abs_zero] at hd
    linarith [(by norm_num : (0:ℝ) < 1 / 10 ^ 7)]
  have hs : (splitPathOnMove (finPath (.move m a :: (run ++ tail)))).length ≤ 1 := by
    have : finPath (.move m a :: (run ++ tail)) = .move (finPt m) (finPt a) :: (finPath run ++ finPath tail) := by simp [finPath, finSeg]
    rw [this]
    exact splitLoop_tail (finPath run) (finPath tail) (by
      rcases htail with rfl | ⟨c, c', rfl⟩
      · exact .inl rfl
      · exact .inr ⟨finPt c, finPt c', rfl⟩) _ (finPath_run hm)
  have htr : trimMove (finPath (.move m a :: (run ++ tail))) ≠ [] := by
    obtain ⟨P1, Q1, P2, Q2, P3, Q3, P4, Q4, rfl, -⟩ := run_cycle hm hr
    rcases htail with rfl | ⟨c, e, rfl⟩ <;> exact List.cons_ne_nil _ _
  rw [offsetPath, if_neg (by simp [hd0]), if_neg (by omega), if_neg htr, e]
  simp [wrongSide]

/-- With a size that is asked for. -/
theorem offset_rect_sized (fuel : Nat) (size : SizeShouldBe) (hsize : size ≠ .unknown) (m a : Point ℝ) {run : Path ℝ}
    (hm : ∀ s ∈ run, s.isMove = false) (hr : strokes run = cycle sw x0 y0 x1 y1) {X0 X1 Y0 Y1 : ℝ} (hX : 2 * |d| + t + 1 / 10 ^ 6 < X1 - X0) (hY : 2 * |d| + t + 1 / 10 ^ 6 < Y1 - Y0)
    (hB : InBounds X0 X1 Y0 Y1 sw x0 y0 x1 y1)
    (hb : ∀ δ, InBounds (round7 (X0 - δ)) (round7 (X1 + δ)) (round7 (Y0 - δ)) (round7 (Y1 + δ)) sw
      (round7 (x0 - δ * sx)) (round7 (y0 - δ * sy)) (round7 (x1 + δ * sx)) (round7 (y1 + δ * sy))) :
    ∃ (r : Path ℝ) (sw' : Bool) (T R B L δ : ℝ), offsetPath n so (fin d) (fuel + 2) size (finPath (.move m a :: run)) = some (.ok (finPath r)) ∧
      δ = (if size = .larger then |d| else -|d|) ∧
      InBounds (round7 (X0 - δ)) (round7 (X1 + δ)) (round7 (Y0 - δ)) (round7 (Y1 + δ)) sw' L T R B ∧ strokes r = cycle sw' L T R B ∧
      Inked none r := by
  have hd0 : d ≠ 0 := by
    rintro rfl
    rw [abs_zero] at hd
    linarith [(by norm_num : (0:ℝ) < 1 / 10 ^ 7)]
  have h7 : (0:ℝ) < 1 / 10 ^ 7 := by norm_num
  have h6 : (0:ℝ) < 1 / 10 ^ 6 := by norm_num
  have h67 : (10:ℝ) * (1 / 10 ^ 7) = 1 / 10 ^ 6 := by norm_num
  have hp := abs_nonneg d
  generalize hδ : (if sw then d else -d) * sx * sy = δ
  have dδ : |δ| = |d| := by
    rw [← hδ, abs_mul, abs_mul]
    rcases hsx with rfl | rfl <;> rcases hsy with rfl | rfl <;> cases sw <;> simp
  obtain ⟨r, sw', T, R, B, L, e, k1, k2, k3⟩ := offset_rect_tail n so d t ht hn hso hd sw hsx hsy hx hy (fuel + 1) hδ.symm m a (.inl rfl) hm hr (hb δ)
  rw [List.append_nil] at e
  have hδle : -|d| ≤ δ ∧ δ ≤ |d| := by rw [← dδ]; exact ⟨neg_abs_le δ, le_abs_self δ⟩
  have close : ∀ x, round7 x ≤ x + 1 / 2 / 10 ^ 7 ∧ x - 1 / 2 / 10 ^ 7 ≤ round7 x := by
    intro x
    have := Decimal.rounded_close 7 x
    rw [abs_le] at this
    unfold round7
    constructor <;> linarith [this.1, this.2]
  have h27 : (1:ℝ) / 2 / 10 ^ 7 + 1 / 2 / 10 ^ 7 = 1 / 10 ^ 7 := by norm_num
  have mp : measure (finPath (.move m a :: run)) = (fin (X1 - X0), fin (Y1 - Y0)) :=
    measure_cycle (by linarith) (by linarith) hB (p := .move m a :: run) hr
  have mr : measure (finPath r) = (fin (round7 (X1 + δ) - round7 (X0 - δ)), fin (round7 (Y1 + δ) - round7 (Y0 - δ))) :=
    measure_cycle (by linarith [(close (X1 + δ)).2, (close (X0 - δ)).1]) (by linarith [(close (Y1 + δ)).2, (close (Y0 - δ)).1]) k1 k2
  have hrun : finPath run ≠ [] := by
    rintro h0
    have : run = [] := by simpa [finPath] using h0
    rw [this] at hr
    cases hr
  have hfm : ∀ s ∈ finPath run, s.isMove = false := finPath_run hm
  obtain ⟨z1, z2⟩ := C76_size n so d size (finPt m) (finPt a) (finPath run) hfm (fuel + 1) (finPath r) e hrun hd0
  have eF : (.move (finPt m) (finPt a) :: finPath run : Path (XNum ℝ)) = finPath (.move m a :: run) := rfl
  rw [eF] at z1 z2
  have hs : (HasSize size (finPath (.move m a :: run)) (finPath r) ∧ δ = (if size = .larger then |d| else -|d|)) ∨
      (¬ HasSize size (finPath (.move m a :: run)) (finPath r) ∧ -δ = (if size = .larger then |d| else -|d|)) := by
    have c1 := close (X1 + δ)
    have c2 := close (X0 - δ)
    have c3 := close (Y1 + δ)
    have c4 := close (Y0 - δ)
    rcases abs_choice δ with h | h <;> rw [dδ] at h
    · cases size with
      | unknown => exact absurd rfl hsize
      | larger =>
        left
        refine ⟨?_, by simp [h]⟩
        simp only [HasSize, mp, mr, le_fin, decide_eq_false_iff_not, not_le]
        constructor <;> linarith [c1.2, c2.1, c3.2, c4.1]
      | smaller =>
        right
        refine ⟨?_, by simp [h]⟩
        simp only [HasSize, mp, mr, le_fin, decide_eq_false_iff_not, not_le, not_and_or, not_lt]
        left
        linarith [c1.2, c2.1, c3.2, c4.1]
    · cases size with
      | unknown => exact absurd rfl hsize
      | larger =>
        right
        refine ⟨?_, by simp [h]⟩
        simp only [HasSize, mp, mr, le_fin, decide_eq_false_iff_not, not_le, not_and_or, not_lt]
        left
        linarith [c1.1, c2.2, c3.1, c4.2]
      | smaller =>
        left
        refine ⟨?_, by simp [h]⟩
        simp only [HasSize, mp, mr, le_fin, decide_eq_false_iff_not, not_le]
        constructor <;> linarith [c1.1, c2.2, c3.1, c4.2]
  rcases hs with ⟨hs, hδ'⟩ | ⟨hs, hδ'⟩
  · exact ⟨r, sw', T, R, B, L, δ, z1 hs, hδ', k1, k2, k3⟩
  · obtain ⟨m', a', run', c, e', er, hm', hr'⟩ := reverse_cycle m a hm hr
    obtain ⟨r2, sw2, T2, R2, B2, L2, g1, g2, g3, g4⟩ := offset_rect_tail n so d t ht hn hso hd (!sw) hsy hsx hy hx fuel
      (δ := -δ) (by rw [← hδ]; cases sw <;> simp <;> ring) m' a' (.inr ⟨c, e', rfl⟩) hm' hr' ((hb (-δ)).other)
    refine ⟨r2, sw2, T2, R2, B2, L2, -δ, ?_, hδ', g2, g3, g4⟩
    rw [z2 hs, reversePath_fin, er]
    exact g1

end Rect

/-! ## Rectangles -/

theorem acrossFirst_cycle (a c : Pt ℝ) : acrossFirst a c = cycle false a.1 a.2 c.1 c.2 := rfl

theorem downFirst_cycle (a c : Pt ℝ) : downFirst a c = cycle true a.2 a.1 c.2 c.1 := rfl

theorem around_of_cycle {u v u' v' : ℝ} {sw : Bool} {L T R B : ℝ} (h : InBounds u v u' v' sw L T R B) : Around u v u' v' (cycle sw L T R B) := by
  cases sw
  · exact ⟨(L, T), (R, B), h, .inl rfl⟩
  · exact ⟨(T, L), (B, R), h, .inr rfl⟩

/-- The way from `x` to `y`. -/
noncomputable def sense (x y : ℝ) : ℝ := if x < y then 1 else -1

theorem sense_or (x y : ℝ) : sense x y = 1 ∨ sense x y = -1 := by
  unfold sense
  split <;> simp

theorem sense_pair {u v a b : ℝ} (h : (a = u ∧ b = v) ∨ (a = v ∧ b = u)) (huv : u < v) : sense a b * (b - a) = v - u ∧
    ∀ δ, SamePair (round7 (u - δ)) (round7 (v + δ)) (round7 (a - δ * sense a b)) (round7 (b + δ * sense a b)) := by
  rcases h with ⟨rfl, rfl⟩ | ⟨rfl, rfl⟩
  · have : sense a b = 1 := if_pos huv
    rw [this]
    exact ⟨by ring, fun δ => .inl (by simp)⟩
  · have : sense a b = -1 := if_neg (not_lt.2 huv.le)
    rw [this]
    exact ⟨by ring, fun δ => .inr ⟨by congr 1; ring, by congr 1; ring⟩⟩

/-- **C148.** The offset of a rectangle without a size that is asked for: drawn with the horizontal side first from the corner `a` to the
corner `c`, it goes out by `d` if one of the two directions is that of the axis and the other is not, and in by `d` otherwise. Drawn
the other way round it goes to the other side. What comes out is one closed line, which is read as it is drawn. -/
theorem C148_side (n : Nat) (so : Int) (d t : ℝ) (hn : 1 / 10 ^ n ≤ t) (hso : 1 / 10 ^ so.toNat ≤ t) (hd : t + 1 / 10 ^ 7 < |d|)
    {x0 x1 y0 y1 : ℝ} (hx : 2 * |d| + t + 1 / 10 ^ 6 < x1 - x0) (hy : 2 * |d| + t + 1 / 10 ^ 6 < y1 - y0) (fuel : Nat) (m b : Point ℝ) (run : Path ℝ)
    (hm : ∀ s ∈ run, s.isMove = false) (a c : Pt ℝ) (ho : Opposite x0 x1 y0 y1 a c) :
    (strokes run = acrossFirst a c → ∀ δ, δ = (if (a.1 < c.1 ↔ a.2 < c.2) then -d else d) →
      ∃ r : Path ℝ, offsetPath n so (fin d) (fuel + 1) .unknown (finPath (.move m b :: run)) = some (.ok (finPath r)) ∧
        Around (round7 (x0 - δ)) (round7 (x1 + δ)) (round7 (y0 - δ)) (round7 (y1 + δ)) (strokes r) ∧ ReadAsDrawn r) ∧
    (strokes run = downFirst a c → ∀ δ, δ = (if (a.1 < c.1 ↔ a.2 < c.2) then d else -d) →
      ∃ r : Path ℝ, offsetPath n so (fin d) (fuel + 1) .unknown (finPath (.move m b :: run)) = some (.ok (finPath r)) ∧
        Around (round7 (x0 - δ)) (round7 (x1 + δ)) (round7 (y0 - δ)) (round7 (y1 + δ)) (strokes r) ∧ ReadAsDrawn r) := by
  have ht : 0 < t := lt_of_lt_of_le (by positivity) hn
  have hp := abs_nonneg d
  have h6 : (0:ℝ) < 1 / 10 ^ 6 := by norm_num
  obtain ⟨e1, k1⟩ := sense_pair ho.1 (by linarith)
  obtain ⟨e2, k2⟩ := sense_pair ho.2 (by linarith)
  constructor
  · intro hr δ hδ
    obtain ⟨r, sw', T, R, B, L, g1, g2, g3, g4⟩ := offset_rect_tail n so d t ht hn hso hd false (sense_or a.1 c.1) (sense_or a.2 c.2) (by rw [e1]; exact hx)
      (by rw [e2]; exact hy) fuel (δ := δ)
      (by rw [hδ]; unfold sense; by_cases h1 : a.1 < c.1 <;> by_cases h2 : a.2 < c.2 <;> simp [h1, h2]) m b (.inl rfl) hm hr
      (u := round7 (x0 - δ)) (v := round7 (x1 + δ)) (u' := round7 (y0 - δ)) (v' := round7 (y1 + δ)) ⟨k1 δ, k2 δ⟩
    rw [List.append_nil] at g1
    exact ⟨r, g1, by rw [g3]; exact around_of_cycle g2, g4.faithful⟩
  · intro hr δ hδ
    obtain ⟨r, sw', T, R, B, L, g1, g2, g3, g4⟩ := offset_rect_tail n so d t ht hn hso hd true (sense_or a.2 c.2) (sense_or a.1 c.1) (by rw [e2]; exact hy)
      (by rw [e1]; exact hx) fuel (δ := δ)
      (by rw [hδ]; unfold sense; by_cases h1 : a.1 < c.1 <;> by_cases h2 : a.2 < c.2 <;> simp [h1, h2]) m b (.inl rfl) hm hr
      (u := round7 (x0 - δ)) (v := round7 (x1 + δ)) (u' := round7 (y0 - δ)) (v' := round7 (y1 + δ)) ⟨k1 δ, k2 δ⟩
    rw [List.append_nil] at g1
    exact ⟨r, g1, by rw [g3]; exact around_of_cycle g2, g4.faithful⟩

theorem rect_sized (n : Nat) (so : Int) (d t : ℝ) (hn : 1 / 10 ^ n ≤ t) (hso : 1 / 10 ^ so.toNat ≤ t) (hd : t + 1 / 10 ^ 7 < |d|)
    {x0 x1 y0 y1 : ℝ} (hx : 2 * |d| + t + 1 / 10 ^ 6 < x1 - x0) (hy : 2 * |d| + t + 1 / 10 ^ 6 < y1 - y0) (fuel : Nat) (m b : Point ℝ) (run : Path ℝ)
    (hm : ∀ s ∈ run, s.isMove = false) (hr : Around x0 x1 y0 y1 (strokes run)) (size : SizeShouldBe) (hsize : size ≠ .unknown) :
    ∃ (r : Path ℝ) (δ : ℝ), offsetPath n so (fin d) (fuel + 2) size (finPath (.move m b :: run)) = some (.ok (finPath r)) ∧
      δ = (if size = .larger then |d| else -|d|) ∧
      Around (round7 (x0 - δ)) (round7 (x1 + δ)) (round7 (y0 - δ)) (round7 (y1 + δ)) (strokes r) ∧ Inked none r := by
  have ht : 0 < t := lt_of_lt_of_le (by positivity) hn
  have hp := abs_nonneg d
  have h6 : (0:ℝ) < 1 / 10 ^ 6 := by norm_num
  obtain ⟨a, c, ho, hr⟩ := hr
  obtain ⟨e1, k1⟩ := sense_pair ho.1 (by linarith)
  obtain ⟨e2, k2⟩ := sense_pair ho.2 (by linarith)
  rcases hr with hr | hr
  · obtain ⟨r, sw', T, R, B, L, δ, g1, g2, g3, g4, g5⟩ := offset_rect_sized n so d t ht hn hso hd false (sense_or a.1 c.1) (sense_or a.2 c.2) (by rw [e1]; exact hx)
      (by rw [e2]; exact hy) fuel size hsize m b hm hr (X0 := x0) (X1 := x1) (Y0 := y0) (Y1 := y1) hx hy ⟨ho.1, ho.2⟩ (fun δ => ⟨k1 δ, k2 δ⟩)
    exact ⟨r, δ, g1, g2, by rw [g4]; exact around_of_cycle g3, g5⟩
  · obtain ⟨r, sw', T, R, B, L, δ, g1, g2, g3, g4, g5⟩ := offset_rect_sized n so d t ht hn hso hd true (sense_or a.2 c.2) (sense_or a.1 c.1) (by rw [e2]; exact hy)
      (by rw [e1]; exact hx) fuel size hsize m b hm hr (X0 := x0) (X1 := x1) (Y0 := y0) (Y1 := y1) hx hy ⟨ho.1, ho.2⟩ (fun δ => ⟨k1 δ, k2 δ⟩)
    exact ⟨r, δ, g1, g2, by rw [g4]; exact around_of_cycle g3, g5⟩

/-- **C148.** The offset of a rectangle that should be larger is one closed line around the rectangle with every side moved out by the
distance, its corners rounded to seven decimals. It is read as it is drawn. -/
theorem C148_larger (n : Nat) (so : Int) (d t : ℝ) (hn : 1 / 10 ^ n ≤ t) (hso : 1 / 10 ^ so.toNat ≤ t) (hd : t + 1 / 10 ^ 7 < |d|)
    {x0 x1 y0 y1 : ℝ} (hx : 2 * |d| + t + 1 / 10 ^ 6 < x1 - x0) (hy : 2 * |d| + t + 1 / 10 ^ 6 < y1 - y0) (fuel : Nat) (m b : Point ℝ) (run : Path ℝ)
    (hm : ∀ s ∈ run, s.isMove = false) (hr : Around x0 x1 y0 y1 (strokes run)) :
    ∃ r : Path ℝ, offsetPath n so (fin d) (fuel + 2) .larger (finPath (.move m b :: run)) = some (.ok (finPath r)) ∧
      Around (round7 (x0 - |d|)) (round7 (x1 + |d|)) (round7 (y0 - |d|)) (round7 (y1 + |d|)) (strokes r) ∧ ReadAsDrawn r := by
  obtain ⟨r, δ, h1, h2, h3, h4⟩ := rect_sized n so d t hn hso hd hx hy fuel m b run hm hr .larger (by decide)
  rw [if_pos rfl] at h2
  subst h2
  exact ⟨r, h1, h3, h4.faithful⟩

/-- **C148.** The offset of a rectangle that should be smaller is one closed line around the rectangle with every side moved in by the
distance, its corners rounded to seven decimals. It is read as it is drawn. -/
theorem C148_smaller (n : Nat) (so : Int) (d t : ℝ) (hn : 1 / 10 ^ n ≤ t) (hso : 1 / 10 ^ so.toNat ≤ t) (hd : t + 1 / 10 ^ 7 < |d|)
    {x0 x1 y0 y1 : ℝ} (hx : 2 * |d| + t + 1 / 10 ^ 6 < x1 - x0) (hy : 2 * |d| + t + 1 / 10 ^ 6 < y1 - y0) (fuel : Nat) (m b : Point ℝ) (run : Path ℝ)
    (hm : ∀ s ∈ run, s.isMove = false) (hr : Around x0 x1 y0 y1 (strokes run)) :
    ∃ r : Path ℝ, offsetPath n so (fin d) (fuel + 2) .smaller (finPath (.move m b :: run)) = some (.ok (finPath r)) ∧
      Around (round7 (x0 + |d|)) (round7 (x1 - |d|)) (round7 (y0 + |d|)) (round7 (y1 - |d|)) (strokes r) ∧ ReadAsDrawn r := by
  obtain ⟨r, δ, h1, h2, h3, h4⟩ := rect_sized n so d t hn hso hd hx hy fuel m b run hm hr .smaller (by decide)
  rw [if_neg (by decide)] at h2
  subst h2
  simp only [sub_neg_eq_add, ← sub_eq_add_neg] at h3
  exact ⟨r, h1, h3, h4.faithful⟩

/-- Not vacuous: a square of side 2, to be made larger by one half. -/
example : ∃ r : Path ℝ, offsetPath 3 3 (fin (1 / 2)) 2 .larger (finPath (.move ⟨0, 0, 0⟩ ⟨1, 1, 0⟩ ::
      [.line ⟨1, 1, 0⟩ ⟨3, 1, 0⟩, .line ⟨3, 1, 0⟩ ⟨3, 3, 0⟩, .line ⟨3, 3, 0⟩ ⟨1, 3, 0⟩, .line ⟨1, 3, 0⟩ ⟨1, 1, 0⟩])) = some (.ok (finPath r)) ∧
      Around (round7 (1 - |1 / 2|)) (round7 (3 + |1 / 2|)) (round7 (1 - |1 / 2|)) (round7 (3 + |1 / 2|)) (strokes r) ∧ ReadAsDrawn r :=
  C148_larger 3 3 (1 / 2) (1 / 1000) (by norm_num) (by rw [show (3 : Int).toNat = 3 from rfl]; norm_num) (by rw [abs_of_pos] <;> norm_num) (by rw [abs_of_pos] <;> norm_num)
    (by rw [abs_of_pos] <;> norm_num) 0 _ _ _ (by simp [Segment.isMove]) ⟨(1, 1), (3, 3), ⟨.inl ⟨rfl, rfl⟩, .inl ⟨rfl, rfl⟩⟩, .inl rfl⟩

end Verif.Path
