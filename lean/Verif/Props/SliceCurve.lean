import Verif.Props.KnifeCurve
import Verif.Lemmas.BezierPairs
import Verif.Spec.SliceCurve
import Verif.Props.Knife

/-!
# C145: slicing a drawing with curves at a height

Over the real numbers extended by the IEEE special values.
-/

namespace Verif.Path

open Verif Verif.Spec Verif.XNum

set_option linter.unusedSectionVars false

/-! ### Points of the pieces -/

theorem on_curveStroke (c : Bezier.Curve ℝ) (q : Pt ℝ) : On (curveStroke c) q ↔ ∃ x, 0 ≤ x ∧ x ≤ 1 ∧ curveAt c x = q := Iff.rfl

theorem through_cover {c : Bezier.Curve ℝ} {P : ℝ → Prop} : ∀ {ks : List (Bezier.Curve ℝ)} {s t : ℝ}, s < t → Through c P s t ks →
    ∀ x, s ≤ x → x ≤ t → ∃ k ∈ ks, ∃ u, 0 ≤ u ∧ u ≤ 1 ∧ curveAt k u = curveAt c x := by
  have one : ∀ {k : Bezier.Curve ℝ} {s t : ℝ}, s < t → Retraces k c s t → ∀ x, s ≤ x → x ≤ t → ∃ u, 0 ≤ u ∧ u ≤ 1 ∧ curveAt k u = curveAt c x := by
    intro k s t hst h x h0 h1
    have hp : 0 < t - s := by linarith
    refine ⟨(x - s) / (t - s), div_nonneg (by linarith) hp.le, (div_le_one hp).2 (by linarith), ?_⟩
    rw [h, mul_div_cancel₀ _ hp.ne']
    congr 1; ring
  intro ks
  induction ks with
  | nil => intro s t _ h; exact h.elim
  | cons k ks ih =>
    intro s t hst h x h0 h1
    cases ks with
    | nil => exact ⟨k, by simp, one hst h x h0 h1⟩
    | cons k' ks =>
      obtain ⟨m, m0, m1, -, hr, hrest⟩ := h
      rcases le_total x m with hx | hx
      · exact ⟨k, by simp, one m0 hr x h0 hx⟩
      · obtain ⟨j, hj, hu⟩ := ih m1 hrest x hx h1
        exact ⟨j, List.mem_cons_of_mem _ hj, hu⟩

theorem through_part {c : Bezier.Curve ℝ} {P : ℝ → Prop} : ∀ {ks : List (Bezier.Curve ℝ)} {s t : ℝ}, s < t → Through c P s t ks →
    ∀ k ∈ ks, ∀ u, 0 ≤ u → u ≤ 1 → ∃ x, s ≤ x ∧ x ≤ t ∧ curveAt k u = curveAt c x := by
  have one : ∀ {k : Bezier.Curve ℝ} {s t : ℝ}, s < t → Retraces k c s t → ∀ u, 0 ≤ u → u ≤ 1 → ∃ x, s ≤ x ∧ x ≤ t ∧ curveAt k u = curveAt c x := by
    intro k s t hst h u h0 h1
    have hp : 0 < t - s := by linarith
    exact ⟨s + (t - s) * u, by nlinarith, by nlinarith, h u⟩
  intro ks
  induction ks with
  | nil => intro s t _ h; exact h.elim
  | cons k ks ih =>
    intro s t hst h j hj u h0 h1
    cases ks with
    | nil =>
      rcases List.mem_cons.1 hj with rfl | hj
      · exact one hst h u h0 h1
      · cases hj
    | cons k' ks =>
      obtain ⟨m, m0, m1, -, hr, hrest⟩ := h
      rcases List.mem_cons.1 hj with rfl | hj
      · obtain ⟨x, x0, x1, e⟩ := one m0 hr u h0 h1
        exact ⟨x, x0, x1.trans m1.le, e⟩
      · obtain ⟨x, x0, x1, e⟩ := ih m1 hrest j hj u h0 h1
        exact ⟨x, m0.le.trans x0, x1, e⟩

/-! ### What the filter decides -/

theorem cmp_low {n : Nat} {x Y : ℝ} (h : 0 ≤ precisionCompare (fin x : XNum ℝ) (fin Y) n) : Y - 1 / 10 ^ n ≤ x := by
  rw [cmp_nonneg_iff, not_and, not_not] at h
  have hp : (0:ℝ) < 1 / 10 ^ n := by positivity
  rcases lt_or_ge x Y with hx | hx
  · have := Decimal.fmt_close (h hx)
    rw [abs_le] at this
    linarith [this.1]
  · linarith

theorem cmp_high {n : Nat} {x Y : ℝ} (h : precisionCompare (fin x : XNum ℝ) (fin Y) n ≤ 0) : x ≤ Y + 1 / 10 ^ n := by
  have hp : (0:ℝ) < 1 / 10 ^ n := by positivity
  unfold precisionCompare precisionEquals at h
  simp only [lt_fin, decide_eq_true_eq, Int.not_ofNat_neg, if_false, Int.toNat_natCast, fmt_fin, beq_iff_eq] at h
  split_ifs at h with h1 h2
  · have := Decimal.fmt_close h1
    rw [abs_le] at this
    linarith [this.2]
  · linarith
  · norm_num at h

theorem bernstein_ge {a b c d m t : ℝ} (ha : m ≤ a) (hb : m ≤ b) (hc : m ≤ c) (hd : m ≤ d) (h0 : 0 ≤ t) (h1 : t ≤ 1) :
    m ≤ bernstein a b c d t := by
  have h2 : 0 ≤ 1 - t := by linarith
  have e : bernstein a b c d t - m = (1 - t) ^ 3 * (a - m) + 3 * (1 - t) ^ 2 * t * (b - m) + 3 * (1 - t) * t ^ 2 * (c - m) + t ^ 3 * (d - m) := by
    unfold bernstein; ring
  have p1 : 0 ≤ (1 - t) ^ 3 * (a - m) := mul_nonneg (by positivity) (by linarith)
  have p2 : 0 ≤ 3 * (1 - t) ^ 2 * t * (b - m) := mul_nonneg (by positivity) (by linarith)
  have p3 : 0 ≤ 3 * (1 - t) * t ^ 2 * (c - m) := mul_nonneg (by positivity) (by linarith)
  have p4 : 0 ≤ t ^ 3 * (d - m) := mul_nonneg (by positivity) (by linarith)
  linarith

theorem bernstein_le {a b c d m t : ℝ} (ha : a ≤ m) (hb : b ≤ m) (hc : c ≤ m) (hd : d ≤ m) (h0 : 0 ≤ t) (h1 : t ≤ 1) :
    bernstein a b c d t ≤ m := by
  have h2 : 0 ≤ 1 - t := by linarith
  have e : m - bernstein a b c d t = (1 - t) ^ 3 * (m - a) + 3 * (1 - t) ^ 2 * t * (m - b) + 3 * (1 - t) * t ^ 2 * (m - c) + t ^ 3 * (m - d) := by
    unfold bernstein; ring
  have p1 : 0 ≤ (1 - t) ^ 3 * (m - a) := mul_nonneg (by positivity) (by linarith)
  have p2 : 0 ≤ 3 * (1 - t) ^ 2 * t * (m - b) := mul_nonneg (by positivity) (by linarith)
  have p3 : 0 ≤ 3 * (1 - t) * t ^ 2 * (m - c) := mul_nonneg (by positivity) (by linarith)
  have p4 : 0 ≤ t ^ 3 * (m - d) := mul_nonneg (by positivity) (by linarith)
  linarith

/-- A piece that is dropped has no point above the height, up to the precision. A piece that is kept has none below it, or it has a point
above it. -/
theorem slice_decides (n : Nat) (Y : ℝ) (seg : Segment ℝ) (t : Stroke ℝ) (ht : strokeOf seg = some t) (hs : Small [seg]) :
    (sliceBelow n (fin Y) (finSeg seg) = true → ∀ q, On t q → Y - 1 / 10 ^ n ≤ q.2) ∧
    (sliceBelow n (fin Y) (finSeg seg) = false → (∀ q, On t q → q.2 ≤ Y + 1 / 10 ^ n) ∨ ∃ q, On t q ∧ q.2 < Y) := by
  obtain ⟨tl, br, hbox, hB⟩ := segBox_fin seg t ht hs
  have box_case : (decide (0 ≤ precisionCompare (segBox (finSeg seg)).1.y (fin Y) n) = true → ∀ q, On t q → Y - 1 / 10 ^ n ≤ q.2) ∧
      (decide (0 ≤ precisionCompare (segBox (finSeg seg)).1.y (fin Y) n) = false → ∃ q, On t q ∧ q.2 < Y) := by
    rw [hbox]
    show (decide (0 ≤ precisionCompare (fin tl.2 : XNum ℝ) (fin Y) n) = true → _) ∧ (decide (0 ≤ precisionCompare (fin tl.2 : XNum ℝ) (fin Y) n) = false → _)
    constructor
    · intro h q hq
      exact (cmp_low (of_decide_eq_true h)).trans (hB.inside q hq).2.2.1
    · intro h
      have h := of_decide_eq_false h
      rw [cmp_nonneg_iff, not_not] at h
      obtain ⟨q, hq, e⟩ := hB.top
      exact ⟨q, hq, by rw [e]; exact h.1⟩
  cases seg with
  | move a b => simp [strokeOf] at ht
  | line a b =>
    simp only [strokeOf, Option.some.injEq] at ht
    subst ht
    have hy : ∀ q, On (.line (pt a) (pt b)) q → min a.y b.y ≤ q.2 ∧ q.2 ≤ max a.y b.y := fun q hq =>
      ⟨((at_line_box (pt a) (pt b)).inside q hq).2.2.1, ((at_line_box (pt a) (pt b)).inside q hq).2.2.2⟩
    have e : sliceBelow n (fin Y) (finSeg (.line a b)) =
        if ([fin a.y, fin b.y] : List (XNum ℝ)).all fun v => decide (0 ≤ precisionCompare v (fin Y) n) then true
        else if ([fin a.y, fin b.y] : List (XNum ℝ)).all fun v => decide (precisionCompare v (fin Y) n ≤ 0) then false
        else decide (0 ≤ precisionCompare (segBox (finSeg (.line a b))).1.y (fin Y) n) := rfl
    rw [e]
    by_cases c1 : (([fin a.y, fin b.y] : List (XNum ℝ)).all fun v => decide (0 ≤ precisionCompare v (fin Y) n)) = true
    · rw [if_pos c1]
      simp only [List.all_cons, List.all_nil, Bool.and_true, Bool.and_eq_true, decide_eq_true_eq] at c1
      refine ⟨fun _ q hq => ?_, fun h => by cases h⟩
      exact (le_min (cmp_low c1.1) (cmp_low c1.2)).trans (hy q hq).1
    · rw [if_neg c1]
      by_cases c2 : (([fin a.y, fin b.y] : List (XNum ℝ)).all fun v => decide (precisionCompare v (fin Y) n ≤ 0)) = true
      · rw [if_pos c2]
        simp only [List.all_cons, List.all_nil, Bool.and_true, Bool.and_eq_true, decide_eq_true_eq] at c2
        refine ⟨fun h => (by cases h), fun _ => .inl fun q hq => ?_⟩
        exact (hy q hq).2.trans (max_le (cmp_high c2.1) (cmp_high c2.2))
      · rw [if_neg c2]
        exact ⟨box_case.1, fun h => .inr (box_case.2 h)⟩
  | curve a c d b =>
    simp only [strokeOf, Option.some.injEq] at ht
    subst ht
    have e : sliceBelow n (fin Y) (finSeg (.curve a c d b)) =
        if ([fin a.y, fin b.y, fin c.y, fin d.y] : List (XNum ℝ)).all fun v => decide (0 ≤ precisionCompare v (fin Y) n) then true
        else if ([fin a.y, fin b.y, fin c.y, fin d.y] : List (XNum ℝ)).all fun v => decide (precisionCompare v (fin Y) n ≤ 0) then false
        else decide (0 ≤ precisionCompare (segBox (finSeg (.curve a c d b))).1.y (fin Y) n) := rfl
    rw [e]
    by_cases c1 : (([fin a.y, fin b.y, fin c.y, fin d.y] : List (XNum ℝ)).all fun v => decide (0 ≤ precisionCompare v (fin Y) n)) = true
    · rw [if_pos c1]
      simp only [List.all_cons, List.all_nil, Bool.and_true, Bool.and_eq_true, decide_eq_true_eq] at c1
      refine ⟨fun _ q hq => ?_, fun h => by cases h⟩
      obtain ⟨t, t0, t1, rfl⟩ := hq
      exact bernstein_ge (cmp_low c1.1) (cmp_low c1.2.2.1) (cmp_low c1.2.2.2) (cmp_low c1.2.1) t0 t1
    · rw [if_neg c1]
      by_cases c2 : (([fin a.y, fin b.y, fin c.y, fin d.y] : List (XNum ℝ)).all fun v => decide (precisionCompare v (fin Y) n ≤ 0)) = true
      · rw [if_pos c2]
        simp only [List.all_cons, List.all_nil, Bool.and_true, Bool.and_eq_true, decide_eq_true_eq] at c2
        refine ⟨fun h => (by cases h), fun _ => .inl fun q hq => ?_⟩
        obtain ⟨t, t0, t1, rfl⟩ := hq
        exact bernstein_le (cmp_high c2.1) (cmp_high c2.2.2.1) (cmp_high c2.2.2.2) (cmp_high c2.2.1) t0 t1
      · rw [if_neg c2]
        exact ⟨box_case.1, fun h => .inr (box_case.2 h)⟩

/-! ### The knife of the transform -/

theorem on_ends (r : Stroke ℝ) : On r r.first ∧ On r r.last := by
  refine ⟨⟨0, le_refl _, by norm_num, ?_⟩, ⟨1, by norm_num, le_refl _, ?_⟩⟩ <;> cases r <;> simp [Stroke.at, Stroke.first, Stroke.last]

theorem small_of_bounded {p : Path ℝ} (h : CurvesBounded p) : Small p := fun a c d b hm => h a c d b hm a (by simp)

theorem whitespaceBox_small (p : Path ℝ) (hne : p ≠ []) (hl : Small p) : ∃ (tl br : Point (XNum ℝ)) (x1 : ℝ),
    whitespaceBox (finPath p) = .ok (tl, br) ∧ tl.x = fin (leftEdge p) ∧ br.x = fin x1 ∧ ∀ q, Drawn p q → q.1 ≤ x1 := by
  match p, hne with
  | s :: rest, _ =>
    have hsm : Small rest := fun a c d b h => hl a c d b (by rw [strokes_cons]; exact List.mem_append_right _ h)
    have h1s : Small [s] := fun a c d b h => hl a c d b (by
      rw [strokes_cons] at h ⊢
      exact List.mem_append_left _ (by simpa [strokes] using h))
    obtain ⟨D, a0, b0, hsb, hD, hsD⟩ : ∃ (D : Pt ℝ → Prop) (a0 b0 : Pt ℝ), segBox (finSeg s) = (finPt (mk a0), finPt (mk b0)) ∧ BoxOf D a0 b0 ∧
        ∀ t, strokeOf s = some t → ∀ q, On t q → D q := by
      cases hs : strokeOf s with
      | none =>
        cases s with
        | move u v => exact ⟨_, _, _, lineBox_fin _ u v (.inl rfl), at_line_box (pt u) (pt v), fun t h => by cases h⟩
        | line u v => cases hs
        | curve a c d b => cases hs
      | some t =>
        obtain ⟨tl, br, e1, e2⟩ := segBox_fin s t hs h1s
        exact ⟨_, _, _, e1, e2, fun t' h => by cases h; exact fun q h => h⟩
    obtain ⟨c, d, h1, h2⟩ := boxLoop_fin rest _ _ _ hsm hD
    have hb : (pathBox (finPath (s :: rest))).2 = finPt (mk d) := by
      rw [finPath_cons, pathBox, hsb]
      exact congrArg Prod.snd h1
    have hd : ∀ q, Drawn (s :: rest) q → q.1 ≤ d.1 := by
      rintro q ⟨t, ht, hq⟩
      rw [strokes_cons, List.mem_append, Option.mem_toList] at ht
      refine (h2.inside q ?_).2.1
      rcases ht with ht | ht
      · exact .inl (hsD t ht q hq)
      · exact .inr ⟨t, ht, hq⟩
    cases hlast : (s :: rest).getLast? with
    | none => simp at hlast
    | some l =>
      have hl' : (finPath (s :: rest)).getLast? = some (finSeg l) := by rw [finPath, List.getLast?_map, hlast]; rfl
      unfold whitespaceBox
      rw [hl', hb, finPath_cons]
      refine ⟨_, _, max d.1 l.stop.x, rfl, ?_, ?_, fun q hq => (hd q hq).trans (le_max_left _ _)⟩
      · simp only [start_finSeg, finPt, origin, leftEdge]
        have : (newPoint (Arith.zero) Arith.zero : Point (XNum ℝ)).x = fin 0 := by
          simp [Arith.zero, newPoint_mk, finPt, mk]
        rw [this, lt_fin]
        simp only [decide_eq_true_eq]
        split
        · next h => rw [min_eq_right h.le]
        · next h => rw [min_eq_left (not_lt.mp h)]
      · simp only [stop_finSeg, finPt, mk, lt_fin, decide_eq_true_eq]
        split
        · next h => rw [max_eq_right h.le]
        · next h => rw [max_eq_left (not_lt.mp h)]

theorem knife_small (so : Nat) (p : Path ℝ) (hl : Small p) (hw : ∃ q, Drawn p q ∧ leftEdge p + 1 / 10 ^ so < q.1) :
    ∃ (tl br : Point (XNum ℝ)) (x1 : ℝ), whitespaceBox (finPath p) = .ok (tl, br) ∧ tl.x = fin (leftEdge p) ∧ br.x = fin x1 ∧
      (∀ q, Drawn p q → q.1 ≤ x1) ∧ leftEdge p < x1 ∧ precisionEquals (fin (leftEdge p) : XNum ℝ) (fin x1) so = false := by
  obtain ⟨q, hq, hw⟩ := hw
  have hne : p ≠ [] := by
    rintro rfl
    obtain ⟨s, hs, -⟩ := hq
    cases hs
  obtain ⟨tl, br, x1, h1, h2, h3, h4⟩ := whitespaceBox_small p hne hl
  have hp : (0:ℝ) < 1 / 10 ^ so := by positivity
  have hlt : leftEdge p + 1 / 10 ^ so < x1 := hw.trans_le (h4 q hq)
  refine ⟨tl, br, x1, h1, h2, h3, h4, by linarith, ?_⟩
  unfold precisionEquals
  simp only [Int.not_ofNat_neg, if_false, Int.toNat_natCast, fmt_fin, beq_eq_false_iff_ne, ne_eq]
  intro e
  have := Decimal.fmt_close e
  rw [abs_le] at this
  linarith [this.1]

/-! ### The cuts -/

theorem through_imp {c : Bezier.Curve ℝ} {P Q : ℝ → Prop} (hPQ : ∀ t, P t → Q t) : ∀ {ks : List (Bezier.Curve ℝ)} {s t : ℝ},
    Through c P s t ks → Through c Q s t ks
  | [], _, _, h => h
  | [_], _, _, h => h
  | _ :: _ :: _, _, _, ⟨m, m0, m1, hp, hr, hrest⟩ => ⟨m, m0, m1, hPQ m hp, hr, through_imp hPQ hrest⟩

/-- What becomes of one segment. -/
def SegCut2 (Y : ℝ) (s : Segment ℝ) (l : Path ℝ) : Prop :=
  (strokeOf s = none ∧ strokes l = []) ∨ ∃ t, strokeOf s = some t ∧ StrokeCut Y t (strokes l) ∧ ∀ x ∈ l, Small [x]

theorem curveAt_zero (c : Bezier.Curve ℝ) : curveAt c 0 = (c.p0.x, c.p0.y) := by simp [curveAt, bernstein]

theorem seg_cut (so : Nat) (x0 x1 Y : ℝ) (hx : x0 < x1) (hk : precisionEquals (fin x0 : XNum ℝ) (fin x1) so = false) (s : Segment ℝ)
    (hb : CurvesBounded [s]) :
    ∃ N, ∀ fuel, N ≤ fuel → ∃ l : Path ℝ, knifeCut so (finPt (mk (x0, Y)), finPt (mk (x1, Y))) fuel (finSeg s) = some (finPath l) ∧ SegCut2 Y s l := by
  cases s with
  | move a b =>
    refine ⟨1, fun fuel hf => ?_⟩
    obtain ⟨f, rfl⟩ : ∃ f, fuel = f + 1 := ⟨fuel - 1, by omega⟩
    exact ⟨[.move a b], rfl, .inl ⟨rfl, rfl⟩⟩
  | line a b =>
    refine ⟨3, fun fuel hf => ?_⟩
    obtain ⟨f, rfl⟩ : ∃ f, fuel = f + 3 := ⟨fuel - 3, by omega⟩
    obtain ⟨l, h1, h2⟩ := knifeCut_line so x0 x1 Y hk f a b
    have hfp : l.map asLine = finPath (l.map fun v => .line v.1 v.2) := by
      simp [finPath, asLine, finSeg]
    refine ⟨l.map fun v => .line v.1 v.2, h1.trans (by rw [hfp]), .inr ⟨_, rfl, ?_, ?_⟩⟩
    · show CutAt Y _ _
      rcases h2 with rfl | rfl | ⟨rfl, -⟩
      · exact .inl rfl
      · exact .inr (.inl ⟨(crossX so Y a b, Y), rfl, rfl⟩)
      · exact .inr (.inr ⟨(a.x, Y), (crossX so Y a b, Y), rfl, rfl, rfl⟩)
    · intro x hx a c d b hm
      obtain ⟨v, _, rfl⟩ := List.mem_map.1 hx
      simp [strokes, strokeOf] at hm
  | curve a c d b =>
    have hab : pt (mk (x0, Y)) ≠ pt (mk (x1, Y)) := by
      simp only [pt, mk, ne_eq, Prod.mk.injEq, not_and]
      intro h; linarith
    obtain ⟨N, hN⟩ := C144_ends so (mk (x0, Y)) (mk (x1, Y)) hab a c d b
    refine ⟨N, fun fuel hf => ?_⟩
    obtain ⟨l, hl⟩ := hN fuel hf
    obtain ⟨q, ks, rfl, hq, hm, ht⟩ := C144_pieces so _ _ hab fuel a c d b l hl
    refine ⟨q, hl, .inr ⟨_, rfl, ⟨ks, hq, through_imp (fun t h => ?_) ht⟩, fun x hx => ?_⟩⟩
    · obtain ⟨-, -, -, h1, h2⟩ := h
      simp only [pt, mk, min_self, max_self] at h1 h2
      rw [abs_le]
      constructor
      · have := h1; change _ ≤ (curveAt (bezOf a c d b) t).2 - Y; linarith
      · have := h2; change (curveAt (bezOf a c d b) t).2 - Y ≤ _; linarith
    · intro a' c' d' b' hm'
      have hin : Stroke.curve a' c' d' b' ∈ strokes q := by
        simp only [strokes, List.mem_filterMap, List.mem_singleton] at hm' ⊢
        obtain ⟨y, rfl, hy⟩ := hm'
        exact ⟨y, hx, hy⟩
      rw [hq, List.mem_map] at hin
      obtain ⟨k, hk, e⟩ := hin
      obtain ⟨x, x0, x1, he⟩ := through_part zero_lt_one ht k hk 0 le_rfl zero_le_one
      rw [curveAt_zero] at he
      simp only [curveStroke, Stroke.curve.injEq] at e
      obtain ⟨rfl, -⟩ := e
      have hb := hb (pt a) (pt c) (pt d) (pt b) (by simp [strokes, strokeOf])
      have h1 := hb (pt a) (by simp)
      have h2 := hb (pt c) (by simp)
      have h3 := hb (pt d) (by simp)
      have h4 := hb (pt b) (by simp)
      rw [he]
      exact ⟨Bezier.bernstein_bounded h1.1 h2.1 h3.1 h4.1 x0 x1, Bezier.bernstein_bounded h1.2 h2.2 h3.2 h4.2 x0 x1⟩

theorem segs_cut (so : Nat) (x0 x1 Y : ℝ) (hx : x0 < x1) (hk : precisionEquals (fin x0 : XNum ℝ) (fin x1) so = false) (p : Path ℝ)
    (hb : CurvesBounded p) :
    ∃ N, ∀ fuel, N ≤ fuel → ∀ s ∈ p, ∃ l : Path ℝ,
      knifeCut so (finPt (mk (x0, Y)), finPt (mk (x1, Y))) fuel (finSeg s) = some (finPath l) ∧ SegCut2 Y s l := by
  induction p with
  | nil => exact ⟨0, fun _ _ s hs => by cases hs⟩
  | cons s p ih =>
    obtain ⟨N, hN⟩ := seg_cut so x0 x1 Y hx hk s fun a c d b h => hb a c d b (by
      rw [strokes_cons] at h ⊢
      exact List.mem_append_left _ (by simpa [strokes] using h))
    obtain ⟨M, hM⟩ := ih fun a c d b h => hb a c d b (by rw [strokes_cons]; exact List.mem_append_right _ h)
    refine ⟨max N M, fun fuel hf t ht => ?_⟩
    rcases List.mem_cons.1 ht with rfl | ht
    · exact hN fuel ((le_max_left _ _).trans hf)
    · exact hM fuel ((le_max_right _ _).trans hf) t ht

theorem cuts_strokes2 {Y : ℝ} {p : Path ℝ} {ls : List (Path ℝ)} (h : List.Forall₂ (SegCut2 Y) p ls) :
    ∃ cuts, List.Forall₂ (StrokeCut Y) (strokes p) cuts ∧ strokes ls.flatten = cuts.flatten ∧
      ∀ x ∈ ls.flatten, strokeOf x ≠ none → Small [x] := by
  induction h with
  | nil => exact ⟨[], .nil, rfl, by intro s hs; cases hs⟩
  | @cons s l p ls h1 h2 ih =>
    obtain ⟨cuts, i1, i2, i3⟩ := ih
    rcases h1 with ⟨e1, e2⟩ | ⟨t, e1, e2, e3⟩
    · refine ⟨cuts, ?_, ?_, ?_⟩
      · rw [strokes_cons, e1]; exact i1
      · rw [List.flatten_cons, strokes_append, e2, i2]; rfl
      · intro x hx hne
        rw [List.flatten_cons, List.mem_append] at hx
        rcases hx with hx | hx
        · cases ho : strokeOf x with
          | none => exact absurd ho hne
          | some t =>
            have : t ∈ strokes l := by rw [strokes, List.mem_filterMap]; exact ⟨x, hx, ho⟩
            rw [e2] at this
            cases this
        · exact i3 x hx hne
    · refine ⟨strokes l :: cuts, ?_, ?_, ?_⟩
      · rw [strokes_cons, e1]; exact .cons e2 i1
      · rw [List.flatten_cons, strokes_append, i2]; rfl
      · intro x hx hne
        rw [List.flatten_cons, List.mem_append] at hx
        rcases hx with hx | hx
        · exact e3 x hx
        · exact i3 x hx hne

theorem hSlice_any (n : Nat) (so : Int) (f : Nat) (Y : ℝ) (p : Path ℝ) {tl br : Point (XNum ℝ)} {x0 x1 : ℝ}
    (h1 : whitespaceBox (finPath p) = .ok (tl, br)) (h2 : tl.x = fin x0) (h3 : br.x = fin x1) {ls : List (Path ℝ)}
    (g1 : (finPath p).mapM (knifeCut so (finPt (mk (x0, Y)), finPt (mk (x1, Y))) f) = some (ls.map finPath)) :
    ∃ q : Path ℝ, hSlice n so f (fin Y) (finPath p) = .ok (some (finPath q)) ∧
      List.Forall₂ (Aligned n) (strokes (ls.flatten.filter fun s => !sliceBelow n (fin Y) (finSeg s))) (strokes q) := by
  have hfl : (ls.map finPath).flatten = finPath ls.flatten := by
    rw [finPath, List.map_flatten]
    rfl
  refine ⟨cleanup n (newPathWithoutMove (ls.flatten.filter fun s => !sliceBelow n (fin Y) (finSeg s))), ?_, ?_⟩
  · unfold hSlice
    rw [h1]
    simp only [h2, h3, newPoint_mk]
    rw [g1, Option.map_some, hfl]
    congr 2
    have : (finPath ls.flatten).filter (fun s => !sliceBelow n (fin Y) s) = finPath (ls.flatten.filter fun s => !sliceBelow n (fin Y) (finSeg s)) := by
      unfold finPath
      rw [List.filter_map]
      rfl
    rw [this, newPathWithoutMove, fixHeadMove_fin, cleanup_fin]
    rfl
  · have := C34_strokes (n : Int) (newPathWithoutMove (ls.flatten.filter fun s => !sliceBelow n (fin Y) (finSeg s))) fun s _ => by
      simp [EndsProperly]
    rw [newPathWithoutMove, strokes_fixHeadMove, Int.toNat_natCast] at this
    exact this

theorem forall2_left {α β : Type*} {R : α → β → Prop} {l : List α} {m : List β} (h : List.Forall₂ R l m) {x : α} (hx : x ∈ l) : ∃ y ∈ m, R x y := by
  induction h with
  | nil => cases hx
  | cons h _ ih =>
    rcases List.mem_cons.1 hx with rfl | hx
    · exact ⟨_, .head _, h⟩
    · obtain ⟨y, hy, hh⟩ := ih hx
      exact ⟨y, .tail _ hy, hh⟩

/-- **C145.** The cut of a drawing of lines and curves at a height ends. Every stroke is cut in pieces at this height, and what is left is, in
order, some of the pieces, up to starts that print the same. A piece that is left out has no point above the height, up to the precision; a
piece that is left in has no point below it, up to the precision, or it has a point above it. -/
theorem C145_slice (n so : Nat) (Y : ℝ) (p : Path ℝ) (hb : CurvesBounded p) (hw : ∃ q, Drawn p q ∧ leftEdge p + 1 / 10 ^ so < q.1) :
    ∃ N, ∀ fuel, N ≤ fuel → ∃ (q : Path ℝ) (cuts : List (List (Stroke ℝ))) (kept : List (Stroke ℝ)),
      hSlice n so fuel (fin Y) (finPath p) = .ok (some (finPath q)) ∧ List.Forall₂ (StrokeCut Y) (strokes p) cuts ∧
      kept.Sublist cuts.flatten ∧ List.Forall₂ (Aligned n) kept (strokes q) ∧
      (∀ t ∈ cuts.flatten, t ∉ kept → ∀ r, On t r → Y - 1 / 10 ^ n ≤ r.2) ∧
      (∀ t ∈ kept, (∀ r, On t r → r.2 ≤ Y + 1 / 10 ^ n) ∨ ∃ r, On t r ∧ r.2 < Y) := by
  obtain ⟨tl, br, x1, h1, h2, h3, h4, h5, hk⟩ := knife_small so p (small_of_bounded hb) hw
  obtain ⟨N, hN⟩ := segs_cut so (leftEdge p) x1 Y h5 hk p hb
  refine ⟨N, fun fuel hf => ?_⟩
  obtain ⟨ls, g1, g2⟩ := mapM_cut (R := SegCut2 Y) p (hN fuel hf)
  obtain ⟨cuts, i1, i2, i3⟩ := cuts_strokes2 g2
  obtain ⟨q, j1, j2⟩ := hSlice_any n so fuel Y p h1 h2 h3 g1
  refine ⟨q, cuts, _, j1, i1, ?_, j2, ?_, ?_⟩
  · rw [← i2]
    exact (List.filter_sublist).filterMap _
  · intro t ht hn r hr
    rw [← i2, strokes, List.mem_filterMap] at ht
    obtain ⟨x, hx, hxt⟩ := ht
    refine (slice_decides n Y x t hxt (i3 x hx (by rw [hxt]; simp))).1 ?_ r hr
    by_contra hc
    refine hn ?_
    rw [strokes, List.mem_filterMap]
    exact ⟨x, List.mem_filter.2 ⟨hx, by simpa using hc⟩, hxt⟩
  · intro t ht
    rw [strokes, List.mem_filterMap] at ht
    obtain ⟨x, hx, hxt⟩ := ht
    obtain ⟨hx, hs⟩ := List.mem_filter.1 hx
    exact (slice_decides n Y x t hxt (i3 x hx (by rw [hxt]; simp))).2 (by simpa using hs)

/-- **C145.** Nothing above the height is lost of the curves, and nothing is added: a point of a curve that is above the height by more than
the precision is on a piece that is left in, and every point of a piece of a curve is a point of the curve. -/
theorem C145_kept (n so : Nat) (Y : ℝ) (p : Path ℝ) (hb : CurvesBounded p) (hw : ∃ q, Drawn p q ∧ leftEdge p + 1 / 10 ^ so < q.1) :
    ∃ N, ∀ fuel, N ≤ fuel → ∃ (q : Path ℝ) (kept : List (Stroke ℝ)),
      hSlice n so fuel (fin Y) (finPath p) = .ok (some (finPath q)) ∧ List.Forall₂ (Aligned n) kept (strokes q) ∧
      (∀ a c d b, Stroke.curve a c d b ∈ strokes p → ∀ r, On (.curve a c d b) r → r.2 < Y - 1 / 10 ^ n → ∃ t ∈ kept, On t r) ∧
      (∀ a c d b, Stroke.curve a c d b ∈ kept → ∀ r, On (.curve a c d b) r → Drawn p r) := by
  obtain ⟨N, hN⟩ := C145_slice n so Y p hb hw
  refine ⟨N, fun fuel hf => ?_⟩
  obtain ⟨q, cuts, kept, h1, h2, h3, h4, h5, h6⟩ := hN fuel hf
  refine ⟨q, kept, h1, h4, ?_, ?_⟩
  · intro a c d b hm r hr hy
    obtain ⟨l, hl, ks, rfl, ht⟩ := forall2_left h2 hm
    obtain ⟨x, x0, x1, e⟩ := hr
    obtain ⟨k, hk, u, u0, u1, eu⟩ := through_cover zero_lt_one ht x x0 x1
    have hon : On (curveStroke k) r := ⟨u, u0, u1, eu.trans e⟩
    have hmem : curveStroke k ∈ cuts.flatten := List.mem_flatten.2 ⟨_, hl, List.mem_map_of_mem hk⟩
    refine ⟨curveStroke k, ?_, hon⟩
    by_contra hc
    exact absurd (h5 _ hmem hc r hon) (not_le.2 hy)
  · intro a c d b hm r hr
    obtain ⟨l, hl, hin⟩ := List.mem_flatten.1 (h3.subset hm)
    obtain ⟨t, ht, hcut⟩ := forall2_right h2 hl
    cases t with
    | line u v =>
      rcases hcut with rfl | ⟨_, _, rfl⟩ | ⟨_, _, _, _, rfl⟩ <;> simp at hin
    | curve a' c' d' b' =>
      obtain ⟨ks, rfl, hthr⟩ := hcut
      obtain ⟨k, hk, e⟩ := List.mem_map.1 hin
      rw [← e] at hr
      obtain ⟨u, u0, u1, hu⟩ := hr
      obtain ⟨x, x0, x1, hx⟩ := through_part zero_lt_one hthr k hk u u0 u1
      exact ⟨_, ht, x, x0, x1, hx.symm.trans hu⟩

/-- A path with a curve that is above the height in the middle and below it at its ends. -/
example : ∃ N, ∀ fuel, N ≤ fuel → ∃ (q : Path ℝ) (t : Stroke ℝ), hSlice 3 3 fuel (fin 5) (finPath [.curve ⟨0, 10, 0⟩ ⟨0, 0, 0⟩ ⟨10, 0, 0⟩ ⟨10, 10, 0⟩]) = .ok (some (finPath q)) ∧
    On t (5, 5 / 2) ∧ ∃ t' ∈ strokes q, Aligned 3 t t' := by
  set p : Path ℝ := [.curve ⟨0, 10, 0⟩ ⟨0, 0, 0⟩ ⟨10, 0, 0⟩ ⟨10, 10, 0⟩] with hp
  have hs : strokes p = [.curve (0, 10) (0, 0) (10, 0) (10, 10)] := rfl
  have hon : On (.curve (0, 10) (0, 0) (10, 0) (10, 10)) ((5, 5 / 2) : Pt ℝ) := by
    refine ⟨1 / 2, by norm_num, by norm_num, ?_⟩
    simp only [Stroke.at, Prod.mk.injEq]
    norm_num
  obtain ⟨N, hN⟩ := C145_kept 3 3 5 p (by
      intro a c d b h q hq
      rw [hs] at h
      simp only [List.mem_singleton, Stroke.curve.injEq] at h
      obtain ⟨rfl, rfl, rfl, rfl⟩ := h
      simp only [List.mem_cons, List.not_mem_nil, or_false] at hq
      rcases hq with rfl | rfl | rfl | rfl <;> norm_num)
    ⟨(5, 5 / 2), ⟨_, by rw [hs]; exact .head _, hon⟩, by norm_num [leftEdge, hp, Segment.start]⟩
  refine ⟨N, fun fuel hf => ?_⟩
  obtain ⟨q, kept, h1, h2, h3, -⟩ := hN fuel hf
  obtain ⟨t, ht, h4⟩ := h3 _ _ _ _ (by rw [hs]; exact .head _) _ hon (by norm_num)
  exact ⟨q, t, by exact_mod_cast h1, h4, forall2_left h2 ht⟩

end Verif.Path
