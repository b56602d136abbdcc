import Verif.Props.Join
import Verif.Props.Knife
import Verif.Props.CurveOps
import Verif.Lemmas.BezierReduce
import Verif.Lemmas.CleanFin
import Verif.Spec.Meeting

/-!
# C143: a line and a curve that meet are joined where they meet

Over the real numbers extended by the IEEE special values.
-/

namespace Verif.Path

open Verif Verif.Spec Verif.XNum

set_option linter.unusedSectionVars false

/-! ### Points on the way -/

/-- The point of a curve at a parameter, with the parameter noted in it. -/
noncomputable def meetPt (c : Bezier.Curve ℝ) (t : ℝ) : Point ℝ := ⟨(curveAt c t).1, (curveAt c t).2, t⟩

theorem newPoint_real (x y : ℝ) : newPoint x y = ⟨x, y, -1⟩ := by
  simp only [newPoint, Arith.zero, Arith.lit_zero_field, Arith.eq_field, Int.cast_zero, Int.cast_neg, Int.cast_one, decide_eq_true_eq]
  congr 1 <;> (split <;> simp_all)

theorem pointAt_fin (c : Bezier.Curve ℝ) (t : ℝ) : pointAt (finCurve c) (fin t) = finPt (meetPt c t) := by
  simp only [pointAt, Bezier.findPoint_fin, ofBez, finPoint, newPoint_fin, newPoint_real, finPt, meetPt]

theorem curveOf_fin (c : Bezier.Curve ℝ) : curveOf (finCurve c) = finSeg (curveOf c) := by
  simp only [curveOf, finCurve, finPoint, ofBez, newPoint_fin, finSeg]

theorem strokeOf_curveOf (c : Bezier.Curve ℝ) : strokeOf (finSeg (curveOf c)) = some (strokeAlong c) := by
  simp only [curveOf, ofBez, newPoint_real, finSeg, strokeOf, finPt, pt, strokeAlong]

/-! ### The nearest of several points -/

theorem nearest_mem (p : Point ℝ) (f : ℝ → Point ℝ) (ts : List ℝ) : ∀ t : ℝ,
    ∃ u ∈ t :: ts, nearest (finPt p) (ts.map fun v => finPt (f v)) (finPt (f t)) (distance (finPt p) (finPt (f t))) = finPt (f u) ∧
      ∀ v ∈ t :: ts, farness (pt p) (pt (f u)) ≤ farness (pt p) (pt (f v)) := by
  have hd : ∀ v, distance (finPt p) (finPt (f v)) = fin (farness (pt p) (pt (f v))) := fun v => distance_finPt p (f v)
  induction ts with
  | nil => intro t; exact ⟨t, by simp, rfl, by simp⟩
  | cons s ts ih =>
    intro t
    by_cases h : farness (pt p) (pt (f s)) < farness (pt p) (pt (f t))
    · obtain ⟨u, hu, e, hm⟩ := ih s
      refine ⟨u, List.mem_cons_of_mem _ hu, ?_, ?_⟩
      · rw [List.map_cons, nearest, hd s, hd t, lt_fin, decide_eq_true h, if_pos rfl, ← hd s]
        exact e
      · intro v hv
        rcases List.mem_cons.1 hv with rfl | hv
        · exact (hm s (by simp)).trans h.le
        · exact hm v hv
    · obtain ⟨u, hu, e, hm⟩ := ih t
      refine ⟨u, ?_, ?_, ?_⟩
      · rcases List.mem_cons.1 hu with rfl | hu
        · simp
        · exact List.mem_cons_of_mem _ (List.mem_cons_of_mem _ hu)
      · rw [List.map_cons, nearest, hd s, hd t, lt_fin, decide_eq_false h, if_neg (by simp), ← hd t]
        exact e
      · intro v hv
        rcases List.mem_cons.1 hv with rfl | hv
        · exact hm _ (by simp)
        · rcases List.mem_cons.1 hv with rfl | hv
          · exact (hm t (by simp)).trans (not_lt.1 h)
          · exact hm v (List.mem_cons_of_mem _ hv)

/-! ### Cutting a curve at one of its points -/

theorem equalsPrecision7 (p q : Point ℝ) : ((finPt p).equalsPrecision (finPt q) 7) = true ↔ PrintsSame 7 (pt p) (pt q) := by
  simp [Point.equalsPrecision, PrintsSame, pt, finPt]

theorem precisionEquals7 (x y : ℝ) : precisionEquals (fin x : XNum ℝ) (fin y) 7 = true ↔ Decimal.fmt 7 x = Decimal.fmt 7 y := by
  simp [precisionEquals]

/-- Cutting a curve at one of its points gives two curves that run through it, or the curve as it is when the point looks like an end. -/
theorem split_meet (s c1 c2 e : Point ℝ) {t : ℝ} (h0 : 0 ≤ t) :
    (AtEnd (bezOf s c1 c2 e) t ∧ split (finSeg (.curve s c1 c2 e)) (finPt (meetPt (bezOf s c1 c2 e) t)) = [finSeg (.curve s c1 c2 e)]) ∨
    (¬ AtEnd (bezOf s c1 c2 e) t ∧ 0 < t ∧ split (finSeg (.curve s c1 c2 e)) (finPt (meetPt (bezOf s c1 c2 e) t)) =
      [finSeg (curveOf (Bezier.splitCurve (bezOf s c1 c2 e) t).1), finSeg (curveOf (Bezier.splitCurve (bezOf s c1 c2 e) t).2)]) := by
  set c := bezOf s c1 c2 e with hc
  have k1 := equalsPrecision7 (meetPt c t) s
  have k2 := equalsPrecision7 (meetPt c t) e
  have z0 : (Arith.zero : XNum ℝ) = fin 0 := Bezier.zero_fin
  have z1 : (Arith.one : XNum ℝ) = fin 1 := Bezier.one_fin
  unfold split
  simp only [finSeg, Segment.start, Segment.stop]
  by_cases g1 : PrintsSame 7 (pt (meetPt c t)) (pt s)
  · left
    exact ⟨.inl g1, by simp only [k1.2 g1, Bool.true_or, if_true]⟩
  by_cases g2 : PrintsSame 7 (pt (meetPt c t)) (pt e)
  · left
    exact ⟨.inr (.inl g2), by simp only [k2.2 g2, Bool.or_true, if_true]⟩
  have n1 : (finPt (meetPt c t)).equalsPrecision (finPt s) 7 = false := by
    rw [← Bool.not_eq_true, k1]; exact g1
  have n2 : (finPt (meetPt c t)).equalsPrecision (finPt e) 7 = false := by
    rw [← Bool.not_eq_true, k2]; exact g2
  have ht : 0 < t := by
    rcases h0.lt_or_eq with h | rfl
    · exact h
    · exfalso
      apply g1
      have : pt (meetPt c 0) = pt s := by simp [meetPt, pt, curveAt, bernstein, hc, bezOf, toBez]
      rw [this]
      exact ⟨rfl, rfl⟩
  have hp : paramOf (bezOf (finPt s) (finPt c1) (finPt c2) (finPt e)) (finPt (meetPt c t)) = fin t := by
    simp only [paramOf]
    rw [if_pos]
    · rfl
    · rw [z0]
      show decide (0 < t) = true
      exact decide_eq_true ht
  simp only [n1, n2, Bool.or_self, Bool.false_eq_true, if_false, hp, z0, z1]
  have q0 := precisionEquals7 t 0
  have q1 := precisionEquals7 t 1
  by_cases g3 : Decimal.fmt 7 t = Decimal.fmt 7 (0 : ℝ)
  · left
    exact ⟨.inr (.inr (.inl g3)), by simp only [q0.2 g3, Bool.true_or, if_true]⟩
  by_cases g4 : Decimal.fmt 7 t = Decimal.fmt 7 (1 : ℝ)
  · left
    exact ⟨.inr (.inr (.inr g4)), by simp only [q1.2 g4, Bool.or_true, if_true]⟩
  right
  have n3 : precisionEquals (fin t : XNum ℝ) (fin 0) 7 = false := by rw [← Bool.not_eq_true, q0]; exact g3
  have n4 : precisionEquals (fin t : XNum ℝ) (fin 1) 7 = false := by rw [← Bool.not_eq_true, q1]; exact g4
  refine ⟨?_, ht, ?_⟩
  · rintro (h | h | h | h)
    · exact g1 h
    · exact g2 h
    · exact g3 h
    · exact g4 h
  · simp only [n3, n4, Bool.or_self, Bool.false_eq_true, if_false]
    have e1 : Bezier.splitCurve (bezOf (finPt s) (finPt c1) (finPt c2) (finPt e)) (fin t) =
        (finCurve (Bezier.splitCurve c t).1, finCurve (Bezier.splitCurve c t).2) := by
      have t1 : t ≠ 1 := fun h => g4 (by rw [h])
      have := Bezier.splitSection_fin ⟨c, 0, 0⟩ (t1 := t) (-1) t1
      simp only [Bezier.splitCurve]
      have l : (Arith.lit (-1) 0 : XNum ℝ) = fin (-1) := by simp
      have l' : (Arith.lit (-1) 0 : ℝ) = -1 := by simp
      rw [l, l', z0]
      rw [show (⟨bezOf (finPt s) (finPt c1) (finPt c2) (finPt e), fin 0, fin 0⟩ : Bezier.Section (XNum ℝ)) = Bezier.finSection ⟨c, 0, 0⟩ from rfl,
        this]
      simp [Bezier.finSection, Arith.zero]
    rw [e1]
    simp only [curveOf_fin]
    rfl

/-! ### The crossings that are found -/

theorem fin_list (l : List (XNum ℝ)) (h : ∀ x ∈ l, ∃ t : ℝ, x = fin t) : ∃ ts : List ℝ, l = ts.map fin := by
  induction l with
  | nil => exact ⟨[], rfl⟩
  | cons x l ih =>
    obtain ⟨t, rfl⟩ := h x (by simp)
    obtain ⟨ts, rfl⟩ := ih fun y hy => h y (List.mem_cons_of_mem _ hy)
    exact ⟨t :: ts, rfl⟩

/-- What `Roots` reports: numbers from 0 to 1 whose points are within `2e-6` of the line. -/
theorem roots_list (c : Bezier.Curve ℝ) (l1 l2 : Bezier.Point ℝ) : ∃ ts : List ℝ, Bezier.roots (finCurve c) (finPoint l1) (finPoint l2) = ts.map fin ∧
    ∀ t ∈ ts, 0 ≤ t ∧ t ≤ 1 ∧ (l1 ≠ l2 → |Bezier.lineDist l1 l2 (curveAt c t)| ≤ 2 / 1000000) := by
  obtain ⟨pa, pb, pc, pd, e, -, -, -, -, hb⟩ := Bezier.roots_fin c l1 l2
  obtain ⟨ts, hts⟩ := fin_list (Bezier.roots (finCurve c) (finPoint l1) (finPoint l2)) (by
    intro x hx
    rw [e] at hx
    obtain ⟨t, rfl, -, -⟩ := Bezier.bernsteinRoots_fin hx
    exact ⟨t, rfl⟩)
  refine ⟨ts, hts, fun t ht => ?_⟩
  have hx : (fin t : XNum ℝ) ∈ Bezier.roots (finCurve c) (finPoint l1) (finPoint l2) := by rw [hts]; exact List.mem_map_of_mem ht
  rw [e] at hx
  obtain ⟨t', ht', h0, h1⟩ := Bezier.bernsteinRoots_fin hx
  cases ht'
  have hs := Bezier.bernsteinRoots_small hx
  refine ⟨h0, h1, fun hl => ?_⟩
  rw [Bezier.lineDist, ← hb t, mul_div_cancel_left₀ _ (Bezier.len_pos hl).ne']
  exact hs

theorem inLine_iff {a b : Point ℝ} (hab : pt a ≠ pt b) (q : Pt ℝ) : InLine (pt a) (pt b) q ↔ Bezier.lineDist (toBez a) (toBez b) q = 0 := by
  have hl : toBez a ≠ toBez b := by
    intro h
    simp only [toBez, Bezier.Point.mk.injEq] at h
    exact hab (by simp [pt, h.1, h.2])
  simp only [InLine, pt, Bezier.lineDist, Bezier.cross, toBez, div_eq_zero_iff, sub_eq_zero]
  rw [or_iff_left]
  exact (Bezier.len_pos hl).ne'

theorem strokes_pair {x y : Segment (XNum ℝ)} {u v : Stroke (XNum ℝ)} (hx : strokeOf x = some u) (hy : strokeOf y = some v) :
    strokes [x, y] = [u, v] := by
  simp [strokes, hx, hy]

/-- The piece of the curve that is kept when the part before `t` is cut off. -/
def KeptAfter (c : Bezier.Curve ℝ) (t : ℝ) (k : Bezier.Curve ℝ) : Prop := (¬ AtEnd c t ∧ Retraces k c t 1) ∨ (AtEnd c t ∧ k = c)

/-- The piece of the curve that is kept when the part after `t` is cut off. -/
def KeptBefore (c : Bezier.Curve ℝ) (t : ℝ) (k : Bezier.Curve ℝ) : Prop := (¬ AtEnd c t ∧ Retraces k c 0 t) ∨ (AtEnd c t ∧ k = c)

theorem line_curve_core (a b s c1 c2 e : Point ℝ) (ts : List ℝ) (hne : ts ≠ []) (h0 : ∀ t ∈ ts, 0 ≤ t)
    (hts : Bezier.roots (finCurve (bezOf s c1 c2 e)) (finPoint (toBez a)) (finPoint (toBez b)) = ts.map fin) :
    (∃ t ∈ ts, (∀ u ∈ ts, farness (pt b) (curveAt (bezOf s c1 c2 e) t) ≤ farness (pt b) (curveAt (bezOf s c1 c2 e) u)) ∧
      ∃ k, strokes (joinLineAndCurve (finPt a, finPt b) (finPt s) (finPt c1) (finPt c2) (finPt e)) =
        [.line (finPair (pt a)) (finPair (curveAt (bezOf s c1 c2 e) t)), strokeAlong k] ∧ KeptAfter (bezOf s c1 c2 e) t k) ∧
    (∃ t ∈ ts, (∀ u ∈ ts, farness (pt e) (curveAt (bezOf s c1 c2 e) t) ≤ farness (pt e) (curveAt (bezOf s c1 c2 e) u)) ∧
      ∃ k, strokes (joinCurveAndLine (finPt s) (finPt c1) (finPt c2) (finPt e) (finPt a, finPt b)) =
        [strokeAlong k, .line (finPair (curveAt (bezOf s c1 c2 e) t)) (finPair (pt b))] ∧ KeptBefore (bezOf s c1 c2 e) t k) := by
  set c := bezOf s c1 c2 e with hc
  obtain ⟨t0, rest, rfl⟩ := List.exists_cons_of_ne_nil hne
  have hp : curveProjectedPoints (finPt s) (finPt c1) (finPt c2) (finPt e) (finPt a, finPt b) =
      finPt (meetPt c t0) :: rest.map fun t => finPt (meetPt c t) := by
    have : curveProjectedPoints (finPt s) (finPt c1) (finPt c2) (finPt e) (finPt a, finPt b) =
        (Bezier.roots (finCurve c) (finPoint (toBez a)) (finPoint (toBez b))).map (pointAt (finCurve c)) := rfl
    rw [this, hts]
    simp only [List.map_cons, List.map_map, pointAt_fin, List.cons.injEq, true_and]
    exact List.map_congr_left fun t _ => pointAt_fin c t
  have near : ∀ q : Point ℝ, ∃ u ∈ t0 :: rest, nearest (finPt q) (finPt (meetPt c t0) :: rest.map fun t => finPt (meetPt c t))
      (finPt (meetPt c t0)) (distance (finPt q) (finPt (meetPt c t0))) = finPt (meetPt c u) ∧
      ∀ v ∈ t0 :: rest, farness (pt q) (curveAt c u) ≤ farness (pt q) (curveAt c v) := by
    intro q
    obtain ⟨u, hu, e1, e2⟩ := nearest_mem q (meetPt c) (t0 :: rest) t0
    refine ⟨u, ?_, e1, fun v hv => e2 v (List.mem_cons_of_mem _ hv)⟩
    rcases List.mem_cons.1 hu with rfl | hu
    · simp
    · exact hu
  have whole : strokeOf (.curve (finPt s) (finPt c1) (finPt c2) (finPt e)) = some (strokeAlong c) := rfl
  constructor
  · obtain ⟨u, hu, e1, e2⟩ := near b
    refine ⟨u, hu, e2, ?_⟩
    simp only [joinLineAndCurve, hp, e1]
    have hline : strokeOf (.line (finPt a) (finPt (meetPt c u))) = some (.line (finPair (pt a)) (finPair (curveAt c u))) := rfl
    rcases split_meet s c1 c2 e (h0 u hu) with ⟨g1, g2⟩ | ⟨g1, gt, g2⟩
    · rw [← hc] at g1 g2
      simp only [finSeg] at g2
      rw [g2]
      exact ⟨c, strokes_pair hline whole, .inr ⟨g1, rfl⟩⟩
    · rw [← hc] at g1 g2
      simp only [finSeg] at g2
      have hr := Bezier.C22_split c u gt.ne'
      rw [g2]
      exact ⟨_, strokes_pair hline (strokeOf_curveOf _), .inl ⟨g1, hr.2.1⟩⟩
  · obtain ⟨u, hu, e1, e2⟩ := near e
    refine ⟨u, hu, e2, ?_⟩
    simp only [joinCurveAndLine, hp, e1]
    have hline : strokeOf (.line (finPt (meetPt c u)) (finPt b)) = some (.line (finPair (curveAt c u)) (finPair (pt b))) := rfl
    rcases split_meet s c1 c2 e (h0 u hu) with ⟨g1, g2⟩ | ⟨g1, gt, g2⟩
    · rw [← hc] at g1 g2
      simp only [finSeg] at g2
      rw [g2]
      exact ⟨c, strokes_pair whole hline, .inr ⟨g1, rfl⟩⟩
    · rw [← hc] at g1 g2
      simp only [finSeg] at g2
      have hr := Bezier.C22_split c u gt.ne'
      rw [g2]
      exact ⟨_, strokes_pair (strokeOf_curveOf _) hline, .inl ⟨g1, hr.1⟩⟩

/-! ## C143 A line and a curve that meet are joined where they meet -/

theorem toBez_ne {a b : Point ℝ} (hab : pt a ≠ pt b) : toBez a ≠ toBez b := by
  intro h
  simp only [toBez, Bezier.Point.mk.injEq] at h
  exact hab (by simp [pt, h.1, h.2])

/-- Over a generic curve the numbers that are found are exactly those where the line meets the curve. -/
theorem mem_roots_list {a b s c1 c2 e : Point ℝ} (hab : pt a ≠ pt b) (hg : Bezier.Generic (bezOf s c1 c2 e) (toBez a) (toBez b)) {ts : List ℝ}
    (hts : Bezier.roots (finCurve (bezOf s c1 c2 e)) (finPoint (toBez a)) (finPoint (toBez b)) = ts.map fin) (t : ℝ) :
    t ∈ ts ↔ MeetsAt (pt a) (pt b) (bezOf s c1 c2 e) t := by
  have := Bezier.C24_roots_exact (bezOf s c1 c2 e) (toBez a) (toBez b) (toBez_ne hab) hg t
  rw [hts, ← inLine_iff hab] at this
  rw [MeetsAt, ← and_assoc, and_comm, ← this]
  constructor
  · exact fun h => List.mem_map_of_mem h
  · intro h
    obtain ⟨u, hu, e⟩ := List.mem_map.1 h
    cases e
    exact hu

/-- **C143.** A line and a curve with a gap between them: if the line, drawn out, meets the curve, then both are joined at the meeting that is
nearest to the end of the line. The line leads from its start to the meeting, and what follows runs through the curve from the meeting to
its end; only if the meeting looks like an end of the curve, the whole curve follows. -/
theorem C143_line_curve (so : Int) (a b s c1 c2 e : Point ℝ) (hab : pt a ≠ pt b) (hgap : (finPt b).equalsPrecision (finPt s) so = false)
    (hg : Bezier.Generic (bezOf s c1 c2 e) (toBez a) (toBez b)) (hm : ∃ t, MeetsAt (pt a) (pt b) (bezOf s c1 c2 e) t) :
    ∃ t, MeetsAt (pt a) (pt b) (bezOf s c1 c2 e) t ∧
      (∀ u, MeetsAt (pt a) (pt b) (bezOf s c1 c2 e) u →
        farness (pt b) (curveAt (bezOf s c1 c2 e) t) ≤ farness (pt b) (curveAt (bezOf s c1 c2 e) u)) ∧
      ∃ k, strokes (joinSegments so (finSeg (.line a b)) (finSeg (.curve s c1 c2 e))) =
        [.line (finPair (pt a)) (finPair (curveAt (bezOf s c1 c2 e) t)), strokeAlong k] ∧ KeptAfter (bezOf s c1 c2 e) t k := by
  obtain ⟨ts, hts, hr⟩ := roots_list (bezOf s c1 c2 e) (toBez a) (toBez b)
  have hmem := mem_roots_list hab hg hts
  obtain ⟨t0, ht0⟩ := hm
  obtain ⟨⟨t, ht, h1, k, h2, h3⟩, -⟩ := line_curve_core a b s c1 c2 e ts (List.ne_nil_of_mem ((hmem t0).2 ht0)) (fun t ht => (hr t ht).1) hts
  refine ⟨t, (hmem t).1 ht, fun u hu => h1 u ((hmem u).2 hu), k, ?_, h3⟩
  rw [← h2]
  unfold joinSegments
  simp only [stop_finSeg, start_finSeg]
  rw [if_neg]
  · rfl
  · show ¬ (finPt b).equalsPrecision (finPt s) so = true
    rw [hgap]
    decide

/-- **C143.** A curve and a line: they are joined at the meeting that is nearest to the end of the curve. What comes first runs through the
curve from its start to the meeting, and the line leads from there to its end. -/
theorem C143_curve_line (so : Int) (a b s c1 c2 e : Point ℝ) (hab : pt a ≠ pt b) (hgap : (finPt e).equalsPrecision (finPt a) so = false)
    (hg : Bezier.Generic (bezOf s c1 c2 e) (toBez a) (toBez b)) (hm : ∃ t, MeetsAt (pt a) (pt b) (bezOf s c1 c2 e) t) :
    ∃ t, MeetsAt (pt a) (pt b) (bezOf s c1 c2 e) t ∧
      (∀ u, MeetsAt (pt a) (pt b) (bezOf s c1 c2 e) u →
        farness (pt e) (curveAt (bezOf s c1 c2 e) t) ≤ farness (pt e) (curveAt (bezOf s c1 c2 e) u)) ∧
      ∃ k, strokes (joinSegments so (finSeg (.curve s c1 c2 e)) (finSeg (.line a b))) =
        [strokeAlong k, .line (finPair (curveAt (bezOf s c1 c2 e) t)) (finPair (pt b))] ∧ KeptBefore (bezOf s c1 c2 e) t k := by
  obtain ⟨ts, hts, hr⟩ := roots_list (bezOf s c1 c2 e) (toBez a) (toBez b)
  have hmem := mem_roots_list hab hg hts
  obtain ⟨t0, ht0⟩ := hm
  obtain ⟨-, t, ht, h1, k, h2, h3⟩ := line_curve_core a b s c1 c2 e ts (List.ne_nil_of_mem ((hmem t0).2 ht0)) (fun t ht => (hr t ht).1) hts
  refine ⟨t, (hmem t).1 ht, fun u hu => h1 u ((hmem u).2 hu), k, ?_, h3⟩
  rw [← h2]
  unfold joinSegments
  simp only [stop_finSeg, start_finSeg]
  rw [if_neg]
  · rfl
  · show ¬ (finPt e).equalsPrecision (finPt a) so = true
    rw [hgap]
    decide

/-- **C143.** When the meetings are away from the ends of the curve, the joined strokes hang together. -/
theorem C143_hangs (so : Int) (a b s c1 c2 e : Point ℝ) (hab : pt a ≠ pt b)
    (hg : Bezier.Generic (bezOf s c1 c2 e) (toBez a) (toBez b)) (hm : ∃ t, MeetsAt (pt a) (pt b) (bezOf s c1 c2 e) t)
    (haway : ∀ t, MeetsAt (pt a) (pt b) (bezOf s c1 c2 e) t → ¬ AtEnd (bezOf s c1 c2 e) t) :
    Unbroken (strokes (joinSegments so (finSeg (.line a b)) (finSeg (.curve s c1 c2 e)))) ∧
      Unbroken (strokes (joinSegments so (finSeg (.curve s c1 c2 e)) (finSeg (.line a b)))) := by
  constructor
  · by_cases hgap : (finPt b).equalsPrecision (finPt s) so = true
    · exact C75_near rfl rfl hgap
    · obtain ⟨t, h1, -, k, h2, h3 | h3⟩ := C143_line_curve so a b s c1 c2 e hab (by simpa using hgap) hg hm
      · rw [h2]
        have := h3.2 0
        simp only [curveAt, bernstein, mul_zero, add_zero, sub_zero, one_pow, one_mul, zero_mul, zero_pow three_ne_zero,
          zero_pow two_ne_zero, Prod.mk.injEq] at this
        refine List.isChain_pair.2 ?_
        simp only [Stroke.last, Stroke.first, strokeAlong, finPair, curveAt, bernstein, this.1, this.2]
      · exact absurd h3.1 (haway t h1)
  · by_cases hgap : (finPt e).equalsPrecision (finPt a) so = true
    · exact C75_near rfl rfl hgap
    · obtain ⟨t, h1, -, k, h2, h3 | h3⟩ := C143_curve_line so a b s c1 c2 e hab (by simpa using hgap) hg hm
      · rw [h2]
        have := h3.2 1
        simp only [curveAt, bernstein, mul_zero, mul_one, add_zero, zero_add, sub_zero, sub_self, one_pow, one_mul, zero_mul, zero_pow three_ne_zero,
          zero_pow two_ne_zero, Prod.mk.injEq] at this
        refine List.isChain_pair.2 ?_
        simp only [Stroke.last, Stroke.first, strokeAlong, finPair, curveAt, bernstein, this.1, this.2]
      · exact absurd h3.1 (haway t h1)

/-- A straight curve from `(2, 1)` to `(3 + d, -d)`, and the line from the origin to `(1, 0)`. -/
noncomputable def slantBack (d : ℝ) : Bezier.Curve ℝ :=
  bezOf ⟨2, 1, 0⟩ ⟨2 + (1 + d) / 3, 1 - (1 + d) / 3, 0⟩ ⟨2 + 2 * (1 + d) / 3, 1 - 2 * (1 + d) / 3, 0⟩ ⟨3 + d, -d, 0⟩

theorem slantBack_at (d t : ℝ) : curveAt (slantBack d) t = (2 + (1 + d) * t, 1 - (1 + d) * t) := by
  simp only [slantBack, curveAt, bernstein, bezOf, toBez, Prod.mk.injEq]
  constructor <;> ring

theorem slantBack_meets (d t : ℝ) (hd : 0 ≤ d) : MeetsAt (0, 0) (1, 0) (slantBack d) t ↔ t = 1 / (1 + d) := by
  have h : (1 + d) ≠ 0 := by positivity
  simp only [MeetsAt, InLine, slantBack_at]
  rw [eq_div_iff h]
  constructor
  · rintro ⟨-, -, h3⟩
    linarith
  · intro h3
    have h4 : t = 1 / (1 + d) := by rw [eq_div_iff h]; exact h3
    refine ⟨?_, ?_, by linarith⟩
    · rw [h4]; positivity
    · rw [h4, div_le_one (by positivity)]; linarith

theorem slantBack_generic_long (d r : ℝ) (hd : 0 ≤ d) (hr : 0 < r) : Bezier.Generic (slantBack d) (toBez ⟨0, 0, 0⟩) (toBez ⟨r, 0, 0⟩) := by
  have hlen : Bezier.len (toBez (⟨0, 0, 0⟩ : Point ℝ)) (toBez ⟨r, 0, 0⟩) = r := by
    simp [Bezier.len, toBez, Real.sqrt_sq hr.le]
  have hl : ∀ q : ℝ × ℝ, Bezier.lineDist (toBez (⟨0, 0, 0⟩ : Point ℝ)) (toBez ⟨r, 0, 0⟩) q = q.2 := by
    intro q
    rw [Bezier.lineDist, hlen]
    simp only [Bezier.cross, toBez, sub_zero, zero_mul]
    exact mul_div_cancel_left₀ _ hr.ne'
  refine ⟨.inl ?_, .inl ?_, .inr ?_, 0, ?_⟩
  · simp only [Bezier.distCoeffs, hl]; simp only [slantBack, bezOf, toBez]; ring
  · simp only [Bezier.distCoeffs, hl]; simp only [slantBack, bezOf, toBez]; ring
  · simp only [Bezier.distCoeffs, hl]; simp only [slantBack, bezOf, toBez]
    rw [show -3 * 1 + 3 * (1 - (1 + d) / 3) = -(1 + d) by ring, abs_neg, abs_of_nonneg (by linarith)]
    linarith
  · rw [hl, slantBack_at]; norm_num

theorem slantBack_generic (d : ℝ) (hd : 0 ≤ d) : Bezier.Generic (slantBack d) (toBez ⟨0, 0, 0⟩) (toBez ⟨1, 0, 0⟩) :=
  slantBack_generic_long d 1 hd one_pos

theorem slantBack_middle : ¬ AtEnd (slantBack 1) (1 / 2) := by
  have far : ∀ {x y : ℝ}, 1 / 4 ≤ |x - y| → Decimal.fmt 7 x ≠ Decimal.fmt 7 y := by
    intro x y h e
    have := Decimal.fmt_close e
    norm_num at this
    linarith
  rintro (h | h | h | h)
  · have := h.1
    simp only [slantBack_at] at this
    refine far (y := 2) ?_ this
    norm_num
  · have := h.1
    simp only [slantBack_at] at this
    refine far (y := 3 + 1) ?_ this
    norm_num
  · exact far (by norm_num) h
  · exact far (by norm_num) h

/-- Not so for a meeting at the far end: the line is drawn out to the end of the curve, and then the whole curve is drawn, from its start. -/
theorem C143_far_end_false : ¬ ∀ (so : Int) (a b s c1 c2 e : Point ℝ), pt a ≠ pt b →
    Bezier.Generic (bezOf s c1 c2 e) (toBez a) (toBez b) → (∃ t, MeetsAt (pt a) (pt b) (bezOf s c1 c2 e) t) →
    Unbroken (strokes (joinSegments so (finSeg (.line a b)) (finSeg (.curve s c1 c2 e)))) := by
  intro h
  have hab : pt (⟨0, 0, 0⟩ : Point ℝ) ≠ pt ⟨1, 0, 0⟩ := by simp [pt]
  have hm : MeetsAt (pt (⟨0, 0, 0⟩ : Point ℝ)) (pt ⟨1, 0, 0⟩) (slantBack 0) 1 := by
    refine (slantBack_meets 0 1 le_rfl).2 (by norm_num)
  have h := h 3 ⟨0, 0, 0⟩ ⟨1, 0, 0⟩ ⟨2, 1, 0⟩ ⟨2 + (1 + 0) / 3, 1 - (1 + 0) / 3, 0⟩ ⟨2 + 2 * (1 + 0) / 3, 1 - 2 * (1 + 0) / 3, 0⟩ ⟨3 + 0, -0, 0⟩
    hab (slantBack_generic 0 le_rfl) ⟨1, hm⟩
  have hgap : (finPt (⟨1, 0, 0⟩ : Point ℝ)).equalsPrecision (finPt ⟨2, 1, 0⟩) 3 = false := by
    have hd : Decimal.fmt 3 (1 : ℝ) ≠ Decimal.fmt 3 (2 : ℝ) := by
      intro e
      have := Decimal.fmt_close e
      norm_num at this
    simp [Point.equalsPrecision, finPt, hd]
  obtain ⟨t, h1, -, k, h2, h3⟩ := C143_line_curve 3 ⟨0, 0, 0⟩ ⟨1, 0, 0⟩ ⟨2, 1, 0⟩ ⟨2 + (1 + 0) / 3, 1 - (1 + 0) / 3, 0⟩
    ⟨2 + 2 * (1 + 0) / 3, 1 - 2 * (1 + 0) / 3, 0⟩ ⟨3 + 0, -0, 0⟩ hab hgap (slantBack_generic 0 le_rfl) ⟨1, hm⟩
  have ht : t = 1 := by
    have := (slantBack_meets 0 t le_rfl).1 h1
    rw [this]; norm_num
  subst ht
  rw [h2] at h
  have hend : AtEnd (slantBack 0) 1 := .inr (.inr (.inr rfl))
  have hk : k = slantBack 0 := by
    rcases h3 with h3 | h3
    · exact absurd hend h3.1
    · exact h3.2
  have := List.isChain_pair.1 h
  rw [hk] at this
  simp only [Stroke.last, Stroke.first, strokeAlong, finPair, slantBack, bezOf, toBez, curveAt, bernstein, Prod.mk.injEq, XNum.fin.injEq] at this
  norm_num at this

/-- Not vacuous: the line meets the curve in its middle, at `(3, 0)`. -/
example : Unbroken (strokes (joinSegments 3 (finSeg (.line (⟨0, 0, 0⟩ : Point ℝ) ⟨1, 0, 0⟩)) (finSeg (.curve ⟨2, 1, 0⟩ ⟨2 + (1 + 1) / 3, 1 - (1 + 1) / 3, 0⟩
    ⟨2 + 2 * (1 + 1) / 3, 1 - 2 * (1 + 1) / 3, 0⟩ ⟨3 + 1, -1, 0⟩)))) := by
  refine (C143_hangs 3 _ _ _ _ _ _ (by simp [pt]) (slantBack_generic 1 zero_le_one) ⟨1 / 2, ?_⟩ ?_).1
  · exact (slantBack_meets 1 _ zero_le_one).2 (by norm_num)
  · intro t ht
    have ht : t = 1 / 2 := by rw [(slantBack_meets 1 t zero_le_one).1 ht]; norm_num
    subst ht
    exact slantBack_middle

end Verif.Path
