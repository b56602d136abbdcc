import Verif.Spec.Crossing
import Verif.Props.KnifeCurve
import Verif.Props.SliceCurve
import Verif.Props.CurveOps

/-!
# C146: where two strokes cross

Over the real numbers extended by the IEEE special values.
-/

namespace Verif.Path

open Verif Verif.Spec Verif.XNum

set_option linter.unusedSectionVars false

theorem inLine_of_onLine {a b q : Pt ℝ} (h : OnLine a b q) : InLine a b q := by
  obtain ⟨t, h1, h2⟩ := h
  unfold InLine
  rw [h1, h2]; ring

theorem between_of_inBox (n : Nat) (a b q : Point ℝ)
    (h : precisionPointInBox n (segBox (asLine (a, b))).1 (segBox (asLine (a, b))).2 (finPt q) = true) : BetweenEnds n (pt a) (pt b) (pt q) := by
  rw [segBox_asLine] at h
  simp only [precisionPointInBox, Bool.and_eq_true, decide_eq_true_eq] at h
  obtain ⟨⟨⟨h1, h2⟩, h3⟩, h4⟩ := h
  exact ⟨cmp_low h1, cmp_high h2, cmp_low h3, cmp_high h4⟩

theorem inBox_of_on {n : Int} {a b q : Point ℝ} (h : On (.line (pt a) (pt b)) (pt q)) :
    precisionPointInBox n (segBox (asLine (a, b))).1 (segBox (asLine (a, b))).2 (finPt q) = true := by
  rw [segBox_asLine]
  have := (at_line_box (pt a) (pt b)).inside _ h
  exact inBox_of n this.1 this.2.1 this.2.2.1 this.2.2.2

/-- **C146.** What is given for two lines is where they cross. -/
theorem C146_lines (n : Nat) (fuel : Nat) (a b c d : Point ℝ) (hab : pt a ≠ pt b) (hcd : pt c ≠ pt d) (h1 : Clear n a b) (h2 : Clear n c d) :
    ∃ l : List (Point ℝ), intersect n fuel (finSeg (.line a b)) (finSeg (.line c d)) = some (l.map finPt) ∧ l.length ≤ 1 ∧
      ∀ q ∈ l, CrossPoint n (pt a) (pt b) (pt c) (pt d) (pt q) := by
  have e : intersect n fuel (finSeg (.line a b)) (finSeg (.line c d)) = some (lineLinePoints n (finPt a, finPt b) (finPt c, finPt d)) := rfl
  rw [e, lineLinePoints]
  cases hp : lineIntersection n (finPt a, finPt b) (finPt c, finPt d) with
  | none => exact ⟨[], rfl, by simp, by simp⟩
  | some p =>
    obtain ⟨q, rfl, o1, o2⟩ := C39_on_both n a b c d hab hcd h1 h2 p hp
    simp only
    split_ifs with hb
    · exact ⟨[], rfl, by simp, by simp⟩
    · refine ⟨[q], rfl, by simp, fun r hr => ?_⟩
      rw [List.mem_singleton] at hr
      subst hr
      rw [Bool.or_eq_true, not_or] at hb
      simp only [Bool.not_eq_true', Bool.not_eq_false] at hb
      exact ⟨inLine_of_onLine o1, inLine_of_onLine o2, between_of_inBox n a b r hb.1, between_of_inBox n c d r hb.2⟩

/-- **C146.** If two lines cross and their slopes do not print the same, the crossing is given. -/
theorem C146_lines_found (n : Nat) (fuel : Nat) (a b c d : Point ℝ) (hab : pt a ≠ pt b) (hcd : pt c ≠ pt d) (h1 : Clear n a b) (h2 : Clear n c d)
    (hs : precisionEquals (slope (finPt a) (finPt b)) (slope (finPt c) (finPt d)) n = false)
    (hv : ¬ (isVertical n (finPt a, finPt b) = true ∧ isVertical n (finPt c, finPt d) = true))
    (x : Pt ℝ) (x1 : On (.line (pt a) (pt b)) x) (x2 : On (.line (pt c) (pt d)) x) :
    ∃ q : Point ℝ, pt q = x ∧ intersect n fuel (finSeg (.line a b)) (finSeg (.line c d)) = some [finPt q] := by
  obtain ⟨p, hp⟩ := (C39_found n a b c d).2 ⟨hs, hv⟩
  obtain ⟨q, rfl, o1, o2⟩ := C39_on_both n a b c d hab hcd h1 h2 p hp
  have hne : (b.x - a.x) * (d.y - c.y) - (b.y - a.y) * (d.x - c.x) ≠ 0 := by
    intro h
    rw [C39_parallel n a b c d hab hcd (by linarith)] at hp
    cases hp
  have hx : pt q = x := by
    have o1 := inLine_of_onLine o1
    have o2 := inLine_of_onLine o2
    obtain ⟨t, -, -, e1⟩ := x1
    obtain ⟨u, -, -, e2⟩ := x2
    have p1 : InLine (pt a) (pt b) x := by
      rw [← e1]; simp only [InLine, Stroke.at, pt]; ring
    have p2 : InLine (pt c) (pt d) x := by
      rw [← e2]; simp only [InLine, Stroke.at, pt]; ring
    simp only [InLine, pt] at o1 o2 p1 p2
    have f1 : (b.x - a.x) * (q.y - x.2) = (b.y - a.y) * (q.x - x.1) := by linarith
    have f2 : (d.x - c.x) * (q.y - x.2) = (d.y - c.y) * (q.x - x.1) := by linarith
    have g1 : ((b.x - a.x) * (d.y - c.y) - (b.y - a.y) * (d.x - c.x)) * (q.x - x.1) = 0 := by
      linear_combination (d.x - c.x) * f1 - (b.x - a.x) * f2
    have g2 : ((b.x - a.x) * (d.y - c.y) - (b.y - a.y) * (d.x - c.x)) * (q.y - x.2) = 0 := by
      linear_combination (d.y - c.y) * f1 - (b.y - a.y) * f2
    have k1 := (mul_eq_zero.1 g1).resolve_left hne
    have k2 := (mul_eq_zero.1 g2).resolve_left hne
    exact Prod.ext (by simp only [pt]; linarith) (by simp only [pt]; linarith)
  refine ⟨q, hx, ?_⟩
  have e : intersect n fuel (finSeg (.line a b)) (finSeg (.line c d)) = some (lineLinePoints n (finPt a, finPt b) (finPt c, finPt d)) := rfl
  rw [e, lineLinePoints, hp]
  have b1 := inBox_of_on (n := n) (a := a) (b := b) (q := q) (by rw [hx]; exact x1)
  have b2 := inBox_of_on (n := n) (a := c) (b := d) (q := q) (by rw [hx]; exact x2)
  simp only [asLine, finSeg] at b1 b2
  simp only [b1, b2, Bool.not_true, Bool.or_self, Bool.false_eq_true, if_false]

/-- **C146.** For a line and a curve, in either order, the points are on the curve, at the parameters that come with them, and near the line. -/
theorem C146_line_curve (n : Int) (fuel : Nat) (a b s c1 c2 e : Point ℝ) (hab : pt a ≠ pt b) :
    ∃ l : List (Point ℝ), intersect n fuel (finSeg (.line a b)) (finSeg (.curve s c1 c2 e)) = some (l.map finPt) ∧
      intersect n fuel (finSeg (.curve s c1 c2 e)) (finSeg (.line a b)) = some (l.map finPt) ∧
      ∀ q ∈ l, 0 ≤ q.t ∧ q.t ≤ 1 ∧ pt q = curveAt (bezOf s c1 c2 e) q.t ∧ NearKnife (pt a) (pt b) (pt q) := by
  obtain ⟨ts, h1, h2⟩ := intersect_knife n a b s c1 c2 e hab
  have e1 : intersect n fuel (finSeg (.line a b)) (finSeg (.curve s c1 c2 e)) = some ((ts.map (meetPt (bezOf s c1 c2 e))).map finPt) := by
    rw [List.map_map]; exact h1
  refine ⟨ts.map (meetPt (bezOf s c1 c2 e)), e1, e1, fun q hq => ?_⟩
  obtain ⟨t, ht, rfl⟩ := List.mem_map.1 hq
  obtain ⟨t0, t1, hk⟩ := h2 t ht
  exact ⟨t0, t1, rfl, hk⟩

/-- **C146.** For two curves the search ends; the points are on the first curve, at the parameters that come with them, and near the second
one. -/
theorem C146_curves (n : Int) (s c1 c2 e s' d1 d2 e' : Point ℝ) (hb : Bezier.Bounded (bezOf s c1 c2 e)) (hb' : Bezier.Bounded (bezOf s' d1 d2 e')) :
    ∃ N, ∀ fuel, N ≤ fuel → ∃ l : List (Point ℝ),
      intersect n fuel (finSeg (.curve s c1 c2 e)) (finSeg (.curve s' d1 d2 e')) = some (l.map finPt) ∧
      ∀ q ∈ l, pt q = curveAt (bezOf s c1 c2 e) q.t ∧ NearCurves 1 (bezOf s c1 c2 e) (bezOf s' d1 d2 e') q.t := by
  set c := bezOf s c1 c2 e with hc
  set d := bezOf s' d1 d2 e' with hd
  obtain ⟨N, hN⟩ := Bezier.C64_terminates c d hb hb' (1 / 2) (by norm_num)
  refine ⟨N + 1, fun fuel hf => ?_⟩
  obtain ⟨l, hl⟩ := hN fuel (by omega)
  have hcl := Bezier.C64_sound c d hb hb' _ fuel l hl
  have lit : (Arith.lit 5 1 : XNum ℝ) = fin (1 / 2) := by
    have : (Arith.lit 5 1 : XNum ℝ) = fin (Arith.lit 5 1) := rfl
    rw [this]
    norm_num [Arith.lit]
  have e0 : intersect n fuel (finSeg (.curve s c1 c2 e)) (finSeg (.curve s' d1 d2 e')) =
      (Bezier.intersectsCurve (Arith.lit 5 1) fuel (finCurve c) (finCurve d)).map fun l => l.map fun v => pointAt (finCurve c) v.1 := rfl
  have key : ∃ ts : List ℝ, l.map (fun v => pointAt (finCurve c) v.1) = (ts.map (meetPt c)).map finPt ∧ ∀ t ∈ ts, NearCurves 1 c d t := by
    clear hl
    induction l with
    | nil => exact ⟨[], rfl, by simp⟩
    | cons v l ih =>
      obtain ⟨ts, i1, i2⟩ := ih fun w hw => hcl w (.tail _ hw)
      obtain ⟨a, b, x, y, rfl, a0, a1, b0, b1, hx, -, hh⟩ := hcl v (.head _)
      refine ⟨x :: ts, ?_, ?_⟩
      · rw [List.map_cons, i1, List.map_cons, List.map_cons, pointAt_fin]
      · intro t ht
        rcases List.mem_cons.1 ht with rfl | ht
        · exact ⟨a, b, a0, a1, b0, b1, hx, by linarith⟩
        · exact i2 t ht
  obtain ⟨ts, i1, i2⟩ := key
  refine ⟨ts.map (meetPt c), ?_, fun q hq => ?_⟩
  · rw [e0, lit, hl, Option.map_some, i1]
  · obtain ⟨t, ht, rfl⟩ := List.mem_map.1 hq
    exact ⟨rfl, i2 t ht⟩

/-- **C146.** A move crosses nothing. -/
theorem C146_moves {F : Type*} [Trig F] (n : Int) (fuel : Nat) (a b : Point F) (s : Segment F) :
    intersect n fuel (.move a b) s = some [] ∧ intersect n fuel s (.move a b) = some [] := by
  cases s <;> exact ⟨rfl, rfl⟩

/-- Not vacuous: the diagonals of a square. -/
example : ∃ q : Point ℝ, pt q = (1, 1) ∧
    intersect (3 : Nat) 0 (finSeg (.line ⟨0, 0, 0⟩ ⟨2, 2, 0⟩)) (finSeg (.line ⟨0, 2, 0⟩ ⟨2, 0, 0⟩)) = some [finPt q] := by
  have hv : ∀ y y' : ℝ, isVertical (3 : Nat) (finPt ⟨0, y, 0⟩, finPt ⟨2, y', 0⟩) = false := by
    intro y y'
    simp only [isVertical, finPt, precisionEquals, fmt_fin]
    simpa using fmt_ne (n := 3) (x := 0) (y := 2) (by norm_num)
  refine C146_lines_found 3 0 ⟨0, 0, 0⟩ ⟨2, 2, 0⟩ ⟨0, 2, 0⟩ ⟨2, 0, 0⟩ (by simp [pt]) (by simp [pt]) (fun h => ?_) (fun h => ?_) ?_ ?_ (1, 1) ?_ ?_
  · rw [hv] at h; cases h
  · rw [hv] at h; cases h
  · rw [slope_fin (by norm_num), slope_fin (by norm_num)]
    simp only [precisionEquals, fmt_fin]
    simpa using fmt_ne (n := 3) (x := 1) (y := -1) (by norm_num)
  · rw [hv]; simp
  · exact ⟨1 / 2, by norm_num, by norm_num, by simp [Stroke.at, pt]⟩
  · exact ⟨1 / 2, by norm_num, by norm_num, by norm_num [Stroke.at, pt]⟩

end Verif.Path
