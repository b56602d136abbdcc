import Verif.Lemmas.Draw

/-!
# C14, C15, C16, C19, C20: drawing, splitting and trimming paths
-/

namespace Verif.Path

open Verif Verif.Spec

universe u

/-! ## C14 Drawing commands always give a connected path -/

/-- **C14.** Whatever drawing commands are issued, in whatever arithmetic (doubles included), each segment starts where the previous
one ended and the first one at the origin. -/
theorem C14_connected {F : Type u} [Trig F] (cmds : List (Cmd F)) : Connected (runAll cmds) :=
  (goodStep_runAll_from cmds []).2 (show Connected ([] : Path F) from trivial)

/-- **C14.** Drawing only appends: what has been drawn is never changed by later commands. -/
theorem C14_earlier_kept {F : Type u} [Trig F] (cmds more : List (Cmd F)) : runAll cmds <+: runAll (cmds ++ more) := by
  unfold runAll
  rw [List.foldl_append]
  exact (goodStep_runAll_from more _).1

/-- Where the pen is expected after a command that was issued at `cur`. `addSegments` and `svgPath` can contain many segments and
are covered by `C14_last_end`. -/
noncomputable def endsAt : Cmd ℝ → Pt ℝ → Option (Pt ℝ)
  | .moveTo p, _ => some (pt p)
  | .relMoveTo d, c => some (c.1 + d.x, c.2 + d.y)
  | .lineTo p, _ => some (pt p)
  | .relLineTo d, c => some (c.1 + d.x, c.2 + d.y)
  | .hLineTo x, c => some (x, c.2)
  | .relHLineTo dx, c => some (c.1 + dx, c.2)
  | .vLineTo y, c => some (c.1, y)
  | .relVLineTo dy, c => some (c.1, c.2 + dy)
  | .lineByAngle l a, c => some (c.1 + l * Real.cos (a * Real.pi / 180), c.2 + l * Real.sin (a * Real.pi / 180))
  | .curveTo _ _ p, _ => some (pt p)
  | .relCurveTo _ _ d, c => some (c.1 + d.x, c.2 + d.y)
  | .smoothCurveTo _ p, _ => some (pt p)
  | .relSmoothCurveTo _ d, c => some (c.1 + d.x, c.2 + d.y)
  | .qCurveTo _ p, _ => some (pt p)
  | .relQCurveTo _ d, c => some (c.1 + d.x, c.2 + d.y)
  | .roundedCornerTo p _ _, _ => some (pt p)
  | .relRoundedCornerTo d _ _, c => some (c.1 + d.x, c.2 + d.y)
  | .circle r, c => some (c.1 + r, c.2)
  | .rect _ _, c => some c
  | .addSegment s, _ => some (pt s.stop)
  | .addSegments _, _ => none
  | .svgPath _, _ => none

/-- **C14.** After each command the current position is where the command says the pen goes. -/
theorem C14_position (cmds : List (Cmd ℝ)) (c : Cmd ℝ) (q : Pt ℝ)
    (h : endsAt c (pt (currentPosition (runAll cmds))) = some q) : pt (currentPosition (runAll (cmds ++ [c]))) = q := by
  have e : runAll (cmds ++ [c]) = c.run (runAll cmds) := by simp [runAll]
  rw [e]
  generalize runAll cmds = p at *
  cases c <;> simp only [endsAt, Option.some.injEq, reduceCtorEq] at h <;> subst h <;>
    simp only [Cmd.run, relHLineTo, hLineTo, relVLineTo, vLineTo, lineByAngle, smoothCurveTo, relSmoothCurveTo, qCurveTo,
      relQCurveTo, roundedCornerTo, relRoundedCornerTo, circle, rect, currentPosition_lineTo, currentPosition_moveTo,
      currentPosition_curveTo, currentPosition_relLineTo, currentPosition_relMoveTo, currentPosition_relCurveTo,
      addSegment_position, currentPosition_append, Segment.stop, lineAngleEnd, degreesToRadians] <;>
    simp [pt, toAbs_x, toAbs_y] <;> ring_nf <;> trivial

/-- **C14.** The current position is always the end of the last segment, and the origin before anything is drawn. -/
theorem C14_last_end {F : Type u} [Trig F] (cmds : List (Cmd F)) :
    (runAll cmds = [] ∧ currentPosition (runAll cmds) = origin) ∨
    ∃ p s, runAll cmds = p ++ [s] ∧ currentPosition (runAll cmds) = s.stop := by
  rcases List.eq_nil_or_concat (runAll cmds) with h | ⟨p, s, h⟩
  · exact Or.inl ⟨h, by rw [h]; rfl⟩
  · refine Or.inr ⟨p, s, by simpa using h, ?_⟩
    rw [h]; simp

/-- Not vacuous: a drawing with a line, an added segment that starts elsewhere (it is snapped to the pen) and a rectangle. -/
example : pt (currentPosition (addSegment (lineTo ([] : Path ℚ) ⟨1, 2, 0⟩) (.line ⟨9, 9, 0⟩ ⟨3, 4, 0⟩))) = (3, 4) ∧
    addSegment (lineTo ([] : Path ℚ) ⟨1, 2, 0⟩) (.line ⟨9, 9, 0⟩ ⟨3, 4, 0⟩) =
      [.line ⟨0, 0, -1⟩ ⟨1, 2, 0⟩, .line ⟨1, 2, 0⟩ ⟨3, 4, 0⟩] := by decide +kernel

/-! ## C15 Rectangles and circles close -/

/-- **C15.** A rectangle drawn at `(x, y)` is the outline of its four corners and ends where it started. -/
theorem C15_rect {K : Type u} [Field K] [LinearOrder K] (p : Path K) (w h : K) :
    let x := (currentPosition p).x
    let y := (currentPosition p).y
    strokes (rect p w h) = strokes p ++
        [.line (x, y) (x + w, y), .line (x + w, y) (x + w, y + h), .line (x + w, y + h) (x, y + h), .line (x, y + h) (x, y)] ∧
      pt (currentPosition (rect p w h)) = (x, y) := by
  simp [rect, strokes_relLineTo, currentPosition_relLineTo, pt]

/-- The distance between two points of the plane. -/
noncomputable def dist2 (p q : Pt ℝ) : ℝ := Real.sqrt ((p.1 - q.1) ^ 2 + (p.2 - q.2) ^ 2)

/-- **C15.** The outline of a circle drawn at `(x, y)` consists of four curves, each starting where the previous one ended, the last
ending where the first one started. -/
theorem C15_circle_closes (p : Path ℝ) (r : ℝ) :
    let x := (currentPosition p).x
    let y := (currentPosition p).y
    ∃ c1 d1 c2 d2 c3 d3 c4 d4, strokes (circle p r) = strokes p ++
      [.curve (x + r, y) c1 d1 (x + 2 * r, y + r), .curve (x + 2 * r, y + r) c2 d2 (x + r, y + 2 * r),
       .curve (x + r, y + 2 * r) c3 d3 (x, y + r), .curve (x, y + r) c4 d4 (x + r, y)] ∧
      pt (currentPosition (circle p r)) = (x + r, y) := by
  refine ⟨_, _, _, _, _, _, _, _, strokes_circle p r, ?_⟩
  simp [circle, pt]

/-- **C15.** Every point of a circle of radius `r` drawn at `(x, y)` is within 0.03% of the radius from the centre
`(x + r, y + r)`. -/
theorem C15_circle_round (r x y t0 : ℝ) (q : Pt ℝ) (h : Drawn (circle [.move origin ⟨x, y, t0⟩] r) q) :
    |r| ≤ dist2 q (x + r, y + r) ∧ dist2 q (x + r, y + r) ≤ 1.0003 * |r| := by
  have key : r ^ 2 ≤ (q.1 - (x + r)) ^ 2 + (q.2 - (y + r)) ^ 2 ∧
      (q.1 - (x + r)) ^ 2 + (q.2 - (y + r)) ^ 2 ≤ (1.0003 * r) ^ 2 := by
    obtain ⟨s, hs, t, h0, h1, rfl⟩ := h
    have e := quarter_error circleCtrl_eq r t
    have e' := quarter_error circleCtrl_eq r (1 - t)
    simp only [strokes_circle, strokes_cons, strokes_nil, strokeOf, Option.toList_none, List.nil_append, currentPosition,
      List.getLast?_singleton, Segment.stop, List.mem_cons, List.not_mem_nil, or_false] at hs
    rcases hs with rfl | rfl | rfl | rfl <;> apply quarter_close h0 h1 <;> rw [← e] <;>
      simp only [Stroke.at] <;> ring
  constructor
  · rw [dist2, Real.le_sqrt (abs_nonneg r) (by positivity), sq_abs]; exact key.1
  · rw [dist2]
    apply Real.sqrt_le_iff.2
    refine ⟨by positivity, ?_⟩
    rw [mul_pow, sq_abs, ← mul_pow]; exact key.2

/-- Not vacuous: the drawing of a circle has points. -/
example : Drawn (circle [.move origin ⟨1, 1, 0⟩] (2 : ℝ)) (3, 1) := by
  unfold Drawn
  rw [strokes_circle]
  refine ⟨_, List.mem_append_right _ (List.mem_cons_self ..), 0, le_rfl, zero_le_one, ?_⟩
  simp [Stroke.at, currentPosition, Segment.stop]
  norm_num

/-! ## C16 A quadratic curve command draws that quadratic curve -/

/-- The quadratic Bézier curve from `a` to `b` with control point `c`. -/
def quadAt {K : Type u} [Field K] (a c b : Pt K) (t : K) : Pt K :=
  ((1 - t) ^ 2 * a.1 + 2 * (1 - t) * t * c.1 + t ^ 2 * b.1, (1 - t) ^ 2 * a.2 + 2 * (1 - t) * t * c.2 + t ^ 2 * b.2)

/-- The full statement of C16 for a given state of the drawing: the stroke added by `QCurveTo` runs through exactly the points of the
quadratic curve. -/
def C16_statement {K : Type u} [Field K] [LinearOrder K] (p : Path K) (c e : Point K) : Prop :=
  ∃ s, strokes (qCurveTo p c e) = strokes p ++ [s] ∧
    ∀ t, s.at t = quadAt (pt (currentPosition p)) (pt c) (pt e) t

/-- **C16 is false**: from (1, 0) with control point (0, 0) to (0, 1) the cubic is a different curve (an ordinate uses the abscissa of
the current point). -/
theorem C16_false : ¬ C16_statement (moveTo ([] : Path ℚ) ⟨1, 0, 0⟩) ⟨0, 0, 0⟩ ⟨0, 1, 0⟩ := by
  rintro ⟨s, hs, ht⟩
  have e : strokes (qCurveTo (moveTo ([] : Path ℚ) ⟨1, 0, 0⟩) ⟨0, 0, 0⟩ ⟨0, 1, 0⟩) =
      [.curve (1, 0) (1 / 3, -2 / 3) (0, 1 / 3) (0, 1)] := by decide +kernel
  have e2 : strokes (moveTo ([] : Path ℚ) ⟨1, 0, 0⟩) = [] := by decide +kernel
  rw [e, e2, List.nil_append, List.singleton_inj] at hs
  subst hs
  have := ht (1 / 2)
  revert this
  decide +kernel

/-- **C16, what does hold.** The command adds one cubic with the right end points and the right abscissas everywhere; the ordinates
are right everywhere exactly when the current point lies on the diagonal `x = y`. -/
theorem C16_quadratic_partial {K : Type u} [Field K] [LinearOrder K] [IsStrictOrderedRing K] (p : Path K) (c e : Point K) :
    ∃ s, strokes (qCurveTo p c e) = strokes p ++ [s] ∧
      (∀ t, (s.at t).1 = (quadAt (pt (currentPosition p)) (pt c) (pt e) t).1) ∧
      s.at 0 = pt (currentPosition p) ∧ s.at 1 = pt e ∧
      ((∀ t, s.at t = quadAt (pt (currentPosition p)) (pt c) (pt e) t) ↔ (currentPosition p).x = (currentPosition p).y) := by
  refine ⟨_, strokes_curveTo _ _ _ _, ?_, ?_, ?_, ?_⟩
  · intro t
    simp [Stroke.at, quadAt, twoThirds, Arith.two, pt]
    field_simp
    ring
  · simp [Stroke.at]
  · simp [Stroke.at]
  · have ey : ∀ t : K, (Stroke.at (.curve (pt (currentPosition p))
        (pt (newPoint ((currentPosition p).x +. twoThirds *. (c.x -. (currentPosition p).x))
          ((currentPosition p).y +. twoThirds *. (c.y -. (currentPosition p).x))))
        (pt (newPoint (e.x +. twoThirds *. (c.x -. e.x)) (e.y +. twoThirds *. (c.y -. e.y)))) (pt e)) t).2 =
        (quadAt (pt (currentPosition p)) (pt c) (pt e) t).2 +
          2 * (1 - t) ^ 2 * t * ((currentPosition p).y - (currentPosition p).x) := by
      intro t
      simp [Stroke.at, quadAt, twoThirds, Arith.two, pt]
      field_simp
      ring
    constructor
    · intro h
      have h1 := congrArg Prod.snd (h (1 / 2))
      rw [ey] at h1
      have h2 : 2 * (1 - (1 / 2 : K)) ^ 2 * (1 / 2) * ((currentPosition p).y - (currentPosition p).x) = 0 := by
        linarith
      have h3 : (currentPosition p).y - (currentPosition p).x = 0 := by
        have : (2 * (1 - (1 / 2 : K)) ^ 2 * (1 / 2)) = 1 / 4 := by norm_num
        rw [this] at h2
        linarith
      linarith
    · intro h t
      refine Prod.ext ?_ ?_
      · simp [Stroke.at, quadAt, twoThirds, Arith.two, pt]
        field_simp
        ring
      · rw [ey, h]; ring

/-- Not vacuous: at the start of a drawing the current point is on the diagonal. -/
example : (currentPosition ([] : Path ℚ)).x = (currentPosition ([] : Path ℚ)).y := by decide +kernel

/-! ## C19 Splitting a path on moves loses nothing -/

/-- **C19.** Every piece starts with a move, contains at least one stroke and no further move, and is connected from the origin. Any
path, any arithmetic. -/
theorem C19_pieces {F : Type u} [Arith F] (p : Path F) :
    ∀ q ∈ splitPathOnMove p, Connected q ∧
      ∃ m ss, q = m :: ss ∧ m.isMove = true ∧ ss ≠ [] ∧ ∀ s ∈ ss, s.isMove = false := by
  intro q hq
  cases p with
  | nil => simp [splitPathOnMove] at hq
  | cons c rest =>
    obtain ⟨⟨m, ss, rfl, h1, h2, h3⟩, h4⟩ := splitLoop_pieces rest _ (piece_first c) q hq
    refine ⟨h3, m, ss, rfl, h1, ?_, h2⟩
    rintro rfl
    apply h4
    simp [strokes_cons, strokeOf_eq_none.2 h1]

/-- **C19.** The pieces together draw exactly what the path draws as SVG from its start point, in order. Any path, any arithmetic. -/
theorem C19_svg_strokes {F : Type u} [Arith F] (c : Segment F) (rest : Path F) :
    (splitPathOnMove (c :: rest)).flatMap (svgStrokes (pt origin)) = svgStrokes (pt c.start) (c :: rest) := by
  rw [splitPathOnMove, splitLoop_svgStrokes origin rest _ (addSegment_ne_nil _ _), addSegment_position]
  cases h : c.isMove
  · rw [addSegment_nil_stroke h]
    simp only [svgStrokes, svgStrokes_snapped]
    cases c <;> simp_all [svgStrokes, Segment.stop, Segment.isMove]
  · rw [addSegment_nil_move h, svgStrokes_snapped]
    cases c <;> simp_all [svgStrokes, Segment.stop, Segment.isMove]

/-- **C19.** If each segment of the path starts where the previous one ended, the pieces have exactly the path's strokes, start points
included. Any arithmetic. -/
theorem C19_strokes {F : Type u} [Arith F] (p : Path F) (h : Chained p) :
    (splitPathOnMove p).flatMap strokes = strokes p := by
  cases p with
  | nil => rfl
  | cons c rest =>
    rw [splitPathOnMove, splitLoop_strokes rest _ (addSegment_ne_nil _ _) (by rw [addSegment_position]; exact h),
      strokes_cons]
    congr 1
    cases hm : c.isMove
    · rw [addSegment_nil_stroke hm]
      simp [strokes_cons, strokeOf_snapped (meets_refl c.start),
        strokeOf_eq_none.2 (show (Segment.move origin c.start).isMove = true from rfl)]
    · rw [addSegment_nil_move hm]
      simp [strokes_cons, strokeOf_eq_none.2 hm, strokeOf_eq_none.2 (show (snapped origin c).isMove = true by simp [hm])]

/-- Not vacuous: a path with two drawn parts and an empty one in between. -/
example :
    let p : Path ℚ := [.move ⟨0, 0, 0⟩ ⟨1, 0, 0⟩, .line ⟨1, 0, 0⟩ ⟨2, 0, 0⟩, .move ⟨2, 0, 0⟩ ⟨3, 0, 0⟩, .move ⟨3, 0, 0⟩ ⟨4, 0, 0⟩,
      .line ⟨4, 0, 0⟩ ⟨5, 5, 0⟩]
    Chained p ∧ (splitPathOnMove p).length = 2 := by
  refine ⟨?_, by decide +kernel⟩
  simp [Chained, ConnectedFrom, Meets, pt, Segment.start, Segment.stop]

/-! ## C20 Trimming moves keeps the drawing -/

/-- **C20.** Trimming removes only moves, from both ends: the result neither starts nor ends with a move, has the same strokes, and
trimming again changes nothing. Any path, any arithmetic. -/
theorem C20_trim {F : Type u} [Arith F] (p : Path F) :
    (∃ before after, p = before ++ trimMove p ++ after ∧ (∀ s ∈ before, s.isMove = true) ∧ (∀ s ∈ after, s.isMove = true)) ∧
    (∀ s, (trimMove p).head? = some s → s.isMove = false) ∧
    (∀ s, (trimMove p).getLast? = some s → s.isMove = false) ∧
    strokes (trimMove p) = strokes p ∧
    trimMove (trimMove p) = trimMove p :=
  ⟨trimMove_split p, trimMove_head p, trimMove_last p, trimMove_strokes p,
    trimMove_fixed (trimMove_head p) (trimMove_last p)⟩

/-- Not vacuous: moves at both ends go, the one in the middle stays. -/
example : trimMove ([.move ⟨0, 0, 0⟩ ⟨1, 0, 0⟩, .line ⟨1, 0, 0⟩ ⟨2, 0, 0⟩, .move ⟨2, 0, 0⟩ ⟨3, 0, 0⟩, .line ⟨3, 0, 0⟩ ⟨4, 0, 0⟩,
    .move ⟨4, 0, 0⟩ ⟨9, 9, 0⟩] : Path ℚ) =
    [.line ⟨1, 0, 0⟩ ⟨2, 0, 0⟩, .move ⟨2, 0, 0⟩ ⟨3, 0, 0⟩, .line ⟨3, 0, 0⟩ ⟨4, 0, 0⟩] := by decide +kernel

end Verif.Path
