import Verif.Props.Path

/-!
# C138 Drawings made of relative commands; C16 for relative quadratic curves
-/

namespace Verif.Path

open Verif Verif.Spec

set_option linter.unusedSectionVars false
set_option linter.unusedSimpArgs false

universe u

/-! ## C16 -/

/-- **C16, what does hold of the relative command.** The control point and the end are counted from the current point; the cubic has
the abscissas of that quadratic curve everywhere, and its ordinates exactly when the current point lies on the diagonal. -/
theorem C16_relative_partial {K : Type u} [Field K] [LinearOrder K] [IsStrictOrderedRing K] (p : Path K) (c d : Point K) :
    let cur := pt (currentPosition p)
    let q := quadAt cur (cur.1 + c.x, cur.2 + c.y) (cur.1 + d.x, cur.2 + d.y)
    ∃ s, strokes (relQCurveTo p c d) = strokes p ++ [s] ∧ (∀ t, (s.at t).1 = (q t).1) ∧ s.at 0 = cur ∧
      s.at 1 = (cur.1 + d.x, cur.2 + d.y) ∧ ((∀ t, s.at t = q t) ↔ cur.1 = cur.2) := by
  have e : ∀ d : Point K, pt (toAbs p d) = ((pt (currentPosition p)).1 + d.x, (pt (currentPosition p)).2 + d.y) := by
    intro d; simp [pt]
  have h := C16_quadratic_partial p (toAbs p c) (toAbs p d)
  rw [e, e] at h
  exact h

/-- Not vacuous: from (1, 1), on the diagonal, a relative quadratic curve is drawn right. -/
example : strokes (relQCurveTo (moveTo ([] : Path ℚ) ⟨1, 1, 0⟩) ⟨3, 0, 0⟩ ⟨3, 3, 0⟩) =
    [.curve (1, 1) (3, 1) (4, 2) (4, 4)] := by decide +kernel

/-! ## C138 -/

/-- The commands that say everything relative to the current point. -/
def Cmd.Relative {F : Type u} : Cmd F → Prop
  | .relMoveTo _ | .relLineTo _ | .relHLineTo _ | .relVLineTo _ | .lineByAngle _ _ | .relCurveTo _ _ _ | .relSmoothCurveTo _ _
  | .circle _ | .rect _ _ => True
  | _ => False

/-- Moving a point of the plane. -/
def shiftBy (v q : Pt ℝ) : Pt ℝ := (q.1 + v.1, q.2 + v.2)

/-- The second control point of the curve just drawn. -/
def lastControl (p : Path ℝ) : Option (Pt ℝ) :=
  match p.getLast? with
  | some (.curve _ _ c _) => some (pt c)
  | _ => none

/-- The second drawing is the first one moved. -/
structure MovedDraw (v : Pt ℝ) (p q : Path ℝ) : Prop where
  drawn : strokes q = (strokes p).map (Stroke.map (shiftBy v))
  pos : pt (currentPosition q) = shiftBy v (pt (currentPosition p))
  ctrl : lastControl q = (lastControl p).map (shiftBy v)

section Moved

variable {v : Pt ℝ} {p q : Path ℝ}

theorem MovedDraw.move (h : MovedDraw v p q) {a b : Point ℝ} (e : pt b = shiftBy v (pt a)) : MovedDraw v (moveTo p a) (moveTo q b) := by
  refine ⟨?_, ?_, ?_⟩
  · rw [strokes_moveTo, strokes_moveTo, h.drawn]
  · simpa using e
  · simp [lastControl, moveTo]

theorem MovedDraw.line (h : MovedDraw v p q) {a b : Point ℝ} (e : pt b = shiftBy v (pt a)) : MovedDraw v (lineTo p a) (lineTo q b) := by
  refine ⟨?_, ?_, ?_⟩
  · rw [strokes_lineTo, strokes_lineTo, h.drawn, h.pos, e]; simp [Stroke.map]
  · simpa using e
  · simp [lastControl, lineTo]

theorem MovedDraw.curve (h : MovedDraw v p q) {a b c a' b' c' : Point ℝ} (e1 : pt a' = shiftBy v (pt a)) (e2 : pt b' = shiftBy v (pt b))
    (e3 : pt c' = shiftBy v (pt c)) : MovedDraw v (curveTo p a b c) (curveTo q a' b' c') := by
  refine ⟨?_, ?_, ?_⟩
  · rw [strokes_curveTo, strokes_curveTo, h.drawn, h.pos, e1, e2, e3]; simp [Stroke.map]
  · simpa using e3
  · simp [lastControl, curveTo, e2]

theorem MovedDraw.abs (h : MovedDraw v p q) (d : Point ℝ) : pt (toAbs q d) = shiftBy v (pt (toAbs p d)) := by
  have e := h.pos
  simp only [pt, shiftBy, Prod.mk.injEq, toAbs_x, toAbs_y] at e ⊢
  rw [e.1, e.2]
  constructor <;> ring

theorem MovedDraw.smooth (h : MovedDraw v p q) : pt (smoothControl q) = shiftBy v (pt (smoothControl p)) := by
  have e : ∀ p : Path ℝ, pt (smoothControl p) = match lastControl p with
      | some c => (2 * (pt (currentPosition p)).1 - c.1, 2 * (pt (currentPosition p)).2 - c.2)
      | none => pt (currentPosition p) := by
    intro p
    unfold smoothControl lastControl
    rcases hl : p.getLast? with _ | s
    · simp [pt]
    · cases s <;> simp [pt]
      constructor <;> ring
  rw [e, e, h.ctrl, h.pos]
  cases lastControl p with
  | none => rfl
  | some c => simp only [Option.map_some, shiftBy]; refine Prod.ext ?_ ?_ <;> simp only <;> ring

theorem MovedDraw.run (h : MovedDraw v p q) (c : Cmd ℝ) (hc : c.Relative) : MovedDraw v (c.run p) (c.run q) := by
  have relLine : ∀ {p q : Path ℝ}, MovedDraw v p q → ∀ d, MovedDraw v (relLineTo p d) (relLineTo q d) :=
    fun h d => h.line (h.abs d)
  have relCurve : ∀ {p q : Path ℝ}, MovedDraw v p q → ∀ a b d, MovedDraw v (relCurveTo p a b d) (relCurveTo q a b d) :=
    fun h a b d => h.curve (h.abs a) (h.abs b) (h.abs d)
  cases c <;> simp only [Cmd.Relative] at hc
  · exact h.move (h.abs _)
  · exact relLine h _
  · exact relLine h _
  · exact relLine h _
  · refine h.line ?_
    have e := h.pos
    simp only [lineAngleEnd, pt, shiftBy, Prod.mk.injEq, newPoint_x, newPoint_y, Arith.add_field] at e ⊢
    rw [e.1, e.2]
    constructor <;> ring
  · exact relCurve h _ _ _
  · exact h.curve h.smooth (h.abs _) (h.abs _)
  · exact relCurve (relCurve (relCurve (relCurve (h.move (h.abs _)) _ _ _) _ _ _) _ _ _) _ _ _
  · exact relLine (relLine (relLine (relLine h _) _) _) _

end Moved

/-- **C138.** A drawing that begins with a move and then uses relative commands only moves with its first point: every stroke is the same,
moved. -/
theorem C138_moves (cmds : List (Cmd ℝ)) (h : ∀ c ∈ cmds, c.Relative) (m m' : Point ℝ) :
    let v := (m'.x - m.x, m'.y - m.y)
    strokes (runAll (.moveTo m' :: cmds)) = (strokes (runAll (.moveTo m :: cmds))).map (Stroke.map (shiftBy v)) ∧
      pt (currentPosition (runAll (.moveTo m' :: cmds))) = shiftBy v (pt (currentPosition (runAll (.moveTo m :: cmds)))) := by
  intro v
  have base : MovedDraw v (moveTo [] m) (moveTo [] m') := by
    refine ⟨by rw [strokes_moveTo, strokes_moveTo]; rfl, ?_, by simp [lastControl, moveTo]⟩
    simp [shiftBy, v, pt]
  have key : ∀ (cmds : List (Cmd ℝ)) (p q : Path ℝ), (∀ c ∈ cmds, c.Relative) → MovedDraw v p q →
      MovedDraw v (cmds.foldl (fun p c => c.run p) p) (cmds.foldl (fun p c => c.run p) q) := by
    intro cmds
    induction cmds with
    | nil => intro p q _ h; exact h
    | cons c cmds ih =>
      intro p q hc h
      exact ih _ _ (fun x hx => hc x (List.mem_cons_of_mem _ hx)) (h.run c (hc c (List.mem_cons_self ..)))
  have := key cmds _ _ h base
  exact ⟨this.drawn, this.pos⟩

/-- Not vacuous: there are such drawings, and they draw something. -/
example : (∀ c ∈ [Cmd.relLineTo (⟨1, 0, 0⟩ : Point ℝ), .rect 2 3, .circle 4], c.Relative) ∧
    strokes (runAll [Cmd.moveTo (⟨5, 6, 0⟩ : Point ℝ), .relLineTo ⟨1, 0, 0⟩]) = [.line (5, 6) (6, 6)] := by
  refine ⟨by simp [Cmd.Relative], ?_⟩
  simp only [runAll, List.foldl_cons, List.foldl_nil, Cmd.run]
  rw [strokes_relLineTo, strokes_moveTo]
  simp [pt, strokes]
  norm_num

/-- **C138** is false of relative quadratic curves: moved one to the right, the drawing is another one. -/
theorem C138_quadratic_false :
    strokes (relQCurveTo (moveTo ([] : Path ℚ) ⟨1, 0, 0⟩) ⟨0, 3, 0⟩ ⟨3, 3, 0⟩) ≠
      (strokes (relQCurveTo (moveTo ([] : Path ℚ) ⟨0, 0, 0⟩) ⟨0, 3, 0⟩ ⟨3, 3, 0⟩)).map (Stroke.map fun q => (q.1 + 1, q.2)) := by
  decide +kernel

end Verif.Path
