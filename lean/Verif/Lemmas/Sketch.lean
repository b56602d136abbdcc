import Verif.Spec.Sketch
import Verif.Props.Seen
import Verif.Props.Commands

/-!
# What the commands of a sketch draw
-/

set_option linter.unusedSectionVars false

namespace Verif.Render

open Verif Verif.Dyn Verif.Path Verif.PlanSet Verif.Svg Verif.Files Verif.Spec

variable {O : Type}

/-! ## Finite numbers -/

theorem fin_moveTo (p : Path ℝ) (q : Point ℝ) : moveTo (finPath p) (finPt q) = finPath (moveTo p q) := by
  unfold moveTo
  rw [position_finPath, finPath_append]
  rfl

theorem fin_lineTo (p : Path ℝ) (q : Point ℝ) : lineTo (finPath p) (finPt q) = finPath (lineTo p q) := by
  unfold lineTo
  rw [position_finPath, finPath_append]
  rfl

theorem fin_curveTo (p : Path ℝ) (c d q : Point ℝ) : curveTo (finPath p) (finPt c) (finPt d) (finPt q) = finPath (curveTo p c d q) := by
  unfold curveTo
  rw [position_finPath, finPath_append]
  rfl

theorem fin_toAbs (p : Path ℝ) (q : Point ℝ) : toAbs (finPath p) (finPt q) = finPt (toAbs p q) := by
  unfold toAbs
  rw [position_finPath, ← newPoint_fin]
  rfl

theorem fin_smoothControl (p : Path ℝ) : smoothControl (finPath p) = finPt (smoothControl p) := by
  unfold smoothControl
  rw [position_finPath, getLast_fin]
  cases h : p.getLast? with
  | none => exact newPoint_fin _ _
  | some s => cases s <;> exact newPoint_fin _ _

theorem fin_relLineTo (p : Path ℝ) (q : Point ℝ) : relLineTo (finPath p) (finPt q) = finPath (relLineTo p q) := by
  unfold relLineTo
  rw [fin_toAbs, fin_lineTo]

theorem fin_relCurveTo (p : Path ℝ) (c d q : Point ℝ) : relCurveTo (finPath p) (finPt c) (finPt d) (finPt q) = finPath (relCurveTo p c d q) := by
  unfold relCurveTo
  rw [fin_toAbs, fin_toAbs, fin_toAbs, fin_curveTo]

theorem fin_lineByAngle (p : Path ℝ) (l a : ℝ) : lineByAngle (finPath p) (.fin l) (.fin a) = finPath (lineByAngle p l a) := by
  unfold lineByAngle
  rw [position_finPath, finPath_append]
  have : lineAngleEnd (finPt (currentPosition p)) (.fin l) (.fin a) = finPt (lineAngleEnd (currentPosition p) l a) := by
    unfold lineAngleEnd
    rw [← newPoint_fin]
    have e : degreesToRadians (.fin a : XNum ℝ) = .fin (degreesToRadians a) := by
      simp [degreesToRadians, XNum.lit_fin, XNum.div_fin]
    rw [e]
    rfl
  rw [this]
  rfl

theorem fin_rect (p : Path ℝ) (w h : ℝ) : rect (finPath p) (.fin w) (.fin h) = finPath (rect p w h) := by
  have z : (Arith.zero : XNum ℝ) = .fin Arith.zero := by simp [Arith.zero]
  unfold rect
  simp only [z, XNum.neg_fin, newPoint_fin, fin_relLineTo]
  rfl

theorem fin_circle (p : Path ℝ) (r : ℝ) : Path.circle (finPath p) (.fin r) = finPath (Path.circle p r) := by
  have z : (Arith.zero : XNum ℝ) = .fin Arith.zero := by simp [Arith.zero]
  have k : (circleCtrl : XNum ℝ) = .fin circleCtrl := by
    have h2 : (Trig.sqrt (Arith.two : XNum ℝ)) = .fin (Real.sqrt 2) := by
      rw [show (Arith.two : XNum ℝ) = .fin 2 by simp [Arith.two], XNum.sqrt_fin, if_neg (by norm_num)]
    rw [circleCtrl_real]
    unfold circleCtrl
    rw [h2, show (Arith.one : XNum ℝ) = .fin 1 by simp [Arith.one], show (Arith.lit 4 0 : XNum ℝ) = .fin 4 by simp, show (Arith.lit 3 0 : XNum ℝ) = .fin 3 by simp,
      XNum.sub_fin, XNum.mul_fin, XNum.div_fin_ne (by norm_num)]
  unfold Path.circle relMoveTo
  simp only [z, k, XNum.neg_fin, XNum.mul_fin, XNum.sub_fin, XNum.add_fin, newPoint_fin, fin_toAbs, fin_moveTo, fin_relCurveTo]
  rfl

/-! ## Commands -/

/-- What a command does to a path. -/
noncomputable def PenCmd.run (p : Path ℝ) : PenCmd → Path ℝ
  | .move q => moveTo p (newPoint q.1 q.2)
  | .relMove q => relMoveTo p (newPoint q.1 q.2)
  | .line q => lineTo p (newPoint q.1 q.2)
  | .relLine q => relLineTo p (newPoint q.1 q.2)
  | .curve c d q => curveTo p (newPoint c.1 c.2) (newPoint d.1 d.2) (newPoint q.1 q.2)
  | .relCurve c d q => relCurveTo p (newPoint c.1 c.2) (newPoint d.1 d.2) (newPoint q.1 q.2)
  | .smooth d q => smoothCurveTo p (newPoint d.1 d.2) (newPoint q.1 q.2)
  | .relSmooth d q => relSmoothCurveTo p (newPoint d.1 d.2) (newPoint q.1 q.2)
  | .angle l a => lineByAngle p l a
  | .rectangle w h => rect p w h
  | .circle r => Path.circle p r

/-- The name of a command. -/
def PenCmd.op : PenCmd → DrawOp
  | .move _ => .move
  | .relMove _ => .relMove
  | .line _ => .line
  | .relLine _ => .relLine
  | .curve _ _ _ => .curve
  | .relCurve _ _ _ => .relCurve
  | .smooth _ _ => .smoothCurve
  | .relSmooth _ _ => .relSmoothCurve
  | .angle _ _ => .lineByAngle
  | .rectangle _ _ => .rectangle
  | .circle _ => .circle

theorem point_given (m : Machine (XNum ℝ) O) (hf : 0 < m.fuel) (s : Spot (XNum ℝ)) (g : DMap (XNum ℝ)) (e : Elem (XNum ℝ)) (cursor : Option (Point (XNum ℝ)))
    (mp : DMap (XNum ℝ)) (key : Text) (hk : key.head? ≠ some '$') (q : Pt ℝ) (h : Dyn.get mp key = some (pairVal q)) :
    (m.command (m.attrs s g e cursor mp)).point key = some (finPt (newPoint q.1 q.2)) := by
  show found ((m.attrs s g e cursor mp).point m.fuel m.fuel key) = _
  obtain ⟨f, hf⟩ : ∃ f, m.fuel = f + 1 := ⟨m.fuel - 1, by omega⟩
  rw [hf, C91_point_map (m.attrs s g e cursor mp) (f + 1) f key [("x".toList, .num (.fin q.1)), ("y".toList, .num (.fin q.2))] (.fin q.1) (.fin q.2)
    hk (C46_attr_local _ _ _ _ h (by intro s hs; cases hs)) rfl rfl, newPoint_fin]
  rfl

theorem number_given (m : Machine (XNum ℝ) O) (s : Spot (XNum ℝ)) (g : DMap (XNum ℝ)) (e : Elem (XNum ℝ)) (cursor : Option (Point (XNum ℝ)))
    (mp : DMap (XNum ℝ)) (key : Text) (x : ℝ) (h : Dyn.get mp key = some (.num (.fin x))) :
    (m.command (m.attrs s g e cursor mp)).number key = some (.fin x) := by
  show found ((m.attrs s g e cursor mp).number m.fuel key) = _
  rw [C91_number _ _ _ (.fin x) h]
  rfl

theorem command_pen (m : Machine (XNum ℝ) O) (hf : 0 < m.fuel) (s : Spot (XNum ℝ)) (g : DMap (XNum ℝ)) (e : Elem (XNum ℝ)) (cursor : Option (Point (XNum ℝ)))
    (c : PenCmd) (p : Path ℝ) : (m.command (m.attrs s g e cursor (penMap c))).exec (finPath p) = .ok (finPath (c.run p)) := by
  have h1 : (m.command (m.attrs s g e cursor (penMap c))).name = c.op.text := by
    show (m.world.text (penMap c) commandKey).getD unknownName = _
    have : Dyn.get (penMap c) commandKey = some (.str c.op.text) := by cases c <;> rfl
    simp only [World.text, this]
    cases c <;> rfl
  have pg := point_given m hf s g e cursor (penMap c)
  have ng := number_given m s g e cursor (penMap c)
  unfold Command.exec
  rw [h1, ofText_text]
  cases c <;> simp only [PenCmd.op, PenCmd.run]
  case move q =>
    simp only [pg toKey (by decide +kernel) q rfl, need, fin_moveTo]
  case relMove q =>
    simp only [pg toKey (by decide +kernel) q rfl, need, relMoveTo, fin_toAbs, fin_moveTo]
  case line q =>
    simp only [pg toKey (by decide +kernel) q rfl, need, fin_lineTo]
  case relLine q =>
    simp only [pg toKey (by decide +kernel) q rfl, need, fin_relLineTo]
  case curve c d q =>
    simp only [pg toKey (by decide +kernel) q rfl, pg ctrlStartKey (by decide +kernel) c rfl, pg ctrlEndKey (by decide +kernel) d rfl, need, fin_curveTo]
  case relCurve c d q =>
    simp only [pg toKey (by decide +kernel) q rfl, pg ctrlStartKey (by decide +kernel) c rfl, pg ctrlEndKey (by decide +kernel) d rfl, need, fin_relCurveTo]
  case smooth d q =>
    simp only [pg toKey (by decide +kernel) q rfl, pg ctrlEndKey (by decide +kernel) d rfl, need, smoothCurveTo, fin_smoothControl, fin_curveTo]
  case relSmooth d q =>
    simp only [pg toKey (by decide +kernel) q rfl, pg ctrlEndKey (by decide +kernel) d rfl, need, relSmoothCurveTo, smoothCurveTo, fin_toAbs, fin_smoothControl,
      fin_curveTo]
  case angle l a =>
    simp only [ng lengthKey l rfl, ng angleKey a rfl, need, fin_lineByAngle]
  case rectangle w h =>
    simp only [ng widthKey w rfl, ng heightKey h rfl, need, fin_rect]
  case circle r =>
    simp only [ng radiusKey r rfl, need, fin_circle]

/-- What several commands do to a path. -/
noncomputable def penRun : Path ℝ → List PenCmd → Path ℝ
  | p, [] => p
  | p, c :: cs => penRun (c.run p) cs

theorem execAll_pen (m : Machine (XNum ℝ) O) (hf : 0 < m.fuel) (s : Spot (XNum ℝ)) (g : DMap (XNum ℝ)) (e : Elem (XNum ℝ)) (cursor : Option (Point (XNum ℝ))) :
    ∀ (cs : List PenCmd) (p : Path ℝ),
    execAll ((cs.map penMap).map fun mp => m.command (m.attrs s g e cursor mp)) (finPath p) = .ok (finPath (penRun p cs))
  | [], p => rfl
  | c :: cs, p => by
    simp only [List.map_cons, execAll, command_pen m hf, penRun]
    exact execAll_pen m hf s g e cursor cs (c.run p)

/-- The control point that a smooth curve looks at. -/
def backOf : Option (Segment ℝ) → Option (Pt ℝ)
  | some (.curve _ _ d _) => some (pt d)
  | _ => none

/-- The pen is here. -/
structure PenIs (p : Path ℝ) (s : PenAt) : Prop where
  cur : pt (currentPosition p) = s.cur
  back : backOf p.getLast? = s.back

theorem pt_toAbs (p : Path ℝ) (q : Pt ℝ) : pt (toAbs p (newPoint q.1 q.2)) = pt (currentPosition p) + q := by
  simp [toAbs, pt, Prod.ext_iff]

theorem leave_smooth {p : Path ℝ} {s : PenAt} (h : PenIs p s) : pt (smoothControl p) = s.leave := by
  have h1 := h.cur
  have h2 := h.back
  unfold PenAt.leave
  rw [← h2, ← h1]
  unfold smoothControl
  cases e : p.getLast? with
  | none => simp [backOf, pt]
  | some t =>
    cases t with
    | move a b => simp [backOf, pt]
    | line a b => simp [backOf, pt]
    | curve a c d b =>
      simp only [backOf, pt, newPoint_x, newPoint_y, Arith.add_field, Arith.sub_field, Prod.mk.injEq]
      constructor <;> ring

theorem pen_line (p : Path ℝ) (q : Point ℝ) : strokes (lineTo p q) = strokes p ++ [.line (pt (currentPosition p)) (pt q)] ∧ PenIs (lineTo p q) ⟨pt q, none⟩ := by
  refine ⟨by simp [lineTo, strokes, strokeOf], ?_, ?_⟩
  · simp [lineTo, Segment.stop]
  · simp [lineTo, backOf]

theorem pen_curve (p : Path ℝ) (c d q : Point ℝ) : strokes (curveTo p c d q) = strokes p ++ [.curve (pt (currentPosition p)) (pt c) (pt d) (pt q)] ∧
    PenIs (curveTo p c d q) ⟨pt q, some (pt d)⟩ := by
  refine ⟨by simp [curveTo, strokes, strokeOf], ?_, ?_⟩
  · simp [curveTo, Segment.stop]
  · simp [curveTo, backOf]

theorem pen_move (p : Path ℝ) (q : Point ℝ) : strokes (moveTo p q) = strokes p ∧ PenIs (moveTo p q) ⟨pt q, none⟩ := by
  refine ⟨by simp [moveTo, strokes, strokeOf], ?_, ?_⟩
  · simp [moveTo, Segment.stop]
  · simp [moveTo, backOf]

theorem pen_command (c : PenCmd) {p : Path ℝ} {s : PenAt} (h : PenIs p s) : strokes (c.run p) = strokes p ++ c.draws s ∧ PenIs (c.run p) (c.next s) := by
  have hc := h.cur
  cases c with
  | move q =>
    have := pen_move p (newPoint q.1 q.2)
    simpa [PenCmd.run, PenCmd.draws, PenCmd.next, pt_newPoint] using this
  | relMove q =>
    have := pen_move p (toAbs p (newPoint q.1 q.2))
    simpa [PenCmd.run, PenCmd.draws, PenCmd.next, relMoveTo, pt_toAbs, hc] using this
  | line q =>
    have := pen_line p (newPoint q.1 q.2)
    simpa [PenCmd.run, PenCmd.draws, PenCmd.next, pt_newPoint, hc] using this
  | relLine q =>
    have := pen_line p (toAbs p (newPoint q.1 q.2))
    simpa [PenCmd.run, PenCmd.draws, PenCmd.next, relLineTo, pt_toAbs, hc] using this
  | curve c d q =>
    have := pen_curve p (newPoint c.1 c.2) (newPoint d.1 d.2) (newPoint q.1 q.2)
    simpa [PenCmd.run, PenCmd.draws, PenCmd.next, pt_newPoint, hc] using this
  | relCurve c d q =>
    have := pen_curve p (toAbs p (newPoint c.1 c.2)) (toAbs p (newPoint d.1 d.2)) (toAbs p (newPoint q.1 q.2))
    simpa [PenCmd.run, PenCmd.draws, PenCmd.next, relCurveTo, pt_toAbs, hc] using this
  | smooth d q =>
    have := pen_curve p (smoothControl p) (newPoint d.1 d.2) (newPoint q.1 q.2)
    simpa [PenCmd.run, PenCmd.draws, PenCmd.next, smoothCurveTo, pt_newPoint, hc, leave_smooth h] using this
  | relSmooth d q =>
    have := pen_curve p (smoothControl p) (toAbs p (newPoint d.1 d.2)) (toAbs p (newPoint q.1 q.2))
    simpa [PenCmd.run, PenCmd.draws, PenCmd.next, relSmoothCurveTo, smoothCurveTo, pt_toAbs, hc, leave_smooth h] using this
  | angle l a =>
    have := pen_line p (lineAngleEnd (currentPosition p) l a)
    have e : pt (lineAngleEnd (currentPosition p) l a) = angleEnd s.cur l a := by
      rw [← hc]
      simp only [lineAngleEnd, angleEnd, pt, newPoint_x, newPoint_y, degreesToRadians, Trig.sin_real, Trig.cos_real, Trig.pi_real, Arith.add_field, Arith.mul_field,
        Arith.div_field, Arith.lit_field]
      simp only [Prod.mk.injEq]
      rw [show Real.pi / (((180 : ℤ) : ℝ) / 10 ^ 0) * a = a * Real.pi / 180 by push_cast; ring]
      exact ⟨add_comm _ _, add_comm _ _⟩
    rw [e, hc] at this
    exact this
  | rectangle w h' =>
    obtain ⟨h1, h2⟩ := C15_rect p w h'
    have hx : (currentPosition p).x = s.cur.1 := by rw [← hc]; rfl
    have hy : (currentPosition p).y = s.cur.2 := by rw [← hc]; rfl
    refine ⟨?_, ?_, ?_⟩
    · show strokes (rect p w h') = _
      rw [h1, hx, hy]
      simp [PenCmd.draws, Prod.ext_iff]
    · show pt (currentPosition (rect p w h')) = _
      rw [h2, hx, hy]
      rfl
    · simp [PenCmd.run, PenCmd.next, rect, relLineTo, lineTo, backOf]
  | circle r =>
    have hx : (currentPosition p).x = s.cur.1 := by rw [← hc]; rfl
    have hy : (currentPosition p).y = s.cur.2 := by rw [← hc]; rfl
    have hk : (circleCtrl : ℝ) = quarterControl := by rw [circleCtrl_real]; rfl
    refine ⟨?_, ?_, ?_⟩
    · show strokes (Path.circle p r) = _
      rw [strokes_circle, hx, hy, hk]
      simp only [PenCmd.draws, List.append_cancel_left_eq, List.cons.injEq, and_true, Stroke.curve.injEq, Prod.ext_iff, Prod.fst_add, Prod.snd_add]
      and_intros <;> first | trivial | ring
    · show pt (currentPosition (Path.circle p r)) = _
      simp only [PenCmd.next, Path.circle, currentPosition_relMoveTo, currentPosition_relCurveTo, pt, toAbs_x, toAbs_y, newPoint_x, newPoint_y, hx, hy, Prod.ext_iff,
        Prod.fst_add, Prod.snd_add, Arith.neg_field, Arith.add_field, Arith.zero, Arith.lit_zero_field, Int.cast_zero]
      constructor <;> ring
    · have key : ∀ (P : Path ℝ) (c d q : Point ℝ), backOf (relCurveTo P c d q).getLast? = some (pt (toAbs P d)) := by
        intro P c d q
        simp [relCurveTo, curveTo, backOf]
      simp only [PenCmd.run, PenCmd.next, Path.circle, key, Option.some.injEq]
      simp only [pt, toAbs_x, toAbs_y, newPoint_x, newPoint_y, hx, hy, hk, Prod.ext_iff, Prod.fst_add, Prod.snd_add, Arith.neg_field, Arith.add_field, Arith.sub_field,
        Arith.mul_field, Arith.zero, Arith.lit_zero_field, Int.cast_zero, currentPosition_relMoveTo, currentPosition_relCurveTo]
      constructor <;> ring

theorem pen_commands : ∀ (cs : List PenCmd) {p : Path ℝ} {s : PenAt}, PenIs p s → strokes (penRun p cs) = strokes p ++ penDraws s cs ∧ PenIs (penRun p cs) (penEnd s cs)
  | [], p, s, h => ⟨by simp [penRun, penDraws], h⟩
  | c :: cs, p, s, h => by
    obtain ⟨h1, h2⟩ := pen_command c h
    obtain ⟨h3, h4⟩ := pen_commands cs h2
    refine ⟨?_, h4⟩
    simp only [penRun, penDraws]
    rw [h3, h1, List.append_assoc]

theorem run_ne_nil (c : PenCmd) (p : Path ℝ) : c.run p ≠ [] := by
  cases c <;> simp [PenCmd.run, moveTo, relMoveTo, lineTo, relLineTo, curveTo, relCurveTo, smoothCurveTo, relSmoothCurveTo, lineByAngle, rect, Path.circle]

theorem penRun_ne_nil : ∀ (cs : List PenCmd) (p : Path ℝ), p ≠ [] → penRun p cs ≠ []
  | [], _, h => h
  | c :: cs, p, _ => penRun_ne_nil cs _ (run_ne_nil c p)

end Verif.Render
