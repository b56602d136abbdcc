import Verif.Props.DrawComponent
import Verif.Props.Path
import Verif.Lemmas.PathText
import Mathlib.Analysis.SpecialFunctions.Trigonometric.Arctan

/-!
# C105, C106: what each command draws; rounded corners
-/

set_option linter.unusedSectionVars false

namespace Verif.Path

open Verif Verif.Spec XNum

universe u

variable {F : Type u} [Trig F]

/-! ## C105 Every command draws its shape -/

theorem exec_named (c : Command F) (op : DrawOp) (hn : c.name = op.text) : DrawOp.ofText c.name = some op := by
  rw [hn, ofText_text]

/-- **C105.** `move` draws nothing and goes to the point. -/
theorem C105_move (c : Command F) (p : Path F) (t : Point F) (hn : c.name = "move".toList) (ht : c.point "to".toList = some t) :
    ∃ q, c.exec p = .ok q ∧ strokes q = strokes p ∧ currentPosition q = t := by
  refine ⟨moveTo p t, ?_, ?_, ?_⟩
  · rw [Command.exec, exec_named c .move hn]
    simp only [need, show c.point toKey = some t from ht]
  · simp [moveTo, strokes, strokeOf]
  · simp [moveTo, Segment.stop]

/-- **C105.** `line` draws the line to the point. -/
theorem C105_line (c : Command F) (p : Path F) (t : Point F) (hn : c.name = "line".toList) (ht : c.point "to".toList = some t) :
    ∃ q, c.exec p = .ok q ∧ strokes q = strokes p ++ [.line (pt (currentPosition p)) (pt t)] ∧ currentPosition q = t := by
  refine ⟨lineTo p t, ?_, ?_, ?_⟩
  · rw [Command.exec, exec_named c .line hn]
    simp only [need, show c.point toKey = some t from ht]
  · simp [lineTo, strokes, strokeOf]
  · simp [lineTo, Segment.stop]

/-- **C105.** `curve` draws the curve with the two control points to the point. -/
theorem C105_curve (c : Command F) (p : Path F) (a b t : Point F) (hn : c.name = "curve".toList) (ht : c.point "to".toList = some t)
    (ha : c.point "ctrl_start".toList = some a) (hb : c.point "ctrl_end".toList = some b) :
    ∃ q, c.exec p = .ok q ∧ strokes q = strokes p ++ [.curve (pt (currentPosition p)) (pt a) (pt b) (pt t)] ∧ currentPosition q = t := by
  refine ⟨curveTo p a b t, ?_, ?_, ?_⟩
  · rw [Command.exec, exec_named c .curve hn]
    simp only [need, show c.point toKey = some t from ht, show c.point ctrlStartKey = some a from ha, show c.point ctrlEndKey = some b from hb]
  · simp [curveTo, strokes, strokeOf]
  · simp [curveTo, Segment.stop]

/-- **C105.** `smooth_curve` leaves opposite to where the last curve came from. -/
theorem C105_smooth (c : Command ℝ) (p : Path ℝ) (b t : Point ℝ) (hn : c.name = "smooth_curve".toList) (ht : c.point "to".toList = some t)
    (hb : c.point "ctrl_end".toList = some b) :
    ∃ q, c.exec p = .ok q ∧ currentPosition q = t ∧
      strokes q = strokes p ++ [.curve (pt (currentPosition p)) (smoothStart (pt (currentPosition p)) p.getLast?) (pt b) (pt t)] := by
  refine ⟨curveTo p (smoothControl p) b t, ?_, ?_, ?_⟩
  · rw [Command.exec, exec_named c .smoothCurve hn]
    simp only [need, show c.point toKey = some t from ht, show c.point ctrlEndKey = some b from hb]
    rfl
  · simp
  · rw [strokes_curveTo]
    congr 3
    unfold smoothControl smoothStart
    split
    · rename_i h
      simp only [h, pt, newPoint_x, newPoint_y, Arith.add_field, Arith.sub_field]
      congr 1 <;> ring
    · rename_i h
      split
      · rename_i h'
        exact absurd h' (h _ _ _ _)
      · simp [pt]

/-- **C105.** `line_by_angle` draws a line of the length in the direction. -/
theorem C105_angle (c : Command ℝ) (p : Path ℝ) (l a : ℝ) (hn : c.name = "line_by_angle".toList) (hl : c.number "length".toList = some l)
    (ha : c.number "angle".toList = some a) :
    ∃ q, c.exec p = .ok q ∧ strokes q = strokes p ++ [.line (pt (currentPosition p))
      ((currentPosition p).x + l * Real.cos (a * Real.pi / 180), (currentPosition p).y + l * Real.sin (a * Real.pi / 180))] := by
  refine ⟨lineByAngle p l a, ?_, ?_⟩
  · rw [Command.exec, exec_named c .lineByAngle hn]
    simp only [need, show c.number lengthKey = some l from hl, show c.number angleKey = some a from ha]
  · simp only [lineByAngle, strokes, List.filterMap_append, List.filterMap_cons, strokeOf, List.filterMap_nil, lineAngleEnd, pt, newPoint_x,
      newPoint_y, degreesToRadians]
    simp only [Trig.sin_real, Trig.cos_real, Trig.pi_real, Arith.add_field, Arith.mul_field, Arith.div_field, Arith.lit_field]
    simp
    rw [show Real.pi / 180 * a = a * Real.pi / 180 by ring]
    exact ⟨add_comm _ _, add_comm _ _⟩

/-- **C105.** `rectangle` draws the outline of its four corners and comes back. -/
theorem C105_rectangle (c : Command ℝ) (p : Path ℝ) (w h : ℝ) (hn : c.name = "rectangle".toList) (hw : c.number "width".toList = some w)
    (hh : c.number "height".toList = some h) :
    let x := (currentPosition p).x
    let y := (currentPosition p).y
    ∃ q, c.exec p = .ok q ∧ pt (currentPosition q) = (x, y) ∧ strokes q = strokes p ++
        [.line (x, y) (x + w, y), .line (x + w, y) (x + w, y + h), .line (x + w, y + h) (x, y + h), .line (x, y + h) (x, y)] := by
  intro x y
  obtain ⟨h1, h2⟩ := C15_rect p w h
  refine ⟨rect p w h, ?_, h2, h1⟩
  rw [Command.exec, exec_named c .rectangle hn]
  simp only [need, show c.number widthKey = some w from hw, show c.number heightKey = some h from hh]

/-- **C105.** `circle` draws four curves, within 0.03% of the circle whose square around it begins at the current position. -/
theorem C105_circle (c : Command ℝ) (p : Path ℝ) (r : ℝ) (hn : c.name = "circle".toList) (hr : c.number "radius".toList = some r) :
    ∃ q new, c.exec p = .ok q ∧ strokes q = strokes p ++ new ∧ new.length = 4 ∧
      ∀ s ∈ new, ∀ t, 0 ≤ t → t ≤ 1 →
        |r| ≤ dist2 (s.at t) ((currentPosition p).x + r, (currentPosition p).y + r) ∧
        dist2 (s.at t) ((currentPosition p).x + r, (currentPosition p).y + r) ≤ 1.0003 * |r| := by
  refine ⟨circle p r, _, ?_, strokes_circle p r, rfl, ?_⟩
  · rw [Command.exec, exec_named c .circle hn]
    simp only [need, show c.number radiusKey = some r from hr]
  · intro s hs t h0 h1
    refine C15_circle_round r (currentPosition p).x (currentPosition p).y 0 _ ⟨s, ?_, t, h0, h1, rfl⟩
    rw [strokes_circle]
    exact List.mem_append_right _ hs

/-- **C105.** A relative command does what the absolute one does with all points moved by the current position. -/
theorem C105_relative (e : String × String) (he : e ∈ relativeCommands) (c c' : Command F) (p : Path F) (hn : c.name = e.1.toList)
    (hn' : c'.name = e.2.toList) (hp : ∀ k, c'.point k = (c.point k).map fun d =>
      newPoint ((currentPosition p).x +. d.x) ((currentPosition p).y +. d.y))
    (hnum : c'.number = c.number) (ht : c'.text = c.text) (hf : c'.flag = c.flag) : c.exec p = c'.exec p := by
  have hp' : ∀ k, c'.point k = (c.point k).map (toAbs p) := hp
  have need_map : ∀ {α β : Type u} {γ : Type u} (o : Option α) (g : α → β) (f : β → Res γ), need (o.map g) f = need o fun a => f (g a) := by
    intro α β γ o g f
    cases o <;> rfl
  simp only [relativeCommands, List.mem_cons, List.not_mem_nil, or_false] at he
  rw [Command.exec, Command.exec]
  rcases he with rfl | rfl | rfl | rfl | rfl | rfl | rfl
  · rw [exec_named c .relMove hn, exec_named c' .move hn']
    simp only [hp', need_map]
    rfl
  · rw [exec_named c .relLine hn, exec_named c' .line hn']
    simp only [hp', need_map]
    rfl
  · rw [exec_named c .relCurve hn, exec_named c' .curve hn']
    simp only [hp', need_map]
    rfl
  · rw [exec_named c .relSmoothCurve hn, exec_named c' .smoothCurve hn']
    simp only [hp', need_map]
    rfl
  · rw [exec_named c .relRoundCorner hn, exec_named c' .roundCorner hn']
    simp only [hp', need_map, hnum]
    rfl
  · rw [exec_named c .relSvgScaleTo hn, exec_named c' .svgScaleTo hn']
    simp only [hp', need_map, ht, hf]
  · rw [exec_named c .relSvgConnectTo hn, exec_named c' .svgConnectTo hn']
    simp only [hp', need_map, ht, hf]

/-! ## C106 Rounded corners -/

theorem precisionEquals_close {a b : ℝ} (h : precisionEquals a b 3 = true) : |a - b| ≤ 1 / 1000 := by
  unfold precisionEquals at h
  rw [if_neg (by decide)] at h
  have h' : Num.fmt 3 a = Num.fmt 3 b := by simpa using h
  have ha := toFloat_fmt 3 a
  have hb := toFloat_fmt 3 b
  rw [h', hb, Option.some.injEq] at ha
  have h1 := Decimal.rounded_close 3 a
  have h2 := Decimal.rounded_close 3 b
  rw [ha] at h2
  rw [abs_le] at *
  constructor <;> norm_num at * <;> linarith

theorem precisionEquals_self (a : ℝ) : precisionEquals a a 3 = true := by
  unfold precisionEquals
  rw [if_neg (by decide)]
  simp

theorem precisionEquals_far {a b : ℝ} (h : 1 / 1000 < |a - b|) : precisionEquals a b 3 = false := by
  by_contra hc
  exact absurd (precisionEquals_close (by simpa using hc)) (not_le.mpr h)

theorem distance_real (a b : Point ℝ) : distance a b = wayLength (pt b) (pt a) := by
  simp [distance, wayLength, pt, sq]

theorem pointAtDistance_good (a b : Point ℝ) (d : ℝ) (h : GoodWay (pt a) (pt b)) : pt (pointAtDistance a b d) = onWay (pt a) (pt b) d := by
  obtain ⟨ax, ay, ta⟩ := a
  obtain ⟨bx, ey, tb⟩ := b
  unfold pointAtDistance
  simp only [GoodWay, pt] at h
  rcases h with ⟨h1, h2⟩ | ⟨h1, h2⟩ | ⟨h1, h2⟩
  · subst h1
    rw [if_pos (precisionEquals_self _)]
    simp only [onWay, wayLength, pt, newPoint_x, newPoint_y, Arith.add_field, Arith.mul_field, Arith.lt_field, sub_self]
    rw [show (0 : ℝ) ^ 2 + (ey - ay) ^ 2 = (ey - ay) ^ 2 by ring, Real.sqrt_sq_eq_abs]
    simp only [decide_eq_true_eq, zero_div, mul_zero, add_zero, Prod.mk.injEq, true_and]
    split
    · rename_i hl
      rw [abs_of_neg (by linarith)]
      have : ey - ay ≠ 0 := by intro hc; exact h2 (by linarith)
      simp
      field_simp
      ring
    · rename_i hl
      have hlt : ay < ey := lt_of_le_of_ne (not_lt.mp hl) h2
      rw [abs_of_pos (by linarith), div_self (by linarith)]
      simp
  · subst h1
    rw [if_neg (by rw [precisionEquals_far h2]; simp), if_pos (precisionEquals_self _)]
    simp only [onWay, wayLength, pt, newPoint_x, newPoint_y, Arith.add_field, Arith.mul_field, Arith.lt_field, sub_self]
    have hne : ax ≠ bx := by rintro rfl; norm_num at h2
    rw [show (bx - ax) ^ 2 + (0 : ℝ) ^ 2 = (bx - ax) ^ 2 by ring, Real.sqrt_sq_eq_abs]
    simp only [decide_eq_true_eq, zero_div, mul_zero, add_zero, Prod.mk.injEq, and_true]
    split
    · rename_i hl
      rw [abs_of_neg (by linarith)]
      have : bx - ax ≠ 0 := by intro hc; exact hne (by linarith)
      simp
      field_simp
      ring
    · rename_i hl
      have hlt : ax < bx := lt_of_le_of_ne (not_lt.mp hl) hne
      rw [abs_of_pos (by linarith), div_self (by linarith)]
      simp
  · have hx : 1 / 1000 < |ax - bx| := by
      rw [abs_sub_comm]
      exact h1.trans_le (le_abs_self _)
    rw [if_neg (by rw [precisionEquals_far hx]; simp), if_neg (by rw [precisionEquals_far h2]; simp)]
    have hpos : 0 < bx - ax := by linarith [show (0:ℝ) < 1/1000 by norm_num]
    have hs : slope (⟨ax, ay, ta⟩ : Point ℝ) ⟨bx, ey, tb⟩ = (ey - ay) / (bx - ax) := by simp [slope]
    simp only [onWay, wayLength, pt, newPoint_x, newPoint_y, Arith.add_field, Arith.mul_field, hs]
    have hc : (Trig.cos (Trig.atan ((ey - ay) / (bx - ax) : ℝ)) : ℝ) = (bx - ax) / Real.sqrt ((bx - ax) ^ 2 + (ey - ay) ^ 2) := by
      show Real.cos (Real.arctan ((ey - ay) / (bx - ax))) = _
      rw [Real.cos_arctan]
      have : 1 + ((ey - ay) / (bx - ax)) ^ 2 = ((bx - ax) ^ 2 + (ey - ay) ^ 2) / (bx - ax) ^ 2 := by field_simp
      rw [this, Real.sqrt_div' _ (by positivity), Real.sqrt_sq hpos.le, one_div_div]
    have hsn : (Trig.sin (Trig.atan ((ey - ay) / (bx - ax) : ℝ)) : ℝ) = (ey - ay) / Real.sqrt ((bx - ax) ^ 2 + (ey - ay) ^ 2) := by
      show Real.sin (Real.arctan ((ey - ay) / (bx - ax))) = _
      rw [Real.sin_arctan]
      have : 1 + ((ey - ay) / (bx - ax)) ^ 2 = ((bx - ax) ^ 2 + (ey - ay) ^ 2) / (bx - ax) ^ 2 := by field_simp
      rw [this, Real.sqrt_div' _ (by positivity), Real.sqrt_sq hpos.le]
      field_simp
    rw [hc, hsn]
    simp only [Prod.mk.injEq]
    constructor <;> ring

theorem goodWay_ne {a b : Pt ℝ} (h : GoodWay a b) : 0 < wayLength a b := by
  refine Real.sqrt_pos.mpr ?_
  rcases h with ⟨h1, h2⟩ | ⟨h1, h2⟩ | ⟨h1, h2⟩
  · have : b.2 - a.2 ≠ 0 := fun hc => h2 (by linarith)
    positivity
  · have : b.1 - a.1 ≠ 0 := by
      intro hc
      rw [show a.1 - b.1 = 0 by linarith] at h2
      norm_num at h2
    positivity
  · have : b.1 - a.1 ≠ 0 := by
      intro hc
      rw [hc] at h1
      norm_num at h1
    positivity

theorem wayLength_comm (a b : Pt ℝ) : wayLength a b = wayLength b a := by
  unfold wayLength
  congr 1
  ring

theorem wayLength_sq {a b : Pt ℝ} (h : 0 < wayLength a b) : ((b.1 - a.1) / wayLength a b) ^ 2 + ((b.2 - a.2) / wayLength a b) ^ 2 = 1 := by
  have hs : wayLength a b ^ 2 = (b.1 - a.1) ^ 2 + (b.2 - a.2) ^ 2 := Real.sq_sqrt (by positivity)
  rw [div_pow, div_pow, ← add_div, ← hs, div_self (by positivity)]

theorem onWay_back {a b : Pt ℝ} (h : 0 < wayLength a b) (d : ℝ) : onWay a b (wayLength a b - d) = onWay b a d := by
  have hc := wayLength_comm b a
  unfold onWay
  rw [hc]
  have hne := h.ne'
  ext
  · simp only []
    field_simp
    ring
  · simp only []
    field_simp
    ring

theorem wayLength_onWay {a b : Pt ℝ} (h : 0 < wayLength a b) {d : ℝ} (hd : 0 ≤ d) : wayLength (onWay a b d) a = d := by
  have hs := wayLength_sq h
  rw [wayLength]
  have : (a.1 - (onWay a b d).1) ^ 2 + (a.2 - (onWay a b d).2) ^ 2 = d ^ 2 := by
    simp only [onWay]
    linear_combination d ^ 2 * hs
  rw [this, Real.sqrt_sq hd]

theorem onWay_onWay {a b : Pt ℝ} (h : 0 < wayLength a b) {d : ℝ} (hd : 0 < d) (e : ℝ) : onWay (onWay a b d) a e = onWay a b (d - e) := by
  have hw := wayLength_onWay h hd.le
  have hd' := hd.ne'
  have h' := h.ne'
  ext
  · simp only [onWay] at hw ⊢
    rw [hw]
    field_simp
    ring
  · simp only [onWay] at hw ⊢
    rw [hw]
    field_simp
    ring

theorem quarterControl_eq : (circleCtrl : ℝ) = quarterControl := circleCtrl_real

/-- **C106.** A corner is rounded as it should be when `PointAtDistance` goes the right way along both legs, to and fro. -/
theorem C106_corner (p : Path ℝ) (k t : Point ℝ) (r : ℝ) (hr : 0 < r) (h1 : GoodWay (pt (currentPosition p)) (pt k))
    (h2 : GoodWay (onWay (pt k) (pt (currentPosition p)) r) (pt k)) (h3 : GoodWay (pt k) (pt t)) (h4 : GoodWay (onWay (pt k) (pt t) r) (pt k)) :
    strokes (roundedCornerTo p t k r) = strokes p ++ roundedCorner (pt (currentPosition p)) (pt k) (pt t) r := by
  have p1 := goodWay_ne h1
  have p1' : 0 < wayLength (pt k) (pt (currentPosition p)) := by rw [wayLength_comm]; exact p1
  have p3 := goodWay_ne h3
  unfold roundedCornerTo roundedCorner
  simp only [strokes_lineTo, strokes_curveTo, currentPosition_lineTo, currentPosition_curveTo]
  have e1 : pt (pointAtDistance (currentPosition p) k (distance (currentPosition p) k -. r)) = onWay (pt k) (pt (currentPosition p)) r := by
    rw [pointAtDistance_good _ _ _ h1, distance_real, Arith.sub_field, wayLength_comm (pt k), onWay_back p1]
  have e2 : pt (pointAtDistance k t r) = onWay (pt k) (pt t) r := pointAtDistance_good _ _ _ h3
  have e3 : ∀ q : Point ℝ, pt q = onWay (pt k) (pt (currentPosition p)) r →
      pt (pointAtDistance q k (distance q k *. circleCtrl)) = onWay (pt k) (pt (currentPosition p)) (r - quarterControl * r) := by
    intro q hq
    rw [pointAtDistance_good _ _ _ (by rw [hq]; exact h2), distance_real, hq, Arith.mul_field, wayLength_comm, wayLength_onWay p1' hr.le,
      onWay_onWay p1' hr, quarterControl_eq, mul_comm]
  have e4 : ∀ q : Point ℝ, pt q = onWay (pt k) (pt t) r →
      pt (pointAtDistance q k (distance q k *. circleCtrl)) = onWay (pt k) (pt t) (r - quarterControl * r) := by
    intro q hq
    rw [pointAtDistance_good _ _ _ (by rw [hq]; exact h4), distance_real, hq, Arith.mul_field, wayLength_comm, wayLength_onWay p3 hr.le,
      onWay_onWay p3 hr, quarterControl_eq, mul_comm]
  rw [e3 _ e1, e4 _ e2, e1, e2]
  simp

/-- **C106.** Corners between legs along the axes: every one, if the legs and the radius are longer than 0.001. -/
theorem C106_straight (c : Command ℝ) (p : Path ℝ) (k t : Point ℝ) (r : ℝ) (hn : c.name = "round_corner".toList)
    (hc1 : c.number "radius".toList = some r) (hc2 : c.point "to".toList = some t) (hc3 : c.point "corner".toList = some k)
    (hr : 1 / 1000 < r) (h1 : AlongAxis (pt (currentPosition p)) (pt k)) (h2 : AlongAxis (pt k) (pt t)) :
    ∃ q, c.exec p = .ok q ∧ pt (currentPosition q) = pt t ∧
      strokes q = strokes p ++ roundedCorner (pt (currentPosition p)) (pt k) (pt t) r := by
  have hr0 : 0 < r := lt_trans (by norm_num) hr
  have good : ∀ {a b : Pt ℝ}, AlongAxis a b → GoodWay a b := by
    rintro a b (⟨h, h'⟩ | ⟨h, h'⟩)
    · refine .inl ⟨h, fun hc => ?_⟩
      rw [hc, sub_self, abs_zero] at h'
      norm_num at h'
    · exact .inr (.inl ⟨h, h'⟩)
  have swap : ∀ {a b : Pt ℝ}, AlongAxis a b → AlongAxis b a := by
    rintro a b (⟨h, h'⟩ | ⟨h, h'⟩)
    · exact .inl ⟨h.symm, by rw [abs_sub_comm]; exact h'⟩
    · exact .inr ⟨h.symm, by rw [abs_sub_comm]; exact h'⟩
  have back : ∀ {a b : Pt ℝ}, AlongAxis a b → AlongAxis (onWay a b r) a := by
    intro a b h
    have hp := goodWay_ne (good h)
    have hs := wayLength_sq hp
    rcases h with ⟨h, h'⟩ | ⟨h, h'⟩
    · rw [h, sub_self, zero_div, zero_pow two_ne_zero, zero_add] at hs
      have hu : |(b.2 - a.2) / wayLength a b| = 1 := by
        rw [← sq_abs] at hs
        exact (pow_eq_one_iff_of_nonneg (abs_nonneg _) two_ne_zero).mp hs
      refine .inl ⟨by simp [onWay, h], ?_⟩
      simp only [onWay]
      rw [add_sub_cancel_left, abs_mul, hu, abs_of_pos hr0, mul_one]
      exact hr
    · rw [h, sub_self, zero_div, zero_pow two_ne_zero, add_zero] at hs
      have hu : |(b.1 - a.1) / wayLength a b| = 1 := by
        rw [← sq_abs] at hs
        exact (pow_eq_one_iff_of_nonneg (abs_nonneg _) two_ne_zero).mp hs
      refine .inr ⟨by simp [onWay, h], ?_⟩
      simp only [onWay]
      rw [add_sub_cancel_left, abs_mul, hu, abs_of_pos hr0, mul_one]
      exact hr
  refine ⟨roundedCornerTo p t k r, ?_, ?_, C106_corner p k t r hr0 (good h1) (good (back (swap h1))) (good h2) (good (back h2))⟩
  · rw [Command.exec, exec_named c .roundCorner hn]
    simp only [need, show c.number radiusKey = some r from hc1, show c.point toKey = some t from hc2, show c.point cornerKey = some k from hc3]
  · simp [roundedCornerTo]

/-- **C106.** The curve of a rounded right angle is within 0.03% of the circle of the radius that touches both legs. -/
theorem C106_round (s k t : Pt ℝ) (r : ℝ) (hs : 0 < wayLength k s) (ht : 0 < wayLength k t)
    (h : (s.1 - k.1) * (t.1 - k.1) + (s.2 - k.2) * (t.2 - k.2) = 0) (a c d b : Pt ℝ) (hm : .curve a c d b ∈ roundedCorner s k t r) (τ : ℝ)
    (h0 : 0 ≤ τ) (h1 : τ ≤ 1) :
    let m : Pt ℝ := ((onWay k s r).1 + (onWay k t r).1 - k.1, (onWay k s r).2 + (onWay k t r).2 - k.2)
    |r| ≤ dist2 ((Stroke.curve a c d b).at τ) m ∧ dist2 ((Stroke.curve a c d b).at τ) m ≤ 1.0003 * |r| := by
  intro m
  simp only [roundedCorner, List.mem_cons, List.not_mem_nil, or_false, reduceCtorEq, false_or, Stroke.curve.injEq] at hm
  obtain ⟨rfl, rfl, rfl, rfl⟩ := hm
  have us := wayLength_sq hs
  have vs := wayLength_sq ht
  have uv : (s.1 - k.1) / wayLength k s * ((t.1 - k.1) / wayLength k t) + (s.2 - k.2) / wayLength k s * ((t.2 - k.2) / wayLength k t) = 0 := by
    rw [div_mul_div_comm, div_mul_div_comm, ← add_div, h, zero_div]
  have e := quarter_error circleCtrl_eq r τ
  have key : r ^ 2 ≤ (((Stroke.curve (onWay k s r) (onWay k s (r - quarterControl * r)) (onWay k t (r - quarterControl * r)) (onWay k t r)).at τ).1 - m.1) ^ 2 +
      (((Stroke.curve (onWay k s r) (onWay k s (r - quarterControl * r)) (onWay k t (r - quarterControl * r)) (onWay k t r)).at τ).2 - m.2) ^ 2 ∧
      (((Stroke.curve (onWay k s r) (onWay k s (r - quarterControl * r)) (onWay k t (r - quarterControl * r)) (onWay k t r)).at τ).1 - m.1) ^ 2 +
      (((Stroke.curve (onWay k s r) (onWay k s (r - quarterControl * r)) (onWay k t (r - quarterControl * r)) (onWay k t r)).at τ).2 - m.2) ^ 2 ≤ (1.0003 * r) ^ 2 := by
    apply quarter_close h0 h1
    rw [← e, quarterControl_eq]
    simp only [Stroke.at, onWay, m]
    generalize (s.1 - k.1) / wayLength k s = u1 at *
    generalize (s.2 - k.2) / wayLength k s = u2 at *
    generalize (t.1 - k.1) / wayLength k t = v1 at *
    generalize (t.2 - k.2) / wayLength k t = v2 at *
    generalize quarterControl = q at *
    have key2 : ∀ A B : ℝ, (A * u1 + B * v1) ^ 2 + (A * u2 + B * v2) ^ 2 = A ^ 2 + B ^ 2 := by
      intro A B
      linear_combination A ^ 2 * us + B ^ 2 * vs + 2 * A * B * uv
    have := key2 (-((1 - τ) ^ 3 * 0 + 3 * (1 - τ) ^ 2 * τ * (q * r) + 3 * (1 - τ) * τ ^ 2 * r + τ ^ 3 * r))
      (-((1 - τ) ^ 3 * r + 3 * (1 - τ) ^ 2 * τ * r + 3 * (1 - τ) * τ ^ 2 * (q * r) + τ ^ 3 * 0))
    rw [neg_sq, neg_sq] at this
    rw [← this]
    ring
  constructor
  · rw [dist2, Real.le_sqrt (abs_nonneg r) (by positivity), sq_abs]; exact key.1
  · rw [dist2]
    apply Real.sqrt_le_iff.2
    refine ⟨by positivity, ?_⟩
    rw [mul_pow, sq_abs, ← mul_pow]; exact key.2

/-- Slanting to the left, `PointAtDistance` goes the other way. -/
theorem pointAtDistance_left (a b : Point ℝ) (d : ℝ) (h1 : 1 / 1000 < (pt a).1 - (pt b).1) (h2 : 1 / 1000 < |(pt a).2 - (pt b).2|) :
    pt (pointAtDistance a b d) = onWay (pt a) (pt b) (-d) := by
  let b' : Point ℝ := ⟨2 * a.x - b.x, 2 * a.y - b.y, b.t⟩
  simp only [pt] at h1 h2
  have hx : 1 / 1000 < |a.x - b.x| := h1.trans_le (le_abs_self _)
  have hx' : 1 / 1000 < |a.x - b'.x| := by
    rw [show a.x - b'.x = -(a.x - b.x) by simp only [b']; ring, abs_neg]; exact hx
  have hy' : 1 / 1000 < |a.y - b'.y| := by
    rw [show a.y - b'.y = -(a.y - b.y) by simp only [b']; ring, abs_neg]; exact h2
  have hsl : slope a b = slope a b' := by
    simp only [slope, Arith.div_field, Arith.sub_field, b']
    rw [show 2 * a.y - b.y - a.y = -(b.y - a.y) by ring, show 2 * a.x - b.x - a.x = -(b.x - a.x) by ring, neg_div_neg_eq]
  have he : pointAtDistance a b d = pointAtDistance a b' d := by
    unfold pointAtDistance
    rw [if_neg (by rw [precisionEquals_far hx]; simp), if_neg (by rw [precisionEquals_far h2]; simp),
      if_neg (by rw [precisionEquals_far hx']; simp), if_neg (by rw [precisionEquals_far hy']; simp), hsl]
  rw [he, pointAtDistance_good a b' d (.inr (.inr ⟨by simp only [pt, b']; linarith, hy'⟩))]
  have hw : wayLength (pt a) (pt b') = wayLength (pt a) (pt b) := by
    simp only [wayLength, pt, b']
    congr 1
    ring
  simp only [onWay, hw]
  simp only [pt, b']
  congr 1 <;> ring

theorem slanted_pos {a b : Pt ℝ} (h : Slanted a b) : 0 < wayLength a b := by
  refine Real.sqrt_pos.mpr ?_
  have : b.1 - a.1 ≠ 0 := by
    intro hc
    have h1 := h.1
    rw [show a.1 - b.1 = 0 by linarith] at h1
    norm_num at h1
  positivity

theorem onWay_ne {a b : Pt ℝ} (h : Slanted a b) {d e : ℝ} (hde : d ≠ e) : onWay a b d ≠ onWay a b e := by
  intro hc
  have hp := slanted_pos h
  have h1 := congrArg Prod.fst hc
  simp only [onWay, add_right_inj] at h1
  have : b.1 - a.1 ≠ 0 := by
    intro hc
    have h1 := h.1
    rw [show a.1 - b.1 = 0 by linarith] at h1
    norm_num at h1
  have hne : (b.1 - a.1) / wayLength a b ≠ 0 := div_ne_zero this hp.ne'
  exact hde (mul_right_cancel₀ hne h1)

theorem quarterControl_pos : 0 < quarterControl := by
  have h : (1 : ℝ) < Real.sqrt 2 := by
    rw [Real.lt_sqrt] <;> norm_num
  unfold quarterControl
  linarith

/-- **C106, negated.** A corner whose second leg slants is never rounded as it should be. -/
theorem C106_oblique_false (p : Path ℝ) (k t : Point ℝ) (r : ℝ) (hr : 0 < r) (h1 : Slanted (pt k) (pt t))
    (h2 : Slanted (onWay (pt k) (pt t) r) (pt k)) :
    strokes (roundedCornerTo p t k r) ≠ strokes p ++ roundedCorner (pt (currentPosition p)) (pt k) (pt t) r := by
  have hp := slanted_pos h1
  have hq := quarterControl_pos
  unfold roundedCornerTo roundedCorner
  simp only [strokes_lineTo, strokes_curveTo, currentPosition_lineTo, currentPosition_curveTo]
  intro hc
  simp only [List.append_assoc, List.append_cancel_left_eq, List.cons_append, List.nil_append, List.cons.injEq, Stroke.curve.injEq] at hc
  obtain ⟨-, ⟨-, -, hc2, he⟩, -⟩ := hc
  rcases lt_abs.mp h1.1 with hl | hl
  · rw [pointAtDistance_left k t r hl h1.2] at he
    exact onWay_ne h1 (by linarith) he
  · have hg : GoodWay (pt k) (pt t) := .inr (.inr ⟨by linarith, h1.2⟩)
    have he' := pointAtDistance_good k t r hg
    have hx : 1 / 1000 < (onWay (pt k) (pt t) r).1 - (pt k).1 := by
      have h3 := h2.1
      have : 0 < (onWay (pt k) (pt t) r).1 - (pt k).1 := by
        simp only [onWay, add_sub_cancel_left]
        have : 0 < (pt t).1 - (pt k).1 := by linarith [show (0:ℝ) < 1/1000 by norm_num]
        positivity
      rwa [abs_of_pos this] at h3
    rw [pointAtDistance_left _ _ _ (by rw [he']; exact hx) (by rw [he']; exact h2.2), he', Arith.mul_field, distance_real, he', wayLength_comm,
      wayLength_onWay hp hr.le, onWay_onWay hp hr, quarterControl_eq] at hc2
    refine onWay_ne h1 ?_ hc2
    nlinarith

example : ∃ p : Path ℝ, AlongAxis (pt (currentPosition p)) (10, 0) ∧ AlongAxis (10, 0) (10, 5) ∧ (1 / 1000 : ℝ) < 2 :=
  ⟨[], .inr ⟨by simp [currentPosition, pt, origin], by simp [currentPosition, pt, origin]; norm_num⟩, .inl ⟨rfl, by norm_num⟩, by norm_num⟩

/-- A second leg that slants. -/
example : Slanted ((0 : ℝ), (0 : ℝ)) (3, 4) ∧ Slanted (onWay (0, 0) (3, 4) 1) (0, 0) := by
  have h : wayLength (0, 0) (3, 4) = 5 := by
    rw [wayLength, Real.sqrt_eq_iff_mul_self_eq (by positivity) (by norm_num)]
    norm_num
  constructor
  · constructor <;> norm_num
  · simp only [Slanted, onWay, h]
    constructor <;> norm_num

/-- Not vacuous: a relative line draws from where the drawing is. -/
example : ∃ q, (withTo "rel_line" (⟨2, 3, 0⟩ : Point ℝ)).exec atFive = .ok q ∧ ∃ a : Pt ℝ, strokes q = strokes atFive ++ [.line a (a.1 + 2, a.2 + 3)] := by
  have h := C105_relative ("rel_line", "line") (by simp [relativeCommands]) (withTo "rel_line" (⟨2, 3, 0⟩ : Point ℝ))
    { withTo "rel_line" (⟨2, 3, 0⟩ : Point ℝ) with
      name := "line".toList
      point := fun k => ((withTo "rel_line" (⟨2, 3, 0⟩ : Point ℝ)).point k).map fun d =>
        newPoint ((currentPosition atFive).x +. d.x) ((currentPosition atFive).y +. d.y) } atFive rfl rfl (fun _ => rfl) rfl rfl rfl
  obtain ⟨q, h1, h2, -⟩ := C105_line (p := atFive) (hn := rfl) (ht := show _ = some (newPoint ((currentPosition atFive).x +. 2) ((currentPosition atFive).y +. 3)) by
    simp [withTo, toKey]) (c := { withTo "rel_line" (⟨2, 3, 0⟩ : Point ℝ) with
      name := "line".toList
      point := fun k => ((withTo "rel_line" (⟨2, 3, 0⟩ : Point ℝ)).point k).map fun d =>
        newPoint ((currentPosition atFive).x +. d.x) ((currentPosition atFive).y +. d.y) })
  refine ⟨q, h.trans h1, pt (currentPosition atFive), ?_⟩
  rw [h2]
  simp [pt]

end Verif.Path
