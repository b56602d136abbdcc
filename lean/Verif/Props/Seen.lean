import Verif.Spec.Seen
import Verif.Lemmas.SheetInduct
import Verif.Props.PlanSet
import Verif.Props.SvgDoc
import Verif.Props.Outline
import Mathlib.Data.List.Forall2

/-!
# Property C136: what a reader of the written files sees
-/

set_option linter.unusedSectionVars false

namespace Verif.PlanSet

open Verif Verif.BinPacking Verif.Spec

universe u v

variable {K : Type u} [Field K] [LinearOrder K] [IsStrictOrderedRing K] {P : Type v}

/-- **C136.** Every sheet of a plan set is the sheet that its own parts, in their order, make of an empty one. Either all its parts fit an empty sheet, and if
none but squares ever met a free bin of exactly its padded size, everything drawn keeps the padding to the sides and twice the padding to each other, or there is a
single part that fits no sheet. -/
theorem C136_sheets (s : Sheet K) (hs : 0 ≤ s.padding) {parts : List (Option (List (RenderedPart K P)))} {docs : List (SvgDoc K P)}
    (h : init s parts = some (docs, .ok)) (d : SvgDoc K P) (hd : d ∈ docs) :
    (newSvgDoc s.width s.height s.padding : SvgDoc K P).addAll d.parts = some d ∧
    (((∀ r ∈ d.renderables, FitsSheet s r.part) ∧ (NoExactFits (newSvgDoc s.width s.height s.padding) d.parts →
        (∀ r ∈ d.renderables, (r.drawn.grow s.padding).Within ⟨0, 0, s.width, s.height⟩) ∧
        d.renderables.Pairwise fun r t => r.drawn.Apart t.drawn (s.padding + s.padding))) ∨
      ∃ p, ¬FitsSheet s p ∧ d.renderables = [⟨0, 0, p, false⟩]) := by
  obtain ⟨⟨_, h1⟩, h2, h3⟩ := init_addAll hs h d hd
  refine ⟨h2, ?_⟩
  rcases h1 with ⟨foot, hn⟩ | ⟨b, p, _, h4, h5⟩
  · refine Or.inl ⟨hn.fits, fun hne => C13_drawn_apart_partial s hs d.parts h3 ?_ hne h2⟩
    intro p hp
    obtain ⟨r, hr, rfl⟩ := List.mem_map.mp hp
    exact hn.fits r hr
  · exact Or.inr ⟨p, h5, h4⟩

end Verif.PlanSet

namespace Verif.Svg

open Verif Verif.Dyn Verif.Path Verif.PlanSet Verif.Spec

/-! ## Reading the attribute `d` -/

/-- The command that a segment is written as. -/
noncomputable def cmdOf (n : Nat) : Segment ℝ → SvgCmd ℝ
  | .move _ e => .moveTo (roundPt n (pt e))
  | .line _ e => .lineTo (roundPt n (pt e))
  | .curve _ c d e => .curveTo (roundPt n (pt c)) (roundPt n (pt d)) (roundPt n (pt e))

theorem number_word (n : Nat) (x : ℝ) : (Num.fmt n x : Text) ≠ [] ∧ ∀ c ∈ (Num.fmt n x : Text), isSeparator c = false := by
  refine ⟨signedText_ne_nil _ _ _, fun c hc => ?_⟩
  rcases signedText_chars _ _ _ c hc with rfl | rfl | ⟨d, hd, rfl⟩
  · decide
  · decide
  · interval_cases d <;> decide

theorem words_single {w : Text} (hn : w ≠ []) (hw : ∀ c ∈ w, isSeparator c = false) : transformWords w = [w] := by
  unfold transformWords
  rw [List.splitOnP_eq_singleton (fun a ha => hw a ha)]
  simp [hn]

/-- A segment is written as words, and a text that begins with it is read as its command and what the rest is read as. -/
theorem words_segment (n : Nat) (s : Segment ℝ) : ∃ ws, transformWords (printSegment n s) = ws ∧
    (∀ r, transformWords (printSegment n s ++ ' ' :: r) = ws ++ transformWords r) ∧
    ∀ rest cs, Reads rest cs → Reads (ws ++ rest) (cmdOf n s :: cs) := by
  have w := number_word n
  have step : ∀ (t : Text) (x : ℝ), transformWords (Num.fmt n x ++ ' ' :: t) = Num.fmt n x :: transformWords t :=
    fun t x => words_word (w x).1 (w x).2 (by decide) t
  have last : ∀ x : ℝ, transformWords (Num.fmt n x) = [Num.fmt n x] := fun x => words_single (w x).1 (w x).2
  have one : ∀ (c : Char) (t : Text), isSeparator c = false → transformWords (c :: ' ' :: t) = [c] :: transformWords t :=
    fun c t hc => words_word (w := [c]) (by simp) (by simpa using hc) (by decide) t
  cases s with
  | move a e =>
    refine ⟨_, rfl, fun r => ?_, fun rest cs h => ?_⟩
    · simp only [printSegment, List.append_assoc, List.cons_append, List.nil_append, one _ _ (show isSeparator 'M' = false by decide), step, last]
    · simp only [printSegment, List.append_assoc, List.cons_append, List.nil_append, one _ _ (show isSeparator 'M' = false by decide), step, last]
      exact .moveTo (toFloat_fmt n _) (toFloat_fmt n _) h
  | line a e =>
    refine ⟨_, rfl, fun r => ?_, fun rest cs h => ?_⟩
    · simp only [printSegment, List.append_assoc, List.cons_append, List.nil_append, one _ _ (show isSeparator 'L' = false by decide), step, last]
    · simp only [printSegment, List.append_assoc, List.cons_append, List.nil_append, one _ _ (show isSeparator 'L' = false by decide), step, last]
      exact .lineTo (toFloat_fmt n _) (toFloat_fmt n _) h
  | curve a c d e =>
    refine ⟨_, rfl, fun r => ?_, fun rest cs h => ?_⟩
    · simp only [printSegment, List.append_assoc, List.cons_append, List.nil_append, one _ _ (show isSeparator 'C' = false by decide), step, last]
    · simp only [printSegment, List.append_assoc, List.cons_append, List.nil_append, one _ _ (show isSeparator 'C' = false by decide), step, last]
      exact .curveTo (toFloat_fmt n _) (toFloat_fmt n _) (toFloat_fmt n _) (toFloat_fmt n _) (toFloat_fmt n _) (toFloat_fmt n _) h

theorem reads_printed (n : Nat) : ∀ p : Path ℝ, Reads (transformWords (printPath n p)) (p.map (cmdOf n))
  | [] => .nil
  | [s] => by
    obtain ⟨ws, h1, -, h3⟩ := words_segment n s
    simp only [printPath, List.map_cons, List.map_nil, joinSpace, h1]
    simpa using h3 [] [] .nil
  | s :: s' :: p => by
    obtain ⟨ws, -, h2, h3⟩ := words_segment n s
    have ih := reads_printed n (s' :: p)
    simp only [printPath, List.map_cons, joinSpace] at ih ⊢
    rw [h2]
    exact h3 _ _ ih

/-- The commands draw the rounded strokes that SVG draws. -/
theorem draw_printed (n : Nat) : ∀ (p : Path ℝ) (c : Pt ℝ) (pen : Pen ℝ), pen.cur = roundPt n c →
    svgDraw pen (p.map (cmdOf n)) = (svgStrokes c p).map (Stroke.map (roundPt n))
  | [], c, pen, h => rfl
  | .move a e :: p, c, pen, h => by
    simp only [List.map_cons, cmdOf, svgDraw, SvgCmd.draw, svgStrokes, List.nil_append]
    exact draw_printed n p (pt e) _ rfl
  | .line a e :: p, c, pen, h => by
    simp only [List.map_cons, cmdOf, svgDraw, SvgCmd.draw, svgStrokes, List.cons_append, List.nil_append, h, Stroke.map]
    rw [draw_printed n p (pt e) _ rfl]
  | .curve a k l e :: p, c, pen, h => by
    simp only [List.map_cons, cmdOf, svgDraw, SvgCmd.draw, svgStrokes, List.cons_append, List.nil_append, h, Stroke.map]
    rw [draw_printed n p (pt e) _ rfl]

theorem roundPt_zero (n : Nat) : roundPt n ((0, 0) : Pt ℝ) = (0, 0) := by
  have : Decimal.rounded n (0 : ℝ) = 0 := by simp [Decimal.rounded, Decimal.roundHalfEven]
  simp [roundPt, this]

/-- **C136.** The attribute `d` of a written path, taken as SVG path data, draws the strokes of the path with rounded coordinates. -/
theorem C136_path (n : Nat) (p : Path ℝ) :
    ∃ cs, Reads (transformWords (printPath n p)) cs ∧ svgDraw .initial cs = (svgStrokes (0, 0) p).map (Stroke.map (roundPt n)) :=
  ⟨_, reads_printed n p, draw_printed n p (0, 0) .initial (roundPt_zero n).symm⟩

end Verif.Svg

namespace Verif.Render

open Verif Verif.Dyn Verif.Path Verif.PlanSet Verif.Svg Verif.Files Verif.Xml Verif.Spec

variable {O : Type}

/-! ## Finite numbers -/

/-- The number, if it is one. -/
noncomputable def realOf : XNum ℝ → ℝ
  | .fin x => x
  | _ => 0

noncomputable def realPoint (p : Point (XNum ℝ)) : Point ℝ := ⟨realOf p.x, realOf p.y, realOf p.t⟩

noncomputable def realSeg : Segment (XNum ℝ) → Segment ℝ
  | .move a b => .move (realPoint a) (realPoint b)
  | .line a b => .line (realPoint a) (realPoint b)
  | .curve a c d b => .curve (realPoint a) (realPoint c) (realPoint d) (realPoint b)

theorem realPath_fin (r : Path ℝ) : (finPath r).map realSeg = r := by
  induction r with
  | nil => rfl
  | cons s r ih =>
    simp only [finPath, List.map_cons, List.map_map] at ih ⊢
    rw [ih]
    cases s <;> rfl

theorem printPath_fin (n : Nat) (r : Path ℝ) : printPath n (finPath r) = printPath n r := by
  unfold printPath
  congr 1
  simp only [finPath, List.map_map]
  refine List.map_congr_left fun s _ => ?_
  cases s <;> rfl

theorem svgStrokes_fin : ∀ (r : Path ℝ) (c : Pt ℝ), svgStrokes (.fin c.1, .fin c.2) (finPath r) =
    (svgStrokes c r).map (Stroke.map fun q => (XNum.fin q.1, XNum.fin q.2))
  | [], c => rfl
  | .move a b :: r, c => svgStrokes_fin r (pt b)
  | .line a b :: r, c => by
    have := svgStrokes_fin r (pt b)
    simp only [finPath, List.map_cons, finSeg, svgStrokes, Stroke.map] at this ⊢
    rw [← this]
    rfl
  | .curve a k l b :: r, c => by
    have := svgStrokes_fin r (pt b)
    simp only [finPath, List.map_cons, finSeg, svgStrokes, Stroke.map] at this ⊢
    rw [← this]
    rfl

theorem strokes_fin : ∀ r : Path ℝ, strokes (finPath r) = (strokes r).map (Stroke.map fun q => (XNum.fin q.1, XNum.fin q.2))
  | [] => rfl
  | .move a b :: r => strokes_fin r
  | .line a b :: r => by
    have := strokes_fin r
    simp only [finPath, strokes, List.map_cons, finSeg, List.filterMap_cons, strokeOf, Stroke.map] at this ⊢
    rw [← this]
    rfl
  | .curve a k l b :: r => by
    have := strokes_fin r
    simp only [finPath, strokes, List.map_cons, finSeg, List.filterMap_cons, strokeOf, Stroke.map] at this ⊢
    rw [← this]
    rfl

theorem readAsDrawn_real {r : Path ℝ} (h : ReadAsDrawn (finPath r)) : ReadAsDrawn r := by
  intro c
  have h := h (.fin c.1, .fin c.2)
  rw [svgStrokes_fin, strokes_fin] at h
  refine List.map_injective_iff.mpr ?_ h
  intro s t e
  cases s <;> cases t <;> simp only [Stroke.map, Stroke.line.injEq, Stroke.curve.injEq, Prod.mk.injEq, XNum.fin.injEq, reduceCtorEq] at e
  · obtain ⟨⟨e1, e2⟩, e3, e4⟩ := e
    rw [Stroke.line.injEq]
    exact ⟨Prod.ext e1 e2, Prod.ext e3 e4⟩
  · obtain ⟨⟨e1, e2⟩, ⟨e3, e4⟩, ⟨e5, e6⟩, e7, e8⟩ := e
    rw [Stroke.curve.injEq]
    exact ⟨Prod.ext e1 e2, Prod.ext e3 e4, Prod.ext e5 e6, Prod.ext e7 e8⟩

/-! ## Groups -/

/-- The part with real numbers. -/
noncomputable def realRend (r : Renderable ℝ (Drawing (XNum ℝ))) : Renderable ℝ (Drawing ℝ) :=
  ⟨r.x, r.y, ⟨r.part.width, r.part.height, ⟨r.part.payload.id, r.part.payload.path.map realSeg, r.part.payload.label⟩⟩, r.rotate⟩

/-- What is seen of a part. -/
noncomputable def seenOf (r : Renderable ℝ (Drawing (XNum ℝ))) : Seen :=
  ⟨r.part.payload.id, (writtenStrokes (newPage 0 0 .inch) (realRend r)).map (Stroke.map (applyTransforms ((realRend r).transforms.map roundTransform)))⟩

theorem transformText_fin (r : Renderable ℝ (Drawing (XNum ℝ))) : (finRend r).transforms.map transformText = (realRend r).transforms.map transformText := by
  obtain ⟨x, y, p, rot⟩ := r
  cases rot
  · rfl
  · simp only [Renderable.transforms, finRend, realRend, finPart, if_true, List.map_cons, List.map_nil]
    rfl

theorem sees_group (s : Sheet ℝ) (r : Renderable ℝ (Drawing (XNum ℝ))) (hl : r.part.payload.label.text = []) (hp : ∃ p : Path ℝ, r.part.payload.path = finPath p) :
    SeesGroup (itemElement (newPage (.fin s.width) (.fin s.height) .inch) (finRend r)) (seenOf r) := by
  obtain ⟨p, hp⟩ := hp
  obtain ⟨cs, h1, h2⟩ := C136_path 3 p
  have hr : (realRend r).part.payload.path = p := by
    show r.part.payload.path.map realSeg = p
    rw [hp, realPath_fin]
  refine ⟨joinSpace ((realRend r).transforms.map transformText), printPath 3 p, (newPage (.fin s.width : XNum ℝ) (.fin s.height) .inch).cutStyle, (realRend r).transforms.map roundTransform, cs, ?_, C101_spelled _, h1, ?_⟩
  · unfold itemElement
    simp only [transformText_fin]
    rw [show (finRend r).part.payload = r.part.payload from rfl, hl, hp, if_pos rfl, show (newPage (.fin s.width : XNum ℝ) (.fin s.height) .inch).precision = 3 from rfl,
      printPath_fin]
    rfl
  · rw [h2]
    show (writtenStrokes (newPage 0 0 .inch) (realRend r)).map _ = _
    unfold writtenStrokes
    rw [hr]
    rfl

theorem at_transforms : ∀ (ts : List (SvgTransform ℝ)) (s : Stroke ℝ) (t : ℝ), (s.map (applyTransforms ts)).at t = applyTransforms ts (s.at t)
  | [], s, t => by cases s <;> rfl
  | x :: ts, s, t => by
    have h : s.map (applyTransforms (x :: ts)) = (s.map (applyTransforms ts)).map x.apply := by cases s <;> rfl
    have h' : applyTransforms (x :: ts) (s.at t) = x.apply (applyTransforms ts (s.at t)) := rfl
    rw [h, h', ← at_transforms ts s t]
    generalize s.map (applyTransforms ts) = s
    cases x <;> cases s <;> simp only [Stroke.map, Stroke.at, SvgTransform.apply, Prod.mk.injEq] <;> constructor <;> ring

theorem has_draws {r : Renderable ℝ (Drawing (XNum ℝ))} {q : Pt ℝ} (h : (seenOf r).Has q) : DrawsAt (newPage 0 0 .inch) (realRend r) q := by
  obtain ⟨s, hs, t, h0, h1, rfl⟩ := h
  obtain ⟨s', hs', rfl⟩ := List.mem_map.mp hs
  exact ⟨s', hs', t, h0, h1, (at_transforms _ _ _).symm⟩

theorem rigid_placed (r : Renderable ℝ (Drawing ℝ)) (dx dy : ℝ) : Rigid fun q => applyTransforms r.transforms (translate dx dy q) := by
  obtain ⟨x, y, ⟨w, h, pl⟩, rot⟩ := r
  cases rot
  · refine ⟨dx + x, dy + y, Or.inl ?_⟩
    funext q
    simp [Renderable.transforms, PlanSet.applyTransforms, SvgTransform.apply, translate, add_assoc]
  · refine ⟨x + h - dy, y + dx, Or.inr ?_⟩
    funext q
    simp only [Renderable.transforms, PlanSet.applyTransforms, SvgTransform.apply, translate, if_true, List.foldr, Arith.add_field, Prod.mk.injEq]
    constructor <;> ring

theorem near_placed (r : Renderable ℝ (Drawing ℝ)) (q : Pt ℝ) :
    Within (1 / 1000) (applyTransforms (r.transforms.map roundTransform) (roundPt 3 q)) (applyTransforms r.transforms q) := by
  have h := C101_placed r 3 (.line q q) 0 (le_refl 0) (by norm_num)
  have e : ∀ q : Pt ℝ, (Stroke.line q q).at 0 = q := by intro q; simp [Stroke.at]
  simp only [Stroke.map, e] at h
  obtain ⟨h1, h2⟩ := h
  constructor
  · exact h1.trans (by norm_num)
  · exact h2.trans (by norm_num)

theorem shows_outline {o : Outline} (ho : o.id ≠ []) (r : Renderable ℝ (Drawing (XNum ℝ))) (hl : Laid o r.part) (hr : ReadAsDrawn r.part.payload.path) :
    ShowsOutline (1 / 1000) o (seenOf r) := by
  obtain ⟨p, dx, dy, h1, h2, -⟩ := hl.path
  rw [h1] at hr
  have hr := readAsDrawn_real hr
  have hp : (realRend r).part.payload.path = p := by
    show r.part.payload.path.map realSeg = p
    rw [h1, realPath_fin]
  refine ⟨hl.id ho, _, rigid_placed (realRend r) dx dy, ?_⟩
  show List.Forall₂ _ _ ((writtenStrokes (newPage 0 0 .inch) (realRend r)).map _)
  unfold writtenStrokes
  rw [hp, hr, h2, List.map_map, List.map_map, List.forall₂_map_right_iff]
  refine List.forall₂_same.mpr fun s hs => ?_
  obtain ⟨a, b, rfl⟩ := polyline_straight _ _ _ hs
  exact ⟨a, b, _, _, rfl, rfl, near_placed _ _, near_placed _ _⟩

theorem inBox_laid {o : Outline} (r : Renderable ℝ (Drawing (XNum ℝ))) (hl : Laid o r.part) (hr : ReadAsDrawn r.part.payload.path) : InBox (realRend r) := by
  obtain ⟨p, dx, dy, h1, h2, h3⟩ := hl.path
  rw [h1] at hr
  have hr := readAsDrawn_real hr
  intro s hs t h0 h1'
  have hp : (realRend r).part.payload.path = p := by
    show r.part.payload.path.map realSeg = p
    rw [h1, realPath_fin]
  rw [hp, hr] at hs
  obtain ⟨a, b, c, d⟩ := h3.inside _ ⟨s, hs, t, h0, h1', rfl⟩
  refine ⟨a, ?_, c, ?_⟩
  · show (s.at t).1 ≤ 0 + r.part.width
    simpa using b
  · show (s.at t).2 ≤ 0 + r.part.height
    simpa using d

/-- An outline is as large as it is laid out. -/
theorem sized_laid {o : Outline} {p : RenderedPart ℝ (Drawing (XNum ℝ))} (hl : Laid o p) : o.Sized p.width p.height := by
  obtain ⟨r, dx, dy, -, h2, h3⟩ := hl.path
  have hat : ∀ (s : Stroke ℝ) (t : ℝ), (s.map (translate dx dy)).at t = translate dx dy (s.at t) := by
    intro s t
    cases s <;> simp only [Stroke.map, Stroke.at, translate, Prod.mk.injEq] <;> constructor <;> ring
  have key : ∀ q, (∃ s ∈ polyline (0, 0) o.points, ∃ t : ℝ, 0 ≤ t ∧ t ≤ 1 ∧ s.at t = q) ↔ Drawn r (translate dx dy q) := by
    intro q
    constructor
    · rintro ⟨s, hs, t, h0, h1, rfl⟩
      refine ⟨s.map (translate dx dy), ?_, t, h0, h1, hat s t⟩
      rw [h2]
      exact List.mem_map_of_mem hs
    · rintro ⟨s, hs, t, h0, h1, e⟩
      rw [h2] at hs
      obtain ⟨s', hs', rfl⟩ := List.mem_map.mp hs
      rw [hat] at e
      simp only [translate, Prod.mk.injEq, add_left_inj] at e
      exact ⟨s', hs', t, h0, h1, Prod.ext e.1 e.2⟩
  have back : ∀ q, Drawn r q → ∃ s ∈ polyline (0, 0) o.points, ∃ t : ℝ, 0 ≤ t ∧ t ≤ 1 ∧ s.at t = (q.1 - dx, q.2 - dy) := by
    intro q hq
    rw [key]
    simpa [translate] using hq
  refine ⟨-dx, -dy, ⟨?_, ?_, ?_, ?_, ?_⟩⟩
  · intro q hq
    obtain ⟨a, b, c, d⟩ := h3.inside _ ((key q).1 hq)
    simp only [translate] at a b c d
    refine ⟨?_, ?_, ?_, ?_⟩ <;> simp only <;> linarith
  · obtain ⟨q, hq, e⟩ := h3.left
    exact ⟨_, back q hq, by simp only at e ⊢; linarith⟩
  · obtain ⟨q, hq, e⟩ := h3.right
    exact ⟨_, back q hq, by simp only at e ⊢; linarith⟩
  · obtain ⟨q, hq, e⟩ := h3.top
    exact ⟨_, back q hq, by simp only at e ⊢; linarith⟩
  · obtain ⟨q, hq, e⟩ := h3.bottom
    exact ⟨_, back q hq, by simp only at e ⊢; linarith⟩

theorem inside_seen (s : Sheet ℝ) (r : Renderable ℝ (Drawing (XNum ℝ))) (hb : InBox (realRend r))
    (h : (r.drawn.grow s.padding).Within ⟨0, 0, s.width, s.height⟩) : (seenOf r).Inside (s.padding - 1 / 1000) s := by
  intro q hq
  obtain ⟨q', ⟨a1, a2, a3, a4⟩, n1, n2⟩ := near_drawn _ _ hb q (has_draws hq)
  have e : (1 : ℝ) / 2000 + 1 / 2 / 10 ^ (newPage (0 : ℝ) 0 .inch).precision = 1 / 1000 := by
    rw [show (newPage (0 : ℝ) 0 .inch).precision = 3 from rfl]
    norm_num
  rw [e, abs_le] at n1 n2
  obtain ⟨b1, b2, b3, b4⟩ := h
  have ed : (realRend r).drawn = r.drawn := rfl
  rw [ed] at a1 a2 a3 a4
  simp only [Rect.grow] at b1 b2 b3 b4
  refine ⟨?_, ?_, ?_, ?_⟩ <;> linarith

theorem apart_seen (r t : Renderable ℝ (Drawing (XNum ℝ))) (hr : InBox (realRend r)) (ht : InBox (realRend t)) {g : ℝ} (h : r.drawn.Apart t.drawn g) :
    Seen.Apart (g - 1 / 500) (seenOf r) (seenOf t) := by
  intro q q' hq hq'
  have := C101_apart (newPage 0 0 .inch) (realRend r) (realRend t) hr ht g h q q' (has_draws hq) (has_draws hq')
  have e : (1 : ℝ) / 1000 + 1 / 10 ^ (newPage (0 : ℝ) 0 .inch).precision = 1 / 500 := by
    rw [show (newPage (0 : ℝ) 0 .inch).precision = 3 from rfl]
    norm_num
  rw [e] at this
  exact le_max_iff.mp this

/-! ## Files -/

theorem tame_outline (m : Machine (XNum ℝ) O) (o : Outline) :
    PartOf (TamePart m.world m.toInt m.fuel roughNames [latheName] []) (Tame m.world m.toInt roughNames) (livePart m.world (madeNode m.world o)) := by
  rw [livePart_made]
  have h1 : slice (madeMap o) transformsKey = [] := by
    rw [slice_plain (by decide +kernel), made_absent o _ (by decide +kernel)]
  have h2 : slice (madeMap o) partTransformersKey = [] := by
    rw [slice_plain (by decide +kernel), made_absent o _ (by decide +kernel)]
  refine ⟨rfl, ⟨?_, ?_, ?_⟩, ?_⟩
  · simp [transformNames, Live.elem, h1]
  · simp [Live.elem, h2]
  · simp [Equipped, Live.elem, h2]
  · show EachOf _ (o.drawings.map (liveDraw m.world))
    generalize o.drawings = ds
    induction ds with
    | nil => trivial
    | cons qs ds ih =>
      refine ⟨⟨⟨?_, ?_⟩, trivial⟩, ih⟩
      · have : slice (drawMap qs) transformsKey = [] := rfl
        simp [transformNames, this]
      · intro h; cases h

/-- What the program makes of a document of outlines. -/
theorem outline_files (m : Machine (XNum ℝ) O) (hf : 0 < m.fuel) (files : Nat) (s : Sheet ℝ) (hs : 0 ≤ s.padding) (os : List Outline)
    (ho : ∀ o ∈ os, o.Wide ∧ o.id ≠ [] ∧ Unmarked o.id) :
    ∃ (parts : List (RenderedPart ℝ (Drawing (XNum ℝ)))) (docs : List (SvgDoc ℝ (Drawing (XNum ℝ)))) (texts : List SheetText),
      List.Forall₂ Laid os parts ∧ PlanSet.init s (parts.map fun p => some [p]) = some (docs, .ok) ∧ (docs.map (·.parts)).flatten.Perm parts ∧
      m.sheets (files + 1) (outlineDoc s os) = .ok texts ∧
      (∀ d ∈ docs, ∀ r ∈ d.renderables, ReadAsDrawn r.part.payload.path) ∧
      List.Forall₂ (fun d t => t.2 = false ∧ Says t.1 [pageElement (newPage (.fin s.width) (.fin s.height) .inch) (finDoc d).renderables]) docs texts := by
  obtain ⟨d, parts, docs, h1, h2, h3, h4⟩ := C118_sheets m hf files s hs os fun o h => (ho o h).1
  have hd : d = madeDoc m.world s os := by
    obtain ⟨f, hf'⟩ : ∃ f, m.fuel = f + 1 := ⟨m.fuel - 1, by omega⟩
    rw [hf', parse_outline] at h1
    cases h1
    rfl
  obtain ⟨all, e1, e2, -⟩ := C10_no_part_lost s _ h3
  have : all = parts.map fun p => [p] := by
    have h := congrArg (List.map fun o : Option (List (RenderedPart ℝ (Drawing (XNum ℝ)))) => o.getD []) e1
    simpa [Function.comp_def] using h.symm
  have hfl : (parts.map fun p => [p]).flatten = parts := by
    clear * -
    induction parts with
    | nil => rfl
    | cons => simp_all
  rw [this, hfl] at e2
  have hread : ∀ d ∈ docs, ∀ r ∈ d.renderables, ReadAsDrawn r.part.payload.path := by
    intro x hx r hr
    refine C114_sheets m d ?_ h4 (finDoc x) (List.mem_map_of_mem hx) (finRend r) (List.mem_map_of_mem hr)
    rw [hd]
    intro n hn
    obtain ⟨o, -, rfl⟩ := List.mem_map.mp hn
    exact tame_outline m o
  refine ⟨parts, docs, docs.map fun x => Machine.sheetText (newPage (.fin s.width) (.fin s.height) .inch) (finDoc x), h2, h3, e2, ?_, hread, ?_⟩
  · unfold Machine.sheets
    simp only [h1, h4]
    congr 1
    generalize newPage (.fin s.width : XNum ℝ) (.fin s.height) .inch = page
    clear * -
    induction docs with
    | nil => rfl
    | cons x xs ih => simpa [List.replicate_succ] using ih
  · rw [List.forall₂_map_right_iff]
    refine List.forall₂_same.mpr fun x hx => ?_
    have hw : ∀ r ∈ (finDoc x).renderables, Writable r := by
      intro r hr
      obtain ⟨r', hr', rfl⟩ := List.mem_map.mp hr
      have hp : r'.part ∈ parts := e2.subset (List.mem_flatten.mpr ⟨x.parts, List.mem_map_of_mem hx, List.mem_map_of_mem hr'⟩)
      obtain ⟨o, hm, hl⟩ := forall₂_mem_right h2 _ hp
      obtain ⟨_, hi, hu⟩ := ho o hm
      refine ⟨?_, ?_, ?_⟩
      · show Unmarked r'.part.payload.id
        rw [hl.id hi]
        exact hu
      · show Unmarked r'.part.payload.label.text
        rw [hl.label]
        exact unmarked_of_all (by decide)
      · intro h
        exact absurd hl.label h
    obtain ⟨h5, h6⟩ := C99_written_special (newPage (.fin s.width) (.fin s.height) .inch)
      ((unmarked_of_all (by decide)).append (unmarked_xnum _ _)) (((unmarked_of_all (by decide)).append (unmarked_xnum _ _)).append (unmarked_of_all (by decide)))
      (finDoc x).renderables hw
    unfold Machine.sheetText
    split
    · next e => rw [e] at h5; cases h5
    · next t' r e e' => rw [e'] at h6; exact ⟨rfl, h6⟩

theorem sees_sheet (s : Sheet ℝ) (d : SvgDoc ℝ (Drawing (XNum ℝ))) (t : Text)
    (ht : Says t [pageElement (newPage (.fin s.width) (.fin s.height) .inch) (finDoc d).renderables])
    (hd : ∀ r ∈ d.renderables, r.part.payload.label.text = [] ∧ ∃ p : Path ℝ, r.part.payload.path = finPath p) : SeesSheet s t (d.renderables.map seenOf) := by
  refine ⟨_, _, ht, ?_, ?_⟩
  · simp only [sizeAttributes]
    split <;> rfl
  · show List.Forall₂ _ ((d.renderables.map finRend).map _) _
    rw [List.map_map, List.forall₂_map_left_iff, List.forall₂_map_right_iff]
    exact List.forall₂_same.mpr fun r hr => sees_group s r (hd r hr).1 (hd r hr).2

/-- **C136.** Whoever reads the files that the program writes for a document of outlines, with any reader of XML and of SVG paths and transforms, sees every outline
exactly once, under its name: its lines in their order, shifted or turned by a quarter and shifted, with every point within a thousandth of its place. If no outline but squares ever meets a free bin of exactly its padded
size, then on every sheet with more than one outline they keep the padding to the sides and twice the padding to each other, up to one and two thousandths. -/
theorem C136_seen (m : Machine (XNum ℝ) O) (hf : 0 < m.fuel) (files : Nat) (s : Sheet ℝ) (hs : 0 ≤ s.padding) (os : List Outline)
    (ho : ∀ o ∈ os, o.Wide ∧ o.id ≠ [] ∧ Unmarked o.id) :
    ∃ (texts : List SheetText) (seen : List (List Seen)) (os' : List Outline), m.sheets (files + 1) (outlineDoc s os) = .ok texts ∧
      List.Forall₂ (fun t gs => t.2 = false ∧ SeesSheet s t.1 gs) texts seen ∧ os'.Perm os ∧ List.Forall₂ (ShowsOutline (1 / 1000)) os' seen.flatten ∧
      (NeverFills s os → ∀ gs ∈ seen, (∃ g, gs = [g]) ∨
        ((∀ g ∈ gs, g.Inside (s.padding - 1 / 1000) s) ∧ gs.Pairwise (Seen.Apart (2 * s.padding - 1 / 500)))) := by
  obtain ⟨parts, docs, texts, h1, h2, h3, h4, h5, h6⟩ := outline_files m hf files s hs os ho
  have hlaid : ∀ d ∈ docs, ∀ r ∈ d.renderables, ∃ o ∈ os, Laid o r.part := by
    intro d hd r hr
    exact forall₂_mem_right h1 _ (h3.subset (List.mem_flatten.mpr ⟨d.parts, List.mem_map_of_mem hd, List.mem_map_of_mem hr⟩))
  obtain ⟨os', p1, p2⟩ : ∃ os', os'.Perm os ∧ List.Forall₂ Laid os' (docs.map (·.parts)).flatten := by
    obtain ⟨os', a, b⟩ := List.perm_comp_forall₂ h3 h1.flip
    exact ⟨os', b, a.flip⟩
  refine ⟨texts, docs.map fun d => d.renderables.map seenOf, os', h4, ?_, p1, ?_, ?_⟩
  · rw [List.forall₂_map_right_iff]
    refine List.Forall₂.imp ?_ ((List.forall₂_and_left _ _).2 ⟨fun d (hd : d ∈ docs) => hd, h6⟩).flip
    rintro t d ⟨hd, ht, hsay⟩
    refine ⟨ht, sees_sheet s d t.1 hsay fun r hr => ?_⟩
    obtain ⟨o, -, hl⟩ := hlaid d hd r hr
    obtain ⟨p, _, _, hp, -⟩ := hl.path
    exact ⟨hl.label, p, hp⟩
  · have e1 : (docs.map (·.parts)).flatten = (docs.flatMap (·.renderables)).map (·.part) := by
      simp [SvgDoc.parts, List.flatMap, List.map_flatten, Function.comp_def]
    have e2 : (docs.map fun d => d.renderables.map seenOf).flatten = (docs.flatMap (·.renderables)).map seenOf := by
      simp [List.flatMap, List.map_flatten, Function.comp_def]
    have hr : ∀ r ∈ docs.flatMap (·.renderables), ReadAsDrawn r.part.payload.path := by
      intro r hr
      obtain ⟨d, hd, hr⟩ := List.mem_flatMap.mp hr
      exact h5 d hd r hr
    rw [e1, List.forall₂_map_right_iff] at p2
    rw [e2, List.forall₂_map_right_iff]
    have hid : ∀ o ∈ os', o.id ≠ [] := fun o h => (ho o (p1.subset h)).2.1
    clear * - p2 hr hid
    generalize docs.flatMap (·.renderables) = rs at *
    induction p2 with
    | nil => exact .nil
    | cons h _ ih =>
      exact .cons (shows_outline (hid _ (by simp)) _ h (hr _ (by simp))) (ih (fun o h => hid o (by simp [h])) fun r h => hr r (by simp [h]))
  · intro hnf gs hgs
    obtain ⟨d, hd, rfl⟩ := List.mem_map.mp hgs
    have hne := hnf parts docs (h1.imp fun _ _ => sized_laid) h2 d hd
    have hbox : ∀ r ∈ d.renderables, InBox (realRend r) := by
      intro r hr
      obtain ⟨o, -, hl⟩ := hlaid d hd r hr
      exact inBox_laid r hl (h5 d hd r hr)
    obtain ⟨-, ⟨-, hfit⟩ | ⟨p, -, hp⟩⟩ := C136_sheets s hs h2 d hd
    · obtain ⟨hin, hap⟩ := hfit hne
      refine Or.inr ⟨?_, ?_⟩
      · intro g hg
        obtain ⟨r, hr, rfl⟩ := List.mem_map.mp hg
        exact inside_seen s r (hbox r hr) (hin r hr)
      · rw [List.pairwise_map]
        refine hap.imp_of_mem fun {r t} hr ht h => apart_seen r t (hbox r hr) (hbox t ht) ?_
        rw [two_mul]
        exact h
    · exact Or.inl ⟨_, by rw [hp]; rfl⟩

/-- Squares never fill a bin in the wrong way. -/
theorem noExactFits_squares {K : Type*} [Field K] [LinearOrder K] {P : Type*} : ∀ (ps : List (RenderedPart K P)) (d : SvgDoc K P), (∀ p ∈ ps, p.width = p.height) →
    NoExactFits d ps
  | [], _, _ => trivial
  | p :: ps, d, h => ⟨Or.inl (h p (by simp)), fun d' _ _ => noExactFits_squares ps d' fun q hq => h q (by simp [hq])⟩

/-- A square with sides of one unit. -/
def unitSquare (i : Text) : Outline := ⟨i, [[(1, 0), (1, 1)], [(0, 1), (0, 0)]]⟩

theorem unitSquare_sized (i : Text) {w h : ℝ} (hs : (unitSquare i).Sized w h) : w = 1 ∧ h = 1 := by
  obtain ⟨x, y, hb⟩ := hs
  have hin : ∀ q, (∃ s ∈ polyline (0, 0) (unitSquare i).points, ∃ t : ℝ, 0 ≤ t ∧ t ≤ 1 ∧ s.at t = q) → 0 ≤ q.1 ∧ q.1 ≤ 1 ∧ 0 ≤ q.2 ∧ q.2 ≤ 1 := by
    rintro q ⟨s, hs, t, h0, h1, rfl⟩
    simp only [unitSquare, Outline.points, List.flatten_cons, List.flatten_nil, List.cons_append, List.nil_append, List.append_nil, polyline, List.mem_cons,
      List.not_mem_nil, or_false] at hs
    rcases hs with rfl | rfl | rfl | rfl <;> simp only [Stroke.at] <;> refine ⟨?_, ?_, ?_, ?_⟩ <;> linarith
  have m0 : ∃ s ∈ polyline (0, 0) (unitSquare i).points, ∃ t : ℝ, 0 ≤ t ∧ t ≤ 1 ∧ s.at t = (0, 0) :=
    ⟨.line (0, 0) (1, 0), by simp [unitSquare, Outline.points, polyline], 0, le_refl 0, by norm_num, by simp [Stroke.at]⟩
  have m1 : ∃ s ∈ polyline (0, 0) (unitSquare i).points, ∃ t : ℝ, 0 ≤ t ∧ t ≤ 1 ∧ s.at t = (1, 1) :=
    ⟨.line (1, 0) (1, 1), by simp [unitSquare, Outline.points, polyline], 1, by norm_num, le_refl 1, by simp [Stroke.at]⟩
  obtain ⟨a1, a2, a3, a4⟩ := hb.inside _ m0
  obtain ⟨b1, b2, b3, b4⟩ := hb.inside _ m1
  obtain ⟨q1, d1, e1⟩ := hb.left
  obtain ⟨q2, d2, e2⟩ := hb.right
  obtain ⟨q3, d3, e3⟩ := hb.top
  obtain ⟨q4, d4, e4⟩ := hb.bottom
  have k1 := hin _ d1
  have k2 := hin _ d2
  have k3 := hin _ d3
  have k4 := hin _ d4
  simp only at *
  constructor <;> linarith [k1.1, k2.2.1, k3.2.2.1, k4.2.2.2]

/-- **C136** is not empty: any number of squares, on any sheet. -/
example (s : Sheet ℝ) (is : List Text) (hi : ∀ i ∈ is, i ≠ [] ∧ Unmarked i) :
    NeverFills s (is.map unitSquare) ∧ ∀ o ∈ is.map unitSquare, o.Wide ∧ o.id ≠ [] ∧ Unmarked o.id := by
  constructor
  · intro parts docs hp hd d hdm
    refine noExactFits_squares _ _ fun p hpm => ?_
    obtain ⟨all, e1, -, e3⟩ := C10_no_part_lost s _ hd
    have hall : all = parts.map fun p => [p] := by
      have h := congrArg (List.map fun o : Option (List (RenderedPart ℝ (Drawing (XNum ℝ)))) => o.getD []) e1
      simpa [Function.comp_def] using h.symm
    have := (e3 d hdm).subset hpm
    rw [hall] at this
    obtain ⟨l, hl, hm⟩ := List.mem_flatten.mp this
    obtain ⟨p', hp', rfl⟩ := List.mem_map.mp hl
    rw [List.mem_singleton] at hm
    subst hm
    obtain ⟨o, ho, hs⟩ := forall₂_mem_right hp p hp'
    obtain ⟨i, -, rfl⟩ := List.mem_map.mp ho
    obtain ⟨a, b⟩ := unitSquare_sized i hs
    rw [a, b]
  · intro o ho
    obtain ⟨i, hm, rfl⟩ := List.mem_map.mp ho
    refine ⟨⟨⟨(0, 0), by simp, (1, 1), by simp [unitSquare, Outline.points], by norm_num⟩, ⟨(0, 0), by simp, (1, 1), by simp [unitSquare, Outline.points], by norm_num⟩⟩, ?_⟩
    exact hi i hm

end Verif.Render
