import Verif.Props.Xml
import Verif.Props.Path
import Verif.Lemmas.Parts

/-!
# What is imported from an SVG file (C57)
-/

set_option linter.unusedSectionVars false

namespace Verif.Xml

open Verif.Dyn Verif.Path Verif.Spec

/-- **C57.** A line element gives the line between its points. -/
theorem C57_line (attrs : DMap ℝ) (children : List (Element ℝ)) (content : Text) (x1 y1 x2 y2 : ℝ) (h1 : getFloat attrs "x1".toList = some x1)
    (h2 : getFloat attrs "y1".toList = some y1) (h3 : getFloat attrs "x2".toList = some x2) (h4 : getFloat attrs "y2".toList = some y2) :
    ∃ p, elementToPath (.mk "line".toList attrs children content) = .ok p ∧ strokes p = [.line (x1, y1) (x2, y2)] := by
  have h1 : getFloat attrs ['x', '1'] = some x1 := h1
  have h2 : getFloat attrs ['y', '1'] = some y1 := h2
  have h3 : getFloat attrs ['x', '2'] = some x2 := h3
  have h4 : getFloat attrs ['y', '2'] = some y2 := h4
  refine ⟨lineTo (moveTo [] (newPoint x1 y1)) (newPoint x2 y2), ?_, ?_⟩
  · apply elementToPath_shape
    simp [shape, h1, h2, h3, h4]
  · simp [strokes_lineTo, strokes_moveTo, currentPosition_moveTo, newPoint_eq, pt, strokes_nil]

/-- **C57.** A rect element gives the outline of its four corners. -/
theorem C57_rect (attrs : DMap ℝ) (children : List (Element ℝ)) (content : Text) (x y w h : ℝ) (h1 : getFloat attrs "x".toList = some x)
    (h2 : getFloat attrs "y".toList = some y) (h3 : getFloat attrs "width".toList = some w) (h4 : getFloat attrs "height".toList = some h) :
    ∃ p, elementToPath (.mk "rect".toList attrs children content) = .ok p ∧
      strokes p = [.line (x, y) (x + w, y), .line (x + w, y) (x + w, y + h), .line (x + w, y + h) (x, y + h), .line (x, y + h) (x, y)] := by
  have h1 : getFloat attrs ['x'] = some x := h1
  have h2 : getFloat attrs ['y'] = some y := h2
  have h3 : getFloat attrs ['w', 'i', 'd', 't', 'h'] = some w := h3
  have h4 : getFloat attrs ['h', 'e', 'i', 'g', 'h', 't'] = some h := h4
  refine ⟨rect (moveTo [] (newPoint x y)) w h, ?_, ?_⟩
  · apply elementToPath_shape
    simp [shape, h1, h2, h3, h4]
  · rw [(C15_rect _ w h).1]
    simp [strokes_moveTo, currentPosition_moveTo, newPoint_eq, strokes_nil]

/-- **C57.** A circle element gives a closed line of four curves around its centre, which differs from the circle by at most 0.03% of the radius. -/
theorem C57_circle (attrs : DMap ℝ) (children : List (Element ℝ)) (content : Text) (cx cy r : ℝ) (h1 : getFloat attrs "cx".toList = some cx)
    (h2 : getFloat attrs "cy".toList = some cy) (h3 : getFloat attrs "r".toList = some r) :
    ∃ p, elementToPath (.mk "circle".toList attrs children content) = .ok p ∧
      (∃ c1 d1 c2 d2 c3 d3 c4 d4, strokes p = [.curve (cx, cy - r) c1 d1 (cx + r, cy), .curve (cx + r, cy) c2 d2 (cx, cy + r),
        .curve (cx, cy + r) c3 d3 (cx - r, cy), .curve (cx - r, cy) c4 d4 (cx, cy - r)]) ∧
      ∀ q, Drawn p q → |r| ≤ dist2 q (cx, cy) ∧ dist2 q (cx, cy) ≤ 1.0003 * |r| := by
  have h1 : getFloat attrs ['c', 'x'] = some cx := h1
  have h2 : getFloat attrs ['c', 'y'] = some cy := h2
  have h3 : getFloat attrs ['r'] = some r := h3
  refine ⟨circle (moveTo [] (newPoint (cx -. r) (cy -. r))) r, ?_, ?_, ?_⟩
  · apply elementToPath_shape
    simp [shape, h1, h2, h3]
  · obtain ⟨c1, d1, c2, d2, c3, d3, c4, d4, h, _⟩ := C15_circle_closes (moveTo [] (newPoint (cx -. r) (cy -. r))) r
    refine ⟨c1, d1, c2, d2, c3, d3, c4, d4, ?_⟩
    rw [h]
    have e1 : cx - r + r = cx := by ring
    have e2 : cx - r + 2 * r = cx + r := by ring
    have e3 : cy - r + r = cy := by ring
    have e4 : cy - r + 2 * r = cy + r := by ring
    simp [strokes_moveTo, currentPosition_moveTo, newPoint_eq, strokes_nil, e1, e2, e3, e4]
  · intro q hq
    have e1 : moveTo ([] : Path ℝ) (newPoint (cx -. r) (cy -. r)) = [.move origin ⟨cx - r, cy - r, -1⟩] := by
      simp [moveTo, newPoint_eq, currentPosition, addSegment]
    rw [e1] at hq
    have := C15_circle_round r (cx - r) (cy - r) (-1) q hq
    rwa [sub_add_cancel, sub_add_cancel] at this

/-- The names of the elements that are no groups. -/
def shapeNames : List Text := ["path".toList, "circle".toList, "rect".toList, "line".toList, "elipse".toList, "polyline".toList, "polygon".toList]

theorem shape_group {F : Type*} [Trig F] (name : Text) (hn : name ∉ shapeNames) (attrs : DMap F) (children : Res (List (Path F))) :
    shape name attrs children = match children with | .ok ps => simpleJoin ps | .err => .err | .panic => .panic := by
  simp only [shapeNames, List.mem_cons, List.not_mem_nil, or_false, not_or] at hn
  obtain ⟨n1, n2, n3, n4, n5, n6, n7⟩ := hn
  unfold shape
  rw [if_neg (show ¬name = ['p', 'a', 't', 'h'] from n1), if_neg (show ¬name = ['c', 'i', 'r', 'c', 'l', 'e'] from n2),
    if_neg (show ¬name = ['r', 'e', 'c', 't'] from n3), if_neg (show ¬name = ['l', 'i', 'n', 'e'] from n4),
    if_neg (by rintro (h | h | h) <;> [exact n5 h; exact n6 h; exact n7 h])]
  cases children <;> rfl

theorem childPaths_ok {F : Type*} [Trig F] (l : List (Element F)) (ps : List (Path F)) :
    childPaths l = .ok ps ↔ List.Forall₂ (fun c p => elementToPath c = .ok p) l ps := by
  induction l generalizing ps with
  | nil => simp [childPaths, eq_comm]
  | cons c l ih =>
    rw [childPaths]
    cases e : elementToPath c with
    | err => simp [List.forall₂_cons_left_iff, e]
    | panic => simp [List.forall₂_cons_left_iff, e]
    | ok p =>
      cases e' : childPaths l with
      | ok qs =>
        simp only [List.forall₂_cons_left_iff, e, Res.ok.injEq]
        constructor
        · rintro rfl
          exact ⟨p, qs, rfl, (ih qs).1 e', rfl⟩
        · rintro ⟨p', qs', rfl, h, rfl⟩
          have := (ih qs').2 h
          rw [e'] at this
          simpa using this
      | err =>
        simp only [List.forall₂_cons_left_iff, e, reduceCtorEq, false_iff]
        rintro ⟨p', qs', _, h, _⟩
        have := (ih qs').2 h
        rw [e'] at this
        cases this
      | panic =>
        simp only [List.forall₂_cons_left_iff, e, reduceCtorEq, false_iff]
        rintro ⟨p', qs', _, h, _⟩
        have := (ih qs').2 h
        rw [e'] at this
        cases this

/-- **C57.** Every other element gives the strokes of all its children, in their order, provided that each of them can be imported. -/
theorem C57_group (name : Text) (hn : name ∉ shapeNames) (attrs : DMap ℝ) (children : List (Element ℝ)) (hc : children ≠ []) (content : Text) (p : Path ℝ) :
    elementToPath (.mk name attrs children content) = .ok p →
      ∃ ps, List.Forall₂ (fun c q => elementToPath c = .ok q) children ps ∧ strokes p = ps.flatMap strokes := by
  have hs := shape_group name hn attrs (childPaths children)
  rw [C57_path, hs]
  intro h
  cases e : childPaths children with
  | err => rw [e] at h; cases h
  | panic => rw [e] at h; cases h
  | ok ps =>
    rw [e] at h
    have hf := (childPaths_ok children ps).1 e
    refine ⟨ps, hf, ?_⟩
    cases ps with
    | nil =>
      cases hf
      exact absurd rfl hc
    | cons q ps =>
      simp only [simpleJoin, Res.ok.injEq] at h
      subst h
      have key : ∀ (ps : List (Path ℝ)) (acc : Path ℝ), strokes (ps.foldl appendPath acc) = strokes acc ++ ps.flatMap strokes := by
        intro ps
        induction ps with
        | nil => intro _; simp
        | cons q ps ih => intro acc; simp [ih, strokes_appendPath]
      rw [key, clonePath, strokes_clones]
      rfl

/-- **C57.** And if each of the children can be imported, the element can. -/
theorem C57_group_ok (name : Text) (hn : name ∉ shapeNames) (attrs : DMap ℝ) (children : List (Element ℝ)) (hc : children ≠ []) (content : Text)
    (h : ∀ c ∈ children, ∃ q, elementToPath c = .ok q) : ∃ p, elementToPath (.mk name attrs children content) = .ok p := by
  have hs := shape_group name hn attrs (childPaths children)
  have : ∃ ps, childPaths children = .ok ps := by
    clear hs hc
    induction children with
    | nil => exact ⟨[], rfl⟩
    | cons c l ih =>
      obtain ⟨q, hq⟩ := h c (by simp)
      obtain ⟨ps, hps⟩ := ih fun x hx => h x (List.mem_cons_of_mem _ hx)
      exact ⟨q :: ps, by rw [childPaths, hq]; simp [hps]⟩
  obtain ⟨ps, hps⟩ := this
  rw [C57_path, hs, hps]
  cases ps with
  | nil =>
    have := (childPaths_ok children []).1 hps
    cases this
    exact absurd rfl hc
  | cons q ps => exact ⟨_, rfl⟩

/-- A group of a rectangle and a line. -/
example : ∃ p, elementToPath (.mk ['g'] [] [
      .mk "rect".toList [(['x'], .str ['0']), (['y'], .str ['0']), ("width".toList, .str ['5']), ("height".toList, .str ['1'])] [] [],
      .mk "line".toList movedLine [] []] []) = .ok p ∧ (strokes p).length = 5 := by
  obtain ⟨r, hr, hrs⟩ := C57_rect [(['x'], .str ['0']), (['y'], .str ['0']), ("width".toList, .str ['5']), ("height".toList, .str ['1'])] [] [] 0 0 5 1
    toFloat_zero toFloat_zero toFloat_five toFloat_one
  obtain ⟨l, hl, hls⟩ := C57_line movedLine [] [] 0 0 1 0 toFloat_zero toFloat_zero toFloat_one toFloat_zero
  have hn : (['g'] : Text) ∉ shapeNames := by decide +kernel
  obtain ⟨p, hp⟩ := C57_group_ok ['g'] hn [] [
      .mk "rect".toList [(['x'], .str ['0']), (['y'], .str ['0']), ("width".toList, .str ['5']), ("height".toList, .str ['1'])] [] [],
      .mk "line".toList movedLine [] []] (by simp) [] (by
        intro c hc
        rcases List.mem_cons.1 hc with rfl | hc
        · exact ⟨r, hr⟩
        · rw [List.mem_singleton.1 hc]
          exact ⟨l, hl⟩)
  refine ⟨p, hp, ?_⟩
  obtain ⟨ps, hf, hst⟩ := C57_group ['g'] hn [] _ (by simp) [] p hp
  cases hf with
  | cons h1 hf =>
    cases hf with
    | cons h2 hf =>
      cases hf
      rw [hr] at h1
      rw [hl] at h2
      cases h1
      cases h2
      rw [hst]
      simp [hrs, hls]

end Verif.Xml
