import Verif.Spec.Centre
import Verif.Props.Rectangle

/-!
# Property C162: what is moved by its middle to the middle of a rectangle has equal margins
-/

set_option linter.unusedSectionVars false
set_option linter.unusedSimpArgs false

namespace Verif.Render

open Verif Verif.Dyn Verif.Path Verif.PlanSet Verif.Svg Verif.Files Verif.Xml Verif.Spec

/-- **C162.** A drawing that is moved by its middle to the middle of a rectangle of this width and height keeps its form and has the same distance to the left and to the right, and
the same above and below. -/
theorem C162_margins (p : Path ℝ) (hne : strokes p ≠ []) (hs : Small p) (w h : ℝ) : ∃ dx dy : ℝ,
    move (finPt (newPoint (w / 2) (h / 2))) Attr.middleMiddle.text (finPath p) = .ok (finPath (shift dx dy p)) ∧
    ∃ tl br : Pt ℝ, BoxOf (Drawn (shift dx dy p)) tl br ∧ tl.1 - 0 = w - br.1 ∧ tl.2 - 0 = h - br.2 := by
  obtain ⟨dx, dy, h1, tl, br, h2, h3⟩ := C28_move p hne hs .middleMiddle (by decide) (newPoint (w / 2) (h / 2))
  rw [pt_newPoint, Prod.mk.injEq] at h3
  exact ⟨dx, dy, h1, tl, br, h2, by linarith [h3.1], by linarith [h3.2]⟩

/-- The box of a rectangle. -/
theorem box_sides {p : Path ℝ} {o : Oblong} {q : Pt ℝ} (hw : 0 < o.width) (hh : 0 < o.height) (h : strokes p = o.sides q) :
    BoxOf (Drawn p) q (q.1 + o.width, q.2 + o.height) := by
  have corner : ∀ a b, Stroke.line a b ∈ o.sides q → Drawn p a := fun a b hm => ⟨.line a b, by rw [h]; exact hm, 0, le_rfl, zero_le_one, by simp [Stroke.at]⟩
  have c1 := corner q (q.1 + o.width, q.2) (by simp [Oblong.sides])
  have c3 := corner (q.1 + o.width, q.2 + o.height) (q.1, q.2 + o.height) (by simp [Oblong.sides])
  refine ⟨?_, ⟨_, c1, rfl⟩, ⟨_, c3, rfl⟩, ⟨_, c1, rfl⟩, ⟨_, c3, rfl⟩⟩
  rintro z ⟨st, hst, t, t0, t1, rfl⟩
  rw [h] at hst
  simp only [Oblong.sides, List.mem_cons, List.not_mem_nil, or_false] at hst
  have m1 := mul_nonneg t0 hw.le
  have m2 := mul_nonneg t0 hh.le
  have m3 := mul_nonneg (sub_nonneg.mpr t1) hw.le
  have m4 := mul_nonneg (sub_nonneg.mpr t1) hh.le
  rcases hst with rfl | rfl | rfl | rfl <;> simp only [Stroke.at] <;> refine ⟨?_, ?_, ?_, ?_⟩ <;> nlinarith

/-- **C162.** A rectangular hole that is drawn anywhere and moved by its middle to the middle of a rectangle is the hole in the middle. -/
theorem C162_hole (p : Path ℝ) (o : Oblong) (q : Pt ℝ) (hw : 0 < o.width) (hh : 0 < o.height) (hp : strokes p = o.sides q) (w h : ℝ) : ∃ r : Path ℝ,
    move (finPt (newPoint (w / 2) (h / 2))) Attr.middleMiddle.text (finPath p) = .ok (finPath r) ∧
    strokes r = o.sides ((w - o.width) / 2, (h - o.height) / 2) := by
  have hne : strokes p ≠ [] := by
    rw [hp]
    simp [Oblong.sides]
  have hs : Small p := by
    intro a c d b hm
    rw [hp] at hm
    simp [Oblong.sides] at hm
  obtain ⟨dx, dy, h1, tl, br, h2, h3, h4⟩ := C162_margins p hne hs w h
  have k : strokes (shift dx dy p) = o.sides (translate dx dy q) := by
    rw [C27_shift, hp]
    simp only [Oblong.sides, List.map_cons, List.map_nil, Stroke.map, translate]
    congr! 3 <;> ring_nf
  obtain ⟨e1, e2⟩ := (box_sides hw hh k).unique h2
  refine ⟨_, h1, ?_⟩
  rw [k]
  congr 1
  rw [← e1, ← e2] at h3 h4
  simp only at h3 h4
  ext
  · simp only
    linarith
  · simp only
    linarith

/-- **C162.** A rectangle that is drawn wherever the cursor is and is moved as in the shipped design is the hole in the middle. -/
theorem C162_drawing (toInt : XNum ℝ → Int) (fuel : Nat) (tm : TransformMap (XNum ℝ)) (w h : ℝ) (ht : ToMiddle tm w h) (o : Oblong) (hw : 0 < o.width) (hh : 0 < o.height)
    (cursor : Point ℝ) : ∃ p r : Path ℝ, drawRender (finPt cursor) [rectCommand (.fin o.width) (.fin o.height)] = .ok (finPath p) ∧
      finish toInt fuel [tm] (finPath p) = .ok (finPath r) ∧ strokes r = o.sides ((w - o.width) / 2, (h - o.height) / 2) := by
  obtain ⟨p, h1, h2, -⟩ := rect_drawn o cursor
  obtain ⟨r, k1, k3⟩ := C162_hole p o (pt cursor) hw hh h2 w h
  refine ⟨p, r, h1, ?_, k3⟩
  have hne : finPath r ≠ [] := by
    intro e
    have e' : r = [] := by simpa [finPath] using e
    rw [e'] at k3
    cases k3
  obtain ⟨s, hs⟩ : ∃ s, (finPath r).getLast? = some s := ⟨_, List.getLast?_eq_getLast_of_ne_nil hne⟩
  have hk : Kind.ofText tm.name = some .move := by rw [ht.name]; decide +kernel
  have hm : tm.make toInt = some (.move (finPt (newPoint (w / 2) (h / 2))) Attr.middleMiddle.text) := by
    simp only [TransformMap.make, hk, ht.target, ht.handle, Option.map_some]
  have ha : makeAll toInt [tm] = some [.move (finPt (newPoint (w / 2) (h / 2))) Attr.middleMiddle.text] := by
    simp [makeAll, hm]
  simp only [finish, handleTransforms, ha, List.map_cons, List.map_nil, multiTransform, Transform.run, k1, hs]

/-- There is such a transform. -/
example : ∃ tm : TransformMap (XNum ℝ), ToMiddle tm 40 30 :=
  ⟨{ name := "move".toList, number := fun _ => none, point := fun _ => some (finPt (newPoint (40 / 2) (30 / 2))), text := fun _ => some Attr.middleMiddle.text, closeFlag := none },
    rfl, rfl, by
      have : acceptsAttr (F := XNum ℝ) Attr.middleMiddle.text = true := by
        unfold acceptsAttr
        rw [if_neg (by decide +kernel)]
        decide +kernel
      unfold TransformMap.handle
      dsimp only
      rw [Option.bind_some, if_pos this]
      rfl⟩

/-- A hole of 12 by 6 in a rectangle of 40 by 30, drawn with the cursor at (3, 7), begins at (14, 12). -/
example (toInt : XNum ℝ → Int) (tm : TransformMap (XNum ℝ)) (ht : ToMiddle tm 40 30) : ∃ p r : Path ℝ,
    drawRender (finPt (newPoint 3 7)) [rectCommand (.fin 12) (.fin 6)] = .ok (finPath p) ∧
    finish toInt 5 [tm] (finPath p) = .ok (finPath r) ∧ strokes r = (Oblong.mk 12 6).sides (14, 12) := by
  obtain ⟨p, r, h1, h2, h3⟩ := C162_drawing toInt 5 tm 40 30 ht ⟨12, 6⟩ (by norm_num) (by norm_num) (newPoint 3 7)
  refine ⟨p, r, h1, h2, ?_⟩
  rw [h3]
  norm_num

end Verif.Render
