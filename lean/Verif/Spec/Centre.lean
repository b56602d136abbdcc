import Verif.Spec.Rectangle
import Verif.Model.Factory

/-!
# Moving to the middle of a rectangle
-/

namespace Verif.Render

open Verif Verif.Dyn Verif.Path Verif.Spec

/-- The second transform of the hole in designs/common/rectangle_with_center_hole.hfd:49-56, without the offset before it. -/
structure ToMiddle (tm : TransformMap (XNum ℝ)) (w h : ℝ) : Prop where
  name : tm.name = "move".toList
  target : tm.point toKey = some (finPt (newPoint (w / 2) (h / 2)))
  handle : tm.handle handleKey Attr.topLeft.text = Attr.middleMiddle.text

end Verif.Render
