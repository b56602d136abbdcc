import Verif.Model.PathText

/-!
# The drawing functions of `Draw` as data, and histories of calls
-/

namespace Verif.Path

open Verif

universe u

/-- A call of one of the drawing functions of `path/draw.go`. -/
inductive Cmd (F : Type u) where
  | moveTo (p : Point F)
  | relMoveTo (d : Point F)
  | lineTo (p : Point F)
  | relLineTo (d : Point F)
  | hLineTo (x : F)
  | relHLineTo (dx : F)
  | vLineTo (y : F)
  | relVLineTo (dy : F)
  | lineByAngle (length angle : F)
  | curveTo (c1 c2 p : Point F)
  | relCurveTo (c1 c2 d : Point F)
  | smoothCurveTo (c2 p : Point F)
  | relSmoothCurveTo (c2 d : Point F)
  | qCurveTo (c p : Point F)
  | relQCurveTo (c d : Point F)
  | roundedCornerTo (p corner : Point F) (radius : F)
  | relRoundedCornerTo (d corner : Point F) (radius : F)
  | circle (r : F)
  | rect (w h : F)
  | addSegment (s : Segment F)
  | addSegments (s : List (Segment F))
  | svgPath (s : Text)

variable {F : Type u} [Trig F]

/-- The effect of a call on the path. -/
def Cmd.run : Cmd F → Path F → Path F
  | .moveTo q, p => Path.moveTo p q
  | .relMoveTo d, p => Path.relMoveTo p d
  | .lineTo q, p => Path.lineTo p q
  | .relLineTo d, p => Path.relLineTo p d
  | .hLineTo x, p => Path.hLineTo p x
  | .relHLineTo dx, p => Path.relHLineTo p dx
  | .vLineTo y, p => Path.vLineTo p y
  | .relVLineTo dy, p => Path.relVLineTo p dy
  | .lineByAngle l a, p => Path.lineByAngle p l a
  | .curveTo c1 c2 q, p => Path.curveTo p c1 c2 q
  | .relCurveTo c1 c2 d, p => Path.relCurveTo p c1 c2 d
  | .smoothCurveTo c2 q, p => Path.smoothCurveTo p c2 q
  | .relSmoothCurveTo c2 d, p => Path.relSmoothCurveTo p c2 d
  | .qCurveTo c q, p => Path.qCurveTo p c q
  | .relQCurveTo c d, p => Path.relQCurveTo p c d
  | .roundedCornerTo q c r, p => Path.roundedCornerTo p q c r
  | .relRoundedCornerTo d c r, p => Path.relRoundedCornerTo p d c r
  | .circle r, p => Path.circle p r
  | .rect w h, p => Path.rect p w h
  | .addSegment s, p => Path.addSegment p s
  | .addSegments s, p => Path.addSegments p s
  | .svgPath s, p => Path.svgPath p s

/-- A history of calls on a fresh `Draw`. -/
def runAll (cmds : List (Cmd F)) : Path F := cmds.foldl (fun p c => c.run p) []

end Verif.Path
