import Verif.Model.Path
import Verif.NumClass

/-!
# Model of `path/draw.go`

A `Draw` is a path that grows at its end; every drawing function takes the path drawn so far and returns the new one.
-/

namespace Verif.Path

open Verif

universe u

variable {F : Type u}

section Basic

variable [Arith F]

/-- path/draw.go:66-72 (`MoveTo`). -/
def moveTo (p : Path F) (pt : Point F) : Path F := p ++ [.move (currentPosition p) pt]

/-- path/draw.go:175-181 (`LineTo`). -/
def lineTo (p : Path F) (pt : Point F) : Path F := p ++ [.line (currentPosition p) pt]

/-- path/draw.go:158-166 (`CurveTo`). -/
def curveTo (p : Path F) (c1 c2 pt : Point F) : Path F := p ++ [.curve (currentPosition p) c1 c2 pt]

/-- path/draw.go:73-79 (`ToAbsPosition`). -/
def toAbs (p : Path F) (d : Point F) : Point F :=
  newPoint ((currentPosition p).x +. d.x) ((currentPosition p).y +. d.y)

/-- path/draw.go:82-86 (`RelMoveTo`). -/
def relMoveTo (p : Path F) (d : Point F) : Path F := moveTo p (toAbs p d)

/-- path/draw.go:169-172 (`RelLineTo`). -/
def relLineTo (p : Path F) (d : Point F) : Path F := lineTo p (toAbs p d)

/-- path/draw.go:148-154 (`RelCurveTo`). -/
def relCurveTo (p : Path F) (c1 c2 d : Point F) : Path F := curveTo p (toAbs p c1) (toAbs p c2) (toAbs p d)

/-- path/draw.go:98-114: the start control point of a smooth curve. -/
def smoothControl (p : Path F) : Point F :=
  let cur := currentPosition p
  match p.getLast? with
  | some (.curve _ _ c2 _) => newPoint (cur.x +. (cur.x -. c2.x)) (cur.y +. (cur.y -. c2.y))
  | _ => newPoint cur.x cur.y

/-- path/draw.go:98-116 (`SmoothCurveTo`). -/
def smoothCurveTo (p : Path F) (c2 pt : Point F) : Path F := curveTo p (smoothControl p) c2 pt

/-- path/draw.go:90-94 (`RelSmoothCurveTo`). -/
def relSmoothCurveTo (p : Path F) (c2 d : Point F) : Path F := smoothCurveTo p (toAbs p c2) (toAbs p d)

/-- The constant `2.0/3.0`. -/
def twoThirds : F := Arith.two /. Arith.lit 3 0

/-- path/draw.go:128-144 (`QCurveTo`), with `current.X` in the ordinate of the first control point as in line 137. -/
def qCurveTo (p : Path F) (c pt : Point F) : Path F :=
  let cur := currentPosition p
  let cpx1 := cur.x +. twoThirds *. (c.x -. cur.x)
  let cpy1 := cur.y +. twoThirds *. (c.y -. cur.x)
  let cpx2 := pt.x +. twoThirds *. (c.x -. pt.x)
  let cpy2 := pt.y +. twoThirds *. (c.y -. pt.y)
  curveTo p (newPoint cpx1 cpy1) (newPoint cpx2 cpy2) pt

/-- path/draw.go:120-124 (`RelQCurveTo`). -/
def relQCurveTo (p : Path F) (c d : Point F) : Path F := qCurveTo p (toAbs p c) (toAbs p d)

/-- path/draw.go:244-249 (`Rect`). -/
def rect (p : Path F) (w h : F) : Path F :=
  let p := relLineTo p (newPoint w Arith.zero)
  let p := relLineTo p (newPoint Arith.zero h)
  let p := relLineTo p (newPoint (-. w) Arith.zero)
  relLineTo p (newPoint Arith.zero (-. h))

/-- path/draw.go:252-254 (`RelHLineTo`). -/
def relHLineTo (p : Path F) (dx : F) : Path F := relLineTo p (newPoint dx Arith.zero)

/-- path/draw.go:257-259 (`HLineTo`). -/
def hLineTo (p : Path F) (x : F) : Path F := lineTo p (newPoint x (currentPosition p).y)

/-- path/draw.go:262-264 (`RelVLineTo`). -/
def relVLineTo (p : Path F) (dy : F) : Path F := relLineTo p (newPoint Arith.zero dy)

/-- path/draw.go:267-269 (`VLineTo`). -/
def vLineTo (p : Path F) (y : F) : Path F := lineTo p (newPoint (currentPosition p).x y)

end Basic

section Precision

variable [Num F]

/-- path/util.go:380-388 (`PrecisionEquals`) with path/path.go:402-404 (`precisionStr`): equality of the numbers printed with `precision` decimals, or exact equality
for a negative precision. -/
def precisionEquals (a b : F) (precision : Int) : Bool :=
  if precision < 0 then a ==. b else Num.fmt precision.toNat a == Num.fmt precision.toNat b

/-- path/util.go:370-377 (`PrecisionCompare`). -/
def precisionCompare (a b : F) (precision : Int) : Int :=
  if precisionEquals a b precision then 0 else if a <. b then -1 else 1

/-- path/path.go:368-370 (`Point.StringPrecision`): the text `(X: %.nf, Y: %.nf)`. -/
def Point.stringPrecision (p : Point F) (n : Nat) : Text :=
  ['(', 'X', ':', ' '] ++ Num.fmt n p.x ++ [',', ' ', 'Y', ':', ' '] ++ Num.fmt n p.y ++ [')']

/-- path/path.go:384-389 (`Point.EqualsPrecision`). The Go code compares the texts of `stringPrecision`; those are equal exactly
when both numbers print the same (`stringPrecision_injective` in `Verif/Lemmas/PathText.lean`). -/
def Point.equalsPrecision (p q : Point F) (precision : Int) : Bool :=
  if precision < 0 then p.equals q
  else (Num.fmt precision.toNat p.x == Num.fmt precision.toNat q.x) &&
    (Num.fmt precision.toNat p.y == Num.fmt precision.toNat q.y)

end Precision

section Trigonometry

variable [Trig F]

/-- path/util.go:227-231 (`Distance`). -/
def distance (p q : Point F) : F :=
  let x := p.x -. q.x
  let y := p.y -. q.y
  Trig.sqrt ((x *. x) +. (y *. y))

/-- path/util.go:429-431 (`DegreesToRadians`). -/
def degreesToRadians (d : F) : F := (Trig.pi /. Arith.lit 180 0) *. d

/-- path/path.go:91-98 (`NewLineSegmentAngle`): the end point. -/
def lineAngleEnd (start : Point F) (length angle : F) : Point F :=
  let y := (length *. Trig.sin (degreesToRadians angle)) +. start.y
  let x := (length *. Trig.cos (degreesToRadians angle)) +. start.x
  newPoint x y

/-- path/draw.go:184-186 (`LineByAngle`). -/
def lineByAngle (p : Path F) (length angle : F) : Path F :=
  p ++ [.line (currentPosition p) (lineAngleEnd (currentPosition p) length angle)]

/-- path/path.go:192-196 (`Slope`). -/
def slope (a b : Point F) : F := (b.y -. a.y) /. (b.x -. a.x)

/-- path/path.go:212-215 (`YIntercept`). -/
def yIntercept (a b : Point F) : F := a.y -. slope a b *. a.x

/-- path/path.go:218-220 (`EvalX`). -/
def evalX (a b : Point F) (x : F) : F := slope a b *. x +. yIntercept a b

/-- path/path.go:228-254 (`PointAtDistance`) for the line from `a` to `b`; `DefaultPrecision` is 3. -/
def pointAtDistance (a b : Point F) (d : F) : Point F :=
  if precisionEquals a.x b.x 3 then
    let neg : F := if b.y <. a.y then Arith.lit (-1) 0 else Arith.one
    newPoint a.x (a.y +. (neg *. d))
  else if precisionEquals a.y b.y 3 then
    let neg : F := if b.x <. a.x then Arith.lit (-1) 0 else Arith.one
    newPoint (a.x +. (neg *. d)) a.y
  else
    let m := slope a b
    newPoint (d *. Trig.cos (Trig.atan m) +. a.x) (d *. Trig.sin (Trig.atan m) +. a.y)

/-- path/draw.go:199, 235: `4 * (math.Sqrt(2) - 1) / 3`. -/
def circleCtrl : F := Arith.lit 4 0 *. (Trig.sqrt Arith.two -. Arith.one) /. Arith.lit 3 0

/-- path/draw.go:196-228 (`RoundedCornerTo`). -/
def roundedCornerTo (p : Path F) (target corner : Point F) (radius : F) : Path F :=
  let s := currentPosition p
  let l1End := pointAtDistance s corner (distance s corner -. radius)
  let e1Start := pointAtDistance corner target radius
  let c1 := pointAtDistance l1End corner (distance l1End corner *. circleCtrl)
  let c2 := pointAtDistance e1Start corner (distance e1Start corner *. circleCtrl)
  lineTo (curveTo (lineTo p l1End) c1 c2 e1Start) target

/-- path/draw.go:188-192 (`RelRoundedCornerTo`). -/
def relRoundedCornerTo (p : Path F) (d dCorner : Point F) (radius : F) : Path F :=
  roundedCornerTo p (toAbs p d) (toAbs p dCorner) radius

/-- path/draw.go:233-241 (`Circle`). -/
def circle (p : Path F) (r : F) : Path F :=
  let ctrl := circleCtrl *. r
  let p := relMoveTo p (newPoint r Arith.zero)
  let p := relCurveTo p (newPoint ctrl Arith.zero) (newPoint r (r -. ctrl)) (newPoint r r)
  let p := relCurveTo p (newPoint Arith.zero ctrl) (newPoint (-. r +. ctrl) r) (newPoint (-. r) r)
  let p := relCurveTo p (newPoint (-. ctrl) Arith.zero) (newPoint (-. r) (-. r +. ctrl)) (newPoint (-. r) (-. r))
  relCurveTo p (newPoint Arith.zero (-. ctrl)) (newPoint (r -. ctrl) (-. r)) (newPoint r (-. r))

end Trigonometry

end Verif.Path
