import Verif.Model.Parts

/-!
# Model of the components that place copies: around, edges, intercepts and gears

components/around.go, components/basic_edge.go, components/xintercept.go, components/gear.go.

As in `Verif/Model/Parts.lean`, rendering a component is a function from the variables that the code sets before the call to a path or an
error, attributes are arguments, and the transforms that run afterwards (`HandleTransforms`) are left out.
-/

namespace Verif.Path

open Verif

universe u

set_option linter.unusedSectionVars false

variable {F : Type u} [Trig F]

/-! ### Around -/

/-- path/attributes.go:65-67 (`ToPathAttrFromPoint`). -/
def pointText (n : Nat) (p : Point F) : Text := Num.fmt n p.x ++ ',' :: Num.fmt n p.y

/-- components/around.go:67-70: the start and the end of the edge at the top. -/
def aroundEdge (num : Int) (radius : F) (center : Point F) : Point F × Point F :=
  let degrees := Arith.lit 360 0 /. Arith.lit num 0
  (lineAngleEnd center radius ((-. (degrees /. Arith.two)) -. Arith.lit 90 0),
    lineAngleEnd center radius ((degrees /. Arith.two) -. Arith.lit 90 0))

/-- components/around.go:94-118: the copy with the index `i`. -/
def aroundCopy (n : Nat) (num : Int) (center start : Point F) (p : Path F) (i : Nat) : Res (Path F) := do
  let q ← move start Attr.origin.text p
  rotate ((Arith.lit 360 0 /. Arith.lit num 0) *. Arith.lit i 0) (pointText n center) q

/-- components/around.go:49-123 (`AroundComponent.Render`). `n` is the precision, `render` renders the component that is repeated with the
length of an edge and an index; the index that the code sets (line 91) is always 0. -/
def around (n : Nat) (num : Int) (radius : F) (center : Point F) (render : F → Nat → Res (Path F)) : Res (Path F) :=
  if num = 0 then .err
  else if radius ==. Arith.zero then .err
  else
    let edge := aroundEdge num radius center
    let length := distance edge.1 edge.2
    match (List.range num.toNat).mapM (fun i => render length 0 >>= fun p => aroundCopy n num center edge.1 p i) with
    | .ok paths => simpleJoin paths
    | .err => .err
    | .panic => .panic

/-! ### Edges -/

/-- components/basic_edge.go:47-122 (`BasicEdgeComponent.Render`), without the global variables. The children are rendered with the length of
the edge as their width, each from where the one before it stopped. -/
def basicEdge (children : F → List (Point F → Res (Path F))) (cursor start stop : Point F) (handle : Text) : Res (Path F) := do
  let paths ← renderChildren (children (distance start stop)) cursor
  let p ← simpleJoin paths
  let axis ← pointAttribute handle p
  let p ← if !(lineAngle (start, stop) ==. Arith.zero) then rotate (lineAngle (start, stop)) handle p else .ok p
  .ok (shift (start.x -. axis.x) (start.y -. axis.y) p)

/-! ### Intercepts -/

/-- components/xintercept.go:88-116: the pairs of intercepts of one row. The state is the height of the last copy and the copies so far. -/
def interceptRow (n : Int) (render : Point F → Point F → F → Res (Path F)) : List (Point F) → F × List (Path F) → Res (F × List (Path F))
  | a :: b :: rest, st =>
    let length := b.x -. a.x
    if precisionEquals length Arith.zero n then interceptRow n render rest st
    else
      match render a b length with
      | .ok p => interceptRow n render rest ((measure p).2, st.2 ++ [p])
      | .err => .err
      | .panic => .panic
  | _, st => .ok st

/-- components/xintercept.go:80-117: the loop over the rows; `none` when it takes more than `fuel` turns. -/
def interceptRows (n : Int) (intercepts : F → Res (List (Point F))) (render : Point F → Point F → F → Res (Path F)) (bottom spacing : F) :
    Nat → F → F × List (Path F) → Option (Res (List (Path F)))
  | 0, _, _ => none
  | fuel + 1, y, st =>
    if y <=. bottom then
      match intercepts y >>= fun ps => interceptRow n render ps st with
      | .ok st' => interceptRows n intercepts render bottom spacing fuel ((y +. st'.1) +. spacing) st'
      | .err => some .err
      | .panic => some .panic
    else some (.ok st.2)

/-- components/xintercept.go:58-125 (`XInterceptComponent.Render`). The inner `none` is the result `nil, ctx, nil` of the code: no path and
no error. -/
def xIntercept (n : Int) (initial spacing : F) (outline : Res (Path F)) (render : Point F → Point F → F → Res (Path F)) (fuel : Nat) :
    Option (Res (Option (Path F))) :=
  if spacing ==. Arith.zero then some .err
  else
    match outline with
    | .panic => some .panic
    | .err => some (.ok none)
    | .ok o =>
      match whitespaceBox o with
      | .panic => some .panic
      | .err => some (.ok none)
      | .ok (tl, br) =>
        match interceptRows n (horizontalIntercepts n o) render br.y spacing fuel (tl.y +. initial) (Arith.zero, []) with
        | none => none
        | some .panic => some .panic
        | some .err => some (.ok none)
        | some (.ok []) => some .err
        | some (.ok (p :: ps)) =>
          match simpleJoin (p :: ps) with
          | .ok q => some (.ok (some q))
          | .err => some .err
          | .panic => some .panic

/-! ### Gears -/

/-- path/util.go:433-435 (`PolarToCartesian`). -/
def polarToCartesian (r theta : F) : Point F := newPoint (r *. Trig.sin theta) (r *. Trig.cos theta)

/-- components/gear.go:113-115 (`iang`). -/
def iang (r1 r2 : F) : F := Trig.sqrt (((r2 /. r1) *. (r2 /. r1)) -. Arith.one) -. Trig.acos (r1 /. r2)

/-- components/gear.go:108-110 (`q6`). -/
def involutePoint (b s t d : F) : Point F := polarToCartesian d (s *. (iang b d +. t))

/-- components/gear.go:118-121 (`q7`). -/
def flankPoint (f r b r2 t s : F) : Point F := involutePoint b s t (((Arith.one -. f) *. Num.max b r) +. (f *. r2))

/-- The attributes of a gear (components/gear.go:42-46). -/
structure GearSize (F : Type u) where
  teeth : Int
  toothWidth : F
  pressureAngle : F
  clearance : F
  backlash : F

namespace GearSize

variable (g : GearSize F)

/-- components/gear.go:49: the radius of the pitch circle. -/
def pitch : F := ((g.toothWidth *. Arith.lit g.teeth 0) /. Trig.pi) /. Arith.two

/-- components/gear.go:50: the radius of the outer circle. -/
def outer : F := (g.pitch +. (g.toothWidth /. Trig.pi)) -. g.clearance

/-- components/gear.go:47, 51: the radius of the base circle. -/
def base : F := g.pitch *. Trig.cos (degreesToRadians g.pressureAngle)

/-- components/gear.go:52: the radius of the root circle. -/
def root : F := (g.pitch -. (g.outer -. g.pitch)) -. g.clearance

/-- components/gear.go:53: the thickness of a tooth at the pitch circle. -/
def thickness : F := (g.toothWidth /. Arith.two) -. (g.backlash /. Arith.two)

/-- components/gear.go:54: the angle at which the flank leaves the base circle. -/
def flankAngle : F := (-. (iang g.base g.pitch)) -. ((g.thickness /. Arith.two) /. g.pitch)

/-- components/gear.go:58-66 (`tmp1`, `tmp2`): the angles of the two root points next to the flanks. -/
def footAngles : F × F :=
  if g.root <. g.base then (g.flankAngle, -. g.flankAngle)
  else ((-. Trig.pi) /. Arith.lit g.teeth 0, Trig.pi /. Arith.lit g.teeth 0)

/-- components/gear.go:69-82: the point of a flank with the index `k` out of 0 to 5. -/
def flank (s : F) (k : Nat) : Point F := flankPoint (Arith.lit k 0 /. Arith.lit 5 0) g.root g.base g.outer g.flankAngle s

/-- components/gear.go:67-84: the points of one tooth. The last one has 3.142 for π. -/
def tooth : List (Point F) :=
  [polarToCartesian g.root ((-. Trig.pi) /. Arith.lit g.teeth 0), polarToCartesian g.root g.footAngles.1] ++
    ([0, 1, 2, 3, 4, 5].map (g.flank Arith.one)) ++ ([5, 4, 3, 2, 1, 0].map (g.flank (-. Arith.one))) ++
    [polarToCartesian g.root g.footAngles.2, polarToCartesian g.root (Arith.lit 3142 3 /. Arith.lit g.teeth 0)]

/-- components/gear.go:88-90: a point turned to the tooth `i`. -/
def turned (i : Nat) (p : Point F) : Point F :=
  let angle := ((Arith.lit (-(i : Int)) 0 *. Arith.two) *. Trig.pi) /. Arith.lit g.teeth 0
  newPoint ((p.x *. Trig.cos angle) -. (p.y *. Trig.sin angle)) ((p.y *. Trig.cos angle) +. (p.x *. Trig.sin angle))

/-- components/gear.go:86-97: the corners in the order of the two loops. -/
def corners : List (Point F) := (List.range g.teeth.toNat).flatMap fun i => g.tooth.map (g.turned i)

/-- components/gear.go:85-99: the outline. -/
def outline : Path F :=
  let start := polarToCartesian g.root ((-. Trig.pi) /. Arith.lit g.teeth 0)
  match g.corners with
  | [] => lineTo [] start
  | c :: cs => lineTo (cs.foldl lineTo (moveTo [] c)) start

end GearSize

end Verif.Path
