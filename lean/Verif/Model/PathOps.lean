import Verif.Model.Bezier
import Verif.Model.PathText

/-!
# Model of `path/segment_operators.go`, of the geometry in `path/path.go` and `path/util.go`, and of `path/attributes.go`

`n` is the number of decimals that the code calls the precision.
-/

namespace Verif

universe u

/-- The result of a Go function that can return an error or panic. -/
inductive Res (α : Type u) where
  | ok (a : α)
  | err
  | panic
deriving Repr, DecidableEq

namespace Res

def bind {α β : Type u} : Res α → (α → Res β) → Res β
  | ok a, f => f a
  | err, _ => err
  | panic, _ => panic

instance : Monad Res where
  pure := ok
  bind := bind

@[simp] theorem ok_bind {α β : Type u} (a : α) (f : α → Res β) : (ok a >>= f) = f a := rfl
@[simp] theorem err_bind {α β : Type u} (f : α → Res β) : ((err : Res α) >>= f) = err := rfl
@[simp] theorem panic_bind {α β : Type u} (f : α → Res β) : ((panic : Res α) >>= f) = panic := rfl
@[simp] theorem pure_eq {α : Type u} (a : α) : (pure a : Res α) = ok a := rfl

end Res

end Verif

namespace Verif.Path

open Verif

universe u

variable {F : Type u}

section Printing

variable [Num F]

/-- One point in a `UniqueString`. -/
def pairText (n : Nat) (p : Point F) : Text := ['('] ++ Num.fmt n p.x ++ [',', ' '] ++ Num.fmt n p.y ++ [')']

/-- path/path.go:173-180, 274-281, 315-326 (`UniqueString`). -/
def uniqueString (n : Nat) : Segment F → Text
  | .move s e => ['M', 'O', 'V', 'E', ' '] ++ pairText n s ++ [' '] ++ pairText n e
  | .line s e => ['L', 'I', 'N', 'E', ' '] ++ pairText n s ++ [' '] ++ pairText n e
  | .curve s c1 c2 e =>
    ['C', 'U', 'R', 'V', 'E', ' '] ++ pairText n s ++ [' '] ++ pairText n c1 ++ [' '] ++ pairText n c2 ++ [' '] ++ pairText n e

end Printing

/-! ### Lines -/

section LinesPrinted

variable [Trig F]

/-- path/path.go:199-204 (`IsVerticalPrecision`). -/
def isVertical (n : Int) (l : Point F × Point F) : Bool := precisionEquals l.1.x l.2.x n

/-- path/path.go:206-210 (`IsHorizontalPrecision`). -/
def isHorizontal (n : Int) (l : Point F × Point F) : Bool := precisionEquals l.1.y l.2.y n

/-- path/util.go:271-301 (`LineIntersection`). -/
def lineIntersection (n : Int) (l1 l2 : Point F × Point F) : Option (Point F) :=
  if precisionEquals (slope l1.1 l1.2) (slope l2.1 l2.2) n then none
  else if isVertical n l1 then
    if isVertical n l2 then none else some (newPoint l1.1.x (evalX l2.1 l2.2 l1.1.x))
  else if isVertical n l2 then some (newPoint l2.1.x (evalX l1.1 l1.2 l2.1.x))
  else
    let x := (yIntercept l2.1 l2.2 -. yIntercept l1.1 l1.2) /. (slope l1.1 l1.2 -. slope l2.1 l2.2)
    let y := evalX l1.1 l1.2 x
    if Arith.isNaN x || Arith.isNaN y then none else some (newPoint x y)

/-- path/util.go:255-260 (`PrecisionPointInBoundingBox`). -/
def precisionPointInBox (n : Int) (tl br p : Point F) : Bool :=
  decide (0 ≤ precisionCompare p.x tl.x n) && decide (precisionCompare p.x br.x n ≤ 0) &&
    decide (0 ≤ precisionCompare p.y tl.y n) && decide (precisionCompare p.y br.y n ≤ 0)

end LinesPrinted

/-! ### Segments -/

section Segments

variable [Trig F]

/-- path/util.go:235-253 (`Parallel`). -/
def parallel (l : Point F × Point F) (d : F) : Point F × Point F :=
  let x1 := l.1.x
  let y1 := l.1.y
  let x2 := l.2.x
  let y2 := l.2.y
  let len := Trig.sqrt ((x1 -. x2) *. (x1 -. x2) +. (y1 -. y2) *. (y1 -. y2))
  (newPoint (x1 +. d *. (y2 -. y1) /. len) (y1 +. d *. (x1 -. x2) /. len),
   newPoint (x2 +. d *. (y2 -. y1) /. len) (y2 +. d *. (x1 -. x2) /. len))

/-- path/util.go:359-364 (`Rotate`). -/
def rotatePoint (degree : F) (p : Point F) : Point F :=
  let rad := -. (degree *. (Trig.pi /. Arith.lit 180 0))
  newPoint ((p.x *. Trig.cos rad) +. (p.y *. Trig.sin rad)) (((-. p.x) *. Trig.sin rad) +. (p.y *. Trig.cos rad))

/-- path/path.go:257-261 (`Angle`). -/
def lineAngle (l : Point F × Point F) : F :=
  (Arith.lit 180 0 /. Trig.pi) *. Trig.atan2 (l.2.y -. l.1.y) (l.2.x -. l.1.x)

omit [Trig F] in
/-- path/segment_operators.go:520-524 (`bPP`). -/
def toBez (p : Point F) : Bezier.Point F := ⟨p.x, p.y⟩

/-- path/segment_operators.go:514-518 (`bpP`). -/
def ofBez (p : Bezier.Point F) : Point F := newPoint p.x p.y

/-- path/segment_operators.go:509-513 (`tP`). -/
def pointAt (c : Bezier.Curve F) (t : F) : Point F := { ofBez (Bezier.findPoint c t) with t := t }

/-- path/segment_operators.go:525-532 (`bcC`). -/
def curveOf (c : Bezier.Curve F) : Segment F := .curve (ofBez c.p0) (ofBez c.p1) (ofBez c.p2) (ofBez c.p3)

omit [Trig F] in
/-- path/segment_operators.go:534-541 (`bCC`). -/
def bezOf (s c1 c2 e : Point F) : Bezier.Curve F := ⟨toBez s, toBez c1, toBez c2, toBez e⟩

/-- path/segment_operators.go:333-358, 552-556 (`BoundingBox`). -/
def segBox : Segment F → Point F × Point F
  | .curve s c1 c2 e =>
    let b := Bezier.boundingBox (bezOf s c1 c2 e)
    (newPoint b.1.x b.1.y, newPoint b.2.x b.2.y)
  | seg =>
    let a := seg.start
    let b := seg.stop
    let x := if b.x <. a.x then (b.x, a.x) else (a.x, b.x)
    let y := if b.y <. a.y then (b.y, a.y) else (a.y, b.y)
    (newPoint x.1 y.1, newPoint x.2 y.2)

/-- path/util.go:122-135: one box extended by another. -/
def growBox (b c : Point F × Point F) : Point F × Point F :=
  ({ b.1 with x := if c.1.x <. b.1.x then c.1.x else b.1.x, y := if c.1.y <. b.1.y then c.1.y else b.1.y },
   { b.2 with x := if b.2.x <. c.2.x then c.2.x else b.2.x, y := if b.2.y <. c.2.y then c.2.y else b.2.y })

/-- path/util.go:104-138 (`boundingBox`): moves are skipped, except in the first place. -/
def pathBox : Path F → Point F × Point F
  | [] => (zeroPoint, zeroPoint)
  | s :: rest => rest.foldl (fun b s => if s.isMove then b else growBox b (segBox s)) (segBox s)

/-- path/util.go:73-76 (`BoundingBoxTrimWhitespace`). -/
def trimmedBox (p : Path F) : Point F × Point F := pathBox (newPathWithoutMove (trimMove p))

/-- path/util.go:79-101 (`BoundingBoxWithWhitespace`): the empty path panics. -/
def whitespaceBox (p : Path F) : Res (Point F × Point F) :=
  match p, p.getLast? with
  | first :: _, some last =>
    let br := (pathBox p).2
    let tl : Point F := origin
    .ok ({ tl with x := if first.start.x <. tl.x then first.start.x else tl.x, y := if first.start.y <. tl.y then first.start.y else tl.y },
      { br with x := if br.x <. last.stop.x then last.stop.x else br.x, y := if br.y <. last.stop.y then last.stop.y else br.y })
  | _, _ => .panic

/-- path/segment_operators.go:558-566 (`IntersectLine`). -/
def curveLinePoints (s c1 c2 e : Point F) (l : Point F × Point F) : List (Point F) :=
  let c := bezOf s c1 c2 e
  (Bezier.intersectsLine c (toBez l.1) (toBez l.2)).map (pointAt c)

/-- path/segment_operators.go:570-578 (`IntersectProjectedLine`). -/
def curveProjectedPoints (s c1 c2 e : Point F) (l : Point F × Point F) : List (Point F) :=
  let c := bezOf s c1 c2 e
  (Bezier.intersectsProjectedLine c (toBez l.1) (toBez l.2)).map (pointAt c)

/-- path/segment_operators.go:404-424: the intersection of two lines. -/
def lineLinePoints (n : Int) (l1 l2 : Point F × Point F) : List (Point F) :=
  match lineIntersection n l1 l2 with
  | none => []
  | some p =>
    let b1 := segBox (.line l1.1 l1.2)
    let b2 := segBox (.line l2.1 l2.2)
    if !precisionPointInBox n b1.1 b1.2 p || !precisionPointInBox n b2.1 b2.2 p then [] else [p]

/-- path/segment_operators.go:360-402 (`Intersect`) and 580-590 (`IntersectCurve`, threshold `.5`). `none` is a search for the
intersections of two curves that is deeper than `fuel`. -/
def intersect (n : Int) (fuel : Nat) (s1 s2 : Segment F) : Option (List (Point F)) :=
  match s1, s2 with
  | .move _ _, _ => some []
  | _, .move _ _ => some []
  | .line a b, .line c d => some (lineLinePoints n (a, b) (c, d))
  | .line a b, .curve s c1 c2 e => some (curveLinePoints s c1 c2 e (a, b))
  | .curve s c1 c2 e, .line a b => some (curveLinePoints s c1 c2 e (a, b))
  | .curve s c1 c2 e, .curve s' c1' c2' e' =>
    let c := bezOf s c1 c2 e
    (Bezier.intersectsCurve (Arith.lit 5 1) fuel c (bezOf s' c1' c2' e')).map fun l => l.map fun v => pointAt c v.1

/-- path/segment_operators.go:543-550 (`getTfromPoint`). -/
def paramOf (c : Bezier.Curve F) (p : Point F) : F := if Arith.zero <. p.t then p.t else (Bezier.project c (toBez p)).2.2

/-- path/segment_operators.go:404-450, 592-604 (`Split`). -/
def split (seg : Segment F) (p : Point F) : List (Segment F) :=
  if p.equalsPrecision seg.start 7 || p.equalsPrecision seg.stop 7 then [seg]
  else
    match seg with
    | .curve s c1 c2 e =>
      let c := bezOf s c1 c2 e
      let t := paramOf c p
      if precisionEquals t Arith.zero 7 || precisionEquals t Arith.one 7 then [seg]
      else [curveOf (Bezier.splitCurve c t).1, curveOf (Bezier.splitCurve c t).2]
    | .move s e => [.move s p, .move p e]
    | .line s e => [.line s p, .line p e]

/-- path/segment_operators.go:452-507, 606-614 (`Offset`). Lines 494-504 need a result of several segments that begins with a move, which
there is none. -/
def offsetSegment (n : Int) (seg : Segment F) (d : F) : List (Segment F) :=
  if seg.start.equalsPrecision seg.stop n then []
  else
    match seg with
    | .curve s c1 c2 e => (Bezier.offset (bezOf s c1 c2 e) d).map curveOf
    | .move s e => [.move (parallel (s, e) (-. d)).1 (parallel (s, e) (-. d)).2]
    | .line s e => [.line (parallel (s, e) (-. d)).1 (parallel (s, e) (-. d)).2]

/-- path/segment_operators.go:103-131 (`JoinLines`). -/
def joinLines (n : Int) (l1 l2 : Point F × Point F) : List (Segment F) :=
  match lineIntersection n l1 l2 with
  | none =>
    if l1.2.equalsPrecision l2.1 n then [.line l1.1 l2.2] else [.line l1.1 l1.2, .line l2.1 l2.2]
  | some p => [.line l1.1.clone p.clone, .line p.clone l2.2]

/-- path/segment_operators.go:155-164, 207-216: the first of the points nearest to `p`. -/
def nearest (p : Point F) : List (Point F) → Point F → F → Point F
  | [], best, _ => best
  | q :: rest, best, d => if distance p q <. d then nearest p rest q (distance p q) else nearest p rest best d

/-- path/segment_operators.go:134-182 (`JoinLineAndCurve`). -/
def joinLineAndCurve (l : Point F × Point F) (s c1 c2 e : Point F) : List (Segment F) :=
  match curveProjectedPoints s c1 c2 e l with
  | [] => [.line l.1 l.2, .line l.2 s, .curve s c1 c2 e]
  | p :: rest =>
    let b := nearest l.2 (p :: rest) p (distance l.2 p)
    match split (.curve s c1 c2 e) b with
    | [_, second] => [.line l.1 b, second]
    | first :: _ => [.line l.1 b, first]
    | [] => []

/-- path/segment_operators.go:184-228 (`JoinCurveAndLine`). -/
def joinCurveAndLine (s c1 c2 e : Point F) (l : Point F × Point F) : List (Segment F) :=
  match curveProjectedPoints s c1 c2 e l with
  | [] => [.curve s c1 c2 e, .line e l.1, .line l.1 l.2]
  | p :: rest =>
    let b := nearest e (p :: rest) p (distance e p)
    match split (.curve s c1 c2 e) b with
    | first :: _ => [first, .line b l.2]
    | [] => []

/-- path/segment_operators.go:230-268 (`JoinCurves`). The branch that splits the curves at an intersection needs an error from
`Intersect`, which there is none; the result of the intersection is not used. -/
def joinCurves (s c1 c2 e s' c1' c2' e' : Point F) : List (Segment F) :=
  let m := newPoint (e.x +. (s'.x -. e.x)) (e.y +. (s'.y -. e.y))
  [.curve s c1 c2 m, .curve m c1' c2' e']

/-- path/segment_operators.go:270-304 (`Join`). -/
def joinSegments (n : Int) (s1 s2 : Segment F) : List (Segment F) :=
  if s1.stop.equalsPrecision s2.start n then [s1, s2.setStart s1.stop]
  else
    match s1, s2 with
    | .line a b, .line c d => joinLines n (a, b) (c, d)
    | .line a b, .curve s c1 c2 e => joinLineAndCurve (a, b) s c1 c2 e
    | .curve s c1 c2 e, .line a b => joinCurveAndLine s c1 c2 e (a, b)
    | .curve s c1 c2 e, .curve s' c1' c2' e' => joinCurves s c1 c2 e s' c1' c2' e'
    | _, _ => [s1, .line s1.stop.clone s2.stop.clone, s2]

/-- path/util.go:13-38 (`KnifeCut`) with a line as the knife, as everywhere in the code; `none` when the recursion is deeper than
`fuel`. -/
def knifeCut (n : Int) (knife : Point F × Point F) : Nat → Segment F → Option (List (Segment F))
  | 0, _ => none
  | fuel + 1, seg =>
    match intersect n 0 (.line knife.1 knife.2) seg with
    | none => none
    | some [] => some [seg]
    | some (p :: _) =>
      match split seg p with
      | [a, b] =>
        match knifeCut n knife fuel a, knifeCut n knife fuel b with
        | some l, some r => some (l ++ r)
        | _, _ => none
      | _ => some [seg]

/-- `sort.SliceStable` by abscissa: insertion before the first larger one. -/
def insertByX (p : Point F) : List (Point F) → List (Point F)
  | [] => [p]
  | q :: rest => if p.x <. q.x then p :: q :: rest else q :: insertByX p rest

def sortByX (l : List (Point F)) : List (Point F) := l.foldl (fun acc p => insertByX p acc) []

/-- path/util.go:42-71 (`HorizontalIntercepts`). -/
def horizontalIntercepts (n : Int) (p : Path F) (y : F) : Res (List (Point F)) :=
  match whitespaceBox p with
  | .ok (tl, br) =>
    .ok (sortByX (p.flatMap fun seg => (intersect n 0 (.line (newPoint tl.x y) (newPoint br.x y)) seg).getD []))
  | .err => .err
  | .panic => .panic

end Segments

/-! ### Attributes -/

/-- path/attributes.go:13-43 (`PathAttr`): the named points and sizes of a path. -/
inductive Attr where
  | topLeft | topRight | topMiddle | bottomLeft | bottomRight | bottomMiddle | middleLeft | middleRight | middleMiddle
  | startPoint | endPoint | cursor | startPosition | endPosition | width | height | origin
deriving Repr, DecidableEq

/-- path/attributes.go:17-43: the texts of the names. -/
def Attr.text : Attr → Text
  | .topLeft => "$TOP_LEFT".toList
  | .topRight => "$TOP_RIGHT".toList
  | .topMiddle => "$TOP_MIDDLE".toList
  | .bottomLeft => "$BOTTOM_LEFT".toList
  | .bottomRight => "$BOTTOM_RIGHT".toList
  | .bottomMiddle => "$BOTTOM_MIDDLE".toList
  | .middleLeft => "$MIDDLE_LEFT".toList
  | .middleRight => "$MIDDLE_RIGHT".toList
  | .middleMiddle => "$MIDDLE_MIDDLE".toList
  | .startPoint => "$START_POINT".toList
  | .endPoint => "$END_POINT".toList
  | .cursor => "$CURSOR".toList
  | .startPosition => "$START_POSITION".toList
  | .endPosition => "$END_POSITION".toList
  | .width => "$WIDTH".toList
  | .height => "$HEIGHT".toList
  | .origin => "$ORIGIN".toList

/-- path/attributes.go:45-63 (`enumAttr`). -/
def Attr.all : List Attr :=
  [.topLeft, .topRight, .topMiddle, .bottomLeft, .bottomRight, .bottomMiddle, .middleLeft, .middleRight, .middleMiddle, .startPoint,
   .endPoint, .cursor, .startPosition, .endPosition, .width, .height, .origin]

/-- The attribute with the given text. -/
def Attr.ofText (s : Text) : Option Attr := Attr.all.find? fun a => decide (a.text = s)

/-- `strings.Split(s, sep)` for a separator of one character. -/
def splitOn (sep : Char) : Text → Text → List Text
  | [], acc => [acc.reverse]
  | c :: rest, acc => if c = sep then acc.reverse :: splitOn sep rest [] else splitOn sep rest (c :: acc)

section Attributes

variable [Trig F]

/-- path/attributes.go:96-111 (`parsePoint`). -/
def parsePoint (s : Text) : Option (Point F) :=
  match splitOn ',' s [] with
  | [a, b] =>
    match toFloat a, toFloat b with
    | some x, some y => some (newPoint x y)
    | _, _ => none
  | _ => none

/-- path/attributes.go:69-80 (`ToPathAttr`): whether a text is accepted as an attribute. -/
def acceptsAttr (s : Text) : Bool :=
  if ',' ∈ s then (parsePoint s : Option (Point F)).isSome else (Attr.ofText s).isSome

/-- The values of attributes. -/
inductive Value (F : Type u) where
  | point (p : Point F)
  | number (x : F)
deriving Repr, DecidableEq

/-- path/attributes.go:120-189: the part of `PathAttribute` that is selected by the name before the first dot. The Boolean says whether
the rest of the name is looked at afterwards. -/
def namedValue (a : Attr) (p : Path F) : Res (Value F × Bool) :=
  let b := trimmedBox p
  let middleX := b.1.x +. ((b.2.x -. b.1.x) /. Arith.two)
  let middleY := b.1.y +. ((b.2.y -. b.1.y) /. Arith.two)
  match a with
  | .origin => .ok (.point Path.origin, false)
  | .width => .ok (.number (b.2.x -. b.1.x), false)
  | .height => .ok (.number (b.2.y -. b.1.y), false)
  | .startPosition => match p.head? with
    | none => .err
    | some s => .ok (.point s.start, false)
  | .endPosition => match p.getLast? with
    | none => .err
    | some s => .ok (.point s.stop, false)
  | .startPoint => match (trimMove p).head? with
    | none => .err
    | some s => .ok (.point s.start, false)
  | .endPoint => match (trimMove p).getLast? with
    | none => .err
    | some s => .ok (.point s.stop, false)
  | .topLeft => .ok (.point b.1, true)
  | .topRight => .ok (.point (newPoint b.2.x b.1.y), true)
  | .topMiddle => .ok (.point (newPoint middleX b.1.y), true)
  | .bottomRight => .ok (.point b.2, true)
  | .bottomLeft => .ok (.point (newPoint b.1.x b.2.y), true)
  | .bottomMiddle => .ok (.point (newPoint middleX b.2.y), true)
  | .middleMiddle => .ok (.point (newPoint middleX middleY), true)
  | .middleLeft => .ok (.point (newPoint b.1.x middleY), true)
  | .middleRight => .ok (.point (newPoint b.2.x middleY), true)
  | .cursor => .err

/-- path/attributes.go:113-198 (`PathAttribute`). -/
def pathAttribute (s : Text) (p : Path F) : Res (Value F) :=
  match (parsePoint s : Option (Point F)) with
  | some q => .ok (.point q)
  | none =>
    match splitOn '.' s [] with
    | [] => .err
    | name :: more =>
      match Attr.ofText name with
      | none => .err
      | some a =>
        match namedValue a p with
        | .err => .err
        | .panic => .panic
        | .ok (v, false) => .ok v
        | .ok (.number x, true) => .ok (.number x)
        | .ok (.point q, true) =>
          match more with
          | [] => .ok (.point q)
          | field :: _ =>
            if field = ['X'] then .ok (.number q.x) else if field = ['Y'] then .ok (.number q.y) else .err

/-- path/attributes.go:82-94 (`PointPathAttribute`). -/
def pointAttribute (s : Text) (p : Path F) : Res (Point F) :=
  match pathAttribute s p with
  | .ok (.point q) => .ok q
  | .ok (.number _) => .err
  | .err => .err
  | .panic => .panic

end Attributes

end Verif.Path
