import Verif.Num

/-!
# Model of `path/path.go` and of the list functions of `path/util.go`

A Go `Path` is a list of segments. The Go code passes slices around; functions that write to a slice are modelled as returning
the new list.
-/

namespace Verif.Path

open Verif

universe u

/-- path/path.go:15-21 (`Point`). `t` is the optional curve parameter of a point that came from an intersection. -/
structure Point (F : Type u) where
  x : F
  y : F
  t : F
deriving Repr, DecidableEq

/-- path/path.go:38-53 (`MoveSegment`, `LineSegment`, `CurveSegment`). The Go interface `Segment` has exactly these three
implementations. Note the order of the arguments of `curve`: start, start control, end control, end. -/
inductive Segment (F : Type u) where
  | move (start stop : Point F)
  | line (start stop : Point F)
  | curve (start control1 control2 stop : Point F)
deriving Repr, DecidableEq

/-- path/path.go:123-125 (`PathImpl`). -/
abbrev Path (F : Type u) := List (Segment F)

variable {F : Type u} [Arith F]

/-- path/path.go:337-347 (`NewPoint`): `-0.0` becomes `0`. -/
def newPoint (x y : F) : Point F :=
  ⟨if x ==. Arith.zero then Arith.zero else x, if y ==. Arith.zero then Arith.zero else y, Arith.lit (-1) 0⟩

/-- `NewPoint(0, 0)`. -/
def origin : Point F := newPoint Arith.zero Arith.zero

/-- The zero value of the Go struct `Point`. -/
def zeroPoint : Point F := ⟨Arith.zero, Arith.zero, Arith.zero⟩

/-- path/path.go:378-380 (`Point.Equals`). -/
def Point.equals (p q : Point F) : Bool := (p.x ==. q.x) && (p.y ==. q.y)

/-- path/path.go:391-393 (`Point.Clone`). -/
def Point.clone (p : Point F) : Point F := newPoint p.x p.y

namespace Segment

omit [Arith F] in
/-- path/path.go:150, 181, 283 (`Start`). -/
def start : Segment F → Point F
  | move s _ => s
  | line s _ => s
  | curve s _ _ _ => s

omit [Arith F] in
/-- path/path.go:158, 188, 292 (`End`). -/
def stop : Segment F → Point F
  | move _ e => e
  | line _ e => e
  | curve _ _ _ e => e

omit [Arith F] in
/-- path/util.go:220-223 (`IsMove`). -/
def isMove : Segment F → Bool
  | move _ _ => true
  | _ => false

omit [Arith F] in
/-- path/path.go:100-113 (`SetSegmentStart`); the error branch is unreachable, there being three kinds of segments. -/
def setStart : Segment F → Point F → Segment F
  | move _ e, p => move p e
  | line _ e, p => line p e
  | curve _ c1 c2 e, p => curve p c1 c2 e

/-- path/path.go:162-167, 263-268, 296-303 (`Clone`). -/
def clone : Segment F → Segment F
  | move s e => move s.clone e.clone
  | line s e => line s.clone e.clone
  | curve s c1 c2 e => curve s.clone c1.clone c2.clone e.clone

omit [Arith F] in
/-- path/segment_operators.go:70-93 (`TransformPoints`). -/
def mapPoints (f : Point F → Point F) : Segment F → Segment F
  | move s e => move (f s) (f e)
  | line s e => line (f s) (f e)
  | curve s c1 c2 e => curve (f s) (f c1) (f c2) (f e)

omit [Arith F] in
/-- path/segment_operators.go:306-331 (`Reverse`) and transforms/reverse.go:15-40 (`SegmentReverse`). -/
def reverse : Segment F → Segment F
  | move s e => move e s
  | line s e => line e s
  | curve s c1 c2 e => curve e c2 c1 s

end Segment

/-- path/path.go:141-149 (`PathImpl.Clone`). -/
def clonePath (p : Path F) : Path F := p.map Segment.clone

/-- path/util.go:206-217 (`FixHeadMove`): a leading move is made to start at the origin. -/
def fixHeadMove : List (Segment F) → List (Segment F)
  | .move s e :: rest =>
    if !(s.x ==. Arith.zero) || !(s.y ==. Arith.zero) then .move zeroPoint e :: rest else .move s e :: rest
  | segs => segs

/-- path/path.go:62-69 (`NewPathFromSegmentsWithoutMove`). -/
def newPathWithoutMove (segs : List (Segment F)) : Path F := fixHeadMove segs

/-- path/util.go:169-181 (`HeadMove`). -/
def headMove : List (Segment F) → List (Segment F)
  | [] => []
  | s :: rest => if s.isMove then s :: rest else .move origin s.start :: s :: rest

/-- path/path.go:71-87 (`NewPathFromSegments`). -/
def newPath (segs : List (Segment F)) : Path F := fixHeadMove (headMove segs)

omit [Arith F] in
/-- path/util.go:184-192 (`TrimTailMove`): all moves at the end are removed. The Go function removes the last segment while it is
a move; dropping from the reversed list is the same loop. -/
def trimTailMove (segs : List (Segment F)) : List (Segment F) :=
  (segs.reverse.dropWhile Segment.isMove).reverse

omit [Arith F] in
/-- path/util.go:195-203 (`TrimMove`). -/
def trimMove : List (Segment F) → List (Segment F)
  | [] => []
  | s :: rest => if s.isMove then trimMove rest else trimTailMove (s :: rest)

omit [Arith F] in
/-- path/util.go:411-418 (`IsEmptyPath`). -/
def isEmptyPath (p : Path F) : Bool := p.all Segment.isMove

omit [Arith F] in
/-- path/util.go:351-356 (`GetStartAndEnd`) for a non-empty list: where the first segment goes to, and the end. -/
def startAndEnd : List (Segment F) → Option (Point F × Point F)
  | [] => none
  | s :: rest => some (s.stop, ((s :: rest).getLast (by simp)).stop)

/-- path/draw.go:26-32 (`CurrentPosition`). -/
def currentPosition (p : Path F) : Point F :=
  match p.getLast? with
  | none => origin
  | some s => s.stop

/-- path/draw.go:43-64 (`AddSegment`). The path is the state of the `Draw`. -/
def addSegment (p : Path F) (seg : Segment F) : Path F :=
  let p := if p.isEmpty && !seg.isMove then [.move origin seg.start] else p
  let cur := currentPosition p
  let seg := if cur.equals seg.start then seg else seg.setStart cur
  p ++ [seg]

/-- path/draw.go:34-38 (`AddSegments`). -/
def addSegments (p : Path F) (segs : List (Segment F)) : Path F := segs.foldl addSegment p

/-- path/util.go:392-408 (`SplitPathOnMove`), the loop after the first segment: `p` is the piece being drawn, `paths` the finished
pieces. -/
def splitLoop : List (Segment F) → Path F → List (Path F) → List (Path F)
  | [], p, paths => if isEmptyPath p then paths else paths ++ [p]
  | c :: rest, p, paths =>
    if c.isMove then
      splitLoop rest (addSegment [] c) (if isEmptyPath p then paths else paths ++ [p])
    else splitLoop rest (addSegment p c) paths

/-- path/util.go:392-408 (`SplitPathOnMove`). -/
def splitPathOnMove : Path F → List (Path F)
  | [] => []
  | c :: rest => splitLoop rest (addSegment [] c) []

end Verif.Path
