import Verif.Model.PathOps

/-!
# Model of the package `transforms` and of `path/transforms.go`

A transform that can fail returns a `Res`; the path that the Go code returns beside an error is dropped, since every caller stops at an
error. `n` is the precision, `so` the precision of the segment operators (3 in `NewSegmentOperators`, path/segment_operators.go:51-56).
-/

namespace Verif.Path

open Verif

universe u

variable {F : Type u}

/-- path/transforms.go:17-28 (`MultiTransform`). -/
def multiTransform {P : Type u} : List (P → Res P) → P → Res P
  | [], p => .ok p
  | t :: rest, p =>
    match t p with
    | .ok q => multiTransform rest q
    | .err => .err
    | .panic => .panic

section Points

variable [Arith F]

/-- The loop that all point transforms share (for instance transforms/shift.go:16-23): every point of every segment is mapped, and a path
is built from the segments. -/
def mapPath (f : Point F → Point F) (p : Path F) : Path F := newPath (p.map (Segment.mapPoints f))

/-- transforms/shift.go:12-25. -/
def shift (dx dy : F) (p : Path F) : Path F := mapPath (fun q => newPoint (q.x +. dx) (q.y +. dy)) p

/-- transforms/matrix.go:12-30. -/
def matrixTransform (a b c d e f : F) (p : Path F) : Path F :=
  mapPath (fun q => newPoint (q.x *. a +. q.y *. c +. e) (q.x *. b +. q.y *. d +. f)) p

/-- transforms/scale.go:65-82: the scaling itself. -/
def scaleBy (sx sy : F) (p : Path F) : Path F := mapPath (fun q => newPoint (q.x *. sx) (q.y *. sy)) p

/-- transforms/reverse.go:42-60 (`PathReverse`). -/
def reversePath (p : Path F) : Path F := addSegments [] (p.reverse.map Segment.reverse)

/-- transforms/join.go:169-180: the loop over the segments of one path, after the paths before it. -/
def appendPath (acc : Path F) : Path F → Path F
  | [] => acc
  | s :: rest =>
    let acc := match acc.getLast? with
      | none => acc
      | some prev => if prev.stop.equals s.stop then acc else acc ++ [.move prev.stop s.stop.clone]
    acc ++ (s :: rest).map Segment.clone

/-- transforms/join.go:163-183 (`SimpleJoin.JoinPaths`): no path at all panics. -/
def simpleJoin : List (Path F) → Res (Path F)
  | [] => .panic
  | p :: rest => .ok (rest.foldl appendPath (clonePath p))

end Points

section Cleaning

variable [Num F]

/-- transforms/cleanup.go:22-44: the loop after the first segment; `prev` is the end of the last segment that was kept. -/
def cleanupLoop (n : Int) (prev : Point F) : List (Segment F) → List (Segment F)
  | [] => []
  | s :: rest =>
    let s' := if s.start.equals prev then s else if s.start.equalsPrecision prev n then s.setStart prev else s
    let mv : List (Segment F) := if s.start.equals prev then [] else [.move prev s'.start]
    if Arith.isNaN s'.stop.x || Arith.isNaN s'.stop.y then mv ++ cleanupLoop n prev rest
    else mv ++ s' :: cleanupLoop n s'.stop rest

/-- transforms/cleanup.go:20-44: the whole loop. -/
def cleanupSegments (n : Int) : List (Segment F) → List (Segment F)
  | [] => []
  | s :: rest =>
    let mv : List (Segment F) := if s.isMove then [] else [.move zeroPoint s.start]
    if Arith.isNaN s.stop.x || Arith.isNaN s.stop.y then mv ++ cleanupLoop n zeroPoint rest
    else mv ++ s :: cleanupLoop n s.stop rest

omit [Num F] in
/-- transforms/cleanup.go:52-64: a move that follows a move replaces its target. -/
def mergeStep (acc : List (Segment F)) (s : Segment F) : List (Segment F) :=
  match s, acc.getLast? with
  | .move _ e, some (.move a _) => acc.dropLast ++ [.move a e]
  | _, _ => acc ++ [s]

omit [Num F] in
/-- transforms/cleanup.go:49-66: a run of moves becomes one move. -/
def mergeMoves : List (Segment F) → List (Segment F)
  | [] => []
  | s :: rest => rest.foldl mergeStep [s]

/-- transforms/cleanup.go:19-70. -/
def cleanup (n : Int) (p : Path F) : Path F := newPath (mergeMoves (fixHeadMove (cleanupSegments n p)))

/-- transforms/dedup.go:24-48: one step. The kept segments are in `acc`, the last one first; `none` is a panic. -/
def dedupStep (n : Nat) (acc : List (Segment F)) (cur : Segment F) : Option (List (Segment F)) :=
  match acc with
  | [] => none
  | prev :: older =>
    match cur with
    | .move _ e =>
      match prev with
      | .move a _ => some (.move a e :: older)
      | _ => if prev.stop.stringPrecision n = e.stringPrecision n then some acc else some (cur :: acc)
    | _ => if uniqueString n cur = uniqueString n prev.reverse then some older else some (cur :: acc)

/-- transforms/dedup.go:22-48: the loop. -/
def dedupLoop (n : Nat) : List (Segment F) → List (Segment F) → Option (List (Segment F))
  | acc, [] => some acc.reverse
  | acc, s :: rest =>
    match dedupStep n acc s with
    | none => none
    | some acc => dedupLoop n acc rest

/-- transforms/dedup.go:11-51 (`doTransform`). -/
def dedupOnce (n : Nat) (p : Path F) : Res (Path F) :=
  match p with
  | [] => .ok p
  | [_] => .ok p
  | s :: rest =>
    match dedupLoop n [s] rest with
    | none => .panic
    | some segs => .ok (newPath segs)

/-- transforms/dedup.go:59-73. -/
def dedup (n : Nat) (p : Path F) : Res (Path F) := do
  let p ← dedupOnce n p
  let p ← dedupOnce n p
  return cleanup n p

/-- transforms/rebuild.go:13-16. -/
def rebuild (p : Path F) : Res (Path F) :=
  match parsePath (printPath 7 p) with
  | none => .err
  | some q => .ok q

end Cleaning

section Geometry

variable [Trig F]

omit [Trig F] in
/-- The handle, which is `$TOP_LEFT` when it is empty (for instance transforms/move.go:17-20). -/
def handleOf (handle : Text) : Text := if handle = [] then Attr.topLeft.text else handle

/-- transforms/move.go:16-33. -/
def move (target : Point F) (handle : Text) (p : Path F) : Res (Path F) :=
  match pointAttribute (handleOf handle) p with
  | .ok h => .ok (shift (target.x -. h.x) (target.y -. h.y) p)
  | .err => .err
  | .panic => .panic

/-- transforms/trim_whitespace.go:12-24. -/
def trimWhitespace (p : Path F) : Path F := shift (-. (trimmedBox p).1.x) (-. (trimmedBox p).1.y) p

/-- transforms/rotate.go:13-59. -/
def rotate (degrees : F) (axis : Text) (p : Path F) : Res (Path F) :=
  match pointAttribute (handleOf axis) p with
  | .ok a =>
    match move origin (handleOf axis) p with
    | .ok q => .ok (shift a.x a.y (mapPath (rotatePoint degrees) q))
    | .err => .err
    | .panic => .panic
  | .err => .err
  | .panic => .panic

/-- transforms/mirror.go:8-13 (`Axis`). -/
inductive Axis where
  | horizontal | vertical
deriving Repr, DecidableEq

/-- transforms/mirror.go:46-57: the mapping of the points, where `br` is the bottom right of the box. -/
def mirrorPoint (axis : Axis) (br q : Point F) : Point F :=
  match axis with
  | .horizontal => { q.clone with y := br.y -. q.y }
  | .vertical => { q.clone with x := br.x -. q.x }

/-- transforms/mirror.go:21-77. -/
def mirror (axis : Axis) (handle : Text) (p : Path F) : Res (Path F) :=
  match pointAttribute (handleOf handle) p with
  | .ok a =>
    match move origin (handleOf handle) p with
    | .ok q =>
      match whitespaceBox q with
      | .ok (_, br) => .ok (shift a.x a.y (mapPath (mirrorPoint axis br) q))
      | .err => .err
      | .panic => .panic
    | .err => .err
    | .panic => .panic
  | .err => .err
  | .panic => .panic

/-- transforms/scale.go:10-20 (`ScaleTransform`). -/
structure Scale (F : Type u) where
  scaleX : F
  scaleY : F
  startPoint : Point F
  endPoint : Point F
  width : F
  height : F

/-- path/util.go:351-356 (`GetStartAndEnd`), with the zero points for an empty list. -/
def startAndEndOf (p : Path F) : Point F × Point F := (startAndEnd p).getD (zeroPoint, zeroPoint)

/-- transforms/scale.go:24-63: the factors. -/
def scaleFactors (st : Scale F) (p : Path F) : F × F :=
  if (Arith.zero <. st.width) || (Arith.zero <. st.height) then
    let b := trimmedBox p
    let curWidth := Num.abs (b.2.x -. b.1.x)
    let curHeight := Num.abs (b.2.y -. b.1.y)
    let x := if Arith.zero <. st.width then st.width /. curWidth else st.scaleX
    let y := if Arith.zero <. st.height then st.height /. curHeight else x
    let x := if st.width <=. Arith.zero then y else x
    (x, y)
  else if !st.startPoint.equals st.endPoint then
    let newX := Num.abs (st.endPoint.x -. st.startPoint.x)
    let newY := Num.abs (st.endPoint.y -. st.startPoint.y)
    let se := startAndEndOf p
    let oldX := Num.abs (se.2.x -. se.1.x)
    let oldY := Num.abs (se.2.y -. se.1.y)
    let x := newX /. oldX
    let y := newY /. oldY
    let x := if (newX ==. Arith.zero) || (oldX ==. Arith.zero) then y else x
    let y := if (newY ==. Arith.zero) || (oldY ==. Arith.zero) then x else y
    (x, y)
  else (st.scaleX, st.scaleY)

/-- transforms/scale.go:22-83. -/
def scale (st : Scale F) (p : Path F) : Path F := scaleBy (scaleFactors st p).1 (scaleFactors st p).2 p

/-- transforms/rotate_scale.go:15-28 (`line`). -/
def visibleLine (p : Path F) : Res (Point F × Point F) :=
  match pointAttribute Attr.startPoint.text p with
  | .ok a =>
    match pointAttribute Attr.endPoint.text p with
    | .ok b => .ok (a, b)
    | .err => .err
    | .panic => .panic
  | .err => .err
  | .panic => .panic

/-- transforms/rotate_scale.go:58-70: the factor. -/
def rotateScaleFactor (requested cur : Point F × Point F) : F :=
  let newX := Num.abs (requested.2.x -. requested.1.x)
  let newY := Num.abs (requested.2.y -. requested.1.y)
  let oldX := Num.abs (cur.2.x -. cur.1.x)
  let oldY := Num.abs (cur.2.y -. cur.1.y)
  let x : F := if oldX ==. Arith.zero then Arith.zero else newX /. oldX
  let y : F := if oldY ==. Arith.zero then Arith.zero else newY /. oldY
  Num.max x y

/-- transforms/rotate_scale.go:30-88. -/
def rotateScale (start stop : Point F) (p : Path F) : Res (Path F) := do
  let cur ← visibleLine p
  let q ← rotate (lineAngle (start, stop) -. lineAngle cur) Attr.topLeft.text p
  let cur ← visibleLine q
  let k := rotateScaleFactor (start, stop) cur
  move start Attr.startPoint.text (scale ⟨k, k, zeroPoint, zeroPoint, Arith.zero, Arith.zero⟩ q)

/-- transforms/path_reorder.go:20-35: the index of the first of the shortest distances, comparing with `<`. -/
def shortest (d : Path F → F) : List (Path F) → Nat → Nat → F → Nat
  | [], _, best, _ => best
  | q :: rest, i, best, bestD =>
    if d q <. bestD then shortest d rest (i + 1) i (d q) else shortest d rest (i + 1) best bestD

/-- transforms/path_reorder.go:13-64 (`doPath`) on a list that is not empty: the next path and the index it comes from. -/
def nextPath (n : Int) (p : Path F) (first : Path F) (rest : List (Path F)) : Path F × Nat :=
  let pts := first :: rest
  let stop := (startAndEndOf (trimTailMove p)).2
  let ds := fun q : Path F => distance stop (startAndEndOf q).1
  let de := fun q : Path F => distance stop (startAndEndOf q).2
  let i := shortest ds pts 0 0 (ds first)
  let j := shortest de pts 0 0 (de first)
  let pi := pts.getD i first
  let pj := pts.getD j first
  let r := if de pj <. ds pi then (reversePath pj, j, de pj) else (pi, i, ds pi)
  if precisionEquals r.2.2 Arith.zero n then (r.1, r.2.1) else (first, 0)

/-- transforms/path_reorder.go:78-87: the loop, in which `fuel` is the number of paths that are left. -/
def reorderLoop (n : Int) : Nat → Path F → List (Path F) → Path F
  | 0, p, _ => p
  | _, p, [] => p
  | fuel + 1, p, first :: rest =>
    let r := nextPath n p first rest
    reorderLoop n fuel (newPath (p ++ r.1)) ((first :: rest).eraseIdx r.2)

/-- transforms/path_reorder.go:68-89. -/
def reorder (n : Nat) (p : Path F) : Res (Path F) :=
  match splitPathOnMove p with
  | [] => .ok p
  | [_] => .ok p
  | first :: rest => dedup n (reorderLoop n rest.length first rest)

omit [Trig F] in
/-- The start of the first segment (or the zero point). -/
def firstStart [Arith F] (p : Path F) : Point F := (p.head?.map Segment.start).getD zeroPoint

/-- transforms/join.go:43-64: the shortest of the four distances, in this order. -/
def shortestOf (ss se es ee : F) : F :=
  let m := ss
  let m := if se <. m then se else m
  let m := if es <. m then es else m
  if ee <. m then ee else m

/-- transforms/join.go:104-120: the end of `p1` joined with the start of `p2`. -/
def joinEnds (n so : Int) (p1 : Path F) (s1 s2 : Segment F) : Path F :=
  p1.dropLast ++ (if s1.stop.equalsPrecision s2.start n then [s1, s2.setStart s1.stop] else joinSegments so s1 s2)

/-- transforms/join.go:21-123 (`join`). `none` stands for a deeper recursion than `fuel`. -/
def joinLoop (n so : Int) : Nat → Path F → Path F → Option (Path F)
  | 0, _, _ => none
  | fuel + 1, pth1, pth2 =>
    let p1 := newPathWithoutMove (trimMove pth1)
    let p2 := newPathWithoutMove (trimMove pth2)
    match p2 with
    | [] => some p1
    | s2 :: rest2 =>
      match p1.getLast? with
      | none => joinLoop n so fuel (newPathWithoutMove (p1 ++ [s2])) (newPathWithoutMove rest2)
      | some s1 =>
        let p1s := firstStart p1
        let p1e := (startAndEndOf p1).2
        let p2s := s2.start
        let p2e := (startAndEndOf p2).2
        let ss := distance p1s p2s
        let se := distance p1s p2e
        let es := distance p1e p2s
        let ee := distance p1e p2e
        let m := shortestOf ss se es ee
        if m ==. es then joinLoop n so fuel (newPathWithoutMove (joinEnds n so p1 s1 s2)) (newPathWithoutMove rest2)
        else if m ==. ee then joinLoop n so fuel p1 (reversePath p2)
        else if m ==. ss then joinLoop n so fuel (reversePath p1) p2
        else if m ==. se then joinLoop n so fuel (reversePath p1) (reversePath p2)
        else joinLoop n so fuel (newPathWithoutMove (joinEnds n so p1 s1 s2)) (newPathWithoutMove rest2)

/-- transforms/join.go:138-152: closing a path. The Go code computes a list of segments and then returns the path whose array it has
written to: the first segment is replaced by the last one of the joined pair and the last segment by the first one. The segments
between, if there are any, go beyond the end of that path. -/
def closePath (so : Int) (p : Path F) : Path F :=
  match p.head?, p.getLast? with
  | some first, some last =>
    let closed := joinSegments so last first
    ((p.set 0 (closed.getLast?.getD first)).dropLast) ++ [closed.head?.getD last]
  | _, _ => p

/-- transforms/join.go:125-158. The recursion is never deeper than twice the number of segments (`joinLoop_terminates` in
`Verif/Lemmas/Join.lean`). -/
def join (n : Nat) (so : Int) (close : Bool) (p : Path F) : Res (Path F) := do
  let q ← dedup n p
  let q ← reorder n q
  match joinLoop n so (2 * q.length + 2) [] q with
  | none => .panic
  | some r => return newPath (if close then closePath so r else r)

/-- transforms/offset.go:7-13 (`SizeShouldBe`). -/
inductive SizeShouldBe where
  | unknown | smaller | larger
deriving Repr, DecidableEq

/-- transforms/offset.go:47-61: the offset of every stroke, each after a move. -/
def offsetSegments (so : Int) (d : F) (p : Path F) : List (Segment F) :=
  p.flatMap fun s =>
    if s.isMove then []
    else match offsetSegment so s d with
      | [] => []
      | t :: rest => .move zeroPoint t.start :: t :: rest

/-- transforms/offset.go:40-78: the offset of a path without regard to the size. -/
def offsetPlain (n : Nat) (so : Int) (d : F) (p : Path F) : Res (Path F) := do
  let close := match (trimMove p).head?, (trimMove p).getLast? with
    | some a, some b => a.start.equals b.stop
    | _, _ => false
  let q ← rebuild (newPath (offsetSegments so d p))
  join n so close q

/-- transforms/offset.go:80-112: whether the offset must be done on the other side. -/
def wrongSide (size : SizeShouldBe) (p q : Path F) : Bool :=
  let ob := trimmedBox p
  let nb := trimmedBox q
  let oX := ob.2.x -. ob.1.x
  let oY := ob.2.y -. ob.1.y
  let nX := nb.2.x -. nb.1.x
  let nY := nb.2.y -. nb.1.y
  match size with
  | .unknown => false
  | .smaller => (oX <=. nX) || (oY <=. nY)
  | .larger => (nX <=. oX) || (nY <=. oY)

/-- transforms/offset.go:24-132. The depth of the recursion is at most 3: the pieces between the moves have no such pieces, and a reversed
path is offset without regard to the size. `none` stands for a deeper one. -/
def offsetPath (n : Nat) (so : Int) (d : F) : Nat → SizeShouldBe → Path F → Option (Res (Path F))
  | 0, _, _ => none
  | fuel + 1, size, p =>
    if d ==. Arith.zero then some (.ok p)
    else
      let pths := splitPathOnMove p
      if 1 < pths.length then
        pths.foldl (fun acc q =>
          match acc with
          | some (.ok drawn) =>
            match offsetPath n so d fuel size q with
            | some (.ok r) => some (.ok (addSegments drawn r))
            | other => other
          | other => other) (some (.ok []))
      else if trimMove p = [] then some (.ok p)
      else
        match offsetPlain n so d p with
        | .ok q =>
          if wrongSide size p q then offsetPath n so d fuel .unknown (reversePath p) else some (.ok q)
        | .err => some .err
        | .panic => some .panic

/-- transforms/slice.go:34-88: whether a piece is below the line (with a greater ordinate), which is where the Go code calls it above. -/
def sliceBelow (n : Int) (y : F) (seg : Segment F) : Bool :=
  let ys := match seg with
    | .curve s c1 c2 e => [s.y, e.y, c1.y, c2.y]
    | s => [s.start.y, s.stop.y]
  if ys.all fun v => decide (0 ≤ precisionCompare v y n) then true
  else if ys.all fun v => decide (precisionCompare v y n ≤ 0) then false
  else decide (0 ≤ precisionCompare (segBox seg).1.y y n)

/-- transforms/slice.go:15-96; `none` when a cut is deeper than `fuel`. -/
def hSlice (n so : Int) (fuel : Nat) (y : F) (p : Path F) : Res (Option (Path F)) :=
  match whitespaceBox p with
  | .ok (tl, br) =>
    .ok <| (p.mapM (knifeCut so (newPoint tl.x y, newPoint br.x y) fuel)).map fun pieces =>
      cleanup n (newPathWithoutMove (pieces.flatten.filter fun s => !sliceBelow n y s))
  | .err => .err
  | .panic => .panic

end Geometry

end Verif.Path
