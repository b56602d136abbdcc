import Verif.NumClass

/-!
# Model of `bezier/bezier.go` and `bezier/utils.go`

The Go slices of four control points are structures here; everything else follows the code function by function. The lookup table
(`lut`) cached in `curveSegment` is never stored (the structs are passed by value), so it is left out.
-/

namespace Verif.Bezier

open Verif

universe u

variable {F : Type u}

/-- bezier/bezier.go:19-26 (`Point`, `NewPoint`). -/
structure Point (F : Type u) where
  x : F
  y : F
deriving Repr, DecidableEq

/-- bezier/bezier.go:12-17 (`CubicCurve`), in the order of `cubicCurveToArray` (88-95). -/
structure Curve (F : Type u) where
  p0 : Point F
  p1 : Point F
  p2 : Point F
  p3 : Point F
deriving Repr, DecidableEq

/-- bezier/bezier.go:33-42 (`curveSegment`). -/
structure Section (F : Type u) where
  curve : Curve F
  t1 : F
  t2 : F

section Basic

variable [Arith F]

/-- bezier/bezier.go:66-77 (`_deCasteljau`), one round: each point is replaced by the blend with its successor. -/
def casteljauStep (t : F) : List (Point F) → List (Point F)
  | p :: q :: rest =>
    ⟨((Arith.one -. t) *. p.x) +. (t *. q.x), ((Arith.one -. t) *. p.y) +. (t *. q.y)⟩ :: casteljauStep t (q :: rest)
  | _ => []

/-- bezier/bezier.go:61-77 (`DeCasteljau`): three rounds reduce four points to one. -/
def deCasteljau (c : Curve F) (t : F) : Option (Point F) :=
  (casteljauStep t (casteljauStep t (casteljauStep t [c.p0, c.p1, c.p2, c.p3]))).head?

/-- bezier/bezier.go:234-257 (`FindPoint`). -/
def findPoint (c : Curve F) (t : F) : Point F :=
  if t ==. Arith.zero then c.p0
  else if t ==. Arith.one then c.p3
  else
    let mt := Arith.one -. t
    let mt2 := mt *. mt
    let t2 := t *. t
    let a := mt2 *. mt
    let b := mt2 *. t *. Arith.lit 3 0
    let d := mt *. t2 *. Arith.lit 3 0
    let e := t *. t2
    ⟨a *. c.p0.x +. b *. c.p1.x +. d *. c.p2.x +. e *. c.p3.x, a *. c.p0.y +. b *. c.p1.y +. d *. c.p2.y +. e *. c.p3.y⟩

/-- bezier/bezier.go:44-57 (`normalize`). -/
def normalize (c : Curve F) : Curve F :=
  let c := if (c.p0.x ==. c.p1.x) && (c.p0.y ==. c.p1.y) then { c with p1 := findPoint c (Arith.lit 1 1) } else c
  if (c.p3.x ==. c.p2.x) && (c.p3.y ==. c.p2.y) then { c with p2 := findPoint c (Arith.one -. Arith.lit 1 2) } else c

/-- bezier/bezier.go:314-319 (`lerp`). -/
def lerp (r : F) (v w : Point F) : Point F := ⟨v.x +. r *. (w.x -. v.x), v.y +. r *. (w.y -. v.y)⟩

/-- bezier/bezier.go:156-162 (`_map`). -/
def mapRange (v ds de ts te : F) : F := ts +. (te -. ts) *. ((v -. ds) /. (de -. ds))

/-- bezier/bezier.go:741-761 (`hull`) and 119-124: the two halves of a curve split at `t`. With the ten points `q[0..9]` of `hull`
the left half is `q[0], q[4], q[7], q[9]` and the right half `q[9], q[8], q[6], q[3]`. -/
def halves (c : Curve F) (t : F) : Curve F × Curve F :=
  let q4 := lerp t c.p0 c.p1
  let q5 := lerp t c.p1 c.p2
  let q6 := lerp t c.p2 c.p3
  let q7 := lerp t q4 q5
  let q8 := lerp t q5 q6
  let q9 := lerp t q7 q8
  (⟨c.p0, q4, q7, q9⟩, ⟨q9, q8, q6, c.p3⟩)

/-- bezier/bezier.go:115-131: the two halves with their parameter ranges. -/
def splitAt (s : Section F) (t : F) : Section F × Section F :=
  let m := mapRange t Arith.zero Arith.one s.t1 s.t2
  (⟨(halves s.curve t).1, mapRange Arith.zero Arith.zero Arith.one s.t1 s.t2, m⟩,
   ⟨(halves s.curve t).2, m, mapRange Arith.one Arith.zero Arith.one s.t1 s.t2⟩)

/-- The zero value of `curveSegment`. -/
def zeroSection : Section F :=
  let z : Point F := ⟨Arith.zero, Arith.zero⟩
  ⟨⟨z, z, z, z⟩, Arith.zero, Arith.zero⟩

/-- bezier/bezier.go:105-142 (`_splitCurveSection`) with `tEnd = -1`. For `tStart = 0` the function calls itself with
`tStart = -1` and returns the left half of that. -/
def splitOnce (s : Section F) (tStart : F) : Section F × Section F :=
  if tStart ==. Arith.zero then ((splitAt s (Arith.lit (-1) 0)).1, zeroSection) else splitAt s tStart

/-- bezier/bezier.go:105-142 (`_splitCurveSection`). Every recursive call has `tEnd = -1`. -/
def splitSection (s : Section F) (tStart tEnd : F) : Section F × Section F :=
  if tStart ==. Arith.zero then ((splitOnce s tEnd).1, zeroSection)
  else if tEnd ==. Arith.one then ((splitOnce s tStart).2, (splitOnce s tStart).2)
  else
    let lr := splitAt s tStart
    if tEnd <. Arith.zero then lr
    else splitOnce lr.2 (mapRange tEnd tStart Arith.one Arith.zero Arith.one)

/-- bezier/bezier.go:97-100 (`SplitCurve`). -/
def splitCurve (c : Curve F) (t : F) : Curve F × Curve F :=
  let lr := splitSection ⟨c, Arith.zero, Arith.zero⟩ t (Arith.lit (-1) 0)
  (lr.1.curve, lr.2.curve)

/-- bezier/bezier.go:145-154 (`SplitCurveSection`). -/
def splitCurveSection (c : Curve F) (tStart tEnd : F) : Curve F := (splitSection ⟨c, tStart, tEnd⟩ tStart tEnd).1.curve

/-- bezier/bezier.go:165-185 (`derive`): `float64(c) * (p[j+1] - p[j])` for successive points. -/
def deriveStep (c : F) : List (Point F) → List (Point F)
  | p :: q :: rest => ⟨c *. (q.x -. p.x), c *. (q.y -. p.y)⟩ :: deriveStep c (q :: rest)
  | _ => []

/-- `derive(curve)[0]`. -/
def derive1 (c : Curve F) : List (Point F) := deriveStep (Arith.lit 3 0) [c.p0, c.p1, c.p2, c.p3]

/-- `derive(curve)[1]`. -/
def derive2 (c : Curve F) : List (Point F) := deriveStep (Arith.lit 2 0) (derive1 c)

/-- bezier/bezier.go:188-200 (`Derivative`). -/
def derivative (c : Curve F) (t : F) : Point F :=
  let mt := Arith.one -. t
  let a := mt *. mt
  let b := mt *. t *. Arith.lit 2 0
  let d := t *. t
  match derive1 c with
  | [p, q, r] => ⟨a *. p.x +. b *. q.x +. d *. r.x, a *. p.y +. b *. q.y +. d *. r.y⟩
  | _ => ⟨Arith.zero, Arith.zero⟩

/-- bezier/bezier.go:1044-1053 (`lli8`) and 1055-1065 (`lli4`): the intersection of the lines `p1 p2` and `p3 p4`. -/
def lli4 (p1 p2 p3 p4 : Point F) : Bool × Point F :=
  let nx := (p1.x *. p2.y -. p1.y *. p2.x) *. (p3.x -. p4.x) -. (p1.x -. p2.x) *. (p3.x *. p4.y -. p3.y *. p4.x)
  let ny := (p1.x *. p2.y -. p1.y *. p2.x) *. (p3.y -. p4.y) -. (p1.y -. p2.y) *. (p3.x *. p4.y -. p3.y *. p4.x)
  let d := (p1.x -. p2.x) *. (p3.y -. p4.y) -. (p1.y -. p2.y) *. (p3.x -. p4.x)
  if d ==. Arith.zero then (false, ⟨Arith.zero, Arith.zero⟩) else (true, ⟨nx /. d, ny /. d⟩)

/-- bezier/utils.go:50-57 and path/util.go:338-345 (`Float64ArrayContains`). -/
def contains (a : List F) (x : F) : Bool := a.any fun n => x ==. n

/-- bezier/utils.go:43-48 and path/util.go:331-336 (`Float64ArrayInsertIfAbsent`). -/
def insertIfAbsent (a : List F) (x : F) : List F := if contains a x then a else a ++ [x]

/-- bezier/utils.go:17-27 and path/util.go:305-315 (`Float64ArrayDeDup`). A Go map never finds a NaN key, so every NaN is kept. -/
def deDup : List F → List F → List F
  | [], seen => seen
  | x :: rest, seen => if contains seen x then deDup rest seen else deDup rest (seen ++ [x])

end Basic

section Trigonometry

variable [Trig F]

/-- bezier/utils.go:9-13 (`Distance`). -/
def distance (p q : Point F) : F :=
  let x := p.x -. q.x
  let y := p.y -. q.y
  Trig.sqrt ((x *. x) +. (y *. y))

/-- bezier/bezier.go:202-231 (`droots`). -/
def droots : List F → List F
  | [a, b, c] =>
    let d := a -. (Arith.lit 2 0 *. b) +. c
    if !(d ==. Arith.zero) then
      let m1 := -. (Trig.sqrt (b *. b -. a *. c))
      let m2 := -. a +. b
      [(-. (m1 +. m2)) /. d, (-. ((-. m1) +. m2)) /. d]
    else if !(b ==. c) then [((Arith.lit 2 0 *. b) -. c) /. (Arith.lit 2 0 *. (b -. c))]
    else []
  | [a, b] => if !(a ==. b) then [a /. (a -. b)] else []
  | _ => []

/-- bezier/bezier.go:287-300: only the values in `[0, 1]`. -/
def inUnit (ts : List F) : List F := ts.filter fun t => (Arith.zero <=. t) && (t <=. Arith.one)

/-- bezier/bezier.go:267-302 (`extrema`). -/
def extrema (c : Curve F) : List F × List F :=
  (inUnit (droots ((derive1 c).map Point.x) ++ droots ((derive2 c).map Point.x)),
   inUnit (droots ((derive1 c).map Point.y) ++ droots ((derive2 c).map Point.y)))

/-- `float64(MaxInt)` and `-float64(MinInt)`: both are `2^63` (bezier/utils.go:5-6). -/
def sentinel : F := Arith.lit 9223372036854775808 0

/-- bezier/bezier.go:857-891 (`getMinMax`), one of the two loops: `get` selects the coordinate. -/
def minMaxLoop (c : Curve F) (get : Point F → F) (ts : List F) (lo hi : F) : F × F :=
  ts.foldl (fun r t =>
    let v := get (findPoint c t)
    (if v <. r.1 then v else r.1, if r.2 <. v then v else r.2)) (lo, hi)

/-- bezier/bezier.go:857-891 (`getMinMax`) and 715-739 (`BoundingBox`): the Go function keeps whole points, of which only the selected
coordinate is used. -/
def boundingBox (c : Curve F) : Point F × Point F :=
  let e := extrema c
  let listX := insertIfAbsent (insertIfAbsent e.1 Arith.zero) Arith.one
  let listY := insertIfAbsent (insertIfAbsent e.2 Arith.zero) Arith.one
  let x := minMaxLoop c Point.x listX sentinel (-. sentinel)
  let y := minMaxLoop c Point.y listY sentinel (-. sentinel)
  (⟨x.1, y.1⟩, ⟨x.2, y.2⟩)

/-- bezier/bezier.go:689-712 (`BoundingBoxOverlaps`). -/
def boxesOverlap (tl1 br1 tl2 br2 : Point F) : Bool :=
  let midX1 := (tl1.x +. br1.x) /. Arith.lit 2 0
  let midX2 := (tl2.x +. br2.x) /. Arith.lit 2 0
  let dX := ((br1.x -. tl1.x) +. (br2.x -. tl2.x)) /. Arith.lit 2 0
  let midY1 := (tl1.y +. br1.y) /. Arith.lit 2 0
  let midY2 := (tl2.y +. br2.y) /. Arith.lit 2 0
  let dY := ((br1.y -. tl1.y) +. (br2.y -. tl2.y)) /. Arith.lit 2 0
  if dX <=. Num.abs (midX1 -. midX2) then false
  else if dY <=. Num.abs (midY1 -. midY2) then false
  else true

/-- bezier/bezier.go:645-649 (`CurveOverlaps`). -/
def curvesOverlap (c d : Curve F) : Bool :=
  boxesOverlap (boundingBox c).1 (boundingBox c).2 (boundingBox d).1 (boundingBox d).2

/-- bezier/bezier.go:308-312 (`normal`). -/
def normal (c : Curve F) (t : F) : Point F :=
  let d := derivative c t
  let q := Trig.sqrt (d.x *. d.x +. d.y *. d.y)
  ⟨(-. d.y) /. q, d.x /. q⟩

/-- bezier/bezier.go:894-903 (`OffsetPoint`). -/
def offsetPoint (c : Curve F) (t d : F) : Point F :=
  let c := normalize c
  let p := findPoint c t
  let n := normal c t
  ⟨p.x +. n.x *. d, p.y +. n.y *. d⟩

/-- bezier/bezier.go:763-771 (`angle`). -/
def angle (o v w : Point F) : F :=
  let dx1 := v.x -. o.x
  let dy1 := v.y -. o.y
  let dx2 := w.x -. o.x
  let dy2 := w.y -. o.y
  Trig.atan2 ((dx1 *. dy2) -. (dy1 *. dx2)) ((dx1 *. dx2) +. (dy1 *. dy2))

/-- bezier/bezier.go:773-787 (`simple`). -/
def isSimple (c : Curve F) : Bool :=
  let a1 := angle c.p0 c.p3 c.p1
  let a2 := angle c.p0 c.p3 c.p2
  if ((Arith.zero <. a1) && (a2 <. Arith.zero)) || ((a1 <. Arith.zero) && (Arith.zero <. a2)) then false
  else
    let n1 := normal c Arith.zero
    let n2 := normal c Arith.one
    let s := n1.x *. n2.x +. n1.y *. n2.y
    Num.abs (Trig.acos s) <. (Trig.pi /. Arith.lit 3 0)

/-- bezier/bezier.go:323-335 (`getLUT`): `steps` points from start to end. -/
def lut (c : Curve F) (steps : Nat) : List (Point F) :=
  (List.range steps).map fun (i : Nat) => findPoint c (Arith.lit i 0 /. Arith.lit (steps - 1 : Nat) 0)

/-- bezier/bezier.go:338-349 (`closest`). Inside the loop `p` is the sample and `point` the named result, which is still the zero
point: the requested point is not used. The result is the distance and the index; the first of several minima wins. -/
def closestLoop : List (Point F) → Nat → F → Nat → F × Nat
  | [], _, dist, best => (dist, best)
  | p :: rest, i, dist, best =>
    let d := distance ⟨Arith.zero, Arith.zero⟩ p
    if d <. dist then closestLoop rest (i + 1) d i else closestLoop rest (i + 1) dist best

/-- bezier/bezier.go:338-349 (`closest`). -/
def closest (samples : List (Point F)) (_p : Point F) : F × Nat := closestLoop samples 0 sentinel 0

/-- bezier/bezier.go:421-433 (`Align`). -/
def alignY (p l1 l2 : Point F) : F :=
  let a := -. (Trig.atan2 (l2.y -. l1.y) (l2.x -. l1.x))
  (p.x -. l1.x) *. Trig.sin a +. (p.y -. l1.y) *. Trig.cos a

/-- bezier/bezier.go:435-443 (`Approx`). -/
def approx (a b : F) : Bool := Num.abs (a -. b) <=. Arith.lit 1 6

/-- bezier/bezier.go:446-452 (`Crt`). -/
def crt (v : F) : F :=
  if v <. Arith.zero then -. (Trig.pow (-. v) (Arith.one /. Arith.lit 3 0)) else Trig.pow v (Arith.one /. Arith.lit 3 0)

/-- bezier/bezier.go:499-543: the solutions of `t^3 + a t^2 + b t + c = 0`. -/
def cubicRoots (a b c : F) : List F :=
  let three : F := Arith.lit 3 0
  let p := (three *. b -. a *. a) /. three
  let p3 := p /. three
  let q := (Arith.lit 2 0 *. a *. a *. a -. Arith.lit 9 0 *. a *. b +. Arith.lit 27 0 *. c) /. Arith.lit 27 0
  let q2 := q /. Arith.lit 2 0
  let disc := q2 *. q2 +. p3 *. p3 *. p3
  if disc <. Arith.zero then
    let mp3 := (-. p) /. three
    let r := Trig.sqrt (mp3 *. mp3 *. mp3)
    let t := (-. q) /. (Arith.lit 2 0 *. r)
    let cosphi := if t <. Arith.lit (-1) 0 then Arith.lit (-1) 0 else if Arith.one <. t then Arith.one else t
    let phi := Trig.acos cosphi
    let tau := Arith.lit 2 0 *. Trig.pi
    let t1 := Arith.lit 2 0 *. crt r
    [t1 *. Trig.cos (phi /. three) -. a /. three,
     t1 *. Trig.cos ((phi +. tau) /. three) -. a /. three,
     t1 *. Trig.cos ((phi +. Arith.lit 2 0 *. tau) /. three) -. a /. three]
  else if disc ==. Arith.zero then
    let u1 := -. (crt q2)
    [Arith.lit 2 0 *. u1 -. a /. three, (-. u1) -. a /. three]
  else
    let sd := Trig.sqrt disc
    [crt ((-. q2) +. sd) -. crt (q2 +. sd) -. a /. three]

/-- bezier/bezier.go:460-543: the parameters in `[0, 1]` where the cubic with Bernstein coefficients `pa pb pc pd` vanishes. -/
def bernsteinRoots (pa pb pc pd : F) : List F :=
  let three : F := Arith.lit 3 0
  let d := (-. pa) +. three *. pb -. three *. pc +. pd
  let a := three *. pa -. Arith.lit 6 0 *. pb +. three *. pc
  let b := (-. three) *. pa +. three *. pb
  let c := pa
  if approx d Arith.zero then
    if approx a Arith.zero then
      if approx b Arith.zero then []
      else inUnit [(-. c) /. b]
    else
      let q := Trig.sqrt (b *. b -. Arith.lit 4 0 *. a *. c)
      let a2 := Arith.lit 2 0 *. a
      inUnit [(q -. b) /. a2, ((-. b) -. q) /. a2]
  else inUnit (cubicRoots (a /. d) (b /. d) (c /. d))

/-- bezier/bezier.go:454-544 (`Roots`). -/
def roots (c : Curve F) (l1 l2 : Point F) : List F :=
  bernsteinRoots (alignY c.p0 l1 l2) (alignY c.p1 l1 l2) (alignY c.p2 l1 l2) (alignY c.p3 l1 l2)

/-- bezier/utils.go:61-70 (`between`). -/
def between (r a b : F) : Bool :=
  if approx r a || approx r b then true
  else ((a <=. r) && (r <=. b)) || ((r <=. a) && (b <=. r))

/-- bezier/bezier.go:584-601 (`IntersectsLine`), with `maxy` computed from `p2.Y` twice as in line 588. -/
def intersectsLine (c : Curve F) (l1 l2 : Point F) : List F :=
  let minx := Num.min l1.x l2.x
  let miny := Num.min l1.y l2.y
  let maxx := Num.max l1.x l2.x
  let maxy := Num.max l2.y l2.y
  (roots c l1 l2).filter fun t => between (findPoint c t).x minx maxx && between (findPoint c t).y miny maxy

/-- bezier/bezier.go:603-606 (`IntersectsProjectedLine`). -/
def intersectsProjectedLine (c : Curve F) (l1 l2 : Point F) : List F := roots c l1 l2

/-- bezier/bezier.go:677-684: the fine search of `Project`; `fuel` bounds the number of steps. -/
def projectLoop (c : Curve F) (pt : Point F) (stop step : F) : Nat → F → F → F → F × F
  | 0, _, mdist, ft => (mdist, ft)
  | fuel + 1, t, mdist, ft =>
    if t <. stop then
      let d := distance pt (findPoint c t)
      if d <. mdist then projectLoop c pt stop step fuel (t +. step) d t
      else projectLoop c pt stop step fuel (t +. step) mdist ft
    else (mdist, ft)

/-- bezier/bezier.go:655-687 (`Project`): point, "distance" and "t"; the early return has the last two swapped. The fine search makes
about 21 steps of `0.1/99` between the neighbours of the sample; the fuel of 100 covers that. -/
def project (c : Curve F) (pt : Point F) : Point F × F × F :=
  let samples := lut c 100
  let cl := closest samples pt
  let at0 : Point F := (samples[cl.2]?).getD ⟨Arith.zero, Arith.zero⟩
  let l : F := Arith.lit 99 0
  if cl.2 = 0 ∨ cl.2 = 99 then (at0, Arith.lit cl.2 0 /. l, cl.1)
  else
    let t1 := (Arith.lit cl.2 0 -. Arith.one) /. l
    let t2 := (Arith.lit cl.2 0 +. Arith.one) /. l
    let step := Arith.lit 1 1 /. l
    let r := projectLoop c pt (t2 +. step) step 100 t1 (cl.1 +. Arith.one) t1
    (findPoint c r.2, r.1, r.2)

/-- bezier/bezier.go:940-944 (`IsClockwise`). -/
def isClockwise (c : Curve F) : Bool := Arith.zero <. angle c.p0 c.p3 c.p1

/-- bezier/bezier.go:950-1018 (`Scale`, `_scale` without a distance function); `none` is the error. When the second intersection does
not exist the control point is the zero point, as in the code. -/
def scale (c : Curve F) (d : F) : Option (Curve F) :=
  let v0 := offsetPoint c Arith.zero (Arith.lit 10 0)
  let v1 := offsetPoint c Arith.one (Arith.lit 10 0)
  let r := lli4 v0 (findPoint c Arith.zero) v1 (findPoint c Arith.one)
  if r.1 then
    let o := r.2
    let n0 := normal c Arith.zero
    let n1 := normal c Arith.one
    let np0 : Point F := ⟨c.p0.x +. d *. n0.x, c.p0.y +. d *. n0.y⟩
    let np3 : Point F := ⟨c.p3.x +. d *. n1.x, c.p3.y +. d *. n1.y⟩
    let d0 := derivative c Arith.zero
    let d1 := derivative c Arith.one
    let np1 := (lli4 np0 ⟨np0.x +. d0.x, np0.y +. d0.y⟩ o c.p1).2
    let np2 := (lli4 np3 ⟨np3.x +. d1.x, np3.y +. d1.y⟩ o c.p2).2
    some ⟨np0, np1, np2, np3⟩
  else none

/-- bezier/bezier.go:955-1042 (`ScaleByFunc`, `_scale` with a distance function); `none` is the error. -/
def scaleByFunc (c : Curve F) (f : F → F) : Option (Curve F) :=
  let v0 := offsetPoint c Arith.zero (Arith.lit 10 0)
  let v1 := offsetPoint c Arith.one (Arith.lit 10 0)
  let r := lli4 v0 (findPoint c Arith.zero) v1 (findPoint c Arith.one)
  if r.1 then
    let o := r.2
    let n0 := normal c Arith.zero
    let n1 := normal c Arith.one
    let r1 := f Arith.zero
    let r2 := f Arith.one
    let move (p : Point F) (t : F) : Point F :=
      let ox := p.x -. o.x
      let oy := p.y -. o.y
      let rc := f ((t +. Arith.one) /. Arith.lit 3 0)
      let rc := if isClockwise c then rc else -. rc
      let m := Trig.sqrt (ox *. ox +. oy *. oy)
      ⟨p.x +. rc *. (ox /. m), p.y +. rc *. (oy /. m)⟩
    some ⟨⟨c.p0.x +. r1 *. n0.x, c.p0.y +. r1 *. n0.y⟩, move c.p1 Arith.zero, move c.p2 Arith.one,
      ⟨c.p3.x +. r2 *. n1.x, c.p3.y +. r2 *. n1.y⟩⟩
  else none

/-- `sort.Float64s` on numbers without NaN. -/
def insertSorted (x : F) : List F → List F
  | [] => [x]
  | y :: rest => if y <. x then y :: insertSorted x rest else x :: y :: rest

def sortFloats (l : List F) : List F := l.foldr insertSorted []

/-- The result of a loop that may be left by an early return. `outOfFuel` does not exist in the code; see `reduce_fuel`. -/
inductive Outcome (α : Type u) where
  | outOfFuel
  | abort
  | done (a : α)

/-- bezier/bezier.go:789-809: `extrema` with `0` and `1`, without duplicates, in ascending order. -/
def cuts (c : Curve F) : List F :=
  sortFloats (deDup ((extrema c).1 ++ (extrema c).2 ++ [Arith.zero, Arith.one]) [])

/-- bezier/bezier.go:799-809: the first pass of `reduce`. -/
def pass1 (c : Curve F) : F → List F → List (Section F)
  | _, [] => []
  | t1, t2 :: rest => ⟨(splitSection ⟨c, Arith.zero, Arith.zero⟩ t1 t2).1.curve, t1, t2⟩ :: pass1 c t2 rest

/-- bezier/bezier.go:826-834: a piece of `p` with its parameters mapped to those of the whole curve. -/
def piece (p : Section F) (t1 t2 : F) : Section F :=
  ⟨(splitSection p t1 t2).1.curve, mapRange t1 Arith.zero Arith.one p.t1 p.t2, mapRange t2 Arith.zero Arith.one p.t1 p.t2⟩

/-- bezier/bezier.go:811 (`step`). -/
def reduceStep : F := Arith.lit 1 2

/-- bezier/bezier.go:814-836: the two nested loops, as one loop whose state is `t1`, `t2` and the pieces so far. -/
def pass2Loop (p : Section F) : Nat → F → F → List (Section F) → Outcome (List (Section F) × F)
  | 0, _, _, _ => .outOfFuel
  | fuel + 1, t1, t2, acc =>
    if t2 <=. (Arith.one +. reduceStep) then
      if isSimple (splitSection p t1 t2).1.curve then pass2Loop p fuel t1 (t2 +. reduceStep) acc
      else
        let t2' := t2 -. reduceStep
        if Num.abs (t1 -. t2') <. reduceStep then .abort
        else if t2' <=. Arith.one then pass2Loop p fuel t2' (t2' +. reduceStep) (acc ++ [piece p t1 t2'])
        else .done (acc ++ [piece p t1 t2'], t2')
    else if t2 <=. Arith.one then pass2Loop p fuel t1 (t1 +. reduceStep) acc
    else .done (acc, t1)

/-- bezier/bezier.go:813-843: the second pass of `reduce` for one piece of the first. -/
def pass2 (fuel : Nat) (p : Section F) : Outcome (List (Section F)) :=
  match pass2Loop p fuel Arith.zero (Arith.zero +. reduceStep) [] with
  | .outOfFuel => .outOfFuel
  | .abort => .abort
  | .done (acc, t1) =>
    if t1 <. Arith.one then
      .done (acc ++ [⟨(splitSection p t1 Arith.one).1.curve, mapRange t1 Arith.zero Arith.one p.t1 p.t2, p.t2⟩])
    else .done acc

/-- bezier/bezier.go:813-845: the second pass for all pieces of the first. -/
def pass2All (fuel : Nat) : List (Section F) → Outcome (List (Section F))
  | [] => .done []
  | p :: rest =>
    match pass2 fuel p, pass2All fuel rest with
    | .outOfFuel, _ => .outOfFuel
    | .abort, _ => .abort
    | .done a, .done b => .done (a ++ b)
    | .done _, r => r

/-- bezier/bezier.go:789-846 (`reduce`), with the loop bound made explicit. -/
def reduceFuel (fuel : Nat) (c : Curve F) : Outcome (List (Section F)) :=
  match cuts c with
  | [] => .abort
  | t1 :: rest => pass2All fuel (pass1 c t1 rest)

/-- bezier/bezier.go:789-846 (`reduce`): giving up returns no pieces at all. -/
def reduce (c : Curve F) : List (Section F) :=
  match reduceFuel 300 c with
  | .done l => l
  | _ => []

/-- bezier/bezier.go:926-936: `Scale` of each piece; the first error ends the list. -/
def scalePieces (d : F) : List (Section F) → List (Curve F)
  | [] => []
  | s :: rest =>
    match scale s.curve d with
    | none => []
    | some c => c :: scalePieces d rest

/-- bezier/bezier.go:911-937 (`Offset`). -/
def offset (c : Curve F) (d : F) : List (Curve F) := scalePieces d (reduce (normalize c))

/-- bezier/bezier.go:351-358 (`ValuePair`, `String`). -/
def pairKey (v : F × F) : Text := Num.fmt 5 v.1 ++ ['/'] ++ Num.fmt 5 v.2

/-- bezier/bezier.go:361-372 (`ValuePairDedup`). -/
def pairDedup : List (F × F) → List Text → List (F × F)
  | [], _ => []
  | v :: rest, seen => if pairKey v ∈ seen then pairDedup rest seen else v :: pairDedup rest (pairKey v :: seen)

/-- bezier/bezier.go:383-385: width plus height of the bounding box. -/
def boxSize (c : Curve F) : F :=
  let b := boundingBox c
  (b.2.x -. b.1.x) +. (b.2.y -. b.1.y)

/-- bezier/bezier.go:387-388: `math.Round(r*(t1+t2)/2) / r` with `r = 100000`. -/
def roundMid (s : Section F) : F :=
  Num.round (Arith.lit 100000 0 *. (s.t1 +. s.t2) /. Arith.lit 2 0) /. Arith.lit 100000 0

/-- bezier/bezier.go:397-402: the four pairs of halves. -/
def halfPairs (c d : Section F) : List (Section F × Section F) :=
  let cc := splitSection c (Arith.lit 5 1) (Arith.lit (-1) 0)
  let dd := splitSection d (Arith.lit 5 1) (Arith.lit (-1) 0)
  [(cc.1, dd.1), (cc.1, dd.2), (cc.2, dd.2), (cc.2, dd.1)]

/-- bezier/bezier.go:377-419 (`pairIteration`); `none` when the recursion is deeper than `fuel`. The recursion in the code has no
bound. -/
def pairIteration (threshold : F) : Nat → Section F → Section F → Option (List (F × F))
  | 0, _, _ => none
  | fuel + 1, c, d =>
    if (boxSize c.curve <. threshold) && (boxSize d.curve <. threshold) then some [(roundMid c, roundMid d)]
    else
      let pairs := (halfPairs c d).filter fun p => curvesOverlap p.1.curve p.2.curve
      (pairs.mapM fun p => pairIteration threshold fuel p.1 p.2).map fun l => pairDedup l.flatten []

/-- bezier/bezier.go:618-638 (`_curveIntersects`). -/
def sectionsIntersect (threshold : F) (fuel : Nat) (c1 c2 : List (Section F)) : Option (List (F × F)) :=
  let pairs := (c1.flatMap fun l => c2.map fun r => (l, r)).filter fun p => curvesOverlap p.1.curve p.2.curve
  (pairs.mapM fun p => pairIteration threshold fuel p.1 p.2).map List.flatten

/-- bezier/bezier.go:612-616 (`IntersectsCurve`). -/
def intersectsCurve (threshold : F) (fuel : Nat) (c d : Curve F) : Option (List (F × F)) :=
  sectionsIntersect threshold fuel (reduce c) (reduce d)

/-- bezier/bezier.go:553-577 (`IntersectsSelf`): the first of the intersections, if any. -/
def intersectsSelf (threshold : F) (fuel : Nat) (c : Curve F) : Option (Option (F × F)) :=
  let r := reduce c
  let results := (List.range (r.length - 2)).mapM fun i =>
    sectionsIntersect threshold fuel ((r.drop i).take 1) (r.drop (i + 2))
  results.map fun l => l.flatten.head?

end Trigonometry

end Verif.Bezier
