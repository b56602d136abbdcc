import Verif.Model.DrawComponent

/-!
# Model of the transform factories and of `HandleTransforms`

dom/transform_factories.go, dom/app_context.go, dom/models.go and the list of factories in parser/parser.go. A map under `transforms` is modelled as
its type and the lookups (`Point`, `Float64`, `String` of `Attr`, see `Verif/Model/Attr.lean`); the theorems hold for all of them. `toInt` is the
conversion `int(x)` of the Go compiler.
-/

namespace Verif.Path

open Verif

universe u

/-- The transforms that have a registered factory (parser/parser.go:30-43). The factory for `reorder`
(dom/transform_factories.go:68-82) is not registered. -/
inductive Kind where
  | cleanup | rotate | reverse | join | offset | move | trim | matrix | mirror | scale | slice | rotateScale
deriving Repr, DecidableEq

/-- The types in the methods `TransformTypes` (dom/transform_factories.go:41-321). -/
def Kind.text : Kind → Text
  | .cleanup => "cleanup".toList
  | .rotate => "rotate".toList
  | .reverse => "reverse".toList
  | .join => "join".toList
  | .offset => "offset".toList
  | .move => "move".toList
  | .trim => "trim".toList
  | .matrix => "matrix".toList
  | .mirror => "mirror".toList
  | .scale => "scale".toList
  | .slice => "slice".toList
  | .rotateScale => "rotate_scale".toList

/-- parser/parser.go:30-43, in this order. -/
def Kind.all : List Kind := [.cleanup, .rotate, .reverse, .join, .offset, .move, .trim, .matrix, .mirror, .scale, .slice, .rotateScale]

/-- dom/app_context.go:100-107, 202-209: the factory for a type (no two factories have the same type). -/
def Kind.ofText (s : Text) : Option Kind := Kind.all.find? fun k => decide (k.text = s)

/-- A map under `transforms`: its type (`unknown` if there is none, dom/app_context.go:227) and what is found under a name. The flag `close_path`
is read from the map itself and not through the attributes (dom/transform_factories.go:100). -/
structure TransformMap (F : Type u) where
  name : Text
  point : Text → Option (Point F)
  number : Text → Option F
  text : Text → Option Text
  closeFlag : Option Bool

/-- A transform with its parameters (the structures in the package `transforms`). -/
inductive Transform (F : Type u) where
  | cleanup (n : Int)
  | rotate (degrees : F) (axis : Text)
  | reverse
  | join (n : Int) (close : Bool)
  | offset (n : Int) (distance : F) (size : SizeShouldBe)
  | move (target : Point F) (handle : Text)
  | trim
  | matrix (a b c d e f : F)
  | mirror (axis : Axis)
  | scale (s : Scale F)
  | slice (y : F)
  | rotateScale (start stop : Point F)

/-- The attribute names. -/
def precisionKey : Text := "precision".toList
def degreesKey : Text := "degrees".toList
def axisKey : Text := "axis".toList
def distanceKey : Text := "distance".toList
def sizeKey : Text := "size_should_be".toList
def handleKey : Text := "handle".toList
def yNameKey : Text := "y".toList
def scaleXKey : Text := "scale_x".toList
def scaleYKey : Text := "scale_y".toList
def startPointKey : Text := "start_point".toList
def endPointKey : Text := "end_point".toList
def matrixKeys : List Text := ["a".toList, "b".toList, "c".toList, "d".toList, "e".toList, "f".toList]

/-- path/path.go:12 (`DefaultPrecision`), which is also the precision of the context (dom/app_context.go:65). -/
def defaultPrecision : Int := 3

section Making

variable {F : Type u} [Trig F]

/-- dom/param_lookup.go:286-300 (`MustInt`). -/
def TransformMap.int (m : TransformMap F) (toInt : F → Int) (key : Text) (d : Int) : Int := ((m.number key).map toInt).getD d

/-- dom/param_lookup.go:227-246 (`MustHandle`). -/
def TransformMap.handle (m : TransformMap F) (key d : Text) : Text :=
  ((m.text key).bind fun s => if acceptsAttr (F := F) s then some s else none).getD d

/-- dom/transform_factories.go:120-130: another text is ignored. -/
def sizeOfText (s : Option Text) : SizeShouldBe :=
  if s = some "smaller".toList then .smaller else if s = some "larger".toList then .larger else .unknown

/-- dom/transform_factories.go:34-321 (the methods `CreateTransform`), dom/app_context.go:197-204 (`MakeTransform`); `none` is an error. -/
def TransformMap.make (m : TransformMap F) (toInt : F → Int) : Option (Transform F) :=
  match Kind.ofText m.name with
  | none => none
  | some .cleanup => some (.cleanup (m.int toInt precisionKey defaultPrecision))
  | some .rotate => (m.number degreesKey).map fun d => .rotate d (m.handle axisKey Attr.topLeft.text)
  | some .reverse => some .reverse
  | some .join => some (.join (m.int toInt precisionKey 3) (m.closeFlag.getD false))
  | some .offset => (m.number distanceKey).map fun d => .offset (m.int toInt precisionKey 3) d (sizeOfText (m.text sizeKey))
  | some .move => (m.point toKey).map fun t => .move t (m.handle handleKey Attr.topLeft.text)
  | some .trim => some .trim
  | some .matrix =>
    match matrixKeys.mapM m.number with
    | some [a, b, c, d, e, f] => some (.matrix a b c d e f)
    | _ => none
  | some .mirror => some (.mirror (if m.text axisKey = some "vertical".toList then .vertical else .horizontal))
  | some .scale =>
    some (.scale ⟨(m.number scaleXKey).getD Arith.one, (m.number scaleYKey).getD Arith.one, (m.point startPointKey).getD origin,
      (m.point endPointKey).getD origin, (m.number widthKey).getD Arith.zero, (m.number heightKey).getD Arith.zero⟩)
  | some .slice => (m.number yNameKey).map .slice
  | some .rotateScale => some (.rotateScale ((m.point startPointKey).getD origin) ((m.point endPointKey).getD origin))

/-- `PathTransform` of a transform. A negative precision, with which the texts of dedup are not numbers, is taken as zero there; a slice or an
offset that needs more than `fuel` steps gives no path, which is written as a panic. -/
def Transform.run (fuel : Nat) : Transform F → Path F → Res (Path F)
  | .cleanup n, p => .ok (Path.cleanup n p)
  | .rotate d a, p => Path.rotate d a p
  | .reverse, p => .ok (reversePath p)
  | .join n c, p => Path.join n.toNat defaultPrecision c p
  | .offset n d s, p => (offsetPath n.toNat defaultPrecision d fuel s p).getD .panic
  | .move t h, p => Path.move t h p
  | .trim, p => .ok (trimWhitespace p)
  | .matrix a b c d e f, p => .ok (matrixTransform a b c d e f p)
  | .mirror a, p => Path.mirror a [] p
  | .scale s, p => .ok (Path.scale s p)
  | .slice y, p =>
    match hSlice defaultPrecision defaultPrecision fuel y p with
    | .ok (some q) => .ok q
    | .ok none => .panic
    | .err => .err
    | .panic => .panic
  | .rotateScale a b, p => Path.rotateScale a b p

/-- dom/app_context.go:219-229 (`MakeTransforms`). -/
def makeAll (toInt : F → Int) (ms : List (TransformMap F)) : Option (List (Transform F)) := ms.mapM fun m => m.make toInt

/-- dom/models.go:232-252 (`HandleTransforms`): all transforms are made before the first one runs; the cursor is the end of the path. -/
def handleTransforms (toInt : F → Int) (fuel : Nat) (ms : List (TransformMap F)) (p : Path F) : Res (Path F × Point F) :=
  match makeAll toInt ms with
  | none => .err
  | some ts =>
    match multiTransform (ts.map (Transform.run fuel)) p with
    | .ok q =>
      match q.getLast? with
      | none => .panic
      | some s => .ok (q, s.stop)
    | .err => .err
    | .panic => .panic

end Making

end Verif.Path
