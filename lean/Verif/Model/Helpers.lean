import Verif.Model.Logging
import Verif.Model.PathOps
import Verif.Model.Typecast

/-!
# Model of helper functions

Small functions of path/util.go, path/path.go, dynmap/dynmap.go, dynmap/typecast.go and util/logging.go that other definitions do not already contain.
-/

namespace Verif.Path

open Verif

universe u

/-- path/util.go:421-427 (`StringElipses`). A Go string is its bytes, and `len` and slices count bytes; a slice up to a negative index panics. -/
def stringElipses (str : List UInt8) (maxChars : Int) : Res (List UInt8) :=
  if maxChars < (str.length : Int) then
    if maxChars - 3 < 0 then .panic else .ok (str.take (maxChars - 3).toNat ++ [46, 46, 46])
  else .ok str

/-- path/util.go:318-328 and bezier/utils.go:30-40 (`StringArrayDeDup`); `list` has the keys of the Go map. -/
def stringDeDup : List Text → List Text → List Text
  | [], list => list
  | entry :: rest, list => if entry ∈ list then stringDeDup rest list else stringDeDup rest (list ++ [entry])

variable {F : Type u}

/-- path/util.go:141-146 (`Tail`); `none` is `nil`. -/
def tail (seg : List (Segment F)) : Option (Segment F) := seg.getLast?

/-- path/util.go:150-155 (`TrimLast`). -/
def trimLast (seg : List (Segment F)) : List (Segment F) := if seg.length = 0 then seg else seg.take (seg.length - 1)

/-- path/util.go:156-161 (`TrimFirst`). -/
def trimFirst (seg : List (Segment F)) : List (Segment F) := if seg.length < 1 then seg else seg.drop 1

/-- path/util.go:165-167 (`PathCursor`): calling `End` of `nil` panics. -/
def pathCursor (p : Path F) : Res (Point F) :=
  match tail p with
  | some s => .ok s.stop
  | none => .panic

/-- path/util.go:264-267 (`PointInBoundingBox`). -/
def pointInBoundingBox [Arith F] (topL bottomR point : Point F) : Bool :=
  topL.x <=. point.x && point.x <=. bottomR.x && topL.y <=. point.y && point.y <=. bottomR.y

/-- path/path.go:350-354 (`NewPointRounded`). -/
def newPointRounded [Num F] (x y : F) : Point F :=
  newPoint (Num.round (x *. Arith.lit 1000 0) /. Arith.lit 1000 0) (Num.round (y *. Arith.lit 1000 0) /. Arith.lit 1000 0)

/-- path/segment_operators.go:95-100 (`Move`). -/
def segmentMove [Arith F] (s : Segment F) (amount : Point F) : Segment F :=
  s.mapPoints fun p => newPoint (p.x +. amount.x) (p.y +. amount.y)

end Verif.Path

namespace Verif.Dyn

open Verif

universe u

variable {F : Type u}

/-- dynmap/dynmap.go:711-717 (`Must`). -/
def must (m : DMap F) (key : Text) (d : Val F) : Val F := (get m key).getD d

/-- dynmap/dynmap.go:315-321 (`MustFloat64`). -/
def mustFloat [Num F] (m : DMap F) (key : Text) (d : F) : F := (getFloat m key).getD d

/-- dynmap/dynmap.go:404-412 (`MustBool`). -/
def mustBool (m : DMap F) (key : Text) (d : Bool) : Bool := (getBool m key).getD d

/-- dynmap/dynmap.go:501-507 (`MustStringSlice`). -/
def mustStringSlice (printed : Val F → Text) (m : DMap F) (key : Text) (d : List Text) : List Text := (getStringSlice printed m key).getD d

/-- dynmap/typecast.go:135-144 (`MustString` of a value). -/
def mustShown (printed : Val F → Text) (v : Val F) (d : Text) : Text :=
  match v with
  | .null => d
  | v => if (shownText printed v).length = 0 then d else shownText printed v

/-- dynmap/typecast.go:219-239 (`ToArray`): of the values of a document, only lists are slices. -/
def toArray : Val F → Option (List (Val F))
  | .list l => some l
  | _ => none

end Verif.Dyn

namespace Verif.Log

open Verif Verif.Dyn

universe u

variable {F : Type u}

/-- util/logging.go:20-32 (`String`). -/
def Level.text : Level → Text
  | .debug => "debug".toList
  | .info => "info".toList
  | .error => "error".toList
  | .fatal => "fatal".toList

/-- util/logging.go:41-47 (`ToDynMap`); the time is a value that is given. -/
def Msg.toDynMap (m : Msg F) (time : Val F) : DMap F :=
  putKey (putKey (putKey (clone m.fields) "message".toList (.str m.text)) "timestamp".toList time) "level".toList (.str m.level.text)

end Verif.Log
