import Verif.Model.Attr
import Verif.Model.BinPacking
import Verif.Model.PathOps
import Verif.Model.Typecast

/-!
# Model of further small functions

Functions of binpacking/binpacking.go, dom/planset.go, dom/models.go, dom/param_lookup.go, dynmap/dynmap.go,
dynmap/typecast.go and path/path.go that nothing else in the model needs.
-/

namespace Verif.BinPacking

open Verif

universe u v

variable {F : Type u} {O : Type v}

/-- The fields `X`, `Y`, `Width`, `Height` and `Rotated` of a bin (binpacking/binpacking.go:12-24). -/
def Bin.fields : Bin F O → Box F
  | .free b => b
  | .full b _ => b
  | .split b _ _ => b

/-- binpacking/binpacking.go:145-150 (`IsHorizontalSplit`). -/
def Bin.isHorizontalSplit [Arith F] : Bin F O → Bool
  | .split _ l r => l.fields.x ==. r.fields.x
  | _ => false

end Verif.BinPacking

namespace Verif.PlanSet

open Verif

universe u

/-- dom/planset.go:104-114 (`positionForSplit`). -/
def positionForSplit {F : Type u} [Arith F] (width documentWidth documentHeight : F) : F :=
  let half := width /. Arith.two
  let third := width /. Arith.lit 3 0
  if half <. documentWidth || half <. documentHeight then half
  else if third <. documentWidth || third <. documentHeight then third
  else half

end Verif.PlanSet

namespace Verif.Path

open Verif

universe u

/-- path/path.go:356-367 (`StringRounded`). -/
def Point.stringRounded {F : Type u} [Num F] (p : Point F) : Text :=
  let x := Num.round (p.x *. Arith.lit 1000 0) /. Arith.lit 1000 0
  let y := Num.round (p.y *. Arith.lit 1000 0) /. Arith.lit 1000 0
  let x := if x ==. Arith.zero then Arith.zero else x
  let y := if y ==. Arith.zero then Arith.zero else y
  '(' :: Num.fmt 3 x ++ ',' :: Num.fmt 3 y ++ [')']

/-- path/path.go:372-374 (`Point.String`). -/
def Point.string {F : Type u} [Num F] (p : Point F) : Text := '(' :: Num.fmt 16 p.x ++ ',' :: Num.fmt 16 p.y ++ [')']

end Verif.Path

namespace Verif.Render

open Verif Verif.Path

universe u

variable {F : Type u} [Trig F]

/-- dom/models.go:209-211 (`BasicComponent.Render`): the error "Render not implemented". -/
def basicRender (_origin _cursor : Point F) : Res (Path F) := .err

/-- dom/models.go:271-287 (`BasicComponent.Measure`). No other type has a method `Measure`, and a method of an embedded struct calls the methods of
that struct, so `b.Render` is `basicRender` for every component. -/
def measureComponent : Res (F × F) := do
  let p ← basicRender (newPoint (F := F) Arith.zero Arith.zero) (newPoint Arith.zero Arith.zero)
  .ok ((trimmedBox p).2.x -. (trimmedBox p).1.x, (trimmedBox p).2.y -. (trimmedBox p).1.y)

end Verif.Render

namespace Verif.Dyn

open Verif Verif.Path

universe u

variable {F : Type u}

/-- dynmap/dynmap.go:258-260 (`Length`). -/
def mapLength (m : DMap F) : Nat := m.length

/-- dynmap/dynmap.go:262-264 (`IsEmpty`). -/
def mapIsEmpty (m : DMap F) : Bool := mapLength m == 0

/-- dynmap/dynmap.go:342-345 (`ContainsDynMap`). -/
def containsDynMap (m : DMap F) (key : Text) : Bool := (getDynMap m key).isSome

/-- dynmap/typecast.go:48-54 (`MustBool` of a value). -/
def mustBoolOf (v : Val F) (d : Bool) : Bool := (toBool v).getD d

/-- dynmap/typecast.go:56-67 (`ToInt`, `MustInt` of a value); an `int` has 64 bits. -/
def mustIntOf (toInt : F → Int) (v : Val F) (d : Int) : Int := (toInt64 toInt v).getD d

/-- dynmap/typecast.go:148-167 (`IsDynMapConvertable`): of the values of a document, only maps are. -/
def isDynMapConvertable : Val F → Bool
  | .map _ => true
  | _ => false

mutual
/-- dynmap/dynmap.go:128-138 (`ToMap`): the maps are copied, together with the maps that they have directly; values of other kinds, lists
included, are taken over. -/
def toMap : DMap F → DMap F
  | [] => []
  | (k, v) :: rest => (k, toMapValue v) :: toMap rest

/-- dynmap/dynmap.go:131-134. -/
def toMapValue : Val F → Val F
  | .map m => .map (toMap m)
  | v => v
end

variable [Trig F] {O : Type}

/-- dom/param_lookup.go:425-431 (`BasicParamLookerUpper.String`). -/
def Source.paramString (a : Source F O) (param : Text) : Option Text := (a.chain.lookup param).map a.textOf

/-- dom/param_lookup.go:418-424 (`BasicParamLookerUpper.MustString`). -/
def Source.mustParamString (a : Source F O) (param d : Text) : Text := (a.paramString param).getD d

/-- dom/param_lookup.go:456-467 (`BasicParamLookerUpper.Float64`): no value and a value that is not a number are both `false` there. -/
def Source.paramNumber (a : Source F O) (fuel : Nat) (param : Text) : Out F :=
  match a.chain.lookup param with
  | none => .err
  | some v => a.convert fuel v

/-- dom/param_lookup.go:432-438 (`BasicParamLookerUpper.MustFloat64`). -/
def Source.mustParamNumber (a : Source F O) (fuel : Nat) (param : Text) (d : F) : Out F := (a.paramNumber fuel param).getD d

end Verif.Dyn
