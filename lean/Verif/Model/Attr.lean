import Verif.Model.Params
import Verif.Model.Components

/-!
# Model of the attributes of an element (`Attr` in dom/param_lookup.go)

A `Source` is what an `Attr` sees: the element with its ancestors, the local map, and the cursor if the element is a component that is being rendered.
The library for expressions and the printing of values that are not texts (`fmt.Sprint`) are part of it. Values of the type `path.Point` are not
values of the model; a variable of this type is always found first and returned as it is (dom/param_lookup.go:134-137).

An accessor gives a value or `err` ("not found"). Expressions and points may refer to others; with the fuel used up the answer is `running`.
-/

namespace Verif.Dyn

open Verif Verif.Path

universe u

variable {F : Type u} [Trig F] {O : Type}

/-- dom/param_lookup.go:15-18 (`Attr`). -/
structure Source (F : Type u) (O : Type) where
  lib : Lib F O
  printed : Val F → Text
  chain : Chain F
  mp : DMap F
  cursor : Option (Point F)

/-- dom/param_lookup.go:59-80: `lookup(param, 0)`. -/
def Source.find (a : Source F O) (param : Text) : Option (Val F) := attrLookup a.chain a.mp param 0

/-- dynmap/typecast.go:124-133 (`ToString`). -/
def Source.textOf (a : Source F O) : Val F → Text
  | .str s => s
  | v => a.printed v

/-- dom/param_lookup.go:441-454 (`ToFloat64`): a text is evaluated as an expression after its dollar signs are removed. -/
def Source.convert (a : Source F O) (fuel : Nat) : Val F → Out F
  | .str t =>
    match evalExpression a.lib a.chain.lookup fuel (t.filter fun c => decide (c ≠ '$')) with
    | .val v =>
      match toFloat64 v with
      | some x => .val x
      | none => .err
    | .err => .err
    | .running => .running
  | v =>
    match toFloat64 v with
    | some x => .val x
    | none => .err

/-- dom/param_lookup.go:309-320 (`Float64`). -/
def Source.number (a : Source F O) (fuel : Nat) (param : Text) : Out F :=
  match a.find param with
  | none => .err
  | some v => a.convert fuel v

/-- dom/param_lookup.go:252-263 (`String`). -/
def Source.string (a : Source F O) (param : Text) : Option Text :=
  match a.find param with
  | none => none
  | some v =>
    let s := a.textOf v
    if s.all fun c => decide (c ≠ ' ' ∧ c ≠ ',' ∧ c ≠ '$') then
      match a.chain.lookup s with
      | some w => some (a.textOf w)
      | none => some s
    else some s

/-- dom/param_lookup.go:265-276 (`Bool`). -/
def Source.flag (a : Source F O) (param : Text) : Option Bool := (a.string param).bind fun s => toBool (.str s : Val F)

/-- dom/param_lookup.go:235-246 (`Handle`). -/
def Source.handle (a : Source F O) (param : Text) : Option Text :=
  (a.string param).bind fun s => if acceptsAttr (F := F) s then some s else none

/-- dom/param_lookup.go:294-300 (`Int`); `toInt` is `int(f)` of Go. -/
def Source.int (a : Source F O) (toInt : F → Int) (fuel : Nat) (param : Text) : Out Int :=
  match a.number fuel param with
  | .val x => .val (toInt x)
  | .err => .err
  | .running => .running

/-- dom/param_lookup.go:143-151, 203-214: two numbers, the first one first. -/
def Source.pair (a : Source F O) (fuel : Nat) (v w : Val F) : Out (Point F) :=
  match a.convert fuel v with
  | .val x =>
    match a.convert fuel w with
    | .val y => .val (newPoint x y)
    | .err => .err
    | .running => .running
  | .err => .err
  | .running => .running

/-- The keys of a point. -/
def xKey : Text := ['x']
def yKey : Text := ['y']

/-- dom/param_lookup.go:133-152 (`ToPoint`) for a map. -/
def Source.mapPoint (a : Source F O) (fuel : Nat) (m : DMap F) : Out (Point F) :=
  a.pair fuel ((get m xKey).getD (.str [])) ((get m yKey).getD (.str []))

/-- dom/param_lookup.go:154-217 (`Point`). `n` is the fuel for expressions, `fuel` the one for points that name other points. -/
def Source.point (a : Source F O) (n : Nat) : Nat → Text → Out (Point F)
  | 0, _ => .running
  | fuel + 1, param =>
    if param.head? = some '$' then
      if param = Attr.cursor.text then
        match a.cursor with
        | some p => .val p
        | none => .err
      else .err
    else
      match a.find param with
      | none => .err
      | some (.map m) => a.mapPoint n m
      | some _ =>
        match splitOn ',' ((a.string param).getD []) [] with
        | [s] => if s ≠ param then Source.point a n fuel s else .err
        | [s, t] => a.pair n (.str s) (.str t)
        | _ => .err

/-- The ends of the names of an angle and a length. -/
def angleEnd : Text := ".angle".toList
def lengthEnd : Text := ".length".toList

/-- dom/param_lookup.go:110-130 (`Point2`). -/
def Source.point2 (a : Source F O) (n fuel : Nat) (param : Text) (origin : Point F) : Out (Point F) :=
  match a.point n fuel param with
  | .val p => .val p
  | .running => .running
  | .err =>
    match a.find param with
    | some (.map _) =>
      match a.number n (param ++ angleEnd) with
      | .val angle =>
        match a.number n (param ++ lengthEnd) with
        | .val length => .val (lineAngleEnd origin length angle)
        | .err => .err
        | .running => .running
      | .err => .err
      | .running => .running
    | _ => .err

/-- dom/param_lookup.go:94-107, 219-233, 278-292, 302-308 (`MustPoint`, `MustString`, `MustHandle`, `MustBool`, `MustInt`, `MustFloat64`). -/
def Out.getD {α : Type u} (o : Out α) (d : α) : Out α :=
  match o with
  | .err => .val d
  | o => o

end Verif.Dyn
