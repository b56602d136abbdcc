import Verif.Model.Files

/-!
# Model of the functions in expressions

dom/expression_eval.go:60-175. The library govaluate gives a function the list of its arguments: a comma makes a list of what is on its two sides, a
list is spread over the arguments, and without a value there is no argument.

A function first decides from its arguments which values have to be converted to numbers, then converts them in this order, and then calculates.
-/

namespace Verif.Dyn

open Verif Verif.Path

universe u

variable {F : Type u}

/-- dom/expression_eval.go:122-166: the functions. -/
inductive Fn where
  | sqrt | distance | angle | mmToInch | inchToMM
deriving Repr, DecidableEq

/-- dom/expression_eval.go:122-166: their names. -/
def Fn.name : Fn → Text
  | .sqrt => "sqrt".toList
  | .distance => "distance".toList
  | .angle => "angle".toList
  | .mmToInch => "mmToInch".toList
  | .inchToMM => "inchToMM".toList

/-- The arguments that govaluate makes out of the value between the parentheses. -/
def spread : Val F → List (Val F)
  | .null => []
  | .list l => l
  | v => [v]

/-- The comma of govaluate: a list on the left side gets one more element. -/
def comma : Val F → Val F → Val F
  | .list l, v => .list (l ++ [v])
  | u, v => .list [u, v]

/-- dom/expression_eval.go:71-82 (`flatten`). -/
def flattenArgs (args : List (Val F)) : List (Val F) :=
  args.flatMap fun v =>
    match v with
    | .list l => l
    | v => [v]

/-- dom/param_lookup.go:133-152 (`ToPoint`): the two values to convert, or an error. A missing coordinate is the empty text. -/
def coordArgs : Val F → List (Option (Val F))
  | .map m => [some ((get m ['x']).getD (.str [])), some ((get m ['y']).getD (.str []))]
  | _ => [none]

/-- dom/expression_eval.go:96-118 (`pointPair`): the values to convert. -/
def pairArgs (args : List (Val F)) : List (Option (Val F)) :=
  match flattenArgs args with
  | [p, q] => coordArgs p ++ coordArgs q
  | l => l.map some

/-- The values that are converted to numbers, in order; where there is none the function returns an error. Without an argument `sqrt` panics
(dom/expression_eval.go:123). -/
def Fn.demand : Fn → List (Val F) → Option (List (Option (Val F)))
  | .sqrt, [] => none
  | .sqrt, v :: _ => some [some v]
  | .distance, args => some (pairArgs args)
  | .angle, args => some (pairArgs args)
  | .mmToInch, args => some (args.map some)
  | .inchToMM, args => some (args.map some)

/-- dom/expression_eval.go:122-166: the result for the numbers. -/
def Fn.result [Trig F] : Fn → List F → Option F
  | .sqrt, [x] => some (Trig.sqrt x)
  | .distance, [a, b, c, d] => some (Path.distance (newPoint a b) (newPoint c d))
  | .angle, [a, b, c, d] => some (lineAngle (newPoint a b, newPoint c d))
  | .mmToInch, [x] => some (Files.mmToInch x)
  | .inchToMM, [x] => some (Files.inchToMM x)
  | _, _ => none

end Verif.Dyn
