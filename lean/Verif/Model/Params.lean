import Verif.Model.Functions
import Verif.Model.PathText

/-!
# Model of the lookup of parameters and of expressions

dom/param_lookup.go, dom/expression_eval.go, dynmap/typecast.go. An element with its ancestors is a `Chain`; every component has its parent set
(the factories do that) and the outermost element is the document.

Expressions are parsed and evaluated by the library govaluate. The parser is a parameter (any function from texts to expressions); an expression
is a tree of numbers, quoted texts, names, operators and function calls. Operators evaluate their operands from left to right
(the right one may be skipped, as govaluate does for `&&`, `||`, `?:`), and give a value or an error. The functions are in
`Verif/Model/Functions.lean`. The printed warnings are not modelled.
-/

namespace Verif.Dyn

open Verif.Path (toFloat)

universe u

variable {F : Type u}

/-! ## Conversions -/

/-- `strings.ToLower` for ASCII letters. -/
def lower (s : Text) : Text := s.map Char.toLower

/-- dynmap/typecast.go:37-39. -/
def trueTexts : List Text := [['t', 'r', 'u', 'e'], ['t'], ['y', 'e', 's'], ['y'], ['o', 'n']]

/-- dynmap/typecast.go:41-43. -/
def falseTexts : List Text := [['f', 'a', 'l', 's', 'e'], ['f'], ['n', 'o'], ['n'], ['o', 'f', 'f']]

/-- dynmap/typecast.go:29-46 (`ToBool`). -/
def toBool : Val F → Option Bool
  | .bool b => some b
  | .str s => if lower s ∈ trueTexts then some true else if lower s ∈ falseTexts then some false else none
  | _ => none

/-- dynmap/typecast.go:69-84 (`ToFloat64`). -/
def toFloat64 [Num F] : Val F → Option F
  | .num x => some x
  | .str s => toFloat s
  | _ => none

/-! ## Lookup -/

/-- dom/models.go:70-77, 139-149 (`BasicElement`, `BasicComponent`): the maps of an element. -/
structure Elem (F : Type u) where
  params : DMap F
  original : DMap F
  defaults : DMap F

/-- The key `params`. -/
def paramsKey : Text := ['p', 'a', 'r', 'a', 'm', 's']

/-- The key `value`. -/
def valueKey : Text := ['v', 'a', 'l', 'u', 'e']

/-- dom/models.go:91-96, 163-168 (`Params`). -/
def Elem.allParams (e : Elem F) : DMap F := if e.params.isEmpty then (getDynMap e.original paramsKey).getD [] else e.params

/-- An element with its ancestors (dom/models.go:257-259, `Parent`); the document has the parameters of its context
(dom/document.go:9-12). -/
inductive Chain (F : Type u) where
  | document (e : Elem F) (context : DMap F)
  | component (e : Elem F) (parent : Chain F)

/-- The element itself. -/
def Chain.elem : Chain F → Elem F
  | .document e _ => e
  | .component e _ => e

/-- The parameters of the document context, on the document only (dom/param_lookup.go:357-366). -/
def Chain.context : Chain F → DMap F
  | .document _ ctx => ctx
  | .component _ _ => []

/-- dom/param_lookup.go:349-378: the value of a name on the element itself. -/
def Chain.define (c : Chain F) (param : Text) : Option (Val F) :=
  let v := ((get c.elem.allParams param).or (get c.elem.original param)).or (get c.context param)
  match v with
  | some (.map m) => if (get m valueKey).isSome then get m valueKey else v
  | _ => v

/-- dom/expression_eval.go:19 (`maxRecursion`). -/
def maxRecursion : Nat := 20

/-- dom/param_lookup.go:343-395 (`localLookup`). -/
def localLookup (c : Chain F) (param : Text) (recursion : Nat) : Option (Val F) :=
  if recursion > maxRecursion then none
  else
    match c.define param with
    | none => if recursion > 0 then some (.str param) else none
    | some (.str s) => localLookup c s (recursion + 1)
    | some v => some v
termination_by maxRecursion + 1 - recursion

/-- dom/param_lookup.go:396-413 (`BasicParamLookerUpper.Lookup`). -/
def Chain.lookup : Chain F → Text → Option (Val F)
  | .document e ctx, param => localLookup (.document e ctx) param 0
  | .component e parent, param =>
    match localLookup (.component e parent) param 0 with
    | none => parent.lookup param
    | some (.str s) =>
      match parent.lookup s with
      | some v => some v
      | none => some (.str s)
    | some v => some v

/-- dom/param_lookup.go:20 (`recursionMax`). -/
def recursionMax : Nat := 12

/-- The number of elements of a chain. -/
def Chain.length : Chain F → Nat
  | .document _ _ => 1
  | .component _ parent => parent.length + 1

mutual

/-- dom/param_lookup.go:38-57, 59-79 (`Attr.lookup` with `realize`): `c` is the element, `mp` the local map. -/
def attrLookup (c : Chain F) (mp : DMap F) (param : Text) (recursion : Nat) : Option (Val F) :=
  if recursion > recursionMax then none
  else
    match get mp param with
    | some (.str s) =>
      if s ≠ param then
        match attrLookup c mp s (recursion + 1) with
        | some v => some v
        | none => some (.str s)
      else
        match c.lookup param with
        | some v => some v
        | none => attrDefault c mp c param recursion
    | some v => some v
    | none =>
      match c.lookup param with
      | some v => some v
      | none => attrDefault c mp c param recursion
termination_by (recursionMax + 1 - recursion, if recursion > recursionMax then 0 else c.length + 2)
decreasing_by
  · exact Prod.Lex.left _ _ (by omega)
  all_goals
    refine Prod.Lex.right _ ?_
    rw [if_neg (by assumption)]
    omega

/-- dom/param_lookup.go:81-91 (`lookupDefault`), along the ancestors `e` of the element `c`. -/
def attrDefault (c : Chain F) (mp : DMap F) (e : Chain F) (param : Text) (recursion : Nat) : Option (Val F) :=
  match get e.elem.defaults param with
  | some (.str s) =>
    if s ≠ param then
      match attrLookup c mp s (recursion + 1) with
      | some v => some v
      | none => some (.str s)
    else none
  | some v => some v
  | none =>
    match e with
    | .component _ parent => attrDefault c mp parent param (recursion + 1)
    | .document _ _ => none
termination_by (recursionMax + 1 - recursion, e.length + 1)
decreasing_by
  · by_cases h : recursion > recursionMax
    · have e1 : recursionMax + 1 - (recursion + 1) = recursionMax + 1 - recursion := by omega
      rw [e1, if_pos (by omega)]
      exact Prod.Lex.right _ (by omega)
    · exact Prod.Lex.left _ _ (by omega)
  · by_cases h : recursion > recursionMax
    · have e1 : recursionMax + 1 - (recursion + 1) = recursionMax + 1 - recursion := by omega
      rw [e1]
      exact Prod.Lex.right _ (by simp [Chain.length])
    · exact Prod.Lex.left _ _ (by omega)

end

/-! ## Expressions -/

/-- What govaluate parses; `empty` is what is between the parentheses of `f()`. -/
inductive Expr (F : Type u) (O : Type) where
  | empty
  | num (x : F)
  | text (s : Text)
  | var (name : Text)
  | op (o : O) (l r : Expr F O)
  | call (f : Fn) (a : Expr F O)

/-- The library: the parser, and the operators on values (`none` is an error). Operators like `&&` have a shortcut: for some
values of the left side they do not evaluate the right side. -/
structure Lib (F : Type u) (O : Type) where
  parse : Text → Option (Expr F O)
  shortcut : O → Option (Val F → Option (Val F))
  op : O → Val F → Val F → Option (Val F)

/-- The outcome of an evaluation: a value, an error, or neither: still running when the fuel is used up, or a panic. -/
inductive Out (α : Type u) where
  | val (a : α)
  | err
  | running

/-- dom/expression_eval.go:84-94 (`fl`), dom/param_lookup.go:143-150: the values are converted one after the other, up to the first error. -/
def toNumbers (number : Val F → Out F) : List (Option (Val F)) → Out (List F)
  | [] => .val []
  | none :: _ => .err
  | some v :: l =>
    match number v with
    | .val x =>
      match toNumbers number l with
      | .val xs => .val (x :: xs)
      | .err => .err
      | .running => .running
    | .err => .err
    | .running => .running

/-- dom/expression_eval.go:122-166: the call of a function with what is between its parentheses. -/
def callFn [Trig F] (number : Val F → Out F) (f : Fn) (v : Val F) : Out (Val F) :=
  match f.demand (spread v) with
  | none => .running
  | some l =>
    match toNumbers number l with
    | .val xs =>
      match f.result xs with
      | some y => .val (.num y)
      | none => .err
    | .err => .err
    | .running => .running

/-- The evaluation of a parsed expression: `getVar` evaluates a name and counts, `number` converts an argument of a function. -/
def evalExpr {O : Type} [Trig F] (lib : Lib F O) (getVar : Nat → Text → Out (Val F) × Nat) (number : Val F → Out F) (rec : Nat) :
    Expr F O → Out (Val F) × Nat
  | .empty => (.val .null, rec)
  | .num x => (.val (.num x), rec)
  | .text s => (.val (.str s), rec)
  | .var x => getVar rec x
  | .op o l r =>
    match evalExpr lib getVar number rec l with
    | (.val a, rec1) =>
      match (lib.shortcut o).bind (· a) with
      | some v => (.val v, rec1)
      | none =>
        match evalExpr lib getVar number rec1 r with
        | (.val b, rec2) =>
          match lib.op o a b with
          | some v => (.val v, rec2)
          | none => (.err, rec2)
        | (out, rec2) => (out, rec2)
    | (out, rec1) => (out, rec1)
  | .call f a =>
    match evalExpr lib getVar number rec a with
    | (.val v, rec1) => (callFn number f v, rec1)
    | (out, rec1) => (out, rec1)

/-- dom/expression_eval.go:60-175 (`evalExp`), dom/expression_eval.go:21-54 (`get`) and dom/param_lookup.go:439-452 (`ToFloat64`, which
starts a new evaluation with the counter at zero). The fuel is the depth of nested evaluations; without fuel the evaluation is still running. The
counter of references is never turned back. -/
def evalText {O : Type} [Trig F] (lib : Lib F O) (look : Text → Option (Val F)) : Nat → Nat → Text → Out (Val F) × Nat
  | 0, rec, _ => (.running, rec)
  | fuel + 1, rec, s =>
    if rec > maxRecursion then (.err, rec)
    else
      match lib.parse s with
      | none => (.err, rec)
      | some e =>
        evalExpr lib
          (fun rec x =>
            match look x with
            | none => (.err, rec)
            | some v =>
              match toBool v with
              | some b => (.val (.bool b), rec)
              | none =>
                match toFloat64 v with
                | some y => (.val (.num y), rec)
                | none =>
                  match v with
                  | .str t => evalText lib look fuel (rec + 1) t
                  | v => (.val v, rec))
          (fun v =>
            match v with
            | .str t =>
              match (evalText lib look fuel 0 (t.filter fun c => decide (c ≠ '$'))).1 with
              | .val w =>
                match toFloat64 w with
                | some x => .val x
                | none => .err
              | .err => .err
              | .running => .running
            | v =>
              match toFloat64 v with
              | some x => .val x
              | none => .err)
          rec e

/-- dom/expression_eval.go:177-184 (`EvalExpression`). -/
def evalExpression {O : Type} [Trig F] (lib : Lib F O) (look : Text → Option (Val F)) (fuel : Nat) (s : Text) : Out (Val F) :=
  (evalText lib look fuel 0 s).1

end Verif.Dyn
