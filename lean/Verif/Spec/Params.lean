import Verif.Model.Params

/-!
# What parameters and expressions mean
-/

namespace Verif.Dyn

universe u

variable {F : Type u} {O : Type}

/-- A value that is not a text. -/
def NotText (v : Val F) : Prop := ∀ s, v ≠ .str s

/-- A name that neither the element nor any of its ancestors defines. -/
def Chain.Undefined (param : Text) : Chain F → Prop
  | .document e ctx => get e.allParams param = none ∧ get e.original param = none ∧ get ctx param = none
  | .component e parent => get e.allParams param = none ∧ get e.original param = none ∧ parent.Undefined param

/-- A reference: a value that is a text and stands neither for a truth value nor for a number. -/
def Refers [Num F] (look : Text → Option (Val F)) (x t : Text) : Prop :=
  look x = some (.str t) ∧ toBool (.str t : Val F) = none ∧ toFloat64 (.str t : Val F) = none

mutual

/-- The value of an expression when names are replaced by what they stand for, and the number of references that are followed. `ok` restricts
the number of references in the evaluation of the text argument of a function. -/
inductive MeansE [Trig F] (lib : Lib F O) (look : Text → Option (Val F)) (ok : Nat → Prop) : Expr F O → Val F → Nat → Prop
  | empty : MeansE lib look ok .empty .null 0
  | num (x) : MeansE lib look ok (.num x) (.num x) 0
  | text (s) : MeansE lib look ok (.text s) (.str s) 0
  | bool (x v b) : look x = some v → toBool v = some b → MeansE lib look ok (.var x) (.bool b) 0
  | number (x v y) : look x = some v → toBool v = none → toFloat64 v = some y → MeansE lib look ok (.var x) (.num y) 0
  | other (x v) : look x = some v → toBool v = none → toFloat64 v = none → NotText v → MeansE lib look ok (.var x) v 0
  | ref (x t v n) : Refers look x t → Means lib look ok t v n → MeansE lib look ok (.var x) v (n + 1)
  | short (o l r a v n) : MeansE lib look ok l a n → (lib.shortcut o).bind (· a) = some v → MeansE lib look ok (.op o l r) v n
  | op (o l r a b v n k) : MeansE lib look ok l a n → (lib.shortcut o).bind (· a) = none → MeansE lib look ok r b k → lib.op o a b = some v →
      MeansE lib look ok (.op o l r) v (n + k)
  | call (f e v l xs y n) : MeansE lib look ok e v n → f.demand (spread v) = some l → MeansL lib look ok l xs → f.result xs = some y →
      MeansE lib look ok (.call f e) (.num y) n

/-- The numbers that stand for the values that a function wants. A text is an expression of its own, without its dollar signs. -/
inductive MeansL [Trig F] (lib : Lib F O) (look : Text → Option (Val F)) (ok : Nat → Prop) : List (Option (Val F)) → List F → Prop
  | nil : MeansL lib look ok [] []
  | value (v x l xs) : NotText v → toFloat64 v = some x → MeansL lib look ok l xs → MeansL lib look ok (some v :: l) (x :: xs)
  | text (s w x k l xs) : Means lib look ok (s.filter fun c => decide (c ≠ '$')) w k → ok k → toFloat64 w = some x →
      MeansL lib look ok l xs → MeansL lib look ok (some (.str s) :: l) (x :: xs)

/-- The value of the text of an expression. -/
inductive Means [Trig F] (lib : Lib F O) (look : Text → Option (Val F)) (ok : Nat → Prop) : Text → Val F → Nat → Prop
  | parsed (s e v n) : lib.parse s = some e → MeansE lib look ok e v n → Means lib look ok s v n

end

/-- The names in an expression that every evaluation needs: the right side of an operator with a shortcut is left out. -/
def Expr.needed (lib : Lib F O) : Expr F O → List Text
  | .empty => []
  | .num _ => []
  | .text _ => []
  | .var x => [x]
  | .op o l r => if (lib.shortcut o).isSome then l.needed lib else l.needed lib ++ r.needed lib
  | .call _ a => a.needed lib

/-- An expression without function calls. -/
def Expr.NoCalls : Expr F O → Prop
  | .op _ l r => l.NoCalls ∧ r.NoCalls
  | .call _ _ => False
  | _ => True

/-- An expression in which every function has an argument and no text is quoted. -/
def Expr.NoTexts : Expr F O → Prop
  | .empty => False
  | .text _ => False
  | .op _ l r => l.NoTexts ∧ r.NoTexts
  | .call _ a => a.NoTexts
  | _ => True

/-- A value without texts, however deep, and without lists that are empty. -/
inductive Textless : Val F → Prop
  | bool (b) : Textless (.bool b)
  | num (x) : Textless (.num x)
  | list (l) : l ≠ [] → (∀ v ∈ l, Textless v) → Textless (.list l)
  | map (m) : (∀ e ∈ m, Textless e.2) → Textless (.map m)

/-- One text needs another one: it has a name that refers to it. -/
def Needs [Num F] (lib : Lib F O) (look : Text → Option (Val F)) (s t : Text) : Prop :=
  ∃ e, lib.parse s = some e ∧ ∃ x ∈ e.needed lib, Refers look x t

end Verif.Dyn
