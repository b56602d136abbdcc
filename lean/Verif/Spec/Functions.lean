import Verif.Model.Params

/-!
# Specification of the functions in expressions
-/

namespace Verif.Dyn

universe u

variable {F : Type u}

/-- What is between the parentheses, as a list of arguments. -/
inductive Args : Val F → List (Val F) → Prop
  | nothing : Args .null []
  | several (l) : Args (.list l) l
  | one (v) : v ≠ .null → (∀ l, v ≠ .list l) → Args v [v]

/-- Lists among the arguments are replaced by their elements. -/
inductive Flat : List (Val F) → List (Val F) → Prop
  | nil : Flat [] []
  | list (k l l') : Flat l l' → Flat (.list k :: l) (k ++ l')
  | other (v l l') : (∀ k, v ≠ .list k) → Flat l l' → Flat (v :: l) (v :: l')

/-- The value of a coordinate of a point; a missing one is the empty text. -/
def coordinate (m : DMap F) (k : Text) : Val F := (m.lookup k).getD (.str [])

/-- Two points: four numbers, or two maps with their coordinates. -/
inductive TwoPoints (number : Val F → Out F) (a b c d : F) : List (Val F) → Prop
  | numbers (s t u v) : number s = .val a → number t = .val b → number u = .val c → number v = .val d → TwoPoints number a b c d [s, t, u, v]
  | maps (m n) : number (coordinate m ['x']) = .val a → number (coordinate m ['y']) = .val b → number (coordinate n ['x']) = .val c →
      number (coordinate n ['y']) = .val d → TwoPoints number a b c d [.map m, .map n]

/-- What is between the parentheses gives two points. -/
def GivesPoints (number : Val F → Out F) (v : Val F) (a b c d : F) : Prop :=
  ∃ l k, Args v l ∧ Flat l k ∧ TwoPoints number a b c d k

end Verif.Dyn
