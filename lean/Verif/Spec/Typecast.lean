import Verif.Spec.Dynmap
import Mathlib.Data.Nat.Digits.Defs

/-!
# What an integer looks like in a text, what it means to split a text, and what a URL keeps
-/

namespace Verif.Dyn

universe u

variable {F : Type u}

/-- The character is the digit `d`. -/
def IsDigit (c : Char) (d : Nat) : Prop := "0123456789abcdef".toList[d]? = some c ∨ "0123456789ABCDEF".toList[d]? = some c

/-- The texts are the digits `ds` in groups, none of them empty. -/
def Groups (base : Nat) (gs : List Text) (ds : List Nat) : Prop :=
  gs ≠ [] ∧ (∀ g ∈ gs, g ≠ []) ∧ List.Forall₂ IsDigit gs.flatten ds ∧ ∀ d ∈ ds, d < base

/-- The groups with one underscore between them. -/
def underscored (gs : List Text) : Text := (gs.intersperse ['_']).flatten

/-- The number with these digits, the highest first. -/
def numberOf (base : Nat) (ds : List Nat) : Nat := Nat.ofDigits base ds.reverse

/-- The ways to begin a number that is not decimal. -/
def basePrefixes : List (Text × Nat) :=
  [("0b".toList, 2), ("0B".toList, 2), ("0o".toList, 8), ("0O".toList, 8), ("0x".toList, 16), ("0X".toList, 16), ("0".toList, 8)]

/-- The text is a natural number as Go writes literals. -/
inductive Natural : Text → Nat → Prop
  | zero : Natural "0".toList 0
  | decimal {gs ds} : Groups 10 gs ds → ds.head? ≠ some 0 → Natural (underscored gs) (numberOf 10 ds)
  | based {pre base gs ds} : (pre, base) ∈ basePrefixes → Groups base gs ds → Natural (pre ++ underscored gs) (numberOf base ds)
  | split {pre base gs ds} : (pre, base) ∈ basePrefixes → Groups base gs ds → Natural (pre ++ '_' :: underscored gs) (numberOf base ds)

/-- The text is an integer of 64 bits as Go writes literals. -/
def Integer (s : Text) (n : Int) : Prop :=
  (-2 ^ 63 ≤ n ∧ n < 2 ^ 63) ∧
    ∃ t k, Natural t k ∧ ((s = t ∧ n = k) ∨ (s = '+' :: t ∧ n = k) ∨ (s = '-' :: t ∧ n = -(k : Int)))

/-- The decimal digits of a natural number. -/
def decimalNat (n : Nat) : Text := (toString n).toList

/-- The decimal text of an integer. -/
def decimalInt (n : Int) : Text := if n < 0 then '-' :: decimalNat n.natAbs else decimalNat n.natAbs

/-- A text, the delimiter, the next text, and so on. -/
def interleaved (delim : Text) : List Text → Text
  | [] => []
  | [p] => p
  | p :: q :: l => p ++ delim ++ interleaved delim (q :: l)

/-- What a URL makes of what is seen at a place: values that are no maps become texts. -/
def Seen.asText (shown : Val F → Text) : Seen F → Seen F
  | .leaf v => .leaf (.str (shown v))
  | x => x

/-- No key in it has a bracket. -/
def NoBrackets (a : DMap F) : Prop := ∀ p m, follow (.map a) p = some (.map m) → ∀ e ∈ m, '[' ∉ e.1 ∧ ']' ∉ e.1

end Verif.Dyn
