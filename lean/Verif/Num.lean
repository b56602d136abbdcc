import Mathlib.Algebra.Order.Field.Basic
import Mathlib.Data.Rat.Cast.Order
import Mathlib.Tactic.Ring
import Mathlib.Tactic.Linarith
import Mathlib.Tactic.NormNum

/-!
# Numbers

Go's `float64` is modelled by the class `Arith`, which has the operations but *no laws*. The model of the code is
written over this class, so a theorem that assumes only `[Arith F]` holds for every arithmetic, IEEE doubles included.
Theorems that need exact arithmetic are stated for an ordered field, through the instance `Arith.ofField`.
-/

namespace Verif

universe u

/-- The arithmetic the Go code uses on `float64`: the four operations, the Boolean comparisons `<`, `<=`, `==`,
`math.IsNaN`, and decimal literals (`lit m e` is the constant `m * 10^(-e)`). No laws. -/
class Arith (F : Type u) where
  add : F → F → F
  sub : F → F → F
  mul : F → F → F
  div : F → F → F
  neg : F → F
  lit : Int → Nat → F
  lt : F → F → Bool
  le : F → F → Bool
  eq : F → F → Bool
  isNaN : F → Bool

infixl:65 " +. " => Arith.add
infixl:65 " -. " => Arith.sub
infixl:70 " *. " => Arith.mul
infixl:70 " /. " => Arith.div
prefix:75 "-. " => Arith.neg
infix:50 " <. " => Arith.lt
infix:50 " <=. " => Arith.le
infix:50 " ==. " => Arith.eq

namespace Arith

/-- The literal `0`. -/
abbrev zero {F : Type u} [Arith F] : F := lit 0 0

/-- The literal `1`. -/
abbrev one {F : Type u} [Arith F] : F := lit 1 0

/-- The literal `2`. -/
abbrev two {F : Type u} [Arith F] : F := lit 2 0

/-- Exact arithmetic: every ordered field is an instance. There is no NaN and no rounding. (Division by zero is `0` in a
field; the model never relies on it: theorems exclude the case or use `XNum`.) -/
instance (priority := low) ofField {K : Type u} [Field K] [LinearOrder K] : Arith K where
  add a b := a + b
  sub a b := a - b
  mul a b := a * b
  div a b := a / b
  neg a := -a
  lit m e := (m : K) / 10 ^ e
  lt a b := decide (a < b)
  le a b := decide (a ≤ b)
  eq a b := decide (a = b)
  isNaN _ := false

variable {K : Type u} [Field K] [LinearOrder K]

@[simp] theorem add_field (a b : K) : a +. b = a + b := rfl
@[simp] theorem sub_field (a b : K) : a -. b = a - b := rfl
@[simp] theorem mul_field (a b : K) : a *. b = a * b := rfl
@[simp] theorem div_field (a b : K) : a /. b = a / b := rfl
@[simp] theorem neg_field (a : K) : -. a = -a := rfl
@[simp] theorem lt_field (a b : K) : (a <. b) = decide (a < b) := rfl
@[simp] theorem le_field (a b : K) : (a <=. b) = decide (a ≤ b) := rfl
@[simp] theorem eq_field (a b : K) : (a ==. b) = decide (a = b) := rfl
@[simp] theorem isNaN_field (a : K) : isNaN a = false := rfl
theorem lit_field (m : Int) (e : Nat) : (lit m e : K) = (m : K) / 10 ^ e := rfl
@[simp] theorem lit_zero_field (m : Int) : (lit m 0 : K) = (m : K) := by simp [lit_field]

end Arith

end Verif
