import Verif.Spec.Packing
import Verif.Double
import Mathlib.Algebra.Order.Group.Unbundled.Abs
import Mathlib.Algebra.Order.Ring.Abs

/-!
# Arithmetic with rounding

`Rounds fin val M ε` says that the numbers of `F` of which `fin` holds stand for numbers of the ordered field `K`, and that the operations of `F` are
those of `K` up to rounding: comparisons are exact; sums and differences are off by at most `ε` as long as they are not beyond `M`.
-/

namespace Verif

universe u v

variable {F : Type u} [Arith F] {K : Type v} [Field K] [LinearOrder K]

/-- The arithmetic of `F` is that of `K` up to rounding. -/
structure Rounds (fin : F → Prop) (val : F → K) (M ε : K) : Prop where
  lt : ∀ a b, fin a → fin b → ((a <. b) = true ↔ val a < val b)
  le : ∀ a b, fin a → fin b → ((a <=. b) = true ↔ val a ≤ val b)
  eq : ∀ a b, fin a → fin b → ((a ==. b) = true ↔ val a = val b)
  nan : ∀ a, fin a → Arith.isNaN a = false
  zero : fin Arith.zero ∧ val Arith.zero = 0
  add : ∀ a b, fin a → fin b → |val a + val b| ≤ M → fin (a +. b) ∧ |val (a +. b) - (val a + val b)| ≤ ε
  add_nonneg : ∀ a b, fin a → fin b → 0 ≤ val a → 0 ≤ val b → val a + val b ≤ M → 0 ≤ val (a +. b)
  add_pos : ∀ a b, fin a → fin b → 0 ≤ val a → 0 < val b → val a + val b ≤ M → 0 < val (a +. b)
  /-- A difference of numbers that are not negative: the smaller from the larger. -/
  sub : ∀ a b, fin a → fin b → 0 ≤ val b → val b ≤ val a → val a ≤ M → fin (a -. b) ∧ |val (a -. b) - (val a - val b)| ≤ ε
  /-- A difference is not above the number that is subtracted from. -/
  sub_le : ∀ a b, fin a → fin b → 0 ≤ val b → val b ≤ val a → val a ≤ M → val (a -. b) ≤ val a
  /-- A difference of different numbers is not zero. -/
  sub_pos : ∀ a b, fin a → fin b → 0 ≤ val b → val b < val a → val a ≤ M → 0 < val (a -. b)
  sub_self : ∀ a b, fin a → fin b → 0 ≤ val b → val a = val b → val a ≤ M → val (a -. b) = 0
  /-- What padding needs. -/
  twice : ∀ a, fin a → 0 ≤ val a → val a * 2 ≤ M → fin (a *. Arith.two) ∧ 0 ≤ val (a *. Arith.two) ∧ |val (a *. Arith.two) - val a * 2| ≤ ε

namespace BinPacking

/-- The rectangle that a box stands for. -/
def rectVal (val : F → K) (b : Box F) : Spec.Rect K := ⟨val b.x, val b.y, val b.width, val b.height⟩

/-- A sheet of finite numbers that is so far from the limit `M` that its sides are, too, after having been moved by `δ`. -/
structure Room (fin : F → Prop) (val : F → K) (M δ : K) (x y W H : F) : Prop where
  fins : fin x ∧ fin y ∧ fin W ∧ fin H
  width : 0 ≤ val W
  height : 0 ≤ val H
  x : |val x| + val W + δ ≤ M
  y : |val y| + val H + δ ≤ M

end BinPacking

end Verif
