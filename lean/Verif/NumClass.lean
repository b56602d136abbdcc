import Verif.Decimal
import Mathlib.Analysis.SpecialFunctions.Trigonometric.Inverse
import Mathlib.Analysis.SpecialFunctions.Trigonometric.Arctan
import Mathlib.Analysis.SpecialFunctions.Complex.Arg
import Mathlib.Analysis.SpecialFunctions.Pow.Real

/-!
# Rounding, printing and transcendental functions

`Num` adds printing, parsing and rounding to `Arith`; `Trig` adds the functions of Go's package `math`. Both are lawless. There are
instances for exact arithmetic (`Num.ofField`, `Trig ℝ`) and for exact arithmetic extended by the IEEE special values
(`XNum K`, `XNum ℝ`).
-/

namespace Verif

universe u

/-- Printing, parsing and rounding of numbers. No laws. -/
class Num (F : Type u) extends Arith F where
  /-- `fmt.Sprintf("%.nf", x)` -/
  fmt : Nat → F → Text
  /-- `strconv.ParseFloat(s, 64)`; `none` is an error -/
  parse : Text → Option F
  /-- `math.Floor` -/
  floor : F → F
  /-- `math.Round`: to the nearest integer, ties away from zero -/
  round : F → F
  /-- `math.Abs` -/
  abs : F → F
  /-- `math.Max` -/
  max : F → F → F
  /-- `math.Min` -/
  min : F → F → F

/-- The functions of Go's package `math` that the code uses. No laws. -/
class Trig (F : Type u) extends Num F where
  sqrt : F → F
  sin : F → F
  cos : F → F
  atan : F → F
  acos : F → F
  /-- `math.Atan2(y, x)` -/
  atan2 : F → F → F
  /-- `math.Pow(x, y)` -/
  pow : F → F → F
  /-- `math.Pi` -/
  pi : F

namespace Num

/-- `math.Round` in an ordered field: nearest integer, ties away from zero. -/
def roundAway {K : Type u} [Field K] [LinearOrder K] [FloorRing K] (x : K) : K :=
  if x < 0 then -(⌊-x + 1 / 2⌋ : K) else (⌊x + 1 / 2⌋ : K)

/-- Exact arithmetic. Go's `ParseFloat` also accepts hexadecimal notation, `inf` and `nan`; here those texts are errors. -/
instance (priority := low) ofField {K : Type u} [Field K] [LinearOrder K] [FloorRing K] : Num K where
  toArith := Arith.ofField
  fmt := Decimal.fmt
  parse s := (Decimal.parseDecimal s).map Decimal.value
  floor x := (⌊x⌋ : K)
  round := roundAway
  abs x := |x|
  max a b := Max.max a b
  min a b := Min.min a b

variable {K : Type u} [Field K] [LinearOrder K] [FloorRing K]

@[simp] theorem fmt_field (n : Nat) (x : K) : Num.fmt n x = Decimal.fmt n x := rfl
@[simp] theorem parse_field (s : Text) : (Num.parse s : Option K) = (Decimal.parseDecimal s).map Decimal.value := rfl
@[simp] theorem floor_field (x : K) : Num.floor x = (⌊x⌋ : K) := rfl
@[simp] theorem round_field (x : K) : Num.round x = roundAway x := rfl
@[simp] theorem abs_field (x : K) : Num.abs x = |x| := rfl
@[simp] theorem max_field (a b : K) : Num.max a b = Max.max a b := rfl
@[simp] theorem min_field (a b : K) : Num.min a b = Min.min a b := rfl

end Num

/-- Exact real arithmetic with Mathlib's functions. (`sqrt` of a negative number is `0` and `acos` outside `[-1,1]` is constant
here, where Go gives NaN: use `XNum ℝ` when that can happen.) -/
noncomputable instance : Trig ℝ where
  toNum := Num.ofField
  sqrt := Real.sqrt
  sin := Real.sin
  cos := Real.cos
  atan := Real.arctan
  acos := Real.arccos
  atan2 y x := Complex.arg ⟨x, y⟩
  pow := Real.rpow
  pi := Real.pi

namespace Trig

@[simp] theorem sqrt_real (x : ℝ) : Trig.sqrt x = Real.sqrt x := rfl
@[simp] theorem sin_real (x : ℝ) : Trig.sin x = Real.sin x := rfl
@[simp] theorem cos_real (x : ℝ) : Trig.cos x = Real.cos x := rfl
@[simp] theorem atan_real (x : ℝ) : Trig.atan x = Real.arctan x := rfl
@[simp] theorem acos_real (x : ℝ) : Trig.acos x = Real.arccos x := rfl
@[simp] theorem atan2_real (y x : ℝ) : Trig.atan2 y x = Complex.arg ⟨x, y⟩ := rfl
@[simp] theorem pow_real (x y : ℝ) : Trig.pow x y = x ^ y := rfl
@[simp] theorem pi_real : (Trig.pi : ℝ) = Real.pi := rfl

end Trig

/-- Exact numbers with the IEEE special values. There is a single zero, which counts as positive. -/
inductive XNum (K : Type u) where
  | fin (k : K)
  | pinf
  | ninf
  | nan
deriving Repr, DecidableEq

namespace XNum

variable {K : Type u} [Field K] [LinearOrder K]

def neg : XNum K → XNum K
  | fin a => fin (-a)
  | pinf => ninf
  | ninf => pinf
  | nan => nan

def add : XNum K → XNum K → XNum K
  | fin a, fin b => fin (a + b)
  | nan, _ => nan
  | _, nan => nan
  | pinf, ninf => nan
  | ninf, pinf => nan
  | pinf, _ => pinf
  | _, pinf => pinf
  | ninf, _ => ninf
  | _, ninf => ninf

/-- An infinity with the sign of `a` (`nan` for zero, the product `0 * Inf`). -/
def infTimes (a : K) : XNum K := if 0 < a then pinf else if a < 0 then ninf else nan

def mul : XNum K → XNum K → XNum K
  | fin a, fin b => fin (a * b)
  | nan, _ => nan
  | _, nan => nan
  | pinf, fin b => infTimes b
  | fin a, pinf => infTimes a
  | ninf, fin b => neg (infTimes b)
  | fin a, ninf => neg (infTimes a)
  | pinf, pinf => pinf
  | ninf, ninf => pinf
  | pinf, ninf => ninf
  | ninf, pinf => ninf

def div : XNum K → XNum K → XNum K
  | fin a, fin b => if b = 0 then infTimes a else fin (a / b)
  | nan, _ => nan
  | _, nan => nan
  | pinf, fin b => if b < 0 then ninf else pinf
  | ninf, fin b => if b < 0 then pinf else ninf
  | fin _, _ => fin 0
  | _, _ => nan

def lt : XNum K → XNum K → Bool
  | fin a, fin b => decide (a < b)
  | nan, _ => false
  | _, nan => false
  | ninf, ninf => false
  | ninf, _ => true
  | _, ninf => false
  | pinf, _ => false
  | fin _, pinf => true

def eq : XNum K → XNum K → Bool
  | fin a, fin b => decide (a = b)
  | pinf, pinf => true
  | ninf, ninf => true
  | _, _ => false

def isNaN : XNum K → Bool
  | nan => true
  | _ => false

instance : Arith (XNum K) where
  add := add
  sub a b := add a (neg b)
  mul := mul
  div := div
  neg := neg
  lit m e := fin ((m : K) / 10 ^ e)
  lt := lt
  le a b := lt a b || eq a b
  eq := eq
  isNaN := isNaN

@[simp] theorem add_fin (a b : K) : (fin a +. fin b : XNum K) = fin (a + b) := rfl
@[simp] theorem sub_fin (a b : K) : (fin a -. fin b : XNum K) = fin (a - b) := by
  show fin (a + -b) = fin (a - b); rw [sub_eq_add_neg]
@[simp] theorem mul_fin (a b : K) : (fin a *. fin b : XNum K) = fin (a * b) := rfl
@[simp] theorem neg_fin (a : K) : (-. fin a : XNum K) = fin (-a) := rfl
theorem div_fin (a b : K) : (fin a /. fin b : XNum K) = if b = 0 then infTimes a else fin (a / b) := rfl
@[simp] theorem div_fin_ne {a b : K} (h : b ≠ 0) : (fin a /. fin b : XNum K) = fin (a / b) := by simp [div_fin, h]
@[simp] theorem lt_fin (a b : K) : (fin a <. fin b : Bool) = decide (a < b) := rfl
@[simp] theorem le_fin (a b : K) : (fin a <=. fin b : Bool) = decide (a ≤ b) := by
  show (decide (a < b) || decide (a = b)) = _
  rw [Bool.eq_iff_iff]; simp [le_iff_lt_or_eq]
@[simp] theorem eq_fin (a b : K) : (fin a ==. fin b : Bool) = decide (a = b) := rfl
@[simp] theorem isNaN_fin (a : K) : Arith.isNaN (fin a : XNum K) = false := rfl
theorem lit_fin (m : Int) (e : Nat) : (Arith.lit m e : XNum K) = fin ((m : K) / 10 ^ e) := rfl
@[simp] theorem lit_zero_fin (m : Int) : (Arith.lit m 0 : XNum K) = fin (m : K) := by simp [lit_fin]

variable [FloorRing K]

/-- Applies a function to the finite numbers and keeps the special values. -/
def lift1 (f : K → K) : XNum K → XNum K
  | fin a => fin (f a)
  | x => x

/-- `%.nf`. -/
def fmt (n : Nat) : XNum K → Text
  | fin a => Decimal.fmt n a
  | pinf => "+Inf".toList
  | ninf => "-Inf".toList
  | nan => "NaN".toList

/-- `math.Max`: NaN if one of the arguments is. (Go: `+Inf` wins even over NaN.) -/
def max : XNum K → XNum K → XNum K
  | pinf, _ => pinf
  | _, pinf => pinf
  | nan, _ => nan
  | _, nan => nan
  | fin a, fin b => fin (Max.max a b)
  | ninf, x => x
  | x, ninf => x

/-- `math.Min`. -/
def min (a b : XNum K) : XNum K := neg (max (neg a) (neg b))

/-- Texts `inf`, `infinity`, `nan` in any case, with an optional sign for the infinities, as accepted by `strconv.ParseFloat`. -/
def parseSpecial (s : Text) : Option (XNum K) :=
  let sg := Decimal.takeSign (s.map Char.toLower)
  if sg.2 = "inf".toList ∨ sg.2 = "infinity".toList then some (if sg.1 then ninf else pinf)
  else if s.map Char.toLower = "nan".toList then some nan
  else none

instance : Num (XNum K) where
  fmt := fmt
  parse s := match Decimal.parseDecimal s with
    | some d => some (fin (Decimal.value d))
    | none => parseSpecial s
  floor := lift1 fun x => (⌊x⌋ : K)
  round := lift1 Num.roundAway
  abs | fin a => fin |a|
      | nan => nan
      | _ => pinf
  max := max
  min := min

@[simp] theorem fmt_fin (n : Nat) (x : K) : Num.fmt n (fin x : XNum K) = Decimal.fmt n x := rfl
@[simp] theorem floor_fin (x : K) : Num.floor (fin x : XNum K) = fin (⌊x⌋ : K) := rfl
@[simp] theorem round_fin (x : K) : Num.round (fin x : XNum K) = fin (Num.roundAway x) := rfl
@[simp] theorem abs_fin (x : K) : Num.abs (fin x : XNum K) = fin |x| := rfl
@[simp] theorem max_fin (a b : K) : Num.max (fin a : XNum K) (fin b) = fin (Max.max a b) := rfl
theorem min_fin [IsStrictOrderedRing K] (a b : K) : Num.min (fin a : XNum K) (fin b) = fin (Min.min a b) := by
  show fin (-(Max.max (-a) (-b))) = fin (Min.min a b)
  rw [max_neg_neg, neg_neg]

/-- `math.Atan2` with its special cases. -/
noncomputable def atan2 : XNum ℝ → XNum ℝ → XNum ℝ
  | fin y, fin x => fin (Complex.arg ⟨x, y⟩)
  | nan, _ => nan
  | _, nan => nan
  | fin _, pinf => fin 0
  | fin y, ninf => if y < 0 then fin (-Real.pi) else fin Real.pi
  | pinf, pinf => fin (Real.pi / 4)
  | ninf, pinf => fin (-(Real.pi / 4))
  | pinf, ninf => fin (3 * Real.pi / 4)
  | ninf, ninf => fin (-(3 * Real.pi / 4))
  | pinf, fin _ => fin (Real.pi / 2)
  | ninf, fin _ => fin (-(Real.pi / 2))

/-- Trigonometric functions of infinities are NaN. -/
noncomputable def trig1 (f : ℝ → ℝ) : XNum ℝ → XNum ℝ
  | fin a => fin (f a)
  | _ => nan

open Classical in
/-- `math.Pow` for finite arguments: NaN for a negative base with a non-integer exponent, `+Inf` for zero to a negative exponent. The
code never calls it with infinities; those cases are NaN here. -/
noncomputable def pow : XNum ℝ → XNum ℝ → XNum ℝ
  | fin x, fin y =>
    if x < 0 ∧ ¬ ∃ n : ℤ, y = n then nan
    else if x = 0 ∧ y < 0 then pinf
    else fin (x ^ y)
  | _, _ => nan

noncomputable instance : Trig (XNum ℝ) where
  sqrt | fin a => if a < 0 then nan else fin (Real.sqrt a)
       | pinf => pinf
       | _ => nan
  sin := trig1 Real.sin
  cos := trig1 Real.cos
  atan | fin a => fin (Real.arctan a)
       | pinf => fin (Real.pi / 2)
       | ninf => fin (-(Real.pi / 2))
       | nan => nan
  acos | fin a => if a < -1 ∨ 1 < a then nan else fin (Real.arccos a)
       | _ => nan
  atan2 := atan2
  pow := pow
  pi := fin Real.pi

theorem sqrt_fin (x : ℝ) : Trig.sqrt (fin x) = if x < 0 then nan else fin (Real.sqrt x) := rfl
@[simp] theorem sin_fin (x : ℝ) : Trig.sin (fin x) = fin (Real.sin x) := rfl
@[simp] theorem cos_fin (x : ℝ) : Trig.cos (fin x) = fin (Real.cos x) := rfl
@[simp] theorem atan_fin (x : ℝ) : Trig.atan (fin x) = fin (Real.arctan x) := rfl
theorem acos_fin (x : ℝ) : Trig.acos (fin x) = if x < -1 ∨ 1 < x then nan else fin (Real.arccos x) := rfl
@[simp] theorem atan2_fin (y x : ℝ) : Trig.atan2 (fin y) (fin x) = fin (Complex.arg ⟨x, y⟩) := rfl
@[simp] theorem pi_fin : (Trig.pi : XNum ℝ) = fin Real.pi := rfl
theorem pow_fin_nonneg {x y : ℝ} (hx : 0 ≤ x) (hy : 0 ≤ y) : Trig.pow (fin x) (fin y) = fin (x ^ y) := by
  show pow (fin x) (fin y) = _
  simp [pow, not_lt.2 hx, not_lt.2 hy]

end XNum

end Verif
