import Verif.Double

/-!
# The functions of package `math` on doubles

Their results are not specified to the last digit, so they are any functions. What is proved with them holds whatever they are.
-/

namespace Verif

/-- The functions of package `math`, of which nothing is known. -/
class MathLib where
  sqrt : Double → Double
  sin : Double → Double
  cos : Double → Double
  atan : Double → Double
  acos : Double → Double
  atan2 : Double → Double → Double
  pow : Double → Double → Double
  pi : Double

instance [MathLib] : Trig Double where
  sqrt := MathLib.sqrt
  sin := MathLib.sin
  cos := MathLib.cos
  atan := MathLib.atan
  acos := MathLib.acos
  atan2 := MathLib.atan2
  pow := MathLib.pow
  pi := MathLib.pi

end Verif
