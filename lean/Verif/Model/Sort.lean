import Verif.Model.Dynmap

/-!
# Model of `dynmap/sort.go`

The conversion of a number to an integer (`int64(v)` of Go, dynmap/typecast.go:117-120) and the printing of a value (`fmt.Sprintf("%s", v)`)
are parameters. Times and pointers are not values of the model.
-/

namespace Verif.Dyn

universe u

variable {F : Type u}

/-- dynmap/sort.go:99-130 (`ToSortVal`): the order of the kinds of values. -/
def kindOrder : Val F → Nat
  | .bool _ => 0
  | .num _ => 1
  | .str _ => 2
  | .map _ => 4
  | .list _ => 10
  | .null => 10

/-- dynmap/sort.go:67-88 (`Less`). The texts are compared byte by byte, which for UTF-8 is the order of the characters. -/
def less (toInt : F → Int) (shown : Val F → Text) (v w : Val F) : Bool :=
  if kindOrder v ≠ kindOrder w then decide (kindOrder v < kindOrder w)
  else
    match v, w with
    | .bool b, _ => b
    | .num x, .num y => decide (toInt x < toInt y)
    | .str s, .str t => decide (s < t)
    | v, w => decide (shown v < shown w)

/-- dynmap/sort.go:42-64 (`DynMapSlice.Less`) for two of the maps and the column `col`. -/
def rowLess (toInt : F → Int) (shown : Val F → Text) (col : Text) (a b : DMap F) : Bool :=
  match get a col, get b col with
  | none, _ => false
  | some _, none => true
  | some v, some w => less toInt shown v w

end Verif.Dyn
