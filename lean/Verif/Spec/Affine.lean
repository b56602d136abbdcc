import Verif.Spec.Join

/-!
# Specification vocabulary for affine maps of the plane
-/

namespace Verif.Spec

open Verif Verif.Path

universe u

/-- The six numbers of an SVG matrix: `(x, y)` goes to `(a x + c y + e, b x + d y + f)`. -/
structure Matrix (K : Type u) where
  a : K
  b : K
  c : K
  d : K
  e : K
  f : K

variable {K : Type u} [Field K]

def Matrix.apply (m : Matrix K) (q : Pt K) : Pt K := (m.a * q.1 + m.c * q.2 + m.e, m.b * q.1 + m.d * q.2 + m.f)

/-- First `m`, then `m'`. -/
def Matrix.andThen (m m' : Matrix K) : Matrix K :=
  ⟨m'.a * m.a + m'.c * m.b, m'.b * m.a + m'.d * m.b, m'.a * m.c + m'.c * m.d, m'.b * m.c + m'.d * m.d,
   m'.a * m.e + m'.c * m.f + m'.e, m'.b * m.e + m'.d * m.f + m'.f⟩

/-- The direct similarity (turning and scaling) that takes `a` to `s` and `b` to `t`, as a matrix: in complex numbers `z` goes to
`s + (t - s) / (b - a) * (z - a)`. -/
def similarity (a b s t : Pt K) (z : Pt K) : Pt K :=
  let n := (b.1 - a.1) ^ 2 + (b.2 - a.2) ^ 2
  let u := ((t.1 - s.1) * (b.1 - a.1) + (t.2 - s.2) * (b.2 - a.2)) / n
  let v := ((t.2 - s.2) * (b.1 - a.1) - (t.1 - s.1) * (b.2 - a.2)) / n
  (s.1 + (u * (z.1 - a.1) - v * (z.2 - a.2)), s.2 + (v * (z.1 - a.1) + u * (z.2 - a.2)))

end Verif.Spec
