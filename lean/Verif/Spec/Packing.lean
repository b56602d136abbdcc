import Verif.Model.BinPacking

/-!
# Specification vocabulary for packing: rectangles as sets of points
-/

namespace Verif.Spec

universe u v

/-- An axis-aligned rectangle with corner `(x, y)`, width `w` and height `h`. -/
structure Rect (K : Type u) where
  x : K
  y : K
  w : K
  h : K
deriving Repr, DecidableEq

variable {K : Type u} [Field K] [LinearOrder K]

/-- The point `(px, py)` is strictly inside the rectangle. -/
def Rect.Interior (r : Rect K) (px py : K) : Prop :=
  r.x < px ∧ px < r.x + r.w ∧ r.y < py ∧ py < r.y + r.h

/-- No point is strictly inside both rectangles. -/
def Rect.Disjoint (r s : Rect K) : Prop :=
  ∀ px py, ¬ (r.Interior px py ∧ s.Interior px py)

/-- All four sides of `r` are within those of `s`. -/
def Rect.Within (r s : Rect K) : Prop :=
  s.x ≤ r.x ∧ r.x + r.w ≤ s.x + s.w ∧ s.y ≤ r.y ∧ r.y + r.h ≤ s.y + s.h

/-- Area. -/
def Rect.area (r : Rect K) : K := r.w * r.h

/-- The rectangle `r` grown by `d` on all four sides. -/
def Rect.grow (r : Rect K) (d : K) : Rect K := ⟨r.x - d, r.y - d, r.w + d + d, r.h + d + d⟩

/-- The distance between the two rectangles is at least `d`, horizontally or vertically. -/
def Rect.Apart (r s : Rect K) (d : K) : Prop :=
  r.x + r.w + d ≤ s.x ∨ s.x + s.w + d ≤ r.x ∨ r.y + r.h + d ≤ s.y ∨ s.y + s.h + d ≤ r.y

/-- The rectangle of a bin. -/
def rectOf (b : BinPacking.Box K) : Rect K := ⟨b.x, b.y, b.width, b.height⟩

/-- The rectangle fits an object of size `w` by `h`, upright or turned by a quarter turn. -/
def Fits (r : Rect K) (w h : K) : Prop := (w ≤ r.w ∧ h ≤ r.h) ∨ (h ≤ r.w ∧ w ≤ r.h)

end Verif.Spec

namespace Verif.BinPacking

universe u v

variable {F : Type u} {O : Type v}

/-- The objects in a tree with the boxes they are in, left to right. -/
def Bin.placed : Bin F O → List (Box F × O)
  | .free _ => []
  | .full b o => [(b, o)]
  | .split _ l r => l.placed ++ r.placed

/-- The objects in a container with the boxes they are in. -/
def Container.placed (c : Container F O) : List (Box F × O) := c.root.placed

/-- The accepted requests of a history with the boxes returned for them. -/
def accepted : List (Request F O) → List (Option (Box F)) → List (Request F O × Box F)
  | r :: rs, some b :: bs => (r, b) :: accepted rs bs
  | _ :: rs, none :: bs => accepted rs bs
  | _, _ => []

/-- A container as it can be after some calls of `Insert` on a fresh container with objects whose sides are not negative. -/
def Reachable {K : Type u} [Field K] [LinearOrder K] (c : Container K O) : Prop :=
  ∃ (x y W H : K) (reqs : List (Request K O)) (results : List (Option (Box K))),
    (∀ r ∈ reqs, 0 ≤ r.w ∧ 0 ≤ r.h) ∧ (newContainer x y W H).insertAll reqs = some (c, results)

end Verif.BinPacking
