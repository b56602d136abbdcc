import Verif.Num

/-!
# Model of `binpacking/binpacking.go`

`Bin` is the mutable tree of bins. A Go `Bin` has the flags `HasObject` and `HasChildren`; they are never both set
(an object is stored only in a bin without children, lines 158-199, and a bin with an object is never split, lines
189-192), so the tree has three kinds of nodes.
-/

namespace Verif.BinPacking

open Verif

universe u v

/-- The geometric fields of a Go `Bin` (binpacking/binpacking.go:12-24) plus the flag `Rotated`. This is also what `Insert` returns
to its caller. -/
structure Box (F : Type u) where
  x : F
  y : F
  width : F
  height : F
  rotated : Bool
deriving Repr, DecidableEq

/-- binpacking/binpacking.go:12-24. `free`: neither object nor children. `full`: `HasObject`. `split`: `HasChildren`, with
`LeftChild` and `RightChild`. -/
inductive Bin (F : Type u) (O : Type v) where
  | free (b : Box F)
  | full (b : Box F) (obj : O)
  | split (b : Box F) (left right : Bin F O)
deriving Repr, DecidableEq

/-- binpacking/binpacking.go:26-32. -/
structure Container (F : Type u) (O : Type v) where
  root : Bin F O
  width : F
  height : F
  x : F
  y : F
deriving Repr, DecidableEq

variable {F : Type u} {O : Type v} [Arith F]

/-- binpacking/binpacking.go:118-128 (`NewBin`). -/
def newBin (x y width height : F) (rotated : Bool) : Bin F O :=
  .free ⟨x, y, width, height, rotated⟩

/-- binpacking/binpacking.go:48-56 (`NewContainer`). -/
def newContainer (x y width height : F) : Container F O :=
  ⟨newBin x y width height false, width, height, x, y⟩

/-- binpacking/binpacking.go:60-65 (`NewSingleObjectContainer`). -/
def newSingleObjectContainer (obj : O) (x y width height : F) : Container F O :=
  ⟨.full ⟨x, y, width, height, false⟩ obj, width, height, x, y⟩

/-- binpacking/binpacking.go:130-142 (`getEmpties`): the free bins, left to right. -/
def Bin.empties : Bin F O → List (Box F)
  | .free b => [b]
  | .full _ _ => []
  | .split _ l r => l.empties ++ r.empties

/-- binpacking/binpacking.go:69-71 (`GetEmptyBins`). -/
def Container.emptyBins (c : Container F O) : List (Box F) := c.root.empties

/-- binpacking/binpacking.go:74-80 (`GetEmptyArea`). -/
def Container.emptyArea (c : Container F O) : F :=
  c.emptyBins.foldl (fun area b => area +. b.width *. b.height) Arith.zero

/-- binpacking/binpacking.go:82-84 (`IsEmpty`). -/
def Container.isEmpty (c : Container F O) : Bool :=
  match c.root with
  | .free _ => true
  | _ => false

/-- binpacking/binpacking.go:178, 183: the test "too small". -/
def tooSmall (b : Box F) (width height : F) : Bool :=
  (b.height <. height) || (b.width <. width)

/-- binpacking/binpacking.go:170-171: the test for a side that is zero or NaN. -/
def degenerate (width height : F) : Bool :=
  (width ==. Arith.zero) || (height ==. Arith.zero) || Arith.isNaN width || Arith.isNaN height

/-- binpacking/binpacking.go:174-187: the orientation chosen at a bin without children; `none` when the object is too big both ways.
The result is `(rotated, width, height)`. -/
def orient (b : Box F) (w h : F) : Option (Bool × F × F) :=
  if tooSmall b w h then
    if tooSmall b h w then none else some (true, h, w)
  else some (false, w, h)

/-- binpacking/binpacking.go:211-245: the two children made by a split for an object of (oriented) size `width` by `height`. -/
def splitBoxes (b : Box F) (rotated : Bool) (width height : F) : Box F × Box F :=
  if (b.height -. height) <. (b.width -. width) then
    (⟨b.x, b.y, width, b.height, rotated⟩,
     ⟨b.x +. width, b.y, b.width -. width, b.height, rotated⟩)
  else
    (⟨b.x, b.y, b.width, height, rotated⟩,
     ⟨b.x, b.y +. height, b.width, b.height -. height, rotated⟩)

/-- binpacking/binpacking.go:167-247: `Insert` on a free bin. The Go code splits the bin and calls itself on the fresh left child;
`fuel` bounds the depth of that recursion. `w` and `h` are the boundary's width and height. The result is the bin after the call
and the box of the bin that took the object (`none`: not inserted); the outer `none` means that the recursion is
deeper than the fuel. Note that a rejection inside the left child would leave the bin split. -/
def insertFree : Nat → Box F → O → F → F → Option (Bin F O × Option (Box F))
  | 0, _, _, _, _ => none
  | fuel + 1, b, obj, w, h =>
    if degenerate w h then some (.free b, none) else
    match orient b w h with
    | none => some (.free b, none)
    | some (rotated, width, height) =>
      if (b.height ==. height) && (b.width ==. width) then some (.full b obj, some b)
      else
        let (lb, rb) := splitBoxes b rotated width height
        match insertFree fuel lb obj w h with
        | none => none
        | some (l, at_) => some (.split b l (.free rb), at_)

/-- binpacking/binpacking.go:157-248 (`Bin.Insert`). -/
def Bin.insert (fuel : Nat) : Bin F O → O → F → F → Option (Bin F O × Option (Box F))
  | .free b, obj, w, h => insertFree fuel b obj w h
  -- lines 167-192: no children, so the size is looked at first, but the answer is "not inserted" on every path
  | .full b o, _, _, _ => some (.full b o, none)
  | .split b l r, obj, w, h =>
    match l.insert fuel obj w h with
    | none => none
    | some (l', some at_) => some (.split b l' r, some at_)
    | some (l', none) =>
      match r.insert fuel obj w h with
      | none => none
      | some (r', res) => some (.split b l' r', res)

/-- Recursion depth allowed on a free bin. The Go code has no limit: theorem `C06_insert_depth` shows that three nested
calls are always enough in exact arithmetic, so that a larger limit gives the same result. -/
def splitDepth : Nat := 3

/-- binpacking/binpacking.go:88-95 (`Container.Insert`): the container after the call and, if inserted, the returned bin. The outer
`none` (recursion deeper than `splitDepth`) is excluded by `C06_insert_returns`. -/
def Container.insert (c : Container F O) (obj : O) (w h : F) : Option (Container F O × Option (Box F)) :=
  match c.root.insert splitDepth obj w h with
  | none => none
  | some (root, res) => some ({ c with root := root }, res)

/-- binpacking/binpacking.go:34-46, 98-116 (`InsertWithPadding`). The object stored in the Go tree is a wrapper around the object; the
model stores the object itself. The returned box has the *unrotated* size of the object. -/
def Container.insertWithPadding (c : Container F O) (obj : O) (w h padding : F) :
    Option (Container F O × Option (Box F)) :=
  match c.insert obj (padding *. Arith.two +. w) (padding *. Arith.two +. h) with
  | none => none
  | some (c', none) => some (c', none)
  | some (c', some bin) => some (c', some ⟨bin.x +. padding, bin.y +. padding, w, h, bin.rotated⟩)

/-- What a caller asks for: an object with its width and height (`BinBoundary`, binpacking/binpacking.go:7-10). -/
structure Request (F : Type u) (O : Type v) where
  obj : O
  w : F
  h : F

/-- A history: calls of `Container.Insert` one after the other, with the answers. -/
def Container.insertAll (c : Container F O) :
    List (Request F O) → Option (Container F O × List (Option (Box F)))
  | [] => some (c, [])
  | r :: rs =>
    match c.insert r.obj r.w r.h with
    | none => none
    | some (c', res) =>
      match c'.insertAll rs with
      | none => none
      | some (c'', ress) => some (c'', res :: ress)

/-- A history of calls of `Container.InsertWithPadding`, each request with its padding. -/
def Container.insertAllPadded (c : Container F O) :
    List (Request F O × F) → Option (Container F O × List (Option (Box F)))
  | [] => some (c, [])
  | (r, padding) :: rs =>
    match c.insertWithPadding r.obj r.w r.h padding with
    | none => none
    | some (c', res) =>
      match c'.insertAllPadded rs with
      | none => none
      | some (c'', ress) => some (c'', res :: ress)

end Verif.BinPacking
