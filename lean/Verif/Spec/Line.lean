import Verif.Spec.Tab

/-!
# Specification vocabulary for outlines of straight edges

A straight edge is written as in designs/joints/line.hfd, with a start or without; without one it starts where the pen is:

```
{ "type": "basic_edge", "from": { "x": …, "y": … }, "to": { "x": …, "y": … }, "components": [ { … } ] }
```

An outline is a part of straight edges, of which only the first says where it starts.
-/

namespace Verif.Spec

open Verif Verif.Path

/-- `{"command": "line", "to": {"x": …, "y": …}}`. -/
noncomputable def lineCommand (x y : XNum ℝ) : Command (XNum ℝ) := toCommand "line".toList x y

/-- designs/joints/line.hfd:15-28: the edge of the length `L`. -/
noncomputable def straightLine (L : ℝ) : List (Command (XNum ℝ)) := [moveCommand (.fin 0) (.fin 0), lineCommand (.fin L) (.fin 0)]

/-- The lines from point to point. -/
def trailLines : Pt ℝ → List (Pt ℝ) → List (Stroke ℝ)
  | _, [] => []
  | a, b :: rest => .line a b :: trailLines b rest

/-- No point is the one before it. -/
def Walk : Pt ℝ → List (Pt ℝ) → Prop
  | _, [] => True
  | a, b :: rest => a ≠ b ∧ Walk b rest

end Verif.Spec

namespace Verif.Render

open Verif Verif.Dyn Verif.Path Verif.PlanSet Verif.Svg Verif.Spec Verif.Files Verif.Xml

variable {O : Type}

/-- The library reads the expressions of the lines as they are meant. -/
structure ReadsLines (lib : Lib (XNum ℝ) O) : Prop where
  zero : lib.parse "0".toList = some (.num (.fin 0))
  width : lib.parse "width".toList = some (.var "width".toList)

/-- A straight edge: where it starts, if it says so, and where it ends. -/
structure LineEdge where
  start : Option (Pt ℝ)
  stop : Pt ℝ

/-- designs/joints/line.hfd:15-28. -/
def lineCommands : List (Val (XNum ℝ)) := [textCmd "move".toList "0,0".toList, textCmd "line".toList "width,0".toList]

/-- The edge in a document. -/
def LineEdge.map (o : LineEdge) : DMap (XNum ℝ) :=
  match o.start with
  | some a => [("type".toList, .str "basic_edge".toList), ("to".toList, pairVal o.stop), ("components".toList, .list [.map (drawingMap lineCommands)]), ("from".toList, pairVal a)]
  | none => [("type".toList, .str "basic_edge".toList), ("to".toList, pairVal o.stop), ("components".toList, .list [.map (drawingMap lineCommands)])]

/-- An outline: its id, where it starts, its second corner and the corners after it. -/
structure Trail where
  id : Text
  start : Pt ℝ
  second : Pt ℝ
  corners : List (Pt ℝ)

/-- Its edges, of which only the first has a start. -/
def Trail.edges (o : Trail) : List LineEdge := ⟨some o.start, o.second⟩ :: o.corners.map fun q => ⟨none, q⟩

/-- The outline as a piece. -/
def Trail.piece (o : Trail) : Piece := ⟨o.id, o.edges.map LineEdge.map⟩

/-- What it draws. -/
def Trail.draws (o : Trail) : List (Stroke ℝ) := trailLines o.start (o.second :: o.corners)

/-- A document with sheets of this size and these outlines. -/
def trailDoc (s : Sheet ℝ) (os : List Trail) : DMap (XNum ℝ) := pieceDoc s (os.map Trail.piece)

/-- The outline has a name that can be written, no edge without a length, and it has a size. -/
structure Trail.WellMade (o : Trail) : Prop where
  name : o.id ≠ [] ∧ Unmarked o.id
  walk : Walk o.start (o.second :: o.corners)
  sizeable : Sizeable o.draws

end Verif.Render
