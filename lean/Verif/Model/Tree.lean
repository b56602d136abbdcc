import Verif.Model.Factory
import Verif.Model.Components

/-!
# Model of the rendering of a tree of components

One constructor for every component factory that is registered (parser/parser.go:19-29). The attributes of a component are looked up when it is
rendered; they are functions of the variables that the components above it have set and of the cursor. These functions are arbitrary (the lookup itself
is in `Verif/Model/Attr.lean`). Variables that stay behind after a rendering (`SetGlobalVariable`, and `SetLocalVariable` of an earlier
rendering) are not modelled. A custom component is made into one of the others before it is rendered (`Verif/Model/Custom.lean`).

A component that returns neither a path nor an error makes every component above it panic, because they all look at the path; this is written as a panic
right away, and so is a loop that does not end within `fuel` steps.
-/

namespace Verif.Path

open Verif

universe u

/-- The value of a variable that is set by a component. -/
inductive Setting (F : Type u) where
  | number (x : F)
  | index (i : Nat)

/-- The variables that are set, the last one first. -/
abbrev Vars (F : Type u) := List (Text × Setting F)

/-- An attribute of a component, as it is found during a rendering. -/
abbrev Found (F : Type u) (α : Type u) := Vars F → Point F → α

/-- The attributes of an edge (components/basic_edge.go:50-55, components/repeat_edge.go:80-86, 111-112). -/
structure EdgeAttrs (F : Type u) where
  start : Option (Point F)
  stop : Option (Point F)
  handle : Text
  padLeft : F
  padRight : F

/-- The attributes of an around component (components/around.go:53-65). -/
structure AroundAttrs (F : Type u) where
  num : Int
  radius : F
  center : Option (Point F)

/-- The components (parser/parser.go:19-29). -/
inductive Comp (F : Type u) where
  | part (children : List (Comp F)) (transforms : Found F (List (TransformMap F)))
  | draw (commands : Found F (List (Command F))) (transforms : Found F (List (TransformMap F)))
  | copies (child : Comp F) (maxX maxY : Found F F) (transforms : Found F (List (TransformMap F)))
  | group (children : List (Comp F)) (transforms : Found F (List (TransformMap F)))
  | repeatEdge (repeatable left right : Comp F) (attrs : Found F (EdgeAttrs F)) (transforms : Found F (List (TransformMap F)))
  | basicEdge (children : List (Comp F)) (attrs : Found F (EdgeAttrs F)) (transforms : Found F (List (TransformMap F)))
  | xIntercept (repeatable outline : Comp F) (initial spacing : Found F F) (transforms : Found F (List (TransformMap F)))
  | around (repeatable : Comp F) (attrs : Found F (AroundAttrs F))
  | gear (size : Found F (GearSize F)) (transforms : Found F (List (TransformMap F)))

variable {F : Type u} [Trig F]

/-- dom/repeat_component.go:77-78. -/
def indexVars (i : Option (Nat × Nat)) (v : Vars F) : Vars F :=
  match i with
  | none => v
  | some (x, y) => ("index_y".toList, .index y) :: ("index_x".toList, .index x) :: v

/-- components/xintercept.go:98-103. -/
def interceptVars (a b : Point F) (length : F) (v : Vars F) : Vars F :=
  ("xintercept__to__y".toList, .number b.y) :: ("xintercept__to__x".toList, .number b.x) :: ("xintercept__from__y".toList, .number a.y) ::
    ("xintercept__from__x".toList, .number a.x) :: ("xintercept__length".toList, .number length) :: v

/-- components/around.go:87, 91. -/
def aroundVars (length : F) (i : Nat) (v : Vars F) : Vars F := ("around__index".toList, .index i) :: ("around__length".toList, .number length) :: v

/-- `return rc.HandleTransforms(rc, p, ctx)`: the path. -/
def finish (toInt : F → Int) (fuel : Nat) (ms : List (TransformMap F)) (p : Path F) : Res (Path F) :=
  match handleTransforms toInt fuel ms p with
  | .ok q => .ok q.1
  | .err => .err
  | .panic => .panic

/-- A result within the fuel, with a path. -/
def delivered (r : Option (Res (Option (Path F)))) : Res (Path F) :=
  match r with
  | some (.ok (some p)) => .ok p
  | some .err => .err
  | _ => .panic

mutual

/-- The methods `Render`: dom/part.go:145-197, dom/draw_component.go:92-307, dom/repeat_component.go:107-119, dom/group_component.go:47-67,
components/repeat_edge.go:77-203, components/basic_edge.go:47-122, components/xintercept.go:59-125, components/around.go:49-123,
components/gear.go:36-113. -/
def Comp.render (toInt : F → Int) (fuel : Nat) : Comp F → Vars F → Point F → Res (Path F)
  | .part cs ts, v, cursor => do
    let paths ← renderChildren (Comp.renders toInt fuel cs v) cursor
    if paths.isEmpty then .err
    else
      let p ← simpleJoin paths
      let p ← finish toInt fuel (ts v cursor) p
      .ok (collapseMoves (trimWhitespace p))
  | .draw commands ts, v, cursor => do
    let p ← drawRender cursor (commands v cursor)
    finish toInt fuel (ts v cursor) p
  | .copies c maxX maxY ts, v, cursor => do
    let p ← repeatRender toInt (fun i => c.render toInt fuel (indexVars i v) origin) (maxX v cursor) (maxY v cursor)
    finish toInt fuel (ts v cursor) p
  | .group cs ts, v, cursor => do
    let paths ← renderChildren (Comp.renders toInt fuel cs v) cursor
    let p ← simpleJoin paths
    finish toInt fuel (ts v cursor) p
  | .repeatEdge c left right attrs ts, v, cursor =>
    let a := attrs v cursor
    need a.stop fun stop => do
      let p ← Path.repeatEdge toInt (fun i => c.render toInt fuel (indexVars i v) origin)
        (fun w => left.render toInt fuel (("left_width".toList, .number w) :: v) origin)
        (fun w => right.render toInt fuel (("right_width".toList, .number w) :: v) origin) (a.start.getD cursor) stop a.padLeft a.padRight a.handle
      finish toInt fuel (ts v cursor) p
  | .basicEdge cs attrs ts, v, cursor =>
    let a := attrs v cursor
    need a.stop fun stop => do
      let p ← Path.basicEdge (fun w => Comp.renders toInt fuel cs (("width".toList, .number w) :: v)) cursor (a.start.getD cursor) stop a.handle
      finish toInt fuel (ts v cursor) p
  | .xIntercept c outline initial spacing ts, v, cursor => do
    let p ← delivered (Path.xIntercept defaultPrecision (initial v cursor) (spacing v cursor) (outline.render toInt fuel v cursor)
      (fun a b length => c.render toInt fuel (interceptVars a b length v) cursor) fuel)
    finish toInt fuel (ts v cursor) p
  | .around c attrs, v, cursor =>
    let a := attrs v cursor
    Path.around 3 a.num a.radius (a.center.getD cursor) (fun length i => c.render toInt fuel (aroundVars length i v) origin)
  | .gear size ts, v, cursor => finish toInt fuel (ts v cursor) (size v cursor).outline

/-- The children, to be rendered one after the other (dom/part.go:149-164, dom/group_component.go:54-63). -/
def Comp.renders (toInt : F → Int) (fuel : Nat) : List (Comp F) → Vars F → List (Point F → Res (Path F))
  | [], _ => []
  | c :: cs, v => (fun cursor => c.render toInt fuel v cursor) :: Comp.renders toInt fuel cs v

end

end Verif.Path
