import Verif.Spec.Render

/-!
# Spec: renderings as functions of what they are given

What the properties C119 and C120 need: a component that is rendered for some values of the variables that the component above it sets.
-/

set_option linter.unusedSectionVars false

namespace Verif.Render

open Verif Verif.Dyn Verif.Path Verif.PlanSet Verif.Svg Verif.Files Verif.Spec

universe u

section Given

variable {F : Type u} [Trig F]

/-- The path of a rendering, without what is left behind. -/
def pathOf {α : Type u} : Res (Path F × α) → Res (Path F)
  | .ok x => .ok x.1
  | .err => .err
  | .panic => .panic

/-- A component that is made of parts, drawings and groups only: rendering it changes no variable (C116). -/
def Plain (c : Live F) : Prop := Each (fun k _ _ => k ∈ [Built.part, .draw, .group]) c

/-- The component with the parameters `index_x` and `index_y`, if there are any. -/
def indexed (c : Live F) : Option (Nat × Nat) → Live F
  | none => c
  | some i => (c.putParam "index_x".toList (.num (Arith.lit i.1 0))).putParam "index_y".toList (.num (Arith.lit i.2 0))

/-- The map of a point. -/
def asMap (p : Point F) : Val F := .map [("x".toList, .num p.x), ("y".toList, .num p.y)]

/-- The element with the variables of an intercept. -/
def between (e : Elem F) (a b : Point F) (length : F) : Elem F :=
  { e with original := putAll e.original [("xintercept__length".toList, .num length), ("xintercept__from__x".toList, .num a.x),
      ("xintercept__from__y".toList, .num a.y), ("xintercept__to__x".toList, .num b.x), ("xintercept__to__y".toList, .num b.y)] }

/-- The element with the variables of a side. -/
def onSide (e : Elem F) (length : F) (i : Nat) : Elem F :=
  { e with original := putAll e.original [("around__length".toList, .num length), ("around__index".toList, .num (Arith.lit i 0))] }

/-- The element with a variable. -/
def withVar (e : Elem F) (key : Text) (v : Val F) : Elem F := { e with original := putAll e.original [(key, v)] }

/-- The global variables with two numbers, under a name with two endings. Inside of a part of a part they cannot be set. -/
def withTwo (nested : Bool) (name : Option Text) (end1 end2 : Text) (x1 x2 : F) (g : DMap F) : Res (DMap F) :=
  match name with
  | none => .ok g
  | some t => if nested then .panic else .ok (putWithDot (putWithDot g (t ++ end1) (.num x1)).1 (t ++ end2) (.num x2)).1

/-- The function gives paths that are renderings of the component `c` with the indices, after variables may have been set. -/
def FromIndexed (r : Rendering F) (c : Live F) (g : DMap F) (render : Option (Nat × Nat) → Res (Path F)) : Prop :=
  ∀ o q, render o = .ok q → ∃ c1 g1 x, Same c c1 ∧ Written g g1 ∧ r (indexed c1 o) g1 origin = .ok (q, x)

/-- The functions give paths that are renderings of the components, after global variables may have been set. -/
def FromEach (r : Rendering F) (cs : List (Live F)) (g : DMap F) (fs : List (Point F → Res (Path F))) : Prop :=
  List.Forall₂ (fun c f => ∀ cursor q, f cursor = .ok q → ∃ g1 x, Written g g1 ∧ r c g1 cursor = .ok (q, x)) cs fs

/-- The function gives paths that are renderings of the component with a parameter, after global variables may have been set. -/
def FromWidth (r : Rendering F) (c : Live F) (key : Text) (g : DMap F) (f : F → Res (Path F)) : Prop :=
  ∀ w q, f w = .ok q → ∃ g1 x, Written g g1 ∧ r (c.putParam key (.num w)) g1 origin = .ok (q, x)

end Given

end Verif.Render
