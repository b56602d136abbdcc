import Verif.Model.Dynmap

/-!
# Model of custom components

dom/document.go:14-47. The map the new component is made from; making the component from it is in Model/Document.lean. Slices are
values here; in the code `append(c.Transforms(), ...)` may write into the array of the base's own list (see DESIGN.md).
-/

namespace Verif.Dyn

universe u

variable {F : Type u}

/-- dynmap/dynmap.go:433-453 (`GetDynMapSlice`): all items are maps, or there is no slice. -/
def mapItems : List (Val F) → Option (List (DMap F))
  | [] => some []
  | .map m :: l => (mapItems l).map (m :: ·)
  | _ :: _ => none

/-- dynmap/dynmap.go:433-453 (`GetDynMapSlice`). -/
def getDynMapSlice (m : DMap F) (key : Text) : Option (List (DMap F)) :=
  match get m key with
  | some (.list l) => mapItems l
  | _ => none

/-- The key `type`. -/
def typeKey : Text := ['t', 'y', 'p', 'e']

/-- The key `transforms`. -/
def transformsKey : Text := ['t', 'r', 'a', 'n', 's', 'f', 'o', 'r', 'm', 's']

/-- The key `custom_component`. -/
def customKey : Text := ['c', 'u', 's', 't', 'o', 'm', '_', 'c', 'o', 'm', 'p', 'o', 'n', 'e', 'n', 't']

/-- The key `params.index`. -/
def indexKey : Text := ['p', 'a', 'r', 'a', 'm', 's', '.', 'i', 'n', 'd', 'e', 'x']

/-- The texts `part` and `group`. -/
def partText : Text := ['p', 'a', 'r', 't']
def groupText : Text := ['g', 'r', 'o', 'u', 'p']

/-- dom/document.go:35 (`MustString("type", "part") == "part"`). -/
def isPart (m : DMap F) : Bool :=
  match get m typeKey with
  | none => true
  | some (.str s) => decide (s = [] ∨ s = partText)
  | some _ => false

/-- dom/document.go:17-47 (`CreateCustomComponent`), with dom/models.go:253-255 (`Transforms`): the map of the new component, from the map of
the custom component and the map of the instance. -/
def customMap (base dm : DMap F) : DMap F :=
  let replaced := removeAll (clone dm) [typeKey]
  let transforms := (getDynMapSlice base transformsKey).getD [] ++ (getDynMapSlice replaced transformsKey).getD []
  let new := removeAll (clone base) [customKey]
  let new := if isPart new then remove (putKey new typeKey (.str groupText)) indexKey else new
  putKey (merge new replaced) transformsKey (.list (transforms.map .map))

end Verif.Dyn
