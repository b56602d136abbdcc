import Verif.Model.Document
import Verif.Spec.Dynmap

/-!
# Specification vocabulary for documents
-/

namespace Verif.Dyn

universe u

variable {F : Type u}

/-- A value whose maps, also those in lists, have no key twice (what a Go map is) and no key with a dot. -/
inductive Neat : Val F → Prop
  | null : Neat .null
  | bool (b : Bool) : Neat (.bool b)
  | num (x : F) : Neat (.num x)
  | str (s : Text) : Neat (.str s)
  | list {l : List (Val F)} (h : ∀ v ∈ l, Neat v) : Neat (.list l)
  | map {m : List (Text × Val F)} (hn : (m.map (·.1)).Nodup) (hd : ∀ e ∈ m, '.' ∉ e.1) (h : ∀ e ∈ m, Neat e.2) : Neat (.map m)

/-- The keys under which some component has a single component. -/
def holeKeys : List Text := [componentKey, repeatableKey, leftKey, rightKey, outlineKey]

/-- `x` is the map of a component inside the map `m`, `d` components deep. -/
inductive Inside : Nat → DMap F → DMap F → Prop
  | here (m : DMap F) : Inside 0 m m
  | hole {d : Nat} {m m' x : DMap F} {k : Text} (hk : k ∈ holeKeys) (hm : m.lookup k = some (.map m')) (h : Inside d m' x) : Inside (d + 1) m x
  | item {d : Nat} {m m' x : DMap F} {l : List (Val F)} (hl : m.lookup componentsKey = some (.list l)) (hm : .map m' ∈ l) (h : Inside d m' x) :
      Inside (d + 1) m x

/-- The type, if there is one, is one of those that the program has. -/
def Plain (m : DMap F) : Prop := ∀ v, m.lookup typeKey = some v → ∃ b : Built, v = .str b.text

/-- All the components inside are of types that the program has. -/
def Resolved (m : DMap F) : Prop := ∀ d x, Inside d m x → Plain x

mutual

/-- The same component. Only the ids of parts may be other ones (where the id is made from the map, it is made before the components are put into
it). -/
def Node.Alike (w : World F) : Node F → Node F → Prop
  | .mk i m cs, .mk i' m' cs' => m = m' ∧ (w.text m typeKey ≠ some Built.part.text → i = i') ∧ Node.AllAlike w cs cs'

/-- The same components one after the other. -/
def Node.AllAlike (w : World F) : List (Node F) → List (Node F) → Prop
  | [], [] => True
  | c :: cs, d :: ds => c.Alike w d ∧ Node.AllAlike w cs ds
  | _, _ => False

end

mutual

/-- Every repeat component in the tree has the map of its component in its own map. -/
def Node.Stored (w : World F) : Node F → Prop
  | .mk _ m cs => (w.text m typeKey = some Built.copies.text → m.lookup componentKey = cs.head?.map fun c => .map c.map) ∧ Node.AllStored w cs

/-- The same for all of the components. -/
def Node.AllStored (w : World F) : List (Node F) → Prop
  | [] => True
  | c :: cs => c.Stored w ∧ Node.AllStored w cs

end

/-- No file leads back to itself: every file that a file names or imports is of lower rank. -/
def Ranked (w : World F) (rank : Text → Nat) : Prop :=
  ∀ f d, w.load f = some d → (∀ g, w.text d filenameKey = some g → rank g < rank f) ∧
    ∀ imp ∈ slice d importsKey, rank ((w.text imp pathKey).getD []) < rank f

/-- The name under which the import statement `imp` makes an element known, if at all. -/
def World.nameOf (w : World F) (imp m : DMap F) : Option Text :=
  (w.text m customTypeKey).map fun t => (w.text imp (aliasKey ++ '.' :: t)).getD t

/-- Elements that the import statement makes known under the same name have the same map. -/
def World.Unambiguous (w : World F) (imp : DMap F) (d : Doc F) : Prop :=
  ∀ e ∈ d.elements, ∀ e' ∈ d.elements, w.nameOf imp e.2 ≠ none → w.nameOf imp e.2 = w.nameOf imp e'.2 → e.2 = e'.2

/-- All import statements that are followed are unambiguous. -/
def World.Clear (w : World F) (m : Nat) : Nat → DMap F → Prop
  | 0, _ => True
  | n + 1, dm =>
    match w.text dm filenameKey with
    | some f => ∀ d1, w.load f = some d1 → w.Clear m n (refer d1 dm)
    | none => ∀ imp ∈ slice dm importsKey, (w.text imp typeKey).getD componentKey = componentKey →
        ∀ d', w.load ((w.text imp pathKey).getD []) = some d' → w.Clear m n d' ∧ ∀ d, w.parse m n d' = .val d → w.Unambiguous imp d

/-- The same maps under the same names, in whatever order. -/
def SameNames {α : Type*} (a b : List (Text × α)) : Prop := ∀ k, a.lookup k = b.lookup k

/-- The same document, up to the order in which the custom components are kept. -/
def Doc.Alike (a b : Doc F) : Prop :=
  a.id = b.id ∧ a.map = b.map ∧ a.params = b.params ∧ a.context = b.context ∧ a.parts = b.parts ∧ SameNames a.customs b.customs

/-- The same outcome. -/
inductive Out.Alike {α : Type u} (r : α → α → Prop) : Out α → Out α → Prop
  | val {a b : α} (h : r a b) : Out.Alike r (.val a) (.val b)
  | err : Out.Alike r .err .err
  | running : Out.Alike r .running .running

/-- What `range` over a Go map does: all entries, in some order. -/
def World.Fair (w : World F) : Prop := ∀ l, (w.order l).Perm l

mutual

/-- The components of a tree from the root on. -/
def Node.all : Node F → List (Node F)
  | .mk i m cs => .mk i m cs :: Node.alls cs

/-- The components of the trees. -/
def Node.alls : List (Node F) → List (Node F)
  | [] => []
  | c :: cs => c.all ++ Node.alls cs

end

/-- The keys under which a component of the type has components. -/
def Built.keys : Built → List Text
  | .part | .group | .basicEdge => [componentsKey]
  | .copies => [componentKey]
  | .repeatEdge => [repeatableKey, leftKey, rightKey]
  | .xIntercept => [repeatableKey, outlineKey]
  | .around => [repeatableKey]
  | .draw | .gear => []

/-- The types are texts, and no component has, under a key that its type does not use, what could be taken for a component. -/
def Node.Tight (c : Node F) : Prop :=
  ∀ x ∈ c.all, ∀ v, x.map.lookup typeKey = some v → ∃ t, v = .str t ∧
    ∀ b : Built, t = b.text → ∀ k ∈ componentsKey :: holeKeys, k ∉ b.keys → x.map.lookup k = none

end Verif.Dyn
