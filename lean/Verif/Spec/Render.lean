import Verif.Model.Render
import Verif.Spec.Tree
import Verif.Spec.PlanSet

/-!
# Specification vocabulary for the rendering of documents
-/

namespace Verif.Render

open Verif Verif.Dyn Verif.Path Verif.PlanSet Verif.Svg Verif.Files Verif.Spec

universe u

section Trees

variable {F : Type u}

mutual

/-- Every component of the tree has the property `P` of its type, the number of its children and its maps. -/
def Each (P : Built → Nat → Elem F → Prop) : Live F → Prop
  | .mk k _ e cs => P k cs.length e ∧ EachOf P cs

/-- Every tree of the list. -/
def EachOf (P : Built → Nat → Elem F → Prop) : List (Live F) → Prop
  | [] => True
  | c :: cs => Each P c ∧ EachOf P cs

end

mutual

/-- How deep the tree is. -/
def Live.depth : Live F → Nat
  | .mk _ _ _ cs => depths cs + 1

/-- How deep the deepest tree of the list is. -/
def depths : List (Live F) → Nat
  | [] => 0
  | c :: cs => max c.depth (depths cs)

end

/-- The names of the transforms of a component (dom/app_context.go:219-229). -/
def transformNames (w : World F) (e : Elem F) : List Text := (slice e.original transformsKey).map fun mp => (w.text mp typeKey).getD unknownName

/-- The map has the number `x` under the key, with `lo ≤ int(x)`. -/
def AtLeast (toInt : F → Int) (lo : Int) (e : Elem F) (key : Text) : Prop := ∃ x, Dyn.get e.original key = some (.num x) ∧ lo ≤ toInt x

/-- No transform of the component has one of the names, and a gear has a number of teeth of at least one. -/
def Tame (w : World F) (toInt : F → Int) (banned : List Text) (k : Built) (_ : Nat) (e : Elem F) : Prop :=
  (∀ t ∈ transformNames w e, t ∉ banned) ∧ (k = .gear → AtLeast toInt 1 e teethKey)

/-- The component is neither a part nor an intercept, a group and an edge have children, the number of copies around a centre is a number that is
not negative, and no transform has one of the names. -/
def Solid (w : World F) (toInt : F → Int) (banned : List Text) (k : Built) (children : Nat) (e : Elem F) : Prop :=
  k ≠ .part ∧ k ≠ .xIntercept ∧ ((k = .group ∨ k = .basicEdge) → children ≠ 0) ∧ (k = .around → AtLeast toInt 0 e numEdgesKey) ∧
    ∀ t ∈ transformNames w e, t ∉ banned

/-- The components of the part transformers of a part (dom/part_splitter.go:23-35, dom/lathe_part_transformer.go:31-35), with the custom components
of the document, have the property `P`. -/
def Equipped (w : World F) (fuel : Nat) (customs : List (Text × DMap F)) (P : Built → Nat → Elem F → Prop) (e : Elem F) : Prop :=
  ∀ mp ∈ slice e.original partTransformersKey, ∀ key ∈ [plugKey, socketKey, repeatKey], ∀ n,
    w.make customs fuel (sub mp key) = .val n → Each P (live w n)

/-- What is asked of the maps of a part of the document: no transform has one of the names, its part transformers are of the given kinds, and their
components are tame. -/
def TamePart (w : World F) (toInt : F → Int) (fuel : Nat) (banned kinds : List Text) (customs : List (Text × DMap F)) (e : Elem F) : Prop :=
  (∀ t ∈ transformNames w e, t ∉ banned) ∧ (∀ mp ∈ slice e.original partTransformersKey, (w.text mp typeKey).getD unknownName ∈ kinds) ∧
    Equipped w fuel customs (Tame w toInt banned) e

/-- What is asked of the maps of a part of the document: no transform has one of the names, and there are no part transformers. -/
def PlainPart (w : World F) (banned : List Text) (e : Elem F) : Prop := (∀ t ∈ transformNames w e, t ∉ banned) ∧ slice e.original partTransformersKey = []

/-- A part of the document whose maps have the property `C` and whose components have the property `P`. -/
def PartOf (C : Elem F → Prop) (P : Built → Nat → Elem F → Prop) (c : Live F) : Prop := c.kind = .part ∧ C c.elem ∧ EachOf P c.children

end Trees

section Leaving

variable {F : Type u}

/-- The names of the variables that components set on themselves while they are rendered (components/basic_edge.go:69, components/xintercept.go:98-103,
components/around.go:80-86, dom/part.go:83, dom/part_splitter.go:58-62, 121-125, dom/lathe_part_transformer.go:68-75). -/
def ownNames : List Text := ["width".toList, "xintercept__length".toList, "xintercept__from__x".toList, "xintercept__from__y".toList,
  "xintercept__to__x".toList, "xintercept__to__y".toList, "around__length".toList, "around__index".toList, "part_index".toList, "from".toList,
  "to".toList, "from__x".toList, "from__y".toList, "to__x".toList, "to__y".toList, "lathe__width".toList, "lathe__index".toList]

/-- The names of the parameters that components set on their children (dom/repeat_component.go:76-77, components/repeat_edge.go:131, 146). -/
def childNames : List Text := ["index_x".toList, "index_y".toList, "left_width".toList, "right_width".toList]

/-- The maps `e'` are the maps `e`, except for variables with those names. -/
def LeftAs (e e' : Elem F) : Prop :=
  (∀ k, '.' ∉ k → k ∉ ownNames → k ≠ paramsKey → Dyn.get e'.original k = Dyn.get e.original k) ∧
    (∀ k, '.' ∉ k → k ∉ childNames → Dyn.get e'.allParams k = Dyn.get e.allParams k) ∧ e'.defaults = e.defaults

mutual

/-- The tree is the same, with the same types and ids, and its maps are the same, except for variables with those names. -/
def Same : Live F → Live F → Prop
  | .mk k i e cs, .mk k' i' e' cs' => k' = k ∧ i' = i ∧ LeftAs e e' ∧ SameOf cs cs'

/-- The same for the trees of two lists. -/
def SameOf : List (Live F) → List (Live F) → Prop
  | [], [] => True
  | c :: cs, c' :: cs' => Same c c' ∧ SameOf cs cs'
  | _, _ => False

end

/-- The ends of the names of the global variables that components set (components/repeat_edge.go:92-97, components/basic_edge.go:62-67,
components/gear.go:99-104). -/
def globalEnds : List Text := ["__length".toList, "__angle".toList, "__outer_radius".toList, "__inner_radius".toList]

/-- `g'` is `g` after some numbers have been written under names with one of these ends. -/
inductive Written : DMap F → DMap F → Prop
  | none (g : DMap F) : Written g g
  | more {g g' : DMap F} (name suffix : Text) (hs : suffix ∈ globalEnds) (x : F) (h : Written g g') :
      Written g (putWithDot g' (name ++ suffix) (.num x)).1

end Leaving

section Documents

variable {F : Type u} [Trig F] {O : Type}

/-- The parts of a document are rendered one after the other, each with the global variables that the ones before have left; `all` has what
they are rendered to. -/
def RenderedTo (m : Machine F O) (doc : Elem F) (customs : List (Text × DMap F)) : List (Live F) → DMap F → List (List (Rendered F)) → Prop
  | [], _, all => all = []
  | c :: cs, g, all => ∃ parts g' rest, m.renderPart doc customs c g = .ok (parts, g') ∧ RenderedTo m doc customs cs g' rest ∧ all = parts :: rest

/-- The parts of a layout: for every part of the document what it is rendered to, with its id. -/
def laidOut : List (Live F) → List (List (Rendered F)) → List (RenderedPart F (Drawing F))
  | c :: cs, parts :: all => parts.map (Machine.toLayout c.id) ++ laidOut cs all
  | _, _ => []

end Documents

end Verif.Render
