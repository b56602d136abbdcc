import Verif.Spec.Refine

/-!
# Spec: parts and part transformers of a document
-/

set_option linter.unusedSectionVars false

namespace Verif.Render

open Verif Verif.Dyn Verif.Path Verif.PlanSet Verif.Svg Verif.Files Verif.Spec

universe u

variable {F : Type u} [Trig F] {O : Type}

/-- The component with variables. -/
def setting : Live F → DMap F → Live F
  | .mk k i e cs, l => .mk k i { e with original := putAll e.original l } cs

/-- What is rendered for the copy with an index. -/
def numberedCopy (c : Live F) (i : Nat) : Live F := setting c [("part_index".toList, .num (Arith.lit i 0))]

/-- The label that the attributes give. -/
def labelAt (a : Source F O) : Label :=
  ⟨(a.string "label.text".toList).getD [], (a.handle "label.position".toList).getD Attr.bottomMiddle.text⟩

/-- An edge of a splitter between two points. -/
def edgeFor (c : Live F) (p q : Point F) : Live F := setting c [("from".toList, asMap p), ("to".toList, asMap q)]

/-- The attributes of a part transformer with the map `mp`. -/
def transformerAttrs (m : Machine F O) (b : Machine.Bench F) (mp g : DMap F) : Source F O :=
  ⟨m.lib, m.world.printed, .component b.part (.document b.doc g), mp, none⟩

/-- The splitter that the map `mp` describes, with its two edges. -/
def splitterOf (m : Machine F O) (b : Machine.Bench F) (mp g : DMap F) (plug socket : Live F) : Splitter F where
  auto := ((transformerAttrs m b mp g).flag "auto_split".toList).getD false
  y := found ((transformerAttrs m b mp g).number m.fuel "y".toList)
  yOffset := m.number (transformerAttrs m b mp g) "y_offset".toList Arith.zero
  maxWidth := m.number (transformerAttrs m b mp g) "max_width".toList (m.number (transformerAttrs m b mp g) "material_width".toList Arith.zero)
  maxHeight := m.number (transformerAttrs m b mp g) "max_height".toList (m.number (transformerAttrs m b mp g) "material_height".toList Arith.zero)
  bleedTop := found ((transformerAttrs m b mp g).number m.fuel "bleed_top".toList)
  bleedBottom := found ((transformerAttrs m b mp g).number m.fuel "bleed_bottom".toList)
  plug := fun p q => pathOf (m.render m.fuel ⟨b.doc, [b.part], false⟩ (edgeFor plug p q) g origin)
  socket := fun p q => pathOf (m.render m.fuel ⟨b.doc, [b.part], false⟩ (edgeFor socket p q) g origin)
  slice := fun y p =>
    match hSlice defaultPrecision defaultPrecision m.fuel y p with
    | .ok (some q) => .ok q
    | .ok none => .panic
    | .err => .err
    | .panic => .panic

/-- The rendering of the component changes no global variable. -/
def Silent (r : Rendering F) (c : Live F) (g : DMap F) : Prop := ∀ cursor p c' g', r c g cursor = .ok (p, c', g') → g' = g

/-- A loop that does not end. -/
def ended {α : Type u} : Option (Res α) → Res α
  | some r => r
  | none => .panic

/-- The component of a lathe for a layer. -/
def layerOf (c : Live F) (p q : Point F) (length : F) (i : Nat) : Live F :=
  setting c [("from__x".toList, .num p.x), ("from__y".toList, .num p.y), ("to".toList, asMap q), ("to__x".toList, .num q.x), ("to__y".toList, .num q.y),
    ("lathe__width".toList, .num length), ("lathe__index".toList, .num (Arith.lit i 0))]

/-- The lathe that the map `mp` describes for a part, with its component. -/
def latheOf (m : Machine F O) (b : Machine.Bench F) (mp g : DMap F) (c : Live F) (part : Rendered F) : LatheSetup F where
  precision := defaultPrecision
  thickness := m.number (transformerAttrs m b mp g) "material_thickness".toList Arith.zero
  label := part.label
  intercepts := horizontalIntercepts defaultPrecision part.path
  render := fun p q length i => pathOf (m.render m.fuel ⟨b.doc, [b.part], false⟩ (layerOf c p q length i) g origin)

/-- The global variables with the results of a lathe, if it has a name. -/
def withLathe (name : Text) (st : Lathe F) (g : DMap F) : DMap F :=
  if name = [] then g
  else
    [("__total_height".toList, st.totalHeight), ("__top_width".toList, st.topLength), ("__bottom_width".toList, st.bottomLength),
      ("__num_layers".toList, Arith.lit st.index 0)].foldl (fun g x => (putWithDot g (name ++ x.1) (.num x.2)).1) g

/-- What a transformer makes of a part, without the global variables. -/
def partsOf {α β : Type u} : Res (α × β) → Res α
  | .ok x => .ok x.1
  | .err => .err
  | .panic => .panic

end Verif.Render
