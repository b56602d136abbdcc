import Verif.Spec.RefineDoc
import Verif.Props.Outline

/-!
# C121: the sheets of a document
-/

set_option linter.unusedSectionVars false

namespace Verif.Render

open Verif Verif.Dyn Verif.Path Verif.PlanSet Verif.Svg Verif.Files Verif.Files.Units

universe u

variable {F : Type u} [Trig F] {O : Type}

theorem said {m : Machine F O} {doc : Elem F} {key : String} {x : F} (hk : '.' ∉ key.toList) (h : Stated doc key x) (g : DMap F) (d : F) :
    m.number (m.docAttrs doc g) key.toList d = x := by
  unfold Machine.number
  rw [C91_number _ _ _ x]
  · rfl
  · show Dyn.get doc.original key.toList = _
    rw [get_plain hk, h]

theorem find_unsaid {m : Machine F O} {doc : Elem F} {g : DMap F} {key : String} (h : Unstated doc g key) : (m.docAttrs doc g).find key.toList = none := by
  obtain ⟨h1, h2, h3, h4⟩ := h
  have l : Chain.lookup (.document doc g) key.toList = none := by
    rw [Chain.lookup]
    exact define_absent (c := .document doc g) h2 h1 h3
  unfold Source.find Machine.docAttrs
  rw [attrLookup]
  simp only [show ¬ 0 > recursionMax from by decide, if_false, h1, l]
  rw [attrDefault]
  simp only [Chain.elem, h4]

theorem unsaid {m : Machine F O} {doc : Elem F} {g : DMap F} {key : String} (h : Unstated doc g key) (d : F) :
    m.number (m.docAttrs doc g) key.toList d = d := by
  unfold Machine.number Source.number
  rw [find_unsaid h]
  rfl

/-- **C121.** A sheet has the size and the padding that the document says, whatever the global variables. -/
theorem C121_stated (m : Machine F O) (doc : Elem F) (w h p : F) (hw : Stated doc "material_width" w) (hh : Stated doc "material_height" h)
    (hp : Stated doc "doc_padding" p) (g : DMap F) : m.sheetOf doc g = ⟨w, h, p⟩ := by
  have h1 := said (m := m) (by decide +kernel) hw g (Arith.lit 20 0)
  have h2 := said (m := m) (by decide +kernel) hh g (Arith.lit 12 0)
  have h3 := said (m := m) (by decide +kernel) hp g (Arith.lit 1 1)
  exact congr (congr (congrArg Sheet.mk h1) h2) h3

/-- **C121.** What the document does not say is 20 for the width, 12 for the height and a tenth for the padding; the sheet is in inches. -/
theorem C121_default (m : Machine F O) (doc : Elem F) (g : DMap F) :
    (Unstated doc g "material_width" → (m.sheetOf doc g).width = Arith.lit 20 0) ∧ (Unstated doc g "material_height" → (m.sheetOf doc g).height = Arith.lit 12 0) ∧
      (Unstated doc g "doc_padding" → (m.sheetOf doc g).padding = Arith.lit 1 1) ∧ (Unstated doc g "measurement_units" → (m.pageOf doc g).units = .inch) := by
  refine ⟨fun h => unsaid h _, fun h => unsaid h _, fun h => unsaid h _, fun h => ?_⟩
  have : (m.docAttrs doc g).string unitsKey = none := by
    unfold Source.string
    rw [show unitsKey = "measurement_units".toList from rfl, find_unsaid h]
  unfold Machine.pageOf
  rw [this]
  rfl

/-- **C121.** Each setting on its own. -/
theorem C121_each (m : Machine F O) (doc : Elem F) (x : F) (g : DMap F) :
    (Stated doc "material_width" x → (m.sheetOf doc g).width = x) ∧ (Stated doc "material_height" x → (m.sheetOf doc g).height = x) ∧
      (Stated doc "doc_padding" x → (m.sheetOf doc g).padding = x) :=
  ⟨fun h => said (by decide +kernel) h g _, fun h => said (by decide +kernel) h g _, fun h => said (by decide +kernel) h g _⟩

/-- **C121.** A sheet is written with its size, in the units that the document names; in inches if there are no such units. -/
theorem C121_units (m : Machine F O) (doc : Elem F) (g : DMap F) (u : Text) (h : (m.docAttrs doc g).string "measurement_units".toList = some u) :
    m.pageOf doc g = newPage (m.sheetOf doc g).width (m.sheetOf doc g).height (if (newUnits u).2 then (newUnits u).1 else .inch) := by
  unfold Machine.pageOf
  rw [show unitsKey = "measurement_units".toList from rfl, h]
  rfl

/-- **C121.** The units that a document names by a word that means nothing else in it. -/
theorem C121_word (m : Machine F O) (doc : Elem F) (g : DMap F) (u : String) (h : doc.original.lookup "measurement_units".toList = some (.str u.toList))
    (hu : Unstated doc g u) : (m.docAttrs doc g).string "measurement_units".toList = some u.toList := by
  have hn : u.toList ≠ "measurement_units".toList := by
    intro e
    have := hu.1
    rw [e, get_plain (by decide +kernel), h] at this
    cases this
  have l : Chain.lookup (.document doc g) u.toList = none := by
    rw [Chain.lookup]
    exact define_absent (c := .document doc g) hu.2.1 hu.1 hu.2.2.1
  have f : (m.docAttrs doc g).find "measurement_units".toList = some (.str u.toList) := by
    unfold Source.find Machine.docAttrs
    rw [attrLookup]
    simp only [show ¬ 0 > recursionMax from by decide, if_false, get_plain (show '.' ∉ "measurement_units".toList by decide +kernel), h]
    rw [if_pos hn, attrLookup]
    simp only [show ¬ 0 + 1 > recursionMax from by decide, if_false, hu.1, l]
    rw [attrDefault]
    simp only [Chain.elem, hu.2.2.2]
  unfold Source.string
  rw [f]
  simp only [Source.textOf, show (m.docAttrs doc g).chain = .document doc g from rfl, l, ite_self]

theorem plan_iff (m : Machine F O) (doc : Elem F) (customs : List (Text × DMap F)) (s : Sheet F) (page : Page F) (P : DMap F → Prop)
    (hs : ∀ g, P g → m.sheetOf doc g = s) (hp : ∀ g, P g → m.pageOf doc g = page) : ∀ (cs : List (Live F))
    (_ : ∀ c ∈ cs, ∀ g ps g', P g → m.renderPart doc customs c g = .ok (ps, g') → P g') (g : DMap F) (_ : P g) (docs docs' : List (SvgDoc F (Drawing F)))
    (pages : List (Page F)), m.plan doc customs cs g docs (List.replicate docs.length page) = .ok (docs', pages) ↔
      pages = List.replicate docs'.length page ∧ ∃ parts, InTurn m doc customs g cs parts ∧ initLoop s docs (parts.map some) = some (docs', .ok)
  | [], _, g, _, docs, docs', pages => by
    rw [Machine.plan]
    constructor
    · intro h
      injection h with h
      injection h with h1 h2
      subst h1
      exact ⟨h2.symm, [], .nil g, rfl⟩
    · rintro ⟨h1, parts, h2, h3⟩
      cases h2
      simp only [List.map_nil, initLoop, Option.some.injEq, Prod.mk.injEq, and_true] at h3
      rw [h1, h3]
  | c :: cs, hk, g, hg, docs, docs', pages => by
    have ih := plan_iff m doc customs s page P hs hp cs fun c hc => hk c (List.mem_cons_of_mem _ hc)
    have hk := hk c (List.mem_cons_self ..) g
    rw [Machine.plan]
    have lay : ∀ ps : List (Rendered F), (ps.map fun r => (⟨r.width, r.height, ⟨c.id, r.path, r.label⟩⟩ : RenderedPart F (Drawing F))) =
        ps.map (Machine.toLayout c.id) := fun _ => rfl
    have key : ∀ {ps : List (Rendered F)} {g' docs1}, P g' → addRendered s docs (ps.map (Machine.toLayout c.id)) = some (docs1, .ok) →
        (m.plan doc customs cs g' docs1 (List.replicate docs.length page ++ List.replicate (docs1.length - docs.length) (m.pageOf doc g')) = .ok (docs', pages) ↔
          pages = List.replicate docs'.length page ∧ ∃ parts, InTurn m doc customs g' cs parts ∧ initLoop s docs1 (parts.map some) = some (docs', .ok)) := by
      intro ps g' docs1 hg' ha
      have hl := addRendered_length ha
      rw [hp g' hg', ← List.replicate_add, show docs.length + (docs1.length - docs.length) = docs1.length by omega]
      exact ih g' hg' docs1 docs' pages
    constructor
    · intro h
      obtain ⟨⟨ps, g'⟩, h1, h2⟩ := res_bind_ok h
      simp only [hs g' (hk ps g' hg h1)] at h2
      cases ha : addRendered s docs (ps.map (Machine.toLayout c.id)) with
      | none => rw [ha] at h2; cases h2
      | some x =>
        obtain ⟨docs1, r⟩ := x
        rw [ha] at h2
        cases r with
        | ok =>
          obtain ⟨e1, parts, e2, e3⟩ := (key (hk ps g' hg h1) ha).mp h2
          refine ⟨e1, _, .cons h1 e2, ?_⟩
          rw [List.map_cons, initLoop]
          rw [lay, ha]
          exact e3
        | _ => cases h2
    · rintro ⟨e1, parts, e2, e3⟩
      cases e2 with
      | @cons _ g' _ _ ps rest h1 h2 =>
        rw [List.map_cons, initLoop] at e3
        rw [h1, Res.ok_bind]
        simp only [hs g' (hk ps g' hg h1)]
        rw [lay] at e3
        cases ha : addRendered s docs (ps.map (Machine.toLayout c.id)) with
        | none => rw [ha] at e3; cases e3
        | some x =>
          obtain ⟨docs1, r⟩ := x
          rw [ha] at e3
          cases r with
          | ok => exact (key (hk ps g' hg h1) ha).mpr ⟨e1, rest, h2, e3⟩
          | _ => cases e3

/-- **C121.** The sheets of a document are the layout (C07-C12) of its parts, which are rendered in turn: each with the global variables that the one before
it left. All the sheets have the same page. `P` is what is known about the global variables: it has to be enough for the size of the sheets to be fixed. -/
theorem C121_sheets (m : Machine F O) (d : Doc F) (s : Sheet F) (page : Page F) (P : DMap F → Prop) (h0 : P d.context)
    (hk : ∀ c ∈ d.parts.map (livePart m.world), ∀ g ps g', P g → m.renderPart (Machine.docElem d) d.customs c g = .ok (ps, g') → P g')
    (hs : ∀ g, P g → m.sheetOf (Machine.docElem d) g = s) (hp : ∀ g, P g → m.pageOf (Machine.docElem d) g = page)
    (docs : List (SvgDoc F (Drawing F))) (pages : List (Page F)) :
    m.planSet d = .ok (docs, pages) ↔ pages = List.replicate docs.length page ∧
      ∃ parts, InTurn m (Machine.docElem d) d.customs d.context (d.parts.map (livePart m.world)) parts ∧
        PlanSet.init s (parts.map some) = some (docs, .ok) := by
  unfold Machine.planSet
  simp only [hs _ h0, hp _ h0]
  exact plan_iff m _ d.customs s page P hs hp _ hk d.context h0 [newSvgDoc s.width s.height s.padding] docs pages

/-! ## Examples -/

/-- A document that says the width only: the rest has the values of the code. -/
example (m : Machine F O) (x : F) : m.sheetOf ⟨[], [("material_width".toList, .num x)], []⟩ [] = ⟨x, Arith.lit 12 0, Arith.lit 1 1⟩ := by
  have h1 := (C121_each m ⟨[], [("material_width".toList, .num x)], []⟩ x []).1 rfl
  have h2 := (C121_default m ⟨[], [("material_width".toList, .num x)], []⟩ []).2.1 ⟨rfl, rfl, rfl, rfl⟩
  have h3 := (C121_default m ⟨[], [("material_width".toList, .num x)], []⟩ []).2.2.1 ⟨rfl, rfl, rfl, rfl⟩
  exact congr (congr (congrArg Sheet.mk h1) h2) h3

/-- A document in millimetres. -/
example (m : Machine F O) : (m.pageOf ⟨[], [("measurement_units".toList, .str "mm".toList)], []⟩ []).units = .mm := by
  rw [C121_units m _ _ _ (C121_word m _ [] "mm" rfl ⟨rfl, rfl, rfl, rfl⟩)]
  rfl

/-- The documents of outlines (C118) keep to the hypotheses: their parts set no global variables. -/
example (m : Machine (XNum ℝ) O) (hf : 0 < m.fuel) (s : Sheet ℝ) (os : List Outline) (ho : ∀ o ∈ os, o.Wide) (docs : List (SvgDoc (XNum ℝ) (Drawing (XNum ℝ))))
    (pages : List (Page (XNum ℝ))) : m.planSet (madeDoc m.world s os) = .ok (docs, pages) ↔
      pages = List.replicate docs.length (newPage (.fin s.width) (.fin s.height) .inch) ∧
        ∃ parts, InTurn m (Machine.docElem (madeDoc m.world s os)) [] [] ((os.map (madeNode m.world)).map (livePart m.world)) parts ∧
          PlanSet.init (finSheet s) (parts.map some) = some (docs, .ok) := by
  refine C121_sheets m (madeDoc m.world s os) (finSheet s) _ (· = []) rfl ?_ (fun g hg => hg ▸ sheetOf_doc m s os) (fun g hg => hg ▸ pageOf_doc m s os) docs pages
  intro c hc g ps g' hg h
  obtain ⟨n, hn, rfl⟩ := List.mem_map.mp hc
  obtain ⟨o, hm, rfl⟩ := List.mem_map.mp hn
  obtain ⟨p, -, -, -, e⟩ := renderPart_outline m hf (Machine.docElem (madeDoc m.world s os)) (bare_doc m.world s os) [] (m.world.idOf (madeMap o)) o (ho o hm).points
  subst hg
  rw [livePart_made, show (madeDoc m.world s os).customs = [] from rfl] at h
  obtain ⟨q, e, -⟩ := e
  rw [e] at h
  injection h with h
  injection h with _ h
  exact h.symm

end Verif.Render
