import Verif.Spec.Outline
import Verif.Lemmas.LayoutFin
import Verif.Lemmas.Document
import Verif.Props.Attr
import Verif.Props.Parts
import Verif.Props.Parsed
import Verif.Props.DrawComponent
import Verif.Props.Render

/-!
# Property C118: outlines from the document to the sheet
-/

set_option linter.unusedSectionVars false

namespace Verif.Render

open Verif Verif.Dyn Verif.Path Verif.PlanSet Verif.Svg Verif.Files Verif.Spec

universe u

/-- The part is the outline: its name, no label, its lines, moved so that they begin at the origin, and their size. -/
structure Laid (o : Outline) (p : RenderedPart ℝ (Drawing (XNum ℝ))) : Prop where
  id : o.id ≠ [] → p.payload.id = o.id
  label : p.payload.label.text = []
  path : ∃ (r : Path ℝ) (dx dy : ℝ), p.payload.path = finPath r ∧ strokes r = (polyline (0, 0) o.points).map (Stroke.map (translate dx dy)) ∧
    BoxOf (Drawn r) (0, 0) (p.width, p.height)

section

variable {O : Type}

/-! ## Drawings -/

/-- The lines as segments. -/
noncomputable def linesFrom : Point ℝ → List (Pt ℝ) → Path ℝ
  | _, [] => []
  | a, q :: qs => .line a (newPoint q.1 q.2) :: linesFrom (newPoint q.1 q.2) qs

/-- Where they stop. -/
noncomputable def lastFrom : Point ℝ → List (Pt ℝ) → Point ℝ
  | a, [] => a
  | _, q :: qs => lastFrom (newPoint q.1 q.2) qs

theorem linesFrom_last : ∀ (a : Point ℝ) (qs : List (Pt ℝ)) (p : Path ℝ) (s : Segment ℝ), s.stop = a →
    ((p ++ [s]) ++ linesFrom a qs).getLast?.map Segment.stop = some (lastFrom a qs)
  | a, [], p, s, h => by simp [linesFrom, lastFrom, h]
  | a, q :: qs, p, s, h => by
    have := linesFrom_last (newPoint q.1 q.2) qs (p ++ [s]) (.line a (newPoint q.1 q.2)) rfl
    simpa [linesFrom, lastFrom] using this

theorem strokes_linesFrom : ∀ (a : Point ℝ) (qs : List (Pt ℝ)), strokes (linesFrom a qs) = polyline (pt a) qs
  | a, [] => rfl
  | a, q :: qs => by
    have := strokes_linesFrom (newPoint q.1 q.2) qs
    rw [pt_newPoint] at this
    simp only [linesFrom, polyline, strokes, List.filterMap_cons, strokeOf] at *
    rw [this, pt_newPoint]

theorem command_line (m : Machine (XNum ℝ) O) (hf : 0 < m.fuel) (s : Spot (XNum ℝ)) (g : DMap (XNum ℝ)) (e : Elem (XNum ℝ)) (cursor : Option (Point (XNum ℝ)))
    (q : Pt ℝ) (p : Path (XNum ℝ)) : (m.command (m.attrs s g e cursor (lineMap q))).exec p = .ok (lineTo p (finPt (newPoint q.1 q.2))) := by
  have h1 : (m.command (m.attrs s g e cursor (lineMap q))).name = DrawOp.line.text := by
    show (m.world.text (lineMap q) commandKey).getD unknownName = _
    have : Dyn.get (lineMap q) commandKey = some (.str "line".toList) := rfl
    simp only [World.text, this]
    rfl
  have h2 : (m.command (m.attrs s g e cursor (lineMap q))).point toKey = some (finPt (newPoint q.1 q.2)) := by
    show found ((m.attrs s g e cursor (lineMap q)).point m.fuel m.fuel toKey) = _
    obtain ⟨f, hf⟩ : ∃ f, m.fuel = f + 1 := ⟨m.fuel - 1, by omega⟩
    rw [hf, C91_point_map (m.attrs s g e cursor (lineMap q)) (f + 1) f toKey [("x".toList, .num (.fin q.1)), ("y".toList, .num (.fin q.2))] (.fin q.1) (.fin q.2)
      (by decide +kernel) (C46_attr_local _ _ _ _ rfl (by intro s hs; cases hs)) rfl rfl, newPoint_fin]
    rfl
  unfold Command.exec
  rw [h1, ofText_text]
  simp only [h2, need]

theorem execAll_lines (m : Machine (XNum ℝ) O) (hf : 0 < m.fuel) (s : Spot (XNum ℝ)) (g : DMap (XNum ℝ)) (e : Elem (XNum ℝ)) (cursor : Option (Point (XNum ℝ))) :
    ∀ (qs : List (Pt ℝ)) (p : Path ℝ) (t : Segment ℝ) (a : Point ℝ), t.stop = a →
    execAll ((qs.map lineMap).map fun mp => m.command (m.attrs s g e cursor mp)) (finPath (p ++ [t])) = .ok (finPath (p ++ [t] ++ linesFrom a qs))
  | [], p, t, a, ht => by simp [execAll, linesFrom]
  | q :: qs, p, t, a, ht => by
    have hc : currentPosition (finPath (p ++ [t])) = finPt a := by
      unfold currentPosition
      rw [getLast_fin]
      simp only [List.getLast?_append, List.getLast?_singleton, Option.some_or, Option.map_some, ← ht]
      cases t <;> rfl
    have hl : lineTo (finPath (p ++ [t])) (finPt (newPoint q.1 q.2)) = finPath ((p ++ [t]) ++ [.line a (newPoint q.1 q.2)]) := by
      unfold lineTo
      rw [hc, finPath_append (p ++ [t])]
      rfl
    simp only [List.map_cons, execAll, command_line m hf, hl]
    rw [execAll_lines m hf s g e cursor qs (p ++ [t]) (.line a (newPoint q.1 q.2)) (newPoint q.1 q.2) rfl]
    simp [linesFrom]

theorem finish_none {F : Type u} [Trig F] (toInt : F → Int) (fuel : Nat) (p : Path F) (hp : p ≠ []) : finish toInt fuel [] p = .ok p := by
  have : ∃ s, p.getLast? = some s := by
    cases h : p.getLast? with
    | none => exact absurd (List.getLast?_eq_none_iff.mp h) hp
    | some s => exact ⟨s, rfl⟩
  obtain ⟨s, hs⟩ := this
  simp [finish, handleTransforms, makeAll, multiTransform, hs]

/-- A drawing of lines, from the cursor. -/
noncomputable def lineDrawing (a : Point ℝ) (qs : List (Pt ℝ)) : Path ℝ := .move origin a :: linesFrom a qs

/-- The component that draws the lines. -/
def liveDraw (w : World (XNum ℝ)) (qs : List (Pt ℝ)) : Live (XNum ℝ) := .mk .draw (w.idOf (drawMap qs)) ⟨[], drawMap qs, []⟩ []

theorem render_draw (m : Machine (XNum ℝ) O) (hf : 0 < m.fuel) (n : Nat) (s : Spot (XNum ℝ)) (g : DMap (XNum ℝ)) (a : Point ℝ) (qs : List (Pt ℝ)) :
    m.render (n + 1) s (liveDraw m.world qs) g (finPt a) = .ok (finPath (lineDrawing a qs), liveDraw m.world qs, g) := by
  have h1 : slice (drawMap qs) commandsKey = qs.map lineMap := by
    rw [slice_plain (by decide +kernel)]
    rw [show (drawMap qs).lookup commandsKey = some (.list (qs.map fun q => .map (lineMap q))) from rfl]
    have : (qs.map fun q => (.map (lineMap q) : Val (XNum ℝ))) = (qs.map lineMap).map .map := by simp
    simp only [this, mapItems_maps, Option.getD_some]
  have h2 : slice (drawMap qs) transformsKey = [] := rfl
  have h3 : moveTo [] (finPt a) = finPath ([] ++ [.move origin a]) := by
    unfold moveTo
    rw [show currentPosition ([] : Path (XNum ℝ)) = origin from rfl, origin_fin]
    rfl
  simp only [Machine.render, liveDraw, Live.kind, Machine.renderDraw, Live.elem, h1, drawRender, h3]
  rw [execAll_lines m hf s g _ _ qs [] (.move origin a) a rfl, Res.ok_bind]
  simp only [Machine.finishAt, h2, List.map_nil, List.nil_append, List.singleton_append]
  rw [finish_none _ _ _ (by simp), Res.ok_bind]
  rfl

/-- The drawings one after the other. -/
noncomputable def drawings : Point ℝ → List (List (Pt ℝ)) → List (Path ℝ)
  | _, [] => []
  | a, qs :: ds => lineDrawing a qs :: drawings (lastFrom a qs) ds

theorem lineDrawing_last (a : Point ℝ) (qs : List (Pt ℝ)) : ∃ s, (finPath (lineDrawing a qs)).getLast? = some s ∧ s.stop = finPt (lastFrom a qs) := by
  have h := linesFrom_last a qs [] (.move origin a) rfl
  rw [getLast_fin]
  simp only [List.nil_append, List.singleton_append] at h
  unfold lineDrawing
  cases e : (Segment.move origin a :: linesFrom a qs).getLast? with
  | none => simp [e] at h
  | some s =>
    rw [e] at h
    simp only [Option.map_some, Option.some.injEq] at h
    refine ⟨finSeg s, rfl, ?_⟩
    rw [← h]
    cases s <;> rfl

theorem render_draws (m : Machine (XNum ℝ) O) (hf : 0 < m.fuel) (n : Nat) (s : Spot (XNum ℝ)) (g : DMap (XNum ℝ)) : ∀ (ds : List (List (Pt ℝ))) (a : Point ℝ),
    renderAllOf (m.render (n + 1) s) (ds.map (liveDraw m.world)) g (finPt a) = .ok ((drawings a ds).map finPath, ds.map (liveDraw m.world), g)
  | [], a => rfl
  | qs :: ds, a => by
    obtain ⟨t, h1, h2⟩ := lineDrawing_last a qs
    simp only [List.map_cons, renderAllOf, render_draw m hf, Res.ok_bind, h1, h2, render_draws m hf n s g ds, drawings]

theorem strokes_drawings : ∀ (ds : List (List (Pt ℝ))) (a : Point ℝ), (drawings a ds).flatMap strokes = polyline (pt a) ds.flatten
  | [], a => rfl
  | qs :: ds, a => by
    have key : ∀ (qs rs : List (Pt ℝ)) (a : Point ℝ), polyline (pt a) (qs ++ rs) = polyline (pt a) qs ++ polyline (pt (lastFrom a qs)) rs := by
      intro qs
      induction qs with
      | nil => intro rs a; rfl
      | cons q qs ih =>
        intro rs a
        have := ih rs (newPoint q.1 q.2)
        rw [pt_newPoint] at this
        simp [polyline, lastFrom, this]
    have h : strokes (lineDrawing a qs) = polyline (pt a) qs := by
      rw [← strokes_linesFrom]
      rfl
    simp only [drawings, List.flatMap_cons, List.flatten_cons, key, strokes_drawings ds, h]

theorem polyline_straight : ∀ (a : Pt ℝ) (qs : List (Pt ℝ)), ∀ s ∈ polyline a qs, ∃ x y, s = .line x y
  | a, [], s, h => by simp [polyline] at h
  | a, q :: qs, s, h => by
    simp only [polyline, List.mem_cons] at h
    rcases h with rfl | h
    · exact ⟨a, q, rfl⟩
    · exact polyline_straight q qs s h

/-- **C118.** A part that is made of drawings of lines is rendered to these lines, moved so that its box begins at the origin, and nothing else changes. -/
theorem C118_part (m : Machine (XNum ℝ) O) (hf : 0 < m.fuel) (n : Nat) (doc e : Elem (XNum ℝ)) (he : slice e.original transformsKey = []) (i : Text)
    (ds : List (List (Pt ℝ))) (hd : ds.flatten ≠ []) (g : DMap (XNum ℝ)) (a : Point ℝ) :
    ∃ (r : Path ℝ) (dx dy : ℝ) (br : Pt ℝ), m.render (n + 2) ⟨doc, [], false⟩ (.mk .part i e (ds.map (liveDraw m.world))) g (finPt a) =
        .ok (finPath r, .mk .part i e (ds.map (liveDraw m.world)), g) ∧
      strokes r = (polyline (pt a) ds.flatten).map (Stroke.map (translate dx dy)) ∧ BoxOf (Drawn r) (0, 0) br := by
  have hne : drawings a ds ≠ [] := by
    cases ds with
    | nil => simp at hd
    | cons => simp [drawings]
  obtain ⟨j, h1, h2⟩ := simpleJoin_strokes (drawings a ds) hne
  rw [strokes_drawings] at h2
  have hs : strokes j ≠ [] := by
    rw [h2]
    cases e : ds.flatten with
    | nil => exact absurd e hd
    | cons => simp [polyline]
  have hsm : Small j := by
    intro a' c d b h
    rw [h2] at h
    obtain ⟨x, y, h⟩ := polyline_straight _ _ _ h
    cases h
  obtain ⟨dx, dy, h3, br, h4⟩ := C29_trim j hs hsm
  have hj : finPath j ≠ [] := by
    intro e
    have : j = [] := by simpa [finPath] using e
    rw [this] at hs
    exact hs rfl
  refine ⟨collapseMoves (shift dx dy j), dx, dy, br, ?_, ?_, ?_⟩
  · rw [Machine.render.eq_def]
    simp only [Live.kind, Machine.renderPartNode, Live.children, Live.elem, Live.id]
    rw [render_draws m hf, Res.ok_bind]
    simp only
    rw [if_neg (by simpa using hne), h1, Res.ok_bind]
    simp only [Machine.finishAt, he, List.map_nil]
    rw [finish_none _ _ _ hj, Res.ok_bind, h3, collapse_fin]
  · rw [strokes_collapseMoves, C27_shift, h2]
  · have : Drawn (collapseMoves (shift dx dy j)) = Drawn (shift dx dy j) := by
      funext x
      simp only [Drawn, strokes_collapseMoves]
    rw [this]
    exact h4

/-! ## Parts -/

theorem get_absent {F : Type u} {mp : DMap F} {key k : Text} {ks : List Text} (hd : dots key = k :: ks) (h1 : mp.lookup key = none) (h2 : mp.lookup k = none) :
    Dyn.get mp key = none := by
  rw [get_eq, h1, hd]
  simp [follow_map_cons, h2]

theorem define_absent {F : Type u} {c : Chain F} {key : Text} (h1 : Dyn.get c.elem.allParams key = none) (h2 : Dyn.get c.elem.original key = none)
    (h3 : Dyn.get c.context key = none) : localLookup c key 0 = none := by
  rw [localLookup]
  simp [Chain.define, h1, h2, h3]

/-- An attribute that is nowhere to be found. -/
theorem find_absent {F : Type u} [Trig F] {O : Type} (lib : Lib F O) (printed : Val F → Text) (e doc : Elem F) (g mp : DMap F) (cursor : Option (Point F)) (key : Text)
    (h0 : Dyn.get mp key = none) (h1 : Dyn.get e.allParams key = none) (h2 : Dyn.get e.original key = none) (h3 : Dyn.get e.defaults key = none)
    (h4 : Dyn.get doc.allParams key = none) (h5 : Dyn.get doc.original key = none) (h6 : Dyn.get doc.defaults key = none) (h7 : Dyn.get g key = none) :
    Source.find ⟨lib, printed, .component e (.document doc g), mp, cursor⟩ key = none := by
  have l : Chain.lookup (.component e (.document doc g)) key = none := by
    rw [Chain.lookup, define_absent (c := .component e (.document doc g)) h1 h2 (Render.get_nil key), Chain.lookup]
    exact define_absent (c := .document doc g) h4 h5 h7
  unfold Source.find
  rw [attrLookup]
  simp only [show ¬ 0 > recursionMax from by decide, if_false, h0, l]
  rw [attrDefault]
  simp only [Chain.elem, h3]
  rw [attrDefault]
  simp only [Chain.elem, h6]

/-- The part as it is made. -/
def madeMap (o : Outline) : DMap (XNum ℝ) :=
  [("id".toList, .str o.id), ("components".toList, .list (o.drawings.map fun qs => .map (drawMap qs))), ("type".toList, .str "part".toList)]

/-- The document as it is made does not have what is not in it. -/
structure Bare (doc : Elem (XNum ℝ)) : Prop where
  params : doc.params = []
  defaults : doc.defaults = []
  absent : ∀ k, k ∉ ["material_width".toList, "material_height".toList, "doc_padding".toList, "parts".toList] → doc.original.lookup k = none

theorem Bare.get {doc : Elem (XNum ℝ)} (h : Bare doc) {key k : Text} {ks : List Text} (hd : dots key = k :: ks)
    (h1 : key ∉ ["material_width".toList, "material_height".toList, "doc_padding".toList, "parts".toList])
    (h2 : k ∉ ["material_width".toList, "material_height".toList, "doc_padding".toList, "parts".toList]) : Dyn.get doc.original key = none :=
  get_absent hd (h.absent _ h1) (h.absent _ h2)

theorem Bare.allParams {doc : Elem (XNum ℝ)} (h : Bare doc) : doc.allParams = [] := by
  have : Dyn.get doc.original paramsKey = none := h.get (k := paramsKey) (ks := []) (by decide +kernel) (by decide +kernel) (by decide +kernel)
  simp [Elem.allParams, h.params, getDynMap, this]

/-- The part while it is rendered. -/
noncomputable def shownMap (o : Outline) : DMap (XNum ℝ) :=
  [("id".toList, .str o.id), ("components".toList, .list (o.drawings.map fun qs => .map (drawMap qs))), ("type".toList, .str "part".toList),
    ("part_index".toList, indexVal 0)]

theorem setVar_made (o : Outline) : setVar ⟨[], madeMap o, []⟩ partIndexKey (indexVal 0) = ⟨[], shownMap o, []⟩ := rfl

/-- Not in the map of a part. -/
theorem shown_absent (o : Outline) (k : Text) (h : k ∉ ["id".toList, "components".toList, "type".toList, "part_index".toList]) : (shownMap o).lookup k = none := by
  simp only [List.mem_cons, List.not_mem_nil, or_false, not_or] at h
  obtain ⟨h1, h2, h3, h4⟩ := h
  simp only [shownMap, List.lookup, beq_eq_false_iff_ne.mpr h1, beq_eq_false_iff_ne.mpr h2, beq_eq_false_iff_ne.mpr h3, beq_eq_false_iff_ne.mpr h4]

theorem made_absent (o : Outline) (k : Text) (h : k ∉ ["id".toList, "components".toList, "type".toList, "part_index".toList]) : (madeMap o).lookup k = none := by
  simp only [List.mem_cons, List.not_mem_nil, or_false, not_or] at h
  obtain ⟨h1, h2, h3, h4⟩ := h
  simp only [madeMap, List.lookup, beq_eq_false_iff_ne.mpr h1, beq_eq_false_iff_ne.mpr h2, beq_eq_false_iff_ne.mpr h3]

/-- The attributes that a part of this kind does not have. -/
theorem find_part (lib : Lib (XNum ℝ) O) (printed : Val (XNum ℝ) → Text) (doc : Elem (XNum ℝ)) (hd : Bare doc) (mp : DMap (XNum ℝ))
    (hm : ∀ k, k ∉ ["id".toList, "components".toList, "type".toList, "part_index".toList] → mp.lookup k = none) (cursor : Option (Point (XNum ℝ))) (key : Text)
    (hk : key ∈ [repeatTotalKey, labelTextKey, labelPositionKey]) :
    Source.find ⟨lib, printed, .component ⟨[], mp, []⟩ (.document doc []), mp, cursor⟩ key = none := by
  obtain ⟨k, ks, h1, h2, h3, h4, h5⟩ : ∃ k ks, dots key = k :: ks ∧ key ∉ ["id".toList, "components".toList, "type".toList, "part_index".toList] ∧
      k ∉ ["id".toList, "components".toList, "type".toList, "part_index".toList] ∧
      key ∉ ["material_width".toList, "material_height".toList, "doc_padding".toList, "parts".toList] ∧
      k ∉ ["material_width".toList, "material_height".toList, "doc_padding".toList, "parts".toList] := by
    simp only [List.mem_cons, List.not_mem_nil, or_false] at hk
    rcases hk with rfl | rfl | rfl
    · exact ⟨"repeat".toList, ["total".toList], by decide +kernel, by decide +kernel, by decide +kernel, by decide +kernel, by decide +kernel⟩
    · exact ⟨"label".toList, ["text".toList], by decide +kernel, by decide +kernel, by decide +kernel, by decide +kernel, by decide +kernel⟩
    · exact ⟨"label".toList, ["position".toList], by decide +kernel, by decide +kernel, by decide +kernel, by decide +kernel, by decide +kernel⟩
  have hg : Dyn.get mp key = none := get_absent h1 (hm _ h2) (hm _ h3)
  have hp : (⟨[], mp, []⟩ : Elem (XNum ℝ)).allParams = [] := by
    have : Dyn.get mp paramsKey = none := get_absent (k := paramsKey) (ks := []) (by decide +kernel) (hm _ (by decide +kernel)) (hm _ (by decide +kernel))
    simp [Elem.allParams, getDynMap, this]
  exact find_absent lib printed _ _ _ _ _ _ hg (by rw [hp]; exact Render.get_nil _) hg (Render.get_nil _) (by rw [hd.allParams]; exact Render.get_nil _)
    (hd.get h1 h4 h5) (by rw [hd.defaults]; exact Render.get_nil _) (Render.get_nil _)

theorem renderPart_outline (m : Machine (XNum ℝ) O) (hf : 0 < m.fuel) (doc : Elem (XNum ℝ)) (hd : Bare doc) (customs : List (Text × DMap (XNum ℝ))) (i : Text) (o : Outline)
    (ho : o.points ≠ []) : ∃ p : RenderedPart ℝ (Drawing (XNum ℝ)), p.payload.label = ⟨[], Attr.bottomMiddle.text⟩ ∧ p.payload.id = i ∧
      (∃ (r : Path ℝ) (dx dy : ℝ), p.payload.path = finPath r ∧ strokes r = (polyline (0, 0) o.points).map (Stroke.map (translate dx dy)) ∧
        BoxOf (Drawn r) (0, 0) (p.width, p.height)) ∧
      ∃ q, m.renderPart doc customs (.mk .part i ⟨[], madeMap o, []⟩ (o.drawings.map (liveDraw m.world))) [] = .ok ([q], []) ∧ Machine.toLayout i q = finPart p := by
  obtain ⟨f, hf'⟩ : ∃ f, m.fuel = f + 1 := ⟨m.fuel - 1, by omega⟩
  obtain ⟨r, dx, dy, br, h1, h2, h3⟩ := C118_part m hf f doc ⟨[], shownMap o, []⟩ rfl i o.drawings ho [] origin
  have hp : ∀ x, strokes x = (polyline (pt (origin : Point ℝ)) o.drawings.flatten).map (Stroke.map (translate dx dy)) → strokes x ≠ [] ∧ Small x := by
    intro x hx
    refine ⟨?_, ?_⟩
    · rw [hx]
      cases e : o.drawings.flatten with
      | nil => exact absurd e ho
      | cons => simp [polyline]
    · intro a' c d b h
      rw [hx] at h
      obtain ⟨s, hs, e⟩ := List.mem_map.mp h
      obtain ⟨x, y, rfl⟩ := polyline_straight _ _ _ hs
      cases e
  obtain ⟨hne, hsm⟩ := hp r h2
  obtain ⟨dx', dy', h4, br', h5⟩ := C29_trim r hne hsm
  have h6 : strokes (shift dx' dy' r) = (polyline (pt (origin : Point ℝ)) o.drawings.flatten).map (Stroke.map (translate (dx + dx') (dy + dy'))) := by
    rw [C27_shift, h2, List.map_map]
    refine List.map_congr_left fun s _ => ?_
    have : ∀ x : Pt ℝ, translate dx' dy' (translate dx dy x) = translate (dx + dx') (dy + dy') x := fun x => by simp [translate, add_assoc]
    cases s <;> simp [Stroke.map, this]
  have hsm' : Small (shift dx' dy' r) := by
    intro a' c d b h
    rw [h6] at h
    obtain ⟨s, hs, e⟩ := List.mem_map.mp h
    obtain ⟨x, y, rfl⟩ := polyline_straight _ _ _ hs
    cases e
  have hne' : strokes (shift dx' dy' r) ≠ [] := by
    rw [C27_shift]
    simpa using hne
  have h7 := measure_fin hne' hsm' h5
  have hpt : pt (origin : Point ℝ) = (0, 0) := by simp [pt, origin, newPoint]
  rw [hpt] at h6
  refine ⟨⟨br'.1, br'.2, ⟨i, finPath (shift dx' dy' r), ⟨[], Attr.bottomMiddle.text⟩⟩⟩, rfl, rfl,
    ⟨shift dx' dy' r, dx + dx', dy + dy', rfl, h6, h5⟩, ⟨finPath (shift dx' dy' r), .fin br'.1, .fin br'.2, ⟨[], Attr.bottomMiddle.text⟩⟩, ?_, rfl⟩
  have ht : m.int (m.partAttrs doc [] ⟨[], madeMap o, []⟩ (madeMap o)) repeatTotalKey 1 = 1 := by
    unfold Machine.int Source.number Machine.partAttrs Machine.attrs
    rw [show chainOf (Spot.mk doc [] false).doc [] (Spot.mk doc [] false).ups = .document doc [] from rfl,
      find_part m.lib m.world.printed doc hd (madeMap o) (made_absent o) none repeatTotalKey (by simp)]
    rfl
  have hl : Machine.labelOf (m.partAttrs doc [] ⟨[], shownMap o, []⟩ (shownMap o)) 1 0 = ⟨[], Attr.bottomMiddle.text⟩ := by
    have e1 : (m.partAttrs doc [] ⟨[], shownMap o, []⟩ (shownMap o)).find labelTextKey = none :=
      find_part m.lib m.world.printed doc hd (shownMap o) (shown_absent o) none labelTextKey (by simp)
    have e2 : (m.partAttrs doc [] ⟨[], shownMap o, []⟩ (shownMap o)).find labelPositionKey = none :=
      find_part m.lib m.world.printed doc hd (shownMap o) (shown_absent o) none labelPositionKey (by simp)
    simp [Machine.labelOf, Source.string, Source.handle, e1, e2]
  unfold Machine.renderPart
  simp only [Live.elem]
  rw [ht, show List.range (1 : Int).toNat = [0] from rfl]
  simp only [Machine.partCopies, Live.setVar, setVar_made]
  rw [hf', ← origin_fin] at *
  rw [h1]
  simp only [Res.ok_bind, Live.elem, h4, h7, hl]
  have ht : slice (shownMap o) partTransformersKey = [] := by
    rw [slice_plain (by decide +kernel), shown_absent o _ (by decide +kernel)]
  simp only [ht, Machine.makeTransformers, need, Machine.runTransformers]
  simp

/-! ## Documents -/

theorem neat_line (q : Pt ℝ) : Neat (.map (lineMap q)) := by
  refine .map (by simp [lineMap]) ?_ ?_
  · intro e he
    simp only [lineMap, List.mem_cons, List.not_mem_nil, or_false] at he
    rcases he with rfl | rfl <;> simp only <;> decide +kernel
  · intro e he
    simp only [lineMap, List.mem_cons, List.not_mem_nil, or_false] at he
    rcases he with rfl | rfl
    · exact .str _
    · refine .map (by simp) ?_ ?_ <;> intro e he <;> simp only [List.mem_cons, List.not_mem_nil, or_false] at he
      · rcases he with rfl | rfl <;> simp only <;> decide +kernel
      · rcases he with rfl | rfl <;> exact .num _

theorem neat_draw (qs : List (Pt ℝ)) : Neat (.map (drawMap qs)) := by
  refine .map (by simp [drawMap]) ?_ ?_ <;> intro e he <;> simp only [drawMap, List.mem_cons, List.not_mem_nil, or_false] at he
  · rcases he with rfl | rfl <;> simp only <;> decide +kernel
  · rcases he with rfl | rfl
    · exact .str _
    · refine .list fun v hv => ?_
      obtain ⟨q, _, rfl⟩ := List.mem_map.mp hv
      exact neat_line q

theorem neat_part (o : Outline) : Neat (.map (partMap o)) := by
  refine .map (by simp [partMap]) ?_ ?_ <;> intro e he <;> simp only [partMap, List.mem_cons, List.not_mem_nil, or_false] at he
  · rcases he with rfl | rfl <;> simp only <;> decide +kernel
  · rcases he with rfl | rfl
    · exact .str _
    · refine .list fun v hv => ?_
      obtain ⟨q, _, rfl⟩ := List.mem_map.mp hv
      exact neat_draw q

theorem neat_outlineDoc (s : Sheet ℝ) (os : List Outline) : Neat (.map (outlineDoc s os)) := by
  refine .map (by simp [outlineDoc]) ?_ ?_ <;> intro e he <;> simp only [outlineDoc, List.mem_cons, List.not_mem_nil, or_false] at he
  · rcases he with rfl | rfl | rfl | rfl <;> simp only <;> decide +kernel
  · rcases he with rfl | rfl | rfl | rfl
    · exact .num _
    · exact .num _
    · exact .num _
    · refine .list fun v hv => ?_
      obtain ⟨q, _, rfl⟩ := List.mem_map.mp hv
      exact neat_part q

/-- The nodes that are made. -/
def drawNode (w : World (XNum ℝ)) (qs : List (Pt ℝ)) : Dyn.Node (XNum ℝ) := .mk (w.idOf (drawMap qs)) (drawMap qs) []

def madeNode (w : World (XNum ℝ)) (o : Outline) : Dyn.Node (XNum ℝ) := .mk (w.idOf (madeMap o)) (madeMap o) (o.drawings.map (drawNode w))

theorem make_draw (w : World (XNum ℝ)) (cs : List (Text × DMap (XNum ℝ))) (n : Nat) (qs : List (Pt ℝ)) : w.make cs (n + 1) (drawMap qs) = .val (drawNode w qs) := by
  have h1 : w.text (drawMap qs) typeKey = some Built.draw.text := text_type w (b := .draw) rfl
  rw [World.make]
  simp only [h1, built_text, World.create]
  rfl

theorem makeList_map {α : Type} {β : Type u} {F : Type u} {f : DMap F → Out β} {g : α → DMap F} {h : α → β} (e : ∀ a, f (g a) = .val (h a)) (l : List α) :
    makeList f (l.map g) = .val (l.map h) := by
  induction l with
  | nil => rfl
  | cons a l ih => simp only [List.map_cons, makeList, e, ih]

theorem create_part (w : World (XNum ℝ)) (cs : List (Text × DMap (XNum ℝ))) (n : Nat) (o : Outline) :
    w.create (w.make cs (n + 1)) .part (partMap o) = .val (madeNode w o) := by
  have h1 : putIfAbsent (partMap o) typeKey (.str partText) = madeMap o := rfl
  have h2 : slice (madeMap o) componentsKey = o.drawings.map drawMap := by
    rw [slice_plain (by decide +kernel)]
    rw [show (madeMap o).lookup componentsKey = some (.list (o.drawings.map fun qs => .map (drawMap qs))) from rfl]
    have : (o.drawings.map fun qs => (.map (drawMap qs) : Val (XNum ℝ))) = (o.drawings.map drawMap).map .map := by simp
    simp only [this, mapItems_maps, Option.getD_some]
  have h3 : withComponents (madeMap o) (o.drawings.map (drawNode w)) = madeMap o := by
    have : (o.drawings.map (drawNode w)).map (fun c => (.map c.map : Val (XNum ℝ))) = o.drawings.map fun qs => .map (drawMap qs) := by
      simp [drawNode, Dyn.Node.map, Function.comp_def]
    unfold withComponents
    rw [this]
    rfl
  simp only [World.create, clone_neat (neat_part o), h1, h2]
  rw [makeList_map (make_draw w cs n)]
  simp only [h3]
  rfl

/-- The document that is made. -/
def madeDoc (w : World (XNum ℝ)) (s : Sheet ℝ) (os : List Outline) : Doc (XNum ℝ) :=
  ⟨w.idOf (outlineDoc s os), withParts (outlineDoc s os) (os.map (madeNode w)), [], [], [], os.map (madeNode w)⟩

theorem text_filename (w : World (XNum ℝ)) (s : Sheet ℝ) (os : List Outline) : w.text (outlineDoc s os) filenameKey = none := by
  have : Dyn.get (outlineDoc s os) filenameKey = none := rfl
  simp only [World.text, this]

theorem parse_outline (w : World (XNum ℝ)) (n files : Nat) (s : Sheet ℝ) (os : List Outline) :
    w.parse (n + 1) (files + 1) (outlineDoc s os) = .val (madeDoc w s os) := by
  have h2 : slice (outlineDoc s os) importsKey = [] := rfl
  have h3 : slice (outlineDoc s os) partsKey = os.map partMap := by
    rw [slice_plain (by decide +kernel)]
    rw [show (outlineDoc s os).lookup partsKey = some (.list (os.map fun o => .map (partMap o))) from rfl]
    have : (os.map fun qs => (.map (partMap qs) : Val (XNum ℝ))) = (os.map partMap).map .map := by simp
    simp only [this, mapItems_maps, Option.getD_some]
  rw [World.parse]
  simp only [text_filename w s os, h2, World.runImports, h3]
  rw [makeList_map (create_part w [] n)]
  rfl

theorem doc_lookup (w : World (XNum ℝ)) (s : Sheet ℝ) (os : List Outline) (k : Text) (hk : k ≠ "parts".toList) :
    (madeDoc w s os).map.lookup k = (outlineDoc s os).lookup k :=
  (C113_map w 1 0 (outlineDoc s os) (neat_outlineDoc s os) (madeDoc w s os) (text_filename w s os) (parse_outline w 0 0 s os)).2 k hk

theorem doc_absent (s : Sheet ℝ) (os : List Outline) (k : Text)
    (h : k ∉ ["material_width".toList, "material_height".toList, "doc_padding".toList, "parts".toList]) : (outlineDoc s os).lookup k = none := by
  simp only [List.mem_cons, List.not_mem_nil, or_false, not_or] at h
  obtain ⟨h1, h2, h3, h4⟩ := h
  simp only [outlineDoc, List.lookup, beq_eq_false_iff_ne.mpr h1, beq_eq_false_iff_ne.mpr h2, beq_eq_false_iff_ne.mpr h3, beq_eq_false_iff_ne.mpr h4]

theorem bare_doc (w : World (XNum ℝ)) (s : Sheet ℝ) (os : List Outline) : Bare (Machine.docElem (madeDoc w s os)) where
  params := rfl
  defaults := by
    show sub (madeDoc w s os).map defaultsKey = []
    rw [sub_plain (by decide +kernel), doc_lookup w s os _ (by decide +kernel), doc_absent s os _ (by decide +kernel)]
    rfl
  absent := fun k hk => by
    rw [show (Machine.docElem (madeDoc w s os)).original = (madeDoc w s os).map from rfl, doc_lookup w s os k (by rintro rfl; exact hk (by simp)), doc_absent s os k hk]

theorem live_drawing (w : World (XNum ℝ)) (qs : List (Pt ℝ)) : live w (drawNode w qs) = liveDraw w qs := by
  have h1 : w.text (drawMap qs) typeKey = some Built.draw.text := text_type w (b := .draw) rfl
  rw [drawNode, live, h1, Option.getD_some, built_text]
  rfl

theorem livePart_made (w : World (XNum ℝ)) (o : Outline) :
    livePart w (madeNode w o) = .mk .part (w.idOf (madeMap o)) ⟨[], madeMap o, []⟩ (o.drawings.map (liveDraw w)) := by
  have : ∀ ds : List (List (Pt ℝ)), lives w (ds.map (drawNode w)) = ds.map (liveDraw w) := by
    intro ds
    induction ds with
    | nil => rfl
    | cons d ds ih => rw [List.map_cons, List.map_cons, lives, ih, live_drawing]
  unfold livePart madeNode
  simp only [Dyn.Node.children, this]
  rfl

theorem number_doc (m : Machine (XNum ℝ) O) (s : Sheet ℝ) (os : List Outline) (key : Text) (x d : XNum ℝ) (hk : key ≠ "parts".toList) (hp : '.' ∉ key)
    (h : (outlineDoc s os).lookup key = some (.num x)) : m.number (m.docAttrs (Machine.docElem (madeDoc m.world s os)) []) key d = x := by
  unfold Machine.number
  rw [C91_number _ _ _ x]
  · rfl
  · show Dyn.get (madeDoc m.world s os).map key = _
    rw [get_plain hp, doc_lookup _ _ _ _ hk, h]

theorem sheetOf_doc (m : Machine (XNum ℝ) O) (s : Sheet ℝ) (os : List Outline) : m.sheetOf (Machine.docElem (madeDoc m.world s os)) [] = finSheet s := by
  simp only [Machine.sheetOf, finSheet]
  rw [number_doc m s os materialWidthKey (.fin s.width) _ (by decide +kernel) (by decide +kernel) rfl,
    number_doc m s os materialHeightKey (.fin s.height) _ (by decide +kernel) (by decide +kernel) rfl,
    number_doc m s os docPaddingKey (.fin s.padding) _ (by decide +kernel) (by decide +kernel) rfl]

theorem pageOf_doc (m : Machine (XNum ℝ) O) (s : Sheet ℝ) (os : List Outline) :
    m.pageOf (Machine.docElem (madeDoc m.world s os)) [] = newPage (.fin s.width) (.fin s.height) .inch := by
  have hb := bare_doc m.world s os
  have hg : Dyn.get (Machine.docElem (madeDoc m.world s os)).original unitsKey = none := hb.get (k := unitsKey) (ks := []) (by decide +kernel) (by decide +kernel) (by decide +kernel)
  have h : (m.docAttrs (Machine.docElem (madeDoc m.world s os)) []).find unitsKey = none := by
    have l : Chain.lookup (.document (Machine.docElem (madeDoc m.world s os)) []) unitsKey = none := by
      rw [Chain.lookup]
      exact define_absent (c := .document _ []) (by rw [show Chain.elem (.document (Machine.docElem (madeDoc m.world s os)) []) = Machine.docElem (madeDoc m.world s os) from rfl, hb.allParams]; exact Render.get_nil _) hg (Render.get_nil _)
    unfold Source.find Machine.docAttrs
    rw [attrLookup]
    simp only [show ¬ 0 > recursionMax from by decide, if_false, hg, l]
    rw [attrDefault]
    simp only [Chain.elem, hb.defaults, Render.get_nil]
  unfold Machine.pageOf
  rw [sheetOf_doc]
  simp only [Source.string, h]
  rfl

/-! ## Sheets -/

theorem point_polyline : ∀ (a : Pt ℝ) (qs : List (Pt ℝ)), qs ≠ [] → ∀ q ∈ a :: qs, ∃ s ∈ polyline a qs, ∃ t : ℝ, 0 ≤ t ∧ t ≤ 1 ∧ s.at t = q
  | a, [], h, _, _ => absurd rfl h
  | a, b :: qs, _, q, hq => by
    rcases List.mem_cons.mp hq with rfl | hq
    · exact ⟨.line q b, by simp [polyline], 0, le_refl _, zero_le_one, by simp [Stroke.at]⟩
    · by_cases e : qs = []
      · subst e
        simp only [List.mem_singleton] at hq
        subst hq
        exact ⟨.line a q, by simp [polyline], 1, zero_le_one, le_refl _, by simp [Stroke.at]⟩
      · obtain ⟨s, hs, t, h⟩ := point_polyline b qs e q hq
        exact ⟨s, by simp [polyline, hs], t, h⟩

theorem Outline.Wide.points {o : Outline} (h : o.Wide) : o.points ≠ [] := by
  intro e
  obtain ⟨⟨p, hp, q, hq, hlt⟩, _⟩ := h
  rw [e, List.mem_singleton] at hp hq
  subst hp hq
  exact lt_irrefl _ hlt

/-- The part has a size. -/
theorem Laid.size {o : Outline} (ho : o.Wide) {p : RenderedPart ℝ (Drawing (XNum ℝ))} (h : Laid o p) : 0 < p.width ∧ 0 < p.height := by
  obtain ⟨r, dx, dy, -, h2, h3⟩ := h.path
  have key : ∀ q ∈ (0, 0) :: o.points, Drawn r (translate dx dy q) := by
    intro q hq
    obtain ⟨s, hs, t, h0, h1, e⟩ := point_polyline (0, 0) o.points ho.points q hq
    refine ⟨s.map (translate dx dy), by rw [h2]; exact List.mem_map_of_mem hs, t, h0, h1, ?_⟩
    obtain ⟨x, y, rfl⟩ := polyline_straight _ _ _ hs
    rw [← e]
    simp only [Stroke.map, Stroke.at, translate, Prod.mk.injEq]
    constructor <;> ring
  obtain ⟨⟨p1, hp1, q1, hq1, hlt1⟩, ⟨p2, hp2, q2, hq2, hlt2⟩⟩ := ho
  have a1 := h3.inside _ (key p1 hp1)
  have a2 := h3.inside _ (key q1 hq1)
  have a3 := h3.inside _ (key p2 hp2)
  have a4 := h3.inside _ (key q2 hq2)
  simp only [translate] at a1 a2 a3 a4
  constructor <;> linarith

theorem idOf_made (w : World (XNum ℝ)) (o : Outline) (h : o.id ≠ []) : w.idOf (madeMap o) = o.id := by
  have : Dyn.get (madeMap o) idKey = some (.str o.id) := rfl
  simp only [World.idOf, World.text, this, if_neg h, Option.getD_some]

theorem parts_outlines (m : Machine (XNum ℝ) O) (hf : 0 < m.fuel) (doc : Elem (XNum ℝ)) (hd : Bare doc) (customs : List (Text × DMap (XNum ℝ))) : ∀ os : List Outline,
    (∀ o ∈ os, o.Wide) → ∃ parts : List (RenderedPart ℝ (Drawing (XNum ℝ))), List.Forall₂ Laid os parts ∧
      List.Forall₂ (fun o p => ∃ q, m.renderPart doc customs (livePart m.world (madeNode m.world o)) [] = .ok ([q], []) ∧
        Machine.toLayout (livePart m.world (madeNode m.world o)).id q = finPart p) os parts
  | [], _ => ⟨[], .nil, .nil⟩
  | o :: os, h => by
    obtain ⟨ps, h1, h2⟩ := parts_outlines m hf doc hd customs os fun o ho => h o (List.mem_cons_of_mem _ ho)
    obtain ⟨p, e1, e2, e3, e4⟩ := renderPart_outline m hf doc hd customs (m.world.idOf (madeMap o)) o (h o (List.mem_cons_self ..)).points
    refine ⟨p :: ps, .cons ⟨fun hi => ?_, by rw [e1], e3⟩ h1, .cons ?_ h2⟩
    · rw [e2, idOf_made _ _ hi]
    · rw [livePart_made]
      exact e4

theorem plan_outlines (m : Machine (XNum ℝ) O) (doc : Elem (XNum ℝ)) (customs : List (Text × DMap (XNum ℝ))) (s : Sheet ℝ) (hs : m.sheetOf doc [] = finSheet s)
    (page : Page (XNum ℝ)) (hp : m.pageOf doc [] = page) : ∀ (os : List Outline) (parts : List (RenderedPart ℝ (Drawing (XNum ℝ))))
      (_ : List.Forall₂ (fun o p => ∃ q, m.renderPart doc customs (livePart m.world (madeNode m.world o)) [] = .ok ([q], []) ∧
        Machine.toLayout (livePart m.world (madeNode m.world o)).id q = finPart p) os parts) (docs docs' : List (SvgDoc ℝ (Drawing (XNum ℝ)))),
      initLoop s docs (parts.map fun p => some [p]) = some (docs', .ok) →
      m.plan doc customs ((os.map (madeNode m.world)).map (livePart m.world)) [] (docs.map finDoc) (List.replicate docs.length page) =
        .ok (docs'.map finDoc, List.replicate docs'.length page)
  | [], _, .nil, docs, docs', h => by
    simp only [List.map_nil, initLoop, Option.some.injEq, Prod.mk.injEq, and_true] at h
    subst h
    rfl
  | o :: os, p :: ps, .cons ⟨q, e1, e2⟩ hr, docs, docs', h => by
    simp only [List.map_cons, initLoop] at h
    cases ha : addRendered s docs [p] with
    | none => rw [ha] at h; cases h
    | some x =>
      obtain ⟨docs1, res⟩ := x
      rw [ha] at h
      cases res with
      | ok =>
        simp only at h
        have hl := addRendered_length ha
        have := addRendered_fin s [p] docs
        simp only [List.map_cons, List.map_nil, ha, Option.map_some] at this
        simp only [List.map_cons, Machine.plan]
        rw [e1]
        simp only [Res.ok_bind, hs, List.map_cons, List.map_nil, e2, this, hp]
        rw [show (docs1.map finDoc).length - (docs.map finDoc).length = docs1.length - docs.length by simp, ← List.replicate_add,
          show docs.length + (docs1.length - docs.length) = docs1.length by omega]
        exact plan_outlines m doc customs s hs page hp os ps hr docs1 docs' h
      | renderError => cases h
      | addError => cases h
      | tooBig => cases h

/-- **C118.** A document of outlines becomes sheets with these outlines, laid out as exact arithmetic does; the sheets have the size of the material and are
written in inches. -/
theorem C118_sheets (m : Machine (XNum ℝ) O) (hf : 0 < m.fuel) (files : Nat) (s : Sheet ℝ) (hs : 0 ≤ s.padding) (os : List Outline) (ho : ∀ o ∈ os, o.Wide) :
    ∃ (d : Doc (XNum ℝ)) (parts : List (RenderedPart ℝ (Drawing (XNum ℝ)))) (docs : List (SvgDoc ℝ (Drawing (XNum ℝ)))),
      m.world.parse m.fuel (files + 1) (outlineDoc s os) = .val d ∧ List.Forall₂ Laid os parts ∧ PlanSet.init s (parts.map fun p => some [p]) = some (docs, .ok) ∧
      m.planSet d = .ok (docs.map finDoc, List.replicate docs.length (newPage (.fin s.width) (.fin s.height) .inch)) := by
  obtain ⟨f, hf'⟩ : ∃ f, m.fuel = f + 1 := ⟨m.fuel - 1, by omega⟩
  obtain ⟨parts, h1, h2⟩ := parts_outlines m hf (Machine.docElem (madeDoc m.world s os)) (bare_doc m.world s os) [] os ho
  have hpos : ∀ p ∈ parts, 0 < p.width ∧ 0 < p.height := by
    intro p hp
    obtain ⟨o, hm, hl⟩ := forall₂_mem_right h1 p hp
    exact hl.size (ho o hm)
  obtain ⟨docs, h3⟩ := C11_positive_parts_always_placed s hs (parts.map fun p => [p]) (by
    intro p hp
    obtain ⟨l, hl, hm⟩ := List.mem_flatten.mp hp
    obtain ⟨p', hp', rfl⟩ := List.mem_map.mp hl
    rw [List.mem_singleton] at hm
    exact hm ▸ hpos p' hp')
  rw [List.map_map] at h3
  refine ⟨madeDoc m.world s os, parts, docs, ?_, h1, h3, ?_⟩
  · rw [hf']
    exact parse_outline m.world f files s os
  · have := plan_outlines m _ [] s (sheetOf_doc m s os) _ (pageOf_doc m s os) os parts h2 _ docs h3
    unfold Machine.planSet
    simp only [List.map_cons, List.map_nil] at this
    rw [← newSvgDoc_fin] at this
    rw [show (madeDoc m.world s os).context = [] from rfl, sheetOf_doc, pageOf_doc]
    exact this

/-- **C118.** Every outline is on one of the sheets, once. -/
theorem C118_all (m : Machine (XNum ℝ) O) (hf : 0 < m.fuel) (files : Nat) (s : Sheet ℝ) (hs : 0 ≤ s.padding) (os : List Outline) (ho : ∀ o ∈ os, o.Wide) :
    ∃ (d : Doc (XNum ℝ)) (parts : List (RenderedPart ℝ (Drawing (XNum ℝ)))) (docs : List (SvgDoc ℝ (Drawing (XNum ℝ)))) (pages : List (Page (XNum ℝ))),
      m.world.parse m.fuel (files + 1) (outlineDoc s os) = .val d ∧ m.planSet d = .ok (docs.map finDoc, pages) ∧ List.Forall₂ Laid os parts ∧
      (docs.map (·.parts)).flatten.Perm parts := by
  obtain ⟨d, parts, docs, h1, h2, h3, h4⟩ := C118_sheets m hf files s hs os ho
  refine ⟨d, parts, docs, _, h1, h4, h2, ?_⟩
  obtain ⟨all, e1, e2, -⟩ := C10_no_part_lost s _ h3
  have : all = parts.map fun p => [p] := by
    have h := congrArg (List.map fun o : Option (List (RenderedPart ℝ (Drawing (XNum ℝ)))) => o.getD []) e1
    simpa [Function.comp_def] using h.symm
  rw [this] at e2
  have hfl : (parts.map fun p => [p]).flatten = parts := by
    clear * -
    induction parts with
    | nil => rfl
    | cons => simp_all
  rwa [hfl] at e2

/-- **C118.** If the outlines have names without markup, the program writes one text for every sheet, and each is XML that says what is on the sheet. -/
theorem C118_text (m : Machine (XNum ℝ) O) (hf : 0 < m.fuel) (files : Nat) (s : Sheet ℝ) (hs : 0 ≤ s.padding) (os : List Outline)
    (ho : ∀ o ∈ os, o.Wide ∧ o.id ≠ [] ∧ Unmarked o.id) :
    ∃ (parts : List (RenderedPart ℝ (Drawing (XNum ℝ)))) (docs : List (SvgDoc ℝ (Drawing (XNum ℝ)))) (texts : List SheetText),
      List.Forall₂ Laid os parts ∧ (docs.map (·.parts)).flatten.Perm parts ∧ m.sheets (files + 1) (outlineDoc s os) = .ok texts ∧
      List.Forall₂ (fun d t => t.2 = false ∧ Says t.1 [pageElement (newPage (.fin s.width) (.fin s.height) .inch) (finDoc d).renderables]) docs texts := by
  obtain ⟨d, parts, docs, h1, h2, h3, h4⟩ := C118_sheets m hf files s hs os fun o h => (ho o h).1
  obtain ⟨all, e1, e2, -⟩ := C10_no_part_lost s _ h3
  have : all = parts.map fun p => [p] := by
    have h := congrArg (List.map fun o : Option (List (RenderedPart ℝ (Drawing (XNum ℝ)))) => o.getD []) e1
    simpa [Function.comp_def] using h.symm
  have hfl : (parts.map fun p => [p]).flatten = parts := by
    clear * -
    induction parts with
    | nil => rfl
    | cons => simp_all
  rw [this, hfl] at e2
  refine ⟨parts, docs, docs.map fun x => Machine.sheetText (newPage (.fin s.width) (.fin s.height) .inch) (finDoc x), h2, e2, ?_, ?_⟩
  · unfold Machine.sheets
    simp only [h1, h4]
    congr 1
    generalize newPage (.fin s.width : XNum ℝ) (.fin s.height) .inch = page
    clear * -
    induction docs with
    | nil => rfl
    | cons x xs ih => simpa [List.replicate_succ] using ih
  · rw [List.forall₂_map_right_iff]
    refine List.forall₂_same.mpr fun x hx => ?_
    have hw : ∀ r ∈ (finDoc x).renderables, Writable r := by
      intro r hr
      obtain ⟨r', hr', rfl⟩ := List.mem_map.mp hr
      have hp : r'.part ∈ parts := e2.subset (List.mem_flatten.mpr ⟨x.parts, List.mem_map_of_mem hx, List.mem_map_of_mem hr'⟩)
      obtain ⟨o, hm, hl⟩ := forall₂_mem_right h2 _ hp
      obtain ⟨_, hi, hu⟩ := ho o hm
      refine ⟨?_, ?_, ?_⟩
      · show Unmarked r'.part.payload.id
        rw [hl.id hi]
        exact hu
      · show Unmarked r'.part.payload.label.text
        rw [hl.label]
        exact unmarked_of_all (by decide)
      · intro h
        exact absurd hl.label h
    obtain ⟨h5, h6⟩ := C99_written_special (newPage (.fin s.width) (.fin s.height) .inch)
      ((unmarked_of_all (by decide)).append (unmarked_xnum _ _)) (((unmarked_of_all (by decide)).append (unmarked_xnum _ _)).append (unmarked_of_all (by decide)))
      (finDoc x).renderables hw
    unfold Machine.sheetText
    split
    · next e => rw [e] at h5; cases h5
    · next t' r e e' => rw [e'] at h6; exact ⟨rfl, h6⟩

/-- **C118** is not empty: two outlines, one of two drawings. -/
example : ∀ o ∈ [Outline.mk "a".toList [[(1, 0), (1, 2)], [(0, 0)]], Outline.mk "b".toList [[(3, 1)]]], o.Wide ∧ o.id ≠ [] ∧ Unmarked o.id := by
  intro o ho
  simp only [List.mem_cons, List.not_mem_nil, or_false] at ho
  rcases ho with rfl | rfl
  · refine ⟨⟨⟨(0, 0), by simp, (1, 0), by simp [Outline.points], by norm_num⟩, ⟨(0, 0), by simp, (1, 2), by simp [Outline.points], by norm_num⟩⟩, by decide +kernel, unmarked_of_all (by decide)⟩
  · refine ⟨⟨⟨(0, 0), by simp, (3, 1), by simp [Outline.points], by norm_num⟩, ⟨(0, 0), by simp, (3, 1), by simp [Outline.points], by norm_num⟩⟩, by decide +kernel, unmarked_of_all (by decide)⟩

end

end Verif.Render
