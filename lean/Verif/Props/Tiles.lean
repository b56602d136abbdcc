import Verif.Spec.Tiles
import Verif.Props.SeenPart
import Mathlib.Data.List.TakeWhile
import Verif.Props.RefineParts

/-!
# Property C141: what a reader of the written files sees of a document of sketches with labels and copies
-/

set_option linter.unusedSectionVars false

namespace Verif.Render

open Verif Verif.Dyn Verif.Path Verif.PlanSet Verif.Svg Verif.Files Verif.Xml Verif.Spec

variable {O : Type}

/-! ## Parts -/

/-- The part as it is made. -/
def madeTile (o : Tile) : DMap (XNum ℝ) :=
  [("id".toList, .str o.sketch.id), ("components".toList, .list (o.sketch.drawings.map fun cs => .map (penDrawing cs))),
    ("label".toList, .map [("text".toList, .str o.label)]), ("repeat".toList, .map [("total".toList, .num (.fin o.copies))]), ("type".toList, .str "part".toList)]

/-- The part while it is rendered. -/
noncomputable def shownTile (o : Tile) (i : Nat) : DMap (XNum ℝ) :=
  [("id".toList, .str o.sketch.id), ("components".toList, .list (o.sketch.drawings.map fun cs => .map (penDrawing cs))),
    ("label".toList, .map [("text".toList, .str o.label)]), ("repeat".toList, .map [("total".toList, .num (.fin o.copies))]), ("type".toList, .str "part".toList),
    ("part_index".toList, .num (Arith.lit i 0))]

/-- The part as a component. -/
def liveTile (w : World (XNum ℝ)) (i : Text) (o : Tile) : Live (XNum ℝ) := .mk .part i ⟨[], madeTile o, []⟩ (o.sketch.drawings.map (livePen w))

theorem numbered_tile (w : World (XNum ℝ)) (i : Text) (o : Tile) (n : Nat) :
    numberedCopy (liveTile w i o) n = .mk .part i ⟨[], shownTile o n, []⟩ (o.sketch.drawings.map (livePen w)) := rfl

theorem plain_tile (w : World (XNum ℝ)) (i : Text) (o : Tile) : Plain (liveTile w i o) := by
  refine ⟨by simp, ?_⟩
  show EachOf _ (o.sketch.drawings.map (livePen w))
  generalize o.sketch.drawings = ds
  induction ds with
  | nil => trivial
  | cons cs ds ih => exact ⟨⟨by simp, trivial⟩, ih⟩

theorem find_inert (lib : Lib (XNum ℝ) O) (printed : Val (XNum ℝ) → Text) (doc : Elem (XNum ℝ)) (hd : Bare doc) (mp : DMap (XNum ℝ)) (t : Text) (ht : t ≠ "label.text".toList)
    (h0 : Dyn.get mp "label.text".toList = some (.str t)) (hp : (⟨[], mp, []⟩ : Elem (XNum ℝ)).allParams = []) (h1 : Dyn.get mp t = none)
    (h2 : Dyn.get doc.original t = none) :
    (⟨lib, printed, .component ⟨[], mp, []⟩ (.document doc []), mp, none⟩ : Source (XNum ℝ) O).string "label.text".toList = some t := by
  have l : Chain.lookup (.component ⟨[], mp, []⟩ (.document doc [])) t = none := by
    rw [Chain.lookup, define_absent (c := .component ⟨[], mp, []⟩ (.document doc [])) (by simp only [Chain.elem, hp]; exact Render.get_nil _) h1 (Render.get_nil t), Chain.lookup]
    exact define_absent (c := .document doc []) (by simp only [Chain.elem, hd.allParams]; exact Render.get_nil _) h2 (Render.get_nil t)
  have f : attrLookup (.component ⟨[], mp, []⟩ (.document doc [])) mp t (0 + 1) = none := by
    rw [attrLookup]
    simp only [show ¬ 0 + 1 > recursionMax from by decide, if_false, h1, l]
    rw [attrDefault]
    simp only [Chain.elem, Render.get_nil]
    rw [attrDefault]
    simp only [Chain.elem, hd.defaults, Render.get_nil]
  have e : (⟨lib, printed, .component ⟨[], mp, []⟩ (.document doc []), mp, none⟩ : Source (XNum ℝ) O).find "label.text".toList = some (.str t) := by
    unfold Source.find
    rw [attrLookup]
    simp only [show ¬ 0 > recursionMax from by decide, if_false, h0, ne_eq, ht, not_false_eq_true, if_true, f]
  unfold Source.string
  simp only [e, Source.textOf, l]
  split <;> rfl

theorem shownTile_absent (o : Tile) (i : Nat) (k : Text) (h : k ∉ ["id".toList, "components".toList, "label".toList, "repeat".toList, "type".toList, "part_index".toList]) :
    (shownTile o i).lookup k = none := by
  simp only [List.mem_cons, List.not_mem_nil, or_false, not_or] at h
  obtain ⟨h1, h2, h3, h4, h5, h6⟩ := h
  simp only [shownTile, List.lookup, beq_eq_false_iff_ne.mpr h1, beq_eq_false_iff_ne.mpr h2, beq_eq_false_iff_ne.mpr h3, beq_eq_false_iff_ne.mpr h4,
    beq_eq_false_iff_ne.mpr h5, beq_eq_false_iff_ne.mpr h6]

theorem madeTile_absent (o : Tile) (k : Text) (h : k ∉ ["id".toList, "components".toList, "label".toList, "repeat".toList, "type".toList, "part_index".toList]) :
    (madeTile o).lookup k = none := by
  simp only [List.mem_cons, List.not_mem_nil, or_false, not_or] at h
  obtain ⟨h1, h2, h3, h4, h5, h6⟩ := h
  simp only [madeTile, List.lookup, beq_eq_false_iff_ne.mpr h1, beq_eq_false_iff_ne.mpr h2, beq_eq_false_iff_ne.mpr h3, beq_eq_false_iff_ne.mpr h4,
    beq_eq_false_iff_ne.mpr h5]

theorem label_tile (m : Machine (XNum ℝ) O) (doc : Elem (XNum ℝ)) (hd : Bare doc) (o : Tile) (ho : Inert o.label) (i : Nat) :
    labelAt (m.attrs ⟨doc, [], false⟩ [] ⟨[], shownTile o i, []⟩ none (shownTile o i)) = ⟨o.label, Attr.bottomMiddle.text⟩ := by
  obtain ⟨h1, h2, h3⟩ := ho
  have hp : (⟨[], shownTile o i, []⟩ : Elem (XNum ℝ)).allParams = [] := by
    have : Dyn.get (shownTile o i) paramsKey = none := by
      rw [get_plain (by decide +kernel), shownTile_absent o i _ (by decide +kernel)]
    simp [Elem.allParams, getDynMap, this]
  have e1 : (m.attrs ⟨doc, [], false⟩ [] ⟨[], shownTile o i, []⟩ none (shownTile o i)).string "label.text".toList = some o.label := by
    refine find_inert m.lib m.world.printed doc hd (shownTile o i) o.label ?_ rfl hp ?_ ?_
    · intro e
      rw [e] at h1
      exact h1 (by decide +kernel)
    · rw [get_plain h1, shownTile_absent o i _ h2]
    · rw [get_plain h1, hd.absent _ h3]
  have e2 : (m.attrs ⟨doc, [], false⟩ [] ⟨[], shownTile o i, []⟩ none (shownTile o i)).find "label.position".toList = none := by
    have hg : Dyn.get (shownTile o i) "label.position".toList = none := rfl
    refine find_absent _ _ _ _ _ _ _ _ hg (by rw [hp]; exact Render.get_nil _) hg (Render.get_nil _) (by rw [hd.allParams]; exact Render.get_nil _) ?_
      (by rw [hd.defaults]; exact Render.get_nil _) (Render.get_nil _)
    exact hd.get (k := "label".toList) (ks := ["position".toList]) (by decide +kernel) (by decide +kernel) (by decide +kernel)
  have e3 : (m.attrs ⟨doc, [], false⟩ [] ⟨[], shownTile o i, []⟩ none (shownTile o i)).handle "label.position".toList = none := by
    simp only [Source.handle, Source.string, e2]
    rfl
  simp only [labelAt, e1, e3, Option.getD_some, Option.getD_none]

theorem labelled_eq (o : Tile) (i : Nat) (hc : i < o.copies) :
    (if 1 < o.copies ∧ o.label ≠ [] then numbered o.label i else o.label) = o.labelled i := by
  obtain ⟨sk, t, k⟩ := o
  simp only at hc
  cases t with
  | nil => simp [Tile.labelled]
  | cons c t =>
    match k, hc with
    | 1, _ => simp [Tile.labelled]
    | k + 2, _ => simp [Tile.labelled, numbered]

theorem mapM_ok {α β : Type} {f : α → Res β} {P : α → β → Prop} : ∀ l : List α, (∀ a ∈ l, ∃ b, f a = .ok b ∧ P a b) → ∃ bs, l.mapM f = .ok bs ∧ List.Forall₂ P l bs
  | [], _ => ⟨[], rfl, .nil⟩
  | a :: l, h => by
    obtain ⟨b, h1, h2⟩ := h a (by simp)
    obtain ⟨bs, h3, h4⟩ := mapM_ok l fun a ha => h a (by simp [ha])
    exact ⟨b :: bs, by rw [List.mapM_cons, h1, Res.ok_bind, h3, Res.ok_bind]; rfl, .cons h2 h4⟩

/-- The part is the copy. -/
structure LaidCopy (c : Tile × Nat) (p : RenderedPart (XNum ℝ) (Drawing (XNum ℝ))) : Prop where
  id : c.1.sketch.id ≠ [] → p.payload.id = c.1.sketch.id
  label : p.payload.label = ⟨c.1.labelled c.2, Attr.bottomMiddle.text⟩
  path : ∃ (r : Path ℝ) (dx dy w h : ℝ), p.payload.path = finPath r ∧ strokes r = c.1.sketch.strokes.map (Stroke.map (translate dx dy)) ∧
    p.width = .fin w ∧ p.height = .fin h ∧ BoxOf (Drawn r) (0, 0) (w, h)

theorem renderPart_tile (m : Machine (XNum ℝ) O) (hf : 0 < m.fuel) (hi : ∀ k : Nat, m.toInt (.fin k) = k) (doc : Elem (XNum ℝ)) (hd : Bare doc)
    (customs : List (Text × DMap (XNum ℝ))) (i : Text) (o : Tile) (hid : o.sketch.id ≠ [] → i = o.sketch.id) (ho : o.sketch.strokes ≠ []) (hb : o.sketch.Bounded) (hl : Inert o.label) :
    ∃ parts, m.renderPart doc customs (liveTile m.world i o) [] = .ok (parts, []) ∧
      List.Forall₂ (fun n x => LaidCopy (o, n) (Machine.toLayout i x)) (List.range o.copies) parts := by
  obtain ⟨f, hf'⟩ : ∃ f, m.fuel = f + 1 := ⟨m.fuel - 1, by omega⟩
  have ht : (o.copies : Int) = m.int (m.attrs ⟨doc, [], false⟩ [] (liveTile m.world i o).elem none (liveTile m.world i o).elem.original) "repeat.total".toList 1 := by
    unfold Machine.int
    rw [C91_number _ _ _ (.fin o.copies) rfl]
    exact (hi _).symm
  obtain ⟨c', hc', h⟩ := C120_part m doc customs (liveTile m.world i o) (plain_tile m.world i o) [] _ ht
  rw [Int.toNat_natCast] at h
  have hts : slice c'.elem.original "part_transformers".toList = [] := by
    rcases hc' with rfl | ⟨n, rfl⟩
    · show slice (madeTile o) _ = []
      rw [slice_plain (by decide +kernel), madeTile_absent o _ (by decide +kernel)]
    · show slice (shownTile o n) _ = []
      rw [slice_plain (by decide +kernel), shownTile_absent o n _ (by decide +kernel)]
  obtain ⟨parts, h1, h2⟩ := mapM_ok (f := fun n => renderCopy (fun n => pathOf (m.render (m.fuel + 1) ⟨doc, [], false⟩ (numberedCopy (liveTile m.world i o) n) [] origin))
        (labelAt (m.attrs ⟨doc, [], false⟩ [] (numberedCopy (liveTile m.world i o) n).elem none (numberedCopy (liveTile m.world i o) n).elem.original)) o.copies n)
      (P := fun n x => LaidCopy (o, n) (Machine.toLayout i x)) (List.range o.copies) (by
    intro n hn
    have hpt : pt (origin : Point ℝ) = (0, 0) := by simp [pt, origin, newPoint]
    have hsk : sketchFrom (pt (origin : Point ℝ)) o.sketch.drawings = o.sketch.strokes := by rw [hpt]; rfl
    obtain ⟨r, dx, dy, br, h1, h2, h3⟩ := C139_part m hf f doc ⟨[], shownTile o n, []⟩ (by
      rw [slice_plain (by decide +kernel), shownTile_absent o n _ (by decide +kernel)]) i o.sketch.drawings origin (by rw [hsk]; exact ho) (by rw [hsk]; exact hb) []
    rw [hsk] at h2
    have hne : strokes r ≠ [] := by
      rw [h2]
      simpa using ho
    obtain ⟨dx', dy', h4, br', h5⟩ := C29_trim r hne (small_moved hb h2 h3)
    have h6 := shift_shift h2 dx' dy'
    have hne' : strokes (shift dx' dy' r) ≠ [] := by
      rw [C27_shift]
      simpa using hne
    have h7 := measure_fin hne' (small_moved hb h6 h5) h5
    simp only [numbered_tile, Live.elem, renderCopy, label_tile m doc hd o hl]
    rw [hf', ← origin_fin] at *
    rw [h1]
    simp only [pathOf, Res.ok_bind, h4, h7, sub_zero]
    refine ⟨_, rfl, ⟨fun h => hid h, ?_, shift dx' dy' r, dx + dx', dy + dy', br'.1, br'.2, rfl, h6, rfl, rfl, h5⟩⟩
    simp only [Machine.toLayout, labelled_eq o n (List.mem_range.mp hn)])
  refine ⟨parts, ?_, h2⟩
  rw [h, h1, Res.ok_bind, hts]
  rfl

/-! ## Documents -/

theorem neat_tile (o : Tile) : Neat (.map (tileMap o)) := by
  refine .map (by simp [tileMap]) ?_ ?_ <;> intro e he <;> simp only [tileMap, List.mem_cons, List.not_mem_nil, or_false] at he
  · rcases he with rfl | rfl | rfl | rfl <;> simp only <;> decide +kernel
  · rcases he with rfl | rfl | rfl | rfl
    · exact .str _
    · refine .list fun v hv => ?_
      obtain ⟨q, _, rfl⟩ := List.mem_map.mp hv
      exact neat_penDrawing q
    · refine .map (by simp) ?_ ?_ <;> intro e he <;> rw [List.mem_singleton] at he <;> subst he
      · simp only; decide +kernel
      · exact .str _
    · refine .map (by simp) ?_ ?_ <;> intro e he <;> rw [List.mem_singleton] at he <;> subst he
      · simp only; decide +kernel
      · exact .num _

theorem neat_tileDoc (s : Sheet ℝ) (os : List Tile) : Neat (.map (tileDoc s os)) := by
  refine .map (by simp [tileDoc]) ?_ ?_ <;> intro e he <;> simp only [tileDoc, List.mem_cons, List.not_mem_nil, or_false] at he
  · rcases he with rfl | rfl | rfl | rfl <;> simp only <;> decide +kernel
  · rcases he with rfl | rfl | rfl | rfl
    · exact .num _
    · exact .num _
    · exact .num _
    · refine .list fun v hv => ?_
      obtain ⟨q, _, rfl⟩ := List.mem_map.mp hv
      exact neat_tile q

/-- The node that is made. -/
def tileNode (w : World (XNum ℝ)) (o : Tile) : Dyn.Node (XNum ℝ) := .mk (w.idOf (madeTile o)) (madeTile o) (o.sketch.drawings.map (penNode w))

theorem create_tile (w : World (XNum ℝ)) (xs : List (Text × DMap (XNum ℝ))) (n : Nat) (o : Tile) :
    w.create (w.make xs (n + 1)) .part (tileMap o) = .val (tileNode w o) := by
  have h1 : putIfAbsent (tileMap o) typeKey (.str partText) = madeTile o := rfl
  have h2 : slice (madeTile o) componentsKey = o.sketch.drawings.map penDrawing := by
    rw [slice_plain (by decide +kernel)]
    rw [show (madeTile o).lookup componentsKey = some (.list (o.sketch.drawings.map fun cs => .map (penDrawing cs))) from rfl]
    have : (o.sketch.drawings.map fun cs => (.map (penDrawing cs) : Val (XNum ℝ))) = (o.sketch.drawings.map penDrawing).map .map := by simp
    simp only [this, mapItems_maps, Option.getD_some]
  have h3 : withComponents (madeTile o) (o.sketch.drawings.map (penNode w)) = madeTile o := by
    have : (o.sketch.drawings.map (penNode w)).map (fun c => (.map c.map : Val (XNum ℝ))) = o.sketch.drawings.map fun cs => .map (penDrawing cs) := by
      simp [penNode, Dyn.Node.map, Function.comp_def]
    unfold withComponents
    rw [this]
    rfl
  simp only [World.create, clone_neat (neat_tile o), h1, h2]
  rw [makeList_map (make_pen w xs n)]
  simp only [h3]
  rfl

/-- The document that is made. -/
def tilesDoc (w : World (XNum ℝ)) (s : Sheet ℝ) (os : List Tile) : Doc (XNum ℝ) :=
  ⟨w.idOf (tileDoc s os), withParts (tileDoc s os) (os.map (tileNode w)), [], [], [], os.map (tileNode w)⟩

theorem tile_filename (w : World (XNum ℝ)) (s : Sheet ℝ) (os : List Tile) : w.text (tileDoc s os) filenameKey = none := by
  have : Dyn.get (tileDoc s os) filenameKey = none := rfl
  simp only [World.text, this]

theorem parse_tile (w : World (XNum ℝ)) (n files : Nat) (s : Sheet ℝ) (os : List Tile) :
    w.parse (n + 1) (files + 1) (tileDoc s os) = .val (tilesDoc w s os) := by
  have h2 : slice (tileDoc s os) importsKey = [] := rfl
  have h3 : slice (tileDoc s os) partsKey = os.map tileMap := by
    rw [slice_plain (by decide +kernel)]
    rw [show (tileDoc s os).lookup partsKey = some (.list (os.map fun o => .map (tileMap o))) from rfl]
    have : (os.map fun cs => (.map (tileMap cs) : Val (XNum ℝ))) = (os.map tileMap).map .map := by simp
    simp only [this, mapItems_maps, Option.getD_some]
  rw [World.parse]
  simp only [tile_filename w s os, h2, World.runImports, h3]
  rw [makeList_map (create_tile w [] n)]
  rfl

theorem tile_lookup (w : World (XNum ℝ)) (s : Sheet ℝ) (os : List Tile) (k : Text) (hk : k ≠ "parts".toList) :
    (tilesDoc w s os).map.lookup k = (tileDoc s os).lookup k :=
  (C113_map w 1 0 (tileDoc s os) (neat_tileDoc s os) (tilesDoc w s os) (tile_filename w s os) (parse_tile w 0 0 s os)).2 k hk

theorem tile_absent (s : Sheet ℝ) (os : List Tile) (k : Text)
    (h : k ∉ ["material_width".toList, "material_height".toList, "doc_padding".toList, "parts".toList]) : (tileDoc s os).lookup k = none := by
  simp only [List.mem_cons, List.not_mem_nil, or_false, not_or] at h
  obtain ⟨h1, h2, h3, h4⟩ := h
  simp only [tileDoc, List.lookup, beq_eq_false_iff_ne.mpr h1, beq_eq_false_iff_ne.mpr h2, beq_eq_false_iff_ne.mpr h3, beq_eq_false_iff_ne.mpr h4]

theorem bare_tile (w : World (XNum ℝ)) (s : Sheet ℝ) (os : List Tile) : Bare (Machine.docElem (tilesDoc w s os)) where
  params := rfl
  defaults := by
    show sub (tilesDoc w s os).map defaultsKey = []
    rw [sub_plain (by decide +kernel), tile_lookup w s os _ (by decide +kernel), tile_absent s os _ (by decide +kernel)]
    rfl
  absent := fun k hk => by
    rw [show (Machine.docElem (tilesDoc w s os)).original = (tilesDoc w s os).map from rfl, tile_lookup w s os k (by rintro rfl; exact hk (by simp)),
      tile_absent s os k hk]

theorem livePart_tile (w : World (XNum ℝ)) (o : Tile) : livePart w (tileNode w o) = liveTile w (w.idOf (madeTile o)) o := by
  have : ∀ ds : List (List PenCmd), lives w (ds.map (penNode w)) = ds.map (livePen w) := by
    intro ds
    induction ds with
    | nil => rfl
    | cons d ds ih => rw [List.map_cons, List.map_cons, lives, ih, live_pen]
  unfold livePart tileNode
  simp only [Dyn.Node.children, this]
  rfl

theorem idOf_tile (w : World (XNum ℝ)) (o : Tile) (h : o.sketch.id ≠ []) : w.idOf (madeTile o) = o.sketch.id := by
  have : Dyn.get (madeTile o) idKey = some (.str o.sketch.id) := rfl
  simp only [World.idOf, World.text, this, if_neg h, Option.getD_some]

theorem sheetOf_tile (m : Machine (XNum ℝ) O) (s : Sheet ℝ) (os : List Tile) (g : DMap (XNum ℝ)) : m.sheetOf (Machine.docElem (tilesDoc m.world s os)) g = finSheet s := by
  have key : ∀ k : Text, k ≠ "parts".toList → '.' ∉ k → Dyn.get (tilesDoc m.world s os).map k = (tileDoc s os).lookup k := by
    intro k h1 h2
    rw [get_plain h2, tile_lookup _ _ _ _ h1]
  refine C140_fixed m _ s ?_ ?_ ?_ g
  · rw [key _ (by decide +kernel) (by decide +kernel)]; rfl
  · rw [key _ (by decide +kernel) (by decide +kernel)]; rfl
  · rw [key _ (by decide +kernel) (by decide +kernel)]; rfl

theorem pageOf_tile (m : Machine (XNum ℝ) O) (s : Sheet ℝ) (os : List Tile) :
    m.pageOf (Machine.docElem (tilesDoc m.world s os)) [] = newPage (.fin s.width) (.fin s.height) .inch := by
  have hb := bare_tile m.world s os
  have hg : Dyn.get (Machine.docElem (tilesDoc m.world s os)).original unitsKey = none :=
    hb.get (k := unitsKey) (ks := []) (by decide +kernel) (by decide +kernel) (by decide +kernel)
  have h : (m.docAttrs (Machine.docElem (tilesDoc m.world s os)) []).find unitsKey = none := by
    have l : Chain.lookup (.document (Machine.docElem (tilesDoc m.world s os)) []) unitsKey = none := by
      rw [Chain.lookup]
      exact define_absent (c := .document _ []) (by rw [show Chain.elem (.document (Machine.docElem (tilesDoc m.world s os)) []) = Machine.docElem (tilesDoc m.world s os) from rfl, hb.allParams]; exact Render.get_nil _) hg (Render.get_nil _)
    unfold Source.find Machine.docAttrs
    rw [attrLookup]
    simp only [show ¬ 0 > recursionMax from by decide, if_false, hg, l]
    rw [attrDefault]
    simp only [Chain.elem, hb.defaults, Render.get_nil]
  unfold Machine.pageOf
  rw [sheetOf_tile]
  simp only [Source.string, h]
  rfl

theorem tame_tile (m : Machine (XNum ℝ) O) (o : Tile) :
    PartOf (TamePart m.world m.toInt m.fuel roughNames [latheName] []) (Tame m.world m.toInt roughNames) (livePart m.world (tileNode m.world o)) := by
  rw [livePart_tile]
  have h1 : slice (madeTile o) transformsKey = [] := by
    rw [slice_plain (by decide +kernel), madeTile_absent o _ (by decide +kernel)]
  have h2 : slice (madeTile o) partTransformersKey = [] := by
    rw [slice_plain (by decide +kernel), madeTile_absent o _ (by decide +kernel)]
  refine ⟨rfl, ⟨?_, ?_, ?_⟩, ?_⟩
  · simp [transformNames, liveTile, Live.elem, h1]
  · simp [liveTile, Live.elem, h2]
  · simp [Equipped, liveTile, Live.elem, h2]
  · show EachOf _ (o.sketch.drawings.map (livePen m.world))
    generalize o.sketch.drawings = ds
    induction ds with
    | nil => trivial
    | cons cs ds ih =>
      refine ⟨⟨⟨?_, ?_⟩, trivial⟩, ih⟩
      · have : slice (penDrawing cs) transformsKey = [] := rfl
        simp [transformNames, this]
      · intro h; cases h

/-! ## Texts -/

theorem unmarked_number (n : Nat) : Unmarked (toString n).toList := by
  intro c hc
  have hd : c.isDigit = true := by
    have : (toString n).toList = Nat.toDigits 10 n := by simp [toString, Nat.repr]
    rw [this] at hc
    exact Nat.isDigit_of_mem_toDigits (by decide) (by decide) hc
  simp only [Char.isDigit, ge_iff_le, Bool.and_eq_true, decide_eq_true_eq] at hd
  obtain ⟨h1, h2⟩ := hd
  have h1 : 48 ≤ c.toNat := h1
  have h2 : c.toNat ≤ 57 := h2
  have ne : ∀ d : Char, (d.toNat < 48 ∨ 57 < d.toNat) → c ≠ d := by
    rintro d hd rfl
    omega
  refine ⟨?_, ne _ (by decide), ne _ (by decide), ne _ (by decide), ne _ (by decide)⟩
  simp only [isXmlChar, Bool.or_eq_true, Bool.and_eq_true, decide_eq_true_eq]
  exact Or.inr ⟨⟨by omega, by omega⟩, by omega⟩

theorem trimSpace_ne {t : Text} {c : Char} (hc : c ∈ t) (h : isSpace c = false) : trimSpace t ≠ [] := by
  intro e
  have h1 : (t.dropWhile isSpace).reverse.dropWhile isSpace = [] := by
    unfold trimSpace at e
    simpa using e
  rw [List.dropWhile_eq_nil_iff] at h1
  have hm : c ∈ t.dropWhile isSpace := by
    clear e h1
    induction t with
    | nil => cases hc
    | cons x t ih =>
      rw [List.dropWhile_cons]
      split
      · rcases List.mem_cons.mp hc with rfl | hc
        · simp_all
        · exact ih hc
      · exact hc
  have := h1 c (List.mem_reverse.mpr hm)
  rw [h] at this
  cases this

theorem printable_copy {c : Tile × Nat} {p : RenderedPart (XNum ℝ) (Drawing (XNum ℝ))} (h : LaidCopy c p) (hi : c.1.sketch.id ≠ [] ∧ Unmarked c.1.sketch.id)
    (hl : Unmarked c.1.label ∧ (c.1.label ≠ [] → trimSpace c.1.label ≠ [])) : Printable p := by
  refine ⟨by rw [h.id hi.1]; exact hi.2, ?_, ?_⟩
  · rw [h.label]
    obtain ⟨⟨sk, t, k⟩, i⟩ := c
    simp only at hl
    show Unmarked (Tile.labelled _ _)
    unfold Tile.labelled
    simp only
    split
    · exact unmarked_of_all (by decide)
    · exact hl.1
    · exact hl.1.append (Unmarked.cons (c := ':') (unmarked_of_all (by decide)) (unmarked_number i))
  · intro hn
    refine ⟨?_, ?_⟩
    · rw [h.label] at hn ⊢
      obtain ⟨⟨sk, t, k⟩, i⟩ := c
      simp only at hl
      change Tile.labelled _ _ ≠ [] at hn
      show trimSpace (Tile.labelled _ _) ≠ []
      unfold Tile.labelled at hn ⊢
      simp only at hn ⊢
      split at hn
      · exact absurd rfl hn
      · exact hl.2 hn
      · exact trimSpace_ne (c := ':') (by simp) (by decide)
    · rw [h.label, pointAttribute_text]
      exact ⟨_, rfl⟩

/-! ## Files -/

theorem forall₂_range {α : Type} {P : Nat → α → Prop} {k : Nat} {l : List α} (h : List.Forall₂ P (List.range k) l) : l.length = k ∧ ∀ x ∈ l, ∃ n < k, P n x := by
  refine ⟨by simpa using h.length_eq.symm, fun x hx => ?_⟩
  obtain ⟨n, hn, hp⟩ := forall₂_mem_right h x hx
  exact ⟨n, List.mem_range.mp hn, hp⟩

theorem fine_copy {c : Tile × Nat} (hw : c.1.sketch.Wide) {p : RenderedPart (XNum ℝ) (Drawing (XNum ℝ))} (h : LaidCopy c p) : Fine p := by
  obtain ⟨r, dx, dy, w, k, h1, h2, h3, h4, h5⟩ := h.path
  have key : ∀ q, c.1.sketch.Has q → Drawn r (translate dx dy q) := fun q hq => (covered_moved h2 q).1 hq
  obtain ⟨⟨p1, q1, hp1, hq1, hlt1⟩, ⟨p2, q2, hp2, hq2, hlt2⟩⟩ := hw
  have a1 := h5.inside _ (key p1 hp1)
  have a2 := h5.inside _ (key q1 hq1)
  have a3 := h5.inside _ (key p2 hp2)
  have a4 := h5.inside _ (key q2 hq2)
  simp only [translate] at a1 a2 a3 a4
  exact ⟨r, w, k, h1, h3, h4, by linarith, by linarith, fun q hq => h5.inside q hq⟩

theorem sized_copy {c : Tile × Nat} {p : RenderedPart (XNum ℝ) (Drawing (XNum ℝ))} (h : LaidCopy c p) {w k : ℝ} (hw : p.width = .fin w) (hk : p.height = .fin k) :
    c.1.sketch.Sized w k := by
  obtain ⟨r, dx, dy, w', k', h1, h2, h3, h4, h5⟩ := h.path
  rw [h3] at hw
  rw [h4] at hk
  cases hw
  cases hk
  exact sized_sketch (o := c.1.sketch) (p := ⟨w, k, ⟨c.1.sketch.id, finPath r, ⟨[], []⟩⟩⟩) ⟨fun _ => rfl, rfl, r, dx, dy, rfl, h2, h5⟩

theorem shows_copy {c : Tile × Nat} (hi : c.1.sketch.id ≠ []) {e : ℝ} {p : RenderedPart (XNum ℝ) (Drawing (XNum ℝ))} (h : LaidCopy c p) {g : SeenPart} (hs : ShowsPart e p g) :
    ShowsCopy e c g := by
  obtain ⟨a1, a2, r, f, a3, a4, a5⟩ := hs
  obtain ⟨r', dx, dy, w', k', h1, h2, -⟩ := h.path
  have hr : r = r' := by
    have := congrArg (List.map realSeg) (a3.symm.trans h1)
    rwa [realPath_fin, realPath_fin] at this
  subst hr
  refine ⟨⟨a1.trans (h.id hi), fun q => f (translate dx dy q), ?_, ?_⟩, by rw [a2, h.label]⟩
  · obtain ⟨a, b, rfl | rfl⟩ := a4
    · exact ⟨dx + a, dy + b, Or.inl (by funext q; simp [translate, add_assoc])⟩
    · refine ⟨a - dy, dx + b, Or.inr ?_⟩
      funext q
      simp only [translate, Prod.mk.injEq]
      constructor <;> ring
  · rw [h2, List.forall₂_map_left_iff] at a5
    refine a5.imp fun s t hst => ?_
    cases s with
    | line a b => cases hst with | line x y => exact .line x y
    | curve a c d b => cases hst with | curve x y z w => exact .curve x y z w

theorem rendered_tiles (m : Machine (XNum ℝ) O) (hf : 0 < m.fuel) (hi : ∀ k : Nat, m.toInt (.fin k) = k) (doc : Elem (XNum ℝ)) (hd : Bare doc)
    (customs : List (Text × DMap (XNum ℝ))) : ∀ os : List Tile, (∀ o ∈ os, o.sketch.strokes ≠ [] ∧ o.sketch.Bounded ∧ Inert o.label) →
    ∃ all, RenderedTo m doc customs ((os.map (tileNode m.world)).map (livePart m.world)) [] all ∧
      List.Forall₂ (fun o l => List.Forall₂ (fun n p => LaidCopy (o, n) p) (List.range o.copies) l) os
        (laidGroups ((os.map (tileNode m.world)).map (livePart m.world)) all)
  | [], _ => ⟨[], rfl, .nil⟩
  | o :: os, h => by
    obtain ⟨all, h1, h2⟩ := rendered_tiles m hf hi doc hd customs os fun o ho => h o (by simp [ho])
    obtain ⟨a, b, c⟩ := h o (by simp)
    obtain ⟨parts, h3, h4⟩ := renderPart_tile m hf hi doc hd customs (m.world.idOf (madeTile o)) o (idOf_tile m.world o) a b c
    refine ⟨parts :: all, ⟨parts, [], all, ?_, h1, rfl⟩, .cons ?_ h2⟩
    · rw [livePart_tile]
      exact h3
    · rw [livePart_tile]
      rw [List.forall₂_map_right_iff]
      exact h4

theorem laid_copies : ∀ {os : List Tile} {ls : List (List (RenderedPart (XNum ℝ) (Drawing (XNum ℝ))))},
    List.Forall₂ (fun o l => List.Forall₂ (fun n p => LaidCopy (o, n) p) (List.range o.copies) l) os ls → List.Forall₂ LaidCopy (allCopies os) ls.flatten
  | _, _, .nil => .nil
  | o :: os, l :: ls, .cons h hr => by
    have ih := laid_copies hr
    unfold allCopies at ih ⊢
    rw [List.flatMap_cons, List.flatten_cons]
    refine List.rel_append ?_ ih
    rw [List.forall₂_map_left_iff]
    exact h

/-- **C141.** Whoever reads the files that the program writes for a document of tiles sees every sketch as often as it has copies, under its name: all its lines and
curves in their order, shifted or turned by a quarter and shifted, with every end and control point within a thousandth of its place, and with its label, numbered if
there are several copies. If no tile but squares ever meets a free bin of exactly its padded size, then on every sheet with more than one drawing they keep the padding
to the sides and twice the padding to each other, up to one and two thousandths. -/
theorem C141_seen (m : Machine (XNum ℝ) O) (hf : 0 < m.fuel) (hi : ∀ k : Nat, m.toInt (.fin k) = k) (files : Nat) (s : Sheet ℝ) (hs : 0 ≤ s.padding) (os : List Tile)
    (ho : ∀ o ∈ os, o.sketch.Wide ∧ o.sketch.Bounded ∧ o.sketch.id ≠ [] ∧ Unmarked o.sketch.id)
    (hl : ∀ o ∈ os, Inert o.label ∧ Unmarked o.label ∧ (o.label ≠ [] → trimSpace o.label ≠ [])) :
    ∃ (texts : List SheetText) (seen : List (List SeenPart)) (cs : List (Tile × Nat)), m.sheets (files + 1) (tileDoc s os) = .ok texts ∧
      List.Forall₂ (fun t gs => t.2 = false ∧ SeesPlan s .inch t.1 gs) texts seen ∧ cs.Perm (allCopies os) ∧
      List.Forall₂ (ShowsCopy (1 / 1000)) cs seen.flatten ∧
      (TilesNeverFill s os → ∀ gs ∈ seen, (∃ g, gs = [g]) ∨
        ((∀ g ∈ gs, g.drawing.Inside (s.padding - 1 / 1000) s) ∧ gs.Pairwise fun g g' => Seen.Apart (2 * s.padding - 1 / 500) g.drawing g'.drawing)) := by
  obtain ⟨f, hf'⟩ : ∃ f, m.fuel = f + 1 := ⟨m.fuel - 1, by omega⟩
  obtain ⟨all, h1, h2⟩ := rendered_tiles m hf hi (Machine.docElem (tilesDoc m.world s os)) (bare_tile m.world s os) [] os
    fun o h => ⟨(ho o h).1.strokes_ne, (ho o h).2.1, (hl o h).1⟩
  have h3 := laid_copies h2
  rw [← laidOut_flatten] at h3
  have hmem : ∀ c ∈ allCopies os, c.1 ∈ os := by
    intro c hc
    obtain ⟨o, hm, hc⟩ := List.mem_flatMap.mp hc
    obtain ⟨n, _, rfl⟩ := List.mem_map.mp hc
    exact hm
  have hparts : ∀ p ∈ laidOut ((os.map (tileNode m.world)).map (livePart m.world)) all, Fine p ∧ Printable p := by
    intro p hp
    obtain ⟨c, hc, hlc⟩ := forall₂_mem_right h3 p hp
    have := hmem c hc
    exact ⟨fine_copy (ho _ this).1 hlc, printable_copy hlc (ho _ this).2.2 (hl _ this).2⟩
  have hkeep : ∀ n ∈ (tilesDoc m.world s os).parts, ∀ g, g = [] → ∀ parts g',
      m.renderPart (Machine.docElem (tilesDoc m.world s os)) (tilesDoc m.world s os).customs (livePart m.world n) g = .ok (parts, g') → g' = [] := by
    rintro n hn g rfl parts g' e
    obtain ⟨o, hm, rfl⟩ := List.mem_map.mp hn
    obtain ⟨parts', h4, -⟩ := renderPart_tile m hf hi (Machine.docElem (tilesDoc m.world s os)) (bare_tile m.world s os) [] (m.world.idOf (madeTile o)) o
      (idOf_tile m.world o) (ho o hm).1.strokes_ne (ho o hm).2.1 (hl o hm).1
    rw [livePart_tile] at e
    have := e.symm.trans h4
    simp only [Res.ok.injEq, Prod.mk.injEq] at this
    exact this.2
  obtain ⟨texts, seen, ps, a1, a2, a3, a4, a5⟩ := C140_seen m (files + 1) (tileDoc s os) (tilesDoc m.world s os) (by rw [hf']; exact parse_tile m.world f files s os) s hs .inch
    (fun g => g = []) rfl hkeep (fun g _ => sheetOf_tile m s os g) (by rintro g rfl; exact pageOf_tile m s os)
    (by
      intro n hn
      obtain ⟨o, -, rfl⟩ := List.mem_map.mp hn
      exact tame_tile m o) all h1 hparts
  obtain ⟨cs, b1, b2⟩ := List.perm_comp_forall₂ a3 h3.flip
  refine ⟨texts, seen, cs, a1, a2, b2, ?_, fun hnf => a5 ?_⟩
  · have hid : ∀ c ∈ cs, c.1.sketch.id ≠ [] := fun c hc => (ho _ (hmem c (b2.subset hc))).2.2.1
    clear * - b1 a4 hid
    generalize seen.flatten = gs at *
    induction b1 generalizing gs with
    | nil =>
      cases a4
      exact .nil
    | cons h _ ih =>
      cases a4 with
      | cons h' hr => exact .cons (shows_copy (hid _ (by simp)) h h') (ih (fun c hc => hid c (by simp [hc])) _ hr)
  · intro parts docs hp
    refine hnf parts docs ?_
    have hp : List.Forall₂ _ (laidGroups ((os.map (tileNode m.world)).map (livePart m.world)) all) parts := hp
    generalize laidGroups ((os.map (tileNode m.world)).map (livePart m.world)) all = ls at *
    clear * - h2 hp
    induction h2 generalizing parts with
    | nil =>
      cases hp
      exact .nil
    | cons h _ ih =>
      cases hp with
      | cons h' hr =>
        refine .cons ⟨?_, ?_⟩ (ih _ hr)
        · rw [← h'.length_eq, ← h.length_eq, List.length_range]
        · intro p hp
          obtain ⟨q, hq, e1, e2⟩ := forall₂_mem_right h' p hp
          obtain ⟨n, -, hn⟩ := forall₂_mem_right h q hq
          exact sized_copy hn e1 e2

/-- **C140**, **C141** are not empty: three wheels with labels, numbered. -/
example (m : Machine (XNum ℝ) O) (files : Nat) :
    let o : Tile := ⟨wheel "w".toList, "Front wheel".toList, 3⟩
    ∃ (texts : List SheetText) (seen : List (List SeenPart)) (cs : List (Tile × Nat)),
      Machine.sheets { m with fuel := 1, toInt := fun x => ⌊realOf x⌋ } (files + 1) (tileDoc ⟨10, 10, 1 / 4⟩ [o]) = .ok texts ∧
      List.Forall₂ (fun t gs => t.2 = false ∧ SeesPlan ⟨10, 10, 1 / 4⟩ .inch t.1 gs) texts seen ∧ cs.Perm [(o, 0), (o, 1), (o, 2)] ∧
      List.Forall₂ (ShowsCopy (1 / 1000)) cs seen.flatten ∧ o.labelled 2 = "Front wheel:2".toList := by
  intro o
  obtain ⟨texts, seen, cs, h1, h2, h3, h4, -⟩ := C141_seen { m with fuel := 1, toInt := fun x => ⌊realOf x⌋ } Nat.one_pos (fun k => by simp [realOf]) files
    ⟨10, 10, 1 / 4⟩ (by norm_num) [o] (by
      intro o' ho
      rw [List.mem_singleton] at ho
      subst ho
      exact wheel_fine _ ⟨by decide, unmarked_of_all (by decide)⟩) (by
      intro o' ho
      rw [List.mem_singleton] at ho
      subst ho
      exact ⟨⟨by decide, by decide, by decide⟩, unmarked_of_all (by decide), fun _ => by decide⟩)
  exact ⟨texts, seen, cs, h1, h2, h3, h4, by decide⟩

end Verif.Render
