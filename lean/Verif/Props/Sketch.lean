import Verif.Lemmas.Sketch

/-!
# Property C139: what a reader of the written files sees of a document of sketches
-/

set_option linter.unusedSectionVars false

namespace Verif.Render

open Verif Verif.Dyn Verif.Path Verif.PlanSet Verif.Svg Verif.Files Verif.Xml Verif.Spec

universe u

/-- The part is the sketch: its name, no label, its strokes, moved so that they begin at the origin, and their size. -/
structure LaidSketch (o : Sketch) (p : RenderedPart ℝ (Drawing (XNum ℝ))) : Prop where
  id : o.id ≠ [] → p.payload.id = o.id
  label : p.payload.label.text = []
  path : ∃ (r : Path ℝ) (dx dy : ℝ), p.payload.path = finPath r ∧ strokes r = o.strokes.map (Stroke.map (translate dx dy)) ∧
    BoxOf (Drawn r) (0, 0) (p.width, p.height)

section

variable {O : Type}

/-! ## Drawings -/

/-- The component that draws with the pen. -/
def livePen (w : World (XNum ℝ)) (cs : List PenCmd) : Live (XNum ℝ) := .mk .draw (w.idOf (penDrawing cs)) ⟨[], penDrawing cs, []⟩ []

/-- What it draws from the cursor. -/
noncomputable def penPath (a : Point ℝ) (cs : List PenCmd) : Path ℝ := penRun [.move origin a] cs

theorem penPath_ne_nil (a : Point ℝ) (cs : List PenCmd) : penPath a cs ≠ [] := penRun_ne_nil cs _ (by simp)

theorem render_pen (m : Machine (XNum ℝ) O) (hf : 0 < m.fuel) (n : Nat) (s : Spot (XNum ℝ)) (g : DMap (XNum ℝ)) (a : Point ℝ) (cs : List PenCmd) :
    m.render (n + 1) s (livePen m.world cs) g (finPt a) = .ok (finPath (penPath a cs), livePen m.world cs, g) := by
  have h1 : slice (penDrawing cs) commandsKey = cs.map penMap := by
    rw [slice_plain (by decide +kernel)]
    rw [show (penDrawing cs).lookup commandsKey = some (.list (cs.map fun c => .map (penMap c))) from rfl]
    have : (cs.map fun c => (.map (penMap c) : Val (XNum ℝ))) = (cs.map penMap).map .map := by simp
    simp only [this, mapItems_maps, Option.getD_some]
  have h2 : slice (penDrawing cs) transformsKey = [] := rfl
  have h3 : moveTo [] (finPt a) = finPath [.move origin a] := by
    unfold moveTo
    rw [show currentPosition ([] : Path (XNum ℝ)) = origin from rfl, origin_fin]
    rfl
  simp only [Machine.render, livePen, Live.kind, Machine.renderDraw, Live.elem, h1, drawRender, h3]
  rw [execAll_pen m hf s g _ _ cs [.move origin a], Res.ok_bind]
  simp only [Machine.finishAt, h2, List.map_nil]
  rw [finish_none _ _ _ (by have := penPath_ne_nil a cs; unfold penPath at this; simpa [finPath] using this), Res.ok_bind]
  rfl

/-- The drawings one after the other. -/
noncomputable def penPaths : Point ℝ → List (List PenCmd) → List (Path ℝ)
  | _, [] => []
  | a, cs :: ds => penPath a cs :: penPaths (currentPosition (penPath a cs)) ds

theorem penPath_last (a : Point ℝ) (cs : List PenCmd) :
    ∃ s, (finPath (penPath a cs)).getLast? = some s ∧ s.stop = finPt (currentPosition (penPath a cs)) := by
  have hne := penPath_ne_nil a cs
  have h := position_finPath (penPath a cs)
  cases e : (finPath (penPath a cs)).getLast? with
  | none =>
    rw [List.getLast?_eq_none_iff] at e
    simp [finPath, hne] at e
  | some s =>
    refine ⟨s, rfl, ?_⟩
    rw [← h, currentPosition, e]

theorem render_pens (m : Machine (XNum ℝ) O) (hf : 0 < m.fuel) (n : Nat) (s : Spot (XNum ℝ)) (g : DMap (XNum ℝ)) : ∀ (ds : List (List PenCmd)) (a : Point ℝ),
    renderAllOf (m.render (n + 1) s) (ds.map (livePen m.world)) g (finPt a) = .ok ((penPaths a ds).map finPath, ds.map (livePen m.world), g)
  | [], a => rfl
  | cs :: ds, a => by
    obtain ⟨t, h1, h2⟩ := penPath_last a cs
    simp only [List.map_cons, renderAllOf, render_pen m hf, Res.ok_bind, h1, h2, render_pens m hf n s g ds, penPaths]

theorem strokes_penPaths : ∀ (ds : List (List PenCmd)) (a : Point ℝ), (penPaths a ds).flatMap strokes = sketchFrom (pt a) ds
  | [], a => rfl
  | cs :: ds, a => by
    have h0 : PenIs [.move origin a] ⟨pt a, none⟩ := ⟨rfl, rfl⟩
    obtain ⟨h1, h2⟩ := pen_commands cs h0
    have h3 : strokes (penPath a cs) = penDraws ⟨pt a, none⟩ cs := h1
    have h4 : pt (currentPosition (penPath a cs)) = (penEnd ⟨pt a, none⟩ cs).cur := h2.cur
    simp only [penPaths, List.flatMap_cons, sketchFrom, h3, strokes_penPaths ds, h4]

/-! ## Sizes -/

theorem at_translate (dx dy : ℝ) (s : Stroke ℝ) (t : ℝ) : (s.map (translate dx dy)).at t = translate dx dy (s.at t) := by
  cases s <;> simp only [Stroke.map, Stroke.at, translate, Prod.mk.injEq] <;> constructor <;> ring

/-- The points of strokes. -/
def Covered (ss : List (Stroke ℝ)) (q : Pt ℝ) : Prop := ∃ s ∈ ss, ∃ t : ℝ, 0 ≤ t ∧ t ≤ 1 ∧ s.at t = q

theorem covered_moved {ss : List (Stroke ℝ)} {r : Path ℝ} {dx dy : ℝ} (h : strokes r = ss.map (Stroke.map (translate dx dy))) (q : Pt ℝ) :
    Covered ss q ↔ Drawn r (translate dx dy q) := by
  constructor
  · rintro ⟨s, hs, t, h0, h1, rfl⟩
    refine ⟨s.map (translate dx dy), ?_, t, h0, h1, at_translate _ _ s t⟩
    rw [h]
    exact List.mem_map_of_mem hs
  · rintro ⟨s, hs, t, h0, h1, e⟩
    rw [h] at hs
    obtain ⟨s', hs', rfl⟩ := List.mem_map.mp hs
    rw [at_translate] at e
    simp only [translate, Prod.mk.injEq, add_left_inj] at e
    exact ⟨s', hs', t, h0, h1, Prod.ext e.1 e.2⟩

theorem covered_back {ss : List (Stroke ℝ)} {r : Path ℝ} {dx dy : ℝ} (h : strokes r = ss.map (Stroke.map (translate dx dy))) {q : Pt ℝ} (hq : Drawn r q) :
    Covered ss (q.1 - dx, q.2 - dy) := by
  rw [covered_moved h]
  simpa [translate] using hq

theorem curve_start {a c d b : Pt ℝ} {ss : List (Stroke ℝ)} (h : Stroke.curve a c d b ∈ ss) : Covered ss a :=
  ⟨_, h, 0, le_refl 0, zero_le_one, by simp [Stroke.at]⟩

theorem small_bounded {j : Path ℝ} (h : ∀ q, Covered (strokes j) q → |q.1| < 2 ^ 62 ∧ |q.2| < 2 ^ 62) : Small j := by
  intro a c d b hm
  obtain ⟨h1, h2⟩ := h a (curve_start hm)
  exact ⟨h1.trans (by norm_num), h2.trans (by norm_num)⟩

/-- What is moved to the origin is small, too. -/
theorem small_moved {ss : List (Stroke ℝ)} (hb : ∀ q, Covered ss q → |q.1| < 2 ^ 62 ∧ |q.2| < 2 ^ 62) {r : Path ℝ} {dx dy : ℝ}
    (h : strokes r = ss.map (Stroke.map (translate dx dy))) {br : Pt ℝ} (hbox : BoxOf (Drawn r) (0, 0) br) : Small r := by
  obtain ⟨q1, d1, e1⟩ := hbox.left
  obtain ⟨q2, d2, e2⟩ := hbox.top
  have b1 := (hb _ (covered_back h d1)).1
  have b2 := (hb _ (covered_back h d2)).2
  intro a c d b hm
  obtain ⟨h1, h2⟩ := hb _ (covered_back h (curve_start hm))
  simp only at e1 e2 b1 b2 h1 h2
  rw [e1] at b1
  rw [e2] at b2
  rw [show ((2 : ℝ) ^ 63) = 2 * 2 ^ 62 by norm_num]
  generalize ((2 : ℝ) ^ 62) = B at *
  rw [abs_lt] at *
  rw [abs_lt]
  refine ⟨⟨?_, ?_⟩, ?_, ?_⟩ <;> linarith [b1.1, b1.2, b2.1, b2.2, h1.1, h1.2, h2.1, h2.2]

theorem shift_shift {ss : List (Stroke ℝ)} {r : Path ℝ} {dx dy : ℝ} (h : strokes r = ss.map (Stroke.map (translate dx dy))) (dx' dy' : ℝ) :
    strokes (shift dx' dy' r) = ss.map (Stroke.map (translate (dx + dx') (dy + dy'))) := by
  rw [C27_shift, h, List.map_map]
  refine List.map_congr_left fun s _ => ?_
  have : ∀ x : Pt ℝ, translate dx' dy' (translate dx dy x) = translate (dx + dx') (dy + dy') x := fun x => by simp [translate, add_assoc]
  cases s <;> simp [Stroke.map, this]

/-- **C139.** A part that is made of drawings with the pen is rendered to their strokes, moved so that its box begins at the origin, and nothing else changes. -/
theorem C139_part (m : Machine (XNum ℝ) O) (hf : 0 < m.fuel) (n : Nat) (doc e : Elem (XNum ℝ)) (he : slice e.original transformsKey = []) (i : Text)
    (ds : List (List PenCmd)) (a : Point ℝ) (hd : sketchFrom (pt a) ds ≠ []) (hb : ∀ q, Covered (sketchFrom (pt a) ds) q → |q.1| < 2 ^ 62 ∧ |q.2| < 2 ^ 62)
    (g : DMap (XNum ℝ)) :
    ∃ (r : Path ℝ) (dx dy : ℝ) (br : Pt ℝ), m.render (n + 2) ⟨doc, [], false⟩ (.mk .part i e (ds.map (livePen m.world))) g (finPt a) =
        .ok (finPath r, .mk .part i e (ds.map (livePen m.world)), g) ∧
      strokes r = (sketchFrom (pt a) ds).map (Stroke.map (translate dx dy)) ∧ BoxOf (Drawn r) (0, 0) br := by
  have hne : penPaths a ds ≠ [] := by
    cases ds with
    | nil => exact absurd rfl hd
    | cons => simp [penPaths]
  obtain ⟨j, h1, h2⟩ := simpleJoin_strokes (penPaths a ds) hne
  rw [strokes_penPaths] at h2
  have hs : strokes j ≠ [] := by
    rw [h2]
    exact hd
  obtain ⟨dx, dy, h3, br, h4⟩ := C29_trim j hs (small_bounded (by rw [h2]; exact hb))
  have hj : finPath j ≠ [] := by
    intro e
    have : j = [] := by simpa [finPath] using e
    rw [this] at hs
    exact hs rfl
  refine ⟨collapseMoves (shift dx dy j), dx, dy, br, ?_, ?_, ?_⟩
  · rw [Machine.render.eq_def]
    simp only [Live.kind, Machine.renderPartNode, Live.children, Live.elem, Live.id]
    rw [render_pens m hf, Res.ok_bind]
    simp only
    rw [if_neg (by simpa using hne), h1, Res.ok_bind]
    simp only [Machine.finishAt, he, List.map_nil]
    rw [finish_none _ _ _ hj, Res.ok_bind, h3, collapse_fin]
  · rw [strokes_collapseMoves, C27_shift, h2]
  · have : Drawn (collapseMoves (shift dx dy j)) = Drawn (shift dx dy j) := by
      funext x
      simp only [Drawn, strokes_collapseMoves]
    rw [this]
    exact h4

/-! ## Parts -/

/-- The part as it is made. -/
def madeSketch (o : Sketch) : DMap (XNum ℝ) :=
  [("id".toList, .str o.id), ("components".toList, .list (o.drawings.map fun cs => .map (penDrawing cs))), ("type".toList, .str "part".toList)]

/-- The part while it is rendered. -/
noncomputable def shownSketch (o : Sketch) : DMap (XNum ℝ) :=
  [("id".toList, .str o.id), ("components".toList, .list (o.drawings.map fun cs => .map (penDrawing cs))), ("type".toList, .str "part".toList),
    ("part_index".toList, indexVal 0)]

theorem setVar_sketch (o : Sketch) : setVar ⟨[], madeSketch o, []⟩ partIndexKey (indexVal 0) = ⟨[], shownSketch o, []⟩ := rfl

theorem shownSketch_absent (o : Sketch) (k : Text) (h : k ∉ ["id".toList, "components".toList, "type".toList, "part_index".toList]) :
    (shownSketch o).lookup k = none := by
  simp only [List.mem_cons, List.not_mem_nil, or_false, not_or] at h
  obtain ⟨h1, h2, h3, h4⟩ := h
  simp only [shownSketch, List.lookup, beq_eq_false_iff_ne.mpr h1, beq_eq_false_iff_ne.mpr h2, beq_eq_false_iff_ne.mpr h3, beq_eq_false_iff_ne.mpr h4]

theorem madeSketch_absent (o : Sketch) (k : Text) (h : k ∉ ["id".toList, "components".toList, "type".toList, "part_index".toList]) :
    (madeSketch o).lookup k = none := by
  simp only [List.mem_cons, List.not_mem_nil, or_false, not_or] at h
  obtain ⟨h1, h2, h3, h4⟩ := h
  simp only [madeSketch, List.lookup, beq_eq_false_iff_ne.mpr h1, beq_eq_false_iff_ne.mpr h2, beq_eq_false_iff_ne.mpr h3]

theorem renderPart_sketch (m : Machine (XNum ℝ) O) (hf : 0 < m.fuel) (doc : Elem (XNum ℝ)) (hd : Bare doc) (customs : List (Text × DMap (XNum ℝ))) (i : Text) (o : Sketch)
    (ho : o.strokes ≠ []) (hb : o.Bounded) : ∃ p : RenderedPart ℝ (Drawing (XNum ℝ)), p.payload.label = ⟨[], Attr.bottomMiddle.text⟩ ∧ p.payload.id = i ∧
      (∃ (r : Path ℝ) (dx dy : ℝ), p.payload.path = finPath r ∧ strokes r = o.strokes.map (Stroke.map (translate dx dy)) ∧
        BoxOf (Drawn r) (0, 0) (p.width, p.height)) ∧
      ∃ q, m.renderPart doc customs (.mk .part i ⟨[], madeSketch o, []⟩ (o.drawings.map (livePen m.world))) [] = .ok ([q], []) ∧ Machine.toLayout i q = finPart p := by
  obtain ⟨f, hf'⟩ : ∃ f, m.fuel = f + 1 := ⟨m.fuel - 1, by omega⟩
  have hpt : pt (origin : Point ℝ) = (0, 0) := by simp [pt, origin, newPoint]
  have hsk : sketchFrom (pt (origin : Point ℝ)) o.drawings = o.strokes := by rw [hpt]; rfl
  obtain ⟨r, dx, dy, br, h1, h2, h3⟩ := C139_part m hf f doc ⟨[], shownSketch o, []⟩ rfl i o.drawings origin (by rw [hsk]; exact ho) (by rw [hsk]; exact hb) []
  rw [hsk] at h2
  have hne : strokes r ≠ [] := by
    rw [h2]
    simpa using ho
  obtain ⟨dx', dy', h4, br', h5⟩ := C29_trim r hne (small_moved hb h2 h3)
  have h6 := shift_shift h2 dx' dy'
  have hne' : strokes (shift dx' dy' r) ≠ [] := by
    rw [C27_shift]
    simpa using hne
  have h7 := measure_fin hne' (small_moved hb h6 h5) h5
  refine ⟨⟨br'.1, br'.2, ⟨i, finPath (shift dx' dy' r), ⟨[], Attr.bottomMiddle.text⟩⟩⟩, rfl, rfl,
    ⟨shift dx' dy' r, dx + dx', dy + dy', rfl, h6, h5⟩, ⟨finPath (shift dx' dy' r), .fin br'.1, .fin br'.2, ⟨[], Attr.bottomMiddle.text⟩⟩, ?_, rfl⟩
  have ht : m.int (m.partAttrs doc [] ⟨[], madeSketch o, []⟩ (madeSketch o)) repeatTotalKey 1 = 1 := by
    unfold Machine.int Source.number Machine.partAttrs Machine.attrs
    rw [show chainOf (Spot.mk doc [] false).doc [] (Spot.mk doc [] false).ups = .document doc [] from rfl,
      find_part m.lib m.world.printed doc hd (madeSketch o) (madeSketch_absent o) none repeatTotalKey (by simp)]
    rfl
  have hl : Machine.labelOf (m.partAttrs doc [] ⟨[], shownSketch o, []⟩ (shownSketch o)) 1 0 = ⟨[], Attr.bottomMiddle.text⟩ := by
    have e1 : (m.partAttrs doc [] ⟨[], shownSketch o, []⟩ (shownSketch o)).find labelTextKey = none :=
      find_part m.lib m.world.printed doc hd (shownSketch o) (shownSketch_absent o) none labelTextKey (by simp)
    have e2 : (m.partAttrs doc [] ⟨[], shownSketch o, []⟩ (shownSketch o)).find labelPositionKey = none :=
      find_part m.lib m.world.printed doc hd (shownSketch o) (shownSketch_absent o) none labelPositionKey (by simp)
    simp [Machine.labelOf, Source.string, Source.handle, e1, e2]
  unfold Machine.renderPart
  simp only [Live.elem]
  rw [ht, show List.range (1 : Int).toNat = [0] from rfl]
  simp only [Machine.partCopies, Live.setVar, setVar_sketch]
  rw [hf', ← origin_fin] at *
  rw [h1]
  simp only [Res.ok_bind, Live.elem, h4, h7, hl]
  have ht : slice (shownSketch o) partTransformersKey = [] := by
    rw [slice_plain (by decide +kernel), shownSketch_absent o _ (by decide +kernel)]
  simp only [ht, Machine.makeTransformers, need, Machine.runTransformers]
  simp

/-! ## Documents -/

theorem neat_pair (q : Pt ℝ) : Neat (pairVal q) := by
  refine .map (by simp) ?_ ?_ <;> intro e he <;> simp only [List.mem_cons, List.not_mem_nil, or_false] at he
  · rcases he with rfl | rfl <;> simp only <;> decide +kernel
  · rcases he with rfl | rfl <;> exact .num _

theorem neat_pen (c : PenCmd) : Neat (.map (penMap c)) := by
  cases c <;> refine .map (by simp [penMap]) ?_ ?_ <;> intro e he <;> simp only [penMap, List.mem_cons, List.not_mem_nil, or_false] at he
  all_goals (rcases he with rfl | rfl | rfl | rfl) <;> first | exact .str _ | exact .num _ | exact neat_pair _ | (simp only; decide +kernel)

theorem neat_penDrawing (cs : List PenCmd) : Neat (.map (penDrawing cs)) := by
  refine .map (by simp [penDrawing]) ?_ ?_ <;> intro e he <;> simp only [penDrawing, List.mem_cons, List.not_mem_nil, or_false] at he
  · rcases he with rfl | rfl <;> simp only <;> decide +kernel
  · rcases he with rfl | rfl
    · exact .str _
    · refine .list fun v hv => ?_
      obtain ⟨q, _, rfl⟩ := List.mem_map.mp hv
      exact neat_pen q

theorem neat_sketch (o : Sketch) : Neat (.map (sketchMap o)) := by
  refine .map (by simp [sketchMap]) ?_ ?_ <;> intro e he <;> simp only [sketchMap, List.mem_cons, List.not_mem_nil, or_false] at he
  · rcases he with rfl | rfl <;> simp only <;> decide +kernel
  · rcases he with rfl | rfl
    · exact .str _
    · refine .list fun v hv => ?_
      obtain ⟨q, _, rfl⟩ := List.mem_map.mp hv
      exact neat_penDrawing q

theorem neat_sketchDoc (s : Sheet ℝ) (os : List Sketch) : Neat (.map (sketchDoc s os)) := by
  refine .map (by simp [sketchDoc]) ?_ ?_ <;> intro e he <;> simp only [sketchDoc, List.mem_cons, List.not_mem_nil, or_false] at he
  · rcases he with rfl | rfl | rfl | rfl <;> simp only <;> decide +kernel
  · rcases he with rfl | rfl | rfl | rfl
    · exact .num _
    · exact .num _
    · exact .num _
    · refine .list fun v hv => ?_
      obtain ⟨q, _, rfl⟩ := List.mem_map.mp hv
      exact neat_sketch q

/-- The nodes that are made. -/
def penNode (w : World (XNum ℝ)) (cs : List PenCmd) : Dyn.Node (XNum ℝ) := .mk (w.idOf (penDrawing cs)) (penDrawing cs) []

def sketchNode (w : World (XNum ℝ)) (o : Sketch) : Dyn.Node (XNum ℝ) := .mk (w.idOf (madeSketch o)) (madeSketch o) (o.drawings.map (penNode w))

theorem make_pen (w : World (XNum ℝ)) (xs : List (Text × DMap (XNum ℝ))) (n : Nat) (cs : List PenCmd) : w.make xs (n + 1) (penDrawing cs) = .val (penNode w cs) := by
  have h1 : w.text (penDrawing cs) typeKey = some Built.draw.text := text_type w (b := .draw) rfl
  rw [World.make]
  simp only [h1, built_text, World.create]
  rfl

theorem create_sketch (w : World (XNum ℝ)) (xs : List (Text × DMap (XNum ℝ))) (n : Nat) (o : Sketch) :
    w.create (w.make xs (n + 1)) .part (sketchMap o) = .val (sketchNode w o) := by
  have h1 : putIfAbsent (sketchMap o) typeKey (.str partText) = madeSketch o := rfl
  have h2 : slice (madeSketch o) componentsKey = o.drawings.map penDrawing := by
    rw [slice_plain (by decide +kernel)]
    rw [show (madeSketch o).lookup componentsKey = some (.list (o.drawings.map fun cs => .map (penDrawing cs))) from rfl]
    have : (o.drawings.map fun cs => (.map (penDrawing cs) : Val (XNum ℝ))) = (o.drawings.map penDrawing).map .map := by simp
    simp only [this, mapItems_maps, Option.getD_some]
  have h3 : withComponents (madeSketch o) (o.drawings.map (penNode w)) = madeSketch o := by
    have : (o.drawings.map (penNode w)).map (fun c => (.map c.map : Val (XNum ℝ))) = o.drawings.map fun cs => .map (penDrawing cs) := by
      simp [penNode, Dyn.Node.map, Function.comp_def]
    unfold withComponents
    rw [this]
    rfl
  simp only [World.create, clone_neat (neat_sketch o), h1, h2]
  rw [makeList_map (make_pen w xs n)]
  simp only [h3]
  rfl

/-- The document that is made. -/
def sketchesDoc (w : World (XNum ℝ)) (s : Sheet ℝ) (os : List Sketch) : Doc (XNum ℝ) :=
  ⟨w.idOf (sketchDoc s os), withParts (sketchDoc s os) (os.map (sketchNode w)), [], [], [], os.map (sketchNode w)⟩

theorem sketch_filename (w : World (XNum ℝ)) (s : Sheet ℝ) (os : List Sketch) : w.text (sketchDoc s os) filenameKey = none := by
  have : Dyn.get (sketchDoc s os) filenameKey = none := rfl
  simp only [World.text, this]

theorem parse_sketch (w : World (XNum ℝ)) (n files : Nat) (s : Sheet ℝ) (os : List Sketch) :
    w.parse (n + 1) (files + 1) (sketchDoc s os) = .val (sketchesDoc w s os) := by
  have h2 : slice (sketchDoc s os) importsKey = [] := rfl
  have h3 : slice (sketchDoc s os) partsKey = os.map sketchMap := by
    rw [slice_plain (by decide +kernel)]
    rw [show (sketchDoc s os).lookup partsKey = some (.list (os.map fun o => .map (sketchMap o))) from rfl]
    have : (os.map fun cs => (.map (sketchMap cs) : Val (XNum ℝ))) = (os.map sketchMap).map .map := by simp
    simp only [this, mapItems_maps, Option.getD_some]
  rw [World.parse]
  simp only [sketch_filename w s os, h2, World.runImports, h3]
  rw [makeList_map (create_sketch w [] n)]
  rfl

theorem sketch_lookup (w : World (XNum ℝ)) (s : Sheet ℝ) (os : List Sketch) (k : Text) (hk : k ≠ "parts".toList) :
    (sketchesDoc w s os).map.lookup k = (sketchDoc s os).lookup k :=
  (C113_map w 1 0 (sketchDoc s os) (neat_sketchDoc s os) (sketchesDoc w s os) (sketch_filename w s os) (parse_sketch w 0 0 s os)).2 k hk

theorem sketch_absent (s : Sheet ℝ) (os : List Sketch) (k : Text)
    (h : k ∉ ["material_width".toList, "material_height".toList, "doc_padding".toList, "parts".toList]) : (sketchDoc s os).lookup k = none := by
  simp only [List.mem_cons, List.not_mem_nil, or_false, not_or] at h
  obtain ⟨h1, h2, h3, h4⟩ := h
  simp only [sketchDoc, List.lookup, beq_eq_false_iff_ne.mpr h1, beq_eq_false_iff_ne.mpr h2, beq_eq_false_iff_ne.mpr h3, beq_eq_false_iff_ne.mpr h4]

theorem bare_sketch (w : World (XNum ℝ)) (s : Sheet ℝ) (os : List Sketch) : Bare (Machine.docElem (sketchesDoc w s os)) where
  params := rfl
  defaults := by
    show sub (sketchesDoc w s os).map defaultsKey = []
    rw [sub_plain (by decide +kernel), sketch_lookup w s os _ (by decide +kernel), sketch_absent s os _ (by decide +kernel)]
    rfl
  absent := fun k hk => by
    rw [show (Machine.docElem (sketchesDoc w s os)).original = (sketchesDoc w s os).map from rfl, sketch_lookup w s os k (by rintro rfl; exact hk (by simp)),
      sketch_absent s os k hk]

theorem live_pen (w : World (XNum ℝ)) (cs : List PenCmd) : live w (penNode w cs) = livePen w cs := by
  have h1 : w.text (penDrawing cs) typeKey = some Built.draw.text := text_type w (b := .draw) rfl
  rw [penNode, live, h1, Option.getD_some, built_text]
  rfl

theorem livePart_sketch (w : World (XNum ℝ)) (o : Sketch) :
    livePart w (sketchNode w o) = .mk .part (w.idOf (madeSketch o)) ⟨[], madeSketch o, []⟩ (o.drawings.map (livePen w)) := by
  have : ∀ ds : List (List PenCmd), lives w (ds.map (penNode w)) = ds.map (livePen w) := by
    intro ds
    induction ds with
    | nil => rfl
    | cons d ds ih => rw [List.map_cons, List.map_cons, lives, ih, live_pen]
  unfold livePart sketchNode
  simp only [Dyn.Node.children, this]
  rfl

theorem number_sketch (m : Machine (XNum ℝ) O) (s : Sheet ℝ) (os : List Sketch) (key : Text) (x d : XNum ℝ) (hk : key ≠ "parts".toList) (hp : '.' ∉ key)
    (h : (sketchDoc s os).lookup key = some (.num x)) : m.number (m.docAttrs (Machine.docElem (sketchesDoc m.world s os)) []) key d = x := by
  unfold Machine.number
  rw [C91_number _ _ _ x]
  · rfl
  · show Dyn.get (sketchesDoc m.world s os).map key = _
    rw [get_plain hp, sketch_lookup _ _ _ _ hk, h]

theorem sheetOf_sketch (m : Machine (XNum ℝ) O) (s : Sheet ℝ) (os : List Sketch) : m.sheetOf (Machine.docElem (sketchesDoc m.world s os)) [] = finSheet s := by
  simp only [Machine.sheetOf, finSheet]
  rw [number_sketch m s os materialWidthKey (.fin s.width) _ (by decide +kernel) (by decide +kernel) rfl,
    number_sketch m s os materialHeightKey (.fin s.height) _ (by decide +kernel) (by decide +kernel) rfl,
    number_sketch m s os docPaddingKey (.fin s.padding) _ (by decide +kernel) (by decide +kernel) rfl]

theorem pageOf_sketch (m : Machine (XNum ℝ) O) (s : Sheet ℝ) (os : List Sketch) :
    m.pageOf (Machine.docElem (sketchesDoc m.world s os)) [] = newPage (.fin s.width) (.fin s.height) .inch := by
  have hb := bare_sketch m.world s os
  have hg : Dyn.get (Machine.docElem (sketchesDoc m.world s os)).original unitsKey = none :=
    hb.get (k := unitsKey) (ks := []) (by decide +kernel) (by decide +kernel) (by decide +kernel)
  have h : (m.docAttrs (Machine.docElem (sketchesDoc m.world s os)) []).find unitsKey = none := by
    have l : Chain.lookup (.document (Machine.docElem (sketchesDoc m.world s os)) []) unitsKey = none := by
      rw [Chain.lookup]
      exact define_absent (c := .document _ []) (by rw [show Chain.elem (.document (Machine.docElem (sketchesDoc m.world s os)) []) = Machine.docElem (sketchesDoc m.world s os) from rfl, hb.allParams]; exact Render.get_nil _) hg (Render.get_nil _)
    unfold Source.find Machine.docAttrs
    rw [attrLookup]
    simp only [show ¬ 0 > recursionMax from by decide, if_false, hg, l]
    rw [attrDefault]
    simp only [Chain.elem, hb.defaults, Render.get_nil]
  unfold Machine.pageOf
  rw [sheetOf_sketch]
  simp only [Source.string, h]
  rfl

/-! ## Sheets -/

theorem Sketch.Wide.strokes_ne {o : Sketch} (h : o.Wide) : o.strokes ≠ [] := by
  intro e
  obtain ⟨⟨p, q, ⟨s, hs, -⟩, -⟩, -⟩ := h
  rw [e] at hs
  cases hs

/-- The part has a size. -/
theorem LaidSketch.size {o : Sketch} (ho : o.Wide) {p : RenderedPart ℝ (Drawing (XNum ℝ))} (h : LaidSketch o p) : 0 < p.width ∧ 0 < p.height := by
  obtain ⟨r, dx, dy, -, h2, h3⟩ := h.path
  have key : ∀ q, o.Has q → Drawn r (translate dx dy q) := fun q hq => (covered_moved h2 q).1 hq
  obtain ⟨⟨p1, q1, hp1, hq1, hlt1⟩, ⟨p2, q2, hp2, hq2, hlt2⟩⟩ := ho
  have a1 := h3.inside _ (key p1 hp1)
  have a2 := h3.inside _ (key q1 hq1)
  have a3 := h3.inside _ (key p2 hp2)
  have a4 := h3.inside _ (key q2 hq2)
  simp only [translate] at a1 a2 a3 a4
  constructor <;> linarith

theorem idOf_sketch (w : World (XNum ℝ)) (o : Sketch) (h : o.id ≠ []) : w.idOf (madeSketch o) = o.id := by
  have : Dyn.get (madeSketch o) idKey = some (.str o.id) := rfl
  simp only [World.idOf, World.text, this, if_neg h, Option.getD_some]

theorem parts_sketches (m : Machine (XNum ℝ) O) (hf : 0 < m.fuel) (doc : Elem (XNum ℝ)) (hd : Bare doc) (customs : List (Text × DMap (XNum ℝ))) : ∀ os : List Sketch,
    (∀ o ∈ os, o.Wide ∧ o.Bounded) → ∃ parts : List (RenderedPart ℝ (Drawing (XNum ℝ))), List.Forall₂ LaidSketch os parts ∧
      List.Forall₂ (fun o p => ∃ q, m.renderPart doc customs (livePart m.world (sketchNode m.world o)) [] = .ok ([q], []) ∧
        Machine.toLayout (livePart m.world (sketchNode m.world o)).id q = finPart p) os parts
  | [], _ => ⟨[], .nil, .nil⟩
  | o :: os, h => by
    obtain ⟨ps, h1, h2⟩ := parts_sketches m hf doc hd customs os fun o ho => h o (List.mem_cons_of_mem _ ho)
    obtain ⟨hw, hb⟩ := h o (List.mem_cons_self ..)
    obtain ⟨p, e1, e2, e3, e4⟩ := renderPart_sketch m hf doc hd customs (m.world.idOf (madeSketch o)) o hw.strokes_ne hb
    refine ⟨p :: ps, .cons ⟨fun hi => ?_, by rw [e1], e3⟩ h1, .cons ?_ h2⟩
    · rw [e2, idOf_sketch _ _ hi]
    · rw [livePart_sketch]
      exact e4

theorem plan_sketches (m : Machine (XNum ℝ) O) (doc : Elem (XNum ℝ)) (customs : List (Text × DMap (XNum ℝ))) (s : Sheet ℝ) (hs : m.sheetOf doc [] = finSheet s)
    (page : Page (XNum ℝ)) (hp : m.pageOf doc [] = page) : ∀ (os : List Sketch) (parts : List (RenderedPart ℝ (Drawing (XNum ℝ))))
      (_ : List.Forall₂ (fun o p => ∃ q, m.renderPart doc customs (livePart m.world (sketchNode m.world o)) [] = .ok ([q], []) ∧
        Machine.toLayout (livePart m.world (sketchNode m.world o)).id q = finPart p) os parts) (docs docs' : List (SvgDoc ℝ (Drawing (XNum ℝ)))),
      initLoop s docs (parts.map fun p => some [p]) = some (docs', .ok) →
      m.plan doc customs ((os.map (sketchNode m.world)).map (livePart m.world)) [] (docs.map finDoc) (List.replicate docs.length page) =
        .ok (docs'.map finDoc, List.replicate docs'.length page)
  | [], _, .nil, docs, docs', h => by
    simp only [List.map_nil, initLoop, Option.some.injEq, Prod.mk.injEq, and_true] at h
    subst h
    rfl
  | o :: os, p :: ps, .cons ⟨q, e1, e2⟩ hr, docs, docs', h => by
    simp only [List.map_cons, initLoop] at h
    cases ha : addRendered s docs [p] with
    | none => rw [ha] at h; cases h
    | some x =>
      obtain ⟨docs1, res⟩ := x
      rw [ha] at h
      cases res with
      | ok =>
        simp only at h
        have hl := addRendered_length ha
        have := addRendered_fin s [p] docs
        simp only [List.map_cons, List.map_nil, ha, Option.map_some] at this
        simp only [List.map_cons, Machine.plan]
        rw [e1]
        simp only [Res.ok_bind, hs, List.map_cons, List.map_nil, e2, this, hp]
        rw [show (docs1.map finDoc).length - (docs.map finDoc).length = docs1.length - docs.length by simp, ← List.replicate_add,
          show docs.length + (docs1.length - docs.length) = docs1.length by omega]
        exact plan_sketches m doc customs s hs page hp os ps hr docs1 docs' h
      | renderError => cases h
      | addError => cases h
      | tooBig => cases h

/-- **C139.** A document of sketches becomes sheets with these sketches, laid out as exact arithmetic does; the sheets have the size of the material and are
written in inches. -/
theorem C139_sheets (m : Machine (XNum ℝ) O) (hf : 0 < m.fuel) (files : Nat) (s : Sheet ℝ) (hs : 0 ≤ s.padding) (os : List Sketch) (ho : ∀ o ∈ os, o.Wide ∧ o.Bounded) :
    ∃ (parts : List (RenderedPart ℝ (Drawing (XNum ℝ)))) (docs : List (SvgDoc ℝ (Drawing (XNum ℝ)))),
      m.world.parse m.fuel (files + 1) (sketchDoc s os) = .val (sketchesDoc m.world s os) ∧ List.Forall₂ LaidSketch os parts ∧
      PlanSet.init s (parts.map fun p => some [p]) = some (docs, .ok) ∧ (docs.map (·.parts)).flatten.Perm parts ∧
      m.planSet (sketchesDoc m.world s os) = .ok (docs.map finDoc, List.replicate docs.length (newPage (.fin s.width) (.fin s.height) .inch)) := by
  obtain ⟨f, hf'⟩ : ∃ f, m.fuel = f + 1 := ⟨m.fuel - 1, by omega⟩
  obtain ⟨parts, h1, h2⟩ := parts_sketches m hf (Machine.docElem (sketchesDoc m.world s os)) (bare_sketch m.world s os) [] os ho
  have hpos : ∀ p ∈ parts, 0 < p.width ∧ 0 < p.height := by
    intro p hp
    obtain ⟨o, hm, hl⟩ := forall₂_mem_right h1 p hp
    exact hl.size (ho o hm).1
  obtain ⟨docs, h3⟩ := C11_positive_parts_always_placed s hs (parts.map fun p => [p]) (by
    intro p hp
    obtain ⟨l, hl, hm⟩ := List.mem_flatten.mp hp
    obtain ⟨p', hp', rfl⟩ := List.mem_map.mp hl
    rw [List.mem_singleton] at hm
    exact hm ▸ hpos p' hp')
  rw [List.map_map] at h3
  refine ⟨parts, docs, ?_, h1, h3, ?_, ?_⟩
  · rw [hf']
    exact parse_sketch m.world f files s os
  · obtain ⟨all, e1, e2, -⟩ := C10_no_part_lost s _ h3
    have : all = parts.map fun p => [p] := by
      have h := congrArg (List.map fun o : Option (List (RenderedPart ℝ (Drawing (XNum ℝ)))) => o.getD []) e1
      simpa [Function.comp_def] using h.symm
    have hfl : (parts.map fun p => [p]).flatten = parts := by
      clear * -
      induction parts with
      | nil => rfl
      | cons => simp_all
    rwa [this, hfl] at e2
  · have := plan_sketches m _ [] s (sheetOf_sketch m s os) _ (pageOf_sketch m s os) os parts h2 _ docs h3
    unfold Machine.planSet
    simp only [List.map_cons, List.map_nil] at this
    rw [← newSvgDoc_fin] at this
    rw [show (sketchesDoc m.world s os).context = [] from rfl, sheetOf_sketch, pageOf_sketch]
    exact this

/-! ## Files -/

theorem shows_sketch {o : Sketch} (ho : o.id ≠ []) (r : Renderable ℝ (Drawing (XNum ℝ))) (hl : LaidSketch o r.part) (hr : ReadAsDrawn r.part.payload.path) :
    ShowsSketch (1 / 1000) o (seenOf r) := by
  obtain ⟨p, dx, dy, h1, h2, -⟩ := hl.path
  rw [h1] at hr
  have hr := readAsDrawn_real hr
  have hp : (realRend r).part.payload.path = p := by
    show r.part.payload.path.map realSeg = p
    rw [h1, realPath_fin]
  refine ⟨hl.id ho, _, rigid_placed (realRend r) dx dy, ?_⟩
  show List.Forall₂ _ _ ((writtenStrokes (newPage 0 0 .inch) (realRend r)).map _)
  unfold writtenStrokes
  rw [hp, hr, h2, List.map_map, List.map_map, List.forall₂_map_right_iff]
  refine List.forall₂_same.mpr fun s hs => ?_
  cases s with
  | line a b => exact .line (near_placed _ _) (near_placed _ _)
  | curve a c d b => exact .curve (near_placed _ _) (near_placed _ _) (near_placed _ _) (near_placed _ _)

theorem inBox_sketch {o : Sketch} (r : Renderable ℝ (Drawing (XNum ℝ))) (hl : LaidSketch o r.part) (hr : ReadAsDrawn r.part.payload.path) : InBox (realRend r) := by
  obtain ⟨p, dx, dy, h1, h2, h3⟩ := hl.path
  rw [h1] at hr
  have hr := readAsDrawn_real hr
  intro s hs t h0 h1'
  have hp : (realRend r).part.payload.path = p := by
    show r.part.payload.path.map realSeg = p
    rw [h1, realPath_fin]
  rw [hp, hr] at hs
  obtain ⟨a, b, c, d⟩ := h3.inside _ ⟨s, hs, t, h0, h1', rfl⟩
  refine ⟨a, ?_, c, ?_⟩
  · show (s.at t).1 ≤ 0 + r.part.width
    simpa using b
  · show (s.at t).2 ≤ 0 + r.part.height
    simpa using d

/-- A sketch is as large as it is laid out. -/
theorem sized_sketch {o : Sketch} {p : RenderedPart ℝ (Drawing (XNum ℝ))} (hl : LaidSketch o p) : o.Sized p.width p.height := by
  obtain ⟨r, dx, dy, -, h2, h3⟩ := hl.path
  refine ⟨-dx, -dy, ⟨?_, ?_, ?_, ?_, ?_⟩⟩
  · intro q hq
    obtain ⟨a, b, c, d⟩ := h3.inside _ ((covered_moved h2 q).1 hq)
    simp only [translate] at a b c d
    refine ⟨?_, ?_, ?_, ?_⟩ <;> simp only <;> linarith
  · obtain ⟨q, hq, e⟩ := h3.left
    exact ⟨_, covered_back h2 hq, by simp only at e ⊢; linarith⟩
  · obtain ⟨q, hq, e⟩ := h3.right
    exact ⟨_, covered_back h2 hq, by simp only at e ⊢; linarith⟩
  · obtain ⟨q, hq, e⟩ := h3.top
    exact ⟨_, covered_back h2 hq, by simp only at e ⊢; linarith⟩
  · obtain ⟨q, hq, e⟩ := h3.bottom
    exact ⟨_, covered_back h2 hq, by simp only at e ⊢; linarith⟩

theorem tame_sketch (m : Machine (XNum ℝ) O) (o : Sketch) :
    PartOf (TamePart m.world m.toInt m.fuel roughNames [latheName] []) (Tame m.world m.toInt roughNames) (livePart m.world (sketchNode m.world o)) := by
  rw [livePart_sketch]
  have h1 : slice (madeSketch o) transformsKey = [] := by
    rw [slice_plain (by decide +kernel), madeSketch_absent o _ (by decide +kernel)]
  have h2 : slice (madeSketch o) partTransformersKey = [] := by
    rw [slice_plain (by decide +kernel), madeSketch_absent o _ (by decide +kernel)]
  refine ⟨rfl, ⟨?_, ?_, ?_⟩, ?_⟩
  · simp [transformNames, Live.elem, h1]
  · simp [Live.elem, h2]
  · simp [Equipped, Live.elem, h2]
  · show EachOf _ (o.drawings.map (livePen m.world))
    generalize o.drawings = ds
    induction ds with
    | nil => trivial
    | cons cs ds ih =>
      refine ⟨⟨⟨?_, ?_⟩, trivial⟩, ih⟩
      · have : slice (penDrawing cs) transformsKey = [] := rfl
        simp [transformNames, this]
      · intro h; cases h

/-- What the program makes of a document of sketches. -/
theorem sketch_files (m : Machine (XNum ℝ) O) (hf : 0 < m.fuel) (files : Nat) (s : Sheet ℝ) (hs : 0 ≤ s.padding) (os : List Sketch)
    (ho : ∀ o ∈ os, o.Wide ∧ o.Bounded ∧ o.id ≠ [] ∧ Unmarked o.id) :
    ∃ (parts : List (RenderedPart ℝ (Drawing (XNum ℝ)))) (docs : List (SvgDoc ℝ (Drawing (XNum ℝ)))) (texts : List SheetText),
      List.Forall₂ LaidSketch os parts ∧ PlanSet.init s (parts.map fun p => some [p]) = some (docs, .ok) ∧ (docs.map (·.parts)).flatten.Perm parts ∧
      m.sheets (files + 1) (sketchDoc s os) = .ok texts ∧
      (∀ d ∈ docs, ∀ r ∈ d.renderables, ReadAsDrawn r.part.payload.path) ∧
      List.Forall₂ (fun d t => t.2 = false ∧ Says t.1 [pageElement (newPage (.fin s.width) (.fin s.height) .inch) (finDoc d).renderables]) docs texts := by
  obtain ⟨parts, docs, h1, h2, h3, e2, h4⟩ := C139_sheets m hf files s hs os fun o h => ⟨(ho o h).1, (ho o h).2.1⟩
  have hread : ∀ d ∈ docs, ∀ r ∈ d.renderables, ReadAsDrawn r.part.payload.path := by
    intro x hx r hr
    refine C114_sheets m _ ?_ h4 (finDoc x) (List.mem_map_of_mem hx) (finRend r) (List.mem_map_of_mem hr)
    intro n hn
    obtain ⟨o, -, rfl⟩ := List.mem_map.mp hn
    exact tame_sketch m o
  refine ⟨parts, docs, docs.map fun x => Machine.sheetText (newPage (.fin s.width) (.fin s.height) .inch) (finDoc x), h2, h3, e2, ?_, hread, ?_⟩
  · unfold Machine.sheets
    simp only [h1, h4]
    congr 1
    generalize newPage (.fin s.width : XNum ℝ) (.fin s.height) .inch = page
    clear * -
    induction docs with
    | nil => rfl
    | cons x xs ih => simpa [List.replicate_succ] using ih
  · rw [List.forall₂_map_right_iff]
    refine List.forall₂_same.mpr fun x hx => ?_
    have hw : ∀ r ∈ (finDoc x).renderables, Writable r := by
      intro r hr
      obtain ⟨r', hr', rfl⟩ := List.mem_map.mp hr
      have hp : r'.part ∈ parts := e2.subset (List.mem_flatten.mpr ⟨x.parts, List.mem_map_of_mem hx, List.mem_map_of_mem hr'⟩)
      obtain ⟨o, hm, hl⟩ := forall₂_mem_right h2 _ hp
      obtain ⟨_, _, hi, hu⟩ := ho o hm
      refine ⟨?_, ?_, ?_⟩
      · show Unmarked r'.part.payload.id
        rw [hl.id hi]
        exact hu
      · show Unmarked r'.part.payload.label.text
        rw [hl.label]
        exact unmarked_of_all (by decide)
      · intro h
        exact absurd hl.label h
    obtain ⟨h5, h6⟩ := C99_written_special (newPage (.fin s.width) (.fin s.height) .inch)
      ((unmarked_of_all (by decide)).append (unmarked_xnum _ _)) (((unmarked_of_all (by decide)).append (unmarked_xnum _ _)).append (unmarked_of_all (by decide)))
      (finDoc x).renderables hw
    unfold Machine.sheetText
    split
    · next e => rw [e] at h5; cases h5
    · next t' r e e' => rw [e'] at h6; exact ⟨rfl, h6⟩

/-- **C139.** Whoever reads the files that the program writes for a document of sketches, with any reader of XML and of SVG paths and transforms, sees every sketch
exactly once, under its name: all its lines and curves in their order, shifted or turned by a quarter and shifted, with every end and control point within a
thousandth of its place. If no sketch but squares ever meets a free bin of exactly its padded size, then on every sheet with more than one sketch they keep the
padding to the sides and twice the padding to each other, up to one and two thousandths. -/
theorem C139_seen (m : Machine (XNum ℝ) O) (hf : 0 < m.fuel) (files : Nat) (s : Sheet ℝ) (hs : 0 ≤ s.padding) (os : List Sketch)
    (ho : ∀ o ∈ os, o.Wide ∧ o.Bounded ∧ o.id ≠ [] ∧ Unmarked o.id) :
    ∃ (texts : List SheetText) (seen : List (List Seen)) (os' : List Sketch), m.sheets (files + 1) (sketchDoc s os) = .ok texts ∧
      List.Forall₂ (fun t gs => t.2 = false ∧ SeesSheet s t.1 gs) texts seen ∧ os'.Perm os ∧ List.Forall₂ (ShowsSketch (1 / 1000)) os' seen.flatten ∧
      (SketchesNeverFill s os → ∀ gs ∈ seen, (∃ g, gs = [g]) ∨
        ((∀ g ∈ gs, g.Inside (s.padding - 1 / 1000) s) ∧ gs.Pairwise (Seen.Apart (2 * s.padding - 1 / 500)))) := by
  obtain ⟨parts, docs, texts, h1, h2, h3, h4, h5, h6⟩ := sketch_files m hf files s hs os ho
  have hlaid : ∀ d ∈ docs, ∀ r ∈ d.renderables, ∃ o ∈ os, LaidSketch o r.part := by
    intro d hd r hr
    exact forall₂_mem_right h1 _ (h3.subset (List.mem_flatten.mpr ⟨d.parts, List.mem_map_of_mem hd, List.mem_map_of_mem hr⟩))
  obtain ⟨os', p1, p2⟩ : ∃ os', os'.Perm os ∧ List.Forall₂ LaidSketch os' (docs.map (·.parts)).flatten := by
    obtain ⟨os', a, b⟩ := List.perm_comp_forall₂ h3 h1.flip
    exact ⟨os', b, a.flip⟩
  refine ⟨texts, docs.map fun d => d.renderables.map seenOf, os', h4, ?_, p1, ?_, ?_⟩
  · rw [List.forall₂_map_right_iff]
    refine List.Forall₂.imp ?_ ((List.forall₂_and_left _ _).2 ⟨fun d (hd : d ∈ docs) => hd, h6⟩).flip
    rintro t d ⟨hd, ht, hsay⟩
    refine ⟨ht, sees_sheet s d t.1 hsay fun r hr => ?_⟩
    obtain ⟨o, -, hl⟩ := hlaid d hd r hr
    obtain ⟨p, _, _, hp, -⟩ := hl.path
    exact ⟨hl.label, p, hp⟩
  · have e1 : (docs.map (·.parts)).flatten = (docs.flatMap (·.renderables)).map (·.part) := by
      simp [SvgDoc.parts, List.flatMap, List.map_flatten, Function.comp_def]
    have e2 : (docs.map fun d => d.renderables.map seenOf).flatten = (docs.flatMap (·.renderables)).map seenOf := by
      simp [List.flatMap, List.map_flatten, Function.comp_def]
    have hr : ∀ r ∈ docs.flatMap (·.renderables), ReadAsDrawn r.part.payload.path := by
      intro r hr
      obtain ⟨d, hd, hr⟩ := List.mem_flatMap.mp hr
      exact h5 d hd r hr
    rw [e1, List.forall₂_map_right_iff] at p2
    rw [e2, List.forall₂_map_right_iff]
    have hid : ∀ o ∈ os', o.id ≠ [] := fun o h => (ho o (p1.subset h)).2.2.1
    clear * - p2 hr hid
    generalize docs.flatMap (·.renderables) = rs at *
    induction p2 with
    | nil => exact .nil
    | cons h _ ih =>
      exact .cons (shows_sketch (hid _ (by simp)) _ h (hr _ (by simp))) (ih (fun o h => hid o (by simp [h])) fun r h => hr r (by simp [h]))
  · intro hnf gs hgs
    obtain ⟨d, hd, rfl⟩ := List.mem_map.mp hgs
    have hne := hnf parts docs (h1.imp fun _ _ => sized_sketch) h2 d hd
    have hbox : ∀ r ∈ d.renderables, InBox (realRend r) := by
      intro r hr
      obtain ⟨o, -, hl⟩ := hlaid d hd r hr
      exact inBox_sketch r hl (h5 d hd r hr)
    obtain ⟨-, ⟨-, hfit⟩ | ⟨p, -, hp⟩⟩ := C136_sheets s hs h2 d hd
    · obtain ⟨hin, hap⟩ := hfit hne
      refine Or.inr ⟨?_, ?_⟩
      · intro g hg
        obtain ⟨r, hr, rfl⟩ := List.mem_map.mp hg
        exact inside_seen s r (hbox r hr) (hin r hr)
      · rw [List.pairwise_map]
        refine hap.imp_of_mem fun {r t} hr ht h => apart_seen r t (hbox r hr) (hbox t ht) ?_
        rw [two_mul]
        exact h
    · exact Or.inl ⟨_, by rw [hp]; rfl⟩

/-- **C139.** What is seen of a stroke is within the same distance of its place at every point. -/
theorem C139_points {e : ℝ} {f : Pt ℝ → Pt ℝ} (hf : Rigid f) {s t : Stroke ℝ} (h : ShowsStroke e f s t) (u : ℝ) (h0 : 0 ≤ u) (h1 : u ≤ 1) :
    Within e (t.at u) (f (s.at u)) := by
  have hv : 0 ≤ 1 - u := by linarith
  have hat : f (s.at u) = (s.map f).at u := by
    obtain ⟨a, b, rfl | rfl⟩ := hf <;> cases s <;> simp only [Stroke.map, Stroke.at, Prod.mk.injEq] <;> constructor <;> ring
  rw [hat]
  have two : ∀ {x y x' y' : ℝ}, |x - x'| ≤ e → |y - y'| ≤ e → |((1 - u) * x + u * y) - ((1 - u) * x' + u * y')| ≤ e := by
    intro x y x' y' hx hy
    rw [abs_le] at *
    constructor <;> nlinarith
  have four : ∀ {x y z w x' y' z' w' : ℝ}, |x - x'| ≤ e → |y - y'| ≤ e → |z - z'| ≤ e → |w - w'| ≤ e →
      |((1 - u) ^ 3 * x + 3 * (1 - u) ^ 2 * u * y + 3 * (1 - u) * u ^ 2 * z + u ^ 3 * w) -
        ((1 - u) ^ 3 * x' + 3 * (1 - u) ^ 2 * u * y' + 3 * (1 - u) * u ^ 2 * z' + u ^ 3 * w')| ≤ e := by
    intro x y z w x' y' z' w' hx hy hz hw
    have c0 : 0 ≤ (1 - u) ^ 3 := by positivity
    have c1 : 0 ≤ 3 * (1 - u) ^ 2 * u := by positivity
    have c2 : 0 ≤ 3 * (1 - u) * u ^ 2 := by positivity
    have c3 : 0 ≤ u ^ 3 := by positivity
    have hsum : (1 - u) ^ 3 + 3 * (1 - u) ^ 2 * u + 3 * (1 - u) * u ^ 2 + u ^ 3 = 1 := by ring
    generalize (1 - u) ^ 3 = k0 at *
    generalize 3 * (1 - u) ^ 2 * u = k1 at *
    generalize 3 * (1 - u) * u ^ 2 = k2 at *
    generalize u ^ 3 = k3 at *
    rw [abs_le] at *
    have e1 : (k0 + k1 + k2 + k3) * e = e := by rw [hsum, one_mul]
    constructor <;> nlinarith
  cases h with
  | line ha hb => exact ⟨by simpa [Stroke.map, Stroke.at] using two ha.1 hb.1, by simpa [Stroke.map, Stroke.at] using two ha.2 hb.2⟩
  | curve ha hc hd hb =>
    exact ⟨by simpa [Stroke.map, Stroke.at] using four ha.1 hc.1 hd.1 hb.1, by simpa [Stroke.map, Stroke.at] using four ha.2 hc.2 hd.2 hb.2⟩

/-- All ends and control points of the stroke have coordinates below `B`. -/
def strokeBelow (B : ℝ) : Stroke ℝ → Prop
  | .line a b => (|a.1| < B ∧ |a.2| < B) ∧ |b.1| < B ∧ |b.2| < B
  | .curve a c d b => (|a.1| < B ∧ |a.2| < B) ∧ (|c.1| < B ∧ |c.2| < B) ∧ (|d.1| < B ∧ |d.2| < B) ∧ |b.1| < B ∧ |b.2| < B

/-- A sketch is bounded if its ends and control points are. -/
theorem bounded_controls (o : Sketch) (h : ∀ s ∈ o.strokes, strokeBelow (2 ^ 62) s) : o.Bounded := by
  rintro q ⟨s, hs, u, h0, h1, rfl⟩
  have hs := h s hs
  generalize ((2 : ℝ) ^ 62) = B at *
  have hv : 0 ≤ 1 - u := by linarith
  have four : ∀ {x y z w : ℝ}, |x| < B → |y| < B → |z| < B → |w| < B →
      |(1 - u) ^ 3 * x + 3 * (1 - u) ^ 2 * u * y + 3 * (1 - u) * u ^ 2 * z + u ^ 3 * w| < B := by
    intro x y z w hx hy hz hw
    set M := max (max |x| |y|) (max |z| |w|) with hM
    have hMB : M < B := max_lt (max_lt hx hy) (max_lt hz hw)
    have mx : |x| ≤ M := le_max_of_le_left (le_max_left _ _)
    have my : |y| ≤ M := le_max_of_le_left (le_max_right _ _)
    have mz : |z| ≤ M := le_max_of_le_right (le_max_left _ _)
    have mw : |w| ≤ M := le_max_of_le_right (le_max_right _ _)
    refine lt_of_le_of_lt ?_ hMB
    have c0 : 0 ≤ (1 - u) ^ 3 := by positivity
    have c1 : 0 ≤ 3 * (1 - u) ^ 2 * u := by positivity
    have c2 : 0 ≤ 3 * (1 - u) * u ^ 2 := by positivity
    have c3 : 0 ≤ u ^ 3 := by positivity
    have hsum : ((1 - u) ^ 3 + 3 * (1 - u) ^ 2 * u + 3 * (1 - u) * u ^ 2 + u ^ 3) * M = M := by ring
    generalize (1 - u) ^ 3 = k0 at *
    generalize 3 * (1 - u) ^ 2 * u = k1 at *
    generalize 3 * (1 - u) * u ^ 2 = k2 at *
    generalize u ^ 3 = k3 at *
    clear_value M
    rw [abs_le] at *
    constructor <;> nlinarith
  cases s with
  | line a b =>
    obtain ⟨⟨a1, a2⟩, b1, b2⟩ := hs
    have e : ∀ x y : ℝ, (1 - u) * x + u * y = (1 - u) ^ 3 * x + 3 * (1 - u) ^ 2 * u * (x + (y - x) / 3) + 3 * (1 - u) * u ^ 2 * (x + 2 * (y - x) / 3) + u ^ 3 * y := by
      intro x y; ring
    have third : ∀ {x y : ℝ}, |x| < B → |y| < B → |x + (y - x) / 3| < B ∧ |x + 2 * (y - x) / 3| < B := by
      intro x y hx hy
      rw [abs_lt] at *
      rw [abs_lt]
      refine ⟨⟨?_, ?_⟩, ?_, ?_⟩ <;> linarith [hx.1, hx.2, hy.1, hy.2]
    simp only [Stroke.at]
    rw [e, e]
    exact ⟨four a1 (third a1 b1).1 (third a1 b1).2 b1, four a2 (third a2 b2).1 (third a2 b2).2 b2⟩
  | curve a c d b =>
    obtain ⟨⟨a1, a2⟩, ⟨c1, c2⟩, ⟨d1, d2⟩, b1, b2⟩ := hs
    exact ⟨four a1 c1 d1 b1, four a2 c2 d2 b2⟩

/-- A disc of radius 1 with a wave across it. -/
def wheel (i : Text) : Sketch := ⟨i, [[.circle 1], [.move (0, 1), .curve (0, 0) (1, 0) (1, 1), .relSmooth (1, 1) (1, 0)]]⟩

theorem wheel_strokes (i : Text) : (wheel i).strokes =
    [.curve (1, 0) (1 + quarterControl, 0) (2, 1 - quarterControl) (2, 1), .curve (2, 1) (2, 1 + quarterControl) (1 + quarterControl, 2) (1, 2),
     .curve (1, 2) (1 - quarterControl, 2) (0, 1 + quarterControl) (0, 1), .curve (0, 1) (0, 1 - quarterControl) (1 - quarterControl, 0) (1, 0),
     .curve (0, 1) (0, 0) (1, 0) (1, 1), .curve (1, 1) (1, 2) (2, 2) (2, 1)] := by
  simp only [Sketch.strokes, wheel, sketchFrom, penDraws, PenCmd.draws, PenCmd.next, PenAt.leave, List.append_nil, List.nil_append, List.cons_append, mul_one,
    Prod.mk_add_mk, zero_add, add_zero, List.cons.injEq, Stroke.curve.injEq, Prod.mk.injEq]
  norm_num

/-- **C139** is not empty. -/
theorem wheel_fine (i : Text) (hi : i ≠ [] ∧ Unmarked i) : (wheel i).Wide ∧ (wheel i).Bounded ∧ (wheel i).id ≠ [] ∧ Unmarked (wheel i).id := by
  have h1 : (wheel i).Has (1, 0) := ⟨_, by rw [wheel_strokes]; exact List.mem_cons_self .., 0, le_refl 0, zero_le_one, by simp [Stroke.at]⟩
  have h2 : (wheel i).Has (2, 1) := ⟨_, by rw [wheel_strokes]; exact List.mem_cons_self .., 1, zero_le_one, le_refl 1, by simp [Stroke.at]⟩
  refine ⟨⟨⟨_, _, h1, h2, by norm_num⟩, _, _, h1, h2, by norm_num⟩, bounded_controls _ ?_, hi⟩
  have hk : |quarterControl| < 1 := by
    have := circleCtrl_bounds
    rw [circleCtrl_real] at this
    change 0.5522 ≤ quarterControl ∧ quarterControl ≤ 5 / 9 at this
    rw [abs_lt]
    constructor <;> linarith [this.1, this.2]
  rw [abs_lt] at hk
  have hB : (4 : ℝ) < 2 ^ 62 := by norm_num
  rw [wheel_strokes]
  generalize ((2 : ℝ) ^ 62) = B at *
  generalize quarterControl = k at *
  intro s hs
  simp only [List.mem_cons, List.not_mem_nil, or_false] at hs
  rcases hs with rfl | rfl | rfl | rfl | rfl | rfl <;> simp only [strokeBelow, abs_lt] <;> and_intros <;> linarith [hk.1, hk.2]

end

end Verif.Render
