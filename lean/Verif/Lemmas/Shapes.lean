import Verif.Spec.Shapes
import Verif.Lemmas.Document
import Verif.Lemmas.Faithful
import Verif.Props.Attr
import Verif.Props.Outline
import Verif.Props.Parsed
import Verif.Props.Render

/-!
# Helper lemmas for documents of outlines with any kind of numbers
-/

set_option linter.unusedSectionVars false

namespace Verif.Shapes

open Verif Verif.Dyn Verif.Path Verif.PlanSet Verif.Svg Verif.Files Verif.Spec
open Verif.Render hiding lineMap drawMap partMap polyline linesFrom lastFrom linesFrom_last strokes_linesFrom command_line execAll_lines lineDrawing liveDraw render_draw drawings
  lineDrawing_last render_draws strokes_drawings madeMap Bare Bare.get Bare.allParams shownMap setVar_made shown_absent made_absent find_part neat_line neat_draw neat_part
  drawNode madeNode make_draw create_part madeDoc text_filename parse_outline doc_lookup doc_absent bare_doc live_drawing livePart_made number_doc sheetOf_doc pageOf_doc idOf_made

universe u

section

variable {F : Type u} [Trig F] {O : Type}

/-! ## Drawings -/

/-- The lines as segments. -/
def linesFrom : Point F → List (Pt F) → Path F
  | _, [] => []
  | a, q :: qs => .line a (newPoint q.1 q.2) :: linesFrom (newPoint q.1 q.2) qs

/-- Where they stop. -/
def lastFrom : Point F → List (Pt F) → Point F
  | a, [] => a
  | _, q :: qs => lastFrom (newPoint q.1 q.2) qs

theorem linesFrom_last : ∀ (a : Point F) (qs : List (Pt F)) (p : Path F) (s : Segment F), s.stop = a →
    ((p ++ [s]) ++ linesFrom a qs).getLast?.map Segment.stop = some (lastFrom a qs)
  | a, [], p, s, h => by simp [linesFrom, lastFrom, h]
  | a, q :: qs, p, s, h => by
    have := linesFrom_last (newPoint q.1 q.2) qs (p ++ [s]) (.line a (newPoint q.1 q.2)) rfl
    simpa [linesFrom, lastFrom] using this

theorem pt_exact (he : ExactEq F) (x y : F) : pt (newPoint x y) = (x, y) := by
  unfold pt newPoint
  simp only [Prod.mk.injEq]
  constructor
  · split
    · next h => exact (he _ _ h).symm
    · rfl
  · split
    · next h => exact (he _ _ h).symm
    · rfl

theorem strokes_linesFrom (he : ExactEq F) : ∀ (a : Point F) (qs : List (Pt F)), strokes (linesFrom a qs) = polyline (pt a) qs
  | a, [] => rfl
  | a, q :: qs => by
    have := strokes_linesFrom he (newPoint q.1 q.2) qs
    rw [pt_exact he] at this
    simp only [linesFrom, polyline, strokes, List.filterMap_cons, strokeOf] at *
    rw [this, pt_exact he]

theorem command_line (m : Machine F O) (hf : 0 < m.fuel) (s : Spot F) (g : DMap F) (e : Elem F) (cursor : Option (Point F))
    (q : Pt F) (p : Path F) : (m.command (m.attrs s g e cursor (lineMap q))).exec p = .ok (lineTo p (newPoint q.1 q.2)) := by
  have h1 : (m.command (m.attrs s g e cursor (lineMap q))).name = DrawOp.line.text := by
    show (m.world.text (lineMap q) commandKey).getD unknownName = _
    have : Dyn.get (lineMap q) commandKey = some (.str "line".toList) := rfl
    simp only [World.text, this]
    rfl
  have h2 : (m.command (m.attrs s g e cursor (lineMap q))).point toKey = some (newPoint q.1 q.2) := by
    show found ((m.attrs s g e cursor (lineMap q)).point m.fuel m.fuel toKey) = _
    obtain ⟨f, hf⟩ : ∃ f, m.fuel = f + 1 := ⟨m.fuel - 1, by omega⟩
    rw [hf, C91_point_map (m.attrs s g e cursor (lineMap q)) (f + 1) f toKey [("x".toList, .num q.1), ("y".toList, .num q.2)] q.1 q.2
      (by decide +kernel) (C46_attr_local _ _ _ _ rfl (by intro s hs; cases hs)) rfl rfl]
    rfl
  unfold Command.exec
  rw [h1, ofText_text]
  simp only [h2, need]

theorem execAll_lines (m : Machine F O) (hf : 0 < m.fuel) (s : Spot F) (g : DMap F) (e : Elem F) (cursor : Option (Point F)) :
    ∀ (qs : List (Pt F)) (p : Path F) (t : Segment F) (a : Point F), t.stop = a →
    execAll ((qs.map lineMap).map fun mp => m.command (m.attrs s g e cursor mp)) (p ++ [t]) = .ok (p ++ [t] ++ linesFrom a qs)
  | [], p, t, a, ht => by simp [execAll, linesFrom]
  | q :: qs, p, t, a, ht => by
    have hl : lineTo (p ++ [t]) (newPoint q.1 q.2) = (p ++ [t]) ++ [.line a (newPoint q.1 q.2)] := by
      simp [lineTo, currentPosition, ht]
    simp only [List.map_cons, execAll, command_line m hf, hl]
    rw [execAll_lines m hf s g e cursor qs (p ++ [t]) (.line a (newPoint q.1 q.2)) (newPoint q.1 q.2) rfl]
    simp [linesFrom]

/-- A drawing of lines, from the cursor. -/
def lineDrawing (a : Point F) (qs : List (Pt F)) : Path F := .move origin a :: linesFrom a qs

/-- The component that draws the lines. -/
def liveDraw (w : World F) (qs : List (Pt F)) : Live F := .mk .draw (w.idOf (drawMap qs)) ⟨[], drawMap qs, []⟩ []

theorem render_draw (m : Machine F O) (hf : 0 < m.fuel) (n : Nat) (s : Spot F) (g : DMap F) (a : Point F) (qs : List (Pt F)) :
    m.render (n + 1) s (liveDraw m.world qs) g a = .ok (lineDrawing a qs, liveDraw m.world qs, g) := by
  have h1 : slice (drawMap qs) commandsKey = qs.map lineMap := by
    rw [slice_plain (by decide +kernel)]
    rw [show (drawMap qs).lookup commandsKey = some (.list (qs.map fun q => .map (lineMap q))) from rfl]
    have : (qs.map fun q => (.map (lineMap q) : Val F)) = (qs.map lineMap).map .map := by simp
    simp only [this, mapItems_maps, Option.getD_some]
  have h2 : slice (drawMap qs) Render.transformsKey = [] := rfl
  have h3 : moveTo ([] : Path F) a = [] ++ [.move origin a] := rfl
  simp only [Machine.render, liveDraw, Live.kind, Machine.renderDraw, Live.elem, h1, drawRender, h3]
  rw [execAll_lines m hf s g _ _ qs [] (.move origin a) a rfl, Res.ok_bind]
  simp only [Machine.finishAt, h2, List.map_nil, List.nil_append, List.singleton_append]
  rw [finish_none _ _ _ (by simp), Res.ok_bind]
  rfl

/-- The drawings one after the other. -/
def drawings : Point F → List (List (Pt F)) → List (Path F)
  | _, [] => []
  | a, qs :: ds => lineDrawing a qs :: drawings (lastFrom a qs) ds

theorem lineDrawing_last (a : Point F) (qs : List (Pt F)) : ∃ s, (lineDrawing a qs).getLast? = some s ∧ s.stop = lastFrom a qs := by
  have h := linesFrom_last a qs [] (.move origin a) rfl
  simp only [List.nil_append, List.singleton_append] at h
  unfold lineDrawing
  cases e : (Segment.move origin a :: linesFrom a qs).getLast? with
  | none => simp [e] at h
  | some s =>
    rw [e] at h
    exact ⟨s, rfl, by simpa using h⟩

theorem render_draws (m : Machine F O) (hf : 0 < m.fuel) (n : Nat) (s : Spot F) (g : DMap F) : ∀ (ds : List (List (Pt F))) (a : Point F),
    renderAllOf (m.render (n + 1) s) (ds.map (liveDraw m.world)) g a = .ok (drawings a ds, ds.map (liveDraw m.world), g)
  | [], a => rfl
  | qs :: ds, a => by
    obtain ⟨t, h1, h2⟩ := lineDrawing_last a qs
    simp only [List.map_cons, renderAllOf, render_draw m hf, Res.ok_bind, h1, h2, render_draws m hf n s g ds, drawings]

theorem strokes_drawings (he : ExactEq F) : ∀ (ds : List (List (Pt F))) (a : Point F), (drawings a ds).flatMap strokes = polyline (pt a) ds.flatten
  | [], a => rfl
  | qs :: ds, a => by
    have key : ∀ (qs rs : List (Pt F)) (a : Point F), polyline (pt a) (qs ++ rs) = polyline (pt a) qs ++ polyline (pt (lastFrom a qs)) rs := by
      intro qs
      induction qs with
      | nil => intro rs a; rfl
      | cons q qs ih =>
        intro rs a
        have := ih rs (newPoint q.1 q.2)
        rw [pt_exact he] at this
        simp [polyline, lastFrom, this]
    have h : strokes (lineDrawing a qs) = polyline (pt a) qs := by
      rw [← strokes_linesFrom he]
      rfl
    simp only [drawings, List.flatMap_cons, List.flatten_cons, key, strokes_drawings he ds, h]

theorem polyline_straight : ∀ (a : Pt F) (qs : List (Pt F)), ∀ s ∈ polyline a qs, ∃ x ∈ a :: qs, ∃ y ∈ a :: qs, s = .line x y
  | a, [], s, h => by simp [polyline] at h
  | a, q :: qs, s, h => by
    simp only [polyline, List.mem_cons] at h
    rcases h with rfl | h
    · exact ⟨a, by simp, q, by simp, rfl⟩
    · obtain ⟨x, hx, y, hy, e⟩ := polyline_straight q qs s h
      exact ⟨x, by simp [List.mem_cons.1 hx], y, by simp [List.mem_cons.1 hy], e⟩

theorem clone_exact (he : ExactEq F) (p : Path F) : strokes (p.map Segment.clone) = strokes p := by
  have hp : ∀ a : Point F, pt a.clone = pt a := fun a => pt_exact he _ _
  simp only [strokes, List.filterMap_map]
  congr 1
  funext s
  cases s <;> simp [Segment.clone, strokeOf, hp]

theorem appendPath_exact (he : ExactEq F) (acc p : Path F) : strokes (appendPath acc p) = strokes acc ++ strokes p := by
  cases p with
  | nil => simp [appendPath, strokes]
  | cons s rest =>
    simp only [appendPath]
    rw [strokes_append, clone_exact he]
    congr 1
    cases acc.getLast? with
    | none => rfl
    | some l =>
      simp only
      split
      · rfl
      · rw [strokes_append]
        simp [strokes, strokeOf]

theorem simpleJoin_exact (he : ExactEq F) : ∀ (ps : List (Path F)), ps ≠ [] → ∃ r, simpleJoin ps = .ok r ∧ strokes r = ps.flatMap strokes
  | [], h => absurd rfl h
  | p :: ps, _ => by
    refine ⟨_, rfl, ?_⟩
    have key : ∀ (ps : List (Path F)) (acc : Path F), strokes (ps.foldl appendPath acc) = strokes acc ++ ps.flatMap strokes := by
      intro ps
      induction ps with
      | nil => intro _; simp
      | cons q ps ih => intro acc; simp [ih, appendPath_exact he]
    rw [key, clonePath, clone_exact he]
    rfl

/-! ## The points of a path -/

/-- What a segment is drawn through, and where it goes to, satisfies `S`. -/
def PointsIn (S : Pt F → Prop) : Segment F → Prop
  | .move _ b => S (pt b)
  | .line a b => S (pt a) ∧ S (pt b)
  | .curve a c d b => S (pt a) ∧ S (pt c) ∧ S (pt d) ∧ S (pt b)

theorem PointsIn.stop {S : Pt F → Prop} {s : Segment F} (h : PointsIn S s) : S (pt s.stop) := by
  cases s
  · exact h
  · exact h.2
  · exact h.2.2.2

theorem pointsIn_fixHeadMove {S : Pt F → Prop} {p : Path F} (h : ∀ s ∈ p, PointsIn S s) : ∀ s ∈ fixHeadMove p, PointsIn S s := by
  unfold fixHeadMove
  split
  · split
    · intro s hs
      rcases List.mem_cons.1 hs with rfl | hs
      · have := h _ (List.mem_cons_self ..)
        exact this
      · exact h s (by simp [hs])
    · exact h
  · exact h

theorem pointsIn_newPath {S : Pt F → Prop} {p : Path F} (h : ∀ s ∈ p, PointsIn S s) : ∀ s ∈ newPath p, PointsIn S s := by
  refine pointsIn_fixHeadMove ?_
  cases p with
  | nil => exact h
  | cons t rest =>
    rw [headMove]
    split
    · exact h
    · next hm =>
      intro s hs
      rcases List.mem_cons.1 hs with rfl | hs
      · have := h t (by simp)
        cases t
        · exact absurd rfl hm
        · exact this.1
        · exact this.1
      · exact h s hs

theorem pointsIn_mapPath {S T : Pt F → Prop} {f : Point F → Point F} (hf : ∀ q, S (pt q) → T (pt (f q))) {p : Path F} (h : ∀ s ∈ p, PointsIn S s) :
    ∀ s ∈ mapPath f p, PointsIn T s := by
  refine pointsIn_newPath fun s hs => ?_
  obtain ⟨t, ht, rfl⟩ := List.mem_map.1 hs
  have := h t ht
  cases t
  · exact hf _ this
  · exact ⟨hf _ this.1, hf _ this.2⟩
  · exact ⟨hf _ this.1, hf _ this.2.1, hf _ this.2.2.1, hf _ this.2.2.2⟩

theorem pointsIn_trimTailMove {S : Pt F → Prop} {p : Path F} (h : ∀ s ∈ p, PointsIn S s) : ∀ s ∈ trimTailMove p, PointsIn S s := by
  intro s hs
  refine h s ?_
  have := List.mem_reverse.1 hs
  exact List.mem_reverse.1 ((List.dropWhile_sublist _).subset this)

theorem pointsIn_collapseMoves {S : Pt F → Prop} {p : Path F} (h : ∀ s ∈ p, PointsIn S s) : ∀ s ∈ collapseMoves p, PointsIn S s := by
  have key : ∀ (p acc : Path F), (∀ s ∈ acc, PointsIn S s) → (∀ s ∈ p, PointsIn S s) →
      ∀ s ∈ p.foldl (fun acc s => (if s.isMove then trimTailMove acc else acc) ++ [s]) acc, PointsIn S s := by
    intro p
    induction p with
    | nil => intro acc ha _; exact ha
    | cons t p ih =>
      intro acc ha hp
      refine ih _ ?_ (fun s hs => hp s (by simp [hs]))
      intro s hs
      rcases List.mem_append.1 hs with hs | hs
      · split at hs
        · exact pointsIn_trimTailMove ha s hs
        · exact ha s hs
      · rw [List.mem_singleton.1 hs]
        exact hp t (by simp)
  exact pointsIn_newPath (key p [] (by simp) h)

theorem pointsIn_clone (he : ExactEq F) {S : Pt F → Prop} {p : Path F} (h : ∀ s ∈ p, PointsIn S s) : ∀ s ∈ p.map Segment.clone, PointsIn S s := by
  have hp : ∀ a : Point F, pt a.clone = pt a := fun a => pt_exact he _ _
  intro s hs
  obtain ⟨t, ht, rfl⟩ := List.mem_map.1 hs
  have := h t ht
  cases t <;> simpa only [Segment.clone, PointsIn, hp] using this

theorem pointsIn_appendPath (he : ExactEq F) {S : Pt F → Prop} {acc p : Path F} (ha : ∀ s ∈ acc, PointsIn S s) (h : ∀ s ∈ p, PointsIn S s) :
    ∀ s ∈ appendPath acc p, PointsIn S s := by
  cases p with
  | nil => exact ha
  | cons t rest =>
    simp only [appendPath]
    intro s hs
    rcases List.mem_append.1 hs with hs | hs
    · split at hs
      · exact ha s hs
      · split at hs
        · exact ha s hs
        · rcases List.mem_append.1 hs with hs | hs
          · exact ha s hs
          · rw [List.mem_singleton.1 hs]
            show S (pt t.stop.clone)
            rw [show pt t.stop.clone = pt t.stop from pt_exact he _ _]
            exact (h t (by simp)).stop
    · exact pointsIn_clone he h s hs

theorem pointsIn_simpleJoin (he : ExactEq F) {S : Pt F → Prop} {ps : List (Path F)} (h : ∀ p ∈ ps, ∀ s ∈ p, PointsIn S s) {r : Path F} (hr : simpleJoin ps = .ok r) :
    ∀ s ∈ r, PointsIn S s := by
  have key : ∀ (ps : List (Path F)) (acc : Path F), (∀ s ∈ acc, PointsIn S s) → (∀ p ∈ ps, ∀ s ∈ p, PointsIn S s) → ∀ s ∈ ps.foldl appendPath acc, PointsIn S s := by
    intro ps
    induction ps with
    | nil => intro acc ha _; exact ha
    | cons p ps ih =>
      intro acc ha hp
      exact ih _ (pointsIn_appendPath he ha (hp p (by simp))) (fun q hq => hp q (by simp [hq]))
  cases ps with
  | nil => cases hr
  | cons p ps =>
    cases hr
    exact key ps _ (pointsIn_clone he (h p (by simp))) (fun q hq => h q (by simp [hq]))

theorem pointsIn_linesFrom (he : ExactEq F) {S : Pt F → Prop} : ∀ (a : Point F) (qs : List (Pt F)), S (pt a) → (∀ q ∈ qs, S q) →
    (∀ s ∈ linesFrom a qs, PointsIn S s) ∧ S (pt (lastFrom a qs))
  | a, [], ha, _ => ⟨by simp [linesFrom], ha⟩
  | a, q :: qs, ha, h => by
    have hq : S (pt (newPoint q.1 q.2)) := by
      rw [pt_exact he]
      exact h q (by simp)
    obtain ⟨h1, h2⟩ := pointsIn_linesFrom he (newPoint q.1 q.2) qs hq (fun x hx => h x (by simp [hx]))
    refine ⟨?_, h2⟩
    intro s hs
    rcases List.mem_cons.1 hs with rfl | hs
    · exact ⟨ha, hq⟩
    · exact h1 s hs

theorem pointsIn_drawings (he : ExactEq F) {S : Pt F → Prop} : ∀ (ds : List (List (Pt F))) (a : Point F), S (pt a) → (∀ q ∈ ds.flatten, S q) →
    ∀ p ∈ drawings a ds, ∀ s ∈ p, PointsIn S s
  | [], a, _, _ => by simp [drawings]
  | qs :: ds, a, ha, h => by
    obtain ⟨h1, h2⟩ := pointsIn_linesFrom he a qs ha (fun q hq => h q (by simp [hq]))
    intro p hp
    rcases List.mem_cons.1 hp with rfl | hp
    · intro s hs
      rcases List.mem_cons.1 hs with rfl | hs
      · exact ha
      · exact h1 s hs
    · exact pointsIn_drawings he ds _ h2 (fun q hq => h q (by
        obtain ⟨l, hl, hq⟩ := List.mem_flatten.1 hq
        simp only [List.flatten_cons, List.mem_append]
        exact .inr (List.mem_flatten.2 ⟨l, hl, hq⟩))) p hp

theorem inked_linesFrom : ∀ (a : Point F) (qs : List (Pt F)), Inked (some (pt a)) (linesFrom a qs)
  | a, [] => trivial
  | a, q :: qs => ⟨rfl, inked_linesFrom (newPoint q.1 q.2) qs⟩

theorem inked_drawings : ∀ (ds : List (List (Pt F))) (a : Point F), ∀ p ∈ drawings a ds, Inked none p
  | [], a => by simp [drawings]
  | qs :: ds, a => by
    intro p hp
    rcases List.mem_cons.1 hp with rfl | hp
    · exact inked_linesFrom a qs
    · exact inked_drawings ds _ p hp

/-- A part of drawings of lines. -/
theorem render_part (he : ExactEq F) (m : Machine F O) (hf : 0 < m.fuel) (n : Nat) (doc e : Elem F) (hn : slice e.original Render.transformsKey = []) (i : Text)
    (ds : List (List (Pt F))) (hd : ds.flatten ≠ []) (g : DMap F) (a : Point F) :
    ∃ j : Path F, m.render (n + 2) ⟨doc, [], false⟩ (.mk .part i e (ds.map (liveDraw m.world))) g a =
        .ok (collapseMoves (trimWhitespace j), .mk .part i e (ds.map (liveDraw m.world)), g) ∧ strokes j = polyline (pt a) ds.flatten ∧ Inked none j ∧
      ∀ S : Pt F → Prop, S (pt a) → (∀ q ∈ ds.flatten, S q) → ∀ s ∈ j, PointsIn S s := by
  have hne : drawings a ds ≠ [] := by
    cases ds with
    | nil => simp at hd
    | cons => simp [drawings]
  obtain ⟨j, h1, h2⟩ := simpleJoin_exact he (drawings a ds) hne
  rw [strokes_drawings he] at h2
  have hj : j ≠ [] := by
    rintro rfl
    cases e : ds.flatten with
    | nil => exact absurd e hd
    | cons =>
      rw [e] at h2
      simp [polyline, strokes] at h2
  refine ⟨j, ?_, h2, inked_simpleJoin (inked_drawings ds a) h1, fun S ha h => pointsIn_simpleJoin he (pointsIn_drawings he ds a ha h) h1⟩
  rw [Machine.render.eq_def]
  simp only [Live.kind, Machine.renderPartNode, Live.children, Live.elem, Live.id]
  rw [render_draws m hf, Res.ok_bind]
  simp only
  rw [if_neg (by simpa using hne), h1, Res.ok_bind]
  simp only [Machine.finishAt, hn, List.map_nil]
  rw [finish_none _ _ _ hj, Res.ok_bind]

/-! ## Parts -/

/-- The part as it is made. -/
def madeMap (o : Shape F) : DMap F :=
  [("id".toList, .str o.id), ("components".toList, .list (o.drawings.map fun qs => .map (drawMap qs))), ("type".toList, .str "part".toList)]

/-- The document as it is made does not have what is not in it. -/
structure Bare (doc : Elem F) : Prop where
  params : doc.params = []
  defaults : doc.defaults = []
  absent : ∀ k, k ∉ ["material_width".toList, "material_height".toList, "doc_padding".toList, "parts".toList] → doc.original.lookup k = none

theorem Bare.get {doc : Elem F} (h : Bare doc) {key k : Text} {ks : List Text} (hd : dots key = k :: ks)
    (h1 : key ∉ ["material_width".toList, "material_height".toList, "doc_padding".toList, "parts".toList])
    (h2 : k ∉ ["material_width".toList, "material_height".toList, "doc_padding".toList, "parts".toList]) : Dyn.get doc.original key = none :=
  get_absent hd (h.absent _ h1) (h.absent _ h2)

theorem Bare.allParams {doc : Elem F} (h : Bare doc) : doc.allParams = [] := by
  have : Dyn.get doc.original paramsKey = none := h.get (k := paramsKey) (ks := []) (by decide +kernel) (by decide +kernel) (by decide +kernel)
  simp [Elem.allParams, h.params, getDynMap, this]

/-- The part while it is rendered. -/
def shownMap (o : Shape F) : DMap F :=
  [("id".toList, .str o.id), ("components".toList, .list (o.drawings.map fun qs => .map (drawMap qs))), ("type".toList, .str "part".toList),
    ("part_index".toList, indexVal 0)]

theorem setVar_made (o : Shape F) : setVar ⟨[], madeMap o, []⟩ partIndexKey (indexVal 0) = ⟨[], shownMap o, []⟩ := rfl

/-- Not in the map of a part. -/
theorem shown_absent (o : Shape F) (k : Text) (h : k ∉ ["id".toList, "components".toList, "type".toList, "part_index".toList]) : (shownMap o).lookup k = none := by
  simp only [List.mem_cons, List.not_mem_nil, or_false, not_or] at h
  obtain ⟨h1, h2, h3, h4⟩ := h
  simp only [shownMap, List.lookup, beq_eq_false_iff_ne.mpr h1, beq_eq_false_iff_ne.mpr h2, beq_eq_false_iff_ne.mpr h3, beq_eq_false_iff_ne.mpr h4]

theorem made_absent (o : Shape F) (k : Text) (h : k ∉ ["id".toList, "components".toList, "type".toList, "part_index".toList]) : (madeMap o).lookup k = none := by
  simp only [List.mem_cons, List.not_mem_nil, or_false, not_or] at h
  obtain ⟨h1, h2, h3, h4⟩ := h
  simp only [madeMap, List.lookup, beq_eq_false_iff_ne.mpr h1, beq_eq_false_iff_ne.mpr h2, beq_eq_false_iff_ne.mpr h3]

/-- The attributes that a part of this kind does not have. -/
theorem find_part (lib : Lib F O) (printed : Val F → Text) (doc : Elem F) (hd : Bare doc) (mp : DMap F)
    (hm : ∀ k, k ∉ ["id".toList, "components".toList, "type".toList, "part_index".toList] → mp.lookup k = none) (cursor : Option (Point F)) (key : Text)
    (hk : key ∈ [repeatTotalKey, labelTextKey, labelPositionKey]) :
    Source.find ⟨lib, printed, .component ⟨[], mp, []⟩ (.document doc []), mp, cursor⟩ key = none := by
  obtain ⟨k, ks, h1, h2, h3, h4, h5⟩ : ∃ k ks, dots key = k :: ks ∧ key ∉ ["id".toList, "components".toList, "type".toList, "part_index".toList] ∧
      k ∉ ["id".toList, "components".toList, "type".toList, "part_index".toList] ∧
      key ∉ ["material_width".toList, "material_height".toList, "doc_padding".toList, "parts".toList] ∧
      k ∉ ["material_width".toList, "material_height".toList, "doc_padding".toList, "parts".toList] := by
    simp only [List.mem_cons, List.not_mem_nil, or_false] at hk
    rcases hk with rfl | rfl | rfl
    · exact ⟨"repeat".toList, ["total".toList], by decide +kernel, by decide +kernel, by decide +kernel, by decide +kernel, by decide +kernel⟩
    · exact ⟨"label".toList, ["text".toList], by decide +kernel, by decide +kernel, by decide +kernel, by decide +kernel, by decide +kernel⟩
    · exact ⟨"label".toList, ["position".toList], by decide +kernel, by decide +kernel, by decide +kernel, by decide +kernel, by decide +kernel⟩
  have hg : Dyn.get mp key = none := get_absent h1 (hm _ h2) (hm _ h3)
  have hp : (⟨[], mp, []⟩ : Elem F).allParams = [] := by
    have : Dyn.get mp paramsKey = none := get_absent (k := paramsKey) (ks := []) (by decide +kernel) (hm _ (by decide +kernel)) (hm _ (by decide +kernel))
    simp [Elem.allParams, getDynMap, this]
  exact find_absent lib printed _ _ _ _ _ _ hg (by rw [hp]; exact Render.get_nil _) hg (Render.get_nil _) (by rw [hd.allParams]; exact Render.get_nil _)
    (hd.get h1 h4 h5) (by rw [hd.defaults]; exact Render.get_nil _) (Render.get_nil _)

/-- What a part of lines is rendered to. -/
theorem renderPart_shape (he : ExactEq F) (m : Machine F O) (hf : 0 < m.fuel) (doc : Elem F) (hd : Bare doc) (customs : List (Text × DMap F)) (i : Text) (o : Shape F)
    (ho : o.points ≠ []) : ∃ j : Path F, strokes j = polyline (pt origin) o.points ∧ Inked none j ∧
      (∀ S : Pt F → Prop, S (pt origin) → (∀ q ∈ o.points, S q) → ∀ s ∈ j, PointsIn S s) ∧
      m.renderPart doc customs (.mk .part i ⟨[], madeMap o, []⟩ (o.drawings.map (liveDraw m.world))) [] =
        .ok ([⟨trimWhitespace (collapseMoves (trimWhitespace j)), (measure (trimWhitespace (collapseMoves (trimWhitespace j)))).1,
          (measure (trimWhitespace (collapseMoves (trimWhitespace j)))).2, ⟨[], Attr.bottomMiddle.text⟩⟩], []) := by
  obtain ⟨f, hf'⟩ : ∃ f, m.fuel = f + 1 := ⟨m.fuel - 1, by omega⟩
  obtain ⟨j, h1, h2, h3, h4⟩ := render_part he m hf f doc ⟨[], shownMap o, []⟩ rfl i o.drawings ho [] origin
  refine ⟨j, h2, h3, h4, ?_⟩
  have ht : m.int (m.partAttrs doc [] ⟨[], madeMap o, []⟩ (madeMap o)) repeatTotalKey 1 = 1 := by
    unfold Machine.int Source.number Machine.partAttrs Machine.attrs
    rw [show chainOf (Spot.mk doc [] false).doc [] (Spot.mk doc [] false).ups = .document doc [] from rfl,
      find_part m.lib m.world.printed doc hd (madeMap o) (made_absent o) none repeatTotalKey (by simp)]
    rfl
  have hl : Machine.labelOf (m.partAttrs doc [] ⟨[], shownMap o, []⟩ (shownMap o)) 1 0 = ⟨[], Attr.bottomMiddle.text⟩ := by
    have e1 : (m.partAttrs doc [] ⟨[], shownMap o, []⟩ (shownMap o)).find labelTextKey = none :=
      find_part m.lib m.world.printed doc hd (shownMap o) (shown_absent o) none labelTextKey (by simp)
    have e2 : (m.partAttrs doc [] ⟨[], shownMap o, []⟩ (shownMap o)).find labelPositionKey = none :=
      find_part m.lib m.world.printed doc hd (shownMap o) (shown_absent o) none labelPositionKey (by simp)
    simp [Machine.labelOf, Source.string, Source.handle, e1, e2]
  unfold Machine.renderPart
  simp only [Live.elem]
  rw [ht, show List.range (1 : Int).toNat = [0] from rfl]
  simp only [Machine.partCopies, Live.setVar, setVar_made]
  rw [hf'] at *
  rw [h1]
  simp only [Res.ok_bind, Live.elem, hl]
  have ht : slice (shownMap o) partTransformersKey = [] := by
    rw [slice_plain (by decide +kernel), shown_absent o _ (by decide +kernel)]
  simp only [ht, Machine.makeTransformers, need, Machine.runTransformers]

/-! ## Documents -/

theorem neat_line (q : Pt F) : Neat (.map (lineMap q)) := by
  refine .map (by simp [lineMap]) ?_ ?_
  · intro e he
    simp only [lineMap, List.mem_cons, List.not_mem_nil, or_false] at he
    rcases he with rfl | rfl <;> simp only <;> decide +kernel
  · intro e he
    simp only [lineMap, List.mem_cons, List.not_mem_nil, or_false] at he
    rcases he with rfl | rfl
    · exact .str _
    · refine .map (by simp) ?_ ?_ <;> intro e he <;> simp only [List.mem_cons, List.not_mem_nil, or_false] at he
      · rcases he with rfl | rfl <;> simp only <;> decide +kernel
      · rcases he with rfl | rfl <;> exact .num _

theorem neat_draw (qs : List (Pt F)) : Neat (.map (drawMap qs)) := by
  refine .map (by simp [drawMap]) ?_ ?_ <;> intro e he <;> simp only [drawMap, List.mem_cons, List.not_mem_nil, or_false] at he
  · rcases he with rfl | rfl <;> simp only <;> decide +kernel
  · rcases he with rfl | rfl
    · exact .str _
    · refine .list fun v hv => ?_
      obtain ⟨q, _, rfl⟩ := List.mem_map.mp hv
      exact neat_line q

theorem neat_part (o : Shape F) : Neat (.map (partMap o)) := by
  refine .map (by simp [partMap]) ?_ ?_ <;> intro e he <;> simp only [partMap, List.mem_cons, List.not_mem_nil, or_false] at he
  · rcases he with rfl | rfl <;> simp only <;> decide +kernel
  · rcases he with rfl | rfl
    · exact .str _
    · refine .list fun v hv => ?_
      obtain ⟨q, _, rfl⟩ := List.mem_map.mp hv
      exact neat_draw q

theorem neat_shapeDoc (s : Sheet F) (os : List (Shape F)) : Neat (.map (shapeDoc s os)) := by
  refine .map (by simp [shapeDoc]) ?_ ?_ <;> intro e he <;> simp only [shapeDoc, List.mem_cons, List.not_mem_nil, or_false] at he
  · rcases he with rfl | rfl | rfl | rfl <;> simp only <;> decide +kernel
  · rcases he with rfl | rfl | rfl | rfl
    · exact .num _
    · exact .num _
    · exact .num _
    · refine .list fun v hv => ?_
      obtain ⟨q, _, rfl⟩ := List.mem_map.mp hv
      exact neat_part q

/-- The nodes that are made. -/
def drawNode (w : World F) (qs : List (Pt F)) : Dyn.Node F := .mk (w.idOf (drawMap qs)) (drawMap qs) []

def madeNode (w : World F) (o : Shape F) : Dyn.Node F := .mk (w.idOf (madeMap o)) (madeMap o) (o.drawings.map (drawNode w))

theorem make_draw (w : World F) (cs : List (Text × DMap F)) (n : Nat) (qs : List (Pt F)) : w.make cs (n + 1) (drawMap qs) = .val (drawNode w qs) := by
  have h1 : w.text (drawMap qs) typeKey = some Built.draw.text := text_type w (b := .draw) rfl
  rw [World.make]
  simp only [h1, built_text, World.create]
  rfl

theorem makeList_map {α : Type u} {β : Type u} {F : Type u} {f : DMap F → Out β} {g : α → DMap F} {h : α → β} (e : ∀ a, f (g a) = .val (h a)) (l : List α) :
    makeList f (l.map g) = .val (l.map h) := by
  induction l with
  | nil => rfl
  | cons a l ih => simp only [List.map_cons, makeList, e, ih]

theorem create_part (w : World F) (cs : List (Text × DMap F)) (n : Nat) (o : Shape F) :
    w.create (w.make cs (n + 1)) .part (partMap o) = .val (madeNode w o) := by
  have h1 : putIfAbsent (partMap o) typeKey (.str partText) = madeMap o := rfl
  have h2 : slice (madeMap o) componentsKey = o.drawings.map drawMap := by
    rw [slice_plain (by decide +kernel)]
    rw [show (madeMap o).lookup componentsKey = some (.list (o.drawings.map fun qs => .map (drawMap qs))) from rfl]
    have : (o.drawings.map fun qs => (.map (drawMap qs) : Val F)) = (o.drawings.map drawMap).map .map := by simp
    simp only [this, mapItems_maps, Option.getD_some]
  have h3 : withComponents (madeMap o) (o.drawings.map (drawNode w)) = madeMap o := by
    have : (o.drawings.map (drawNode w)).map (fun c => (.map c.map : Val F)) = o.drawings.map fun qs => .map (drawMap qs) := by
      simp [drawNode, Dyn.Node.map, Function.comp_def]
    unfold withComponents
    rw [this]
    rfl
  simp only [World.create, clone_neat (neat_part o), h1, h2]
  rw [makeList_map (make_draw w cs n)]
  simp only [h3]
  rfl

/-- The document that is made. -/
def madeDoc (w : World F) (s : Sheet F) (os : List (Shape F)) : Doc F :=
  ⟨w.idOf (shapeDoc s os), withParts (shapeDoc s os) (os.map (madeNode w)), [], [], [], os.map (madeNode w)⟩

theorem text_filename (w : World F) (s : Sheet F) (os : List (Shape F)) : w.text (shapeDoc s os) filenameKey = none := by
  have : Dyn.get (shapeDoc s os) filenameKey = none := rfl
  simp only [World.text, this]

theorem parse_outline (w : World F) (n files : Nat) (s : Sheet F) (os : List (Shape F)) :
    w.parse (n + 1) (files + 1) (shapeDoc s os) = .val (madeDoc w s os) := by
  have h2 : slice (shapeDoc s os) importsKey = [] := rfl
  have h3 : slice (shapeDoc s os) partsKey = os.map partMap := by
    rw [slice_plain (by decide +kernel)]
    rw [show (shapeDoc s os).lookup partsKey = some (.list (os.map fun o => .map (partMap o))) from rfl]
    have : (os.map fun qs => (.map (partMap qs) : Val F)) = (os.map partMap).map .map := by simp
    simp only [this, mapItems_maps, Option.getD_some]
  rw [World.parse]
  simp only [text_filename w s os, h2, World.runImports, h3]
  rw [makeList_map (create_part w [] n)]
  rfl

theorem doc_lookup (w : World F) (s : Sheet F) (os : List (Shape F)) (k : Text) (hk : k ≠ "parts".toList) :
    (madeDoc w s os).map.lookup k = (shapeDoc s os).lookup k :=
  (C113_map w 1 0 (shapeDoc s os) (neat_shapeDoc s os) (madeDoc w s os) (text_filename w s os) (parse_outline w 0 0 s os)).2 k hk

theorem doc_absent (s : Sheet F) (os : List (Shape F)) (k : Text)
    (h : k ∉ ["material_width".toList, "material_height".toList, "doc_padding".toList, "parts".toList]) : (shapeDoc s os).lookup k = none := by
  simp only [List.mem_cons, List.not_mem_nil, or_false, not_or] at h
  obtain ⟨h1, h2, h3, h4⟩ := h
  simp only [shapeDoc, List.lookup, beq_eq_false_iff_ne.mpr h1, beq_eq_false_iff_ne.mpr h2, beq_eq_false_iff_ne.mpr h3, beq_eq_false_iff_ne.mpr h4]

theorem bare_doc (w : World F) (s : Sheet F) (os : List (Shape F)) : Bare (Machine.docElem (madeDoc w s os)) where
  params := rfl
  defaults := by
    show sub (madeDoc w s os).map defaultsKey = []
    rw [sub_plain (by decide +kernel), doc_lookup w s os _ (by decide +kernel), doc_absent s os _ (by decide +kernel)]
    rfl
  absent := fun k hk => by
    rw [show (Machine.docElem (madeDoc w s os)).original = (madeDoc w s os).map from rfl, doc_lookup w s os k (by rintro rfl; exact hk (by simp)), doc_absent s os k hk]

theorem live_drawing (w : World F) (qs : List (Pt F)) : live w (drawNode w qs) = liveDraw w qs := by
  have h1 : w.text (drawMap qs) typeKey = some Built.draw.text := text_type w (b := .draw) rfl
  rw [drawNode, live, h1, Option.getD_some, built_text]
  rfl

theorem livePart_made (w : World F) (o : Shape F) :
    livePart w (madeNode w o) = .mk .part (w.idOf (madeMap o)) ⟨[], madeMap o, []⟩ (o.drawings.map (liveDraw w)) := by
  have : ∀ ds : List (List (Pt F)), lives w (ds.map (drawNode w)) = ds.map (liveDraw w) := by
    intro ds
    induction ds with
    | nil => rfl
    | cons d ds ih => rw [List.map_cons, List.map_cons, lives, ih, live_drawing]
  unfold livePart madeNode
  simp only [Dyn.Node.children, this]
  rfl

theorem number_doc (m : Machine F O) (s : Sheet F) (os : List (Shape F)) (key : Text) (x d : F) (hk : key ≠ "parts".toList) (hp : '.' ∉ key)
    (h : (shapeDoc s os).lookup key = some (.num x)) : m.number (m.docAttrs (Machine.docElem (madeDoc m.world s os)) []) key d = x := by
  unfold Machine.number
  rw [C91_number _ _ _ x]
  · rfl
  · show Dyn.get (madeDoc m.world s os).map key = _
    rw [get_plain hp, doc_lookup _ _ _ _ hk, h]

theorem sheetOf_doc (m : Machine F O) (s : Sheet F) (os : List (Shape F)) : m.sheetOf (Machine.docElem (madeDoc m.world s os)) [] = s := by
  simp only [Machine.sheetOf]
  rw [number_doc m s os materialWidthKey s.width _ (by decide +kernel) (by decide +kernel) rfl,
    number_doc m s os materialHeightKey s.height _ (by decide +kernel) (by decide +kernel) rfl,
    number_doc m s os docPaddingKey s.padding _ (by decide +kernel) (by decide +kernel) rfl]

theorem pageOf_doc (m : Machine F O) (s : Sheet F) (os : List (Shape F)) :
    m.pageOf (Machine.docElem (madeDoc m.world s os)) [] = newPage s.width s.height .inch := by
  have hb := bare_doc m.world s os
  have hg : Dyn.get (Machine.docElem (madeDoc m.world s os)).original unitsKey = none := hb.get (k := unitsKey) (ks := []) (by decide +kernel) (by decide +kernel) (by decide +kernel)
  have h : (m.docAttrs (Machine.docElem (madeDoc m.world s os)) []).find unitsKey = none := by
    have l : Chain.lookup (.document (Machine.docElem (madeDoc m.world s os)) []) unitsKey = none := by
      rw [Chain.lookup]
      exact define_absent (c := .document _ []) (by rw [show Chain.elem (.document (Machine.docElem (madeDoc m.world s os)) []) = Machine.docElem (madeDoc m.world s os) from rfl, hb.allParams]; exact Render.get_nil _) hg (Render.get_nil _)
    unfold Source.find Machine.docAttrs
    rw [attrLookup]
    simp only [show ¬ 0 > recursionMax from by decide, if_false, hg, l]
    rw [attrDefault]
    simp only [Chain.elem, hb.defaults, Render.get_nil]
  unfold Machine.pageOf
  rw [sheetOf_doc]
  simp only [Source.string, h]
  rfl

theorem idOf_made (w : World F) (o : Shape F) (h : o.id ≠ []) : w.idOf (madeMap o) = o.id := by
  have : Dyn.get (madeMap o) idKey = some (.str o.id) := rfl
  simp only [World.idOf, World.text, this, if_neg h, Option.getD_some]


/-! ## Sheets -/

theorem plan_shapes (m : Machine F O) (doc : Elem F) (customs : List (Text × DMap F)) (s : Sheet F) (hs : m.sheetOf doc [] = s)
    (page : Page F) (hp : m.pageOf doc [] = page) : ∀ (os : List (Shape F)) (parts : List (RenderedPart F (Drawing F)))
      (_ : List.Forall₂ (fun o p => ∃ q, m.renderPart doc customs (livePart m.world (madeNode m.world o)) [] = .ok ([q], []) ∧
        Machine.toLayout (livePart m.world (madeNode m.world o)).id q = p) os parts) (docs docs' : List (SvgDoc F (Drawing F))),
      initLoop s docs (parts.map fun p => some [p]) = some (docs', .ok) →
      m.plan doc customs ((os.map (madeNode m.world)).map (livePart m.world)) [] docs (List.replicate docs.length page) =
        .ok (docs', List.replicate docs'.length page)
  | [], _, .nil, docs, docs', h => by
    simp only [List.map_nil, initLoop, Option.some.injEq, Prod.mk.injEq, and_true] at h
    subst h
    rfl
  | o :: os, p :: ps, .cons ⟨q, e1, e2⟩ hr, docs, docs', h => by
    simp only [List.map_cons, initLoop] at h
    cases ha : addRendered s docs [p] with
    | none => rw [ha] at h; cases h
    | some x =>
      obtain ⟨docs1, res⟩ := x
      rw [ha] at h
      cases res with
      | ok =>
        simp only at h
        have hl := addRendered_length ha
        simp only [List.map_cons, Machine.plan]
        rw [e1]
        simp only [Res.ok_bind, hs, List.map_cons, List.map_nil, e2, ha, hp]
        rw [← List.replicate_add, show docs.length + (docs1.length - docs.length) = docs1.length by omega]
        exact plan_shapes m doc customs s hs page hp os ps hr docs1 docs' h
      | renderError => cases h
      | addError => cases h
      | tooBig => cases h

end

end Verif.Shapes
