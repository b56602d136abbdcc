import Verif.Spec.Piece
import Verif.Props.SeenPart

/-!
# Lemmas: documents whose parts have any components
-/

set_option linter.unusedSectionVars false

namespace Verif.Render

open Verif Verif.Dyn Verif.Path Verif.PlanSet Verif.Svg Verif.Files Verif.Xml Verif.Spec

variable {O : Type}

theorem inked_finPath : ∀ (cur : Option (Pt ℝ)) (p : Path ℝ), Inked (cur.map fun q => ((.fin q.1, .fin q.2) : Pt (XNum ℝ))) (finPath p) ↔ Inked cur p
  | _, [] => Iff.rfl
  | cur, .move a b :: p => inked_finPath (some (pt b)) p
  | cur, .line a b :: p => by
    have h := inked_finPath (some (pt b)) p
    show (_ ∧ Inked _ (finPath p)) ↔ _ ∧ _
    refine and_congr ?_ h
    cases cur <;> simp [pt, finPt, Prod.ext_iff]
  | cur, .curve a c d b :: p => by
    have h := inked_finPath (some (pt b)) p
    show (_ ∧ Inked _ (finPath p)) ↔ _ ∧ _
    refine and_congr ?_ h
    cases cur <;> simp [pt, finPt, Prod.ext_iff]

/-- The part as it is made. -/
def madePiece (o : Piece) : DMap (XNum ℝ) :=
  [("id".toList, .str o.id), ("components".toList, .list (o.components.map .map)), ("type".toList, .str "part".toList)]

/-- The part while it is rendered. -/
noncomputable def shownPiece (o : Piece) : DMap (XNum ℝ) :=
  [("id".toList, .str o.id), ("components".toList, .list (o.components.map .map)), ("type".toList, .str "part".toList), ("part_index".toList, indexVal 0)]

theorem setVar_piece (o : Piece) : setVar ⟨[], madePiece o, []⟩ partIndexKey (indexVal 0) = ⟨[], shownPiece o, []⟩ := rfl

theorem shownPiece_absent (o : Piece) (k : Text) (h : k ∉ ["id".toList, "components".toList, "type".toList, "part_index".toList]) :
    (shownPiece o).lookup k = none := by
  simp only [List.mem_cons, List.not_mem_nil, or_false, not_or] at h
  obtain ⟨h1, h2, h3, h4⟩ := h
  simp only [shownPiece, List.lookup, beq_eq_false_iff_ne.mpr h1, beq_eq_false_iff_ne.mpr h2, beq_eq_false_iff_ne.mpr h3, beq_eq_false_iff_ne.mpr h4]

theorem madePiece_absent (o : Piece) (k : Text) (h : k ∉ ["id".toList, "components".toList, "type".toList, "part_index".toList]) :
    (madePiece o).lookup k = none := by
  simp only [List.mem_cons, List.not_mem_nil, or_false, not_or] at h
  obtain ⟨h1, h2, h3, h4⟩ := h
  simp only [madePiece, List.lookup, beq_eq_false_iff_ne.mpr h1, beq_eq_false_iff_ne.mpr h2, beq_eq_false_iff_ne.mpr h3]

/-- Where the components of a piece are rendered. -/
noncomputable def pieceSpot (doc : Elem (XNum ℝ)) (o : Piece) : Spot (XNum ℝ) := ⟨doc, [⟨[], shownPiece o, []⟩], false⟩

/-- A piece whose components draw finite paths, read as they are drawn, is rendered to their strokes, moved so that its box begins at the origin. -/
theorem renderPart_piece (m : Machine (XNum ℝ) O) (doc : Elem (XNum ℝ)) (hd : Bare doc) (customs : List (Text × DMap (XNum ℝ))) (i : Text) (o : Piece)
    (ls ls' : List (Live (XNum ℝ))) (ps : List (Path ℝ)) (hi : ∀ p ∈ ps, Inked none p) (hne : ps.flatMap strokes ≠ [])
    (hb : ∀ q, Covered (ps.flatMap strokes) q → |q.1| < 2 ^ 62 ∧ |q.2| < 2 ^ 62)
    (hr : renderAllOf (m.render m.fuel (pieceSpot doc o)) ls [] (finPt origin) = .ok (ps.map finPath, ls', [])) :
    ∃ (r : Path ℝ) (dx dy w h : ℝ), m.renderPart doc customs (.mk .part i ⟨[], madePiece o, []⟩ ls) [] =
        .ok ([⟨finPath r, .fin w, .fin h, ⟨[], Attr.bottomMiddle.text⟩⟩], []) ∧
      strokes r = (ps.flatMap strokes).map (Stroke.map (translate dx dy)) ∧ BoxOf (Drawn r) (0, 0) (w, h) ∧ Inked none r := by
  have hps : ps ≠ [] := by
    rintro rfl
    exact hne rfl
  obtain ⟨j, h1, h2⟩ := simpleJoin_strokes ps hps
  have hij : Inked none j := by
    have : ∀ p ∈ ps.map finPath, Inked none p := by
      intro p hp
      obtain ⟨p, hp', rfl⟩ := List.mem_map.mp hp
      exact (inked_finPath none p).2 (hi p hp')
    exact (inked_finPath none j).1 (inked_simpleJoin this h1)
  have hs : strokes j ≠ [] := by
    rw [h2]
    exact hne
  obtain ⟨dx, dy, h3, br, h4⟩ := C29_trim j hs (small_bounded (by rw [h2]; exact hb))
  have hj : finPath j ≠ [] := by
    intro e
    have : j = [] := by simpa [finPath] using e
    rw [this] at hs
    exact hs rfl
  have k1 : m.render (m.fuel + 1) ⟨doc, [], false⟩ (.mk .part i ⟨[], shownPiece o, []⟩ ls) [] (finPt origin) =
      .ok (finPath (collapseMoves (shift dx dy j)), .mk .part i ⟨[], shownPiece o, []⟩ ls', []) := by
    have he : slice (shownPiece o) transformsKey = [] := by
      rw [slice_plain (by decide +kernel), shownPiece_absent o _ (by decide +kernel)]
    rw [Machine.render.eq_def]
    simp only [Live.kind, Machine.renderPartNode, Live.children, Live.elem, Live.id]
    have hr' : renderAllOf (m.render m.fuel (Machine.below ⟨doc, [], false⟩ ⟨[], shownPiece o, []⟩ (!(([] : List (Elem (XNum ℝ))).isEmpty)))) ls [] (finPt origin) =
        .ok (ps.map finPath, ls', []) := hr
    rw [hr', Res.ok_bind]
    simp only
    rw [if_neg (by simpa using hps), h1, Res.ok_bind]
    simp only [Machine.finishAt, he, List.map_nil]
    rw [finish_none _ _ _ hj, Res.ok_bind, h3, collapse_fin]
  have k2 : strokes (collapseMoves (shift dx dy j)) = (ps.flatMap strokes).map (Stroke.map (translate dx dy)) := by
    rw [strokes_collapseMoves, C27_shift, h2]
  have k3 : BoxOf (Drawn (collapseMoves (shift dx dy j))) (0, 0) br := by
    have : Drawn (collapseMoves (shift dx dy j)) = Drawn (shift dx dy j) := by
      funext x
      simp only [Drawn, strokes_collapseMoves]
    rw [this]
    exact h4
  have k4 : Inked none (collapseMoves (shift dx dy j)) := inked_collapseMoves (inked_shift dx dy hij)
  generalize collapseMoves (shift dx dy j) = r at k1 k2 k3 k4
  have hne' : strokes r ≠ [] := by
    rw [k2]
    simpa using hne
  obtain ⟨dx', dy', h5, br', h6⟩ := C29_trim r hne' (small_moved hb k2 k3)
  have h7 := shift_shift k2 dx' dy'
  have hne2 : strokes (shift dx' dy' r) ≠ [] := by
    rw [C27_shift]
    simpa using hne'
  have h8 := measure_fin hne2 (small_moved hb h7 h6) h6
  refine ⟨shift dx' dy' r, dx + dx', dy + dy', br'.1, br'.2, ?_, h7, h6, inked_shift dx' dy' k4⟩
  have ht : m.int (m.partAttrs doc [] ⟨[], madePiece o, []⟩ (madePiece o)) repeatTotalKey 1 = 1 := by
    unfold Machine.int Source.number Machine.partAttrs Machine.attrs
    rw [show chainOf (Spot.mk doc [] false).doc [] (Spot.mk doc [] false).ups = .document doc [] from rfl,
      find_part m.lib m.world.printed doc hd (madePiece o) (madePiece_absent o) none repeatTotalKey (by simp)]
    rfl
  have hl : Machine.labelOf (m.partAttrs doc [] ⟨[], shownPiece o, []⟩ (shownPiece o)) 1 0 = ⟨[], Attr.bottomMiddle.text⟩ := by
    have e1 : (m.partAttrs doc [] ⟨[], shownPiece o, []⟩ (shownPiece o)).find labelTextKey = none :=
      find_part m.lib m.world.printed doc hd (shownPiece o) (shownPiece_absent o) none labelTextKey (by simp)
    have e2 : (m.partAttrs doc [] ⟨[], shownPiece o, []⟩ (shownPiece o)).find labelPositionKey = none :=
      find_part m.lib m.world.printed doc hd (shownPiece o) (shownPiece_absent o) none labelPositionKey (by simp)
    simp [Machine.labelOf, Source.string, Source.handle, e1, e2]
  unfold Machine.renderPart
  simp only [Live.elem]
  rw [ht, show List.range (1 : Int).toNat = [0] from rfl]
  simp only [Machine.partCopies, Live.setVar, setVar_piece]
  rw [← origin_fin] at k1
  rw [k1]
  simp only [Res.ok_bind, Live.elem, h5, h8, hl]
  have ht : slice (shownPiece o) partTransformersKey = [] := by
    rw [slice_plain (by decide +kernel), shownPiece_absent o _ (by decide +kernel)]
  simp only [ht, Machine.makeTransformers, need, Machine.runTransformers, sub_zero]

/-! ## Documents -/

theorem neat_pieceMap {o : Piece} (h : o.Neat) : Neat (.map (pieceMap o)) := by
  refine .map (by simp [pieceMap]) ?_ ?_ <;> intro e he <;> simp only [pieceMap, List.mem_cons, List.not_mem_nil, or_false] at he
  · rcases he with rfl | rfl <;> simp only <;> decide +kernel
  · rcases he with rfl | rfl
    · exact .str _
    · refine .list fun v hv => ?_
      obtain ⟨q, hq, rfl⟩ := List.mem_map.mp hv
      exact h q hq

theorem neat_pieceDoc (s : Sheet ℝ) {os : List Piece} (h : ∀ o ∈ os, o.Neat) : Neat (.map (pieceDoc s os)) := by
  refine .map (by simp [pieceDoc]) ?_ ?_ <;> intro e he <;> simp only [pieceDoc, List.mem_cons, List.not_mem_nil, or_false] at he
  · rcases he with rfl | rfl | rfl | rfl <;> simp only <;> decide +kernel
  · rcases he with rfl | rfl | rfl | rfl
    · exact .num _
    · exact .num _
    · exact .num _
    · refine .list fun v hv => ?_
      obtain ⟨q, hq, rfl⟩ := List.mem_map.mp hv
      exact neat_pieceMap (h q hq)

/-- The part that is made. -/
def pieceNode (w : World (XNum ℝ)) (nd : DMap (XNum ℝ) → Dyn.Node (XNum ℝ)) (o : Piece) : Dyn.Node (XNum ℝ) :=
  .mk (w.idOf (madePiece o)) (madePiece o) (o.components.map nd)

theorem makeList_forall {α β : Type} {F : Type} {f : DMap F → Out β} {g : α → DMap F} {h : α → β} : ∀ (l : List α) (_ : ∀ a ∈ l, f (g a) = .val (h a)),
    makeList f (l.map g) = .val (l.map h)
  | [], _ => rfl
  | a :: l, e => by
    simp only [List.map_cons, makeList, e a (by simp), makeList_forall l fun b hb => e b (by simp [hb])]

theorem create_piece (w : World (XNum ℝ)) (nd : DMap (XNum ℝ) → Dyn.Node (XNum ℝ)) (xs : List (Text × DMap (XNum ℝ))) (n : Nat) (o : Piece) (ho : o.Neat)
    (hm : ∀ c ∈ o.components, w.make xs n c = .val (nd c) ∧ (nd c).map = c) : w.create (w.make xs n) .part (pieceMap o) = .val (pieceNode w nd o) := by
  have h1 : putIfAbsent (pieceMap o) typeKey (.str partText) = madePiece o := rfl
  have h2 : slice (madePiece o) componentsKey = o.components.map id := by
    rw [slice_plain (by decide +kernel)]
    rw [show (madePiece o).lookup componentsKey = some (.list (o.components.map .map)) from rfl]
    simp only [mapItems_maps, Option.getD_some, List.map_id]
  have h3 : withComponents (madePiece o) (o.components.map nd) = madePiece o := by
    have : (o.components.map nd).map (fun c => (.map c.map : Val (XNum ℝ))) = o.components.map .map := by
      rw [List.map_map]
      exact List.map_congr_left fun c hc => congrArg Val.map (hm c hc).2
    unfold withComponents
    rw [this]
    rfl
  simp only [World.create, clone_neat (neat_pieceMap ho), h1, h2]
  rw [makeList_forall (g := id) o.components (h := nd) fun c hc => (hm c hc).1]
  simp only [h3]
  rfl

/-- The document that is made. -/
def piecesDoc (w : World (XNum ℝ)) (nd : DMap (XNum ℝ) → Dyn.Node (XNum ℝ)) (s : Sheet ℝ) (os : List Piece) : Doc (XNum ℝ) :=
  ⟨w.idOf (pieceDoc s os), withParts (pieceDoc s os) (os.map (pieceNode w nd)), [], [], [], os.map (pieceNode w nd)⟩

theorem piece_filename (w : World (XNum ℝ)) (s : Sheet ℝ) (os : List Piece) : w.text (pieceDoc s os) filenameKey = none := by
  have : Dyn.get (pieceDoc s os) filenameKey = none := rfl
  simp only [World.text, this]

theorem parse_piece (w : World (XNum ℝ)) (nd : DMap (XNum ℝ) → Dyn.Node (XNum ℝ)) (n files : Nat) (s : Sheet ℝ) (os : List Piece) (ho : ∀ o ∈ os, o.Neat)
    (hm : ∀ o ∈ os, ∀ c ∈ o.components, w.make [] n c = .val (nd c) ∧ (nd c).map = c) :
    w.parse n (files + 1) (pieceDoc s os) = .val (piecesDoc w nd s os) := by
  have h2 : slice (pieceDoc s os) importsKey = [] := rfl
  have h3 : slice (pieceDoc s os) partsKey = os.map pieceMap := by
    rw [slice_plain (by decide +kernel)]
    rw [show (pieceDoc s os).lookup partsKey = some (.list (os.map fun o => .map (pieceMap o))) from rfl]
    have : (os.map fun cs => (.map (pieceMap cs) : Val (XNum ℝ))) = (os.map pieceMap).map .map := by simp
    simp only [this, mapItems_maps, Option.getD_some]
  rw [World.parse]
  simp only [piece_filename w s os, h2, World.runImports, h3]
  rw [makeList_forall os (h := pieceNode w nd) fun o h => create_piece w nd [] n o (ho o h) (hm o h)]
  rfl

theorem piece_absent (s : Sheet ℝ) (os : List Piece) (k : Text)
    (h : k ∉ ["material_width".toList, "material_height".toList, "doc_padding".toList, "parts".toList]) : (pieceDoc s os).lookup k = none := by
  simp only [List.mem_cons, List.not_mem_nil, or_false, not_or] at h
  obtain ⟨h1, h2, h3, h4⟩ := h
  simp only [pieceDoc, List.lookup, beq_eq_false_iff_ne.mpr h1, beq_eq_false_iff_ne.mpr h2, beq_eq_false_iff_ne.mpr h3, beq_eq_false_iff_ne.mpr h4]

section Made

variable (w : World (XNum ℝ)) (nd : DMap (XNum ℝ) → Dyn.Node (XNum ℝ)) (s : Sheet ℝ) (os : List Piece) (ho : ∀ o ∈ os, o.Neat)

include ho

theorem piece_lookup (k : Text) (hk : k ≠ "parts".toList) : (piecesDoc w nd s os).map.lookup k = (pieceDoc s os).lookup k := by
  have hk' : k ≠ partsKey := hk
  show (withParts (pieceDoc s os) (os.map (pieceNode w nd))).lookup k = _
  unfold withParts
  rw [remove_one _ _ (show '.' ∉ partsKey by decide), clone_neat (neat_pieceDoc s ho),
    lookup_parts _ _ [] k (.inr ⟨by rw [lookup_erase, if_pos rfl], rfl⟩), if_neg hk', lookup_erase, if_neg hk']

theorem bare_piece : Bare (Machine.docElem (piecesDoc w nd s os)) where
  params := rfl
  defaults := by
    show sub (piecesDoc w nd s os).map defaultsKey = []
    rw [sub_plain (by decide +kernel), piece_lookup w nd s os ho _ (by decide +kernel), piece_absent s os _ (by decide +kernel)]
    rfl
  absent := fun k hk => by
    rw [show (Machine.docElem (piecesDoc w nd s os)).original = (piecesDoc w nd s os).map from rfl, piece_lookup w nd s os ho k (by rintro rfl; exact hk (by simp)),
      piece_absent s os k hk]

end Made

theorem sheetOf_piece (m : Machine (XNum ℝ) O) (nd : DMap (XNum ℝ) → Dyn.Node (XNum ℝ)) (s : Sheet ℝ) (os : List Piece) (ho : ∀ o ∈ os, o.Neat) (g : DMap (XNum ℝ)) :
    m.sheetOf (Machine.docElem (piecesDoc m.world nd s os)) g = finSheet s := by
  refine C140_fixed m _ s ?_ ?_ ?_ g
  · rw [get_plain (by decide +kernel), piece_lookup _ _ _ _ ho _ (by decide +kernel)]; rfl
  · rw [get_plain (by decide +kernel), piece_lookup _ _ _ _ ho _ (by decide +kernel)]; rfl
  · rw [get_plain (by decide +kernel), piece_lookup _ _ _ _ ho _ (by decide +kernel)]; rfl

theorem pageOf_piece (m : Machine (XNum ℝ) O) (nd : DMap (XNum ℝ) → Dyn.Node (XNum ℝ)) (s : Sheet ℝ) (os : List Piece) (ho : ∀ o ∈ os, o.Neat) :
    m.pageOf (Machine.docElem (piecesDoc m.world nd s os)) [] = newPage (.fin s.width) (.fin s.height) .inch := by
  have hb := bare_piece m.world nd s os ho
  have hg : Dyn.get (Machine.docElem (piecesDoc m.world nd s os)).original unitsKey = none :=
    hb.get (k := unitsKey) (ks := []) (by decide +kernel) (by decide +kernel) (by decide +kernel)
  have h : (m.docAttrs (Machine.docElem (piecesDoc m.world nd s os)) []).find unitsKey = none := by
    have l : Chain.lookup (.document (Machine.docElem (piecesDoc m.world nd s os)) []) unitsKey = none := by
      rw [Chain.lookup]
      exact define_absent (c := .document _ []) (by rw [show Chain.elem (.document (Machine.docElem (piecesDoc m.world nd s os)) []) = Machine.docElem (piecesDoc m.world nd s os) from rfl, hb.allParams]; exact Render.get_nil _) hg (Render.get_nil _)
    unfold Source.find Machine.docAttrs
    rw [attrLookup]
    simp only [show ¬ 0 > recursionMax from by decide, if_false, hg, l]
    rw [attrDefault]
    simp only [Chain.elem, hb.defaults, Render.get_nil]
  unfold Machine.pageOf
  rw [sheetOf_piece m nd s os ho]
  simp only [Source.string, h]
  rfl

theorem livePart_piece (w : World (XNum ℝ)) (nd : DMap (XNum ℝ) → Dyn.Node (XNum ℝ)) (o : Piece) :
    livePart w (pieceNode w nd o) = .mk .part (w.idOf (madePiece o)) ⟨[], madePiece o, []⟩ (o.components.map fun c => live w (nd c)) := by
  have : ∀ ds : List (DMap (XNum ℝ)), lives w (ds.map nd) = ds.map fun c => live w (nd c) := by
    intro ds
    induction ds with
    | nil => rfl
    | cons d ds ih => rw [List.map_cons, List.map_cons, lives, ih]
  unfold livePart pieceNode
  simp only [Dyn.Node.children, this]
  rfl

theorem idOf_piece (w : World (XNum ℝ)) (o : Piece) (h : o.id ≠ []) : w.idOf (madePiece o) = o.id := by
  have : Dyn.get (madePiece o) idKey = some (.str o.id) := rfl
  simp only [World.idOf, World.text, this, if_neg h, Option.getD_some]

/-! ## What a reader sees -/

/-- The part is the strokes: its name, no label, its strokes, moved so that they begin at the origin, and their size. -/
structure LaidStrokes (id : Text) (ss : List (Stroke ℝ)) (p : RenderedPart (XNum ℝ) (Drawing (XNum ℝ))) : Prop where
  id : p.payload.id = id
  label : p.payload.label.text = []
  path : ∃ (r : Path ℝ) (dx dy w h : ℝ), p.payload.path = finPath r ∧ p.width = .fin w ∧ p.height = .fin h ∧
    strokes r = ss.map (Stroke.map (translate dx dy)) ∧ BoxOf (Drawn r) (0, 0) (w, h) ∧ Inked none r

theorem fine_strokes {id : Text} {ss : List (Stroke ℝ)} (hs : Sizeable ss) {p : RenderedPart (XNum ℝ) (Drawing (XNum ℝ))} (h : LaidStrokes id ss p) : Fine p := by
  obtain ⟨r, dx, dy, w, k, h1, h3, h4, h2, h5, -⟩ := h.path
  have key : ∀ q, Meets ss q → Drawn r (translate dx dy q) := fun q hq => (covered_moved h2 q).1 hq
  obtain ⟨p1, q1, hp1, hq1, hlt1⟩ := hs.wide
  obtain ⟨p2, q2, hp2, hq2, hlt2⟩ := hs.high
  have a1 := h5.inside _ (key p1 hp1)
  have a2 := h5.inside _ (key q1 hq1)
  have a3 := h5.inside _ (key p2 hp2)
  have a4 := h5.inside _ (key q2 hq2)
  simp only [translate] at a1 a2 a3 a4
  exact ⟨r, w, k, h1, h3, h4, by linarith, by linarith, fun q hq => h5.inside q hq⟩

theorem sized_strokes {id : Text} {ss : List (Stroke ℝ)} {p : RenderedPart (XNum ℝ) (Drawing (XNum ℝ))} (h : LaidStrokes id ss p) {w k : ℝ}
    (hw : p.width = .fin w) (hk : p.height = .fin k) : SizeOf ss w k := by
  obtain ⟨r, dx, dy, w', k', -, e1, e2, h2, h3, -⟩ := h.path
  rw [e1] at hw
  rw [e2] at hk
  cases hw
  cases hk
  refine ⟨-dx, -dy, ⟨?_, ?_, ?_, ?_, ?_⟩⟩
  · intro q hq
    obtain ⟨a, b, c, d⟩ := h3.inside _ ((covered_moved h2 q).1 hq)
    simp only [translate] at a b c d
    refine ⟨?_, ?_, ?_, ?_⟩ <;> simp only <;> linarith
  · obtain ⟨q, hq, e⟩ := h3.left
    exact ⟨_, covered_back h2 hq, by simp only at e ⊢; linarith⟩
  · obtain ⟨q, hq, e⟩ := h3.right
    exact ⟨_, covered_back h2 hq, by simp only at e ⊢; linarith⟩
  · obtain ⟨q, hq, e⟩ := h3.top
    exact ⟨_, covered_back h2 hq, by simp only at e ⊢; linarith⟩
  · obtain ⟨q, hq, e⟩ := h3.bottom
    exact ⟨_, covered_back h2 hq, by simp only at e ⊢; linarith⟩

theorem shows_strokes {id : Text} {ss : List (Stroke ℝ)} {e : ℝ} {p : RenderedPart (XNum ℝ) (Drawing (XNum ℝ))} (h : LaidStrokes id ss p) {g : SeenPart}
    (hs : ShowsPart e p g) : ShowsStrokes e id ss g := by
  obtain ⟨a1, a2, r, f, a3, a4, a5⟩ := hs
  obtain ⟨r', dx, dy, w', k', h1, -, -, h2, -⟩ := h.path
  have hr : r = r' := by
    have := congrArg (List.map realSeg) (a3.symm.trans h1)
    rwa [realPath_fin, realPath_fin] at this
  subst hr
  refine ⟨a1.trans h.id, a2.trans h.label, fun q => f (translate dx dy q), ?_, ?_⟩
  · obtain ⟨a, b, rfl | rfl⟩ := a4
    · exact ⟨dx + a, dy + b, Or.inl (by funext q; simp [translate, add_assoc])⟩
    · refine ⟨a - dy, dx + b, Or.inr ?_⟩
      funext q
      simp only [translate, Prod.mk.injEq]
      constructor <;> ring
  · rw [h2, List.forall₂_map_left_iff] at a5
    refine a5.imp fun s t hst => ?_
    cases s with
    | line a b => cases hst with | line x y => exact .line x y
    | curve a c d b => cases hst with | curve x y z w => exact .curve x y z w

/-- The piece draws these strokes. -/
def DrawsPiece (m : Machine (XNum ℝ) O) (nd : DMap (XNum ℝ) → Dyn.Node (XNum ℝ)) (doc : Elem (XNum ℝ)) (o : Piece) (ss : List (Stroke ℝ)) : Prop :=
  ∃ (ps : List (Path ℝ)) (ls : List (Live (XNum ℝ))), (∀ p ∈ ps, Inked none p) ∧ ps.flatMap strokes = ss ∧
    renderAllOf (m.render m.fuel (pieceSpot doc o)) (o.components.map fun c => live m.world (nd c)) [] (finPt origin) = .ok (ps.map finPath, ls, [])

theorem Sizeable.ne_nil {ss : List (Stroke ℝ)} (h : Sizeable ss) : ss ≠ [] := by
  rintro rfl
  obtain ⟨p, q, ⟨s, hs, -⟩, -⟩ := h.wide
  cases hs

theorem renderPart_drawn (m : Machine (XNum ℝ) O) (nd : DMap (XNum ℝ) → Dyn.Node (XNum ℝ)) (doc : Elem (XNum ℝ)) (hd : Bare doc)
    (customs : List (Text × DMap (XNum ℝ))) (o : Piece) (hi : o.id ≠ []) (ss : List (Stroke ℝ)) (hs : Sizeable ss) (h : DrawsPiece m nd doc o ss) :
    ∃ q, m.renderPart doc customs (livePart m.world (pieceNode m.world nd o)) [] = .ok ([q], []) ∧
      LaidStrokes o.id ss (Machine.toLayout (livePart m.world (pieceNode m.world nd o)).id q) := by
  obtain ⟨ps, ls, h1, rfl, h3⟩ := h
  obtain ⟨r, dx, dy, w, k, h4, h5, h6, h7⟩ := renderPart_piece m doc hd customs (m.world.idOf (madePiece o)) o _ ls ps h1 hs.ne_nil hs.bounded h3
  rw [livePart_piece]
  exact ⟨_, h4, idOf_piece _ _ hi, rfl, r, dx, dy, w, k, rfl, rfl, rfl, h5, h6, h7⟩

theorem rendered_pieces {α : Type} (m : Machine (XNum ℝ) O) (nd : DMap (XNum ℝ) → Dyn.Node (XNum ℝ)) (doc : Elem (XNum ℝ)) (hd : Bare doc)
    (customs : List (Text × DMap (XNum ℝ))) (piece : α → Piece) (ss : α → List (Stroke ℝ)) : ∀ os : List α,
    (∀ o ∈ os, (piece o).id ≠ [] ∧ Sizeable (ss o) ∧ DrawsPiece m nd doc (piece o) (ss o)) →
    ∃ all, RenderedTo m doc customs (((os.map piece).map (pieceNode m.world nd)).map (livePart m.world)) [] all ∧
      List.Forall₂ (fun o l => ∃ p, l = [p] ∧ LaidStrokes (piece o).id (ss o) p) os
        (laidGroups (((os.map piece).map (pieceNode m.world nd)).map (livePart m.world)) all)
  | [], _ => ⟨[], rfl, .nil⟩
  | o :: os, h => by
    obtain ⟨all, h1, h2⟩ := rendered_pieces m nd doc hd customs piece ss os fun o ho => h o (by simp [ho])
    obtain ⟨a, b, c⟩ := h o (by simp)
    obtain ⟨q, h3, h4⟩ := renderPart_drawn m nd doc hd customs (piece o) a _ b c
    exact ⟨[q] :: all, ⟨[q], [], all, h3, h1, rfl⟩, .cons ⟨_, rfl, h4⟩ h2⟩

/-- A document of pieces that are drawn: the files show every piece. -/
theorem pieces_seen {α : Type} (m : Machine (XNum ℝ) O) (files : Nat) (s : Sheet ℝ) (hs : 0 ≤ s.padding) (nd : DMap (XNum ℝ) → Dyn.Node (XNum ℝ))
    (piece : α → Piece) (ss : α → List (Stroke ℝ)) (os : List α) (hN : ∀ o ∈ os, (piece o).Neat)
    (hm : ∀ o ∈ os, ∀ c ∈ (piece o).components, m.world.make [] m.fuel c = .val (nd c) ∧ (nd c).map = c)
    (hi : ∀ o ∈ os, (piece o).id ≠ [] ∧ Unmarked (piece o).id ∧ Sizeable (ss o))
    (hr : ∀ o ∈ os, DrawsPiece m nd (Machine.docElem (piecesDoc m.world nd s (os.map piece))) (piece o) (ss o)) :
    SheetsShow s (m.sheets (files + 1) (pieceDoc s (os.map piece))) (os.map fun o => ((piece o).id, ss o)) := by
  have hN' : ∀ o ∈ os.map piece, o.Neat := by
    intro o ho
    obtain ⟨o, ho', rfl⟩ := List.mem_map.mp ho
    exact hN o ho'
  have hm' : ∀ o ∈ os.map piece, ∀ c ∈ o.components, m.world.make [] m.fuel c = .val (nd c) ∧ (nd c).map = c := by
    intro o ho
    obtain ⟨o, ho', rfl⟩ := List.mem_map.mp ho
    exact hm o ho'
  have hd := bare_piece m.world nd s (os.map piece) hN'
  obtain ⟨all, h1, h2⟩ := rendered_pieces m nd (Machine.docElem (piecesDoc m.world nd s (os.map piece))) hd [] piece ss os
    fun o h => ⟨(hi o h).1, (hi o h).2.2, hr o h⟩
  have h3 : List.Forall₂ (fun (o : α) p => LaidStrokes (piece o).id (ss o) p) os
      (laidOut (((os.map piece).map (pieceNode m.world nd)).map (livePart m.world)) all) := by
    rw [laidOut_flatten]
    clear * - h2
    generalize laidGroups (((os.map piece).map (pieceNode m.world nd)).map (livePart m.world)) all = ls at *
    induction h2 with
    | nil => exact .nil
    | cons h _ ih =>
      obtain ⟨p, rfl, hp⟩ := h
      exact .cons hp ih
  have hparts : ∀ p ∈ laidOut (((os.map piece).map (pieceNode m.world nd)).map (livePart m.world)) all, Fine p ∧ Printable p ∧ ReadAsDrawn p.payload.path := by
    intro p hp
    obtain ⟨o, ho, hl⟩ := forall₂_mem_right h3 p hp
    obtain ⟨h4, h5, h6⟩ := hi o ho
    refine ⟨fine_strokes h6 hl, ⟨by rw [hl.id]; exact h5, by rw [hl.label]; exact unmarked_of_all (by decide), fun h => absurd hl.label h⟩, ?_⟩
    obtain ⟨r, dx, dy, w, k, e1, -, -, -, -, h7⟩ := hl.path
    rw [e1]
    exact ((inked_finPath none r).2 h7).faithful
  have hkeep : ∀ n ∈ (piecesDoc m.world nd s (os.map piece)).parts, ∀ g, g = [] → ∀ parts g',
      m.renderPart (Machine.docElem (piecesDoc m.world nd s (os.map piece))) (piecesDoc m.world nd s (os.map piece)).customs (livePart m.world n) g =
        .ok (parts, g') → g' = [] := by
    rintro n hn g rfl parts g' e
    obtain ⟨o', hm1, rfl⟩ := List.mem_map.mp hn
    obtain ⟨o, ho, rfl⟩ := List.mem_map.mp hm1
    obtain ⟨q, h4, -⟩ := renderPart_drawn m nd _ hd [] (piece o) (hi o ho).1 _ (hi o ho).2.2 (hr o ho)
    have := e.symm.trans h4
    simp only [Res.ok.injEq, Prod.mk.injEq] at this
    exact this.2
  obtain ⟨texts, seen, ps, a1, a2, a3, a4, a5⟩ := C140_seen_drawn m (files + 1) (pieceDoc s (os.map piece)) (piecesDoc m.world nd s (os.map piece))
    (parse_piece m.world nd m.fuel files s _ hN' hm') s hs .inch (fun g => g = []) rfl hkeep (fun g _ => sheetOf_piece m nd s _ hN' g)
    (by rintro g rfl; exact pageOf_piece m nd s _ hN') all h1 hparts
  obtain ⟨cs, b1, b2⟩ := List.perm_comp_forall₂ a3 h3.flip
  refine ⟨texts, seen, cs.map fun o => ((piece o).id, ss o), a1, a2, b2.map _, ?_, fun hnf => a5 ?_⟩
  · rw [List.forall₂_map_left_iff]
    clear * - b1 a4
    generalize seen.flatten = gs at *
    induction b1 generalizing gs with
    | nil =>
      cases a4
      exact .nil
    | cons h _ ih =>
      cases a4 with
      | cons h' hr => exact .cons (shows_strokes h h') (ih _ hr)
  · intro parts docs hp
    refine hnf parts docs ?_
    have hp : List.Forall₂ _ (laidGroups (((os.map piece).map (pieceNode m.world nd)).map (livePart m.world)) all) parts := hp
    generalize laidGroups (((os.map piece).map (pieceNode m.world nd)).map (livePart m.world)) all = ls at *
    rw [List.map_map, List.forall₂_map_left_iff]
    clear * - h2 hp
    induction h2 generalizing parts with
    | nil =>
      cases hp
      exact .nil
    | cons h _ ih =>
      cases hp with
      | cons h' hr =>
        refine .cons ⟨?_, ?_⟩ (ih _ hr)
        · obtain ⟨p, rfl, -⟩ := h
          rw [← h'.length_eq]
          rfl
        · intro p hp
          obtain ⟨q, hq, e1, e2⟩ := forall₂_mem_right h' p hp
          obtain ⟨p', rfl, hl⟩ := h
          rw [List.mem_singleton] at hq
          subst hq
          exact sized_strokes hl e1 e2

end Verif.Render
