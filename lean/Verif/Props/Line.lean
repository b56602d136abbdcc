import Verif.Props.Tab
import Verif.Props.Lifted
import Verif.Spec.Line

/-!
# Property C158: outlines of straight edges
-/

set_option linter.unusedSectionVars false
set_option linter.unusedSimpArgs false

namespace Verif.Path

open Verif Verif.Spec XNum

/-! ## The edge -/

section Ends

variable {F : Type*} [Trig F]

theorem isMove_mapPoints (f : Point F → Point F) (s : Segment F) : (s.mapPoints f).isMove = s.isMove := by cases s <;> rfl

/-- An edge with one child that ends with a stroke ends with a stroke. -/
theorem endsInk_basicEdge {children : F → List (Point F → Res (Path F))} {cursor start stop : Point F} {handle : Text} {p q : Path F} {c : Point F → Res (Path F)}
    (hc : children (distance start stop) = [c]) (hp : c cursor = .ok p) (h : EndsInk p) (e : basicEdge children cursor start stop handle = .ok q) : EndsInk q := by
  obtain ⟨s, hs, -⟩ := id h
  unfold basicEdge at e
  rw [hc] at e
  simp only [renderChildren, hp, Res.ok_bind, hs, simpleJoin, List.foldl_nil] at e
  have h' : EndsInk (clonePath p) := endsInk_map (fun s => by cases s <;> rfl) h
  obtain ⟨a, _, e⟩ := res_bind_ok e
  split at e
  · obtain ⟨r, hr, e⟩ := res_bind_ok e
    simp only [Res.ok.injEq] at e
    subst e
    exact endsInk_mapPath _ (endsInk_rotate h' hr)
  · simp only [Res.ok_bind, Res.ok.injEq] at e
    subst e
    exact endsInk_mapPath _ h'

end Ends

/-- The last stroke that is drawn is the last segment, when that is no move. -/
theorem stop_of_strokes {p : Path ℝ} (h : EndsInk p) {a b : Pt ℝ} (hs : (strokes p).getLast? = some (.line a b)) : ∃ s, p.getLast? = some s ∧ pt s.stop = b := by
  obtain ⟨s, h1, h2⟩ := h
  refine ⟨s, h1, ?_⟩
  obtain ⟨q, rfl⟩ : ∃ q, p = q ++ [s] := ⟨p.dropLast, (List.dropLast_append_getLast? s h1).symm⟩
  cases s with
  | move _ _ => cases h2
  | line u v =>
    simp only [strokes, List.filterMap_append, List.filterMap_cons, List.filterMap_nil, strokeOf, List.getLast?_append, List.getLast?_singleton, Option.some_or, Option.some.injEq,
      Stroke.line.injEq] at hs
    exact hs.2
  | curve u c d v =>
    simp [strokes, List.filterMap_append, strokeOf, List.getLast?_append] at hs

theorem exec_lineCommand (p : Path ℝ) (x y : ℝ) : (lineCommand (fin x) (fin y)).exec (finPath p) = .ok (finPath (lineTo p (newPoint x y))) := by
  rw [Command.exec, exec_named _ .line rfl]
  simp only [need, lineCommand, toCommand, toKey, if_true, newPoint_fin, GearLemmas.lineTo_finP]

theorem straight_drawn (L : ℝ) (c : Point ℝ) : ∃ p : Path ℝ, drawRender (finPt c) (straightLine L) = .ok (finPath p) ∧ strokes p = [.line (0, 0) (L, 0)] ∧ EndsInk p := by
  refine ⟨_, by simp only [drawRender, straightLine, moveTo_cursor, execAll, exec_moveCommand, exec_lineCommand, Res.ok_bind]; rfl, ?_, ?_⟩
  · simp [moveTo, lineTo, currentPosition, Segment.stop, newPoint_eq, strokes, strokeOf, pt]
    rfl
  · exact ⟨_, by simp only [lineTo, List.getLast?_append, List.getLast?_singleton, Option.some_or]; rfl, rfl⟩

/-- **C158.** A straight edge draws the line from its start to its end and nothing else, and ends there. -/
theorem C158_edge (a b : Point ℝ) (hab : pt a ≠ pt b) (cursor : Point ℝ) : ∃ r : Path ℝ,
    basicEdge (fun _ => [fun c => drawRender c (straightLine (lengthOf (pt a) (pt b)))]) (finPt cursor) (finPt a) (finPt b) Attr.origin.text = .ok (finPath r) ∧
    strokes r = [.line (pt a) (pt b)] ∧ ∃ s, r.getLast? = some s ∧ pt s.stop = pt b := by
  obtain ⟨p, h1, h2, h3⟩ := straight_drawn (lengthOf (pt a) (pt b)) cursor
  obtain ⟨s, hs, hm⟩ := id h3
  have h4 : (finPath p).getLast? = some (finSeg s) := by simp [finPath, List.getLast?_map, hs]
  obtain ⟨⟨r, k1, k2⟩, k3, k4⟩ := C85_origin (fun _ => [fun c => drawRender c (straightLine (lengthOf (pt a) (pt b)))]) (finPt cursor) a b hab [p] (by simp) (by
    simp only [renderChildren, h1, Res.ok_bind, h4, List.map_cons, List.map_nil])
  have k5 : strokes r = [.line (pt a) (pt b)] := by
    rw [k2]
    simp only [List.flatMap_cons, List.flatMap_nil, List.append_nil, h2, List.map_cons, List.map_nil, Stroke.map, k3, k4]
  have k6 : EndsInk (finPath r) := endsInk_basicEdge rfl h1 ⟨_, h4, by rw [isMove_finSeg]; exact hm⟩ k1
  have k7 : EndsInk r := by
    obtain ⟨t, t1, t2⟩ := k6
    simp only [finPath, List.getLast?_map, Option.map_eq_some_iff] at t1
    obtain ⟨u, u1, rfl⟩ := t1
    exact ⟨u, u1, by rw [isMove_finSeg] at t2; exact t2⟩
  exact ⟨r, k1, k5, stop_of_strokes k7 (a := pt a) (by rw [k5]; rfl)⟩

end Verif.Path

namespace Verif.Render

open Verif Verif.Dyn Verif.Path Verif.PlanSet Verif.Svg Verif.Files Verif.Xml Verif.Spec

variable {O : Type}

theorem sameExec_line {c : Command (XNum ℝ)} {u v : XNum ℝ} (h1 : c.name = "line".toList) (h2 : c.point toKey = some (newPoint u v)) : SameExec c (lineCommand u v) := by
  intro p
  rw [Command.exec, exec_named _ .line h1, Command.exec, exec_named _ .line rfl]
  simp only [lineCommand, toCommand, h2]
  rw [if_pos (show toKey = "to".toList from rfl)]

/-! ## Elements -/

/-- The element of a straight edge. -/
def LineEdge.elem (o : LineEdge) : Elem (XNum ℝ) := ⟨[], o.map, []⟩

theorem elemOf_line (o : LineEdge) : elemOf o.map = o.elem := by
  obtain ⟨s, b⟩ := o
  cases s <;> rfl

/-- The element when its child is rendered. -/
def LineEdge.wide (o : LineEdge) (L : ℝ) : Elem (XNum ℝ) := ⟨[], o.map ++ [("width".toList, .num (.fin L))], []⟩

theorem withVar_line (o : LineEdge) (L : ℝ) : withVar o.elem "width".toList (.num (.fin L)) = o.wide L := by
  obtain ⟨s, b⟩ := o
  cases s <;> rfl

theorem line_sees (o : LineEdge) (L : ℝ) (cs : List (Val (XNum ℝ))) (c : Chain (XNum ℝ)) :
    (Chain.component (childElem [] cs) (.component (o.wide L) c)).lookup "width".toList = some (.num (.fin L)) := by
  rw [C46_inherit _ _ _ rfl]
  refine C46_own _ _ _ ?_ (by intro s h; cases h)
  obtain ⟨s, b⟩ := o
  cases s <;> rfl

theorem piece_lacks {doc : Elem (XNum ℝ)} (hd : Bare doc) (p : Piece) {k : Text} (h : dots k = [k]) (r : k ∉ ["id".toList, "components".toList, "type".toList, "part_index".toList])
    (r' : k ∉ ["material_width".toList, "material_height".toList, "doc_padding".toList, "parts".toList]) :
    (Chain.component ⟨[], shownPiece p, []⟩ (.document doc [])).Undefined k ∧ NoDefault k (Chain.component ⟨[], shownPiece p, []⟩ (.document doc [])) := by
  have a2 : (⟨[], shownPiece p, []⟩ : Elem (XNum ℝ)).allParams = [] := rfl
  refine ⟨⟨by rw [a2]; exact Render.get_nil _, get_absent h (shownPiece_absent _ _ r) (shownPiece_absent _ _ r), by rw [hd.allParams]; exact Render.get_nil _,
    hd.get h r' r', Render.get_nil _⟩, Render.get_nil _, ?_⟩
  show Dyn.get doc.defaults k = none
  rw [hd.defaults]
  exact Render.get_nil _

theorem line_lookup (o : LineEdge) {k : Text} (h : FarFromTab k) (l : DMap (XNum ℝ)) : (o.map ++ l).lookup k = l.lookup k := by
  obtain ⟨s, b⟩ := o
  cases s <;> simp only [LineEdge.map, List.cons_append, List.nil_append, List.lookup, beq_eq_false_iff_ne.mpr (h.ne (t := "type".toList) (by simp)),
    beq_eq_false_iff_ne.mpr (h.ne (t := "from".toList) (by simp)), beq_eq_false_iff_ne.mpr (h.ne (t := "to".toList) (by simp)),
    beq_eq_false_iff_ne.mpr (h.ne (t := "components".toList) (by simp))]

theorem line_far {doc : Elem (XNum ℝ)} (hd : Bare doc) (p : Piece) (o : LineEdge) {k : Text} (h : FarFromTab k) :
    Dyn.get o.map k = none ∧ (Chain.component o.elem (.component ⟨[], shownPiece p, []⟩ (.document doc []))).Undefined k ∧
    NoDefault k (Chain.component o.elem (.component ⟨[], shownPiece p, []⟩ (.document doc []))) := by
  have k0 := far_piece hd p h
  have a1 : o.elem.allParams = [] := by
    obtain ⟨s, b⟩ := o
    cases s <;> rfl
  have q : o.map.lookup k = none := by simpa using line_lookup o h []
  have q' : Dyn.get o.map k = none := get_absent h.1 q q
  exact ⟨q', ⟨by rw [a1]; exact Render.get_nil _, q', k0.1⟩, Render.get_nil _, k0.2⟩

theorem lineChild_far {doc : Elem (XNum ℝ)} (hd : Bare doc) (p : Piece) (o : LineEdge) (L : ℝ) (cs : List (Val (XNum ℝ))) {k : Text} (h : FarFromTab k) :
    (Chain.component (childElem [] cs) (.component (o.wide L) (.component ⟨[], shownPiece p, []⟩ (.document doc [])))).Undefined k ∧
    NoDefault k (Chain.component (childElem [] cs) (.component (o.wide L) (.component ⟨[], shownPiece p, []⟩ (.document doc [])))) := by
  have k0 := far_piece hd p h
  have a1 : (o.wide L).allParams = [] := by
    obtain ⟨s, b⟩ := o
    cases s <;> rfl
  have a2 : (childElem [] cs).allParams = [] := rfl
  have q : (o.wide L).original.lookup k = none := by
    show (o.map ++ [("width".toList, Val.num (XNum.fin L))]).lookup k = none
    rw [line_lookup o h]
    simp only [List.lookup, beq_eq_false_iff_ne.mpr (h.ne (t := "width".toList) (by simp))]
  have q2 : (childElem [] cs).original.lookup k = none := by
    simp only [childElem, drawingMap, List.lookup, beq_eq_false_iff_ne.mpr (h.ne (t := "type".toList) (by simp)), beq_eq_false_iff_ne.mpr (h.ne (t := "commands".toList) (by simp))]
  exact ⟨⟨by rw [a2]; exact Render.get_nil _, get_absent h.1 q2 q2, by rw [a1]; exact Render.get_nil _, get_absent h.1 q q, k0.1⟩, Render.get_nil _, Render.get_nil _, k0.2⟩

/-! ## The child -/

section Child

variable (m : Machine (XNum ℝ) O) (hf : 0 < m.fuel) (hl : ReadsLines m.lib) {doc : Elem (XNum ℝ)} (hd : Bare doc) (p : Piece) (o : LineEdge) (L : ℝ) (cursor : Point (XNum ℝ))

/-- Where the child of a straight edge is. -/
noncomputable def lineSpot (doc : Elem (XNum ℝ)) (p : Piece) (o : LineEdge) (L : ℝ) : Spot (XNum ℝ) :=
  ⟨(pieceSpot doc p).doc, o.wide L :: (pieceSpot doc p).ups, (pieceSpot doc p).nested⟩

include hf hl hd

theorem line_child (n : Nat) (i : Text) (hq : ∃ q, drawRender cursor (straightLine L) = .ok q ∧ q ≠ []) :
    pathOf (m.render (n + 1) (lineSpot doc p o L) (.mk .draw i (childElem [] lineCommands) []) [] cursor) = drawRender cursor (straightLine L) := by
  rw [C119_draw]
  have e2 : slice (childElem [] lineCommands).original "commands".toList = [textCmdMap "move".toList "0,0".toList, textCmdMap "line".toList "width,0".toList] := rfl
  have e3 : slice (childElem [] lineCommands).original transformsKey = [] := rfl
  have z : ∀ mp, (m.attrs (lineSpot doc p o L) [] (childElem [] lineCommands) (some cursor) mp).convert m.fuel (.str "0".toList) = .val (.fin 0) := by
    intro mp
    obtain ⟨n, hn⟩ : ∃ k, m.fuel = k + 1 := ⟨m.fuel - 1, by omega⟩
    have ht : "0".toList.filter (fun c => decide (c ≠ '$')) = "0".toList := by decide +kernel
    have hz : (m.attrs (lineSpot doc p o L) [] (childElem [] lineCommands) (some cursor) mp).lib.parse "0".toList = some (.num (.fin 0)) := hl.zero
    rw [hn]
    simp only [Source.convert, evalExpression, ht, evalText, show ¬ 0 > maxRecursion from by decide, if_false, hz, evalExpr, toFloat64]
  have w : ∀ mp, (m.attrs (lineSpot doc p o L) [] (childElem [] lineCommands) (some cursor) mp).convert m.fuel (.str "width".toList) = .val (.fin L) := fun mp =>
    convert_var (by decide +kernel) hl.width (line_sees o L _ _) hf
  have s1 : ∀ {name t x y : Text} {u v : ℝ}, splitOn ',' t [] = [x, y] → FarFromTab t →
      (∀ mp, (m.attrs (lineSpot doc p o L) [] (childElem [] lineCommands) (some cursor) mp).convert m.fuel (.str x) = .val (.fin u)) →
      (∀ mp, (m.attrs (lineSpot doc p o L) [] (childElem [] lineCommands) (some cursor) mp).convert m.fuel (.str y) = .val (.fin v)) →
      (m.command (m.attrs (lineSpot doc p o L) [] (childElem [] lineCommands) (some cursor) (textCmdMap name t))).point toKey = some (newPoint (.fin u) (.fin v)) :=
    fun {name} _ _ _ _ _ hs ht hx hy => command_text m hf _ _ _ _ name hs (ht.ne (by simp)) (far_cmd name ht) (lineChild_far hd p o L _ ht).1 (lineChild_far hd p o L _ ht).2 (hx _) (hy _)
  have k : List.Forall₂ SameExec ([textCmdMap "move".toList "0,0".toList, textCmdMap "line".toList "width,0".toList].map fun mp =>
      m.command (m.attrs (lineSpot doc p o L) [] (childElem [] lineCommands) (some cursor) mp)) (straightLine L) :=
    .cons (sameExec_move (command_text_name m _ _ _ _ (by decide) _) (s1 (by decide +kernel) (by decide +kernel) z z)) <|
      .cons (sameExec_line (command_text_name m _ _ _ _ (by decide) _) (s1 (by decide +kernel) (by decide +kernel) w z)) .nil
  rw [e2, drawRender_same k]
  obtain ⟨q, h1, h2⟩ := hq
  rw [h1, Res.ok_bind]
  simp only [Machine.finishAt, e3, List.map_nil]
  exact finish_none _ _ _ h2

end Child

/-! ## The edge in a document -/

section Edge

variable (m : Machine (XNum ℝ) O) (hf : 0 < m.fuel) {doc : Elem (XNum ℝ)} (hd : Bare doc) (p : Piece) (o : LineEdge) (cursor : Option (Point (XNum ℝ)))

/-- The attributes of a straight edge. -/
noncomputable def lineAttrs : Source (XNum ℝ) O := m.attrs (pieceSpot doc p) [] o.elem cursor o.map

include hd in
theorem line_none {k : Text} (h : FarFromTab k) : (lineAttrs m (doc := doc) p o cursor).string k = none := by
  have : (lineAttrs m (doc := doc) p o cursor).find k = none := attrLookup_absent 0 (line_far hd p o h).1 (line_far hd p o h).2.1 (line_far hd p o h).2.2
  simp only [Source.string, this]

include hf hd in
theorem line_start : m.point (lineAttrs m (doc := doc) p o cursor) fromKey = o.start.map fun a => finPt (newPoint a.1 a.2) := by
  obtain ⟨s, b⟩ := o
  cases s with
  | some a => exact point_given m hf _ _ _ _ _ fromKey (by decide +kernel) a rfl
  | none =>
    have k0 := piece_lacks hd p (k := fromKey) (by decide +kernel) (by decide +kernel) (by decide +kernel)
    have : (lineAttrs m (doc := doc) p ⟨none, b⟩ cursor).find fromKey = none :=
      attrLookup_absent 0 (show Dyn.get (LineEdge.map ⟨none, b⟩) fromKey = none from rfl) ⟨rfl, rfl, k0.1⟩ ⟨Render.get_nil _, k0.2⟩
    obtain ⟨f, hf'⟩ : ∃ f, m.fuel = f + 1 := ⟨m.fuel - 1, by omega⟩
    show found ((lineAttrs m (doc := doc) p ⟨none, b⟩ cursor).point m.fuel m.fuel fromKey) = none
    rw [hf']
    simp only [Source.point, if_neg (show ¬ fromKey.head? = some '$' from by decide +kernel), this, found]

include hf in
theorem line_stop (start : Point (XNum ℝ)) : found ((lineAttrs m (doc := doc) p o cursor).point2 m.fuel m.fuel toKey start) = some (finPt (newPoint o.stop.1 o.stop.2)) := by
  have h : found ((lineAttrs m (doc := doc) p o cursor).point m.fuel m.fuel toKey) = some (finPt (newPoint o.stop.1 o.stop.2)) :=
    point_given m hf (pieceSpot doc p) [] o.elem cursor o.map toKey (by decide +kernel) o.stop (by obtain ⟨s, b⟩ := o; cases s <;> rfl)
  revert h
  simp only [Source.point2]
  cases (lineAttrs m (doc := doc) p o cursor).point m.fuel m.fuel toKey <;> intro h <;> first | exact h | cases h

end Edge

/-- The component that is made of a straight edge. -/
def LineEdge.node (w : World (XNum ℝ)) (o : LineEdge) : Dyn.Node (XNum ℝ) := .mk (w.idOf o.map) o.map [componentNode w (drawingMap lineCommands)]

theorem live_line (w : World (XNum ℝ)) (o : LineEdge) : live w (o.node w) =
    .mk .basicEdge (w.idOf o.map) o.elem [.mk .draw (w.idOf (drawingMap lineCommands)) (childElem [] lineCommands) []] := by
  have := text_type w (m := o.map) (b := .basicEdge) (by obtain ⟨s, b⟩ := o; cases s <;> rfl)
  simp only [LineEdge.node, live, lives, live_child, this, built_text, Option.getD_some, elemOf_line]

/-- **C158.** A straight edge in a document draws the line from its start, or from where the pen is when it has none, to its end, and ends there. -/
theorem C158_line (m : Machine (XNum ℝ) O) (hf : 2 ≤ m.fuel) (hl : ReadsLines m.lib) {doc : Elem (XNum ℝ)} (hd : Bare doc) (p : Piece) (o : LineEdge) (cursor : Point ℝ)
    (ho : o.start.getD (pt cursor) ≠ o.stop) : ∃ (r : Path ℝ) (c' : Live (XNum ℝ)),
    m.render m.fuel (pieceSpot doc p) (live m.world (o.node m.world)) [] (finPt cursor) = .ok (finPath r, c', []) ∧
      strokes r = [.line (o.start.getD (pt cursor)) o.stop] ∧ Inked none r ∧ ∃ s, r.getLast? = some s ∧ pt s.stop = o.stop := by
  obtain ⟨f, hf'⟩ : ∃ f, m.fuel = f + 2 := ⟨m.fuel - 2, by omega⟩
  have hf0 : 0 < m.fuel := by omega
  obtain ⟨a, ha, ha'⟩ : ∃ a : Point ℝ, (m.point (lineAttrs m (doc := doc) p o (some (finPt cursor))) "from".toList).getD (finPt cursor) = finPt a ∧ pt a = o.start.getD (pt cursor) := by
    rw [show m.point (lineAttrs m (doc := doc) p o (some (finPt cursor))) "from".toList = _ from line_start m hf0 hd p o _]
    cases o.start with
    | none => exact ⟨cursor, rfl, rfl⟩
    | some a => exact ⟨newPoint a.1 a.2, rfl, by rw [pt_newPoint]; rfl⟩
  have e2 : pt (newPoint o.stop.1 o.stop.2) = o.stop := by rw [pt_newPoint]
  obtain ⟨r, k1, k2, k3⟩ := C158_edge a (newPoint o.stop.1 o.stop.2) (by rw [ha', e2]; exact ho) cursor
  have hi : Inked none r := (inked_finPath none r).1 (inked_basicEdge (fun _ c hc _ _ e => by
    rw [List.mem_singleton] at hc
    subst hc
    exact inked_drawRender exactEq_xnum e) k1)
  rw [e2] at k3
  have hne : finPath r ≠ [] := by
    intro e
    have e' : r = [] := by simpa [finPath] using e
    obtain ⟨s, h, -⟩ := k3
    rw [e'] at h
    cases h
  have hpath : pathOf (m.render (f + 1 + 1) (pieceSpot doc p) (live m.world (o.node m.world)) [] (finPt cursor)) = .ok (finPath r) := by
    rw [live_line, C119_basicEdge (m := m) (n := f + 1) (s := pieceSpot doc p) (i := m.world.idOf o.map) (e := o.elem) (g := []) (cursor := finPt cursor) _
      (by intro c hc; rw [List.mem_singleton] at hc; subst hc; exact plain_child _ _) (lineAttrs m (doc := doc) p o (some (finPt cursor))) rfl _ rfl]
    rw [ha,
      show found ((lineAttrs m (doc := doc) p o (some (finPt cursor))).point2 m.fuel m.fuel "to".toList _) = _ from line_stop m hf0 p o _ _,
      show (lineAttrs m (doc := doc) p o (some (finPt cursor))).string "edge_variable_name".toList = none from line_none m hd p o _ (by decide +kernel),
      show (lineAttrs m (doc := doc) p o (some (finPt cursor))).handle "handle".toList = none from by
        simp only [Source.handle, line_none m hd p o (some (finPt cursor)) (k := "handle".toList) (by decide +kernel), Option.bind_none]]
    simp only [need, withTwo, Res.ok_bind, Option.getD_none]
    have k1' : basicEdge (fun w => [Live.mk .draw (m.world.idOf (drawingMap lineCommands)) (childElem [] lineCommands) []].map fun c cursor =>
          pathOf (m.render (f + 1) ⟨(pieceSpot doc p).doc, withVar o.elem "width".toList (.num w) :: (pieceSpot doc p).ups, (pieceSpot doc p).nested⟩ c [] cursor))
        (finPt cursor) (finPt a) (finPt (newPoint o.stop.1 o.stop.2)) Attr.origin.text = .ok (finPath r) := by
      rw [← k1]
      unfold basicEdge
      rw [distance_fin]
      congr 1
      obtain ⟨q, q1, -, q3⟩ := straight_drawn (lengthOf (pt a) (pt (newPoint o.stop.1 o.stop.2))) cursor
      have := line_child m hf0 hl hd p o (lengthOf (pt a) (pt (newPoint o.stop.1 o.stop.2))) (finPt cursor) f (m.world.idOf (drawingMap lineCommands)) ⟨_, q1, by
        obtain ⟨s, h, -⟩ := q3
        intro e
        have e' : q = [] := by simpa [finPath] using e
        rw [e'] at h
        cases h⟩
      simp only [List.map_cons, List.map_nil, renderChildren]
      rw [withVar_line]
      unfold lineSpot at this
      rw [this]
    rw [k1', Res.ok_bind]
    rw [distance_fin, withVar_line]
    have e3 : ∀ L, slice (o.wide L).original transformsKey = [] := fun _ => by obtain ⟨s, b⟩ := o; cases s <;> rfl
    simp only [Machine.finishAt, e3, List.map_nil]
    exact finish_none _ _ _ hne
  rw [hf']
  cases h : m.render (f + 1 + 1) (pieceSpot doc p) (live m.world (o.node m.world)) [] (finPt cursor) with
  | ok x =>
    obtain ⟨q', c', g'⟩ := x
    have h' := h
    rw [live_line] at h'
    have hg := basicEdge_globals m (by intro c hc; rw [List.mem_singleton] at hc; subst hc; exact plain_child _ _)
      (line_none m hd p o (some (finPt cursor)) (k := edgeVariableKey) (by decide +kernel)) h'
    rw [h] at hpath
    have hq : q' = finPath r := by simpa [pathOf] using hpath
    exact ⟨r, c', by rw [hq, hg], by rw [k2, ha', e2], hi, k3⟩
  | err => rw [h] at hpath; cases hpath
  | panic => rw [h] at hpath; cases hpath

theorem neat_lineEdge (o : LineEdge) : Neat (.map o.map) := by
  have hc : Neat (.list [.map (drawingMap lineCommands)] : Val (XNum ℝ)) := by
    refine .list fun v hv => ?_
    rw [List.mem_singleton] at hv
    subst hv
    refine neat_drawing fun v hv => ?_
    simp only [lineCommands, List.mem_cons, List.not_mem_nil, or_false] at hv
    rcases hv with rfl | rfl <;> exact neat_textCmd _ _
  obtain ⟨s, b⟩ := o
  cases s with
  | none =>
    refine .map (show List.Nodup ["type".toList, "to".toList, "components".toList] by decide +kernel) ?_ ?_ <;> intro e he <;>
      simp only [LineEdge.map, List.mem_cons, List.not_mem_nil, or_false] at he
    · rcases he with rfl | rfl | rfl <;> simp only <;> decide +kernel
    · rcases he with rfl | rfl | rfl
      · exact .str _
      · exact neat_pair _
      · exact hc
  | some a =>
    refine .map (show List.Nodup ["type".toList, "to".toList, "components".toList, "from".toList] by decide +kernel) ?_ ?_ <;> intro e he <;>
      simp only [LineEdge.map, List.mem_cons, List.not_mem_nil, or_false] at he
    · rcases he with rfl | rfl | rfl | rfl <;> simp only <;> decide +kernel
    · rcases he with rfl | rfl | rfl | rfl
      · exact .str _
      · exact neat_pair _
      · exact hc
      · exact neat_pair _

theorem make_line (w : World (XNum ℝ)) (n : Nat) (o : LineEdge) : w.make [] (n + 2) o.map = .val (o.node w) := by
  have ht : o.map.lookup typeKey = some (.str Built.basicEdge.text) := by obtain ⟨s, b⟩ := o; cases s <;> rfl
  have h1 := make_drawing w [] n (drawingMap lineCommands) rfl
  have hs : slice o.map componentsKey = [drawingMap lineCommands] := by obtain ⟨s, b⟩ := o; cases s <;> rfl
  have hm : makeList (w.make [] (n + 1)) (slice o.map componentsKey) = .val [componentNode w (drawingMap lineCommands)] := by
    rw [hs]
    simp only [makeList, h1]
  rw [World.make]
  simp only [text_type w (b := .basicEdge) ht, built_text, World.create, clone_neat (neat_lineEdge o), hm]
  obtain ⟨s, b⟩ := o
  cases s <;> rfl

/-! ## Outlines -/

section Documents

variable (m : Machine (XNum ℝ) O) (hf : 2 ≤ m.fuel) (hl : ReadsLines m.lib)

include hf hl

/-- **C158.** Edges without starts draw the lines from where the pen is through their ends. -/
theorem C158_chain {doc : Elem (XNum ℝ)} (hd : Bare doc) (p : Piece) : ∀ (qs : List (Pt ℝ)) (cursor : Point ℝ), Walk (pt cursor) qs →
    ∃ (ps : List (Path ℝ)) (ls : List (Live (XNum ℝ))),
      renderAllOf (m.render m.fuel (pieceSpot doc p)) (qs.map fun q => live m.world (LineEdge.node m.world ⟨none, q⟩)) [] (finPt cursor) = .ok (ps.map finPath, ls, []) ∧
      (∀ p ∈ ps, Inked none p) ∧ ps.flatMap strokes = trailLines (pt cursor) qs
  | [], _, _ => ⟨[], [], rfl, by simp, rfl⟩
  | q :: qs, cursor, hw => by
    obtain ⟨r, c', h1, h2, h3, s, h4, h5⟩ := C158_line m hf hl hd p ⟨none, q⟩ cursor hw.1
    have hlast : (finPath r).getLast? = some (finSeg s) := by simp [finPath, List.getLast?_map, h4]
    have hstop : (finSeg s).stop = finPt s.stop := by cases s <;> rfl
    have h5 : pt s.stop = q := h5
    obtain ⟨ps, ls, k1, k2, k3⟩ := C158_chain hd p qs s.stop (by rw [h5]; exact hw.2)
    refine ⟨r :: ps, c' :: ls, ?_, ?_, ?_⟩
    · simp only [List.map_cons, renderAllOf, h1, Res.ok_bind, hlast, hstop, k1]
    · intro x hx
      rcases List.mem_cons.mp hx with rfl | hx
      · exact h3
      · exact k2 x hx
    · simp only [List.flatMap_cons, h2, k3, h5, trailLines, Option.getD_none, List.cons_append, List.nil_append]

theorem drawsTrail {doc : Elem (XNum ℝ)} (hd : Bare doc) (o : Trail) (ho : o.WellMade) : DrawsPiece m (madeOf m.world m.fuel) doc o.piece o.draws := by
  obtain ⟨f, hf'⟩ : ∃ f, m.fuel = f + 2 := ⟨m.fuel - 2, by omega⟩
  obtain ⟨r, c', h1, h2, h3, s, h4, h5⟩ := C158_line m hf hl hd o.piece ⟨some o.start, o.second⟩ origin ho.walk.1
  have hlast : (finPath r).getLast? = some (finSeg s) := by simp [finPath, List.getLast?_map, h4]
  have hstop : (finSeg s).stop = finPt s.stop := by cases s <;> rfl
  have h5 : pt s.stop = o.second := h5
  obtain ⟨ps, ls, k1, k2, k3⟩ := C158_chain m hf hl hd o.piece o.corners s.stop (by rw [h5]; exact ho.walk.2)
  refine ⟨r :: ps, c' :: ls, ?_, ?_, ?_⟩
  · intro x hx
    rcases List.mem_cons.mp hx with rfl | hx
    · exact h3
    · exact k2 x hx
  · simp only [List.flatMap_cons, h2, k3, h5, Trail.draws, trailLines, Option.getD_some, List.cons_append, List.nil_append]
  · have e : (o.piece.components.map fun c => live m.world (madeOf m.world m.fuel c)) =
        live m.world (LineEdge.node m.world ⟨some o.start, o.second⟩) :: o.corners.map fun q => live m.world (LineEdge.node m.world ⟨none, q⟩) := by
      have hmk : ∀ o : LineEdge, madeOf m.world m.fuel o.map = o.node m.world := by
        intro o
        simp only [madeOf, hf', make_line]
      show (o.edges.map LineEdge.map).map _ = _
      rw [List.map_map]
      simp only [Trail.edges, List.map_cons, Function.comp_apply, hmk, List.map_map]
      congr 1
      refine List.map_congr_left fun q _ => ?_
      simp only [Function.comp_apply, hmk]
    rw [show (List.map (fun c => live m.world (madeOf m.world m.fuel c)) o.piece.components) = _ from e]
    simp only [renderAllOf, h1, Res.ok_bind, hlast, hstop, k1, List.map_cons]

/-- **C158.** Whoever reads the files of a document of outlines sees every outline once, with its name: the lines from corner to corner in their order, each starting where the one
before it ended, shifted or turned as a whole; the outlines are kept apart. -/
theorem C158_seen (files : Nat) (s : Sheet ℝ) (hs : 0 ≤ s.padding) (os : List Trail) (ho : ∀ o ∈ os, o.WellMade) :
    SheetsShow s (m.sheets (files + 1) (trailDoc s os)) (os.map fun o => (o.id, o.draws)) := by
  have hN : ∀ o : Trail, o.piece.Neat := by
    intro o c hc
    obtain ⟨i, _, rfl⟩ := List.mem_map.mp hc
    exact neat_lineEdge i
  obtain ⟨f, hf'⟩ : ∃ f, m.fuel = f + 2 := ⟨m.fuel - 2, by omega⟩
  have hd := bare_piece m.world (madeOf m.world m.fuel) s (os.map Trail.piece) (by
    intro o h
    obtain ⟨o, -, rfl⟩ := List.mem_map.mp h
    exact hN o)
  refine pieces_seen m files s hs (madeOf m.world m.fuel) Trail.piece Trail.draws os (fun o _ => hN o) ?_
    (fun o h => ⟨(ho o h).name.1, (ho o h).name.2, (ho o h).sizeable⟩) fun o h => drawsTrail m hf hl hd o (ho o h)
  intro o h c hc
  obtain ⟨i, hi, rfl⟩ := List.mem_map.mp hc
  have hmk : m.world.make [] m.fuel i.map = .val (i.node m.world) := by rw [hf']; exact make_line _ _ i
  simp only [madeOf, hmk]
  exact ⟨trivial, rfl⟩

end Documents

/-! ## Example -/

/-- A language that reads the expressions of the lines. -/
noncomputable def lineLib : Lib (XNum ℝ) Unit where
  parse s := if s = "0".toList then some (.num (.fin 0)) else some (.var s)
  shortcut _ := none
  op _ _ _ := none

theorem lineLib_reads : ReadsLines lineLib := ⟨rfl, rfl⟩

/-- The outline of an example: a triangle. -/
noncomputable def triangle : Trail := ⟨"triangle".toList, (0, 0), (3, 0), [(0, 4), (0, 0)]⟩

theorem triangle_draws : triangle.draws = [.line (0, 0) (3, 0), .line (3, 0) (0, 4), .line (0, 4) (0, 0)] := rfl

theorem triangle_wellMade : triangle.WellMade where
  name := by
    have e : triangle.id = "triangle".toList := rfl
    rw [e]
    exact ⟨by decide, unmarked_of_all (by decide)⟩
  walk := by
    have e : ∀ {a b c d : ℝ}, a ≠ c ∨ b ≠ d → ((a, b) : Pt ℝ) ≠ (c, d) := by
      rintro a b c d h e
      rw [Prod.mk.injEq] at e
      rcases h with h | h
      · exact h e.1
      · exact h e.2
    exact ⟨e (.inl (by norm_num)), e (.inl (by norm_num)), e (.inr (by norm_num)), trivial⟩
  sizeable := by
    rw [triangle_draws]
    refine ⟨⟨(0, 0), (3, 0), meets_start (b := (3, 0)) (by simp), meets_start (b := (0, 4)) (by simp), by norm_num⟩,
      ⟨(0, 0), (0, 4), meets_start (b := (3, 0)) (by simp), meets_start (b := (0, 0)) (by simp), by norm_num⟩, ?_⟩
    rintro q ⟨st, hst, t, h0, h1, rfl⟩
    have key : ∃ p r : Pt ℝ, st = .line p r ∧ |p.1| < 2 ^ 62 ∧ |p.2| < 2 ^ 62 ∧ |r.1| < 2 ^ 62 ∧ |r.2| < 2 ^ 62 := by
      simp only [List.mem_cons, List.not_mem_nil, or_false] at hst
      rcases hst with rfl | rfl | rfl <;> refine ⟨_, _, rfl, ?_, ?_, ?_, ?_⟩ <;> rw [abs_lt] <;> norm_num
    obtain ⟨p, r, rfl, k1, k2, k3, k4⟩ := key
    exact ⟨abs_between k1 k3 h0 h1, abs_between k2 k4 h0 h1⟩

/-- **C158** is not empty: two triangles. -/
example (w : World (XNum ℝ)) (toInt : XNum ℝ → Int) (files : Nat) :
    SheetsShow ⟨20, 10, 1⟩ (Machine.sheets ⟨w, lineLib, toInt, 2⟩ (files + 1) (trailDoc ⟨20, 10, 1⟩ [triangle, triangle]))
      [("triangle".toList, triangle.draws), ("triangle".toList, triangle.draws)] :=
  C158_seen ⟨w, lineLib, toInt, 2⟩ (le_refl 2) lineLib_reads files ⟨20, 10, 1⟩ zero_le_one [triangle, triangle] fun o h => by
    simp only [List.mem_cons, List.not_mem_nil, or_false, or_self] at h
    subst h
    exact triangle_wellMade

end Verif.Render
