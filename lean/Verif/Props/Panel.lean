import Verif.Props.Board
import Verif.Props.Line
import Verif.Props.Screw
import Verif.Props.SvgEdge
import Verif.Props.Wheel
import Verif.Spec.Panel

/-!
# Property C155: documents of panels, on which drawings, finger joints, rows of holes and gears are mixed
-/

set_option linter.unusedSectionVars false
set_option linter.unusedSimpArgs false

namespace Verif.Render

open Verif Verif.Dyn Verif.Path Verif.PlanSet Verif.Svg Verif.Files Verif.Xml Verif.Spec

variable {O : Type}

/-! ## Commands -/

theorem sameExec_relMove {c : Command (XNum ℝ)} {u v : XNum ℝ} (h1 : c.name = "rel_move".toList) (h2 : c.point toKey = some (newPoint u v)) : SameExec c (relMoveCommand u v) := by
  intro p
  rw [Command.exec, exec_named _ .relMove h1, Command.exec, exec_named _ .relMove rfl]
  simp only [relMoveCommand, toCommand, h2]
  rw [if_pos (show toKey = "to".toList from rfl)]

theorem sameExec_rect {c : Command (XNum ℝ)} {u v : XNum ℝ} (h1 : c.name = "rectangle".toList) (h2 : c.number widthKey = some u) (h3 : c.number heightKey = some v) :
    SameExec c (rectCommand u v) := by
  intro p
  have e1 : (rectCommand u v).number widthKey = some u := by
    show (if widthKey = widthKey then some u else if widthKey = heightKey then some v else none) = some u
    rw [if_pos rfl]
  have e2 : (rectCommand u v).number heightKey = some v := by
    show (if heightKey = widthKey then some u else if heightKey = heightKey then some v else none) = some v
    rw [if_neg (by decide +kernel), if_pos rfl]
  rw [Command.exec, exec_named _ .rectangle h1, Command.exec, exec_named _ .rectangle rfl]
  simp only [h2, h3, e1, e2]

theorem exec_relMove_any (u v : XNum ℝ) (p : Path (XNum ℝ)) : (relMoveCommand u v).exec p = .ok (relMoveTo p (newPoint u v)) := by
  rw [Command.exec, exec_named _ .relMove rfl]
  simp only [relMoveCommand, toCommand, if_true]
  rfl

theorem holeEnd_some (x : XNum ℝ) : ∃ q, drawRender origin (holeEnd x) = .ok q ∧ q ≠ [] := by
  refine ⟨relMoveTo (moveTo (moveTo [] origin) (newPoint (.fin 0) (.fin 0))) (newPoint x (.fin 0)), ?_, ?_⟩
  · simp only [drawRender, holeEnd, execAll, exec_move_any, exec_relMove_any, Res.ok_bind]
  · simp [relMoveTo, moveTo]

theorem holePiece_some (w d s : ℝ) : ∃ q, drawRender origin (holePiece w d s) = .ok q ∧ q ≠ [] :=
  ⟨_, holePiece_drawn w d s, by simp [relMoveTo, moveTo, finPath]⟩

/-! ## The children of a row of holes -/

/-- The element of a row of holes. -/
def HoleRow.elem (o : HoleRow) : Elem (XNum ℝ) := ⟨o.params, o.map, []⟩

theorem elemOf_holes (o : HoleRow) : elemOf o.map = o.elem := rfl

theorem holes_sees (o : HoleRow) (c : Chain (XNum ℝ)) : SeesJoint (.component o.elem c) o.width o.height o.space :=
  ⟨C46_own _ _ _ rfl (by intro s h; cases h), C46_own _ _ _ rfl (by intro s h; cases h), C46_own _ _ _ rfl (by intro s h; cases h)⟩

theorem holes_depth (o : HoleRow) (c : Chain (XNum ℝ)) : (Chain.component o.elem c).lookup "finger_depth".toList = some (.num (.fin o.depth)) :=
  C46_own _ _ _ rfl (by intro s h; cases h)

theorem child_absent_depth {ps : DMap (XNum ℝ)} (h : ChildParams ps) (cs : List (Val (XNum ℝ))) (c : Chain (XNum ℝ)) :
    (Chain.component (childElem ps cs) c).define "finger_depth".toList = none := by
  rcases h with rfl | ⟨i, j, rfl⟩ | ⟨x, rfl⟩ | ⟨x, rfl⟩ <;> rfl

theorem holeChild_sees (o : HoleRow) {ps : DMap (XNum ℝ)} (h : ChildParams ps) (cs : List (Val (XNum ℝ))) (c : Chain (XNum ℝ)) :
    SeesJoint (.component (childElem ps cs) (.component o.elem c)) o.width o.height o.space := by
  have k := holes_sees o c
  exact ⟨by rw [C46_inherit _ _ _ (child_absent h cs _ _ (by simp))]; exact k.width, by rw [C46_inherit _ _ _ (child_absent h cs _ _ (by simp))]; exact k.height,
    by rw [C46_inherit _ _ _ (child_absent h cs _ _ (by simp))]; exact k.space⟩

theorem convert_step {a : Source (XNum ℝ) O} {n : Nat} {w h s : ℝ} (hc : SeesJoint a.chain w h s) (hl : ReadsHoles a.lib) (hn : 0 < n) :
    a.convert n (.str "finger_width + finger_space / 2".toList) = .val (.fin (w + s / 2)) := by
  obtain ⟨o, o', h1, h2, h3, h4, h5⟩ := hl
  obtain ⟨n, rfl⟩ : ∃ k, n = k + 1 := ⟨n - 1, by omega⟩
  have ht : "finger_width + finger_space / 2".toList.filter (fun c => decide (c ≠ '$')) = "finger_width + finger_space / 2".toList := by decide +kernel
  simp only [Source.convert, evalExpression, ht, evalText, show ¬ 0 > maxRecursion from by decide, if_false, h1, evalExpr, hc.width, hc.space, Dyn.toBool, toFloat64, h2, h3,
    Option.bind_none, h4, h5]

/-- An attribute that names a parameter has its value. -/
theorem number_named {a : Source (XNum ℝ) O} {n : Nat} {key t : Text} {x : XNum ℝ} (h : Dyn.get a.mp key = some (.str t)) (hk : t ≠ key) (h0 : Dyn.get a.mp t = none)
    (hc : a.chain.lookup t = some (.num x)) : found (a.number n key) = some x := by
  have hfind : a.find key = some (.num x) := by
    unfold Source.find
    rw [attrLookup]
    have : attrLookup a.chain a.mp t 1 = some (.num x) := by
      rw [attrLookup]
      simp only [show ¬ 1 > recursionMax from by decide, if_false, h0, hc]
    simp only [show ¬ 0 > recursionMax from by decide, if_false, h, ne_eq, hk, not_false_eq_true, if_true, Nat.zero_add, this]
  simp only [Source.number, hfind, Source.convert, toFloat64, found]

/-- The command of a hole. -/
def rectCmdMap : DMap (XNum ℝ) := [("command".toList, .str "rectangle".toList), ("width".toList, .str "finger_width".toList), ("height".toList, .str "finger_depth".toList)]

section Child

variable (m : Machine (XNum ℝ) O) (hf : 0 < m.fuel) (hl : ReadsJoints m.lib) (hh : ReadsHoles m.lib) (s : Spot (XNum ℝ)) (g : DMap (XNum ℝ)) (o : HoleRow)

/-- The command does the same at this child. -/
def DoesInRow (e : Elem (XNum ℝ)) (v : Val (XNum ℝ)) (d : Command (XNum ℝ)) : Prop :=
  ∃ mp, v = .map mp ∧ SameExec (m.command (m.attrs ⟨s.doc, o.elem :: s.ups, s.nested⟩ g e (some origin) mp)) d

/-- An expression has this value at this child. -/
def HasInRow (e : Elem (XNum ℝ)) (v : Val (XNum ℝ)) (x : XNum ℝ) : Prop :=
  ∀ mp, (m.attrs ⟨s.doc, o.elem :: s.ups, s.nested⟩ g e (some origin) mp).convert m.fuel v = .val x

variable {m s g o} {e : Elem (XNum ℝ)}

include hf

theorem row_move {x y : Val (XNum ℝ)} {u v : XNum ℝ} (hx : HasInRow m s g o e x u) (hy : HasInRow m s g o e y v) :
    DoesInRow m s g o e (pointCmd "move".toList x y) (moveCommand u v) :=
  ⟨_, rfl, sameExec_move (command_name m _ _ _ _ (by decide) x y) (command_point m hf _ _ _ _ _ (hx _) (hy _))⟩

theorem row_relMove {x y : Val (XNum ℝ)} {u v : XNum ℝ} (hx : HasInRow m s g o e x u) (hy : HasInRow m s g o e y v) :
    DoesInRow m s g o e (pointCmd "rel_move".toList x y) (relMoveCommand u v) :=
  ⟨_, rfl, sameExec_relMove (command_name m _ _ _ _ (by decide) x y) (command_point m hf _ _ _ _ _ (hx _) (hy _))⟩

theorem row_child (n : Nat) (i : Text) (ps : DMap (XNum ℝ)) (cs : List (Val (XNum ℝ))) (ds : List (Command (XNum ℝ))) (hd : ∃ q, drawRender origin ds = .ok q ∧ q ≠ [])
    (h : List.Forall₂ (DoesInRow m s g o (childElem ps cs)) cs ds) :
    pathOf (m.render (n + 1) ⟨s.doc, o.elem :: s.ups, s.nested⟩ (.mk .draw i (childElem ps cs) []) g origin) = drawRender origin ds := by
  rw [C119_draw]
  have key : ∃ ms : List (DMap (XNum ℝ)), cs = ms.map .map ∧
      List.Forall₂ SameExec (ms.map fun mp => m.command (m.attrs ⟨s.doc, o.elem :: s.ups, s.nested⟩ g (childElem ps cs) (some origin) mp)) ds := by
    generalize childElem ps cs = e at h ⊢
    clear hd
    induction h with
    | nil => exact ⟨[], rfl, .nil⟩
    | cons h _ ih =>
      obtain ⟨ms, rfl, k⟩ := ih
      obtain ⟨mp, rfl, k1⟩ := h
      exact ⟨mp :: ms, rfl, .cons k1 k⟩
  obtain ⟨ms, e1, k⟩ := key
  have e2 : slice (childElem ps cs).original "commands".toList = ms := by
    rw [slice_plain (by decide +kernel)]
    show (mapItems cs).getD [] = ms
    rw [e1, mapItems_maps]
    rfl
  have e3 : slice (childElem ps cs).original transformsKey = [] := rfl
  rw [e2, drawRender_same k]
  obtain ⟨q, h1, h2⟩ := hd
  rw [h1, Res.ok_bind]
  simp only [Machine.finishAt, e3, List.map_nil]
  exact finish_none _ _ _ h2

omit hf in
theorem row_zero : HasInRow m s g o e zeroVal (.fin 0) := fun _ => rfl

variable {ps : DMap (XNum ℝ)} (hp : ChildParams ps) (cs : List (Val (XNum ℝ)))

include hl

theorem row_half (hp : ChildParams ps) : HasInRow m s g o (childElem ps cs) (.str "finger_space / 2".toList) (.fin (o.space / 2)) := fun _ =>
  convert_half (holeChild_sees o hp cs _) hl hf

theorem row_left (x : XNum ℝ) : HasInRow m s g o (childElem [("left_width".toList, .num x)] cs) (.str "left_width".toList) x := fun _ =>
  convert_var (by decide +kernel) (hl.names _ (by simp)) (C46_own _ _ _ rfl (by intro s h; cases h)) hf

theorem row_right (x : XNum ℝ) : HasInRow m s g o (childElem [("right_width".toList, .num x)] cs) (.str "right_width".toList) x := fun _ =>
  convert_var (by decide +kernel) (hl.names _ (by simp)) (C46_own _ _ _ rfl (by intro s h; cases h)) hf

omit hl in
include hh in
theorem row_step (hp : ChildParams ps) : HasInRow m s g o (childElem ps cs) (.str "finger_width + finger_space / 2".toList) (.fin (o.width + o.space / 2)) := fun _ =>
  convert_step (holeChild_sees o hp cs _) hh hf

omit hl hf in
theorem row_rect (hp : ChildParams ps) : DoesInRow m s g o (childElem ps cs)
    (.map [("command".toList, .str "rectangle".toList), ("width".toList, .str "finger_width".toList), ("height".toList, .str "finger_depth".toList)])
    (rectCommand (.fin o.width) (.fin o.depth)) := by
  refine ⟨rectCmdMap, rfl, sameExec_rect ?_ ?_ ?_⟩
  · show (m.world.text rectCmdMap commandKey).getD unknownName = _
    have : Dyn.get rectCmdMap commandKey = some (.str "rectangle".toList) := rfl
    simp only [World.text, this, if_neg (show "rectangle".toList ≠ [] from by decide), Option.getD_some]
  · exact number_named (a := m.attrs ⟨s.doc, o.elem :: s.ups, s.nested⟩ g (childElem ps cs) (some origin) rectCmdMap) (n := m.fuel) (key := widthKey) (t := "finger_width".toList) rfl
      (by decide +kernel) rfl (holeChild_sees o hp cs _).width
  · refine number_named (a := m.attrs ⟨s.doc, o.elem :: s.ups, s.nested⟩ g (childElem ps cs) (some origin) rectCmdMap) (n := m.fuel) (key := heightKey) (t := "finger_depth".toList) rfl
      (by decide +kernel) rfl ?_
    exact (C46_inherit _ _ _ (child_absent_depth hp cs _)).trans (holes_depth o _)

include hh

theorem row_piece (hp : ChildParams ps) : List.Forall₂ (DoesInRow m s g o (childElem ps cs)) holeCommands (holePiece o.width o.depth o.space) :=
  .cons (row_move hf (row_half hf hl cs hp) row_zero) <| .cons (row_rect cs hp) <| .cons (row_relMove hf (row_step hf hh cs hp) row_zero) .nil

omit hl hh in
theorem row_end {rest : Text} {x : XNum ℝ} (hx : HasInRow m s g o (childElem ps cs) (.str rest) x) :
    List.Forall₂ (DoesInRow m s g o (childElem ps cs)) (holeEndCommands rest) (holeEnd x) :=
  .cons (row_move hf row_zero row_zero) <| .cons (row_relMove hf hx row_zero) .nil

end Child

/-! ## The row -/

/-- Names that neither a row of holes nor anything around it has. -/
def FarFromRow (k : Text) : Prop := FarKey k ∧ k ≠ "finger_depth".toList

instance (k : Text) : Decidable (FarFromRow k) := by unfold FarFromRow; infer_instance

theorem holes_lookup_absent (o : HoleRow) {k : Text} (h : FarFromRow k) : o.map.lookup k = none := by
  have h := h.1
  simp only [FarKey, List.mem_cons, List.not_mem_nil, or_false, not_or] at h
  obtain ⟨h1, h2, h3, h4, h5, h6, h7, h8, h9, h10, h11, -⟩ := h
  simp only [HoleRow.map, List.lookup, beq_eq_false_iff_ne.mpr h1, beq_eq_false_iff_ne.mpr h2, beq_eq_false_iff_ne.mpr h3, beq_eq_false_iff_ne.mpr h4,
    beq_eq_false_iff_ne.mpr h5, beq_eq_false_iff_ne.mpr h6, beq_eq_false_iff_ne.mpr h7, beq_eq_false_iff_ne.mpr h9,
    beq_eq_false_iff_ne.mpr h10, beq_eq_false_iff_ne.mpr h11]

theorem holes_get_absent (o : HoleRow) {k d : Text} {ds : List Text} (hd : dots k = d :: ds) (h : FarFromRow k) (h' : FarFromRow d) : Dyn.get o.map k = none :=
  get_absent hd (holes_lookup_absent o h) (holes_lookup_absent o h')

theorem holes_undefined {doc : Elem (XNum ℝ)} (hd : Bare doc) (p : Piece) (o : HoleRow) {k d : Text} {ds : List Text} (hk : dots k = d :: ds) (h : FarFromRow k)
    (h' : FarFromRow d) : (Chain.component o.elem (.component ⟨[], shownPiece p, []⟩ (.document doc []))).Undefined k ∧
    NoDefault k (Chain.component o.elem (.component ⟨[], shownPiece p, []⟩ (.document doc []))) := by
  have a2 : (⟨[], shownPiece p, []⟩ : Elem (XNum ℝ)).allParams = [] := rfl
  have a1 : o.elem.allParams = o.params := rfl
  have q : ∀ {t : Text}, FarFromRow t → o.params.lookup t = none := by
    intro t ht
    have h4 := ht.2
    have ht := ht.1
    simp only [FarKey, List.mem_cons, List.not_mem_nil, or_false, not_or] at ht
    obtain ⟨-, -, -, -, -, -, -, -, -, -, -, h1, h2, h3, -⟩ := ht
    simp only [HoleRow.params, List.lookup, beq_eq_false_iff_ne.mpr h1, beq_eq_false_iff_ne.mpr h2, beq_eq_false_iff_ne.mpr h3, beq_eq_false_iff_ne.mpr h4]
  have r : ∀ {t : Text}, FarFromRow t → t ∉ ["id".toList, "components".toList, "type".toList, "part_index".toList] := by
    intro t ht hm
    exact ht.1 ((show ∀ x ∈ ["id".toList, "components".toList, "type".toList, "part_index".toList], x ∈ _ from by decide +kernel) t hm)
  have r' : ∀ {t : Text}, FarFromRow t → t ∉ ["material_width".toList, "material_height".toList, "doc_padding".toList, "parts".toList] := by
    intro t ht hm
    exact ht.1 ((show ∀ x ∈ ["material_width".toList, "material_height".toList, "doc_padding".toList, "parts".toList], x ∈ _ from by decide +kernel) t hm)
  refine ⟨⟨by rw [a1]; exact get_absent hk (q h) (q h'), holes_get_absent o hk h h', by rw [a2]; exact Render.get_nil _,
    get_absent hk (shownPiece_absent _ _ (r h)) (shownPiece_absent _ _ (r h')), by rw [hd.allParams]; exact Render.get_nil _, hd.get hk (r' h) (r' h'), Render.get_nil _⟩,
    Render.get_nil _, Render.get_nil _, ?_⟩
  show Dyn.get doc.defaults k = none
  rw [hd.defaults]
  exact Render.get_nil _

section Row

variable (m : Machine (XNum ℝ) O) (hf : 0 < m.fuel) (hl : ReadsJoints m.lib) {doc : Elem (XNum ℝ)} (hd : Bare doc) (p : Piece) (o : HoleRow)
  (cursor : Option (Point (XNum ℝ)))

/-- The attributes of a row of holes. -/
noncomputable def holesAttrs : Source (XNum ℝ) O := m.attrs (pieceSpot doc p) [] o.elem cursor o.map

include hd in
theorem holes_name : (holesAttrs m (doc := doc) p o cursor).string edgeVariableKey = none := by
  have : (holesAttrs m (doc := doc) p o cursor).find edgeVariableKey = none := by
    have hu := holes_undefined hd p o (k := edgeVariableKey) (d := edgeVariableKey) (ds := []) (by decide +kernel) (by decide +kernel) (by decide +kernel)
    exact attrLookup_absent 0 (holes_get_absent o (d := edgeVariableKey) (ds := []) (by decide +kernel) (by decide +kernel) (by decide +kernel)) hu.1 hu.2
  simp only [Source.string, this]

include hf in
theorem holes_start : m.point (holesAttrs m (doc := doc) p o cursor) fromKey = some (finPt (newPoint o.start.1 o.start.2)) :=
  point_given m hf _ _ _ _ _ fromKey (by decide +kernel) o.start rfl

include hf in
theorem holes_stop (start : Point (XNum ℝ)) : found ((holesAttrs m (doc := doc) p o cursor).point2 m.fuel m.fuel toKey start) = some (finPt (newPoint o.stop.1 o.stop.2)) := by
  have h : found ((holesAttrs m (doc := doc) p o cursor).point m.fuel m.fuel toKey) = some (finPt (newPoint o.stop.1 o.stop.2)) :=
    point_given m hf (pieceSpot doc p) [] o.elem cursor o.map toKey (by decide +kernel) o.stop rfl
  revert h
  simp only [Source.point2]
  cases (holesAttrs m (doc := doc) p o cursor).point m.fuel m.fuel toKey <;> intro h <;> first | exact h | cases h

include hf hl hd in
theorem holes_pad {key : Text} (hk : Dyn.get o.map key = some (.str "finger_height * 1.1".toList)) (hne : "finger_height * 1.1".toList ≠ key) :
    m.number (holesAttrs m (doc := doc) p o cursor) key Arith.zero = .fin o.pad := by
  have hu := holes_undefined hd p o (k := "finger_height * 1.1".toList) (d := "finger_height * 1".toList) (ds := ["1".toList]) (by decide +kernel) (by decide +kernel) (by decide +kernel)
  have h1 : (holesAttrs m (doc := doc) p o cursor).find key = some (.str "finger_height * 1.1".toList) :=
    find_text hk hne (holes_get_absent o (d := "finger_height * 1".toList) (ds := ["1".toList]) (by decide +kernel) (by decide +kernel) (by decide +kernel)) hu.1 hu.2
  have h2 : (holesAttrs m (doc := doc) p o cursor).convert m.fuel (.str "finger_height * 1.1".toList) = .val (.fin (o.height * (11 / 10))) :=
    convert_times (a := holesAttrs m (doc := doc) p o cursor) (holes_sees o _) hl hf
  simp only [Machine.number, Source.number, h1, h2]
  rfl

include hd in
theorem holes_handle : (holesAttrs m (doc := doc) p o cursor).handle handleKey = some "$ORIGIN".toList := by
  have h : (holesAttrs m (doc := doc) p o cursor).string handleKey = some "$ORIGIN".toList := by
    have hg : Dyn.get o.map handleKey = some (.str "$ORIGIN".toList) := rfl
    have hu := holes_undefined hd p o (k := "$ORIGIN".toList) (d := "$ORIGIN".toList) (ds := []) (by decide +kernel) (by decide +kernel) (by decide +kernel)
    exact string_given _ _ _ hg (by decide +kernel) (holes_get_absent o (d := "$ORIGIN".toList) (ds := []) (by decide +kernel) (by decide +kernel) (by decide +kernel)) hu.1 hu.2
  have ha : acceptsAttr (F := XNum ℝ) "$ORIGIN".toList = true := by decide +kernel
  simp only [Source.handle, h, Option.bind_some, ha, if_true]

end Row

/-- The component that is made of a row of holes. -/
def HoleRow.node (w : World (XNum ℝ)) (o : HoleRow) : Dyn.Node (XNum ℝ) :=
  .mk (w.idOf o.map) o.map [componentNode w (drawingMap holeCommands), componentNode w (drawingMap (holeEndCommands "left_width".toList)),
    componentNode w (drawingMap (holeEndCommands "right_width".toList))]

theorem live_holes (w : World (XNum ℝ)) (o : HoleRow) : live w (o.node w) =
    .mk .repeatEdge (w.idOf o.map) o.elem [.mk .draw (w.idOf (drawingMap holeCommands)) (childElem [] holeCommands) [],
      .mk .draw (w.idOf (drawingMap (holeEndCommands "left_width".toList))) (childElem [] (holeEndCommands "left_width".toList)) [],
      .mk .draw (w.idOf (drawingMap (holeEndCommands "right_width".toList))) (childElem [] (holeEndCommands "right_width".toList)) []] := by
  have := text_type w (m := o.map) (b := .repeatEdge) rfl
  simp only [HoleRow.node, live, lives, live_child, this, built_text, Option.getD_some, elemOf_holes]

section Assembled

variable (m : Machine (XNum ℝ) O) (hf : 2 ≤ m.fuel) (hl : ReadsJoints m.lib) (hh : ReadsHoles m.lib) (ht : Faithful m.toInt) {doc : Elem (XNum ℝ)} (hd : Bare doc) (p : Piece)
  (o : HoleRow) (ho : o.Fits)

include hf hl hh ht hd ho

theorem draws_ne : o.draws ≠ [] := by
  obtain ⟨k, hk⟩ := Nat.exists_eq_succ_of_ne_zero ho.some
  unfold HoleRow.draws
  rw [hk, List.range_succ_eq_map]
  simp [holeAt]

/-- **C155.** A row of holes is rendered to its holes, wherever the cursor is. -/
theorem C155_holes (cursor : Point (XNum ℝ)) : ∃ (r : Path ℝ) (c' : Live (XNum ℝ)),
    m.render m.fuel (pieceSpot doc p) (live m.world (o.node m.world)) [] cursor = .ok (finPath r, c', []) ∧ strokes r = o.draws ∧ Inked none r := by
  obtain ⟨f, hf'⟩ : ∃ f, m.fuel = f + 2 := ⟨m.fuel - 2, by omega⟩
  have hf0 : 0 < m.fuel := by omega
  have e1 : pt (newPoint o.start.1 o.start.2) = o.start := by rw [pt_newPoint]
  have e2 : pt (newPoint o.stop.1 o.stop.2) = o.stop := by rw [pt_newPoint]
  obtain ⟨r, k1, k2⟩ := C151_holes ht (newPoint o.start.1 o.start.2) (newPoint o.stop.1 o.stop.2) (by rw [e1, e2]; exact ho.apart) o.width o.space o.pad o.pad ho.width ho.space
    (by rw [e1, e2]; exact ho.some) (by rw [e1, e2]; exact ho.count) o.depth
  have hi : Inked none r := (inked_finPath none r).1 (inked_repeatEdge (fun _ _ e => inked_drawRender exactEq_xnum e) (fun _ _ e => inked_drawRender exactEq_xnum e)
    (fun _ _ e => inked_drawRender exactEq_xnum e) k1)
  rw [e1, e2] at k2
  have k2 : strokes r = o.draws := k2
  have hne : finPath r ≠ [] := by
    intro e
    have e' : r = [] := by simpa [finPath] using e
    rw [e'] at k2
    exact draws_ne m hf hl hh ht hd o ho k2.symm
  have hpath : pathOf (m.render (f + 1 + 1) (pieceSpot doc p) (live m.world (o.node m.world)) [] cursor) = .ok (finPath r) := by
    rw [live_holes, C119_repeatEdge (m := m) (n := f + 1) (s := pieceSpot doc p) (i := m.world.idOf o.map) (e := o.elem) (g := []) (cursor := cursor) _ _ _
      (plain_child _ _) (plain_child _ _) (plain_child _ _) (holesAttrs m (doc := doc) p o (some cursor)) rfl _ rfl]
    rw [show m.point (holesAttrs m (doc := doc) p o (some cursor)) "from".toList = _ from holes_start m hf0 p o (some cursor), Option.getD_some,
      show found ((holesAttrs m (doc := doc) p o (some cursor)).point2 m.fuel m.fuel "to".toList _) = _ from holes_stop m hf0 p o (some cursor) _,
      show (holesAttrs m (doc := doc) p o (some cursor)).string "edge_variable_name".toList = none from holes_name m hd p o (some cursor),
      show (holesAttrs m (doc := doc) p o (some cursor)).handle "handle".toList = _ from holes_handle m hd p o (some cursor)]
    simp only [need, withTwo, Res.ok_bind, Option.getD_some]
    rw [show m.number (m.attrs (pieceSpot doc p) [] o.elem (some cursor) o.elem.original) "padding_left".toList Arith.zero = _ from
        holes_pad m hf0 hl hd p o (some cursor) (key := padLeftKey) rfl (by decide +kernel),
      show m.number (m.attrs (pieceSpot doc p) [] o.elem (some cursor) o.elem.original) "padding_right".toList Arith.zero = _ from
        holes_pad m hf0 hl hd p o (some cursor) (key := padRightKey) rfl (by decide +kernel)]
    have k1' : repeatEdge m.toInt
        (fun k => pathOf (m.render (f + 1) ⟨(pieceSpot doc p).doc, o.elem :: (pieceSpot doc p).ups, (pieceSpot doc p).nested⟩
          (indexed (.mk .draw (m.world.idOf (drawingMap holeCommands)) (childElem [] holeCommands) []) k) [] origin))
        (fun w => pathOf (m.render (f + 1) ⟨(pieceSpot doc p).doc, o.elem :: (pieceSpot doc p).ups, (pieceSpot doc p).nested⟩
          ((Live.mk .draw (m.world.idOf (drawingMap (holeEndCommands "left_width".toList))) (childElem [] (holeEndCommands "left_width".toList)) []).putParam "left_width".toList (.num w)) [] origin))
        (fun w => pathOf (m.render (f + 1) ⟨(pieceSpot doc p).doc, o.elem :: (pieceSpot doc p).ups, (pieceSpot doc p).nested⟩
          ((Live.mk .draw (m.world.idOf (drawingMap (holeEndCommands "right_width".toList))) (childElem [] (holeEndCommands "right_width".toList)) []).putParam "right_width".toList (.num w)) [] origin))
        (finPt (newPoint o.start.1 o.start.2)) (finPt (newPoint o.stop.1 o.stop.2)) (.fin o.pad) (.fin o.pad) "$ORIGIN".toList = .ok (finPath r) := by
      rw [← k1]
      congr 1
      · funext k
        obtain ⟨ps, hp, e⟩ := indexed_child (m.world.idOf (drawingMap holeCommands)) holeCommands k
        rw [e]
        exact row_child hf0 f _ ps _ _ (holePiece_some _ _ _) (row_piece hf0 hl hh _ hp)
      · funext x
        exact row_child hf0 f _ [("left_width".toList, .num x)] _ _ (holeEnd_some _) (row_end hf0 _ (row_left hf0 hl _ x))
      · funext x
        exact row_child hf0 f _ [("right_width".toList, .num x)] _ _ (holeEnd_some _) (row_end hf0 _ (row_right hf0 hl _ x))
    rw [k1', Res.ok_bind]
    have e3 : slice o.elem.original transformsKey = [] := rfl
    simp only [Machine.finishAt, e3, List.map_nil]
    exact finish_none _ _ _ hne
  rw [hf']
  cases h : m.render (f + 1 + 1) (pieceSpot doc p) (live m.world (o.node m.world)) [] cursor with
  | ok x =>
    obtain ⟨q', c', g'⟩ := x
    have h' := h
    rw [live_holes] at h'
    have hg := repeatEdge_globals m (plain_child _ _) (plain_child _ _) (plain_child _ _) (holes_name m hd p o (some cursor)) h'
    rw [h] at hpath
    have hq : q' = finPath r := by simpa [pathOf] using hpath
    exact ⟨r, c', by rw [hq, hg], k2, hi⟩
  | err => rw [h] at hpath; cases hpath
  | panic => rw [h] at hpath; cases hpath

end Assembled

/-! ## The document -/

theorem neat_holeCommands : ∀ v ∈ holeCommands, Neat v := by
  intro v hv
  simp only [holeCommands, List.mem_cons, List.not_mem_nil, or_false] at hv
  rcases hv with rfl | rfl | rfl
  · refine neat_pointCmd _ ?_ ?_ <;> first | exact .str _ | exact .num _
  · refine .map (show List.Nodup ["command".toList, "width".toList, "height".toList] by decide +kernel) ?_ ?_ <;> intro e he <;>
      simp only [List.mem_cons, List.not_mem_nil, or_false] at he
    · rcases he with rfl | rfl | rfl <;> simp only <;> decide +kernel
    · rcases he with rfl | rfl | rfl <;> exact .str _
  · refine neat_pointCmd _ ?_ ?_ <;> first | exact .str _ | exact .num _

theorem neat_holeEnd (t : Text) : ∀ v ∈ holeEndCommands t, Neat v := by
  intro v hv
  simp only [holeEndCommands, List.mem_cons, List.not_mem_nil, or_false] at hv
  rcases hv with rfl | rfl <;> refine neat_pointCmd _ ?_ ?_ <;> first | exact .str _ | exact .num _

theorem neat_holes (o : HoleRow) : Neat (.map o.map) := by
  refine .map (show List.Nodup ["type".toList, "params".toList, "padding_left".toList, "padding_right".toList, "from".toList, "to".toList, "handle".toList,
    "repeatable".toList, "left".toList, "right".toList] by decide +kernel) ?_ ?_ <;> intro e he <;>
    simp only [HoleRow.map, List.mem_cons, List.not_mem_nil, or_false] at he
  · rcases he with rfl | rfl | rfl | rfl | rfl | rfl | rfl | rfl | rfl | rfl <;> simp only <;> decide +kernel
  · rcases he with rfl | rfl | rfl | rfl | rfl | rfl | rfl | rfl | rfl | rfl
    · exact .str _
    · refine .map (show List.Nodup ["finger_width".toList, "finger_height".toList, "finger_space".toList, "finger_depth".toList] by decide +kernel) ?_ ?_ <;> intro e he <;>
        simp only [HoleRow.params, List.mem_cons, List.not_mem_nil, or_false] at he
      · rcases he with rfl | rfl | rfl | rfl <;> simp only <;> decide +kernel
      · rcases he with rfl | rfl | rfl | rfl <;> exact .num _
    · exact .str _
    · exact .str _
    · exact neat_pair _
    · exact neat_pair _
    · exact .str _
    · exact neat_drawing neat_holeCommands
    · exact neat_drawing (neat_holeEnd _)
    · exact neat_drawing (neat_holeEnd _)

theorem make_holes (w : World (XNum ℝ)) (n : Nat) (o : HoleRow) : w.make [] (n + 2) o.map = .val (o.node w) := by
  have ht : o.map.lookup typeKey = some (.str Built.repeatEdge.text) := rfl
  have h1 := make_drawing w [] n (drawingMap holeCommands) rfl
  have h2 := make_drawing w [] n (drawingMap (holeEndCommands "left_width".toList)) rfl
  have h3 := make_drawing w [] n (drawingMap (holeEndCommands "right_width".toList)) rfl
  have hm : makeList (w.make [] (n + 1)) (Built.repeatEdge.holes.map (sub o.map)) = .val [componentNode w (drawingMap holeCommands),
      componentNode w (drawingMap (holeEndCommands "left_width".toList)), componentNode w (drawingMap (holeEndCommands "right_width".toList))] := by
    show makeList (w.make [] (n + 1)) [drawingMap holeCommands, drawingMap (holeEndCommands "left_width".toList), drawingMap (holeEndCommands "right_width".toList)] = _
    simp only [makeList, h1, h2, h3]
  rw [World.make]
  simp only [text_type w (b := .repeatEdge) ht, built_text, World.create, clone_neat (neat_holes o), hm]
  rfl

/-- The component that is made of an item. -/
def PanelItem.node (w : World (XNum ℝ)) : PanelItem → Dyn.Node (XNum ℝ)
  | .scene s => s.node w
  | .joint j => j.node w
  | .holes r => r.node w
  | .gear g => g.node w
  | .tab t => t.node w
  | .line a b => LineEdge.node w ⟨some a, b⟩
  | .screws h => componentNode w h.map
  | .edge e => e.node w

theorem neat_panel (o : Panel) : o.piece.Neat := by
  intro c hc
  obtain ⟨i, _, rfl⟩ := List.mem_map.mp hc
  cases i with
  | scene s => exact neat_scene s
  | joint j => exact neat_joint j
  | holes r => exact neat_holes r
  | gear g => exact neat_wheel g
  | tab t => exact neat_tab t
  | line a b => exact neat_lineEdge ⟨some a, b⟩
  | screws h => exact neat_screws h
  | edge e => exact neat_svgEdge e

section Documents

variable (m : Machine (XNum ℝ) O) (hf : 2 ≤ m.fuel) (hl : ReadsJoints m.lib) (hh : ReadsHoles m.lib) (hb : ReadsTabs m.lib) (hw : ReadsLines m.lib) (hg : ReadsScrews m.lib) (ht : Faithful m.toInt)

include hf in
theorem make_item (i : PanelItem) (hi : i.Fits m.fuel) : m.world.make [] m.fuel i.map = .val (i.node m.world) ∧ (i.node m.world).map = i.map := by
  obtain ⟨f, hf'⟩ : ∃ f, m.fuel = f + 2 := ⟨m.fuel - 2, by omega⟩
  cases i with
  | scene s => exact ⟨make_scene m.world [] s m.fuel hi.2, node_map _ _⟩
  | joint j => exact ⟨madeOf_joint m hf j, rfl⟩
  | holes r => exact ⟨by rw [hf']; exact make_holes _ _ r, rfl⟩
  | gear g => exact ⟨by rw [hf']; exact make_wheel _ _ g, rfl⟩
  | tab t => exact ⟨by rw [hf']; exact make_tab _ _ t, rfl⟩
  | line a b => exact ⟨by rw [hf']; exact make_line _ _ ⟨some a, b⟩, rfl⟩
  | screws h => exact ⟨by rw [hf']; exact make_screws _ _ h, rfl⟩
  | edge e => exact ⟨by rw [hf']; exact make_svgEdge _ _ e, rfl⟩

include hf hl hh hb hw hg ht

/-- An item is rendered to what it draws, wherever the cursor is. -/
theorem render_item {doc : Elem (XNum ℝ)} (hd : Bare doc) (p : Piece) (i : PanelItem) (hi : i.Fits m.fuel) (a : Point ℝ) :
    ∃ (r : Path ℝ) (c' : Live (XNum ℝ)), m.render m.fuel (pieceSpot doc p) (live m.world (i.node m.world)) [] (finPt a) = .ok (finPath r, c', []) ∧
      strokes r = i.draws ∧ Inked none r ∧ r ≠ [] := by
  cases i with
  | scene s =>
    have hs : PlainSpot (pieceSpot doc p) := ⟨hd, by
      intro e he
      rw [show (pieceSpot doc p).ups = [⟨[], shownPiece p, []⟩] from rfl, List.mem_singleton] at he
      subst he
      exact piece_plain _⟩
    obtain ⟨r, h1, h2⟩ := render_scene m (by omega) s m.fuel hi.2 _ hs a
    exact ⟨r, _, h1, by rw [h2.strokes]; exact hi.1 _, h2.inked, h2.ne⟩
  | joint j =>
    obtain ⟨r, c', h1, h2, h3, -⟩ := render_joint m hf hl ht hd p j hi (finPt a)
    have hne : r ≠ [] := by
      rintro rfl
      have : j.draws = [] := h2.symm
      simp [FingerJoint.draws, comb] at this
    refine ⟨r, c', h1, h2, ?_, hne⟩
    obtain ⟨a, b, rest, rfl, hi⟩ := readAsDrawn_inked hne h3
    exact hi
  | holes r =>
    obtain ⟨q, c', h1, h2, h3⟩ := C155_holes m hf hl hh ht hd p r hi (finPt a)
    refine ⟨q, c', h1, h2, h3, ?_⟩
    rintro rfl
    exact draws_ne m hf hl hh ht hd r hi h2.symm
  | gear g =>
    obtain ⟨q, h1, h2, h3, h4⟩ := C156_gear m hd p g (finPt a) (by omega) ht hi
    exact ⟨q, _, h1, h2, h3, h4⟩
  | tab t =>
    obtain ⟨q, c', h1, h2, h3⟩ := C157_tab m hf hb hd p t hi a
    refine ⟨q, c', h1, h2, h3, ?_⟩
    rintro rfl
    have h2 : t.draws = [] := h2.symm
    unfold TabJoint.draws at h2
    cases hp : t.plug <;> simp [hp, tabLine] at h2
  | line u v =>
    obtain ⟨q, c', h1, h2, h3, s, h4, -⟩ := C158_line m hf hw hd p ⟨some u, v⟩ a hi
    refine ⟨q, c', h1, h2, h3, ?_⟩
    rintro rfl
    cases h4
  | screws h =>
    obtain ⟨q, h1, h2, h3, h4⟩ := C159_screws m (by omega) hg hd p h a
    exact ⟨q, _, h1, h2, h3, h4⟩
  | edge e =>
    obtain ⟨q, c', h1, h2, h3, h4, -, -⟩ := C160_svg m hf hw hd p e hi a
    exact ⟨q, c', h1, h2, h3, h4⟩

theorem render_items {doc : Elem (XNum ℝ)} (hd : Bare doc) (p : Piece) : ∀ (is : List PanelItem), (∀ i ∈ is, i.Fits m.fuel) → ∀ a : Point ℝ,
    ∃ (ps : List (Path ℝ)) (ls : List (Live (XNum ℝ))),
      renderAllOf (m.render m.fuel (pieceSpot doc p)) (is.map fun i => live m.world (i.node m.world)) [] (finPt a) = .ok (ps.map finPath, ls, []) ∧
      (∀ p ∈ ps, Inked none p) ∧ ps.flatMap strokes = is.flatMap PanelItem.draws
  | [], _, _ => ⟨[], [], rfl, by simp, rfl⟩
  | i :: is, h, a => by
    obtain ⟨r, c', h1, h2, h3, hne⟩ := render_item m hf hl hh hb hw hg ht hd p i (h i (by simp)) a
    obtain ⟨l, hl'⟩ := last_of_ne hne
    have hlast : (finPath r).getLast? = some (finSeg l) := by simp [finPath, List.getLast?_map, hl']
    have hstop : (finSeg l).stop = finPt l.stop := by cases l <;> rfl
    obtain ⟨ps, ls, k1, k2, k3⟩ := render_items hd p is (fun i' h' => h i' (by simp [h'])) l.stop
    refine ⟨r :: ps, c' :: ls, ?_, ?_, ?_⟩
    · simp only [List.map_cons, renderAllOf, h1, Res.ok_bind, hlast, hstop, k1]
    · intro q hq
      rcases List.mem_cons.mp hq with rfl | hq
      · exact h3
      · exact k2 q hq
    · simp only [List.flatMap_cons, h2, k3]

theorem drawsPanel {doc : Elem (XNum ℝ)} (hd : Bare doc) (o : Panel) (ho : o.WellMade m.fuel) : DrawsPiece m (madeOf m.world m.fuel) doc o.piece o.draws := by
  obtain ⟨ps, ls, h1, h2, h3⟩ := render_items m hf hl hh hb hw hg ht hd o.piece o.items ho.fits origin
  refine ⟨ps, ls, h2, h3, ?_⟩
  rw [← h1]
  congr 1
  show (o.items.map PanelItem.map).map _ = _
  rw [List.map_map]
  refine List.map_congr_left fun i hi => ?_
  simp only [Function.comp_apply, madeOf, (make_item m hf i (ho.fits i hi)).1]

/-- **C155.** Whoever reads the files of a document of panels sees every panel once, with its name: its drawings and groups of drawings, the combs of its finger joints,
the holes of its rows, its gears, its tab joints, its straight edges and its screw holes, all at their places, shifted or turned as a whole; the panels are kept apart. -/
theorem C155_seen (files : Nat) (s : Sheet ℝ) (hs : 0 ≤ s.padding) (os : List Panel) (ho : ∀ o ∈ os, o.WellMade m.fuel) :
    SheetsShow s (m.sheets (files + 1) (panelDoc s os)) (os.map fun o => (o.id, o.draws)) := by
  have hd := bare_piece m.world (madeOf m.world m.fuel) s (os.map Panel.piece) (by
    intro o h
    obtain ⟨o, -, rfl⟩ := List.mem_map.mp h
    exact neat_panel o)
  refine pieces_seen m files s hs (madeOf m.world m.fuel) Panel.piece Panel.draws os (fun o _ => neat_panel o) ?_
    (fun o h => ⟨(ho o h).name.1, (ho o h).name.2, (ho o h).sizeable⟩) fun o h => drawsPanel m hf hl hh hb hw hg ht hd o (ho o h)
  intro o h c hc
  obtain ⟨i, hi, rfl⟩ := List.mem_map.mp hc
  have := make_item m hf i ((ho o h).fits i hi)
  simp only [madeOf, this.1]
  exact ⟨trivial, this.2⟩

end Documents

/-! ## Example -/

/-- The language of the joints together with the expressions of the holes, of the tabs and of the screw holes. -/
noncomputable def panelLib : Lib (XNum ℝ) (Fin 5) where
  parse s :=
    if s = "finger_space / 2".toList then some (.op 0 (.var "finger_space".toList) (.num (.fin 2)))
    else if s = "0-finger_height".toList then some (.op 1 (.num (.fin 0)) (.var "finger_height".toList))
    else if s = "finger_height * 1.1".toList then some (.op 2 (.var "finger_height".toList) (.num (.fin (11 / 10))))
    else if s = "finger_width + finger_space / 2".toList then some (.op 3 (.var "finger_width".toList) (.op 0 (.var "finger_space".toList) (.num (.fin 2))))
    else if s = "0".toList then some (.num (.fin 0))
    else if s = " 0".toList then some (.num (.fin 0))
    else if s = "diameter / 2".toList then some (.op 0 (.var "diameter".toList) (.num (.fin 2)))
    else if s = "width - diameter".toList then some (.op 1 (.var "width".toList) (.var "diameter".toList))
    else if s = " height - diameter".toList then some (.op 1 (.var "height".toList) (.var "diameter".toList))
    else if s = " tab_height".toList then some (.var "tab_height".toList)
    else if s = " -tab_height".toList then some (.op 4 .empty (.var "tab_height".toList))
    else if s = "(width - tab_width) / 2".toList then some (.op 0 (.op 1 (.var "width".toList) (.var "tab_width".toList)) (.num (.fin 2)))
    else some (.var s)
  shortcut _ := none
  op b x y :=
    match b, x, y with
    | 0, .num (.fin x), .num (.fin y) => some (.num (.fin (x / y)))
    | 1, .num (.fin x), .num (.fin y) => some (.num (.fin (x - y)))
    | 2, .num (.fin x), .num (.fin y) => some (.num (.fin (x * y)))
    | 3, .num (.fin x), .num (.fin y) => some (.num (.fin (x + y)))
    | 4, .null, .num (.fin x) => some (.num (.fin (-x)))
    | _, _, _ => none

theorem panelLib_reads : ReadsJoints panelLib where
  names := by
    intro x hx
    simp only [List.mem_cons, List.not_mem_nil, or_false] at hx
    rcases hx with rfl | rfl | rfl | rfl <;> rfl
  half := ⟨0, rfl, rfl, fun _ => rfl⟩
  minus := ⟨1, rfl, rfl, fun _ => rfl⟩
  times := ⟨2, rfl, rfl, fun _ => rfl⟩

theorem panelLib_holes : ReadsHoles panelLib := ⟨3, 0, rfl, rfl, rfl, fun _ => rfl, fun _ _ => rfl⟩

theorem panelLib_tabs : ReadsTabs panelLib where
  zero := rfl
  width := rfl
  height := rfl
  spaced := rfl
  minus := ⟨4, rfl, rfl, fun _ => rfl⟩
  half := ⟨0, 1, rfl, rfl, rfl, fun _ _ => rfl, fun _ => rfl⟩

theorem panelLib_lines : ReadsLines panelLib := ⟨rfl, rfl⟩

theorem panelLib_screws : ReadsScrews panelLib where
  zero := rfl
  spaced := rfl
  half := ⟨0, rfl, rfl, fun _ => rfl⟩
  across := ⟨1, rfl, rfl, fun _ _ => rfl⟩
  down := ⟨1, rfl, rfl, fun _ _ => rfl⟩

/-- The row of an example: one hole, where the finger of the example of a joint is. -/
noncomputable def exampleRow : HoleRow := ⟨1 / 4, 1 / 5, 2 / 5, 1 / 10, (0, 0), (5 / 4, 0)⟩

theorem exampleRow_length : lengthOf exampleRow.start exampleRow.stop = 5 / 4 := exampleJoint_length true

theorem exampleRow_pad : exampleRow.pad = 11 / 50 := exampleJoint_pad true

theorem exampleRow_holes : exampleRow.holes = 1 := exampleJoint_fingers true

theorem exampleRow_fits : exampleRow.Fits where
  apart := (exampleJoint_fits true).apart
  width := by norm_num [exampleRow]
  space := by norm_num [exampleRow]
  some := by rw [exampleRow_holes]; exact one_ne_zero
  count := by
    rw [exampleRow_length, exampleRow_pad]
    norm_num [exampleRow]

theorem exampleRow_draws : exampleRow.draws = holeAt (1 / 4) (1 / 10) (1 / 2) := by
  have ha : ∀ q : Pt ℝ, Spec.along (0, 0) (5 / 4, 0) q = q := by
    intro q
    have hL : lengthOf ((0, 0) : Pt ℝ) (5 / 4, 0) = 5 / 4 := exampleRow_length
    simp only [Spec.along, hL]
    ext <;> simp
  have hm : Stroke.map (Spec.along (0, 0) (5 / 4, 0)) = id := by
    funext st
    cases st <;> simp [Stroke.map, ha]
  rw [HoleRow.draws, exampleRow_length, exampleRow_holes, exampleRow_pad]
  rw [show exampleRow.start = (0, 0) from rfl, show exampleRow.stop = (5 / 4, 0) from rfl, hm, List.map_id]
  rw [show teethStart exampleRow.width exampleRow.space (11 / 50) (11 / 50) (5 / 4) = 3 / 10 from by
    show teethStart (1 / 4) (2 / 5) (11 / 50) (11 / 50) (5 / 4) = 3 / 10
    rw [teethStart, exampleJoint_teeth]
    norm_num]
  simp only [List.range_one, List.flatMap_cons, List.flatMap_nil, List.append_nil, exampleRow]
  norm_num

/-- The tab of an example. -/
noncomputable def exampleTab : TabJoint := ⟨true, 1 / 4, 1 / 5, (0, 0), (5 / 4, 0)⟩

theorem exampleTab_draws : exampleTab.draws = tabLine (1 / 5) 0 (1 / 4) (5 / 4) := by
  have hL : lengthOf ((0, 0) : Pt ℝ) (5 / 4, 0) = 5 / 4 := exampleRow_length
  have ha : ∀ q : Pt ℝ, Spec.along (0, 0) (5 / 4, 0) q = q := by
    intro q
    simp only [Spec.along, hL]
    ext <;> simp
  have hm : Stroke.map (Spec.along (0, 0) (5 / 4, 0)) = id := by
    funext st
    cases st <;> simp [Stroke.map, ha]
  simp only [TabJoint.draws, exampleTab, hL, hm, List.map_id, if_true]

/-- The scene of an example: a square that is turned. -/
noncomputable def exampleScene : Scene := .draw [.move (0, 2), .rectangle 1 1] [.matrix 0 1 (-1) 0 0 0]

theorem exampleScene_draws (q : Pt ℝ) : (exampleScene.draws q).1 = [.line (-2, 0) (-2, 1), .line (-2, 1) (-3, 1), .line (-3, 1) (-3, 0), .line (-3, 0) (-2, 0)] := by
  simp only [exampleScene, Scene.draws, penDraws, penEnd, PenCmd.draws, PenCmd.next, bend, Bend.act, Stroke.map, List.map_cons, List.map_nil,
    List.append_nil, List.cons_append, List.nil_append, Prod.mk_add_mk]
  norm_num

/-- The panel of an example: the square, a plug, a row of holes, a tab, a straight edge and a gear. -/
noncomputable def examplePanel : Panel := ⟨"panel".toList, [.scene exampleScene, .joint (exampleJoint true), .holes exampleRow, .tab exampleTab, .line (0, 3) (1, 3), .gear plainWheel]⟩

theorem examplePanel_draws : examplePanel.draws =
    [.line (-2, 0) (-2, 1), .line (-2, 1) (-3, 1), .line (-3, 1) (-3, 0), .line (-3, 0) (-2, 0)] ++ comb (1 / 5) 0 (1 / 4) (2 / 5) (3 / 10) 1 (5 / 4) ++
      holeAt (1 / 4) (1 / 10) (1 / 2) ++ tabLine (1 / 5) 0 (1 / 4) (5 / 4) ++ [.line (0, 3) (1, 3)] ++ plainWheel.draws := by
  simp only [Panel.draws, examplePanel, List.flatMap_cons, List.flatMap_nil, List.append_nil, PanelItem.draws, exampleScene_draws, exampleJoint_draws, exampleRow_draws, exampleTab_draws, if_true,
    List.append_assoc]

theorem examplePanel_wellMade (n : Nat) : examplePanel.WellMade (n + 2) where
  name := ⟨by show "panel".toList ≠ []; decide, by show Unmarked "panel".toList; exact unmarked_of_all (by decide)⟩
  fits := by
    intro i hi
    simp only [examplePanel, List.mem_cons, List.not_mem_nil, or_false] at hi
    rcases hi with rfl | rfl | rfl | rfl | rfl | rfl
    · exact ⟨fun q => by rw [exampleScene_draws, exampleScene_draws], by simp [exampleScene, Scene.depth]⟩
    · exact exampleJoint_fits true
    · exact exampleRow_fits
    · exact exampleRow_fits.apart
    · intro e
      rw [Prod.mk.injEq] at e
      norm_num at e
    · exact plainWheel_fits
  sizeable := by
    rw [examplePanel_draws]
    refine ⟨⟨(-3, 1), (-2, 0), meets_start (b := (-3, 0)) (by simp), meets_start (b := (-2, 1)) (by simp), by norm_num⟩,
      ⟨(-2, 0), (-2, 1), meets_start (b := (-2, 1)) (by simp), meets_start (b := (-3, 1)) (by simp), by norm_num⟩, ?_⟩
    rintro q ⟨st, hst, t, h0, h1, rfl⟩
    rcases List.mem_append.mp hst with hst | hst
    swap
    · have hw := C156_within plainWheel plainWheel_fits.ok ⟨st, hst, t, h0, h1, rfl⟩
      have ho : plainWheel.dims.outer ^ 2 < 2 ^ 2 := by
        have e : plainWheel.dims.outer = 1 / 2 * 10 / (2 * Real.pi) + 1 / 2 / Real.pi - 1 / 100 := rfl
        have hp := Real.pi_gt_three
        have b1 : 1 / 2 * 10 / (2 * Real.pi) ≤ 1 := by rw [div_le_one (by positivity)]; linarith
        have b2 : 1 / 2 / Real.pi ≤ 1 := by rw [div_le_one (by positivity)]; linarith
        have b3 : 0 < 1 / 2 * 10 / (2 * Real.pi) := by positivity
        have b4 : 0 < 1 / 2 / Real.pi := by positivity
        rw [e]
        nlinarith
      have big : ∀ x y : ℝ, x ^ 2 + y ^ 2 < 2 ^ 2 → |x| < 2 ^ 62 := fun x y h => (abs_lt_of_sq_lt_sq (by nlinarith) zero_le_two).trans (by norm_num)
      exact ⟨big _ _ (hw.trans_lt ho), big _ _ (by rw [add_comm]; exact hw.trans_lt ho)⟩
    have key : ∃ p r : Pt ℝ, st = .line p r ∧ |p.1| < 2 ^ 62 ∧ |p.2| < 2 ^ 62 ∧ |r.1| < 2 ^ 62 ∧ |r.2| < 2 ^ 62 := by
      simp only [comb, tooth, holeAt, tabLine, List.range_one, List.flatMap_cons, List.flatMap_nil, List.append_nil, List.cons_append, List.nil_append, List.mem_cons,
        List.not_mem_nil, or_false] at hst
      rcases hst with rfl | rfl | rfl | rfl | rfl | rfl | rfl | rfl | rfl | rfl | rfl | rfl | rfl | rfl | rfl | rfl | rfl | rfl | rfl | rfl | rfl <;> refine ⟨_, _, rfl, ?_, ?_, ?_, ?_⟩ <;> rw [abs_lt] <;> norm_num
    obtain ⟨p, r, rfl, k1, k2, k3, k4⟩ := key
    exact ⟨abs_between k1 k3 h0 h1, abs_between k2 k4 h0 h1⟩

/-- **C155** is not empty: two panels, each with a square, a plug, a hole, a tab, a straight edge and a gear. -/
example (w : World (XNum ℝ)) (toInt : XNum ℝ → Int) (ht : Faithful toInt) (files : Nat) :
    SheetsShow ⟨20, 10, 1⟩ (Machine.sheets ⟨w, panelLib, toInt, 2⟩ (files + 1) (panelDoc ⟨20, 10, 1⟩ [examplePanel, examplePanel]))
      [("panel".toList, examplePanel.draws), ("panel".toList, examplePanel.draws)] :=
  C155_seen ⟨w, panelLib, toInt, 2⟩ (le_refl 2) panelLib_reads panelLib_holes panelLib_tabs panelLib_lines panelLib_screws ht files ⟨20, 10, 1⟩ zero_le_one [examplePanel, examplePanel] fun o h => by
    simp only [List.mem_cons, List.not_mem_nil, or_false, or_self] at h
    subst h
    exact examplePanel_wellMade 0

end Verif.Render
