import Verif.Props.Line
import Verif.Props.DrawComponent
import Verif.Spec.SvgEdge

/-!
# Property C160: edges that are drawn as an svg text
-/

set_option linter.unusedSectionVars false
set_option linter.unusedSimpArgs false

namespace Verif.Path

open Verif Verif.Spec XNum

/-! ## The edge -/

theorem along_similarity {A B a b : Pt ℝ} (hAB : A ≠ B) (hab : a ≠ b) (z : Pt ℝ) :
    Spec.along a b (similarity A B (0, 0) (lengthOf a b, 0) z) = similarity A B a b z := by
  have hL : lengthOf a b ≠ 0 := by
    intro e
    have h0 : 0 ≤ (b.1 - a.1) ^ 2 + (b.2 - a.2) ^ 2 := by positivity
    rw [lengthOf, Real.sqrt_eq_zero h0] at e
    apply hab
    have h1 : b.1 - a.1 = 0 := by nlinarith [sq_nonneg (b.1 - a.1), sq_nonneg (b.2 - a.2)]
    have h2 : b.2 - a.2 = 0 := by nlinarith [sq_nonneg (b.1 - a.1), sq_nonneg (b.2 - a.2)]
    ext <;> linarith
  have hn : (B.1 - A.1) ^ 2 + (B.2 - A.2) ^ 2 ≠ 0 := by
    intro e
    apply hAB
    have h1 : B.1 - A.1 = 0 := by nlinarith [sq_nonneg (B.1 - A.1), sq_nonneg (B.2 - A.2)]
    have h2 : B.2 - A.2 = 0 := by nlinarith [sq_nonneg (B.1 - A.1), sq_nonneg (B.2 - A.2)]
    ext <;> linarith
  simp only [Spec.along, similarity]
  ext
  · field_simp
    ring
  · field_simp
    ring

theorem exec_connectCommand (p : Path (XNum ℝ)) (svg : Text) (x y : XNum ℝ) : (connectCommand svg x y).exec p = svgRotateScaleTo p (newPoint x y) svg false := by
  have h1 : (connectCommand svg x y).text svgKey = some svg := by
    unfold connectCommand
    dsimp only
    rw [if_pos (show svgKey = "svg".toList from rfl)]
  have h2 : (connectCommand svg x y).point toKey = some (newPoint x y) := by
    unfold connectCommand
    dsimp only
    rw [if_pos (show toKey = "to".toList from rfl)]
  have h3 : (connectCommand svg x y).flag reverseKey = none := rfl
  have h4 : DrawOp.ofText (connectCommand svg x y).name = some .svgConnectTo := exec_named _ .svgConnectTo rfl
  unfold Command.exec
  rw [h4]
  simp only [h1, h2, h3, need, Option.getD_none]

theorem read_of_run {svg : Text} {q : Path (XNum ℝ)} (h : svgRun svg false = some q) : parsePath svg = some q := by
  simpa [svgRun] using h

theorem svg_drawn {svg : Text} {q : Path ℝ} {A B : Pt ℝ} (h : ReadAs svg q A B) (L : ℝ) (c : Point ℝ) :
    ∃ p : Path ℝ, drawRender (finPt c) (svgLine svg L) = .ok (finPath p) ∧ strokes p = (strokes q).map (Stroke.map (similarity A B (0, 0) (L, 0))) ∧ p ≠ [] := by
  have e : svgRun svg false = some (finPath q) := by simp [svgRun, h.read]
  obtain ⟨x, x1, x2, -⟩ := C89_connect (moveTo (moveTo [] c) (newPoint 0 0)) (by simp [moveTo]) svg false q e h.small (newPoint L 0) A B h.first h.last h.apart
  have hs : strokes (moveTo (moveTo [] c) (newPoint (0 : ℝ) 0)) = [] := by simp [moveTo, strokes, strokeOf]
  have hc : pt (currentPosition (moveTo (moveTo [] c) (newPoint (0 : ℝ) 0))) = (0, 0) := by simp [moveTo, currentPosition, Segment.stop, newPoint_eq, pt]
  have ht : pt (newPoint L 0) = (L, 0) := by rw [pt_newPoint]
  rw [hs, hc, ht, List.nil_append] at x2
  refine ⟨x, ?_, x2, ?_⟩
  · simp only [drawRender, svgLine, moveTo_cursor, execAll, exec_moveCommand, exec_connectCommand, Res.ok_bind, newPoint_fin, x1]
  · rintro rfl
    have := h.first
    rw [show strokes ([] : Path ℝ) = [] from rfl, eq_comm, List.map_eq_nil_iff] at x2
    rw [x2] at this
    cases this

/-- **C160.** An edge with an svg text draws the strokes of the text, turned and scaled so that the first of them starts where the edge starts and the last ends where it ends. -/
theorem C160_edge {svg : Text} {q : Path ℝ} {A B : Pt ℝ} (h : ReadAs svg q A B) (a b : Point ℝ) (hab : pt a ≠ pt b) (cursor : Point ℝ) : ∃ r : Path ℝ,
    basicEdge (fun _ => [fun c => drawRender c (svgLine svg (lengthOf (pt a) (pt b)))]) (finPt cursor) (finPt a) (finPt b) Attr.origin.text = .ok (finPath r) ∧
    strokes r = (strokes q).map (Stroke.map (similarity A B (pt a) (pt b))) ∧
    (strokes r).head?.map Stroke.first = some (pt a) ∧ (strokes r).getLast?.map Stroke.last = some (pt b) := by
  obtain ⟨p, h1, h2, h3⟩ := svg_drawn h (lengthOf (pt a) (pt b)) cursor
  obtain ⟨s, hs⟩ : ∃ s, p.getLast? = some s := ⟨p.getLast h3, List.getLast?_eq_getLast_of_ne_nil h3⟩
  have h4 : (finPath p).getLast? = some (finSeg s) := by simp [finPath, List.getLast?_map, hs]
  obtain ⟨⟨r, k1, k2⟩, -, -⟩ := C85_origin (fun _ => [fun c => drawRender c (svgLine svg (lengthOf (pt a) (pt b)))]) (finPt cursor) a b hab [p] (by simp) (by
    simp only [renderChildren, h1, Res.ok_bind, h4, List.map_cons, List.map_nil])
  have k5 : strokes r = (strokes q).map (Stroke.map (similarity A B (pt a) (pt b))) := by
    rw [k2]
    simp only [List.flatMap_cons, List.flatMap_nil, List.append_nil, h2, List.map_map]
    refine List.map_congr_left fun st _ => ?_
    rw [Function.comp_apply, stroke_map_map]
    congr 1
    funext z
    exact along_similarity h.apart hab z
  obtain ⟨e1, e2, -⟩ := C78_ends A B (pt a) (pt b) h.apart
  refine ⟨r, k1, k5, ?_, ?_⟩
  · rw [k5, head_first_map, h.first, Option.map_some, e1]
  · rw [k5, last_last_map, h.last, Option.map_some, e2]

end Verif.Path

namespace Verif.Render

open Verif Verif.Dyn Verif.Path Verif.PlanSet Verif.Svg Verif.Files Verif.Xml Verif.Spec

variable {O : Type}

/-! ## Texts that name nothing -/

/-- The names that can be found from within an edge. -/
def edgeNames : List Text :=
  ["type".toList, "commands".toList, "command".toList, "svg".toList, "params".toList, "from".toList, "to".toList, "components".toList, "width".toList, "id".toList, "part_index".toList,
    "material_width".toList, "material_height".toList, "doc_padding".toList, "parts".toList]

/-- A text that leads to none of the names. -/
def NamesNothing (t : Text) : Prop := ∃ k ks, dots t = k :: ks ∧ t ∉ edgeNames ∧ k ∉ edgeNames

theorem namesNothing_of {t : Text} (h1 : dots t = [t]) (h2 : t ∉ edgeNames) : NamesNothing t := ⟨t, [], h1, h2, h2⟩

theorem splitOn_head (sep : Char) (c : Char) : ∀ (s acc : Text), acc.getLast? = some c → ∃ k ks, splitOn sep s acc = k :: ks ∧ k.head? = some c
  | [], acc, h => ⟨acc.reverse, [], rfl, by rw [List.head?_reverse]; exact h⟩
  | d :: s, acc, h => by
    rw [splitOn]
    split
    · exact ⟨acc.reverse, _, rfl, by rw [List.head?_reverse]; exact h⟩
    · refine splitOn_head sep c s (d :: acc) ?_
      cases acc with
      | nil => cases h
      | cons x xs => simpa [List.getLast?_cons_cons] using h

/-- A text that begins with `M` names nothing. -/
theorem namesNothing_svg {t : Text} (h : t.head? = some 'M') : NamesNothing t := by
  have key : ∀ x ∈ edgeNames, x.head? ≠ some 'M' := by decide +kernel
  cases t with
  | nil => cases h
  | cons c s =>
    simp only [List.head?_cons, Option.some.injEq] at h
    subst h
    obtain ⟨k, ks, e, hk⟩ := splitOn_head '.' 'M' s ['M'] rfl
    exact ⟨k, ks, by rw [dots, splitOn, if_neg (by decide)]; exact e, fun hm => key _ hm rfl, fun hm => key _ hm hk⟩

theorem get_nothing {mp : DMap (XNum ℝ)} {t : Text} (h : NamesNothing t) (hm : ∀ k, k ∉ edgeNames → mp.lookup k = none) : Dyn.get mp t = none := by
  obtain ⟨k, ks, h1, h2, h3⟩ := h
  exact get_absent h1 (hm _ h2) (hm _ h3)

theorem nothing_piece {doc : Elem (XNum ℝ)} (hd : Bare doc) (p : Piece) {t : Text} (h : NamesNothing t) :
    (Chain.component ⟨[], shownPiece p, []⟩ (.document doc [])).Undefined t ∧ NoDefault t (Chain.component ⟨[], shownPiece p, []⟩ (.document doc [])) := by
  obtain ⟨k, ks, h1, h2, h3⟩ := h
  have r : ∀ {k : Text}, k ∉ edgeNames → k ∉ ["id".toList, "components".toList, "type".toList, "part_index".toList] := by
    intro k h hm
    exact h ((show ∀ x ∈ ["id".toList, "components".toList, "type".toList, "part_index".toList], x ∈ edgeNames from by decide +kernel) k hm)
  have r' : ∀ {k : Text}, k ∉ edgeNames → k ∉ ["material_width".toList, "material_height".toList, "doc_padding".toList, "parts".toList] := by
    intro k h hm
    exact h ((show ∀ x ∈ ["material_width".toList, "material_height".toList, "doc_padding".toList, "parts".toList], x ∈ edgeNames from by decide +kernel) k hm)
  have a2 : (⟨[], shownPiece p, []⟩ : Elem (XNum ℝ)).allParams = [] := rfl
  refine ⟨⟨by rw [a2]; exact Render.get_nil _, get_absent h1 (shownPiece_absent _ _ (r h2)) (shownPiece_absent _ _ (r h3)), by rw [hd.allParams]; exact Render.get_nil _,
    hd.get h1 (r' h2) (r' h3), Render.get_nil _⟩, Render.get_nil _, ?_⟩
  show Dyn.get doc.defaults t = none
  rw [hd.defaults]
  exact Render.get_nil _

theorem lookup_names {mp : DMap (XNum ℝ)} (h : ∀ e ∈ mp, e.1 ∈ edgeNames) (k : Text) (hk : k ∉ edgeNames) : mp.lookup k = none := by
  rw [List.lookup_eq_none_iff]
  intro e he
  rw [bne_iff_ne]
  rintro rfl
  exact hk (h e he)

/-! ## Elements -/

/-- The element of an edge. -/
def SvgEdge.elem (o : SvgEdge) : Elem (XNum ℝ) := ⟨o.params, o.map, []⟩

theorem elemOf_svgEdge (o : SvgEdge) : elemOf o.map = o.elem := rfl

/-- The element when its child is rendered. -/
def SvgEdge.wide (o : SvgEdge) (L : ℝ) : Elem (XNum ℝ) := ⟨o.params, o.map ++ [("width".toList, .num (.fin L))], []⟩

theorem withVar_svgEdge (o : SvgEdge) (L : ℝ) : withVar o.elem "width".toList (.num (.fin L)) = o.wide L := rfl

theorem svgEdge_sees (o : SvgEdge) (L : ℝ) (cs : List (Val (XNum ℝ))) (c : Chain (XNum ℝ)) :
    (Chain.component (childElem [] cs) (.component (o.wide L) c)).lookup "width".toList = some (.num (.fin L)) := by
  rw [C46_inherit _ _ _ rfl]
  exact C46_own _ _ _ rfl (by intro s h; cases h)

theorem names_of {mp : DMap (XNum ℝ)} (h : (mp.map (·.1)).all (fun k => decide (k ∈ edgeNames)) = true) : ∀ e ∈ mp, e.1 ∈ edgeNames := by
  intro e he
  exact of_decide_eq_true (List.all_eq_true.mp h e.1 (List.mem_map_of_mem he))

theorem nothing_map (o : SvgEdge) {t : Text} (h : NamesNothing t) : Dyn.get o.map t = none :=
  get_nothing h (lookup_names (names_of (show List.all ["type".toList, "params".toList, "from".toList, "to".toList, "components".toList] _ = true by decide +kernel)))

theorem nothing_params (o : SvgEdge) {t : Text} (h : NamesNothing t) : Dyn.get o.params t = none :=
  get_nothing h (lookup_names (names_of (show List.all ["svg".toList] _ = true by decide +kernel)))

theorem nothing_edge {doc : Elem (XNum ℝ)} (hd : Bare doc) (p : Piece) (o : SvgEdge) {t : Text} (h : NamesNothing t) :
    (Chain.component o.elem (.component ⟨[], shownPiece p, []⟩ (.document doc []))).Undefined t ∧
    NoDefault t (Chain.component o.elem (.component ⟨[], shownPiece p, []⟩ (.document doc []))) := by
  have k0 := nothing_piece hd p h
  exact ⟨⟨nothing_params o h, nothing_map o h, k0.1⟩, Render.get_nil _, k0.2⟩

theorem nothing_child {doc : Elem (XNum ℝ)} (hd : Bare doc) (p : Piece) (o : SvgEdge) (L : ℝ) (cs : List (Val (XNum ℝ))) {t : Text} (h : NamesNothing t) :
    (Chain.component (childElem [] cs) (.component (o.wide L) (.component ⟨[], shownPiece p, []⟩ (.document doc [])))).Undefined t ∧
    NoDefault t (Chain.component (childElem [] cs) (.component (o.wide L) (.component ⟨[], shownPiece p, []⟩ (.document doc [])))) := by
  have k0 := nothing_piece hd p h
  have a2 : (childElem [] cs).allParams = [] := rfl
  exact ⟨⟨by rw [a2]; exact Render.get_nil _,
    get_nothing h (lookup_names (names_of (show List.all ["type".toList, "commands".toList] _ = true by decide +kernel))),
    nothing_params o h,
    get_nothing h (lookup_names (names_of (show List.all ["type".toList, "params".toList, "from".toList, "to".toList, "components".toList, "width".toList] _ = true by decide +kernel))),
    k0.1⟩, Render.get_nil _, Render.get_nil _, k0.2⟩

theorem nothing_cmd (name t' : Text) {t : Text} (h : NamesNothing t) : Dyn.get (textCmdMap name t') t = none :=
  get_nothing h (lookup_names (names_of (show List.all ["command".toList, "to".toList] _ = true by decide +kernel)))

theorem nothing_connect {t : Text} (h : NamesNothing t) : Dyn.get connectMap t = none :=
  get_nothing h (lookup_names (names_of (show List.all ["command".toList, "to".toList, "svg".toList] _ = true by decide +kernel)))

theorem NamesNothing.ne {t k : Text} (h : NamesNothing t) (hk : k ∈ edgeNames) : t ≠ k := by
  obtain ⟨_, _, _, h2, _⟩ := h
  rintro rfl
  exact h2 hk

/-- An attribute whose text is its own name has what the name stands for. -/
theorem string_named {a : Source (XNum ℝ) O} {s t : Text} (h : Dyn.get a.mp s = some (.str s)) (hs : a.chain.lookup s = some (.str t)) (ht : a.chain.lookup t = none) :
    a.string s = some t := by
  have : a.find s = some (.str t) := by
    unfold Source.find
    rw [attrLookup]
    simp only [show ¬ 0 > recursionMax from by decide, if_false, h, ne_eq, not_true_eq_false, hs]
  simp only [Source.string, this, Source.textOf, ht]
  split <;> rfl

/-! ## The child -/

section Child

variable (m : Machine (XNum ℝ) O) (hf : 0 < m.fuel) (hl : ReadsLines m.lib) {doc : Elem (XNum ℝ)} (hd : Bare doc) (p : Piece) (o : SvgEdge) (L : ℝ) (cursor : Point (XNum ℝ))

/-- Where the child of an edge is. -/
noncomputable def svgSpot (doc : Elem (XNum ℝ)) (p : Piece) (o : SvgEdge) (L : ℝ) : Spot (XNum ℝ) :=
  ⟨(pieceSpot doc p).doc, o.wide L :: (pieceSpot doc p).ups, (pieceSpot doc p).nested⟩

theorem sameExec_connect {c : Command (XNum ℝ)} {svg : Text} {u v : XNum ℝ} (h1 : c.name = "svg_connect_to".toList) (h2 : c.point toKey = some (newPoint u v))
    (h3 : c.text svgKey = some svg) (h4 : c.flag reverseKey = none) : SameExec c (connectCommand svg u v) := by
  intro p
  rw [exec_connectCommand, Command.exec, exec_named _ .svgConnectTo h1]
  simp only [h2, h3, h4, need, Option.getD_none]

include hf hl hd

theorem svg_child (hsvg : o.svg.head? = some 'M') (n : Nat) (i : Text) (hq : ∃ q, drawRender cursor (svgLine o.svg L) = .ok q ∧ q ≠ []) :
    pathOf (m.render (n + 1) (svgSpot doc p o L) (.mk .draw i (childElem [] svgCommands) []) [] cursor) = drawRender cursor (svgLine o.svg L) := by
  rw [C119_draw]
  have e2 : slice (childElem [] svgCommands).original "commands".toList = [textCmdMap "move".toList "0,0".toList, connectMap] := rfl
  have e3 : slice (childElem [] svgCommands).original transformsKey = [] := rfl
  have z : ∀ mp, (m.attrs (svgSpot doc p o L) [] (childElem [] svgCommands) (some cursor) mp).convert m.fuel (.str "0".toList) = .val (.fin 0) := by
    intro mp
    obtain ⟨n, hn⟩ : ∃ k, m.fuel = k + 1 := ⟨m.fuel - 1, by omega⟩
    have ht : "0".toList.filter (fun c => decide (c ≠ '$')) = "0".toList := by decide +kernel
    have hz : (m.attrs (svgSpot doc p o L) [] (childElem [] svgCommands) (some cursor) mp).lib.parse "0".toList = some (.num (.fin 0)) := hl.zero
    rw [hn]
    simp only [Source.convert, evalExpression, ht, evalText, show ¬ 0 > maxRecursion from by decide, if_false, hz, evalExpr, toFloat64]
  have w : ∀ mp, (m.attrs (svgSpot doc p o L) [] (childElem [] svgCommands) (some cursor) mp).convert m.fuel (.str "width".toList) = .val (.fin L) := fun mp =>
    convert_var (by decide +kernel) hl.width (svgEdge_sees o L _ _) hf
  have n0 : NamesNothing "0,0".toList := namesNothing_of (by decide +kernel) (by decide +kernel)
  have n1 : NamesNothing "width,0".toList := namesNothing_of (by decide +kernel) (by decide +kernel)
  have n2 : NamesNothing reverseKey := namesNothing_of (by decide +kernel) (by decide +kernel)
  have n3 : NamesNothing o.svg := namesNothing_svg hsvg
  have s1 : (m.command (m.attrs (svgSpot doc p o L) [] (childElem [] svgCommands) (some cursor) (textCmdMap "move".toList "0,0".toList))).point toKey =
      some (newPoint (.fin 0) (.fin 0)) :=
    command_text m hf _ _ _ _ _ (by decide +kernel) (n0.ne (by decide +kernel)) (nothing_cmd _ _ n0) (nothing_child hd p o L _ n0).1 (nothing_child hd p o L _ n0).2 (z _) (z _)
  have s2 : (m.command (m.attrs (svgSpot doc p o L) [] (childElem [] svgCommands) (some cursor) connectMap)).point toKey = some (newPoint (.fin L) (.fin 0)) := by
    show found ((m.attrs (svgSpot doc p o L) [] (childElem [] svgCommands) (some cursor) connectMap).point m.fuel m.fuel toKey) = _
    obtain ⟨f, hf'⟩ : ∃ f, m.fuel = f + 1 := ⟨m.fuel - 1, by omega⟩
    have hg : Dyn.get (m.attrs (svgSpot doc p o L) [] (childElem [] svgCommands) (some cursor) connectMap).mp toKey = some (.str "width,0".toList) := rfl
    have hfind := find_text hg (n1.ne (by decide +kernel)) (nothing_connect n1) (nothing_child hd p o L _ n1).1 (nothing_child hd p o L _ n1).2
    have hstr := string_given _ _ _ hg (n1.ne (by decide +kernel)) (nothing_connect n1) (nothing_child hd p o L _ n1).1 (nothing_child hd p o L _ n1).2
    have hs : splitOn ',' "width,0".toList [] = ["width".toList, "0".toList] := by decide +kernel
    rw [show ∀ a : Source (XNum ℝ) O, a.point m.fuel m.fuel toKey = a.point m.fuel (f + 1) toKey from fun a => by rw [← hf']]
    simp only [Source.point, if_neg (show ¬ toKey.head? = some '$' from by decide +kernel), hfind, hstr, Option.getD_some, hs, Source.pair, w, z, found]
  have s3 : (m.command (m.attrs (svgSpot doc p o L) [] (childElem [] svgCommands) (some cursor) connectMap)).text svgKey = some o.svg := by
    have hlook : (Chain.component (childElem [] svgCommands) (.component (o.wide L) (.component ⟨[], shownPiece p, []⟩ (.document doc [])))).lookup svgKey = some (.str o.svg) := by
      rw [C46_inherit _ _ _ rfl]
      exact C46_own_text _ _ _ rfl (nothing_child hd p o L svgCommands n3).1.2.2
    refine string_named (s := svgKey) rfl hlook ?_
    exact C46_missing _ _ (nothing_child hd p o L svgCommands n3).1
  have s4 : (m.command (m.attrs (svgSpot doc p o L) [] (childElem [] svgCommands) (some cursor) connectMap)).flag reverseKey = none := by
    have : (m.attrs (svgSpot doc p o L) [] (childElem [] svgCommands) (some cursor) connectMap).find reverseKey = none :=
      attrLookup_absent 0 (nothing_connect n2) (nothing_child hd p o L _ n2).1 (nothing_child hd p o L _ n2).2
    show Source.flag _ reverseKey = none
    simp only [Source.flag, Source.string, this, Option.bind_none]
  have s5 : (m.command (m.attrs (svgSpot doc p o L) [] (childElem [] svgCommands) (some cursor) connectMap)).name = "svg_connect_to".toList := by
    show (m.world.text connectMap commandKey).getD unknownName = _
    have : Dyn.get connectMap commandKey = some (.str "svg_connect_to".toList) := rfl
    simp only [World.text, this, if_neg (show "svg_connect_to".toList ≠ [] by decide), Option.getD_some]
  have k : List.Forall₂ SameExec ([textCmdMap "move".toList "0,0".toList, connectMap].map fun mp =>
      m.command (m.attrs (svgSpot doc p o L) [] (childElem [] svgCommands) (some cursor) mp)) (svgLine o.svg L) :=
    .cons (sameExec_move (command_text_name m _ _ _ _ (by decide) _) s1) <| .cons (sameExec_connect s5 s2 s3 s4) .nil
  rw [e2, drawRender_same k]
  obtain ⟨q, h1, h2⟩ := hq
  rw [h1, Res.ok_bind]
  simp only [Machine.finishAt, e3, List.map_nil]
  exact finish_none _ _ _ h2

end Child

/-! ## The edge in a document -/

section Edge

variable (m : Machine (XNum ℝ) O) (hf : 0 < m.fuel) {doc : Elem (XNum ℝ)} (hd : Bare doc) (p : Piece) (o : SvgEdge) (cursor : Option (Point (XNum ℝ)))

/-- The attributes of an edge. -/
noncomputable def svgAttrs : Source (XNum ℝ) O := m.attrs (pieceSpot doc p) [] o.elem cursor o.map

include hd in
theorem svg_none {k : Text} (h : NamesNothing k) : (svgAttrs m (doc := doc) p o cursor).string k = none := by
  have : (svgAttrs m (doc := doc) p o cursor).find k = none := attrLookup_absent 0 (nothing_map o h) (nothing_edge hd p o h).1 (nothing_edge hd p o h).2
  simp only [Source.string, this]

include hf in
theorem svg_start : m.point (svgAttrs m (doc := doc) p o cursor) fromKey = some (finPt (newPoint o.start.1 o.start.2)) :=
  point_given m hf _ _ _ _ _ fromKey (by decide +kernel) o.start rfl

include hf in
theorem svg_stop (start : Point (XNum ℝ)) : found ((svgAttrs m (doc := doc) p o cursor).point2 m.fuel m.fuel toKey start) = some (finPt (newPoint o.stop.1 o.stop.2)) := by
  have h : found ((svgAttrs m (doc := doc) p o cursor).point m.fuel m.fuel toKey) = some (finPt (newPoint o.stop.1 o.stop.2)) :=
    point_given m hf (pieceSpot doc p) [] o.elem cursor o.map toKey (by decide +kernel) o.stop rfl
  revert h
  simp only [Source.point2]
  cases (svgAttrs m (doc := doc) p o cursor).point m.fuel m.fuel toKey <;> intro h <;> first | exact h | cases h

end Edge

/-- The component that is made of an edge. -/
def SvgEdge.node (w : World (XNum ℝ)) (o : SvgEdge) : Dyn.Node (XNum ℝ) := .mk (w.idOf o.map) o.map [componentNode w (drawingMap svgCommands)]

theorem live_svgEdge (w : World (XNum ℝ)) (o : SvgEdge) : live w (o.node w) =
    .mk .basicEdge (w.idOf o.map) o.elem [.mk .draw (w.idOf (drawingMap svgCommands)) (childElem [] svgCommands) []] := by
  have := text_type w (m := o.map) (b := .basicEdge) rfl
  simp only [SvgEdge.node, live, lives, live_child, this, built_text, Option.getD_some, elemOf_svgEdge]

/-- **C160.** An edge with an svg text in a document draws the strokes of the text, turned and scaled so that the first of them starts where the edge starts and the last ends where it
ends, wherever the cursor is. -/
theorem C160_svg (m : Machine (XNum ℝ) O) (hf : 2 ≤ m.fuel) (hl : ReadsLines m.lib) {doc : Elem (XNum ℝ)} (hd : Bare doc) (p : Piece) (o : SvgEdge) (ho : o.WellMade)
    (cursor : Point ℝ) : ∃ (r : Path ℝ) (c' : Live (XNum ℝ)),
    m.render m.fuel (pieceSpot doc p) (live m.world (o.node m.world)) [] (finPt cursor) = .ok (finPath r, c', []) ∧
      strokes r = o.draws ∧ Inked none r ∧ r ≠ [] ∧ o.draws.head?.map Stroke.first = some o.start ∧ o.draws.getLast?.map Stroke.last = some o.stop := by
  obtain ⟨f, hf'⟩ : ∃ f, m.fuel = f + 2 := ⟨m.fuel - 2, by omega⟩
  have hf0 : 0 < m.fuel := by omega
  have e1 : pt (newPoint o.start.1 o.start.2) = o.start := by rw [pt_newPoint]
  have e2 : pt (newPoint o.stop.1 o.stop.2) = o.stop := by rw [pt_newPoint]
  obtain ⟨r, k1, k2, k3, k4⟩ := C160_edge ho.read (newPoint o.start.1 o.start.2) (newPoint o.stop.1 o.stop.2) (by rw [e1, e2]; exact ho.long) cursor
  rw [k2, e1, e2] at k3 k4
  rw [e1, e2] at k2
  have hi : Inked none r := (inked_finPath none r).1 (inked_basicEdge (fun _ c hc _ _ e => by
    rw [List.mem_singleton] at hc
    subst hc
    exact inked_drawRender exactEq_xnum e) k1)
  have hr : r ≠ [] := by
    rintro rfl
    rw [← k2] at k3
    cases k3
  have hne : finPath r ≠ [] := by simpa [finPath] using hr
  have hpath : pathOf (m.render (f + 1 + 1) (pieceSpot doc p) (live m.world (o.node m.world)) [] (finPt cursor)) = .ok (finPath r) := by
    rw [live_svgEdge, C119_basicEdge (m := m) (n := f + 1) (s := pieceSpot doc p) (i := m.world.idOf o.map) (e := o.elem) (g := []) (cursor := finPt cursor) _
      (by intro c hc; rw [List.mem_singleton] at hc; subst hc; exact plain_child _ _) (svgAttrs m (doc := doc) p o (some (finPt cursor))) rfl _ rfl]
    rw [show m.point (svgAttrs m (doc := doc) p o (some (finPt cursor))) "from".toList = _ from svg_start m hf0 p o _, Option.getD_some,
      show found ((svgAttrs m (doc := doc) p o (some (finPt cursor))).point2 m.fuel m.fuel "to".toList _) = _ from svg_stop m hf0 p o _ _,
      show (svgAttrs m (doc := doc) p o (some (finPt cursor))).string "edge_variable_name".toList = none from
        svg_none m hd p o _ (namesNothing_of (by decide +kernel) (by decide +kernel)),
      show (svgAttrs m (doc := doc) p o (some (finPt cursor))).handle "handle".toList = none from by
        simp only [Source.handle, svg_none m hd p o (some (finPt cursor)) (k := "handle".toList) (namesNothing_of (by decide +kernel) (by decide +kernel)), Option.bind_none]]
    simp only [need, withTwo, Res.ok_bind, Option.getD_none]
    have k1' : basicEdge (fun w => [Live.mk .draw (m.world.idOf (drawingMap svgCommands)) (childElem [] svgCommands) []].map fun c cursor =>
          pathOf (m.render (f + 1) ⟨(pieceSpot doc p).doc, withVar o.elem "width".toList (.num w) :: (pieceSpot doc p).ups, (pieceSpot doc p).nested⟩ c [] cursor))
        (finPt cursor) (finPt (newPoint o.start.1 o.start.2)) (finPt (newPoint o.stop.1 o.stop.2)) Attr.origin.text = .ok (finPath r) := by
      rw [← k1]
      unfold basicEdge
      rw [distance_fin]
      congr 1
      obtain ⟨q, q1, -, q3⟩ := svg_drawn ho.read (lengthOf (pt (newPoint o.start.1 o.start.2)) (pt (newPoint o.stop.1 o.stop.2))) cursor
      have := svg_child m hf0 hl hd p o (lengthOf (pt (newPoint o.start.1 o.start.2)) (pt (newPoint o.stop.1 o.stop.2))) (finPt cursor) ho.text f
        (m.world.idOf (drawingMap svgCommands)) ⟨_, q1, by simpa [finPath] using q3⟩
      simp only [List.map_cons, List.map_nil, renderChildren]
      rw [withVar_svgEdge]
      unfold svgSpot at this
      rw [this]
    rw [k1', Res.ok_bind]
    rw [distance_fin, withVar_svgEdge]
    have e3 : ∀ L, slice (o.wide L).original transformsKey = [] := fun _ => rfl
    simp only [Machine.finishAt, e3, List.map_nil]
    exact finish_none _ _ _ hne
  rw [hf']
  cases h : m.render (f + 1 + 1) (pieceSpot doc p) (live m.world (o.node m.world)) [] (finPt cursor) with
  | ok x =>
    obtain ⟨q', c', g'⟩ := x
    have h' := h
    rw [live_svgEdge] at h'
    have hg := basicEdge_globals m (by intro c hc; rw [List.mem_singleton] at hc; subst hc; exact plain_child _ _)
      (svg_none m hd p o (some (finPt cursor)) (k := edgeVariableKey) (namesNothing_of (by decide +kernel) (by decide +kernel))) h'
    rw [h] at hpath
    have hq : q' = finPath r := by simpa [pathOf] using hpath
    exact ⟨r, c', by rw [hq, hg], k2, hi, hr, k3, k4⟩
  | err => rw [h] at hpath; cases hpath
  | panic => rw [h] at hpath; cases hpath

theorem neat_connect : Neat (.map connectMap : Val (XNum ℝ)) := by
  refine .map (show List.Nodup ["command".toList, "to".toList, "svg".toList] by decide +kernel) ?_ ?_ <;> intro e he <;>
    simp only [connectMap, List.mem_cons, List.not_mem_nil, or_false] at he
  · rcases he with rfl | rfl | rfl <;> simp only <;> decide +kernel
  · rcases he with rfl | rfl | rfl <;> exact .str _

theorem neat_svgEdge (o : SvgEdge) : Neat (.map o.map) := by
  have hc : Neat (.list [.map (drawingMap svgCommands)] : Val (XNum ℝ)) := by
    refine .list fun v hv => ?_
    rw [List.mem_singleton] at hv
    subst hv
    refine neat_drawing fun v hv => ?_
    simp only [svgCommands, List.mem_cons, List.not_mem_nil, or_false] at hv
    rcases hv with rfl | rfl
    · exact neat_textCmd _ _
    · exact neat_connect
  refine .map (show List.Nodup ["type".toList, "params".toList, "from".toList, "to".toList, "components".toList] by decide +kernel) ?_ ?_ <;> intro e he <;>
    simp only [SvgEdge.map, List.mem_cons, List.not_mem_nil, or_false] at he
  · rcases he with rfl | rfl | rfl | rfl | rfl <;> simp only <;> decide +kernel
  · rcases he with rfl | rfl | rfl | rfl | rfl
    · exact .str _
    · refine .map (show List.Nodup ["svg".toList] by decide +kernel) ?_ ?_ <;> intro e he <;>
        simp only [SvgEdge.params, List.mem_cons, List.not_mem_nil, or_false] at he
      · subst he
        simp only
        decide +kernel
      · subst he
        exact .str _
    · exact neat_pair _
    · exact neat_pair _
    · exact hc

theorem make_svgEdge (w : World (XNum ℝ)) (n : Nat) (o : SvgEdge) : w.make [] (n + 2) o.map = .val (o.node w) := by
  have ht : o.map.lookup typeKey = some (.str Built.basicEdge.text) := rfl
  have h1 := make_drawing w [] n (drawingMap svgCommands) rfl
  have hs : slice o.map componentsKey = [drawingMap svgCommands] := rfl
  have hm : makeList (w.make [] (n + 1)) (slice o.map componentsKey) = .val [componentNode w (drawingMap svgCommands)] := by
    rw [hs]
    simp only [makeList, h1]
  rw [World.make]
  simp only [text_type w (b := .basicEdge) ht, built_text, World.create, clone_neat (neat_svgEdge o), hm]
  rfl

/-! ## Documents -/

section Documents

variable (m : Machine (XNum ℝ) O) (hf : 2 ≤ m.fuel) (hl : ReadsLines m.lib)

include hf hl

theorem render_svgEdges {doc : Elem (XNum ℝ)} (hd : Bare doc) (p : Piece) : ∀ (gs : List SvgEdge), (∀ g ∈ gs, g.WellMade) → ∀ a : Point ℝ,
    ∃ (ps : List (Path ℝ)) (ls : List (Live (XNum ℝ))),
      renderAllOf (m.render m.fuel (pieceSpot doc p)) (gs.map fun g => live m.world (g.node m.world)) [] (finPt a) = .ok (ps.map finPath, ls, []) ∧
      (∀ p ∈ ps, Inked none p) ∧ ps.flatMap strokes = gs.flatMap SvgEdge.draws
  | [], _, _ => ⟨[], [], rfl, by simp, rfl⟩
  | g :: gs, hg, a => by
    obtain ⟨r, c', h1, h2, h3, hne, -, -⟩ := C160_svg m hf hl hd p g (hg g (by simp)) a
    obtain ⟨l, hl'⟩ : ∃ l, r.getLast? = some l := ⟨r.getLast hne, List.getLast?_eq_getLast_of_ne_nil hne⟩
    have hlast : (finPath r).getLast? = some (finSeg l) := by simp [finPath, List.getLast?_map, hl']
    have hstop : (finSeg l).stop = finPt l.stop := by cases l <;> rfl
    obtain ⟨ps, ls, k1, k2, k3⟩ := render_svgEdges hd p gs (fun x hx => hg x (by simp [hx])) l.stop
    refine ⟨r :: ps, c' :: ls, ?_, ?_, ?_⟩
    · simp only [List.map_cons, renderAllOf, h1, Res.ok_bind, hlast, hstop, k1]
    · intro q hq
      rcases List.mem_cons.mp hq with rfl | hq
      · exact h3
      · exact k2 q hq
    · simp only [List.flatMap_cons, h2, k3]

/-- **C160.** Whoever reads the files of a document of plates with such edges sees every plate once, with its name: the strokes of the texts along its edges, shifted or turned as a
whole; the plates are kept apart. -/
theorem C160_seen (files : Nat) (s : Sheet ℝ) (hs : 0 ≤ s.padding) (os : List SvgPlate) (ho : ∀ o ∈ os, o.WellMade) :
    SheetsShow s (m.sheets (files + 1) (svgPlateDoc s os)) (os.map fun o => (o.id, o.draws)) := by
  have hN : ∀ o : SvgPlate, o.piece.Neat := by
    intro o c hc
    obtain ⟨i, _, rfl⟩ := List.mem_map.mp hc
    exact neat_svgEdge i
  obtain ⟨f, hf'⟩ : ∃ f, m.fuel = f + 2 := ⟨m.fuel - 2, by omega⟩
  have hmk : ∀ g : SvgEdge, m.world.make [] m.fuel g.map = .val (g.node m.world) := fun g => by rw [hf']; exact make_svgEdge _ _ g
  have hd := bare_piece m.world (madeOf m.world m.fuel) s (os.map SvgPlate.piece) (by
    intro o h
    obtain ⟨o, -, rfl⟩ := List.mem_map.mp h
    exact hN o)
  refine pieces_seen m files s hs (madeOf m.world m.fuel) SvgPlate.piece SvgPlate.draws os (fun o _ => hN o) ?_
    (fun o h => ⟨(ho o h).name.1, (ho o h).name.2, (ho o h).sizeable⟩) fun o h => ?_
  · intro o h c hc
    obtain ⟨i, hi, rfl⟩ := List.mem_map.mp hc
    simp only [madeOf, hmk]
    exact ⟨trivial, rfl⟩
  · obtain ⟨ps, ls, h1, h2, h3⟩ := render_svgEdges m hf hl hd o.piece o.edges (ho o h).edges origin
    refine ⟨ps, ls, h2, h3, ?_⟩
    rw [← h1]
    congr 1
    show (o.edges.map SvgEdge.map).map _ = _
    rw [List.map_map]
    refine List.map_congr_left fun i hi => ?_
    simp only [Function.comp_apply, madeOf, hmk]

end Documents

/-! ## Example -/

/-- The edge of an example: the diagonal `M 0 0 L 1 1`, laid from `(0, 0)` to `(3, 4)`. -/
noncomputable def diagonalEdge : SvgEdge := ⟨"M 0 0 L 1 1".toList, readDiagonal, (0, 0), (1, 1), (0, 0), (3, 4)⟩

theorem diagonal_read : ReadAs "M 0 0 L 1 1".toList readDiagonal (0, 0) (1, 1) where
  read := read_of_run readDiagonal_text
  small := by
    intro a c d b h
    simp [readDiagonal, strokes, strokeOf] at h
  first := rfl
  last := rfl
  apart := by simp

theorem diagonalEdge_wellMade : diagonalEdge.WellMade where
  text := show "M 0 0 L 1 1".toList.head? = some 'M' by decide
  read := diagonal_read
  long := by
    show ((0, 0) : Pt ℝ) ≠ (3, 4)
    simp

theorem diagonalEdge_draws : diagonalEdge.draws = [.line (0, 0) (3, 4)] := by
  show (strokes readDiagonal).map (Stroke.map (similarity (0, 0) (1, 1) (0, 0) (3, 4))) = _
  simp only [readDiagonal, strokes, strokeOf, List.filterMap_cons, List.filterMap_nil, List.map_cons, List.map_nil, Stroke.map, similarity, pt]
  norm_num

/-- The plate of the example. -/
noncomputable def diagonalPlate : SvgPlate := ⟨"plate".toList, [diagonalEdge]⟩

theorem diagonalPlate_wellMade : diagonalPlate.WellMade where
  name := ⟨by simp [diagonalPlate], unmarked_of_all (by show List.all "plate".toList _ = true; decide)⟩
  edges := by
    intro e h
    simp only [diagonalPlate, List.mem_cons, List.not_mem_nil, or_false] at h
    subst h
    exact diagonalEdge_wellMade
  sizeable := by
    have e : diagonalPlate.draws = [.line (0, 0) (3, 4)] := by simp [SvgPlate.draws, diagonalPlate, diagonalEdge_draws]
    have hq : Meets [.line (0, 0) (3, 4)] ((3, 4) : Pt ℝ) := ⟨_, List.mem_singleton_self _, 1, zero_le_one, le_refl _, by simp [Stroke.at]⟩
    rw [e]
    refine ⟨⟨(0, 0), (3, 4), meets_start (b := (3, 4)) (by simp), hq, by norm_num⟩, ⟨(0, 0), (3, 4), meets_start (b := (3, 4)) (by simp), hq, by norm_num⟩, ?_⟩
    rintro q ⟨st, hst, t, h0, h1, rfl⟩
    rw [List.mem_singleton] at hst
    subst hst
    exact ⟨abs_between (by norm_num) (by norm_num) h0 h1, abs_between (by norm_num) (by norm_num) h0 h1⟩

/-- **C160** is not empty: two plates. -/
example (w : World (XNum ℝ)) (toInt : XNum ℝ → Int) (files : Nat) :
    SheetsShow ⟨20, 10, 1⟩ (Machine.sheets ⟨w, lineLib, toInt, 2⟩ (files + 1) (svgPlateDoc ⟨20, 10, 1⟩ [diagonalPlate, diagonalPlate]))
      [("plate".toList, diagonalPlate.draws), ("plate".toList, diagonalPlate.draws)] :=
  C160_seen ⟨w, lineLib, toInt, 2⟩ (le_refl 2) lineLib_reads files ⟨20, 10, 1⟩ zero_le_one [diagonalPlate, diagonalPlate] fun o h => by
    simp only [List.mem_cons, List.not_mem_nil, or_false, or_self] at h
    subst h
    exact diagonalPlate_wellMade

end Verif.Render
