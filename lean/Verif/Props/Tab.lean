import Verif.Props.Board
import Verif.Spec.Tab

/-!
# Property C157: tab joints
-/

set_option linter.unusedSectionVars false
set_option linter.unusedSimpArgs false

namespace Verif.Path

open Verif Verif.Spec XNum

/-! ## The edge -/

theorem moveTo_cursor (c : Point ℝ) : moveTo [] (finPt c) = finPath (moveTo [] c) := by
  simp only [moveTo, finPath, List.nil_append, List.map_cons, List.map_nil, finSeg, currentPosition, List.getLast?_nil, origin_fin]

/-- What the pieces of a tab joint draw, wherever the pen was before. -/
theorem tab_drawn (plug : Bool) (w h L : ℝ) (c : Point ℝ) : ∃ p : Path ℝ, drawRender (finPt c) (if plug then plugTab w h L else socketTab w h L) = .ok (finPath p) ∧
    strokes p = (if plug then tabLine h 0 w L else tabLine 0 h w L) ∧ p ≠ [] := by
  cases plug
  · refine ⟨_, by simp only [drawRender, Bool.false_eq_true, if_false, socketTab, moveTo_cursor, execAll, exec_moveCommand, exec_relLineCommand, Res.ok_bind]; rfl, ?_, ?_⟩
    · simp [relLineTo, moveTo, lineTo, toAbs, currentPosition, Segment.stop, newPoint_eq, strokes, strokeOf, pt, tabLine]
      ring_nf
      rfl
    · simp [relLineTo, moveTo, lineTo]
  · refine ⟨_, by simp only [drawRender, if_true, plugTab, moveTo_cursor, execAll, exec_moveCommand, exec_relLineCommand, Res.ok_bind]; rfl, ?_, ?_⟩
    · simp [relLineTo, moveTo, lineTo, toAbs, currentPosition, Segment.stop, newPoint_eq, strokes, strokeOf, pt, tabLine]
      ring_nf
      rfl
    · simp [relLineTo, moveTo, lineTo]

/-- **C157.** The edge of a tab joint is the straight line with the tab, or the notch, in its middle, laid from the start to the end. -/
theorem C157_edge (plug : Bool) (w h : ℝ) (a b : Point ℝ) (hab : pt a ≠ pt b) (cursor : Point ℝ) : ∃ r : Path ℝ,
    basicEdge (fun _ => [fun c => drawRender c (if plug then plugTab w h (lengthOf (pt a) (pt b)) else socketTab w h (lengthOf (pt a) (pt b)))]) (finPt cursor) (finPt a) (finPt b)
      Attr.origin.text = .ok (finPath r) ∧
    strokes r = (if plug then tabLine h 0 w (lengthOf (pt a) (pt b)) else tabLine 0 h w (lengthOf (pt a) (pt b))).map (Stroke.map (Spec.along (pt a) (pt b))) := by
  obtain ⟨p, h1, h2, h3⟩ := tab_drawn plug w h (lengthOf (pt a) (pt b)) cursor
  have h4 : ∃ s, (finPath p).getLast? = some s := by
    cases e : (finPath p).getLast? with
    | none => exact absurd (by simpa [finPath] using e) h3
    | some s => exact ⟨s, rfl⟩
  obtain ⟨s, h4⟩ := h4
  obtain ⟨r, k1, k2⟩ := (C85_origin (fun _ => [fun c => drawRender c (if plug then plugTab w h (lengthOf (pt a) (pt b)) else socketTab w h (lengthOf (pt a) (pt b)))])
    (finPt cursor) a b hab [p] (by simp) (by
      simp only [renderChildren, h1, Res.ok_bind, h4, List.map_cons, List.map_nil])).1
  exact ⟨r, k1, by rw [k2]; simp only [List.flatMap_cons, List.flatMap_nil, List.append_nil, h2]⟩

/-- **C157.** The notch is the mirror image of the tab. -/
theorem C157_mirror (w h L : ℝ) : tabLine h 0 w L = (tabLine 0 h w L).map (Stroke.map fun q => (q.1, h - q.2)) := by
  simp only [tabLine, List.map_cons, List.map_nil, Stroke.map, sub_zero, sub_self]

theorem tab_lines (base tip w L : ℝ) : ∀ st ∈ tabLine base tip w L, ∃ u v, st = .line u v := by
  intro st hm
  simp only [tabLine, List.mem_cons, List.not_mem_nil, or_false] at hm
  rcases hm with rfl | rfl | rfl | rfl | rfl
  all_goals exact ⟨_, _, rfl⟩

/-- A tab is an edge with one tooth that takes the whole edge. -/
theorem tab_tooth (base tip w L : ℝ) : tabLine base tip w L = tooth base tip w (L - w) 0 := by
  simp only [tabLine, tooth, zero_add, show (L - w) / 2 + w = (L + w) / 2 from by ring, show L - w + w = L from by ring]

/-- **C157.** Where the edge of a tab joint is: in the middle, for the width of the tab, at the height of its tip, and at its base everywhere else. -/
theorem C157_outline {base tip w L : ℝ} (hw : 0 < w) (hL : w ≤ L) {x : ℝ} (h1 : x ≠ (L - w) / 2) (h2 : x ≠ (L + w) / 2) (y : ℝ) :
    OnComb (tabLine base tip w L) (x, y) ↔
      0 ≤ x ∧ x ≤ L ∧ ((L - w) / 2 < x ∧ x < (L + w) / 2 ∧ y = tip ∨ ¬ ((L - w) / 2 < x ∧ x < (L + w) / 2) ∧ y = base) := by
  have key : OnComb (comb base tip w (L - w) 0 1 L) (x, y) ↔ OnComb (tabLine base tip w L) (x, y) := by
    rw [tab_tooth]
    simp only [OnComb, comb, List.range_one, List.flatMap_cons, List.flatMap_nil, List.append_nil, Nat.cast_zero, zero_mul, zero_add, Nat.cast_one, one_mul,
      show L - w + w = L from by ring, List.cons_append, List.mem_cons, List.mem_append, List.not_mem_nil, or_false]
    constructor
    · rintro ⟨st, rfl | hm | rfl, t, t0, t1, e⟩
      · refine ⟨.line (0, base) ((L - w) / 2, base), by simp [tooth], 0, le_refl _, zero_le_one, ?_⟩
        rw [← e]
        simp only [Stroke.at]
        ext <;> simp <;> ring
      · exact ⟨st, hm, t, t0, t1, e⟩
      · refine ⟨.line ((L - w) / 2 + w, base) (L, base), by simp [tooth], 1, zero_le_one, le_refl _, ?_⟩
        rw [← e]
        simp only [Stroke.at]
        ext <;> simp <;> ring
    · rintro ⟨st, hm, t, t0, t1, e⟩
      exact ⟨st, .inr (.inl hm), t, t0, t1, e⟩
  have hside : ¬ AtSide w (L - w) 0 1 x := by
    rintro ⟨k, hk, e⟩
    obtain rfl : k = 0 := by omega
    simp only [Nat.cast_zero, zero_mul, zero_add] at e
    rcases e with e | e
    · exact h1 e
    · exact h2 (by rw [e]; ring)
  have hin : InTooth w (L - w) 0 1 x ↔ (L - w) / 2 < x ∧ x < (L + w) / 2 := by
    constructor
    · rintro ⟨k, hk, e⟩
      obtain rfl : k = 0 := by omega
      simp only [Nat.cast_zero, zero_mul, zero_add] at e
      exact ⟨e.1, by linarith [e.2]⟩
    · intro e
      exact ⟨0, by omega, by simp only [Nat.cast_zero, zero_mul, zero_add]; exact ⟨e.1, by linarith [e.2]⟩⟩
  rw [← key, C151_outline hw (by linarith) (le_refl 0) (by simp) hside, hin]
  tauto

/-- **C157.** A plug and a socket along the same line fit together: turned over, one is the other, and between the start and the end, away from the sides of the tab, one is at the
height of the tab where the other is not. -/
theorem C157_joint (a b : Point ℝ) (hab : pt a ≠ pt b) (w h : ℝ) (hw : 0 < w) (hL : w ≤ lengthOf (pt a) (pt b)) (cursor : Point ℝ) :
    ∃ plug socket : Path ℝ,
      basicEdge (fun _ => [fun c => drawRender c (plugTab w h (lengthOf (pt a) (pt b)))]) (finPt cursor) (finPt a) (finPt b) Attr.origin.text = .ok (finPath plug) ∧
      basicEdge (fun _ => [fun c => drawRender c (socketTab w h (lengthOf (pt a) (pt b)))]) (finPt cursor) (finPt a) (finPt b) Attr.origin.text = .ok (finPath socket) ∧
      (∀ x y, Drawn plug (Spec.along (pt a) (pt b) (x, y)) ↔ Drawn socket (Spec.along (pt a) (pt b) (x, h - y))) ∧
      ∀ x, 0 ≤ x → x ≤ lengthOf (pt a) (pt b) → |x - lengthOf (pt a) (pt b) / 2| ≠ w / 2 → ∀ y,
        (Drawn plug (Spec.along (pt a) (pt b) (x, y)) ↔ y = if |x - lengthOf (pt a) (pt b) / 2| < w / 2 then 0 else h) ∧
        (Drawn socket (Spec.along (pt a) (pt b) (x, y)) ↔ y = if |x - lengthOf (pt a) (pt b) / 2| < w / 2 then h else 0) := by
  obtain ⟨p, h1, h2⟩ := C157_edge true w h a b hab cursor
  obtain ⟨q, h3, h4⟩ := C157_edge false w h a b hab cursor
  simp only [if_true, Bool.false_eq_true, if_false] at h1 h2 h3 h4
  have hp := drawn_along hab h2 (tab_lines _ _ _ _)
  have hq := drawn_along hab h4 (tab_lines _ _ _ _)
  refine ⟨p, q, h1, h3, ?_, ?_⟩
  · intro x y
    rw [hp, hq, C157_mirror]
    have hat : ∀ (u v : Pt ℝ) (t : ℝ), (Stroke.map (fun q : Pt ℝ => (q.1, h - q.2)) (.line u v)).at t =
        (((Stroke.line u v).at t).1, h - ((Stroke.line u v).at t).2) := by
      intro u v t
      simp only [Stroke.map, Stroke.at]
      ext
      · simp
      · simp
        ring
    constructor
    · rintro ⟨st, hm, t, t0, t1, e⟩
      obtain ⟨st, hm', rfl⟩ := List.mem_map.mp hm
      obtain ⟨u, v, rfl⟩ := tab_lines _ _ _ _ st hm'
      rw [hat] at e
      refine ⟨_, hm', t, t0, t1, ?_⟩
      have e1 := congrArg Prod.fst e
      have e2 := congrArg Prod.snd e
      simp only at e1 e2
      exact Prod.ext e1 (by simp only; linarith)
    · rintro ⟨st, hm, t, t0, t1, e⟩
      obtain ⟨u, v, rfl⟩ := tab_lines _ _ _ _ st hm
      refine ⟨_, List.mem_map.mpr ⟨_, hm, rfl⟩, t, t0, t1, ?_⟩
      rw [hat, e]
      simp
  · intro x hx0 hx1 hx y
    generalize lengthOf (pt a) (pt b) = L at *
    have n1 : x ≠ (L - w) / 2 := by
      rintro rfl
      apply hx
      rw [show (L - w) / 2 - L / 2 = -(w / 2) from by ring, abs_neg, abs_of_pos (by linarith)]
    have n2 : x ≠ (L + w) / 2 := by
      rintro rfl
      apply hx
      rw [show (L + w) / 2 - L / 2 = w / 2 from by ring, abs_of_pos (by linarith)]
    have hi : |x - L / 2| < w / 2 ↔ (L - w) / 2 < x ∧ x < (L + w) / 2 := by
      rw [abs_lt]
      constructor <;> rintro ⟨k1, k2⟩ <;> constructor <;> linarith
    rw [hp, hq, C157_outline hw hL n1 n2, C157_outline hw hL n1 n2]
    by_cases hin : (L - w) / 2 < x ∧ x < (L + w) / 2
    · simp [hx0, hx1, hi, hin]
    · have hin' : ¬ |x - L / 2| < w / 2 := fun e => hin (hi.mp e)
      simp only [hin', if_false, hx0, hx1, true_and]
      constructor <;> constructor
      · rintro (⟨k1, k2, -⟩ | ⟨-, k⟩)
        · exact absurd ⟨k1, k2⟩ hin
        · exact k
      · exact fun k => .inr ⟨hin, k⟩
      · rintro (⟨k1, k2, -⟩ | ⟨-, k⟩)
        · exact absurd ⟨k1, k2⟩ hin
        · exact k
      · exact fun k => .inr ⟨hin, k⟩

/-- Not vacuous: a tab of the width 2 on an edge of the length 5. -/
example : ∃ plug socket : Path ℝ, (∀ x y, Drawn plug (Spec.along (0, 0) (3, 4) (x, y)) ↔ Drawn socket (Spec.along (0, 0) (3, 4) (x, 1 - y))) ∧
    Drawn plug (Spec.along (0, 0) (3, 4) (5 / 2, 0)) ∧ Drawn socket (Spec.along (0, 0) (3, 4) (5 / 2, 1)) ∧ Drawn plug (Spec.along (0, 0) (3, 4) (0, 1)) := by
  have hl : lengthOf ((0, 0) : Pt ℝ) (3, 4) = 5 := by
    simp only [lengthOf]
    rw [Real.sqrt_eq_iff_mul_self_eq] <;> norm_num
  obtain ⟨p, q, -, -, h1, h2⟩ := C157_joint (mk (0, 0)) (mk (3, 4)) (by norm_num [pt, mk]) 2 1 (by norm_num)
    (by show (2:ℝ) ≤ lengthOf ((0, 0) : Pt ℝ) (3, 4); rw [hl]; norm_num) origin
  simp only [pt, mk, hl] at h1 h2
  refine ⟨p, q, h1, ?_, ?_, ?_⟩
  · exact (h2 (5 / 2) (by norm_num) (by norm_num) (by norm_num) 0).1.mpr (by norm_num)
  · exact (h2 (5 / 2) (by norm_num) (by norm_num) (by norm_num) 1).2.mpr (by norm_num)
  · exact (h2 0 (by norm_num) (by norm_num) (by norm_num [abs_of_pos, abs_of_neg]) 1).1.mpr (by norm_num [abs_of_pos, abs_of_neg])

end Verif.Path

namespace Verif.Render

open Verif Verif.Dyn Verif.Path Verif.PlanSet Verif.Svg Verif.Files Verif.Xml Verif.Spec

variable {O : Type}

/-! ## Expressions -/

/-- The parameters of a tab and the width of its edge are seen. -/
structure SeesTab (c : Chain (XNum ℝ)) (w h L : ℝ) : Prop where
  width : c.lookup "tab_width".toList = some (.num (.fin w))
  height : c.lookup "tab_height".toList = some (.num (.fin h))
  length : c.lookup "width".toList = some (.num (.fin L))

section Evaluation

variable {a : Source (XNum ℝ) O} {n : Nat} {w h L : ℝ} (hc : SeesTab a.chain w h L) (hl : ReadsTabs a.lib) (hn : 0 < n)

include hc hl hn

theorem tab_zero : a.convert n (.str "0".toList) = .val (.fin 0) := by
  obtain ⟨n, rfl⟩ : ∃ k, n = k + 1 := ⟨n - 1, by omega⟩
  have ht : "0".toList.filter (fun c => decide (c ≠ '$')) = "0".toList := by decide +kernel
  simp only [Source.convert, evalExpression, ht, evalText, show ¬ 0 > maxRecursion from by decide, if_false, hl.zero, evalExpr, toFloat64]

theorem tab_width : a.convert n (.str "tab_width".toList) = .val (.fin w) := convert_var (by decide +kernel) hl.width hc.width hn

theorem tab_height : a.convert n (.str "tab_height".toList) = .val (.fin h) := convert_var (by decide +kernel) hl.height hc.height hn

theorem tab_spaced : a.convert n (.str " tab_height".toList) = .val (.fin h) := convert_var (by decide +kernel) hl.spaced hc.height hn

theorem tab_minus : a.convert n (.str " -tab_height".toList) = .val (.fin (-h)) := by
  obtain ⟨o, h1, h2, h3⟩ := hl.minus
  obtain ⟨n, rfl⟩ : ∃ k, n = k + 1 := ⟨n - 1, by omega⟩
  have ht : " -tab_height".toList.filter (fun c => decide (c ≠ '$')) = " -tab_height".toList := by decide +kernel
  simp only [Source.convert, evalExpression, ht, evalText, show ¬ 0 > maxRecursion from by decide, if_false, h1, evalExpr, hc.height, Dyn.toBool, toFloat64, h2,
    Option.bind_none, h3]

theorem tab_half : a.convert n (.str "(width - tab_width) / 2".toList) = .val (.fin ((L - w) / 2)) := by
  obtain ⟨o, o', h1, h2, h3, h4, h5⟩ := hl.half
  obtain ⟨n, rfl⟩ : ∃ k, n = k + 1 := ⟨n - 1, by omega⟩
  have ht : "(width - tab_width) / 2".toList.filter (fun c => decide (c ≠ '$')) = "(width - tab_width) / 2".toList := by decide +kernel
  simp only [Source.convert, evalExpression, ht, evalText, show ¬ 0 > maxRecursion from by decide, if_false, h1, evalExpr, hc.length, hc.width, Dyn.toBool, toFloat64, h2, h3,
    Option.bind_none, h4, h5]

end Evaluation

/-! ## Commands -/

/-- The map of a command with a point that is a text. -/
def textCmdMap (name t : Text) : DMap (XNum ℝ) := [("command".toList, .str name), ("to".toList, .str t)]

theorem command_text (m : Machine (XNum ℝ) O) (hf : 0 < m.fuel) (s : Spot (XNum ℝ)) (g : DMap (XNum ℝ)) (e : Elem (XNum ℝ)) (cur : Option (Point (XNum ℝ))) (name : Text)
    {t x y : Text} {u v : XNum ℝ} (hs : splitOn ',' t [] = [x, y]) (hk : t ≠ "to".toList) (h0 : Dyn.get (textCmdMap name t) t = none)
    (h1 : (m.attrs s g e cur (textCmdMap name t)).chain.Undefined t) (h2 : NoDefault t (m.attrs s g e cur (textCmdMap name t)).chain)
    (hx : (m.attrs s g e cur (textCmdMap name t)).convert m.fuel (.str x) = .val u)
    (hy : (m.attrs s g e cur (textCmdMap name t)).convert m.fuel (.str y) = .val v) :
    (m.command (m.attrs s g e cur (textCmdMap name t))).point toKey = some (newPoint u v) := by
  show found ((m.attrs s g e cur (textCmdMap name t)).point m.fuel m.fuel toKey) = _
  obtain ⟨f, hf'⟩ : ∃ f, m.fuel = f + 1 := ⟨m.fuel - 1, by omega⟩
  have hg : Dyn.get (m.attrs s g e cur (textCmdMap name t)).mp toKey = some (.str t) := rfl
  have hfind := find_text hg hk h0 h1 h2
  have hstr := string_given _ _ _ hg hk h0 h1 h2
  rw [show (m.attrs s g e cur (textCmdMap name t)).point m.fuel m.fuel toKey = (m.attrs s g e cur (textCmdMap name t)).point m.fuel (f + 1) toKey from by rw [← hf']]
  simp only [Source.point, if_neg (show ¬ toKey.head? = some '$' from by decide +kernel), hfind, hstr, Option.getD_some, hs, Source.pair, hx, hy, found]

theorem command_text_name (m : Machine (XNum ℝ) O) (s : Spot (XNum ℝ)) (g : DMap (XNum ℝ)) (e : Elem (XNum ℝ)) (cur : Option (Point (XNum ℝ))) {name : Text} (hne : name ≠ [])
    (t : Text) : (m.command (m.attrs s g e cur (textCmdMap name t))).name = name := by
  show (m.world.text (textCmdMap name t) commandKey).getD unknownName = _
  have : Dyn.get (textCmdMap name t) commandKey = some (.str name) := rfl
  simp only [World.text, this, if_neg hne, Option.getD_some]

/-! ## Elements -/

/-- The element of a tab joint. -/
def TabJoint.elem (o : TabJoint) : Elem (XNum ℝ) := ⟨o.params, o.map, []⟩

theorem elemOf_tab (o : TabJoint) : elemOf o.map = o.elem := rfl

/-- The element when its children are rendered. -/
def TabJoint.wide (o : TabJoint) (L : ℝ) : Elem (XNum ℝ) := ⟨o.params, o.map ++ [("width".toList, .num (.fin L))], []⟩

theorem withVar_tab (o : TabJoint) (L : ℝ) : withVar o.elem "width".toList (.num (.fin L)) = o.wide L := rfl

theorem wide_sees (o : TabJoint) (L : ℝ) (c : Chain (XNum ℝ)) : SeesTab (.component (o.wide L) c) o.width o.height L :=
  ⟨C46_own _ _ _ rfl (by intro s h; cases h), C46_own _ _ _ rfl (by intro s h; cases h), C46_own _ _ _ rfl (by intro s h; cases h)⟩

theorem tabChild_sees (o : TabJoint) (L : ℝ) (cs : List (Val (XNum ℝ))) (c : Chain (XNum ℝ)) :
    SeesTab (.component (childElem [] cs) (.component (o.wide L) c)) o.width o.height L := by
  have k := wide_sees o L c
  exact ⟨by rw [C46_inherit _ _ _ rfl]; exact k.width, by rw [C46_inherit _ _ _ rfl]; exact k.height, by rw [C46_inherit _ _ _ rfl]; exact k.length⟩

/-- Names that neither a tab joint nor anything around it has. -/
def FarFromTab (k : Text) : Prop :=
  dots k = [k] ∧ k ∉ ["type".toList, "commands".toList, "command".toList, "tab_width".toList, "tab_height".toList, "params".toList, "from".toList, "to".toList, "components".toList,
    "width".toList, "id".toList, "part_index".toList, "material_width".toList, "material_height".toList, "doc_padding".toList, "parts".toList]

instance (k : Text) : Decidable (FarFromTab k) := by unfold FarFromTab; infer_instance

theorem FarFromTab.ne {k t : Text} (h : FarFromTab k) (ht : t ∈ ["type".toList, "commands".toList, "command".toList, "tab_width".toList, "tab_height".toList, "params".toList, "from".toList,
    "to".toList, "components".toList, "width".toList, "id".toList, "part_index".toList, "material_width".toList, "material_height".toList, "doc_padding".toList, "parts".toList]) : k ≠ t := by
  rintro rfl
  exact h.2 ht

theorem far_piece {doc : Elem (XNum ℝ)} (hd : Bare doc) (p : Piece) {k : Text} (h : FarFromTab k) :
    (Chain.component ⟨[], shownPiece p, []⟩ (.document doc [])).Undefined k ∧ NoDefault k (Chain.component ⟨[], shownPiece p, []⟩ (.document doc [])) := by
  have r : k ∉ ["id".toList, "components".toList, "type".toList, "part_index".toList] := by
    intro hm
    exact h.2 ((show ∀ x ∈ ["id".toList, "components".toList, "type".toList, "part_index".toList], x ∈ _ from by decide +kernel) k hm)
  have r' : k ∉ ["material_width".toList, "material_height".toList, "doc_padding".toList, "parts".toList] := by
    intro hm
    exact h.2 ((show ∀ x ∈ ["material_width".toList, "material_height".toList, "doc_padding".toList, "parts".toList], x ∈ _ from by decide +kernel) k hm)
  have a2 : (⟨[], shownPiece p, []⟩ : Elem (XNum ℝ)).allParams = [] := rfl
  refine ⟨⟨by rw [a2]; exact Render.get_nil _, get_absent h.1 (shownPiece_absent _ _ r) (shownPiece_absent _ _ r), by rw [hd.allParams]; exact Render.get_nil _,
    hd.get h.1 r' r', Render.get_nil _⟩, Render.get_nil _, ?_⟩
  show Dyn.get doc.defaults k = none
  rw [hd.defaults]
  exact Render.get_nil _

theorem far_params (o : TabJoint) {k : Text} (h : FarFromTab k) : Dyn.get o.params k = none := by
  have q : o.params.lookup k = none := by
    simp only [TabJoint.params, List.lookup, beq_eq_false_iff_ne.mpr (h.ne (t := "tab_width".toList) (by simp)), beq_eq_false_iff_ne.mpr (h.ne (t := "tab_height".toList) (by simp))]
  exact get_absent h.1 q q

theorem far_map (o : TabJoint) {k : Text} (h : FarFromTab k) (l : DMap (XNum ℝ)) : (o.map ++ l).lookup k = l.lookup k := by
  simp only [TabJoint.map, List.cons_append, List.nil_append, List.lookup, beq_eq_false_iff_ne.mpr (h.ne (t := "type".toList) (by simp)),
    beq_eq_false_iff_ne.mpr (h.ne (t := "params".toList) (by simp)), beq_eq_false_iff_ne.mpr (h.ne (t := "from".toList) (by simp)),
    beq_eq_false_iff_ne.mpr (h.ne (t := "to".toList) (by simp)), beq_eq_false_iff_ne.mpr (h.ne (t := "components".toList) (by simp))]

theorem far_edge {doc : Elem (XNum ℝ)} (hd : Bare doc) (p : Piece) (o : TabJoint) {k : Text} (h : FarFromTab k) :
    Dyn.get o.map k = none ∧ (Chain.component o.elem (.component ⟨[], shownPiece p, []⟩ (.document doc []))).Undefined k ∧
    NoDefault k (Chain.component o.elem (.component ⟨[], shownPiece p, []⟩ (.document doc []))) := by
  have k0 := far_piece hd p h
  have a1 : o.elem.allParams = o.params := rfl
  have q : o.map.lookup k = none := by simpa using far_map o h []
  have q' : Dyn.get o.map k = none := get_absent h.1 q q
  exact ⟨q', ⟨by rw [a1]; exact far_params o h, q', k0.1⟩, Render.get_nil _, k0.2⟩

theorem far_child {doc : Elem (XNum ℝ)} (hd : Bare doc) (p : Piece) (o : TabJoint) (L : ℝ) (cs : List (Val (XNum ℝ))) {k : Text} (h : FarFromTab k) :
    (Chain.component (childElem [] cs) (.component (o.wide L) (.component ⟨[], shownPiece p, []⟩ (.document doc [])))).Undefined k ∧
    NoDefault k (Chain.component (childElem [] cs) (.component (o.wide L) (.component ⟨[], shownPiece p, []⟩ (.document doc [])))) := by
  have k0 := far_piece hd p h
  have a1 : (o.wide L).allParams = o.params := rfl
  have a2 : (childElem [] cs).allParams = [] := rfl
  have q : (o.wide L).original.lookup k = none := by
    show (o.map ++ [("width".toList, Val.num (XNum.fin L))]).lookup k = none
    rw [far_map o h]
    simp only [List.lookup, beq_eq_false_iff_ne.mpr (h.ne (t := "width".toList) (by simp))]
  have q2 : (childElem [] cs).original.lookup k = none := by
    simp only [childElem, drawingMap, List.lookup, beq_eq_false_iff_ne.mpr (h.ne (t := "type".toList) (by simp)), beq_eq_false_iff_ne.mpr (h.ne (t := "commands".toList) (by simp))]
  exact ⟨⟨by rw [a2]; exact Render.get_nil _, get_absent h.1 q2 q2, by rw [a1]; exact far_params o h, get_absent h.1 q q, k0.1⟩, Render.get_nil _, Render.get_nil _, k0.2⟩

theorem far_cmd (name : Text) {t k : Text} (h : FarFromTab k) : Dyn.get (textCmdMap name t) k = none := by
  have q : (textCmdMap name t).lookup k = none := by
    simp only [textCmdMap, List.lookup, beq_eq_false_iff_ne.mpr (h.ne (t := "command".toList) (by simp)), beq_eq_false_iff_ne.mpr (h.ne (t := "to".toList) (by simp))]
  exact get_absent h.1 q q

/-! ## The child -/

section Child

variable (m : Machine (XNum ℝ) O) (hf : 0 < m.fuel) (hl : ReadsTabs m.lib) {doc : Elem (XNum ℝ)} (hd : Bare doc) (p : Piece) (o : TabJoint) (L : ℝ) (cursor : Point (XNum ℝ))

/-- Where the child of a tab joint is. -/
noncomputable def tabSpot (doc : Elem (XNum ℝ)) (p : Piece) (o : TabJoint) (L : ℝ) : Spot (XNum ℝ) := ⟨(pieceSpot doc p).doc, o.wide L :: (pieceSpot doc p).ups, (pieceSpot doc p).nested⟩

/-- The command does the same at the child. -/
def DoesInTab (cs : List (Val (XNum ℝ))) (v : Val (XNum ℝ)) (d : Command (XNum ℝ)) : Prop :=
  ∃ mp, v = .map mp ∧ SameExec (m.command (m.attrs (tabSpot doc p o L) [] (childElem [] cs) (some cursor) mp)) d

/-- An expression has this value at the child. -/
def HasInTab (cs : List (Val (XNum ℝ))) (t : Text) (x : ℝ) : Prop :=
  ∀ mp, (m.attrs (tabSpot doc p o L) [] (childElem [] cs) (some cursor) mp).convert m.fuel (.str t) = .val (.fin x)

variable {m L} {cs : List (Val (XNum ℝ))}

include hf hd

theorem tab_point {name t x y : Text} {u v : ℝ} (hs : splitOn ',' t [] = [x, y]) (ht : FarFromTab t) (hx : HasInTab m (doc := doc) p o L cursor cs x u)
    (hy : HasInTab m (doc := doc) p o L cursor cs y v) :
    (m.command (m.attrs (tabSpot doc p o L) [] (childElem [] cs) (some cursor) (textCmdMap name t))).point toKey = some (newPoint (.fin u) (.fin v)) :=
  command_text m hf _ _ _ _ name hs (ht.ne (by simp)) (far_cmd name ht) (far_child hd p o L cs ht).1 (far_child hd p o L cs ht).2 (hx _) (hy _)

theorem tab_move {t x y : Text} {u v : ℝ} (hs : splitOn ',' t [] = [x, y]) (ht : FarFromTab t) (hx : HasInTab m (doc := doc) p o L cursor cs x u)
    (hy : HasInTab m (doc := doc) p o L cursor cs y v) : DoesInTab m (doc := doc) p o L cursor cs (textCmd "move".toList t) (moveCommand (.fin u) (.fin v)) :=
  ⟨_, rfl, sameExec_move (command_text_name m _ _ _ _ (by decide) t) (tab_point hf hd p o cursor hs ht hx hy)⟩

theorem tab_relLine {t x y : Text} {u v : ℝ} (hs : splitOn ',' t [] = [x, y]) (ht : FarFromTab t) (hx : HasInTab m (doc := doc) p o L cursor cs x u)
    (hy : HasInTab m (doc := doc) p o L cursor cs y v) : DoesInTab m (doc := doc) p o L cursor cs (textCmd "rel_line".toList t) (relLineCommand (.fin u) (.fin v)) :=
  ⟨_, rfl, sameExec_relLine (command_text_name m _ _ _ _ (by decide) t) (tab_point hf hd p o cursor hs ht hx hy)⟩

include hl

theorem tab_commands : List.Forall₂ (DoesInTab m (doc := doc) p o L cursor cs) (tabCommands o.plug)
    (if o.plug then plugTab o.width o.height L else socketTab o.width o.height L) := by
  have z : HasInTab m (doc := doc) p o L cursor cs "0".toList 0 := fun _ => tab_zero (tabChild_sees o L cs _) hl hf
  have w : HasInTab m (doc := doc) p o L cursor cs "tab_width".toList o.width := fun _ => tab_width (tabChild_sees o L cs _) hl hf
  have h : HasInTab m (doc := doc) p o L cursor cs "tab_height".toList o.height := fun _ => tab_height (tabChild_sees o L cs _) hl hf
  have h' : HasInTab m (doc := doc) p o L cursor cs " tab_height".toList o.height := fun _ => tab_spaced (tabChild_sees o L cs _) hl hf
  have k : HasInTab m (doc := doc) p o L cursor cs " -tab_height".toList (-o.height) := fun _ => tab_minus (tabChild_sees o L cs _) hl hf
  have e : HasInTab m (doc := doc) p o L cursor cs "(width - tab_width) / 2".toList ((L - o.width) / 2) := fun _ => tab_half (tabChild_sees o L cs _) hl hf
  have s1 := tab_relLine hf hd p o cursor (t := "(width - tab_width) / 2,0".toList) (by decide +kernel) (by decide +kernel) e z
  have s2 := tab_relLine hf hd p o cursor (t := "0, -tab_height".toList) (by decide +kernel) (by decide +kernel) z k
  have s3 := tab_relLine hf hd p o cursor (t := "tab_width,0".toList) (by decide +kernel) (by decide +kernel) w z
  have s4 := tab_relLine hf hd p o cursor (t := "0, tab_height".toList) (by decide +kernel) (by decide +kernel) z h'
  cases o.plug with
  | true =>
    exact .cons (tab_move hf hd p o cursor (t := "0,tab_height".toList) (by decide +kernel) (by decide +kernel) z h) <| .cons s1 <| .cons s2 <| .cons s3 <| .cons s4 <|
      .cons s1 .nil
  | false =>
    exact .cons (tab_move hf hd p o cursor (t := "0,0".toList) (by decide +kernel) (by decide +kernel) z z) <| .cons s1 <| .cons s4 <| .cons s3 <| .cons s2 <|
      .cons s1 .nil

theorem tab_child (n : Nat) (i : Text) (hq : ∃ q, drawRender cursor (if o.plug then plugTab o.width o.height L else socketTab o.width o.height L) = .ok q ∧ q ≠ []) :
    pathOf (m.render (n + 1) (tabSpot doc p o L) (.mk .draw i (childElem [] (tabCommands o.plug)) []) [] cursor) =
      drawRender cursor (if o.plug then plugTab o.width o.height L else socketTab o.width o.height L) := by
  have h := tab_commands hf hl hd p o (L := L) cursor (cs := tabCommands o.plug)
  generalize (if o.plug then plugTab o.width o.height L else socketTab o.width o.height L) = ds at h hq ⊢
  generalize tabCommands o.plug = cs at h ⊢
  rw [C119_draw]
  have key : ∃ ms : List (DMap (XNum ℝ)), cs = ms.map .map ∧
      List.Forall₂ SameExec (ms.map fun mp => m.command (m.attrs (tabSpot doc p o L) [] (childElem [] cs) (some cursor) mp)) ds := by
    clear hq
    unfold DoesInTab at h
    generalize childElem [] cs = e at h ⊢
    induction h with
    | nil => exact ⟨[], rfl, .nil⟩
    | cons h _ ih =>
      obtain ⟨ms, rfl, k⟩ := ih
      obtain ⟨mp, rfl, k1⟩ := h
      exact ⟨mp :: ms, rfl, .cons k1 k⟩
  obtain ⟨ms, e1, k⟩ := key
  have e2 : slice (childElem [] cs).original "commands".toList = ms := by
    rw [slice_plain (by decide +kernel)]
    show (mapItems cs).getD [] = ms
    rw [e1, mapItems_maps]
    rfl
  have e3 : slice (childElem [] cs).original transformsKey = [] := rfl
  rw [e2, drawRender_same k]
  obtain ⟨q, h1, h2⟩ := hq
  rw [h1, Res.ok_bind]
  simp only [Machine.finishAt, e3, List.map_nil]
  exact finish_none _ _ _ h2

end Child

/-! ## The edge in a document -/

/-- The edge leaves the global variables alone when it has no name for them. -/
theorem basicEdge_globals (m : Machine (XNum ℝ) O) {n : Nat} {s : Spot (XNum ℝ)} {i : Text} {e : Elem (XNum ℝ)} {g g' : DMap (XNum ℝ)} {cursor : Point (XNum ℝ)}
    {cs : List (Live (XNum ℝ))} {c' : Live (XNum ℝ)} {p : Path (XNum ℝ)} (h : ∀ c ∈ cs, Plain c)
    (hn : (m.attrs s g e (some cursor) e.original).string edgeVariableKey = none)
    (he : m.render (n + 1) s (.mk .basicEdge i e cs) g cursor = .ok (p, c', g')) : g' = g := by
  rw [Machine.render.eq_def] at he
  simp only [Live.kind, Machine.renderBasicEdge, Live.elem, Live.children, Live.id, Machine.below, Machine.setEdge, hn] at he
  generalize m.edgeStop _ _ = stop at he
  cases stop with
  | none => cases he
  | some stop =>
    simp only [need, Res.ok_bind] at he
    obtain ⟨⟨q, c1, g1⟩, h1, he⟩ := res_bind_ok he
    have e1 : g1 = g := by
      rw [still_all (fun c hc => still_plain m n _ (h c hc))] at h1
      obtain ⟨x, -, h1⟩ := res_bind_ok h1
      cases h1
      rfl
    subst e1
    obtain ⟨_, -, he⟩ := res_bind_ok he
    obtain ⟨_, -, he⟩ := res_bind_ok he
    obtain ⟨_, -, he⟩ := res_bind_ok he
    cases he
    rfl

section Edge

variable (m : Machine (XNum ℝ) O) (hf : 0 < m.fuel) {doc : Elem (XNum ℝ)} (hd : Bare doc) (p : Piece) (o : TabJoint) (cursor : Option (Point (XNum ℝ)))

/-- The attributes of a tab joint. -/
noncomputable def tabAttrs : Source (XNum ℝ) O := m.attrs (pieceSpot doc p) [] o.elem cursor o.map

include hd in
theorem tab_none {k : Text} (h : FarFromTab k) : (tabAttrs m (doc := doc) p o cursor).string k = none := by
  have : (tabAttrs m (doc := doc) p o cursor).find k = none := attrLookup_absent 0 (far_edge hd p o h).1 (far_edge hd p o h).2.1 (far_edge hd p o h).2.2
  simp only [Source.string, this]

include hf in
theorem tab_start : m.point (tabAttrs m (doc := doc) p o cursor) fromKey = some (finPt (newPoint o.start.1 o.start.2)) :=
  point_given m hf _ _ _ _ _ fromKey (by decide +kernel) o.start rfl

include hf in
theorem tab_stop (start : Point (XNum ℝ)) : found ((tabAttrs m (doc := doc) p o cursor).point2 m.fuel m.fuel toKey start) = some (finPt (newPoint o.stop.1 o.stop.2)) := by
  have h : found ((tabAttrs m (doc := doc) p o cursor).point m.fuel m.fuel toKey) = some (finPt (newPoint o.stop.1 o.stop.2)) :=
    point_given m hf (pieceSpot doc p) [] o.elem cursor o.map toKey (by decide +kernel) o.stop rfl
  revert h
  simp only [Source.point2]
  cases (tabAttrs m (doc := doc) p o cursor).point m.fuel m.fuel toKey <;> intro h <;> first | exact h | cases h

end Edge

/-- The component that is made of a tab joint. -/
def TabJoint.node (w : World (XNum ℝ)) (o : TabJoint) : Dyn.Node (XNum ℝ) := .mk (w.idOf o.map) o.map [componentNode w (drawingMap (tabCommands o.plug))]

theorem live_tab (w : World (XNum ℝ)) (o : TabJoint) : live w (o.node w) =
    .mk .basicEdge (w.idOf o.map) o.elem [.mk .draw (w.idOf (drawingMap (tabCommands o.plug))) (childElem [] (tabCommands o.plug)) []] := by
  have := text_type w (m := o.map) (b := .basicEdge) rfl
  simp only [TabJoint.node, live, lives, live_child, this, built_text, Option.getD_some, elemOf_tab]

/-- **C157.** A tab joint in a document is rendered to the edge with its tab or notch, wherever the cursor is. -/
theorem C157_tab (m : Machine (XNum ℝ) O) (hf : 2 ≤ m.fuel) (hl : ReadsTabs m.lib) {doc : Elem (XNum ℝ)} (hd : Bare doc) (p : Piece) (o : TabJoint) (ho : o.start ≠ o.stop)
    (cursor : Point ℝ) : ∃ (r : Path ℝ) (c' : Live (XNum ℝ)),
    m.render m.fuel (pieceSpot doc p) (live m.world (o.node m.world)) [] (finPt cursor) = .ok (finPath r, c', []) ∧ strokes r = o.draws ∧ Inked none r := by
  obtain ⟨f, hf'⟩ : ∃ f, m.fuel = f + 2 := ⟨m.fuel - 2, by omega⟩
  have hf0 : 0 < m.fuel := by omega
  have e1 : pt (newPoint o.start.1 o.start.2) = o.start := by rw [pt_newPoint]
  have e2 : pt (newPoint o.stop.1 o.stop.2) = o.stop := by rw [pt_newPoint]
  obtain ⟨r, k1, k2⟩ := C157_edge o.plug o.width o.height (newPoint o.start.1 o.start.2) (newPoint o.stop.1 o.stop.2) (by rw [e1, e2]; exact ho) cursor
  have hi : Inked none r := (inked_finPath none r).1 (inked_basicEdge (fun _ c hc _ _ e => by
    rw [List.mem_singleton] at hc
    subst hc
    exact inked_drawRender exactEq_xnum e) k1)
  rw [e1, e2] at k2
  have k2 : strokes r = o.draws := k2
  have hne : finPath r ≠ [] := by
    intro e
    have e' : r = [] := by simpa [finPath] using e
    rw [e'] at k2
    have k2 : o.draws = [] := k2.symm
    unfold TabJoint.draws at k2
    cases hp : o.plug <;> simp [hp, tabLine] at k2
  have hpath : pathOf (m.render (f + 1 + 1) (pieceSpot doc p) (live m.world (o.node m.world)) [] (finPt cursor)) = .ok (finPath r) := by
    rw [live_tab, C119_basicEdge (m := m) (n := f + 1) (s := pieceSpot doc p) (i := m.world.idOf o.map) (e := o.elem) (g := []) (cursor := finPt cursor) _
      (by intro c hc; rw [List.mem_singleton] at hc; subst hc; exact plain_child _ _) (tabAttrs m (doc := doc) p o (some (finPt cursor))) rfl _ rfl]
    rw [show m.point (tabAttrs m (doc := doc) p o (some (finPt cursor))) "from".toList = _ from tab_start m hf0 p o _, Option.getD_some,
      show found ((tabAttrs m (doc := doc) p o (some (finPt cursor))).point2 m.fuel m.fuel "to".toList _) = _ from tab_stop m hf0 p o _ _,
      show (tabAttrs m (doc := doc) p o (some (finPt cursor))).string "edge_variable_name".toList = none from tab_none m hd p o _ (by decide +kernel),
      show (tabAttrs m (doc := doc) p o (some (finPt cursor))).handle "handle".toList = none from by
        simp only [Source.handle, tab_none m hd p o (some (finPt cursor)) (k := "handle".toList) (by decide +kernel), Option.bind_none]]
    simp only [need, withTwo, Res.ok_bind, Option.getD_none]
    have k1' : basicEdge (fun w => [Live.mk .draw (m.world.idOf (drawingMap (tabCommands o.plug))) (childElem [] (tabCommands o.plug)) []].map fun c cursor =>
          pathOf (m.render (f + 1) ⟨(pieceSpot doc p).doc, withVar o.elem "width".toList (.num w) :: (pieceSpot doc p).ups, (pieceSpot doc p).nested⟩ c [] cursor))
        (finPt cursor) (finPt (newPoint o.start.1 o.start.2)) (finPt (newPoint o.stop.1 o.stop.2)) Attr.origin.text = .ok (finPath r) := by
      rw [← k1]
      unfold basicEdge
      rw [distance_fin]
      congr 1
      obtain ⟨q, q1, -, q3⟩ := tab_drawn o.plug o.width o.height (lengthOf (pt (newPoint o.start.1 o.start.2)) (pt (newPoint o.stop.1 o.stop.2))) cursor
      have := tab_child hf0 hl hd p o (finPt cursor) f (m.world.idOf (drawingMap (tabCommands o.plug))) ⟨_, q1, by simpa [finPath] using q3⟩
      simp only [List.map_cons, List.map_nil, renderChildren]
      rw [withVar_tab]
      unfold tabSpot at this
      rw [this]
    rw [k1', Res.ok_bind]
    rw [distance_fin, withVar_tab]
    have e3 : ∀ L, slice (o.wide L).original transformsKey = [] := fun _ => rfl
    simp only [Machine.finishAt, e3, List.map_nil]
    exact finish_none _ _ _ hne
  rw [hf']
  cases h : m.render (f + 1 + 1) (pieceSpot doc p) (live m.world (o.node m.world)) [] (finPt cursor) with
  | ok x =>
    obtain ⟨q', c', g'⟩ := x
    have h' := h
    rw [live_tab] at h'
    have hg := basicEdge_globals m (by intro c hc; rw [List.mem_singleton] at hc; subst hc; exact plain_child _ _)
      (tab_none m hd p o (some (finPt cursor)) (k := edgeVariableKey) (by decide +kernel)) h'
    rw [h] at hpath
    have hq : q' = finPath r := by simpa [pathOf] using hpath
    exact ⟨r, c', by rw [hq, hg], k2, hi⟩
  | err => rw [h] at hpath; cases hpath
  | panic => rw [h] at hpath; cases hpath

theorem neat_textCmd (name t : Text) : Neat (textCmd name t) := by
  refine .map (show List.Nodup ["command".toList, "to".toList] by decide +kernel) ?_ ?_ <;> intro e he <;>
    simp only [List.mem_cons, List.not_mem_nil, or_false] at he
  · rcases he with rfl | rfl <;> simp only <;> decide +kernel
  · rcases he with rfl | rfl <;> exact .str _

theorem neat_tab (o : TabJoint) : Neat (.map o.map) := by
  refine .map (show List.Nodup ["type".toList, "params".toList, "from".toList, "to".toList, "components".toList] by decide +kernel) ?_ ?_ <;> intro e he <;>
    simp only [TabJoint.map, List.mem_cons, List.not_mem_nil, or_false] at he
  · rcases he with rfl | rfl | rfl | rfl | rfl <;> simp only <;> decide +kernel
  · rcases he with rfl | rfl | rfl | rfl | rfl
    · exact .str _
    · refine .map (show List.Nodup ["tab_width".toList, "tab_height".toList] by decide +kernel) ?_ ?_ <;> intro e he <;>
        simp only [TabJoint.params, List.mem_cons, List.not_mem_nil, or_false] at he
      · rcases he with rfl | rfl <;> simp only <;> decide +kernel
      · rcases he with rfl | rfl <;> exact .num _
    · exact neat_pair _
    · exact neat_pair _
    · refine .list fun v hv => ?_
      rw [List.mem_singleton] at hv
      subst hv
      refine neat_drawing fun v hv => ?_
      simp only [tabCommands, List.mem_cons, List.not_mem_nil, or_false] at hv
      rcases hv with rfl | rfl | rfl | rfl | rfl | rfl <;> exact neat_textCmd _ _

theorem make_tab (w : World (XNum ℝ)) (n : Nat) (o : TabJoint) : w.make [] (n + 2) o.map = .val (o.node w) := by
  have ht : o.map.lookup typeKey = some (.str Built.basicEdge.text) := rfl
  have h1 := make_drawing w [] n (drawingMap (tabCommands o.plug)) rfl
  have hm : makeList (w.make [] (n + 1)) (slice o.map componentsKey) = .val [componentNode w (drawingMap (tabCommands o.plug))] := by
    show makeList (w.make [] (n + 1)) [drawingMap (tabCommands o.plug)] = _
    simp only [makeList, h1]
  rw [World.make]
  simp only [text_type w (b := .basicEdge) ht, built_text, World.create, clone_neat (neat_tab o), hm]
  rfl

end Verif.Render
