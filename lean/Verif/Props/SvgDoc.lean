import Verif.Lemmas.SvgDoc
import Verif.Props.SvgShapes
import Verif.Props.PathText
import Verif.Props.PlanSet

/-!
# Properties of the text of a sheet (C99-C101)
-/

set_option linter.unusedSectionVars false

namespace Verif.Svg

open Verif Verif.Path Verif.PlanSet Verif.Files Verif.Xml Verif.Dyn Verif.Spec

universe u

theorem unmarked_signed (neg : Bool) (n q : Nat) : Unmarked (Decimal.signedText neg n q) := by
  intro c hc
  rcases signedText_chars neg n q c hc with rfl | rfl | ⟨d, hd, rfl⟩
  · decide
  · decide
  · interval_cases d <;> decide

theorem unmarked_real (n : Nat) (x : ℝ) : Unmarked (Num.fmt n x) := unmarked_signed _ _ _

theorem unmarked_xnum (n : Nat) (x : XNum ℝ) : Unmarked (Num.fmt n x) := by
  cases x with
  | fin a => exact unmarked_signed _ _ _
  | pinf => exact unmarked_of_all (s := "+Inf".toList) (by decide)
  | ninf => exact unmarked_of_all (s := "-Inf".toList) (by decide)
  | nan => exact unmarked_of_all (s := "NaN".toList) (by decide)

/-! ## C99 The text of a sheet is XML -/

/-- **C99.** The text of a sheet is XML with one element, which has the size of the sheet and, for every part in the order of the layout, one group with
the place of the part, its path and its label, if the texts of the parts are without markup and every label has a place. -/
theorem C99_written (d : Page ℝ) (hc : Unmarked d.cutStyle) (hl : Unmarked d.labelStyle) (rs : List (Renderable ℝ (Drawing ℝ))) (hr : ∀ r ∈ rs, Writable r) :
    (writePage d rs).2 = .ok () ∧ Says (writePage d rs).1 [pageElement d rs] := by
  obtain ⟨h1, h2⟩ := read_page unmarked_real d hc hl rs hr
  exact ⟨h1, _, h2, elements_page d rs, unique_page d rs⟩

/-- **C99.** The same with numbers that may be infinite or not a number. -/
theorem C99_written_special (d : Page (XNum ℝ)) (hc : Unmarked d.cutStyle) (hl : Unmarked d.labelStyle) (rs : List (Renderable (XNum ℝ) (Drawing (XNum ℝ))))
    (hr : ∀ r ∈ rs, Writable r) : (writePage d rs).2 = .ok () ∧ Says (writePage d rs).1 [pageElement d rs] := by
  obtain ⟨h1, h2⟩ := read_page unmarked_xnum d hc hl rs hr
  exact ⟨h1, _, h2, elements_page d rs, unique_page d rs⟩

/-- **C99.** The styles of a new document are without markup. -/
theorem C99_new (w h : ℝ) (u : Units) : Unmarked (newPage w h u).cutStyle ∧ Unmarked (newPage w h u).labelStyle :=
  ⟨(unmarked_of_all (by decide)).append (unmarked_real _ _), ((unmarked_of_all (by decide)).append (unmarked_real _ _)).append (unmarked_of_all (by decide))⟩

/-- Start tags minus end tags. -/
def balance : List Tok → Int
  | [] => 0
  | .start _ _ :: ts => 1 + balance ts
  | .stop _ :: ts => -1 + balance ts
  | _ :: ts => balance ts

theorem balance_append (a b : List Tok) : balance (a ++ b) = balance a + balance b := by
  induction a with
  | nil => simp [balance]
  | cons t a ih => cases t <;> simp [balance, ih, add_assoc]

mutual

theorem balance_node : ∀ n : Node, balance n.tokens = 0
  | .el name attrs inside => by simp [Node.tokens, balance, balance_append, balance_all inside]
  | .text t => rfl
  | .other => rfl

theorem balance_all : ∀ ns : List Node, balance (tokensAll ns) = 0
  | [] => rfl
  | n :: ns => by rw [tokensAll, balance_append, balance_node n, balance_all ns]; rfl

end

/-- A part with a label that has no place on its path. -/
def Displaced (r : Renderable ℝ (Drawing ℝ)) : Prop :=
  Unmarked r.part.payload.id ∧ r.part.payload.label.text ≠ [] ∧ pointAttribute r.part.payload.label.position r.part.payload.path = .err

theorem balance_items (d : Page ℝ) (hc : Unmarked d.cutStyle) (hl : Unmarked d.labelStyle) (rs : List (Renderable ℝ (Drawing ℝ)))
    (hr : ∀ r ∈ rs, Writable r ∨ Displaced r) : ∀ {acc : Text}, acc ≠ [] → (writeItems d rs).2 = .ok () ∧
      ∃ toks, Goes (.text acc) ((writeItems d rs).1 ++ "</svg>\n".toList) toks (.text ['\n']) ∧ -1 ≤ balance toks ∧
        ((∃ r ∈ rs, Displaced r) → 0 ≤ balance toks) := by
  induction rs with
  | nil =>
    intro acc ha
    obtain ⟨h1, h2⟩ := goes_items unmarked_real d hc hl [] (by simp) ha
    refine ⟨h1, _, h2, ?_, by simp⟩
    rw [balance_append, balance_all]
    decide
  | cons r rs ih =>
    intro acc ha
    obtain ⟨b1, toks, b2, b3, b4⟩ := ih (fun x hx => hr x (by simp [hx])) (acc := ['\n']) (by simp)
    rcases hr r (by simp) with h | h
    · obtain ⟨a1, a2⟩ := goes_item unmarked_real d hc hl r h ha
      have e : writeItems d (r :: rs) = ((writeItem d r).1 ++ (writeItems d rs).1, (writeItems d rs).2) := by
        rw [writeItems]
        split
        · next h => rw [h] at a1; cases a1
        · next h => rw [h]
      rw [e]
      have hb : balance (.chars acc.reverse :: (itemNode d r).tokens ++ toks) = balance toks := by
        rw [List.cons_append]
        simp [balance, balance_append, balance_node]
      refine ⟨b1, _, (a2.append b2).cast rfl (by simp) rfl rfl, by rw [hb]; exact b3, ?_⟩
      rintro ⟨x, hx, hd⟩
      rw [hb]
      rcases List.mem_cons.mp hx with rfl | hx
      · obtain ⟨q, hq⟩ := h.2.2 hd.2.1
        rw [hd.2.2] at hq
        cases hq
      · exact b4 ⟨x, hx, hd⟩
    · obtain ⟨h1, h2, h3⟩ := h
      have a1 : writeItem d r = (openText r ++ pathText d r.part.payload, .err) := by
        unfold writeItem
        simp only
        rw [if_pos (List.length_pos_iff.mpr h2), h3]
      have a2 := (goes_open unmarked_real r ha).append (goes_path unmarked_real d hc r.part.payload h1 (acc := ['\n']) (by simp))
      have e : writeItems d (r :: rs) = (openText r ++ pathText d r.part.payload ++ (writeItems d rs).1, (writeItems d rs).2) := by
        rw [writeItems, a1]
      rw [e]
      have hb : balance ([.chars acc.reverse, .start "g".toList [("transform".toList, joinSpace (r.transforms.map transformText))]] ++
          (.chars ['\n'].reverse :: (pathNode d r.part.payload).tokens) ++ toks) = 1 + balance toks := by
        rw [balance_append, balance_append]
        simp [balance, balance_node]
      refine ⟨b1, _, (a2.append b2).cast rfl (by simp) rfl rfl, by rw [hb]; omega, fun _ => by rw [hb]; omega⟩

/-- **C99** fails if the label of a part has no place: the error is not looked at, and the group of the part is never closed. -/
theorem C99_displaced_false (d : Page ℝ) (hc : Unmarked d.cutStyle) (hl : Unmarked d.labelStyle) (rs : List (Renderable ℝ (Drawing ℝ)))
    (hr : ∀ r ∈ rs, Writable r ∨ Displaced r) (hd : ∃ r ∈ rs, Displaced r) :
    (writePage d rs).2 = .ok () ∧ ¬ ∃ es : List (Element ℝ), Says (writePage d rs).1 es := by
  obtain ⟨h1, toks, h2, _, h4⟩ := balance_items d hc hl rs hr (acc := ['\t', '\n']) (by simp)
  have e : writePage d rs = (startText d ++ (writeItems d rs).1 ++ "</svg>\n".toList, .ok ()) := by
    rw [writePage]
    split
    · next h => rw [h] at h1; cases h1
    · next h => rw [h]
  rw [e]
  refine ⟨rfl, ?_⟩
  have h := (goes_start unmarked_real d).append h2
  rw [← List.append_assoc] at h
  rintro ⟨es, ns, hn, -, -⟩
  unfold readXml at hn
  simp only at hn
  rw [h] at hn
  simp only [Option.some.injEq] at hn
  have := balance_all ns
  rw [← hn, balance_append, balance_append] at this
  have h0 := h4 hd
  simp [balance, flush] at this
  omega

theorem run_none {m m1 : Mode} {a b : Text} {t : List Tok} (h1 : Goes m a t m1) (h2 : run m1 b = none) : run m (a ++ b) = none := by
  induction a generalizing m t with
  | nil =>
    unfold Goes at h1
    simp only [run, Option.some.injEq, Prod.mk.injEq] at h1
    obtain ⟨rfl, rfl⟩ := h1
    exact h2
  | cons c a ih =>
    unfold Goes at h1
    rw [run] at h1
    rw [List.cons_append, run]
    cases hs : step m c with
    | none => simp [hs] at h1
    | some q =>
      obtain ⟨t', m'⟩ := q
      rw [hs] at h1
      simp only at h1 ⊢
      cases hr : run m' a with
      | none => rw [hr] at h1; cases h1
      | some q =>
        rw [hr] at h1
        obtain ⟨t'', m''⟩ := q
        simp only [Option.map_some, Option.some.injEq, Prod.mk.injEq] at h1
        obtain ⟨rfl, rfl⟩ := h1
        rw [ih hr]
        rfl

theorem run_none_left {m : Mode} {a : Text} (b : Text) (h : run m a = none) : run m (a ++ b) = none := by
  induction a generalizing m with
  | nil => simp [run] at h
  | cons c a ih =>
    rw [run] at h
    rw [List.cons_append, run]
    cases hs : step m c with
    | none => rfl
    | some q =>
      rw [hs] at h
      simp only [Option.map_eq_none_iff] at h ⊢
      exact ih h

/-- **C99** fails for a label like `A&B`, as labels are written as they are: the text of the sheet is not XML. -/
theorem C99_label_false (d : Page ℝ) (hc : Unmarked d.cutStyle) (hl : Unmarked d.labelStyle) (r : Renderable ℝ (Drawing ℝ)) (hi : Unmarked r.part.payload.id)
    (ht : r.part.payload.label.text = "A&B".toList) (q : Point ℝ) (hq : pointAttribute r.part.payload.label.position r.part.payload.path = .ok q) :
    readXml (writePage d [r]).1 = none := by
  have a1 : writeItem d r = (openText r ++ pathText d r.part.payload ++ labelText d q "A&B".toList ++ "</g>\n".toList, .ok ()) := by
    unfold writeItem
    simp only
    rw [if_pos (by rw [ht]; decide), hq, ht]
  have e : (writePage d [r]).1 = startText d ++ (openText r ++ pathText d r.part.payload) ++ (labelText d q "A&B".toList ++ ("</g>\n".toList ++ "</svg>\n".toList)) := by
    simp only [writePage, writeItems, a1, List.append_assoc, List.nil_append]
  have g1 := (goes_start unmarked_real d).append
    ((goes_open unmarked_real r (acc := ['\t', '\n']) (by simp)).append (goes_path unmarked_real d hc r.part.payload hi (acc := ['\n']) (by simp)))
  unfold readXml
  rw [e, run_none g1]
  apply run_none_left
  have h1 : Goes .open "text x=\"".toList [] (.value "text".toList [] "x".toList []) := by
    simp [Goes, run, step, isNameStart, isLetter, isNameChar, isBlank]
  have h2 := goes_quoted "text".toList [] "x".toList (unmarked_real 3 q.x)
  have e1 : localName "x".toList = "x".toList := by simp [localName]
  rw [e1] at h2
  have h3 := fun as => goes_attr "text".toList as "y".toList (Num.fmt 3 q.y) " y=\"".toList
    (by simp [Goes, run, step, isNameStart, isLetter, isNameChar, isBlank]) (by simp [localName]) (unmarked_real 3 q.y)
  have h4 := fun as => goes_attr "text".toList as "style".toList d.labelStyle " style=\"".toList
    (by simp [Goes, run, step, isNameStart, isLetter, isNameChar, isBlank]) (by simp [localName]) hl
  have h5 : ∀ as, Goes (.valued "text".toList as) ">".toList [.start "text".toList as] (.text []) := fun as => by
    simp [Goes, run, step, localName]
  have h := ((((((goes_lt (acc := ['\n']) (by simp)).append h1).append h2).append (h3 _)).append (h4 _)).append (h5 _))
  have h6 : run (.text []) ("A&B".toList ++ "</text>\n".toList) = none := by decide +kernel
  have h7 := run_none h h6
  refine Eq.trans ?_ h7
  congr 1
  unfold labelText
  simp only [List.append_assoc]
  rfl

/-! ## C100 Importing a written sheet -/

theorem parse_page (d : Page ℝ) (rs : List (Renderable ℝ (Drawing ℝ))) : parse (tokensAll (pageNodes d rs)) = .ok (pageElement d rs) := by
  have hu := unique_page d rs
  have he := elements_page d rs
  simp only [pageNodes, UniqueAll] at hu
  simp only [pageNodes, elementsAll, Node.elements, List.nil_append, List.append_nil, List.cons.injEq, and_true] at he
  have h := C56_parse (F := ℝ) [.other, .chars ['\n', '\t'], .other, .chars ['\n', '\t']] (by simp) "svg".toList (pageAttributes d)
    (itemNodes d ['\t', '\n'] rs) [.chars ['\n']] hu.2.2.2.2.1
  rw [he] at h
  rw [← h]
  congr 1

theorem svg_no_shape : "svg".toList ∉ shapeNames := by decide +kernel

theorem g_no_shape : "g".toList ∉ shapeNames := by decide +kernel

theorem text_no_shape : "text".toList ∉ shapeNames := by decide +kernel

/-- The strokes of a part as they are written. -/
noncomputable def writtenStrokes (d : Page ℝ) (r : Renderable ℝ (Drawing ℝ)) : List (Stroke ℝ) :=
  (svgStrokes (0, 0) r.part.payload.path).map (Stroke.map (roundPt d.precision))

theorem path_element (d : Page ℝ) (a : Drawing ℝ) : ∃ q, elementToPath (.mk "path".toList [("id".toList, .str a.id),
    ("d".toList, .str (printPath d.precision a.path)), ("style".toList, .str d.cutStyle)] [] []) = .ok q ∧
    strokes q = (svgStrokes (0, 0) a.path).map (Stroke.map (roundPt d.precision)) := by
  obtain ⟨q, h1, h2⟩ := C17_drawn d.precision a.path
  refine ⟨q, ?_, h2⟩
  apply elementToPath_shape
  have : getText (F := ℝ) [("id".toList, .str a.id), ("d".toList, .str (printPath d.precision a.path)), ("style".toList, .str d.cutStyle)] ['d'] =
      printPath d.precision a.path := by
    rw [getText, show get (F := ℝ) [("id".toList, .str a.id), ("d".toList, .str (printPath d.precision a.path)), ("style".toList, .str d.cutStyle)] ['d'] =
      some (.str (printPath d.precision a.path)) from rfl]
  rw [shape.eq_def, if_pos (show "path".toList = ['p', 'a', 't', 'h'] from by decide), this, h1]

theorem item_import (d : Page ℝ) (r : Renderable ℝ (Drawing ℝ)) (h : r.part.payload.label.text = []) :
    ∃ q, elementToPath (itemElement d r) = .ok q ∧ strokes q = writtenStrokes d r := by
  obtain ⟨q, h1, h2⟩ := path_element d r.part.payload
  have hc : ∀ c ∈ [(.mk "path".toList [("id".toList, .str r.part.payload.id), ("d".toList, .str (printPath d.precision r.part.payload.path)),
      ("style".toList, .str d.cutStyle)] [] [] : Element ℝ)], ∃ q, elementToPath c = .ok q := by
    intro c hc
    rw [List.mem_singleton.1 hc]
    exact ⟨q, h1⟩
  obtain ⟨p, hp⟩ := C57_group_ok "g".toList g_no_shape [("transform".toList, .str (joinSpace (r.transforms.map transformText)))] _ (by simp) [] hc
  obtain ⟨ps, hf, hs⟩ := C57_group "g".toList g_no_shape _ _ (by simp) [] p hp
  refine ⟨p, ?_, ?_⟩
  · unfold itemElement
    simp only [h, if_true]
    exact hp
  · cases hf with
    | cons e hf =>
      cases hf
      rw [h1] at e
      cases e
      rw [hs]
      simpa [writtenStrokes] using h2

theorem item_panics (d : Page ℝ) (r : Renderable ℝ (Drawing ℝ)) (hr : Writable r) (h : r.part.payload.label.text ≠ []) :
    elementToPath (itemElement d r) = .panic := by
  obtain ⟨q, hq⟩ := hr.2.2 h
  obtain ⟨p, h1, -⟩ := path_element d r.part.payload
  have h2 : elementToPath (labelElement d q r.part.payload.label.text) = .panic := by
    unfold labelElement
    rw [C57_path, shape_group _ text_no_shape]
    rfl
  unfold itemElement
  simp only [if_neg h, hq]
  rw [C57_path, shape_group _ g_no_shape, childPaths, h1]
  simp only [childPaths, h2]

theorem items_panic (d : Page ℝ) (rs : List (Renderable ℝ (Drawing ℝ))) (hr : ∀ r ∈ rs, Writable r) (h : ∃ r ∈ rs, r.part.payload.label.text ≠ []) :
    childPaths (rs.map (itemElement d)) = .panic := by
  induction rs with
  | nil => obtain ⟨r, hr, _⟩ := h; simp at hr
  | cons r rs ih =>
    rw [List.map_cons, childPaths]
    by_cases ht : r.part.payload.label.text = []
    · obtain ⟨q, h1, -⟩ := item_import d r ht
      have := ih (fun x hx => hr x (by simp [hx])) (by
        obtain ⟨x, hx, hl⟩ := h
        rcases List.mem_cons.mp hx with rfl | hx
        · exact absurd ht hl
        · exact ⟨x, hx, hl⟩)
      rw [h1, this]
    · rw [item_panics d r (hr r (by simp)) ht]

/-- **C100.** A sheet without labels and with at least one part can be imported as a drawing again: the drawing has the strokes of all parts in their
order, rounded as they are written, and each where it is on the part. (The transforms of the sheet are ignored, C57.) -/
theorem C100_imported (d : Page ℝ) (hc : Unmarked d.cutStyle) (hl : Unmarked d.labelStyle) (rs : List (Renderable ℝ (Drawing ℝ))) (hr : ∀ r ∈ rs, Writable r)
    (hn : rs ≠ []) (ht : ∀ r ∈ rs, r.part.payload.label.text = []) :
    ∃ toks p, readXml (writePage d rs).1 = some toks ∧ parseSVG toks = .ok p ∧ strokes p = rs.flatMap (writtenStrokes d) := by
  obtain ⟨-, h2⟩ := read_page unmarked_real d hc hl rs hr
  have hcs : ∀ c ∈ rs.map (itemElement d), ∃ q, elementToPath c = .ok q := by
    intro c hc
    obtain ⟨r, hr, rfl⟩ := List.mem_map.mp hc
    obtain ⟨q, h, -⟩ := item_import d r (ht r hr)
    exact ⟨q, h⟩
  obtain ⟨p, hp⟩ := C57_group_ok "svg".toList svg_no_shape (sizeAttributes d ++ [("viewBox".toList, .str ("0.000 0.000 ".toList ++ Num.fmt 3 d.width ++ ' ' :: Num.fmt 3 d.height)),
      ("xmlns".toList, .str "http://www.w3.org/2000/svg".toList), ("xlink".toList, .str "http://www.w3.org/1999/xlink".toList)]) (rs.map (itemElement d)) (by simp [hn]) [] hcs
  obtain ⟨ps, hf, hs⟩ := C57_group "svg".toList svg_no_shape _ _ (by simp [hn]) [] p hp
  refine ⟨_, p, h2, ?_, ?_⟩
  · rw [parseSVG, parse_page]
    exact hp
  · rw [hs]
    clear hs hp hcs h2 hn hr
    induction rs generalizing ps with
    | nil => cases hf; rfl
    | cons r rs ih =>
      cases hf with
      | cons e hf =>
        obtain ⟨q, h1, h3⟩ := item_import d r (ht r (by simp))
        rw [h1] at e
        cases e
        rw [List.flatMap_cons, List.flatMap_cons, h3, ih (fun x hx => ht x (by simp [hx])) _ hf]

/-- **C100** fails for a sheet with a label or without parts: importing it panics. -/
theorem C100_label_false (d : Page ℝ) (hc : Unmarked d.cutStyle) (hl : Unmarked d.labelStyle) (rs : List (Renderable ℝ (Drawing ℝ))) (hr : ∀ r ∈ rs, Writable r)
    (h : rs = [] ∨ ∃ r ∈ rs, r.part.payload.label.text ≠ []) :
    ∃ toks, readXml (writePage d rs).1 = some toks ∧ (parseSVG toks : Res (Path ℝ)) = .panic := by
  obtain ⟨-, h2⟩ := read_page unmarked_real d hc hl rs hr
  refine ⟨_, h2, ?_⟩
  rw [parseSVG, parse_page]
  simp only [pageElement]
  rw [C57_path, shape_group _ svg_no_shape]
  rcases h with rfl | h
  · rfl
  · rw [items_panic d rs hr h]

/-! ## C101 The place of a part on a sheet -/

/-- A transform with its numbers rounded to three decimals. -/
noncomputable def roundTransform : SvgTransform ℝ → SvgTransform ℝ
  | .rotate90 x y => .rotate90 (Decimal.rounded 3 x) (Decimal.rounded 3 y)
  | .translate x y => .translate (Decimal.rounded 3 x) (Decimal.rounded 3 y)

theorem fmt_no_separator (x : ℝ) : ∀ c ∈ (Num.fmt 3 x : Text), isSeparator c = false := by
  intro c hc
  rcases signedText_chars _ _ _ c hc with rfl | rfl | ⟨d, hd, rfl⟩
  · decide
  · decide
  · interval_cases d <;> decide

theorem fmt_ne_nil (x : ℝ) : (Num.fmt 3 x : Text) ≠ [] := signedText_ne_nil _ _ _

theorem words_word {w : Text} (hn : w ≠ []) (hw : ∀ c ∈ w, isSeparator c = false) {c : Char} (hc : isSeparator c = true) (s : Text) :
    transformWords (w ++ c :: s) = w :: transformWords s := by
  unfold transformWords
  rw [List.splitOnP_append_cons _ _ hc, List.splitOnP_eq_singleton (fun a ha => hw a ha)]
  simp [hn]

theorem words_separator {c : Char} (hc : isSeparator c = true) (s : Text) : transformWords (c :: s) = transformWords s := by
  unfold transformWords
  rw [List.splitOnP_cons_eq_if_modifyHead, if_pos hc]
  simp

theorem toFloat_ninety : (toFloat "90".toList : Option ℝ) = some (Arith.lit 90 0) := by
  unfold toFloat
  rw [show trimSpace "90".toList = "90".toList from by decide +kernel]
  have : Decimal.parseDecimal "90".toList = some (false, 90, 0) := by decide +kernel
  simp only [Num.parse_field, this, Option.map_some, Decimal.value]
  norm_num [Arith.lit]

theorem words_transform (t : SvgTransform ℝ) (s : Text) : ∃ ws, transformWords (transformText t ++ s) = ws ++ transformWords s ∧
    ∀ rest ts, SpellsTransforms rest ts → SpellsTransforms (ws ++ rest) (roundTransform t :: ts) := by
  cases t with
  | rotate90 x y =>
    refine ⟨["rotate".toList, "90".toList, Num.fmt 3 x, Num.fmt 3 y], ?_, ?_⟩
    · have e : transformText (.rotate90 x y) ++ s = "rotate".toList ++ '(' :: ("90".toList ++ ' ' :: (Num.fmt 3 x ++ ' ' :: (Num.fmt 3 y ++ ')' :: s))) := by
        unfold transformText
        simp only [List.append_assoc]
        rfl
      rw [e, words_word (by decide) (by decide) (by decide), words_word (by decide) (by decide) (by decide),
        words_word (fmt_ne_nil x) (fmt_no_separator x) (by decide), words_word (fmt_ne_nil y) (fmt_no_separator y) (by decide)]
      rfl
    · intro rest ts h
      refine SpellsTransforms.rotate90 ?_ (toFloat_fmt 3 x) (toFloat_fmt 3 y) h
      exact toFloat_ninety
  | translate x y =>
    refine ⟨["translate".toList, Num.fmt 3 x, Num.fmt 3 y], ?_, ?_⟩
    · have e : transformText (.translate x y) ++ s = "translate".toList ++ '(' :: (Num.fmt 3 x ++ ' ' :: (Num.fmt 3 y ++ ')' :: s)) := by
        unfold transformText
        simp only [List.append_assoc]
        rfl
      rw [e, words_word (by decide) (by decide) (by decide),
        words_word (fmt_ne_nil x) (fmt_no_separator x) (by decide), words_word (fmt_ne_nil y) (fmt_no_separator y) (by decide)]
      rfl
    · intro rest ts h
      exact SpellsTransforms.translate (toFloat_fmt 3 x) (toFloat_fmt 3 y) h

theorem words_joined (ts : List (SvgTransform ℝ)) : SpellsTransforms (transformWords (joinSpace (ts.map transformText))) (ts.map roundTransform) := by
  induction ts with
  | nil => exact .nil
  | cons t ts ih =>
    cases ts with
    | nil =>
      obtain ⟨ws, h1, h2⟩ := words_transform t []
      simp only [List.append_nil] at h1
      simp only [List.map_cons, List.map_nil, joinSpace]
      rw [h1]
      exact h2 _ _ .nil
    | cons t' ts =>
      obtain ⟨ws, h1, h2⟩ := words_transform t (' ' :: joinSpace ((t' :: ts).map transformText))
      rw [words_separator (by decide)] at h1
      rw [List.map_cons, List.map_cons, joinSpace, ← List.map_cons, h1]
      · exact h2 _ _ ih
      · simp

/-- **C101.** The attribute that is written for the place of a part spells its transforms, rounded to three decimals. -/
theorem C101_spelled (r : Renderable ℝ (Drawing ℝ)) :
    SpellsTransforms (transformWords (joinSpace (r.transforms.map transformText))) (r.transforms.map roundTransform) := words_joined _

/-- Two points whose coordinates differ by at most `e`. -/
def Near (e : ℝ) (p q : Pt ℝ) : Prop := |p.1 - q.1| ≤ e ∧ |p.2 - q.2| ≤ e

theorem near_round (n : Nat) (p : Pt ℝ) : Near (1 / 2 / 10 ^ n) (roundPt n p) p := ⟨Decimal.rounded_close n p.1, Decimal.rounded_close n p.2⟩

theorem near_at {e : ℝ} (f : Pt ℝ → Pt ℝ) (hf : ∀ p, Near e (f p) p) (s : Stroke ℝ) {t : ℝ} (h0 : 0 ≤ t) (h1 : t ≤ 1) : Near e ((s.map f).at t) (s.at t) := by
  have key2 : ∀ a b a' b' : ℝ, |a' - a| ≤ e → |b' - b| ≤ e → |((1 - t) * a' + t * b') - ((1 - t) * a + t * b)| ≤ e := by
    intro a b a' b' ha hb
    rw [abs_le] at *
    constructor <;> nlinarith
  have key4 : ∀ a c d b a' c' d' b' : ℝ, |a' - a| ≤ e → |c' - c| ≤ e → |d' - d| ≤ e → |b' - b| ≤ e →
      |((1 - t) ^ 3 * a' + 3 * (1 - t) ^ 2 * t * c' + 3 * (1 - t) * t ^ 2 * d' + t ^ 3 * b') -
        ((1 - t) ^ 3 * a + 3 * (1 - t) ^ 2 * t * c + 3 * (1 - t) * t ^ 2 * d + t ^ 3 * b)| ≤ e := by
    intro a c d b a' c' d' b' ha hc hd hb
    have w1 : 0 ≤ (1 - t) ^ 3 := pow_nonneg (by linarith) 3
    have w2 : 0 ≤ 3 * (1 - t) ^ 2 * t := by have := sq_nonneg (1 - t); positivity
    have w3 : 0 ≤ 3 * (1 - t) * t ^ 2 := by have : 0 ≤ 1 - t := by linarith
                                            positivity
    have w4 : 0 ≤ t ^ 3 := by positivity
    have hw : (1 - t) ^ 3 + 3 * (1 - t) ^ 2 * t + 3 * (1 - t) * t ^ 2 + t ^ 3 = 1 := by ring
    rw [abs_le] at *
    constructor
    · nlinarith [mul_le_mul_of_nonneg_left ha.1 w1, mul_le_mul_of_nonneg_left hc.1 w2, mul_le_mul_of_nonneg_left hd.1 w3, mul_le_mul_of_nonneg_left hb.1 w4]
    · nlinarith [mul_le_mul_of_nonneg_left ha.2 w1, mul_le_mul_of_nonneg_left hc.2 w2, mul_le_mul_of_nonneg_left hd.2 w3, mul_le_mul_of_nonneg_left hb.2 w4]
  cases s with
  | line a b => exact ⟨key2 _ _ _ _ (hf a).1 (hf b).1, key2 _ _ _ _ (hf a).2 (hf b).2⟩
  | curve a c d b => exact ⟨key4 _ _ _ _ _ _ _ _ (hf a).1 (hf c).1 (hf d).1 (hf b).1, key4 _ _ _ _ _ _ _ _ (hf a).2 (hf c).2 (hf d).2 (hf b).2⟩

/-- **C101.** Every point of the drawing of a part is written where the layout puts it, up to half a thousandth for the place and half a unit of the last
decimal for the path. -/
theorem C101_placed (r : Renderable ℝ (Drawing ℝ)) (n : Nat) (s : Stroke ℝ) (t : ℝ) (h0 : 0 ≤ t) (h1 : t ≤ 1) :
    Near (1 / 2000 + 1 / 2 / 10 ^ n) (PlanSet.applyTransforms (r.transforms.map roundTransform) ((s.map (roundPt n)).at t))
      (PlanSet.applyTransforms r.transforms (s.at t)) := by
  obtain ⟨a1, a2⟩ := near_at (roundPt n) (near_round n) s h0 h1
  have rc : ∀ x : ℝ, |Decimal.rounded 3 x - x| ≤ 1 / 2000 := fun x => (Decimal.rounded_close 3 x).trans (by norm_num)
  generalize s.at t = p at *
  generalize (s.map (roundPt n)).at t = p' at *
  generalize (1 : ℝ) / 2 / 10 ^ n = e at *
  obtain ⟨u, v⟩ := p
  obtain ⟨u', v'⟩ := p'
  simp only at a1 a2
  obtain ⟨x, y, ⟨w, h, pl⟩, rot⟩ := r
  have b1 := rc x
  have b2 := rc y
  have b3 := rc (x + h)
  rw [abs_le] at *
  cases rot
  · constructor <;> simp [Renderable.transforms, roundTransform, PlanSet.applyTransforms, SvgTransform.apply, abs_le] <;> constructor <;> linarith
  · constructor <;> simp [Renderable.transforms, roundTransform, PlanSet.applyTransforms, SvgTransform.apply, abs_le] <;> constructor <;> linarith

/-- A point that the written sheet draws for a part: a point of its written path, moved by its written transforms. -/
def DrawsAt (d : Page ℝ) (r : Renderable ℝ (Drawing ℝ)) (q : Pt ℝ) : Prop :=
  ∃ s ∈ writtenStrokes d r, ∃ t : ℝ, 0 ≤ t ∧ t ≤ 1 ∧ PlanSet.applyTransforms (r.transforms.map roundTransform) (s.at t) = q

/-- The drawing of a part is inside the box with its size. -/
def InBox (r : Renderable ℝ (Drawing ℝ)) : Prop :=
  ∀ s ∈ svgStrokes (0, 0) r.part.payload.path, ∀ t : ℝ, 0 ≤ t → t ≤ 1 → (Rect.mk 0 0 r.part.width r.part.height).Mem (s.at t)

theorem near_drawn (d : Page ℝ) (r : Renderable ℝ (Drawing ℝ)) (hr : InBox r) (q : Pt ℝ) (hq : DrawsAt d r q) :
    ∃ q', r.drawn.Mem q' ∧ Near (1 / 2000 + 1 / 2 / 10 ^ d.precision) q q' := by
  obtain ⟨s, hs, t, h0, h1, rfl⟩ := hq
  obtain ⟨s, hs', rfl⟩ := List.mem_map.mp hs
  exact ⟨_, (C13_transform_covers r _).1 ⟨_, hr s hs' t h0 h1, rfl⟩, C101_placed r d.precision s t h0 h1⟩

/-- **C101.** Two parts that the layout keeps apart by `g` are apart on the written sheet by `g`, up to the rounding of both: two points of the two drawings
are at least so far from each other, horizontally or vertically. -/
theorem C101_apart (d : Page ℝ) (r r' : Renderable ℝ (Drawing ℝ)) (hr : InBox r) (hr' : InBox r') (g : ℝ) (h : r.drawn.Apart r'.drawn g) (q q' : Pt ℝ)
    (hq : DrawsAt d r q) (hq' : DrawsAt d r' q') : g - (1 / 1000 + 1 / 10 ^ d.precision) ≤ max |q.1 - q'.1| |q.2 - q'.2| := by
  obtain ⟨a, ⟨m1, m2, m3, m4⟩, n1, n2⟩ := near_drawn d r hr q hq
  obtain ⟨a', ⟨m1', m2', m3', m4'⟩, n1', n2'⟩ := near_drawn d r' hr' q' hq'
  rw [abs_le] at n1 n2 n1' n2'
  have e : (1 : ℝ) / 10 ^ d.precision = 2 * (1 / 2 / 10 ^ d.precision) := by ring
  rw [e]
  generalize (1 : ℝ) / 2 / 10 ^ d.precision = c at *
  rcases h with h | h | h | h
  · exact le_max_of_le_left (by rw [le_abs]; right; linarith)
  · exact le_max_of_le_left (by rw [le_abs]; left; linarith)
  · exact le_max_of_le_right (by rw [le_abs]; right; linarith)
  · exact le_max_of_le_right (by rw [le_abs]; left; linarith)

/-- A corner of size 1 with the label `A1` at the given place. -/
noncomputable def cornerPart (place : Text) : RenderedPart ℝ (Drawing ℝ) where
  width := 1
  height := 1
  payload := { id := "part".toList, path := [.move (mk (0, 0)) (mk (0, 0)), .line (mk (0, 0)) (mk (1, 0)), .line (mk (1, 0)) (mk (1, 1))], label := ⟨"A1".toList, place⟩ }

/-- Two corners, one of them turned, with labels. -/
noncomputable def cornerSheet : List (Renderable ℝ (Drawing ℝ)) :=
  [⟨0, 0, cornerPart Attr.startPoint.text, false⟩, ⟨2, 0, cornerPart Attr.startPoint.text, true⟩]

theorem corner_writable : ∀ r ∈ cornerSheet, Writable r := by
  intro r hr
  have h : Writable (⟨r.x, r.y, cornerPart Attr.startPoint.text, r.rotate⟩ : Renderable ℝ (Drawing ℝ)) := by
    refine ⟨unmarked_of_all (s := "part".toList) (by decide), unmarked_of_all (s := "A1".toList) (by decide), fun _ => ⟨mk (0, 0), ?_⟩⟩
    show pointAttribute Attr.startPoint.text _ = _
    rw [pointAttribute_text]
    rfl
  simp only [cornerSheet, List.mem_cons, List.not_mem_nil, or_false] at hr
  rcases hr with rfl | rfl <;> exact h

/-- **C99** is not empty: the sheet with the two corners. -/
example : Says (writePage (newPage 10 10 .mm) cornerSheet).1 [pageElement (newPage 10 10 .mm) cornerSheet] :=
  (C99_written _ (C99_new 10 10 .mm).1 (C99_new 10 10 .mm).2 _ corner_writable).2

/-- The label is to be at the cursor, which a path does not have. -/
example : ¬ ∃ es : List (Element ℝ), Says (writePage (newPage 10 10 .mm) [⟨0, 0, cornerPart Attr.cursor.text, false⟩]).1 es := by
  have h : Displaced ⟨0, 0, cornerPart Attr.cursor.text, false⟩ := by
    refine ⟨unmarked_of_all (by decide), by decide, ?_⟩
    show pointAttribute Attr.cursor.text _ = _
    rw [pointAttribute_text]
    rfl
  exact (C99_displaced_false _ (C99_new 10 10 .mm).1 (C99_new 10 10 .mm).2 _ (fun r hr => Or.inr (by rw [List.mem_singleton.1 hr]; exact h)) ⟨_, by simp, h⟩).2

/-- The two corners are apart by 1, so the written corners are apart by at least 0.998. -/
example (q q' : Pt ℝ) (hq : DrawsAt (newPage 10 10 .mm) ⟨0, 0, cornerPart [], false⟩ q) (hq' : DrawsAt (newPage 10 10 .mm) ⟨2, 0, cornerPart [], true⟩ q') :
    (998 : ℝ) / 1000 ≤ max |q.1 - q'.1| |q.2 - q'.2| := by
  have hb : ∀ x y rot, InBox ⟨x, y, cornerPart [], rot⟩ := by
    intro x y rot s hs t h0 h1
    simp only [cornerPart, svgStrokes, pt, List.mem_cons, List.not_mem_nil, or_false] at hs
    rcases hs with rfl | rfl <;> simp [Rect.Mem, Stroke.at, cornerPart, mk, h0, h1]
  have := C101_apart (newPage 10 10 .mm) _ _ (hb _ _ _) (hb _ _ _) 1 (by simp [Renderable.drawn, Rect.Apart, cornerPart]; norm_num) q q' hq hq'
  simp only [newPage] at this
  norm_num at this ⊢
  exact this

/-- **C100** is not empty: a sheet with a corner without a label. -/
example : ∃ toks, ∃ p : Path ℝ, readXml (writePage (newPage 10 10 .mm) [⟨0, 0, { cornerPart [] with payload := { (cornerPart []).payload with label := ⟨[], []⟩ } }, false⟩]).1 = some toks ∧
    parseSVG toks = .ok p ∧ (strokes p).length = 2 := by
  obtain ⟨toks, p, h1, h2, h3⟩ := C100_imported (newPage 10 10 .mm) (C99_new 10 10 .mm).1 (C99_new 10 10 .mm).2
    [⟨0, 0, { cornerPart [] with payload := { (cornerPart []).payload with label := ⟨[], []⟩ } }, false⟩]
    (by
      intro r hr
      rw [List.mem_singleton.1 hr]
      exact ⟨unmarked_of_all (by decide), Unmarked.nil, fun h => absurd rfl h⟩) (by simp) (by simp)
  refine ⟨toks, p, h1, h2, ?_⟩
  rw [h3]
  rfl

end Verif.Svg
