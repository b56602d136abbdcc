import Verif.Spec.SvgDoc
import Verif.Lemmas.PathText

/-!
# Lemmas about the texts of sheets
-/

set_option linter.unusedSectionVars false

namespace Verif.Svg

open Verif Verif.Path Verif.PlanSet Verif.Files Verif.Xml Verif.Dyn

universe u

/-! ## Reading XML -/

/-- Reading `s` leads from one place to another. -/
def Goes (m : Mode) (s : Text) (toks : List Tok) (m' : Mode) : Prop := run m s = some (toks, m')

theorem Goes.nil (m : Mode) : Goes m [] [] m := rfl

theorem Goes.cons {m m1 m2 : Mode} {c : Char} {s : Text} {t1 t2 : List Tok} (h1 : step m c = some (t1, m1)) (h2 : Goes m1 s t2 m2) :
    Goes m (c :: s) (t1 ++ t2) m2 := by
  unfold Goes at *
  rw [run, h1]
  simp [h2]

theorem Goes.append {m m1 m2 : Mode} {a b : Text} {t1 t2 : List Tok} (h1 : Goes m a t1 m1) (h2 : Goes m1 b t2 m2) : Goes m (a ++ b) (t1 ++ t2) m2 := by
  induction a generalizing m t1 with
  | nil =>
    unfold Goes at h1
    simp only [run, Option.some.injEq, Prod.mk.injEq] at h1
    obtain ⟨rfl, rfl⟩ := h1
    simpa using h2
  | cons c a ih =>
    unfold Goes at h1
    rw [run] at h1
    cases hs : step m c with
    | none => rw [hs] at h1; cases h1
    | some q =>
      obtain ⟨t, m'⟩ := q
      rw [hs] at h1
      simp only at h1
      cases hr : run m' a with
      | none => rw [hr] at h1; cases h1
      | some q =>
        obtain ⟨t', m''⟩ := q
        rw [hr] at h1
        simp only [Option.map_some, Option.some.injEq, Prod.mk.injEq] at h1
        obtain ⟨rfl, rfl⟩ := h1
        rw [List.cons_append, List.append_assoc]
        exact Goes.cons hs (ih hr)

theorem Goes.cast {m m' n n' : Mode} {s s' : Text} {t t' : List Tok} (h : Goes m s t m') (e1 : m = n) (e2 : s = s') (e3 : t = t') (e4 : m' = n') :
    Goes n s' t' n' := by
  subst e1 e2 e3 e4; exact h

theorem goes_value (name : Text) (as : List (Text × Text)) (key : Text) {s : Text} (h : Unmarked s) :
    ∀ acc, Goes (.value name as key acc) s [] (.value name as key (s.reverse ++ acc)) := by
  induction s with
  | nil => intro acc; exact Goes.nil _
  | cons c s ih =>
    intro acc
    obtain ⟨h1, h2, h3, h4, h5⟩ := h c (by simp)
    have hs : step (.value name as key acc) c = some ([], .value name as key (c :: acc)) := by simp [step, h1, h2, h4, h5]
    have := Goes.cons hs (ih (fun x hx => h x (by simp [hx])) (c :: acc))
    simpa using this

theorem goes_text {s : Text} (h : Unmarked s) : ∀ acc, Goes (.text acc) s [] (.text (s.reverse ++ acc)) := by
  induction s with
  | nil => intro acc; exact Goes.nil _
  | cons c s ih =>
    intro acc
    obtain ⟨h1, h2, h3, h4, h5⟩ := h c (by simp)
    have hs : step (.text acc) c = some ([], .text (c :: acc)) := by simp [step, h1, h2, h3, h4]
    have := Goes.cons hs (ih (fun x hx => h x (by simp [hx])) (c :: acc))
    simpa using this

/-- The value of an attribute, with its quotes. -/
theorem goes_quoted (name : Text) (as : List (Text × Text)) (key : Text) {s : Text} (h : Unmarked s) :
    Goes (.value name as key []) (s ++ ['"']) [] (.valued name (as ++ [(localName key, s)])) := by
  have h1 := goes_value name as key h []
  have h2 : Goes (.value name as key (s.reverse ++ [])) ['"'] [] (.valued name (as ++ [(localName key, s)])) := by
    simp [Goes, run, step]
  exact (h1.append h2).cast rfl rfl (by simp) rfl

theorem Unmarked.append {s t : Text} (hs : Unmarked s) (ht : Unmarked t) : Unmarked (s ++ t) := by
  intro c hc
  rcases List.mem_append.mp hc with h | h
  · exact hs c h
  · exact ht c h

theorem Unmarked.nil : Unmarked [] := by intro c hc; simp at hc

theorem unmarked_of_all {s : Text} (h : s.all (fun c => isXmlChar c && (c != '<') && (c != '>') && (c != '&') && (c != '"')) = true) : Unmarked s := by
  intro c hc
  have := List.all_eq_true.mp h c hc
  simp only [Bool.and_eq_true, bne_iff_ne, ne_eq] at this
  tauto

theorem Unmarked.cons {c : Char} {s : Text} (hc : Unmarked [c]) (hs : Unmarked s) : Unmarked (c :: s) := Unmarked.append (s := [c]) hc hs

/-! ## The parts of a sheet -/

section Sheet

variable {F : Type u} [Trig F] (hf : ∀ n (x : F), Unmarked (Num.fmt n x))

include hf

theorem unmarked_transform (t : SvgTransform F) : Unmarked (transformText t) := by
  cases t with
  | rotate90 x y =>
    exact (((unmarked_of_all (by decide)).append (hf 3 x)).append (Unmarked.cons (unmarked_of_all (by decide)) (hf 3 y))).append (unmarked_of_all (by decide))
  | translate x y =>
    exact (((unmarked_of_all (by decide)).append (hf 3 x)).append (Unmarked.cons (unmarked_of_all (by decide)) (hf 3 y))).append (unmarked_of_all (by decide))

omit hf in
theorem unmarked_joinSpace : ∀ {ts : List Text}, (∀ t ∈ ts, Unmarked t) → Unmarked (joinSpace ts)
  | [], _ => Unmarked.nil
  | [t], h => by simpa [joinSpace] using h t (by simp)
  | t :: t' :: ts, h => by
    have h1 := unmarked_joinSpace (ts := t' :: ts) fun x hx => h x (List.mem_cons_of_mem _ hx)
    rw [joinSpace]
    · exact (h t (by simp)).append (Unmarked.cons (unmarked_of_all (by decide)) h1)
    · simp

theorem unmarked_printPath (n : Nat) (p : Path F) : Unmarked (printPath n p) := by
  refine unmarked_joinSpace fun t ht => ?_
  obtain ⟨s, _, rfl⟩ := List.mem_map.mp ht
  have sp : Unmarked [' '] := unmarked_of_all (by decide)
  cases s <;> simp only [printSegment] <;> repeat' first | exact hf n _ | exact sp | exact unmarked_of_all (by decide) | apply Unmarked.append

/-- What is written for a part, as nodes between the tags of the sheet. -/
def pathNode (d : Page F) (a : Drawing F) : Node :=
  .el "path".toList [("id".toList, a.id), ("d".toList, printPath d.precision a.path), ("style".toList, d.cutStyle)] []

def labelNode (d : Page F) (q : Point F) (t : Text) : Node :=
  .el "text".toList [("x".toList, Num.fmt 3 q.x), ("y".toList, Num.fmt 3 q.y), ("style".toList, d.labelStyle)] (if t = [] then [] else [.text t])

def labelNodes (d : Page F) (a : Drawing F) : List Node :=
  if a.label.text = [] then []
  else
    match pointAttribute a.label.position a.path with
    | .ok q => [labelNode d q a.label.text, .text ['\n']]
    | _ => []

def itemNode (d : Page F) (r : Renderable F (Drawing F)) : Node :=
  .el "g".toList [("transform".toList, joinSpace (r.transforms.map transformText))]
    ([.text ['\n'], pathNode d r.part.payload, .text ['\n']] ++ labelNodes d r.part.payload)

omit hf in
theorem goes_lt {acc : Text} (ha : acc ≠ []) : Goes (.text acc) ['<'] [.chars acc.reverse] .open := by
  simp [Goes, run, step, flush, ha]

theorem goes_open {P : Type u} (r : Renderable F P) {acc : Text} (ha : acc ≠ []) :
    Goes (.text acc) (openText r) [.chars acc.reverse, .start "g".toList [("transform".toList, joinSpace (r.transforms.map transformText))]] (.text ['\n']) := by
  have h1 : Goes .open "g transform=\"".toList [] (.value "g".toList [] "transform".toList []) := by
    simp [Goes, run, step, isNameStart, isLetter, isNameChar, isBlank]
  have h2 := goes_quoted "g".toList [] "transform".toList
    (unmarked_joinSpace (ts := r.transforms.map transformText) (by
      intro t ht
      obtain ⟨s, _, rfl⟩ := List.mem_map.mp ht
      exact unmarked_transform hf s))
  have h3 : ∀ as, Goes (.valued "g".toList as) ">\n".toList [.start "g".toList as] (.text ['\n']) := fun as => by
    simp [Goes, run, step, isXmlChar, localName]
  have h4 := (((goes_lt ha).append h1).append h2).append (h3 _)
  have e1 : localName "transform".toList = "transform".toList := by simp [localName]
  rw [e1] at h4
  refine Goes.cast h4 rfl ?_ ?_ rfl
  · unfold openText
    simp only [List.append_assoc]
    rfl
  · simp only [List.nil_append, List.append_nil, List.cons_append]

omit hf in
/-- The next attribute after a value. -/
theorem goes_attr (name : Text) (as : List (Text × Text)) (key v : Text) (lit : Text) (hl : Goes (.valued name as) lit [] (.value name as key []))
    (hk : localName key = key) (hv : Unmarked v) : Goes (.valued name as) (lit ++ (v ++ ['"'])) [] (.valued name (as ++ [(key, v)])) := by
  have h := hl.append (goes_quoted name as key hv)
  rw [hk] at h
  exact h

theorem goes_path (d : Page F) (hc : Unmarked d.cutStyle) (a : Drawing F) (hi : Unmarked a.id) {acc : Text} (ha : acc ≠ []) :
    Goes (.text acc) (pathText d a) (.chars acc.reverse :: (pathNode d a).tokens) (.text ['\n']) := by
  have h1 : Goes .open "path id=\"".toList [] (.value "path".toList [] "id".toList []) := by
    simp [Goes, run, step, isNameStart, isLetter, isNameChar, isBlank]
  have h2 := goes_quoted "path".toList [] "id".toList hi
  have e1 : localName "id".toList = "id".toList := by simp [localName]
  rw [e1] at h2
  have h3 := fun as => goes_attr "path".toList as "d".toList (printPath d.precision a.path) " d=\"".toList
    (by simp [Goes, run, step, isNameStart, isLetter, isNameChar, isBlank]) (by simp [localName]) (unmarked_printPath hf _ _)
  have h4 := fun as => goes_attr "path".toList as "style".toList d.cutStyle " style=\"".toList
    (by simp [Goes, run, step, isNameStart, isLetter, isNameChar, isBlank]) (by simp [localName]) hc
  have h5 : ∀ as, Goes (.valued "path".toList as) " />\n".toList [.start "path".toList as, .stop "path".toList] (.text ['\n']) := fun as => by
    simp [Goes, run, step, isXmlChar, localName, isBlank]
  have h := (((((goes_lt ha).append h1).append h2).append (h3 _)).append (h4 _)).append (h5 _)
  refine Goes.cast h rfl ?_ ?_ rfl
  · unfold pathText
    simp only [List.append_assoc]
    rfl
  · simp only [List.nil_append, List.append_nil, List.cons_append, pathNode, Node.tokens, tokensAll]

theorem goes_label (d : Page F) (hl : Unmarked d.labelStyle) (q : Point F) {t : Text} (ht : Unmarked t) {acc : Text} (ha : acc ≠ []) :
    Goes (.text acc) (labelText d q t) (.chars acc.reverse :: (labelNode d q t).tokens) (.text ['\n']) := by
  have h1 : Goes .open "text x=\"".toList [] (.value "text".toList [] "x".toList []) := by
    simp [Goes, run, step, isNameStart, isLetter, isNameChar, isBlank]
  have h2 := goes_quoted "text".toList [] "x".toList (hf 3 q.x)
  have e1 : localName "x".toList = "x".toList := by simp [localName]
  rw [e1] at h2
  have h3 := fun as => goes_attr "text".toList as "y".toList (Num.fmt 3 q.y) " y=\"".toList
    (by simp [Goes, run, step, isNameStart, isLetter, isNameChar, isBlank]) (by simp [localName]) (hf 3 q.y)
  have h4 := fun as => goes_attr "text".toList as "style".toList d.labelStyle " style=\"".toList
    (by simp [Goes, run, step, isNameStart, isLetter, isNameChar, isBlank]) (by simp [localName]) hl
  have h5 : ∀ as, Goes (.valued "text".toList as) ">".toList [.start "text".toList as] (.text []) := fun as => by
    simp [Goes, run, step, localName]
  have h6 : Goes (.text []) (t ++ "</text>\n".toList) ((if t = [] then [] else [.chars t]) ++ [.stop "text".toList]) (.text ['\n']) := by
    have g1 := goes_text ht []
    have g2 : Goes (.text (t.reverse ++ [])) "</text>\n".toList (flush (t.reverse ++ []) ++ [.stop "text".toList]) (.text ['\n']) := by
      simp [Goes, run, step, isXmlChar, localName, isNameChar, isNameStart, isLetter, isBlank]
    refine (g1.append g2).cast rfl rfl ?_ rfl
    by_cases h : t = [] <;> simp [flush, h]
  have h := (((((goes_lt ha).append h1).append h2).append (h3 _)).append (h4 _)).append ((h5 _).append h6)
  refine Goes.cast h rfl ?_ ?_ rfl
  · unfold labelText
    simp only [List.append_assoc]
    rfl
  · simp only [List.nil_append, List.append_nil, List.cons_append, labelNode, Node.tokens]
    by_cases h : t = [] <;> simp [h, tokensAll, Node.tokens]

omit hf in
theorem goes_close {acc : Text} (ha : acc ≠ []) : Goes (.text acc) "</g>\n".toList [.chars acc.reverse, .stop "g".toList] (.text ['\n']) := by
  have h : Goes .open "/g>\n".toList [.stop "g".toList] (.text ['\n']) := by
    simp [Goes, run, step, isXmlChar, localName, isNameChar, isNameStart, isLetter, isBlank]
  exact (goes_lt ha).append h

omit hf in
theorem tokensAll_append (a b : List Node) : tokensAll (a ++ b) = tokensAll a ++ tokensAll b := by
  induction a with
  | nil => rfl
  | cons n a ih => rw [List.cons_append, tokensAll, tokensAll, ih, List.append_assoc]

omit hf in
theorem elementsAll_append (a b : List Node) : elementsAll (a ++ b) = (elementsAll a ++ elementsAll b : List (Element F)) := by
  induction a with
  | nil => rfl
  | cons n a ih => rw [List.cons_append, elementsAll, elementsAll, ih, List.append_assoc]

omit hf in
theorem uniqueAll_append (a b : List Node) : UniqueAll (a ++ b) ↔ UniqueAll a ∧ UniqueAll b := by
  induction a with
  | nil => simp [UniqueAll]
  | cons n a ih => rw [List.cons_append, UniqueAll, UniqueAll, ih, and_assoc]

theorem goes_item (d : Page F) (hc : Unmarked d.cutStyle) (hl : Unmarked d.labelStyle) (r : Renderable F (Drawing F)) (hr : Writable r) {acc : Text} (ha : acc ≠ []) :
    (writeItem d r).2 = .ok () ∧ Goes (.text acc) (writeItem d r).1 (.chars acc.reverse :: (itemNode d r).tokens) (.text ['\n']) := by
  obtain ⟨h1, h2, h3⟩ := hr
  have g1 := (goes_open hf r ha).append (goes_path hf d hc r.part.payload h1 (acc := ['\n']) (by simp))
  unfold writeItem
  simp only
  by_cases ht : r.part.payload.label.text = []
  · rw [if_neg (by simp [ht])]
    refine ⟨rfl, (g1.append (goes_close (acc := ['\n']) (by simp))).cast rfl rfl ?_ rfl⟩
    simp [itemNode, labelNodes, ht, Node.tokens, tokensAll]
  · obtain ⟨q, hq⟩ := h3 ht
    rw [if_pos (List.length_pos_iff.mpr ht), hq]
    have g2 := goes_label hf d hl q h2 (acc := ['\n']) (by simp)
    refine ⟨rfl, ((g1.append g2).append (goes_close (acc := ['\n']) (by simp))).cast rfl rfl ?_ rfl⟩
    simp [itemNode, labelNodes, ht, hq, Node.tokens, tokensAll]

/-- The nodes of the parts, with the blanks before each. -/
def itemNodes (d : Page F) : Text → List (Renderable F (Drawing F)) → List Node
  | acc, [] => [.text acc.reverse]
  | acc, r :: rs => .text acc.reverse :: itemNode d r :: itemNodes d ['\n'] rs

theorem goes_items (d : Page F) (hc : Unmarked d.cutStyle) (hl : Unmarked d.labelStyle) (rs : List (Renderable F (Drawing F))) (hr : ∀ r ∈ rs, Writable r) :
    ∀ {acc : Text}, acc ≠ [] → (writeItems d rs).2 = .ok () ∧
      Goes (.text acc) ((writeItems d rs).1 ++ "</svg>\n".toList) (tokensAll (itemNodes d acc rs) ++ [.stop "svg".toList]) (.text ['\n']) := by
  induction rs with
  | nil =>
    intro acc ha
    have h : Goes .open "/svg>\n".toList [.stop "svg".toList] (.text ['\n']) := by
      simp [Goes, run, step, isXmlChar, localName, isNameChar, isNameStart, isLetter, isBlank]
    refine ⟨rfl, ?_⟩
    exact ((goes_lt ha).append h).cast rfl rfl rfl rfl
  | cons r rs ih =>
    intro acc ha
    obtain ⟨a1, a2⟩ := goes_item hf d hc hl r (hr r (by simp)) ha
    obtain ⟨b1, b2⟩ := ih (fun x hx => hr x (by simp [hx])) (acc := ['\n']) (by simp)
    have e : writeItems d (r :: rs) = ((writeItem d r).1 ++ (writeItems d rs).1, (writeItems d rs).2) := by
      rw [writeItems]
      split
      · next h => rw [h] at a1; cases a1
      · next h => rw [h]
    rw [e]
    refine ⟨b1, (a2.append b2).cast rfl (by simp) ?_ rfl⟩
    simp [itemNodes, tokensAll, Node.tokens]

omit hf in
theorem elements_items (d : Page F) (rs : List (Renderable F (Drawing F))) : ∀ acc, elementsAll (itemNodes d acc rs) = rs.map (itemElement d) := by
  induction rs with
  | nil => intro acc; rfl
  | cons r rs ih =>
    intro acc
    rw [itemNodes, elementsAll, elementsAll, ih, List.map_cons]
    have e : (itemNode d r).elements = [itemElement d r] := by
      have hn : trimSpace ['\n'] = [] := by decide
      unfold itemNode itemElement labelNodes
      by_cases ht : r.part.payload.label.text = []
      · simp [Node.elements, ht, pathNode, elementsAll, attributesOf, texts, hn]
      · cases hq : pointAttribute r.part.payload.label.position r.part.payload.path with
        | ok q =>
          by_cases hb : trimSpace r.part.payload.label.text = [] <;>
          simp [Node.elements, ht, hb, pathNode, labelNode, labelElement, elementsAll, attributesOf, texts, hn, hq]
        | err => simp [Node.elements, ht, pathNode, elementsAll, attributesOf, texts, hn, hq]
        | panic => simp [Node.elements, ht, pathNode, elementsAll, attributesOf, texts, hn, hq]
    rw [e]
    rfl

/-- The attributes of the sheet, as they are written. -/
def pageAttributes (d : Page F) : List (Text × Text) :=
  (if d.renderSize then
    [("width".toList, Num.fmt 3 d.width ++ abbreviation d.units), ("height".toList, Num.fmt 3 d.height ++ abbreviation d.units)] else []) ++
  [("viewBox".toList, "0.000 0.000 ".toList ++ Num.fmt 3 d.width ++ ' ' :: Num.fmt 3 d.height),
    ("xmlns".toList, "http://www.w3.org/2000/svg".toList), ("xlink".toList, "http://www.w3.org/1999/xlink".toList)]

omit hf in
theorem goes_head : Goes (.text []) "<?xml version=\"1.0\"?>\n\t<!-- Generated by github.com/dustismo/heavyfishdesign -->\n\t<svg ".toList
    [.other, .chars ['\n', '\t'], .other, .chars ['\n', '\t']] (.attrs "svg".toList []) := by
  simp [Goes, run, step, isXmlChar, isNameStart, isLetter, isNameChar, isBlank, flush, endsSection]

omit hf in
theorem unmarked_abbreviation (u : Units) : Unmarked (abbreviation u) := by
  cases u <;> exact unmarked_of_all (by decide)

theorem goes_start (d : Page F) : Goes (.text []) (startText d)
    [.other, .chars ['\n', '\t'], .other, .chars ['\n', '\t'], .start "svg".toList (pageAttributes d)] (.text ['\t', '\n']) := by
  have k1 : localName "width".toList = "width".toList := by simp [localName]
  have size : d.renderSize = true → Goes (.attrs "svg".toList []) (sizeText d) []
      (.valued "svg".toList [("width".toList, Num.fmt 3 d.width ++ abbreviation d.units), ("height".toList, Num.fmt 3 d.height ++ abbreviation d.units)]) := by
    intro hs
    have h1 : Goes (.attrs "svg".toList []) "width=\"".toList [] (.value "svg".toList [] "width".toList []) := by
      simp [Goes, run, step, isNameStart, isLetter, isNameChar, isBlank]
    have h2 := goes_quoted "svg".toList [] "width".toList ((hf 3 d.width).append (unmarked_abbreviation d.units))
    rw [k1] at h2
    have h3 := fun as => goes_attr "svg".toList as "height".toList _ " height=\"".toList
      (by simp [Goes, run, step, isNameStart, isLetter, isNameChar, isBlank]) (by simp [localName]) ((hf 3 d.height).append (unmarked_abbreviation d.units))
    refine Goes.cast ((h1.append h2).append (h3 _)) rfl ?_ rfl rfl
    unfold sizeText
    rw [if_pos hs]
    simp only [List.append_assoc]
    rfl
  have view : Unmarked ("0.000 0.000 ".toList ++ Num.fmt 3 d.width ++ ' ' :: Num.fmt 3 d.height) :=
    ((unmarked_of_all (by decide)).append (hf 3 d.width)).append (Unmarked.cons (unmarked_of_all (by decide)) (hf 3 d.height))
  have rest : ∀ as, Goes (.valued "svg".toList as) "\n    \txmlns=\"http://www.w3.org/2000/svg\"\n\t\txmlns:xlink=\"http://www.w3.org/1999/xlink\">\n\t".toList
      [.start "svg".toList (as ++ [("xmlns".toList, "http://www.w3.org/2000/svg".toList), ("xlink".toList, "http://www.w3.org/1999/xlink".toList)])]
      (.text ['\t', '\n']) := by
    intro as
    have h1 := goes_attr "svg".toList as "xmlns".toList "http://www.w3.org/2000/svg".toList "\n    \txmlns=\"".toList
      (by simp [Goes, run, step, isNameStart, isLetter, isNameChar, isBlank]) (by simp [localName]) (unmarked_of_all (by decide))
    have h2 : ∀ as, Goes (.valued "svg".toList as) "\n\t\txmlns:xlink=\"".toList [] (.value "svg".toList as "xmlns:xlink".toList []) := by
      intro as
      simp [Goes, run, step, isNameStart, isLetter, isNameChar, isBlank]
    have h3 := fun as => goes_quoted "svg".toList as "xmlns:xlink".toList (s := "http://www.w3.org/1999/xlink".toList) (unmarked_of_all (by decide))
    have k : localName "xmlns:xlink".toList = "xlink".toList := by simp [localName]
    rw [k] at h3
    have h4 : ∀ as, Goes (.valued "svg".toList as) ">\n\t".toList [.start "svg".toList as] (.text ['\t', '\n']) := by
      intro as
      simp [Goes, run, step, isXmlChar, localName]
    refine Goes.cast (((h1.append (h2 _)).append (h3 _)).append (h4 _)) rfl ?_ ?_ rfl
    · decide +kernel
    · simp only [List.nil_append, List.append_assoc, List.cons_append]
  have tail : ∀ m as, (m = Mode.attrs "svg".toList as ∨ m = .valued "svg".toList as) → Goes m (" viewBox=\"0.000 0.000 ".toList ++ Num.fmt 3 d.width ++ ' ' :: Num.fmt 3 d.height ++
      "\"\n    \txmlns=\"http://www.w3.org/2000/svg\"\n\t\txmlns:xlink=\"http://www.w3.org/1999/xlink\">\n\t".toList)
      [.start "svg".toList (as ++ [("viewBox".toList, "0.000 0.000 ".toList ++ Num.fmt 3 d.width ++ ' ' :: Num.fmt 3 d.height),
        ("xmlns".toList, "http://www.w3.org/2000/svg".toList), ("xlink".toList, "http://www.w3.org/1999/xlink".toList)])] (.text ['\t', '\n']) := by
    intro m as hm
    have h1 : Goes m " viewBox=\"".toList [] (.value "svg".toList as "viewBox".toList []) := by
      rcases hm with rfl | rfl <;> simp [Goes, run, step, isNameStart, isLetter, isNameChar, isBlank]
    have h2 := goes_quoted "svg".toList as "viewBox".toList view
    have k2 : localName "viewBox".toList = "viewBox".toList := by simp [localName]
    rw [k2] at h2
    refine Goes.cast ((h1.append h2).append (rest _)) rfl ?_ ?_ rfl
    · simp only [List.append_assoc]
      rfl
    · simp only [List.nil_append, List.append_assoc, List.cons_append]
  by_cases hs : d.renderSize = true
  · have h := (goes_head.append (size hs)).append (tail _ _ (.inr rfl))
    refine Goes.cast h rfl ?_ ?_ rfl
    · unfold startText
      simp only [List.append_assoc]
    · simp only [pageAttributes, if_pos hs, List.append_nil, List.cons_append, List.nil_append]
  · have h := goes_head.append (tail _ _ (.inl rfl))
    refine Goes.cast h rfl ?_ ?_ rfl
    · unfold startText sizeText
      rw [if_neg hs]
      simp only [List.append_assoc, List.nil_append]
    · simp only [pageAttributes, if_neg hs, List.cons_append, List.nil_append]

/-- The text of a sheet, as nodes. -/
def pageNodes (d : Page F) (rs : List (Renderable F (Drawing F))) : List Node :=
  [.other, .text ['\n', '\t'], .other, .text ['\n', '\t'], .el "svg".toList (pageAttributes d) (itemNodes d ['\t', '\n'] rs), .text ['\n']]

theorem read_page (d : Page F) (hc : Unmarked d.cutStyle) (hl : Unmarked d.labelStyle) (rs : List (Renderable F (Drawing F))) (hr : ∀ r ∈ rs, Writable r) :
    (writePage d rs).2 = .ok () ∧ readXml (writePage d rs).1 = some (tokensAll (pageNodes d rs)) := by
  obtain ⟨h1, h2⟩ := goes_items hf d hc hl rs hr (acc := ['\t', '\n']) (by simp)
  have e : writePage d rs = (startText d ++ (writeItems d rs).1 ++ "</svg>\n".toList, .ok ()) := by
    rw [writePage]
    split
    · next h => rw [h] at h1; cases h1
    · next h => rw [h]
  rw [e]
  refine ⟨rfl, ?_⟩
  have h := (goes_start hf d).append h2
  rw [← List.append_assoc] at h
  unfold readXml
  simp only
  rw [h]
  simp [flush, pageNodes, tokensAll, Node.tokens]

omit hf in
theorem texts_items (d : Page F) (rs : List (Renderable F (Drawing F))) : ∀ acc, trimSpace acc.reverse = [] → texts (itemNodes d acc rs) = [] := by
  induction rs with
  | nil => intro acc ha; simp [itemNodes, texts, ha]
  | cons r rs ih =>
    intro acc ha
    have := ih ['\n'] (by decide)
    simp [itemNodes, texts, ha, itemNode, this]

omit hf in
theorem elements_page (d : Page F) (rs : List (Renderable F (Drawing F))) : elementsAll (pageNodes d rs) = [pageElement d rs] := by
  have h := texts_items d rs ['\t', '\n'] (by decide)
  simp only [pageNodes, elementsAll, Node.elements, List.nil_append, List.append_nil, elements_items, h, pageElement, List.cons.injEq, Element.mk.injEq,
    and_true, true_and, List.getLast?_nil, Option.getD_none]
  unfold attributesOf pageAttributes sizeAttributes
  by_cases hs : d.renderSize = true <;> simp [hs]

omit hf in
theorem unique_items (d : Page F) (rs : List (Renderable F (Drawing F))) : ∀ acc, UniqueAll (itemNodes d acc rs) := by
  induction rs with
  | nil => intro acc; simp [itemNodes, UniqueAll, Node.Unique]
  | cons r rs ih =>
    intro acc
    refine ⟨trivial, ?_, ih _⟩
    unfold itemNode labelNodes
    by_cases ht : r.part.payload.label.text = []
    · simp [Node.Unique, UniqueAll, ht, pathNode]
    · cases hq : pointAttribute r.part.payload.label.position r.part.payload.path with
      | ok q => simp [Node.Unique, UniqueAll, ht, pathNode, labelNode]
      | err => simp [Node.Unique, UniqueAll, ht, pathNode]
      | panic => simp [Node.Unique, UniqueAll, ht, pathNode]

omit hf in
theorem unique_page (d : Page F) (rs : List (Renderable F (Drawing F))) : UniqueAll (pageNodes d rs) := by
  have h := unique_items d rs ['\t', '\n']
  have h2 : ((pageAttributes d).map Prod.fst).Nodup := by
    unfold pageAttributes
    by_cases hs : d.renderSize = true <;> simp [hs]
  simp only [pageNodes, UniqueAll, Node.Unique, h, h2, and_self]

end Sheet

end Verif.Svg
