import Verif.Spec.Xml
import Verif.NumClass

/-!
# Properties of the import of SVG files (C56, C57)
-/

set_option linter.unusedSectionVars false
set_option linter.unusedSimpArgs false

namespace Verif.Xml

open Verif.Dyn Verif.Path

universe u

variable {F : Type u}

/-! ## C56 Decoding -/

theorem decode_succ (fuel : Nat) : ∀ (e : Element F) (toks : List Tok) r, decode fuel e toks = some r → decode (fuel + 1) e toks = some r := by
  induction fuel with
  | zero => intro e toks r h; simp [decode] at h
  | succ fuel ih =>
    intro e toks r h
    obtain ⟨name, attributes, children, content⟩ := e
    cases toks with
    | nil => simpa [decode] using h
    | cons t rest =>
      cases t with
      | bad => simpa [decode] using h
      | other => rw [decode] at h ⊢; exact ih _ _ _ h
      | chars t => rw [decode] at h ⊢; exact ih _ _ _ h
      | stop n =>
        rw [decode] at h ⊢
        split
        · rename_i hn; simpa [hn] using h
        · rename_i hn; rw [if_neg hn] at h; exact ih _ _ _ h
      | start n as =>
        rw [decode] at h ⊢
        cases hd : decode fuel (newElement n as) rest with
        | none => rw [hd] at h; cases h
        | some q =>
          rw [ih _ _ _ hd]
          rw [hd] at h
          cases q with
          | err => exact h
          | panic => exact h
          | ok q => exact ih _ _ _ h

theorem decode_mono {fuel fuel' : Nat} (hf : fuel ≤ fuel') {e : Element F} {toks : List Tok} {r} (h : decode fuel e toks = some r) :
    decode fuel' e toks = some r := by
  induction hf with
  | refl => exact h
  | step _ ih => exact decode_succ _ _ _ _ ih

/-- **C56.** Decoding always ends: `toks.length + 1` rounds are enough. -/
theorem C56_ends (fuel : Nat) : ∀ (e : Element F) (toks : List Tok), toks.length < fuel →
    ∃ r, decode fuel e toks = some r ∧ ∀ e' rest, r = .ok (e', rest) → rest.length ≤ toks.length := by
  induction fuel with
  | zero => intro e toks h; omega
  | succ fuel ih =>
    intro e toks h
    obtain ⟨name, attributes, children, content⟩ := e
    cases toks with
    | nil => exact ⟨_, rfl, by intro e' rest hr; cases hr; simp⟩
    | cons t rest =>
      have hl : rest.length < fuel := by simpa using h
      cases t with
      | bad => exact ⟨_, rfl, by intro e' rest hr; cases hr⟩
      | other =>
        rw [decode]
        obtain ⟨r, h1, h2⟩ := ih (.mk name attributes children content) rest hl
        exact ⟨r, h1, fun e' rs hr => by have := h2 e' rs hr; simp; omega⟩
      | chars t =>
        rw [decode]
        obtain ⟨r, h1, h2⟩ := ih (.mk name attributes children (if trimSpace t = [] then content else t)) rest hl
        exact ⟨r, h1, fun e' rs hr => by have := h2 e' rs hr; simp; omega⟩
      | stop n =>
        rw [decode]
        split
        · exact ⟨_, rfl, by intro e' rs hr; cases hr; simp⟩
        · obtain ⟨r, h1, h2⟩ := ih (.mk name attributes children content) rest hl
          exact ⟨r, h1, fun e' rs hr => by have := h2 e' rs hr; simp; omega⟩
      | start n as =>
        rw [decode]
        obtain ⟨r, h1, h2⟩ := ih (newElement n as) rest hl
        rw [h1]
        cases r with
        | err => exact ⟨_, rfl, by intro e' rs hr; cases hr⟩
        | panic => exact ⟨_, rfl, by intro e' rs hr; cases hr⟩
        | ok q =>
          obtain ⟨c, rs⟩ := q
          have hrs := h2 c rs rfl
          obtain ⟨r', h3, h4⟩ := ih (.mk name attributes (children ++ [c]) content) rs (by omega)
          exact ⟨r', h3, fun e' rt hr => by have := h4 e' rt hr; simp; omega⟩

theorem putKey_fresh (m : DMap F) (k : Text) (v : Val F) (h : k ∉ m.map Prod.fst) : putKey m k v = m ++ [(k, v)] := by
  unfold putKey
  induction m with
  | nil => rfl
  | cons a m ih =>
    obtain ⟨k', v'⟩ := a
    simp only [List.map_cons, List.mem_cons, not_or] at h
    rw [put, if_neg (Ne.symm h.1), ih h.2]
    rfl

theorem newAttributes_unique (attrs : List (Text × Text)) (h : (attrs.map Prod.fst).Nodup) :
    newAttributes attrs = (attributesOf attrs : DMap F) := by
  have key : ∀ (as : List (Text × Text)) (m : DMap F), (as.map Prod.fst).Nodup → (∀ k ∈ as.map Prod.fst, k ∉ m.map Prod.fst) →
      as.foldl (fun m a => putKey m a.1 (.str a.2)) m = m ++ attributesOf as := by
    intro as
    induction as with
    | nil => intro m _ _; simp [attributesOf]
    | cons a as ih =>
      intro m hn hm
      simp only [List.map_cons, List.nodup_cons] at hn
      rw [List.foldl_cons, putKey_fresh m a.1 _ (hm a.1 (by simp)), ih _ hn.2]
      · simp [attributesOf]
      · intro k hk hkm
        simp only [List.map_append, List.map_cons, List.map_nil, List.mem_append, List.mem_singleton] at hkm
        rcases hkm with hkm | rfl
        · exact hm k (by simp [hk]) hkm
        · exact hn.1 hk
  have := key attrs [] h (by simp)
  simpa [newAttributes] using this

/-- What decoding gives, with any fuel that is enough. -/
def Decodes (e : Element F) (toks : List Tok) (r : Res (Element F × List Tok)) : Prop := ∃ fuel, decode fuel e toks = some r

theorem Decodes.unique {e : Element F} {toks : List Tok} {r r'} (h : Decodes e toks r) (h' : Decodes e toks r') : r = r' := by
  obtain ⟨n, h⟩ := h
  obtain ⟨m, h'⟩ := h'
  have h1 := decode_mono (Nat.le_max_left n m) h
  have h2 := decode_mono (Nat.le_max_right n m) h'
  rw [h1] at h2
  exact Option.some.inj h2

/-- The text an element has after the nodes `ns`, if it had `content` before. -/
def contentAfter (content : Text) (ns : List Node) : Text := (texts ns).getLast?.getD content

mutual

theorem decode_node : ∀ (n : Node), n.Unique → ∀ (name : Text) (attributes : DMap F) (children : List (Element F)) (content : Text)
    (rest : List Tok) (r), Decodes (.mk name attributes (children ++ n.elements) (contentAfter content [n])) rest r →
    Decodes (.mk name attributes children content) (n.tokens ++ rest) r
  | .text t, _, name, attributes, children, content, rest, r, h => by
    obtain ⟨fuel, h⟩ := h
    refine ⟨fuel + 1, ?_⟩
    simp only [Node.tokens, List.cons_append, List.nil_append]
    rw [decode]
    simp only [Node.elements, List.append_nil] at h
    have hc : contentAfter content [.text t] = if trimSpace t = [] then content else t := by
      simp only [contentAfter, texts]; split <;> simp
    rwa [hc] at h
  | .other, _, name, attributes, children, content, rest, r, h => by
    obtain ⟨fuel, h⟩ := h
    refine ⟨fuel + 1, ?_⟩
    simp only [Node.tokens, List.cons_append, List.nil_append]
    rw [decode]
    simpa [Node.elements, contentAfter, texts] using h
  | .el n as inside, hu, name, attributes, children, content, rest, r, h => by
    rw [Node.Unique] at hu
    have hin : Decodes (newElement n as : Element F) (tokensAll inside ++ (.stop n :: rest))
        (.ok (.mk n (attributesOf as) (elementsAll inside) ((texts inside).getLast?.getD []), rest)) := by
      unfold newElement
      rw [newAttributes_unique as hu.1]
      refine decode_all inside hu.2 n (attributesOf as) [] [] (.stop n :: rest) _ ⟨1, ?_⟩
      rw [decode, if_pos rfl]
      simp [contentAfter]
    obtain ⟨f1, h1⟩ := hin
    obtain ⟨f2, h2⟩ := h
    refine ⟨max f1 f2 + 1, ?_⟩
    have ht : (Node.el n as inside).tokens ++ rest = .start n as :: (tokensAll inside ++ (.stop n :: rest)) := by
      simp [Node.tokens]
    rw [ht, decode, decode_mono (Nat.le_max_left f1 f2) h1]
    have hc : contentAfter content [.el n as inside] = content := by simp [contentAfter, texts]
    rw [hc, Node.elements] at h2
    exact decode_mono (Nat.le_max_right f1 f2) h2

theorem decode_all : ∀ (ns : List Node), UniqueAll ns → ∀ (name : Text) (attributes : DMap F) (children : List (Element F)) (content : Text)
    (rest : List Tok) (r), Decodes (.mk name attributes (children ++ elementsAll ns) (contentAfter content ns)) rest r →
    Decodes (.mk name attributes children content) (tokensAll ns ++ rest) r
  | [], _, name, attributes, children, content, rest, r, h => by
    simpa [tokensAll, elementsAll, contentAfter, texts] using h
  | n :: ns, hu, name, attributes, children, content, rest, r, h => by
    rw [UniqueAll] at hu
    rw [tokensAll, List.append_assoc]
    refine decode_node n hu.1 name attributes children content _ r ?_
    refine decode_all ns hu.2 name attributes _ _ rest r ?_
    rw [elementsAll, ← List.append_assoc] at h
    have hc : contentAfter (contentAfter content [n]) ns = contentAfter content (n :: ns) := by
      cases n with
      | text t =>
        simp only [contentAfter, texts]
        split
        · simp
        · simp [List.getLast?_cons]
      | other => simp [contentAfter, texts]
      | el _ _ _ => simp [contentAfter, texts]
    rw [hc]
    exact h

end

/-- **C56.** Decoding the tokens of an element gives that element with all its attributes and children in order, and leaves the tokens after
it. Its text is the last one that is not only white space. -/
theorem C56_decode (name : Text) (attrs : List (Text × Text)) (inside : List Node) (rest : List Tok) (hu : (Node.el name attrs inside).Unique) :
    let toks := tokensAll inside ++ (.stop name :: rest)
    decode (toks.length + 1) (newElement name attrs : Element F) toks =
      some (.ok (.mk name (attributesOf attrs) (elementsAll inside) ((texts inside).getLast?.getD []), rest)) := by
  intro toks
  rw [Node.Unique] at hu
  obtain ⟨r, h1, _⟩ := C56_ends (toks.length + 1) (newElement name attrs : Element F) toks (by omega)
  have h2 : Decodes (newElement name attrs : Element F) toks
      (.ok (.mk name (attributesOf attrs) (elementsAll inside) ((texts inside).getLast?.getD []), rest)) := by
    unfold newElement
    rw [newAttributes_unique attrs hu.1]
    refine decode_all inside hu.2 name (attributesOf attrs) [] [] (.stop name :: rest) _ ⟨1, ?_⟩
    rw [decode, if_pos rfl]
    simp [contentAfter]
  rw [h1, Decodes.unique ⟨_, h1⟩ h2]

/-- **C56.** Parsing a file (comments, directives and white space, then an element, then anything) gives the element. -/
theorem C56_parse (before : List Tok) (hb : ∀ t ∈ before, (∃ s, t = .chars s) ∨ t = .other) (name : Text) (attrs : List (Text × Text))
    (inside : List Node) (rest : List Tok) (hu : (Node.el name attrs inside).Unique) :
    parse (before ++ (Node.el name attrs inside).tokens ++ rest) =
      .ok (.mk name (attributesOf attrs) (elementsAll inside) ((texts inside).getLast?.getD []) : Element F) := by
  have ht : before ++ (Node.el name attrs inside).tokens ++ rest =
      before ++ (.start name attrs :: (tokensAll inside ++ (.stop name :: rest))) := by simp [Node.tokens]
  have hfirst : decodeFirst (before ++ (.start name attrs :: (tokensAll inside ++ (.stop name :: rest)))) =
      .ok ((newElement name attrs : Element F), tokensAll inside ++ (.stop name :: rest)) := by
    clear ht
    induction before with
    | nil => rfl
    | cons t b ih =>
      have := ih (fun t ht => hb t (by simp [ht]))
      rcases hb t (by simp) with ⟨s, rfl⟩ | rfl
      · exact this
      · exact this
  rw [ht]
  unfold parse
  rw [hfirst]
  have := C56_decode (F := F) name attrs inside rest hu
  simp only at this ⊢
  rw [this]

mutual

theorem whole_node : ∀ n : Node, n.OneText → (n.elements : List (Element F)) = n.whole
  | .text _, _ => rfl
  | .other, _ => rfl
  | .el name attrs inside, h => by
    rw [Node.OneText] at h
    rw [Node.elements, Node.whole, whole_all inside h.2]
    congr 2
    rcases ht : texts inside with _ | ⟨a, _ | ⟨b, l⟩⟩
    · rfl
    · simp
    · rw [ht] at h; simp at h

theorem whole_all : ∀ ns : List Node, OneTextAll ns → (elementsAll ns : List (Element F)) = wholeAll ns
  | [], _ => rfl
  | n :: ns, h => by
    rw [OneTextAll] at h
    rw [elementsAll, wholeAll, whole_node n h.1, whole_all ns h.2]

end

/-- The full statement of C56: a file is read as the element written in it, with all its text. -/
def C56_statement (F : Type u) (n : Node) : Prop := ∀ e : Element F, n.whole = [e] → parse n.tokens = .ok e

/-- **C56** for elements with at most one text each. (Missing: elements with several texts, for which it fails.) -/
theorem C56_whole_partial (n : Node) (hu : n.Unique) (h1 : n.OneText) : C56_statement F n := by
  intro e he
  cases n with
  | text t => simp [Node.whole] at he
  | other => simp [Node.whole] at he
  | el name attrs inside =>
    have := C56_parse (F := F) [] (by simp) name attrs inside [] hu
    simp only [List.nil_append, List.append_nil] at this
    rw [this]
    rw [← whole_node _ h1, Node.elements] at he
    simpa using he

/-- **C56** fails for an element with two texts: the first is lost (`<a>x<b/>y</a>` is read as `<a><b/>y</a>`). -/
theorem C56_text_false :
    let n : Node := .el ['a'] [] [.text ['x'], .el ['b'] [] [], .text ['y']]
    n.Unique ∧ parse n.tokens = .ok (.mk ['a'] [] [.mk ['b'] [] [] []] ['y'] : Element F) ∧
    ¬ C56_statement F n := by
  intro n
  have hp : parse n.tokens = .ok (.mk ['a'] [] [.mk ['b'] [] [] []] ['y'] : Element F) := by rfl
  refine ⟨by simp [n, Node.Unique, UniqueAll], hp, ?_⟩
  intro h
  have := h (.mk ['a'] [] [.mk ['b'] [] [] []] ['x', 'y']) rfl
  rw [hp] at this
  simp at this

/-- **C56.** A file that is no XML makes the import panic, as `ParseSVG` drops the error of `Parse`. -/
theorem C56_error_false [Trig F] : parseSVG (F := F) [.bad] = .panic ∧ (∀ toks, parse (F := F) toks = .err → parseSVG (F := F) toks = .panic) := by
  refine ⟨rfl, ?_⟩
  intro toks h
  simp [parseSVG, h]

/-- An element with an attribute, a child and a text. -/
example : parse ([.other, .start ['s'] [(['k'], ['v'])], .chars ['\n'], .start ['g'] [], .chars ['h', 'i'], .stop ['g'], .chars [' '], .stop ['s']]) =
    .ok (.mk ['s'] [(['k'], .str ['v'])] [.mk ['g'] [] [] ['h', 'i']] [] : Element F) := rfl

/-! ## C57 Transforms of SVG -/

section Shapes

variable [Trig F]

theorem transformLoop_none (ts : List Text) (p : Path F) : transformLoop ts p = .ok p := by
  induction ts with
  | nil => rfl
  | cons t ts ih =>
    have : submatches ['t'] = [] := by decide
    rw [transformLoop, this]
    exact ih

/-- **C57** fails: the path of an element is the path it has without its transform, whatever the transform is. -/
theorem C57_ignored_false (attrs : DMap F) (p : Path F) : applyTransforms attrs p = .ok p := by
  unfold applyTransforms
  simp only
  split
  · rfl
  · exact transformLoop_none _ p

/-- **C57.** So the path of an element is the path of its shape, or its children's paths joined. -/
theorem C57_path (name : Text) (attrs : DMap F) (children : List (Element F)) (content : Text) :
    elementToPath (.mk name attrs children content) = shape name attrs (childPaths children) := by
  rw [elementToPath]
  cases shape name attrs (childPaths children) with
  | ok p => exact C57_ignored_false attrs p
  | err => rfl
  | panic => rfl

/-- The full statement of C57 for a single matrix: the matrix is applied to the path of the shape. -/
def C57_statement (name : Text) (attrs : DMap F) (children : List (Element F)) (content : Text) : Prop :=
  ∀ p t args a b c d e f, shape name attrs (childPaths children) = .ok p →
    getText attrs ['t', 'r', 'a', 'n', 's', 'f', 'o', 'r', 'm'] = t ++ [')'] →
    submatches t = [(['m', 'a', 't', 'r', 'i', 'x'], args)] → inputs (splitOn ',' args []) = some [a, b, c, d, e, f] →
    elementToPath (.mk name attrs children content) = .ok (matrixTransform a b c d e f p)

/-- An element has the path of its shape. -/
theorem elementToPath_shape (name : Text) (attrs : DMap F) (children : List (Element F)) (content : Text) (p : Path F)
    (h : shape name attrs (childPaths children) = .ok p) : elementToPath (.mk name attrs children content) = .ok p := by
  rw [C57_path, h]

end Shapes

/-- A line from the origin to (1, 0), moved by (5, 0). -/
def movedLine : DMap ℝ :=
  [(['x', '1'], .str ['0']), (['y', '1'], .str ['0']), (['x', '2'], .str ['1']), (['y', '2'], .str ['0']),
   (['t', 'r', 'a', 'n', 's', 'f', 'o', 'r', 'm'],
    .str ['m', 'a', 't', 'r', 'i', 'x', '(', '1', ',', '0', ',', '0', ',', '1', ',', '5', ',', '0', ')'])]

theorem toFloat_digit (c : Char) (n : Nat) (h : Decimal.parseDecimal [c] = some (false, n, 0)) (hs : trimSpace [c] = [c]) :
    (toFloat [c] : Option ℝ) = some (n : ℝ) := by
  unfold toFloat
  rw [hs]
  show (Decimal.parseDecimal [c]).map Decimal.value = _
  rw [h]
  simp [Decimal.value]

theorem toFloat_zero : (toFloat ['0'] : Option ℝ) = some 0 := by
  have := toFloat_digit '0' 0 (by decide) (by decide); simpa using this
theorem toFloat_one : (toFloat ['1'] : Option ℝ) = some 1 := by
  have := toFloat_digit '1' 1 (by decide) (by decide); simpa using this
theorem toFloat_five : (toFloat ['5'] : Option ℝ) = some 5 := by
  have := toFloat_digit '5' 5 (by decide) (by decide); simpa using this

/-- **C57** fails for a line with a matrix: it is imported from (0, 0) to (1, 0), not from (5, 0) to (6, 0). -/
theorem C57_matrix_false :
    elementToPath (.mk ['l', 'i', 'n', 'e'] movedLine [] []) = .ok (lineTo (moveTo [] (newPoint 0 0)) (newPoint 1 0)) ∧
    ¬ C57_statement ['l', 'i', 'n', 'e'] movedLine [] [] := by
  have hs : shape ['l', 'i', 'n', 'e'] movedLine (childPaths []) = .ok (lineTo (moveTo [] (newPoint 0 0)) (newPoint 1 0)) := by
    have h1 : getFloat movedLine ['x', '1'] = some 0 := toFloat_zero
    have h2 : getFloat movedLine ['y', '1'] = some 0 := toFloat_zero
    have h3 : getFloat movedLine ['x', '2'] = some 1 := toFloat_one
    have h4 : getFloat movedLine ['y', '2'] = some 0 := toFloat_zero
    simp [shape, h1, h2, h3, h4]
  refine ⟨elementToPath_shape _ _ _ _ _ hs, ?_⟩
  intro h
  have := h _ ['m', 'a', 't', 'r', 'i', 'x', '(', '1', ',', '0', ',', '0', ',', '1', ',', '5', ',', '0']
    ['1', ',', '0', ',', '0', ',', '1', ',', '5', ',', '0'] 1 0 0 1 5 0 hs rfl (by decide) (by
      have : splitOn ',' ['1', ',', '0', ',', '0', ',', '1', ',', '5', ',', '0'] [] = [['1'], ['0'], ['0'], ['1'], ['5'], ['0']] := by decide
      rw [this]
      simp [inputs, toFloat_zero, toFloat_one, toFloat_five])
  rw [elementToPath_shape _ _ _ _ _ hs] at this
  have := congrArg (fun r : Res (Path ℝ) => match r with | .ok p => (p.getLast?.map Segment.stop).map Point.x | _ => none) this
  simp [matrixTransform, mapPath, moveTo, lineTo, newPath, headMove, fixHeadMove, Segment.mapPoints, Segment.isMove, Segment.stop, newPoint,
    currentPosition, origin] at this
  norm_num [Arith.add, Arith.mul, Arith.lit] at this

end Verif.Xml
