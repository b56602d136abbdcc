import Verif.Model.SvgDoc
import Verif.Spec.Xml
import Verif.Spec.PlanSet

/-!
# What the text of a sheet should say

A reader of XML, which goes through a text character by character, a reader of the SVG attribute `transform`, and the elements a sheet stands for.
-/

namespace Verif.Svg

open Verif Verif.Path Verif.PlanSet Verif.Files Verif.Xml Verif.Dyn

universe u

/-! ## Reading XML -/

/-- Where in a file the reader is: in a text, after `<`, in a `<?…?>`, after `<!` and `<!-`, in a comment (with the number of dashes just read), in an
end tag, in the name of a start tag, between attributes, in the name of an attribute, before its value, in its value, after the slash of an empty
element, and in a reference like `&lt;` in a text or in a value. Everything already read is turned round. -/
inductive Mode where
  | text (acc : Text)
  | open
  | instruction (mark : Bool)
  | bang
  | bangDash
  | comment (dashes : Nat)
  | close (acc : Text)
  | closed (name : Text)
  | name (acc : Text)
  | attrs (name : Text) (as : List (Text × Text))
  | attrName (name : Text) (as : List (Text × Text)) (acc : Text)
  | equals (name : Text) (as : List (Text × Text)) (key : Text)
  | value (name : Text) (as : List (Text × Text)) (key acc : Text)
  | valued (name : Text) (as : List (Text × Text))
  | slash (name : Text) (as : List (Text × Text))
  | reference (acc ref : Text)
  | valueReference (name : Text) (as : List (Text × Text)) (key acc ref : Text)

/-- White space of XML; a carriage return is not read. -/
def isBlank (c : Char) : Bool := c = ' ' || c = '\t' || c = '\n'

/-- A character that XML allows, except the carriage return. -/
def isXmlChar (c : Char) : Bool :=
  c = '\t' || c = '\n' || (decide (32 ≤ c.toNat) && decide (c.toNat ≠ 0xFFFE) && decide (c.toNat ≠ 0xFFFF))

/-- Letters. -/
def isLetter (c : Char) : Bool := (decide ('a' ≤ c) && decide (c ≤ 'z')) || (decide ('A' ≤ c) && decide (c ≤ 'Z'))

/-- The first character of a name. -/
def isNameStart (c : Char) : Bool := isLetter c || c = '_' || c = ':'

/-- A character of a name. -/
def isNameChar (c : Char) : Bool := isNameStart c || c = '-' || c = '.' || (decide ('0' ≤ c) && decide (c ≤ '9'))

/-- The name without its prefix. -/
def localName (s : Text) : Text := if ':' ∈ s then (s.dropWhile fun c => decide (c ≠ ':')).tail else s

/-- What a reference stands for. -/
def referred (s : Text) : Option Char :=
  if s = "lt".toList then some '<' else if s = "gt".toList then some '>' else if s = "amp".toList then some '&'
  else if s = "quot".toList then some '"' else if s = "apos".toList then some '\'' else none

/-- A text that has been read. -/
def flush (acc : Text) : List Tok := if acc = [] then [] else [.chars acc.reverse]

/-- The text ends with `]]`, which must not be followed by `>`. -/
def endsSection : Text → Bool
  | ']' :: ']' :: _ => true
  | _ => false

/-- One character: what has been read with it, and where the reader is now. `none`: this is not XML. -/
def step : Mode → Char → Option (List Tok × Mode)
  | .text acc, c =>
    if c = '<' then some (flush acc, .open)
    else if c = '&' then some ([], .reference acc [])
    else if c = '>' ∧ endsSection acc then none
    else if isXmlChar c then some ([], .text (c :: acc))
    else none
  | .open, c =>
    if c = '?' then some ([], .instruction false)
    else if c = '!' then some ([], .bang)
    else if c = '/' then some ([], .close [])
    else if isNameStart c then some ([], .name [c])
    else none
  | .instruction mark, c =>
    if c = '>' ∧ mark then some ([.other], .text []) else if isXmlChar c then some ([], .instruction (c = '?')) else none
  | .bang, c => if c = '-' then some ([], .bangDash) else none
  | .bangDash, c => if c = '-' then some ([], .comment 0) else none
  | .comment dashes, c =>
    if dashes = 2 then (if c = '>' then some ([.other], .text []) else none)
    else if c = '-' then some ([], .comment (dashes + 1))
    else if isXmlChar c then some ([], .comment 0)
    else none
  | .close acc, c =>
    if c = '>' then (if acc = [] then none else some ([.stop (localName acc.reverse)], .text []))
    else if isBlank c then (if acc = [] then none else some ([], .closed acc.reverse))
    else if isNameChar c then some ([], .close (c :: acc))
    else none
  | .closed name, c =>
    if c = '>' then some ([.stop (localName name)], .text []) else if isBlank c then some ([], .closed name) else none
  | .name acc, c =>
    if c = '>' then some ([.start (localName acc.reverse) []], .text [])
    else if c = '/' then some ([], .slash acc.reverse [])
    else if isBlank c then some ([], .attrs acc.reverse [])
    else if isNameChar c then some ([], .name (c :: acc))
    else none
  | .attrs name as, c =>
    if c = '>' then some ([.start (localName name) as], .text [])
    else if c = '/' then some ([], .slash name as)
    else if isBlank c then some ([], .attrs name as)
    else if isNameStart c then some ([], .attrName name as [c])
    else none
  | .attrName name as acc, c =>
    if c = '=' then some ([], .equals name as acc.reverse) else if isNameChar c then some ([], .attrName name as (c :: acc)) else none
  | .equals name as key, c => if c = '"' then some ([], .value name as key []) else none
  | .value name as key acc, c =>
    if c = '"' then some ([], .valued name (as ++ [(localName key, acc.reverse)]))
    else if c = '<' then none
    else if c = '&' then some ([], .valueReference name as key acc [])
    else if isXmlChar c then some ([], .value name as key (c :: acc))
    else none
  | .valued name as, c =>
    if c = '>' then some ([.start (localName name) as], .text [])
    else if c = '/' then some ([], .slash name as)
    else if isBlank c then some ([], .attrs name as)
    else none
  | .slash name as, c => if c = '>' then some ([.start (localName name) as, .stop (localName name)], .text []) else none
  | .reference acc ref, c =>
    if c = ';' then (referred ref.reverse).map fun d => ([], .text (d :: acc))
    else if isLetter c then some ([], .reference acc (c :: ref))
    else none
  | .valueReference name as key acc ref, c =>
    if c = ';' then (referred ref.reverse).map fun d => ([], .value name as key (d :: acc))
    else if isLetter c then some ([], .valueReference name as key acc (c :: ref))
    else none

/-- Reading a text from somewhere. -/
def run : Mode → Text → Option (List Tok × Mode)
  | m, [] => some ([], m)
  | m, c :: s =>
    match step m c with
    | none => none
    | some (toks, m') => (run m' s).map fun r => (toks ++ r.1, r.2)

/-- Reading a whole file: the tokens, if it is made of tags and texts. -/
def readXml (s : Text) : Option (List Tok) :=
  match run (.text []) s with
  | some (toks, .text acc) => some (toks ++ flush acc)
  | _ => none

/-- The file is XML, and its elements are `es`: the tags are balanced, and no attribute is given twice. -/
def Says {F : Type u} (s : Text) (es : List (Element F)) : Prop :=
  ∃ ns : List Node, readXml s = some (tokensAll ns) ∧ elementsAll ns = es ∧ UniqueAll ns

/-! ## The elements of a sheet -/

section Elements

variable {F : Type u} [Trig F]

/-- The label of a part. -/
def labelElement (d : Page F) (q : Point F) (t : Text) : Element F :=
  .mk "text".toList [("x".toList, .str (Num.fmt 3 q.x)), ("y".toList, .str (Num.fmt 3 q.y)), ("style".toList, .str d.labelStyle)] []
    (if trimSpace t = [] then [] else t)

/-- A part: a group with the place of the part, its path, and its label if it has one. -/
def itemElement (d : Page F) (r : Renderable F (Drawing F)) : Element F :=
  let a := r.part.payload
  .mk "g".toList [("transform".toList, .str (joinSpace (r.transforms.map transformText)))]
    (.mk "path".toList [("id".toList, .str a.id), ("d".toList, .str (printPath d.precision a.path)), ("style".toList, .str d.cutStyle)] [] [] ::
      if a.label.text = [] then []
      else
        match pointAttribute a.label.position a.path with
        | .ok q => [labelElement d q a.label.text]
        | _ => []) []

/-- The size of a sheet. -/
def sizeAttributes (d : Page F) : DMap F :=
  if d.renderSize then
    [("width".toList, .str (Num.fmt 3 d.width ++ abbreviation d.units)), ("height".toList, .str (Num.fmt 3 d.height ++ abbreviation d.units))]
  else []

/-- A sheet: its size and its parts. -/
def pageElement (d : Page F) (rs : List (Renderable F (Drawing F))) : Element F :=
  .mk "svg".toList
    (sizeAttributes d ++ [("viewBox".toList, .str ("0.000 0.000 ".toList ++ Num.fmt 3 d.width ++ ' ' :: Num.fmt 3 d.height)),
      ("xmlns".toList, .str "http://www.w3.org/2000/svg".toList), ("xlink".toList, .str "http://www.w3.org/1999/xlink".toList)])
    (rs.map (itemElement d)) []

end Elements

/-- A text without characters that mean something in XML or are not allowed there. -/
def Unmarked (s : Text) : Prop := ∀ c ∈ s, isXmlChar c = true ∧ c ≠ '<' ∧ c ≠ '>' ∧ c ≠ '&' ∧ c ≠ '"'

/-- The texts of a part are without markup, and its label, if it has one, has a place. -/
def Writable {F : Type u} [Trig F] (r : Renderable F (Drawing F)) : Prop :=
  let a := r.part.payload
  Unmarked a.id ∧ Unmarked a.label.text ∧ (a.label.text ≠ [] → ∃ q, pointAttribute a.label.position a.path = .ok q)

/-! ## Reading transforms -/

/-- Blanks, commas and parentheses separate the words of a transform. -/
def isSeparator (c : Char) : Bool := c = ' ' || c = ',' || c = '(' || c = ')'

/-- The words of a text. -/
def transformWords (s : Text) : List Text := (s.splitOnP isSeparator).filter fun w => decide (w ≠ [])

/-- The transforms that the words spell. -/
inductive SpellsTransforms {F : Type u} [Trig F] : List Text → List (SvgTransform F) → Prop where
  | nil : SpellsTransforms [] []
  | translate {a b : Text} {x y : F} {rest ts} : toFloat a = some x → toFloat b = some y → SpellsTransforms rest ts →
      SpellsTransforms ("translate".toList :: a :: b :: rest) (.translate x y :: ts)
  | rotate90 {a b c : Text} {x y : F} {rest ts} : toFloat c = some (Arith.lit 90 0 : F) → toFloat a = some x → toFloat b = some y →
      SpellsTransforms rest ts → SpellsTransforms ("rotate".toList :: c :: a :: b :: rest) (.rotate90 x y :: ts)

end Verif.Svg
