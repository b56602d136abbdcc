import Verif.Model.Params
import Verif.Model.Draw
import Verif.Model.PathText
import Verif.Model.Transforms

/-!
# Model of the import of SVG files

parser/svgparser.go. The tokens come from the library encoding/xml; they are a list here, which ends where the library reports `io.EOF`;
any other error of the library is the token `bad`. The log and the printing are not modelled.
-/

namespace Verif.Xml

open Verif.Dyn Verif.Path

universe u

variable {F : Type u}

/-- The tokens of encoding/xml, with the local names only. -/
inductive Tok where
  | start (name : Text) (attrs : List (Text × Text))
  | chars (t : Text)
  | stop (name : Text)
  | other
  | bad

/-- parser/svgparser.go:38-43 (`Element`). -/
inductive Element (F : Type u) where
  | mk (name : Text) (attributes : DMap F) (children : List (Element F)) (content : Text)

/-- parser/svgparser.go:237-246 (`NewElement`): the attributes. -/
def newAttributes (attrs : List (Text × Text)) : DMap F := attrs.foldl (fun m a => putKey m a.1 (.str a.2)) []

/-- parser/svgparser.go:237-246 (`NewElement`). -/
def newElement (name : Text) (attrs : List (Text × Text)) : Element F := .mk name (newAttributes attrs) [] []

/-- parser/svgparser.go:272-289 (`DecodeFirst`): the element, and the tokens after it. At the end of the file it is an element without a name. -/
def decodeFirst : List Tok → Res (Element F × List Tok)
  | [] => .ok (.mk [] [] [] [], [])
  | .bad :: _ => .err
  | .start name attrs :: rest => .ok (newElement name attrs, rest)
  | _ :: rest => decodeFirst rest

/-- parser/svgparser.go:292-326 (`Decode`): the element with its children, and the tokens after it. `none`: not enough fuel. -/
def decode : Nat → Element F → List Tok → Option (Res (Element F × List Tok))
  | 0, _, _ => none
  | _ + 1, e, [] => some (.ok (e, []))
  | _ + 1, _, .bad :: _ => some .err
  | fuel + 1, .mk name attributes children content, .start n as :: rest =>
    match decode fuel (newElement n as) rest with
    | none => none
    | some .err => some .err
    | some .panic => some .panic
    | some (.ok (c, rest)) => decode fuel (.mk name attributes (children ++ [c]) content) rest
  | fuel + 1, .mk name attributes children content, .chars t :: rest =>
    decode fuel (.mk name attributes children (if trimSpace t = [] then content else t)) rest
  | fuel + 1, .mk name attributes children content, .stop n :: rest =>
    if n = name then some (.ok (.mk name attributes children content, rest))
    else decode fuel (.mk name attributes children content) rest
  | fuel + 1, e, .other :: rest => decode fuel e rest

/-- parser/svgparser.go:329-344 (`Parse`). -/
def parse (toks : List Tok) : Res (Element F) :=
  match decodeFirst toks with
  | .err => .err
  | .panic => .panic
  | .ok (e, rest) =>
    match decode (rest.length + 1) e rest with
    | some (.ok (e, _)) => .ok e
    | some .panic => .panic
    | _ => .err

/-- `strings.Split(s, ") ")`. -/
def splitClose : Text → Text → List Text
  | [], acc => [acc.reverse]
  | [c], acc => [(c :: acc).reverse]
  | c :: d :: rest, acc => if c = ')' ∧ d = ' ' then acc.reverse :: splitClose rest [] else splitClose (d :: rest) (c :: acc)

/-- A character of the class `\s` of a regular expression. -/
def isReSpace (c : Char) : Bool := c = ' ' ∨ c = '\t' ∨ c = '\n' ∨ c = '\r' ∨ c.toNat = 12

/-- A character of the class `[0-9,\s]`. -/
def isArg (c : Char) : Bool := (decide ('0' ≤ c) && decide (c ≤ '9')) || c = ',' || isReSpace c

/-- A character of the class `[a-z]`. -/
def isLower (c : Char) : Bool := decide ('a' ≤ c) && decide (c ≤ 'z')

/-- parser/svgparser.go:61, 64 (`([a-z]+)\s*\(([0-9,\s]+)$`): the name and the arguments. As the arguments reach to the end of the text and
contain no parenthesis there is at most one match: at the last parenthesis. -/
def submatches (s : Text) : List (Text × Text) :=
  let r := s.reverse
  let args := (r.takeWhile fun c => decide (c ≠ '(')).reverse
  let before := (r.dropWhile fun c => decide (c ≠ '(')).tail
  let name := ((before.dropWhile isReSpace).takeWhile isLower).reverse
  if '(' ∈ s ∧ args ≠ [] ∧ args.all isArg = true ∧ name ≠ [] then [(name, args)] else []

section Shapes

variable [Trig F]

/-- `GetFloat64` of an attribute (dynmap/dynmap.go:355-365). -/
def getFloat (attrs : DMap F) (key : Text) : Option F := (get attrs key).bind toFloat64

/-- `MustString(key, "")` for attributes, which are texts (dynmap/dynmap.go:332-341). -/
def getText (attrs : DMap F) (key : Text) : Text :=
  match get attrs key with
  | some (.str s) => s
  | _ => []

/-- All of a list of numbers, or an error (parser/svgparser.go:74-81). -/
def inputs : List Text → Option (List F)
  | [] => some []
  | a :: rest =>
    match toFloat a with
    | none => none
    | some v => (inputs rest).map (v :: ·)

/-- parser/svgparser.go:84-122: what a matched transform does; `none` goes on to the next one. -/
def applyTransform (name : Text) (ins : List F) (p : Path F) : Option (Res (Path F)) :=
  if name = ['m', 'a', 't', 'r', 'i', 'x'] then
    match ins with
    | a :: b :: c :: d :: e :: f :: _ => some (.ok (matrixTransform a b c d e f p))
    | _ => some .err
  else if name = ['s', 'c', 'a', 'l', 'e'] then
    if ins.length < 1 then some .err else some (.ok p)
  else if name = ['r', 'o', 't', 'a', 't', 'e'] ∨ name = ['s', 'c', 'e', 'w', 'X'] ∨ name = ['s', 'c', 'e', 'w', 'Y'] then
    if ins.length ≠ 1 then some .err else some (.ok p)
  else none

/-- parser/svgparser.go:63-126: the loop over the transforms. Line 64 matches the text `"t"`, not the variable `t`. -/
def transformLoop : List Text → Path F → Res (Path F)
  | [], p => .ok p
  | _t :: ts, p =>
    match submatches ['t'] with
    | [(name, args)] =>
      match inputs (splitOn ',' args []) with
      | none => .err
      | some ins =>
        match applyTransform name ins p with
        | some r => r
        | none => transformLoop ts p
    | _ => transformLoop ts p

/-- parser/svgparser.go:52-56: after the path of an element without its transform. -/
def applyTransforms (attrs : DMap F) (p : Path F) : Res (Path F) :=
  let s := getText attrs ['t', 'r', 'a', 'n', 's', 'f', 'o', 'r', 'm']
  if s = [] then .ok p else transformLoop (splitClose s []) p

/-- parser/svgparser.go:128-234 (`elementToPathNoTransforms`), given the paths of the children. -/
def shape (name : Text) (attrs : DMap F) (children : Res (List (Path F))) : Res (Path F) :=
  if name = ['p', 'a', 't', 'h'] then
    match parsePath (getText attrs ['d']) with
    | none => .err
    | some p => .ok p
  else if name = ['c', 'i', 'r', 'c', 'l', 'e'] then
    match getFloat attrs ['c', 'x'], getFloat attrs ['c', 'y'], getFloat attrs ['r'] with
    | some cx, some cy, some r => .ok (circle (moveTo [] (newPoint (cx -. r) (cy -. r))) r)
    | _, _, _ => .err
  else if name = ['r', 'e', 'c', 't'] then
    match getFloat attrs ['x'], getFloat attrs ['y'], getFloat attrs ['w', 'i', 'd', 't', 'h'],
        getFloat attrs ['h', 'e', 'i', 'g', 'h', 't'] with
    | some x, some y, some w, some h => .ok (rect (moveTo [] (newPoint x y)) w h)
    | _, _, _, _ => .err
  else if name = ['l', 'i', 'n', 'e'] then
    match getFloat attrs ['x', '1'], getFloat attrs ['y', '1'], getFloat attrs ['x', '2'], getFloat attrs ['y', '2'] with
    | some x1, some y1, some x2, some y2 => .ok (lineTo (moveTo [] (newPoint x1 y1)) (newPoint x2 y2))
    | _, _, _, _ => .err
  else if name = ['e', 'l', 'i', 'p', 's', 'e'] ∨ name = ['p', 'o', 'l', 'y', 'l', 'i', 'n', 'e'] ∨
      name = ['p', 'o', 'l', 'y', 'g', 'o', 'n'] then .err
  else
    match children with
    | .ok ps => simpleJoin ps
    | .err => .err
    | .panic => .panic

mutual

/-- parser/svgparser.go:46-127 (`ElementToPath`). -/
def elementToPath : Element F → Res (Path F)
  | .mk name attrs children _ =>
    match shape name attrs (childPaths children) with
    | .ok p => applyTransforms attrs p
    | .err => .err
    | .panic => .panic

/-- parser/svgparser.go:219-227: the paths of the children. -/
def childPaths : List (Element F) → Res (List (Path F))
  | [] => .ok []
  | c :: cs =>
    match elementToPath c with
    | .err => .err
    | .panic => .panic
    | .ok p =>
      match childPaths cs with
      | .ok ps => .ok (p :: ps)
      | .err => .err
      | .panic => .panic

end

/-- parser/svgparser.go:25-32 (`ParseSVG`): the error of `Parse` is dropped, and the missing element is used. -/
def parseSVG (toks : List Tok) : Res (Path F) :=
  match parse toks with
  | .ok e => elementToPath e
  | _ => .panic

end Shapes

end Verif.Xml
