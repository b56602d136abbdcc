import Verif.Model.Draw

/-!
# Model of the SVG text of paths: `SvgString` in `path/path.go` and `path/path_parser.go`
-/

namespace Verif.Path

open Verif

universe u

variable {F : Type u} [Num F]

/-- path/path.go:169-171, 270-272, 305-313 (`SvgString` of a segment): only the targets are printed, not the start. -/
def printSegment (n : Nat) : Segment F → Text
  | .move _ e => ['M', ' '] ++ Num.fmt n e.x ++ [' '] ++ Num.fmt n e.y
  | .line _ e => ['L', ' '] ++ Num.fmt n e.x ++ [' '] ++ Num.fmt n e.y
  | .curve _ c1 c2 e =>
    ['C', ' '] ++ Num.fmt n c1.x ++ [' '] ++ Num.fmt n c1.y ++ [' '] ++ Num.fmt n c2.x ++ [' '] ++ Num.fmt n c2.y
      ++ [' '] ++ Num.fmt n e.x ++ [' '] ++ Num.fmt n e.y

/-- `strings.Join(texts, " ")`. -/
def joinSpace : List Text → Text
  | [] => []
  | [t] => t
  | t :: rest => t ++ ' ' :: joinSpace rest

/-- path/path.go:115-121 (`SvgString` of a path). -/
def printPath (n : Nat) (p : Path F) : Text := joinSpace (p.map (printSegment n))

/-- path/path_parser.go:43-46: commas, line breaks and tabs become spaces. -/
def spaced (s : Text) : Text := s.map fun c => if c = ',' ∨ c = '\n' ∨ c = '\t' ∨ c = '\r' then ' ' else c

/-- `[[:alpha:]]`. -/
def isAlpha (c : Char) : Bool :=
  (decide ('a' ≤ c) && decide (c ≤ 'z')) || (decide ('A' ≤ c) && decide (c ≤ 'Z'))

/-- `[0-9\.]`. -/
def isNumChar (c : Char) : Bool := (decide ('0' ≤ c) && decide (c ≤ '9')) || c = '.'

/-- Inserts a space at every place where `left` is followed by `right`. -/
def separate (left right : Char → Bool) : Text → Text
  | [] => []
  | [c] => [c]
  | c :: d :: rest =>
    if left c && right d then c :: ' ' :: separate left right (d :: rest)
    else c :: separate left right (d :: rest)

/-- path/path_parser.go:49-53: both regular expressions. The first one matches a letter followed by a run of digits and dots and
puts a space between them; the runs it matches cannot overlap, so every such place is found. The second one is the mirror image. -/
def spaceCommands (s : Text) : Text := separate isNumChar isAlpha (separate isAlpha isNumChar s)

/-- `strings.Split(s, " ")` without the empty strings (path/path_parser.go:55-60): `cur` is the item being read. -/
def splitSpaces : Text → Text → List Text
  | [], cur => if cur = [] then [] else [cur]
  | c :: rest, cur =>
    if c = ' ' then (if cur = [] then splitSpaces rest [] else cur :: splitSpaces rest [])
    else splitSpaces rest (cur ++ [c])

/-- path/path_parser.go:43-60: the items of a path text. -/
def items (s : Text) : List Text := splitSpaces (spaceCommands (spaced s)) []

/-- `unicode.IsSpace`. -/
def isSpace (c : Char) : Bool :=
  let n := c.toNat
  (9 ≤ n && n ≤ 13) || n = 32 || n = 0x85 || n = 0xA0 || n = 0x1680 || (0x2000 ≤ n && n ≤ 0x200a) || n = 0x2028 ||
    n = 0x2029 || n = 0x202f || n = 0x205f || n = 0x3000

/-- `strings.TrimSpace`. -/
def trimSpace (s : Text) : Text := ((s.dropWhile isSpace).reverse.dropWhile isSpace).reverse

/-- dynmap/typecast.go:69-84 (`ToFloat64` of a string). -/
def toFloat (s : Text) : Option F := Num.parse (trimSpace s)

/-- path/path_parser.go:166-180 (`getNextFloats`): the values of `k` items, which must exist and be numbers, and the rest. -/
def nextFloats : Nat → List Text → Option (List F × List Text)
  | 0, items => some ([], items)
  | _ + 1, [] => none
  | k + 1, i :: items =>
    match toFloat i with
    | none => none
    | some x =>
      match nextFloats k items with
      | none => none
      | some (xs, rest) => some (x :: xs, rest)

/-- path/path_parser.go:74-164 (`next`) for the item `op` followed by `rest`: the items that remain and the path, or an error. The
command is the first character of the item; the remaining characters are not looked at. -/
def nextCommand (op : Text) (rest : List Text) (p : Path F) : Option (List Text × Path F) :=
  match op.head? with
  | some 'M' => match nextFloats 2 rest with
    | some ([x, y], rest) => some (rest, moveTo p (newPoint x y))
    | _ => none
  | some 'm' => match nextFloats 2 rest with
    | some ([x, y], rest) => some (rest, relMoveTo p (newPoint x y))
    | _ => none
  | some 'L' => match nextFloats 2 rest with
    | some ([x, y], rest) => some (rest, lineTo p (newPoint x y))
    | _ => none
  | some 'l' => match nextFloats 2 rest with
    | some ([x, y], rest) => some (rest, relLineTo p (newPoint x y))
    | _ => none
  | some 'C' => match nextFloats 6 rest with
    | some ([a, b, c, d, x, y], rest) => some (rest, curveTo p (newPoint a b) (newPoint c d) (newPoint x y))
    | _ => none
  | some 'c' => match nextFloats 6 rest with
    | some ([a, b, c, d, x, y], rest) => some (rest, relCurveTo p (newPoint a b) (newPoint c d) (newPoint x y))
    | _ => none
  | some 'S' => match nextFloats 4 rest with
    | some ([c, d, x, y], rest) => some (rest, smoothCurveTo p (newPoint c d) (newPoint x y))
    | _ => none
  | some 's' => match nextFloats 4 rest with
    | some ([c, d, x, y], rest) => some (rest, relSmoothCurveTo p (newPoint c d) (newPoint x y))
    | _ => none
  | some 'Z' => some (rest, p)
  | _ => none

/-- path/path_parser.go:62-71: the loop over the items. Every round consumes at least one item, so `fuel` equal to the number
of items is enough (`parseLoop_fuel`); `none` is an error. -/
def parseLoop : Nat → List Text → Path F → Option (Path F)
  | _, [], p => some p
  | 0, _ :: _, _ => none
  | fuel + 1, op :: rest, p =>
    match nextCommand op rest p with
    | none => none
    | some (rest, p) => parseLoop fuel rest p

/-- path/path_parser.go:62-71 on a list of items. -/
def parseItems (its : List Text) (p : Path F) : Option (Path F) := parseLoop its.length its p

/-- path/path_parser.go:37-72 (`ParsePathFromSvg`); `none` is an error. -/
def parsePath (s : Text) : Option (Path F) := parseItems (items s) []

/-- path/draw.go:272-281 (`SvgPath`): on an error nothing is drawn. -/
def svgPath (p : Path F) (s : Text) : Path F :=
  match parsePath s with
  | none => p
  | some q => addSegments p q

end Verif.Path
