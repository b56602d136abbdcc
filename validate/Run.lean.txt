import Verif.Model.Render
import Verif.Model.Main
import Verif.Model.Xml
import Lean.Data.Json

/-! A run of the model with machine floats on the designs shipped with the code. It proves nothing. -/

open Verif Verif.Dyn Verif.Path

/-- `%.nf` of the exact value. -/
def fmtFloat (n : Nat) (x : Float) : Text :=
  if x.isNaN then "NaN".toList else
  if x.isInf then (if x > 0 then "+Inf" else "-Inf").toList else
  let bits := x.toBits.toNat
  let neg := decide (bits ≥ 2 ^ 63)
  let e : Nat := (bits / 2 ^ 52) % 2048
  let f : Nat := bits % 2 ^ 52
  let (m, s) : Nat × Int := if e = 0 then (f, -1074) else (f + 2 ^ 52, (e : Int) - 1075)
  let num := m * 10 ^ n * (if s ≥ 0 then 2 ^ s.toNat else 1)
  let den := if s ≥ 0 then 1 else 2 ^ (-s).toNat
  let q := num / den
  let r := num % den
  let q := if 2 * r < den then q else if 2 * r > den then q + 1 else if q % 2 = 0 then q else q + 1
  Decimal.signedText neg n q

def parseFloat (s : Text) : Option Float :=
  match Decimal.parseDecimal s with
  | none => none
  | some _ =>
    let neg := s.head? = some '-'
    let s := s.dropWhile (fun c => c = '-' || c = '+')
    let mant := s.takeWhile (fun c => c ≠ 'e' && c ≠ 'E')
    let ex := (s.dropWhile (fun c => c ≠ 'e' && c ≠ 'E')).drop 1
    let a := mant.takeWhile (· ≠ '.')
    let b := (mant.dropWhile (· ≠ '.')).drop 1
    let m := ((String.ofList (a ++ b)).toNat?).getD 0
    let exn : Int := match ex with
      | [] => 0
      | '-' :: r => -(((String.ofList r).toNat?).getD 0 : Nat)
      | '+' :: r => (((String.ofList r).toNat?).getD 0 : Nat)
      | r => (((String.ofList r).toNat?).getD 0 : Nat)
    let t : Int := exn - b.length
    let v := if t < 0 then Float.ofScientific m true (-t).toNat else Float.ofScientific m false t.toNat
    some (if neg then -v else v)

def litFloat (m : Int) (e : Nat) : Float :=
  let v := Float.ofScientific m.natAbs true e
  if m < 0 then -v else v

instance : Trig Float where
  add := Float.add
  sub := Float.sub
  mul := Float.mul
  div := Float.div
  neg := Float.neg
  lit := litFloat
  lt a b := decide (a < b)
  le a b := decide (a ≤ b)
  eq a b := a == b
  isNaN := Float.isNaN
  fmt := fmtFloat
  parse := parseFloat
  floor := Float.floor
  round := Float.round
  abs := Float.abs
  max a b := if a.isNaN || b.isNaN then 0.0 / 0.0 else if a < b then b else a
  min a b := if a.isNaN || b.isNaN then 0.0 / 0.0 else if b < a then b else a
  sqrt := Float.sqrt
  sin := Float.sin
  cos := Float.cos
  atan := Float.atan
  acos := Float.acos
  atan2 := Float.atan2
  pow := Float.pow
  pi := 3.141592653589793

/-- `%v` of a number of ordinary size. -/
def showFloat (x : Float) : Text :=
  let rec go : Nat → Nat → Text
    | 0, n => fmtFloat n x
    | k + 1, n => if parseFloat (fmtFloat n x) == some x then fmtFloat n x else go k (n + 1)
  go 25 0

def showVal : Val Float → Text
  | .null => "<nil>".toList
  | .bool b => (if b then "true" else "false").toList
  | .num x => showFloat x
  | .str s => s
  | .list _ => "[]".toList
  | .map _ => "map[]".toList

/-! JSON text with two spaces of indentation, keys in order, and md5 -/
def jsonString (s : Text) : String :=
  "\"" ++ String.join (s.map fun c =>
    if c == '"' then "\\\"" else if c == '\\' then "\\\\" else if c == '\n' then "\\n" else if c == '\t' then "\\t"
    else if c == '<' then "\\u003c" else if c == '>' then "\\u003e" else if c == '&' then "\\u0026" else c.toString) ++ "\""

partial def jsonVal (ind : String) : Val Float → String
  | .null => "null"
  | .bool b => toString b
  | .num x => String.ofList (showFloat x)
  | .str s => jsonString s
  | .list [] => "[]"
  | .map [] => "{}"
  | .list l =>
    let i := ind ++ "  "
    "[\n" ++ ",\n".intercalate (l.map fun v => i ++ jsonVal i v) ++ "\n" ++ ind ++ "]"
  | .map m =>
    let i := ind ++ "  "
    let m := m.mergeSort fun a b => decide (String.ofList a.1 ≤ String.ofList b.1)
    "{\n" ++ ",\n".intercalate (m.map fun (k, v) => i ++ jsonString k ++ ": " ++ jsonVal i v) ++ "\n" ++ ind ++ "}"

def md5Shift : Array UInt32 := #[7,12,17,22,7,12,17,22,7,12,17,22,7,12,17,22,5,9,14,20,5,9,14,20,5,9,14,20,5,9,14,20,
  4,11,16,23,4,11,16,23,4,11,16,23,4,11,16,23,6,10,15,21,6,10,15,21,6,10,15,21,6,10,15,21]
def md5K : Array UInt32 := (Array.range 64).map fun i => UInt32.ofNat (Float.floor (Float.abs (Float.sin (i.toFloat + 1.0)) * 4294967296.0)).toUInt64.toNat

def md5 (s : String) : String := Id.run do
  let b := s.toUTF8
  let n := b.size
  let pad := (119 - n % 64) % 64
  let mut d : Array UInt8 := b.data.push 0x80
  for _ in [0:pad] do d := d.push 0
  for i in [0:8] do d := d.push (UInt8.ofNat ((n * 8) >>> (8 * i)))
  let mut a0 : UInt32 := 0x67452301
  let mut b0 : UInt32 := 0xefcdab89
  let mut c0 : UInt32 := 0x98badcfe
  let mut d0 : UInt32 := 0x10325476
  for blk in [0:d.size / 64] do
    let w (g : Nat) : UInt32 :=
      let o := blk * 64 + g * 4
      d[o]!.toUInt32 ||| (d[o+1]!.toUInt32 <<< 8) ||| (d[o+2]!.toUInt32 <<< 16) ||| (d[o+3]!.toUInt32 <<< 24)
    let mut A := a0
    let mut B := b0
    let mut C := c0
    let mut D := d0
    for i in [0:64] do
      let (f, g) :=
        if i < 16 then ((B &&& C) ||| ((~~~ B) &&& D), i)
        else if i < 32 then ((D &&& B) ||| ((~~~ D) &&& C), (5 * i + 1) % 16)
        else if i < 48 then (B ^^^ C ^^^ D, (3 * i + 5) % 16)
        else (C ^^^ (B ||| (~~~ D)), (7 * i) % 16)
      let f := f + A + md5K[i]! + w g
      A := D
      D := C
      C := B
      let r := md5Shift[i]!
      B := B + ((f <<< r) ||| (f >>> (32 - r)))
    a0 := a0 + A
    b0 := b0 + B
    c0 := c0 + C
    d0 := d0 + D
  let hex (x : UInt32) : String := String.join ((List.range 4).map fun i =>
    let v := ((x >>> (UInt32.ofNat (8 * i))) &&& 0xff).toNat
    (Nat.digitChar (v / 16)).toString ++ (Nat.digitChar (v % 16)).toString)
  return hex a0 ++ hex b0 ++ hex c0 ++ hex d0

/-! JSON -/
def ofNumber (n : Lean.JsonNumber) : Float := litFloat n.mantissa n.exponent

instance : Inhabited (Val Float) := ⟨.null⟩

partial def ofJson : Lean.Json → Val Float
  | .null => .null
  | .bool b => .bool b
  | .num n => .num (ofNumber n)
  | .str s => .str s.toList
  | .arr a => .list (a.toList.map ofJson)
  | .obj o => .map (o.toList.map fun (k, v) => (k.toList, ofJson v))

def readMap (text : String) : Except String (DMap Float) :=
  match Lean.Json.parse (String.ofList (strip text.toList)) with
  | .error e => .error e
  | .ok j => match ofJson j with
    | .map m => .ok m
    | _ => .error "not a map"

/-! Expressions -/
inductive Op | add | sub | mul | div | comma
deriving BEq

inductive T | num (x : Float) | id (s : String) | sym (c : Char)
deriving BEq

partial def lex : List Char → List T → Option (List T)
  | [], acc => some acc.reverse
  | c :: r, acc =>
    if c.isWhitespace then lex r acc
    else if c.isDigit || c == '.' then
      let w := (c :: r).takeWhile fun c => c.isDigit || c == '.'
      match parseFloat w with
      | some x => lex ((c :: r).drop w.length) (.num x :: acc)
      | none => none
    else if c.isAlpha || c == '_' then
      let w := (c :: r).takeWhile fun c => c.isAlphanum || c == '_'
      lex ((c :: r).drop w.length) (.id (String.ofList w) :: acc)
    else if "+-*/(),".toList.contains c then lex r (.sym c :: acc)
    else none

abbrev E := Expr Float Op
def fnOf (s : String) : Option Fn := [Fn.sqrt, .distance, .angle, .mmToInch, .inchToMM].find? fun f => String.ofList f.name == s

mutual
partial def pComma (l : List T) : Option (E × List T) := do
  let (a, l) ← pSum l
  rComma a l
partial def rComma (a : E) : List T → Option (E × List T)
  | .sym ',' :: l => do let (b, l) ← pSum l; rComma (.op .comma a b) l
  | l => some (a, l)
partial def pSum (l : List T) : Option (E × List T) := do
  let (a, l) ← pProd l
  rSum a l
partial def rSum (a : E) : List T → Option (E × List T)
  | .sym '+' :: l => do let (b, l) ← pProd l; rSum (.op .add a b) l
  | .sym '-' :: l => do let (b, l) ← pProd l; rSum (.op .sub a b) l
  | l => some (a, l)
partial def pProd (l : List T) : Option (E × List T) := do
  let (a, l) ← pAtom l
  rProd a l
partial def rProd (a : E) : List T → Option (E × List T)
  | .sym '*' :: l => do let (b, l) ← pAtom l; rProd (.op .mul a b) l
  | .sym '/' :: l => do let (b, l) ← pAtom l; rProd (.op .div a b) l
  | l => some (a, l)
partial def pAtom : List T → Option (E × List T)
  | .num x :: l => some (.num x, l)
  | .sym '-' :: l => do let (a, l) ← pAtom l; some (.op .sub (.num 0) a, l)
  | .sym '(' :: l => do
    let (a, l) ← pComma l
    match l with
    | .sym ')' :: l => some (a, l)
    | _ => none
  | .id f :: l =>
    match fnOf f, l with
    | some fn, .sym '(' :: .sym ')' :: l => some (.call fn .empty, l)
    | some fn, .sym '(' :: l => do
      let (a, l) ← pComma l
      match l with
      | .sym ')' :: l => some (.call fn a, l)
      | _ => none
    | _, l => some (.var f.toList, l)
  | _ => none
end

def parseExpr (s : Text) : Option E :=
  match lex s [] with
  | none => none
  | some [] => some .empty
  | some l => match pComma l with
    | some (e, []) => some e
    | _ => none

def theLib : Lib Float Op where
  parse := parseExpr
  shortcut _ := none
  op o a b := match o, a, b with
    | .add, .num a, .num b => some (.num (a + b))
    | .sub, .num a, .num b => some (.num (a - b))
    | .mul, .num a, .num b => some (.num (a * b))
    | .div, .num a, .num b => some (.num (a / b))
    | .comma, a, b => some (comma a b)
    | _, _, _ => none

/-! XML -/
def isXSpace (c : Char) : Bool := c.isWhitespace
def localName (s : Text) : Text := match s.dropWhile (· ≠ ':') with
  | ':' :: r => r
  | _ => s

partial def attrs : Text → List (Text × Text) → List (Text × Text)
  | s, acc =>
    let s := s.dropWhile isXSpace
    let n := s.takeWhile (fun c => c ≠ '=' && !isXSpace c)
    if n = [] then acc.reverse
    else
      let s := ((s.drop n.length).dropWhile (· ≠ '"')).drop 1
      let v := s.takeWhile (· ≠ '"')
      attrs (s.drop (v.length + 1)) ((localName n, v) :: acc)

partial def xml : Text → List Xml.Tok → List Xml.Tok
  | [], acc => acc.reverse
  | '<' :: '!' :: '-' :: '-' :: r, acc =>
    let rec skip : Text → Text
      | '-' :: '-' :: '>' :: r => r
      | _ :: r => skip r
      | [] => []
    xml (skip r) (.other :: acc)
  | '<' :: c :: r, acc =>
    let body := (c :: r).takeWhile (· ≠ '>')
    let rest := (c :: r).drop (body.length + 1)
    if c == '?' || c == '!' then xml rest (.other :: acc)
    else if c == '/' then xml rest (.stop (localName (body.drop 1)) :: acc)
    else
      let self := body.getLast? == some '/'
      let body := if self then body.dropLast else body
      let n := body.takeWhile (fun c => !isXSpace c)
      let tok := Xml.Tok.start (localName n) (attrs (body.drop n.length) [])
      xml rest (if self then .stop (localName n) :: tok :: acc else tok :: acc)
  | s, acc =>
    let t := s.takeWhile (· ≠ '<')
    xml (s.drop t.length) (.chars t :: acc)

def toIntFloat (x : Float) : Int := x.toInt64.toInt

def world (maps : List (String × DMap Float)) (svgs : List (String × Option Text)) : World Float where
  printed := showVal
  hash m := ((md5 (jsonVal "" (.map m))).toList.take 16)
  load p := (maps.find? (·.1 == String.ofList p)).map (·.2)
  svg p := (svgs.find? (·.1 == String.ofList p)).map (·.2)
  order l := l

def readSvg (s : String) : Option Text :=
  match (Xml.parseSVG (xml s.toList []) : Res (Path Float)) with
  | .ok p => some (printPath 3 p)
  | _ => none

/-! The tests of the package transforms -/

def settingOf (cfg : List String) (key : String) : Option String :=
  (cfg.find? (·.startsWith (key ++ ": "))).map fun s => (s.drop (key.length + 2)).toString

def numberOf (cfg : List String) (key : String) : Float := ((settingOf cfg key).bind fun s => parseFloat s.toList).getD 0

def pointOf (cfg : List String) (key : String) : Point Float :=
  match (settingOf cfg key).map fun s => ((s.splitOn "(")[1]!.splitOn ")")[0]!.splitOn ", " with
  | some [x, y] => newPoint ((parseFloat x.toList).getD 0) ((parseFloat y.toList).getD 0)
  | _ => newPoint 0 0

def handleTextOf (cfg : List String) : Text :=
  match settingOf cfg "Handle" with
  | some "path.MiddleMiddle" => Attr.middleMiddle.text
  | some s => s.toList.filter (· ≠ '"')
  | none => []

def runTransform (kind cfgText : String) (p : Path Float) : Res (Path Float) :=
  let cfg := cfgText.splitOn ";"
  let n := (numberOf cfg "Precision").toUInt64.toNat
  match kind with
  | "DedupSegmentsTransform" => if cfgText = "reverse" then dedup 3 (reversePath p) else dedup cfgText.toNat! p
  | "JoinTransform" => Path.join n 3 (settingOf cfg "ClosePath" == some "true") p
  | "MatrixTransform" =>
    let f := numberOf cfg
    .ok (matrixTransform (f "A") (f "B") (f "C") (f "D") (f "E") (f "F") p)
  | "MirrorTransform" => mirror .horizontal (handleTextOf cfg) p
  | "MoveTransform" => Path.move (pointOf cfg "Point") (handleTextOf cfg) p
  | "OffsetTransform" =>
    let size := match settingOf cfg "SizeShouldBe" with
      | some "Larger" => SizeShouldBe.larger
      | some "Smaller" => .smaller
      | _ => .unknown
    (offsetPath n 3 (numberOf cfg "Distance") 10 size p).getD .err
  | "ReorderTransform" => reorder n p
  | "RotateTransform" => Path.rotate (numberOf cfg "Degrees") [] p
  | "ScaleTransform" => .ok (Path.scale ⟨0, 0, pointOf cfg "StartPoint", pointOf cfg "EndPoint", 0, 0⟩ p)
  | "HSliceTransform" =>
    match hSlice n 3 1000 (numberOf cfg "Y") p with
    | .ok (some q) => .ok q
    | _ => .err
  | "TrimWhitespaceTransform" => .ok (trimWhitespace p)
  | _ => .err

def runTests (file : String) : IO Unit := do
  let mut good := 0
  let mut all := 0
  for line in (← IO.FS.readFile file).splitOn "\n" do
    match line.splitOn "\t" with
    | [name, kind, cfg, path, expected, n] =>
      all := all + 1
      let made := match parsePath path.toList with
        | none => "no path"
        | some p => match runTransform kind cfg p with
          | .ok q => String.ofList (printPath n.toNat! q)
          | .err => "err"
          | .panic => "panic"
      if made = expected then good := good + 1
      else IO.println s!"{name}\n  expected {expected}\n  made     {made}"
    | _ => pure ()
  IO.println s!"{good} of {all} tests"

def runDesigns (args : List String) : IO Unit := do
  let root := args[0]!
  let out := args[1]!
  if md5 "abc" ≠ "900150983cd24fb0d6963f7d28e17f72" then throw (IO.userError "md5")
  let names := (← IO.FS.readFile (args[2]!)).splitOn "\n" |>.filter (· ≠ "")
  let only := args.drop 3
  let mut maps := []
  let mut svgs := []
  for n in names do
    let text ← IO.FS.readFile (root ++ "/" ++ n)
    if n.endsWith ".hfd" then
      match readMap text with
      | .ok m => maps := (n, m) :: maps
      | .error e => IO.println s!"{n}: json: {e}"
    else svgs := (n, readSvg text) :: svgs
  let m : Render.Machine Float Op := ⟨world maps svgs, theLib, toIntFloat, 3000⟩
  for (n, dm) in maps.reverse do
    if only = [] || only.contains n then
      let start ← IO.monoMsNow
      let base := ((n.splitOn "/").getLast!.splitOn ".hfd")[0]!
      match m.sheets 30 (Files.withParams dm []) with
      | .err => IO.println s!"{n}: err"
      | .panic => IO.println s!"{n}: panic"
      | .ok l =>
        let mut i := 0
        for (t, b) in l do
          let k := toString i
          let k := String.ofList (List.replicate (3 - k.length) '0') ++ k
          IO.FS.writeFile s!"{out}/{base}_{k}.svg" (String.ofList t)
          if b then IO.println s!"{n}: sheet panics"
          i := i + 1
        let stop ← IO.monoMsNow
        IO.println s!"{n}: {l.length} sheets, {stop - start} ms"
      (← IO.getStdout).flush

def main (args : List String) : IO Unit :=
  match args with
  | ["tests", file] => runTests file
  | _ => runDesigns args
