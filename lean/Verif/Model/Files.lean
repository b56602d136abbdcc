import Verif.Model.Dynmap

/-!
# Model of units and of the names of the files that are written

dom/common.go, main.go, and the name of an entry in dom/planset.go:119. Paths are those of Unix; `filepath.Split`, `Ext`, `Clean` and
`Join` are written out.
-/

namespace Verif.Files

open Verif.Dyn Verif.Path

universe u

/-! ## Units -/

section Units

variable {F : Type u} [Arith F]

/-- dom/common.go:62-64 (`MMToInch`). -/
def mmToInch (mm : F) : F := mm /. Arith.lit 254 1

/-- dom/common.go:66-68 (`InchToMM`). -/
def inchToMM (inch : F) : F := inch *. Arith.lit 254 1

/-- dom/common.go:9-12, 31-36 (`Units`): there are only the two of them, named by their abbreviation. -/
inductive Units where
  | mm
  | inch
  deriving DecidableEq

/-- dom/common.go:14-21 (`FromInch`). -/
def Units.fromInch : Units → F → F
  | .mm, x => inchToMM x
  | .inch, x => x

/-- dom/common.go:23-30 (`FromMM`). -/
def Units.fromMM : Units → F → F
  | .inch, x => mmToInch x
  | .mm, x => x

/-- dom/common.go:43-52 (`NewUnits`). -/
def newUnits (s : Text) : Units × Bool :=
  if lower s = ['i', 'n'] ∨ lower s = ['i', 'n', 'c', 'h', 'e', 's'] then (.inch, true)
  else if lower s = ['m', 'm'] ∨ lower s = ['m', 'i', 'l', 'l', 'i', 'm', 'e', 't', 'e', 'r', 's'] then (.mm, true)
  else (.mm, false)
where lower (s : Text) : Text := s.map fun c => if c = 'İ' then 'i' else c.toLower

/-- dom/common.go:54-60 (`MustUnits`). -/
def mustUnits (s : Text) (default : Units) : Units := if (newUnits s).2 then (newUnits s).1 else default

end Units

/-! ## Paths of files -/

/-- `filepath.Split`, second result: what follows the last slash. -/
def base (s : Text) : Text := (s.reverse.takeWhile fun c => decide (c ≠ '/')).reverse

/-- `filepath.Split`, first result: up to and including the last slash. -/
def dirOf (s : Text) : Text := (s.reverse.dropWhile fun c => decide (c ≠ '/')).reverse

/-- `filepath.Ext`: from the last dot of the last component. -/
def ext (s : Text) : Text :=
  if '.' ∈ base s then '.' :: ((base s).reverse.takeWhile fun c => decide (c ≠ '.')).reverse else []

/-- `strings.TrimSuffix`. -/
def trimSuffix (s suf : Text) : Text := if suf <:+ s then s.take (s.length - suf.length) else s

/-- One component in `filepath.Clean`; the components so far are kept in reverse. -/
def cleanStep (rooted : Bool) (stack : List Text) (c : Text) : List Text :=
  if c = [] ∨ c = ['.'] then stack
  else if c = ['.', '.'] then
    match stack with
    | [] => if rooted then [] else [['.', '.']]
    | top :: rest => if top = ['.', '.'] then ['.', '.'] :: stack else rest
  else c :: stack

/-- `strings.Join(l, "/")`. -/
def slashes : List Text → Text
  | [] => []
  | [a] => a
  | a :: b :: l => a ++ '/' :: slashes (b :: l)

/-- `filepath.Clean`. -/
def clean (s : Text) : Text :=
  let rooted := decide (s.head? = some '/')
  let body := slashes ((splitOn '/' s []).foldl (cleanStep rooted) []).reverse
  let out := if rooted then '/' :: body else body
  if out = [] then ['.'] else out

/-- `filepath.Join` of two elements. -/
def join (a b : Text) : Text :=
  if a = [] then (if b = [] then [] else clean b) else clean (a ++ '/' :: b)

/-- main.go:275-300 (`createFilename`); `isDir` is main.go:302-313. -/
def createFilename (isDir : Text → Bool) (filePath documentPath : Text) : Text :=
  let dcFn := base documentPath
  if filePath = [] then trimSuffix dcFn (ext documentPath)
  else if isDir filePath then join (clean filePath) (trimSuffix dcFn (ext dcFn))
  else if base filePath = [] then join (dirOf filePath) (trimSuffix dcFn (ext dcFn))
  else trimSuffix filePath (ext filePath)

/-- `fmt.Sprintf("%03d", i)` for a natural number. -/
def pad3 (i : Nat) : Text := List.replicate (3 - (digits i).length) '0' ++ digits i

/-- main.go:324 (in `save`): the name of the file of sheet `i`. -/
def sheetFile (saveFile : Text) (i : Nat) : Text := saveFile ++ '_' :: (pad3 i ++ ['.', 's', 'v', 'g'])

/-- dom/planset.go:119 (in `RenderZip`): the name of the entry of sheet `i`. -/
def zipEntry (filename : Text) (i : Nat) : Text := filename ++ '.' :: (digits i ++ ['.', 's', 'v', 'g'])

/-- main.go:315-334 (`save`): the files written, in order, for a plan of `sheets` sheets. -/
def saveFiles (saveFile : Text) (sheets : Nat) : List Text := (List.range sheets).map (sheetFile saveFile)

/-- main.go:212-239 (`RenderAll`): the files written for the documents that can be rendered, each with the number of its sheets. -/
def renderAllFiles (isDir : Text → Bool) (outputDir : Text) (docs : List (Text × Nat)) : List Text :=
  docs.flatMap fun d => saveFiles (createFilename isDir outputDir d.1) d.2

end Verif.Files
