import Verif.Model.Files
import Verif.Model.Typecast

/-!
# Model of the work with files

util/file.go and the commands of main.go. The file system is a tree below `/` with a working directory. There are no links; `..` is resolved
in the text of a path; of the ways in which the system can refuse, those are modelled that follow from the tree, and directories that cannot
be listed or entered. The contents of files are texts.
-/

namespace Verif.Files

open Verif.Dyn Verif.Path

universe u

/-! ## The file system -/

/-- A file, a directory, or a directory without permission. -/
inductive Node where
  | file (content : Text)
  | dir (entries : List (Text × Node))
  | locked

/-- The file system as a process sees it. -/
structure FS where
  root : Node
  cwd : List Text

/-- The entries with `v` under the name `n`. -/
def setEntry (n : Text) (v : Node) : List (Text × Node) → List (Text × Node)
  | [] => [(n, v)]
  | e :: es => if e.1 = n then (n, v) :: es else e :: setEntry n v es

/-- The node below a node. -/
def Node.at : Node → List Text → Option Node
  | n, [] => some n
  | .dir es, c :: p =>
    match es.lookup c with
    | none => none
    | some m => m.at p
  | _, _ :: _ => none

/-- Put the node `v` below a node; the directory must exist. -/
def Node.put : Node → Node → List Text → Option Node
  | _, _, [] => none
  | .dir es, v, c :: p =>
    match p with
    | [] => some (.dir (setEntry c v es))
    | _ :: _ =>
      match es.lookup c with
      | none => none
      | some m => (m.put v p).map fun m' => .dir (setEntry c m' es)
  | _, _, _ :: _ => none

/-- Remove what is below a node. -/
def Node.cut : Node → List Text → Option Node
  | _, [] => none
  | .dir es, c :: p =>
    match es.lookup c with
    | none => none
    | some m =>
      match p with
      | [] => some (.dir (es.filter fun e => decide (e.1 ≠ c)))
      | _ :: _ => (m.cut p).map fun m' => .dir (setEntry c m' es)
  | _, _ :: _ => none

/-- The directories down to a place, made where they are missing. -/
def Node.mkdirs : Node → List Text → Option Node
  | .file _, _ => none
  | n, [] => some n
  | .dir es, c :: p => (((es.lookup c).getD (.dir [])).mkdirs p).map fun m' => .dir (setEntry c m' es)
  | .locked, _ :: _ => none

/-- The place of a path in the tree. -/
def resolve (cwd : List Text) (s : Text) : List Text :=
  ((splitOn '/' s []).foldl (cleanStep true) (if s.head? = some '/' then [] else cwd.reverse)).reverse

/-- What is at a path (`os.Lstat`, `os.Open`, `ioutil.ReadFile`). -/
def FS.find (fs : FS) (s : Text) : Option Node := if s = [] then none else fs.root.at (resolve fs.cwd s)

/-- `os.Create`, and writing the content. -/
def FS.create (fs : FS) (s content : Text) : Option FS :=
  match fs.find s with
  | some (.dir _) => none
  | some .locked => none
  | _ => if s = [] then none else ((fs.root.put (.file content) (resolve fs.cwd s))).map fun r => { fs with root := r }

/-- `os.Remove` of a file. -/
def FS.remove (fs : FS) (s : Text) : Option FS :=
  match fs.find s with
  | some (.file _) => (fs.root.cut (resolve fs.cwd s)).map fun r => { fs with root := r }
  | _ => none

/-- main.go:208-210 (`CreateDir`, `os.MkdirAll`). -/
def FS.createDir (fs : FS) (s : Text) : Option FS :=
  if s = [] then none else (fs.root.mkdirs (resolve fs.cwd s)).map fun r => { fs with root := r }

/-- main.go:302-313 (`IsDir`). -/
def FS.isDir (fs : FS) (s : Text) : Bool :=
  match fs.find s with
  | some (.dir _) => true
  | _ => false

/-! ## Lists of files -/

/-- The calls for the entries of a directory one after the other, until one fails. -/
def joinWalks {α : Type} : List (List α × Bool) → List α × Bool
  | [] => ([], true)
  | (l, true) :: r => (l ++ (joinWalks r).1, (joinWalks r).2)
  | (l, false) :: _ => (l, false)

/-- The order of names: by their bytes, which is by their characters. -/
def nameLe {α : Type} (a b : Text × α) : Bool := decide (a.1 ≤ b.1)

/-- An entry in its place among sorted entries. -/
def insertName {α : Type} (a : Text × α) : List (Text × α) → List (Text × α)
  | [] => [a]
  | b :: l => if nameLe a b then a :: b :: l else b :: insertName a l

/-- The entries sorted by name (`sort.Strings`). -/
def sortNames {α : Type} : List (Text × α) → List (Text × α)
  | [] => []
  | a :: l => insertName a (sortNames l)

mutual

/-- `filepath.Walk` below a node, with a function that passes on errors: the paths with whether they are directories, and whether there was
no error. -/
def Node.walk (path : Text) : Node → List (Text × Bool) × Bool
  | .file _ => ([(path, false)], true)
  | .locked => ([], false)
  | .dir es =>
    let w := joinWalks ((sortNames (walkEntries path es)).map (·.2))
    ((path, true) :: w.1, w.2)

/-- The walks below the entries of a directory. -/
def walkEntries (path : Text) : List (Text × Node) → List (Text × (List (Text × Bool) × Bool))
  | [] => []
  | (n, m) :: es => (n, m.walk (join path n)) :: walkEntries path es

end

/-- `filepath.Walk`. -/
def FS.walk (fs : FS) (directory : Text) : List (Text × Bool) × Bool :=
  match fs.find directory with
  | none => ([], false)
  | some n => n.walk directory

/-- util/file.go:33-46 (`FileList`): the names, and whether there was no error. -/
def fileList (fs : FS) (directory extension : Text) : List Text × Bool :=
  let w := fs.walk directory
  ((w.1.filter fun e => !e.2 && decide (extension <:+ e.1)).map (·.1), w.2)

/-- `strings.TrimPrefix`. -/
def trimPrefix (s pre : Text) : Text := if pre <+: s then s.drop pre.length else s

/-- util/file.go:54-69 (`RelFileList`). -/
def relFileList (fs : FS) (directory extension : Text) : List Text × Bool :=
  let w := fs.walk directory
  ((w.1.filter fun e => !e.2 && decide (extension <:+ e.1)).map fun e => trimPrefix (trimPrefix e.1 directory) ['/'], w.2)

/-- util/file.go:72-85 (`DirectoryList`). -/
def directoryList (fs : FS) (directory : Text) : List Text × Bool :=
  let w := fs.walk directory
  ((w.1.filter fun e => !e.2).map (·.1), w.2)

/-- util/file.go:16-21 (in `ClearDir`). -/
def removeAll (fs : FS) : List Text → FS × Bool
  | [] => (fs, true)
  | s :: l =>
    match fs.remove s with
    | none => (fs, false)
    | some fs' => removeAll fs' l

/-- util/file.go:11-23 (`ClearDir`). -/
def clearDir (fs : FS) (directory extension : Text) : FS × Bool :=
  match fileList fs directory extension with
  | (_, false) => (fs, false)
  | (l, true) => removeAll fs l

/-! ## Comparing directories -/

/-- The kinds of pieces of a difference (`diffmatchpatch.Operation`). -/
inductive DiffType where
  | equal
  | delete
  | insert
  deriving DecidableEq

/-- A difference of two texts (`diffmatchpatch.Diff`). -/
abbrev Diffs := List (DiffType × Text)

/-- main.go:197-205 (`IsEqualDiff`). -/
def isEqualDiff (d : Diffs) : Bool := d.all fun e => decide (e.1 = .equal)

/-- What `CompareDirectories` logs about a file on the left (main.go:151-194): an information or an error. -/
inductive Report where
  | equal (file1 file2 : Text)
  | differ (file1 file2 : Text)
  | missing (file1 : Text)
  deriving DecidableEq

/-- `ioutil.ReadFile`, with no bytes after an error (main.go:164-171). -/
def FS.bytes (fs : FS) (s : Text) : Text :=
  match fs.find s with
  | some (.file c) => c
  | _ => []

/-- main.go:151-194: the report about one file on the left. -/
def compareFile (diff : Text → Text → Diffs) (fs : FS) (l : Text) (right : List Text) : Report :=
  match right.find? fun r => decide (base r = base l) with
  | none => .missing l
  | some r => if isEqualDiff (diff (fs.bytes l) (fs.bytes r)) then .equal l r else .differ l r

/-- main.go:139-196 (`CompareDirectories`): the reports, or nothing but an error. -/
def compareDirectories (diff : Text → Text → Diffs) (fs : FS) (left right extension : Text) : Option (List Report) :=
  match fileList fs left extension with
  | (_, false) => none
  | (ls, true) =>
    match fileList fs right extension with
    | (_, false) => none
    | (rs, true) => some (ls.map fun l => compareFile diff fs l rs)

/-- main.go:115-128: the number that `diff_test` prints. Only reports with `bad_diff` count. -/
def diffCount : Option (List Report) → Nat
  | none => 0
  | some l => (l.filter fun r => match r with | .differ _ _ => true | _ => false).length

/-! ## Rendering into files -/

/-- A sheet: the text `WriteSVG` writes, and whether it panics then. -/
abbrev SheetText := Text × Bool

/-- main.go:315-334 (`save`), from sheet `i` on. A panic of `WriteSVG` ends the program. -/
def save (fs : FS) (saveFile : Text) : Nat → List SheetText → FS × Res Unit
  | _, [] => (fs, .ok ())
  | i, s :: rest =>
    match fs.create (sheetFile saveFile i) s.1 with
    | none => (fs, .err)
    | some fs' => if s.2 then (fs', .panic) else save fs' saveFile (i + 1) rest

/-- `renderPlanSet` (main.go:241-268) and `SVGDocuments`: it reads files. -/
abbrev Renderer := FS → Text → Res (List SheetText)

/-- main.go:224-237: the loop of `RenderAll`. Errors are logged; a panic ends the program. -/
def renderFiles (render : Renderer) (outputDir : Text) : FS → List Text → FS × Res Unit
  | fs, [] => (fs, .ok ())
  | fs, f :: l =>
    match render fs f with
    | .panic => (fs, .panic)
    | .err => renderFiles render outputDir fs l
    | .ok sheets =>
      match save fs (createFilename fs.isDir outputDir f) 0 sheets with
      | (fs', .panic) => (fs', .panic)
      | (fs', _) => renderFiles render outputDir fs' l

/-- main.go:212-239 (`RenderAll`). -/
def renderAll (render : Renderer) (fs : FS) (renderDir outputDir : Text) : FS × Res Unit :=
  match fileList fs renderDir "hfd".toList with
  | (_, false) => (fs, .err)
  | (l, true) =>
    match fs.createDir outputDir with
    | none => (fs, .err)
    | some fs' => renderFiles render outputDir fs' l

end Verif.Files
