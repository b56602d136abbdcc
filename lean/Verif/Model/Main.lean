import Verif.Model.FileSystem
import Verif.Model.Document

/-!
# Model of the program: its commands, its flags and the server

main.go. The command line is the list of arguments after the name of the program. The decoding of JSON, the rendering of a document and the
difference of two texts are parameters. Messages are not modelled.
-/

namespace Verif.Files

open Verif.Dyn Verif.Path

universe u

variable {F : Type u}

/-- What the program needs from outside: `fmt.Sprint`, `int64` of a number, the decoding of JSON, the texts of the sheets of a document
(dom/planset.go, dom/svg_renderer.go), the difference of texts and a new directory for temporary files. -/
structure Env (F : Type u) where
  printed : Val F → Text
  toInt : F → Int
  json : Text → Option (DMap F)
  sheets : FS → DMap F → Res (List SheetText)
  diff : Text → Text → Diffs
  temp : FS → Option (FS × Text)

/-- dynmap/dynmap.go:350-360 (`GetString`). -/
def Env.text (env : Env F) (m : DMap F) (key : Text) : Option Text :=
  match get m key with
  | none => none
  | some (.str s) => if s = [] then none else some s
  | some v => if env.printed v = [] then none else some (env.printed v)

/-- main.go:253-254: the document with the parameters. -/
def withParams (dm params : DMap F) : DMap F := putKey dm paramsName (.map (merge (clone (sub dm paramsName)) params))

/-- main.go:241-268 (`renderPlanSet`), and the texts of the sheets of the plan set. -/
def renderPlanSet (env : Env F) (fs : FS) (filename : Text) (params : DMap F) : Res (List SheetText) :=
  match fs.find filename with
  | some (.file b) =>
    match env.json (strip b) with
    | none => .err
    | some dm => env.sheets fs (withParams dm params)
  | _ => .err

/-- `renderPlanSet` as the commands call it. -/
def Env.renderer (env : Env F) : Renderer := fun fs filename => renderPlanSet env fs filename []

/-! ## Flags -/

/-- main.go:27-32: the flags. -/
structure Flags where
  path : Text
  outputFile : Text
  renderDir : Text
  outputDir : Text
  compareDir : Text
deriving DecidableEq

/-- main.go:27-32: the values of flags that are not given. -/
def Flags.start : Flags := ⟨[], [], "designs/".toList, [], "designs_rendered".toList⟩

/-- main.go:27-32: giving a value to a flag; nothing if there is no such flag. -/
def Flags.set (f : Flags) (name value : Text) : Option Flags :=
  if name = "path".toList then some { f with path := value }
  else if name = "output_file".toList then some { f with outputFile := value }
  else if name = "render_dir".toList then some { f with renderDir := value }
  else if name = "output_dir".toList then some { f with outputDir := value }
  else if name = "compare_dir".toList then some { f with compareDir := value }
  else none

/-- What an argument is for `flag.FlagSet.parseOne`. -/
inductive Arg where
  | stop
  | bad
  | flag (name : Text) (value : Option Text)
deriving DecidableEq

/-- The name and the value of `name=value`; the first character belongs to the name. -/
def nameValue (c : Char) (s : Text) : Arg :=
  if '=' ∈ s then .flag (c :: s.takeWhile fun x => decide (x ≠ '=')) (some ((s.dropWhile fun x => decide (x ≠ '=')).drop 1)) else .flag (c :: s) none

/-- `flag.FlagSet.parseOne`: one argument. -/
def readArg : Text → Arg
  | '-' :: '-' :: s =>
    match s with
    | [] => .stop
    | c :: s => if c = '-' ∨ c = '=' then .bad else nameValue c s
  | '-' :: c :: s => if c = '=' then .bad else nameValue c s
  | _ => .stop

/-- main.go:39: `flag.CommandLine.Parse`. Nothing if the program ends with a message. -/
def parseFlags (f : Flags) : List Text → Option Flags
  | [] => some f
  | s :: rest =>
    match readArg s with
    | .stop => some f
    | .bad => none
    | .flag name (some v) => (f.set name v).bind fun f' => parseFlags f' rest
    | .flag name none =>
      match rest with
      | [] => none
      | v :: rest' => (f.set name v).bind fun f' => parseFlags f' rest'

/-! ## Commands -/

/-- How the program ends. -/
inductive Exit where
  | usage
  | done
  | fatal
  | panic
  | serving
  | differences (n : Nat)
deriving DecidableEq

/-- `RenderAll` ends in a panic, or an error or not. -/
def exitOf : Res Unit → Exit
  | .panic => .panic
  | _ => .done

/-- main.go:54-77: the command `render`; `rest` are the arguments after it. -/
def runRender (env : Env F) (f : Flags) (rest : List Text) (fs : FS) : FS × Exit :=
  match rest with
  | [] => (fs, .panic)
  | arg :: _ =>
    let rfn := if f.path = [] then arg else f.path
    if rfn = [] then (fs, .fatal)
    else
      match env.renderer fs rfn with
      | .err => (fs, .fatal)
      | .panic => (fs, .panic)
      | .ok sheets =>
        match save fs (createFilename fs.isDir f.outputFile rfn) 0 sheets with
        | (fs', r) => (fs', exitOf r)

/-- main.go:86-94: the command `designs_updated`. -/
def runUpdated (env : Env F) (fs : FS) : FS × Exit :=
  match renderAll env.renderer (clearDir fs "designs_rendered".toList "svg".toList).1 "designs".toList "designs_rendered".toList with
  | (fs', r) => (fs', exitOf r)

/-- main.go:107-133: the command `diff_test` with an output directory. -/
def runDiffIn (env : Env F) (f : Flags) (out : Text) (fs : FS) : FS × Exit :=
  match renderAll env.renderer fs f.renderDir out with
  | (fs', .panic) => (fs', .panic)
  | (fs', .err) => (fs', .done)
  | (fs', .ok _) => (fs', .differences (diffCount (compareDirectories env.diff fs' f.compareDir out "svg".toList)))

/-- main.go:95-133: the command `diff_test`. -/
def runDiff (env : Env F) (f : Flags) (fs : FS) : FS × Exit :=
  if f.outputDir = [] then
    match env.temp fs with
    | none => (fs, .done)
    | some (fs', out) => runDiffIn env f out fs'
  else runDiffIn env f f.outputDir fs

/-- main.go:45-137: the commands. -/
def runCommand (env : Env F) (command : Text) (f : Flags) (rest : List Text) (fs : FS) : FS × Exit :=
  if command = "serve".toList then (fs, .serving)
  else if command = "render".toList then runRender env f rest fs
  else if command = "render_all".toList then
    match renderAll env.renderer fs f.renderDir f.outputDir with
    | (fs', r) => (fs', exitOf r)
  else if command = "designs_updated".toList then runUpdated env fs
  else if command = "diff_test".toList then runDiff env f fs
  else (fs, .usage)

/-- main.go:23-137 (`main`). -/
def run (env : Env F) (args : List Text) (fs : FS) : FS × Exit :=
  match args with
  | [] => (fs, .usage)
  | command :: rest =>
    match parseFlags Flags.start rest with
    | none => (fs, .fatal)
    | some f => runCommand env command f rest fs

/-! ## The server -/

/-- The answer: its body, and the type that the program told. -/
structure Answer where
  body : Text
  contentType : Option Text
deriving DecidableEq

/-- No answer but the status 200. -/
def Answer.empty : Answer := ⟨[], none⟩

/-- `http.ResponseWriter`: a header that is set after something of the body is written has no effect. -/
def Answer.setType (a : Answer) (t : Text) : Answer := if a.body = [] then { a with contentType := some t } else a

/-- main.go:336-368 (`processRequest`). `form` is nothing if `ParseForm` fails. -/
def processRequest (env : Env F) (fs : FS) (form : Option UrlValues) : FS × Res Answer :=
  match form with
  | none => (fs, .ok .empty)
  | some form =>
    let params : DMap F := unmarshalUrlValues [] form
    let filename := (env.text params "file".toList).getD "dom/testdata/box_test.hfd".toList
    match renderPlanSet env fs filename params with
    | .err => (fs, .ok .empty)
    | .panic => (fs, .panic)
    | .ok sheets =>
      let i := mustInt env.toInt params "index".toList 0
      if i < 0 then (fs, .panic)
      else
        match sheets[i.toNat]? with
        | none => (fs, .panic)
        | some (_, true) => (fs, .panic)
        | some (text, false) =>
          let answer := Answer.setType ⟨text, none⟩ "image/svg+xml".toList
          match env.text params "save_file".toList with
          | none => (fs, .ok answer)
          | some saveFile =>
            match save fs (createFilename fs.isDir filename saveFile) 0 sheets with
            | (fs', .panic) => (fs', .panic)
            | (fs', _) => (fs', .ok answer)

end Verif.Files
