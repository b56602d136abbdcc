import Verif.Model.Custom
import Verif.Model.Params

/-!
# Model of the parsing of documents

dom/app_context.go with the methods `CreateComponent` of the component factories. What a component is rendered with (its map), its id and its
children are kept; Go values that point to each other are trees here, so a change of the defaults of a component that is inside another one is not
seen in the map of the other one.
-/

namespace Verif.Dyn

universe u

variable {F : Type u}

/-- What the parser needs from outside: `fmt.Sprint`, the md5 sum of the JSON text of a map (dom/app_context.go:246-250, `nextId`), a file
read and decoded as JSON (dom/app_context.go:252-267), a file read as an SVG drawing and written as the text of one path (dom/app_context.go:318-333),
and the order in which `range` goes through the elements of a document (dom/document.go:76-82, `AllElements`). -/
structure World (F : Type u) where
  printed : Val F → Text
  hash : DMap F → Text
  load : Text → Option (DMap F)
  svg : Text → Option (Option Text)
  order : List (Text × DMap F) → List (Text × DMap F)

/-- dynmap/dynmap.go:350-360 (`GetString`), with dynmap/typecast.go:124-133 (`ToString`). -/
def World.text (w : World F) (m : DMap F) (key : Text) : Option Text :=
  match get m key with
  | none => none
  | some (.str s) => if s = [] then none else some s
  | some v => if w.printed v = [] then none else some (w.printed v)

/-- dynmap/dynmap.go:509-515 (`MustDynMapSlice`) with the empty default. -/
def slice (m : DMap F) (key : Text) : List (DMap F) := (getDynMapSlice m key).getD []

/-- dynmap/dynmap.go:424-430 (`MustDynMap`) with the empty default. -/
def sub (m : DMap F) (key : Text) : DMap F := (getDynMap m key).getD []

/-- The keys. -/
def idKey : Text := "id".toList
def componentsKey : Text := "components".toList
def componentKey : Text := "component".toList
def repeatableKey : Text := "repeatable".toList
def leftKey : Text := "left".toList
def rightKey : Text := "right".toList
def outlineKey : Text := "outline".toList
def filenameKey : Text := "filename".toList
def importsKey : Text := "imports".toList
def partsKey : Text := "parts".toList
def pathKey : Text := "path".toList
def aliasKey : Text := "alias".toList
def defaultsKey : Text := "defaults".toList
def customTypeKey : Text := "custom_component.type".toList
def paramsName : Text := "params".toList

/-- The types of components (parser/parser.go:19-29). -/
inductive Built where
  | part | draw | copies | group | repeatEdge | basicEdge | xIntercept | around | gear
  deriving DecidableEq

/-- The methods `ComponentTypes`. -/
def Built.text : Built → Text
  | .part => "part".toList
  | .draw => "draw".toList
  | .copies => "repeat".toList
  | .group => "group".toList
  | .repeatEdge => "repeat_edge".toList
  | .basicEdge => "basic_edge".toList
  | .xIntercept => "xintercept".toList
  | .around => "around".toList
  | .gear => "gear".toList

def Built.all : List Built := [.part, .draw, .copies, .group, .repeatEdge, .basicEdge, .xIntercept, .around, .gear]

/-- dom/app_context.go:155: `c.componentFactories[componentType]`. -/
def Built.ofText (s : Text) : Option Built := Built.all.find? fun b => decide (b.text = s)

/-- A component: its id, its map and its children. -/
inductive Node (F : Type u) where
  | mk (id : Text) (map : DMap F) (children : List (Node F))

/-- dom/models.go:151-156 (`Id`). -/
def Node.id : Node F → Text
  | .mk i _ _ => i

/-- dom/models.go:160-162 (`ToDynMap`). -/
def Node.map : Node F → DMap F
  | .mk _ m _ => m

/-- dom/models.go:264-266 (`Children`). -/
def Node.children : Node F → List (Node F)
  | .mk _ _ cs => cs

/-- dom/app_context.go:206-216 (`MakeComponents`): one after the other, up to the first error. -/
def makeList {α : Type u} (mk : DMap F → Out α) : List (DMap F) → Out (List α)
  | [] => .val []
  | m :: ms =>
    match mk m with
    | .val c =>
      match makeList mk ms with
      | .val cs => .val (c :: cs)
      | .err => .err
      | .running => .running
    | .err => .err
    | .running => .running

/-- The keys under which a component has single components (components/repeat_edge.go:34-52, components/xintercept.go:24-41,
components/around.go:23-30, dom/repeat_component.go:24). -/
def Built.holes : Built → List Text
  | .copies => [componentKey]
  | .repeatEdge => [repeatableKey, leftKey, rightKey]
  | .xIntercept => [repeatableKey, outlineKey]
  | .around => [repeatableKey]
  | _ => []

/-- The components are put into the map under the keys (e.g. components/repeat_edge.go:50-52). -/
def fillHoles (m : DMap F) : List Text → List (Node F) → DMap F
  | k :: ks, c :: cs => fillHoles (putKey m k (.map c.map)) ks cs
  | _, _ => m

/-- dom/app_context.go:168-176 (`MakeBasicElement`): the id. -/
def World.idOf (w : World F) (m : DMap F) : Text := (w.text m idKey).getD (w.hash m)

/-- `dm.Put("components", ComponentsToDynMap(components))`, e.g. dom/part.go:51. -/
def withComponents (m : DMap F) (cs : List (Node F)) : DMap F := putKey m componentsKey (.list (cs.map fun c => .map c.map))

/-- The methods `CreateComponent`: dom/part.go:38-61, dom/draw_component.go:19-28, dom/repeat_component.go:20-38, dom/group_component.go:17-36,
components/repeat_edge.go:30-71, components/basic_edge.go:21-40, components/xintercept.go:20-52, components/around.go:19-42,
components/gear.go:21-29. `mk` is `MakeComponent`. -/
def World.create (w : World F) (mk : DMap F → Out (Node F)) (b : Built) (mp : DMap F) : Out (Node F) :=
  match b with
  | .part =>
    let dm := putIfAbsent (clone mp) typeKey (.str partText)
    match makeList mk (slice dm componentsKey) with
    | .val cs => .val (.mk (w.idOf dm) (withComponents dm cs) cs)
    | .err => .err
    | .running => .running
  | .group | .basicEdge =>
    let dm := clone mp
    match makeList mk (slice dm componentsKey) with
    | .val cs => .val (.mk (w.idOf (withComponents dm cs)) (withComponents dm cs) cs)
    | .err => .err
    | .running => .running
  | .draw | .gear => .val (.mk (w.idOf mp) mp [])
  | .copies =>
    match makeList mk [sub mp componentKey] with
    | .val cs => .val (.mk (w.idOf mp) mp cs)
    | .err => .err
    | .running => .running
  | .repeatEdge | .xIntercept | .around =>
    let dm := clone mp
    match makeList mk (b.holes.map (sub dm)) with
    | .val cs => .val (.mk (w.idOf (fillHoles dm b.holes cs)) (fillHoles dm b.holes cs) cs)
    | .err => .err
    | .running => .running

/-- dom/app_context.go:149-166 (`MakeComponent`), with dom/document.go:17-47 (`CreateCustomComponent`). `customs` are the custom components
of the document with their maps. -/
def World.make (w : World F) (customs : List (Text × DMap F)) : Nat → DMap F → Out (Node F)
  | 0, _ => .running
  | n + 1, dm =>
    match w.text dm typeKey with
    | none => .err
    | some t =>
      match Built.ofText t with
      | some b => w.create (w.make customs n) b dm
      | none =>
        match customs.lookup t with
        | some base => w.make customs n (customMap base dm)
        | none => .err

/-- dom/document.go:68-73 (`Document`), dom/document.go:9-12 (`DocumentContext`). -/
structure Doc (F : Type u) where
  id : Text
  map : DMap F
  params : DMap F
  customs : List (Text × DMap F)
  context : DMap F
  parts : List (Node F)

/-- `m[k] = v` of Go for other maps. -/
def assign {α : Type u} (k : Text) (v : α) : List (Text × α) → List (Text × α)
  | [] => [(k, v)]
  | (k', v') :: m => if k' = k then (k, v) :: m else (k', v') :: assign k v m

mutual

/-- dom/app_context.go:374-387 (`populateElementsByID`): the elements with their maps. -/
def Node.populate : Node F → List (Text × DMap F) → List (Text × DMap F)
  | .mk i m cs, acc => Node.populates cs (assign i m acc)

/-- dom/app_context.go:379-384: the children. -/
def Node.populates : List (Node F) → List (Text × DMap F) → List (Text × DMap F)
  | [], acc => acc
  | c :: cs, acc => Node.populates cs (c.populate acc)

end

/-- dom/app_context.go:337-346: the elements of a document by their ids. -/
def Doc.elements (d : Doc F) : List (Text × DMap F) := Node.populates d.parts []

/-- dom/app_context.go:311-315, with dom/models.go:169-175 (`Defaults`): the map of an imported component, with the parameters of its document
among its defaults. -/
def imported (d : Doc F) (m : DMap F) : DMap F := putKey m defaultsKey (.map (merge (merge (sub m defaultsKey) d.params) d.context))

/-- dom/app_context.go:306-317: one element of the imported document `d`. -/
def World.importElement (w : World F) (d : Doc F) (imp : DMap F) (customs : List (Text × DMap F)) (m : DMap F) : List (Text × DMap F) :=
  match w.text m customTypeKey with
  | none => customs
  | some t => assign ((w.text imp (aliasKey ++ '.' :: t)).getD t) (imported d m) customs

/-- dom/app_context.go:306-317: all elements of the imported document. -/
def World.importDoc (w : World F) (d : Doc F) (imp : DMap F) (customs : List (Text × DMap F)) : List (Text × DMap F) :=
  ((w.order d.elements).map (·.2)).foldl (w.importElement d imp) customs

/-- dom/app_context.go:298-334: the imports of a document, which give custom components and parameters. `parse` is `ParseDocument`. -/
def World.runImports (w : World F) (parse : DMap F → Out (Doc F)) : List (DMap F) → List (Text × DMap F) → DMap F →
    Out (List (Text × DMap F) × DMap F)
  | [], customs, params => .val (customs, params)
  | imp :: imps, customs, params =>
    let path := (w.text imp pathKey).getD []
    let kind := (w.text imp typeKey).getD componentKey
    if kind = componentKey then
      match w.load path with
      | none => .err
      | some dm =>
        match parse dm with
        | .val d => w.runImports parse imps (w.importDoc d imp customs) params
        | .err => .err
        | .running => .running
    else if kind = "svg".toList then
      match w.svg path with
      | none => .err
      | some p =>
        match w.text imp aliasKey, p with
        | some name, some s => w.runImports parse imps customs (putKey params name (.str s))
        | _, _ => .err
    else w.runImports parse imps customs params

/-- dom/app_context.go:271-288: a document that names a file is merged into the document in the file. -/
def refer (d1 dm : DMap F) : DMap F :=
  let dm := remove dm filenameKey
  let d1 := (slice dm importsKey).foldl (fun d imp => addToSlice d importsKey [.map imp]) d1
  merge d1 (remove dm importsKey)

/-- dom/app_context.go:348-356: the map of the document with the maps of the parts as they have been made. -/
def withParts (dm : DMap F) (parts : List (Node F)) : DMap F :=
  parts.foldl (fun m p => addToSlice m partsKey [.map p.map]) (remove (clone dm) partsKey)

/-- dom/app_context.go:269-372 (`ParseDocument`). The last number bounds the files followed, `m` the components inside each other. -/
def World.parse (w : World F) (m : Nat) : Nat → DMap F → Out (Doc F)
  | 0, _ => .running
  | n + 1, dm =>
    match w.text dm filenameKey with
    | some f =>
      match w.load f with
      | none => .err
      | some d1 => w.parse m n (refer d1 dm)
    | none =>
      match w.runImports (w.parse m n) (slice dm importsKey) [] [] with
      | .val (customs, params) =>
        match makeList (w.create (w.make customs m) .part) (slice dm partsKey) with
        | .val ps => .val ⟨w.idOf dm, withParts dm ps, sub dm paramsName, customs, params, ps⟩
        | .err => .err
        | .running => .running
      | .err => .err
      | .running => .running

end Verif.Dyn
