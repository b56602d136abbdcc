import Verif.Model.PathOps

/-!
# Model of package `dynmap`

A `DynMap` wraps a Go `map[string]interface{}`. Values are modelled as trees (`Val`): what `encoding/json` produces. A Go map is an association
list; its order stands for one iteration order of `range`, and the theorems quantify over all lists. Go maps are references; the model is a tree,
so two places never share a map (the code clones maps when it merges them, and the theorems are about trees). Pointers, `time.Time`, structs
and typed slices (`[]int`, …) are not values of the model; a nil map is not either. All integer types are the one number type `F`.
-/

namespace Verif.Dyn

open Verif.Path (splitOn)

universe u

variable {F : Type u}

/-- The values of a dynmap (dynmap/dynmap.go:15-17): JSON values. `DynMap`, `*DynMap` and `map[string]interface{}` are all `map`. -/
inductive Val (F : Type u) where
  | null
  | bool (b : Bool)
  | num (x : F)
  | str (s : Text)
  | list (l : List (Val F))
  | map (m : List (Text × Val F))

/-- dynmap/dynmap.go:15-17 (`DynMap`). -/
abbrev DMap (F : Type u) := List (Text × Val F)

/-- dynmap/typecast.go:168-198, 203-216 (`ToDynMap`, `ToMap`). -/
def Val.toMap : Val F → Option (DMap F)
  | .map m => some m
  | _ => none

/-- `m[k] = v` of Go. -/
def put (k : Text) (v : Val F) : DMap F → DMap F
  | [] => [(k, v)]
  | (k', v') :: m => if k' = k then (k, v) :: m else (k', v') :: put k v m

/-- `delete(m, k)` of Go. -/
def erase (k : Text) (m : DMap F) : DMap F := m.filter fun e => decide (e.1 ≠ k)

/-- `strings.Split(key, ".")` (e.g. dynmap/dynmap.go:641). -/
def dots (key : Text) : List Text := splitOn '.' key []

/-- dynmap/dynmap.go:737-751: the loop of `Get` over the parts of a dotted key. -/
def getParts (m : DMap F) : List Text → Option (Val F)
  | [] => none
  | [k] => m.lookup k
  | k :: ks =>
    match m.lookup k with
    | none => none
    | some v =>
      match v.toMap with
      | none => none
      | some m' => getParts m' ks

/-- dynmap/dynmap.go:725-753 (`Get`): the literal key first, then the parts of the dotted key. -/
def get (m : DMap F) (key : Text) : Option (Val F) :=
  match m.lookup key with
  | some v => some v
  | none => if (dots key).length = 1 then none else getParts m (dots key)

/-- dynmap/dynmap.go:415-422 (`GetDynMap`). -/
def getDynMap (m : DMap F) (key : Text) : Option (DMap F) := (get m key).bind Val.toMap

/-- The parts under which `Get` finds a key: the map that `GetDynMap` returns is the one stored there, and changing it changes the whole. -/
def place (m : DMap F) (key : Text) : List Text := if (m.lookup key).isSome then [key] else dots key

/-- Storing a changed map at a place where a map was found. -/
def setParts (v : Val F) : List Text → DMap F → DMap F
  | [], m => m
  | [k], m => put k v m
  | k :: ks, m =>
    match m.lookup k with
    | some (.map m') => put k (.map (setParts v ks m')) m
    | _ => m

/-- dynmap/dynmap.go:618-620 (`Put`); `beforePut` only unwraps. -/
def putKey (m : DMap F) (key : Text) (v : Val F) : DMap F := put key v m

/-- dynmap/dynmap.go:646-664: the loop of `PutWithDot` over the parts of the key. The map as it is left, and whether there was no error. -/
def putParts (v : Val F) : List Text → DMap F → DMap F × Bool
  | [], m => (m, true)
  | [k], m => (put k v m, true)
  | k :: ks, m =>
    match m.lookup k with
    | none => (put k (.map (putParts v ks []).1) m, (putParts v ks []).2)
    | some w =>
      match w.toMap with
      | some m' => (put k (.map (putParts v ks m').1) m, (putParts v ks m').2)
      | none => (m, false)

/-- dynmap/dynmap.go:640-665 (`PutWithDot`). The map as it is left, and whether there was no error. -/
def putWithDot (m : DMap F) (key : Text) (v : Val F) : DMap F × Bool :=
  if (dots key).length = 1 then (putKey m key v, true) else putParts v (dots key) m

/-- dynmap/dynmap.go:594-601 (`PutIfAbsent`). -/
def putIfAbsent (m : DMap F) (key : Text) (v : Val F) : DMap F :=
  match get m key with
  | some _ => m
  | none => putKey m key v

/-- dynmap/dynmap.go:553-562 (`AddToSlice`). -/
def addToSlice (m : DMap F) (key : Text) (vs : List (Val F)) : DMap F :=
  let m' := putIfAbsent m key (.list [])
  match get m' key with
  | some (.list l) => putKey m' key (.list (l ++ vs))
  | _ => m'

/-- dynmap/dynmap.go:690-708: the loop of `Remove` over the parts of the key. -/
def removeParts : List Text → DMap F → DMap F
  | [], m => m
  | [k], m => erase k m
  | k :: ks, m =>
    match m.lookup k with
    | none => m
    | some v =>
      match v.toMap with
      | none => m
      | some m' => put k (.map (removeParts ks m')) m

/-- dynmap/dynmap.go:679-709 (`Remove`): the map as it is left. -/
def remove (m : DMap F) (key : Text) : DMap F :=
  if (m.lookup key).isSome then erase key m
  else if (dots key).length = 1 then m else removeParts (dots key) m

/-- dynmap/dynmap.go:672-676 (`RemoveAll`). -/
def removeAll (m : DMap F) (keys : List Text) : DMap F := keys.foldl remove m

/-- dynmap/dynmap.go:579-588 (`PutAll`). -/
def putAll (m : DMap F) (l : DMap F) : DMap F := l.foldl (fun m e => putKey m e.1 e.2) m

/-- dynmap/dynmap.go:152-167 (`Merge`), with dynmap/dynmap.go:146-148 (`Clone`) for the maps that are new. -/
def merge (this : DMap F) : DMap F → DMap F
  | [] => this
  | (key, .map m) :: rest =>
    match getDynMap this key with
    | some m2 => merge (setParts (.map (merge m2 m)) (place this key) this) rest
    | none => merge (putKey this key (.map (merge [] m))) rest
  | (key, v) :: rest => merge (putKey this key v) rest
termination_by l => sizeOf l

/-- dynmap/dynmap.go:146-148 (`Clone`). -/
def clone (m : DMap F) : DMap F := merge [] m

/-- `fmt.Sprintf("%d", i)` for a natural number. -/
def digits (i : Nat) : Text := Nat.toDigits 10 i

/-- dynmap/dynmap.go:82-111 (`Flatten`): each entry is put into the new map. -/
def putFlat (pre : Text) (l : DMap F) (acc : DMap F) : DMap F := l.foldl (fun m e => putKey m (pre ++ '.' :: e.1) e.2) acc

mutual

/-- dynmap/dynmap.go:82-111 (`Flatten`). -/
def flattenInto (acc : DMap F) : DMap F → DMap F
  | [] => acc
  | (k, .map m) :: rest => flattenInto (putFlat k (flattenInto [] m) acc) rest
  | (k, .list l) :: rest => flattenInto (flattenList k 0 acc l) rest
  | (k, v) :: rest => flattenInto (putKey acc k v) rest
termination_by l => sizeOf l

/-- dynmap/dynmap.go:92-103: the members of a slice. -/
def flattenList (k : Text) (i : Nat) (acc : DMap F) : List (Val F) → DMap F
  | [] => acc
  | .map m :: rest => flattenList k (i + 1) (putFlat (k ++ '.' :: digits i) (flattenInto [] m) acc) rest
  | v :: rest => flattenList k (i + 1) (putKey acc (k ++ '.' :: digits i) v) rest
termination_by l => sizeOf l

end

/-- dynmap/dynmap.go:82-111 (`Flatten`). -/
def flatten (m : DMap F) : DMap F := flattenInto [] m

/-- dynmap/dynmap.go:115-124 (`UnFlatten`): `none` stands for the error. -/
def unflattenLoop (acc : DMap F) : DMap F → Option (DMap F)
  | [] => some acc
  | (k, v) :: rest => if (putWithDot acc k v).2 then unflattenLoop (putWithDot acc k v).1 rest else none

/-- dynmap/dynmap.go:115-124 (`UnFlatten`). -/
def unflatten (m : DMap F) : Option (DMap F) := unflattenLoop [] m

/-- `.*?\n`: the text after the first line end, if there is one. -/
def afterLine : Text → Option Text
  | [] => none
  | c :: rest => if c = '\n' then some rest else afterLine rest

/-- `.*?\*/`: the text after the first `*/`, if there is one. -/
def afterBlock : Text → Option Text
  | [] => none
  | c :: rest =>
    match c, rest with
    | '*', '/' :: rest' => some rest'
    | _, _ => afterBlock rest

theorem afterLine_length {s r : Text} (h : afterLine s = some r) : r.length ≤ s.length := by
  induction s with
  | nil => simp [afterLine] at h
  | cons c s ih =>
    unfold afterLine at h
    split at h
    · simp only [Option.some.injEq] at h
      subst h
      simp
    · exact (ih h).trans (by simp)

theorem afterBlock_length {s r : Text} (h : afterBlock s = some r) : r.length ≤ s.length := by
  induction s with
  | nil => simp [afterBlock] at h
  | cons c s ih =>
    unfold afterBlock at h
    split at h
    · simp only [Option.some.injEq] at h
      subst h
      simp only [List.length_cons]
      omega
    · exact (ih h).trans (by simp)

/-- dynmap/dynmap.go:33-39 (`ParseJSON`): the removal of comments, the leftmost match of `(?s)//.*?\n|/\*.*?\*/` again and again. -/
def strip : Text → Text
  | [] => []
  | c :: rest =>
    match c, rest with
    | '/', '/' :: rest' =>
      match _h : afterLine rest' with
      | some r => strip r
      | none => c :: strip ('/' :: rest')
    | '/', '*' :: rest' =>
      match _h : afterBlock rest' with
      | some r => strip r
      | none => c :: strip ('*' :: rest')
    | c, rest => c :: strip rest
termination_by s => s.length
decreasing_by
  all_goals simp only [List.length_cons]
  · have := afterLine_length _h; omega
  · omega
  · have := afterBlock_length _h; omega
  · omega
  · omega

end Verif.Dyn
