import Verif.Model.Dynmap

/-!
# What a nested map is

A nested map is seen through paths of plain keys. Two values are the same Go value when every path sees the same in both; the order of the
association lists does not matter.
-/

namespace Verif.Dyn

universe u

variable {F : Type u}

/-- The value at a path of plain keys. -/
def follow : Val F → List Text → Option (Val F)
  | v, [] => some v
  | .map m, k :: ks =>
    match m.lookup k with
    | some v => follow v ks
    | none => none
  | _, _ :: _ => none

/-- What there is at a path: nothing, a map, or another value. -/
inductive Seen (F : Type u) where
  | nothing
  | map
  | leaf (v : Val F)

def seen : Option (Val F) → Seen F
  | none => .nothing
  | some (.map _) => .map
  | some v => .leaf v

def see (m : DMap F) (p : List Text) : Seen F := seen (follow (.map m) p)

/-- The same nested map, up to the order of the keys. -/
def Same (a b : DMap F) : Prop := ∀ p, see a p = see b p

/-- No map in it has a key twice: what a Go map is. -/
def Tidy (a : DMap F) : Prop := ∀ p m, follow (.map a) p = some (.map m) → (m.map (·.1)).Nodup

/-- No key in it has a dot. -/
def NoDots (a : DMap F) : Prop := ∀ p m, follow (.map a) p = some (.map m) → ∀ e ∈ m, '.' ∉ e.1

/-- No map inside it is empty. -/
def NoEmpty (a : DMap F) : Prop := ∀ p, p ≠ [] → follow (.map a) p ≠ some (.map [])

/-- No value in it is a list. -/
def NoLists (a : DMap F) : Prop := ∀ p l, follow (.map a) p ≠ some (.list l)

/-- The pieces of a JSON text with comments. -/
inductive Piece where
  /-- text outside of strings and comments -/
  | code (s : Text)
  /-- a string literal, with its quotes -/
  | quoted (s : Text)
  /-- `//` … to the end of the line -/
  | line (s : Text)
  /-- `/*` … `*/` -/
  | block (s : Text)

/-- The text of a piece. -/
def Piece.text : Piece → Text
  | .code s => s
  | .quoted s => '"' :: s ++ ['"']
  | .line s => '/' :: '/' :: s ++ ['\n']
  | .block s => '/' :: '*' :: s ++ ['*', '/']

/-- A piece is well formed: code has no slash and no quote, a string has no bare quote, a comment ends where it ends. -/
def Piece.Ok : Piece → Prop
  | .code s => '/' ∉ s ∧ '"' ∉ s
  | .quoted s => Quoted s
  | .line s => '\n' ∉ s
  | .block s => ¬ ['*', '/'] <:+: (s ++ ['*'])
where
  /-- Every quote in the text follows a backslash that is not itself quoted. -/
  Quoted : Text → Prop
    | [] => True
    | ['\\'] => False
    | '\\' :: _ :: rest => Quoted rest
    | c :: rest => c ≠ '"' ∧ Quoted rest

/-- A document with comments, and the same document without. -/
def document (l : List Piece) : Text := (l.map Piece.text).flatten

def isComment : Piece → Bool
  | .line _ => true
  | .block _ => true
  | _ => false

def withoutComments (l : List Piece) : List Piece := l.filter fun p => !isComment p

end Verif.Dyn
