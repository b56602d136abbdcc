import Verif.Model.FileSystem
import Mathlib.Data.List.Lex
import Mathlib.Data.Char

/-!
# What the files of a file system are
-/

namespace Verif.Files

open Verif.Dyn Verif.Path

/-- A name that a directory can have an entry for. -/
def Name (n : Text) : Prop := n ≠ [] ∧ '/' ∉ n ∧ n ≠ ['.'] ∧ n ≠ ['.', '.']

/-- A file system: every directory has different names. -/
def WellNamed (n : Node) : Prop := ∀ p es, n.at p = some (.dir es) → (es.map (·.1)).Nodup ∧ ∀ e ∈ es, Name e.1

/-- There is a file with this content at the place. -/
def FileAt (fs : FS) (p : List Text) (c : Text) : Prop := fs.root.at p = some (.file c)

/-- The name of what is at `q` below the directory `d` ends in `e`. -/
def EndsIn (e d : Text) (q : List Text) : Prop := e <:+ q.getLast?.getD d

/-- The texts joined together that a difference has of the first and of the second text. -/
def Diffs.first (d : Diffs) : Text := (d.filter fun e => e.1 ≠ .insert).flatMap (·.2)

/-- See `Diffs.first`. -/
def Diffs.second (d : Diffs) : Text := (d.filter fun e => e.1 ≠ .delete).flatMap (·.2)

/-- A difference of two texts is about these texts, and has nothing but equal pieces if they are equal. -/
def Honest (diff : Text → Text → Diffs) : Prop :=
  ∀ a b, (diff a b).first = a ∧ (diff a b).second = b ∧ (a = b → ∀ e ∈ diff a b, e.1 = .equal)

/-- Two file systems that differ at most in the files whose names end in `.svg`. -/
def SameButSheets (a b : FS) : Prop :=
  b.cwd = a.cwd ∧ (∀ p, (∃ es, a.root.at p = some (.dir es)) ↔ ∃ es, b.root.at p = some (.dir es)) ∧
    (∀ p, a.root.at p = some .locked ↔ b.root.at p = some .locked) ∧
    ∀ p n c, ¬ ".svg".toList <:+ n → (FileAt a (p ++ [n]) c ↔ FileAt b (p ++ [n]) c)

end Verif.Files
