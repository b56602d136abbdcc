import Verif.Model.Logging

/-!
# What the loggers should do

The parents of the loggers a program makes, read off the program; no reference to the heap.
-/

namespace Verif.Log

open Verif.Dyn

universe u

variable {F : Type u}

/-- The parents of the loggers that are made, in the order they are made. -/
def parents (ops : List (Op F)) : List (Option Nat) :=
  ops.filterMap fun
    | .new => some none
    | .child i => some (some i)
    | _ => none

/-- Every step concerns a logger that has been made before (`n` loggers exist at the beginning). -/
def Valid : Nat → List (Op F) → Prop
  | _, [] => True
  | n, .new :: ops => Valid (n + 1) ops
  | n, .child i :: ops => i < n ∧ Valid (n + 1) ops
  | n, .setStatic i _ :: ops => i < n ∧ Valid n ops
  | n, .setStdOut i _ :: ops => i < n ∧ Valid n ops
  | n, .log i _ _ _ :: ops => i < n ∧ Valid n ops

/-- `i` is an ancestor of `j`. -/
inductive Ancestor (ps : List (Option Nat)) : Nat → Nat → Prop
  | parent {i j : Nat} : ps[j]? = some (some i) → Ancestor ps i j
  | step {i j k : Nat} : Ancestor ps i j → ps[k]? = some (some j) → Ancestor ps i k

/-- The level and text of the messages logged to the loggers in `who`. -/
def loggedTo (who : Nat → Bool) (ops : List (Op F)) : List (Level × Text) :=
  ops.filterMap fun
    | .log j level _ text => if who j then some (level, text) else none
    | _ => none

/-- The level and text of the messages of logger `i`. -/
def recorded (h : Heap F) (i : Nat) : List (Level × Text) := ((h[i]?).map fun l => l.messages.map fun m => (m.level, m.text)).getD []

/-- `HasErrors` of logger `i`. -/
def hasErrors (h : Heap F) (i : Nat) : Bool := ((h[i]?).map Logger.hasErrors).getD false

end Verif.Log
