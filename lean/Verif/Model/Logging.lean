import Verif.Model.Dynmap

/-!
# Model of the loggers

util/logging.go. A logger is an index in a list (its pointer); a logger knows its parent. The time of a message is not modelled, and
`fmt.Sprintf` is applied by the caller: a message has the formatted text.
-/

namespace Verif.Log

open Verif.Dyn

universe u

variable {F : Type u}

/-- util/logging.go:11-18 (`LogLevel`). -/
inductive Level where
  | debug
  | info
  | error
  | fatal
  deriving DecidableEq

/-- util/logging.go:14-17: the number of a level. -/
def Level.num : Level → Nat
  | .debug => 0
  | .info => 1
  | .error => 2
  | .fatal => 3

/-- util/logging.go:34-39 (`LogMessage`, without the time). -/
structure Msg (F : Type u) where
  fields : DMap F
  level : Level
  text : Text

/-- util/logging.go:53-62 (`HfdLog`). -/
structure Logger (F : Type u) where
  hasErrors : Bool
  logToStdOut : Level
  messages : List (Msg F)
  staticFields : DMap F
  parent : Option Nat

/-- util/logging.go:64-71 (`NewLog`). -/
def newLog : Logger F := ⟨false, .error, [], [], none⟩

/-- util/logging.go:79-87 (`NewChild`). -/
def newChild (i : Nat) (l : Logger F) : Logger F := ⟨false, l.logToStdOut, [], [], some i⟩

/-- util/logging.go:91-93, 134-137: the static fields under the fields of the message. -/
def withStatic (l : Logger F) (fields : DMap F) : DMap F :=
  if l.staticFields.isEmpty then fields else merge (clone l.staticFields) fields

/-- util/logging.go:103-114 (`addMsg`). -/
def addMsg (l : Logger F) (m : Msg F) : Logger F :=
  { l with messages := l.messages ++ [m], hasErrors := if m.level = .error then true else l.hasErrors }

/-- util/logging.go:89-101 (`logFromChild`). -/
def logFromChild (l : Logger F) (m : Msg F) : Logger F := addMsg l ⟨withStatic l m.fields, m.level, m.text⟩

/-- The loggers, by pointer. -/
abbrev Heap (F : Type u) := List (Logger F)

/-- util/logging.go:138-143: the message a logger makes. -/
def message (l : Logger F) (level : Level) (fields : DMap F) (text : Text) : Msg F := ⟨withStatic l fields, level, text⟩

/-- util/logging.go:133-153 (`Logf`): the loggers afterwards. -/
def logf (h : Heap F) (i : Nat) (level : Level) (fields : DMap F) (text : Text) : Heap F :=
  match h[i]? with
  | none => h
  | some l =>
    let m := message l level fields text
    let h := h.set i (addMsg l m)
    match l.parent with
    | none => h
    | some p =>
      match h[p]? with
      | none => h
      | some q => h.set p (logFromChild q m)

/-- util/logging.go:150-152: is the message printed? -/
def printed (l : Logger F) (level : Level) : Bool := decide (l.logToStdOut.num ≤ level.num)

/-- What a program can do with loggers (the fields `StaticFields` and `LogToStdOut` are public). -/
inductive Op (F : Type u) where
  | new
  | child (i : Nat)
  | setStatic (i : Nat) (fields : DMap F)
  | setStdOut (i : Nat) (level : Level)
  | log (i : Nat) (level : Level) (fields : DMap F) (text : Text)

/-- util/logging.go:64-87, 116-153: one step of a program. -/
def step (h : Heap F) : Op F → Heap F
  | .new => h ++ [newLog]
  | .child i =>
    match h[i]? with
    | none => h
    | some l => h ++ [newChild i l]
  | .setStatic i fields => h.modify i fun l => { l with staticFields := fields }
  | .setStdOut i level => h.modify i fun l => { l with logToStdOut := level }
  | .log i level fields text => logf h i level fields text

/-- A program: its steps one after the other. -/
def run (ops : List (Op F)) (h : Heap F) : Heap F := ops.foldl step h

end Verif.Log
