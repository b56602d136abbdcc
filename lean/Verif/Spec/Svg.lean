import Verif.Spec.Path
import Verif.Model.PathText

/-!
# Specification: the meaning of SVG path data

The commands `M m L l C c S s Z`, how a list of items spells them, and what the SVG rules prescribe to draw.
-/

namespace Verif.Spec

open Verif Verif.Path

universe u

/-- The supported commands of SVG path data. -/
inductive SvgCmd (K : Type u) where
  | moveTo (p : Pt K)
  | relMoveTo (d : Pt K)
  | lineTo (p : Pt K)
  | relLineTo (d : Pt K)
  | curveTo (a b p : Pt K)
  | relCurveTo (a b d : Pt K)
  | smoothTo (b p : Pt K)
  | relSmoothTo (b d : Pt K)
  | close

section Reading

variable {K : Type u} [Num K]

/-- The item is a number. -/
abbrev Number (t : Text) (x : K) : Prop := toFloat t = some x

/-- The items spell the commands: each command is one letter, followed by exactly its numbers. -/
inductive Reads : List Text → List (SvgCmd K) → Prop where
  | nil : Reads [] []
  | moveTo {a b rest cs x y} : Number a x → Number b y → Reads rest cs → Reads (['M'] :: a :: b :: rest) (.moveTo (x, y) :: cs)
  | relMoveTo {a b rest cs x y} : Number a x → Number b y → Reads rest cs →
      Reads (['m'] :: a :: b :: rest) (.relMoveTo (x, y) :: cs)
  | lineTo {a b rest cs x y} : Number a x → Number b y → Reads rest cs → Reads (['L'] :: a :: b :: rest) (.lineTo (x, y) :: cs)
  | relLineTo {a b rest cs x y} : Number a x → Number b y → Reads rest cs →
      Reads (['l'] :: a :: b :: rest) (.relLineTo (x, y) :: cs)
  | curveTo {a b c d e f rest cs x1 y1 x2 y2 x y} : Number a x1 → Number b y1 → Number c x2 → Number d y2 → Number e x →
      Number f y → Reads rest cs →
      Reads (['C'] :: a :: b :: c :: d :: e :: f :: rest) (.curveTo (x1, y1) (x2, y2) (x, y) :: cs)
  | relCurveTo {a b c d e f rest cs x1 y1 x2 y2 x y} : Number a x1 → Number b y1 → Number c x2 → Number d y2 → Number e x →
      Number f y → Reads rest cs →
      Reads (['c'] :: a :: b :: c :: d :: e :: f :: rest) (.relCurveTo (x1, y1) (x2, y2) (x, y) :: cs)
  | smoothTo {c d e f rest cs x2 y2 x y} : Number c x2 → Number d y2 → Number e x → Number f y → Reads rest cs →
      Reads (['S'] :: c :: d :: e :: f :: rest) (.smoothTo (x2, y2) (x, y) :: cs)
  | relSmoothTo {c d e f rest cs x2 y2 x y} : Number c x2 → Number d y2 → Number e x → Number f y → Reads rest cs →
      Reads (['s'] :: c :: d :: e :: f :: rest) (.relSmoothTo (x2, y2) (x, y) :: cs)
  | close {rest cs} : Reads rest cs → Reads (['Z'] :: rest) (.close :: cs)

end Reading

section Drawing

variable {K : Type u} [Field K]

/-- The state of the SVG pen: the current point, the start of the current subpath, and the second control point of the previous
command if that was a curve. -/
structure Pen (K : Type u) where
  cur : Pt K
  start : Pt K
  ctrl : Option (Pt K)

/-- The pen before the first command. -/
def Pen.initial : Pen K := ⟨(0, 0), (0, 0), none⟩

/-- The first control point of a smooth curve: the reflection of the previous control point. -/
def Pen.reflected (p : Pen K) : Pt K :=
  match p.ctrl with
  | some c => (2 * p.cur.1 - c.1, 2 * p.cur.2 - c.2)
  | none => p.cur

/-- Relative coordinates are relative to the current point. -/
def Pen.rel (p : Pen K) (d : Pt K) : Pt K := (p.cur.1 + d.1, p.cur.2 + d.2)

/-- What a command draws and where the pen is afterwards. Closing draws a line back to the start of the subpath, or nothing if the
pen is there already. -/
def SvgCmd.draw [DecidableEq K] (p : Pen K) : SvgCmd K → List (Stroke K) × Pen K
  | .moveTo q => ([], ⟨q, q, none⟩)
  | .relMoveTo d => ([], ⟨p.rel d, p.rel d, none⟩)
  | .lineTo q => ([.line p.cur q], ⟨q, p.start, none⟩)
  | .relLineTo d => ([.line p.cur (p.rel d)], ⟨p.rel d, p.start, none⟩)
  | .curveTo a b q => ([.curve p.cur a b q], ⟨q, p.start, some b⟩)
  | .relCurveTo a b d => ([.curve p.cur (p.rel a) (p.rel b) (p.rel d)], ⟨p.rel d, p.start, some (p.rel b)⟩)
  | .smoothTo b q => ([.curve p.cur p.reflected b q], ⟨q, p.start, some b⟩)
  | .relSmoothTo b d => ([.curve p.cur p.reflected (p.rel b) (p.rel d)], ⟨p.rel d, p.start, some (p.rel b)⟩)
  | .close => (if p.cur = p.start then [] else [.line p.cur p.start], ⟨p.start, p.start, none⟩)

/-- What a list of commands draws. -/
def svgDraw [DecidableEq K] (p : Pen K) : List (SvgCmd K) → List (Stroke K)
  | [] => []
  | c :: cs => (c.draw p).1 ++ svgDraw (c.draw p).2 cs

/-- Is this a smooth curve command? -/
def SvgCmd.isSmooth : SvgCmd K → Bool
  | .smoothTo _ _ => true
  | .relSmoothTo _ _ => true
  | _ => false

/-- Each `close` is issued at the start of the subpath, where it has nothing to draw, and is not followed by a smooth
curve. -/
def ClosesNothing [DecidableEq K] (p : Pen K) : List (SvgCmd K) → Prop
  | [] => True
  | .close :: cs => p.cur = p.start ∧ (∀ c, cs.head? = some c → c.isSmooth = false) ∧
      ClosesNothing ⟨p.start, p.start, none⟩ cs
  | c :: cs => ClosesNothing (c.draw p).2 cs

/-- No `close` at all. -/
def NoClose (cs : List (SvgCmd K)) : Prop := ∀ c ∈ cs, c ≠ .close

end Drawing

end Verif.Spec
