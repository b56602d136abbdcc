import Verif.Spec.Transform

/-!
# Specification vocabulary for the removal of duplicate strokes
-/

namespace Verif.Spec

open Verif Verif.Path

universe u

/-- `t` prints as `s` drawn backwards, with `n` decimals: both are lines or both are curves, and every coordinate of `t` prints like the
one of `s` in the opposite order. -/
inductive PrintsBack {F : Type u} [Num F] (n : Nat) : Stroke F → Stroke F → Prop
  | line {a b a' b' : Pt F} (h1 : PrintsSame n a' b) (h2 : PrintsSame n b' a) : PrintsBack n (.line a b) (.line a' b')
  | curve {a c d b a' c' d' b' : Pt F} (h1 : PrintsSame n a' b) (h2 : PrintsSame n c' d) (h3 : PrintsSame n d' c) (h4 : PrintsSame n b' a) :
      PrintsBack n (.curve a c d b) (.curve a' c' d' b')

/-- `ys` is what remains of `xs` when a stroke and the next one, which runs back over it, are taken out together, any number of times. -/
inductive Cancels {F : Type u} [Num F] (n : Nat) : List (Stroke F) → List (Stroke F) → Prop
  | done (xs : List (Stroke F)) : Cancels n xs xs
  | pair {before after ys : List (Stroke F)} {s t : Stroke F} (h : PrintsBack n s t) (rest : Cancels n (before ++ after) ys) :
      Cancels n (before ++ s :: t :: after) ys

end Verif.Spec
