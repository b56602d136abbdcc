import Verif.Lemmas.PathText

/-!
# C17, C18: printing and parsing SVG path text
-/

namespace Verif.Path

open Verif Verif.Spec

universe u

set_option linter.unusedSectionVars false

/-! ## C17 Printing a path and parsing it back keeps the drawing -/

section RoundTrip

variable {K : Type u} [Field K] [LinearOrder K] [IsStrictOrderedRing K] [FloorRing K]

/-- A point of the plane with both coordinates rounded to `n` decimals. -/
def roundPt (n : Nat) (p : Pt K) : Pt K := (Decimal.rounded n p.1, Decimal.rounded n p.2)

/-- The same command with every coordinate it carries rounded to `n` decimals. -/
def SameRounded (n : Nat) : Segment K → Segment K → Prop
  | .move _ e, .move _ e' => pt e' = roundPt n (pt e)
  | .line _ e, .line _ e' => pt e' = roundPt n (pt e)
  | .curve _ c d e, .curve _ c' d' e' => pt c' = roundPt n (pt c) ∧ pt d' = roundPt n (pt d) ∧ pt e' = roundPt n (pt e)
  | _, _ => False

/-- **C17.** Printing any path with `n` decimals and parsing the text succeeds and gives the same commands with rounded coordinates,
each starting where the previous one ended. -/
theorem C17_round_trip (n : Nat) (p : Path K) :
    ∃ q, parsePath (printPath n p) = some q ∧ List.Forall₂ (SameRounded n) p q ∧ Connected q := by
  refine ⟨_, parsePath_printed n p, ?_, redraw_connected n p [] (show Connected ([] : Path K) from trivial)⟩
  have key : ∀ (p r : Path K), ∃ q, p.foldl (redraw n) r = r ++ q ∧ List.Forall₂ (SameRounded n) p q := by
    intro p
    induction p with
    | nil => intro r; exact ⟨[], by simp, .nil⟩
    | cons s p ih =>
      intro r
      obtain ⟨q, h1, h2⟩ := ih (redraw n r s)
      refine ⟨redrawn n r s :: q, by rw [List.foldl_cons, h1, redraw_eq]; simp, .cons ?_ h2⟩
      cases s
      · exact pt_roundPoint n _
      · exact pt_roundPoint n _
      · exact ⟨pt_roundPoint n _, pt_roundPoint n _, pt_roundPoint n _⟩
  obtain ⟨q, h1, h2⟩ := key p []
  rw [h1]; exact h2

/-- **C17.** If the path is connected (as every drawn path is, C14), the parsed path draws the same strokes with every point
rounded. -/
theorem C17_strokes (n : Nat) (p : Path K) (h : Connected p) :
    ∃ q, parsePath (printPath n p) = some q ∧ strokes q = (strokes p).map (Stroke.map (roundPt n)) := by
  refine ⟨_, parsePath_printed n p, ?_⟩
  rw [redraw_strokes n p [] origin (by simp [pt_roundPoint, origin, Arith.zero]) h]
  rfl

/-- **C17.** For any path at all, also one with gaps: the text is read as the rounded strokes that SVG draws, beginning at the origin. -/
theorem C17_drawn (n : Nat) (p : Path K) :
    ∃ q, parsePath (printPath n p) = some q ∧ strokes q = (svgStrokes (0, 0) p).map (Stroke.map (roundPt n)) := by
  refine ⟨_, parsePath_printed n p, ?_⟩
  rw [redraw_svg n p [] (0, 0) (by simp [origin, Arith.zero, currentPosition, pt])]
  rfl

/-- **C17.** The rounding moves a coordinate by at most half a unit of the last decimal, and rounding twice is rounding once. -/
theorem C17_rounding (n : Nat) (x : K) :
    |Decimal.rounded n x - x| ≤ 1 / 2 / 10 ^ n ∧ Decimal.rounded n (Decimal.rounded n x) = Decimal.rounded n x :=
  ⟨Decimal.rounded_close n x, Decimal.rounded_idem n x⟩

end RoundTrip

/-- Not vacuous. -/
example : parsePath (F := ℚ) (printPath 2 ([.move ⟨0, 0, 0⟩ ⟨1 / 3, -2, 0⟩, .curve ⟨1 / 3, -2, 0⟩ ⟨1, 1, 0⟩ ⟨2, 2, 0⟩ ⟨1 / 8, 5, 0⟩] : Path ℚ)) =
    some [.move ⟨0, 0, -1⟩ ⟨33 / 100, -2, -1⟩,
      .curve ⟨33 / 100, -2, -1⟩ ⟨1, 1, -1⟩ ⟨2, 2, -1⟩ ⟨12 / 100, 5, -1⟩] := by decide +kernel

/-! ## C18 SVG path text means what SVG says, or is refused -/

section Svg

variable {K : Type u} [Field K] [LinearOrder K] [IsStrictOrderedRing K] [FloorRing K]

/-- The full statement of C18 for a list of items: whatever is accepted spells commands of SVG path data and draws what they
prescribe, and whatever spells such commands is accepted. -/
def C18_statement (K : Type u) [Field K] [LinearOrder K] [FloorRing K] (its : List Text) : Prop :=
  (∀ q : Path K, parseItems its [] = some q → ∃ cs, Reads its cs ∧ strokes q = svgDraw .initial cs) ∧
  (∀ cs : List (SvgCmd K), Reads its cs → ∃ q, parseItems its [] = some q ∧ strokes q = svgDraw .initial cs)

/-- **C18, what does hold (a).** If every item that begins with a letter is a single letter, only lists of items that spell supported
commands with exactly their numbers are accepted: unknown commands, missing numbers and malformed numbers are errors. -/
theorem C18_accepts_only_commands_partial (its : List Text) (h : SingleLetters its) (q : Path K)
    (hq : parseItems its [] = some q) : ∃ cs : List (SvgCmd K), Reads its cs :=
  parseItems_reads _ its [] q le_rfl h hq

/-- **C18, what does hold (b).** Items that spell commands in which closing has nothing to do are accepted and draw exactly what the
SVG rules prescribe. -/
theorem C18_meaning_partial (its : List Text) (cs : List (SvgCmd K)) (h : Reads its cs) (hz : ClosesNothing .initial cs) :
    ∃ q : Path K, parseItems its [] = some q ∧ strokes q = svgDraw .initial cs := by
  obtain ⟨q, h1, h2⟩ := parseItems_draw h [] .initial (by simp [Pen.initial]) (Or.inl rfl) hz
  exact ⟨q, h1, by simpa using h2⟩

/-- **C18, what does hold (c).** In particular for all commands except `Z`. -/
theorem C18_no_close_partial (its : List Text) (cs : List (SvgCmd K)) (h : Reads its cs) (hz : NoClose cs) :
    ∃ q : Path K, parseItems its [] = some q ∧ strokes q = svgDraw .initial cs := by
  apply C18_meaning_partial its cs h
  have key : ∀ (cs : List (SvgCmd K)) (pen : Pen K), NoClose cs → ClosesNothing pen cs := by
    intro cs
    induction cs with
    | nil => intro pen _; trivial
    | cons c cs ih =>
      intro pen hz
      have h1 := hz c (by simp)
      have h2 : NoClose cs := fun x hx => hz x (by simp [hx])
      cases c <;> first | exact absurd rfl h1 | exact ih _ h2
  exact key cs _ hz

/-- What an item means is decided by its letters alone, so a list of items spells at most one list of commands. -/
theorem C18_reading_unique (its : List Text) (cs cs' : List (SvgCmd K)) (h : Reads its cs) (h' : Reads its cs') : cs = cs' := by
  induction h generalizing cs' with
  | nil => cases h'; rfl
  | close _ ih => cases h' with | close h' => rw [ih _ h']
  | moveTo a b _ ih => cases h' with | moveTo a' b' h' => rw [ih _ h']; simp_all [Number]
  | relMoveTo a b _ ih => cases h' with | relMoveTo a' b' h' => rw [ih _ h']; simp_all [Number]
  | lineTo a b _ ih => cases h' with | lineTo a' b' h' => rw [ih _ h']; simp_all [Number]
  | relLineTo a b _ ih => cases h' with | relLineTo a' b' h' => rw [ih _ h']; simp_all [Number]
  | curveTo a b c d e f _ ih => cases h' with | curveTo a' b' c' d' e' f' h' => rw [ih _ h']; simp_all [Number]
  | relCurveTo a b c d e f _ ih => cases h' with | relCurveTo a' b' c' d' e' f' h' => rw [ih _ h']; simp_all [Number]
  | smoothTo a b c d _ ih => cases h' with | smoothTo a' b' c' d' h' => rw [ih _ h']; simp_all [Number]
  | relSmoothTo a b c d _ ih => cases h' with | relSmoothTo a' b' c' d' h' => rw [ih _ h']; simp_all [Number]

end Svg

/-- **C18 is false (a)**: an item that merely begins with a command letter is taken for the command. `Move 1 2` is accepted. -/
theorem C18_unknown_command_false : ¬ C18_statement ℚ ["Move".toList, "1".toList, "2".toList] := by
  rintro ⟨h, -⟩
  obtain ⟨cs, hr, -⟩ := h [.move ⟨0, 0, -1⟩ ⟨1, 2, -1⟩] (by decide +kernel)
  cases hr

/-- **C18 is false (b)**: `Z` is ignored. After `M 1 1 L 2 2 Z` the next relative line should start at (1, 1); it starts at (2, 2), and
the closing line is missing. -/
theorem C18_close_false :
    ¬ C18_statement ℚ (["M", "1", "1", "L", "2", "2", "Z", "l", "1", "1"].map String.toList) := by
  rintro ⟨-, h⟩
  have n1 : Number (K := ℚ) "1".toList 1 := by decide +kernel
  have n2 : Number (K := ℚ) "2".toList 2 := by decide +kernel
  obtain ⟨q, h1, h2⟩ := h _ (.moveTo n1 n1 (.lineTo n2 n2 (.close (.relLineTo n1 n1 .nil))))
  have e : parseItems (F := ℚ) (["M", "1", "1", "L", "2", "2", "Z", "l", "1", "1"].map String.toList) [] =
      some [.move ⟨0, 0, -1⟩ ⟨1, 1, -1⟩, .line ⟨1, 1, -1⟩ ⟨2, 2, -1⟩, .line ⟨2, 2, -1⟩ ⟨3, 3, -1⟩] := by decide +kernel
  rw [e] at h1
  injection h1 with h1
  subst h1
  revert h2
  decide +kernel

/-- **C18 is false (c)** for texts: a minus sign does not separate numbers from a letter or from each other, as it does in SVG.
`M-5-6 7 8` (a move to (-5, -6) and a line to (7, 8) in SVG) is accepted and read as a move to (7, 8). -/
theorem C18_minus_false : parsePath (F := ℚ) "M-5-6 7 8".toList = some [.move ⟨0, 0, -1⟩ ⟨7, 8, -1⟩] := by decide +kernel

/-- Not vacuous: a list of items with absolute, relative and smooth commands and a harmless `Z` fulfils the hypotheses. -/
example : ∃ cs : List (SvgCmd ℚ),
    Reads (["M", "1", "1", "l", "1", "0", "L", "1", "1", "Z", "m", "2", "2"].map String.toList) cs ∧ ClosesNothing .initial cs ∧
    SingleLetters (["M", "1", "1", "l", "1", "0", "L", "1", "1", "Z", "m", "2", "2"].map String.toList) := by
  have n0 : Number (K := ℚ) "0".toList 0 := by decide +kernel
  have n1 : Number (K := ℚ) "1".toList 1 := by decide +kernel
  have n2 : Number (K := ℚ) "2".toList 2 := by decide +kernel
  refine ⟨_, .moveTo n1 n1 (.relLineTo n1 n0 (.lineTo n1 n1 (.close (.relMoveTo n2 n2 .nil)))), ?_, ?_⟩
  · refine ⟨rfl, ?_, trivial⟩
    intro c hc
    simp at hc
    subst hc
    rfl
  · intro i hi c hc ha
    simp at hi
    rcases hi with rfl | rfl | rfl | rfl | rfl | rfl | rfl | rfl | rfl | rfl | rfl | rfl | rfl <;>
      simp at hc <;> subst hc <;> rfl

end Verif.Path
