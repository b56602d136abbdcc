import Verif.Props.Join
import Verif.Props.Lines
import Verif.Model.Parts

/-!
# Properties of the offset of a path

C76 about `OffsetTransform`. The statements use `Spec/Join.lean`.
-/

namespace Verif.Path

open Verif Verif.Spec Verif.XNum

universe u

set_option linter.unusedSectionVars false

/-! ## Printing and reading a path with infinite and undefined coordinates -/

theorem clean_fmtX (n : Nat) (x : XNum ℝ) : Clean (Num.fmt n x) := by
  cases x with
  | fin a => exact clean_fmt n a
  | pinf => exact (show Clean "+Inf".toList from ⟨by decide, by decide, .inr (by decide)⟩)
  | ninf => exact (show Clean "-Inf".toList from ⟨by decide, by decide, .inr (by decide)⟩)
  | nan => exact (show Clean "NaN".toList from ⟨by decide, by decide, .inr (by decide)⟩)

theorem toFloat_fmtX (n : Nat) (x : XNum ℝ) : ∃ y : XNum ℝ, toFloat (Num.fmt n x) = some y := by
  cases x with
  | fin a =>
    refine ⟨fin (Decimal.rounded n a), ?_⟩
    have ht : trimSpace (Decimal.fmt n a) = Decimal.fmt n a :=
      trimSpace_of_none (fun c hc => (fmtChar_facts (signedText_chars _ _ _ c hc)).2.2)
    have h : (Decimal.parseDecimal (Decimal.fmt n a)).map Decimal.value = some (Decimal.rounded n a) := Decimal.value_parse_fmt n a
    unfold toFloat
    rw [fmt_fin, ht]
    change (match Decimal.parseDecimal (Decimal.fmt n a) with
      | some d => some (fin (Decimal.value d))
      | none => parseSpecial (Decimal.fmt n a)) = _
    cases hp : Decimal.parseDecimal (Decimal.fmt n a) with
    | none => rw [hp] at h; cases h
    | some d =>
      rw [hp] at h
      simp only [Option.map_some, Option.some.injEq] at h
      rw [← h]
  | pinf =>
    refine ⟨pinf, ?_⟩
    change (match Decimal.parseDecimal "+Inf".toList with
      | some d => some (fin (Decimal.value d))
      | none => parseSpecial "+Inf".toList) = some (pinf : XNum ℝ)
    rw [show Decimal.parseDecimal "+Inf".toList = none by decide +kernel]
    rfl
  | ninf =>
    refine ⟨ninf, ?_⟩
    change (match Decimal.parseDecimal "-Inf".toList with
      | some d => some (fin (Decimal.value d))
      | none => parseSpecial "-Inf".toList) = some (ninf : XNum ℝ)
    rw [show Decimal.parseDecimal "-Inf".toList = none by decide +kernel]
    rfl
  | nan =>
    refine ⟨nan, ?_⟩
    change (match Decimal.parseDecimal "NaN".toList with
      | some d => some (fin (Decimal.value d))
      | none => parseSpecial "NaN".toList) = some (nan : XNum ℝ)
    rw [show Decimal.parseDecimal "NaN".toList = none by decide +kernel]
    rfl

theorem parseItems_printedX (n : Nat) (q : Path (XNum ℝ)) : ∀ p : Path (XNum ℝ), ∃ r, parseItems (q.flatMap (segItems n)) p = some (p ++ r) ∧
    r.map Segment.isMove = q.map Segment.isMove := by
  induction q with
  | nil => intro p; exact ⟨[], by simp [parseItems, parseLoop], rfl⟩
  | cons s q ih =>
    intro p
    cases s with
    | move a b =>
      obtain ⟨x, hx⟩ := toFloat_fmtX n b.x
      obtain ⟨y, hy⟩ := toFloat_fmtX n b.y
      obtain ⟨r, h1, h2⟩ := ih (moveTo p (newPoint x y))
      refine ⟨.move (currentPosition p) (newPoint x y) :: r, ?_, by simp [h2, Segment.isMove]⟩
      rw [List.flatMap_cons, segItems, List.cons_append, parseItems_cons]
      simp [nextCommand, nextFloats, hx, hy, h1]
      simp [moveTo]
    | line a b =>
      obtain ⟨x, hx⟩ := toFloat_fmtX n b.x
      obtain ⟨y, hy⟩ := toFloat_fmtX n b.y
      obtain ⟨r, h1, h2⟩ := ih (lineTo p (newPoint x y))
      refine ⟨.line (currentPosition p) (newPoint x y) :: r, ?_, by simp [h2, Segment.isMove]⟩
      rw [List.flatMap_cons, segItems, List.cons_append, parseItems_cons]
      simp [nextCommand, nextFloats, hx, hy, h1]
      simp [lineTo]
    | curve a c1 c2 b =>
      obtain ⟨x1, hx1⟩ := toFloat_fmtX n c1.x
      obtain ⟨y1, hy1⟩ := toFloat_fmtX n c1.y
      obtain ⟨x2, hx2⟩ := toFloat_fmtX n c2.x
      obtain ⟨y2, hy2⟩ := toFloat_fmtX n c2.y
      obtain ⟨x, hx⟩ := toFloat_fmtX n b.x
      obtain ⟨y, hy⟩ := toFloat_fmtX n b.y
      obtain ⟨r, h1, h2⟩ := ih (curveTo p (newPoint x1 y1) (newPoint x2 y2) (newPoint x y))
      refine ⟨.curve (currentPosition p) (newPoint x1 y1) (newPoint x2 y2) (newPoint x y) :: r, ?_, by simp [h2, Segment.isMove]⟩
      rw [List.flatMap_cons, segItems, List.cons_append, parseItems_cons]
      simp [nextCommand, nextFloats, hx, hy, hx1, hx2, hy1, hy2, h1]
      simp [curveTo]

/-- Rebuilding succeeds on every path, and keeps the kinds of the segments as far as moves are concerned. -/
theorem rebuild_ok (p : Path (XNum ℝ)) : ∃ q, rebuild p = .ok q ∧ q.map Segment.isMove = p.map Segment.isMove := by
  obtain ⟨r, h1, h2⟩ := parseItems_printedX 7 p []
  refine ⟨r, ?_, h2⟩
  rw [rebuild, parsePath, printPath_items_of (clean_fmtX 7), h1]
  rfl

theorem newPath_rooted {F : Type u} [Arith F] (p : Path F) : ∀ s, (newPath p).head? = some s → s.isMove = true := by
  intro s hs
  cases p with
  | nil => cases hs
  | cons c p =>
    have key : ∀ (a b : Point F) (l : Path F), (fixHeadMove (.move a b :: l)).head? = some s → s.isMove = true := by
      intro a b l h
      simp only [fixHeadMove] at h
      split at h <;> cases h <;> rfl
    cases c with
    | move a b => exact key _ _ _ hs
    | line a b => exact key _ _ _ hs
    | curve a c d b => exact key _ _ _ hs

/-! ## C76 Offsetting a path -/

theorem offsetPlain_ok (n : Nat) (so : Int) (d : XNum ℝ) (p : Path (XNum ℝ)) : ∃ r, offsetPlain n so d p = .ok r ∧ OneRun r := by
  obtain ⟨q, h1, h2⟩ := rebuild_ok (newPath (offsetSegments so d p))
  have hq : ∀ s, q.head? = some s → s.isMove = true := by
    intro s hs
    have := congrArg List.head? h2
    rw [List.head?_map, List.head?_map, hs] at this
    cases hp : (newPath (offsetSegments so d p)).head? with
    | none => rw [hp] at this; simp at this
    | some t =>
      rw [hp] at this
      simp only [Option.map_some, Option.some.injEq] at this
      rw [this, newPath_rooted _ t hp]
  unfold offsetPlain
  simp only [h1, Res.ok_bind]
  exact C71_one_run n so _ q hq

/-- One piece, without regard to the size. -/
theorem offset_single (n : Nat) (so : Int) (d : XNum ℝ) (fuel : Nat) (p : Path (XNum ℝ)) (h : (splitPathOnMove p).length ≤ 1) :
    ∃ r, offsetPath n so d (fuel + 1) .unknown p = some (.ok r) := by
  rw [offsetPath]
  split
  · exact ⟨_, rfl⟩
  · rw [if_neg (by omega)]
    split
    · exact ⟨_, rfl⟩
    · obtain ⟨r, hr, -⟩ := offsetPlain_ok n so d p
      rw [hr]
      exact ⟨r, by simp [wrongSide]⟩

theorem offset_fold {α β : Type} (g : Option (Res β) → α → Option (Res β)) (l : List α)
    (h : ∀ q ∈ l, ∀ drawn, ∃ r, g (some (.ok drawn)) q = some (.ok r)) : ∀ drawn, ∃ r, l.foldl g (some (.ok drawn)) = some (.ok r) := by
  induction l with
  | nil => intro drawn; exact ⟨drawn, rfl⟩
  | cons q l ih =>
    intro drawn
    obtain ⟨r, hr⟩ := h q (by simp) drawn
    simp only [List.foldl_cons, hr]
    exact ih (fun q hq => h q (by simp [hq])) _

theorem split_single {F : Type u} [Arith F] {p q : Path F} (h : q ∈ splitPathOnMove p) : (splitPathOnMove q).length ≤ 1 := by
  cases p with
  | nil => cases h
  | cons c rest =>
    obtain ⟨⟨m, ss, rfl, hm, hs, -⟩, -⟩ := splitLoop_pieces rest _ (piece_first c) q h
    exact splitLoop_run ss _ hs

theorem offset_unknown (n : Nat) (so : Int) (d : XNum ℝ) (fuel : Nat) (p : Path (XNum ℝ)) :
    ∃ r, offsetPath n so d (fuel + 2) .unknown p = some (.ok r) := by
  by_cases h : 1 < (splitPathOnMove p).length
  · rw [offsetPath]
    split
    · exact ⟨_, rfl⟩
    · rw [if_pos h]
      refine offset_fold _ _ (fun q hq drawn => ?_) _
      obtain ⟨r, hr⟩ := offset_single n so d fuel q (split_single hq)
      simp only [hr]
      exact ⟨_, rfl⟩
  · exact offset_single n so d (fuel + 1) p (by omega)

theorem offset_piece (n : Nat) (so : Int) (d : XNum ℝ) (fuel : Nat) (size : SizeShouldBe) (p : Path (XNum ℝ)) (h : (splitPathOnMove p).length ≤ 1) :
    ∃ r, offsetPath n so d (fuel + 3) size p = some (.ok r) := by
  rw [offsetPath]
  split
  · exact ⟨_, rfl⟩
  · rw [if_neg (by omega)]
    split
    · exact ⟨_, rfl⟩
    · obtain ⟨r, hr, -⟩ := offsetPlain_ok n so d p
      rw [hr]
      simp only
      split
      · exact offset_unknown n so d fuel _
      · exact ⟨r, rfl⟩

/-- **C76.** Offsetting ends and succeeds on every path, at every distance, whatever the size of the result should be. -/
theorem C76_succeeds (n : Nat) (so : Int) (d : XNum ℝ) (size : SizeShouldBe) (p : Path (XNum ℝ)) (fuel : Nat) (hf : 4 ≤ fuel) :
    ∃ r, offsetPath n so d fuel size p = some (.ok r) := by
  obtain ⟨fuel, rfl⟩ := Nat.exists_eq_add_of_le' hf
  by_cases h : 1 < (splitPathOnMove p).length
  · rw [offsetPath]
    split
    · exact ⟨_, rfl⟩
    · rw [if_pos h]
      refine offset_fold _ _ (fun q hq drawn => ?_) _
      obtain ⟨r, hr⟩ := offset_piece n so d fuel size q (split_single hq)
      simp only [hr]
      exact ⟨_, rfl⟩
  · exact offset_piece n so d (fuel + 1) size p (by omega)

/-- **C76.** At distance zero nothing changes. -/
theorem C76_zero (n : Nat) (so : Int) (size : SizeShouldBe) (p : Path (XNum ℝ)) (fuel : Nat) :
    offsetPath n so (fin 0) (fuel + 1) size p = some (.ok p) := by
  rw [offsetPath, if_pos (by simp)]

/-- **C76.** A drawing in one go is offset to a drawing in one go. -/
theorem C76_one_run (n : Nat) (so : Int) (d : ℝ) (hd : d ≠ 0) (a b : Point (XNum ℝ)) (run : Path (XNum ℝ)) (hm : ∀ s ∈ run, s.isMove = false)
    (hne : run ≠ []) (fuel : Nat) (r : Path (XNum ℝ))
    (h : offsetPath n so (fin d) (fuel + 1) .unknown (.move a b :: run) = some (.ok r)) : OneRun r := by
  have hs : (splitPathOnMove (.move a b :: run)).length ≤ 1 := splitLoop_run run _ hm
  rw [offsetPath, if_neg (by simp [hd]), if_neg (by omega)] at h
  obtain ⟨r', hr, h1⟩ := offsetPlain_ok n so (fin d) (.move a b :: run)
  have ht : trimMove (.move a b :: run) ≠ [] := by
    have : trimMove (.move a b :: run) = trimMove run := rfl
    rw [this, trimMove_run hm]
    exact hne
  rw [if_neg ht, hr] at h
  simp only [wrongSide, Bool.false_eq_true, if_false, Option.some.injEq, Res.ok.injEq] at h
  rw [← h]
  exact h1

/-- The offset has the size that is asked for: in both directions it is not as large as the path, or not as small. -/
def HasSize (size : SizeShouldBe) (p q : Path (XNum ℝ)) : Prop :=
  match size with
  | .unknown => True
  | .smaller => ((measure p).1 <=. (measure q).1) = false ∧ ((measure p).2 <=. (measure q).2) = false
  | .larger => ((measure q).1 <=. (measure p).1) = false ∧ ((measure q).2 <=. (measure p).2) = false

/-- **C76.** A drawing in one go is offset to the one side if that has the size that is asked for, and to the other side if not. The size of the other one is not
looked at. -/
theorem C76_size (n : Nat) (so : Int) (d : ℝ) (size : SizeShouldBe) (a b : Point (XNum ℝ)) (run : Path (XNum ℝ)) (hm : ∀ s ∈ run, s.isMove = false)
    (fuel : Nat) (r : Path (XNum ℝ)) (h : offsetPath n so (fin d) (fuel + 1) .unknown (.move a b :: run) = some (.ok r)) (hr : run ≠ [])
    (hd : d ≠ 0) : (HasSize size (.move a b :: run) r → offsetPath n so (fin d) (fuel + 1) size (.move a b :: run) = some (.ok r)) ∧
      (¬ HasSize size (.move a b :: run) r → offsetPath n so (fin d) (fuel + 1) size (.move a b :: run) =
        offsetPath n so (fin d) fuel .unknown (reversePath (.move a b :: run))) := by
  have hs : (splitPathOnMove (.move a b :: run)).length ≤ 1 := splitLoop_run run _ hm
  have ht : trimMove (.move a b :: run) ≠ [] := by
    have : trimMove (.move a b :: run) = trimMove run := rfl
    rw [this, trimMove_run hm]
    exact hr
  obtain ⟨r', hr', h1⟩ := offsetPlain_ok n so (fin d) (.move a b :: run)
  rw [offsetPath, if_neg (by simp [hd]), if_neg (by omega), if_neg ht, hr'] at h
  simp only [wrongSide, Bool.false_eq_true, if_false, Option.some.injEq, Res.ok.injEq] at h
  subst h
  rw [offsetPath, if_neg (by simp [hd]), if_neg (by omega), if_neg ht, hr']
  simp only
  have key : wrongSide size (.move a b :: run) r' = true ↔ ¬ HasSize size (.move a b :: run) r' := by
    cases size <;> simp [wrongSide, HasSize, measure, -not_and, not_and_or]
  by_cases hw : wrongSide size (.move a b :: run) r' = true
  · exact ⟨fun h => absurd h (key.mp hw), fun _ => by rw [if_pos hw]⟩
  · exact ⟨fun _ => by rw [if_neg hw], fun h => absurd (key.mpr h) hw⟩

/-- **C76.** Before they are rounded and joined, the offsets of lines are exactly parallel to them at the distance; a line whose ends agree
to the precision has none. -/
theorem C76_lines (so : Int) (d : ℝ) (l : List (Point ℝ × Point ℝ)) :
    ∃ l' : List (Point ℝ × Point ℝ),
      strokes (offsetSegments so (fin d) (finPath (l.map fun x => .line x.1 x.2))) = strokes (finPath (l'.map fun x => .line x.1 x.2)) ∧
        List.Forall₂ (fun x x' => ParallelAt d x.1 x.2 x'.1 x'.2)
          (l.filter fun x => !(finPt x.1).equalsPrecision (finPt x.2) so) l' := by
  induction l with
  | nil => exact ⟨[], rfl, .nil⟩
  | cons x l ih =>
    obtain ⟨l', h1, h2⟩ := ih
    have hc : ∀ (s : Segment (XNum ℝ)) p, offsetSegments so (fin d) (s :: p) = offsetSegments so (fin d) [s] ++ offsetSegments so (fin d) p := by
      intro s p
      simp [offsetSegments]
    rw [List.map_cons, finPath_cons, hc, strokes_append, h1]
    by_cases hq : (finPt x.1).equalsPrecision (finPt x.2) so = true
    · refine ⟨l', ?_, by simpa [List.filter_cons, hq] using h2⟩
      have : offsetSegments so (fin d) [finSeg (.line x.1 x.2)] = [] := by
        simp [offsetSegments, finSeg, Segment.isMove, C40_offset, hq]
      rw [this]
      rfl
    · have hne : pt x.1 ≠ pt x.2 := by
        intro e
        apply hq
        simp only [pt, Prod.mk.injEq] at e
        simp [Point.equalsPrecision, Point.equals, finPt, e]
      obtain ⟨a', b', e, p1, p2, p3, -, p5⟩ := C40_parallel x.1 x.2 hne (-d)
      refine ⟨(a', b') :: l', ?_, ?_⟩
      · have : offsetSegments so (fin d) [finSeg (.line x.1 x.2)] = [.move zeroPoint (finPt a'), .line (finPt a') (finPt b')] := by
          simp [offsetSegments, finSeg, Segment.isMove, C40_offset, hq, e, Segment.start]
        rw [this]
        rfl
      · simp only [List.filter_cons, hq, Bool.not_false, if_true]
        refine .cons ⟨p1, p2, p3, ?_⟩ h2
        rw [p5, len]
        simp only [pt, neg_mul, neg_neg]
        congr 2
        ring

/-- Not vacuous: the side of a square. -/
example : ∃ l' : List (Point ℝ × Point ℝ),
      strokes (offsetSegments 3 (fin 1) (finPath ([(⟨0, 0, 0⟩, ⟨1, 0, 0⟩)].map fun x => .line x.1 x.2))) = strokes (finPath (l'.map fun x => .line x.1 x.2)) ∧
        List.Forall₂ (fun x x' => ParallelAt 1 x.1 x.2 x'.1 x'.2) [(⟨0, 0, 0⟩, ⟨1, 0, 0⟩)] l' := by
  obtain ⟨l', h1, h2⟩ := C76_lines 3 1 [(⟨0, 0, 0⟩, ⟨1, 0, 0⟩)]
  refine ⟨l', h1, ?_⟩
  have hd : Decimal.fmt 3 (0 : ℝ) ≠ Decimal.fmt 3 (1 : ℝ) := by
    intro e
    have := Decimal.fmt_close e
    norm_num at this
  simpa [List.filter_cons, Point.equalsPrecision, finPt, hd] using h2

end Verif.Path
