import Verif.Lemmas.Path
import Verif.Model.Transforms
import Verif.Spec.Transform
import Mathlib.Data.List.Perm.Basic

/-!
# Lemmas about the transforms that only rearrange segments
-/

set_option linter.unusedSectionVars false
set_option linter.unusedSimpArgs false

namespace Verif.Path

open Verif Verif.Spec

universe u

variable {F : Type u}

section Arithmetic

variable [Arith F]

theorem strokes_fixHeadMove (p : Path F) : strokes (fixHeadMove p) = strokes p := by
  cases p with
  | nil => rfl
  | cons s p =>
    cases s with
    | move a b => simp only [fixHeadMove]; split <;> simp [strokes_cons, strokeOf]
    | line a b => rfl
    | curve a b c d => rfl

theorem strokes_headMove (p : Path F) : strokes (headMove p) = strokes p := by
  cases p with
  | nil => rfl
  | cons s p => simp only [headMove]; split <;> simp [strokes_cons, strokeOf]

@[simp] theorem strokes_newPath (p : Path F) : strokes (newPath p) = strokes p := by
  rw [newPath, strokes_fixHeadMove, strokes_headMove]

@[simp] theorem strokes_newPathWithoutMove (p : Path F) : strokes (newPathWithoutMove p) = strokes p :=
  strokes_fixHeadMove p

theorem newPath_head (p : Path F) : newPath p = [] ∨ ∃ a b rest, newPath p = .move a b :: rest := by
  cases p with
  | nil => left; rfl
  | cons s p =>
    right
    simp only [newPath, headMove]
    cases s with
    | move a b => simp only [Segment.isMove, if_true, fixHeadMove]; split <;> exact ⟨_, _, _, rfl⟩
    | line a b => simp only [Segment.isMove, Bool.false_eq_true, if_false, fixHeadMove]; split <;> exact ⟨_, _, _, rfl⟩
    | curve a b c d => simp only [Segment.isMove, Bool.false_eq_true, if_false, fixHeadMove]; split <;> exact ⟨_, _, _, rfl⟩

theorem newPath_ne_nil {p : Path F} (h : p ≠ []) : newPath p ≠ [] := by
  cases p with
  | nil => exact absurd rfl h
  | cons s p =>
    simp only [newPath, headMove]
    cases s with
    | move a b => simp only [Segment.isMove, if_true, fixHeadMove]; split <;> simp
    | line a b => simp only [Segment.isMove, Bool.false_eq_true, if_false, fixHeadMove]; split <;> simp
    | curve a b c d => simp only [Segment.isMove, Bool.false_eq_true, if_false, fixHeadMove]; split <;> simp

/-! ### Mapping the points -/

theorem strokeOf_mapPoints (f : Point F → Point F) (g : Pt F → Pt F) (h : ∀ q, pt (f q) = g (pt q)) (s : Segment F) :
    strokeOf (s.mapPoints f) = (strokeOf s).map (Stroke.map g) := by
  cases s <;> simp [Segment.mapPoints, strokeOf, Stroke.map, h]

theorem strokes_mapPoints (f : Point F → Point F) (g : Pt F → Pt F) (h : ∀ q, pt (f q) = g (pt q)) (p : Path F) :
    strokes (p.map (Segment.mapPoints f)) = (strokes p).map (Stroke.map g) := by
  induction p with
  | nil => rfl
  | cons s p ih =>
    rw [List.map_cons, strokes_cons, strokes_cons, ih, strokeOf_mapPoints f g h]
    cases strokeOf s <;> simp

theorem strokes_mapPath (f : Point F → Point F) (g : Pt F → Pt F) (h : ∀ q, pt (f q) = g (pt q)) (p : Path F) :
    strokes (mapPath f p) = (strokes p).map (Stroke.map g) := by
  rw [mapPath, strokes_newPath, strokes_mapPoints f g h]

/-! ### Reversal -/

theorem meets_symm (hs : SymmEq F) {p q : Point F} (h : Meets p q) : Meets q p := by
  rcases h with h | h
  · exact Or.inl h.symm
  · right
    simp only [Point.equals, Bool.and_eq_true] at h ⊢
    exact ⟨by rw [hs]; exact h.1, by rw [hs]; exact h.2⟩

theorem connectedFrom_isChain {cur : Point F} {p : Path F} (h : ConnectedFrom cur p) :
    List.IsChain (fun s t : Segment F => Meets s.stop t.start) p := by
  induction p generalizing cur with
  | nil => exact .nil
  | cons s p ih =>
    cases p with
    | nil => exact .singleton _
    | cons t p => exact .cons_cons h.2.1 (ih h.2)

theorem chained_iff {p : Path F} : Chained p ↔ List.IsChain (fun s t : Segment F => Meets s.stop t.start) p := by
  constructor
  · intro h
    cases p with
    | nil => exact .nil
    | cons s p =>
      cases p with
      | nil => exact .singleton _
      | cons t p => exact .cons_cons h.1 (connectedFrom_isChain (cur := t.start) ⟨meets_refl _, h.2⟩)
  · intro h
    cases p with
    | nil => trivial
    | cons s p =>
      show ConnectedFrom s.stop p
      induction p generalizing s with
      | nil => trivial
      | cons t p ih =>
        cases h with
        | cons_cons h1 h2 => exact ⟨h1, ih t h2⟩

theorem connected_chained {p : Path F} (h : Connected p) : Chained p := by
  cases p with
  | nil => trivial
  | cons s p => exact h.2

@[simp] theorem reverse_start (s : Segment F) : s.reverse.start = s.stop := by cases s <;> rfl
@[simp] theorem reverse_stop (s : Segment F) : s.reverse.stop = s.start := by cases s <;> rfl
@[simp] theorem reverse_isMove (s : Segment F) : s.reverse.isMove = s.isMove := by cases s <;> rfl

theorem strokeOf_reverse (s : Segment F) : strokeOf s.reverse = (strokeOf s).map Stroke.reverse := by
  cases s <;> rfl

theorem chained_reverse (hs : SymmEq F) {p : Path F} (h : Chained p) : Chained (p.reverse.map Segment.reverse) := by
  rw [chained_iff] at h ⊢
  rw [List.isChain_map, List.isChain_reverse]
  refine h.imp ?_
  intro a b hab
  simpa using meets_symm hs hab

theorem strokes_reversed (p : Path F) :
    strokes (p.reverse.map Segment.reverse) = ((strokes p).map Stroke.reverse).reverse := by
  induction p with
  | nil => rfl
  | cons s p ih =>
    rw [List.reverse_cons, List.map_append, strokes_append, ih, strokes_cons]
    simp only [List.map_cons, List.map_nil, strokes_cons, strokeOf_reverse]
    cases strokeOf s <;> simp [strokes]

theorem strokes_addSegments (segs : List (Segment F)) : ∀ {p : Path F}, p ≠ [] → ConnectedFrom (currentPosition p) segs →
    strokes (addSegments p segs) = strokes p ++ strokes segs := by
  induction segs with
  | nil => intro p _ _; simp [addSegments, strokes]
  | cons s segs ih =>
    intro p hp h
    show strokes (addSegments (addSegment p s) segs) = _
    rw [ih (addSegment_ne_nil p s) (by rw [addSegment_position]; exact h.2), strokes_addSegment hp h.1, strokes_cons,
      List.append_assoc]

theorem strokes_addSegments_nil {segs : List (Segment F)} (h : Chained segs) : strokes (addSegments [] segs) = strokes segs := by
  cases segs with
  | nil => rfl
  | cons s segs =>
    show strokes (addSegments (addSegment [] s) segs) = _
    rw [strokes_addSegments segs (addSegment_ne_nil [] s) (by rw [addSegment_position]; exact h), strokes_cons]
    congr 1
    cases hm : s.isMove
    · rw [addSegment_nil_stroke hm]
      rw [strokes_cons, strokes_cons, strokeOf_snapped (meets_refl _)]
      simp [strokes, show strokeOf (.move origin s.start : Segment F) = none from rfl]
    · rw [addSegment_nil_move hm]
      have h1 : strokeOf (snapped origin s) = none := strokeOf_eq_none.2 (by
        unfold snapped; split <;> simp [hm])
      simp [strokes_cons, h1, strokeOf_eq_none.2 hm, strokes]

theorem strokes_reversePath (hs : SymmEq F) {p : Path F} (h : Chained p) :
    strokes (reversePath p) = ((strokes p).map Stroke.reverse).reverse := by
  rw [reversePath, strokes_addSegments_nil (chained_reverse hs h), strokes_reversed]

theorem connected_reversePath (p : Path F) : Connected (reversePath p) :=
  addSegments_connected _ (show Connected ([] : Path F) from trivial)

/-! ### Joining -/

theorem pt_newPoint' (x y : F) : pt (newPoint x y) = unsignedPt (x, y) := rfl

theorem svgStrokes_clone (c : Pt F) (p : Path F) :
    svgStrokes (unsignedPt c) (p.map Segment.clone) = (svgStrokes c p).map (Stroke.map unsignedPt) := by
  induction p generalizing c with
  | nil => rfl
  | cons s p ih =>
    cases s with
    | move a b => exact ih (pt b)
    | line a b => simp only [List.map_cons, Segment.clone, svgStrokes, Stroke.map]; rw [← ih (pt b)]; rfl
    | curve a c d b => simp only [List.map_cons, Segment.clone, svgStrokes, Stroke.map]; rw [← ih (pt b)]; rfl

theorem svgStrokes_clone_moved {p : Path F} (h : ∀ s, p.head? = some s → s.isMove = true) (c d : Pt F) :
    svgStrokes d (p.map Segment.clone) = (svgStrokes c p).map (Stroke.map unsignedPt) := by
  cases p with
  | nil => rfl
  | cons s p =>
    have := h s rfl
    cases s with
    | move a b => exact svgStrokes_clone (pt b) p
    | line a b => simp [Segment.isMove] at this
    | curve a b c d => simp [Segment.isMove] at this

theorem svgStrokes_append_moved {q : Path F} (h : ∀ s, q.head? = some s → s.isMove = true) (c d : Pt F) (p : Path F) :
    svgStrokes c (p ++ q) = svgStrokes c p ++ svgStrokes d q := by
  induction p generalizing c with
  | nil =>
    cases q with
    | nil => rfl
    | cons s q =>
      have := h s rfl
      cases s with
      | move a b => rfl
      | line a b => simp [Segment.isMove] at this
      | curve a b c d => simp [Segment.isMove] at this
  | cons s p ih => cases s <;> simp [svgStrokes, ih]

theorem svgStrokes_appendPath {q : Path F} (h : ∀ s, q.head? = some s → s.isMove = true) (c d : Pt F) (p : Path F) :
    svgStrokes c (appendPath p q) = svgStrokes c p ++ (svgStrokes d q).map (Stroke.map unsignedPt) := by
  cases q with
  | nil => simp [appendPath, svgStrokes]
  | cons s q =>
    have hm : ∀ t, ((s :: q).map Segment.clone).head? = some t → t.isMove = true := by
      intro t ht
      have := h s rfl
      simp only [List.map_cons, List.head?_cons, Option.some.injEq] at ht
      subst ht
      cases s <;> simp_all [Segment.clone, Segment.isMove]
    have key : ∀ p' : Path F, svgStrokes c (p' ++ (s :: q).map Segment.clone) =
        svgStrokes c p' ++ (svgStrokes d (s :: q)).map (Stroke.map unsignedPt) := by
      intro p'
      rw [svgStrokes_append_moved hm c d, svgStrokes_clone_moved h d d]
    simp only [appendPath]
    split
    · exact key p
    · split
      · exact key p
      · rw [key, svgStrokes_append_moved (q := [_]) (by simp [Segment.isMove]) c d]
        simp [svgStrokes]

/-! ### Merging moves -/

/-- No two moves in a row. -/
def NoTwoMoves : Path F → Prop := List.IsChain (fun s t : Segment F => ¬ (s.isMove = true ∧ t.isMove = true))

theorem mergeStep_cases (acc : List (Segment F)) (s : Segment F) :
    (∃ acc' a b e, acc = acc' ++ [.move a b] ∧ s.isMove = true ∧ s.stop = e ∧ mergeStep acc s = acc' ++ [.move a e]) ∨
    (¬ (s.isMove = true ∧ ∃ m, acc.getLast? = some m ∧ m.isMove = true) ∧ mergeStep acc s = acc ++ [s]) := by
  rcases List.eq_nil_or_concat acc with rfl | ⟨acc', l, rfl⟩
  · right; cases s <;> simp [mergeStep]
  · cases s with
    | move c e =>
      cases l with
      | move a b => left; exact ⟨acc', a, b, e, by simp, rfl, rfl, by simp [mergeStep]⟩
      | line a b => right; simp [mergeStep, Segment.isMove]
      | curve a b c d => right; simp [mergeStep, Segment.isMove]
    | line c e => right; simp [mergeStep, Segment.isMove]
    | curve c d e f => right; simp [mergeStep, Segment.isMove]

theorem strokes_mergeStep (acc : List (Segment F)) (s : Segment F) :
    strokes (mergeStep acc s) = strokes acc ++ (strokeOf s).toList := by
  rcases mergeStep_cases acc s with ⟨acc', a, b, e, rfl, h1, h2, h3⟩ | ⟨_, h3⟩
  · rw [h3, strokeOf_eq_none.2 h1, strokes_append, strokes_append]
    simp [show ∀ x y : Point F, strokes [Segment.move x y] = [] from fun _ _ => rfl]
  · rw [h3, strokes_append, strokes_cons]; simp [strokes]

theorem mergeStep_ne_nil (acc : List (Segment F)) (s : Segment F) : mergeStep acc s ≠ [] := by
  rcases mergeStep_cases acc s with ⟨acc', a, b, e, rfl, h1, h2, h3⟩ | ⟨_, h3⟩ <;> rw [h3] <;> simp

theorem mergeStep_chain {acc : List (Segment F)} {s : Segment F} {rest : List (Segment F)}
    (h : List.IsChain (fun s t : Segment F => Meets s.stop t.start) (acc ++ s :: rest)) :
    List.IsChain (fun s t : Segment F => Meets s.stop t.start) (mergeStep acc s ++ rest) := by
  rcases mergeStep_cases acc s with ⟨acc', a, b, e, rfl, h1, h2, h3⟩ | ⟨_, h3⟩
  · rw [h3]
    rw [List.append_assoc, List.isChain_append] at h ⊢
    obtain ⟨i1, i2, i3⟩ := h
    refine ⟨i1, ?_, ?_⟩
    · cases i2 with
      | cons_cons j1 j2 =>
        cases rest with
        | nil => exact .singleton _
        | cons t rest =>
          cases j2 with
          | cons_cons k1 k2 => exact .cons_cons (by rw [h2] at k1; exact k1) k2
    · intro x hx y hy
      simp only [List.singleton_append, List.head?_cons, Option.mem_def, Option.some.injEq] at hy
      subst hy
      exact i3 x hx (.move a b) (by simp)
  · rw [h3, List.append_assoc]; exact h

theorem mergeStep_noTwo {acc : List (Segment F)} (h : NoTwoMoves acc) (s : Segment F) : NoTwoMoves (mergeStep acc s) := by
  unfold NoTwoMoves at *
  rcases mergeStep_cases acc s with ⟨acc', a, b, e, rfl, h1, h2, h3⟩ | ⟨h4, h3⟩
  · rw [h3]
    rw [List.isChain_append] at h ⊢
    refine ⟨h.1, .singleton _, ?_⟩
    intro x hx y hy
    simp only [List.head?_cons, Option.mem_def, Option.some.injEq] at hy
    subst hy
    have := h.2.2 x hx (.move a b) (by simp)
    simpa [Segment.isMove] using this
  · rw [h3, List.isChain_append]
    refine ⟨h, .singleton _, ?_⟩
    intro x hx y hy
    simp only [List.head?_cons, Option.mem_def, Option.some.injEq] at hy
    subst hy
    rintro ⟨i1, i2⟩
    exact h4 ⟨i2, x, hx, i1⟩

theorem mergeStep_head {acc : List (Segment F)} (hne : acc ≠ []) (s : Segment F) :
    ∃ x y, acc.head? = some x ∧ (mergeStep acc s).head? = some y ∧ x.start = y.start ∧ x.isMove = y.isMove := by
  rcases mergeStep_cases acc s with ⟨acc', a, b, e, rfl, h1, h2, h3⟩ | ⟨_, h3⟩
  · rw [h3]
    cases acc' with
    | nil => exact ⟨_, _, rfl, rfl, rfl, rfl⟩
    | cons x acc' => exact ⟨x, x, rfl, rfl, rfl, rfl⟩
  · rw [h3]
    cases acc with
    | nil => exact absurd rfl hne
    | cons x acc => exact ⟨x, x, rfl, rfl, rfl, rfl⟩

theorem strokes_foldl_merge (rest : List (Segment F)) : ∀ acc : List (Segment F),
    strokes (rest.foldl mergeStep acc) = strokes acc ++ strokes rest := by
  induction rest with
  | nil => intro acc; simp [strokes]
  | cons s rest ih => intro acc; rw [List.foldl_cons, ih, strokes_mergeStep, strokes_cons, List.append_assoc]

theorem strokes_mergeMoves (p : Path F) : strokes (mergeMoves p) = strokes p := by
  cases p with
  | nil => rfl
  | cons s p => rw [mergeMoves, strokes_foldl_merge, ← strokes_append]; rfl

theorem foldl_merge_chain (rest : List (Segment F)) : ∀ acc : List (Segment F),
    List.IsChain (fun s t : Segment F => Meets s.stop t.start) (acc ++ rest) →
    List.IsChain (fun s t : Segment F => Meets s.stop t.start) (rest.foldl mergeStep acc) := by
  induction rest with
  | nil => intro acc h; simpa using h
  | cons s rest ih => intro acc h; exact ih _ (mergeStep_chain h)

theorem chained_mergeMoves {p : Path F} (h : Chained p) : Chained (mergeMoves p) := by
  cases p with
  | nil => trivial
  | cons s p => rw [chained_iff] at h ⊢; exact foldl_merge_chain p [s] h

theorem foldl_merge_noTwo (rest : List (Segment F)) : ∀ acc : List (Segment F),
    NoTwoMoves acc → NoTwoMoves (rest.foldl mergeStep acc) := by
  induction rest with
  | nil => intro acc h; exact h
  | cons s rest ih => intro acc h; exact ih _ (mergeStep_noTwo h s)

theorem noTwo_mergeMoves (p : Path F) : NoTwoMoves (mergeMoves p) := by
  cases p with
  | nil => exact .nil
  | cons s p => exact foldl_merge_noTwo p [s] (.singleton _)

theorem foldl_merge_head (rest : List (Segment F)) : ∀ acc : List (Segment F), acc ≠ [] →
    ∃ x y, acc.head? = some x ∧ (rest.foldl mergeStep acc).head? = some y ∧ x.start = y.start ∧ x.isMove = y.isMove := by
  induction rest with
  | nil =>
    intro acc h
    cases acc with
    | nil => exact absurd rfl h
    | cons x acc => exact ⟨x, x, rfl, rfl, rfl, rfl⟩
  | cons s rest ih =>
    intro acc h
    obtain ⟨x, y, h1, h2, h3, h4⟩ := mergeStep_head h s
    obtain ⟨y', z, i1, i2, i3, i4⟩ := ih _ (mergeStep_ne_nil acc s)
    rw [h2] at i1
    simp only [Option.some.injEq] at i1
    subst i1
    exact ⟨x, z, h1, i2, h3.trans i3, h4.trans i4⟩

/-! ### Building paths -/

theorem meets_origin_zero : Meets (origin : Point F) zeroPoint := by
  left
  simp [origin, newPoint, zeroPoint, pt]

theorem fixHeadMove_cases (p : Path F) :
    (∃ a b c rest, p = .move a b :: rest ∧ fixHeadMove p = .move c b :: rest ∧ Meets c (zeroPoint : Point F)) ∨
    ((∀ s, p.head? = some s → s.isMove = false) ∧ fixHeadMove p = p) := by
  cases p with
  | nil => right; simp [fixHeadMove]
  | cons s p =>
    cases s with
    | move a b =>
      left
      simp only [fixHeadMove]
      split
      · exact ⟨a, b, zeroPoint, p, rfl, rfl, meets_refl _⟩
      · next h =>
        refine ⟨a, b, a, p, rfl, rfl, Or.inr ?_⟩
        simpa [Point.equals, zeroPoint, not_or] using h
    | line a b => right; simp [fixHeadMove, Segment.isMove]
    | curve a b c d => right; simp [fixHeadMove, Segment.isMove]

theorem chained_fixHeadMove {p : Path F} (h : Chained p) : Chained (fixHeadMove p) := by
  rcases fixHeadMove_cases p with ⟨a, b, c, rest, rfl, h2, _⟩ | ⟨_, h2⟩
  · rw [h2]; exact h
  · rw [h2]; exact h

theorem noTwo_fixHeadMove {p : Path F} (h : NoTwoMoves p) : NoTwoMoves (fixHeadMove p) := by
  rcases fixHeadMove_cases p with ⟨a, b, c, rest, rfl, h2, _⟩ | ⟨_, h2⟩
  · rw [h2]
    unfold NoTwoMoves at *
    cases rest with
    | nil => exact .singleton _
    | cons t rest =>
      cases h with
      | cons_cons h1 h2 => exact .cons_cons h1 h2
  · rw [h2]; exact h

theorem headMove_cases (p : Path F) : p = [] ∧ headMove p = [] ∨
    (∃ a b rest, p = .move a b :: rest ∧ headMove p = p) ∨
    (∃ s rest, p = s :: rest ∧ s.isMove = false ∧ headMove p = .move origin s.start :: s :: rest) := by
  cases p with
  | nil => left; exact ⟨rfl, rfl⟩
  | cons s p =>
    right
    cases s with
    | move a b => left; exact ⟨a, b, p, rfl, by simp [headMove, Segment.isMove]⟩
    | line a b => right; exact ⟨_, p, rfl, rfl, by simp [headMove, Segment.isMove]⟩
    | curve a b c d => right; exact ⟨_, p, rfl, rfl, by simp [headMove, Segment.isMove]⟩

theorem noTwo_headMove {p : Path F} (h : NoTwoMoves p) : NoTwoMoves (headMove p) := by
  rcases headMove_cases p with ⟨_, h2⟩ | ⟨_, _, _, _, h2⟩ | ⟨s, rest, rfl, h1, h2⟩
  · rw [h2]; exact .nil
  · rw [h2]; exact h
  · rw [h2]; exact .cons_cons (by simp [h1]) h

theorem noTwo_newPath {p : Path F} (h : NoTwoMoves p) : NoTwoMoves (newPath p) := noTwo_fixHeadMove (noTwo_headMove h)

theorem chained_headMove {p : Path F} (h : Chained p) : Chained (headMove p) := by
  rcases headMove_cases p with ⟨_, h2⟩ | ⟨_, _, _, _, h2⟩ | ⟨s, rest, rfl, h1, h2⟩
  · rw [h2]; trivial
  · rw [h2]; exact h
  · rw [h2]; exact ⟨meets_refl _, h⟩

/-- What every path built by `NewPathFromSegments` begins with. -/
theorem newPath_starts {p : Path F} (h : p ≠ []) : ∃ a b rest, newPath p = .move a b :: rest ∧ Meets a (zeroPoint : Point F) := by
  rcases fixHeadMove_cases (headMove p) with ⟨a, b, c, rest, _, h2, h3⟩ | ⟨h1, _⟩
  · exact ⟨c, b, rest, h2, h3⟩
  · exfalso
    rcases headMove_cases p with ⟨h0, _⟩ | ⟨a, b, rest, h3, h2⟩ | ⟨s, rest, rfl, h4, h2⟩
    · exact h h0
    · rw [h2, h3] at h1; simpa [Segment.isMove] using h1 _ rfl
    · rw [h2] at h1; simpa [Segment.isMove] using h1 _ rfl

theorem pt_origin_zero : pt (origin : Point F) = pt (zeroPoint : Point F) := by
  simp [origin, newPoint, zeroPoint, pt]

theorem connected_newPath (hs : SymmEq F) {p : Path F} (h : Chained p) : Connected (newPath p) := by
  by_cases hp : p = []
  · subst hp; trivial
  · obtain ⟨a, b, rest, h1, h2⟩ := newPath_starts hp
    have hc : Chained (newPath p) := chained_fixHeadMove (chained_headMove h)
    rw [h1] at hc ⊢
    refine ⟨?_, hc⟩
    have h3 := meets_symm hs h2
    rcases h3 with h3 | h3
    · left; rw [pt_origin_zero]; exact h3
    · right
      have e := (pt_origin_zero : pt (origin : Point F) = _)
      simp only [pt, Prod.mk.injEq] at e
      simp only [Point.equals, e.1, e.2] at h3 ⊢
      exact h3

end Arithmetic

/-! ### Cleanup -/

section Printing

variable [Num F]

theorem equalsPrecision_prints {n : Int} {p q : Point F} (h : p.equalsPrecision q n = true) :
    p.equals q = true ∨ PrintsSame n.toNat (pt p) (pt q) := by
  unfold Point.equalsPrecision at h
  split at h
  · exact Or.inl h
  · simp only [Bool.and_eq_true, beq_iff_eq] at h; exact Or.inr h

/-- The end of a segment is a pair of numbers. -/
def EndsProperly (s : Segment F) : Prop := Arith.isNaN s.stop.x = false ∧ Arith.isNaN s.stop.y = false

theorem strokes_move_list (l : List (Segment F)) (h : ∀ s ∈ l, s.isMove = true) (p : Path F) : strokes (l ++ p) = strokes p := by
  rw [strokes_append, strokes_all_moves h]; rfl

theorem aligned_setStart {n : Nat} (s : Segment F) (q : Point F) (h : PrintsSame n (pt s.start) (pt q)) :
    List.Forall₂ (Aligned n) (strokeOf s).toList (strokeOf (s.setStart q)).toList := by
  cases s with
  | move a b => exact .nil
  | line a b => exact .cons (.line _ _ _ h) .nil
  | curve a c d b => exact .cons (.curve _ _ _ _ _ h) .nil

theorem aligned_refl {n : Nat} (l : List (Stroke F)) : List.Forall₂ (Aligned n) l l := by
  induction l with
  | nil => exact .nil
  | cons a l ih => exact .cons (.same a) ih

theorem forall₂_append {α β : Type*} {R : α → β → Prop} {a c : List α} {b d : List β} (h : List.Forall₂ R a b)
    (h' : List.Forall₂ R c d) : List.Forall₂ R (a ++ c) (b ++ d) := by
  induction h with
  | nil => exact h'
  | cons h1 _ ih => exact .cons h1 ih

/-- The segment as the cleanup keeps it. -/
def cleaned (n : Int) (prev : Point F) (s : Segment F) : Segment F :=
  if s.start.equals prev then s else if s.start.equalsPrecision prev n then s.setStart prev else s

theorem cleaned_stop (n : Int) (prev : Point F) (s : Segment F) : (cleaned n prev s).stop = s.stop := by
  unfold cleaned; split
  · rfl
  · split <;> simp

theorem cleaned_aligned (n : Int) (prev : Point F) (s : Segment F) :
    List.Forall₂ (Aligned n.toNat) (strokeOf s).toList (strokeOf (cleaned n prev s)).toList := by
  unfold cleaned
  split
  · exact aligned_refl _
  · next h1 =>
    split
    · next h2 =>
      rcases equalsPrecision_prints h2 with h3 | h3
      · exact absurd h3 h1
      · exact aligned_setStart s prev h3
    · exact aligned_refl _

/-- The move that the cleanup puts before a segment. -/
def gap (n : Int) (prev : Point F) (s : Segment F) : List (Segment F) :=
  if s.start.equals prev then [] else [.move prev (cleaned n prev s).start]

theorem gap_moves (n : Int) (prev : Point F) (s : Segment F) : ∀ t ∈ gap n prev s, t.isMove = true := by
  unfold gap; split <;> simp [Segment.isMove]

theorem cleanupLoop_cons (n : Int) (prev : Point F) (s : Segment F) (rest : List (Segment F)) :
    cleanupLoop n prev (s :: rest) =
      if Arith.isNaN s.stop.x || Arith.isNaN s.stop.y then gap n prev s ++ cleanupLoop n prev rest
      else gap n prev s ++ cleaned n prev s :: cleanupLoop n s.stop rest := by
  have h := cleaned_stop n prev s
  simp only [cleanupLoop, gap]
  unfold cleaned at h ⊢
  rw [h]

theorem endsProperly_test {s : Segment F} (h : EndsProperly s) : (Arith.isNaN s.stop.x || Arith.isNaN s.stop.y) = false := by
  simp [h.1, h.2]

theorem cleanupLoop_strokes (n : Int) (p : Path F) : ∀ prev : Point F,
    ∃ l, l.Sublist (strokes p) ∧ List.Forall₂ (Aligned n.toNat) l (strokes (cleanupLoop n prev p)) ∧
      ((∀ s ∈ p, EndsProperly s) → l = strokes p) := by
  induction p with
  | nil => intro prev; exact ⟨[], by simp, .nil, fun _ => rfl⟩
  | cons s p ih =>
    intro prev
    rw [cleanupLoop_cons]
    split
    · next h =>
      obtain ⟨l, h1, h2, h3⟩ := ih prev
      refine ⟨l, ?_, ?_, ?_⟩
      · rw [strokes_cons]; exact h1.trans (List.sublist_append_right _ _)
      · rw [strokes_move_list _ (gap_moves n prev s)]; exact h2
      · intro hp
        have := endsProperly_test (hp s (by simp))
        rw [this] at h
        exact absurd h (by simp)
    · obtain ⟨l, h1, h2, h3⟩ := ih s.stop
      refine ⟨(strokeOf s).toList ++ l, ?_, ?_, ?_⟩
      · rw [strokes_cons]; exact List.Sublist.append_left h1 _
      · rw [strokes_move_list _ (gap_moves n prev s), strokes_cons]
        exact forall₂_append (cleaned_aligned n prev s) h2
      · intro hp
        rw [strokes_cons, h3 (fun t ht => hp t (by simp [ht]))]

theorem cleanupLoop_connected (hs : SymmEq F) (n : Int) (p : Path F) : ∀ prev : Point F, (∀ s ∈ p, EndsProperly s) →
    ConnectedFrom prev (cleanupLoop n prev p) := by
  induction p with
  | nil => intro prev _; trivial
  | cons s p ih =>
    intro prev h
    rw [cleanupLoop_cons, endsProperly_test (h s (by simp))]
    simp only [Bool.false_eq_true, if_false]
    have hrest := ih s.stop (fun t ht => h t (by simp [ht]))
    by_cases he : s.start.equals prev = true
    · have e : gap n prev s = [] := by simp [gap, he]
      have e2 : cleaned n prev s = s := by simp [cleaned, he]
      rw [e, e2]
      exact ⟨meets_symm hs (Or.inr he), hrest⟩
    · have e : gap n prev s = [.move prev (cleaned n prev s).start] := by simp [gap, he]
      rw [e]
      refine ⟨meets_refl _, meets_refl _, ?_⟩
      rw [cleaned_stop]; exact hrest

theorem cleanupLoop_exact (hs : SymmEq F) (n : Int) (p : Path F) : ∀ prev : Point F, (∀ s ∈ p, EndsProperly s) →
    ConnectedFrom prev p → strokes (cleanupLoop n prev p) = strokes p := by
  induction p with
  | nil => intro prev _ _; rfl
  | cons s p ih =>
    intro prev h hc
    rw [cleanupLoop_cons, endsProperly_test (h s (by simp))]
    simp only [Bool.false_eq_true, if_false]
    rw [strokes_move_list _ (gap_moves n prev s), strokes_cons, strokes_cons,
      ih s.stop (fun t ht => h t (by simp [ht])) hc.2]
    congr 1
    unfold cleaned
    split
    · rfl
    · next h1 =>
      split
      · rcases meets_symm hs hc.1 with h2 | h2
        · have : strokeOf (s.setStart prev) = strokeOf s := by
            cases s <;> simp_all [strokeOf, Segment.setStart, Segment.start]
          rw [this]
        · exact absurd h2 h1
      · rfl

/-- The beginning of the cleanup. -/
theorem cleanupSegments_cons (n : Int) {s : Segment F} (h : EndsProperly s) (rest : List (Segment F)) :
    cleanupSegments n (s :: rest) = (if s.isMove then [] else [.move zeroPoint s.start]) ++ s :: cleanupLoop n s.stop rest := by
  simp only [cleanupSegments, endsProperly_test h, Bool.false_eq_true, if_false]

theorem headGap_moves (s : Segment F) : ∀ t ∈ (if s.isMove then [] else [.move zeroPoint s.start] : List (Segment F)), t.isMove = true := by
  split <;> simp [Segment.isMove]

theorem cleanupSegments_strokes (n : Int) (p : Path F) :
    ∃ l, l.Sublist (strokes p) ∧ List.Forall₂ (Aligned n.toNat) l (strokes (cleanupSegments n p)) ∧
      ((∀ s ∈ p, EndsProperly s) → l = strokes p) := by
  cases p with
  | nil => exact ⟨[], by simp, .nil, fun _ => rfl⟩
  | cons s p =>
    simp only [cleanupSegments]
    split
    · next h =>
      obtain ⟨l, h1, h2, h3⟩ := cleanupLoop_strokes n p zeroPoint
      refine ⟨l, ?_, ?_, ?_⟩
      · rw [strokes_cons]; exact h1.trans (List.sublist_append_right _ _)
      · rw [strokes_move_list _ (headGap_moves s)]; exact h2
      · intro hp
        have := endsProperly_test (hp s (by simp))
        rw [this] at h
        exact absurd h (by simp)
    · obtain ⟨l, h1, h2, h3⟩ := cleanupLoop_strokes n p s.stop
      refine ⟨(strokeOf s).toList ++ l, ?_, ?_, ?_⟩
      · rw [strokes_cons]; exact List.Sublist.append_left h1 _
      · rw [strokes_move_list _ (headGap_moves s), strokes_cons]
        exact forall₂_append (aligned_refl _) h2
      · intro hp
        rw [strokes_cons, h3 (fun t ht => hp t (by simp [ht]))]

theorem strokes_cleanup_eq (n : Int) (p : Path F) : strokes (cleanup n p) = strokes (cleanupSegments n p) := by
  rw [cleanup, strokes_newPath, strokes_mergeMoves, strokes_fixHeadMove]

theorem cleanupSegments_chained (hs : SymmEq F) (n : Int) {p : Path F} (h : ∀ s ∈ p, EndsProperly s) :
    Chained (cleanupSegments n p) := by
  cases p with
  | nil => trivial
  | cons s p =>
    rw [cleanupSegments_cons n (h s (by simp))]
    have hrest := cleanupLoop_connected hs n p s.stop (fun t ht => h t (by simp [ht]))
    split
    · exact hrest
    · exact ⟨meets_refl _, hrest⟩

theorem cleanupSegments_exact (hs : SymmEq F) (n : Int) {p : Path F} (h : ∀ s ∈ p, EndsProperly s) (hc : Chained p) :
    strokes (cleanupSegments n p) = strokes p := by
  cases p with
  | nil => rfl
  | cons s p =>
    rw [cleanupSegments_cons n (h s (by simp)), strokes_move_list _ (headGap_moves s), strokes_cons, strokes_cons,
      cleanupLoop_exact hs n p s.stop (fun t ht => h t (by simp [ht])) hc]

theorem cleanupSegments_ne_nil (n : Int) {p : Path F} (h : ∀ s ∈ p, EndsProperly s) (hp : p ≠ []) : cleanupSegments n p ≠ [] := by
  cases p with
  | nil => exact absurd rfl hp
  | cons s p => rw [cleanupSegments_cons n (h s (by simp))]; simp

theorem mergeMoves_ne_nil {p : Path F} (hp : p ≠ []) : mergeMoves p ≠ [] := by
  cases p with
  | nil => exact absurd rfl hp
  | cons s p =>
    obtain ⟨x, y, _, h2, _⟩ := foldl_merge_head p [s] (by simp)
    intro h
    rw [mergeMoves] at h
    rw [h] at h2
    simp at h2

theorem fixHeadMove_ne_nil {p : Path F} (hp : p ≠ []) : fixHeadMove p ≠ [] := by
  rcases fixHeadMove_cases p with ⟨a, b, c, rest, rfl, h2, _⟩ | ⟨_, h2⟩
  · rw [h2]; simp
  · rw [h2]; exact hp

/-! ### Deduplication -/

/-- The part of `acc` below the last segment, down to a first move, is never emptied. -/
theorem uniqueString_move (n : Nat) {s t : Segment F} (hs : s.isMove = false) (ht : t.isMove = true) :
    uniqueString n s ≠ uniqueString n t := by
  cases s with
  | move a b => simp [Segment.isMove] at hs
  | line a b =>
    cases t with
    | move c d => intro h; simpa [uniqueString] using congrArg List.head? h
    | line c d => simp [Segment.isMove] at ht
    | curve c d e f => simp [Segment.isMove] at ht
  | curve a b c d =>
    cases t with
    | move c d => intro h; simpa [uniqueString] using congrArg List.head? h
    | line c d => simp [Segment.isMove] at ht
    | curve c d e f => simp [Segment.isMove] at ht

/-- The kept segments begin with a move (they are stored with the last one first). -/
def Rooted (acc : List (Segment F)) : Prop := ∃ m, acc.getLast? = some m ∧ m.isMove = true

theorem strokes_reverse_cons (s : Segment F) (acc : List (Segment F)) :
    strokes (s :: acc).reverse = strokes acc.reverse ++ (strokeOf s).toList := by
  rw [List.reverse_cons, strokes_append, strokes_cons]; simp [strokes]

theorem dedupStep_rooted (n : Nat) {acc : List (Segment F)} (h : Rooted acc) (cur : Segment F) :
    ∃ acc', dedupStep n acc cur = some acc' ∧ Rooted acc' := by
  obtain ⟨m, h1, h2⟩ := h
  cases acc with
  | nil => simp at h1
  | cons prev older =>
    have hcons : ∀ t : Segment F, Rooted (t :: prev :: older) := fun t => ⟨m, by simpa using h1, h2⟩
    cases hc : cur.isMove
    · have hstep : dedupStep n (prev :: older) cur =
          if uniqueString n cur = uniqueString n prev.reverse then some older else some (cur :: prev :: older) := by
        cases cur <;> simp_all [dedupStep, Segment.isMove]
      rw [hstep]
      split
      · next he =>
        refine ⟨older, rfl, ?_⟩
        cases older with
        | nil =>
          exfalso
          simp only [List.getLast?_singleton, Option.some.injEq] at h1
          subst h1
          exact uniqueString_move n hc (by simpa using h2) he
        | cons o os => exact ⟨m, by simpa using h1, h2⟩
      · exact ⟨_, rfl, hcons cur⟩
    · cases cur with
      | line a b => simp [Segment.isMove] at hc
      | curve a b c d => simp [Segment.isMove] at hc
      | move a e =>
        cases hp : prev.isMove
        · have hstep : dedupStep n (prev :: older) (.move a e) =
              if prev.stop.stringPrecision n = e.stringPrecision n then some (prev :: older) else some (.move a e :: prev :: older) := by
            cases prev <;> simp_all [dedupStep, Segment.isMove]
          rw [hstep]
          split
          · exact ⟨_, rfl, ⟨m, h1, h2⟩⟩
          · exact ⟨_, rfl, hcons _⟩
        · cases prev with
          | line a b => simp [Segment.isMove] at hp
          | curve a b c d => simp [Segment.isMove] at hp
          | move b c =>
            refine ⟨.move b e :: older, rfl, ?_⟩
            cases older with
            | nil => exact ⟨.move b e, rfl, rfl⟩
            | cons o os => exact ⟨m, by simpa using h1, h2⟩

theorem dedupStep_strokes (n : Nat) {acc acc' : List (Segment F)} {cur : Segment F} (h : dedupStep n acc cur = some acc') :
    (strokes acc'.reverse).Sublist (strokes acc.reverse ++ (strokeOf cur).toList) := by
  cases acc with
  | nil => simp [dedupStep] at h
  | cons prev older =>
    cases hc : cur.isMove
    · have hstep : dedupStep n (prev :: older) cur =
          if uniqueString n cur = uniqueString n prev.reverse then some older else some (cur :: prev :: older) := by
        cases cur <;> simp_all [dedupStep, Segment.isMove]
      rw [hstep] at h
      split at h <;> simp only [Option.some.injEq] at h <;> subst h
      · rw [strokes_reverse_cons, List.append_assoc]
        exact List.sublist_append_left _ _
      · rw [strokes_reverse_cons]
    · have hn : strokeOf cur = none := strokeOf_eq_none.2 hc
      cases cur with
      | line a b => simp [Segment.isMove] at hc
      | curve a b c d => simp [Segment.isMove] at hc
      | move a e =>
        rw [hn]
        simp only [Option.toList_none, List.append_nil]
        cases hp : prev.isMove
        · have hstep : dedupStep n (prev :: older) (.move a e) =
              if prev.stop.stringPrecision n = e.stringPrecision n then some (prev :: older) else some (.move a e :: prev :: older) := by
            cases prev <;> simp_all [dedupStep, Segment.isMove]
          rw [hstep] at h
          split at h <;> simp only [Option.some.injEq] at h <;> subst h
          · exact List.Sublist.refl _
          · rw [strokes_reverse_cons, hn]; simp
        · cases prev with
          | line a b => simp [Segment.isMove] at hp
          | curve a b c d => simp [Segment.isMove] at hp
          | move b c =>
            simp only [dedupStep, Option.some.injEq] at h
            subst h
            rw [strokes_reverse_cons, strokes_reverse_cons]
            simp [strokeOf]

theorem dedupLoop_rooted (n : Nat) (rest : List (Segment F)) : ∀ acc : List (Segment F), Rooted acc →
    ∃ r, dedupLoop n acc rest = some r := by
  induction rest with
  | nil => intro acc _; exact ⟨_, rfl⟩
  | cons s rest ih =>
    intro acc h
    obtain ⟨acc', h1, h2⟩ := dedupStep_rooted n h s
    obtain ⟨r, h3⟩ := ih acc' h2
    exact ⟨r, by simp [dedupLoop, h1, h3]⟩

theorem dedupLoop_strokes (n : Nat) (rest : List (Segment F)) : ∀ (acc r : List (Segment F)), dedupLoop n acc rest = some r →
    (strokes r).Sublist (strokes acc.reverse ++ strokes rest) := by
  induction rest with
  | nil => intro acc r h; simp only [dedupLoop, Option.some.injEq] at h; subst h; simp [strokes]
  | cons s rest ih =>
    intro acc r h
    simp only [dedupLoop] at h
    split at h
    · simp at h
    · next acc' h1 =>
      refine (ih acc' r h).trans ?_
      rw [strokes_cons, ← List.append_assoc]
      exact List.Sublist.append_right (dedupStep_strokes n h1) _

theorem dedupOnce_strokes {n : Nat} {p q : Path F} (h : dedupOnce n p = .ok q) : (strokes q).Sublist (strokes p) := by
  unfold dedupOnce at h
  split at h
  · cases h; exact List.Sublist.refl _
  · cases h; exact List.Sublist.refl _
  · next s rest _ =>
    split at h
    · simp at h
    · next segs h1 =>
      cases h
      rw [strokes_newPath]
      have := dedupLoop_strokes n rest [s] segs h1
      rw [List.reverse_singleton, ← strokes_append] at this
      exact this

theorem dedupOnce_rooted (n : Nat) {p : Path F} (h : ∀ s, p.head? = some s → s.isMove = true) :
    ∃ q, dedupOnce n p = .ok q ∧ ∀ s, q.head? = some s → s.isMove = true := by
  unfold dedupOnce
  split
  · exact ⟨_, rfl, h⟩
  · exact ⟨_, rfl, h⟩
  · next s rest _ =>
    obtain ⟨r, hr⟩ := dedupLoop_rooted n rest [s] ⟨s, rfl, h s rfl⟩
    rw [hr]
    refine ⟨_, rfl, ?_⟩
    intro t ht
    rcases newPath_head r with h1 | ⟨a, b, c, h1⟩
    · rw [h1] at ht; simp at ht
    · rw [h1] at ht; simp at ht; subst ht; rfl

theorem dedup_rooted (n : Nat) {p : Path F} (h : ∀ s, p.head? = some s → s.isMove = true) : ∃ q, dedup n p = .ok q := by
  obtain ⟨q, h1, h2⟩ := dedupOnce_rooted n h
  obtain ⟨r, h3, _⟩ := dedupOnce_rooted n h2
  exact ⟨cleanup n r, by simp [dedup, h1, h3]⟩

theorem dedup_strokes {n : Nat} {p q : Path F} (h : dedup n p = .ok q) :
    ∃ l, l.Sublist (strokes p) ∧ List.Forall₂ (Aligned n) l (strokes q) := by
  unfold dedup at h
  cases h1 : dedupOnce n p with
  | err => rw [h1] at h; simp at h
  | panic => rw [h1] at h; simp at h
  | ok a =>
    rw [h1] at h
    simp only [Res.ok_bind] at h
    cases h2 : dedupOnce n a with
    | err => rw [h2] at h; simp at h
    | panic => rw [h2] at h; simp at h
    | ok b =>
      rw [h2] at h
      simp only [Res.ok_bind, Res.pure_eq, Res.ok.injEq] at h
      subst h
      obtain ⟨l, i1, i2, _⟩ := cleanupSegments_strokes (n : Int) b
      rw [← strokes_cleanup_eq] at i2
      exact ⟨l, i1.trans ((dedupOnce_strokes h2).trans (dedupOnce_strokes h1)), by simpa using i2⟩

end Printing

/-! ### Reordering -/

section Reordering

variable [Trig F]

theorem rearranged_refl (l : List (Stroke F)) : Rearranged l l := by
  refine ⟨l, .refl l, ?_⟩
  induction l with
  | nil => exact .nil
  | cons a l ih => exact .cons (Or.inl rfl) ih

theorem rearranged_append {a b c d : List (Stroke F)} (h1 : Rearranged a b) (h2 : Rearranged c d) :
    Rearranged (a ++ c) (b ++ d) := by
  obtain ⟨x, i1, i2⟩ := h1
  obtain ⟨y, j1, j2⟩ := h2
  exact ⟨x ++ y, i1.append j1, forall₂_append i2 j2⟩

theorem rearranged_perm {a a' b : List (Stroke F)} (h : a.Perm a') (h1 : Rearranged a b) : Rearranged a' b := by
  obtain ⟨x, i1, i2⟩ := h1
  exact ⟨x, i1.trans h, i2⟩

theorem rearranged_reverse (l : List (Stroke F)) : Rearranged l (l.map Stroke.reverse).reverse := by
  refine ⟨l.reverse, List.reverse_perm l, ?_⟩
  rw [← List.map_reverse]
  induction l.reverse with
  | nil => exact .nil
  | cons a l ih => exact .cons (Or.inr rfl) ih

theorem shortest_bound (d : Path F → F) (l : List (Path F)) : ∀ i best x, best < i ∨ (best = 0 ∧ i = 0) → 
    shortest d l i best x < i + l.length ∨ (shortest d l i best x = 0) := by
  induction l with
  | nil => intro i best x h; simp only [shortest, List.length_nil]; omega
  | cons q l ih =>
    intro i best x h
    simp only [shortest, List.length_cons]
    split
    · have := ih (i + 1) i (d q) (by omega); omega
    · have := ih (i + 1) best x (by omega); omega

theorem shortest_lt (d : Path F → F) (first : Path F) (rest : List (Path F)) (x : F) :
    shortest d (first :: rest) 0 0 x < (first :: rest).length := by
  have := shortest_bound d (first :: rest) 0 0 x (by omega)
  simp only [List.length_cons] at this ⊢
  omega

theorem nextPath_spec (n : Int) (p first : Path F) (rest : List (Path F)) :
    ∃ q, (first :: rest)[(nextPath n p first rest).2]? = some q ∧
      ((nextPath n p first rest).1 = q ∨ (nextPath n p first rest).1 = reversePath q) := by
  have key : ∀ (r : Path F × Nat × F) (c : Bool),
      (∃ q, (first :: rest)[r.2.1]? = some q ∧ (r.1 = q ∨ r.1 = reversePath q)) →
      ∃ q, (first :: rest)[(if c = true then (r.1, r.2.1) else (first, 0)).2]? = some q ∧
        ((if c = true then (r.1, r.2.1) else (first, 0)).1 = q ∨
          (if c = true then (r.1, r.2.1) else (first, 0)).1 = reversePath q) := by
    rintro r c ⟨q, h1, h2⟩
    cases c
    · exact ⟨first, rfl, Or.inl rfl⟩
    · exact ⟨q, h1, h2⟩
  have get : ∀ i, i < (first :: rest).length → (first :: rest)[i]? = some ((first :: rest).getD i first) := by
    intro i hi
    rw [List.getD_eq_getElem?_getD, List.getElem?_eq_getElem hi]
    rfl
  unfold nextPath
  apply key
  split
  · exact ⟨_, get _ (by dsimp only; exact shortest_lt _ first rest _), Or.inr rfl⟩
  · exact ⟨_, get _ (by dsimp only; exact shortest_lt _ first rest _), Or.inl rfl⟩

theorem reverse_reverse' (s : Stroke F) : s.reverse.reverse = s := by cases s <;> rfl

theorem rearranged_trans {a b c : List (Stroke F)} (h1 : Rearranged a b) (h2 : Rearranged b c) : Rearranged a c := by
  obtain ⟨x, i1, i2⟩ := h1
  obtain ⟨y, j1, j2⟩ := h2
  have hcomp : Relation.Comp (List.Forall₂ (fun z y : Stroke F => y = z ∨ y = z.reverse)) List.Perm x y := ⟨b, i2, j1.symm⟩
  rw [List.forall₂_comp_perm_eq_perm_comp_forall₂] at hcomp
  obtain ⟨z, k1, k2⟩ := hcomp
  refine ⟨z, k1.symm.trans i1, ?_⟩
  clear k1 i1 i2 j1
  induction k2 generalizing c with
  | nil => cases j2; exact .nil
  | cons h _ ih =>
    cases j2 with
    | cons h' t' =>
      refine .cons ?_ (ih t')
      rcases h with rfl | rfl <;> rcases h' with rfl | rfl <;> simp [reverse_reverse']

theorem perm_eraseIdx {α : Type*} {l : List α} {i : Nat} {a : α} (h : l[i]? = some a) : (a :: l.eraseIdx i).Perm l := by
  induction l generalizing i with
  | nil => simp at h
  | cons x l ih =>
    cases i with
    | zero => simp at h; subst h; simp
    | succ i =>
      simp only [List.getElem?_cons_succ] at h
      rw [List.eraseIdx_cons_succ]
      exact (List.Perm.swap x a _).trans ((ih h).cons x)

theorem reorderLoop_strokes (hs : SymmEq F) (n : Int) : ∀ (k : Nat) (p : Path F) (l : List (Path F)), l.length = k →
    (∀ q ∈ l, Chained q) → Rearranged (strokes p ++ l.flatMap strokes) (strokes (reorderLoop n k p l)) := by
  intro k
  induction k with
  | zero =>
    intro p l hl _
    have : l = [] := List.length_eq_zero_iff.1 hl
    subst this
    simpa [reorderLoop] using rearranged_refl (strokes p)
  | succ k ih =>
    intro p l hl hq
    cases l with
    | nil => simp at hl
    | cons first rest =>
      rw [reorderLoop]
      obtain ⟨q, h1, h2⟩ := nextPath_spec n p first rest
      have hmem : q ∈ first :: rest := List.mem_of_getElem? h1
      have hperm := perm_eraseIdx h1
      have hlen : ((first :: rest).eraseIdx (nextPath n p first rest).2).length = k := by
        have := hperm.length_eq
        simp only [List.length_cons] at this hl
        omega
      have hstep := ih (newPath (p ++ (nextPath n p first rest).1)) _ hlen
        (fun t ht => hq t (hperm.subset (by simp [ht])))
      rw [strokes_newPath, strokes_append] at hstep
      have hr : Rearranged (strokes q) (strokes (nextPath n p first rest).1) := by
        rcases h2 with h2 | h2
        · rw [h2]; exact rearranged_refl _
        · rw [h2, strokes_reversePath hs (hq q hmem)]; exact rearranged_reverse _
      refine rearranged_trans (rearranged_perm ?_ (rearranged_append (rearranged_append (rearranged_refl (strokes p)) hr)
        (rearranged_refl _))) hstep
      rw [List.append_assoc]
      refine List.Perm.append_left _ ?_
      have := hperm.flatMap_right strokes
      rw [List.flatMap_cons] at this
      exact this

theorem reorderLoop_head (n : Int) : ∀ (k : Nat) (p : Path F) (l : List (Path F)),
    (∀ s, p.head? = some s → s.isMove = true) → ∀ s, (reorderLoop n k p l).head? = some s → s.isMove = true := by
  intro k
  induction k with
  | zero => intro p l h; simpa [reorderLoop] using h
  | succ k ih =>
    intro p l h
    cases l with
    | nil => simpa [reorderLoop] using h
    | cons first rest =>
      rw [reorderLoop]
      apply ih
      intro s hs
      rcases newPath_head (p ++ (nextPath n p first rest).1) with h1 | ⟨a, b, c, h1⟩
      · rw [h1] at hs; simp at hs
      · rw [h1] at hs; simp at hs; subst hs; rfl

end Reordering

end Verif.Path
