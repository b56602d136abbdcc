import Verif.Props.PathOffset
import Verif.Lemmas.CleanFin
import Verif.Props.Components

/-!
# Lines drawn one by one

What rebuilding, deduplication and reordering do to a path in which every line has its own move, with its ends away from the ends of the
other lines.
-/

namespace Verif.Path

open Verif Verif.Spec Verif.XNum

set_option linter.unusedSectionVars false

/-- Lines, each after a move: where the move starts, and the two ends of the line. -/
def sepLines (l : List (Point ℝ × Point ℝ × Point ℝ)) : Path ℝ := l.flatMap fun x => [.move x.1 x.2.1, .line x.2.1 x.2.2]

theorem sepLines_cons (x : Point ℝ × Point ℝ × Point ℝ) (l : List (Point ℝ × Point ℝ × Point ℝ)) :
    sepLines (x :: l) = .move x.1 x.2.1 :: .line x.2.1 x.2.2 :: sepLines l := rfl

/-! ## Printing and reading -/

theorem parseItems_sep (n : Nat) (l : List (Point ℝ × Point ℝ × Point ℝ)) : ∀ p : Path ℝ,
    ∃ l', parseItems ((finPath (sepLines l)).flatMap (segItems n)) (finPath p) = some (finPath (p ++ sepLines l')) ∧
      l'.map Prod.snd = l.map fun x => (roundPoint n x.2.1, roundPoint n x.2.2) := by
  induction l with
  | nil => intro p; exact ⟨[], by simp [sepLines, finPath, parseItems, parseLoop], rfl⟩
  | cons x l ih =>
    intro p
    obtain ⟨l', h1, h2⟩ := ih (p ++ [.move (currentPosition p) (roundPoint n x.2.1), .line (roundPoint n x.2.1) (roundPoint n x.2.2)])
    refine ⟨(currentPosition p, roundPoint n x.2.1, roundPoint n x.2.2) :: l', ?_, by simp [h2]⟩
    have hc : currentPosition (finPath p) = finPt (currentPosition p) := by
      unfold currentPosition
      rw [getLast_fin]
      cases p.getLast? with
      | none => simp [origin_fin]
      | some s => simp [stop_finSeg]
    have key : ∀ c : Point ℝ, (toFloat (Num.fmt n (finPt c).x) : Option (XNum ℝ)) = some (fin (Decimal.rounded n c.x)) ∧
        (toFloat (Num.fmt n (finPt c).y) : Option (XNum ℝ)) = some (fin (Decimal.rounded n c.y)) ∧
        newPoint (fin (Decimal.rounded n c.x)) (fin (Decimal.rounded n c.y)) = finPt (roundPoint n c) := fun c =>
      ⟨toFloat_fmt_fin n c.x, toFloat_fmt_fin n c.y, newPoint_fin _ _⟩
    obtain ⟨a1, a2, a3⟩ := key x.2.1
    obtain ⟨b1, b2, b3⟩ := key x.2.2
    rw [sepLines_cons, finPath_cons, finPath_cons, List.flatMap_cons, List.flatMap_cons]
    have e : ∀ (r : List Text), parseItems (segItems n (finSeg (.move x.1 x.2.1)) ++ (segItems n (finSeg (.line x.2.1 x.2.2)) ++ r)) (finPath p) =
        parseItems r (finPath (p ++ [.move (currentPosition p) (roundPoint n x.2.1), .line (roundPoint n x.2.1) (roundPoint n x.2.2)])) := by
      intro r
      have g1 : parseItems (segItems n (finSeg (.move x.1 x.2.1)) ++ (segItems n (finSeg (.line x.2.1 x.2.2)) ++ r)) (finPath p) =
          parseItems (segItems n (finSeg (.line x.2.1 x.2.2)) ++ r) (moveTo (finPath p) (finPt (roundPoint n x.2.1))) := by
        rw [finSeg, segItems, List.cons_append, parseItems_cons]
        simp only [List.cons_append, List.nil_append, nextCommand, nextFloats, a1, a2]
        simp [a3, -fmt_fin]
      have g2 : ∀ q : Path (XNum ℝ), parseItems (segItems n (finSeg (.line x.2.1 x.2.2)) ++ r) q = parseItems r (lineTo q (finPt (roundPoint n x.2.2))) := by
        intro q
        rw [finSeg, segItems, List.cons_append, parseItems_cons]
        simp only [List.cons_append, List.nil_append, nextCommand, nextFloats, b1, b2]
        simp [b3, -fmt_fin]
      rw [g1, g2]
      congr 1
      have g3 : ∀ (q : Path (XNum ℝ)) (a b : Point (XNum ℝ)), currentPosition (q ++ [.move a b]) = b := by
        intro q a b
        simp [currentPosition, Segment.stop]
      rw [moveTo, lineTo, g3, hc]
      simp [finPath, finSeg]
    rw [e, h1]
    simp [sepLines_cons]

theorem rebuild_sep (l : List (Point ℝ × Point ℝ × Point ℝ)) : ∃ l', rebuild (finPath (sepLines l)) = .ok (finPath (sepLines l')) ∧
      l'.map Prod.snd = l.map fun x => (roundPoint 7 x.2.1, roundPoint 7 x.2.2) := by
  obtain ⟨l', h1, h2⟩ := parseItems_sep 7 l []
  refine ⟨l', ?_, h2⟩
  rw [rebuild, parsePath, printPath_items_of (clean_fmtX 7), show ([] : Path (XNum ℝ)) = finPath [] from rfl, h1]
  rfl

/-! ## Deduplication -/

/-- The points do not print the same. -/
def PrintApart (n : Nat) (p q : Point ℝ) : Prop := (finPt p).stringPrecision n ≠ (finPt q).stringPrecision n

theorem dedupLoop_sep (n : Nat) (l : List (Point ℝ × Point ℝ × Point ℝ)) : ∀ (b : Point ℝ) (a : Point (XNum ℝ)) (acc : List (Segment (XNum ℝ))),
    (∀ x, l.head? = some x → PrintApart n b x.2.1) → l.IsChain (fun x y => PrintApart n x.2.2 y.2.1) →
    dedupLoop n (.line a (finPt b) :: acc) (finPath (sepLines l)) = some ((.line a (finPt b) :: acc).reverse ++ finPath (sepLines l)) := by
  induction l with
  | nil => intro b a acc _ _; simp [sepLines, finPath, dedupLoop]
  | cons x l ih =>
    intro b a acc h1 h2
    have s1 : dedupStep n (.line a (finPt b) :: acc) (finSeg (.move x.1 x.2.1)) = some (finSeg (.move x.1 x.2.1) :: .line a (finPt b) :: acc) := by
      exact if_neg (h1 x rfl)
    have s2 : dedupStep n (finSeg (.move x.1 x.2.1) :: .line a (finPt b) :: acc) (finSeg (.line x.2.1 x.2.2)) =
        some (finSeg (.line x.2.1 x.2.2) :: finSeg (.move x.1 x.2.1) :: .line a (finPt b) :: acc) := by
      exact if_neg (t := some (.line a (finPt b) :: acc)) (uniqueString_move n (s := finSeg (.line x.2.1 x.2.2)) (t := (finSeg (.move x.1 x.2.1)).reverse) rfl rfl)
    rw [sepLines_cons, finPath_cons, finPath_cons, dedupLoop, s1]
    simp only
    rw [dedupLoop, s2]
    simp only [finSeg]
    rw [ih x.2.2 (finPt x.2.1) _ (fun y hy => ?_) (List.IsChain.tail h2)]
    · simp
    · cases l with
      | nil => cases hy
      | cons z l =>
        simp only [List.head?_cons, Option.some.injEq] at hy
        subst hy
        rw [List.isChain_cons_cons] at h2
        exact h2.1

theorem newPath_sep (x : Point ℝ × Point ℝ × Point ℝ) (l : List (Point ℝ × Point ℝ × Point ℝ)) :
    ∃ m, newPath (sepLines (x :: l)) = sepLines ((m, x.2) :: l) := by
  obtain ⟨m, e⟩ := newPath_move x.1 x.2.1 (.line x.2.1 x.2.2 :: sepLines l)
  exact ⟨m, by rw [sepLines_cons, e]; rfl⟩

theorem dedupOnce_sep (n : Nat) (x : Point ℝ × Point ℝ × Point ℝ) (l : List (Point ℝ × Point ℝ × Point ℝ))
    (h : (x :: l).IsChain (fun x y => PrintApart n x.2.2 y.2.1)) :
    ∃ m, dedupOnce n (finPath (sepLines (x :: l))) = .ok (finPath (sepLines ((m, x.2) :: l))) := by
  obtain ⟨m, e⟩ := newPath_sep x l
  refine ⟨m, ?_⟩
  have s2 : dedupStep n [finSeg (.move x.1 x.2.1)] (finSeg (.line x.2.1 x.2.2)) = some [finSeg (.line x.2.1 x.2.2), finSeg (.move x.1 x.2.1)] := by
    exact if_neg (t := some []) (uniqueString_move n (s := finSeg (.line x.2.1 x.2.2)) (t := (finSeg (.move x.1 x.2.1)).reverse) rfl rfl)
  have := dedupLoop_sep n l x.2.2 (finPt x.2.1) [finSeg (.move x.1 x.2.1)] (fun y hy => by
    cases l with
    | nil => cases hy
    | cons z l =>
      simp only [List.head?_cons, Option.some.injEq] at hy
      subst hy
      rw [List.isChain_cons_cons] at h
      exact h.1) (List.IsChain.tail h)
  rw [← e, ← newPath_fin]
  rw [sepLines_cons, finPath_cons, finPath_cons, dedupOnce]
  · rw [dedupLoop, s2]
    simp only [finSeg] at this ⊢
    rw [this]
    simp
  · simp

/-! ## Cleaning up -/

/-- Each move starts where the line before it ended. -/
def MovesMeet (l : List (Point ℝ × Point ℝ × Point ℝ)) : Prop := l.IsChain (fun x y => pt x.2.2 = pt y.1)

theorem merge_cleanup_sep (n : Int) (l : List (Point ℝ × Point ℝ × Point ℝ)) : ∀ (b a : Point ℝ) (acc : List (Segment ℝ)),
    ∃ l', (cleanupLoop n b (sepLines l)).foldl mergeStep (acc ++ [.line a b]) = acc ++ [.line a b] ++ sepLines l' ∧
      l'.map Prod.snd = l.map Prod.snd ∧ MovesMeet ((a, a, b) :: l') := by
  induction l with
  | nil => intro b a acc; exact ⟨[], by simp [sepLines, cleanupLoop], rfl, by simp [MovesMeet]⟩
  | cons x l ih =>
    intro b a acc
    have line : ∀ (m : Point ℝ) (acc : List (Segment ℝ)), mergeStep (acc ++ [.move m x.2.1]) (.line x.2.1 x.2.2) = acc ++ [.move m x.2.1] ++ [.line x.2.1 x.2.2] := by
      intro m acc
      simp [mergeStep]
    have hl : ∀ prev : Point ℝ, pt prev = pt x.2.1 → cleanupLoop n prev (.line x.2.1 x.2.2 :: sepLines l) = .line x.2.1 x.2.2 :: cleanupLoop n x.2.2 (sepLines l) := by
      intro prev hp
      have : x.2.1.equals prev = true := equals_iff.2 hp.symm
      simp [cleanupLoop, Segment.start, Segment.stop, this]
    have tail : ∀ m : Point ℝ, pt b = pt m → ∃ l', (cleanupLoop n x.2.1 (.line x.2.1 x.2.2 :: sepLines l)).foldl mergeStep (acc ++ [.line a b] ++ [.move m x.2.1]) =
        acc ++ [.line a b] ++ sepLines l' ∧ l'.map Prod.snd = (x :: l).map Prod.snd ∧ MovesMeet ((a, a, b) :: l') := by
      intro m hm
      obtain ⟨l', h1, h2, h3⟩ := ih x.2.2 x.2.1 (acc ++ [.line a b] ++ [.move m x.2.1])
      refine ⟨(m, x.2) :: l', ?_, by simp [h2], ?_⟩
      · rw [hl _ rfl, List.foldl_cons, line, h1]
        simp [sepLines_cons]
      · unfold MovesMeet at h3 ⊢
        rw [List.isChain_cons_cons]
        refine ⟨hm, ?_⟩
        cases l' with
        | nil => simp
        | cons y l' =>
          rw [List.isChain_cons_cons] at h3 ⊢
          exact h3
    have mv : ∀ (u v : Point ℝ), mergeStep (acc ++ [.line a b]) (.move u v) = acc ++ [.line a b] ++ [.move u v] := by
      intro u v
      simp [mergeStep]
    have mv2 : ∀ (u v w z : Point ℝ), mergeStep (acc ++ [.line a b] ++ [.move u v]) (.move w z) = acc ++ [.line a b] ++ [.move u z] := by
      intro u v w z
      simp [mergeStep]
    rw [sepLines_cons, cleanupLoop]
    simp only [Segment.start, Segment.stop, Segment.setStart]
    by_cases h1 : x.1.equals b = true
    · simp only [h1, if_true, Arith.isNaN_field, Bool.or_self, Bool.false_eq_true, if_false, List.nil_append, List.foldl_cons]
      rw [mv]
      exact tail x.1 (equals_iff.1 h1).symm
    · simp only [h1, Bool.false_eq_true, if_false]
      by_cases h2 : x.1.equalsPrecision b n = true
      · simp only [h2, if_true, Arith.isNaN_field, Bool.or_self, Bool.false_eq_true, if_false, List.cons_append, List.nil_append, List.foldl_cons]
        rw [mv, mv2]
        exact tail b rfl
      · simp only [h2, Arith.isNaN_field, Bool.or_self, Bool.false_eq_true, if_false, List.cons_append, List.nil_append, List.foldl_cons]
        rw [mv, mv2]
        exact tail b rfl

theorem cleanup_sep (n : Int) (x : Point ℝ × Point ℝ × Point ℝ) (l : List (Point ℝ × Point ℝ × Point ℝ)) :
    ∃ l', cleanup n (finPath (sepLines (x :: l))) = finPath (sepLines l') ∧ l'.map Prod.snd = (x :: l).map Prod.snd ∧ MovesMeet l' := by
  obtain ⟨l', h1, h2, h3⟩ := merge_cleanup_sep n l x.2.2 x.2.1 [.move x.1 x.2.1]
  have e1 : cleanupSegments n (sepLines (x :: l)) = .move x.1 x.2.1 :: .line x.2.1 x.2.2 :: cleanupLoop n x.2.2 (sepLines l) := by
    have : x.2.1.equals x.2.1 = true := equals_iff.2 rfl
    simp [sepLines_cons, cleanupSegments, cleanupLoop, Segment.isMove, Segment.stop, Segment.start, this]
  obtain ⟨m, e2⟩ := fixHeadMove_move x.1 x.2.1 (.line x.2.1 x.2.2 :: cleanupLoop n x.2.2 (sepLines l))
  obtain ⟨l'', g1, g2, g3⟩ := merge_cleanup_sep n l x.2.2 x.2.1 [.move m x.2.1]
  have e3 : mergeMoves (fixHeadMove (cleanupSegments n (sepLines (x :: l)))) = sepLines ((m, x.2) :: l'') := by
    rw [e1, e2, mergeMoves, List.foldl_cons]
    have : mergeStep [.move m x.2.1] (.line x.2.1 x.2.2) = [.move m x.2.1] ++ [.line x.2.1 x.2.2] := by simp [mergeStep]
    rw [this, g1]
    rfl
  obtain ⟨m', e4⟩ := newPath_sep (m, x.2) l''
  refine ⟨(m', x.2) :: l'', ?_, by simp [g2], ?_⟩
  · rw [cleanup_fin, cleanup, e3, e4]
  · unfold MovesMeet at g3 ⊢
    cases l'' with
    | nil => simp
    | cons y l =>
      rw [List.isChain_cons_cons] at g3 ⊢
      exact g3

/-- Deduplication leaves the lines alone. -/
theorem dedup_sep (n : Nat) (l : List (Point ℝ × Point ℝ × Point ℝ)) (hl : l ≠ [])
    (h : (l.map Prod.snd).IsChain (fun x y => PrintApart n x.2 y.1)) :
    ∃ l', dedup n (finPath (sepLines l)) = .ok (finPath (sepLines l')) ∧ l'.map Prod.snd = l.map Prod.snd ∧ MovesMeet l' := by
  match l, hl with
  | x :: l, _ =>
    have hc : ∀ k : List (Point ℝ × Point ℝ × Point ℝ), k.map Prod.snd = (x :: l).map Prod.snd → k.IsChain (fun x y => PrintApart n x.2.2 y.2.1) := by
      intro k hk
      rw [← hk, List.isChain_map] at h
      exact h
    obtain ⟨m, e1⟩ := dedupOnce_sep n x l (hc _ rfl)
    obtain ⟨m', e2⟩ := dedupOnce_sep n (m, x.2) l (hc _ rfl)
    obtain ⟨l', h1, h2, h3⟩ := cleanup_sep n (m', x.2) l
    refine ⟨l', ?_, by rw [h2]; rfl, h3⟩
    simp only [dedup, e1, Res.ok_bind, e2, h1]
    rfl

/-! ## Reordering -/

theorem addSegment_fin_line (m a b : Point ℝ) : addSegment (finPath [.move m a]) (finSeg (.line a b)) = finPath (sepLines [(m, a, b)]) := by
  have : (finPt a).equals (finPt a) = true := by rw [equals_fin]; exact equals_iff.2 rfl
  simp [addSegment, finPath, finSeg, sepLines, currentPosition, Segment.stop, Segment.start, this]

theorem addSegment_fin_move (m a : Point ℝ) : ∃ m', addSegment [] (finSeg (.move m a)) = finPath [.move m' a] := by
  by_cases h : (origin : Point (XNum ℝ)).equals (finPt m) = true
  · exact ⟨m, by simp [addSegment, finSeg, Segment.isMove, currentPosition, Segment.start, h, finPath]⟩
  · exact ⟨origin, by simp [addSegment, finSeg, Segment.isMove, currentPosition, Segment.start, h, finPath, Segment.setStart, ← origin_fin]⟩

theorem splitLoop_sep (l : List (Point ℝ × Point ℝ × Point ℝ)) : ∀ (x : Point ℝ × Point ℝ × Point ℝ) (paths : List (Path (XNum ℝ))),
    ∃ l' : List (Point ℝ × Point ℝ × Point ℝ), splitLoop (finPath (sepLines l)) (finPath (sepLines [x])) paths = paths ++ finPath (sepLines [x]) :: l'.map (fun y => finPath (sepLines [y])) ∧
      l'.map Prod.snd = l.map Prod.snd := by
  induction l with
  | nil => intro x paths; exact ⟨[], by simp [sepLines, finPath, finSeg, splitLoop, isEmptyPath, Segment.isMove], rfl⟩
  | cons y l ih =>
    intro x paths
    obtain ⟨m, hm⟩ := addSegment_fin_move y.1 y.2.1
    obtain ⟨l', h1, h2⟩ := ih (m, y.2) (paths ++ [finPath (sepLines [x])])
    refine ⟨(m, y.2) :: l', ?_, by simp [h2]⟩
    have he : isEmptyPath (finPath (sepLines [x])) = false := by simp [sepLines, finPath, finSeg, isEmptyPath, Segment.isMove]
    rw [sepLines_cons, finPath_cons, finPath_cons, splitLoop, if_pos (show (finSeg (.move y.1 y.2.1)).isMove = true from rfl), he, hm, splitLoop, if_neg (by simp [finSeg, Segment.isMove]),
      addSegment_fin_line]
    simp only [Bool.false_eq_true, if_false]
    rw [h1]
    simp

theorem split_sep (x : Point ℝ × Point ℝ × Point ℝ) (l : List (Point ℝ × Point ℝ × Point ℝ)) :
    ∃ (m : Point ℝ) (l' : List (Point ℝ × Point ℝ × Point ℝ)), splitPathOnMove (finPath (sepLines (x :: l))) = finPath (sepLines [(m, x.2)]) :: l'.map (fun y => finPath (sepLines [y])) ∧
      l'.map Prod.snd = l.map Prod.snd := by
  obtain ⟨m, hm⟩ := addSegment_fin_move x.1 x.2.1
  obtain ⟨l', h1, h2⟩ := splitLoop_sep l (m, x.2) []
  refine ⟨m, l', ?_, h2⟩
  rw [sepLines_cons, finPath_cons, finPath_cons, splitPathOnMove, hm, splitLoop, if_neg (by simp [finSeg, Segment.isMove]), addSegment_fin_line]
  exact h1

/-- The distance does not print as zero. -/
def NotAtZero (n : Int) (p q : Point ℝ) : Prop := precisionEquals (distance (finPt p) (finPt q)) Arith.zero n = false

theorem startAndEnd_sep (y : Point ℝ × Point ℝ × Point ℝ) : startAndEndOf (finPath (sepLines [y])) = (finPt y.2.1, finPt y.2.2) := rfl

theorem end_sep (x : Point ℝ × Point ℝ × Point ℝ) (l : List (Point ℝ × Point ℝ × Point ℝ)) :
    (startAndEndOf (trimTailMove (finPath (sepLines (l ++ [x]))))).2 = finPt x.2.2 := by
  have e : finPath (sepLines (l ++ [x])) = finPath (sepLines l) ++ [finSeg (.move x.1 x.2.1), finSeg (.line x.2.1 x.2.2)] := by
    simp [sepLines, finPath]
  rw [trimTailMove_bare]
  · rw [stop_of_getLast (s := finSeg (.line x.2.1 x.2.2)) (by rw [e]; simp)]
    rfl
  · intro s hs
    rw [e] at hs
    simp at hs
    subst hs
    rfl

theorem ite_cases {α : Type*} {P : α → Prop} (c : Prop) [Decidable c] {a b : α} (ha : P a) (hb : P b) : P (if c then a else b) := by
  split <;> assumption

theorem nextPath_sep (n : Int) (x : Point ℝ × Point ℝ × Point ℝ) (done : List (Point ℝ × Point ℝ × Point ℝ)) (y : Point ℝ × Point ℝ × Point ℝ)
    (l : List (Point ℝ × Point ℝ × Point ℝ)) (h : ∀ z ∈ y :: l, NotAtZero n x.2.2 z.2.1 ∧ NotAtZero n x.2.2 z.2.2) :
    nextPath n (finPath (sepLines (done ++ [x]))) (finPath (sepLines [y])) (l.map fun z => finPath (sepLines [z])) = (finPath (sepLines [y]), 0) := by
  have hm : ∀ i, ∃ z ∈ y :: l, (finPath (sepLines [y]) :: l.map fun z => finPath (sepLines [z])).getD i (finPath (sepLines [y])) = finPath (sepLines [z]) := by
    intro i
    rw [← List.map_cons (f := fun z => finPath (sepLines [z])), List.getD_eq_getElem?_getD, List.getElem?_map]
    cases hi : (y :: l)[i]? with
    | none => exact ⟨y, by simp, rfl⟩
    | some z => exact ⟨z, List.mem_of_getElem? hi, rfl⟩
  unfold nextPath
  simp only [end_sep]
  generalize shortest (F := XNum ℝ) _ _ 0 0 _ = i
  generalize shortest (F := XNum ℝ) _ _ 0 0 _ = j
  obtain ⟨u, hu, eu⟩ := hm i
  obtain ⟨v, hv, ev⟩ := hm j
  rw [eu, ev]
  simp only [startAndEnd_sep]
  apply if_neg
  rw [Bool.not_eq_true]
  refine ite_cases (P := fun r : Path (XNum ℝ) × Nat × XNum ℝ => precisionEquals r.2.2 Arith.zero n = false) _ ?_ ?_
  · exact (h u hu).2
  · exact (h v hv).1

theorem reorderLoop_sep (n : Int) (l : List (Point ℝ × Point ℝ × Point ℝ)) : ∀ (done : List (Point ℝ × Point ℝ × Point ℝ)) (x : Point ℝ × Point ℝ × Point ℝ),
    ((x :: l).map Prod.snd).Pairwise (fun u v => NotAtZero n u.2 v.1 ∧ NotAtZero n u.2 v.2) →
    ∃ l', reorderLoop n l.length (finPath (sepLines (done ++ [x]))) (l.map fun z => finPath (sepLines [z])) = finPath (sepLines l') ∧
      l'.map Prod.snd = (done ++ x :: l).map Prod.snd := by
  induction l with
  | nil => intro done x _; exact ⟨done ++ [x], by simp [reorderLoop], rfl⟩
  | cons y l ih =>
    intro done x h
    have h' := h
    rw [List.map_cons, List.pairwise_cons] at h
    obtain ⟨m, hm⟩ : ∃ m : List (Point ℝ × Point ℝ × Point ℝ), newPath (sepLines (done ++ [x]) ++ sepLines [y]) = sepLines (m ++ [y]) ∧
        m.map Prod.snd = (done ++ [x]).map Prod.snd := by
      have e : sepLines (done ++ [x]) ++ sepLines [y] = sepLines (done ++ [x] ++ [y]) := by simp [sepLines]
      rw [e]
      cases hd : done ++ [x] with
      | nil => simp at hd
      | cons z k =>
        obtain ⟨m, hm⟩ := newPath_sep z (k ++ [y])
        exact ⟨(m, z.2) :: k, by rw [List.cons_append, hm, List.cons_append], rfl⟩
    obtain ⟨l', h1, h2⟩ := ih m y h.2
    refine ⟨l', ?_, ?_⟩
    · rw [List.map_cons, List.length_cons, reorderLoop]
      · rw [nextPath_sep n x done y l (fun z hz => h.1 z.2 (List.mem_map_of_mem hz))]
        simp only [List.eraseIdx_cons_zero]
        rw [← finPath_append, newPath_fin, hm.1, h1]
    · rw [h2, List.map_append, hm.2]
      simp

/-- Reordering leaves the lines in their order when no two ends meet. -/
theorem reorder_sep (n : Nat) (x y : Point ℝ × Point ℝ × Point ℝ) (l : List (Point ℝ × Point ℝ × Point ℝ))
    (h : ((x :: y :: l).map Prod.snd).IsChain (fun x y => PrintApart n x.2 y.1))
    (hz : ((x :: y :: l).map Prod.snd).Pairwise (fun u v => NotAtZero n u.2 v.1 ∧ NotAtZero n u.2 v.2)) :
    ∃ l', reorder n (finPath (sepLines (x :: y :: l))) = .ok (finPath (sepLines l')) ∧ l'.map Prod.snd = (x :: y :: l).map Prod.snd ∧ MovesMeet l' := by
  obtain ⟨m, k, e1, e2⟩ := split_sep x (y :: l)
  have e3 : ((m, x.2) :: k).map Prod.snd = (x :: y :: l).map Prod.snd := by simp [e2]
  obtain ⟨l', h1, h2⟩ := reorderLoop_sep n k [] (m, x.2) (by rw [e3]; exact hz)
  rw [List.nil_append, e3] at h2
  obtain ⟨l'', g1, g2, g3⟩ := dedup_sep n l' (by rintro rfl; simp at h2) (by rw [h2]; exact h)
  refine ⟨l'', ?_, by rw [g2, h2], g3⟩
  unfold reorder
  rw [e1]
  cases k with
  | nil => simp at e2
  | cons z k =>
    simp only [List.map_cons, List.length_cons, List.length_map]
    simp only [List.map_cons, List.length_cons, List.nil_append] at h1
    rw [h1, g1]

end Verif.Path
