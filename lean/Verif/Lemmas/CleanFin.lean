import Verif.Lemmas.Parts
import Verif.Model.Transforms

/-!
# The cleanup of a path with finite coordinates
-/

namespace Verif.Path

open Verif Verif.Spec Verif.XNum

theorem equalsPrecision_fin (p q : Point ℝ) (n : Int) : (finPt p).equalsPrecision (finPt q) n = p.equalsPrecision q n := by
  unfold Point.equalsPrecision
  rw [equals_fin]
  rfl

theorem setStart_finSeg (s : Segment ℝ) (p : Point ℝ) : (finSeg s).setStart (finPt p) = finSeg (s.setStart p) := by
  cases s <;> rfl

theorem cleanupLoop_fin (n : Int) (p : Path ℝ) : ∀ prev : Point ℝ, cleanupLoop n (finPt prev) (finPath p) = finPath (cleanupLoop n prev p) := by
  induction p with
  | nil => intro _; rfl
  | cons s p ih =>
    intro prev
    have hs : ∀ t : Segment ℝ, (Arith.isNaN (finSeg t).stop.x || Arith.isNaN (finSeg t).stop.y) = false := by
      intro t; rw [stop_finSeg]; rfl
    have hs' : ∀ t : Segment ℝ, (Arith.isNaN t.stop.x || Arith.isNaN t.stop.y) = false := fun t => rfl
    have e : (if (finSeg s).start.equals (finPt prev) then finSeg s else
        if (finSeg s).start.equalsPrecision (finPt prev) n then (finSeg s).setStart (finPt prev) else finSeg s) =
        finSeg (if s.start.equals prev then s else if s.start.equalsPrecision prev n then s.setStart prev else s) := by
      rw [start_finSeg, equals_fin, equalsPrecision_fin, setStart_finSeg]
      split
      · rfl
      · split <;> rfl
    rw [finPath_cons, cleanupLoop, cleanupLoop]
    rw [e]
    simp only [hs, hs', Bool.false_eq_true, if_false, start_finSeg, stop_finSeg, equals_fin, ih]
    unfold finPath
    rw [List.map_append, List.map_cons]
    congr 1
    split <;> rfl

theorem cleanupSegments_fin (n : Int) (p : Path ℝ) : cleanupSegments n (finPath p) = finPath (cleanupSegments n p) := by
  cases p with
  | nil => rfl
  | cons s p =>
    have hs : (Arith.isNaN (finSeg s).stop.x || Arith.isNaN (finSeg s).stop.y) = false := by rw [stop_finSeg]; rfl
    have hs' : (Arith.isNaN s.stop.x || Arith.isNaN s.stop.y) = false := rfl
    rw [finPath_cons, cleanupSegments, cleanupSegments]
    simp only [hs', Bool.false_eq_true, if_false, start_finSeg, stop_finSeg, cleanupLoop_fin]
    unfold finPath
    rw [List.map_append, List.map_cons]
    congr 1
    cases s <;> simp [finSeg, Segment.isMove, Segment.start, zeroPoint, finPt, Arith.zero]

theorem mergeStep_fin (acc : Path ℝ) (s : Segment ℝ) : mergeStep (finPath acc) (finSeg s) = finPath (mergeStep acc s) := by
  unfold mergeStep finPath
  rw [List.getLast?_map]
  cases s with
  | move a b =>
    cases h : acc.getLast? with
    | none => simp [finSeg]
    | some t => cases t <;> simp [finSeg]
  | line a b => simp [finSeg]
  | curve a b c d => simp [finSeg]

theorem mergeMoves_fin (p : Path ℝ) : mergeMoves (finPath p) = finPath (mergeMoves p) := by
  cases p with
  | nil => rfl
  | cons s p =>
    have key : ∀ (l : Path ℝ) (acc : Path ℝ), (finPath l).foldl mergeStep (finPath acc) = finPath (l.foldl mergeStep acc) := by
      intro l
      induction l with
      | nil => intro _; rfl
      | cons t l ih =>
        intro acc
        rw [finPath_cons, List.foldl_cons, mergeStep_fin, ih, List.foldl_cons]
    exact key p [s]

/-- Finite coordinates stay finite. -/
theorem cleanup_fin (n : Int) (p : Path ℝ) : cleanup n (finPath p) = finPath (cleanup n p) := by
  rw [cleanup, cleanupSegments_fin, fixHeadMove_fin, mergeMoves_fin, newPath_fin]
  rfl

end Verif.Path
