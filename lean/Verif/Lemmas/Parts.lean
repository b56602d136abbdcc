import Verif.Model.Parts
import Verif.Props.Transform

/-!
# Lemmas about repeats, edges and parts
-/

namespace Verif

instance : LawfulMonad Res := LawfulMonad.mk' Res
  (id_map := by intro α x; cases x <;> rfl)
  (pure_bind := by intros; rfl)
  (bind_assoc := by intro α β γ x f g; cases x <;> rfl)
  (bind_pure_comp := by intro α β f x; cases x <;> rfl)

theorem Res.bind_eq_ok {α β : Type u} {x : Res α} {f : α → Res β} {r : β} : (x >>= f) = .ok r ↔ ∃ a, x = .ok a ∧ f a = .ok r := by
  cases x with
  | ok a => simp
  | err => simp
  | panic => simp

theorem Res.mapM_ok {α : Type w} {β : Type u} (f : α → Res β) (g : α → β) (l : List α) (h : ∀ a ∈ l, f a = .ok (g a)) :
    l.mapM f = .ok (l.map g) := by
  induction l with
  | nil => rfl
  | cons a l ih =>
    rw [List.mapM_cons, h a (by simp), ih (fun b hb => h b (by simp [hb]))]
    rfl

theorem Res.mapM_eq_ok {α : Type w} {β : Type u} {f : α → Res β} {l : List α} {r : List β} (h : l.mapM f = .ok r) :
    List.Forall₂ (fun a b => f a = .ok b) l r := by
  induction l generalizing r with
  | nil => cases h; exact .nil
  | cons a l ih =>
    rw [List.mapM_cons] at h
    cases ha : f a with
    | err => rw [ha] at h; cases h
    | panic => rw [ha] at h; cases h
    | ok b =>
      rw [ha] at h
      cases hl : l.mapM f with
      | err => rw [hl] at h; cases h
      | panic => rw [hl] at h; cases h
      | ok bs =>
        rw [hl] at h
        cases h
        exact .cons ha (ih hl)

end Verif

namespace Verif.Path

open Verif Verif.Spec XNum

set_option linter.unusedSectionVars false
set_option linter.unusedSimpArgs false

section Fin

variable {K : Type*} [Field K] [LinearOrder K]

theorem equals_fin (a b : Point K) : (finPt a).equals (finPt b) = a.equals b := by
  simp [Point.equals, finPt]

theorem segClone_fin (s : Segment K) : (finSeg s).clone = finSeg s.clone := by
  cases s <;> simp [Segment.clone, finSeg, clone_fin]

theorem finPath_append (p q : Path K) : finPath (p ++ q) = finPath p ++ finPath q := List.map_append

theorem clonePath_fin (p : Path K) : clonePath (finPath p) = finPath (clonePath p) := by
  simp only [clonePath, finPath, List.map_map]
  congr 1
  funext s
  exact segClone_fin s

theorem getLast_fin (p : Path K) : (finPath p).getLast? = p.getLast?.map finSeg := by
  simp [finPath]

theorem head_fin (p : Path K) : (finPath p).head? = p.head?.map finSeg := by
  simp [finPath]

theorem appendPath_fin (acc p : Path K) : appendPath (finPath acc) (finPath p) = finPath (appendPath acc p) := by
  cases p with
  | nil => rfl
  | cons s rest =>
    have hc : (finSeg s :: finPath rest).map Segment.clone = finPath ((s :: rest).map Segment.clone) := clonePath_fin (s :: rest)
    simp only [finPath_cons, appendPath, getLast_fin]
    rw [hc, finPath_append]
    congr 1
    cases acc.getLast? with
    | none => rfl
    | some l =>
      simp only [Option.map_some, stop_finSeg, equals_fin, clone_fin]
      split
      · rfl
      · rw [finPath_append]
        rfl

theorem simpleJoin_fin (p : Path K) (ps : List (Path K)) :
    simpleJoin ((p :: ps).map finPath) = .ok (finPath (ps.foldl appendPath (clonePath p))) := by
  simp only [List.map_cons, simpleJoin, clonePath_fin]
  congr 1
  induction ps generalizing p with
  | nil => rfl
  | cons q ps ih =>
    have key : ∀ (ps : List (Path K)) (acc : Path K), (ps.map finPath).foldl appendPath (finPath acc) = finPath (ps.foldl appendPath acc) := by
      intro ps
      induction ps with
      | nil => intro _; rfl
      | cons q ps ih => intro acc; simp only [List.map_cons, List.foldl_cons, appendPath_fin, ih]
    exact key _ _

theorem strokes_clones (p : Path K) : strokes (p.map Segment.clone) = strokes p := by
  simp only [strokes, List.filterMap_map]
  congr 1
  funext s
  cases s <;> simp [Segment.clone, strokeOf, Point.clone, newPoint_eq, pt]

theorem strokes_appendPath (acc p : Path K) : strokes (appendPath acc p) = strokes acc ++ strokes p := by
  cases p with
  | nil => simp [appendPath, strokes]
  | cons s rest =>
    simp only [appendPath]
    rw [strokes_append, strokes_clones]
    congr 1
    cases acc.getLast? with
    | none => rfl
    | some l =>
      simp only
      split
      · rfl
      · rw [strokes_append]
        simp [strokes, strokeOf]

/-- Joining finite paths gives a finite path that draws the strokes of all of them. -/
theorem simpleJoin_strokes (ps : List (Path K)) (h : ps ≠ []) :
    ∃ r : Path K, simpleJoin (ps.map finPath) = .ok (finPath r) ∧ strokes r = ps.flatMap strokes := by
  match ps, h with
  | p :: ps, _ =>
    refine ⟨_, simpleJoin_fin p ps, ?_⟩
    have key : ∀ (ps : List (Path K)) (acc : Path K), strokes (ps.foldl appendPath acc) = strokes acc ++ ps.flatMap strokes := by
      intro ps
      induction ps with
      | nil => intro _; simp
      | cons q ps ih => intro acc; simp [ih, strokes_appendPath]
    rw [key, clonePath, strokes_clones]
    rfl

end Fin

theorem move_startPosition (x y : ℝ) (p : Path ℝ) (s : Segment ℝ) (h : p.head? = some s) :
    move (newPoint (fin x) (fin y)) Attr.startPosition.text (finPath p) =
      .ok (finPath (shift (x - s.start.x) (y - s.start.y) p)) := by
  have h1 : pointAttribute (handleOf Attr.startPosition.text) (finPath p) = .ok (finPt s.start) := by
    rw [handleOf_text, pointAttribute_text]
    simp [namedValue, head_fin, h]
  simp only [move, h1, newPoint_fin]
  simp only [finPt, newPoint_eq, sub_fin, shift_fin]

end Verif.Path
