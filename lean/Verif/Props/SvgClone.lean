import Verif.Props.SvgDoc

/-!
# A further fact for C99: what a copy of a sheet writes
-/

namespace Verif.Svg

open Verif Verif.Path Verif.PlanSet

/-- **C99.** A copy of a sheet writes parts without labels as the sheet itself does, with the same size and style. -/
theorem C99_clone {F : Type*} [Trig F] (d : Page F) (rs : List (Renderable F (Drawing F))) (h : ∀ r ∈ rs, r.part.payload.label.text = []) :
    writePage d.clone rs = writePage d rs := by
  have one : ∀ r ∈ rs, writeItem d.clone r = writeItem d r := by
    intro r hr
    have e : ¬ 0 < r.part.payload.label.text.length := by simp [h r hr]
    unfold writeItem
    simp only
    rw [if_neg e, if_neg e]
    rfl
  have all : writeItems d.clone rs = writeItems d rs := by
    clear h
    induction rs with
    | nil => rfl
    | cons r rs ih =>
      simp only [writeItems]
      rw [one r (by simp), ih fun x hx => one x (by simp [hx])]
  unfold writePage
  rw [all]
  rfl

/-- **C99.** A copy writes a label without the style of the sheet. -/
theorem C99_clone_false {F : Type*} [Trig F] (d : Page F) (hd : d.labelStyle ≠ []) (q : Point F) (t : Text) : labelText d.clone q t ≠ labelText d q t := by
  intro e
  unfold labelText at e
  exact hd (List.append_cancel_left (List.append_cancel_right (List.append_cancel_right (List.append_cancel_right e)))).symm

/-- The style of the labels of a new sheet is not empty. -/
example (w h : ℝ) : (newPage w h .mm).labelStyle ≠ [] := by
  intro e
  have := congrArg List.length e
  simp [newPage] at this

/-- A part without a label. -/
example (d : Page ℝ) (r : Renderable ℝ (Drawing ℝ)) (h : r.part.payload.label.text = []) : writePage d.clone [r, r] = writePage d [r, r] :=
  C99_clone d _ (by simp [h])

end Verif.Svg
