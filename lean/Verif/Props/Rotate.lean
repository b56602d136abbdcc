import Verif.Props.Transform

/-!
# Properties: rotating about a handle (C31)
-/

namespace Verif.Path

open Verif Verif.Spec XNum

/-- **C31.** For every drawing and each of the eleven handles: the rotation succeeds, and every stroke is rotated about the handle. -/
theorem C31_handles (p : Path ℝ) (hne : strokes p ≠ []) (hs : Small p) (deg : ℝ) (a : Attr) (ha : a ∈ handles) :
    ∃ (x : Point ℝ) (q : Path ℝ), IsAnchor p a (pt x) ∧ rotate (fin deg) a.text (finPath p) = .ok (finPath q) ∧
      strokes q = (strokes p).map (Stroke.map (rotateAbout (pt x) (deg * Real.pi / 180))) := by
  obtain ⟨x, h1, h2⟩ := C28_handles p hne hs a ha
  obtain ⟨q, h3, h4⟩ := C31_rotate p deg a.text x (by rw [handleOf_text]; exact h1)
  exact ⟨x, q, h2, h3, h4⟩

/-- **C31**, for the handles of the box: rotating by an angle and back by the same angle about the same handle restores the drawing. -/
def C31_back_statement : Prop :=
  ∀ (p q r : Path ℝ) (deg : ℝ) (a : Attr), strokes p ≠ [] → Small p → a ∈ handles →
    rotate (fin deg) a.text (finPath p) = .ok (finPath q) → rotate (fin (-deg)) a.text (finPath q) = .ok (finPath r) → strokes r = strokes p

/-- **C31.** That is so for the start and the end of the drawing (`C31_start_end`) but not for the corners of its box: after half a turn
about its top left corner the line from (0,0) to (2,0) has its top left corner at (-2,0), and the turn back is about that point. -/
theorem C31_back_false : ¬ C31_back_statement := by
  intro h
  set p : Path ℝ := [.line ⟨0, 0, 0⟩ ⟨2, 0, 0⟩] with hp
  have hps : strokes p = [.line (0, 0) (2, 0)] := rfl
  have hsm : Small p := by intro a c d b hm; rw [hps] at hm; simp at hm
  have hm : Attr.topLeft ∈ handles := by decide
  obtain ⟨x, q, ⟨tl, br, hbox, hx⟩, h1, h2⟩ := C31_handles p (by rw [hps]; simp) hsm 180 .topLeft hm
  have hpi : (180 : ℝ) * Real.pi / 180 = Real.pi := by ring
  have htl : tl = (0, 0) := by
    have i1 := hbox.inside (0, 0) ⟨.line (0, 0) (2, 0), by rw [hps]; simp, 0, le_rfl, zero_le_one, by simp [Stroke.at]⟩
    obtain ⟨l1, ⟨s, hs, t, ht0, ht1, hl⟩, hl'⟩ := hbox.left
    obtain ⟨l2, ⟨s', hs', t', ht0', ht1', hm1⟩, hm'⟩ := hbox.top
    rw [hps] at hs hs'
    simp only [List.mem_singleton] at hs hs'
    subst hs hs' hl hm1
    simp only [Stroke.at] at hl' hm'
    refine Prod.ext (le_antisymm i1.1 ?_) (le_antisymm i1.2.2.1 ?_)
    · rw [← hl']; simp; linarith
    · rw [← hm']; simp
  rw [hx, htl, hpi, hps] at h2
  have hqs : strokes q = [.line (0, 0) (-2, 0)] := by
    rw [h2]; simp [Stroke.map, rotateAbout]
  have hsm' : Small q := by intro a c d b hm; rw [hqs] at hm; simp at hm
  obtain ⟨y, r, ⟨tl', br', hbox', hy⟩, h3, h4⟩ := C31_handles q (by rw [hqs]; simp) hsm' (-180) .topLeft hm
  have h5 := h p q r 180 .topLeft (by rw [hps]; simp) hsm hm h1 h3
  have i := (hbox'.inside (-2, 0) ⟨.line (0, 0) (-2, 0), by rw [hqs]; simp, 1, zero_le_one, le_rfl, by simp [Stroke.at]⟩).1
  have hpi' : (-180 : ℝ) * Real.pi / 180 = -Real.pi := by ring
  rw [h4, hqs, hps, hpi', hy] at h5
  simp only [List.map_cons, List.map_nil, Stroke.map, rotateAbout, Real.cos_neg, Real.sin_neg, Real.cos_pi, Real.sin_pi, List.cons.injEq,
    Stroke.line.injEq, Prod.mk.injEq, and_true] at h5
  have := h5.1.1
  simp only at i
  linarith

end Verif.Path
