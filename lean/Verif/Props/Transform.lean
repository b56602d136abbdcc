import Verif.Lemmas.PathBox
import Verif.Props.Clean

/-!
# C26, C28 to C32: boxes, handles, moving, trimming, scaling, rotating and mirroring

Over the real numbers extended by the IEEE special values, because the bounding box of a curve takes square roots of negative numbers.
`finPath p` is a path with finite coordinates. `Small` says that every curve starts below `2^63`, where the code starts its search for
the minimum.
-/

namespace Verif.Path

open Verif Verif.Spec XNum

/-- The same place, whatever the curve parameter of the point is. -/
theorem pt_mk (q : Pt ℝ) : pt (mk q) = q := rfl

/-! ## C26 A path's bounding box is exact -/

/-- **C26.** The whitespace-free bounding box of a path contains every drawn point, and each of its sides is touched by the drawing. -/
theorem C26_exact (p : Path ℝ) (hne : strokes p ≠ []) (hs : Small p) :
    ∃ tl br : Point ℝ, trimmedBox (finPath p) = (finPt tl, finPt br) ∧ BoxOf (Drawn p) (pt tl) (pt br) := by
  obtain ⟨tl, br, h1, h2⟩ := trimmedBox_fin hne hs
  exact ⟨mk tl, mk br, h1, h2⟩

/-- A path with a leading move, a line and a curve. -/
def boxExample : Path ℝ :=
  [.move ⟨0, 0, 0⟩ ⟨5, 5, 0⟩, .line ⟨5, 5, 0⟩ ⟨6, 7, 0⟩, .curve ⟨6, 7, 0⟩ ⟨7, 7, 0⟩ ⟨8, 8, 0⟩ ⟨9, 9, 0⟩]

theorem boxExample_ok : strokes boxExample ≠ [] ∧ Small boxExample := by
  refine ⟨by simp [boxExample, strokes, strokeOf], ?_⟩
  intro a c d b h
  simp [boxExample, strokes, strokeOf, pt] at h
  obtain ⟨rfl, -⟩ := h
  norm_num [abs_of_pos]

/-- Not vacuous. -/
example : ∃ tl br : Point ℝ, trimmedBox (finPath boxExample) = (finPt tl, finPt br) ∧ BoxOf (Drawn boxExample) (pt tl) (pt br) :=
  C26_exact _ boxExample_ok.1 boxExample_ok.2

/-- **C26.** There is only one such box. -/
theorem C26_unique (p : Path ℝ) (tl br tl' br' : Pt ℝ) (h : BoxOf (Drawn p) tl br) (h' : BoxOf (Drawn p) tl' br') :
    tl = tl' ∧ br = br' := h.unique h'

/-! ## C28 Moving by a handle puts the handle on the target -/

theorem strokes_head_trim {K : Type*} [Field K] [LinearOrder K] (p : Path K) (hne : strokes p ≠ []) :
    ∃ s t, (trimMove p).head? = some s ∧ strokeOf s = some t ∧ (strokes p).head? = some t := by
  have e := trimMove_strokes p
  match h : trimMove p with
  | [] => rw [h] at e; exact absurd e.symm hne
  | s :: rest =>
    have hm := trimMove_head p s (by rw [h]; rfl)
    cases hst : strokeOf s with
    | none => rw [strokeOf_eq_none.mp hst] at hm; cases hm
    | some t => exact ⟨s, t, rfl, hst, by rw [← e, h, strokes_cons, hst]; rfl⟩

theorem strokes_last_trim {K : Type*} [Field K] [LinearOrder K] (p : Path K) (hne : strokes p ≠ []) :
    ∃ s t, (trimMove p).getLast? = some s ∧ strokeOf s = some t ∧ (strokes p).getLast? = some t := by
  have e := trimMove_strokes p
  rcases List.eq_nil_or_concat (trimMove p) with h | ⟨l, s, h⟩
  · rw [h] at e; exact absurd e.symm hne
  · have hl : (trimMove p).getLast? = some s := by rw [h]; simp
    have hm := trimMove_last p s hl
    cases hst : strokeOf s with
    | none => rw [strokeOf_eq_none.mp hst] at hm; cases hm
    | some t => exact ⟨s, t, hl, hst, by rw [← e, h]; simp [strokes, hst]⟩

theorem start_at {K : Type*} [Field K] {s : Segment K} {t : Stroke K} (h : strokeOf s = some t) : pt s.start = t.at 0 := by
  cases s <;> simp only [strokeOf, Option.some.injEq, reduceCtorEq] at h <;> subst h <;> simp [Stroke.at, Segment.start, pt]

theorem stop_at {K : Type*} [Field K] {s : Segment K} {t : Stroke K} (h : strokeOf s = some t) : pt s.stop = t.at 1 := by
  cases s <;> simp only [strokeOf, Option.some.injEq, reduceCtorEq] at h <;> subst h <;> simp [Stroke.at, Segment.stop, pt]

theorem middle_fin (a b : ℝ) : (fin a +. ((fin b -. fin a) /. Arith.two) : XNum ℝ) = fin ((a + b) / 2) := by
  have h2 : (Arith.two : XNum ℝ) = fin 2 := by simp [Arith.two]
  rw [h2, sub_fin, div_fin_ne (by norm_num), add_fin]
  congr 1
  ring

/-- **C28.** The code finds each of the eleven handles where it is. -/
theorem C28_handles (p : Path ℝ) (hne : strokes p ≠ []) (hs : Small p) (a : Attr) (ha : a ∈ handles) :
    ∃ q : Point ℝ, pointAttribute a.text (finPath p) = .ok (finPt q) ∧ IsAnchor p a (pt q) := by
  obtain ⟨tl, br, hb, hbox⟩ := trimmedBox_fin hne hs
  obtain ⟨s, t, h1, h2, h3⟩ := strokes_head_trim p hne
  obtain ⟨s', t', h1', h2', h3'⟩ := strokes_last_trim p hne
  have e1 : (trimMove (finPath p)).head? = some (finSeg s) := by rw [trimMove_fin, finPath, List.head?_map, h1]; rfl
  have e2 : (trimMove (finPath p)).getLast? = some (finSeg s') := by rw [trimMove_fin, finPath, List.getLast?_map, h1']; rfl
  rw [pointAttribute_text]
  simp only [handles, List.mem_cons, List.not_mem_nil, or_false] at ha
  rcases ha with rfl | rfl | rfl | rfl | rfl | rfl | rfl | rfl | rfl | rfl | rfl
  · exact ⟨mk tl, by simp only [namedValue, hb], tl, br, hbox, rfl⟩
  · exact ⟨mk (br.1, tl.2), by simp only [namedValue, hb, finPt, mk]; rw [newPoint_mk]; rfl, tl, br, hbox, rfl⟩
  · exact ⟨mk ((tl.1 + br.1) / 2, tl.2), by simp only [namedValue, hb, finPt, mk, middle_fin]; rw [newPoint_mk]; rfl, tl, br, hbox, rfl⟩
  · exact ⟨mk (tl.1, br.2), by simp only [namedValue, hb, finPt, mk]; rw [newPoint_mk]; rfl, tl, br, hbox, rfl⟩
  · exact ⟨mk br, by simp only [namedValue, hb], tl, br, hbox, rfl⟩
  · exact ⟨mk ((tl.1 + br.1) / 2, br.2), by simp only [namedValue, hb, finPt, mk, middle_fin]; rw [newPoint_mk]; rfl, tl, br, hbox, rfl⟩
  · exact ⟨mk (tl.1, (tl.2 + br.2) / 2), by simp only [namedValue, hb, finPt, mk, middle_fin]; rw [newPoint_mk]; rfl, tl, br, hbox, rfl⟩
  · exact ⟨mk (br.1, (tl.2 + br.2) / 2), by simp only [namedValue, hb, finPt, mk, middle_fin]; rw [newPoint_mk]; rfl, tl, br, hbox, rfl⟩
  · exact ⟨mk ((tl.1 + br.1) / 2, (tl.2 + br.2) / 2), by simp only [namedValue, hb, finPt, mk, middle_fin]; rw [newPoint_mk]; rfl,
      tl, br, hbox, rfl⟩
  · exact ⟨s.start, by simp only [namedValue, e1, start_finSeg], t, h3, start_at h2⟩
  · exact ⟨s'.stop, by simp only [namedValue, e2, stop_finSeg], t', h3', stop_at h2'⟩

/-- A handle is at one place only. -/
theorem C28_anchor_unique {K : Type*} [Field K] [LinearOrder K] (p : Path K) (a : Attr) (q q' : Pt K) (h : IsAnchor p a q)
    (h' : IsAnchor p a q') : q = q' := by
  cases a <;> simp only [IsAnchor] at h h' <;> first
    | exact h.elim
    | (obtain ⟨tl, br, hb, rfl⟩ := h
       obtain ⟨tl', br', hb', rfl⟩ := h'
       obtain ⟨rfl, rfl⟩ := hb.unique hb'
       rfl)
    | (obtain ⟨s, hs, rfl⟩ := h
       obtain ⟨s', hs', rfl⟩ := h'
       rw [hs] at hs'
       cases hs'
       rfl)

theorem drawn_shift {K : Type*} [Field K] [LinearOrder K] (dx dy : K) (p : Path K) (y : Pt K) :
    Drawn (shift dx dy p) y ↔ ∃ x, Drawn p x ∧ translate dx dy x = y :=
  drawn_map (C27_points dx dy) (C27_shift dx dy p) y

theorem boxOf_shift {K : Type*} [Field K] [LinearOrder K] [IsStrictOrderedRing K] (dx dy : K) {p : Path K} {tl br : Pt K}
    (h : BoxOf (Drawn p) tl br) : BoxOf (Drawn (shift dx dy p)) (translate dx dy tl) (translate dx dy br) :=
  boxOf_mono (g := fun x => x + dx) (h := fun x => x + dy) (fun a b h => by simpa using h) (fun a b h => by simpa using h)
    (fun y => drawn_shift dx dy p y) h

/-- Handles move with the drawing. -/
theorem C28_anchor_shift (dx dy : ℝ) (p : Path ℝ) (a : Attr) (q : Pt ℝ) (h : IsAnchor p a q) :
    IsAnchor (shift dx dy p) a (translate dx dy q) := by
  cases a <;> simp only [IsAnchor] at h ⊢ <;> first
    | exact h
    | (obtain ⟨tl, br, hb, rfl⟩ := h
       refine ⟨_, _, boxOf_shift dx dy hb, ?_⟩
       refine Prod.ext ?_ ?_ <;> simp only [translate] <;> ring)
    | (obtain ⟨tl, br, hb, rfl⟩ := h
       exact ⟨_, _, boxOf_shift dx dy hb, rfl⟩)
    | (obtain ⟨s, hs, rfl⟩ := h
       refine ⟨s.map (translate dx dy), by rw [C27_shift]; simp [hs], ?_⟩
       rw [C27_points])

/-- **C28.** After moving a path by a handle to a target, that handle of the drawing is exactly on the target, and the drawing is only
translated (`C27_shift`). -/
theorem C28_move (p : Path ℝ) (hne : strokes p ≠ []) (hs : Small p) (a : Attr) (ha : a ∈ handles) (target : Point ℝ) :
    ∃ dx dy : ℝ, move (finPt target) a.text (finPath p) = .ok (finPath (shift dx dy p)) ∧
      IsAnchor (shift dx dy p) a (pt target) := by
  obtain ⟨q, h1, h2⟩ := C28_handles p hne hs a ha
  refine ⟨target.x - q.x, target.y - q.y, ?_, ?_⟩
  · simp only [move, handleOf_text, h1]
    rw [← shift_fin]
    simp only [finPt, sub_fin]
  · have := C28_anchor_shift (target.x - q.x) (target.y - q.y) p a _ h2
    convert this using 1
    simp [translate, pt]

/-- **C28.** The code itself then reads the target from the handle. -/
theorem C28_read_back (p : Path ℝ) (hne : strokes p ≠ []) (hs : Small p) (a : Attr) (ha : a ∈ handles) (target : Point ℝ) :
    ∃ q : Path ℝ, move (finPt target) a.text (finPath p) = .ok (finPath q) ∧
      (Small q → ∃ r : Point ℝ, pointAttribute a.text (finPath q) = .ok (finPt r) ∧ pt r = pt target) := by
  obtain ⟨dx, dy, h1, h2⟩ := C28_move p hne hs a ha target
  refine ⟨_, h1, fun hs' => ?_⟩
  have hne' : strokes (shift dx dy p) ≠ [] := by
    rw [C27_shift]
    simpa using hne
  obtain ⟨r, h3, h4⟩ := C28_handles _ hne' hs' a ha
  exact ⟨r, h3, C28_anchor_unique _ a _ _ h4 h2⟩

/-- **C28.** The empty handle is the top left one. -/
theorem C28_default (p : Path (XNum ℝ)) (target : Point (XNum ℝ)) : move target [] p = move target Attr.topLeft.text p := by
  have h : handleOf [] = Attr.topLeft.text := rfl
  simp only [move, handleOf_text, h]

/-- Not vacuous: a path with a curve, moved by its centre. -/
example : ∃ dx dy : ℝ, move (finPt ⟨1, 2, 0⟩) Attr.middleMiddle.text (finPath boxExample) = .ok (finPath (shift dx dy boxExample)) ∧
    IsAnchor (shift dx dy boxExample) .middleMiddle (1, 2) :=
  C28_move _ boxExample_ok.1 boxExample_ok.2 .middleMiddle (by decide) ⟨1, 2, 0⟩

/-! ## C29 Trimming whitespace puts the drawing in the corner -/

/-- **C29.** After trimming, the bounding box of the drawing starts at the origin, and the drawing is only translated. -/
theorem C29_trim (p : Path ℝ) (hne : strokes p ≠ []) (hs : Small p) :
    ∃ dx dy : ℝ, trimWhitespace (finPath p) = finPath (shift dx dy p) ∧ ∃ br, BoxOf (Drawn (shift dx dy p)) (0, 0) br := by
  obtain ⟨tl, br, hb, hbox⟩ := trimmedBox_fin hne hs
  refine ⟨-tl.1, -tl.2, ?_, translate (-tl.1) (-tl.2) br, ?_⟩
  · simp only [trimWhitespace, hb, finPt, mk, neg_fin]
    exact shift_fin _ _ _
  · convert boxOf_shift (-tl.1) (-tl.2) hbox using 1
    simp [translate]

/-- **C29.** Trimming again changes nothing. -/
theorem C29_idempotent (p : Path ℝ) (hne : strokes p ≠ []) (hs : Small p) :
    ∃ q : Path ℝ, trimWhitespace (finPath p) = finPath q ∧
      (Small q → ∃ r : Path ℝ, trimWhitespace (finPath q) = finPath r ∧ strokes r = strokes q) := by
  obtain ⟨dx, dy, h1, br, h2⟩ := C29_trim p hne hs
  refine ⟨_, h1, fun hs' => ?_⟩
  have hne' : strokes (shift dx dy p) ≠ [] := by
    rw [C27_shift]
    simpa using hne
  obtain ⟨tl, br', hb, hbox⟩ := trimmedBox_fin hne' hs'
  obtain ⟨e, -⟩ := hbox.unique h2
  subst e
  refine ⟨shift 0 0 (shift dx dy p), ?_, ?_⟩
  · simp only [trimWhitespace, hb, finPt, mk, neg_fin, neg_zero]
    exact shift_fin _ _ _
  · have := C27_compose dx dy 0 0 p
    simpa using this

example : ∃ dx dy : ℝ, trimWhitespace (finPath boxExample) = finPath (shift dx dy boxExample) ∧
    ∃ br, BoxOf (Drawn (shift dx dy boxExample)) (0, 0) br :=
  C29_trim _ boxExample_ok.1 boxExample_ok.2

/-! ## C30 Scaling reaches the requested size -/

/-- The point map of a scaling. -/
def scalePt {K : Type*} [Field K] (kx ky : K) (q : Pt K) : Pt K := (q.1 * kx, q.2 * ky)

/-- **C30.** A scaling multiplies the coordinates of every stroke. -/
theorem C30_strokes {K : Type*} [Field K] [LinearOrder K] (kx ky : K) (p : Path K) :
    strokes (scaleBy kx ky p) = (strokes p).map (Stroke.map (scalePt kx ky)) := by
  apply strokes_mapPath
  intro q
  simp [newPoint_eq, pt, scalePt]

theorem drawn_scale (kx ky : ℝ) (p : Path ℝ) (y : Pt ℝ) : Drawn (scaleBy kx ky p) y ↔ ∃ x, Drawn p x ∧ scalePt kx ky x = y := by
  refine drawn_map (fun s t => ?_) (C30_strokes kx ky p) y
  cases s <;> simp only [Stroke.map, Stroke.at, scalePt] <;> ext <;> simp only [] <;> ring

theorem boxOf_scale {kx ky : ℝ} (hx : 0 ≤ kx) (hy : 0 ≤ ky) {p : Path ℝ} {tl br : Pt ℝ} (h : BoxOf (Drawn p) tl br) :
    BoxOf (Drawn (scaleBy kx ky p)) (scalePt kx ky tl) (scalePt kx ky br) :=
  boxOf_mono (g := fun x => x * kx) (h := fun x => x * ky) (fun a b h => by simpa using mul_le_mul_of_nonneg_right h hx)
    (fun a b h => by simpa using mul_le_mul_of_nonneg_right h hy) (fun y => drawn_scale kx ky p y) h

theorem zero_lt_fin (w : ℝ) : ((Arith.zero : XNum ℝ) <. fin w) = decide (0 < w) := by simp [Bezier.zero_fin]
theorem le_zero_fin (w : ℝ) : ((fin w : XNum ℝ) <=. Arith.zero) = decide (w ≤ 0) := by simp [Bezier.zero_fin]

/-- **C30.** Scaling to a width and a height gives a drawing with exactly that width and height. -/
theorem C30_width_height (p : Path ℝ) (hne : strokes p ≠ []) (hs : Small p) (tl br : Pt ℝ) (hbox : BoxOf (Drawn p) tl br)
    (hx : tl.1 < br.1) (hy : tl.2 < br.2) (st : Scale (XNum ℝ)) (w h : ℝ) (hw : 0 < w) (hh : 0 < h) (ew : st.width = fin w)
    (eh : st.height = fin h) :
    ∃ kx ky : ℝ, scale st (finPath p) = finPath (scaleBy kx ky p) ∧
      ∃ tl' br', BoxOf (Drawn (scaleBy kx ky p)) tl' br' ∧ br'.1 - tl'.1 = w ∧ br'.2 - tl'.2 = h := by
  obtain ⟨tl', br', hb, hbox'⟩ := trimmedBox_fin hne hs
  obtain ⟨rfl, rfl⟩ := hbox.unique hbox'
  have h1 : (0:ℝ) < br.1 - tl.1 := sub_pos.mpr hx
  have h2 : (0:ℝ) < br.2 - tl.2 := sub_pos.mpr hy
  refine ⟨w / (br.1 - tl.1), h / (br.2 - tl.2), ?_, _, _, boxOf_scale (by positivity) (by positivity) hbox, ?_, ?_⟩
  · have e : scaleFactors st (finPath p) = (fin (w / (br.1 - tl.1)), fin (h / (br.2 - tl.2))) := by
      simp only [scaleFactors, ew, eh, zero_lt_fin, le_zero_fin, hw, hh, hb, finPt, mk, sub_fin, abs_fin, abs_of_pos h1, abs_of_pos h2,
        decide_true, Bool.or_self, if_true, not_le.mpr hw, decide_false, Bool.false_eq_true, if_false, div_fin_ne h1.ne',
        div_fin_ne h2.ne']
    simp only [scale, e]
    exact scaleBy_fin _ _ _
  · simp only [scalePt]
    field_simp
  · simp only [scalePt]
    field_simp

/-- **C30.** Scaling to a width alone scales both directions by the same factor, and gives that width. -/
theorem C30_width (p : Path ℝ) (hne : strokes p ≠ []) (hs : Small p) (tl br : Pt ℝ) (hbox : BoxOf (Drawn p) tl br)
    (hx : tl.1 < br.1) (st : Scale (XNum ℝ)) (w h : ℝ) (hw : 0 < w) (hh : h ≤ 0) (ew : st.width = fin w) (eh : st.height = fin h) :
    ∃ k : ℝ, scale st (finPath p) = finPath (scaleBy k k p) ∧
      ∃ tl' br', BoxOf (Drawn (scaleBy k k p)) tl' br' ∧ br'.1 - tl'.1 = w := by
  obtain ⟨tl', br', hb, hbox'⟩ := trimmedBox_fin hne hs
  obtain ⟨rfl, rfl⟩ := hbox.unique hbox'
  have h1 : (0:ℝ) < br.1 - tl.1 := sub_pos.mpr hx
  refine ⟨w / (br.1 - tl.1), ?_, _, _, boxOf_scale (by positivity) (by positivity) hbox, ?_⟩
  · have e : scaleFactors st (finPath p) = (fin (w / (br.1 - tl.1)), fin (w / (br.1 - tl.1))) := by
      simp only [scaleFactors, ew, eh, zero_lt_fin, le_zero_fin, hw, not_lt.mpr hh, hb, finPt, mk, sub_fin, abs_fin, abs_of_pos h1,
        decide_true, Bool.true_or, if_true, not_le.mpr hw, decide_false, Bool.false_eq_true, if_false, div_fin_ne h1.ne']
    simp only [scale, e]
    exact scaleBy_fin _ _ _
  · simp only [scalePt]
    field_simp

/-- **C30.** Scaling to a height alone scales both directions by the same factor, and gives that height. -/
theorem C30_height (p : Path ℝ) (hne : strokes p ≠ []) (hs : Small p) (tl br : Pt ℝ) (hbox : BoxOf (Drawn p) tl br)
    (hy : tl.2 < br.2) (st : Scale (XNum ℝ)) (w h : ℝ) (hw : w ≤ 0) (hh : 0 < h) (ew : st.width = fin w) (eh : st.height = fin h) :
    ∃ k : ℝ, scale st (finPath p) = finPath (scaleBy k k p) ∧
      ∃ tl' br', BoxOf (Drawn (scaleBy k k p)) tl' br' ∧ br'.2 - tl'.2 = h := by
  obtain ⟨tl', br', hb, hbox'⟩ := trimmedBox_fin hne hs
  obtain ⟨rfl, rfl⟩ := hbox.unique hbox'
  have h1 : (0:ℝ) < br.2 - tl.2 := sub_pos.mpr hy
  refine ⟨h / (br.2 - tl.2), ?_, _, _, boxOf_scale (by positivity) (by positivity) hbox, ?_⟩
  · have e : scaleFactors st (finPath p) = (fin (h / (br.2 - tl.2)), fin (h / (br.2 - tl.2))) := by
      simp only [scaleFactors, ew, eh, zero_lt_fin, le_zero_fin, hh, not_lt.mpr hw, hb, finPt, mk, sub_fin, abs_fin, abs_of_pos h1,
        decide_true, Bool.or_true, if_true, hw, decide_false, Bool.false_eq_true, if_false, div_fin_ne h1.ne']
    simp only [scale, e]
    exact scaleBy_fin _ _ _
  · simp only [scalePt]
    field_simp

/-- Not vacuous: a diagonal line has a box of positive size. -/
theorem diagonal_box : BoxOf (Drawn ([.move ⟨0, 0, 0⟩ ⟨1, 1, 0⟩, .line ⟨1, 1, 0⟩ ⟨3, 4, 0⟩] : Path ℝ)) (1, 1) (3, 4) := by
  have h := at_line_box ((1, 1) : Pt ℝ) (3, 4)
  norm_num at h
  refine h.congr fun q => ?_
  simp [Drawn, On, strokes, strokeOf, pt]

example : ∃ kx ky : ℝ, scale ⟨Arith.zero, Arith.zero, zeroPoint, zeroPoint, fin 10, fin 20⟩
      (finPath [.move ⟨0, 0, 0⟩ ⟨1, 1, 0⟩, .line ⟨1, 1, 0⟩ ⟨3, 4, 0⟩]) =
        finPath (scaleBy kx ky [.move ⟨0, 0, 0⟩ ⟨1, 1, 0⟩, .line ⟨1, 1, 0⟩ ⟨3, 4, 0⟩]) ∧
      ∃ tl' br', BoxOf (Drawn (scaleBy kx ky [.move ⟨0, 0, 0⟩ ⟨1, 1, 0⟩, .line ⟨1, 1, 0⟩ ⟨3, 4, 0⟩])) tl' br' ∧
        br'.1 - tl'.1 = 10 ∧ br'.2 - tl'.2 = 20 :=
  C30_width_height _ (by simp [strokes, strokeOf]) (by intro a c d b h; simp [strokes, strokeOf] at h) _ _ diagonal_box (by norm_num)
    (by norm_num) _ 10 20 (by norm_num) (by norm_num) rfl rfl

/-- **C30.** A drawing without height cannot be scaled to a height: the coordinates become NaN. -/
theorem C30_flat_nan : ∃ p : Path ℝ, strokes p ≠ [] ∧
    ∃ q ∈ scale ⟨Arith.one, Arith.one, zeroPoint, zeroPoint, fin 1, fin 1⟩ (finPath p), Arith.isNaN q.stop.y = true := by
  refine ⟨[.line ⟨0, 0, 0⟩ ⟨1, 0, 0⟩], by simp [strokes, strokeOf], ?_⟩
  have hb : trimmedBox (finPath [.line ⟨0, 0, 0⟩ ⟨1, 0, 0⟩] : Path (XNum ℝ)) = (finPt (mk (0, 0)), finPt (mk (1, 0))) := by
    have : trimmedBox (finPath [.line ⟨0, 0, 0⟩ ⟨1, 0, 0⟩] : Path (XNum ℝ)) = segBox (finSeg (.line ⟨0, 0, 0⟩ ⟨1, 0, 0⟩)) := rfl
    rw [this, lineBox_fin _ _ _ (Or.inr rfl)]
    norm_num
  have e : scaleFactors (⟨Arith.one, Arith.one, zeroPoint, zeroPoint, fin 1, fin 1⟩ : Scale (XNum ℝ))
      (finPath [.line ⟨0, 0, 0⟩ ⟨1, 0, 0⟩]) = (fin 1, pinf) := by
    simp only [scaleFactors, hb, zero_lt_fin, le_zero_fin, finPt, mk, sub_fin, abs_fin]
    norm_num [div_fin, infTimes]
  have hm : ∀ a b : Point (XNum ℝ), Segment.line a b ∈ newPath [Segment.line a b] := by
    intro a b
    simp only [newPath, headMove, Segment.isMove, Bool.false_eq_true, if_false, fixHeadMove]
    split <;> simp
  unfold scale
  rw [e]
  refine ⟨_, by simp only [scaleBy, mapPath, finPath_cons, finPath_nil, finSeg, List.map_cons, List.map_nil,
    Segment.mapPoints]; exact hm _ _, ?_⟩
  have h0 : ((fin 0 : XNum ℝ) *. pinf) = nan := by simp [Arith.mul, XNum.mul, infTimes]
  simp only [Segment.stop, finPt, newPoint, h0]
  rfl

/-! ## C31 Rotation is rigid and keeps its axis -/

/-- The rotation of the plane about `a` by the angle `θ`. -/
noncomputable def rotateAbout (a : Pt ℝ) (θ : ℝ) (q : Pt ℝ) : Pt ℝ :=
  (a.1 + ((q.1 - a.1) * Real.cos θ - (q.2 - a.2) * Real.sin θ), a.2 + ((q.1 - a.1) * Real.sin θ + (q.2 - a.2) * Real.cos θ))

theorem rotatePoint_fin (deg : ℝ) (q : Point ℝ) : rotatePoint (fin deg) (finPt q) = finPt (rotatePoint deg q) := by
  have h180 : (Arith.lit 180 0 : XNum ℝ) = fin 180 := by simp
  simp only [rotatePoint, finPt, pi_fin, h180, div_fin_ne (show (180:ℝ) ≠ 0 by norm_num), mul_fin, neg_fin, sin_fin, cos_fin, add_fin]
  rw [newPoint_fin]
  simp [finPt]

theorem pt_rotatePoint (deg : ℝ) (q : Point ℝ) :
    pt (rotatePoint deg q) = rotateAbout (0, 0) (deg * Real.pi / 180) (pt q) := by
  simp [rotatePoint, newPoint_eq, pt, rotateAbout, mul_div_assoc]
  constructor <;> ring

/-- **C31.** Rotating a path about a handle that is at `a` maps every stroke, with its control points, by the rotation of the plane about
`a`. -/
theorem C31_rotate (p : Path ℝ) (deg : ℝ) (axis : Text) (a : Point ℝ)
    (ha : pointAttribute (handleOf axis) (finPath p) = .ok (finPt a)) :
    ∃ q : Path ℝ, rotate (fin deg) axis (finPath p) = .ok (finPath q) ∧
      strokes q = (strokes p).map (Stroke.map (rotateAbout (pt a) (deg * Real.pi / 180))) := by
  refine ⟨shift a.x a.y (mapPath (rotatePoint deg) (shift (-a.x) (-a.y) p)), ?_, ?_⟩
  · have hh : handleOf (handleOf axis) = handleOf axis := by
      unfold handleOf
      split
      · rfl
      · rfl
    simp only [rotate, move, hh, ha, origin_fin]
    simp only [finPt, sub_fin, shift_fin, mapPath_fin _ _ (rotatePoint_fin deg)]
    simp [origin, newPoint_eq]
  · rw [C27_shift, strokes_mapPath _ _ (pt_rotatePoint deg), C27_shift, List.map_map, List.map_map]
    congr 1
    funext s
    simp only [Function.comp_apply, stroke_map_map]
    congr 1
    funext q
    simp only [Function.comp_apply, translate, rotateAbout, pt]
    ext <;> simp only [] <;> ring

/-- **C31.** Every point of every stroke is rotated. -/
theorem C31_points (a : Pt ℝ) (θ : ℝ) (s : Stroke ℝ) (t : ℝ) : (s.map (rotateAbout a θ)).at t = rotateAbout a θ (s.at t) := by
  cases s <;> simp only [Stroke.map, Stroke.at, rotateAbout] <;> ext <;> simp only [] <;> ring

/-- **C31.** The rotation keeps distances. -/
theorem C31_rigid (a : Pt ℝ) (θ : ℝ) (x y : Pt ℝ) :
    ((rotateAbout a θ x).1 - (rotateAbout a θ y).1) ^ 2 + ((rotateAbout a θ x).2 - (rotateAbout a θ y).2) ^ 2 =
      (x.1 - y.1) ^ 2 + (x.2 - y.2) ^ 2 := by
  simp only [rotateAbout]
  linear_combination ((x.1 - y.1) ^ 2 + (x.2 - y.2) ^ 2) * Real.sin_sq_add_cos_sq θ

/-- **C31.** The axis does not move. -/
theorem C31_axis (a : Pt ℝ) (θ : ℝ) : rotateAbout a θ a = a := by simp [rotateAbout]

theorem rotateAbout_back (a : Pt ℝ) (θ : ℝ) (x : Pt ℝ) : rotateAbout a (-θ) (rotateAbout a θ x) = x := by
  simp only [rotateAbout, Real.cos_neg, Real.sin_neg]
  ext <;> simp only []
  · linear_combination (x.1 - a.1) * Real.sin_sq_add_cos_sq θ
  · linear_combination (x.2 - a.2) * Real.sin_sq_add_cos_sq θ

/-- **C31.** Rotating back about the same point restores the drawing. -/
theorem C31_back (p : Path ℝ) (deg : ℝ) (axis : Text) (a b : Point ℝ) (hab : pt a = pt b)
    (ha : pointAttribute (handleOf axis) (finPath p) = .ok (finPt a)) :
    ∃ q : Path ℝ, rotate (fin deg) axis (finPath p) = .ok (finPath q) ∧
      (pointAttribute (handleOf axis) (finPath q) = .ok (finPt b) →
        ∃ r : Path ℝ, rotate (fin (-deg)) axis (finPath q) = .ok (finPath r) ∧ strokes r = strokes p) := by
  obtain ⟨q, h1, h2⟩ := C31_rotate p deg axis a ha
  refine ⟨q, h1, fun hb => ?_⟩
  obtain ⟨r, h3, h4⟩ := C31_rotate q (-deg) axis b hb
  refine ⟨r, h3, ?_⟩
  rw [h4, h2, List.map_map, ← hab]
  conv_rhs => rw [← List.map_id (strokes p)]
  congr 1
  funext s
  rw [Function.comp_apply, stroke_map_map]
  refine stroke_map_id _ (fun x => ?_) s
  rw [Function.comp_apply, neg_mul, neg_div]
  exact rotateAbout_back _ _ x

/-- **C31.** The start and the end of the drawing are such axes: they are still in the same place after the rotation, so that rotating
back restores the drawing. -/
theorem C31_start_end (p : Path ℝ) (hne : strokes p ≠ []) (hs : Small p) (deg : ℝ) (a : Attr) (ha : a = .startPoint ∨ a = .endPoint) :
    ∃ q : Path ℝ, rotate (fin deg) a.text (finPath p) = .ok (finPath q) ∧
      (Small q → ∃ r : Path ℝ, rotate (fin (-deg)) a.text (finPath q) = .ok (finPath r) ∧ strokes r = strokes p) := by
  have hm : a ∈ handles := by rcases ha with rfl | rfl <;> decide
  obtain ⟨x, h1, h2⟩ := C28_handles p hne hs a hm
  have h1' : pointAttribute (handleOf a.text) (finPath p) = .ok (finPt x) := by rw [handleOf_text]; exact h1
  obtain ⟨q, h3, h4⟩ := C31_rotate p deg a.text x h1'
  refine ⟨q, h3, fun hs' => ?_⟩
  have hne' : strokes q ≠ [] := by rw [h4]; simpa using hne
  obtain ⟨y, h5, h6⟩ := C28_handles q hne' hs' a hm
  have hx : pt x = pt y := by
    refine C28_anchor_unique q a _ _ ?_ h6
    rcases ha with rfl | rfl
    · obtain ⟨s, e, e'⟩ := h2
      exact ⟨s.map (rotateAbout (pt x) (deg * Real.pi / 180)), by rw [h4]; simp [e], by rw [C31_points, ← e', C31_axis]⟩
    · obtain ⟨s, e, e'⟩ := h2
      exact ⟨s.map (rotateAbout (pt x) (deg * Real.pi / 180)), by rw [h4]; simp [e], by rw [C31_points, ← e', C31_axis]⟩
  obtain ⟨q', g1, g2⟩ := C31_back p deg a.text x y hx h1'
  rw [h3] at g1
  have : finPath q = finPath q' := by injection g1
  refine (this ▸ g2) ?_
  rw [handleOf_text]
  exact h5

/-- Not vacuous: a path with a curve, rotated by thirty degrees about its centre. -/
example : ∃ a : Point ℝ, IsAnchor boxExample .middleMiddle (pt a) ∧
    ∃ q : Path ℝ, rotate (fin 30) Attr.middleMiddle.text (finPath boxExample) = .ok (finPath q) ∧
      strokes q = (strokes boxExample).map (Stroke.map (rotateAbout (pt a) (30 * Real.pi / 180))) := by
  obtain ⟨a, h1, h2⟩ := C28_handles _ boxExample_ok.1 boxExample_ok.2 .middleMiddle (by decide)
  exact ⟨a, h2, C31_rotate _ 30 _ a (by rw [handleOf_text]; exact h1)⟩

/-! ## C32 Mirroring is a reflection within the box -/

/-- The reflection of the box from `tl` to `br` in its middle line: left and right, or top and bottom. -/
def reflect (axis : Axis) (tl br : Pt ℝ) (q : Pt ℝ) : Pt ℝ :=
  match axis with
  | .vertical => (tl.1 + br.1 - q.1, q.2)
  | .horizontal => (q.1, tl.2 + br.2 - q.2)

/-- A mapped path begins with a move from the origin to the mapped beginning of the path, and ends at the mapped end. -/
theorem mapPath_shape {K : Type*} [Field K] [LinearOrder K] (f : Point K → Point K) {p : Path K} (hp : p ≠ []) :
    ∃ s l z b rest m, p.head? = some s ∧ p.getLast? = some l ∧ mapPath f p = .move z b :: rest ∧ z.x = 0 ∧ z.y = 0 ∧
      (s.isMove = true ∧ b = f s.stop ∨ s.isMove = false ∧ b = f s.start) ∧ (mapPath f p).getLast? = some m ∧ m.stop = f l.stop := by
  have fix : ∀ (a b : Point K) (rest : Path K), ∃ z : Point K, fixHeadMove (.move a b :: rest) = .move z b :: rest ∧ z.x = 0 ∧ z.y = 0 := by
    intro a b rest
    simp only [fixHeadMove, Arith.zero, Arith.eq_field, Arith.lit_zero_field, Int.cast_zero]
    split
    · exact ⟨zeroPoint, rfl, by simp [zeroPoint, Arith.zero], by simp [zeroPoint, Arith.zero]⟩
    · rename_i h
      simp only [Bool.or_eq_true, Bool.not_eq_true', decide_eq_false_iff_not, not_or, not_not] at h
      exact ⟨a, rfl, h.1, h.2⟩
  obtain ⟨s, tail, rfl⟩ := List.exists_cons_of_ne_nil hp
  have hl : ∃ l, (s :: tail).getLast? = some l := by
    cases h : (s :: tail).getLast? with
    | none => simp at h
    | some l => exact ⟨l, rfl⟩
  obtain ⟨l, hl⟩ := hl
  cases hm : s.isMove with
  | true =>
    match s, hm with
    | .move a b, _ =>
      obtain ⟨z, h1, h2, h3⟩ := fix (f a) (f b) (tail.map (Segment.mapPoints f))
      have e : mapPath f (.move a b :: tail) = .move z (f b) :: tail.map (Segment.mapPoints f) := h1
      rcases List.eq_nil_or_concat tail with rfl | ⟨t', x, rfl⟩
      · simp only [List.getLast?_singleton, Option.some.injEq] at hl
        subst hl
        exact ⟨_, _, z, f b, _, _, rfl, rfl, e, h2, h3, Or.inl ⟨rfl, rfl⟩, by rw [e]; rfl, rfl⟩
      · have hx : l = x := by
          have : (Segment.move a b :: t'.concat x).getLast? = some x := by rw [List.getLast?_cons_of_ne_nil (by simp)]; simp
          rw [this] at hl
          exact (Option.some.inj hl).symm
        subst hx
        refine ⟨_, l, z, f b, _, l.mapPoints f, rfl, hl, e, h2, h3, Or.inl ⟨rfl, rfl⟩,
          by rw [e, List.getLast?_cons_of_ne_nil (by simp)]; simp, ?_⟩
        cases l <;> rfl
  | false =>
    obtain ⟨z, h1, h2, h3⟩ := fix origin (f s.start) ((s :: tail).map (Segment.mapPoints f))
    have e : mapPath f (s :: tail) = .move z (f s.start) :: (s :: tail).map (Segment.mapPoints f) := by
      rw [← h1]
      cases s with
      | move _ _ => cases hm
      | line _ _ => rfl
      | curve _ _ _ _ => rfl
    refine ⟨s, l, z, f s.start, _, l.mapPoints f, rfl, hl, e, h2, h3, Or.inr ⟨hm, rfl⟩, ?_, ?_⟩
    · rw [e]
      have : ((s :: tail).map (Segment.mapPoints f)).getLast? = some (l.mapPoints f) := by rw [List.getLast?_map, hl]; rfl
      rw [List.getLast?_cons_of_ne_nil (by simp)]
      exact this
    · cases l <;> rfl

/-- The start of the first segment is drawn, or the segment is a move. -/
theorem drawn_start {p : Path ℝ} {s : Segment ℝ} (h : p.head? = some s) (hm : s.isMove = false) : Drawn p (pt s.start) := by
  match p, h with
  | x :: rest, h =>
    cases h
    rw [drawn_cons]
    left
    cases hst : strokeOf s with
    | none => rw [strokeOf_eq_none.mp hst] at hm; cases hm
    | some t => exact ⟨t, rfl, 0, le_refl _, by norm_num, (start_at hst).symm⟩

theorem whitespaceBox_fin {p : Path ℝ} (hne : p ≠ []) (hs : Small p) {z b : Point ℝ} {rest : Path ℝ} (e : p = .move z b :: rest)
    (hz : z.x = 0 ∧ z.y = 0) {br : Pt ℝ} (hbox : BoxOf (Drawn p) (0, 0) br) (hin : EndsInside p (0, 0) br) :
    ∃ w : Point (XNum ℝ) × Point (XNum ℝ), whitespaceBox (finPath p) = .ok w ∧ w.2 = finPt (mk br) := by
  have hb := hin _ (Or.inl (by rw [e]; rfl))
  simp only [Segment.stop] at hb
  have hline := at_line_box (pt z) (pt b)
  simp only [pt, hz.1, hz.2, min_eq_left hb.1, min_eq_left hb.2.2.1, max_eq_right hb.1, max_eq_right hb.2.2.1] at hline
  obtain ⟨c, d, h1, h2⟩ := boxLoop_fin rest _ _ _ (by rw [e] at hs; exact hs.tail) hline
  have hdr : ∀ q, Drawn p q ↔ Drawn rest q := by
    intro q
    rw [e, drawn_cons]
    simp [strokeOf]
  have hu : BoxOf (fun q => On (.line ((0:ℝ), (0:ℝ)) (b.x, b.y)) q ∨ Drawn rest q) (0, 0) br := by
    refine ⟨?_, ?_, ?_, ?_, ?_⟩
    · rintro q (hq | hq)
      · have := hline.inside q hq
        exact ⟨this.1, this.2.1.trans hb.2.1, this.2.2.1, this.2.2.2.trans hb.2.2.2⟩
      · exact hbox.inside q ((hdr q).mpr hq)
    · obtain ⟨q, h, h'⟩ := hbox.left
      exact ⟨q, Or.inr ((hdr q).mp h), h'⟩
    · obtain ⟨q, h, h'⟩ := hbox.right
      exact ⟨q, Or.inr ((hdr q).mp h), h'⟩
    · obtain ⟨q, h, h'⟩ := hbox.top
      exact ⟨q, Or.inr ((hdr q).mp h), h'⟩
    · obtain ⟨q, h, h'⟩ := hbox.bottom
      exact ⟨q, Or.inr ((hdr q).mp h), h'⟩
  obtain ⟨rfl, rfl⟩ := h2.unique hu
  have hpb : (pathBox (finPath p)).2 = finPt (mk d) := by
    rw [e, finPath_cons]
    simp only [pathBox]
    rw [lineBox_fin _ z b (Or.inl rfl)]
    simp only [hz.1, hz.2, min_eq_left hb.1, min_eq_left hb.2.2.1, max_eq_right hb.1, max_eq_right hb.2.2.1]
    rw [h1]
  cases hl : p.getLast? with
  | none => simp at hl; exact absurd hl hne
  | some l =>
    have hlin := hin l (Or.inr hl)
    have hl' : (finPath p).getLast? = some (finSeg l) := by rw [finPath, List.getLast?_map, hl]; rfl
    obtain ⟨x, xs, hx⟩ := List.exists_cons_of_ne_nil (show finPath p ≠ [] by rw [e]; simp)
    unfold whitespaceBox
    rw [hl', hx]
    refine ⟨_, rfl, ?_⟩
    rw [← hx, hpb]
    simp only [stop_finSeg, finPt, mk, lt_fin, not_lt.mpr hlin.2.1, not_lt.mpr hlin.2.2.2, decide_false, Bool.false_eq_true, if_false]

theorem endsInside_map {f : Point ℝ → Point ℝ} {g : Pt ℝ → Pt ℝ} (hf : ∀ q, pt (f q) = g (pt q)) {p : Path ℝ} (hp : p ≠ [])
    {tl br tl' br' : Pt ℝ} (hbox : BoxOf (Drawn p) tl br) (hin : EndsInside p tl br)
    (hg : ∀ q : Pt ℝ, tl.1 ≤ q.1 ∧ q.1 ≤ br.1 ∧ tl.2 ≤ q.2 ∧ q.2 ≤ br.2 →
      tl'.1 ≤ (g q).1 ∧ (g q).1 ≤ br'.1 ∧ tl'.2 ≤ (g q).2 ∧ (g q).2 ≤ br'.2) :
    EndsInside (mapPath f p) tl' br' := by
  obtain ⟨s, l, z, b, rest, m, h1, h2, h3, h4, h5, h6, h7, h8⟩ := mapPath_shape f hp
  rintro x (hx | hx)
  · rw [h3] at hx
    cases hx
    have hb : ∃ q : Pt ℝ, (tl.1 ≤ q.1 ∧ q.1 ≤ br.1 ∧ tl.2 ≤ q.2 ∧ q.2 ≤ br.2) ∧ pt b = g q := by
      rcases h6 with ⟨hm, rfl⟩ | ⟨hm, rfl⟩
      · exact ⟨pt s.stop, hin s (Or.inl h1), hf _⟩
      · exact ⟨pt s.start, hbox.inside _ (drawn_start h1 hm), hf _⟩
    obtain ⟨q, hq, e⟩ := hb
    have := hg q hq
    rw [← e] at this
    exact this
  · rw [h7] at hx
    cases hx
    have := hg (pt l.stop) (hin l (Or.inr h2))
    rw [← hf, ← h8] at this
    exact this

/-- **C32.** Mirroring with the default handle reflects the drawing inside its own box. -/
theorem C32_mirror (p : Path ℝ) (hne : strokes p ≠ []) (hs : Small p) (tl br : Pt ℝ) (hbox : BoxOf (Drawn p) tl br)
    (hin : EndsInside p tl br) (hs' : Small (shift (-tl.1) (-tl.2) p)) (axis : Axis) :
    ∃ q : Path ℝ, mirror axis [] (finPath p) = .ok (finPath q) ∧
      strokes q = (strokes p).map (Stroke.map (reflect axis tl br)) ∧ BoxOf (Drawn q) tl br ∧ EndsInside q tl br := by
  have hp : p ≠ [] := by
    rintro rfl
    exact hne rfl
  obtain ⟨tl', br', hb, hbox'⟩ := trimmedBox_fin hne hs
  obtain ⟨rfl, rfl⟩ := hbox.unique hbox'
  have hbox1 : BoxOf (Drawn (shift (-tl.1) (-tl.2) p)) (0, 0) (br.1 - tl.1, br.2 - tl.2) := by
    convert boxOf_shift (-tl.1) (-tl.2) hbox using 1 <;> simp [translate, sub_eq_add_neg]
  have hp1 : shift (-tl.1) (-tl.2) p ≠ [] := newPath_ne_nil (by simpa using hp)
  have hin1 : EndsInside (shift (-tl.1) (-tl.2) p) (0, 0) (br.1 - tl.1, br.2 - tl.2) := by
    refine endsInside_map (g := translate (-tl.1) (-tl.2)) (fun q => by simp [newPoint_eq, pt, translate]) hp hbox hin ?_
    intro q hq
    simp only [translate]
    refine ⟨?_, ?_, ?_, ?_⟩ <;> linarith
  obtain ⟨_, _, z, b, rest, _, _, _, h3, h4, h5, _, _, _⟩ := mapPath_shape (fun q => newPoint (q.x +. -tl.1) (q.y +. -tl.2)) hp
  obtain ⟨⟨wtl, wbr⟩, hw, rfl⟩ := whitespaceBox_fin hp1 hs' h3 ⟨h4, h5⟩ hbox1 hin1
  have ha : pointAttribute Attr.topLeft.text (finPath p) = .ok (finPt (mk tl)) := by
    rw [pointAttribute_text]
    simp only [namedValue, hb]
  have hmv : move origin Attr.topLeft.text (finPath p) = .ok (finPath (shift (-tl.1) (-tl.2) p)) := by
    simp only [move, handleOf_text, ha, origin_fin]
    rw [← shift_fin]
    simp [finPt, mk, origin, newPoint_eq, sub_fin]
  have hh : handleOf [] = Attr.topLeft.text := rfl
  have hmf : ∀ q, mirrorPoint axis (finPt (mk (br.1 - tl.1, br.2 - tl.2))) (finPt q) =
      finPt (mirrorPoint axis (mk (br.1 - tl.1, br.2 - tl.2)) q) := by
    intro q
    cases axis <;> simp only [mirrorPoint, clone_fin] <;> simp [finPt, mk, sub_fin]
  let g : Pt ℝ → Pt ℝ := reflect axis (0, 0) (br.1 - tl.1, br.2 - tl.2)
  have hpm : ∀ q, pt (mirrorPoint axis (mk (br.1 - tl.1, br.2 - tl.2)) q) = g (pt q) := by
    intro q
    cases axis <;> simp [mirrorPoint, Point.clone, newPoint_eq, pt, g, reflect, mk]
  have hst : strokes (shift tl.1 tl.2 (mapPath (mirrorPoint axis (mk (br.1 - tl.1, br.2 - tl.2))) (shift (-tl.1) (-tl.2) p))) =
      (strokes p).map (Stroke.map (reflect axis tl br)) := by
    rw [C27_shift, strokes_mapPath _ _ hpm, C27_shift, List.map_map, List.map_map]
    congr 1
    funext s
    simp only [Function.comp_apply, stroke_map_map]
    congr 1
    funext q
    cases axis <;> simp only [Function.comp_apply, translate, g, reflect] <;> ext <;> simp only [] <;> ring
  refine ⟨_, ?_, hst, ?_, ?_⟩
  · simp only [mirror, hh, ha, hmv, hw]
    rw [mapPath_fin _ _ hmf]
    simp only [finPt, mk]
    rw [shift_fin]
  · have hdr : ∀ y, Drawn (shift tl.1 tl.2 (mapPath (mirrorPoint axis (mk (br.1 - tl.1, br.2 - tl.2))) (shift (-tl.1) (-tl.2) p))) y ↔
        ∃ x, Drawn p x ∧ reflect axis tl br x = y := by
      intro y
      refine drawn_map (fun s t => ?_) hst y
      cases axis <;> cases s <;> simp only [Stroke.map, Stroke.at, reflect] <;> ext <;> simp only [] <;> ring
    cases axis with
    | horizontal =>
      have := boxOf_flipY (g := fun x => x) (h := fun y => tl.2 + br.2 - y) (fun a b h => h) (fun a b h => sub_le_sub_left h _) hdr hbox
      simpa using this
    | vertical =>
      have := boxOf_flipX (g := fun x => tl.1 + br.1 - x) (h := fun y => y) (fun a b h => sub_le_sub_left h _) (fun a b h => h) hdr hbox
      simpa using this
  · have hbox2 : BoxOf (Drawn (mapPath (mirrorPoint axis (mk (br.1 - tl.1, br.2 - tl.2))) (shift (-tl.1) (-tl.2) p))) (0, 0)
        (br.1 - tl.1, br.2 - tl.2) := by
      have hdr : ∀ y, Drawn (mapPath (mirrorPoint axis (mk (br.1 - tl.1, br.2 - tl.2))) (shift (-tl.1) (-tl.2) p)) y ↔
          ∃ x, Drawn (shift (-tl.1) (-tl.2) p) x ∧ g x = y := by
        intro y
        refine drawn_map (fun s t => ?_) (strokes_mapPath _ _ hpm _) y
        cases axis <;> cases s <;> simp only [Stroke.map, Stroke.at, reflect, g] <;> ext <;> simp only [] <;> ring
      cases axis with
      | horizontal =>
        have := boxOf_flipY (g := fun x => x) (h := fun y => 0 + (br.2 - tl.2) - y) (fun a b h => h) (fun a b h => sub_le_sub_left h _) hdr hbox1
        simpa using this
      | vertical =>
        have := boxOf_flipX (g := fun x => 0 + (br.1 - tl.1) - x) (h := fun y => y) (fun a b h => sub_le_sub_left h _) (fun a b h => h) hdr hbox1
        simpa using this
    refine endsInside_map (g := translate tl.1 tl.2) (fun q => by simp [newPoint_eq, pt, translate])
      (newPath_ne_nil (by simpa using hp1)) hbox2 (endsInside_map hpm hp1 hbox1 hin1 ?_) ?_
    · intro q hq
      cases axis <;> simp only [g, reflect] <;> simp only [] at hq <;> refine ⟨?_, ?_, ?_, ?_⟩ <;> linarith
    · intro q hq
      simp only [translate]
      simp only [] at hq
      refine ⟨?_, ?_, ?_, ?_⟩ <;> linarith

theorem reflect_reflect (axis : Axis) (tl br q : Pt ℝ) : reflect axis tl br (reflect axis tl br q) = q := by
  cases axis <;> simp only [reflect] <;> ext <;> simp only [] <;> ring

/-- **C32.** Mirroring twice restores the drawing. -/
theorem C32_twice (p : Path ℝ) (hne : strokes p ≠ []) (hs : Small p) (tl br : Pt ℝ) (hbox : BoxOf (Drawn p) tl br)
    (hin : EndsInside p tl br) (hs' : Small (shift (-tl.1) (-tl.2) p)) (axis : Axis) :
    ∃ q : Path ℝ, mirror axis [] (finPath p) = .ok (finPath q) ∧
      (Small q → Small (shift (-tl.1) (-tl.2) q) →
        ∃ r : Path ℝ, mirror axis [] (finPath q) = .ok (finPath r) ∧ strokes r = strokes p) := by
  obtain ⟨q, h1, h2, h3, h4⟩ := C32_mirror p hne hs tl br hbox hin hs' axis
  refine ⟨q, h1, fun g1 g2 => ?_⟩
  obtain ⟨r, h5, h6, -, -⟩ := C32_mirror q (by rw [h2]; simpa using hne) g1 tl br h3 h4 g2 axis
  refine ⟨r, h5, ?_⟩
  rw [h6, h2, List.map_map]
  conv_rhs => rw [← List.map_id (strokes p)]
  congr 1
  funext s
  rw [Function.comp_apply, stroke_map_map]
  exact stroke_map_id _ (reflect_reflect axis tl br) s

/-- Not vacuous: a diagonal line, mirrored left to right. -/
example : ∃ q : Path ℝ, mirror .vertical [] (finPath [.move ⟨0, 0, 0⟩ ⟨1, 1, 0⟩, .line ⟨1, 1, 0⟩ ⟨3, 4, 0⟩]) = .ok (finPath q) ∧
    strokes q = [.line (3, 1) (1, 4)] := by
  have small : ∀ dx dy : ℝ, Small (shift dx dy [.move ⟨0, 0, 0⟩ ⟨1, 1, 0⟩, .line ⟨1, 1, 0⟩ ⟨3, 4, 0⟩]) := by
    intro dx dy a c d b h
    rw [C27_shift] at h
    simp [strokes, strokeOf, Stroke.map] at h
  obtain ⟨q, h1, h2, -, -⟩ := C32_mirror [.move ⟨0, 0, 0⟩ ⟨1, 1, 0⟩, .line ⟨1, 1, 0⟩ ⟨3, 4, 0⟩] (by simp [strokes, strokeOf])
    (by intro a c d b h; simp [strokes, strokeOf] at h) _ _ diagonal_box
    (by rintro s (h | h) <;> cases h <;> norm_num [Segment.stop]) (small _ _) .vertical
  refine ⟨q, h1, ?_⟩
  have e : strokes ([.move ⟨0, 0, 0⟩ ⟨1, 1, 0⟩, .line ⟨1, 1, 0⟩ ⟨3, 4, 0⟩] : Path ℝ) = [.line (1, 1) (3, 4)] := rfl
  rw [h2, e]
  norm_num [Stroke.map, reflect]

/-- **C32.** A path that ends with a move out of its box is not reflected inside its box: here the line from 0 to 1 comes out from 5 to 4. -/
theorem C32_outside_false : ¬ ∀ (p : Path ℝ) (tl br : Pt ℝ), strokes p ≠ [] → BoxOf (Drawn p) tl br →
    ∃ q : Path ℝ, mirror .vertical [] (finPath p) = .ok (finPath q) ∧ strokes q = (strokes p).map (Stroke.map (reflect .vertical tl br)) := by
  intro h
  have hbox : BoxOf (Drawn ([.line ⟨0, 0, 0⟩ ⟨1, 0, 0⟩, .move ⟨1, 0, 0⟩ ⟨5, 0, 0⟩] : Path ℝ)) (0, 0) (1, 0) := by
    have h := at_line_box ((0, 0) : Pt ℝ) (1, 0)
    norm_num at h
    refine h.congr fun q => ?_
    simp [Drawn, On, strokes, strokeOf, pt]
  obtain ⟨q, h1, h2⟩ := h [.line ⟨0, 0, 0⟩ ⟨1, 0, 0⟩, .move ⟨1, 0, 0⟩ ⟨5, 0, 0⟩] _ _ (by simp [strokes, strokeOf]) hbox
  obtain ⟨tl, br, hb, hbox'⟩ := trimmedBox_fin (p := [.line ⟨0, 0, 0⟩ ⟨1, 0, 0⟩, .move ⟨1, 0, 0⟩ ⟨5, 0, 0⟩])
    (by simp [strokes, strokeOf]) (by intro a c d b h; simp [strokes, strokeOf] at h)
  obtain ⟨rfl, rfl⟩ := hbox'.unique hbox
  have hh : handleOf [] = Attr.topLeft.text := rfl
  have ha : pointAttribute Attr.topLeft.text (finPath [.line ⟨0, 0, 0⟩ ⟨1, 0, 0⟩, .move ⟨1, 0, 0⟩ ⟨5, 0, 0⟩] : Path (XNum ℝ)) =
      .ok (finPt (mk (0, 0))) := by
    rw [pointAttribute_text]
    simp only [namedValue, hb]
  have hmv : move origin Attr.topLeft.text (finPath [.line ⟨0, 0, 0⟩ ⟨1, 0, 0⟩, .move ⟨1, 0, 0⟩ ⟨5, 0, 0⟩] : Path (XNum ℝ)) =
      .ok (finPath [.move ⟨0, 0, -1⟩ ⟨0, 0, -1⟩, .line ⟨0, 0, -1⟩ ⟨1, 0, -1⟩, .move ⟨1, 0, -1⟩ ⟨5, 0, -1⟩]) := by
    simp only [move, handleOf_text, ha, origin_fin]
    congr 1
    have := shift_fin (0 : ℝ) 0 [.line ⟨0, 0, 0⟩ ⟨1, 0, 0⟩, .move ⟨1, 0, 0⟩ ⟨5, 0, 0⟩]
    convert this using 1
    · simp [finPt, mk, origin, newPoint_eq, sub_fin]
    · simp [shift, mapPath, newPath, headMove, fixHeadMove, Segment.mapPoints, newPoint_eq, origin, Segment.isMove, Segment.start, Arith.zero]
  have hw : ∃ w : Point (XNum ℝ) × Point (XNum ℝ), whitespaceBox
      (finPath [.move ⟨0, 0, -1⟩ ⟨0, 0, -1⟩, .line ⟨0, 0, -1⟩ ⟨1, 0, -1⟩, .move ⟨1, 0, -1⟩ ⟨5, 0, -1⟩] : Path (XNum ℝ)) = .ok w ∧
      w.2 = finPt (mk (5, 0)) := by
    refine ⟨_, rfl, ?_⟩
    generalize hX : (finPath [.move ⟨0, 0, -1⟩ ⟨0, 0, -1⟩, .line ⟨0, 0, -1⟩ ⟨1, 0, -1⟩, .move ⟨1, 0, -1⟩ ⟨5, 0, -1⟩] :
      Path (XNum ℝ)) = X
    have : (pathBox X).2 = finPt (mk (1, 0)) := by
      have e : pathBox X = growBox (segBox (finSeg (.move ⟨0, 0, -1⟩ ⟨0, 0, -1⟩))) (segBox (finSeg (.line ⟨0, 0, -1⟩ ⟨1, 0, -1⟩))) := by
        rw [← hX]
        rfl
      rw [e, lineBox_fin _ _ _ (Or.inl rfl), lineBox_fin _ _ _ (Or.inr rfl), growBox_fin]
      norm_num
    change ({ (pathBox X).2 with x := if (pathBox X).2.x <. fin 5 then fin 5 else (pathBox X).2.x,
                                 y := if (pathBox X).2.y <. fin 0 then fin 0 else (pathBox X).2.y } : Point (XNum ℝ)) = _
    rw [this]
    simp [finPt, mk]
  obtain ⟨⟨w1, w2⟩, hw, rfl⟩ := hw
  have hm : mirror .vertical [] (finPath [.line ⟨0, 0, 0⟩ ⟨1, 0, 0⟩, .move ⟨1, 0, 0⟩ ⟨5, 0, 0⟩] : Path (XNum ℝ)) =
      .ok (finPath (shift 0 0 (mapPath (mirrorPoint .vertical (mk (5, 0)))
        [.move ⟨0, 0, -1⟩ ⟨0, 0, -1⟩, .line ⟨0, 0, -1⟩ ⟨1, 0, -1⟩, .move ⟨1, 0, -1⟩ ⟨5, 0, -1⟩]))) := by
    simp only [mirror, hh, ha, hmv, hw]
    rw [mapPath_fin (mirrorPoint .vertical (finPt (mk (5, 0)))) (mirrorPoint .vertical (mk (5, 0)))]
    · simp only [finPt, mk]
      rw [shift_fin]
    · intro q
      simp only [mirrorPoint, clone_fin]
      simp [finPt, mk, sub_fin]
  rw [hm] at h1
  have hq : q = shift 0 0 (mapPath (mirrorPoint .vertical (mk (5, 0)))
        [.move ⟨0, 0, -1⟩ ⟨0, 0, -1⟩, .line ⟨0, 0, -1⟩ ⟨1, 0, -1⟩, .move ⟨1, 0, -1⟩ ⟨5, 0, -1⟩]) := by
    exact (finPath_injective (by injection h1)).symm
  rw [hq, C27_shift, strokes_mapPath _ (fun q => (5 - q.1, q.2)) (fun q => by simp [mirrorPoint, Point.clone, newPoint_eq, pt, mk])] at h2
  have e1 : strokes ([.move ⟨0, 0, -1⟩ ⟨0, 0, -1⟩, .line ⟨0, 0, -1⟩ ⟨1, 0, -1⟩, .move ⟨1, 0, -1⟩ ⟨5, 0, -1⟩] : Path ℝ) =
    [.line (0, 0) (1, 0)] := rfl
  have e2 : strokes ([.line ⟨0, 0, 0⟩ ⟨1, 0, 0⟩, .move ⟨1, 0, 0⟩ ⟨5, 0, 0⟩] : Path ℝ) = [.line (0, 0) (1, 0)] := rfl
  rw [e1, e2] at h2
  norm_num [Stroke.map, reflect, translate] at h2

end Verif.Path
