import Verif.Props.Crossing
import Verif.Props.Intercepts

/-!
# C147: the intercepts of a drawing with curves

Over the real numbers extended by the IEEE special values.
-/

namespace Verif.Path

open Verif Verif.Spec Verif.XNum

set_option linter.unusedSectionVars false

theorem lineDist_flat (x0 x1 Y : ℝ) (hx : x0 < x1) (q : ℝ × ℝ) : Bezier.lineDist (toBez (mk (x0, Y))) (toBez (mk (x1, Y))) q = q.2 - Y := by
  have hp : 0 < x1 - x0 := by linarith
  have h : Bezier.len (toBez (mk (x0, Y))) (toBez (mk (x1, Y))) = x1 - x0 := by
    simp only [Bezier.len, toBez, mk, sub_self]
    rw [show (x1 - x0) ^ 2 + (0:ℝ) ^ 2 = (x1 - x0) ^ 2 by ring, Real.sqrt_sq hp.le]
  rw [Bezier.lineDist, h]
  simp only [Bezier.cross, toBez, mk, sub_self, zero_mul, sub_zero]
  rw [mul_div_cancel_left₀ _ hp.ne']

theorem generic_flat (x0 x1 Y : ℝ) (hx : x0 < x1) (s c1 c2 e : Point ℝ) (h : CurveGenericAt Y (pt s) (pt c1) (pt c2) (pt e)) :
    Bezier.Generic (bezOf s c1 c2 e) (toBez (mk (x0, Y))) (toBez (mk (x1, Y))) := by
  obtain ⟨h1, h2, h3, t, h4⟩ := h
  simp only [pt] at h1 h2 h3
  unfold Bezier.Generic Bezier.distCoeffs Bezier.NotTiny
  simp only [lineDist_flat x0 x1 Y hx]
  simp only [bezOf, toBez]
  refine ⟨?_, ?_, ?_, t, ?_⟩
  · convert h1 using 2 <;> ring_nf
  · convert h2 using 2 <;> ring_nf
  · convert h3 using 2 <;> ring_nf
  · exact sub_ne_zero.2 h4

/-- What one segment contributes. -/
def SegCross2 (so : Nat) (x0 Y : ℝ) (s : Segment ℝ) (l : List (Point ℝ)) : Prop :=
  (∀ q ∈ l, (∃ t, strokeOf s = some t ∧ AtHeight so Y t (pt q)) ∧ x0 - 1 / 10 ^ so - 1 / 1000000 ≤ q.x) ∧
    (∀ a b, strokeOf s = some (.line a b) → min a.2 b.2 ≤ Y → Y ≤ max a.2 b.2 → x0 ≤ a.1 → x0 ≤ b.1 → Steep so a b →
      ∃ q ∈ l, Crosses so Y (.line a b) (pt q)) ∧
    ∀ a c d b, strokeOf s = some (.curve a c d b) → CurveGenericAt Y a c d b → ∀ r, On (.curve a c d b) r → r.2 = Y → x0 ≤ r.1 → ∃ q ∈ l, pt q = r

theorem intersect_seg2 (so : Nat) (x0 x1 Y : ℝ) (hk : precisionEquals (fin x0 : XNum ℝ) (fin x1) so = false) (hx : x0 < x1) (s : Segment ℝ)
    (hr : ∀ t, strokeOf s = some t → ∀ q, On t q → q.1 ≤ x1) :
    ∃ l : List (Point ℝ), intersect so 0 (.line (finPt (mk (x0, Y))) (finPt (mk (x1, Y)))) (finSeg s) = some (l.map finPt) ∧
      SegCross2 so x0 Y s l := by
  have old : (∃ a b, s = .move a b ∨ s = .line a b) → ∃ l : List (Point ℝ),
      intersect so 0 (.line (finPt (mk (x0, Y))) (finPt (mk (x1, Y)))) (finSeg s) = some (l.map finPt) ∧ SegCross2 so x0 Y s l := by
    intro hs
    obtain ⟨l, h1, h2, h3⟩ := intersect_seg so x0 x1 Y hk hx.le s hs fun t ht => ⟨hr t ht _ (on_ends t).1, hr t ht _ (on_ends t).2⟩
    refine ⟨l, h1, fun q hq => ?_, fun a b hab k1 k2 k3 k4 k5 => h3 _ hab k1 k2 k3 k4 k5, fun a c d b h => ?_⟩
    · obtain ⟨⟨t, ht, hc⟩, hl⟩ := h2 q hq
      refine ⟨⟨t, ht, ?_⟩, by linarith⟩
      obtain ⟨a, b, rfl | rfl⟩ := hs
      · cases ht
      · cases ht
        exact hc
    · obtain ⟨a', b', rfl | rfl⟩ := hs <;> cases h
  cases s with
  | move a b => exact old ⟨a, b, .inl rfl⟩
  | line a b => exact old ⟨a, b, .inr rfl⟩
  | curve s c1 c2 e =>
    have hab : pt (mk (x0, Y)) ≠ pt (mk (x1, Y)) := by
      simp only [pt, mk, ne_eq, Prod.mk.injEq, not_and]
      intro h; linarith
    obtain ⟨ts, h1, h2⟩ := intersect_knife so (mk (x0, Y)) (mk (x1, Y)) s c1 c2 e hab
    refine ⟨ts.map (meetPt (bezOf s c1 c2 e)), by rw [List.map_map]; exact h1, fun q hq => ?_, ?_, ?_⟩
    · obtain ⟨t, ht, rfl⟩ := List.mem_map.1 hq
      obtain ⟨t0, t1, -, k1, k2, k3, k4⟩ := h2 t ht
      simp only [pt, mk, min_self, max_self, min_eq_left hx.le] at k1 k3 k4
      have hp : (0:ℝ) < 1 / 10 ^ so := by positivity
      refine ⟨⟨_, rfl, ⟨t, t0, t1, rfl⟩, ?_⟩, ?_⟩
      · rw [abs_le]
        constructor
        · change _ ≤ (curveAt (bezOf s c1 c2 e) t).2 - Y; linarith
        · change (curveAt (bezOf s c1 c2 e) t).2 - Y ≤ _; linarith
      · change _ ≤ (curveAt (bezOf s c1 c2 e) t).1; linarith
    · intro a b h; cases h
    · intro a c d b h hg r ⟨t, t0, t1, ht⟩ hy hl
      cases h
      have hm := Bezier.C24_complete_partial (bezOf s c1 c2 e) (toBez (mk (x0, Y))) (toBez (mk (x1, Y))) (toBez_ne hab) le_rfl
        (generic_flat x0 x1 Y hx s c1 c2 e hg) t t0 t1 (by
          have hr1 := hr _ rfl r ⟨t, t0, t1, ht⟩
          have hp : 0 < x1 - x0 := by linarith
          refine ⟨(r.1 - x0) / (x1 - x0), div_nonneg (by linarith) hp.le, (div_le_one hp).2 (by linarith), ?_⟩
          change Stroke.at (.curve (pt s) (pt c1) (pt c2) (pt e)) t = _
          rw [ht]
          refine Prod.ext ?_ ?_
          · simp only [toBez, mk]; field_simp; ring
          · simp only [toBez, mk]; rw [hy]; ring)
      have hi : intersect so 0 (.line (finPt (mk (x0, Y))) (finPt (mk (x1, Y)))) (finSeg (.curve s c1 c2 e)) =
        some ((Bezier.intersectsLine (finCurve (bezOf s c1 c2 e)) (finPoint (toBez (mk (x0, Y)))) (finPoint (toBez (mk (x1, Y))))).map
          (pointAt (finCurve (bezOf s c1 c2 e)))) := rfl
      rw [hi] at h1
      have hmem := List.mem_map_of_mem (f := pointAt (finCurve (bezOf s c1 c2 e))) hm
      rw [Option.some.inj h1, pointAt_fin] at hmem
      obtain ⟨u, hu, e1⟩ := List.mem_map.1 hmem
      have e2 : meetPt (bezOf s c1 c2 e) u = meetPt (bezOf s c1 c2 e) t := by simpa [finPt_inj] using e1
      refine ⟨_, List.mem_map_of_mem hu, ?_⟩
      rw [e2, ← ht]
      rfl

/-- **C147.** The points found at a height of a drawing with curves are in order from left to right. Each is a point of a stroke at this
height, up to the precision. Every steep line that crosses the height and is not to the left of the knife is met. Of a curve that is generic for
the height every point at this height is found, unless it is to the left of the knife. -/
theorem C147_intercepts (so : Nat) (Y : ℝ) (p : Path ℝ) (hsm : Small p) (hw : ∃ q, Drawn p q ∧ leftEdge p + 1 / 10 ^ so < q.1) :
    ∃ ps : List (Point ℝ), horizontalIntercepts so (finPath p) (fin Y) = .ok (ps.map finPt) ∧ (ps.Pairwise fun a b => a.x ≤ b.x) ∧
      (∀ q ∈ ps, (∃ t ∈ strokes p, AtHeight so Y t (pt q)) ∧ leftEdge p - 1 / 10 ^ so - 1 / 1000000 ≤ q.x) ∧
      (∀ a b, Stroke.line a b ∈ strokes p → min a.2 b.2 ≤ Y → Y ≤ max a.2 b.2 → leftEdge p ≤ a.1 → leftEdge p ≤ b.1 → Steep so a b →
        ∃ q ∈ ps, Crosses so Y (.line a b) (pt q)) ∧
      ∀ a c d b, Stroke.curve a c d b ∈ strokes p → CurveGenericAt Y a c d b → ∀ r, On (.curve a c d b) r → r.2 = Y → leftEdge p ≤ r.1 →
        ∃ q ∈ ps, pt q = r := by
  obtain ⟨tl, br, x1, h1, h2, h3, h4, h5, hk⟩ := knife_small so p hsm hw
  obtain ⟨ls, g1, g2⟩ := flatMap_cross (R := SegCross2 so (leftEdge p) Y) p fun s hs =>
    intersect_seg2 so (leftEdge p) x1 Y hk h5 s fun t ht q hq => h4 q ⟨t, by
      rw [strokes, List.mem_filterMap]
      exact ⟨s, hs, ht⟩, hq⟩
  have found : ∀ t ∈ strokes p, ∃ s l, strokeOf s = some t ∧ l ∈ ls ∧ SegCross2 so (leftEdge p) Y s l := by
    intro t ht
    rw [strokes, List.mem_filterMap] at ht
    obtain ⟨s, hs, ht⟩ := ht
    obtain ⟨l, hlm, hc⟩ := forall2_left g2 hs
    exact ⟨s, l, ht, hlm, hc⟩
  refine ⟨sortByX ls.flatten, ?_, sortByX_sorted _, ?_, ?_, ?_⟩
  · unfold horizontalIntercepts
    rw [h1]
    simp only [h2, h3, newPoint_mk]
    rw [g1, sortByX_fin]
  · intro q hq
    obtain ⟨l, hlm, hql⟩ := List.mem_flatten.1 ((sortByX_perm _).mem_iff.1 hq)
    obtain ⟨s, hs, hc⟩ := forall2_right g2 hlm
    obtain ⟨⟨t, ht, hc⟩, hx⟩ := hc.1 q hql
    refine ⟨⟨t, ?_, hc⟩, hx⟩
    rw [strokes, List.mem_filterMap]
    exact ⟨s, hs, ht⟩
  · intro a b ht k1 k2 k3 k4 k5
    obtain ⟨s, l, hs, hl, hc⟩ := found _ ht
    obtain ⟨q, hq, hc⟩ := hc.2.1 a b hs k1 k2 k3 k4 k5
    exact ⟨q, (sortByX_perm _).mem_iff.2 (List.mem_flatten.2 ⟨l, hl, hq⟩), hc⟩
  · intro a c d b ht hg r hr hy hx
    obtain ⟨s, l, hs, hl, hc⟩ := found _ ht
    obtain ⟨q, hq, hc⟩ := hc.2.2 a c d b hs hg r hr hy hx
    exact ⟨q, (sortByX_perm _).mem_iff.2 (List.mem_flatten.2 ⟨l, hl, hq⟩), hc⟩

/-- **C86.** For an outline with curves and a component that is drawn the same everywhere, all of this holds for the intercepts of `C147`. -/
theorem C86_curved (n : ℕ) (initial spacing : ℝ) (hs : 0 < spacing) (o : Path ℝ) (ho : Small o)
    (hw : ∃ q, Drawn o q ∧ leftEdge o + 1 / 10 ^ n < q.1)
    (tl br : Point ℝ) (hb : whitespaceBox (finPath o) = .ok (finPt tl, finPt br)) (p : Path ℝ) (hne : strokes p ≠ []) (hsm : Small p) :
    ∃ (cuts : ℝ → List (Point ℝ)) (ys : List ℝ), (∀ y, (cuts y).Pairwise fun a b => a.x ≤ b.x) ∧
      (∀ y, ∀ q ∈ cuts y, ∃ t ∈ strokes o, AtHeight n y t (pt q)) ∧
      (∀ y a c d b, Stroke.curve a c d b ∈ strokes o → CurveGenericAt y a c d b → ∀ r, On (.curve a c d b) r → r.2 = y → leftEdge o ≤ r.1 →
        ∃ q ∈ cuts y, pt q = r) ∧
      (ys.Pairwise fun a b => a + spacing ≤ b) ∧ (∀ z ∈ ys, tl.y + initial ≤ z ∧ z ≤ br.y) ∧
      (ys.flatMap (fun y => rowPairs n ((cuts y).map finPt)) ≠ [] → ∀ fuel, ys.length < fuel → ∃ q : Path ℝ,
        xIntercept n (fin initial) (fin spacing) (.ok (finPath o)) (fun _ _ _ => .ok (finPath p)) fuel = some (.ok (some (finPath q))) ∧
        strokes q = ys.flatMap fun y => (rowPairs n ((cuts y).map finPt)).flatMap fun _ => strokes p) := by
  have hbox : ∃ h : ℝ, (measure (finPath p)).2 = fin h ∧ 0 ≤ h := by
    obtain ⟨a, b, h1, h2⟩ := trimmedBox_fin hne hsm
    refine ⟨b.2 - a.2, by simp [measure, h1, finPt, mk], ?_⟩
    obtain ⟨q, hq, -⟩ := h2.top
    linarith [(h2.inside q hq).2.2.1, (h2.inside q hq).2.2.2]
  obtain ⟨h, hh, h0⟩ := hbox
  choose cuts hc hsort hcross _ hall using fun y => C147_intercepts n y o ho hw
  obtain ⟨ys, g1, -, g3⟩ := C86_rows n initial spacing hs o tl br hb (fun y => (cuts y).map finPt) hc (fun _ _ _ => .ok (finPath p)) (fun _ _ => p)
    (fun _ _ => h) (fun _ _ => rfl) (fun _ _ => hh) (fun _ _ => h0)
  obtain ⟨k1, k2, -⟩ := C86_spaced spacing br.y hs.le _ (fun y h' h0' => by
    unfold rowHeight
    rw [List.getLast?_map]
    cases (rowPairs n ((cuts y).map finPt)).getLast? with
    | none => exact h0'
    | some ab => exact h0) _ _ le_rfl ys g1
  exact ⟨cuts, ys, hsort, fun y q hq => (hcross y q hq).1, hall, k1, k2, fun hne fuel hf => (g3 fuel hf).2 hne⟩

/-- An arch: its top is found. -/
example : ∃ ps : List (Point ℝ), horizontalIntercepts (3 : Nat) (finPath [.curve ⟨0, 10, 0⟩ ⟨0, 0, 0⟩ ⟨10, 0, 0⟩ ⟨10, 10, 0⟩]) (fin (5 / 2)) = .ok (ps.map finPt) ∧
    ∃ q ∈ ps, pt q = (5, 5 / 2) := by
  set p : Path ℝ := [.curve ⟨0, 10, 0⟩ ⟨0, 0, 0⟩ ⟨10, 0, 0⟩ ⟨10, 10, 0⟩] with hp
  have hs : strokes p = [.curve (0, 10) (0, 0) (10, 0) (10, 10)] := rfl
  have hon : On (.curve (0, 10) (0, 0) (10, 0) (10, 10)) ((5, 5 / 2) : Pt ℝ) := by
    refine ⟨1 / 2, by norm_num, by norm_num, ?_⟩
    simp only [Stroke.at, Prod.mk.injEq]
    norm_num
  obtain ⟨ps, h1, -, -, -, h5⟩ := C147_intercepts 3 (5 / 2) p (by
      intro a c d b h
      rw [hs] at h
      simp only [List.mem_singleton, Stroke.curve.injEq] at h
      obtain ⟨rfl, -⟩ := h
      norm_num)
    ⟨(5, 5 / 2), ⟨_, by rw [hs]; exact .head _, hon⟩, by norm_num [leftEdge, hp, Segment.start]⟩
  refine ⟨ps, h1, h5 _ _ _ _ (by rw [hs]; exact .head _) ?_ _ hon rfl (by norm_num [leftEdge, hp, Segment.start])⟩
  refine ⟨.inl (by norm_num), .inr (by norm_num), .inr (by norm_num), 0, ?_⟩
  simp only [Stroke.at]
  norm_num

end Verif.Path
