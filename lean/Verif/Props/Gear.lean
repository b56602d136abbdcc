import Verif.Lemmas.Parts
import Verif.Spec.Components
import Verif.Props.Parts
import Mathlib.Analysis.Real.Pi.Bounds

/-!
# Properties of gears: C82
-/

namespace Verif.Path

open Verif Verif.Spec XNum

set_option linter.unusedSectionVars false
set_option linter.unusedSimpArgs false

/-! ## C82 A gear is a closed ring of congruent involute teeth -/

/-- The attributes of a gear as the code reads them. -/
def gearSize (g : GearDims) : GearSize (XNum ℝ) := ⟨g.teeth, fin g.width, fin g.angle, fin g.clearance, fin g.backlash⟩

/-- A point in polar coordinates, as the code makes it. -/
noncomputable def polarPoint (r θ : ℝ) : Point ℝ := mk (polarPt r θ)

theorem polarToCartesian_fin (r θ : ℝ) : polarToCartesian (fin r) (fin θ) = finPt (polarPoint r θ) := by
  simp only [polarToCartesian, sin_fin, cos_fin, mul_fin, newPoint_mk]
  rfl

namespace GearLemmas

variable {g : GearDims}

theorem teeth_pos (h : g.Ok) : (0:ℝ) < g.teeth := by
  have := h.teeth
  positivity

theorem pitch_pos (h : g.Ok) : 0 < g.pitch := by
  have := teeth_pos h
  have := h.width
  unfold GearDims.pitch
  positivity

theorem base_pos (h : g.Ok) : 0 < g.base := mul_pos (pitch_pos h) h.angle

theorem base_le (h : g.Ok) : g.base ≤ g.pitch := by
  unfold GearDims.base
  nlinarith [pitch_pos h, Real.cos_le_one (g.angle * Real.pi / 180)]

theorem pitch_le (h : g.Ok) : g.pitch ≤ g.outer := by
  unfold GearDims.outer
  linarith [h.clearance]

theorem root_lt (h : g.Ok) : g.root < g.pitch := by
  have := h.width
  have : 0 < g.width / Real.pi := by positivity
  unfold GearDims.root
  linarith

theorem base_le_radius (h : g.Ok) {k : ℕ} (hk : k ≤ 5) : g.base ≤ g.radius k := by
  have h1 : (k:ℝ) ≤ 5 := by exact_mod_cast hk
  have h2 : (0:ℝ) ≤ k := by positivity
  have h3 := base_le h
  have h4 := pitch_le h
  have h5 : g.base ≤ max g.base g.root := le_max_left _ _
  unfold GearDims.radius
  nlinarith

theorem radius_le (h : g.Ok) {k : ℕ} (hk : k ≤ 5) : g.radius k ≤ g.outer := by
  have h1 : (k:ℝ) ≤ 5 := by exact_mod_cast hk
  have h2 : (0:ℝ) ≤ k := by positivity
  have h5 : max g.base g.root ≤ g.outer := max_le ((base_le h).trans (pitch_le h)) ((root_lt h).le.trans (pitch_le h))
  unfold GearDims.radius
  nlinarith

theorem pitch_fin (g : GearDims) : (gearSize g).pitch = fin g.pitch := by
  have h2 : (Arith.two : XNum ℝ) = fin 2 := by simp [Arith.two]
  simp only [GearSize.pitch, gearSize, lit_fin, mul_fin, pi_fin, div_fin_ne Real.pi_ne_zero, h2, div_fin_ne (two_ne_zero' ℝ), GearDims.pitch]
  congr 1
  push_cast
  field_simp
  try ring

theorem outer_fin (g : GearDims) : (gearSize g).outer = fin g.outer := by
  simp only [GearSize.outer, pitch_fin]
  simp only [gearSize, pi_fin, div_fin_ne Real.pi_ne_zero, add_fin, sub_fin, GearDims.outer]

theorem base_fin (g : GearDims) : (gearSize g).base = fin g.base := by
  have h180 : (Arith.lit 180 0 : XNum ℝ) = fin 180 := by simp
  simp only [GearSize.base, pitch_fin]
  simp only [gearSize, degreesToRadians, pi_fin, h180, div_fin_ne (show (180:ℝ) ≠ 0 by norm_num), mul_fin, cos_fin, GearDims.base]
  congr 3
  ring

theorem root_fin (g : GearDims) : (gearSize g).root = fin g.root := by
  simp only [GearSize.root, pitch_fin, outer_fin]
  simp only [gearSize, sub_fin, GearDims.root, GearDims.outer]
  congr 1
  ring

theorem thickness_fin (g : GearDims) : (gearSize g).thickness = fin g.thickness := by
  have h2 : (Arith.two : XNum ℝ) = fin 2 := by simp [Arith.two]
  simp only [GearSize.thickness, gearSize, h2, div_fin_ne (two_ne_zero' ℝ), sub_fin, GearDims.thickness]
  congr 1
  ring

theorem iang_fin {b d : ℝ} (hb : 0 < b) (hd : b ≤ d) : iang (fin b) (fin d) = fin (involuteAngle b d) := by
  have hd0 : 0 < d := hb.trans_le hd
  have h1 : (Arith.one : XNum ℝ) = fin 1 := by simp [Arith.one]
  simp only [iang, div_fin_ne hb.ne', div_fin_ne hd0.ne', mul_fin, h1, sub_fin]
  have h2 : 1 ≤ d / b := by rw [le_div_iff₀ hb]; linarith
  have h3 : b / d ≤ 1 := by rw [div_le_one hd0]; exact hd
  have h4 : 0 < b / d := by positivity
  rw [sqrt_fin, if_neg (by nlinarith), acos_fin, if_neg (by push Not; constructor <;> linarith), sub_fin]
  unfold involuteAngle
  congr 4
  ring

theorem flankAngle_fin (h : g.Ok) : (gearSize g).flankAngle = fin (-(involuteAngle g.base g.pitch) - g.thickness / 2 / g.pitch) := by
  have h2 : (Arith.two : XNum ℝ) = fin 2 := by simp [Arith.two]
  simp only [GearSize.flankAngle, pitch_fin, base_fin, thickness_fin]
  rw [iang_fin (base_pos h) (base_le h)]
  simp only [neg_fin, h2, div_fin_ne (two_ne_zero' ℝ), div_fin_ne (pitch_pos h).ne', sub_fin]

theorem flank_fin (h : g.Ok) (s : ℝ) {k : ℕ} (hk : k ≤ 5) :
    (gearSize g).flank (fin s) k = finPt (polarPoint (g.radius k) (s * g.flankAt (g.radius k))) := by
  have h1 : (Arith.one : XNum ℝ) = fin 1 := by simp [Arith.one]
  have h5 : (Arith.lit 5 0 : XNum ℝ) = fin 5 := by simp
  have hr : fin (1 - (k:ℝ) / 5) *. (fin (max g.base g.root)) +. fin ((k:ℝ) / 5) *. fin g.outer = fin (g.radius k) := by
    simp only [mul_fin, add_fin, GearDims.radius]
  simp only [GearSize.flank, flankPoint, involutePoint, root_fin, base_fin, outer_fin, flankAngle_fin h, h1, lit_fin, h5,
    div_fin_ne (show (5:ℝ) ≠ 0 by norm_num), sub_fin, max_fin]
  have e : ((k : ℤ) : ℝ) = (k : ℝ) := by push_cast; rfl
  simp only [Int.cast_natCast, pow_zero, div_one]
  rw [hr, iang_fin (base_pos h) (base_le_radius h hk), add_fin, mul_fin, polarToCartesian_fin]
  congr 2
  unfold GearDims.flankAt
  ring

/-- The corners of a tooth in polar coordinates. -/
noncomputable def toothList (g : GearDims) : List (ℝ × ℝ) :=
  let foot := if g.root < g.base then -(involuteAngle g.base g.pitch) - g.thickness / 2 / g.pitch else -(Real.pi / g.teeth)
  [(g.root, -(Real.pi / g.teeth)), (g.root, foot)] ++ ([0, 1, 2, 3, 4, 5].map fun k => (g.radius k, g.flankAt (g.radius k))) ++
    ([5, 4, 3, 2, 1, 0].map fun k => (g.radius k, -g.flankAt (g.radius k))) ++ [(g.root, -foot), (g.root, 3.142 / (g.teeth : ℝ))]

theorem toothList_isTooth (g : GearDims) : g.IsTooth (toothList g) where
  radii := by simp [toothList, List.range_succ]
  first := by simp [toothList]
  foot := by simp [toothList]
  flank := by
    intro k hk
    interval_cases k <;> simp [toothList]
  mirror := by
    intro j h1 h2
    interval_cases j <;> simp [toothList]
  last := by simp [toothList]

theorem footAngles_fin (h : g.Ok) : (gearSize g).footAngles =
    (fin (if g.root < g.base then -(involuteAngle g.base g.pitch) - g.thickness / 2 / g.pitch else -(Real.pi / g.teeth)),
     fin (-(if g.root < g.base then -(involuteAngle g.base g.pitch) - g.thickness / 2 / g.pitch else -(Real.pi / g.teeth)))) := by
  have ht : (Arith.lit (gearSize g).teeth 0 : XNum ℝ) = fin (g.teeth : ℝ) := by simp [gearSize]
  simp only [GearSize.footAngles, root_fin, base_fin, lt_fin, decide_eq_true_eq, flankAngle_fin h, ht, pi_fin, neg_fin,
    div_fin_ne (teeth_pos h).ne']
  split_ifs
  · rfl
  · simp [neg_div]

theorem tooth_fin (h : g.Ok) : (gearSize g).tooth = (toothList g).map fun c => finPt (polarPoint c.1 c.2) := by
  have ht : (Arith.lit (gearSize g).teeth 0 : XNum ℝ) = fin (g.teeth : ℝ) := by simp [gearSize]
  have h1 : (Arith.one : XNum ℝ) = fin 1 := by simp [Arith.one]
  have h3 : (Arith.lit 3142 3 : XNum ℝ) = fin 3.142 := by
    rw [lit_fin]
    norm_num
  have f : ∀ s : ℝ, ∀ k ≤ 5, (gearSize g).flank (fin s) k = finPt (polarPoint (g.radius k) (s * g.flankAt (g.radius k))) :=
    fun s k hk => flank_fin h s hk
  unfold GearSize.tooth toothList
  simp only [footAngles_fin h, root_fin, ht, h1, h3, pi_fin, neg_fin, div_fin_ne (teeth_pos h).ne', polarToCartesian_fin, List.map_append,
    List.map_cons, List.map_nil, f _ 0 (by norm_num), f _ 1 (by norm_num), f _ 2 (by norm_num), f _ 3 (by norm_num), f _ 4 (by norm_num),
    f _ 5 (by norm_num), neg_div, one_mul, neg_one_mul]

theorem turned_fin (h : g.Ok) (i : ℕ) (r θ : ℝ) :
    (gearSize g).turned i (finPt (polarPoint r θ)) = finPt (polarPoint r (θ + i * (2 * Real.pi / g.teeth))) := by
  have ht : (Arith.lit (gearSize g).teeth 0 : XNum ℝ) = fin (g.teeth : ℝ) := by simp [gearSize]
  have hi : (Arith.lit (-(i:ℤ)) 0 : XNum ℝ) = fin (-(i : ℝ)) := by simp
  have h2 : (Arith.two : XNum ℝ) = fin 2 := by simp [Arith.two]
  simp only [GearSize.turned, ht, hi, h2, pi_fin, mul_fin, div_fin_ne (teeth_pos h).ne', cos_fin, sin_fin, finPt, polarPoint, mk, polarPt,
    sub_fin, add_fin, newPoint_mk]
  have e : -(i:ℝ) * 2 * Real.pi / g.teeth = -(i * (2 * Real.pi / g.teeth)) := by ring
  rw [e, Real.sin_neg, Real.cos_neg, Real.sin_add, Real.cos_add]
  congr 2 <;> ring

/-- The corners of the gear. -/
noncomputable def cornerList (g : GearDims) : List (Pt ℝ) :=
  (List.range g.teeth).flatMap fun i : ℕ => (toothList g).map fun c => polarPt c.1 (c.2 + i * (2 * Real.pi / g.teeth))

theorem corners_fin (h : g.Ok) : (gearSize g).corners = (cornerList g).map fun c => finPt (mk c) := by
  have ht : (gearSize g).teeth.toNat = g.teeth := by simp [gearSize]
  unfold GearSize.corners cornerList
  rw [ht, List.map_flatMap, tooth_fin h]
  congr 1
  funext i
  simp only [List.map_map]
  congr 1
  funext c
  exact turned_fin h i c.1 c.2

/-- Lines drawn one after the other. -/
theorem strokes_lines (cs : List (Pt ℝ)) : ∀ (p : Path ℝ) (c : Pt ℝ), pt (currentPosition p) = c →
    strokes (cs.foldl (fun p c => lineTo p (mk c)) p) = strokes p ++ List.zipWith Stroke.line (c :: cs) cs ∧
      pt (currentPosition (cs.foldl (fun p c => lineTo p (mk c)) p)) = (c :: cs).getLast (by simp) := by
  induction cs with
  | nil => intro p c hc; simp [hc]
  | cons d ds ih =>
    intro p c hc
    obtain ⟨h1, h2⟩ := ih (lineTo p (mk d)) d (by simp [lineTo, currentPosition, Segment.stop, pt, mk])
    refine ⟨?_, ?_⟩
    · rw [List.foldl_cons, h1]
      simp only [lineTo, strokes_append, strokes_cons, List.append_assoc]
      congr 1
      subst hc
      simp [strokes, strokeOf, pt, mk]
    · rw [List.foldl_cons, h2]
      simp

theorem currentPosition_finP (p : Path ℝ) : currentPosition (finPath p) = finPt (currentPosition p) := by
  unfold currentPosition
  rw [finPath, List.getLast?_map]
  cases h : p.getLast? with
  | none => simp [origin_fin]
  | some s => cases s <;> rfl

theorem lineTo_finP (p : Path ℝ) (q : Point ℝ) : lineTo (finPath p) (finPt q) = finPath (lineTo p q) := by
  simp only [lineTo, currentPosition_finP]
  simp [finPath, finSeg]

theorem foldl_lineTo_fin (cs : List (Pt ℝ)) : ∀ p : Path ℝ,
    (cs.map fun c => finPt (mk c)).foldl lineTo (finPath p) = finPath (cs.foldl (fun p c => lineTo p (mk c)) p) := by
  induction cs with
  | nil => intro p; rfl
  | cons c cs ih =>
    intro p
    simp only [List.map_cons, List.foldl_cons, lineTo_finP]
    exact ih _

theorem zipWith_snoc (c d : Pt ℝ) (cs : List (Pt ℝ)) :
    List.zipWith Stroke.line (c :: cs) (cs ++ [d]) = List.zipWith Stroke.line (c :: cs) cs ++ [.line ((c :: cs).getLast (by simp)) d] := by
  induction cs generalizing c with
  | nil => simp
  | cons x xs ih =>
    rw [List.cons_append, List.zipWith_cons_cons, ih x, List.zipWith_cons_cons]
    simp

end GearLemmas

open GearLemmas

theorem outline_corners (g : GearDims) (h : g.Ok) : ∃ p : Path ℝ, (gearSize g).outline = finPath p ∧
    strokes p = polygon ((List.range g.teeth).flatMap fun i : ℕ => (toothList g).map fun c => polarPt c.1 (c.2 + i * (2 * Real.pi / g.teeth))) := by
  have hc : ∃ cs, cornerList g = polarPt g.root (-(Real.pi / g.teeth)) :: cs := by
    obtain ⟨n, hn⟩ : ∃ n, g.teeth = n + 1 := ⟨g.teeth - 1, by have := h.teeth; omega⟩
    unfold cornerList
    simp [hn, List.range_succ_eq_map, toothList]
  obtain ⟨cs, hcs⟩ := hc
  have ht : (Arith.lit (gearSize g).teeth 0 : XNum ℝ) = fin (g.teeth : ℝ) := by simp [gearSize]
  set c := polarPt g.root (-(Real.pi / g.teeth)) with hcd
  refine ⟨lineTo (cs.foldl (fun p c => lineTo p (mk c)) [.move origin (mk c)]) (mk c), ?_, ?_⟩
  · have e1 : (gearSize g).corners = finPt (mk c) :: cs.map fun c => finPt (mk c) := by
      rw [corners_fin h, hcs]; rfl
    have e2 : polarToCartesian (gearSize g).root ((-. Trig.pi) /. Arith.lit (gearSize g).teeth 0) = finPt (mk c) := by
      rw [root_fin, ht, pi_fin, neg_fin, div_fin_ne (teeth_pos h).ne', polarToCartesian_fin, neg_div]
      rfl
    have e3 : moveTo ([] : Path (XNum ℝ)) (finPt (mk c)) = finPath [.move origin (mk c)] := by
      simp [moveTo, currentPosition, finPath, finSeg, origin_fin]
    unfold GearSize.outline
    simp only [e1, e2, e3]
    rw [foldl_lineTo_fin, lineTo_finP]
  · obtain ⟨h1, h2⟩ := strokes_lines cs [.move origin (mk c)] c (by simp [currentPosition, Segment.stop, pt, mk])
    have e : strokes ([.move origin (mk c)] : Path ℝ) = [] := by simp [strokes, strokeOf]
    change _ = polygon (cornerList g)
    rw [hcs, polygon, List.rotate_cons_succ, List.rotate_zero, zipWith_snoc]
    rw [lineTo, strokes_append, h1, e, List.nil_append]
    simp only [strokes, List.filterMap_cons, List.filterMap_nil, strokeOf, h2]
    rfl

/-- **C82.** The outline of a gear is a closed polygon: the corners of one tooth, then the same corners turned by one pitch, and so on all
around, and at last a line back to the first corner. -/
theorem C82_outline (g : GearDims) (h : g.Ok) : ∃ tooth : List (ℝ × ℝ), g.IsTooth tooth ∧ ∃ p : Path ℝ, (gearSize g).outline = finPath p ∧
    strokes p = polygon ((List.range g.teeth).flatMap fun i : ℕ => tooth.map fun c => polarPt c.1 (c.2 + i * (2 * Real.pi / g.teeth))) :=
  ⟨toothList g, toothList_isTooth g, outline_corners g h⟩

/-- The corners of a gear are not farther from the centre than the outer circle. -/
theorem corner_within (g : GearDims) (h : g.Ok) (tooth : List (ℝ × ℝ)) (ht : g.IsTooth tooth) (c : ℝ × ℝ) (hc : c ∈ tooth) :
    |c.1| ≤ g.outer := by
  have hm : c.1 ∈ tooth.map Prod.fst := List.mem_map_of_mem hc
  rw [ht.radii] at hm
  have hr : |g.root| ≤ g.outer := by
    have h1 := root_lt h
    have h2 := pitch_le h
    have h3 : -g.pitch ≤ g.root := by
      have h4 : (1:ℝ) ≤ g.teeth := by exact_mod_cast h.teeth
      have h5 := h.width
      have h6 : g.width / Real.pi ≤ 2 * g.pitch := by
        unfold GearDims.pitch
        have : 2 * (g.width * g.teeth / (2 * Real.pi)) = g.width / Real.pi * g.teeth := by field_simp
        rw [this]
        exact le_mul_of_one_le_right (by positivity) h4
      unfold GearDims.root
      linarith
    rw [abs_le]
    constructor <;> linarith
  have hk : ∀ k ≤ 5, |g.radius k| ≤ g.outer := fun k hk => by
    rw [abs_of_pos ((base_pos h).trans_le (base_le_radius h hk))]
    exact radius_le h hk
  simp only [List.mem_append, List.mem_cons, List.mem_reverse, List.mem_map, List.mem_range, List.not_mem_nil, or_false] at hm
  rcases hm with ((h1 | ⟨k, h1, h2⟩) | ⟨k, h1, h2⟩) | h1
  · rcases h1 with h1 | h1 <;> rw [h1] <;> exact hr
  · rw [← h2]; exact hk k (by omega)
  · rw [← h2]; exact hk k (by omega)
  · rcases h1 with h1 | h1 <;> rw [h1] <;> exact hr

/-- **C82.** Nothing is drawn outside of the outer circle. -/
theorem C82_within (g : GearDims) (h : g.Ok) (p : Path ℝ) (hp : (gearSize g).outline = finPath p) (x : Pt ℝ) (hx : Drawn p x) :
    x.1 ^ 2 + x.2 ^ 2 ≤ g.outer ^ 2 := by
  obtain ⟨tooth, h1, q, h2, h3⟩ := C82_outline g h
  rw [hp] at h2
  have e := finPath_injective h2
  subst e
  have hcorner : ∀ c ∈ ((List.range g.teeth).flatMap fun i : ℕ => tooth.map fun c => polarPt c.1 (c.2 + i * (2 * Real.pi / g.teeth))),
      c.1 ^ 2 + c.2 ^ 2 ≤ g.outer ^ 2 := by
    intro c hc
    simp only [List.mem_flatMap, List.mem_map] at hc
    obtain ⟨i, -, d, hd, rfl⟩ := hc
    have h4 := corner_within g h tooth h1 d hd
    have h5 : (polarPt d.1 (d.2 + i * (2 * Real.pi / g.teeth))).1 ^ 2 + (polarPt d.1 (d.2 + i * (2 * Real.pi / g.teeth))).2 ^ 2 = d.1 ^ 2 := by
      simp only [polarPt]
      linear_combination d.1 ^ 2 * Real.sin_sq_add_cos_sq (d.2 + i * (2 * Real.pi / g.teeth))
    rw [h5]
    exact sq_le_sq' (by linarith [neg_abs_le d.1]) (by linarith [le_abs_self d.1])
  obtain ⟨st, hst, t, t0, t1, rfl⟩ := hx
  rw [h3, polygon] at hst
  obtain ⟨i, hi, rfl⟩ := List.mem_iff_getElem.mp hst
  rw [List.getElem_zipWith]
  set l := ((List.range g.teeth).flatMap fun i : ℕ => tooth.map fun c => polarPt c.1 (c.2 + i * (2 * Real.pi / g.teeth)))
  have ha := hcorner _ (List.getElem_mem (l := l) (n := i) (by simp at hi; omega))
  have hb := hcorner _ (List.mem_rotate.mp (List.getElem_mem (l := l.rotate 1) (n := i) (by simp at hi ⊢; omega)))
  generalize l[i]'_ = a at ha ⊢
  generalize (l.rotate 1)[i]'_ = b at hb ⊢
  simp only [Stroke.at]
  have h6 : 0 ≤ t * (1 - t) := mul_nonneg t0 (by linarith)
  nlinarith [mul_nonneg h6 (sq_nonneg (a.1 - b.1)), mul_nonneg h6 (sq_nonneg (a.2 - b.2)), mul_le_mul_of_nonneg_left ha (show 0 ≤ 1 - t by linarith),
    mul_le_mul_of_nonneg_left hb t0]

/-- **C82.** The flanks are involutes of the base circle: the direction that the code computes for the distance `d` is the one in which the
end of the unwound thread has this distance. -/
theorem C82_involute (b d : ℝ) (hb : 0 < b) (hd : b ≤ d) :
    polarPt d (involuteAngle b d) = involute b (Real.sqrt ((d / b) ^ 2 - 1)) := by
  have hd0 : 0 < d := hb.trans_le hd
  have h3 : b / d ≤ 1 := by rw [div_le_one hd0]; exact hd
  have h4 : 0 < b / d := by positivity
  set φ := Real.sqrt ((d / b) ^ 2 - 1) with hφ
  have hs : d * Real.sin (Real.arccos (b / d)) = b * φ := by
    rw [Real.sin_arccos, hφ]
    have e1 : 1 - (b / d) ^ 2 = (b / d) ^ 2 * ((d / b) ^ 2 - 1) := by field_simp
    rw [e1, Real.sqrt_mul (sq_nonneg _), Real.sqrt_sq h4.le]
    field_simp
  have hc : d * Real.cos (Real.arccos (b / d)) = b := by
    rw [Real.cos_arccos (by linarith) h3]
    field_simp
  have e : involuteAngle b d = φ - Real.arccos (b / d) := rfl
  rw [e]
  simp only [polarPt, involute, Real.sin_sub, Real.cos_sub]
  refine Prod.ext ?_ ?_
  · linear_combination Real.sin φ * hc - Real.cos φ * hs
  · linear_combination Real.cos φ * hc + Real.sin φ * hs

/-- **C82.** On the pitch circle the flanks of a tooth are apart by an arc of the length `thickness`. -/
theorem C82_thickness (g : GearDims) (h : g.Ok) : g.pitch * (-g.flankAt g.pitch - g.flankAt g.pitch) = g.thickness := by
  have := (pitch_pos h).ne'
  unfold GearDims.flankAt
  field_simp
  ring

/-- **C82.** A tooth does not end where the next one begins: the code has 3.142 for π there, and the outline goes back a little. -/
theorem C82_meet_false (g : GearDims) (h : g.Ok) (hr : 0 < g.root) (tooth : List (ℝ × ℝ)) (ht : g.IsTooth tooth) :
    ∃ a b : ℝ × ℝ, tooth.head? = some a ∧ tooth.getLast? = some b ∧ a.2 + 2 * Real.pi / g.teeth < b.2 ∧
      polarPt a.1 (a.2 + 2 * Real.pi / g.teeth) ≠ polarPt b.1 b.2 := by
  refine ⟨_, _, ht.first, ht.last, ?_, ?_⟩
  · have := teeth_pos h
    simp only
    rw [show -(Real.pi / (g.teeth:ℝ)) + 2 * Real.pi / g.teeth = Real.pi / g.teeth by ring]
    rw [div_lt_div_iff_of_pos_right this]
    exact Real.pi_lt_d20.trans (by norm_num)
  · intro hc
    have hn := teeth_pos h
    have hn1 : (1:ℝ) ≤ g.teeth := by exact_mod_cast h.teeth
    simp only [polarPt] at hc
    rw [show -(Real.pi / (g.teeth:ℝ)) + 2 * Real.pi / g.teeth = Real.pi / g.teeth by ring] at hc
    have h1 := mul_left_cancel₀ hr.ne' (congrArg Prod.fst hc)
    have h2 := mul_left_cancel₀ hr.ne' (congrArg Prod.snd hc)
    have hpi : Real.pi < 3.142 := Real.pi_lt_d20.trans (by norm_num)
    have hpi' : 3 < Real.pi := Real.pi_gt_three
    have h3 : Real.sin (3.142 / g.teeth - Real.pi / g.teeth) = 0 := by
      rw [Real.sin_sub, ← h1, ← h2]; ring
    have h4 : 0 < Real.sin (3.142 / g.teeth - Real.pi / g.teeth) := by
      apply Real.sin_pos_of_pos_of_lt_pi
      · rw [← sub_div]
        exact div_pos (by linarith) hn
      · rw [← sub_div, div_lt_iff₀ hn]
        nlinarith
    linarith

/-- Not vacuous: the sizes that the code takes when no attribute is given. -/
theorem gear_default_ok : (⟨10, 0.5, 20, 0.01, 0.01⟩ : GearDims).Ok where
  teeth := by norm_num
  width := by norm_num
  angle := by
    apply Real.cos_pos_of_mem_Ioo
    constructor <;> norm_num <;> nlinarith [Real.pi_pos]
  clearance := by
    rw [le_div_iff₀ Real.pi_pos]
    norm_num
    linarith [Real.pi_lt_four]

example : ∃ tooth : List (ℝ × ℝ), (⟨10, 0.5, 20, 0.01, 0.01⟩ : GearDims).IsTooth tooth ∧
    ∃ p : Path ℝ, (gearSize ⟨10, 0.5, 20, 0.01, 0.01⟩).outline = finPath p ∧ (strokes p).length = 160 := by
  obtain ⟨tooth, h1, p, h2, h3⟩ := C82_outline _ gear_default_ok
  refine ⟨tooth, h1, p, h2, ?_⟩
  have hl : tooth.length = 16 := by
    have := congrArg List.length h1.radii
    simpa using this
  rw [h3, polygon, List.length_zipWith, List.length_rotate, min_self, List.length_flatMap]
  simp [hl, List.range_succ]

end Verif.Path
