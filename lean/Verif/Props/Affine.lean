import Verif.Props.Transform
import Verif.Spec.Affine

/-!
# Properties of the matrix transform and of the transform that turns and scales

C77 about `MatrixTransform` and C78 about `RotateScaleTransform`. The statements use `Spec/Affine.lean`.
-/

namespace Verif.Path

open Verif Verif.Spec Verif.XNum

universe u

set_option linter.unusedSectionVars false

/-! ## C77 The matrix transform -/

variable {K : Type u} [Field K] [LinearOrder K]

/-- **C77.** The transform applies the matrix to every point of every stroke. -/
theorem C77_strokes (m : Matrix K) (p : Path K) :
    strokes (matrixTransform m.a m.b m.c m.d m.e m.f p) = (strokes p).map (Stroke.map m.apply) := by
  apply strokes_mapPath
  intro q
  simp only [newPoint_eq, pt, Matrix.apply, Prod.mk.injEq]
  constructor <;> ring_nf <;> simp [mul_comm, add_comm, add_left_comm]

theorem matrix_at (m : Matrix K) (s : Stroke K) (t : K) : (s.map m.apply).at t = m.apply (s.at t) := by
  cases s <;> simp only [Stroke.map, Stroke.at, Matrix.apply] <;> ext <;> simp only [] <;> ring

/-- **C77.** What is drawn is exactly the image under the matrix of what was drawn before. -/
theorem C77_drawn (m : Matrix K) (p : Path K) (y : Pt K) :
    Drawn (matrixTransform m.a m.b m.c m.d m.e m.f p) y ↔ ∃ x, Drawn p x ∧ m.apply x = y :=
  drawn_map (matrix_at m) (C77_strokes m p) y

theorem apply_andThen (m m' : Matrix K) (q : Pt K) : (m.andThen m').apply q = m'.apply (m.apply q) := by
  simp only [Matrix.andThen, Matrix.apply]
  ext <;> simp only [] <;> ring

/-- **C77.** Two matrices one after the other are the matrix product. -/
theorem C77_compose (m m' : Matrix K) (p : Path K) :
    strokes (matrixTransform m'.a m'.b m'.c m'.d m'.e m'.f (matrixTransform m.a m.b m.c m.d m.e m.f p)) =
      strokes (matrixTransform (m.andThen m').a (m.andThen m').b (m.andThen m').c (m.andThen m').d (m.andThen m').e (m.andThen m').f p) := by
  rw [C77_strokes m', C77_strokes m, C77_strokes (m.andThen m'), List.map_map]
  congr 1
  funext s
  rw [Function.comp_apply, stroke_map_map]
  congr 1
  funext q
  exact (apply_andThen m m' q).symm

/-- **C77.** The identity matrix changes no stroke; the matrices of a translation and of a scaling do what those transforms do. -/
theorem C77_special (p : Path K) (u v : K) :
    strokes (matrixTransform 1 0 0 1 0 0 p) = strokes p ∧
      strokes (matrixTransform 1 0 0 1 u v p) = strokes (shift u v p) ∧
      strokes (matrixTransform u 0 0 v 0 0 p) = strokes (scaleBy u v p) := by
  refine ⟨?_, ?_, ?_⟩
  · rw [C77_strokes ⟨1, 0, 0, 1, 0, 0⟩]
    conv_rhs => rw [← List.map_id (strokes p)]
    congr 1
    funext s
    exact stroke_map_id _ (fun q => by simp [Matrix.apply]) s
  · rw [C77_strokes ⟨1, 0, 0, 1, u, v⟩, C27_shift]
    congr 2
    funext q
    simp [Matrix.apply, translate]
  · rw [C77_strokes ⟨u, 0, 0, v, 0, 0⟩, C30_strokes]
    congr 2
    funext q
    simp [Matrix.apply, scalePt, mul_comm]

/-- **C77.** On finite paths extended arithmetic does the same. -/
theorem C77_fin (m : Matrix ℝ) (p : Path ℝ) :
    matrixTransform (fin m.a) (fin m.b) (fin m.c) (fin m.d) (fin m.e) (fin m.f) (finPath p) =
      finPath (matrixTransform m.a m.b m.c m.d m.e m.f p) := by
  refine mapPath_fin _ _ (fun q => ?_) p
  simp only [finPt, mul_fin, add_fin]
  exact newPoint_fin _ _

/-- Not vacuous: a shear. -/
example : strokes (matrixTransform (1 : ℚ) 2 0 1 0 5 [.move ⟨0, 0, 0⟩ ⟨1, 1, 0⟩, .line ⟨1, 1, 0⟩ ⟨2, 3, 0⟩]) =
    [.line (1, 8) (2, 12)] := by
  rw [C77_strokes ⟨1, 2, 0, 1, 0, 5⟩]
  simp only [strokes, strokeOf, List.filterMap_cons, List.filterMap_nil, List.map_cons, List.map_nil, Stroke.map, Matrix.apply, pt]
  norm_num

/-! ## C78 Turning and scaling to two given points -/

theorem startPoint_fin (p : Path ℝ) (hne : strokes p ≠ []) : ∃ a : Point ℝ, pointAttribute Attr.startPoint.text (finPath p) = .ok (finPt a) ∧
    (strokes p).head?.map Stroke.first = some (pt a) := by
  obtain ⟨s, t, h1, h2, h3⟩ := strokes_head_trim p hne
  have e1 : (trimMove (finPath p)).head? = some (finSeg s) := by rw [trimMove_fin, finPath, List.head?_map, h1]; rfl
  refine ⟨s.start, ?_, ?_⟩
  · simp only [pointAttribute_text, namedValue, e1, start_finSeg]
  · rw [h3]
    cases s <;> simp only [strokeOf, Option.some.injEq, reduceCtorEq] at h2 <;> subst h2 <;> rfl

/-- The ends of the drawing, as the code finds them. -/
theorem visibleLine_fin (p : Path ℝ) (hne : strokes p ≠ []) : ∃ a b : Point ℝ, visibleLine (finPath p) = .ok (finPt a, finPt b) ∧
    (strokes p).head?.map Stroke.first = some (pt a) ∧ (strokes p).getLast?.map Stroke.last = some (pt b) := by
  obtain ⟨s, t, h1, h2, h3⟩ := strokes_head_trim p hne
  obtain ⟨s', t', h1', h2', h3'⟩ := strokes_last_trim p hne
  have e1 : (trimMove (finPath p)).head? = some (finSeg s) := by rw [trimMove_fin, finPath, List.head?_map, h1]; rfl
  have e2 : (trimMove (finPath p)).getLast? = some (finSeg s') := by rw [trimMove_fin, finPath, List.getLast?_map, h1']; rfl
  refine ⟨s.start, s'.stop, ?_, ?_, ?_⟩
  · simp only [visibleLine, pointAttribute_text, namedValue, e1, e2, start_finSeg, stop_finSeg]
  · rw [h3]
    cases s <;> simp only [strokeOf, Option.some.injEq, reduceCtorEq] at h2 <;> subst h2 <;> rfl
  · rw [h3']
    cases s' <;> simp only [strokeOf, Option.some.injEq, reduceCtorEq] at h2' <;> subst h2' <;> rfl

theorem first_map {F : Type u} (g : Pt F → Pt F) (s : Stroke F) : (s.map g).first = g s.first := by cases s <;> rfl
theorem last_map {F : Type u} (g : Pt F → Pt F) (s : Stroke F) : (s.map g).last = g s.last := by cases s <;> rfl

theorem head_first_map {F : Type u} (g : Pt F → Pt F) (l : List (Stroke F)) :
    ((l.map (Stroke.map g)).head?).map Stroke.first = (l.head?.map Stroke.first).map g := by
  cases l <;> simp [first_map]

theorem last_last_map {F : Type u} (g : Pt F → Pt F) (l : List (Stroke F)) :
    ((l.map (Stroke.map g)).getLast?).map Stroke.last = (l.getLast?.map Stroke.last).map g := by
  rw [List.getLast?_map]
  cases l.getLast? <;> simp [last_map]

theorem lineAngle_fin (a b : Point ℝ) : lineAngle (finPt a, finPt b) = fin (180 / Real.pi * Complex.arg ⟨b.x - a.x, b.y - a.y⟩) := by
  have h180 : (Arith.lit 180 0 : XNum ℝ) = fin 180 := by simp
  simp only [lineAngle, finPt, pi_fin, h180, div_fin_ne Real.pi_ne_zero, sub_fin, atan2_fin, mul_fin]

theorem polar (x y : ℝ) : x = Real.sqrt (x ^ 2 + y ^ 2) * Real.cos (Complex.arg ⟨x, y⟩) ∧ y = Real.sqrt (x ^ 2 + y ^ 2) * Real.sin (Complex.arg ⟨x, y⟩) := by
  have h := Complex.norm_mul_cos_arg ⟨x, y⟩
  have h' := Complex.norm_mul_sin_arg ⟨x, y⟩
  rw [Complex.norm_def, Complex.normSq_mk, ← sq, ← sq] at h h'
  exact ⟨h.symm, h'.symm⟩

theorem rotateScaleFactor_fin (s t a b : Point ℝ) : rotateScaleFactor (finPt s, finPt t) (finPt a, finPt b) =
    fin (max (if |b.x - a.x| = 0 then 0 else |t.x - s.x| / |b.x - a.x|) (if |b.y - a.y| = 0 then 0 else |t.y - s.y| / |b.y - a.y|)) := by
  simp only [rotateScaleFactor, finPt, sub_fin, abs_fin, Bezier.zero_fin, eq_fin]
  have key : ∀ u v : ℝ, (if decide (v = 0) = true then fin 0 else fin u /. fin v : XNum ℝ) = fin (if v = 0 then 0 else u / v) := by
    intro u v
    by_cases h : v = 0
    · simp [h]
    · simp [h, div_fin_ne h]
  rw [key, key, max_fin]

/-- The factor, for a line turned into the direction of the requested one. -/
theorem factor_eq {c t : Pt ℝ} (hc : c ≠ (0, 0)) : let lc := Real.sqrt (c.1 ^ 2 + c.2 ^ 2)
    let lt := Real.sqrt (t.1 ^ 2 + t.2 ^ 2)
    let φ := Complex.arg ⟨t.1, t.2⟩
    max (if |lc * Real.cos φ| = 0 then 0 else |t.1| / |lc * Real.cos φ|) (if |lc * Real.sin φ| = 0 then 0 else |t.2| / |lc * Real.sin φ|) = lt / lc := by
  intro lc lt φ
  have hlc : 0 < lc := by
    apply Real.sqrt_pos.mpr
    by_contra h
    have h1 : c.1 = 0 := by nlinarith [sq_nonneg c.1, sq_nonneg c.2]
    have h2 : c.2 = 0 := by nlinarith [sq_nonneg c.1, sq_nonneg c.2]
    exact hc (Prod.ext h1 h2)
  obtain ⟨p1, p2⟩ := polar t.1 t.2
  have hlt : 0 ≤ lt := Real.sqrt_nonneg _
  have e1 : ∀ x : ℝ, x ≠ 0 → |lt * x| / |lc * x| = lt / lc := by
    intro x hx
    rw [abs_mul, abs_mul, abs_of_nonneg hlt, abs_of_pos hlc]
    have : |x| ≠ 0 := abs_ne_zero.mpr hx
    field_simp
  have q : 0 ≤ lt / lc := by positivity
  change t.1 = lt * Real.cos φ at p1
  change t.2 = lt * Real.sin φ at p2
  rw [p1, p2]
  have hz : ∀ x : ℝ, |lc * x| = 0 ↔ x = 0 := by
    intro x
    simp [hlc.ne']
  simp only [hz]
  by_cases hcos : Real.cos φ = 0
  · have hsin : Real.sin φ ≠ 0 := by
      intro h
      have := Real.sin_sq_add_cos_sq φ
      rw [h, hcos] at this
      norm_num at this
    rw [if_pos hcos, if_neg hsin, e1 _ hsin, max_eq_right q]
  · rw [if_neg hcos, e1 _ hcos]
    split
    · exact max_eq_left q
    · next h => rw [e1 _ h, max_self]

/-- **C78.** For a finite drawing whose visible start and end differ, the transform succeeds, and it applies to every point of every stroke
the turning and scaling that takes the visible start to `s` and the visible end to `t`. -/
theorem C78_similarity (p : Path ℝ) (hs : Small p) (s t : Point ℝ) (A B : Pt ℝ)
    (hA : (strokes p).head?.map Stroke.first = some A) (hB : (strokes p).getLast?.map Stroke.last = some B) (hAB : A ≠ B) :
    ∃ q : Path ℝ, rotateScale (finPt s) (finPt t) (finPath p) = .ok (finPath q) ∧
      strokes q = (strokes p).map (Stroke.map (similarity A B (pt s) (pt t))) := by
  have hne : strokes p ≠ [] := by
    intro e
    rw [e] at hA
    cases hA
  obtain ⟨a, b, v1, v2, v3⟩ := visibleLine_fin p hne
  rw [hA, Option.some.injEq] at v2
  rw [hB, Option.some.injEq] at v3
  obtain ⟨x, x1, -⟩ := C28_handles p hne hs .topLeft (by decide)
  have x1' : pointAttribute (handleOf Attr.topLeft.text) (finPath p) = .ok (finPt x) := by rw [handleOf_text]; exact x1
  set φ := Complex.arg ⟨t.x - s.x, t.y - s.y⟩ with hφ
  set ψ := Complex.arg ⟨b.x - a.x, b.y - a.y⟩ with hψ
  obtain ⟨q, q1, q2⟩ := C31_rotate p (180 / Real.pi * φ - 180 / Real.pi * ψ) Attr.topLeft.text x x1'
  have hθ : (180 / Real.pi * φ - 180 / Real.pi * ψ) * Real.pi / 180 = φ - ψ := by
    field_simp
  rw [hθ] at q2
  have hne' : strokes q ≠ [] := by rw [q2]; simpa using hne
  obtain ⟨a', b', w1, w2, w3⟩ := visibleLine_fin q hne'
  have ea : pt a' = rotateAbout (pt x) (φ - ψ) A := by
    rw [q2, head_first_map, hA] at w2
    exact (Option.some.inj w2).symm
  have eb : pt b' = rotateAbout (pt x) (φ - ψ) B := by
    rw [q2, last_last_map, hB] at w3
    exact (Option.some.inj w3).symm
  set lc := Real.sqrt ((b.x - a.x) ^ 2 + (b.y - a.y) ^ 2) with hlc
  set lt := Real.sqrt ((t.x - s.x) ^ 2 + (t.y - s.y) ^ 2) with hlt
  obtain ⟨c1, c2⟩ := polar (b.x - a.x) (b.y - a.y)
  obtain ⟨t1, t2⟩ := polar (t.x - s.x) (t.y - s.y)
  rw [← hlc, ← hψ] at c1 c2
  rw [← hlt, ← hφ] at t1 t2
  rw [v2, v3] at hAB
  have d1 : b'.x - a'.x = lc * Real.cos φ := by
    have h1 := congrArg Prod.fst ea
    have h2 := congrArg Prod.fst eb
    simp only [pt, rotateAbout, v2, v3] at h1 h2
    have e : Real.cos φ = Real.cos (φ - ψ) * Real.cos ψ - Real.sin (φ - ψ) * Real.sin ψ := by rw [← Real.cos_add]; ring_nf
    rw [h1, h2, e]
    linear_combination Real.cos (φ - ψ) * c1 - Real.sin (φ - ψ) * c2
  have d2 : b'.y - a'.y = lc * Real.sin φ := by
    have h1 := congrArg Prod.snd ea
    have h2 := congrArg Prod.snd eb
    simp only [pt, rotateAbout, v2, v3] at h1 h2
    have e : Real.sin φ = Real.sin (φ - ψ) * Real.cos ψ + Real.cos (φ - ψ) * Real.sin ψ := by rw [← Real.sin_add]; ring_nf
    rw [h1, h2, e]
    linear_combination Real.sin (φ - ψ) * c1 + Real.cos (φ - ψ) * c2
  have hc0 : ((b.x - a.x, b.y - a.y) : Pt ℝ) ≠ (0, 0) := by
    intro e
    simp only [Prod.mk.injEq] at e
    apply hAB
    simp only [pt, Prod.mk.injEq]
    exact ⟨by linarith [e.1], by linarith [e.2]⟩
  have hk := factor_eq (t := (t.x - s.x, t.y - s.y)) hc0
  simp only [← hlc, ← hlt, ← hφ] at hk
  have hk' : rotateScaleFactor (finPt s, finPt t) (finPt a', finPt b') = fin (lt / lc) := by
    rw [rotateScaleFactor_fin, d1, d2, hk]
  set k := lt / lc with hkdef
  have hsc : scale ⟨fin k, fin k, zeroPoint, zeroPoint, Arith.zero, Arith.zero⟩ (finPath q) = finPath (scaleBy k k q) := by
    rw [← scaleBy_fin]
    simp [scale, scaleFactors, zeroPoint, Point.equals]
  have hne2 : strokes (scaleBy k k q) ≠ [] := by rw [C30_strokes]; simpa using hne'
  obtain ⟨a2, y1, y2⟩ := startPoint_fin (scaleBy k k q) hne2
  rw [C30_strokes, head_first_map, w2] at y2
  simp only [Option.map_some, Option.some.injEq] at y2
  refine ⟨shift (s.x - a2.x) (s.y - a2.y) (scaleBy k k q), ?_, ?_⟩
  · unfold rotateScale
    rw [v1, Res.ok_bind]
    simp only [lineAngle_fin, sub_fin]
    rw [q1, Res.ok_bind, w1, Res.ok_bind, hk', hsc]
    simp only [move, handleOf_text, y1]
    rw [← shift_fin]
    simp only [finPt, sub_fin]
  · rw [C27_shift, C30_strokes, q2, List.map_map, List.map_map]
    congr 1
    funext st
    simp only [Function.comp_apply, stroke_map_map]
    congr 1
    funext z
    have hlc0 : lc ≠ 0 := by
      intro e
      rw [e] at c1 c2
      apply hc0
      simp [c1, c2]
    have hsq : (b.x - a.x) ^ 2 + (b.y - a.y) ^ 2 = lc ^ 2 := by
      rw [hlc, Real.sq_sqrt (by positivity)]
    have hu : ((t.x - s.x) * (b.x - a.x) + (t.y - s.y) * (b.y - a.y)) / ((b.x - a.x) ^ 2 + (b.y - a.y) ^ 2) = k * Real.cos (φ - ψ) := by
      rw [hsq, c1, c2, t1, t2, Real.cos_sub, hkdef]
      field_simp
    have hv : ((t.y - s.y) * (b.x - a.x) - (t.x - s.x) * (b.y - a.y)) / ((b.x - a.x) ^ 2 + (b.y - a.y) ^ 2) = k * Real.sin (φ - ψ) := by
      rw [hsq, c1, c2, t1, t2, Real.sin_sub, hkdef]
      field_simp
    have z1 := congrArg Prod.fst y2
    have z2 := congrArg Prod.snd y2
    simp only [Function.comp_apply, similarity, v2, v3, pt, hu, hv]
    simp only [pt, scalePt] at z1 z2
    have g1 := congrArg Prod.fst ea
    have g2 := congrArg Prod.snd ea
    simp only [pt, rotateAbout, v2] at g1 g2
    ext
    · simp only [translate, scalePt, rotateAbout, ← z1, g1]
      ring
    · simp only [translate, scalePt, rotateAbout, ← z2, g2]
      ring

/-- **C78.** That map takes the visible start to `s` and the visible end to `t`, and it multiplies all distances by the same factor. -/
theorem C78_ends (A B S T : Pt ℝ) (hAB : A ≠ B) : similarity A B S T A = S ∧ similarity A B S T B = T ∧
    ∀ x y : Pt ℝ, (((similarity A B S T x).1 - (similarity A B S T y).1) ^ 2 + ((similarity A B S T x).2 - (similarity A B S T y).2) ^ 2) *
        ((B.1 - A.1) ^ 2 + (B.2 - A.2) ^ 2) =
      ((T.1 - S.1) ^ 2 + (T.2 - S.2) ^ 2) * ((x.1 - y.1) ^ 2 + (x.2 - y.2) ^ 2) := by
  have hn : (B.1 - A.1) ^ 2 + (B.2 - A.2) ^ 2 ≠ 0 := by
    intro h
    have h1 : B.1 - A.1 = 0 := by nlinarith [sq_nonneg (B.1 - A.1), sq_nonneg (B.2 - A.2)]
    have h2 : B.2 - A.2 = 0 := by nlinarith [sq_nonneg (B.1 - A.1), sq_nonneg (B.2 - A.2)]
    exact hAB (Prod.ext (by linarith) (by linarith))
  refine ⟨by simp [similarity], ?_, fun x y => ?_⟩
  · simp only [similarity]
    ext
    · simp only []
      field_simp
      ring
    · simp only []
      field_simp
      ring
  · simp only [similarity]
    field_simp
    ring

/-- **C78.** A drawing that ends where it begins has no direction: it shrinks to the point `s`. -/
theorem C78_closed (p : Path ℝ) (hs : Small p) (s t : Point ℝ) (A : Pt ℝ)
    (hA : (strokes p).head?.map Stroke.first = some A) (hB : (strokes p).getLast?.map Stroke.last = some A) :
    ∃ q : Path ℝ, rotateScale (finPt s) (finPt t) (finPath p) = .ok (finPath q) ∧
      strokes q = (strokes p).map (Stroke.map fun _ => pt s) := by
  have hne : strokes p ≠ [] := by
    intro e
    rw [e] at hA
    cases hA
  obtain ⟨a, b, v1, v2, v3⟩ := visibleLine_fin p hne
  rw [hA, Option.some.injEq] at v2
  rw [hB, Option.some.injEq] at v3
  obtain ⟨x, x1, -⟩ := C28_handles p hne hs .topLeft (by decide)
  have x1' : pointAttribute (handleOf Attr.topLeft.text) (finPath p) = .ok (finPt x) := by rw [handleOf_text]; exact x1
  obtain ⟨q, q1, q2⟩ := C31_rotate p (180 / Real.pi * Complex.arg ⟨t.x - s.x, t.y - s.y⟩ - 180 / Real.pi * Complex.arg ⟨b.x - a.x, b.y - a.y⟩)
    Attr.topLeft.text x x1'
  have hne' : strokes q ≠ [] := by rw [q2]; simpa using hne
  obtain ⟨a', b', w1, w2, w3⟩ := visibleLine_fin q hne'
  have ea : pt a' = pt b' := by
    have e := w2
    have e' := w3
    rw [q2, head_first_map, hA] at e
    rw [q2, last_last_map, hB] at e'
    exact Option.some.inj (e.symm.trans e')
  simp only [pt, Prod.mk.injEq] at ea
  have hk' : rotateScaleFactor (finPt s, finPt t) (finPt a', finPt b') = fin 0 := by
    rw [rotateScaleFactor_fin]
    simp [ea.1, ea.2]
  have hsc : scale ⟨fin 0, fin 0, zeroPoint, zeroPoint, Arith.zero, Arith.zero⟩ (finPath q) = finPath (scaleBy 0 0 q) := by
    rw [← scaleBy_fin]
    simp [scale, scaleFactors, zeroPoint, Point.equals]
  have hne2 : strokes (scaleBy 0 0 q) ≠ [] := by rw [C30_strokes]; simpa using hne'
  obtain ⟨a2, y1, y2⟩ := startPoint_fin (scaleBy 0 0 q) hne2
  rw [C30_strokes, head_first_map, w2] at y2
  simp only [Option.map_some, Option.some.injEq] at y2
  refine ⟨shift (s.x - a2.x) (s.y - a2.y) (scaleBy 0 0 q), ?_, ?_⟩
  · unfold rotateScale
    rw [v1, Res.ok_bind]
    simp only [lineAngle_fin, sub_fin]
    rw [q1, Res.ok_bind, w1, Res.ok_bind, hk', hsc]
    simp only [move, handleOf_text, y1]
    rw [← shift_fin]
    simp only [finPt, sub_fin]
  · rw [C27_shift, C30_strokes, q2, List.map_map, List.map_map]
    congr 1
    funext st
    simp only [Function.comp_apply, stroke_map_map]
    congr 1
    funext z
    simp only [pt, scalePt, mul_zero, Prod.mk.injEq] at y2
    simp [translate, scalePt, pt, ← y2.1, ← y2.2]

/-- Not vacuous: the hook `(0,0) - (1,0) - (1,1)` put from `(5, 5)` to `(5, 7)`. -/
example : ∃ q : Path ℝ, rotateScale (finPt ⟨5, 5, 0⟩) (finPt ⟨5, 7, 0⟩)
      (finPath [.move ⟨0, 0, 0⟩ ⟨0, 0, 0⟩, .line ⟨0, 0, 0⟩ ⟨1, 0, 0⟩, .line ⟨1, 0, 0⟩ ⟨1, 1, 0⟩]) = .ok (finPath q) ∧
    strokes q = [.line (5, 5) (6, 6), .line (6, 6) (5, 7)] := by
  obtain ⟨q, h1, h2⟩ := C78_similarity [.move ⟨0, 0, 0⟩ ⟨0, 0, 0⟩, .line ⟨0, 0, 0⟩ ⟨1, 0, 0⟩, .line ⟨1, 0, 0⟩ ⟨1, 1, 0⟩]
    (by intro a c d b h; simp [strokes, strokeOf] at h) ⟨5, 5, 0⟩ ⟨5, 7, 0⟩ (0, 0) (1, 1) rfl rfl (by norm_num)
  refine ⟨q, h1, ?_⟩
  rw [h2]
  simp only [strokes, strokeOf, List.filterMap_cons, List.filterMap_nil, List.map_cons, List.map_nil, Stroke.map, similarity, pt]
  norm_num

end Verif.Path
