import Verif.Lemmas.Parts
import Verif.Spec.Parts

/-!
# Properties of repeats, edges, parts and part transformers: C48 to C52
-/

namespace Verif.Path

open Verif Verif.Spec XNum

set_option linter.unusedSectionVars false
set_option linter.unusedSimpArgs false

/-! ## C48 Repeat fills the space with exact copies -/

theorem iterations_fin {toInt : XNum ℝ → Int} (ht : Faithful toInt) (max size : ℝ) (hs : 0 < max → 0 < size) (hb : max / size < 2 ^ 62) :
    iterations toInt (fin max) (fin size) = copies max size := by
  unfold iterations copies
  rw [zero_lt_fin]
  by_cases h : 0 < max
  · have hs := hs h
    simp only [h, decide_true, if_true]
    rw [div_fin_ne hs.ne', floor_fin, ht]
    · rfl
    · have h0 : (0:ℝ) ≤ max / size := by positivity
      have h1 : 0 ≤ ⌊max / size⌋ := Int.floor_nonneg.mpr h0
      rw [abs_of_nonneg h1, Int.floor_lt]
      exact lt_of_lt_of_le hb (by norm_num)
  · simp [h]

theorem grid_isEmpty (nx ny : Nat) : (grid nx ny = []) ↔ nx * ny = 0 := by
  simp only [grid, List.flatMap_eq_nil_iff, List.mem_range, List.map_eq_nil_iff, List.range_eq_nil, Nat.mul_eq_zero]
  constructor
  · intro h
    rcases Nat.eq_zero_or_pos nx with h' | h'
    · exact Or.inl h'
    · exact Or.inr (h 0 h')
  · rintro (h | h) i hi
    · omega
    · exact h

/-- **C48.** A repeated component is drawn `copies` times in each direction, column by column; the copy with the indices `ix` and `iy` is what
the component renders for these indices, translated so that it starts at `ix` times the width and `iy` times the height measured at the
beginning. Without room for one copy there is an error. -/
theorem C48_copies {toInt : XNum ℝ → Int} (ht : Faithful toInt) (render : Option (Nat × Nat) → Res (Path (XNum ℝ)))
    (p : Path ℝ) (q : ℕ → ℕ → Path ℝ) (s : ℕ → ℕ → Segment ℝ) (tl br : Point ℝ) (maxX maxY : ℝ)
    (hp : render none = .ok (finPath p)) (hb : whitespaceBox (finPath p) = .ok (finPt tl, finPt br))
    (hq : ∀ ix iy, render (some (ix, iy)) = .ok (finPath (q ix iy))) (hs : ∀ ix iy, (q ix iy).head? = some (s ix iy))
    (hx : 0 < maxX → 0 < br.x - tl.x) (hx' : maxX / (br.x - tl.x) < 2 ^ 62)
    (hy : 0 < maxY → 0 < br.y - tl.y) (hy' : maxY / (br.y - tl.y) < 2 ^ 62) :
    (copies maxX (br.x - tl.x) * copies maxY (br.y - tl.y) = 0 → repeatRender toInt render (fin maxX) (fin maxY) = .err) ∧
    (copies maxX (br.x - tl.x) * copies maxY (br.y - tl.y) ≠ 0 →
      ∃ r : Path ℝ, repeatRender toInt render (fin maxX) (fin maxY) = .ok (finPath r) ∧
        strokes r = (List.range (copies maxX (br.x - tl.x))).flatMap fun ix => (List.range (copies maxY (br.y - tl.y))).flatMap fun iy =>
          (strokes (q ix iy)).map (Stroke.map (translate (ix * (br.x - tl.x) - (s ix iy).start.x) (iy * (br.y - tl.y) - (s ix iy).start.y)))) := by
  set w := br.x - tl.x with hw
  set h := br.y - tl.y with hh
  have hm : repeatRender toInt render (fin maxX) (fin maxY) =
      (let l := ((grid (copies maxX w) (copies maxY h)).map fun i =>
          shift (i.1 * w - (s i.1 i.2).start.x) (i.2 * h - (s i.1 i.2).start.y) (q i.1 i.2)).map finPath
       if l.isEmpty then .err else simpleJoin l) := by
    unfold repeatRender
    simp only [hp, hb, Res.ok_bind]
    simp only [finPt, sub_fin, ← hw, ← hh, iterations_fin ht _ _ hx hx', iterations_fin ht _ _ hy hy']
    rw [Res.mapM_ok _ (fun i : ℕ × ℕ => finPath (shift (i.1 * w - (s i.1 i.2).start.x) (i.2 * h - (s i.1 i.2).start.y) (q i.1 i.2)))]
    · simp [List.map_map, Function.comp_def]
    · intro i _
      rw [hq, Res.ok_bind]
      simp only [lit_zero_fin, mul_fin]
      rw [move_startPosition _ _ _ _ (hs i.1 i.2)]
      simp
  constructor
  · intro h0
    rw [hm, (grid_isEmpty _ _).mpr h0]
    rfl
  · intro h0
    have hne := mt (grid_isEmpty _ _).mp h0
    obtain ⟨r, h1, h2⟩ := simpleJoin_strokes ((grid (copies maxX w) (copies maxY h)).map fun i =>
          shift (i.1 * w - (s i.1 i.2).start.x) (i.2 * h - (s i.1 i.2).start.y) (q i.1 i.2)) (by simpa using hne)
    refine ⟨r, ?_, ?_⟩
    · rw [hm]
      simp only [List.isEmpty_iff, List.map_eq_nil_iff, hne, if_false]
      exact h1
    · rw [h2]
      simp only [grid, List.flatMap_map, List.flatMap_assoc, List.map_flatMap, C27_shift]

/-- **C48.** The number of copies is the greatest that fits. -/
theorem C48_fill (max size : ℝ) (hm : 0 < max) (hs : 0 < size) :
    copies max size * size ≤ max ∧ max < (copies max size + 1) * size := by
  have h0 : 0 ≤ max / size := by positivity
  simp only [copies, hm, if_true]
  constructor
  · rw [← le_div_iff₀ hs]
    exact Nat.floor_le h0
  · rw [← div_lt_iff₀ hs]
    exact Nat.lt_floor_add_one _

/-- Every copy ends before the maximum. -/
theorem copy_within {max size : ℝ} (hm : 0 < max) (hs : 0 < size) {i : ℕ} (hi : i < copies max size) : (i + 1) * size ≤ max := by
  have h1 := (C48_fill max size hm hs).1
  have h2 : ((i : ℝ) + 1) ≤ copies max size := by exact_mod_cast hi
  nlinarith

/-- **C48.** Nothing is drawn beyond the maximum: if each rendering stays between its start and its start plus the width, then the whole
repeat stays between 0 and the maximum. The same for the heights. -/
theorem C48_within {toInt : XNum ℝ → Int} (ht : Faithful toInt) (render : Option (Nat × Nat) → Res (Path (XNum ℝ)))
    (p : Path ℝ) (q : ℕ → ℕ → Path ℝ) (s : ℕ → ℕ → Segment ℝ) (tl br : Point ℝ) (maxX maxY : ℝ)
    (hp : render none = .ok (finPath p)) (hb : whitespaceBox (finPath p) = .ok (finPt tl, finPt br))
    (hq : ∀ ix iy, render (some (ix, iy)) = .ok (finPath (q ix iy))) (hs : ∀ ix iy, (q ix iy).head? = some (s ix iy))
    (hx : 0 < maxX → 0 < br.x - tl.x) (hx' : maxX / (br.x - tl.x) < 2 ^ 62)
    (hy : 0 < maxY → 0 < br.y - tl.y) (hy' : maxY / (br.y - tl.y) < 2 ^ 62)
    (r : Path ℝ) (hr : repeatRender toInt render (fin maxX) (fin maxY) = .ok (finPath r)) :
    (0 < maxX → (∀ ix iy x, Drawn (q ix iy) x → (s ix iy).start.x ≤ x.1 ∧ x.1 ≤ (s ix iy).start.x + (br.x - tl.x)) →
      ∀ x, Drawn r x → 0 ≤ x.1 ∧ x.1 ≤ maxX) ∧
    (0 < maxY → (∀ ix iy x, Drawn (q ix iy) x → (s ix iy).start.y ≤ x.2 ∧ x.2 ≤ (s ix iy).start.y + (br.y - tl.y)) →
      ∀ x, Drawn r x → 0 ≤ x.2 ∧ x.2 ≤ maxY) := by
  obtain ⟨c0, c1⟩ := C48_copies ht render p q s tl br maxX maxY hp hb hq hs hx hx' hy hy'
  have hne : copies maxX (br.x - tl.x) * copies maxY (br.y - tl.y) ≠ 0 := by
    intro h
    rw [c0 h] at hr
    cases hr
  obtain ⟨r', h1, h2⟩ := c1 hne
  rw [h1] at hr
  have hrr : r' = r := finPath_injective (by injection hr)
  subst hrr
  have key : ∀ x, Drawn r' x → ∃ ix iy y, ix < copies maxX (br.x - tl.x) ∧ iy < copies maxY (br.y - tl.y) ∧ Drawn (q ix iy) y ∧
      x = translate (ix * (br.x - tl.x) - (s ix iy).start.x) (iy * (br.y - tl.y) - (s ix iy).start.y) y := by
    rintro x ⟨st, hst, t, t0, t1, rfl⟩
    rw [h2] at hst
    simp only [List.mem_flatMap, List.mem_range, List.mem_map] at hst
    obtain ⟨ix, hix, iy, hiy, st', hst', rfl⟩ := hst
    exact ⟨ix, iy, st'.at t, hix, hiy, ⟨st', hst', t, t0, t1, rfl⟩, C27_points _ _ _ _⟩
  constructor
  · intro h0 hin x hxd
    obtain ⟨ix, iy, y, h3, h4, h5, rfl⟩ := key x hxd
    have := hin _ _ _ h5
    have h6 := copy_within h0 (hx h0) h3
    have h7 : 0 ≤ (ix : ℝ) * (br.x - tl.x) := mul_nonneg (Nat.cast_nonneg _) (hx h0).le
    simp only [translate]
    constructor <;> nlinarith
  · intro h0 hin x hxd
    obtain ⟨ix, iy, y, h3, h4, h5, rfl⟩ := key x hxd
    have := hin _ _ _ h5
    have h6 := copy_within h0 (hy h0) h4
    have h7 : 0 ≤ (iy : ℝ) * (br.y - tl.y) := mul_nonneg (Nat.cast_nonneg _) (hy h0).le
    simp only [translate]
    constructor <;> nlinarith

/-- The box that is measured contains the drawing, and begins at the origin. -/
theorem whitespaceBox_bounds {p : Path ℝ} (hp : StartsAtOrigin p) (hs : Small p) :
    ∃ tl br : Point ℝ, whitespaceBox (finPath p) = .ok (finPt tl, finPt br) ∧ tl.x = 0 ∧ tl.y = 0 ∧ 0 ≤ br.x ∧ 0 ≤ br.y ∧
      ∀ x, Drawn p x → x.1 ≤ br.x ∧ x.2 ≤ br.y := by
  obtain ⟨z, b, rest, rfl, hzx, hzy⟩ := hp
  have hline := at_line_box (pt z) (pt b)
  obtain ⟨c, d, h1, h2⟩ := boxLoop_fin rest _ _ _ hs.tail hline
  have hd : ∀ q, Drawn (.move z b :: rest) q ↔ Drawn rest q := by
    intro q
    rw [drawn_cons]
    simp [strokeOf]
  have hpb : (pathBox (finPath (.move z b :: rest))).2 = finPt (mk d) := by
    rw [finPath_cons]
    simp only [pathBox]
    rw [lineBox_fin _ z b (Or.inl rfl)]
    simp only [pt] at h1
    rw [h1]
  have h0 : 0 ≤ d.1 ∧ 0 ≤ d.2 := by
    have := h2.inside (pt z) (Or.inl ⟨0, le_refl _, by norm_num, by simp [Stroke.at]⟩)
    simp only [pt, hzx, hzy] at this
    exact ⟨this.2.1, this.2.2.2⟩
  obtain ⟨l, hl⟩ : ∃ l, (Segment.move z b :: rest).getLast? = some l := ⟨_, List.getLast?_eq_getLast_of_ne_nil (by simp)⟩
  have hl' : (finPath (.move z b :: rest)).getLast? = some (finSeg l) := by rw [getLast_fin, hl]; rfl
  refine ⟨⟨0, 0, (origin : Point ℝ).t⟩, ⟨max d.1 l.stop.x, max d.2 l.stop.y, (mk d).t⟩, ?_, rfl, rfl, ?_, ?_, ?_⟩
  · unfold whitespaceBox
    rw [hl']
    rw [finPath_cons] at hpb ⊢
    have hst : (finSeg (Segment.move z b)).start = ⟨fin 0, fin 0, fin z.t⟩ := by simp [Segment.start, finSeg, finPt, hzx, hzy]
    have hor : (origin : Point (XNum ℝ)) = ⟨fin 0, fin 0, fin (origin : Point ℝ).t⟩ := by
      rw [origin_fin]
      simp [finPt, origin, newPoint_eq, Arith.zero]
    simp only [hpb, hst, hor, stop_finSeg, finPt, mk, lt_fin, lt_self_iff_false, decide_false, Bool.false_eq_true, if_false, Res.ok.injEq, Prod.mk.injEq,
      Point.mk.injEq, true_and, and_true]
    refine ⟨?_, ?_⟩
    · split
      · rename_i h; rw [max_eq_right (by simpa using h : d.1 < _).le]
      · rename_i h; rw [max_eq_left (by simpa using h)]
    · split
      · rename_i h; rw [max_eq_right (by simpa using h : d.2 < _).le]
      · rename_i h; rw [max_eq_left (by simpa using h)]
  · exact h0.1.trans (le_max_left _ _)
  · exact h0.2.trans (le_max_left _ _)
  · intro x hx
    have := h2.inside x (Or.inr ((hd x).mp hx))
    exact ⟨this.2.1.trans (le_max_left _ _), this.2.2.2.trans (le_max_left _ _)⟩

/-- **C48.** A component that renders the same path whatever the indices: its copies are exact translates by multiples of the measured size,
and if the component is drawn to the right of and below the origin, all copies stay within the maximum. -/
theorem C48_same {toInt : XNum ℝ → Int} (ht : Faithful toInt) (p : Path ℝ) (hp : StartsAtOrigin p) (hs : Small p) :
    ∃ w h : ℝ, (∀ x, Drawn p x → x.1 ≤ w ∧ x.2 ≤ h) ∧
      ∀ maxX maxY : ℝ, (0 < maxX → 0 < w) → maxX / w < 2 ^ 62 → (0 < maxY → 0 < h) → maxY / h < 2 ^ 62 →
        copies maxX w * copies maxY h ≠ 0 →
        ∃ r : Path ℝ, repeatRender toInt (fun _ => .ok (finPath p)) (fin maxX) (fin maxY) = .ok (finPath r) ∧
          strokes r = ((List.range (copies maxX w)).flatMap fun ix : ℕ => (List.range (copies maxY h)).flatMap fun iy : ℕ =>
            (strokes p).map (Stroke.map (translate (ix * w) (iy * h)))) ∧
          ((∀ x, Drawn p x → 0 ≤ x.1 ∧ 0 ≤ x.2) →
            ∀ x, Drawn r x → (0 < maxX → 0 ≤ x.1 ∧ x.1 ≤ maxX) ∧ (0 < maxY → 0 ≤ x.2 ∧ x.2 ≤ maxY)) := by
  obtain ⟨tl, br, h1, h2, h3, h4, h5, h6⟩ := whitespaceBox_bounds hp hs
  refine ⟨br.x - tl.x, br.y - tl.y, by simpa [h2, h3] using h6, ?_⟩
  intro maxX maxY hx hx' hy hy' hne
  obtain ⟨z, b, rest, hpe, hzx, hzy⟩ := hp
  have hh : ∀ ix iy : ℕ, p.head? = some ((fun _ _ => Segment.move z b) ix iy) := by intros; rw [hpe]; rfl
  obtain ⟨r, hr, hst⟩ := (C48_copies ht (fun _ => .ok (finPath p)) p (fun _ _ => p) (fun _ _ => .move z b) tl br maxX maxY rfl h1
    (fun _ _ => rfl) hh hx hx' hy hy').2 hne
  have hw := C48_within ht (fun _ => .ok (finPath p)) p (fun _ _ => p) (fun _ _ => .move z b) tl br maxX maxY rfl h1
    (fun _ _ => rfl) hh hx hx' hy hy' r hr
  refine ⟨r, hr, ?_, ?_⟩
  · rw [hst]
    simp only [Segment.start, hzx, hzy, sub_zero]
  · intro hin x hxd
    simp only [Segment.start, hzx, hzy, h2, h3, zero_add, sub_zero] at hw
    exact ⟨fun h0 => hw.1 h0 (fun _ _ y hy => ⟨(hin y hy).1, (h6 y hy).1⟩) x hxd,
      fun h0 => hw.2 h0 (fun _ _ y hy => ⟨(hin y hy).2, (h6 y hy).2⟩) x hxd⟩

/-! ## C49 A repeated edge has exactly the length of its edge -/

theorem distance_fin (a b : Point ℝ) : distance (finPt a) (finPt b) = fin (lengthOf (pt a) (pt b)) := by
  simp only [distance, finPt, sub_fin, mul_fin, add_fin]
  rw [sqrt_fin, if_neg (not_lt.mpr (add_nonneg (mul_self_nonneg _) (mul_self_nonneg _)))]
  simp only [lengthOf, pt]
  congr 2
  ring

/-- **C49.** The map on the edge lays the origin on its start and the point at its length on its end, and keeps distances. -/
theorem C49_along (a b : Pt ℝ) (h : a ≠ b) :
    along a b (0, 0) = a ∧ along a b (lengthOf a b, 0) = b ∧
      ∀ x y : Pt ℝ, ((along a b x).1 - (along a b y).1) ^ 2 + ((along a b x).2 - (along a b y).2) ^ 2 = (x.1 - y.1) ^ 2 + (x.2 - y.2) ^ 2 := by
  have hsq : 0 < (b.1 - a.1) ^ 2 + (b.2 - a.2) ^ 2 := by
    by_contra hc
    have h1 : b.1 - a.1 = 0 := by nlinarith [sq_nonneg (b.1 - a.1), sq_nonneg (b.2 - a.2)]
    have h2 : b.2 - a.2 = 0 := by nlinarith [sq_nonneg (b.1 - a.1), sq_nonneg (b.2 - a.2)]
    exact h (Prod.ext (by linarith) (by linarith))
  have hl : 0 < lengthOf a b := Real.sqrt_pos.mpr hsq
  have hll : lengthOf a b ^ 2 = (b.1 - a.1) ^ 2 + (b.2 - a.2) ^ 2 := Real.sq_sqrt hsq.le
  refine ⟨by simp [along], ?_, ?_⟩
  · refine Prod.ext ?_ ?_ <;> simp only [along] <;> field_simp <;> ring
  · intro x y
    simp only [along]
    generalize lengthOf a b = l at *
    field_simp
    linear_combination ((x.1 - y.1) ^ 2 + (x.2 - y.2) ^ 2) * (-hll)

theorem rotate_along (a b : Point ℝ) (h : pt a ≠ pt b) (q : Pt ℝ) :
    translate a.x a.y (rotateAbout (0, 0) (180 / Real.pi * Complex.arg ⟨b.x - a.x, b.y - a.y⟩ * Real.pi / 180) q) = along (pt a) (pt b) q := by
  have hne : (⟨b.x - a.x, b.y - a.y⟩ : ℂ) ≠ 0 := by
    intro hc
    have h1 := congrArg Complex.re hc
    have h2 := congrArg Complex.im hc
    simp only [Complex.zero_re, Complex.zero_im] at h1 h2
    exact h (Prod.ext (by simp only [pt]; linarith) (by simp only [pt]; linarith))
  have hang : 180 / Real.pi * Complex.arg ⟨b.x - a.x, b.y - a.y⟩ * Real.pi / 180 = Complex.arg ⟨b.x - a.x, b.y - a.y⟩ := by
    field_simp
  have hnorm : ‖(⟨b.x - a.x, b.y - a.y⟩ : ℂ)‖ = lengthOf (pt a) (pt b) := by
    rw [Complex.norm_eq_sqrt_sq_add_sq]
    rfl
  rw [hang]
  simp only [rotateAbout, translate, along, Complex.cos_arg hne, Complex.sin_arg, hnorm, pt]
  refine Prod.ext ?_ ?_ <;> simp only [] <;> ring

/-- **C49.** With the remaining widths as the code computes them, the three pieces have together the length of the edge, and the left and
the right one have the same overhang beyond their paddings. The edge is made of the left piece as it is rendered, the repeat moved to the end
of the left piece and the right piece moved to the end of the repeat, all laid along the line so that the handle, which is at `x`, comes to
lie on the start of the edge. -/
theorem C49_edge (toInt : XNum ℝ → Int) (repeatable : Option (Nat × Nat) → Res (Path (XNum ℝ))) (left right : XNum ℝ → Res (Path (XNum ℝ)))
    (a b : Point ℝ) (hab : pt a ≠ pt b) (padL padR : ℝ) (handle : Text) (p pl pr : Path ℝ) (sp spr : Segment ℝ) (tl br : Point ℝ)
    (wl wr : ℝ) (hwl : wl = (lengthOf (pt a) (pt b) - (padL + padR) - (br.x - tl.x)) / 2 + padL)
    (hwr : wr = (lengthOf (pt a) (pt b) - (padL + padR) - (br.x - tl.x)) / 2 + padR)
    (hp : repeatRender toInt repeatable (fin (lengthOf (pt a) (pt b) - (padL + padR))) (fin 0) = .ok (finPath p))
    (hb : whitespaceBox (finPath p) = .ok (finPt tl, finPt br)) (hsp : p.head? = some sp)
    (hl : left (fin wl) = .ok (finPath pl)) (hr : right (fin wr) = .ok (finPath pr)) (hspr : pr.head? = some spr) :
    wl + (br.x - tl.x) + wr = lengthOf (pt a) (pt b) ∧ wl - padL = wr - padR ∧
    ∃ j : Path ℝ,
      strokes j = strokes pl ++ (strokes p).map (Stroke.map (translate (wl - sp.start.x) (-sp.start.y))) ++
        (strokes pr).map (Stroke.map (translate (wl + (br.x - tl.x) - spr.start.x) (-spr.start.y))) ∧
      ∀ x : Point ℝ, handle ≠ [] → pointAttribute handle (finPath j) = .ok (finPt x) →
        ∃ r : Path ℝ, repeatEdge toInt repeatable left right (finPt a) (finPt b) (fin padL) (fin padR) handle = .ok (finPath r) ∧
          strokes r = (strokes j).map (Stroke.map fun q => along (pt a) (pt b) (q.1 - x.x, q.2 - x.y)) := by
  refine ⟨by rw [hwl, hwr]; ring, by rw [hwl, hwr]; ring, ?_⟩
  obtain ⟨j, hj, hjs⟩ := simpleJoin_strokes [pl, shift (wl - sp.start.x) (0 - sp.start.y) p,
    shift (wl + (br.x - tl.x) - spr.start.x) (0 - spr.start.y) pr] (by simp)
  refine ⟨j, ?_, ?_⟩
  · rw [hjs]
    simp [C27_shift]
  · intro x hh hx
    have h2 : (Arith.two : XNum ℝ) = fin 2 := by simp [Arith.two]
    have h180 : (Arith.lit 180 0 : XNum ℝ) = fin 180 := by simp
    have hla : lineAngle (finPt a, finPt b) = fin (180 / Real.pi * Complex.arg ⟨b.x - a.x, b.y - a.y⟩) := by
      simp only [lineAngle, finPt, h180, pi_fin, div_fin_ne Real.pi_ne_zero, sub_fin, atan2_fin, mul_fin]
    have hho : handleOf handle = handle := by simp [handleOf, hh]
    obtain ⟨r0, h3, h4⟩ := C31_rotate j (180 / Real.pi * Complex.arg ⟨b.x - a.x, b.y - a.y⟩) handle x (by rw [hho]; exact hx)
    have key : repeatEdge toInt repeatable left right (finPt a) (finPt b) (fin padL) (fin padR) handle =
        (if !((fin (180 / Real.pi * Complex.arg ⟨b.x - a.x, b.y - a.y⟩) : XNum ℝ) ==. Arith.zero) then
            rotate (fin (180 / Real.pi * Complex.arg ⟨b.x - a.x, b.y - a.y⟩)) handle (finPath j) else .ok (finPath j)) >>=
          fun q => .ok (shift (fin (a.x - x.x)) (fin (a.y - x.y)) q) := by
      unfold repeatEdge
      simp only [distance_fin, add_fin, sub_fin]
      rw [Bezier.zero_fin, hp]
      simp only [Res.ok_bind, hb]
      simp only [finPt, sub_fin, h2, div_fin_ne (show (2:ℝ) ≠ 0 by norm_num), add_fin, ← hwl, ← hwr, hl, hr, Res.ok_bind]
      rw [move_startPosition _ _ _ _ hsp, Res.ok_bind, move_startPosition _ _ _ _ hspr, Res.ok_bind]
      simp only [List.map_cons, List.map_nil] at hj
      rw [hj, Res.ok_bind, hx, Res.ok_bind]
      have hla' := hla
      simp only [finPt] at hla'
      simp only [hla', finPt, sub_fin]
      split <;> rfl
    rw [key, Bezier.zero_fin, eq_fin]
    have hcomp : ∀ q : Pt ℝ, translate (a.x - x.x) (a.y - x.y)
        (rotateAbout (pt x) (180 / Real.pi * Complex.arg ⟨b.x - a.x, b.y - a.y⟩ * Real.pi / 180) q) =
        along (pt a) (pt b) (q.1 - x.x, q.2 - x.y) := by
      intro q
      rw [← rotate_along a b hab]
      simp only [translate, rotateAbout, pt]
      refine Prod.ext ?_ ?_ <;> simp only [] <;> ring
    by_cases hz : 180 / Real.pi * Complex.arg ⟨b.x - a.x, b.y - a.y⟩ = 0
    · refine ⟨shift (a.x - x.x) (a.y - x.y) j, ?_, ?_⟩
      · simp [hz, shift_fin]
      · rw [C27_shift]
        congr 2
        funext q
        rw [← hcomp, hz]
        simp [rotateAbout, pt]
    · refine ⟨shift (a.x - x.x) (a.y - x.y) r0, ?_, ?_⟩
      · simp [hz, h3, shift_fin]
      · rw [C27_shift, h4, List.map_map]
        congr 1
        funext s
        rw [Function.comp_apply, stroke_map_map]
        congr 1
        funext q
        exact hcomp q

/-- **C49.** With the default handle, the origin, the drawing in the coordinates of the edge is laid along the line from the start: what is
at 0 comes to the start and what is at the length comes to the end (`C49_along`). -/
theorem C49_origin (toInt : XNum ℝ → Int) (repeatable : Option (Nat × Nat) → Res (Path (XNum ℝ))) (left right : XNum ℝ → Res (Path (XNum ℝ)))
    (a b : Point ℝ) (hab : pt a ≠ pt b) (padL padR : ℝ) (p pl pr : Path ℝ) (sp spr : Segment ℝ) (tl br : Point ℝ)
    (wl wr : ℝ) (hwl : wl = (lengthOf (pt a) (pt b) - (padL + padR) - (br.x - tl.x)) / 2 + padL)
    (hwr : wr = (lengthOf (pt a) (pt b) - (padL + padR) - (br.x - tl.x)) / 2 + padR)
    (hp : repeatRender toInt repeatable (fin (lengthOf (pt a) (pt b) - (padL + padR))) (fin 0) = .ok (finPath p))
    (hb : whitespaceBox (finPath p) = .ok (finPt tl, finPt br)) (hsp : p.head? = some sp)
    (hl : left (fin wl) = .ok (finPath pl)) (hr : right (fin wr) = .ok (finPath pr)) (hspr : pr.head? = some spr) :
    ∃ r : Path ℝ, repeatEdge toInt repeatable left right (finPt a) (finPt b) (fin padL) (fin padR) Attr.origin.text = .ok (finPath r) ∧
      strokes r = (strokes pl ++ (strokes p).map (Stroke.map (translate (wl - sp.start.x) (-sp.start.y))) ++
        (strokes pr).map (Stroke.map (translate (wl + (br.x - tl.x) - spr.start.x) (-spr.start.y)))).map (Stroke.map (along (pt a) (pt b))) := by
  obtain ⟨_, _, j, hj, h⟩ := C49_edge toInt repeatable left right a b hab padL padR Attr.origin.text p pl pr sp spr tl br wl wr hwl hwr hp hb hsp
    hl hr hspr
  obtain ⟨r, h1, h2⟩ := h origin (by decide) (by rw [pointAttribute_text]; simp only [namedValue, origin_fin])
  refine ⟨r, h1, ?_⟩
  rw [h2, hj]
  simp [origin, newPoint_eq]

/-! ## C50 Automatic splitting stops only when the part fits -/

/-- **C50.** The full statement: when the code declares that a part of any size fits, it fits. -/
def C50_statement : Prop := ∀ maxWidth maxHeight w h : ℝ, 0 < maxWidth → 0 < maxHeight → 0 ≤ w → 0 ≤ h →
  decideSplit (fin maxWidth) (fin maxHeight) (fin w) (fin h) = .fits → FitsWithin maxWidth maxHeight w h

theorem decideSplit_fin (mw mh w h : ℝ) : decideSplit (fin mw) (fin mh) (fin w) (fin h) =
    if (mh ≤ h ∧ mw ≤ h) ∨ (mh ≤ h ∧ mh ≤ w) then .split else if mw ≤ w ∧ mh ≤ w then .turn else .fits := by
  simp [decideSplit]

/-- **C50**, what holds: when the maximum is at least as wide as high, a part that is left as it is fits, possibly turned. -/
theorem C50_fits_partial (maxWidth maxHeight w h : ℝ) (hle : maxHeight ≤ maxWidth)
    (hd : decideSplit (fin maxWidth) (fin maxHeight) (fin w) (fin h) = .fits) : FitsWithin maxWidth maxHeight w h := by
  rw [decideSplit_fin] at hd
  split at hd
  · cases hd
  · split at hd
    · cases hd
    · rename_i h1 h2
      simp only [not_or, not_and, not_le] at h1 h2
      by_cases hw : maxWidth ≤ w
      · exact absurd (h2 hw) (not_lt.mpr (hle.trans hw))
      · by_cases hh : maxHeight ≤ h
        · exact Or.inr ⟨(h1.1 hh).le, (h1.2 hh).le⟩
        · exact Or.inl ⟨(not_le.mp hw).le, (not_le.mp hh).le⟩

/-- **C50** is false of the code: with a maximum of 10 by 20, a square of side 15 is declared to fit. -/
theorem C50_fits_false : ¬ C50_statement := by
  intro h
  have := h 10 20 15 15 (by norm_num) (by norm_num) (by norm_num) (by norm_num) (by rw [decideSplit_fin]; norm_num)
  simp only [FitsWithin] at this
  norm_num at this

/-- **C50.** A part that fits in the upright position with room to spare is not changed. -/
theorem C50_left_alone (maxWidth maxHeight w h : ℝ) (hw : w < maxWidth) (hh : h < maxHeight) :
    decideSplit (fin maxWidth) (fin maxHeight) (fin w) (fin h) = .fits := by
  rw [decideSplit_fin, if_neg, if_neg]
  · rintro ⟨h1, _⟩; linarith
  · rintro (⟨h1, _⟩ | ⟨h1, _⟩) <;> linarith

/-- **C50.** A part is turned at most once: in its new position it is split. -/
theorem C50_turned_once (maxWidth maxHeight w h : ℝ) (hd : decideSplit (fin maxWidth) (fin maxHeight) (fin w) (fin h) = .turn) :
    decideSplit (fin maxWidth) (fin maxHeight) (fin h) (fin w) = .split := by
  rw [decideSplit_fin] at hd ⊢
  split at hd
  · cases hd
  · split at hd
    · rename_i h1
      rw [if_pos (Or.inl ⟨h1.2, h1.1⟩)]
    · cases hd

/-- The size that is measured is that of the box of the drawing. -/
theorem measure_fin {p : Path ℝ} (hne : strokes p ≠ []) (hs : Small p) {tl br : Pt ℝ} (hb : BoxOf (Drawn p) tl br) :
    measure (finPath p) = (fin (br.1 - tl.1), fin (br.2 - tl.2)) := by
  obtain ⟨tl', br', h1, h2⟩ := trimmedBox_fin hne hs
  obtain ⟨rfl, rfl⟩ := h2.unique hb
  simp [measure, h1, finPt, mk]

/-- **C50.** Turning exchanges width and height. -/
theorem C50_turned_size {p : Path ℝ} (hne : strokes p ≠ []) (hs : Small p) {w h : ℝ} (hm : measure (finPath p) = (fin w, fin h)) :
    ∃ q : Path ℝ, rotate (Arith.lit 90 0) [] (finPath p) = .ok (finPath q) ∧ (Small q → measure (finPath q) = (fin h, fin w)) := by
  obtain ⟨tl, br, h1, h2⟩ := trimmedBox_fin hne hs
  have hw := measure_fin hne hs h2
  rw [hm, Prod.mk.injEq, fin.injEq, fin.injEq] at hw
  obtain ⟨a, ha, ha'⟩ := C28_handles p hne hs .topLeft (by decide)
  obtain ⟨q, h3, h4⟩ := C31_rotate p 90 [] a ha
  have h90 : (Arith.lit 90 0 : XNum ℝ) = fin 90 := by simp
  refine ⟨q, by rw [h90]; exact h3, fun hsq => ?_⟩
  have hpi : (90 : ℝ) * Real.pi / 180 = Real.pi / 2 := by ring
  have hrot : ∀ x : Pt ℝ, rotateAbout (pt a) (90 * Real.pi / 180) x = ((pt a).1 - (x.2 - (pt a).2), (pt a).2 + (x.1 - (pt a).1)) := by
    intro x
    simp only [rotateAbout, hpi, Real.cos_pi_div_two, Real.sin_pi_div_two]
    refine Prod.ext ?_ ?_ <;> simp only [] <;> ring
  have hd := drawn_map (g := rotateAbout (pt a) (90 * Real.pi / 180)) (C31_points (pt a) (90 * Real.pi / 180)) h4
  have hb : BoxOf (Drawn q) ((pt a).1 - (br.2 - (pt a).2), (pt a).2 + (tl.1 - (pt a).1))
      ((pt a).1 - (tl.2 - (pt a).2), (pt a).2 + (br.1 - (pt a).1)) := by
    have lift : ∀ x, Drawn p x → Drawn q ((pt a).1 - (x.2 - (pt a).2), (pt a).2 + (x.1 - (pt a).1)) := by
      intro x hx
      rw [← hrot]
      exact (hd _).mpr ⟨x, hx, rfl⟩
    refine ⟨?_, ?_, ?_, ?_, ?_⟩
    · intro y hy
      obtain ⟨x, hx, rfl⟩ := (hd y).mp hy
      rw [hrot]
      have := h2.inside x hx
      simp only
      refine ⟨?_, ?_, ?_, ?_⟩ <;> linarith
    · obtain ⟨x, hx, e⟩ := h2.bottom
      exact ⟨_, lift x hx, by simp only [e]⟩
    · obtain ⟨x, hx, e⟩ := h2.top
      exact ⟨_, lift x hx, by simp only [e]⟩
    · obtain ⟨x, hx, e⟩ := h2.left
      exact ⟨_, lift x hx, by simp only [e]⟩
    · obtain ⟨x, hx, e⟩ := h2.right
      exact ⟨_, lift x hx, by simp only [e]⟩
  rw [measure_fin (by rw [h4]; simpa using hne) hsq hb, hw.1, hw.2]
  refine Prod.ext ?_ ?_ <;> simp only [fin.injEq] <;> ring

/-- A cut gives the whole part, if it would be below it, or two pieces. -/
theorem cut_cases {F : Type u} [Trig F] {s : Splitter F} {p : Path F} {y : F} {l : List (Rendered F)} (h : cut s p y = .ok l) :
    (l = [unlabelled (trimWhitespace p)] ∧ ((trimmedBox (trimWhitespace p)).2.y <=. (y +. s.yOffset)) = true) ∨
      ∃ a b, l = [unlabelled a, unlabelled b] := by
  unfold cut at h
  simp only at h
  split at h
  · rename_i hy
    simp only [Res.ok.injEq] at h
    exact Or.inl ⟨h.symm, hy⟩
  · simp only [Res.bind_eq_ok, Res.ok.injEq] at h
    obtain ⟨_, _, _, _, a, _, _, _, _, _, _, _, _, _, b, _, h⟩ := h
    exact Or.inr ⟨_, _, h.symm⟩

/-- **C50.** Whenever automatic splitting ends, each of its parts has been declared to fit, or has no height, or has been returned whole
because the cut would be below it. -/
theorem C50_parts {F : Type u} [Trig F] (s : Splitter F) (hs : s.auto = true) :
    ∀ (fuel : Nat) (part : Rendered F) (parts : List (Rendered F)), splitPart s fuel part = some (.ok parts) → ∀ q ∈ parts,
      decideSplit s.maxWidth s.maxHeight (measure q.path).1 (measure q.path).2 = .fits ∨
      ((measure q.path).2 /. Arith.two ==. Arith.zero) = true ∨
      ∃ (p : Path F) (y : F), q = unlabelled (trimWhitespace p) ∧ ((trimmedBox (trimWhitespace p)).2.y <=. (y +. s.yOffset)) = true := by
  have concat : ∀ (P : Rendered F → Prop) (f : Rendered F → Option (Res (List (Rendered F)))),
      (∀ a l, f a = some (.ok l) → ∀ q ∈ l, P q) → ∀ (l r : List (Rendered F)), concatAll f l = some (.ok r) → ∀ q ∈ r, P q := by
    intro P f hf l
    induction l with
    | nil =>
      intro r h q hq
      simp only [concatAll, Option.some.injEq, Res.ok.injEq] at h
      subst h
      cases hq
    | cons a l ih =>
      intro r h q hq
      simp only [concatAll] at h
      split at h
      · rename_i l1 h1
        split at h
        · rename_i l2 h2
          simp only [Option.some.injEq, Res.ok.injEq] at h
          subst h
          rcases List.mem_append.mp hq with hq | hq
          · exact hf _ _ h1 q hq
          · exact ih _ h2 q hq
        · rename_i hn
          exact absurd h (hn _)
      · rename_i hn
        exact absurd h (hn _)
  intro fuel
  induction fuel with
  | zero => intro part parts h; cases h
  | succ fuel ih =>
    intro part parts h q hq
    simp only [splitPart, hs, if_true] at h
    split at h
    · cases h
    split at h
    · cases h
    split at h
    · split at h
      · exact ih _ _ h q hq
      · cases h
      · cases h
    · rename_i hd
      simp only [Option.some.injEq, Res.ok.injEq] at h
      subst h
      rw [List.mem_singleton] at hq
      subst hq
      exact Or.inl hd
    · split at h
      · rename_i h0
        simp only [Option.some.injEq, Res.ok.injEq] at h
        subst h
        rw [List.mem_singleton] at hq
        subst hq
        exact Or.inr (Or.inl h0)
      · split at h
        · rename_i l hc
          split at h
          · simp only [Option.some.injEq, Res.ok.injEq] at h
            subst h
            rename_i hlen
            rcases cut_cases hc with ⟨rfl, hy⟩ | ⟨a, b, rfl⟩
            · rw [List.mem_singleton] at hq
              exact Or.inr (Or.inr ⟨_, _, hq, hy⟩)
            · simp at hlen
          · exact concat _ _ (fun a l => ih a l) _ _ h q hq
        · cases h
        · cases h

/-- **C50.** In the middle of a part of positive height, without an offset, a cut gives two pieces (or an error). -/
theorem C50_cut_two (s : Splitter (XNum ℝ)) (hs0 : s.yOffset = fin 0) {p : Path ℝ} (hne : strokes p ≠ []) (hs : Small p)
    (hs' : ∀ dx dy : ℝ, Small (shift dx dy p)) {w h : ℝ} (hm : measure (finPath p) = (fin w, fin h)) (hh : 0 < h) (l : List (Rendered (XNum ℝ)))
    (hl : cut s (finPath p) (fin (h / 2)) = .ok l) : ∃ a b, l = [unlabelled a, unlabelled b] := by
  rcases cut_cases hl with ⟨rfl, hy⟩ | h
  · exfalso
    obtain ⟨tl, br, h1, h2⟩ := trimmedBox_fin hne hs
    have hw := measure_fin hne hs h2
    rw [hm, Prod.mk.injEq, fin.injEq, fin.injEq] at hw
    have e : trimWhitespace (finPath p) = finPath (shift (-tl.1) (-tl.2) p) := by
      simp only [trimWhitespace, h1, finPt, mk, neg_fin]
      exact shift_fin _ _ _
    obtain ⟨tl', br', h3, h4⟩ := trimmedBox_fin (p := shift (-tl.1) (-tl.2) p) (by rw [C27_shift]; simpa using hne) (hs' _ _)
    obtain ⟨rfl, rfl⟩ := h4.unique (boxOf_shift (-tl.1) (-tl.2) h2)
    rw [e, h3, hs0] at hy
    simp only [finPt, mk, add_fin, le_fin, decide_eq_true_eq, translate] at hy
    linarith [hw.2]
  · exact h

/-! ## C51 Lathe layers are complete and numbered consecutively -/

/-- One layer per section, numbered from `i`, with its label. -/
def Layers {F : Type u} [Trig F] (s : LatheSetup F) : ℕ → List (Point F × Point F) → List (Rendered F) → Prop
  | _, [], [] => True
  | i, (a, b) :: l, r :: rs =>
    s.render a b (b.x -. a.x) i = .ok r.path ∧ (r.width, r.height) = measure r.path ∧ r.label.position = s.label.position ∧
      r.label.text = (if s.label.text = [] then [] else numbered s.label.text i) ∧ Layers s (i + 1) l rs
  | _, _, _ => False

theorem latheLoop_eq {F : Type u} [Trig F] (s : LatheSetup F) (bottom : F) (cuts : F → List (Point F)) (hc : ∀ y, s.intercepts y = .ok (cuts y))
    (hr : ∀ a b l i, ∃ p, s.render a b l i = .ok p) :
    ∀ (hs : List F) (y : F) (fuel : Nat) (st : Lathe F), hs.length < fuel →
      (∀ (i : ℕ) z, hs[i]? = some z → (z <=. bottom) = true ∧ hs[i + 1]?.getD (z +. s.thickness) = z +. s.thickness) →
      hs.head?.getD y = y → (hs = [] → (y <=. bottom) = false) → (∀ z, hs.getLast? = some z → ((z +. s.thickness) <=. bottom) = false) →
      ∃ st', latheLoop s bottom fuel y st = some (.ok st') ∧
        (∃ rs, st'.parts = st.parts ++ rs ∧ Layers s st.index (sections s.precision cuts hs) rs) ∧
        st'.index = st.index + (sections s.precision cuts hs).length ∧
        st'.totalHeight = (fun x => x +. s.thickness)^[(sections s.precision cuts hs).length] st.totalHeight ∧
        st'.topLength = (if st.index = 0 then (((sections s.precision cuts hs).head?.map fun c => c.2.x -. c.1.x)).getD st.topLength
          else st.topLength) ∧
        st'.bottomLength = ((sections s.precision cuts hs).getLast?.map fun c => c.2.x -. c.1.x).getD st.bottomLength := by
  intro hs
  induction hs with
  | nil =>
    intro y fuel st hf _ _ h0 _
    match fuel, hf with
    | fuel + 1, _ =>
      refine ⟨st, by simp [latheLoop, h0 rfl], ⟨[], by simp, ?_⟩, rfl, rfl, by simp [sections], by simp [sections]⟩
      simp [sections, Layers]
  | cons z hs ih =>
    intro y fuel st hf hstep hhd _ hlast
    match fuel, hf with
    | fuel + 1, hf =>
      have hyz : z = y := by simpa using hhd
      subst hyz
      obtain ⟨hzb, hnext⟩ := hstep 0 z rfl
      have hstep' : ∀ (i : ℕ) z', hs[i]? = some z' → (z' <=. bottom) = true ∧ hs[i + 1]?.getD (z' +. s.thickness) = z' +. s.thickness :=
        fun i z' h => hstep (i + 1) z' h
      have hhd' : hs.head?.getD (z +. s.thickness) = z +. s.thickness := by
        simpa [List.head?_eq_getElem?] using hnext
      have h0' : hs = [] → ((z +. s.thickness) <=. bottom) = false := by
        rintro rfl
        exact hlast z rfl
      have hlast' : ∀ z', hs.getLast? = some z' → ((z' +. s.thickness) <=. bottom) = false := by
        intro z' h
        refine hlast z' ?_
        rw [List.getLast?_cons, h]
        rfl
      have hlen : hs.length < fuel := by simpa using hf
      simp only [latheLoop, hzb, if_true, hc]
      have skip : sections s.precision cuts (z :: hs) = sections s.precision cuts hs →
          (∃ st', latheLoop s bottom fuel (z +. s.thickness) st = some (.ok st') ∧
        (∃ rs, st'.parts = st.parts ++ rs ∧ Layers s st.index (sections s.precision cuts (z :: hs)) rs) ∧
        st'.index = st.index + (sections s.precision cuts (z :: hs)).length ∧
        st'.totalHeight = (fun x => x +. s.thickness)^[(sections s.precision cuts (z :: hs)).length] st.totalHeight ∧
        st'.topLength = (if st.index = 0 then (((sections s.precision cuts (z :: hs)).head?.map fun c => c.2.x -. c.1.x)).getD st.topLength
          else st.topLength) ∧
        st'.bottomLength = ((sections s.precision cuts (z :: hs)).getLast?.map fun c => c.2.x -. c.1.x).getD st.bottomLength) := by
        intro he
        rw [he]
        exact ih _ fuel st hlen hstep' hhd' h0' hlast'
      match hcz : cuts z with
      | [] => exact skip (by simp [sections, hcz])
      | [a] => exact skip (by simp [sections, hcz])
      | a :: b :: rest =>
        simp only
        by_cases hpe : precisionEquals (b.x -. a.x) Arith.zero s.precision = true
        · rw [if_pos hpe]
          exact skip (by simp [sections, hcz, hpe])
        · rw [if_neg hpe]
          have hsec : sections s.precision cuts (z :: hs) = (a, b) :: sections s.precision cuts hs := by
            simp [sections, hcz, hpe]
          obtain ⟨p, hp⟩ := hr a b (b.x -. a.x) st.index
          simp only [latheLayer, hp, Res.ok_bind]
          obtain ⟨st', e1, ⟨rs, e2, e2'⟩, e3, e4, e5, e6⟩ := ih (z +. s.thickness) fuel
            ⟨st.parts ++ [⟨p, (measure p).1, (measure p).2,
              ⟨if s.label.text ≠ [] then numbered s.label.text st.index else s.label.text, s.label.position⟩⟩],
            if st.index = 0 then b.x -. a.x else st.topLength, b.x -. a.x, st.index + 1, st.totalHeight +. s.thickness⟩ hlen hstep' hhd' h0' hlast'
          refine ⟨st', e1, ⟨_ :: rs, by rw [e2, List.append_assoc, List.singleton_append], ?_⟩, ?_, ?_, ?_, ?_⟩
          · rw [hsec]
            refine ⟨hp, rfl, rfl, ?_, e2'⟩
            by_cases hl : s.label.text = []
            · simp [hl]
            · simp [hl]
          · rw [e3, hsec, List.length_cons]
            show st.index + 1 + _ = _
            omega
          · rw [e4, hsec, List.length_cons, Function.iterate_succ_apply]
          · rw [e5, hsec]
            simp
          · rw [e6, hsec, List.getLast?_cons]
            cases (sections s.precision cuts hs).getLast? <;> simp

/-- **C51.** The heights are those that are reached from the first in whole steps and are not beyond the last. -/
theorem C51_heights (y last t : ℝ) (ht : 0 < t) (z : ℝ) : z ∈ heights y last t ↔ (∃ k : ℕ, z = y + k * t) ∧ z ≤ last := by
  simp only [heights, List.mem_map, List.mem_range, Int.lt_toNat]
  constructor
  · rintro ⟨k, hk, rfl⟩
    refine ⟨⟨k, rfl⟩, ?_⟩
    have h1 : (k : ℤ) ≤ ⌊(last - y) / t⌋ := by omega
    have h2 := Int.le_floor.mp h1
    rw [le_div_iff₀ ht] at h2
    push_cast at h2
    linarith
  · rintro ⟨⟨k, rfl⟩, hz⟩
    refine ⟨k, ?_, rfl⟩
    have h1 : (k : ℤ) ≤ ⌊(last - y) / t⌋ := by
      rw [Int.le_floor, le_div_iff₀ ht]
      push_cast
      linarith
    omega

theorem heights_getElem (y last t : ℝ) (i : ℕ) :
    (heights y last t)[i]? = if i < (⌊(last - y) / t⌋ + 1).toNat then some (y + i * t) else none := by
  simp only [heights, List.getElem?_map]
  split
  · rename_i h
    rw [List.getElem?_range h]
    rfl
  · rename_i h
    rw [List.getElem?_eq_none (by simpa using h)]
    rfl

/-- **C51.** For an outline of which `cuts` gives the intercepts, the lathe makes one layer for each height with two intercepts apart, in
order and numbered from 0 in its label; the heights are those of `C51_heights`. It reports the number of layers, the number of layers times
the thickness, and the lengths of the first and the last layer. The loop ends after as many turns as there are heights. -/
theorem C51_layers (s : LatheSetup (XNum ℝ)) (t : ℝ) (ht : s.thickness = fin t) (h0 : 0 < t) (outline : Path (XNum ℝ)) (tl br : Point ℝ)
    (hb : whitespaceBox outline = .ok (finPt tl, finPt br)) (padT padB : ℝ) (cuts : XNum ℝ → List (Point (XNum ℝ)))
    (hc : ∀ y, s.intercepts y = .ok (cuts y)) (hr : ∀ a b l i, ∃ p, s.render a b l i = .ok p) (l : List (Point (XNum ℝ) × Point (XNum ℝ)))
    (hl : l = sections s.precision cuts ((heights (tl.y + padT) (br.y - padB) t).map fin)) (fuel : Nat)
    (hf : (heights (tl.y + padT) (br.y - padB) t).length < fuel) :
    ∃ st, lathe s outline (fin padT) (fin padB) fuel = some (.ok st) ∧ Layers s 0 l st.parts ∧ st.index = l.length ∧
      st.totalHeight = fin (l.length * t) ∧ st.topLength = (l.head?.map fun c => c.2.x -. c.1.x).getD (fin 0) ∧
      st.bottomLength = (l.getLast?.map fun c => c.2.x -. c.1.x).getD (fin 0) := by
  set y := tl.y + padT with hy
  set last := br.y - padB with hlast
  set n := (⌊(last - y) / t⌋ + 1).toNat with hn
  have hlen : (heights y last t).length = n := by simp [heights, hn]
  have hmem : ∀ i : ℕ, i < n → y + i * t ≤ last := by
    intro i hi
    exact ((C51_heights y last t h0 _).mp (by
      simp only [heights, List.mem_map, List.mem_range]
      exact ⟨i, hi, rfl⟩)).2
  have hnot : ∀ i : ℕ, n ≤ i → ¬ y + i * t ≤ last := by
    intro i hi hle
    have hm := (C51_heights y last t h0 _).mpr ⟨⟨i, rfl⟩, hle⟩
    simp only [heights, List.mem_map, List.mem_range] at hm
    obtain ⟨k, hk, he⟩ := hm
    have : (k : ℝ) = i := by
      have h1 : (k : ℝ) * t = i * t := by linarith
      exact mul_right_cancel₀ h0.ne' h1
    have : k = i := by exact_mod_cast this
    omega
  obtain ⟨st, h1, ⟨rs, h2, h2'⟩, h3, h4, h5, h6⟩ := latheLoop_eq s (fin last) cuts hc hr ((heights y last t).map fin) (fin y) fuel latheStart
    (by simpa using hf)
    (by
      intro i z hz
      rw [List.getElem?_map, heights_getElem] at hz
      split at hz
      · rename_i hi
        simp only [Option.map_some, Option.some.injEq] at hz
        subst hz
        rw [le_fin, List.getElem?_map, heights_getElem, ht, add_fin]
        refine ⟨by simpa using hmem i hi, ?_⟩
        split
        · simp only [Option.map_some, Option.getD_some, fin.injEq]
          push_cast
          ring
        · rfl
      · cases hz)
    (by
      rw [List.head?_map, List.head?_eq_getElem?, heights_getElem]
      split <;> simp)
    (by
      intro he
      have hn0 : n = 0 := by rw [← hlen]; simpa using he
      rw [le_fin]
      simpa using hnot 0 (by omega))
    (by
      intro z hz
      rw [List.getLast?_map, List.getLast?_eq_getElem?, heights_getElem, hlen] at hz
      split at hz
      · simp only [Option.map_some, Option.some.injEq] at hz
        subst hz
        rename_i hi
        rw [ht, add_fin, le_fin]
        have := hnot n (le_refl _)
        have hcast : ((n - 1 : ℕ) : ℝ) = n - 1 := by rw [Nat.cast_sub (by omega)]; simp
        rw [hcast]
        simp only [decide_eq_false_iff_not]
        intro hle
        exact this (by linarith)
      · cases hz)
  rw [← hl] at h2' h3 h4 h5 h6
  have hz : (Arith.zero : XNum ℝ) = fin 0 := Bezier.zero_fin
  refine ⟨st, ?_, ?_, ?_, ?_, ?_, ?_⟩
  · simp only [lathe, hb, ht, hz, le_fin, finPt, add_fin, sub_fin, ← hy, ← hlast]
    rw [if_neg (by simpa using h0)]
    exact h1
  · rw [h2]
    simpa [latheStart] using h2'
  · simpa [latheStart] using h3
  · rw [h4, ht]
    simp only [latheStart, hz]
    have key : ∀ k : ℕ, (fun x : XNum ℝ => x +. fin t)^[k] (fin 0) = fin (k * t) := by
      intro k
      induction k with
      | zero => simp
      | succ k ih =>
        rw [Function.iterate_succ_apply', ih, add_fin]
        push_cast
        congr 1
        ring
    exact key _
  · simpa [latheStart, hz] using h5
  · simpa [latheStart, hz] using h6

/-- **C51.** A thickness that is not positive is an error. -/
theorem C51_thickness (s : LatheSetup (XNum ℝ)) (t : ℝ) (ht : s.thickness = fin t) (h0 : t ≤ 0) (outline : Path (XNum ℝ)) (tl br : Point (XNum ℝ))
    (hb : whitespaceBox outline = .ok (tl, br)) (padT padB : XNum ℝ) (fuel : Nat) : lathe s outline padT padB fuel = some .err := by
  simp only [lathe, hb, ht, le_zero_fin]
  rw [if_pos (by simpa using h0)]

/-! ## C52 A part is repeated the requested number of times -/

/-- **C52.** Rendering a part that is to be repeated `n` times gives `n` parts, numbered from 0 in their labels when there are several and the
label is not empty; each is the path rendered for its index, trimmed, with its size. -/
theorem C52_repeat {F : Type u} [Trig F] (paths : ℕ → Path F) (render : Nat → Res (Path F)) (hr : ∀ i, render i = .ok (paths i)) (label : Label)
    (total : Int) :
    ∃ parts, renderPart render label total [] = .ok parts ∧ parts.length = total.toNat ∧
      ∀ (i : ℕ) part, parts[i]? = some part → part.path = trimWhitespace (paths i) ∧ (part.width, part.height) = measure part.path ∧
        part.label.position = label.position ∧
        part.label.text = if 1 < total ∧ label.text ≠ [] then label.text ++ ':' :: (toString i).toList else label.text := by
  refine ⟨(List.range total.toNat).map fun i => ⟨trimWhitespace (paths i), (measure (trimWhitespace (paths i))).1,
    (measure (trimWhitespace (paths i))).2,
    ⟨if 1 < total.toNat ∧ label.text ≠ [] then numbered label.text i else label.text, label.position⟩⟩, ?_, by simp, ?_⟩
  · unfold renderPart
    rw [Res.mapM_ok _ _ _ (fun i _ => ?_), Res.ok_bind, applyTransformers]
    simp [renderCopy, hr]
  · intro i part h
    rw [List.getElem?_map] at h
    rcases hi : (List.range total.toNat)[i]? with _ | j
    · rw [hi] at h; cases h
    · rw [hi] at h
      rw [List.getElem?_eq_some_iff] at hi
      obtain ⟨h1, h2⟩ := hi
      rw [List.getElem_range] at h2
      subst h2
      simp only [Option.map_some, Option.some.injEq] at h
      subst h
      refine ⟨rfl, rfl, rfl, ?_⟩
      have e : 1 < total.toNat ↔ 1 < total := by omega
      simp only [e, numbered]

/-- **C52.** The part transformers are applied one after the other, each to every part, and their results are put one after the other; the
number of parts after a transformer is the sum of the numbers it makes. -/
theorem C52_transformers {F : Type u} [Trig F] (render : Nat → Res (Path F)) (label : Label) (total : Int) (parts : List (Rendered F))
    (hp : renderPart render label total [] = .ok parts) (ts : List (Rendered F → List (Rendered F))) :
    renderPart render label total (ts.map fun t p => .ok (t p)) = .ok (ts.foldl (fun l t => l.flatMap t) parts) := by
  unfold renderPart at hp ⊢
  rw [Res.bind_eq_ok] at hp
  obtain ⟨l, h1, h2⟩ := hp
  simp only [applyTransformers, Res.ok.injEq] at h2
  subst h2
  rw [h1, Res.ok_bind]
  clear h1
  induction ts generalizing l with
  | nil => rfl
  | cons t ts ih =>
    rw [List.map_cons, applyTransformers, Res.mapM_ok _ t _ (fun _ _ => rfl), Res.ok_bind, ih, List.foldl_cons, List.flatMap_def]

/-- **C52.** The first error of a rendering stops everything. -/
theorem C52_error {F : Type u} [Trig F] (render : Nat → Res (Path F)) (label : Label) (total : Int) (ts : List (PartTransformer F)) (i : ℕ)
    (hi : i < total.toNat) (he : render i = .err) (hok : ∀ j < i, ∃ p, render j = .ok p) : renderPart render label total ts = .err := by
  unfold renderPart
  have key : ∀ l : List ℕ, (∃ l1 l2, l = l1 ++ i :: l2 ∧ ∀ j ∈ l1, j < i) → l.mapM (renderCopy render label total.toNat) = .err := by
    rintro _ ⟨l1, l2, rfl, h⟩
    induction l1 with
    | nil => rw [List.nil_append, List.mapM_cons]; simp [renderCopy, he]
    | cons a l1 ih =>
      obtain ⟨p, hp⟩ := hok a (h a (by simp))
      rw [List.cons_append, List.mapM_cons, ih (fun j hj => h j (by simp [hj]))]
      simp [renderCopy, hp]
  rw [key]
  · rfl
  · obtain ⟨k, hk⟩ := Nat.exists_eq_add_of_lt hi
    refine ⟨List.range i, (List.range k).map (i + 1 + ·), ?_, by simp⟩
    rw [hk, show i + k + 1 = i + (1 + k) by omega, List.range_add, List.range_add]
    simp [Nat.add_assoc]

/-- The statement as first written, with labels from 1, does not hold: the first of two parts is labelled `a:0`. -/
theorem C52_from_one_false : ¬ ∀ (render : Nat → Res (Path ℝ)) (label : Label) (total : Int) (parts : List (Rendered ℝ)),
    1 < total → label.text ≠ [] → renderPart render label total [] = .ok parts →
    ∀ (i : ℕ) part, parts[i]? = some part → part.label.text = label.text ++ ':' :: (toString (i + 1)).toList := by
  intro h
  obtain ⟨parts, h1, h2, h3⟩ := C52_repeat (fun _ => ([] : Path ℝ)) (fun _ => .ok []) (fun _ => rfl) ⟨['a'], []⟩ 2
  have h2' : parts.length = 2 := h2
  obtain ⟨part, hpart⟩ : ∃ part, parts[0]? = some part := ⟨parts[0], List.getElem?_eq_getElem (by omega)⟩
  have e1 := h _ _ 2 parts (by norm_num) (by simp) h1 0 part hpart
  have e2 := (h3 0 part hpart).2.2.2
  rw [e1] at e2
  simp at e2
  exact absurd e2 (by decide)

/-! ## The statements are not vacuous -/

/-- A corner: two units to the right and one down. -/
def corner : Path ℝ := [.move ⟨0, 0, -1⟩ ⟨0, 0, -1⟩, .line ⟨0, 0, -1⟩ ⟨2, 0, -1⟩, .line ⟨2, 0, -1⟩ ⟨2, 1, -1⟩]

theorem corner_box : whitespaceBox (finPath corner) = .ok (finPt ⟨0, 0, -1⟩, finPt ⟨2, 1, -1⟩) := by
  have hb : pathBox (finPath corner) = (finPt (mk (0, 0)), finPt (mk (2, 1))) := by
    change growBox (growBox (segBox (finSeg (Segment.move ⟨0, 0, -1⟩ ⟨0, 0, -1⟩))) (segBox (finSeg (Segment.line ⟨0, 0, -1⟩ ⟨2, 0, -1⟩))))
      (segBox (finSeg (Segment.line ⟨2, 0, -1⟩ ⟨2, 1, -1⟩))) = _
    rw [lineBox_fin _ _ _ (Or.inl rfl), lineBox_fin _ _ _ (Or.inr rfl), lineBox_fin _ _ _ (Or.inr rfl), growBox_fin, growBox_fin]
    norm_num
  have hz : (origin : Point (XNum ℝ)) = finPt ⟨0, 0, -1⟩ := by
    rw [origin_fin]
    simp [origin, newPoint_eq, Arith.zero, finPt]
  have hl : (finPath corner).getLast? = some (finSeg (Segment.line ⟨2, 0, -1⟩ ⟨2, 1, -1⟩)) := rfl
  have hc : finPath corner = finSeg (Segment.move ⟨0, 0, -1⟩ ⟨0, 0, -1⟩) :: finPath (corner.tail) := rfl
  unfold whitespaceBox
  rw [hl]
  conv_lhs => rw [hc]
  simp only [← hc, hb, hz, start_finSeg, stop_finSeg]
  simp [finPt, mk, Segment.start, Segment.stop]

/-- C48: three corners fit into seven units. -/
example (toInt : XNum ℝ → Int) (ht : Faithful toInt) :
    ∃ r : Path ℝ, repeatRender toInt (fun _ => .ok (finPath corner)) (fin 7) (fin 0) = .ok (finPath r) ∧
      strokes r = [.line (0, 0) (2, 0), .line (2, 0) (2, 1), .line (2, 0) (4, 0), .line (4, 0) (4, 1), .line (4, 0) (6, 0), .line (6, 0) (6, 1)] := by
  have h3 : copies 7 ((2 : ℝ) - 0) = 3 := by
    simp only [copies]
    rw [if_pos (by norm_num), Nat.floor_eq_iff (by norm_num)]
    norm_num
  have h1 : copies 0 ((1 : ℝ) - 0) = 1 := by simp [copies]
  obtain ⟨r, h, hr⟩ := (C48_copies ht (fun _ => .ok (finPath corner)) corner (fun _ _ => corner) (fun _ _ => .move ⟨0, 0, -1⟩ ⟨0, 0, -1⟩)
    ⟨0, 0, -1⟩ ⟨2, 1, -1⟩ 7 0 rfl corner_box (fun _ _ => rfl) (fun _ _ => rfl) (by norm_num) (by norm_num) (by norm_num) (by norm_num)).2
    (by simp only [h3, h1]; norm_num)
  refine ⟨r, h, ?_⟩
  rw [hr]
  simp only [h3, h1]
  have hc : strokes corner = [.line (0, 0) (2, 0), .line (2, 0) (2, 1)] := rfl
  rw [hc]
  simp [List.range_succ, Stroke.map, translate, Segment.start]
  norm_num

/-- There is such a conversion. -/
example : ∃ toInt : XNum ℝ → Int, Faithful toInt :=
  ⟨fun x => match x with
    | fin v => ⌊v⌋
    | _ => 0, fun n _ => Int.floor_intCast n⟩

/-- C49: along an edge of length five, from (1, 1) to (4, 5). -/
example : along (1, 1) (4, 5) (0, 0) = (1, 1) ∧ along (1, 1) (4, 5) (5, 0) = (4, 5) := by
  have h5 : lengthOf (1, 1) (4, 5) = 5 := by
    rw [lengthOf, show ((4:ℝ) - 1) ^ 2 + (5 - 1) ^ 2 = 5 ^ 2 by norm_num, Real.sqrt_sq (by norm_num)]
  have h := C49_along (1, 1) (4, 5) (by simp)
  rw [h5] at h
  exact ⟨h.1, h.2.1⟩

/-- C49: corners along a horizontal edge of length seven with paddings of one half and one: two corners fit, and the left and right pieces,
also corners here, are given 1.25 and 1.75. -/
example (toInt : XNum ℝ → Int) (left right : XNum ℝ → Res (Path (XNum ℝ)))
    (hl : left (fin (5 / 4)) = .ok (finPath corner)) (hr : right (fin (7 / 4)) = .ok (finPath corner)) (p : Path ℝ) (sp : Segment ℝ)
    (hp : repeatRender toInt (fun _ => .ok (finPath corner)) (fin (11 / 2)) (fin 0) = .ok (finPath p)) (hsp : p.head? = some sp)
    (hb : whitespaceBox (finPath p) = .ok (finPt ⟨0, 0, -1⟩, finPt ⟨4, 1, -1⟩)) :
    ∃ r : Path ℝ, repeatEdge toInt (fun _ => .ok (finPath corner)) left right (finPt ⟨0, 0, -1⟩) (finPt ⟨7, 0, -1⟩) (fin (1 / 2)) (fin 1)
      Attr.origin.text = .ok (finPath r) := by
  have h7 : lengthOf (pt ⟨0, 0, -1⟩) (pt ⟨7, 0, -1⟩) = 7 := by
    rw [lengthOf, show (((pt ⟨7, 0, -1⟩ : Pt ℝ).1 - (pt ⟨0, 0, -1⟩ : Pt ℝ).1) ^ 2 + ((pt ⟨7, 0, -1⟩ : Pt ℝ).2 - (pt ⟨0, 0, -1⟩ : Pt ℝ).2) ^ 2) = 7 ^ 2 by
      simp [pt], Real.sqrt_sq (by norm_num)]
  obtain ⟨r, h, _⟩ := C49_origin toInt (fun _ => .ok (finPath corner)) left right ⟨0, 0, -1⟩ ⟨7, 0, -1⟩ (by simp [pt]) (1 / 2) 1 p corner corner sp
    (.move ⟨0, 0, -1⟩ ⟨0, 0, -1⟩) ⟨0, 0, -1⟩ ⟨4, 1, -1⟩ (5 / 4) (7 / 4) (by rw [h7]; norm_num) (by rw [h7]; norm_num)
    (by rw [h7]; norm_num; norm_num at hp; exact hp) hb hsp hl hr rfl
  exact ⟨r, h⟩

/-- C50: a part of 15 by 5 fits a maximum of 20 by 10; one of 5 by 15 fits turned; one of 25 by 5 is turned and then split. -/
example : decideSplit (fin (20 : ℝ)) (fin 10) (fin 15) (fin 5) = .fits ∧ decideSplit (fin (20 : ℝ)) (fin 10) (fin 5) (fin 15) = .fits ∧
    decideSplit (fin (20 : ℝ)) (fin 10) (fin 25) (fin 5) = .turn ∧ decideSplit (fin (20 : ℝ)) (fin 10) (fin 5) (fin 25) = .split := by
  simp only [decideSplit_fin]
  norm_num

/-- C51: layers of thickness two on heights from 0 to 5. -/
example : heights 0 5 2 = [0, 2, 4] := by
  have h : ⌊((5:ℝ) - 0) / 2⌋ = 2 := by rw [Int.floor_eq_iff]; norm_num
  simp only [heights, h]
  simp [List.range_succ]
  norm_num

/-- C52: three parts with a label. -/
example : ∃ parts : List (Rendered (XNum ℝ)), renderPart (fun _ => .ok (finPath corner)) ⟨['a'], []⟩ 3 [] = .ok parts ∧ parts.length = 3 ∧
    ∀ (i : ℕ) part, parts[i]? = some part → part.label.text = 'a' :: ':' :: (toString i).toList := by
  obtain ⟨parts, h1, h2, h3⟩ := C52_repeat (fun _ => finPath corner) (fun _ => .ok (finPath corner)) (fun _ => rfl) ⟨['a'], []⟩ 3
  exact ⟨parts, h1, h2, fun i part h => by rw [(h3 i part h).2.2.2]; simp⟩

/-! ## C70 A part draws what its children draw -/

theorem strokes_trimTailMove {F : Type u} [Arith F] (p : Path F) : strokes (trimTailMove p) = strokes p := by
  have key : ∀ l : Path F, strokes (l.dropWhile Segment.isMove).reverse = strokes l.reverse := by
    intro l
    induction l with
    | nil => rfl
    | cons s l ih =>
      rw [List.dropWhile_cons]
      split
      · rename_i h
        rw [ih, List.reverse_cons, strokes_append]
        cases s <;> simp_all [Segment.isMove, strokes, strokeOf]
      · rfl
  rw [trimTailMove, key, List.reverse_reverse]

theorem strokes_collapseMoves {F : Type u} [Trig F] (p : Path F) : strokes (collapseMoves p) = strokes p := by
  have key : ∀ (p acc : Path F), strokes (p.foldl (fun acc s => (if s.isMove then trimTailMove acc else acc) ++ [s]) acc) = strokes acc ++ strokes p := by
    intro p
    induction p with
    | nil => intro acc; simp [strokes]
    | cons s p ih =>
      intro acc
      rw [List.foldl_cons, ih, strokes_append]
      have : strokes (if s.isMove = true then trimTailMove acc else acc) = strokes acc := by
        split
        · exact strokes_trimTailMove acc
        · rfl
      rw [this, strokes_cons]
      cases h : strokeOf s <;> simp [strokes, h]
  rw [collapseMoves, strokes_newPath, key]
  simp [strokes]

theorem collapse_fin (p : Path ℝ) : collapseMoves (finPath p) = finPath (collapseMoves p) := by
  have key : ∀ (p acc : Path ℝ), (finPath p).foldl (fun acc s => (if s.isMove then trimTailMove acc else acc) ++ [s]) (finPath acc) =
      finPath (p.foldl (fun acc s => (if s.isMove then trimTailMove acc else acc) ++ [s]) acc) := by
    intro p
    induction p with
    | nil => intro acc; rfl
    | cons s p ih =>
      intro acc
      rw [finPath_cons, List.foldl_cons, List.foldl_cons, isMove_finSeg, ← ih]
      congr 1
      split
      · rw [trimTailMove_fin, finPath_append]; rfl
      · rw [finPath_append]; rfl
  rw [collapseMoves, collapseMoves, ← newPath_fin, ← key]
  rfl

/-- Not two moves in a row. -/
def NoDoubleMove {F : Type u} (p : Path F) : Prop := p.IsChain fun a b => ¬ (a.isMove = true ∧ b.isMove = true)

theorem collapse_single {F : Type u} [Trig F] (p : Path F) : NoDoubleMove (collapseMoves p) := by
  have trim : ∀ l : Path F, NoDoubleMove l → NoDoubleMove (trimTailMove l) := by
    intro l h
    have : trimTailMove l <+: l := by
      rw [trimTailMove, ← List.reverse_suffix, List.reverse_reverse]
      exact List.dropWhile_suffix _
    exact List.IsChain.prefix h this
  have last : ∀ (l : Path F) s, (trimTailMove l).getLast? = some s → s.isMove = false := by
    intro l s h
    rw [trimTailMove, List.getLast?_reverse] at h
    have := List.head?_dropWhile_not Segment.isMove l.reverse
    rw [h] at this
    simpa using this
  have key : ∀ (p acc : Path F), NoDoubleMove acc → NoDoubleMove (p.foldl (fun acc s => (if s.isMove then trimTailMove acc else acc) ++ [s]) acc) := by
    intro p
    induction p with
    | nil => intro acc h; exact h
    | cons s p ih =>
      intro acc h
      rw [List.foldl_cons]
      apply ih
      unfold NoDoubleMove
      rw [List.isChain_append]
      split
      · refine ⟨trim acc h, List.isChain_singleton _, ?_⟩
        intro x hx y _ hxy
        rw [last acc x hx] at hxy
        exact absurd hxy.1 (by simp)
      · rename_i hs
        refine ⟨h, List.isChain_singleton _, ?_⟩
        intro x _ y hy hxy
        simp only [List.head?_cons, Option.mem_def, Option.some.injEq] at hy
        subst hy
        exact hs hxy.2
  have h0 := key p [] List.isChain_nil
  rw [collapseMoves]
  generalize p.foldl (fun acc s => (if s.isMove then trimTailMove acc else acc) ++ [s]) [] = l at h0
  match l, h0 with
  | [], _ => exact List.isChain_nil
  | s :: rest, h0 =>
    have h1 : NoDoubleMove (headMove (s :: rest)) := by
      simp only [headMove]
      split
      · exact h0
      · rename_i hs
        unfold NoDoubleMove
        rw [List.isChain_cons_cons]
        exact ⟨fun h => hs h.2, h0⟩
    rw [newPath]
    match hm : headMove (s :: rest), h1 with
    | [], _ => exact List.isChain_nil
    | .line _ _ :: _, h1 => exact h1
    | .curve _ _ _ _ :: _, h1 => exact h1
    | .move a b :: r, h1 =>
      unfold fixHeadMove
      simp only
      split
      · match r, h1 with
        | [], _ => exact List.isChain_singleton _
        | x :: r, h1 =>
          unfold NoDoubleMove at h1 ⊢
          rw [List.isChain_cons_cons] at h1 ⊢
          exact ⟨h1.1, h1.2⟩
      · exact h1

/-- **C70.** Each child is rendered from where the one before it stopped. -/
theorem C70_cursor {F : Type u} [Trig F] (children : List (Point F → Res (Path F))) (cursor : Point F) (ps : List (Path F))
    (h : renderChildren children cursor = .ok ps) : ps.length = children.length ∧
      ∀ (i : ℕ) c, children[i]? = some c → ∃ p, ps[i]? = some p ∧ (∃ s, p.getLast? = some s) ∧
        c (match i with
          | 0 => cursor
          | j + 1 => ((ps[j]?.bind List.getLast?).map Segment.stop).getD cursor) = .ok p := by
  induction children generalizing cursor ps with
  | nil =>
    simp only [renderChildren, Res.ok.injEq] at h
    subst h
    simp
  | cons c children ih =>
    simp only [renderChildren, Res.bind_eq_ok] at h
    obtain ⟨p, h1, h2⟩ := h
    split at h2
    · cases h2
    · rename_i s hs
      rw [Res.bind_eq_ok] at h2
      obtain ⟨ps', h3, h4⟩ := h2
      simp only [Res.ok.injEq] at h4
      subst h4
      obtain ⟨e1, e2⟩ := ih _ _ h3
      refine ⟨by simp [e1], ?_⟩
      intro i c' hc
      match i with
      | 0 =>
        simp only [List.getElem?_cons_zero, Option.some.injEq] at hc
        subst hc
        exact ⟨p, rfl, ⟨s, hs⟩, h1⟩
      | i + 1 =>
        obtain ⟨q, f1, f2, f3⟩ := e2 i c' hc
        refine ⟨q, f1, f2, ?_⟩
        rw [← f3]
        congr 1
        match i with
        | 0 => simp [hs]
        | i + 1 =>
          simp only [List.getElem?_cons_succ]
          have : ∃ q', ps'[i]? = some q' ∧ ∃ s, q'.getLast? = some s := by
            have hlt : i + 1 + 1 < (c :: children).length := (List.getElem?_eq_some_iff.mp hc).1
            rw [List.length_cons] at hlt
            obtain ⟨q', g1, g2, _⟩ := e2 i children[i] (List.getElem?_eq_getElem (by omega))
            exact ⟨q', g1, g2⟩
          obtain ⟨q', g1, s', g2⟩ := this
          simp [g1, g2]

/-- **C70.** A part draws the strokes of its children one after the other (changed by its transforms, if it has any), moved so that the
drawing begins at the origin, without two moves in a row. -/
theorem C70_draws (children : List (Point (XNum ℝ) → Res (Path (XNum ℝ)))) (transforms : List (Path (XNum ℝ) → Res (Path (XNum ℝ))))
    (cursor : Point (XNum ℝ)) (ps : List (Path ℝ)) (hne : ps ≠ []) (hps : renderChildren children cursor = .ok (ps.map finPath)) :
    ∃ j : Path ℝ, strokes j = ps.flatMap strokes ∧
      ∀ q : Path ℝ, multiTransform transforms (finPath j) = .ok (finPath q) → strokes q ≠ [] → Small q →
        ∃ (r : Path ℝ) (dx dy : ℝ) (br : Pt ℝ), partRender children transforms cursor = .ok (finPath r) ∧
          strokes r = (strokes q).map (Stroke.map (translate dx dy)) ∧ BoxOf (Drawn r) (0, 0) br ∧ NoDoubleMove r := by
  obtain ⟨j, h1, h2⟩ := simpleJoin_strokes ps hne
  refine ⟨j, h2, ?_⟩
  intro q hq hqs hsm
  obtain ⟨dx, dy, h3, br, h4⟩ := C29_trim q hqs hsm
  refine ⟨collapseMoves (shift dx dy q), dx, dy, br, ?_, ?_, ?_, collapse_single _⟩
  · unfold partRender
    rw [hps, Res.ok_bind, if_neg (by simpa using hne), h1, Res.ok_bind, hq, Res.ok_bind, h3, collapse_fin]
  · rw [strokes_collapseMoves, C27_shift]
  · have : Drawn (collapseMoves (shift dx dy q)) = Drawn (shift dx dy q) := by
      funext x
      simp only [Drawn, strokes_collapseMoves]
    rw [this]
    exact h4

/-- **C70.** A part without children is an error. -/
theorem C70_empty {F : Type u} [Trig F] (transforms : List (Path F → Res (Path F))) (cursor : Point F) :
    partRender [] transforms cursor = .err := rfl

/-- C70: two corners, the second child drawn where the first stopped. -/
example :
    ∃ ps : List (Path ℝ), ps ≠ [] ∧ renderChildren [fun _ => .ok (finPath corner), fun _ => .ok (finPath corner)] origin = .ok (ps.map finPath) :=
  ⟨[corner, corner], by simp, rfl⟩

end Verif.Path
