import Verif.Lemmas.BezierReduce

/-!
# Lemmas about intersecting two curves by repeated halving
-/

namespace Verif.Bezier

open Verif Verif.Spec XNum

set_option linter.unusedSectionVars false
set_option linter.unusedSimpArgs false

universe u v

/-! ### Lists in the option monad -/

theorem mapM_mem {α : Type u} {β : Type u} (f : α → Option β) (l : List α) (ys : List β) (h : l.mapM f = some ys) :
    ∀ y ∈ ys, ∃ x ∈ l, f x = some y := by
  induction l generalizing ys with
  | nil =>
    simp only [List.mapM_nil] at h
    cases h
    simp
  | cons x l ih =>
    rw [List.mapM_cons] at h
    cases hx : f x with
    | none => rw [hx] at h; cases h
    | some z =>
      cases hl : l.mapM f with
      | none => rw [hx, hl] at h; cases h
      | some zs =>
        rw [hx, hl] at h
        cases h
        intro y hy
        rcases List.mem_cons.1 hy with rfl | hy
        · exact ⟨x, by simp, hx⟩
        · obtain ⟨w, hw, e⟩ := ih zs hl y hy
          exact ⟨w, by simp [hw], e⟩

theorem mapM_isSome {α : Type u} {β : Type u} (f : α → Option β) (l : List α) (h : ∀ x ∈ l, ∃ y, f x = some y) :
    ∃ ys, l.mapM f = some ys := by
  induction l with
  | nil => exact ⟨[], rfl⟩
  | cons x l ih =>
    obtain ⟨y, hy⟩ := h x (by simp)
    obtain ⟨ys, hys⟩ := ih fun z hz => h z (by simp [hz])
    exact ⟨y :: ys, by rw [List.mapM_cons, hy, hys]; rfl⟩

theorem pairDedup_subset {F : Type u} [Trig F] (l : List (F × F)) (seen : List Text) : ∀ v ∈ pairDedup l seen, v ∈ l := by
  induction l generalizing seen with
  | nil => simp [pairDedup]
  | cons x l ih =>
    intro v hv
    unfold pairDedup at hv
    split at hv
    · exact List.mem_cons_of_mem _ (ih _ v hv)
    · rcases List.mem_cons.1 hv with rfl | hv
      · simp
      · exact List.mem_cons_of_mem _ (ih _ v hv)

/-! ### Boxes -/

/-- All control points are below the starting values of the box search. -/
def Bounded (c : Curve ℝ) : Prop :=
  (|c.p0.x| < 2 ^ 63 ∧ |c.p1.x| < 2 ^ 63 ∧ |c.p2.x| < 2 ^ 63 ∧ |c.p3.x| < 2 ^ 63) ∧
    |c.p0.y| < 2 ^ 63 ∧ |c.p1.y| < 2 ^ 63 ∧ |c.p2.y| < 2 ^ 63 ∧ |c.p3.y| < 2 ^ 63

theorem bernstein_bounded {a b c d B t : ℝ} (ha : |a| < B) (hb : |b| < B) (hc : |c| < B) (hd : |d| < B) (h0 : 0 ≤ t) (h1 : t ≤ 1) :
    |bernstein a b c d t| < B := by
  have hs : (0 : ℝ) ≤ 1 - t := by linarith
  have w0 : 0 ≤ (1 - t) ^ 3 := by positivity
  have w1 : 0 ≤ 3 * (1 - t) ^ 2 * t := by positivity
  have w2 : 0 ≤ 3 * (1 - t) * t ^ 2 := by positivity
  have w3 : 0 ≤ t ^ 3 := by positivity
  have hw : (1 - t) ^ 3 + 3 * (1 - t) ^ 2 * t + 3 * (1 - t) * t ^ 2 + t ^ 3 = 1 := by ring
  rw [abs_lt] at *
  unfold bernstein
  set e0 := (1 - t) ^ 3
  set e1 := 3 * (1 - t) ^ 2 * t
  set e2 := 3 * (1 - t) * t ^ 2
  set e3 := t ^ 3
  -- one of the weights is positive
  have hpos : 0 < e0 ∨ 0 < e3 := by
    rcases eq_or_lt_of_le h0 with h | h
    · left; show 0 < (1 - t) ^ 3; rw [← h]; norm_num
    · right; exact pow_pos h 3
  have m1 := mul_nonneg w0 (sub_nonneg.2 ha.2.le)
  have m2 := mul_nonneg w1 (sub_nonneg.2 hb.2.le)
  have m3 := mul_nonneg w2 (sub_nonneg.2 hc.2.le)
  have m4 := mul_nonneg w3 (sub_nonneg.2 hd.2.le)
  have n1 := mul_nonneg w0 (sub_nonneg.2 ha.1.le)
  have n2 := mul_nonneg w1 (sub_nonneg.2 hb.1.le)
  have n3 := mul_nonneg w2 (sub_nonneg.2 hc.1.le)
  have n4 := mul_nonneg w3 (sub_nonneg.2 hd.1.le)
  have hB : B = e0 * B + e1 * B + e2 * B + e3 * B := by rw [← add_mul, ← add_mul, ← add_mul, hw, one_mul]
  rcases hpos with h | h
  · have k1 := mul_pos h (sub_pos.2 ha.2)
    have k2 := mul_pos h (sub_pos.2 ha.1)
    constructor <;> linarith
  · have k1 := mul_pos h (sub_pos.2 hd.2)
    have k2 := mul_pos h (sub_pos.2 hd.1)
    constructor <;> linarith

/-- `s` is a section of `c` inside the unit interval. -/
structure SectionOf (c : Curve ℝ) (s : Section ℝ) : Prop where
  t0 : 0 ≤ s.t1
  lt : s.t1 < s.t2
  t1 : s.t2 ≤ 1
  retraces : Retraces s.curve c s.t1 s.t2

theorem SectionOf.mem {c : Curve ℝ} {s : Section ℝ} (h : SectionOf c s) {u : ℝ} (h0 : 0 ≤ u) (h1 : u ≤ 1) :
    0 ≤ s.t1 + (s.t2 - s.t1) * u ∧ s.t1 + (s.t2 - s.t1) * u ≤ 1 := by
  have := h.t0
  have := h.t1
  have h3 := sub_pos.2 h.lt
  constructor
  · nlinarith
  · nlinarith

theorem SectionOf.start {c : Curve ℝ} {s : Section ℝ} (h : SectionOf c s) (hb : Bounded c) :
    |s.curve.p0.x| < 2 ^ 63 ∧ |s.curve.p0.y| < 2 ^ 63 := by
  have h1 := h.retraces 0
  have e : curveAt s.curve 0 = (s.curve.p0.x, s.curve.p0.y) := by simp [curveAt, bernstein]
  rw [e] at h1
  have hm := h.mem le_rfl (zero_le_one' ℝ)
  obtain ⟨⟨x0, x1, x2, x3⟩, y0, y1, y2, y3⟩ := hb
  have hx := bernstein_bounded x0 x1 x2 x3 hm.1 hm.2
  have hy := bernstein_bounded y0 y1 y2 y3 hm.1 hm.2
  rw [Prod.ext_iff] at h1
  simp only [curveAt] at h1
  rw [h1.1, h1.2]
  exact ⟨hx, hy⟩

/-- The box of a section, as numbers. -/
theorem SectionOf.box {c : Curve ℝ} {s : Section ℝ} (h : SectionOf c s) (hb : Bounded c) :
    ∃ tl br : Point ℝ, boundingBox (finCurve s.curve) = (finPoint tl, finPoint br) ∧
      ExactRange (fun t => (curveAt s.curve t).1) tl.x br.x ∧ ExactRange (fun t => (curveAt s.curve t).2) tl.y br.y :=
  boundingBox_exact s.curve (h.start hb).1 (h.start hb).2

theorem boxesOverlap_fin (a b c d : Point ℝ) : boxesOverlap (finPoint a) (finPoint b) (finPoint c) (finPoint d) = true ↔
    |(a.x + b.x) / 2 - (c.x + d.x) / 2| < ((b.x - a.x) + (d.x - c.x)) / 2 ∧
      |(a.y + b.y) / 2 - (c.y + d.y) / 2| < ((b.y - a.y) + (d.y - c.y)) / 2 := by
  have h2 : ((2 : Int) : ℝ) ≠ 0 := by norm_num
  simp only [boxesOverlap, finPoint, lit_zero_fin, add_fin, sub_fin, div_fin_ne h2, abs_fin, le_fin]
  push_cast
  by_cases hx : (b.x - a.x + (d.x - c.x)) / 2 ≤ |(a.x + b.x) / 2 - (c.x + d.x) / 2|
  · simp only [hx, decide_true, if_true, Bool.false_eq_true, not_lt.2 hx, false_and]
  · by_cases hy : (b.y - a.y + (d.y - c.y)) / 2 ≤ |(a.y + b.y) / 2 - (c.y + d.y) / 2|
    · simp only [hx, hy, decide_true, decide_false, if_true, if_false, Bool.false_eq_true, not_lt.2 hy, and_false]
    · simp only [hx, hy, decide_false, if_false, Bool.false_eq_true, true_iff]
      exact ⟨not_le.1 hx, not_le.1 hy⟩

theorem boxSize_fin {c : Curve (XNum ℝ)} {tl br : Point ℝ} (h : boundingBox c = (finPoint tl, finPoint br)) :
    boxSize c = fin ((br.x - tl.x) + (br.y - tl.y)) := by
  simp only [boxSize, h, finPoint, sub_fin, add_fin]

/-! ### Halving -/

theorem halfPairs_fin (s u : Section ℝ) : halfPairs (finSection s) (finSection u) =
    [(finSection (splitAt s (1 / 2)).1, finSection (splitAt u (1 / 2)).1),
     (finSection (splitAt s (1 / 2)).1, finSection (splitAt u (1 / 2)).2),
     (finSection (splitAt s (1 / 2)).2, finSection (splitAt u (1 / 2)).2),
     (finSection (splitAt s (1 / 2)).2, finSection (splitAt u (1 / 2)).1)] := by
  have e5 : (Arith.lit 5 1 : XNum ℝ) = fin (1 / 2) := by rw [lit_fin]; norm_num
  have em : (Arith.lit (-1) 0 : XNum ℝ) = fin (-1) := by rw [lit_zero_fin]; norm_num
  have h1 : (1 / 2 : ℝ) ≠ 1 := by norm_num
  have hs : ∀ s : Section ℝ, splitSection s (1 / 2) (-1) = splitAt s (1 / 2) := by
    intro s
    have a1 : ¬ (1 / 2 : ℝ) = 0 := by norm_num
    have a2 : ¬ (-1 : ℝ) = 1 := by norm_num
    have a3 : (-1 : ℝ) < 0 := by norm_num
    unfold splitSection
    simp only [Arith.zero, Arith.one, Arith.lit_zero_field, Arith.eq_field, Arith.lt_field, Int.cast_zero, Int.cast_one, a1, a2, a3,
      decide_false, decide_true, if_false, if_true, Bool.false_eq_true]
  simp only [halfPairs, e5, em, splitSection_fin _ _ h1, hs]

theorem SectionOf.halves {c : Curve ℝ} {s : Section ℝ} (h : SectionOf c s) :
    (SectionOf c (splitAt s (1 / 2)).1 ∧ (splitAt s (1 / 2)).1.t2 - (splitAt s (1 / 2)).1.t1 = (s.t2 - s.t1) / 2) ∧
      SectionOf c (splitAt s (1 / 2)).2 ∧ (splitAt s (1 / 2)).2.t2 - (splitAt s (1 / 2)).2.t1 = (s.t2 - s.t1) / 2 := by
  have l1 : (splitAt s (1 / 2)).1.t1 = s.t1 := by simp [splitAt, mapRange_field, Arith.zero, Arith.one]
  have l2 : (splitAt s (1 / 2)).1.t2 = s.t1 + (s.t2 - s.t1) / 2 := by simp [splitAt, mapRange_field, Arith.zero, Arith.one]; ring
  have r1 : (splitAt s (1 / 2)).2.t1 = s.t1 + (s.t2 - s.t1) / 2 := by simp [splitAt, mapRange_field, Arith.zero, Arith.one]; ring
  have r2 : (splitAt s (1 / 2)).2.t2 = s.t2 := by simp [splitAt, mapRange_field, Arith.zero, Arith.one]
  have a := h.t0
  have b := h.lt
  have d := h.t1
  refine ⟨⟨⟨?_, ?_, ?_, ?_⟩, ?_⟩, ⟨?_, ?_, ?_, ?_⟩, ?_⟩
  · rw [l1]; exact a
  · rw [l1, l2]; linarith
  · rw [l2]; linarith
  · rw [l1, l2]
    intro u
    show curveAt (Bezier.halves s.curve (1 / 2)).1 u = _
    rw [halves_left, h.retraces]
    congr 1; ring
  · rw [l1, l2]; ring
  · rw [r1]; linarith
  · rw [r1, r2]; linarith
  · rw [r2]; exact d
  · rw [r1, r2]
    intro u
    show curveAt (Bezier.halves s.curve (1 / 2)).2 u = _
    rw [halves_right, h.retraces]
    congr 1; ring
  · rw [r1, r2]; ring

/-! ### What is reported -/

theorem roundAway_close (x : ℝ) : |Num.roundAway x - x| ≤ 1 / 2 := by
  unfold Num.roundAway
  split
  · have h1 := Int.floor_le (-x + 1 / 2)
    have h2 := Int.lt_floor_add_one (-x + 1 / 2)
    rw [abs_le]; constructor <;> linarith
  · have h1 := Int.floor_le (x + 1 / 2)
    have h2 := Int.lt_floor_add_one (x + 1 / 2)
    rw [abs_le]; constructor <;> linarith

theorem roundMid_fin (s : Section ℝ) : ∃ x : ℝ, roundMid (finSection s) = fin x ∧ |x - (s.t1 + s.t2) / 2| ≤ 1 / 200000 := by
  have h2 : ((2 : Int) : ℝ) ≠ 0 := by norm_num
  have h5 : ((100000 : Int) : ℝ) ≠ 0 := by norm_num
  simp only [roundMid, finSection, lit_zero_fin, add_fin, mul_fin, div_fin_ne h2, round_fin, div_fin_ne h5]
  refine ⟨_, rfl, ?_⟩
  have := roundAway_close (((100000 : Int) : ℝ) * (s.t1 + s.t2) / ((2 : Int) : ℝ))
  push_cast at this ⊢
  rw [abs_le] at this ⊢
  constructor
  · have h3 : -(1 / 200000) + (s.t1 + s.t2) / 2 ≤ Num.roundAway (100000 * (s.t1 + s.t2) / 2) / 100000 := by
      rw [le_div_iff₀ (by norm_num)]; linarith [this.1]
    linarith
  · have h3 : Num.roundAway (100000 * (s.t1 + s.t2) / 2) / 100000 ≤ 1 / 200000 + (s.t1 + s.t2) / 2 := by
      rw [div_le_iff₀ (by norm_num)]; linarith [this.2]
    linarith

/-- A reported pair: two parameters, given to five decimals, whose points are close. -/
def Close (c d : Curve ℝ) (θ : ℝ) (v : XNum ℝ × XNum ℝ) : Prop :=
  ∃ a b x y : ℝ, v = (fin x, fin y) ∧ 0 ≤ a ∧ a ≤ 1 ∧ 0 ≤ b ∧ b ≤ 1 ∧ |x - a| ≤ 1 / 200000 ∧ |y - b| ≤ 1 / 200000 ∧
    |(curveAt c a).1 - (curveAt d b).1| + |(curveAt c a).2 - (curveAt d b).2| < 2 * θ

theorem overlap_close {lo hi lo' hi' x x' : ℝ} (h : |(lo + hi) / 2 - (lo' + hi') / 2| < ((hi - lo) + (hi' - lo')) / 2)
    (h1 : lo ≤ x) (h2 : x ≤ hi) (h3 : lo' ≤ x') (h4 : x' ≤ hi') : |x - x'| ≤ (hi - lo) + (hi' - lo') := by
  rw [abs_lt] at h
  rw [abs_le]
  constructor <;> linarith [h.1, h.2]

theorem pairIteration_close {c d : Curve ℝ} (hc : Bounded c) (hd : Bounded d) (θ : ℝ) (fuel : Nat) (s u : Section ℝ) (hs : SectionOf c s)
    (hu : SectionOf d u) (ho : curvesOverlap (finCurve s.curve) (finCurve u.curve) = true) (l : List (XNum ℝ × XNum ℝ))
    (h : pairIteration (fin θ) fuel (finSection s) (finSection u) = some l) : ∀ v ∈ l, Close c d θ v := by
  induction fuel generalizing s u l with
  | zero => cases h
  | succ fuel ih =>
    unfold pairIteration at h
    obtain ⟨tl, br, hb, ⟨hx, -, -⟩, ⟨hy, -, -⟩⟩ := hs.box hc
    obtain ⟨tl', br', hb', ⟨hx', -, -⟩, ⟨hy', -, -⟩⟩ := hu.box hd
    have e1 : boxSize (finSection s).curve = fin ((br.x - tl.x) + (br.y - tl.y)) := boxSize_fin hb
    have e2 : boxSize (finSection u).curve = fin ((br'.x - tl'.x) + (br'.y - tl'.y)) := boxSize_fin hb'
    rw [e1, e2, lt_fin, lt_fin] at h
    by_cases hsmall : (br.x - tl.x) + (br.y - tl.y) < θ ∧ (br'.x - tl'.x) + (br'.y - tl'.y) < θ
    · simp only [hsmall.1, hsmall.2, decide_true, Bool.and_self, if_true, Option.some.injEq] at h
      subst h
      intro v hv
      rw [List.mem_singleton] at hv
      subst hv
      obtain ⟨x, ex, hx1⟩ := roundMid_fin s
      obtain ⟨y, ey, hy1⟩ := roundMid_fin u
      have ms := hs.mem (u := 1 / 2) (by norm_num) (by norm_num)
      have mu := hu.mem (u := 1 / 2) (by norm_num) (by norm_num)
      have es : s.t1 + (s.t2 - s.t1) * (1 / 2) = (s.t1 + s.t2) / 2 := by ring
      have eu : u.t1 + (u.t2 - u.t1) * (1 / 2) = (u.t1 + u.t2) / 2 := by ring
      rw [es] at ms
      rw [eu] at mu
      refine ⟨(s.t1 + s.t2) / 2, (u.t1 + u.t2) / 2, x, y, by rw [ex, ey], ms.1, ms.2, mu.1, mu.2, hx1, hy1, ?_⟩
      have ho' : boxesOverlap (finPoint tl) (finPoint br) (finPoint tl') (finPoint br') = true := by
        have := ho
        simp only [curvesOverlap, hb, hb'] at this
        exact this
      rw [boxesOverlap_fin] at ho'
      have ps : curveAt c ((s.t1 + s.t2) / 2) = curveAt s.curve (1 / 2) := by rw [hs.retraces, es]
      have pu : curveAt d ((u.t1 + u.t2) / 2) = curveAt u.curve (1 / 2) := by rw [hu.retraces, eu]
      rw [ps, pu]
      have hx2 := hx (1 / 2) (by norm_num) (by norm_num)
      have hy2 := hy (1 / 2) (by norm_num) (by norm_num)
      have hx3 := hx' (1 / 2) (by norm_num) (by norm_num)
      have hy3 := hy' (1 / 2) (by norm_num) (by norm_num)
      have kx := overlap_close ho'.1 hx2.1 hx2.2 hx3.1 hx3.2
      have ky := overlap_close ho'.2 hy2.1 hy2.2 hy3.1 hy3.2
      linarith [hsmall.1, hsmall.2]
    · have hns : (decide ((br.x - tl.x) + (br.y - tl.y) < θ) && decide ((br'.x - tl'.x) + (br'.y - tl'.y) < θ)) = false := by
        rw [Bool.eq_false_iff]
        intro hh
        rw [Bool.and_eq_true, decide_eq_true_eq, decide_eq_true_eq] at hh
        exact hsmall hh
      rw [hns] at h
      simp only [Bool.false_eq_true, if_false] at h
      obtain ⟨ys, h1, h2⟩ := Option.map_eq_some_iff.1 h
      subst h2
      intro v hv
      have hv' := pairDedup_subset _ _ v hv
      rw [List.mem_flatten] at hv'
      obtain ⟨zs, hz, hvz⟩ := hv'
      obtain ⟨p, hp, he⟩ := mapM_mem _ _ _ h1 zs hz
      rw [List.mem_filter] at hp
      obtain ⟨hp, hov⟩ := hp
      rw [halfPairs_fin] at hp
      obtain ⟨⟨sl, -⟩, sr, -⟩ := hs.halves
      obtain ⟨⟨ul, -⟩, ur, -⟩ := hu.halves
      simp only [List.mem_cons, List.not_mem_nil, or_false] at hp
      rcases hp with rfl | rfl | rfl | rfl
      · exact ih _ _ sl ul hov zs he v hvz
      · exact ih _ _ sl ur hov zs he v hvz
      · exact ih _ _ sr ur hov zs he v hvz
      · exact ih _ _ sr ul hov zs he v hvz

theorem Covers.mem {c : Curve ℝ} {a b : ℝ} {l : List (Section (XNum ℝ))} (h : Covers c a b l) (ha : 0 ≤ a) (hb : b ≤ 1) :
    a ≤ b ∧ ∀ x ∈ l, ∃ s, x = finSection s ∧ SectionOf c s := by
  induction h with
  | nil a => exact ⟨le_rfl, by simp⟩
  | cons s b l h1 h2 h3 ih =>
    obtain ⟨h4, h5⟩ := ih (ha.trans h1.le) hb
    refine ⟨h1.le.trans h4, fun x hx => ?_⟩
    rcases List.mem_cons.1 hx with rfl | hx
    · exact ⟨s, rfl, ha, h1, h4.trans hb, h2⟩
    · exact h5 x hx

theorem reduce_mem (c : Curve ℝ) : ∀ x ∈ reduce (finCurve c), ∃ s, x = finSection s ∧ SectionOf c s := by
  rcases reduce_covers c with h | h
  · rw [h]; simp
  · exact (h.mem le_rfl le_rfl).2

theorem sectionsIntersect_close {c d : Curve ℝ} (hc : Bounded c) (hd : Bounded d) (θ : ℝ) (fuel : Nat)
    (l1 l2 : List (Section (XNum ℝ))) (h1 : ∀ x ∈ l1, ∃ s, x = finSection s ∧ SectionOf c s)
    (h2 : ∀ x ∈ l2, ∃ s, x = finSection s ∧ SectionOf d s) (l : List (XNum ℝ × XNum ℝ))
    (h : sectionsIntersect (fin θ) fuel l1 l2 = some l) : ∀ v ∈ l, Close c d θ v := by
  unfold sectionsIntersect at h
  obtain ⟨ys, e1, e2⟩ := Option.map_eq_some_iff.1 h
  subst e2
  intro v hv
  rw [List.mem_flatten] at hv
  obtain ⟨zs, hz, hvz⟩ := hv
  obtain ⟨p, hp, he⟩ := mapM_mem _ _ _ e1 zs hz
  rw [List.mem_filter] at hp
  obtain ⟨hp, hov⟩ := hp
  rw [List.mem_flatMap] at hp
  obtain ⟨x, hx, hp⟩ := hp
  rw [List.mem_map] at hp
  obtain ⟨y, hy, rfl⟩ := hp
  obtain ⟨s, rfl, hs⟩ := h1 x hx
  obtain ⟨u, rfl, hu⟩ := h2 y hy
  exact pairIteration_close hc hd θ fuel s u hs hu hov zs he v hvz

/-! ### Termination -/

/-- A bound on the speed of one coordinate. -/
noncomputable def speed (a b c d : ℝ) : ℝ := 3 * |-a + 3 * b - 3 * c + d| + 2 * |3 * a - 6 * b + 3 * c| + |-3 * a + 3 * b|

theorem bernstein_lipschitz (a b c d s t : ℝ) (s0 : 0 ≤ s) (s1 : s ≤ 1) (t0 : 0 ≤ t) (t1 : t ≤ 1) (hst : t ≤ s) :
    bernstein a b c d s - bernstein a b c d t ≤ speed a b c d * (s - t) := by
  rw [bernstein_poly, bernstein_poly]
  unfold speed
  set D := -a + 3 * b - 3 * c + d
  set A := 3 * a - 6 * b + 3 * c
  set B := -3 * a + 3 * b
  have e : D * s ^ 3 + A * s ^ 2 + B * s + a - (D * t ^ 3 + A * t ^ 2 + B * t + a) =
      (D * (s ^ 2 + s * t + t ^ 2) + A * (s + t) + B) * (s - t) := by ring
  rw [e]
  apply mul_le_mul_of_nonneg_right _ (sub_nonneg.2 hst)
  have q1 : 0 ≤ s ^ 2 + s * t + t ^ 2 := by positivity
  have q2 : s ^ 2 + s * t + t ^ 2 ≤ 3 := by nlinarith
  have k1 : D * (s ^ 2 + s * t + t ^ 2) ≤ 3 * |D| := by
    calc D * (s ^ 2 + s * t + t ^ 2) ≤ |D| * (s ^ 2 + s * t + t ^ 2) := mul_le_mul_of_nonneg_right (le_abs_self D) q1
      _ ≤ |D| * 3 := mul_le_mul_of_nonneg_left q2 (abs_nonneg D)
      _ = 3 * |D| := by ring
  have k2 : A * (s + t) ≤ 2 * |A| := by
    calc A * (s + t) ≤ |A| * (s + t) := mul_le_mul_of_nonneg_right (le_abs_self A) (by linarith)
      _ ≤ |A| * 2 := mul_le_mul_of_nonneg_left (by linarith) (abs_nonneg A)
      _ = 2 * |A| := by ring
  linarith [le_abs_self B]

theorem speed_nonneg (a b c d : ℝ) : 0 ≤ speed a b c d := by unfold speed; positivity

theorem speed_neg (a b c d : ℝ) : speed (-a) (-b) (-c) (-d) = speed a b c d := by
  unfold speed
  rw [show - -a + 3 * -b - 3 * -c + -d = -(-a + 3 * b - 3 * c + d) by ring,
    show 3 * -a - 6 * -b + 3 * -c = -(3 * a - 6 * b + 3 * c) by ring, show -3 * -a + 3 * -b = -(-3 * a + 3 * b) by ring, abs_neg, abs_neg,
    abs_neg]

theorem bernstein_lipschitz' (a b c d s t : ℝ) (s0 : 0 ≤ s) (s1 : s ≤ 1) (t0 : 0 ≤ t) (t1 : t ≤ 1) :
    bernstein a b c d s - bernstein a b c d t ≤ speed a b c d * |s - t| := by
  rcases le_total t s with h | h
  · rw [abs_of_nonneg (sub_nonneg.2 h)]
    exact bernstein_lipschitz a b c d s t s0 s1 t0 t1 h
  · rw [abs_of_nonpos (sub_nonpos.2 h)]
    have := bernstein_lipschitz (-a) (-b) (-c) (-d) t s t0 t1 s0 s1 h
    rw [speed_neg] at this
    have e : ∀ x, bernstein (-a) (-b) (-c) (-d) x = -bernstein a b c d x := by intro x; unfold bernstein; ring
    rw [e, e] at this
    linarith

/-- A bound on the speed of a curve. -/
noncomputable def curveSpeed (c : Curve ℝ) : ℝ := speed c.p0.x c.p1.x c.p2.x c.p3.x + speed c.p0.y c.p1.y c.p2.y c.p3.y

theorem SectionOf.boxSize_le {c : Curve ℝ} {s : Section ℝ} (h : SectionOf c s) (hb : Bounded c) :
    ∃ w : ℝ, boxSize (finCurve s.curve) = fin w ∧ w ≤ curveSpeed c * (s.t2 - s.t1) := by
  obtain ⟨tl, br, e, ⟨-, ⟨t1, a1, a2, a3⟩, t2, b1, b2, b3⟩, -, ⟨t3, c1, c2, c3⟩, t4, d1, d2, d3⟩ := h.box hb
  beta_reduce at a3 b3 c3 d3
  refine ⟨_, boxSize_fin e, ?_⟩
  have hw := sub_pos.2 h.lt
  rw [show _ = curveAt c _ from h.retraces t1] at a3
  rw [show _ = curveAt c _ from h.retraces t2] at b3
  rw [show _ = curveAt c _ from h.retraces t3] at c3
  rw [show _ = curveAt c _ from h.retraces t4] at d3
  have m1 := h.mem a1 a2
  have m2 := h.mem b1 b2
  have m3 := h.mem c1 c2
  have m4 := h.mem d1 d2
  have lx := bernstein_lipschitz' c.p0.x c.p1.x c.p2.x c.p3.x _ _ m2.1 m2.2 m1.1 m1.2
  have ly := bernstein_lipschitz' c.p0.y c.p1.y c.p2.y c.p3.y _ _ m4.1 m4.2 m3.1 m3.2
  have hd : ∀ {u v : ℝ}, 0 ≤ u → u ≤ 1 → 0 ≤ v → v ≤ 1 →
      |s.t1 + (s.t2 - s.t1) * u - (s.t1 + (s.t2 - s.t1) * v)| ≤ s.t2 - s.t1 := by
    intro u v u0 u1 v0 v1
    rw [abs_le]
    constructor <;> nlinarith
  have kx := mul_le_mul_of_nonneg_left (hd b1 b2 a1 a2) (speed_nonneg c.p0.x c.p1.x c.p2.x c.p3.x)
  have ky := mul_le_mul_of_nonneg_left (hd d1 d2 c1 c2) (speed_nonneg c.p0.y c.p1.y c.p2.y c.p3.y)
  simp only [curveAt] at a3 b3 c3 d3
  rw [a3, b3] at lx
  rw [c3, d3] at ly
  unfold curveSpeed
  rw [add_mul]
  linarith

theorem pairIteration_terminates {c d : Curve ℝ} (hc : Bounded c) (hd : Bounded d) (θ : ℝ) (n : Nat) (s u : Section ℝ)
    (hs : SectionOf c s) (hu : SectionOf d u) (h1 : curveSpeed c * (s.t2 - s.t1) < θ * 2 ^ n)
    (h2 : curveSpeed d * (u.t2 - u.t1) < θ * 2 ^ n) (fuel : Nat) (hf : n < fuel) :
    ∃ l, pairIteration (fin θ) fuel (finSection s) (finSection u) = some l := by
  induction n generalizing s u fuel with
  | zero =>
    obtain ⟨fuel, rfl⟩ := Nat.exists_eq_succ_of_ne_zero (by omega : fuel ≠ 0)
    obtain ⟨w1, e1, k1⟩ := hs.boxSize_le hc
    obtain ⟨w2, e2, k2⟩ := hu.boxSize_le hd
    rw [pow_zero, mul_one] at h1 h2
    unfold pairIteration
    simp only [finSection, e1, e2, lt_fin, lt_of_le_of_lt k1 h1, lt_of_le_of_lt k2 h2, decide_true, Bool.and_self, if_true]
    exact ⟨_, rfl⟩
  | succ n ih =>
    obtain ⟨fuel, rfl⟩ := Nat.exists_eq_succ_of_ne_zero (by omega : fuel ≠ 0)
    unfold pairIteration
    split
    · exact ⟨_, rfl⟩
    · obtain ⟨⟨sl, el⟩, sr, er⟩ := hs.halves
      obtain ⟨⟨ul, fl⟩, ur, fr⟩ := hu.halves
      have g1 : curveSpeed c * ((s.t2 - s.t1) / 2) < θ * 2 ^ n := by
        rw [pow_succ] at h1; linarith
      have g2 : curveSpeed d * ((u.t2 - u.t1) / 2) < θ * 2 ^ n := by
        rw [pow_succ] at h2; linarith
      obtain ⟨ys, hys⟩ := mapM_isSome (fun p : Section (XNum ℝ) × Section (XNum ℝ) => pairIteration (fin θ) fuel p.1 p.2)
        ((halfPairs (finSection s) (finSection u)).filter fun p => curvesOverlap p.1.curve p.2.curve) (by
          intro p hp
          rw [List.mem_filter, halfPairs_fin] at hp
          simp only [List.mem_cons, List.not_mem_nil, or_false] at hp
          rcases hp.1 with rfl | rfl | rfl | rfl
          · exact ih _ _ sl ul (by rw [el]; exact g1) (by rw [fl]; exact g2) fuel (by omega)
          · exact ih _ _ sl ur (by rw [el]; exact g1) (by rw [fr]; exact g2) fuel (by omega)
          · exact ih _ _ sr ur (by rw [er]; exact g1) (by rw [fr]; exact g2) fuel (by omega)
          · exact ih _ _ sr ul (by rw [er]; exact g1) (by rw [fl]; exact g2) fuel (by omega))
      simp only [hys]
      exact ⟨_, rfl⟩

theorem sectionsIntersect_terminates {c d : Curve ℝ} (hc : Bounded c) (hd : Bounded d) {θ : ℝ} (hθ : 0 < θ) :
    ∃ n : Nat, ∀ fuel, n < fuel → ∀ l1 l2 : List (Section (XNum ℝ)), (∀ x ∈ l1, ∃ s, x = finSection s ∧ SectionOf c s) →
      (∀ x ∈ l2, ∃ s, x = finSection s ∧ SectionOf d s) → ∃ l, sectionsIntersect (fin θ) fuel l1 l2 = some l := by
  obtain ⟨n, hn⟩ := pow_unbounded_of_one_lt ((curveSpeed c + curveSpeed d) / θ) (by norm_num : (1 : ℝ) < 2)
  rw [div_lt_iff₀ hθ] at hn
  have sc : 0 ≤ curveSpeed c := add_nonneg (speed_nonneg _ _ _ _) (speed_nonneg _ _ _ _)
  have sd : 0 ≤ curveSpeed d := add_nonneg (speed_nonneg _ _ _ _) (speed_nonneg _ _ _ _)
  refine ⟨n, fun fuel hf l1 l2 h1 h2 => ?_⟩
  unfold sectionsIntersect
  obtain ⟨ys, hys⟩ := mapM_isSome (fun p : Section (XNum ℝ) × Section (XNum ℝ) => pairIteration (fin θ) fuel p.1 p.2)
    ((l1.flatMap fun l => l2.map fun r => (l, r)).filter fun p => curvesOverlap p.1.curve p.2.curve) (by
      intro p hp
      rw [List.mem_filter, List.mem_flatMap] at hp
      obtain ⟨⟨x, hx, hp⟩, -⟩ := hp
      rw [List.mem_map] at hp
      obtain ⟨y, hy, rfl⟩ := hp
      obtain ⟨s, rfl, hs⟩ := h1 x hx
      obtain ⟨u, rfl, hu⟩ := h2 y hy
      have ws : s.t2 - s.t1 ≤ 1 := by linarith [hs.t0, hs.t1]
      have wu : u.t2 - u.t1 ≤ 1 := by linarith [hu.t0, hu.t1]
      refine pairIteration_terminates hc hd θ n s u hs hu ?_ ?_ fuel hf
      · nlinarith [hs.lt]
      · nlinarith [hu.lt])
  simp only [hys]
  exact ⟨_, rfl⟩

end Verif.Bezier
