import Verif.Lemmas.BezierPairs
import Mathlib.Analysis.Calculus.Deriv.Comp

/-!
# Which crossings of two curves are found
-/

namespace Verif.Bezier

open Verif Verif.Spec XNum

universe u

theorem mapM_mem_of {α : Type u} {β : Type u} (f : α → Option β) (l : List α) (ys : List β) (h : l.mapM f = some ys) :
    ∀ x ∈ l, ∃ y ∈ ys, f x = some y := by
  induction l generalizing ys with
  | nil => simp
  | cons x l ih =>
    rw [List.mapM_cons] at h
    cases hx : f x with
    | none => rw [hx] at h; cases h
    | some z =>
      cases hl : l.mapM f with
      | none => rw [hx, hl] at h; cases h
      | some zs =>
        rw [hx, hl] at h
        cases h
        intro y hy
        rcases List.mem_cons.1 hy with rfl | hy
        · exact ⟨z, by simp, hx⟩
        · obtain ⟨w, hw, e⟩ := ih zs hl y hy
          exact ⟨w, by simp [hw], e⟩

theorem pairDedup_keeps {F : Type u} [Trig F] (l : List (F × F)) (seen : List Text) (v : F × F) (h : v ∈ l) :
    pairKey v ∈ seen ∨ ∃ w ∈ pairDedup l seen, pairKey w = pairKey v := by
  induction l generalizing seen with
  | nil => cases h
  | cons x l ih =>
    unfold pairDedup
    rcases List.mem_cons.1 h with rfl | h
    · by_cases hs : pairKey v ∈ seen
      · exact .inl hs
      · exact .inr ⟨v, by simp [hs], rfl⟩
    · split
      · exact ih seen h
      · rcases ih (pairKey x :: seen) h with h1 | ⟨w, h1, h2⟩
        · rcases List.mem_cons.1 h1 with h1 | h1
          · exact .inr ⟨x, by simp, h1.symm⟩
          · exact .inl h1
        · exact .inr ⟨w, by simp [h1], h2⟩

/-- The parameter `a` is not reached by halving the interval from `t1` to `t2`. -/
def NotHalving (t1 t2 a : ℝ) : Prop := ∀ n k : Nat, a ≠ t1 + (t2 - t1) * (k / 2 ^ n)

theorem NotHalving.left {t1 t2 a : ℝ} (h : NotHalving t1 t2 a) : NotHalving t1 (t1 + (t2 - t1) / 2) a := by
  intro n k hk
  apply h (n + 1) k
  rw [hk, pow_succ]
  ring

theorem NotHalving.right {t1 t2 a : ℝ} (h : NotHalving t1 t2 a) : NotHalving (t1 + (t2 - t1) / 2) t2 a := by
  intro n k hk
  apply h (n + 1) (2 ^ n + k)
  rw [hk, pow_succ]
  push_cast
  field_simp
  ring

theorem NotHalving.ne {t1 t2 a : ℝ} (h : NotHalving t1 t2 a) : a ≠ t1 ∧ a ≠ t2 ∧ a ≠ t1 + (t2 - t1) / 2 := by
  refine ⟨?_, ?_, ?_⟩
  · simpa using h 0 0
  · have := h 0 1
    norm_num at this
    exact this
  · have := h 1 1
    norm_num at this
    intro e; apply this; rw [e]; ring

/-- Inside a section, a coordinate that is neither stationary nor at an end is strictly inside the box. -/
theorem strictly_inside {f : ℝ → ℝ} {f' u lo hi : ℝ} (hr : ∀ t, 0 ≤ t → t ≤ 1 → lo ≤ f t ∧ f t ≤ hi) (hd : HasDerivAt f f' u)
    (hf : f' ≠ 0) (h0 : 0 < u) (h1 : u < 1) : lo < f u ∧ f u < hi := by
  have hn : Set.Icc (0 : ℝ) 1 ∈ nhds u := Icc_mem_nhds h0 h1
  obtain ⟨a, b⟩ := hr u h0.le h1.le
  constructor
  · refine lt_of_le_of_ne a fun e => hf ?_
    refine IsLocalMin.hasDerivAt_eq_zero (f := f) ?_ hd
    filter_upwards [hn] with t ht
    rw [← e]
    exact (hr t ht.1 ht.2).1
  · refine lt_of_le_of_ne b fun e => hf ?_
    refine IsLocalMax.hasDerivAt_eq_zero (f := f) ?_ hd
    filter_upwards [hn] with t ht
    rw [e]
    exact (hr t ht.1 ht.2).2

/-- The speed of one coordinate. -/
def bernstein' (a b c d t : ℝ) : ℝ := (1 - t) ^ 2 * (3 * (b - a)) + 2 * (1 - t) * t * (3 * (c - b)) + t ^ 2 * (3 * (d - c))

/-- A curve moving in both directions at `a`. -/
def Moving (c : Curve ℝ) (a : ℝ) : Prop :=
  bernstein' c.p0.x c.p1.x c.p2.x c.p3.x a ≠ 0 ∧ bernstein' c.p0.y c.p1.y c.p2.y c.p3.y a ≠ 0

/-- Two sections that share a point overlap, if the point is inside the first and the curve is moving there. -/
theorem overlap_of_crossing {c d : Curve ℝ} (hc : Bounded c) (hd : Bounded d) {s u : Section ℝ} (hs : SectionOf c s) (hu : SectionOf d u)
    {a b : ℝ} (ha : s.t1 < a) (ha' : a < s.t2) (hb : u.t1 ≤ b) (hb' : b ≤ u.t2) (hm : Moving c a) (he : curveAt c a = curveAt d b) :
    curvesOverlap (finCurve s.curve) (finCurve u.curve) = true := by
  obtain ⟨tl, br, e1, ⟨hx, -, -⟩, ⟨hy, -, -⟩⟩ := hs.box hc
  obtain ⟨tl', br', e2, ⟨hx', -, -⟩, ⟨hy', -, -⟩⟩ := hu.box hd
  have ws := sub_pos.2 hs.lt
  have wu := sub_pos.2 hu.lt
  set r := (a - s.t1) / (s.t2 - s.t1) with hr
  have r0 : 0 < r := div_pos (sub_pos.2 ha) ws
  have r1 : r < 1 := by rw [hr, div_lt_one ws]; linarith
  have er : s.t1 + (s.t2 - s.t1) * r = a := by rw [hr]; field_simp; ring
  set q := (b - u.t1) / (u.t2 - u.t1) with hq
  have q0 : 0 ≤ q := div_nonneg (sub_nonneg.2 hb) wu.le
  have q1 : q ≤ 1 := by rw [hq, div_le_one wu]; linarith
  have eq : u.t1 + (u.t2 - u.t1) * q = b := by rw [hq]; field_simp; ring
  have hlin : HasDerivAt (fun t : ℝ => s.t1 + (s.t2 - s.t1) * t) (s.t2 - s.t1) r := by
    simpa using ((hasDerivAt_id r).const_mul (s.t2 - s.t1)).const_add s.t1
  have key : ∀ p0 p1 p2 p3 : ℝ, bernstein' p0 p1 p2 p3 a ≠ 0 →
      HasDerivAt (fun t : ℝ => bernstein p0 p1 p2 p3 (s.t1 + (s.t2 - s.t1) * t)) (bernstein' p0 p1 p2 p3 a * (s.t2 - s.t1)) r ∧
        bernstein' p0 p1 p2 p3 a * (s.t2 - s.t1) ≠ 0 := by
    intro p0 p1 p2 p3 hne
    refine ⟨?_, mul_ne_zero hne ws.ne'⟩
    have h1 := hasDerivAt_bernstein p0 p1 p2 p3 (s.t1 + (s.t2 - s.t1) * r)
    have := HasDerivAt.comp r h1 hlin
    rw [er] at this
    exact this
  obtain ⟨kx, kx0⟩ := key _ _ _ _ hm.1
  obtain ⟨ky, ky0⟩ := key _ _ _ _ hm.2
  have fx : (fun t => (curveAt s.curve t).1) = fun t : ℝ => bernstein c.p0.x c.p1.x c.p2.x c.p3.x (s.t1 + (s.t2 - s.t1) * t) := by
    funext t; rw [hs.retraces]; rfl
  have fy : (fun t => (curveAt s.curve t).2) = fun t : ℝ => bernstein c.p0.y c.p1.y c.p2.y c.p3.y (s.t1 + (s.t2 - s.t1) * t) := by
    funext t; rw [hs.retraces]; rfl
  rw [fx] at hx
  rw [fy] at hy
  have ix := strictly_inside hx kx kx0 r0 r1
  have iy := strictly_inside hy ky ky0 r0 r1
  have jx := hx' q q0 q1
  have jy := hy' q q0 q1
  beta_reduce at jx jy ix iy
  rw [er] at ix iy
  rw [hu.retraces, eq, ← he] at jx jy
  simp only [curveAt] at jx jy
  simp only [curvesOverlap, e1, e2]
  rw [boxesOverlap_fin, abs_lt, abs_lt]
  refine ⟨⟨?_, ?_⟩, ?_, ?_⟩ <;> linarith [ix.1, ix.2, iy.1, iy.2, jx.1, jx.2, jy.1, jy.2]

/-- The report of a crossing: there are two small sections around it, and what is reported prints like their middles. -/
def Reported (c d : Curve ℝ) (θ a b : ℝ) (l : List (XNum ℝ × XNum ℝ)) : Prop :=
  ∃ (s u : Section ℝ) (v : XNum ℝ × XNum ℝ), SectionOf c s ∧ SectionOf d u ∧ s.t1 ≤ a ∧ a ≤ s.t2 ∧ u.t1 ≤ b ∧ b ≤ u.t2 ∧
    (boxSize (finCurve s.curve) <. fin θ) = true ∧ (boxSize (finCurve u.curve) <. fin θ) = true ∧ v ∈ l ∧
    pairKey v = pairKey (roundMid (finSection s), roundMid (finSection u))

theorem pairIteration_reports {c d : Curve ℝ} (hc : Bounded c) (hd : Bounded d) (θ : ℝ) (fuel : Nat) (s u : Section ℝ) (hs : SectionOf c s)
    (hu : SectionOf d u) {a b : ℝ} (ha : s.t1 < a) (ha' : a < s.t2) (hb : u.t1 ≤ b) (hb' : b ≤ u.t2) (hm : Moving c a)
    (hn : NotHalving s.t1 s.t2 a) (he : curveAt c a = curveAt d b) (l : List (XNum ℝ × XNum ℝ))
    (h : pairIteration (fin θ) fuel (finSection s) (finSection u) = some l) : Reported c d θ a b l := by
  induction fuel generalizing s u l with
  | zero => cases h
  | succ fuel ih =>
    unfold pairIteration at h
    split at h
    · next hsm =>
      rw [Bool.and_eq_true] at hsm
      cases h
      exact ⟨s, u, _, hs, hu, ha.le, ha'.le, hb, hb', hsm.1, hsm.2, by simp, rfl⟩
    · obtain ⟨ys, h1, h2⟩ := Option.map_eq_some_iff.1 h
      subst h2
      obtain ⟨⟨sl, -⟩, sr, -⟩ := hs.halves
      obtain ⟨⟨ul, -⟩, ur, -⟩ := hu.halves
      have l1 : (splitAt s (1 / 2)).1.t1 = s.t1 := by simp [splitAt, mapRange_field, Arith.zero, Arith.one]
      have l2 : (splitAt s (1 / 2)).1.t2 = s.t1 + (s.t2 - s.t1) / 2 := by simp [splitAt, mapRange_field, Arith.zero, Arith.one]; ring
      have r1 : (splitAt s (1 / 2)).2.t1 = s.t1 + (s.t2 - s.t1) / 2 := by simp [splitAt, mapRange_field, Arith.zero, Arith.one]; ring
      have r2 : (splitAt s (1 / 2)).2.t2 = s.t2 := by simp [splitAt, mapRange_field, Arith.zero, Arith.one]
      have l1' : (splitAt u (1 / 2)).1.t1 = u.t1 := by simp [splitAt, mapRange_field, Arith.zero, Arith.one]
      have l2' : (splitAt u (1 / 2)).1.t2 = u.t1 + (u.t2 - u.t1) / 2 := by simp [splitAt, mapRange_field, Arith.zero, Arith.one]; ring
      have r1' : (splitAt u (1 / 2)).2.t1 = u.t1 + (u.t2 - u.t1) / 2 := by simp [splitAt, mapRange_field, Arith.zero, Arith.one]; ring
      have r2' : (splitAt u (1 / 2)).2.t2 = u.t2 := by simp [splitAt, mapRange_field, Arith.zero, Arith.one]
      have step : ∀ p : Section ℝ × Section ℝ, (finSection p.1, finSection p.2) ∈ halfPairs (finSection s) (finSection u) →
          SectionOf c p.1 → SectionOf d p.2 → p.1.t1 < a → a < p.1.t2 → p.2.t1 ≤ b → b ≤ p.2.t2 → NotHalving p.1.t1 p.1.t2 a →
          Reported c d θ a b (pairDedup ys.flatten []) := by
        intro p hp q1 q2 q3 q4 q5 q6 q7
        have hov := overlap_of_crossing hc hd q1 q2 q3 q4 q5 q6 hm he
        obtain ⟨zs, hz, hz'⟩ := mapM_mem_of _ _ _ h1 (finSection p.1, finSection p.2) (List.mem_filter.2 ⟨hp, hov⟩)
        obtain ⟨s', u', v, k1, k2, k3, k4, k5, k6, k7, k8, k9, k10⟩ := ih p.1 p.2 q1 q2 q3 q4 q5 q6 q7 zs hz'
        rcases pairDedup_keeps ys.flatten [] v (List.mem_flatten.2 ⟨zs, hz, k9⟩) with h | ⟨w, hw, e⟩
        · cases h
        · exact ⟨s', u', w, k1, k2, k3, k4, k5, k6, k7, k8, hw, e.trans k10⟩
      rw [halfPairs_fin] at step
      obtain ⟨-, -, nm⟩ := hn.ne
      rcases lt_or_gt_of_ne nm with hlt | hgt
      · rcases le_total b (u.t1 + (u.t2 - u.t1) / 2) with hle | hge
        · exact step ((splitAt s (1 / 2)).1, (splitAt u (1 / 2)).1) (by simp) sl ul (by rw [l1]; exact ha) (by rw [l2]; exact hlt)
            (by rw [l1']; exact hb) (by rw [l2']; exact hle) (by rw [l1, l2]; exact hn.left)
        · exact step ((splitAt s (1 / 2)).1, (splitAt u (1 / 2)).2) (by simp) sl ur (by rw [l1]; exact ha) (by rw [l2]; exact hlt)
            (by rw [r1']; exact hge) (by rw [r2']; exact hb') (by rw [l1, l2]; exact hn.left)
      · rcases le_total b (u.t1 + (u.t2 - u.t1) / 2) with hle | hge
        · exact step ((splitAt s (1 / 2)).2, (splitAt u (1 / 2)).1) (by simp) sr ul (by rw [r1]; exact hgt) (by rw [r2]; exact ha')
            (by rw [l1']; exact hb) (by rw [l2']; exact hle) (by rw [r1, r2]; exact hn.right)
        · exact step ((splitAt s (1 / 2)).2, (splitAt u (1 / 2)).2) (by simp) sr ur (by rw [r1]; exact hgt) (by rw [r2]; exact ha')
            (by rw [r1']; exact hge) (by rw [r2']; exact hb') (by rw [r1, r2]; exact hn.right)

theorem Covers.nil_eq {c : Curve ℝ} {a b : ℝ} {l : List (Section (XNum ℝ))} (h : Covers c a b l) (hl : l = []) : a = b := by
  cases h with
  | nil => rfl
  | cons => cases hl

theorem Covers.finds {c : Curve ℝ} {a b : ℝ} {l : List (Section (XNum ℝ))} (h : Covers c a b l) (h0 : 0 ≤ a) (h1 : b ≤ 1) {t : ℝ}
    (ha : a ≤ t) (hb : t ≤ b) (hne : l ≠ []) : ∃ s, finSection s ∈ l ∧ SectionOf c s ∧ s.t1 ≤ t ∧ t ≤ s.t2 := by
  induction h with
  | nil a => exact absurd rfl hne
  | cons s b l k1 k2 k3 ih =>
    have hb1 := (k3.mem (h0.trans k1.le) h1).1
    have hs : SectionOf c s := ⟨h0, k1, hb1.trans h1, k2⟩
    rcases le_total t s.t2 with h | h
    · exact ⟨s, by simp, hs, ha, h⟩
    · cases l with
      | nil =>
        exact ⟨s, by simp, hs, ha, hb.trans_eq (k3.nil_eq rfl).symm⟩
      | cons x l =>
        obtain ⟨q, q1, q2, q3, q4⟩ := ih (h0.trans k1.le) h1 h hb (by simp)
        exact ⟨q, by simp [q1], q2, q3, q4⟩

theorem intersectsCurve_reports {c d : Curve ℝ} (hc : Bounded c) (hd : Bounded d) (θ : ℝ) (fuel : Nat) {a b : ℝ} (a0 : 0 ≤ a) (a1 : a ≤ 1)
    (b0 : 0 ≤ b) (b1 : b ≤ 1) (hm : Moving c a) (he : curveAt c a = curveAt d b) (rc : reduce (finCurve c) ≠ [])
    (rd : reduce (finCurve d) ≠ []) (hn : ∀ s, finSection s ∈ reduce (finCurve c) → NotHalving s.t1 s.t2 a)
    (l : List (XNum ℝ × XNum ℝ)) (h : intersectsCurve (fin θ) fuel (finCurve c) (finCurve d) = some l) : Reported c d θ a b l := by
  obtain ⟨s, s1, s2, s3, s4⟩ := ((reduce_covers c).resolve_left rc).finds le_rfl le_rfl a0 a1 rc
  obtain ⟨u, u1, u2, u3, u4⟩ := ((reduce_covers d).resolve_left rd).finds le_rfl le_rfl b0 b1 rd
  obtain ⟨n1, n2, -⟩ := (hn s s1).ne
  have s3' := lt_of_le_of_ne s3 (Ne.symm n1)
  have s4' := lt_of_le_of_ne s4 n2
  unfold intersectsCurve sectionsIntersect at h
  obtain ⟨ys, h1, h2⟩ := Option.map_eq_some_iff.1 h
  subst h2
  have hov := overlap_of_crossing hc hd s2 u2 s3' s4' u3 u4 hm he
  obtain ⟨zs, hz, hz'⟩ := mapM_mem_of _ _ _ h1 (finSection s, finSection u) (List.mem_filter.2
    ⟨List.mem_flatMap.2 ⟨finSection s, s1, List.mem_map.2 ⟨finSection u, u1, rfl⟩⟩, hov⟩)
  obtain ⟨s', u', v, k1, k2, k3, k4, k5, k6, k7, k8, k9, k10⟩ :=
    pairIteration_reports hc hd θ fuel s u s2 u2 s3' s4' u3 u4 hm (hn s s1) he zs hz'
  exact ⟨s', u', v, k1, k2, k3, k4, k5, k6, k7, k8, List.mem_flatten.2 ⟨zs, hz, k9⟩, k10⟩

end Verif.Bezier
