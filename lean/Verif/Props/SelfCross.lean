import Verif.Props.CurveOps

/-!
# C64 Where a curve is reported to cross itself

A curve is cut into pieces; two pieces that follow each other touch at their common end without crossing, so they are not compared. What is
reported lies on two pieces with at least one whole piece between them.
-/

namespace Verif.Bezier

open Verif Verif.Spec XNum

set_option linter.unusedSectionVars false
set_option linter.unusedSimpArgs false

theorem halves_within {c : Curve ℝ} {s : Section ℝ} (h : SectionOf c s) :
    (s.t1 ≤ (splitAt s (1 / 2)).1.t1 ∧ (splitAt s (1 / 2)).1.t2 ≤ s.t2) ∧
      s.t1 ≤ (splitAt s (1 / 2)).2.t1 ∧ (splitAt s (1 / 2)).2.t2 ≤ s.t2 := by
  have l1 : (splitAt s (1 / 2)).1.t1 = s.t1 := by simp [splitAt, mapRange_field, Arith.zero, Arith.one]
  have l2 : (splitAt s (1 / 2)).1.t2 = s.t1 + (s.t2 - s.t1) / 2 := by simp [splitAt, mapRange_field, Arith.zero, Arith.one]; ring
  have r1 : (splitAt s (1 / 2)).2.t1 = s.t1 + (s.t2 - s.t1) / 2 := by simp [splitAt, mapRange_field, Arith.zero, Arith.one]; ring
  have r2 : (splitAt s (1 / 2)).2.t2 = s.t2 := by simp [splitAt, mapRange_field, Arith.zero, Arith.one]
  have b := h.lt
  rw [l1, l2, r1, r2]
  refine ⟨⟨le_rfl, by linarith⟩, by linarith, le_rfl⟩

/-- A reported pair between a stretch of one curve and a stretch of another. -/
def CloseIn (c d : Curve ℝ) (θ : ℝ) (s u : Section ℝ) (v : XNum ℝ × XNum ℝ) : Prop :=
  ∃ a b x y : ℝ, v = (fin x, fin y) ∧ s.t1 ≤ a ∧ a ≤ s.t2 ∧ u.t1 ≤ b ∧ b ≤ u.t2 ∧ |x - a| ≤ 1 / 200000 ∧ |y - b| ≤ 1 / 200000 ∧
    |(curveAt c a).1 - (curveAt d b).1| + |(curveAt c a).2 - (curveAt d b).2| < 2 * θ

theorem CloseIn.mono {c d : Curve ℝ} {θ : ℝ} {s u s' u' : Section ℝ} {v : XNum ℝ × XNum ℝ} (h : CloseIn c d θ s u v)
    (h1 : s'.t1 ≤ s.t1 ∧ s.t2 ≤ s'.t2) (h2 : u'.t1 ≤ u.t1 ∧ u.t2 ≤ u'.t2) : CloseIn c d θ s' u' v := by
  obtain ⟨a, b, x, y, e, a1, a2, b1, b2, r⟩ := h
  exact ⟨a, b, x, y, e, h1.1.trans a1, a2.trans h1.2, h2.1.trans b1, b2.trans h2.2, r⟩

theorem pairIteration_closeIn {c d : Curve ℝ} (hc : Bounded c) (hd : Bounded d) (θ : ℝ) (fuel : Nat) (s u : Section ℝ)
    (hs : SectionOf c s) (hu : SectionOf d u) (ho : curvesOverlap (finCurve s.curve) (finCurve u.curve) = true)
    (l : List (XNum ℝ × XNum ℝ)) (h : pairIteration (fin θ) fuel (finSection s) (finSection u) = some l) :
    ∀ v ∈ l, CloseIn c d θ s u v := by
  induction fuel generalizing s u l with
  | zero => cases h
  | succ fuel ih =>
    have h0 := h
    unfold pairIteration at h
    obtain ⟨tl, br, hb, ⟨hx, -, -⟩, ⟨hy, -, -⟩⟩ := hs.box hc
    obtain ⟨tl', br', hb', ⟨hx', -, -⟩, ⟨hy', -, -⟩⟩ := hu.box hd
    have e1 : boxSize (finSection s).curve = fin ((br.x - tl.x) + (br.y - tl.y)) := boxSize_fin hb
    have e2 : boxSize (finSection u).curve = fin ((br'.x - tl'.x) + (br'.y - tl'.y)) := boxSize_fin hb'
    rw [e1, e2, lt_fin, lt_fin] at h
    by_cases hsmall : (br.x - tl.x) + (br.y - tl.y) < θ ∧ (br'.x - tl'.x) + (br'.y - tl'.y) < θ
    · simp only [hsmall.1, hsmall.2, decide_true, Bool.and_self, if_true, Option.some.injEq] at h
      subst h
      intro v hv
      rw [List.mem_singleton] at hv
      subst hv
      obtain ⟨x, ex, hx1⟩ := roundMid_fin s
      obtain ⟨y, ey, hy1⟩ := roundMid_fin u
      have es : s.t1 + (s.t2 - s.t1) * (1 / 2) = (s.t1 + s.t2) / 2 := by ring
      have eu : u.t1 + (u.t2 - u.t1) * (1 / 2) = (u.t1 + u.t2) / 2 := by ring
      have ls := hs.lt
      have lu := hu.lt
      refine ⟨(s.t1 + s.t2) / 2, (u.t1 + u.t2) / 2, x, y, by rw [ex, ey], by linarith, by linarith, by linarith, by linarith, hx1, hy1, ?_⟩
      have ho' : boxesOverlap (finPoint tl) (finPoint br) (finPoint tl') (finPoint br') = true := by
        have := ho
        simp only [curvesOverlap, hb, hb'] at this
        exact this
      rw [boxesOverlap_fin] at ho'
      have ps : curveAt c ((s.t1 + s.t2) / 2) = curveAt s.curve (1 / 2) := by rw [hs.retraces, es]
      have pu : curveAt d ((u.t1 + u.t2) / 2) = curveAt u.curve (1 / 2) := by rw [hu.retraces, eu]
      rw [ps, pu]
      have hx2 := hx (1 / 2) (by norm_num) (by norm_num)
      have hy2 := hy (1 / 2) (by norm_num) (by norm_num)
      have hx3 := hx' (1 / 2) (by norm_num) (by norm_num)
      have hy3 := hy' (1 / 2) (by norm_num) (by norm_num)
      have kx := overlap_close ho'.1 hx2.1 hx2.2 hx3.1 hx3.2
      have ky := overlap_close ho'.2 hy2.1 hy2.2 hy3.1 hy3.2
      linarith [hsmall.1, hsmall.2]
    · have hns : (decide ((br.x - tl.x) + (br.y - tl.y) < θ) && decide ((br'.x - tl'.x) + (br'.y - tl'.y) < θ)) = false := by
        rw [Bool.eq_false_iff]
        intro hh
        rw [Bool.and_eq_true, decide_eq_true_eq, decide_eq_true_eq] at hh
        exact hsmall hh
      rw [hns] at h
      simp only [Bool.false_eq_true, if_false] at h
      obtain ⟨ys, h1, h2⟩ := Option.map_eq_some_iff.1 h
      subst h2
      intro v hv
      have hv' := pairDedup_subset _ _ v hv
      rw [List.mem_flatten] at hv'
      obtain ⟨zs, hz, hvz⟩ := hv'
      obtain ⟨p, hp, he⟩ := mapM_mem _ _ _ h1 zs hz
      rw [List.mem_filter] at hp
      obtain ⟨hp, hov⟩ := hp
      rw [halfPairs_fin] at hp
      obtain ⟨⟨sl, -⟩, sr, -⟩ := hs.halves
      obtain ⟨⟨ul, -⟩, ur, -⟩ := hu.halves
      obtain ⟨sw, sw'⟩ := halves_within hs
      obtain ⟨uw, uw'⟩ := halves_within hu
      simp only [List.mem_cons, List.not_mem_nil, or_false] at hp
      rcases hp with rfl | rfl | rfl | rfl
      · exact (ih _ _ sl ul hov zs he v hvz).mono sw uw
      · exact (ih _ _ sl ur hov zs he v hvz).mono sw uw'
      · exact (ih _ _ sr ur hov zs he v hvz).mono sw' uw'
      · exact (ih _ _ sr ul hov zs he v hvz).mono sw' uw

/-- Dropping pieces of a cover leaves a cover of the rest. -/
theorem Covers.drop {c : Curve ℝ} {a b : ℝ} {l : List (Section (XNum ℝ))} (h : Covers c a b l) (n : Nat) :
    ∃ a', a ≤ a' ∧ Covers c a' b (l.drop n) := by
  induction h generalizing n with
  | nil a => exact ⟨a, le_rfl, by simpa using .nil a⟩
  | cons s b l h1 h2 h3 ih =>
    cases n with
    | zero => exact ⟨s.t1, le_rfl, .cons s b l h1 h2 h3⟩
    | succ n =>
      obtain ⟨a', g1, g2⟩ := ih n
      exact ⟨a', h1.le.trans g1, g2⟩

theorem Covers.from {c : Curve ℝ} {a b : ℝ} {l : List (Section (XNum ℝ))} (h : Covers c a b l) :
    ∀ u : Section ℝ, finSection u ∈ l → a ≤ u.t1 := by
  induction h with
  | nil a => simp
  | cons s b l h1 h2 h3 ih =>
    intro u hu
    rcases List.mem_cons.1 hu with e | hu
    · have : u.t1 = s.t1 := by
        have := congrArg Section.t1 e
        simpa [finSection] using this
      rw [this]
    · exact h1.le.trans (ih u hu)

theorem Covers.uncons {c : Curve ℝ} {a b : ℝ} {x : Section (XNum ℝ)} {l : List (Section (XNum ℝ))} (h : Covers c a b (x :: l)) :
    ∃ s : Section ℝ, x = finSection s ∧ a = s.t1 ∧ s.t1 < s.t2 ∧ Retraces s.curve c s.t1 s.t2 ∧ Covers c s.t2 b l := by
  generalize hx : x :: l = xs at h
  cases h with
  | nil => cases hx
  | cons s b l h1 h2 h3 =>
    injection hx with e1 e2
    subst e2
    exact ⟨s, e1, rfl, h1, h2, h3⟩

/-- **C64.** A pair reported as a crossing of the curve with itself is close to two parameters with a whole piece of the curve between
them: touching ends of neighbouring pieces are never reported. -/
theorem C64_self_apart (c : Curve ℝ) (hc : Bounded c) (θ : ℝ) (fuel : Nat) (v : XNum ℝ × XNum ℝ)
    (h : intersectsSelf (fin θ) fuel (finCurve c) = some (some v)) :
    ∃ (a b x y : ℝ) (m : Section ℝ), v = (fin x, fin y) ∧ finSection m ∈ reduce (finCurve c) ∧ 0 ≤ a ∧ a ≤ m.t1 ∧ m.t1 < m.t2 ∧
      m.t2 ≤ b ∧ b ≤ 1 ∧ |x - a| ≤ 1 / 200000 ∧ |y - b| ≤ 1 / 200000 ∧
      |(curveAt c a).1 - (curveAt c b).1| + |(curveAt c a).2 - (curveAt c b).2| < 2 * θ := by
  unfold intersectsSelf at h
  obtain ⟨ys, e1, e2⟩ := Option.map_eq_some_iff.1 h
  have hv := List.mem_of_head? e2
  rw [List.mem_flatten] at hv
  obtain ⟨zs, hz, hvz⟩ := hv
  obtain ⟨i, hi, he⟩ := mapM_mem _ _ _ e1 zs hz
  rw [List.mem_range] at hi
  have cov : Covers c 0 1 (reduce (finCurve c)) := by
    rcases reduce_covers c with h | h
    · rw [h] at hi; simp at hi
    · exact h
  have hmem := reduce_mem c
  generalize hr : reduce (finCurve c) = r at *
  obtain ⟨a0, ha0, c0⟩ := cov.drop i
  -- the first three pieces of the rest
  match hd : r.drop i with
  | [] => have := congrArg List.length hd; simp at this; omega
  | [_] => have := congrArg List.length hd; simp at this; omega
  | s' :: m' :: rest =>
    have d2 : r.drop (i + 2) = rest := by
      rw [← List.drop_drop, hd]; rfl
    rw [hd] at c0 he
    rw [d2] at he
    obtain ⟨s, rfl, rfl, h1, h2, h3⟩ := c0.uncons
    obtain ⟨m, rfl, em, h4, h5, h6⟩ := h3.uncons
    have mm : ∀ x ∈ finSection s :: finSection m :: rest, x ∈ r := fun x hx => List.mem_of_mem_drop (by rw [hd]; exact hx)
    have hb2 := (Covers.mem h6 (by linarith) le_rfl)
    unfold sectionsIntersect at he
    obtain ⟨ws, f1, f2⟩ := Option.map_eq_some_iff.1 he
    subst f2
    rw [List.mem_flatten] at hvz
    obtain ⟨us, hus, hvu⟩ := hvz
    obtain ⟨p, hp, hpe⟩ := mapM_mem _ _ _ f1 us hus
    rw [List.mem_filter] at hp
    obtain ⟨hp, hov⟩ := hp
    simp only [List.take_succ_cons, List.take_zero, List.flatMap_cons, List.flatMap_nil, List.append_nil, List.mem_map] at hp
    obtain ⟨y, hy, rfl⟩ := hp
    obtain ⟨u, rfl, hu⟩ := hb2.2 y hy
    have hs : SectionOf c s := ⟨ha0, h1, by linarith [hb2.1], h2⟩
    obtain ⟨a, b, x, y, e, q1, q2, q3, q4, q5, q6, q7⟩ := pairIteration_closeIn hc hc θ fuel s u hs hu hov us hpe v hvu
    have := h6.from u hy
    exact ⟨a, b, x, y, m, e, mm _ (by simp), ha0.trans q1, em ▸ q2, h4, this.trans q3, q4.trans hu.t1, q5, q6, q7⟩

end Verif.Bezier
