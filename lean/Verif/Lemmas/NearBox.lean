import Verif.Spec.NearBox
import Verif.Lemmas.NearPath
import Verif.Lemmas.PathBox
import Verif.Props.NearPath

/-!
# Lemmas: boxes of drawings with doubles

Comparisons are exact, so the box of straight strokes is.
-/

namespace Verif.Path

open Verif Verif.Spec Verif.Double

theorem lt_finite {a b : Double} (ha : a.Finite) (hb : b.Finite) : (a <. b) = true ↔ a.val < b.val := by
  rw [ha.eq.1, hb.eq.1]
  show decide _ = true ↔ _
  exact decide_eq_true_iff

theorem newPoint_upTo {B : ℚ} {x y : Double} (h : PtUpTo B (x, y)) : PtUpTo B (pt (newPoint x y)) ∧ valPt (pt (newPoint x y)) = (x.val, y.val) := by
  obtain ⟨n1, n2⟩ := newPoint_near (Near.self h.1 h.2.2.1) (Near.self h.2.1 h.2.2.2)
  have e1 := abs_nonpos_iff.1 n1.err
  have e2 := abs_nonpos_iff.1 n2.err
  exact ⟨⟨n1.fin, n2.fin, n1.mag, n2.mag⟩, Prod.ext (sub_eq_zero.1 e1) (sub_eq_zero.1 e2)⟩

/-- A double with the smaller of two values. -/
theorem min_upTo {B : ℚ} {a b : Double} (ha : a.Finite) (hb : b.Finite) (hA : |a.val| ≤ B) (hB : |b.val| ≤ B) :
    (if b <. a then b else a).Finite ∧ |(if b <. a then b else a).val| ≤ B ∧ (if b <. a then b else a).val = min a.val b.val := by
  by_cases h : (b <. a) = true
  · rw [if_pos h]
    exact ⟨hb, hB, (min_eq_right ((lt_finite hb ha).1 h).le).symm⟩
  · rw [if_neg h]
    exact ⟨ha, hA, (min_eq_left (not_lt.1 (fun h' => h ((lt_finite hb ha).2 h')))).symm⟩

/-- A double with the larger of two values. -/
theorem max_upTo {B : ℚ} {a b : Double} (ha : a.Finite) (hb : b.Finite) (hA : |a.val| ≤ B) (hB : |b.val| ≤ B) :
    (if a <. b then b else a).Finite ∧ |(if a <. b then b else a).val| ≤ B ∧ (if a <. b then b else a).val = max a.val b.val := by
  by_cases h : (a <. b) = true
  · rw [if_pos h]
    exact ⟨hb, hB, (max_eq_right ((lt_finite ha hb).1 h).le).symm⟩
  · rw [if_neg h]
    exact ⟨ha, hA, (max_eq_left (not_lt.1 (fun h' => h ((lt_finite ha hb).2 h')))).symm⟩

theorem sorted_upTo {B : ℚ} {a b : Double} (ha : a.Finite) (hb : b.Finite) (hA : |a.val| ≤ B) (hB : |b.val| ≤ B) :
    ∃ u v : Double, (if b <. a then (b, a) else (a, b)) = (u, v) ∧ u.Finite ∧ |u.val| ≤ B ∧ u.val = min a.val b.val ∧ v.Finite ∧ |v.val| ≤ B ∧
      v.val = max a.val b.val := by
  by_cases h : (b <. a) = true
  · have h' := ((lt_finite hb ha).1 h).le
    exact ⟨b, a, if_pos h, hb, hB, (min_eq_right h').symm, ha, hA, (max_eq_left h').symm⟩
  · have h' := not_lt.1 (fun h' => h ((lt_finite hb ha).2 h'))
    exact ⟨a, b, if_neg h, ha, hA, (min_eq_left h').symm, hb, hB, (max_eq_right h').symm⟩

section Boxes

variable [MathLib]

/-- A box of doubles with the given values. -/
def BoxUpTo (B : ℚ) (b : Point Double × Point Double) (tl br : Pt ℚ) : Prop :=
  PtUpTo B (pt b.1) ∧ PtUpTo B (pt b.2) ∧ valPt (pt b.1) = tl ∧ valPt (pt b.2) = br

theorem lineBox_upTo {B : ℚ} {a b : Point Double} (ha : PtUpTo B (pt a)) (hb : PtUpTo B (pt b)) :
    BoxUpTo B (segBox (.line a b)) (min a.x.val b.x.val, min a.y.val b.y.val) (max a.x.val b.x.val, max a.y.val b.y.val) := by
  obtain ⟨u, v, e, u1, u2, u3, v1, v2, v3⟩ := sorted_upTo ha.1 hb.1 ha.2.2.1 hb.2.2.1
  obtain ⟨u', v', e', u1', u2', u3', v1', v2', v3'⟩ := sorted_upTo ha.2.1 hb.2.1 ha.2.2.2 hb.2.2.2
  have hs : segBox (.line a b) = (newPoint u u', newPoint v v') := by
    show (newPoint (if b.x <. a.x then (b.x, a.x) else (a.x, b.x)).1 (if b.y <. a.y then (b.y, a.y) else (a.y, b.y)).1,
      newPoint (if b.x <. a.x then (b.x, a.x) else (a.x, b.x)).2 (if b.y <. a.y then (b.y, a.y) else (a.y, b.y)).2) = _
    have e1 : (if b.x <. a.x then (b.x, a.x) else (a.x, b.x)) = (u, v) := e
    have e2 : (if b.y <. a.y then (b.y, a.y) else (a.y, b.y)) = (u', v') := e'
    rw [e1, e2]
  rw [hs]
  obtain ⟨h1, h2⟩ := newPoint_upTo (B := B) (x := u) (y := u') ⟨u1, u1', u2, u2'⟩
  obtain ⟨h3, h4⟩ := newPoint_upTo (B := B) (x := v) (y := v') ⟨v1, v1', v2, v2'⟩
  refine ⟨h1, h3, ?_, ?_⟩
  · rw [h2]
    exact Prod.ext u3 u3'
  · rw [h4]
    exact Prod.ext v3 v3'

theorem growBox_upTo {B : ℚ} {b c : Point Double × Point Double} {tl br tl' br' : Pt ℚ} (hb : BoxUpTo B b tl br) (hc : BoxUpTo B c tl' br') :
    BoxUpTo B (growBox b c) (min tl.1 tl'.1, min tl.2 tl'.2) (max br.1 br'.1, max br.2 br'.2) := by
  obtain ⟨b1, b2, rfl, rfl⟩ := hb
  obtain ⟨c1, c2, rfl, rfl⟩ := hc
  obtain ⟨f1, m1, v1⟩ := min_upTo b1.1 c1.1 b1.2.2.1 c1.2.2.1
  obtain ⟨f2, m2, v2⟩ := min_upTo b1.2.1 c1.2.1 b1.2.2.2 c1.2.2.2
  obtain ⟨f3, m3, v3⟩ := max_upTo b2.1 c2.1 b2.2.2.1 c2.2.2.1
  obtain ⟨f4, m4, v4⟩ := max_upTo b2.2.1 c2.2.1 b2.2.2.2 c2.2.2.2
  exact ⟨⟨f1, f2, m1, m2⟩, ⟨f3, f4, m3, m4⟩, Prod.ext v1 v2, Prod.ext v3 v4⟩

omit [MathLib] in
theorem valPath_cons (s : Segment Double) (p : Path Double) : ∃ s', valPath (s :: p) = s' :: valPath p ∧ strokeOf s' = (strokeOf s).map (Stroke.map valPt) := by
  cases s
  · exact ⟨_, rfl, rfl⟩
  · exact ⟨_, rfl, rfl⟩
  · exact ⟨_, rfl, rfl⟩

omit [MathLib] in
theorem strokes_valPath (p : Path Double) : strokes (valPath p) = (strokes p).map (Stroke.map valPt) := by
  induction p with
  | nil => rfl
  | cons s p ih =>
    obtain ⟨s', h1, h2⟩ := valPath_cons s p
    rw [h1, strokes_cons, strokes_cons, ih, h2]
    cases strokeOf s <;> simp

omit [MathLib] in
theorem straight_cons {B : ℚ} {s : Segment Double} {p : Path Double} (h : StraightUpTo B (s :: p)) : StraightUpTo B p := by
  intro t ht
  refine h t ?_
  rw [strokes_cons]
  exact List.mem_append_right _ ht

omit [MathLib] in
theorem straight_head {B : ℚ} {s : Segment Double} {p : Path Double} (h : StraightUpTo B (s :: p)) {t : Stroke Double} (ht : strokeOf s = some t) :
    ∃ a b, s = .line a b ∧ t = .line (pt a) (pt b) ∧ PtUpTo B (pt a) ∧ PtUpTo B (pt b) := by
  obtain ⟨a, b, rfl, ha, hb⟩ := h t (by rw [strokes_cons, ht]; simp)
  cases s with
  | move => cases ht
  | curve => simp [strokeOf] at ht
  | line x y =>
    simp only [strokeOf, Option.some.injEq, Stroke.line.injEq] at ht
    obtain ⟨rfl, rfl⟩ := ht
    exact ⟨x, y, rfl, rfl, ha, hb⟩

theorem boxLoop_upTo {B : ℚ} (p : Path Double) : ∀ (D : Pt ℚ → Prop) (b : Point Double × Point Double) (tl br : Pt ℚ), StraightUpTo B p →
    BoxUpTo B b tl br → BoxOf D tl br →
    ∃ c d : Pt ℚ, BoxUpTo B (p.foldl (fun b s => if s.isMove then b else growBox b (segBox s)) b) c d ∧ BoxOf (fun q => D q ∨ Drawn (valPath p) q) c d := by
  induction p with
  | nil =>
    intro D b tl br _ h1 h2
    refine ⟨tl, br, h1, h2.congr ?_⟩
    intro q
    simp [Drawn, strokes, valPath]
  | cons s rest ih =>
    intro D b tl br hs h1 h2
    obtain ⟨s', e1, e2⟩ := valPath_cons s rest
    simp only [List.foldl_cons]
    cases hm : strokeOf s with
    | none =>
      rw [if_pos (strokeOf_eq_none.mp hm)]
      obtain ⟨c, d, e, g⟩ := ih D b tl br (straight_cons hs) h1 h2
      refine ⟨c, d, e, g.congr ?_⟩
      intro q
      rw [e1, drawn_cons, e2, hm]
      simp
    | some t =>
      have hnm : s.isMove = false := by
        cases hb : s.isMove with
        | false => rfl
        | true => rw [strokeOf_eq_none.mpr hb] at hm; cases hm
      obtain ⟨x, y, rfl, rfl, hx, hy⟩ := straight_head hs hm
      rw [hnm, if_neg (by simp)]
      obtain ⟨c, d, e, g⟩ := ih _ _ _ _ (straight_cons hs) (growBox_upTo h1 (lineBox_upTo hx hy))
        (h2.union (at_line_box (valPt (pt x)) (valPt (pt y))))
      refine ⟨c, d, e, g.congr ?_⟩
      intro q
      rw [e1, drawn_cons, e2, hm]
      simp only [Option.map_some, Option.some.injEq, exists_eq_left']
      exact or_assoc

theorem pathBox_upTo {B : ℚ} {p : Path Double} (hne : p ≠ []) (hh : ∀ s, p.head? = some s → s.isMove = false) (hs : StraightUpTo B p) :
    ∃ tl br : Pt ℚ, BoxUpTo B (pathBox p) tl br ∧ BoxOf (Drawn (valPath p)) tl br := by
  match p, hne with
  | s :: rest, _ =>
    have hm := hh s rfl
    obtain ⟨s', e1, e2⟩ := valPath_cons s rest
    cases hst : strokeOf s with
    | none => rw [strokeOf_eq_none.mp hst] at hm; cases hm
    | some t =>
      obtain ⟨x, y, rfl, rfl, hx, hy⟩ := straight_head hs hst
      simp only [pathBox]
      obtain ⟨c, d, e, g⟩ := boxLoop_upTo rest _ _ _ _ (straight_cons hs) (lineBox_upTo hx hy) (at_line_box (valPt (pt x)) (valPt (pt y)))
      refine ⟨c, d, e, g.congr ?_⟩
      intro q
      rw [e1, drawn_cons, e2, hst]
      simp only [Option.map_some, Option.some.injEq, exists_eq_left']
      rfl

theorem trimmedBox_upTo {B : ℚ} {p : Path Double} (hne : strokes p ≠ []) (hs : StraightUpTo B p) :
    ∃ tl br : Pt ℚ, BoxUpTo B (trimmedBox p) tl br ∧ BoxOf (Drawn (valPath p)) tl br := by
  have e : strokes (trimMove p) = strokes p := trimMove_strokes p
  have hne' : trimMove p ≠ [] := by
    intro h
    rw [h] at e
    exact hne e.symm
  obtain ⟨tl, br, h1, h2⟩ := pathBox_upTo (B := B) hne' (trimMove_head p) (fun s hs' => hs s (e ▸ hs'))
  refine ⟨tl, br, ?_, h2.congr (Drawn.congr ?_)⟩
  · simp only [trimmedBox]
    rw [newPathWithoutMove_trim]
    exact h1
  · rw [strokes_valPath, strokes_valPath, e]

end Boxes

end Verif.Path
