import Verif.Lemmas.RndMono
import Verif.Lemmas.Shapes
import Verif.Props.NearBox
import Verif.Spec.NearShapes

/-!
# Helper lemmas for documents of outlines with doubles
-/

set_option linter.unusedSectionVars false

namespace Verif.Shapes

open Verif Verif.Path Verif.Spec Verif.Double

theorem exactEq_double : ExactEq Double := by
  rintro ⟨a⟩ ⟨b⟩ h
  change (a ==. b) = true at h
  cases a <;> cases b <;> first
    | rfl
    | cases h
    | (have h : decide _ = true := h; rw [decide_eq_true_iff] at h; rw [h])

section
variable [MathLib]

theorem double_ext {a b : Double} (ha : a.Finite) (hb : b.Finite) (h : a.val = b.val) : a = b := by
  rw [ha.eq.1, hb.eq.1, h]

/-- Moving by zero. -/
theorem moved_zero {B : ℚ} (hB : B ≤ 10 ^ 100) {m x : Double} (hm : m.Finite) (hx : x.Finite) (hm' : m.val = 0) (hx' : |x.val| ≤ B) : x +. (-. m) = x := by
  obtain ⟨h1, h2⟩ := moved_val hB hm hx (by rw [hm', abs_zero]; exact (abs_nonneg _).trans hx') hx'
  refine double_ext h1 hx ?_
  rw [h2, hm', sub_zero, hx.eq.2]

theorem sub_moved {m x : Double} (hm : m.Finite) (hx : x.Finite) : x -. m = x +. (-. m) := by
  obtain ⟨f, v⟩ := finite_neg hm
  rw [sub_eq_of hx hm, add_eq_of hx f, v, sub_eq_add_neg]

theorem moved_upTo {B : ℚ} (h1 : 1 ≤ B) (hB : B ≤ 10 ^ 100) {m x : Double} (hm : m.Finite) (hx : x.Finite) (hm' : |m.val| ≤ B) (hx' : |x.val| ≤ B) :
    (x +. (-. m)).Finite ∧ |(x +. (-. m)).val| ≤ 3 * B := by
  obtain ⟨f, v⟩ := finite_neg hm
  have h := ((Near.self hx hx').add (Near.self f (m := B) (by rw [v, abs_neg]; exact hm')) ?_)
  · refine ⟨h.fin, h.mag.trans ?_⟩
    have : (1 : ℚ) / 10 ^ 40 ≤ 1 / 2 := by norm_num
    unfold eps
    nlinarith
  · exact (add_le_add hB hB).trans (by norm_num)

/-- The ends of the strokes. -/
def End (p : Path Double) (a : Pt Double) : Prop := ∃ b c, Stroke.line b c ∈ strokes p ∧ (a = b ∨ a = c)

theorem end_drawn {p : Path Double} {a : Pt Double} (h : End p a) : Drawn (valPath p) (valPt a) := by
  obtain ⟨b, c, h1, h2⟩ := h
  have hm : Stroke.line (valPt b) (valPt c) ∈ strokes (valPath p) := by
    rw [strokes_valPath]
    exact List.mem_map_of_mem h1
  rcases h2 with rfl | rfl
  · exact ⟨_, hm, 0, le_rfl, zero_le_one, by simp [Stroke.at]⟩
  · exact ⟨_, hm, 1, zero_le_one, le_rfl, by simp [Stroke.at]⟩

theorem end_upTo {B : ℚ} {p : Path Double} (hs : StraightUpTo B p) {a : Pt Double} (h : End p a) : PtUpTo B a := by
  obtain ⟨b, c, h1, h2⟩ := h
  obtain ⟨b', c', e, k1, k2⟩ := hs _ h1
  cases e
  rcases h2 with rfl | rfl
  · exact k1
  · exact k2

theorem max_end {a b t M : ℚ} (ha : a ≤ M) (hb : b ≤ M) (h0 : 0 ≤ t) (h1 : t ≤ 1) (h : (1 - t) * a + t * b = M) : a = M ∨ b = M := by
  by_contra hc
  rw [not_or] at hc
  have la := lt_of_le_of_ne ha hc.1
  have lb := lt_of_le_of_ne hb hc.2
  rcases h0.lt_or_eq with h0' | rfl
  · nlinarith
  · simp at h
    linarith

/-- The right and the lower side of the box are met by ends. -/
theorem end_right {B : ℚ} {p : Path Double} (hs : StraightUpTo B p) {tl br : Pt ℚ} (hb : BoxOf (Drawn (valPath p)) tl br) :
    (∃ a, End p a ∧ (valPt a).1 = br.1) ∧ ∃ a, End p a ∧ (valPt a).2 = br.2 := by
  have key : ∀ x, Drawn (valPath p) x → ∃ a b, Stroke.line a b ∈ strokes p ∧ ∃ t : ℚ, 0 ≤ t ∧ t ≤ 1 ∧ x = (Stroke.line (valPt a) (valPt b)).at t := by
    rintro x ⟨s1, hs1, t, h0, h1', rfl⟩
    rw [strokes_valPath] at hs1
    obtain ⟨s, hs3, rfl⟩ := List.mem_map.1 hs1
    obtain ⟨a, b, rfl, -, -⟩ := hs s hs3
    exact ⟨a, b, hs3, t, h0, h1', rfl⟩
  constructor
  · obtain ⟨x, hx, e⟩ := hb.right
    obtain ⟨a, b, h1, t, t0, t1, rfl⟩ := key x hx
    have ea : End p a := ⟨a, b, h1, .inl rfl⟩
    have eb : End p b := ⟨a, b, h1, .inr rfl⟩
    rcases max_end (hb.inside _ (end_drawn ea)).2.1 (hb.inside _ (end_drawn eb)).2.1 t0 t1 e with k | k
    · exact ⟨a, ea, k⟩
    · exact ⟨b, eb, k⟩
  · obtain ⟨x, hx, e⟩ := hb.bottom
    obtain ⟨a, b, h1, t, t0, t1, rfl⟩ := key x hx
    have ea : End p a := ⟨a, b, h1, .inl rfl⟩
    have eb : End p b := ⟨a, b, h1, .inr rfl⟩
    rcases max_end (hb.inside _ (end_drawn ea)).2.2.2 (hb.inside _ (end_drawn eb)).2.2.2 t0 t1 e with k | k
    · exact ⟨a, ea, k⟩
    · exact ⟨b, eb, k⟩

/-- What trimming does to a point. -/
def trimTo (p : Path Double) (q : Pt Double) : Pt Double := (q.1 +. (-. (trimmedBox p).1.x), q.2 +. (-. (trimmedBox p).1.y))

theorem strokes_trim (p : Path Double) : strokes (trimWhitespace p) = (strokes p).map (Stroke.map (trimTo p)) :=
  strokes_mapPath _ _ (fun _ => pt_exact exactEq_double _ _) p

theorem end_trim (p : Path Double) (a : Pt Double) : End (trimWhitespace p) a ↔ ∃ a', End p a' ∧ a = trimTo p a' := by
  unfold End
  rw [strokes_trim]
  constructor
  · rintro ⟨b, c, h1, h2⟩
    obtain ⟨s, hs, e⟩ := List.mem_map.1 h1
    cases s with
    | line x y =>
      simp only [Stroke.map, Stroke.line.injEq] at e
      obtain ⟨rfl, rfl⟩ := e
      rcases h2 with rfl | rfl
      · exact ⟨x, ⟨x, y, hs, .inl rfl⟩, rfl⟩
      · exact ⟨y, ⟨x, y, hs, .inr rfl⟩, rfl⟩
    | curve => cases e
  · rintro ⟨a', ⟨b, c, h1, h2⟩, rfl⟩
    refine ⟨trimTo p b, trimTo p c, List.mem_map.2 ⟨_, h1, rfl⟩, ?_⟩
    rcases h2 with rfl | rfl
    · exact .inl rfl
    · exact .inr rfl

/-- A straight drawing that is trimmed: its box starts at the origin, and has the size of the drawing, rounded. -/
theorem trim_box {B : ℚ} (h1 : 1 ≤ B) (hB : B ≤ 10 ^ 100) {p : Path Double} (hne : strokes p ≠ []) (hs : StraightUpTo B p) :
    ∃ tl br, BoxOf (Drawn (valPath p)) tl br ∧ BoxOf (Drawn (valPath (trimWhitespace p))) (0, 0) (rnd (br.1 - tl.1), rnd (br.2 - tl.2)) ∧
      StraightUpTo (3 * B) (trimWhitespace p) ∧ strokes (trimWhitespace p) ≠ [] ∧ Grid (br.1 - tl.1) ∧ Grid (br.2 - tl.2) ∧
      DrawsNearly (3 * B) (3 * (eps * B)) (fun q => (q.1 - tl.1, q.2 - tl.2)) p (trimWhitespace p) ∧
      ∀ S : Path Double, S = p → (∀ s ∈ S, PointsIn (PtUpTo B) s) → ∀ s ∈ trimWhitespace S, PointsIn (PtUpTo (3 * B)) s := by
  obtain ⟨-, ⟨br', hb'⟩, tl, br, hb, hd⟩ := C130_trim h1 hB hne hs
  obtain ⟨c1, c2, hbox⟩ := C130_box hne hs
  obtain ⟨e1, e2⟩ := hb.unique hbox
  have g1 : (trimmedBox p).1.x.Finite := c1.1
  have g2 : (trimmedBox p).1.y.Finite := c1.2.1
  have g3 : |(trimmedBox p).1.x.val| ≤ B := c1.2.2.1
  have g4 : |(trimmedBox p).1.y.val| ≤ B := c1.2.2.2
  have hs' : StraightUpTo (3 * B) (trimWhitespace p) := straight_shift hs _ _ hd
  have v1 : ∀ a, PtUpTo B a → (valPt (trimTo p a)).1 = rnd ((valPt a).1 - tl.1) := by
    intro a ha
    rw [e1]
    exact (moved_val hB g1 ha.1 g3 ha.2.2.1).2
  have v2 : ∀ a, PtUpTo B a → (valPt (trimTo p a)).2 = rnd ((valPt a).2 - tl.2) := by
    intro a ha
    rw [e1]
    exact (moved_val hB g2 ha.2.1 g4 ha.2.2.2).2
  have hbr : br' = (rnd (br.1 - tl.1), rnd (br.2 - tl.2)) := by
    obtain ⟨⟨a, ha, ea⟩, b, hb1, eb⟩ := end_right hs hb
    obtain ⟨⟨a', ha', ea'⟩, b', hb1', eb'⟩ := end_right hs' hb'
    obtain ⟨a'', ha'', rfl⟩ := (end_trim p a').1 ha'
    obtain ⟨b'', hb'', rfl⟩ := (end_trim p b').1 hb1'
    refine Prod.ext (le_antisymm ?_ ?_) (le_antisymm ?_ ?_)
    · rw [← ea', v1 _ (end_upTo hs ha'')]
      exact rnd_mono (sub_le_sub_right (hb.inside _ (end_drawn ha'')).2.1 _)
    · have := (hb'.inside _ (end_drawn ((end_trim p _).2 ⟨a, ha, rfl⟩))).2.1
      rwa [v1 _ (end_upTo hs ha), ea] at this
    · rw [← eb', v2 _ (end_upTo hs hb'')]
      exact rnd_mono (sub_le_sub_right (hb.inside _ (end_drawn hb'')).2.2.2 _)
    · have := (hb'.inside _ (end_drawn ((end_trim p _).2 ⟨b, hb1, rfl⟩))).2.2.2
      rwa [v2 _ (end_upTo hs hb1), eb] at this
  rw [hbr] at hb'
  refine ⟨tl, br, hb, hb', hs', strokes_shift_ne hne, ?_, ?_, hd, ?_⟩
  · rw [e1, e2]
    exact (grid_rnd c2.1.eq.2).sub (grid_rnd c1.1.eq.2)
  · rw [e1, e2]
    exact (grid_rnd c2.2.1.eq.2).sub (grid_rnd c1.2.1.eq.2)
  · rintro S rfl hS
    refine pointsIn_mapPath (fun q hq => ?_) hS
    obtain ⟨m1, m2⟩ := moved_upTo h1 hB g1 hq.1 g3 hq.2.2.1
    obtain ⟨m3, m4⟩ := moved_upTo h1 hB g2 hq.2.1 g4 hq.2.2.2
    rw [pt_exact exactEq_double]
    exact ⟨m1, m3, m2, m4⟩

/-- Trimming a drawing whose box starts at the origin. -/
theorem trim_trimmed {B : ℚ} (hB : B ≤ 10 ^ 100) {p : Path Double} (hne : strokes p ≠ []) (hs : StraightUpTo B p) {br : Pt ℚ}
    (hb : BoxOf (Drawn (valPath p)) (0, 0) br) : strokes (trimWhitespace p) = strokes p ∧
      ((∀ s ∈ p, PointsIn (PtUpTo B) s) → ∀ s ∈ trimWhitespace p, PointsIn (PtUpTo B) s) := by
  obtain ⟨c1, c2, hbox⟩ := C130_box hne hs
  obtain ⟨e1, -⟩ := hb.unique hbox
  have z1 : (trimmedBox p).1.x.val = 0 := (congrArg Prod.fst e1).symm
  have z2 : (trimmedBox p).1.y.val = 0 := (congrArg Prod.snd e1).symm
  have key : ∀ q, PtUpTo B q → trimTo p q = q := by
    intro q hq
    exact Prod.ext (moved_zero hB c1.1 hq.1 z1 hq.2.2.1) (moved_zero hB c1.2.1 hq.2.1 z2 hq.2.2.2)
  constructor
  · rw [strokes_trim]
    conv_rhs => rw [← List.map_id (strokes p)]
    refine List.map_congr_left fun s h => ?_
    obtain ⟨a, b, rfl, ha, hb⟩ := hs s h
    simp only [Stroke.map, key a ha, key b hb, id]
  · intro h
    refine pointsIn_mapPath (fun q hq => ?_) h
    rw [pt_exact exactEq_double]
    have e : (q.x +. -. (trimmedBox p).1.x, q.y +. -. (trimmedBox p).1.y) = pt q := key (pt q) hq
    rw [e]
    exact hq

theorem measure_trimmed {B : ℚ} (hB : B ≤ 10 ^ 100) {p : Path Double} (hne : strokes p ≠ []) (hs : StraightUpTo B p) {br : Pt ℚ}
    (hb : BoxOf (Drawn (valPath p)) (0, 0) br) : ((measure p).1.Finite ∧ (measure p).1.val = br.1 ∧ |br.1| ≤ B) ∧ (measure p).2.Finite ∧ (measure p).2.val = br.2 ∧ |br.2| ≤ B := by
  obtain ⟨c1, c2, hbox⟩ := C130_box hne hs
  obtain ⟨e1, e2⟩ := hb.unique hbox
  have z1 : (trimmedBox p).1.x.val = 0 := (congrArg Prod.fst e1).symm
  have z2 : (trimmedBox p).1.y.val = 0 := (congrArg Prod.snd e1).symm
  have m1 : (measure p).1 = (trimmedBox p).2.x := by
    show (trimmedBox p).2.x -. (trimmedBox p).1.x = _
    refine (sub_moved c1.1 c2.1).trans ?_
    exact moved_zero hB c1.1 c2.1 z1 c2.2.2.1
  have m2 : (measure p).2 = (trimmedBox p).2.y := by
    show (trimmedBox p).2.y -. (trimmedBox p).1.y = _
    refine (sub_moved c1.2.1 c2.2.1).trans ?_
    exact moved_zero hB c1.2.1 c2.2.1 z2 c2.2.2.2
  rw [m1, m2, e2]
  exact ⟨⟨c2.1, rfl, c2.2.2.1⟩, c2.2.1, rfl, c2.2.2.2⟩

end

end Verif.Shapes
