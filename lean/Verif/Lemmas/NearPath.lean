import Verif.Lemmas.NearDouble
import Verif.Lemmas.Clean
import Verif.Lemmas.PathBox
import Verif.Spec.NearCurve

/-!
# Transforms of paths with doubles
-/

namespace Verif.Path

open Verif Verif.Spec Verif.Double

instance (B : ℚ) (p : Pt Double) : Decidable (PtUpTo B p) := inferInstanceAs (Decidable (_ ∧ _ ∧ _ ∧ _))

instance (B : ℚ) : (s : Stroke Double) → Decidable (StrokeUpTo B s)
  | .line _ _ => inferInstanceAs (Decidable (_ ∧ _))
  | .curve _ _ _ _ => inferInstanceAs (Decidable (_ ∧ _ ∧ _ ∧ _))

instance (B : ℚ) : (s : Segment Double) → Decidable (TargetsUpTo B s)
  | .move _ _ => inferInstanceAs (Decidable (PtUpTo _ _))
  | .line _ _ => inferInstanceAs (Decidable (PtUpTo _ _))
  | .curve _ _ _ _ => inferInstanceAs (Decidable (_ ∧ _ ∧ _))

/-- `newPoint` does not change the numbers. -/
theorem newPoint_near {x y : Double} {p q m e m' e' : ℚ} (hx : Near x p m e) (hy : Near y q m' e') :
    Near (newPoint x y).x p m e ∧ Near (newPoint x y).y q m' e' := by
  have key : ∀ {x : Double} {p m e : ℚ}, Near x p m e → Near (if x ==. Arith.zero then Arith.zero else x) p m e := by
    intro x p m e h
    split
    · rename_i h0
      have hv : x.val = 0 := by
        rw [(eq_finite h.fin near_zero.fin).1 h0, zero_val]
      have h1 := h.mag
      have h2 := h.err
      rw [hv] at h1 h2
      refine ⟨near_zero.fin, ?_, ?_⟩
      · rw [zero_val]
        exact h1
      · rw [zero_val]
        exact h2
    · exact h
  exact ⟨key hx, key hy⟩

/-- Convex combinations of nearby points are near. -/
theorem at_near {B e : ℚ} {f g : Pt Double → Pt ℚ} {s : Stroke Double} (h : ∀ p, StrokeUpTo B s → PtUpTo B p → NearPt e (f p) (g p)) (hs : StrokeUpTo B s)
    {u : ℚ} (h0 : 0 ≤ u) (h1 : u ≤ 1) : NearPt e ((s.map f).at u) ((s.map g).at u) := by
  have hv : 0 ≤ 1 - u := by linarith
  cases s with
  | line a b =>
    obtain ⟨ha, hb⟩ := hs
    have a1 := h a ⟨ha, hb⟩ ha
    have b1 := h b ⟨ha, hb⟩ hb
    have key : ∀ {p q p' q' : ℚ}, |p - p'| ≤ e → |q - q'| ≤ e → |(1 - u) * p + u * q - ((1 - u) * p' + u * q')| ≤ e := by
      intro p q p' q' h1 h2
      rw [abs_le] at *
      constructor <;> nlinarith
    exact ⟨key a1.1 b1.1, key a1.2 b1.2⟩
  | curve a c d b =>
    obtain ⟨ha, hc, hd, hb⟩ := hs
    have a1 := h a ⟨ha, hc, hd, hb⟩ ha
    have c1 := h c ⟨ha, hc, hd, hb⟩ hc
    have d1 := h d ⟨ha, hc, hd, hb⟩ hd
    have b1 := h b ⟨ha, hc, hd, hb⟩ hb
    have w0 : 0 ≤ (1 - u) ^ 3 := by positivity
    have w1 : 0 ≤ 3 * (1 - u) ^ 2 * u := by positivity
    have w2 : 0 ≤ 3 * (1 - u) * u ^ 2 := by positivity
    have w3 : 0 ≤ u ^ 3 := by positivity
    have ws : (1 - u) ^ 3 + 3 * (1 - u) ^ 2 * u + 3 * (1 - u) * u ^ 2 + u ^ 3 = 1 := by ring
    have key : ∀ {a b c d a' b' c' d' : ℚ}, |a - a'| ≤ e → |b - b'| ≤ e → |c - c'| ≤ e → |d - d'| ≤ e →
        |(1 - u) ^ 3 * a + 3 * (1 - u) ^ 2 * u * b + 3 * (1 - u) * u ^ 2 * c + u ^ 3 * d
          - ((1 - u) ^ 3 * a' + 3 * (1 - u) ^ 2 * u * b' + 3 * (1 - u) * u ^ 2 * c' + u ^ 3 * d')| ≤ e := by
      intro a b c d a' b' c' d' h1 h2 h3 h4
      generalize (1 - u) ^ 3 = k0 at *
      generalize 3 * (1 - u) ^ 2 * u = k1 at *
      generalize 3 * (1 - u) * u ^ 2 = k2 at *
      generalize u ^ 3 = k3 at *
      rw [abs_le] at *
      have he : e = k0 * e + k1 * e + k2 * e + k3 * e := by rw [← add_mul, ← add_mul, ← add_mul, ws, one_mul]
      have q0 := mul_le_mul_of_nonneg_left h1.1 w0
      have q1 := mul_le_mul_of_nonneg_left h2.1 w1
      have q2 := mul_le_mul_of_nonneg_left h3.1 w2
      have q3 := mul_le_mul_of_nonneg_left h4.1 w3
      have r0 := mul_le_mul_of_nonneg_left h1.2 w0
      have r1 := mul_le_mul_of_nonneg_left h2.2 w1
      have r2 := mul_le_mul_of_nonneg_left h3.2 w2
      have r3 := mul_le_mul_of_nonneg_left h4.2 w3
      constructor <;> linarith
    exact ⟨key a1.1 c1.1 d1.1 b1.1, key a1.2 c1.2 d1.2 b1.2⟩

/-- A transform of the points that is, up to `e`, an affine map. -/
theorem mapPath_near {B B' e : ℚ} (f : Point Double → Point Double) (g : Pt Double → Pt Double) (hf : ∀ q, pt (f q) = g (pt q)) (a b c d k l : ℚ)
    (hg : ∀ q, PtUpTo B q → PtUpTo B' (g q) ∧ NearPt e (valPt (g q)) (affine a b c d k l (valPt q))) (p : Path Double)
    (hp : ∀ s ∈ strokes p, StrokeUpTo B s) : DrawsNearly B' e (affine a b c d k l) p (mapPath f p) := by
  unfold DrawsNearly StrokesNearly
  rw [strokes_mapPath f g hf, List.forall₂_map_right_iff]
  refine List.forall₂_same.2 fun s hs => ⟨?_, fun u h0 h1 => ?_⟩
  · have := hp s hs
    cases s with
    | line x y => exact ⟨(hg _ this.1).1, (hg _ this.2).1⟩
    | curve x y z w => exact ⟨(hg _ this.1).1, (hg _ this.2.1).1, (hg _ this.2.2.1).1, (hg _ this.2.2.2).1⟩
  · rw [← at_affine]
    have h : ∀ {f' : Pt ℚ → Pt ℚ}, (s.map valPt).map f' = s.map (fun q => f' (valPt q)) := by
      intro f'
      cases s <;> rfl
    have h' : (s.map g).map valPt = s.map (fun q => valPt (g q)) := by
      cases s <;> rfl
    rw [h, h']
    exact at_near (fun q _ hq => (hg q hq).2) (hp s hs) h0 h1

end Verif.Path
