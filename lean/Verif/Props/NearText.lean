import Verif.Lemmas.NearText

/-!
# Property C128: path texts with doubles

C17 with IEEE doubles: writing the decimals rounds, and reading them rounds again.
-/

namespace Verif.Path

open Verif Verif.Spec Verif.Double

theorem svgStrokes_upTo {B : ℚ} (q : Path Double) (hq : ∀ s ∈ q, TargetsUpTo B s) : ∀ c : Pt Double, PtUpTo B c → ∀ s ∈ svgStrokes c q, StrokeUpTo B s := by
  induction q with
  | nil => intro c _ s hs; simp [svgStrokes] at hs
  | cons s q ih =>
    intro c hc t ht
    have h := hq s (by simp)
    have ih' := ih fun s hs => hq s (by simp [hs])
    cases s with
    | move a b => exact ih' _ h t ht
    | line a b =>
      simp only [svgStrokes, List.mem_cons] at ht
      rcases ht with rfl | ht
      · exact ⟨hc, h⟩
      · exact ih' _ h t ht
    | curve a x y b =>
      simp only [svgStrokes, List.mem_cons] at ht
      rcases ht with rfl | ht
      · exact ⟨hc, h.1, h.2.1, h.2.2⟩
      · exact ih' _ h.2.2 t ht

/-- **C128.** The text of any path with finite coordinates is read as a connected path that draws what SVG draws, up to half a unit of the last decimal and two half
units in the last place of `B`. -/
theorem C128_read {B : ℚ} (h1 : 1 ≤ B) (hB : B ≤ 10 ^ 100) (n : Nat) (p : Path Double) (hp : ∀ s ∈ p, TargetsUpTo B s) :
    ∃ q, parsePath (printPath n p) = some q ∧ Connected q ∧
      StrokesNearly (2 * B) (1 / 2 / 10 ^ n + 2 * (eps * B)) id (svgStrokes (Arith.zero, Arith.zero) p) (strokes q) := by
  have wide : ∀ s ∈ p, TargetsUpTo (10 ^ 100) s := by
    have k : ∀ {a : Pt Double}, PtUpTo B a → PtUpTo (10 ^ 100) a := fun h => ⟨h.1, h.2.1, h.2.2.1.trans hB, h.2.2.2.trans hB⟩
    intro s hs
    have := hp s hs
    cases s with
    | move a b => exact k this
    | line a b => exact k this
    | curve a c d b => exact ⟨k this.1, k this.2.1, k this.2.2⟩
  have hz : readDouble n Arith.zero = Arith.zero := by
    rw [readDouble, zero_val, Decimal.rounded_zero]
    decide +kernel
  refine ⟨_, parsePath_doubles n p wide, reread_connected n p [] (show Connected ([] : Path Double) from trivial), ?_⟩
  rw [reread_svg n p [] (Arith.zero, Arith.zero) (by
    rw [hz]
    decide +kernel), show strokes ([] : Path Double) = [] from rfl, List.nil_append, StrokesNearly, List.forall₂_map_right_iff]
  have h0 : PtUpTo B (Arith.zero, Arith.zero) := ⟨near_zero.fin, near_zero.fin, by rw [zero_val]; simpa using zero_le_one.trans h1, by rw [zero_val]; simpa using zero_le_one.trans h1⟩
  have key : ∀ {a : Pt Double}, PtUpTo B a → PtUpTo (2 * B) (readDouble n a.1, readDouble n a.2) := fun h =>
    ⟨finite_read _ _, finite_read _ _, (near_read h1 h.2.2.1).1, (near_read h1 h.2.2.2).1⟩
  refine List.forall₂_same.2 fun s hs => ⟨?_, fun u u0 u1 => ?_⟩
  · have := svgStrokes_upTo p hp _ h0 s hs
    cases s with
    | line a b => exact ⟨key this.1, key this.2⟩
    | curve a c d b => exact ⟨key this.1, key this.2.1, key this.2.2.1, key this.2.2.2⟩
  · have e : (s.map fun r => (readDouble n r.1, readDouble n r.2)).map valPt = s.map fun r => valPt (readDouble n r.1, readDouble n r.2) := by
      cases s <;> rfl
    rw [e, id_eq]
    refine at_near (B := B) (g := valPt) (fun a _ h => ?_) (svgStrokes_upTo p hp _ h0 s hs) u0 u1
    have a1 := (near_read (n := n) h1 h.2.2.1).2
    have a2 := (near_read (n := n) h1 h.2.2.2).2
    generalize 1 / 2 / 10 ^ n + 2 * (eps * B) = e at *
    exact ⟨a1, a2⟩

/-- **C128.** Writing it again and reading that gives the same path, to the last digit: as long as `B` has at most 15 digits with `n` of them behind the point. -/
theorem C128_stable {B : ℚ} (h1 : 1 ≤ B) (n : Nat) (hB : (B + 1) * 10 ^ n ≤ 2 ^ 51) (p : Path Double) (hp : ∀ s ∈ p, TargetsUpTo B s) (q : Path Double)
    (h : parsePath (printPath n p) = some q) : parsePath (printPath n q) = some q := by
  have hB' : 2 * B ≤ 10 ^ 100 := by
    have hp1 : (1 : ℚ) ≤ 10 ^ n := one_le_pow₀ (by norm_num)
    have : (B + 1) * 1 ≤ (B + 1) * 10 ^ n := mul_le_mul_of_nonneg_left hp1 (by linarith)
    have : (2 : ℚ) ^ 51 * 2 ≤ 10 ^ 100 := by norm_num
    linarith
  have wide : ∀ {C : ℚ}, C ≤ 10 ^ 100 → ∀ {s : Segment Double}, TargetsUpTo C s → TargetsUpTo (10 ^ 100) s := by
    intro C hC s this
    have k : ∀ {a : Pt Double}, PtUpTo C a → PtUpTo (10 ^ 100) a := fun h => ⟨h.1, h.2.1, h.2.2.1.trans hC, h.2.2.2.trans hC⟩
    cases s with
    | move a b => exact k this
    | line a b => exact k this
    | curve a c d b => exact ⟨k this.1, k this.2.1, k this.2.2⟩
  rw [parsePath_doubles n p fun s hs => wide (by linarith) (hp s hs)] at h
  injection h with h
  obtain ⟨r, e1, e2⟩ := reread_stable (n := n) hB p hp []
  have ht := reread_targets (n := n) h1 p hp [] (by simp)
  rw [h] at e1 ht
  rw [List.nil_append] at e1 e2
  rw [parsePath_doubles n q fun s hs => wide hB' (ht s hs), e1, e2]

/-- **C128.** Points that are called equal to `n` decimals are at most a unit of the last decimal apart in each direction. -/
theorem C128_equal (n : Nat) (p q : Point Double) (hp : p.x.Finite ∧ p.y.Finite) (hq : q.x.Finite ∧ q.y.Finite) (h : p.equalsPrecision q n = true) :
    NearPt (1 / 10 ^ n) (valPt (pt p)) (valPt (pt q)) := by
  have hf : ∀ {x : Double}, x.Finite → (Num.fmt n x : Text) = Decimal.fmt n x.val := by
    intro x hx
    show Num.fmt n x.num = _
    conv_lhs => rw [hx.eq.1]
    rfl
  unfold Point.equalsPrecision at h
  rw [if_neg (by simp)] at h
  simp only [Int.toNat_natCast, Bool.and_eq_true, beq_iff_eq] at h
  obtain ⟨h1, h2⟩ := h
  rw [hf hp.1, hf hq.1] at h1
  rw [hf hp.2, hf hq.2] at h2
  exact ⟨Decimal.fmt_close h1, Decimal.fmt_close h2⟩

/-- A curve with coordinates that are no decimals. -/
def thirds : Path Double :=
  [.move (newPoint (Arith.lit 0 0) (Arith.lit 0 0)) (newPoint (Arith.lit 1 0 /. Arith.lit 3 0) (Arith.lit (-2) 0 /. Arith.lit 3 0)),
   .curve (newPoint (Arith.lit 1 0 /. Arith.lit 3 0) (Arith.lit (-2) 0 /. Arith.lit 3 0)) (newPoint (Arith.lit 1 1) (Arith.lit 7 0 /. Arith.lit 3 0))
     (newPoint (Arith.lit 13 1) (Arith.lit 6 1)) (newPoint (Arith.lit 1 0 /. Arith.lit 7 0) (Arith.lit 1000 0 /. Arith.lit 7 0))]

/-- The premises hold of it, and it is not what is read. -/
example : (∀ s ∈ thirds, TargetsUpTo 1000 s) ∧ printPath 3 thirds = "M 0.333 -0.667 C 0.100 2.333 1.300 0.600 0.143 142.857".toList
    ∧ ((parsePath (printPath 3 thirds)).map fun q => (strokes q).map fun s => (s.map valPt).at 0) = some [((Arith.lit 333 3 : Double).val, (Arith.lit (-667) 3 : Double).val)] := by
  decide +kernel

end Verif.Path
