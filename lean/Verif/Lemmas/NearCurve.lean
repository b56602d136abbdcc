import Verif.Lemmas.NearDouble
import Verif.Spec.NearCurve
import Verif.Lemmas.Bezier

/-! # Helper lemmas for curves with doubles -/

namespace Verif.Bezier

open Verif Verif.Spec Verif.Double

/-- A computed coordinate: `p` is the exact one, and the error is `b` half units in the last place of `B`. -/
structure Off (B b : ℚ) (x : Double) (p : ℚ) : Prop where
  fin : x.Finite
  mag : |p| ≤ B
  err : |x.val - p| ≤ b * (eps * B)

theorem Off.self {B : ℚ} {x : Double} (h : x.Finite) (hm : |x.val| ≤ B) : Off B 0 x x.val := ⟨h, hm, by simp⟩

theorem Off.mono {B b b' : ℚ} {x : Double} {p : ℚ} (hB : 0 ≤ B) (h : Off B b x p) (hb : b ≤ b') : Off B b' x p :=
  ⟨h.fin, h.mag, h.err.trans (mul_le_mul_of_nonneg_right hb (mul_nonneg (by norm_num) hB))⟩

/-- A computed parameter. -/
structure Param (k : ℚ) (r : Double) (ρ : ℚ) : Prop where
  fin : r.Finite
  lo : 0 ≤ r.val
  hi : r.val ≤ 1 + 10 * eps
  lo' : 0 ≤ ρ
  hi' : ρ ≤ 1
  err : |r.val - ρ| ≤ k * eps

theorem convex_le {a b B r : ℚ} (ha : |a| ≤ B) (hb : |b| ≤ B) (h0 : 0 ≤ r) (h1 : r ≤ 1) : |a + r * (b - a)| ≤ B := by
  rw [abs_le] at *
  constructor <;> nlinarith

/-- One step of the subdivision. -/
theorem lerp_off {B b k : ℚ} (h1 : 1 ≤ B) (hB : B ≤ 10 ^ 100) (hb0 : 0 ≤ b) (hb : b ≤ 1000) (hk : k ≤ 10) {v w r : Double} {p q ρ : ℚ} (hv : Off B b v p)
    (hw : Off B b w q) (hr : Param k r ρ) : Off B (b + 2 * k + 8) (v +. r *. (w -. v)) (p + ρ * (q - p)) := by
  have hbe : b * (eps * B) ≤ 1000 * (eps * B) := mul_le_mul_of_nonneg_right hb (mul_nonneg (by norm_num) (by linarith))
  have hB200 : (10 : ℚ) * 10 ^ 100 ≤ 10 ^ 200 := by norm_num
  have mag : ∀ {x : Double} {s : ℚ}, Off B b x s → |x.val| ≤ (1 + 1000 * eps) * B := by
    intro x s h
    have := abs_add_le (x.val - s) s
    rw [sub_add_cancel] at this
    linarith [h.mag, h.err]
  have nv := Near.self hv.fin (mag hv)
  have nw := Near.self hw.fin (mag hw)
  have nr : Near r r.val (1 + 10 * eps) 0 := Near.self hr.fin (by rw [abs_of_nonneg hr.lo]; exact hr.hi)
  have n1 : Near (w -. v) (w.val - v.val) (2001 / 1000 * B) (2001 / 1000 * (eps * B)) :=
    (nw.sub nv (by norm_num at *; linarith)).mono (by norm_num at *; linarith) (by norm_num at *; linarith)
  have n2 : Near (r *. (w -. v)) (r.val * (w.val - v.val)) (2002 / 1000 * B) (4004 / 1000 * (eps * B)) :=
    (nr.mul n1 (by norm_num at *; linarith)).mono (by norm_num at *; linarith) (by norm_num at *; linarith)
  have n3 : Near (v +. r *. (w -. v)) (v.val + r.val * (w.val - v.val)) (3003 / 1000 * B) (7010 / 1000 * (eps * B)) :=
    (nv.add n2 (by norm_num at *; linarith)).mono (by norm_num at *; linarith) (by norm_num at *; linarith)
  refine ⟨n3.fin, convex_le hv.mag hw.mag hr.lo' hr.hi', ?_⟩
  have e : (v +. r *. (w -. v)).val - (p + ρ * (q - p)) = ((v +. r *. (w -. v)).val - (v.val + r.val * (w.val - v.val))) +
      ((1 - r.val) * (v.val - p) + (r.val * (w.val - q) + (r.val - ρ) * (q - p))) := by ring
  rw [e]
  have e1 : |(1 - r.val) * (v.val - p)| ≤ |1 - r.val| * (b * (eps * B)) := by
    rw [abs_mul]; exact mul_le_mul_of_nonneg_left hv.err (abs_nonneg _)
  have e2 : |r.val * (w.val - q)| ≤ r.val * (b * (eps * B)) := by
    rw [abs_mul, abs_of_nonneg hr.lo]; exact mul_le_mul_of_nonneg_left hw.err hr.lo
  have e3 : |(r.val - ρ) * (q - p)| ≤ 2 * k * (eps * B) := by
    rw [abs_mul, show 2 * k * (eps * B) = k * eps * (2 * B) by ring]
    refine mul_le_mul hr.err ?_ (abs_nonneg _) ((abs_nonneg _).trans hr.err)
    exact (abs_sub _ _).trans (by linarith [hv.mag, hw.mag])
  have e4 : |1 - r.val| + r.val ≤ 1 + 20 * eps := by
    rcases le_total r.val 1 with h | h
    · rw [abs_of_nonneg (by linarith)]; norm_num
    · rw [abs_of_nonpos (by linarith)]; linarith [hr.hi]
  have e5 : (|1 - r.val| + r.val) * (b * (eps * B)) ≤ b * (eps * B) + 20 * eps * (b * (eps * B)) := by
    rw [show b * (eps * B) + 20 * eps * (b * (eps * B)) = (1 + 20 * eps) * (b * (eps * B)) by ring]
    exact mul_le_mul_of_nonneg_right e4 (mul_nonneg hb0 (mul_nonneg (by norm_num) (by linarith)))
  have a1 := abs_add_le ((v +. r *. (w -. v)).val - (v.val + r.val * (w.val - v.val)))
    ((1 - r.val) * (v.val - p) + (r.val * (w.val - q) + (r.val - ρ) * (q - p)))
  have a2 := abs_add_le ((1 - r.val) * (v.val - p)) (r.val * (w.val - q) + (r.val - ρ) * (q - p))
  have a3 := abs_add_le (r.val * (w.val - q)) ((r.val - ρ) * (q - p))
  have h3 := n3.err
  have e6 : 20 * eps * (b * (eps * B)) ≤ 1 / 100 * (eps * B) := by
    have : 20 * eps * (b * (eps * B)) ≤ 20 * eps * (1000 * (eps * B)) := mul_le_mul_of_nonneg_left hbe (by norm_num)
    have h0 : 0 ≤ eps * B := mul_nonneg (by norm_num) (by linarith)
    have : (20 : ℚ) * eps * 1000 ≤ 1 / 100 := by norm_num
    nlinarith
  have h0 : 0 ≤ eps * B := mul_nonneg (by norm_num) (by linarith)
  rw [add_mul] at e5
  generalize 20 * eps * (b * (eps * B)) = y at *
  generalize eps * B = z at *
  linarith

/-- The exact points of the subdivision. -/
theorem halves_off {B b k : ℚ} (h1 : 1 ≤ B) (hB : B ≤ 10 ^ 100) (hb0 : 0 ≤ b) (hk0 : 0 ≤ k) (hk : k ≤ 10) (hb : b + 4 * k + 16 ≤ 1000) {c : Curve Double} {d : Curve ℚ} {t : Double} {τ : ℚ}
    (hc : (Off B b c.p0.x d.p0.x ∧ Off B b c.p0.y d.p0.y) ∧ (Off B b c.p1.x d.p1.x ∧ Off B b c.p1.y d.p1.y) ∧
      (Off B b c.p2.x d.p2.x ∧ Off B b c.p2.y d.p2.y) ∧ (Off B b c.p3.x d.p3.x ∧ Off B b c.p3.y d.p3.y)) (ht : Param k t τ) :
    ∀ l ∈ [((halves c t).1, (halves d τ).1), ((halves c t).2, (halves d τ).2)],
      (Off B (b + 6 * k + 24) l.1.p0.x l.2.p0.x ∧ Off B (b + 6 * k + 24) l.1.p0.y l.2.p0.y) ∧
      (Off B (b + 6 * k + 24) l.1.p1.x l.2.p1.x ∧ Off B (b + 6 * k + 24) l.1.p1.y l.2.p1.y) ∧
      (Off B (b + 6 * k + 24) l.1.p2.x l.2.p2.x ∧ Off B (b + 6 * k + 24) l.1.p2.y l.2.p2.y) ∧
      (Off B (b + 6 * k + 24) l.1.p3.x l.2.p3.x ∧ Off B (b + 6 * k + 24) l.1.p3.y l.2.p3.y) := by
  obtain ⟨⟨x0, y0⟩, ⟨x1, y1⟩, ⟨x2, y2⟩, x3, y3⟩ := hc
  have h0 : 0 ≤ B := by linarith
  have L1 : ∀ {v w : Double} {p q : ℚ}, Off B b v p → Off B b w q → Off B (b + 2 * k + 8) (v +. t *. (w -. v)) (p + τ * (q - p)) :=
    fun hv hw => lerp_off h1 hB hb0 (by linarith) hk hv hw ht
  have L2 : ∀ {v w : Double} {p q : ℚ}, Off B (b + 2 * k + 8) v p → Off B (b + 2 * k + 8) w q →
      Off B (b + 4 * k + 16) (v +. t *. (w -. v)) (p + τ * (q - p)) :=
    fun hv hw => (lerp_off h1 hB (by linarith) (by linarith) hk hv hw ht).mono h0 (by linarith)
  have L3 : ∀ {v w : Double} {p q : ℚ}, Off B (b + 4 * k + 16) v p → Off B (b + 4 * k + 16) w q →
      Off B (b + 6 * k + 24) (v +. t *. (w -. v)) (p + τ * (q - p)) :=
    fun hv hw => (lerp_off h1 hB (by linarith) (by linarith) hk hv hw ht).mono h0 (by linarith)
  have m0 : ∀ {v : Double} {p : ℚ}, Off B b v p → Off B (b + 6 * k + 24) v p := fun h => h.mono h0 (by linarith)
  have m1 : ∀ {v : Double} {p : ℚ}, Off B (b + 2 * k + 8) v p → Off B (b + 6 * k + 24) v p := fun h => h.mono h0 (by linarith)
  have m2 : ∀ {v : Double} {p : ℚ}, Off B (b + 4 * k + 16) v p → Off B (b + 6 * k + 24) v p := fun h => h.mono h0 (by linarith)
  have x4 := L1 x0 x1
  have x5 := L1 x1 x2
  have x6 := L1 x2 x3
  have x7 := L2 x4 x5
  have x8 := L2 x5 x6
  have x9 := L3 x7 x8
  have y4 := L1 y0 y1
  have y5 := L1 y1 y2
  have y6 := L1 y2 y3
  have y7 := L2 y4 y5
  have y8 := L2 y5 y6
  have y9 := L3 y7 y8
  intro l hl
  simp only [List.mem_cons, List.not_mem_nil, or_false] at hl
  rcases hl with rfl | rfl
  · exact ⟨⟨m0 x0, m0 y0⟩, ⟨m1 x4, m1 y4⟩, ⟨m2 x7, m2 y7⟩, x9, y9⟩
  · exact ⟨⟨x9, y9⟩, ⟨m2 x8, m2 y8⟩, ⟨m1 x6, m1 y6⟩, m0 x3, m0 y3⟩

/-- Errors in the control points move the curve by no more. -/
theorem bernstein_near {e a b c d a' b' c' d' t : ℚ} (h0 : 0 ≤ t) (h1 : t ≤ 1) (ha : |a' - a| ≤ e) (hb : |b' - b| ≤ e) (hc : |c' - c| ≤ e)
    (hd : |d' - d| ≤ e) : |bernstein a' b' c' d' t - bernstein a b c d t| ≤ e := by
  have w1 : 0 ≤ (1 - t) ^ 3 := pow_nonneg (by linarith) 3
  have w2 : 0 ≤ 3 * (1 - t) ^ 2 * t := mul_nonneg (mul_nonneg (by norm_num) (sq_nonneg _)) h0
  have w3 : 0 ≤ 3 * (1 - t) * t ^ 2 := mul_nonneg (mul_nonneg (by norm_num) (by linarith)) (sq_nonneg _)
  have w4 : 0 ≤ t ^ 3 := pow_nonneg h0 3
  have hs : (1 - t) ^ 3 + 3 * (1 - t) ^ 2 * t + 3 * (1 - t) * t ^ 2 + t ^ 3 = 1 := by ring
  unfold bernstein
  rw [abs_le] at *
  constructor
  · nlinarith [mul_le_mul_of_nonneg_left ha.1 w1, mul_le_mul_of_nonneg_left hb.1 w2, mul_le_mul_of_nonneg_left hc.1 w3, mul_le_mul_of_nonneg_left hd.1 w4]
  · nlinarith [mul_le_mul_of_nonneg_left ha.2 w1, mul_le_mul_of_nonneg_left hb.2 w2, mul_le_mul_of_nonneg_left hc.2 w3, mul_le_mul_of_nonneg_left hd.2 w4]

/-- One coordinate of `findPoint`. -/
theorem findPoint_near {B : ℚ} (h1 : 1 ≤ B) (hB : B ≤ 10 ^ 100) {t p q r s : Double} (ht : t.Finite) (t0 : 0 ≤ t.val) (t1 : t.val ≤ 1)
    (hp : Near p p.val B 0) (hq : Near q q.val B 0) (hr : Near r r.val B 0) (hs : Near s s.val B 0) :
    Near ((Arith.one -. t) *. (Arith.one -. t) *. (Arith.one -. t) *. p +. (Arith.one -. t) *. (Arith.one -. t) *. t *. Arith.lit 3 0 *. q +.
      (Arith.one -. t) *. (t *. t) *. Arith.lit 3 0 *. r +. t *. (t *. t) *. s) (bernstein p.val q.val r.val s.val t.val) (9 * B) (64 * (eps * B)) := by
  have hB200 : (100 : ℚ) * 10 ^ 100 ≤ 10 ^ 200 := by norm_num
  have l3 : Near (Arith.lit 3 0 : Double) 3 3 0 := by simpa using near_lit 3 (by norm_num)
  have nt : Near t t.val 1 0 := Near.self ht (by rw [abs_of_nonneg t0]; exact t1)
  have mt := near_one_sub ht t0 t1
  have mt2 := (mt.mul mt (by norm_num)).mono (m' := 1003 / 1000) (e' := 301 / 100 * eps) (by norm_num) (by norm_num)
  have t2 := (nt.mul nt (by norm_num)).mono (m' := 1001 / 1000) (e' := 101 / 100 * eps) (by norm_num) (by norm_num)
  have a := (mt2.mul mt (by norm_num)).mono (m' := 101 / 100) (e' := 51 / 10 * eps) (by norm_num) (by norm_num)
  have b := ((mt2.mul nt (by norm_num)).mul l3 (by norm_num)).mono (m' := 302 / 100) (e' := 152 / 10 * eps) (by norm_num) (by norm_num)
  have d := ((mt.mul t2 (by norm_num)).mul l3 (by norm_num)).mono (m' := 302 / 100) (e' := 122 / 10 * eps) (by norm_num) (by norm_num)
  have e := (nt.mul t2 (by norm_num)).mono (m' := 101 / 100) (e' := 21 / 10 * eps) (by norm_num) (by norm_num)
  have x1 := (a.mul hp (by norm_num at *; linarith)).mono (m' := 102 / 100 * B) (e' := 62 / 10 * (eps * B)) (by norm_num; linarith) (by norm_num; linarith)
  have x2 := (b.mul hq (by norm_num at *; linarith)).mono (m' := 303 / 100 * B) (e' := 183 / 10 * (eps * B)) (by norm_num; linarith) (by norm_num; linarith)
  have x3 := (d.mul hr (by norm_num at *; linarith)).mono (m' := 303 / 100 * B) (e' := 153 / 10 * (eps * B)) (by norm_num; linarith) (by norm_num; linarith)
  have x4 := (e.mul hs (by norm_num at *; linarith)).mono (m' := 102 / 100 * B) (e' := 32 / 10 * (eps * B)) (by norm_num; linarith) (by norm_num; linarith)
  have x := (((x1.add x2 (by norm_num at *; linarith)).add x3 (by norm_num at *; linarith)).add x4 (by norm_num at *; linarith)).mono (m' := 9 * B)
    (e' := 64 * (eps * B)) (by norm_num; linarith) (by norm_num; linarith)
  have hb : (1 - t.val) * (1 - t.val) * (1 - t.val) * p.val + (1 - t.val) * (1 - t.val) * t.val * 3 * q.val + (1 - t.val) * (t.val * t.val) * 3 * r.val +
      t.val * (t.val * t.val) * s.val = bernstein p.val q.val r.val s.val t.val := by
    unfold bernstein
    ring
  rwa [hb] at x

theorem bernstein_zero (a b c d : ℚ) : bernstein a b c d 0 = a := by unfold bernstein; ring

theorem bernstein_one (a b c d : ℚ) : bernstein a b c d 1 = d := by unfold bernstein; ring

/-- One step of de Casteljau. -/
theorem casteljau_off {B b : ℚ} (h1 : 1 ≤ B) (hB : B ≤ 10 ^ 100) (hb : b ≤ 1000) {v w t : Double} {p q : ℚ} (hv : Off B b v p)
    (hw : Off B b w q) (ht : t.Finite) (t0 : 0 ≤ t.val) (t1 : t.val ≤ 1) :
    Off B (b + 6) ((Arith.one -. t) *. v +. t *. w) ((1 - t.val) * p + t.val * q) := by
  have hbe : b * (eps * B) ≤ 1000 * (eps * B) := mul_le_mul_of_nonneg_right hb (mul_nonneg (by norm_num) (by linarith))
  have hB200 : (10 : ℚ) * 10 ^ 100 ≤ 10 ^ 200 := by norm_num
  have mag : ∀ {x : Double} {s : ℚ}, Off B b x s → |x.val| ≤ 1001 / 1000 * B := by
    intro x s h
    have := abs_add_le (x.val - s) s
    rw [sub_add_cancel] at this
    have := h.mag
    have := h.err
    norm_num at *
    linarith
  have nv := Near.self hv.fin (mag hv)
  have nw := Near.self hw.fin (mag hw)
  have nt : Near t t.val 1 0 := Near.self ht (by rw [abs_of_nonneg t0]; exact t1)
  have n1 := (((near_one_sub ht t0 t1).mul nv (by norm_num at *; linarith)).add (nt.mul nw (by norm_num at *; linarith)) (by norm_num at *; linarith)).mono
    (m' := 3 * B) (e' := 6 * (eps * B)) (by norm_num; linarith) (by norm_num; linarith)
  refine ⟨n1.fin, ?_, ?_⟩
  · have := convex_le hv.mag hw.mag t0 t1
    rwa [show p + t.val * (q - p) = (1 - t.val) * p + t.val * q by ring] at this
  · have e : ((Arith.one -. t) *. v +. t *. w).val - ((1 - t.val) * p + t.val * q) = (((Arith.one -. t) *. v +. t *. w).val - ((1 - t.val) * v.val + t.val * w.val)) +
        ((1 - t.val) * (v.val - p) + t.val * (w.val - q)) := by ring
    rw [e]
    have e1 : |(1 - t.val) * (v.val - p)| ≤ (1 - t.val) * (b * (eps * B)) := by
      rw [abs_mul, abs_of_nonneg (by linarith : 0 ≤ 1 - t.val)]; exact mul_le_mul_of_nonneg_left hv.err (by linarith)
    have e2 : |t.val * (w.val - q)| ≤ t.val * (b * (eps * B)) := by
      rw [abs_mul, abs_of_nonneg t0]; exact mul_le_mul_of_nonneg_left hw.err t0
    have a1 := abs_add_le (((Arith.one -. t) *. v +. t *. w).val - ((1 - t.val) * v.val + t.val * w.val)) ((1 - t.val) * (v.val - p) + t.val * (w.val - q))
    have a2 := abs_add_le ((1 - t.val) * (v.val - p)) (t.val * (w.val - q))
    have h3 := n1.err
    generalize eps * B = z at *
    linarith

/-- One coordinate of `derivative`. -/
theorem derivative_near {B : ℚ} (h1 : 1 ≤ B) (hB : B ≤ 10 ^ 100) {t p q r s : Double} (ht : t.Finite) (t0 : 0 ≤ t.val) (t1 : t.val ≤ 1)
    (hp : Near p p.val B 0) (hq : Near q q.val B 0) (hr : Near r r.val B 0) (hs : Near s s.val B 0) :
    Near ((Arith.one -. t) *. (Arith.one -. t) *. (Arith.lit 3 0 *. (q -. p)) +. (Arith.one -. t) *. t *. Arith.lit 2 0 *. (Arith.lit 3 0 *. (r -. q)) +.
      t *. t *. (Arith.lit 3 0 *. (s -. r)))
      ((1 - t.val) ^ 2 * (3 * (q.val - p.val)) + 2 * (1 - t.val) * t.val * (3 * (r.val - q.val)) + t.val ^ 2 * (3 * (s.val - r.val))) (25 * B)
      (180 * (eps * B)) := by
  have hB200 : (100 : ℚ) * 10 ^ 100 ≤ 10 ^ 200 := by norm_num
  have l3 : Near (Arith.lit 3 0 : Double) 3 3 0 := by simpa using near_lit 3 (by norm_num)
  have l2 : Near (Arith.lit 2 0 : Double) 2 2 0 := by simpa using near_lit 2 (by norm_num)
  have nt : Near t t.val 1 0 := Near.self ht (by rw [abs_of_nonneg t0]; exact t1)
  have mt := near_one_sub ht t0 t1
  have a := (mt.mul mt (by norm_num)).mono (m' := 1003 / 1000) (e' := 301 / 100 * eps) (by norm_num) (by norm_num)
  have b := ((mt.mul nt (by norm_num)).mul l2 (by norm_num)).mono (m' := 201 / 100) (e' := 602 / 100 * eps) (by norm_num) (by norm_num)
  have d := (nt.mul nt (by norm_num)).mono (m' := 1001 / 1000) (e' := 101 / 100 * eps) (by norm_num) (by norm_num)
  have D : ∀ {v w : Double}, Near v v.val B 0 → Near w w.val B 0 → Near (Arith.lit 3 0 *. (w -. v)) (3 * (w.val - v.val)) (601 / 100 * B) (1202 / 100 * (eps * B)) := by
    intro v w hv hw
    exact (l3.mul (hw.sub hv (by norm_num at *; linarith)) (by norm_num at *; linarith)).mono (by norm_num; linarith) (by norm_num; linarith)
  have x1 := (a.mul (D hp hq) (by norm_num at *; linarith)).mono (m' := 604 / 100 * B) (e' := 367 / 10 * (eps * B)) (by norm_num; linarith) (by norm_num; linarith)
  have x2 := (b.mul (D hq hr) (by norm_num at *; linarith)).mono (m' := 1209 / 100 * B) (e' := 736 / 10 * (eps * B)) (by norm_num; linarith) (by norm_num; linarith)
  have x3 := (d.mul (D hr hs) (by norm_num at *; linarith)).mono (m' := 603 / 100 * B) (e' := 244 / 10 * (eps * B)) (by norm_num; linarith) (by norm_num; linarith)
  have x := ((x1.add x2 (by norm_num at *; linarith)).add x3 (by norm_num at *; linarith)).mono (m' := 25 * B)
    (e' := 180 * (eps * B)) (by norm_num; linarith) (by norm_num; linarith)
  have e : (1 - t.val) * (1 - t.val) * (3 * (q.val - p.val)) + (1 - t.val) * t.val * 2 * (3 * (r.val - q.val)) + t.val * t.val * (3 * (s.val - r.val)) =
      (1 - t.val) ^ 2 * (3 * (q.val - p.val)) + 2 * (1 - t.val) * t.val * (3 * (r.val - q.val)) + t.val ^ 2 * (3 * (s.val - r.val)) := by ring
  rwa [e] at x

theorem splitCurve_double (c : Curve Double) {t : Double} (ht : t.Finite) (h : t.val ≠ 0) : splitCurve c t = halves c t := by
  have e0 : (t ==. Arith.zero) = false := by
    rw [Bool.eq_false_iff, Ne, eq_finite ht near_zero.fin, zero_val]
    exact h
  have e1 : ((Arith.lit (-1) 0 : Double) ==. Arith.one) = false := by decide +kernel
  have e2 : ((Arith.lit (-1) 0 : Double) <. Arith.zero) = true := by decide +kernel
  simp only [splitCurve, splitSection, e0, e1, e2, Bool.false_eq_true, if_false, if_true, splitAt]

/-- The coordinates of a computed curve. -/
def OffCurve (B b : ℚ) (c : Curve Double) (d : Curve ℚ) : Prop :=
  (Off B b c.p0.x d.p0.x ∧ Off B b c.p0.y d.p0.y) ∧ (Off B b c.p1.x d.p1.x ∧ Off B b c.p1.y d.p1.y) ∧
    (Off B b c.p2.x d.p2.x ∧ Off B b c.p2.y d.p2.y) ∧ (Off B b c.p3.x d.p3.x ∧ Off B b c.p3.y d.p3.y)

theorem off_self {B : ℚ} {c : Curve Double} (hc : CurveUpTo B c) : OffCurve B 0 c (valCurve c) := by
  obtain ⟨⟨a1, a2, a3, a4⟩, ⟨b1, b2, b3, b4⟩, ⟨c1, c2, c3, c4⟩, d1, d2, d3, d4⟩ := hc
  exact ⟨⟨Off.self a1 a3, Off.self a2 a4⟩, ⟨Off.self b1 b3, Off.self b2 b4⟩, ⟨Off.self c1 c3, Off.self c2 c4⟩, Off.self d1 d3, Off.self d2 d4⟩

theorem OffCurve.finite {B b : ℚ} {c : Curve Double} {d : Curve ℚ} (h : OffCurve B b c d) (h1 : 1 ≤ B) (hb : b ≤ 1000) : CurveUpTo (B + b * (eps * B)) c := by
  have key : ∀ {x : Double} {p : ℚ}, Off B b x p → |x.val| ≤ B + b * (eps * B) := by
    intro x p h
    have := abs_add_le (x.val - p) p
    rw [sub_add_cancel] at this
    linarith [h.mag, h.err]
  obtain ⟨⟨a1, a2⟩, ⟨b1, b2⟩, ⟨c1, c2⟩, d1, d2⟩ := h
  exact ⟨⟨a1.fin, a2.fin, key a1, key a2⟩, ⟨b1.fin, b2.fin, key b1, key b2⟩, ⟨c1.fin, c2.fin, key c1, key c2⟩, d1.fin, d2.fin, key d1, key d2⟩

theorem OffCurve.near {B b : ℚ} {c : Curve Double} {d : Curve ℚ} (h : OffCurve B b c d) {u : ℚ} (h0 : 0 ≤ u) (h1 : u ≤ 1) :
    NearPt (b * (eps * B)) (curveAt (valCurve c) u) (curveAt d u) := by
  obtain ⟨⟨a1, a2⟩, ⟨b1, b2⟩, ⟨c1, c2⟩, d1, d2⟩ := h
  exact ⟨bernstein_near h0 h1 a1.err b1.err c1.err d1.err, bernstein_near h0 h1 a2.err b2.err c2.err d2.err⟩

theorem param_self {t : Double} (ht : t.Finite) (t0 : 0 ≤ t.val) (t1 : t.val ≤ 1) : Param 0 t t.val :=
  ⟨ht, t0, by norm_num; linarith, t0, t1, by simp⟩

/-- The parameter of the second cut of a section. -/
theorem mapRange_param {s t : Double} (hs : s.Finite) (ht : t.Finite) (h0 : 0 ≤ s.val) (h1 : s.val < t.val) (h2 : t.val ≤ 1) (h3 : s.val < 1) :
    Param 4 (mapRange t s Arith.one Arith.zero Arith.one) ((t.val - s.val) / (1 - s.val)) ∧ (mapRange t s Arith.one Arith.zero Arith.one).val ≠ 0 := by
  obtain ⟨r1, r2, r3⟩ := ratio_near hs ht h0 h1 h2 h3
  have k0 : 0 ≤ (t.val - s.val) / (1 - s.val) := div_nonneg (by linarith) (by linarith)
  have k1 : (t.val - s.val) / (1 - s.val) ≤ 1 := (div_le_one (by linarith)).2 (by linarith)
  have hi : ((t -. s) /. (Arith.one -. s)).val ≤ 1 + 10 * eps := by
    rw [abs_le] at r3
    norm_num at *
    linarith [r3.2]
  have e : mapRange t s Arith.one Arith.zero Arith.one = (t -. s) /. (Arith.one -. s) := by
    have hb : |((t -. s) /. (Arith.one -. s)).val| ≤ big := by
      rw [abs_of_pos r2]
      have : (1 : ℚ) + 10 * eps ≤ big := by decide +kernel
      linarith
    have e1 : (Arith.one -. Arith.zero : Double) = Arith.one := by decide +kernel
    have e2 : (Arith.one : Double) *. ((t -. s) /. (Arith.one -. s)) = (t -. s) /. (Arith.one -. s) := by
      rw [mul_eq_of near_one.fin r1, one_val, one_mul, of_val r1 hb]
    have e3 : (Arith.zero : Double) +. ((t -. s) /. (Arith.one -. s)) = (t -. s) /. (Arith.one -. s) := by
      rw [add_eq_of near_zero.fin r1, zero_val, zero_add, of_val r1 hb]
    rw [mapRange, e1, e2, e3]
  rw [e]
  exact ⟨⟨r1, r2.le, hi, k0, k1, r3⟩, r2.ne'⟩

end Verif.Bezier
