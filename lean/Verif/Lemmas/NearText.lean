import Verif.Lemmas.NearPath
import Verif.Lemmas.PathText

/-!
# Printing and reading doubles
-/

namespace Verif.Path

open Verif Verif.Spec Verif.Double

/-- What is read after a double was written with `n` decimals: the double next to the rounded decimal. -/
def readDouble (n : Nat) (x : Double) : Double := ⟨.fin (rnd (Decimal.rounded n x.val))⟩

theorem rounded_le (n : Nat) (q : ℚ) : |Decimal.rounded n q| ≤ |q| + 1 / 2 := by
  have h := Decimal.rounded_close n q
  have h1 : (1 : ℚ) / 2 / 10 ^ n ≤ 1 / 2 := div_le_self (by norm_num) (one_le_pow₀ (by norm_num))
  have h2 := abs_add_le (Decimal.rounded n q - q) q
  rw [sub_add_cancel] at h2
  linarith

theorem rnd_le (q : ℚ) : |rnd q| ≤ |q| * (1 + eps) + 1 / 10 ^ 40 := by
  have h := rnd_err q
  have h2 := abs_add_le (rnd q - q) q
  rw [sub_add_cancel] at h2
  linarith

theorem clean_double (n : Nat) {x : Double} (hx : x.Finite) : Clean (Num.fmt n x) := by
  obtain ⟨q, h, -⟩ := hx
  have : (Num.fmt n x : Text) = Decimal.fmt n q := by
    show Num.fmt n x.num = _
    rw [h]
    rfl
  rw [this]
  exact clean_fmt n q

theorem toFloat_double (n : Nat) {x : Double} (hx : x.Finite) (hb : |x.val| ≤ 10 ^ 100) : toFloat (Num.fmt n x) = some (readDouble n x) := by
  have hf : (Num.fmt n x : Text) = Decimal.fmt n x.val := by
    show Num.fmt n x.num = _
    conv_lhs => rw [hx.eq.1]
    rfl
  have ht : trimSpace (Decimal.fmt n x.val) = Decimal.fmt n x.val :=
    trimSpace_of_none (fun c hc => (fmtChar_facts (signedText_chars _ _ _ c hc)).2.2)
  have hp : (Num.parse (Decimal.fmt n x.val) : Option (XNum ℚ)) = some (.fin (Decimal.rounded n x.val)) := by
    have := Decimal.value_parse_fmt n x.val
    show (match Decimal.parseDecimal (Decimal.fmt n x.val) with
      | some d => some (XNum.fin (Decimal.value d))
      | none => XNum.parseSpecial _) = _
    cases h : Decimal.parseDecimal (Decimal.fmt n x.val) with
    | none => simp [h] at this
    | some d =>
      rw [h] at this
      simpa using this
  have hbig : |rnd (Decimal.rounded n x.val)| ≤ big := by
    have h1 := rounded_le n x.val
    have h2 := rnd_le (Decimal.rounded n x.val)
    have h3 : (10 : ℚ) ^ 101 ≤ big := by decide +kernel
    have h4 : |Decimal.rounded n x.val| * (1 + eps) ≤ (10 ^ 100 + 1 / 2) * 2 := mul_le_mul (by linarith) (by norm_num) (by norm_num) (by norm_num)
    have h5 : (10 ^ 100 + 1 / 2) * 2 + 1 / 10 ^ 40 ≤ (10 : ℚ) ^ 101 := by norm_num
    linarith
  unfold toFloat
  rw [hf, ht]
  show (match (Num.parse (Decimal.fmt n x.val) : Option (XNum ℚ)) with
    | some (.fin q) => match of (.fin q) with
      | ⟨.fin r⟩ => some (Double.mk (.fin r))
      | _ => none
    | some x => some (Double.mk x)
    | none => none) = _
  rw [hp]
  simp only [of_fin hbig]
  rfl

theorem finite_read (n : Nat) (x : Double) : (readDouble n x).Finite := finite_rnd _

/-- A number that is nearer to a decimal than half a unit is rounded to it. -/
theorem rounded_near {n : Nat} {q y : ℚ} (h : |y - Decimal.rounded n q| < 1 / 2 / 10 ^ n) : Decimal.rounded n y = Decimal.rounded n q := by
  have hp : (0 : ℚ) < 10 ^ n := by positivity
  have hz : ∀ x : ℚ, ∃ m : ℤ, Decimal.rounded n x = m / 10 ^ n := by
    intro x
    refine ⟨(if x < 0 then -1 else 1) * (Decimal.roundHalfEven (|x| * 10 ^ n) : ℤ), ?_⟩
    rw [Decimal.rounded]
    push_cast
    split_ifs <;> simp
  obtain ⟨m, hm⟩ := hz y
  obtain ⟨k, hk⟩ := hz q
  have hc := Decimal.rounded_close n y
  have h1 : |Decimal.rounded n y - Decimal.rounded n q| < 1 / 10 ^ n := by
    have := abs_add_le (Decimal.rounded n y - y) (y - Decimal.rounded n q)
    rw [sub_add_sub_cancel] at this
    have e : (1 : ℚ) / 10 ^ n = 1 / 2 / 10 ^ n + 1 / 2 / 10 ^ n := by ring
    linarith
  rw [hm, hk, ← sub_div, abs_div, abs_of_pos hp, div_lt_div_iff_of_pos_right hp] at h1
  have h2 : |m - k| < 1 := by exact_mod_cast h1
  rw [Int.abs_lt_one_iff] at h2
  rw [hm, hk, sub_eq_zero.1 h2]

/-- Writing and reading twice is the same as once, as long as a unit of the last decimal is well above the distance of the doubles. -/
theorem read_idem {n : Nat} {x : Double} {B : ℚ} (hb : |x.val| ≤ B) (hB : (B + 1) * 10 ^ n ≤ 2 ^ 51) : readDouble n (readDouble n x) = readDouble n x := by
  have hp : (0 : ℚ) < 10 ^ n := by positivity
  have key : Decimal.rounded n (rnd (Decimal.rounded n x.val)) = Decimal.rounded n x.val := by
    apply rounded_near
    have h1 := rnd_err (Decimal.rounded n x.val)
    have h2 := rounded_le n x.val
    refine h1.trans_lt ?_
    have h3 : B + 1 ≤ 2 ^ 51 / 10 ^ n := by rwa [le_div_iff₀ hp]
    have h4 : eps * |Decimal.rounded n x.val| ≤ eps * (2 ^ 51 / 10 ^ n) := mul_le_mul_of_nonneg_left (by linarith) (by norm_num)
    have h5 : eps * (2 ^ 51 / 10 ^ n) = 1 / 4 / 10 ^ n := by
      rw [← mul_div_assoc]
      congr 1
      norm_num
    have h6 : (1 : ℚ) / 10 ^ 40 < 1 / 4 / 10 ^ n := by
      rw [div_div, div_lt_div_iff₀ (by positivity) (by positivity)]
      have : (10 : ℚ) ^ n ≤ 2 ^ 51 := by
        refine le_trans ?_ hB
        have : (0 : ℚ) ≤ B := (abs_nonneg _).trans hb
        nlinarith
      norm_num at this ⊢
      linarith
    have h7 : (1 : ℚ) / 2 / 10 ^ n = 1 / 4 / 10 ^ n + 1 / 4 / 10 ^ n := by ring
    linarith
  unfold readDouble
  rw [show (⟨.fin (rnd (Decimal.rounded n x.val))⟩ : Double).val = rnd (Decimal.rounded n x.val) from rfl, key]

theorem near_read {n : Nat} {x : Double} {B : ℚ} (h1 : 1 ≤ B) (hb : |x.val| ≤ B) :
    |(readDouble n x).val| ≤ 2 * B ∧ |(readDouble n x).val - x.val| ≤ 1 / 2 / 10 ^ n + 2 * (eps * B) := by
  have e1 := rnd_err (Decimal.rounded n x.val)
  have e2 := rounded_le n x.val
  have e3 := Decimal.rounded_close n x.val
  have e4 : eps * |Decimal.rounded n x.val| ≤ eps * (B + 1 / 2) := mul_le_mul_of_nonneg_left (by linarith) (by norm_num)
  have e5 : eps * 1 ≤ eps * B := mul_le_mul_of_nonneg_left h1 (by norm_num)
  have e6 : (1 : ℚ) / 10 ^ 40 ≤ eps / 2 := by norm_num
  have e7 := abs_add_le (rnd (Decimal.rounded n x.val) - Decimal.rounded n x.val) (Decimal.rounded n x.val - x.val)
  rw [sub_add_sub_cancel] at e7
  show |rnd (Decimal.rounded n x.val)| ≤ _ ∧ |rnd (Decimal.rounded n x.val) - x.val| ≤ _
  refine ⟨?_, by linarith⟩
  have e8 := rnd_le (Decimal.rounded n x.val)
  have e9 : |Decimal.rounded n x.val| * (1 + eps) ≤ (B + 1 / 2) * (1 + 1 / 10) := mul_le_mul (by linarith) (by norm_num) (by norm_num) (by linarith)
  have e0 : (1 : ℚ) / 10 ^ 40 ≤ 1 / 10 := by norm_num
  linarith

/-! ### Paths -/

def readPoint (n : Nat) (p : Point Double) : Point Double := newPoint (readDouble n p.x) (readDouble n p.y)

/-- `newPoint` keeps finite doubles as they are: there is one zero. -/
theorem newPoint_finite {x y : Double} (hx : x.Finite) (hy : y.Finite) : pt (newPoint x y) = (x, y) := by
  have key : ∀ {x : Double}, x.Finite → (if x ==. Arith.zero then Arith.zero else x) = x := by
    intro x h
    split
    · rename_i h0
      have hv : x.val = 0 := by
        rw [(eq_finite h near_zero.fin).1 h0, zero_val]
      rw [h.eq.1, hv]
      decide +kernel
    · rfl
  simp only [pt, newPoint, key hx, key hy]

theorem pt_readPoint (n : Nat) (p : Point Double) : pt (readPoint n p) = (readDouble n p.x, readDouble n p.y) := newPoint_finite (finite_read _ _) (finite_read _ _)

/-- The segment that is read, after a path. -/
def rereadSegment (n : Nat) (p : Path Double) : Segment Double → Segment Double
  | .move _ e => .move (currentPosition p) (readPoint n e)
  | .line _ e => .line (currentPosition p) (readPoint n e)
  | .curve _ c1 c2 e => .curve (currentPosition p) (readPoint n c1) (readPoint n c2) (readPoint n e)

def reread (n : Nat) (p : Path Double) (s : Segment Double) : Path Double := p ++ [rereadSegment n p s]

theorem targets_bounded {B : ℚ} {s : Segment Double} (h : TargetsUpTo B s) : ∀ x ∈ s.targets, x.Finite ∧ |x.val| ≤ B := by
  cases s with
  | move a b =>
    obtain ⟨h1, h2, h3, h4⟩ := h
    simp only [Segment.targets, List.forall_mem_cons]
    exact ⟨⟨h1, h3⟩, ⟨h2, h4⟩, by simp⟩
  | line a b =>
    obtain ⟨h1, h2, h3, h4⟩ := h
    simp only [Segment.targets, List.forall_mem_cons]
    exact ⟨⟨h1, h3⟩, ⟨h2, h4⟩, by simp⟩
  | curve a c d b =>
    obtain ⟨⟨h1, h2, h3, h4⟩, ⟨k1, k2, k3, k4⟩, ⟨l1, l2, l3, l4⟩⟩ := h
    simp only [Segment.targets, List.forall_mem_cons]
    exact ⟨⟨h1, h3⟩, ⟨h2, h4⟩, ⟨k1, k3⟩, ⟨k2, k4⟩, ⟨l1, l3⟩, ⟨l2, l4⟩, by simp⟩

theorem parseItems_doubles (n : Nat) (q : Path Double) (hq : ∀ s ∈ q, TargetsUpTo (10 ^ 100) s) : ∀ p : Path Double,
    parseItems (q.flatMap (segItems n)) p = some (q.foldl (reread n) p) := by
  induction q with
  | nil => intro p; rfl
  | cons s q ih =>
    intro p
    have hs := targets_bounded (hq s (by simp))
    have ih' := ih fun s hs => hq s (by simp [hs])
    cases s with
    | move a b =>
      simp only [Segment.targets, List.forall_mem_cons] at hs
      have h1 := toFloat_double n hs.1.1 hs.1.2
      have h2 := toFloat_double n hs.2.1.1 hs.2.1.2
      simp [List.flatMap_cons, segItems, parseItems_cons, nextCommand, nextFloats, h1, h2, ih']
      rfl
    | line a b =>
      simp only [Segment.targets, List.forall_mem_cons] at hs
      have h1 := toFloat_double n hs.1.1 hs.1.2
      have h2 := toFloat_double n hs.2.1.1 hs.2.1.2
      simp [List.flatMap_cons, segItems, parseItems_cons, nextCommand, nextFloats, h1, h2, ih']
      rfl
    | curve a c d b =>
      simp only [Segment.targets, List.forall_mem_cons] at hs
      obtain ⟨g1, g2, g3, g4, g5, g6, -⟩ := hs
      have h1 := toFloat_double n g1.1 g1.2
      have h2 := toFloat_double n g2.1 g2.2
      have h3 := toFloat_double n g3.1 g3.2
      have h4 := toFloat_double n g4.1 g4.2
      have h5 := toFloat_double n g5.1 g5.2
      have h6 := toFloat_double n g6.1 g6.2
      simp [List.flatMap_cons, segItems, parseItems_cons, nextCommand, nextFloats, h1, h2, h3, h4, h5, h6, ih']
      rfl

theorem parsePath_doubles (n : Nat) (q : Path Double) (hq : ∀ s ∈ q, TargetsUpTo (10 ^ 100) s) :
    parsePath (printPath n q) = some (q.foldl (reread n) []) := by
  rw [parsePath, printPath_items_on q fun s hs => clean_segItems fun x hx => clean_double n (targets_bounded (hq s hs) x hx).1, parseItems_doubles n q hq]

theorem stop_reread (n : Nat) (p : Path Double) (s : Segment Double) : (rereadSegment n p s).stop = readPoint n s.stop := by
  cases s <;> rfl

theorem reread_connected (n : Nat) (q : Path Double) : ∀ p : Path Double, Connected p → Connected (q.foldl (reread n) p) := by
  induction q with
  | nil => intro p h; exact h
  | cons s q ih =>
    intro p h
    apply ih
    rw [reread, connected_snoc]
    refine ⟨h, ?_⟩
    cases s <;> exact meets_refl _

/-- What is read draws what SVG draws, with each coordinate read. -/
theorem reread_svg (n : Nat) (q : Path Double) : ∀ (p : Path Double) (c : Pt Double), pt (currentPosition p) = (readDouble n c.1, readDouble n c.2) →
    strokes (q.foldl (reread n) p) = strokes p ++ (svgStrokes c q).map (Stroke.map fun r => (readDouble n r.1, readDouble n r.2)) := by
  induction q with
  | nil => intro p c _; simp [svgStrokes]
  | cons s q ih =>
    intro p c hc
    rw [List.foldl_cons, ih _ (pt s.stop) (by rw [reread, currentPosition_append, stop_reread, pt_readPoint]; rfl), reread, strokes_append]
    cases s <;> simp [rereadSegment, svgStrokes, strokes_cons, strokeOf, Stroke.map, pt_readPoint, hc, Segment.stop] <;> simp [pt]

theorem readPoint_idem {n : Nat} {B : ℚ} (hB : (B + 1) * 10 ^ n ≤ 2 ^ 51) {p : Point Double} (h : PtUpTo B (pt p)) : readPoint n (readPoint n p) = readPoint n p := by
  have e := pt_readPoint n p
  simp only [pt, Prod.mk.injEq] at e
  obtain ⟨-, -, h3, h4⟩ := h
  rw [readPoint, e.1, e.2, read_idem (x := p.x) h3 hB, read_idem (x := p.y) h4 hB]
  rfl

/-- Reading what was read and written again gives the same. -/
theorem reread_stable {n : Nat} {B : ℚ} (hB : (B + 1) * 10 ^ n ≤ 2 ^ 51) (q : Path Double) (hq : ∀ s ∈ q, TargetsUpTo B s) : ∀ p : Path Double,
    ∃ r, q.foldl (reread n) p = p ++ r ∧ r.foldl (reread n) p = p ++ r := by
  induction q with
  | nil => intro p; exact ⟨[], by simp, by simp⟩
  | cons s q ih =>
    intro p
    obtain ⟨r, h1, h2⟩ := ih (fun s hs => hq s (by simp [hs])) (p ++ [rereadSegment n p s])
    have e : rereadSegment n p (rereadSegment n p s) = rereadSegment n p s := by
      have := hq s (by simp)
      cases s with
      | move a b => simp only [rereadSegment, readPoint_idem hB this]
      | line a b => simp only [rereadSegment, readPoint_idem hB this]
      | curve a c d b => simp only [rereadSegment, readPoint_idem hB this.1, readPoint_idem hB this.2.1, readPoint_idem hB this.2.2]
    refine ⟨rereadSegment n p s :: r, ?_, ?_⟩
    · rw [List.foldl_cons, reread, h1]
      simp
    · rw [List.foldl_cons, reread, e, h2]
      simp

/-- The coordinates that are read are bounded. -/
theorem reread_targets {n : Nat} {B : ℚ} (h1 : 1 ≤ B) (q : Path Double) (hq : ∀ s ∈ q, TargetsUpTo B s) : ∀ p : Path Double, (∀ s ∈ p, TargetsUpTo (2 * B) s) →
    ∀ s ∈ q.foldl (reread n) p, TargetsUpTo (2 * B) s := by
  have key : ∀ {a : Point Double}, PtUpTo B (pt a) → PtUpTo (2 * B) (pt (readPoint n a)) := by
    intro a h
    rw [pt_readPoint]
    exact ⟨finite_read _ _, finite_read _ _, (near_read h1 h.2.2.1).1, (near_read h1 h.2.2.2).1⟩
  induction q with
  | nil => intro p h; exact h
  | cons s q ih =>
    intro p h
    refine ih (fun s hs => hq s (by simp [hs])) _ ?_
    intro t ht
    rw [reread, List.mem_append, List.mem_singleton] at ht
    rcases ht with ht | rfl
    · exact h t ht
    · have := hq s (by simp)
      cases s with
      | move a b => exact key this
      | line a b => exact key this
      | curve a c d b => exact ⟨key this.1, key this.2.1, key this.2.2⟩

end Verif.Path
