import Verif.Lemmas.PathText
import Verif.Lemmas.Dynmap
import Verif.Spec.Components
import Verif.Props.Parts

/-!
# Properties of the components that place copies, and of the names of points: C83 to C85
-/

namespace Verif.Path

open Verif Verif.Spec XNum

set_option linter.unusedSectionVars false
set_option linter.unusedSimpArgs false

/-! ## C83 The attributes of a path name the points that they say -/

/-- A printed number is read back as the rounded number. -/
theorem toFloat_fmt_fin (n : Nat) (a : ℝ) : toFloat (Num.fmt n (fin a : XNum ℝ)) = some (fin (Decimal.rounded n a)) := by
  have ht : trimSpace (Decimal.fmt n a) = Decimal.fmt n a :=
    trimSpace_of_none (fun c hc => (fmtChar_facts (signedText_chars _ _ _ c hc)).2.2)
  have h : (Decimal.parseDecimal (Decimal.fmt n a)).map Decimal.value = some (Decimal.rounded n a) := Decimal.value_parse_fmt n a
  unfold toFloat
  rw [fmt_fin, ht]
  change (match Decimal.parseDecimal (Decimal.fmt n a) with
    | some d => some (fin (Decimal.value d))
    | none => parseSpecial (Decimal.fmt n a)) = _
  cases hp : Decimal.parseDecimal (Decimal.fmt n a) with
  | none => rw [hp] at h; cases h
  | some d =>
    rw [hp] at h
    simp only [Option.map_some, Option.some.injEq] at h
    rw [← h]

theorem comma_not_mem_fmt (n : Nat) (a : ℝ) : ',' ∉ Num.fmt n (fin a : XNum ℝ) := by
  intro h
  rw [fmt_fin] at h
  have := (fmtChar_facts (signedText_chars _ _ _ _ h)).1
  exact absurd this (by decide)

theorem parsePoint_pointText (n : Nat) (c : Point ℝ) :
    parsePoint (pointText n (finPt c)) = some (finPt (mk (Decimal.rounded n c.x, Decimal.rounded n c.y))) := by
  unfold parsePoint pointText
  simp only [finPt]
  rw [Dyn.splitOn_sep (comma_not_mem_fmt n c.x), Dyn.splitOn_plain (comma_not_mem_fmt n c.y)]
  simp only [List.reverse_nil, List.nil_append, toFloat_fmt_fin, newPoint_mk]
  rfl

section Texts

variable {F : Type} [Trig F]

/-- **C83.** A text of two numbers with a comma between them names the point with these coordinates, whatever the path. -/
theorem C83_numbers (a b : Text) (ha : ',' ∉ a) (hb : ',' ∉ b) (x y : F) (hx : toFloat a = some x) (hy : toFloat b = some y) (p : Path F) :
    pathAttribute (a ++ ',' :: b) p = .ok (.point (newPoint x y)) ∧ pointAttribute (a ++ ',' :: b) p = .ok (newPoint x y) := by
  have h : parsePoint (a ++ ',' :: b) = some (newPoint x y) := by
    unfold parsePoint
    rw [Dyn.splitOn_sep ha, Dyn.splitOn_plain hb]
    simp only [List.reverse_nil, List.nil_append, hx, hy]
  constructor <;> simp only [pointAttribute, pathAttribute, h]

/-- **C83.** A text without a comma that does not begin with one of the names is an error. -/
theorem C83_unknown (s name : Text) (more : List Text) (hs : ',' ∉ s) (hd : splitOn '.' s [] = name :: more) (hn : Attr.ofText name = none) (p : Path F) :
    pathAttribute s p = .err := by
  unfold pathAttribute parsePoint
  rw [Dyn.splitOn_plain hs]
  simp only [hd, hn]

end Texts

/-- **C83.** The text that the code makes from a point names this point, rounded to the precision. -/
theorem C83_printed (n : Nat) (c : Point ℝ) (p : Path (XNum ℝ)) :
    ∃ q : Pt ℝ, pointAttribute (pointText n (finPt c)) p = .ok (finPt (mk q)) ∧ |q.1 - c.x| ≤ 1 / 2 / 10 ^ n ∧ |q.2 - c.y| ≤ 1 / 2 / 10 ^ n := by
  refine ⟨(Decimal.rounded n c.x, Decimal.rounded n c.y), ?_, Decimal.rounded_close n c.x, Decimal.rounded_close n c.y⟩
  simp only [pointAttribute, pathAttribute, parsePoint_pointText]

/-- The names of the points of the box. -/
def boxHandles : List Attr :=
  [.topLeft, .topRight, .topMiddle, .bottomLeft, .bottomRight, .bottomMiddle, .middleLeft, .middleRight, .middleMiddle]

theorem split_field (a : Attr) (f : Char) (hf : f ≠ '.' ∧ f ≠ ',') :
    splitOn ',' (a.text ++ ['.', f]) [] = [a.text ++ ['.', f]] ∧ splitOn '.' (a.text ++ ['.', f]) [] = [a.text, [f]] := by
  have h1 : ',' ∉ a.text := by cases a <;> decide +kernel
  have h2 : '.' ∉ a.text := by cases a <;> decide +kernel
  constructor
  · have : ',' ∉ a.text ++ ['.', f] := by
      simp only [List.mem_append, List.mem_cons, List.not_mem_nil, or_false, not_or]
      exact ⟨h1, by decide, Ne.symm hf.2⟩
    rw [Dyn.splitOn_plain this]
    rfl
  · rw [show a.text ++ ['.', f] = a.text ++ '.' :: [f] from rfl, Dyn.splitOn_sep h2, Dyn.splitOn_plain (by simp [Ne.symm hf.1])]
    rfl

/-- What a name followed by `.X` or `.Y` gives. -/
theorem pathAttribute_field {F : Type} [Trig F] (a : Attr) (f : Char) (hf : f ≠ '.' ∧ f ≠ ',') (p : Path F) :
    pathAttribute (a.text ++ ['.', f]) p = match namedValue a p with
      | .err => .err
      | .panic => .panic
      | .ok (v, false) => .ok v
      | .ok (.number x, true) => .ok (.number x)
      | .ok (.point q, true) => if f = 'X' then .ok (.number q.x) else if f = 'Y' then .ok (.number q.y) else .err := by
  obtain ⟨h1, h2⟩ := split_field a f hf
  have h3 := (split_text a).2.2
  unfold pathAttribute parsePoint
  simp only [h1, h2, h3]
  rcases namedValue a p with ⟨v | v, _ | _⟩ | _ | _ <;> simp

/-- **C83.** The name of a point of the box followed by `.X` or `.Y` is the coordinate of that point. -/
theorem C83_coordinates (p : Path ℝ) (hne : strokes p ≠ []) (hs : Small p) (a : Attr) (ha : a ∈ boxHandles) :
    ∃ q : Pt ℝ, IsAnchor p a q ∧ pathAttribute (a.text ++ ".X".toList) (finPath p) = .ok (.number (fin q.1)) ∧
      pathAttribute (a.text ++ ".Y".toList) (finPath p) = .ok (.number (fin q.2)) := by
  have hm : a ∈ handles := by
    revert ha
    cases a <;> decide
  obtain ⟨q, h1, h2⟩ := C28_handles p hne hs a hm
  refine ⟨pt q, h2, ?_⟩
  rw [pointAttribute_text] at h1
  have hX : ".X".toList = ['.', 'X'] := rfl
  have hY : ".Y".toList = ['.', 'Y'] := rfl
  rw [hX, hY, pathAttribute_field _ _ (by decide), pathAttribute_field _ _ (by decide)]
  have hb : ∀ v b, namedValue a (finPath p) = .ok (v, b) → b = true := by
    intro v b hv
    revert ha hv
    cases a <;> simp [boxHandles, namedValue] <;> intros <;> simp_all
  revert h1 hb
  rcases namedValue a (finPath p) with ⟨v | v, b⟩ | _ | _ <;> intro h1 hb <;> simp only [reduceCtorEq, Res.ok.injEq] at h1
  have := hb _ _ rfl
  subst this
  subst h1
  simp [finPt, pt]

/-- **C83.** The width and the height are those of the box of the drawing. -/
theorem C83_size (p : Path ℝ) (hne : strokes p ≠ []) (hs : Small p) : ∃ tl br : Pt ℝ, BoxOf (Drawn p) tl br ∧
    pathAttribute Attr.width.text (finPath p) = .ok (.number (fin (br.1 - tl.1))) ∧
    pathAttribute Attr.height.text (finPath p) = .ok (.number (fin (br.2 - tl.2))) := by
  obtain ⟨tl, br, hb, hbox⟩ := trimmedBox_fin hne hs
  refine ⟨tl, br, hbox, ?_⟩
  have key : ∀ a : Attr, pathAttribute a.text (finPath p) = match namedValue a (finPath p) with
      | .err => .err
      | .panic => .panic
      | .ok (v, _) => .ok v := by
    intro a
    obtain ⟨h1, h2, h3⟩ := split_text a
    unfold pathAttribute parsePoint
    simp only [h1, h2, h3]
    rcases namedValue a (finPath p) with ⟨v | v, _ | _⟩ | _ | _ <;> simp
  constructor <;> simp [key, namedValue, hb, finPt, mk]

/-- **C83.** The start and the end of the drawing have no coordinates: `$START_POINT.X` is the whole point. -/
theorem C83_start_false (a : Attr) (ha : a = .startPoint ∨ a = .endPoint) (p : Path ℝ) (hne : strokes p ≠ []) (hs : Small p) :
    ∃ q : Point ℝ, IsAnchor p a (pt q) ∧ pathAttribute (a.text ++ ".X".toList) (finPath p) = .ok (.point (finPt q)) := by
  have hm : a ∈ handles := by
    rcases ha with rfl | rfl <;> decide
  obtain ⟨q, h1, h2⟩ := C28_handles p hne hs a hm
  refine ⟨q, h2, ?_⟩
  rw [pointAttribute_text] at h1
  rw [show ".X".toList = ['.', 'X'] from rfl, pathAttribute_field _ _ (by decide)]
  have hb : ∀ v b, namedValue a (finPath p) = .ok (v, b) → b = false := by
    intro v b hv
    rcases ha with rfl | rfl <;> simp only [namedValue] at hv <;> split at hv <;> simp_all
  revert h1 hb
  rcases namedValue a (finPath p) with ⟨v | v, b⟩ | _ | _ <;> intro h1 hb <;> simp only [reduceCtorEq, Res.ok.injEq] at h1
  have := hb _ _ rfl
  subst this
  subst h1
  simp

/-- Not vacuous: a path with a curve. -/
example : ∃ q : Pt ℝ, IsAnchor boxExample .middleMiddle q ∧
    pathAttribute "$MIDDLE_MIDDLE.X".toList (finPath boxExample) = .ok (.number (fin q.1)) ∧
    pathAttribute "$MIDDLE_MIDDLE.Y".toList (finPath boxExample) = .ok (.number (fin q.2)) :=
  C83_coordinates boxExample boxExample_ok.1 boxExample_ok.2 .middleMiddle (by decide)

/-- A whole number is read back as it is, even without decimals. -/
example (p : Path (XNum ℝ)) : pointAttribute (pointText 0 (finPt (⟨2, 0, 7⟩ : Point ℝ))) p = .ok (finPt (mk (2, 0))) := by
  have h : Decimal.rounded 0 (2:ℝ) = 2 := by
    simp only [Decimal.rounded]
    norm_num
    exact_mod_cast Decimal.roundHalfEven_nat (K := ℝ) 2
  simp only [pointAttribute, pathAttribute, parsePoint_pointText, h, Decimal.rounded_zero]

/-! ## C84 Around places the copies on the sides of a regular polygon -/

theorem lineAngleEnd_fin (c : Point ℝ) (r a : ℝ) : lineAngleEnd (finPt c) (fin r) (fin a) =
    finPt (mk (c.x + r * Real.cos (a * Real.pi / 180), c.y + r * Real.sin (a * Real.pi / 180))) := by
  have h180 : (Arith.lit 180 0 : XNum ℝ) = fin 180 := by simp
  simp only [lineAngleEnd, degreesToRadians, finPt, pi_fin, h180, div_fin_ne (show (180:ℝ) ≠ 0 by norm_num), mul_fin, sin_fin, cos_fin, add_fin,
    newPoint_mk]
  have e : Real.pi / 180 * a = a * Real.pi / 180 := by ring
  simp only [mk, finPt, e, add_comm]

theorem aroundEdge_fin (n : ℕ) (hn : 1 ≤ n) (r : ℝ) (c : Point ℝ) : aroundEdge (n : ℤ) (fin r) (finPt c) =
    (finPt (mk (regularCorner n r (pt c) 0)), finPt (mk (regularCorner n r (pt c) 1))) := by
  have h360 : (Arith.lit 360 0 : XNum ℝ) = fin 360 := by simp
  have h90 : (Arith.lit 90 0 : XNum ℝ) = fin 90 := by simp
  have hnn : (Arith.lit (n : ℤ) 0 : XNum ℝ) = fin (n : ℝ) := by simp
  have h2 : (Arith.two : XNum ℝ) = fin 2 := by simp [Arith.two]
  have hn0 : (n : ℝ) ≠ 0 := by
    have : n ≠ 0 := by omega
    exact_mod_cast this
  simp only [aroundEdge, h360, hnn, h90, h2, div_fin_ne hn0, div_fin_ne (two_ne_zero' ℝ), neg_fin, sub_fin, lineAngleEnd_fin, regularCorner, pt]
  have e1 : (-(360 / (n:ℝ) / 2) - 90) * Real.pi / 180 = ((0 : ℕ) - 1 / 2) * (2 * Real.pi / n) - Real.pi / 2 := by
    push_cast
    ring
  have e2 : (360 / (n:ℝ) / 2 - 90) * Real.pi / 180 = ((1 : ℕ) - 1 / 2) * (2 * Real.pi / n) - Real.pi / 2 := by
    push_cast
    ring
  rw [e1, e2]

theorem move_origin (t : Point ℝ) (p : Path ℝ) : move (finPt t) Attr.origin.text (finPath p) = .ok (finPath (shift t.x t.y p)) := by
  have h : pointAttribute (handleOf Attr.origin.text) (finPath p) = .ok (finPt origin) := by
    rw [handleOf_text, pointAttribute_text]
    simp [namedValue, origin_fin]
  simp only [move, h]
  rw [← shift_fin]
  simp [finPt, origin, newPoint_eq]

theorem pointText_ne_nil (n : Nat) (c : Point (XNum ℝ)) : pointText n c ≠ [] := by
  simp [pointText]

/-- Where a copy is placed: laid on the top side, then turned. -/
noncomputable def placed (n : ℕ) (r : ℝ) (c center : Pt ℝ) (i : ℕ) (q : Pt ℝ) : Pt ℝ :=
  rotateAbout center (i * (2 * Real.pi / n)) ((regularCorner n r c 0).1 + q.1, (regularCorner n r c 0).2 + q.2)

theorem aroundCopy_fin (prec n : ℕ) (hn : 1 ≤ n) (r : ℝ) (c : Point ℝ) (p : Path ℝ) (i : ℕ) :
    ∃ q : Path ℝ, aroundCopy prec (n : ℤ) (finPt c) (finPt (mk (regularCorner n r (pt c) 0))) (finPath p) i = .ok (finPath q) ∧
      strokes q = (strokes p).map (Stroke.map (placed n r (pt c) (Decimal.rounded prec c.x, Decimal.rounded prec c.y) i)) := by
  have h360 : (Arith.lit 360 0 : XNum ℝ) = fin 360 := by simp
  have hnn : (Arith.lit (n : ℤ) 0 : XNum ℝ) = fin (n : ℝ) := by simp
  have hi : (Arith.lit (i : ℤ) 0 : XNum ℝ) = fin (i : ℝ) := by simp
  have hn0 : (n : ℝ) ≠ 0 := by
    have : n ≠ 0 := by omega
    exact_mod_cast this
  set s := regularCorner n r (pt c) 0 with hs
  have ha : pointAttribute (handleOf (pointText prec (finPt c))) (finPath (shift s.1 s.2 p)) =
      .ok (finPt (mk (Decimal.rounded prec c.x, Decimal.rounded prec c.y))) := by
    rw [handleOf, if_neg (pointText_ne_nil _ _)]
    simp only [pointAttribute, pathAttribute, parsePoint_pointText]
  obtain ⟨q, h1, h2⟩ := C31_rotate (shift s.1 s.2 p) (360 / n * i) _ _ ha
  refine ⟨q, ?_, ?_⟩
  · unfold aroundCopy
    rw [move_origin, Res.ok_bind, h360, hnn, hi, div_fin_ne hn0, mul_fin]
    exact h1
  · rw [h2, C27_shift, List.map_map]
    congr 1
    funext st
    rw [Function.comp_apply, stroke_map_map]
    congr 1
    funext x
    have e : 360 / (n:ℝ) * i * Real.pi / 180 = i * (2 * Real.pi / n) := by ring
    have e' : translate s.1 s.2 x = (s.1 + x.1, s.2 + x.2) := by simp [translate, add_comm]
    simp only [Function.comp_apply, placed, e, e', ← hs]
    rfl

/-- **C84.** An around component draws one copy for each edge: the component rendered with the length of a side of the regular polygon is
laid on the side at the top with its origin at the left end, and turned about the centre, rounded to the precision, by as many steps as there
are copies before it. -/
theorem C84_copies (prec n : ℕ) (hn : 1 ≤ n) (r : ℝ) (hr : r ≠ 0) (c : Point ℝ) (render : XNum ℝ → Nat → Res (Path (XNum ℝ))) (p : Path ℝ)
    (hp : render (fin (lengthOf (regularCorner n r (pt c) 0) (regularCorner n r (pt c) 1))) 0 = .ok (finPath p)) :
    ∃ q : Path ℝ, around prec (n : ℤ) (fin r) (finPt c) render = .ok (finPath q) ∧ strokes q = (List.range n).flatMap fun i =>
      (strokes p).map (Stroke.map (placed n r (pt c) (Decimal.rounded prec c.x, Decimal.rounded prec c.y) i)) := by
  choose q h1 h2 using aroundCopy_fin prec n hn r c p
  have hne : (List.range n).map q ≠ [] := by
    simp
    omega
  obtain ⟨j, hj, hjs⟩ := simpleJoin_strokes ((List.range n).map q) hne
  refine ⟨j, ?_, ?_⟩
  · unfold around
    rw [if_neg (by exact_mod_cast (show n ≠ 0 by omega)), Bezier.zero_fin, eq_fin, if_neg (by simpa using hr)]
    simp only [aroundEdge_fin n hn, distance_fin]
    have hlen : lengthOf (pt (mk (regularCorner n r (pt c) 0))) (pt (mk (regularCorner n r (pt c) 1))) =
      lengthOf (regularCorner n r (pt c) 0) (regularCorner n r (pt c) 1) := rfl
    rw [hlen, hp]
    simp only [Res.ok_bind, Int.toNat_natCast]
    rw [Res.mapM_ok _ (fun i => finPath (q i)) _ (fun i _ => h1 i)]
    simp only
    rw [← hj, List.map_map]
    rfl
  · rw [hjs, List.flatMap_map]
    exact List.flatMap_congr fun i _ => h2 i

theorem regularCorner_eq (n : ℕ) (r : ℝ) (c : Pt ℝ) (i : ℕ) : regularCorner n r c i =
    (c.1 + r * Real.sin (i * (2 * Real.pi / n) - Real.pi / n), c.2 - r * Real.cos (i * (2 * Real.pi / n) - Real.pi / n)) := by
  have e : ((i:ℝ) - 1 / 2) * (2 * Real.pi / n) - Real.pi / 2 = i * (2 * Real.pi / n) - Real.pi / n - Real.pi / 2 := by ring
  rw [regularCorner, e, Real.cos_sub_pi_div_two, Real.sin_sub_pi_div_two]
  simp [sub_eq_add_neg]

theorem regularCorner_side (n : ℕ) (r : ℝ) (c : Pt ℝ) (i : ℕ) :
    (regularCorner n r c (i + 1)).1 - (regularCorner n r c i).1 = 2 * r * Real.sin (Real.pi / n) * Real.cos (i * (2 * Real.pi / n)) ∧
    (regularCorner n r c (i + 1)).2 - (regularCorner n r c i).2 = 2 * r * Real.sin (Real.pi / n) * Real.sin (i * (2 * Real.pi / n)) := by
  have e : ((i + 1 : ℕ) : ℝ) * (2 * Real.pi / n) - Real.pi / n = i * (2 * Real.pi / n) + Real.pi / n := by
    push_cast
    ring
  simp only [regularCorner_eq, e, Real.sin_add, Real.cos_add, Real.sin_sub, Real.cos_sub]
  constructor <;> ring

theorem sin_pi_div_pos {n : ℕ} (hn : 2 ≤ n) : 0 < Real.sin (Real.pi / n) := by
  have h2 : (2:ℝ) ≤ n := by exact_mod_cast hn
  apply Real.sin_pos_of_pos_of_lt_pi
  · positivity
  · rw [div_lt_iff₀ (by linarith)]
    nlinarith [Real.pi_pos]

/-- **C84.** The sides of the polygon all have the same length. -/
theorem C84_length (n : ℕ) (hn : 2 ≤ n) (r : ℝ) (hr : 0 < r) (c : Pt ℝ) (i : ℕ) :
    lengthOf (regularCorner n r c i) (regularCorner n r c (i + 1)) = 2 * r * Real.sin (Real.pi / n) := by
  obtain ⟨h1, h2⟩ := regularCorner_side n r c i
  have h3 := sin_pi_div_pos hn
  rw [lengthOf, h1, h2]
  rw [show (2 * r * Real.sin (Real.pi / n) * Real.cos (i * (2 * Real.pi / n))) ^ 2 +
    (2 * r * Real.sin (Real.pi / n) * Real.sin (i * (2 * Real.pi / n))) ^ 2 = (2 * r * Real.sin (Real.pi / n)) ^ 2 by
      linear_combination (2 * r * Real.sin (Real.pi / n)) ^ 2 * Real.sin_sq_add_cos_sq (i * (2 * Real.pi / n))]
  exact Real.sqrt_sq (by positivity)

/-- **C84.** The polygon closes. -/
theorem C84_closed (n : ℕ) (hn : 1 ≤ n) (r : ℝ) (c : Pt ℝ) : regularCorner n r c n = regularCorner n r c 0 := by
  have hn0 : (n : ℝ) ≠ 0 := by
    have : n ≠ 0 := by omega
    exact_mod_cast this
  have e : (n:ℝ) * (2 * Real.pi / n) - Real.pi / n = (0:ℕ) * (2 * Real.pi / n) - Real.pi / n + 2 * Real.pi := by
    field_simp
    push_cast
    ring
  rw [regularCorner_eq, regularCorner_eq, e, Real.sin_add_two_pi, Real.cos_add_two_pi]

/-- A copy that is turned about the true centre lies along its side of the polygon. -/
theorem placed_along (n : ℕ) (hn : 2 ≤ n) (r : ℝ) (hr : 0 < r) (c : Pt ℝ) (i : ℕ) :
    placed n r c c i = along (regularCorner n r c i) (regularCorner n r c (i + 1)) := by
  funext q
  have hl := C84_length n hn r hr c i
  obtain ⟨h1, h2⟩ := regularCorner_side n r c i
  have h3 : 2 * r * Real.sin (Real.pi / n) ≠ 0 := by
    have := sin_pi_div_pos hn
    positivity
  have hk : ∀ x : ℝ, x * (2 * r * Real.sin (Real.pi / n)) / (2 * r * Real.sin (Real.pi / n)) = x := fun x => mul_div_cancel_right₀ x h3
  simp only [along, h1, h2, hl]
  rw [show q.1 * (2 * r * Real.sin (Real.pi / n) * Real.cos (i * (2 * Real.pi / n))) -
      q.2 * (2 * r * Real.sin (Real.pi / n) * Real.sin (i * (2 * Real.pi / n))) =
      (q.1 * Real.cos (i * (2 * Real.pi / n)) - q.2 * Real.sin (i * (2 * Real.pi / n))) * (2 * r * Real.sin (Real.pi / n)) by ring,
    show q.1 * (2 * r * Real.sin (Real.pi / n) * Real.sin (i * (2 * Real.pi / n))) +
      q.2 * (2 * r * Real.sin (Real.pi / n) * Real.cos (i * (2 * Real.pi / n))) =
      (q.1 * Real.sin (i * (2 * Real.pi / n)) + q.2 * Real.cos (i * (2 * Real.pi / n))) * (2 * r * Real.sin (Real.pi / n)) by ring, hk, hk]
  simp only [placed, rotateAbout, regularCorner_eq, Nat.cast_zero, zero_mul, zero_sub, Real.sin_neg, Real.cos_neg, Real.sin_sub, Real.cos_sub]
  refine Prod.ext ?_ ?_ <;> simp only [] <;> ring

/-- **C84.** If the centre has no more decimals than the precision, the copies lie along the sides of the regular polygon around it: what the
component draws at its origin is put on one corner, and what it draws at the given length is put on the next (`C49_along`). -/
theorem C84_sides (prec n : ℕ) (hn : 2 ≤ n) (r : ℝ) (hr : 0 < r) (c : Point ℝ) (hc : Decimal.rounded prec c.x = c.x ∧ Decimal.rounded prec c.y = c.y)
    (render : XNum ℝ → Nat → Res (Path (XNum ℝ))) (p : Path ℝ) (hp : render (fin (2 * r * Real.sin (Real.pi / n))) 0 = .ok (finPath p)) :
    ∃ q : Path ℝ, around prec (n : ℤ) (fin r) (finPt c) render = .ok (finPath q) ∧ strokes q = (List.range n).flatMap fun i =>
      (strokes p).map (Stroke.map (along (regularCorner n r (pt c) i) (regularCorner n r (pt c) (i + 1)))) := by
  have h := C84_copies prec n (by omega) r hr.ne' c render p (by rw [show (1:ℕ) = 0 + 1 from rfl, C84_length n hn r hr]; exact hp)
  rw [hc.1, hc.2] at h
  simp only [show ((c.x, c.y) : Pt ℝ) = pt c from rfl, placed_along n hn r hr] at h
  exact h

/-- **C84.** Every copy is told that its index is 0: what the component would draw for other indices does not matter. -/
theorem C84_index_false (prec : ℕ) (num : ℤ) (r : XNum ℝ) (c : Point (XNum ℝ)) (render render' : XNum ℝ → Nat → Res (Path (XNum ℝ)))
    (h : ∀ l, render l 0 = render' l 0) : around prec num r c render = around prec num r c render' := by
  simp only [around, h]

/-- **C84.** Without edges or radius there is an error; a negative number of edges panics. -/
theorem C84_refused (prec : ℕ) (num : ℤ) (r : ℝ) (c : Point (XNum ℝ)) (render : XNum ℝ → Nat → Res (Path (XNum ℝ))) :
    (num = 0 ∨ r = 0 → around prec num (fin r) c render = .err) ∧ (num < 0 → r ≠ 0 → around prec num (fin r) c render = .panic) := by
  constructor
  · rintro (h | h)
    · simp [around, h]
    · unfold around
      split
      · rfl
      · rw [Bezier.zero_fin, eq_fin]
        simp [h]
  · intro h h'
    unfold around
    rw [if_neg h.ne, Bezier.zero_fin, eq_fin]
    have e : num.toNat = 0 := by omega
    simp [h', e, simpleJoin, List.mapM_nil, pure]

/-- A centre of which the fourth decimal is lost. -/
theorem rounded_small : Decimal.rounded 3 (4 / 10000 : ℝ) = 0 := by
  have h : Decimal.roundHalfEven (4 / 10 : ℝ) = 0 := by
    have hf : ⌊(4 / 10 : ℝ)⌋₊ = 0 := by
      rw [Nat.floor_eq_zero]
      norm_num
    simp only [Decimal.roundHalfEven]
    norm_num [hf]
  have e : |(4 / 10000 : ℝ)| * 10 ^ 3 = 4 / 10 := by norm_num
  simp only [Decimal.rounded, e, h]
  simp

/-- **C84.** With a centre that has more decimals than the precision, the copies do not lie along the sides of the polygon around it. -/
theorem C84_center_false : ¬ ∀ (prec n : ℕ) (_ : 2 ≤ n) (r : ℝ) (_ : 0 < r) (c : Point ℝ) (render : XNum ℝ → Nat → Res (Path (XNum ℝ))) (p : Path ℝ)
    (_ : render (fin (2 * r * Real.sin (Real.pi / n))) 0 = .ok (finPath p)),
    ∃ q : Path ℝ, around prec (n : ℤ) (fin r) (finPt c) render = .ok (finPath q) ∧ strokes q = (List.range n).flatMap fun i =>
      (strokes p).map (Stroke.map (along (regularCorner n r (pt c) i) (regularCorner n r (pt c) (i + 1)))) := by
  intro hall
  set p : Path ℝ := [.line (mk (0, 0)) (mk (2, 0))] with hp
  set c : Point ℝ := mk (4 / 10000, 0) with hcd
  obtain ⟨q, h1, h2⟩ := hall 3 2 le_rfl 1 one_pos c (fun _ _ => .ok (finPath p)) p rfl
  obtain ⟨q', h1', h2'⟩ := C84_copies 3 2 (by norm_num) 1 one_ne_zero c (fun _ _ => .ok (finPath p)) p rfl
  rw [h1] at h1'
  have e := finPath_injective (Res.ok.inj h1')
  subst e
  rw [h2] at h2'
  have hs : strokes p = [.line (0, 0) (2, 0)] := by simp [hp, strokes, strokeOf, pt, mk]
  rw [hs] at h2'
  have h3 := congrArg (fun l => l[1]?) h2'
  simp only [List.range_succ, List.range_zero, List.nil_append, List.cons_append, List.flatMap_cons, List.flatMap_nil, List.map_cons, List.map_nil,
    List.getElem?_cons_succ, List.getElem?_cons_zero, Option.some.injEq, Stroke.map, Stroke.line.injEq] at h3
  have h4 := congrArg Prod.fst h3.1
  have h5 : along (regularCorner 2 1 (pt c) 1) (regularCorner 2 1 (pt c) (1 + 1)) (0, 0) = regularCorner 2 1 (pt c) 1 := by simp [along]
  rw [h5] at h4
  have hcx : c.x = 4 / 10000 := rfl
  rw [hcx, rounded_small] at h4
  have e1 : (1:ℝ) * (2 * Real.pi / (2:ℝ)) = Real.pi := by ring
  have e2 : Real.pi - Real.pi / 2 = Real.pi / 2 := by ring
  simp only [placed, rotateAbout, regularCorner_eq, Nat.cast_one, Nat.cast_zero, Nat.cast_ofNat, e1, e2, zero_mul, zero_sub, Real.sin_neg, Real.cos_neg,
    Real.sin_pi_div_two, Real.cos_pi_div_two, Real.sin_pi, Real.cos_pi, pt] at h4
  rw [hcx] at h4
  norm_num at h4

/-- Not vacuous: a hexagon of straight lines around the origin. -/
example : ∃ q : Path ℝ, around 3 6 (fin 2) (finPt (mk (0, 0) : Point ℝ))
    (fun l _ => .ok [.line (finPt (mk (0, 0))) (newPoint l Arith.zero)]) = .ok (finPath q) ∧
    strokes q = (List.range 6).flatMap fun i => [.line (regularCorner 6 2 (0, 0) i) (regularCorner 6 2 (0, 0) (i + 1))] := by
  have hl := C84_length 6 (by norm_num) 2 (by norm_num) (0, 0)
  obtain ⟨q, h1, h2⟩ := C84_sides 3 6 (by norm_num) 2 (by norm_num) (mk (0, 0)) ⟨Decimal.rounded_zero 3, Decimal.rounded_zero 3⟩
    (fun l _ => .ok [.line (finPt (mk (0, 0))) (newPoint l Arith.zero)]) [.line (mk (0, 0)) (mk (2 * 2 * Real.sin (Real.pi / (6 : ℕ)), 0))]
    (by rw [Bezier.zero_fin, newPoint_mk]; rfl)
  refine ⟨q, h1, ?_⟩
  rw [h2]
  have hs : strokes ([.line (mk (0, 0)) (mk (2 * 2 * Real.sin (Real.pi / (6 : ℕ)), 0))] : Path ℝ) =
      [.line (0, 0) (2 * 2 * Real.sin (Real.pi / (6 : ℕ)), 0)] := by simp [strokes, strokeOf, pt, mk]
  rw [hs]
  refine List.flatMap_congr fun i _ => ?_
  have hne : regularCorner 6 2 (0, 0) i ≠ regularCorner 6 2 (0, 0) (i + 1) := by
    intro hc
    have h3 := hl i
    rw [← hc] at h3
    simp [lengthOf] at h3
  obtain ⟨a1, a2, -⟩ := C49_along _ _ hne
  rw [hl i] at a2
  simp only [List.map_cons, List.map_nil, Stroke.map, pt, mk]
  rw [a1, a2]

/-! ## C85 An edge runs from its start to its end -/

/-- Turning a path by the angle of a line and shifting the handle onto its start lays it along the line. -/
theorem lay_along (a b : Point ℝ) (hab : pt a ≠ pt b) (handle : Text) (hh : handle ≠ []) (j : Path ℝ) (x : Point ℝ)
    (hx : pointAttribute handle (finPath j) = .ok (finPt x)) :
    ∃ r : Path ℝ, ((if !(lineAngle (finPt a, finPt b) ==. Arith.zero) then rotate (lineAngle (finPt a, finPt b)) handle (finPath j) else .ok (finPath j)) >>=
        fun q => Res.ok (shift ((finPt a).x -. (finPt x).x) ((finPt a).y -. (finPt x).y) q)) = .ok (finPath r) ∧
      strokes r = (strokes j).map (Stroke.map fun q => along (pt a) (pt b) (q.1 - x.x, q.2 - x.y)) := by
  have h180 : (Arith.lit 180 0 : XNum ℝ) = fin 180 := by simp
  have hla : lineAngle (finPt a, finPt b) = fin (180 / Real.pi * Complex.arg ⟨b.x - a.x, b.y - a.y⟩) := by
    simp only [lineAngle, finPt, h180, pi_fin, div_fin_ne Real.pi_ne_zero, sub_fin, atan2_fin, mul_fin]
  have hho : handleOf handle = handle := by simp [handleOf, hh]
  obtain ⟨r0, h3, h4⟩ := C31_rotate j (180 / Real.pi * Complex.arg ⟨b.x - a.x, b.y - a.y⟩) handle x (by rw [hho]; exact hx)
  have hcomp : ∀ q : Pt ℝ, translate (a.x - x.x) (a.y - x.y)
      (rotateAbout (pt x) (180 / Real.pi * Complex.arg ⟨b.x - a.x, b.y - a.y⟩ * Real.pi / 180) q) =
      along (pt a) (pt b) (q.1 - x.x, q.2 - x.y) := by
    intro q
    rw [← rotate_along a b hab]
    simp only [translate, rotateAbout, pt]
    refine Prod.ext ?_ ?_ <;> simp only [] <;> ring
  rw [hla, Bezier.zero_fin, eq_fin]
  simp only [finPt, sub_fin]
  by_cases hz : 180 / Real.pi * Complex.arg ⟨b.x - a.x, b.y - a.y⟩ = 0
  · refine ⟨shift (a.x - x.x) (a.y - x.y) j, ?_, ?_⟩
    · simp [hz, shift_fin]
    · rw [C27_shift]
      congr 2
      funext q
      rw [← hcomp, hz]
      simp [rotateAbout, pt]
  · refine ⟨shift (a.x - x.x) (a.y - x.y) r0, ?_, ?_⟩
    · simp [hz, h3, shift_fin]
    · rw [C27_shift, h4, List.map_map]
      congr 1
      funext s
      rw [Function.comp_apply, stroke_map_map]
      congr 1
      funext q
      exact hcomp q

/-- **C85.** An edge draws what its children draw for the length of the edge, laid along the line from its start to its end so that the
handle comes to lie on the start. -/
theorem C85_edge (children : XNum ℝ → List (Point (XNum ℝ) → Res (Path (XNum ℝ)))) (cursor : Point (XNum ℝ)) (a b : Point ℝ) (hab : pt a ≠ pt b)
    (handle : Text) (hh : handle ≠ []) (ps : List (Path ℝ)) (hne : ps ≠ [])
    (hps : renderChildren (children (fin (lengthOf (pt a) (pt b)))) cursor = .ok (ps.map finPath)) :
    ∃ j : Path ℝ, strokes j = ps.flatMap strokes ∧ ∀ x : Point ℝ, pointAttribute handle (finPath j) = .ok (finPt x) →
      ∃ r : Path ℝ, basicEdge children cursor (finPt a) (finPt b) handle = .ok (finPath r) ∧
        strokes r = (ps.flatMap strokes).map (Stroke.map fun q => along (pt a) (pt b) (q.1 - x.x, q.2 - x.y)) := by
  obtain ⟨j, hj, hjs⟩ := simpleJoin_strokes ps hne
  refine ⟨j, hjs, fun x hx => ?_⟩
  obtain ⟨r, h1, h2⟩ := lay_along a b hab handle hh j x hx
  refine ⟨r, ?_, by rw [h2, hjs]⟩
  rw [← h1]
  unfold basicEdge
  rw [distance_fin, hps, Res.ok_bind, hj, Res.ok_bind, hx, Res.ok_bind]
  split <;> rfl

/-- **C85.** With the default handle, the origin: what is drawn at the origin comes to the start, and what is drawn at the length of the edge
comes to its end. -/
theorem C85_origin (children : XNum ℝ → List (Point (XNum ℝ) → Res (Path (XNum ℝ)))) (cursor : Point (XNum ℝ)) (a b : Point ℝ) (hab : pt a ≠ pt b)
    (ps : List (Path ℝ)) (hne : ps ≠ []) (hps : renderChildren (children (fin (lengthOf (pt a) (pt b)))) cursor = .ok (ps.map finPath)) :
    (∃ r : Path ℝ, basicEdge children cursor (finPt a) (finPt b) Attr.origin.text = .ok (finPath r) ∧
      strokes r = (ps.flatMap strokes).map (Stroke.map (along (pt a) (pt b)))) ∧
    along (pt a) (pt b) (0, 0) = pt a ∧ along (pt a) (pt b) (lengthOf (pt a) (pt b), 0) = pt b := by
  refine ⟨?_, (C49_along _ _ hab).1, (C49_along _ _ hab).2.1⟩
  obtain ⟨j, -, h⟩ := C85_edge children cursor a b hab Attr.origin.text (by decide) ps hne hps
  obtain ⟨r, h1, h2⟩ := h origin (by
    rw [pointAttribute_text]
    simp [namedValue, origin_fin])
  refine ⟨r, h1, ?_⟩
  rw [h2]
  congr 2
  funext q
  simp [origin, newPoint_eq]

/-- **C85.** An edge without children panics. -/
theorem C85_degenerate (children : XNum ℝ → List (Point (XNum ℝ) → Res (Path (XNum ℝ)))) (cursor : Point (XNum ℝ)) (a b : Point ℝ) (handle : Text)
    (h : children (fin (lengthOf (pt a) (pt b))) = []) : basicEdge children cursor (finPt a) (finPt b) handle = .panic := by
  unfold basicEdge
  rw [distance_fin, h, renderChildren, Res.ok_bind, simpleJoin]
  rfl

/-- Not vacuous: a corner along a slanted line. -/
example : ∃ r : Path ℝ, basicEdge (fun _ => [fun _ => .ok (finPath corner)]) origin (finPt (mk (1, 1) : Point ℝ)) (finPt (mk (4, 5) : Point ℝ))
    Attr.origin.text = .ok (finPath r) ∧ strokes r = ([corner].flatMap strokes).map (Stroke.map (along (1, 1) (4, 5))) :=
  (C85_origin (fun _ => [fun _ => .ok (finPath corner)]) origin (mk (1, 1)) (mk (4, 5)) (by norm_num [pt, mk]) [corner] (by simp) rfl).1

end Verif.Path
