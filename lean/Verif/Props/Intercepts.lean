import Verif.Props.Components
import Verif.Props.Knife

/-!
# Properties of copies between the intercepts of an outline: C86
-/

namespace Verif.Path

open Verif Verif.Spec XNum

set_option linter.unusedSectionVars false
set_option linter.unusedSimpArgs false

/-! ## C86 Copies between the intercepts of an outline -/

section Rows

variable (n : Int) (render : Point (XNum ℝ) → Point (XNum ℝ) → XNum ℝ → Res (Path (XNum ℝ))) (r : Point (XNum ℝ) → Point (XNum ℝ) → Path (XNum ℝ))

theorem interceptRow_ok (hr : ∀ a b, render a b (b.x -. a.x) = .ok (r a b)) : ∀ (ps : List (Point (XNum ℝ))) (st : XNum ℝ × List (Path (XNum ℝ))),
    interceptRow n render ps st = .ok ((((rowPairs n ps).map fun ab => (measure (r ab.1 ab.2)).2).getLast?).getD st.1,
      st.2 ++ (rowPairs n ps).map fun ab => r ab.1 ab.2)
  | [], st => by simp [interceptRow, rowPairs]
  | [a], st => by simp [interceptRow, rowPairs]
  | a :: b :: rest, st => by
    unfold interceptRow rowPairs
    simp only
    by_cases h : precisionEquals (b.x -. a.x) Arith.zero n = true
    · simp only [h, if_true]
      exact interceptRow_ok hr rest st
    · simp only [h, hr]
      rw [if_neg (by simp), if_neg (by simp), interceptRow_ok hr rest]
      simp only [List.map_cons, List.getLast?_cons, List.append_assoc, List.cons_append, List.nil_append, Option.getD_some]

variable (intercepts : XNum ℝ → Res (List (Point (XNum ℝ)))) (cuts : ℝ → List (Point (XNum ℝ)))
  (height : Point (XNum ℝ) → Point (XNum ℝ) → ℝ)

theorem interceptRows_ok (hr : ∀ a b, render a b (b.x -. a.x) = .ok (r a b)) (hh : ∀ a b, (measure (r a b)).2 = fin (height a b))
    (hc : ∀ y : ℝ, intercepts (fin y) = .ok (cuts y)) (spacing bottom : ℝ) (y h : ℝ) (ys : List ℝ)
    (hys : RowHeights spacing bottom (rowHeight n cuts height) y h ys) :
    ∀ (acc : List (Path (XNum ℝ))) (fuel : Nat), ys.length < fuel →
      interceptRows n intercepts render (fin bottom) (fin spacing) fuel (fin y) (fin h, acc) =
        some (.ok (acc ++ ys.flatMap fun y => (rowPairs n (cuts y)).map fun ab => r ab.1 ab.2)) := by
  induction hys with
  | stop y h hy =>
    intro acc fuel hf
    obtain ⟨f, rfl⟩ : ∃ f, fuel = f + 1 := ⟨fuel - 1, by simp at hf; omega⟩
    simp [interceptRows, hy]
  | row y h ys hy rest ih =>
    intro acc fuel hf
    obtain ⟨f, rfl⟩ : ∃ f, fuel = f + 1 := ⟨fuel - 1, by simp at hf; omega⟩
    rw [interceptRows]
    simp only [le_fin, hy, decide_true, if_true, hc, Res.ok_bind]
    rw [interceptRow_ok n render r hr]
    have e : (((rowPairs n (cuts y)).map fun ab => (measure (r ab.1 ab.2)).2).getLast?).getD (fin h) = fin (rowHeight n cuts height y h) := by
      simp only [hh, rowHeight, List.getLast?_map]
      cases (rowPairs n (cuts y)).getLast? <;> rfl
    simp only [e, add_fin]
    rw [ih _ f (by simp at hf; omega)]
    simp [List.append_assoc]

theorem rowHeights_exist (hh : ∀ a b, 0 ≤ height a b) (spacing bottom : ℝ) : ∀ (k : ℕ) (y h : ℝ), 0 ≤ h → bottom - y < k * spacing → 0 < spacing →
    ∃ ys, RowHeights spacing bottom (rowHeight n cuts height) y h ys ∧ ys.length ≤ k := by
  intro k
  induction k with
  | zero =>
    intro y h _ hk _
    exact ⟨[], .stop _ _ (by simp at hk; linarith), le_rfl⟩
  | succ k ih =>
    intro y h h0 hk hs
    by_cases hy : y ≤ bottom
    · have h1 : 0 ≤ rowHeight n cuts height y h := by
        unfold rowHeight
        rw [List.getLast?_map]
        cases (rowPairs n (cuts y)).getLast? with
        | none => exact h0
        | some ab => exact hh _ _
      obtain ⟨ys, h2, h3⟩ := ih (y + rowHeight n cuts height y h + spacing) (rowHeight n cuts height y h) h1 (by push_cast at hk; nlinarith) hs
      exact ⟨y :: ys, .row _ _ _ hy h2, by simpa using h3⟩
    · exact ⟨[], .stop _ _ (by linarith), by simp⟩

end Rows

/-- **C86.** Rows are apart by at least the spacing and lie between the first height and the bottom. -/
theorem C86_spaced (spacing bottom : ℝ) (hs : 0 ≤ spacing) (after : ℝ → ℝ → ℝ) (ha : ∀ y h, 0 ≤ h → 0 ≤ after y h) (y h : ℝ) (h0 : 0 ≤ h) (ys : List ℝ)
    (hys : RowHeights spacing bottom after y h ys) :
    (ys.Pairwise fun a b => a + spacing ≤ b) ∧ (∀ z ∈ ys, y ≤ z ∧ z ≤ bottom) ∧ (y ≤ bottom → ys.head? = some y) := by
  induction hys with
  | stop y h hy => exact ⟨List.Pairwise.nil, by simp, fun h => absurd h (not_le.mpr hy)⟩
  | row y h ys hy rest ih =>
    obtain ⟨h1, h2, -⟩ := ih (ha y h h0)
    have h3 := ha y h h0
    refine ⟨List.Pairwise.cons (fun z hz => ?_) h1, ?_, fun _ => rfl⟩
    · linarith [(h2 z hz).1]
    · intro z hz
      rcases List.mem_cons.mp hz with rfl | hz
      · exact ⟨le_rfl, hy⟩
      · exact ⟨by linarith [(h2 z hz).1], (h2 z hz).2⟩

/-- **C86.** With a positive spacing the component comes to an end. It draws the copies between the pairs of intercepts of each row, row by row
from the top; if there are none it is an error. -/
theorem C86_rows (n : ℕ) (initial spacing : ℝ) (hs : 0 < spacing) (o : Path ℝ) (tl br : Point ℝ) (hb : whitespaceBox (finPath o) = .ok (finPt tl, finPt br))
    (cuts : ℝ → List (Point (XNum ℝ))) (hc : ∀ y : ℝ, horizontalIntercepts n (finPath o) (fin y) = .ok (cuts y))
    (render : Point (XNum ℝ) → Point (XNum ℝ) → XNum ℝ → Res (Path (XNum ℝ))) (r : Point (XNum ℝ) → Point (XNum ℝ) → Path ℝ)
    (height : Point (XNum ℝ) → Point (XNum ℝ) → ℝ) (hr : ∀ a b, render a b (b.x -. a.x) = .ok (finPath (r a b)))
    (hh : ∀ a b, (measure (finPath (r a b))).2 = fin (height a b)) (hh0 : ∀ a b, 0 ≤ height a b) :
    ∃ ys : List ℝ, RowHeights spacing br.y (rowHeight n cuts height) (tl.y + initial) 0 ys ∧
      (ys.length : ℝ) ≤ max 0 ((br.y - (tl.y + initial)) / spacing + 1) ∧
      ∀ fuel, ys.length < fuel →
        (ys.flatMap (fun y => rowPairs n (cuts y)) = [] → xIntercept n (fin initial) (fin spacing) (.ok (finPath o)) render fuel = some .err) ∧
        (ys.flatMap (fun y => rowPairs n (cuts y)) ≠ [] → ∃ q : Path ℝ,
          xIntercept n (fin initial) (fin spacing) (.ok (finPath o)) render fuel = some (.ok (some (finPath q))) ∧
          strokes q = ys.flatMap fun y => (rowPairs n (cuts y)).flatMap fun ab => strokes (r ab.1 ab.2)) := by
  set k : ℕ := (⌊(br.y - (tl.y + initial)) / spacing⌋ + 1).toNat with hk
  have hkb : br.y - (tl.y + initial) < k * spacing := by
    rw [← div_lt_iff₀ hs]
    have h1 := Int.lt_floor_add_one ((br.y - (tl.y + initial)) / spacing)
    have h2 : (⌊(br.y - (tl.y + initial)) / spacing⌋ + 1 : ℤ) ≤ (k : ℤ) := by
      rw [hk]
      exact Int.self_le_toNat _
    have h3 : ((⌊(br.y - (tl.y + initial)) / spacing⌋ + 1 : ℤ) : ℝ) ≤ (k : ℝ) := by exact_mod_cast h2
    push_cast at h3
    linarith
  obtain ⟨ys, h1, h2⟩ := rowHeights_exist n cuts height hh0 spacing br.y k (tl.y + initial) 0 le_rfl hkb hs
  refine ⟨ys, h1, ?_, ?_⟩
  · have h3 : (ys.length : ℝ) ≤ k := by exact_mod_cast h2
    refine h3.trans ?_
    have h4 : (k : ℝ) = ((k : ℤ) : ℝ) := by push_cast; rfl
    rw [h4, hk, Int.toNat_eq_max]
    push_cast
    rw [max_comm]
    exact max_le_max le_rfl (by linarith [Int.floor_le ((br.y - (tl.y + initial)) / spacing)])
  · intro fuel hf
    have key := interceptRows_ok n render (fun a b => finPath (r a b)) (horizontalIntercepts n (finPath o)) cuts height hr hh hc spacing br.y _ _ ys h1 [] fuel hf
    have hs0 : ((fin spacing : XNum ℝ) ==. Arith.zero) = false := by
      rw [Bezier.zero_fin, eq_fin]
      simp [hs.ne']
    have e : xIntercept n (fin initial) (fin spacing) (.ok (finPath o)) render fuel =
        match ys.flatMap fun y => (rowPairs n (cuts y)).map fun ab => finPath (r ab.1 ab.2) with
        | [] => some .err
        | p :: ps => match simpleJoin (p :: ps) with
          | .ok q => some (.ok (some q))
          | .err => some .err
          | .panic => some .panic := by
      unfold xIntercept
      rw [hs0]
      simp only [hb, finPt, add_fin, Bool.false_eq_true, if_false]
      rw [Bezier.zero_fin]
      rw [key]
      simp only [List.nil_append]
      cases ys.flatMap fun y => (rowPairs n (cuts y)).map fun ab => finPath (r ab.1 ab.2) <;> rfl
    rw [e]
    have e2 : (ys.flatMap fun y => (rowPairs n (cuts y)).map fun ab => finPath (r ab.1 ab.2)) =
        ((ys.flatMap fun y => rowPairs n (cuts y)).map fun ab => r ab.1 ab.2).map finPath := by
      simp [List.map_flatMap, Function.comp_def]
    constructor
    · intro h
      rw [e2, h]
      rfl
    · intro h
      obtain ⟨j, hj, hjs⟩ := simpleJoin_strokes ((ys.flatMap fun y => rowPairs n (cuts y)).map fun ab => r ab.1 ab.2) (by simpa using h)
      refine ⟨j, ?_, ?_⟩
      · rw [← e2] at hj
        generalize (ys.flatMap fun y => (rowPairs n (cuts y)).map fun ab => finPath (r ab.1 ab.2)) = l at hj
        cases l with
        | nil => cases hj
        | cons p ps => simp only [hj]
      · rw [hjs]
        simp [List.flatMap_map, List.flatMap_assoc]

/-- **C86.** The pairs of one row lie side by side: each runs from left to right, and ends before the next one begins. -/
theorem C86_disjoint (n : ℕ) : ∀ (ps : List (Point ℝ)), (ps.Pairwise fun a b => a.x ≤ b.x) →
    ∃ l : List (Point ℝ × Point ℝ), rowPairs n (ps.map finPt) = l.map (fun ab => (finPt ab.1, finPt ab.2)) ∧
      (∀ ab ∈ l, ab.1 ∈ ps ∧ ab.2 ∈ ps ∧ ab.1.x < ab.2.x) ∧ l.Pairwise fun ab cd => ab.2.x ≤ cd.1.x
  | [], _ => ⟨[], by simp [rowPairs], by simp, List.Pairwise.nil⟩
  | [a], _ => ⟨[], by simp [rowPairs], by simp, List.Pairwise.nil⟩
  | a :: b :: rest, h => by
    rw [List.pairwise_cons, List.pairwise_cons] at h
    obtain ⟨h1, h2, h3⟩ := h
    obtain ⟨l, g1, g2, g3⟩ := C86_disjoint n rest h3
    have hab := h1 b (by simp)
    simp only [List.map_cons]
    unfold rowPairs
    by_cases hp : precisionEquals ((finPt b).x -. (finPt a).x) Arith.zero n = true
    · rw [if_pos hp]
      refine ⟨l, g1, fun ab hab => ?_, g3⟩
      obtain ⟨q1, q2, q3⟩ := g2 ab hab
      exact ⟨by simp [q1], by simp [q2], q3⟩
    · rw [if_neg hp, g1]
      refine ⟨(a, b) :: l, rfl, ?_, List.Pairwise.cons (fun cd hcd => h2 _ (g2 cd hcd).1) g3⟩
      intro ab hm
      rcases List.mem_cons.mp hm with rfl | hm
      · refine ⟨by simp, by simp, lt_of_le_of_ne hab ?_⟩
        intro hx
        apply hp
        have e : (finPt b).x -. (finPt a).x = (Arith.zero : XNum ℝ) := by
          rw [Bezier.zero_fin]
          simp only at hx
          simp [finPt, hx]
        rw [e, Bezier.zero_fin]
        exact precisionEquals_refl _ _
      · obtain ⟨q1, q2, q3⟩ := g2 ab hm
        exact ⟨by simp [q1], by simp [q2], q3⟩

/-- **C86.** An error of the outline is lost: the component gives no path and no error. -/
theorem C86_outline_false (n : ℕ) (initial spacing : ℝ) (hs : spacing ≠ 0) (render : Point (XNum ℝ) → Point (XNum ℝ) → XNum ℝ → Res (Path (XNum ℝ)))
    (fuel : ℕ) : xIntercept n (fin initial) (fin spacing) .err render fuel = some (.ok none) := by
  have hs0 : ((fin spacing : XNum ℝ) ==. Arith.zero) = false := by
    rw [Bezier.zero_fin, eq_fin]
    simp [hs]
  unfold xIntercept
  rw [hs0]
  rfl

/-- **C86.** An error of the repeated component is lost in the same way, as soon as it is rendered in the first row. -/
theorem C86_render_false (n : ℕ) (initial spacing : ℝ) (hs : spacing ≠ 0) (o : Path ℝ) (tl br : Point ℝ)
    (hb : whitespaceBox (finPath o) = .ok (finPt tl, finPt br)) (hy : tl.y + initial ≤ br.y) (ps : List (Point (XNum ℝ)))
    (hc : horizontalIntercepts n (finPath o) (fin (tl.y + initial)) = .ok ps) (hp : rowPairs n ps ≠ []) (fuel : ℕ) :
    xIntercept n (fin initial) (fin spacing) (.ok (finPath o)) (fun _ _ _ => .err) (fuel + 1) = some (.ok none) := by
  have hs0 : ((fin spacing : XNum ℝ) ==. Arith.zero) = false := by
    rw [Bezier.zero_fin, eq_fin]
    simp [hs]
  have key : ∀ (ps : List (Point (XNum ℝ))) (st : XNum ℝ × List (Path (XNum ℝ))), rowPairs n ps ≠ [] →
      interceptRow n (fun _ _ _ => Res.err) ps st = .err := by
    intro ps
    induction ps using List.twoStepInduction with
    | nil => intro st h; simp [rowPairs] at h
    | singleton a => intro st h; simp [rowPairs] at h
    | cons_cons a b rest ih _ =>
      intro st h
      unfold interceptRow
      unfold rowPairs at h
      simp only
      by_cases hq : precisionEquals (b.x -. a.x) Arith.zero n = true
      · rw [if_pos hq] at h ⊢
        exact ih st h
      · rw [if_neg hq]
  unfold xIntercept
  rw [hs0]
  simp only [hb, finPt, add_fin, Bool.false_eq_true, if_false]
  rw [interceptRows]
  simp only [le_fin, hy, decide_true, if_true, hc, Res.ok_bind, key _ _ hp]

/-- **C86.** With a negative spacing the component need not come to an end: if no copy is higher than the spacing is negative, the rows go up
and never pass the bottom. -/
theorem C86_ends_false (n : ℕ) (initial spacing : ℝ) (hs : spacing < 0) (o : Path ℝ) (tl br : Point ℝ)
    (hb : whitespaceBox (finPath o) = .ok (finPt tl, finPt br)) (hy : tl.y + initial ≤ br.y)
    (cuts : ℝ → List (Point (XNum ℝ))) (hc : ∀ y : ℝ, horizontalIntercepts n (finPath o) (fin y) = .ok (cuts y))
    (render : Point (XNum ℝ) → Point (XNum ℝ) → XNum ℝ → Res (Path (XNum ℝ))) (r : Point (XNum ℝ) → Point (XNum ℝ) → Path ℝ)
    (height : Point (XNum ℝ) → Point (XNum ℝ) → ℝ) (hr : ∀ a b, render a b (b.x -. a.x) = .ok (finPath (r a b)))
    (hh : ∀ a b, (measure (finPath (r a b))).2 = fin (height a b)) (hh0 : ∀ a b, height a b + spacing ≤ 0) (fuel : ℕ) :
    xIntercept n (fin initial) (fin spacing) (.ok (finPath o)) render fuel = none := by
  have hs0 : ((fin spacing : XNum ℝ) ==. Arith.zero) = false := by
    rw [Bezier.zero_fin, eq_fin]
    simp [hs.ne]
  have key : ∀ (fuel : ℕ) (y h : ℝ) (acc : List (Path (XNum ℝ))), y ≤ br.y → h + spacing ≤ 0 →
      interceptRows n (horizontalIntercepts n (finPath o)) render (fin br.y) (fin spacing) fuel (fin y) (fin h, acc) = none := by
    intro fuel
    induction fuel with
    | zero => intros; rfl
    | succ fuel ih =>
      intro y h acc hy hh1
      rw [interceptRows]
      simp only [le_fin, hy, decide_true, if_true, hc, Res.ok_bind]
      rw [interceptRow_ok n render (fun a b => finPath (r a b)) hr]
      have e : (((rowPairs n (cuts y)).map fun ab => (measure (finPath (r ab.1 ab.2))).2).getLast?).getD (fin h) = fin (rowHeight n cuts height y h) := by
        simp only [hh, rowHeight, List.getLast?_map]
        cases (rowPairs n (cuts y)).getLast? <;> rfl
      have h3 : rowHeight n cuts height y h + spacing ≤ 0 := by
        unfold rowHeight
        rw [List.getLast?_map]
        cases (rowPairs n (cuts y)).getLast? with
        | none => exact hh1
        | some ab => exact hh0 _ _
      simp only [e, add_fin]
      exact ih _ _ _ (by linarith) h3
  unfold xIntercept
  rw [hs0]
  simp only [hb, finPt, add_fin, Bool.false_eq_true, if_false]
  rw [Bezier.zero_fin, key fuel (tl.y + initial) 0 [] hy (by linarith)]

/-- **C86.** For an outline of straight lines and a component that is drawn the same everywhere, all of this holds for the intercepts of `C81`. -/
theorem C86_straight (n : ℕ) (initial spacing : ℝ) (hs : 0 < spacing) (o : Path ℝ) (hl : Straight o)
    (hw : ∃ t ∈ strokes o, leftEdge o + 1 / 10 ^ n < t.first.1 ∨ leftEdge o + 1 / 10 ^ n < t.last.1)
    (tl br : Point ℝ) (hb : whitespaceBox (finPath o) = .ok (finPt tl, finPt br)) (p : Path ℝ) (hne : strokes p ≠ []) (hsm : Small p) :
    ∃ (h : ℝ) (cuts : ℝ → List (Point ℝ)) (ys : List ℝ), 0 ≤ h ∧ (∀ y, (cuts y).Pairwise fun a b => a.x ≤ b.x) ∧
      (∀ y, ∀ q ∈ cuts y, ∃ t ∈ strokes o, Crosses n y t (pt q)) ∧
      (ys.Pairwise fun a b => a + spacing ≤ b) ∧ (∀ z ∈ ys, tl.y + initial ≤ z ∧ z ≤ br.y) ∧
      (ys.flatMap (fun y => rowPairs n ((cuts y).map finPt)) ≠ [] → ∀ fuel, ys.length < fuel → ∃ q : Path ℝ,
        xIntercept n (fin initial) (fin spacing) (.ok (finPath o)) (fun _ _ _ => .ok (finPath p)) fuel = some (.ok (some (finPath q))) ∧
        strokes q = ys.flatMap fun y => (rowPairs n ((cuts y).map finPt)).flatMap fun _ => strokes p) := by
  have hbox : ∃ h : ℝ, (measure (finPath p)).2 = fin h ∧ 0 ≤ h := by
    obtain ⟨a, b, h1, h2⟩ := trimmedBox_fin hne hsm
    refine ⟨b.2 - a.2, by simp [measure, h1, finPt, mk], ?_⟩
    obtain ⟨q, hq, -⟩ := h2.top
    linarith [(h2.inside q hq).2.2.1, (h2.inside q hq).2.2.2]
  obtain ⟨h, hh, h0⟩ := hbox
  choose cuts hc hsort hcross _ using fun y => C81_intercepts n y o hl hw
  obtain ⟨ys, g1, -, g3⟩ := C86_rows n initial spacing hs o tl br hb (fun y => (cuts y).map finPt) hc (fun _ _ _ => .ok (finPath p)) (fun _ _ => p)
    (fun _ _ => h) (fun _ _ => rfl) (fun _ _ => hh) (fun _ _ => h0)
  obtain ⟨k1, k2, -⟩ := C86_spaced spacing br.y hs.le _ (fun y h' h0' => by
    unfold rowHeight
    rw [List.getLast?_map]
    cases (rowPairs n ((cuts y).map finPt)).getLast? with
    | none => exact h0'
    | some ab => exact h0) _ _ le_rfl ys g1
  exact ⟨h, cuts, ys, h0, hsort, fun y q hq => (hcross y q hq).1, k1, k2, fun hne fuel hf => (g3 fuel hf).2 hne⟩

/-- Not vacuous: an outline and a component as `C86_straight` needs them; the rows end. -/
example : ∃ (fuel : ℕ) (v : Res (Option (Path (XNum ℝ)))),
    xIntercept 3 (fin 0) (fin 1) (.ok (finPath corner)) (fun _ _ _ => .ok (finPath corner)) fuel = some v := by
  have hl : Straight corner := by
    intro s hs
    simp only [corner, List.mem_cons, List.not_mem_nil, or_false] at hs
    rcases hs with rfl | rfl | rfl <;> exact ⟨_, _, by simp; try exact ⟨rfl, rfl⟩⟩
  have hw : ∃ t ∈ strokes corner, leftEdge corner + 1 / 10 ^ 3 < t.first.1 ∨ leftEdge corner + 1 / 10 ^ 3 < t.last.1 :=
    ⟨.line (0, 0) (2, 0), by simp [corner, strokes, strokeOf, pt], .inr (by norm_num [corner, leftEdge, Stroke.last, Segment.start])⟩
  choose cuts hc hsort hcross _ using fun y => C81_intercepts 3 y corner hl hw
  have hne : strokes corner ≠ [] := by simp [corner, strokes, strokeOf]
  have hsm : Small corner := by
    intro a c d b h
    simp [corner, strokes, strokeOf] at h
  obtain ⟨a, b, h1, h2⟩ := trimmedBox_fin hne hsm
  have h0 : 0 ≤ b.2 - a.2 := by
    obtain ⟨q, hq, -⟩ := h2.top
    linarith [(h2.inside q hq).2.2.1, (h2.inside q hq).2.2.2]
  obtain ⟨ys, -, -, g⟩ := C86_rows 3 0 1 one_pos corner _ _ corner_box (fun y => (cuts y).map finPt) hc (fun _ _ _ => .ok (finPath corner)) (fun _ _ => corner)
    (fun _ _ => b.2 - a.2) (fun _ _ => rfl) (fun _ _ => by simp [measure, h1, finPt, mk]) (fun _ _ => h0)
  refine ⟨ys.length + 1, ?_⟩
  by_cases he : ys.flatMap (fun y => rowPairs (3 : ℕ) ((cuts y).map finPt)) = []
  · exact ⟨_, (g _ (Nat.lt_succ_self _)).1 he⟩
  · obtain ⟨q, hq, -⟩ := (g _ (Nat.lt_succ_self _)).2 he
    exact ⟨_, hq⟩

/-- A spacing of -5 with copies of the height 1: the loop goes up for ever. -/
example (fuel : ℕ) : xIntercept 3 (fin 0) (fin (-5)) (.ok (finPath corner)) (fun _ _ _ => .ok (finPath corner)) fuel = none := by
  have hl : Straight corner := by
    intro s hs
    simp only [corner, List.mem_cons, List.not_mem_nil, or_false] at hs
    rcases hs with rfl | rfl | rfl <;> exact ⟨_, _, by simp; try exact ⟨rfl, rfl⟩⟩
  have hw : ∃ t ∈ strokes corner, leftEdge corner + 1 / 10 ^ 3 < t.first.1 ∨ leftEdge corner + 1 / 10 ^ 3 < t.last.1 :=
    ⟨.line (0, 0) (2, 0), by simp [corner, strokes, strokeOf, pt], .inr (by norm_num [corner, leftEdge, Stroke.last, Segment.start])⟩
  choose cuts hc _ _ _ using fun y => C81_intercepts 3 y corner hl hw
  have hne : strokes corner ≠ [] := by simp [corner, strokes, strokeOf]
  have hsm : Small corner := by
    intro a c d b h
    simp [corner, strokes, strokeOf] at h
  obtain ⟨a, b, h1, h2⟩ := trimmedBox_fin hne hsm
  have hd : ∀ q, Drawn corner q → 0 ≤ q.2 ∧ q.2 ≤ 1 := by
    rintro q ⟨st, hst, t, t0, t1, rfl⟩
    simp only [corner, strokes, strokeOf, List.filterMap_cons, List.filterMap_nil, List.mem_cons, List.not_mem_nil, or_false, pt] at hst
    rcases hst with rfl | rfl <;> simp only [Stroke.at] <;> constructor <;> nlinarith
  have h0 : b.2 - a.2 + -5 ≤ 0 := by
    obtain ⟨q, hq, e⟩ := h2.top
    obtain ⟨q', hq', e'⟩ := h2.bottom
    linarith [(hd q hq).1, (hd q' hq').2]
  exact C86_ends_false 3 0 (-5) (by norm_num) corner _ _ corner_box (by norm_num) (fun y => (cuts y).map finPt) hc (fun _ _ _ => .ok (finPath corner))
    (fun _ _ => corner) (fun _ _ => b.2 - a.2) (fun _ _ => rfl) (fun _ _ => by simp [measure, h1, finPt, mk]) (fun _ _ => h0) fuel

end Verif.Path
