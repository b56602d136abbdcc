import Verif.Model.Attr
import Verif.Props.Params
import Verif.Props.Components

/-!
# C91: attributes are found with their kind
-/

set_option linter.unusedSectionVars false

namespace Verif.Dyn

open Verif Verif.Path Verif.Spec

universe u

variable {F : Type u} [Trig F] {O : Type}

/-- **C91.** A number in the local map is found as it is. -/
theorem C91_number (a : Source F O) (n : Nat) (param : Text) (x : F) (h : get a.mp param = some (.num x)) : a.number n param = .val x := by
  have e : a.find param = some (.num x) := C46_attr_local a.chain a.mp param _ h (by intro s hs; cases hs)
  simp only [Source.number, e, Source.convert, toFloat64]

/-- **C91.** A map with two numbers under `x` and `y` is the point with these coordinates. -/
theorem C91_point_map (a : Source F O) (n fuel : Nat) (param : Text) (m : DMap F) (x y : F) (hp : param.head? ≠ some '$')
    (h : a.find param = some (.map m)) (hx : get m xKey = some (.num x)) (hy : get m yKey = some (.num y)) :
    a.point n (fuel + 1) param = .val (newPoint x y) := by
  simp only [Source.point, if_neg hp, h, Source.mapPoint, hx, hy, Option.getD_some, Source.pair, Source.convert, toFloat64]

theorem split_comma {s t : Text} (hs : ',' ∉ s) (ht : ',' ∉ t) : Path.splitOn ',' (s ++ ',' :: t) [] = [s, t] := by
  have key : ∀ (s : Text) (acc : Text), ',' ∉ s → Path.splitOn ',' s acc = [acc.reverse ++ s] := by
    intro s
    induction s with
    | nil => intro acc _; simp [Path.splitOn]
    | cons c s ih =>
      intro acc h
      rw [List.mem_cons, not_or] at h
      rw [Path.splitOn, if_neg (fun e => h.1 e.symm), ih _ h.2]
      simp
  have key2 : ∀ (s : Text) (acc : Text), ',' ∉ s → Path.splitOn ',' (s ++ ',' :: t) acc = [acc.reverse ++ s, t] := by
    intro s
    induction s with
    | nil => intro acc _; simp [Path.splitOn, key t [] ht]
    | cons c s ih =>
      intro acc h
      rw [List.mem_cons, not_or] at h
      rw [List.cons_append, Path.splitOn, if_neg (fun e => h.1 e.symm), ih _ h.2]
      simp
  simpa using key2 s [] hs

/-- **C91.** A text with one comma is the point whose coordinates are the values of the two expressions, and it is not looked up as a name. -/
theorem C91_point_text (a : Source F O) (n fuel : Nat) (param s t : Text) (x y : F) (hp : param.head? ≠ some '$')
    (hs : ',' ∉ s) (ht : ',' ∉ t) (h : a.find param = some (.str (s ++ ',' :: t))) (hx : a.convert n (.str s) = .val x)
    (hy : a.convert n (.str t) = .val y) : a.point n (fuel + 1) param = .val (newPoint x y) := by
  have e0 : (s ++ ',' :: t).all (fun c => decide (c ≠ ' ' ∧ c ≠ ',' ∧ c ≠ '$')) = false := by simp
  have e1 : a.string param = some (s ++ ',' :: t) := by
    unfold Source.string
    rw [h]
    show (if (s ++ ',' :: t).all (fun c => decide (c ≠ ' ' ∧ c ≠ ',' ∧ c ≠ '$')) = true then _ else _) = _
    rw [e0]
    rfl
  simp only [Source.point, if_neg hp, h, e1, Option.getD_some, split_comma hs ht, Source.pair, hx, hy]

/-- **C91.** Of the names with a dollar sign only the cursor is a point, and only while the component is rendered. -/
theorem C91_cursor (a : Source F O) (n fuel : Nat) (param : Text) (hp : param.head? = some '$') :
    a.point n (fuel + 1) param =
      if param = "$CURSOR".toList then (match a.cursor with | some p => .val p | none => .err) else .err := by
  simp only [Source.point, if_pos hp]
  rfl

/-- **C91.** A map with an angle and a length instead of coordinates is the point at this distance in this direction. -/
theorem C91_polar (a : Source F O) (n fuel : Nat) (param : Text) (from' : Point F) (m : DMap F) (angle length : F) (hp : param.head? ≠ some '$')
    (h : a.find param = some (.map m)) (hx : get m xKey = none) (he : a.convert n (.str []) = .err)
    (h1 : a.number n (param ++ ".angle".toList) = .val angle) (h2 : a.number n (param ++ ".length".toList) = .val length) :
    a.point2 n (fuel + 1) param from' = .val (lineAngleEnd from' length angle) := by
  have h1 : a.number n (param ++ angleEnd) = .val angle := h1
  have h2 : a.number n (param ++ lengthEnd) = .val length := h2
  have e : a.point n (fuel + 1) param = .err := by
    simp only [Source.point, if_neg hp, h, Source.mapPoint, hx, Option.getD_none, Source.pair, he]
  simp only [Source.point2, e, h, h1, h2]

/-- **C91.** A default is used exactly when the attribute is not found. -/
theorem C91_default {α : Type u} (o : Out α) (d : α) : Out.getD o d = match o with | .err => .val d | .val v => .val v | .running => .running := by
  cases o <;> rfl

/-- **C91.** A flag is true for `true`, `t`, `yes`, `y` and `on`, false for `false`, `f`, `no`, `n` and `off`, in small or capital letters, and
not found for every other text. -/
theorem C91_flag (a : Source F O) (param s : Text) (h : a.string param = some s) :
    (a.flag param = some true ↔ lower s ∈ ["true".toList, "t".toList, "yes".toList, "y".toList, "on".toList]) ∧
    (a.flag param = some false ↔ lower s ∈ ["false".toList, "f".toList, "no".toList, "n".toList, "off".toList]) := by
  have d : ∀ x ∈ trueTexts, x ∉ falseTexts := by decide +kernel
  have e : a.flag param = if lower s ∈ trueTexts then some true else if lower s ∈ falseTexts then some false else none := by
    simp only [Source.flag, h, Option.bind_some, toBool]
  rw [e, show ["true".toList, "t".toList, "yes".toList, "y".toList, "on".toList] = trueTexts by decide +kernel,
    show ["false".toList, "f".toList, "no".toList, "n".toList, "off".toList] = falseTexts by decide +kernel]
  constructor
  · split_ifs with h1 h2 <;> simp [h1]
  · split_ifs with h1 h2
    · simp [d _ h1]
    · simp [h2]
    · simp [h2]

/-- The name that is read next when a point is looked up under a name. -/
def Source.next (a : Source F O) (param s : Text) : Prop :=
  param.head? ≠ some '$' ∧ s ≠ param ∧ (∃ v, a.find param = some v ∧ ∀ m, v ≠ .map m) ∧ Path.splitOn ',' ((a.string param).getD []) [] = [s]

/-- **C91.** Looking up a point comes to an end when the names do not go around in a circle: if they can be numbered so that a name that is read next has a smaller
number. -/
theorem C91_ends (a : Source F O) (n : Nat) (hc : ∀ v, a.convert n v ≠ .running) (r : Text → Nat) (hr : ∀ p s, a.next p s → r s < r p)
    (param : Text) : a.point n (r param + 1) param ≠ .running := by
  have hpair : ∀ v w, a.pair n v w ≠ .running := by
    intro v w
    unfold Source.pair
    have h1 := hc v
    have h2 := hc w
    split
    · split
      · simp
      · simp
      · next e => exact absurd e h2
    · simp
    · next e => exact absurd e h1
  have key : ∀ k param, r param < k → a.point n k param ≠ .running := by
    intro k
    induction k with
    | zero => intro p h; omega
    | succ k ih =>
      intro p hp
      unfold Source.point
      split_ifs with h1 h2
      · cases a.cursor <;> simp
      · simp
      · split
        · simp
        · exact hpair _ _
        · next v hm hv =>
          split
          · next s hs =>
            split_ifs with h3
            · refine ih s ?_
              have := hr p s ⟨h1, h3, ⟨v, hv, ?_⟩, hs⟩
              · omega
              · exact fun m e => hm m e
            · simp
          · exact hpair _ _
          · simp
  exact key _ _ (by omega)

/-- Looking up a point always comes to an end, if expressions do. -/
def C91_ends_statement : Prop :=
  ∀ (a : Source ℝ Unit) (n : Nat), (∀ v, a.convert n v ≠ .running) → ∀ param, ∃ fuel, a.point n fuel param ≠ .running

/-- A library that refuses every expression. -/
def noLib : Lib ℝ Unit := ⟨fun _ => none, fun _ => none, fun _ _ _ => none⟩

/-- The document without parameters. -/
def emptyDocument : Chain ℝ := .document ⟨[], [], []⟩ []

/-- An element with the attributes `a = "b"` and `b = "a"`. -/
def circle : Source ℝ Unit := ⟨noLib, fun _ => [], emptyDocument, [(['a'], .str ['b']), (['b'], .str ['a'])], none⟩

/-- The two names in turn. -/
def turn (i : Nat) : Text := if i % 2 = 0 then ['a'] else ['b']

theorem get_turn (i : Nat) : get circle.mp (turn i) = some (.str (turn (i + 1))) := by
  unfold turn
  rcases Nat.mod_two_eq_zero_or_one i with h | h
  · have h' : (i + 1) % 2 = 1 := by omega
    rw [if_pos h, if_neg (by omega)]
    rfl
  · have h' : (i + 1) % 2 = 0 := by omega
    rw [if_neg (by omega), if_pos h']
    rfl

theorem turn_ne (i : Nat) : turn (i + 1) ≠ turn i := by
  unfold turn
  rcases Nat.mod_two_eq_zero_or_one i with h | h
  · rw [if_pos h, if_neg (by omega)]
    decide
  · rw [if_neg (show ¬ i % 2 = 0 by omega), if_pos (show (i + 1) % 2 = 0 by omega)]
    decide

theorem find_turn (i : Nat) : circle.find (turn i) = some (.str (turn (i + 1))) := by
  have key : ∀ k i r, r + k = recursionMax → attrLookup circle.chain circle.mp (turn i) r = some (.str (turn (i + k + 1))) := by
    intro k
    induction k with
    | zero =>
      intro i r h
      rw [attrLookup, if_neg (by omega), get_turn]
      simp only [if_pos (turn_ne i)]
      rw [attrLookup, if_pos (by omega)]
    | succ k ih =>
      intro i r h
      rw [attrLookup, if_neg (by omega), get_turn]
      simp only [if_pos (turn_ne i)]
      rw [ih (i + 1) (r + 1) (by omega)]
      simp only [show i + 1 + k + 1 = i + (k + 1) + 1 by omega]
  rw [Source.find, key 12 i 0 rfl]
  have : turn (i + 12 + 1) = turn (i + 1) := by
    unfold turn
    rw [show (i + 12 + 1) % 2 = (i + 1) % 2 by omega]
  rw [this]

theorem string_turn (i : Nat) : circle.string (turn i) = some (turn (i + 1)) := by
  have h : circle.chain.lookup (turn (i + 1)) = none := by
    refine C46_missing _ _ ?_
    unfold turn
    split_ifs <;> exact ⟨rfl, rfl, rfl⟩
  unfold Source.string
  rw [find_turn]
  simp only [Source.textOf, h]
  split <;> rfl

theorem point_turn (n fuel i : Nat) : circle.point n fuel (turn i) = .running := by
  have h1 : ∀ i, (turn i).head? ≠ some '$' := by
    intro i
    unfold turn
    split_ifs <;> decide
  have h2 : ∀ i, Path.splitOn ',' (turn i) [] = [turn i] := by
    intro i
    unfold turn
    split_ifs <;> decide
  induction fuel generalizing i with
  | zero => rfl
  | succ fuel ih =>
    simp only [Source.point, if_neg (h1 i), find_turn, string_turn, Option.getD_some, h2, if_pos (turn_ne i), ih]

/-- **C91, negation.** Two attributes that name each other: the point is looked up for ever (in Go, until the stack overflows). The bound on the
number of references does not help, because every step starts a new lookup. -/
theorem C91_ends_false : ¬ C91_ends_statement := by
  intro h
  obtain ⟨fuel, hf⟩ := h circle 1 (by
    intro v
    cases v <;> simp [Source.convert, evalExpression, evalText, circle, noLib, toFloat64, maxRecursion]) (turn 0)
  exact hf (point_turn 1 fuel 0)

/-- **C91.** Dollar signs in a number do not matter. -/
theorem C91_dollar (a : Source F O) (n : Nat) (p q t t' : Text) (hp : a.find p = some (.str t)) (hq : a.find q = some (.str t'))
    (h : t.filter (fun c => decide (c ≠ '$')) = t'.filter fun c => decide (c ≠ '$')) : a.number n p = a.number n q := by
  simp only [Source.number, hp, hq, Source.convert, h]

/-- **C91.** A text without spaces, commas and dollar signs that is the name of something stands for this, and for itself otherwise. -/
theorem C91_name (a : Source F O) (param s : Text) (h : a.find param = some (.str s)) (hs : ' ' ∉ s ∧ ',' ∉ s ∧ '$' ∉ s) :
    (∀ t, a.chain.lookup s = some (.str t) → a.string param = some t) ∧ (a.chain.lookup s = none → a.string param = some s) := by
  have e : (s.all fun c => decide (c ≠ ' ' ∧ c ≠ ',' ∧ c ≠ '$')) = true := by
    rw [List.all_eq_true]
    intro c hc
    rw [decide_eq_true_eq]
    refine ⟨?_, ?_, ?_⟩ <;> rintro rfl
    · exact hs.1 hc
    · exact hs.2.1 hc
    · exact hs.2.2 hc
  constructor
  · intro t ht
    simp only [Source.string, h, Source.textOf, if_pos e, ht]
  · intro hn
    simp only [Source.string, h, Source.textOf, if_pos e, hn]

/-- **C91.** Any other text stands for itself, even if it is the name of something. -/
theorem C91_literal (a : Source F O) (param s : Text) (h : a.find param = some (.str s)) (hs : ' ' ∈ s ∨ ',' ∈ s ∨ '$' ∈ s) : a.string param = some s := by
  have e : ¬ (s.all fun c => decide (c ≠ ' ' ∧ c ≠ ',' ∧ c ≠ '$')) = true := by
    rw [List.all_eq_true]
    intro hc
    rcases hs with h | h | h <;> simpa using hc _ h
  simp only [Source.string, h, Source.textOf]
  exact if_neg e

/-- A point given as a map, one given under its angle and length, and a flag. -/
def located : Source ℝ Unit :=
  ⟨noLib, fun _ => [], emptyDocument,
    [("p".toList, .map [(xKey, .num 3), (yKey, .num 4)]), ("q".toList, .map [("angle".toList, .num 90), ("length".toList, .num 2)]),
      ("f".toList, .str "Yes".toList)], none⟩

example : located.point 1 1 "p".toList = .val (newPoint 3 4) :=
  C91_point_map located 1 0 "p".toList _ 3 4 (by decide) (C46_attr_local _ _ _ _ rfl (by intro s h; cases h)) rfl rfl

example (o : Point ℝ) : located.point2 1 1 "q".toList o = .val (lineAngleEnd o 2 90) :=
  C91_polar located 1 0 "q".toList o _ 90 2 (by decide) (C46_attr_local _ _ _ _ rfl (by intro s h; cases h)) rfl rfl
    (C91_number _ _ _ _ rfl) (C91_number _ _ _ _ rfl)

end Verif.Dyn
