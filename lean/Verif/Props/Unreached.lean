import Verif.Props.Xml
import Verif.Props.Typecast
import Verif.Props.Affine

/-!
# Further statements for C57 and C103: what the transforms of SVG would do if they were matched, and other code that is hardly reached
-/

namespace Verif.Xml

open Verif Verif.Dyn Verif.Path Verif.Spec

/-- A text of a name, an open parenthesis and arguments: what the expression `([a-z]+)\s*\(([0-9,\s]+)$` finds. -/
structure Called (s name args : Text) : Prop where
  split : ∃ before blank, s = before ++ name ++ blank ++ '(' :: args ∧ (∀ c ∈ blank, isReSpace c = true) ∧ ∀ c, before.getLast? = some c → isLower c = false
  named : name ≠ []
  lower : ∀ c ∈ name, isLower c = true
  given : args ≠ []
  arg : ∀ c ∈ args, isArg c = true

theorem isArg_paren : isArg '(' = false := by decide

theorem isReSpace_not_lower {c : Char} (h : isLower c = true) : isReSpace c = false := by
  by_contra hc
  simp only [Bool.not_eq_false] at hc
  simp only [isReSpace, decide_eq_true_eq, Bool.decide_or, Bool.or_eq_true] at hc
  rcases hc with rfl | rfl | rfl | rfl | hc <;> first | exact absurd h (by decide) | skip
  have hb : ('a'.toNat ≤ c.toNat) := by
    simp only [isLower, Bool.and_eq_true, decide_eq_true_eq] at h
    exact h.1
  have : 'a'.toNat = 97 := by decide
  omega

theorem takeWhile_exact {α : Type} {p : α → Bool} {l r : List α} (h1 : ∀ x ∈ l, p x = true) (h2 : ∀ x, r.head? = some x → p x = false) :
    (l ++ r).takeWhile p = l ∧ (l ++ r).dropWhile p = r := by
  have e1 : r.takeWhile p = [] ∧ r.dropWhile p = r := by
    cases r with
    | nil => exact ⟨rfl, rfl⟩
    | cons x r => simp [List.takeWhile, List.dropWhile, h2 x rfl]
  constructor
  · rw [List.takeWhile_append_of_pos h1, e1.1, List.append_nil]
  · rw [List.dropWhile_append_of_pos h1, e1.2]

theorem head_dropWhile {α : Type} {p : α → Bool} {l : List α} {x : α} (h : (l.dropWhile p).head? = some x) : p x = false := by
  induction l with
  | nil => cases h
  | cons a l ih =>
    cases ha : p a with
    | true => rw [List.dropWhile_cons_of_pos ha] at h; exact ih h
    | false =>
      rw [List.dropWhile_cons_of_neg (by simp [ha])] at h
      simp only [List.head?_cons, Option.some.injEq] at h
      exact h ▸ ha

theorem mem_takeWhile_true {α : Type} {p : α → Bool} {l : List α} {x : α} (h : x ∈ l.takeWhile p) : p x = true := by
  induction l with
  | nil => cases h
  | cons a l ih =>
    cases ha : p a with
    | true =>
      rw [List.takeWhile_cons_of_pos ha] at h
      rcases List.mem_cons.mp h with rfl | h
      · exact ha
      · exact ih h
    | false =>
      rw [List.takeWhile_cons_of_neg (by simp [ha])] at h
      cases h

/-- **C57.** A text is matched if and only if it ends with a name, an open parenthesis and arguments, and then the name and the arguments are found. -/
theorem C57_match (s name args : Text) : submatches s = [(name, args)] ↔ Called s name args := by
  constructor
  · intro h
    unfold submatches at h
    simp only at h
    split at h
    · rename_i hc
      obtain ⟨h1, h2, h3, h4⟩ := hc
      simp only [List.cons.injEq, Prod.mk.injEq, and_true] at h
      obtain ⟨rfl, rfl⟩ := h
      have hr : '(' ∈ s.reverse := List.mem_reverse.mpr h1
      have es : s = s.reverse.reverse := (List.reverse_reverse s).symm
      generalize s.reverse = r at hr h2 h3 h4 es ⊢
      have hd : ∃ tl, r.dropWhile (fun c => decide (c ≠ '(')) = '(' :: tl := by
        cases hx : r.dropWhile (fun c => decide (c ≠ '(')) with
        | nil =>
          have e := List.takeWhile_append_dropWhile (p := fun c => decide (c ≠ '(')) (l := r)
          rw [hx, List.append_nil] at e
          rw [← e] at hr
          exact absurd (mem_takeWhile_true hr) (by simp)
        | cons a tl =>
          have := head_dropWhile (p := fun c => decide (c ≠ '(')) (l := r) (x := a) (by rw [hx]; rfl)
          simp only [decide_eq_false_iff_not, not_not] at this
          exact ⟨tl, by rw [this]⟩
      obtain ⟨tl, htl⟩ := hd
      rw [htl] at h4 ⊢
      simp only [List.tail_cons] at h4 ⊢
      refine ⟨⟨((tl.dropWhile isReSpace).dropWhile isLower).reverse, (tl.takeWhile isReSpace).reverse, ?_, ?_, ?_⟩, h4, ?_, h2, ?_⟩
      · rw [es]
        conv_lhs => rw [← List.takeWhile_append_dropWhile (p := fun c => decide (c ≠ '(')) (l := r), htl, ← List.takeWhile_append_dropWhile (p := isReSpace) (l := tl),
          ← List.takeWhile_append_dropWhile (p := isLower) (l := tl.dropWhile isReSpace)]
        simp only [List.reverse_append, List.reverse_cons, List.append_assoc, List.singleton_append]
      · intro c hc
        exact mem_takeWhile_true (List.mem_reverse.mp hc)
      · intro c hc
        rw [List.getLast?_reverse] at hc
        exact head_dropWhile hc
      · intro c hc
        exact mem_takeWhile_true (List.mem_reverse.mp hc)
      · exact List.all_eq_true.mp h3
    · cases h
  · rintro ⟨⟨before, blank, rfl, hb, hl⟩, hn, hlow, ha, harg⟩
    have er : (before ++ name ++ blank ++ '(' :: args).reverse = args.reverse ++ '(' :: (blank.reverse ++ (name.reverse ++ before.reverse)) := by
      simp only [List.reverse_append, List.reverse_cons, List.append_assoc, List.nil_append, List.cons_append]
    have k1 := takeWhile_exact (p := fun c => decide (c ≠ '(')) (l := args.reverse) (r := '(' :: (blank.reverse ++ (name.reverse ++ before.reverse))) (by
      intro c hc
      have := harg c (List.mem_reverse.mp hc)
      rw [decide_eq_true_iff]
      rintro rfl
      rw [isArg_paren] at this
      cases this) (by intro c hc; simp only [List.head?_cons, Option.some.injEq] at hc; simp [← hc])
    have k2 := takeWhile_exact (p := isReSpace) (l := blank.reverse) (r := name.reverse ++ before.reverse) (fun c hc => hb c (List.mem_reverse.mp hc)) (by
      intro c hc
      refine isReSpace_not_lower (hlow c (List.mem_reverse.mp ?_))
      cases hx : name.reverse with
      | nil => simp at hx; exact absurd hx hn
      | cons a l =>
        rw [hx] at hc
        simp only [List.cons_append, List.head?_cons, Option.some.injEq] at hc
        simp [hc])
    have k3 := takeWhile_exact (p := isLower) (l := name.reverse) (r := before.reverse) (fun c hc => hlow c (List.mem_reverse.mp hc)) (by
      intro c hc
      rw [List.head?_reverse] at hc
      exact hl c hc)
    unfold submatches
    simp only [er, k1.1, k1.2, List.tail_cons, k2.2, k3.1, List.reverse_reverse]
    rw [if_pos]
    exact ⟨by simp, ha, List.all_eq_true.mpr harg, hn⟩

/-- **C57.** So a text that ends with a closing parenthesis is never matched: the last of the transforms of an element would be lost even if the variable were looked at. -/
theorem C57_last (t : Text) : submatches (t ++ [')']) = [] := by
  cases h : submatches (t ++ [')']) with
  | nil => rfl
  | cons x l =>
    exfalso
    have hx : l = [] := by
      unfold submatches at h
      simp only at h
      split at h
      · simp only [List.cons.injEq] at h
        exact h.2.symm
      · cases h
    subst hx
    obtain ⟨⟨before, blank, e, -, -⟩, -, -, ha, harg⟩ := (C57_match _ x.1 x.2).mp h
    have e1 : (t ++ [')']).getLast? = (before ++ x.1 ++ blank ++ '(' :: x.2).getLast? := by rw [e]
    have e2 : ('(' :: x.2).getLast? = x.2.getLast? := by
      cases hx : x.2 with
      | nil => exact absurd hx ha
      | cons a l => rw [List.getLast?_cons_cons]
    rw [List.getLast?_append_of_ne_nil _ (by simp), List.getLast?_append_of_ne_nil _ (by simp), e2] at e1
    have : ')' ∈ x.2 := List.mem_of_getLast? e1.symm
    exact absurd (harg _ this) (by decide)

/-- **C57.** What is matched as a matrix with six numbers would be applied as SVG says. -/
theorem C57_applied (a b c d e f : ℝ) (p : Path ℝ) : ∃ q, applyTransform "matrix".toList [a, b, c, d, e, f] p = some (.ok q) ∧
    strokes q = (strokes p).map (Stroke.map fun z => (a * z.1 + c * z.2 + e, b * z.1 + d * z.2 + f)) := by
  refine ⟨matrixTransform a b c d e f p, rfl, ?_⟩
  exact (C77_strokes ⟨a, b, c, d, e, f⟩ p).trans rfl

/-- A matrix that is not closed is matched; as it is written in SVG it is not. -/
example : submatches "matrix (1,0,0,1,5,0".toList = [("matrix".toList, "1,0,0,1,5,0".toList)] ∧ submatches "matrix (1,0,0,1,5,0)".toList = [] := by decide +kernel

end Verif.Xml

namespace Verif.Dyn

open Verif

/-- **C103.** With an empty delimiter a text is split into its characters. -/
theorem C103_characters (s : Text) : (splitText [] s).flatten = s ∧ ∀ p ∈ splitText [] s, p.length = 1 := by
  rw [splitText, if_pos rfl]
  refine ⟨?_, ?_⟩
  · induction s with
    | nil => rfl
    | cons c s ih => simp only [List.map_cons, List.flatten_cons, ih, List.singleton_append]
  · intro p hp
    obtain ⟨c, -, rfl⟩ := List.mem_map.mp hp
    rfl

example : splitText [] "a,b".toList = [['a'], [','], ['b']] := rfl

end Verif.Dyn
