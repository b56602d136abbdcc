import Verif.Model.Sort
import Verif.Model.Params
import Mathlib.Data.List.Lex
import Mathlib.Data.List.Chain
import Mathlib.Data.Char
import Mathlib.Data.Prod.Lex
import Mathlib.Data.List.Sort
import Mathlib.Tactic.Linarith
import Mathlib.Tactic.NormNum

/-!
# C90: sorting maps by a column

`sort.Sort` of Go leaves a permutation of the list in which no element is less than its left neighbour, if `Less` is a strict weak order. C90 says when
it is one, and what the sorted list then looks like.
-/

namespace Verif.Spec

/-- A strict weak order on the elements with `P`: nothing is less than itself, and both "less" and "not less" can be chained. -/
structure StrictWeak {α : Type*} (P : α → Prop) (less : α → α → Bool) : Prop where
  irrefl : ∀ a, P a → less a a = false
  trans : ∀ a b c, P a → P b → P c → less a b = true → less b c = true → less a c = true
  chain : ∀ a b c, P a → P b → P c → less a b = false → less b c = false → less a c = false

/-- What a sorting function leaves: the same rows, and none less than the one before it. -/
def SortedResult {α : Type*} (less : α → α → Bool) (before after : List α) : Prop :=
  after.Perm before ∧ after.IsChain fun a b => less b a = false

/-- Row `a` may stand before row `b`: rows without the column come last, the others are ordered numbers, texts, maps, anything else; numbers
go by their integer part and texts by the alphabet. -/
structure Before {F : Type*} (toInt : F → Int) (a b : Option (Dyn.Val F)) : Prop where
  missing : a = none → b = none
  numbers : ∀ y, b = some (.num y) → ∃ x, a = some (.num x) ∧ toInt x ≤ toInt y
  texts : ∀ t, b = some (.str t) → (∃ x, a = some (.num x)) ∨ ∃ s, a = some (.str s) ∧ s ≤ t
  maps : ∀ m, b = some (.map m) → (∃ x, a = some (.num x)) ∨ (∃ s, a = some (.str s)) ∨ ∃ m', a = some (.map m')

end Verif.Spec

namespace Verif.Dyn

open Verif.Spec

universe u

variable {F : Type u}

/-- The row has no truth value in the column. -/
def NoBool (col : Text) (a : DMap F) : Prop := ∀ b, get a col ≠ some (.bool b)

/-- The rank of a row: its kind, then the number or the text. -/
def rank (toInt : F → Int) (shown : Val F → Text) (col : Text) (a : DMap F) : Nat ×ₗ Int ×ₗ Text :=
  match get a col with
  | none => toLex (11, toLex (0, []))
  | some (.num x) => toLex (1, toLex (toInt x, []))
  | some (.str s) => toLex (2, toLex (0, s))
  | some v => toLex (kindOrder v, toLex (0, shown v))

theorem rowLess_iff (toInt : F → Int) (shown : Val F → Text) (col : Text) (a b : DMap F) (ha : NoBool col a) (hb : NoBool col b) :
    rowLess toInt shown col a b = true ↔ rank toInt shown col a < rank toInt shown col b := by
  unfold rowLess rank
  cases h1 : get a col with
  | none =>
    cases h2 : get b col with
    | none => simp
    | some w =>
      cases w <;> simp [Prod.Lex.lt_iff, kindOrder]
  | some v =>
    cases h2 : get b col with
    | none =>
      cases v <;> simp [Prod.Lex.lt_iff, kindOrder]
    | some w =>
      cases v <;> cases w <;> first | exact absurd h1 (ha _) | exact absurd h2 (hb _) | simp [less, Prod.Lex.lt_iff, kindOrder]

/-- **C90.** On rows without truth values in the column, the comparison is a strict weak order, whatever the other values are. -/
theorem C90_order (toInt : F → Int) (shown : Val F → Text) (col : Text) : StrictWeak (NoBool (F := F) col) (rowLess toInt shown col) := by
  have key : ∀ a b, NoBool (F := F) col a → NoBool col b → (rowLess toInt shown col a b = false ↔ rank toInt shown col b ≤ rank toInt shown col a) := by
    intro a b ha hb
    rw [← Bool.not_eq_true, rowLess_iff toInt shown col a b ha hb, not_lt]
  refine ⟨fun a ha => ?_, fun a b c ha hb hc h1 h2 => ?_, fun a b c ha hb hc h1 h2 => ?_⟩
  · rw [key a a ha ha]
  · rw [rowLess_iff _ _ _ _ _ ha hb] at h1
    rw [rowLess_iff _ _ _ _ _ hb hc] at h2
    rw [rowLess_iff _ _ _ _ _ ha hc]
    exact lt_trans h1 h2
  · rw [key _ _ ha hb] at h1
    rw [key _ _ hb hc] at h2
    rw [key _ _ ha hc]
    exact le_trans h2 h1

/-- **C90.** Such rows are sorted: any two of them, not only neighbours, stand in the right order. -/
theorem C90_sorted (toInt : F → Int) (shown : Val F → Text) (col : Text) (l r : List (DMap F)) (hl : ∀ a ∈ l, NoBool col a)
    (h : SortedResult (rowLess toInt shown col) l r) : r.Pairwise fun a b => Before toInt (get a col) (get b col) := by
  have hr : ∀ a ∈ r, NoBool col a := fun a ha => hl a (h.1.mem_iff.mp ha)
  have h1 : r.IsChain fun a b => rank toInt shown col a ≤ rank toInt shown col b := by
    refine List.IsChain.imp_of_mem_imp (fun a b ha hb hab => ?_) h.2
    rwa [← Bool.not_eq_true, rowLess_iff _ _ _ _ _ (hr b hb) (hr a ha), not_lt] at hab
  have h2 : r.Pairwise fun a b => rank toInt shown col a ≤ rank toInt shown col b := by
    have ht : IsTrans (DMap F) fun a b => rank toInt shown col a ≤ rank toInt shown col b := ⟨fun _ _ _ h1 h2 => le_trans h1 h2⟩
    exact List.isChain_iff_pairwise.mp h1
  refine h2.imp_of_mem ?_
  intro a b ha hb hab
  have na := hr a ha
  have nb := hr b hb
  unfold rank at hab
  constructor
  · intro e
    rw [e] at hab
    cases h2 : get b col with
    | none => rfl
    | some w => rw [h2] at hab; exfalso; cases w <;> simp [Prod.Lex.le_iff, kindOrder] at hab
  · intro y e
    rw [e] at hab
    cases h2 : get a col with
    | none => rw [h2] at hab; simp [Prod.Lex.le_iff] at hab
    | some w =>
      rw [h2] at hab
      cases w <;> first | exact absurd h2 (na _) | simp [Prod.Lex.le_iff, kindOrder] at hab
      · next x =>
        refine ⟨x, rfl, ?_⟩
        rcases hab with h | h
        · exact h.le
        · exact h.le
  · intro t e
    rw [e] at hab
    cases h2 : get a col with
    | none => rw [h2] at hab; simp [Prod.Lex.le_iff] at hab
    | some w =>
      rw [h2] at hab
      cases w <;> first | exact absurd h2 (na _) | simp [Prod.Lex.le_iff, kindOrder] at hab ⊢
      exact hab
  · intro m e
    rw [e] at hab
    cases h2 : get a col with
    | none => rw [h2] at hab; simp [Prod.Lex.le_iff, kindOrder] at hab
    | some w =>
      rw [h2] at hab
      cases w <;> first | exact absurd h2 (na _) | simp [Prod.Lex.le_iff, kindOrder] at hab ⊢

/-- The comparison is a strict weak order on all rows. -/
def C90_order_statement : Prop :=
  ∀ (toInt : Int → Int) (shown : Val Int → Text) (col : Text), StrictWeak (fun _ : DMap Int => True) (rowLess toInt shown col)

/-- **C90.** This is false: `true` is less than `true`. -/
theorem C90_order_false : ¬ C90_order_statement := by
  intro H
  have h := (H id (fun _ => []) ['a']).irrefl [(['a'], .bool true)] trivial
  revert h
  decide +kernel

/-- **C90.** Two rows with `true` cannot be sorted at all: each is less than the other. -/
theorem C90_bool_unsorted (toInt : F → Int) (shown : Val F → Text) (col : Text) (a b : DMap F) (ha : get a col = some (.bool true))
    (hb : get b col = some (.bool true)) : ¬ ∃ r, SortedResult (rowLess toInt shown col) [a, b] r := by
  have key : ∀ x ∈ [a, b], ∀ y ∈ [a, b], rowLess toInt shown col x y = true := by
    intro x hx y hy
    have e : ∀ z ∈ [a, b], get z col = some (.bool true) := by
      intro z hz
      simp only [List.mem_cons, List.not_mem_nil, or_false] at hz
      rcases hz with rfl | rfl
      · exact ha
      · exact hb
    simp [rowLess, e x hx, e y hy, less]
  rintro ⟨r, hp, hc⟩
  have hlen : r.length = 2 := by rw [hp.length_eq]; rfl
  match r, hlen with
  | [x, y], _ =>
    have h1 := key y (hp.mem_iff.mp (by simp)) x (hp.mem_iff.mp (by simp))
    simp only [List.isChain_cons_cons] at hc
    rw [hc.1] at h1
    cases h1

/-- `int64(v)` of Go. -/
def cut (x : ℚ) : Int := if 0 ≤ x then ⌊x⌋ else ⌈x⌉

/-- Rows with numbers are sorted by these numbers. -/
def C90_numbers_statement : Prop :=
  ∀ (shown : Val ℚ → Text) (col : Text) (l r : List (DMap ℚ)), SortedResult (rowLess cut shown col) l r →
    r.Pairwise fun a b => ∀ x y, get a col = some (.num x) → get b col = some (.num y) → x ≤ y

/-- **C90.** This is false, because the fractions are cut off before the comparison: `1.7` may stand before `1.2`. -/
theorem C90_numbers_false : ¬ C90_numbers_statement := by
  intro H
  have h := H (fun _ => []) ['a'] [[(['a'], .num (17 / 10))], [(['a'], .num (12 / 10))]] [[(['a'], .num (17 / 10))], [(['a'], .num (12 / 10))]]
    ⟨List.Perm.refl _, by
      simp only [List.isChain_cons_cons, List.IsChain.singleton, and_true]
      have e1 : cut (17 / 10) = 1 := by
        rw [cut, if_pos (by norm_num), Int.floor_eq_iff]; norm_num
      have e2 : cut (12 / 10) = 1 := by
        rw [cut, if_pos (by norm_num), Int.floor_eq_iff]; norm_num
      simp [rowLess, get, List.lookup, less, e1, e2, kindOrder]⟩
  simp only [List.pairwise_cons] at h
  have := h.1 [(['a'], .num (12 / 10))] (by simp) (17 / 10) (12 / 10) (by simp [get, List.lookup]) (by simp [get, List.lookup])
  norm_num at this

/-- Not vacuous: numbers before texts before rows without the column. -/
example : SortedResult (rowLess (F := Int) id (fun _ => []) ['a'])
    [[], [(['a'], .str ['x'])], [(['a'], .num 3)], [(['a'], .num (-2))]] [[(['a'], .num (-2))], [(['a'], .num 3)], [(['a'], .str ['x'])], []] := by
  refine ⟨?_, ?_⟩
  · exact List.reverse_perm ([[], [(['a'], .str ['x'])], [(['a'], .num 3)], [(['a'], .num (-2))]] : List (DMap Int))
  · simp only [List.isChain_cons_cons, List.IsChain.singleton, and_true]
    decide +kernel

end Verif.Dyn
