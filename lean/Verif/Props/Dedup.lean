import Verif.Lemmas.Dedup
import Verif.Props.Clean

/-!
# Properties: what deduplication removes (C135)
-/

namespace Verif.Path

open Verif Verif.Spec

universe u

/-! ## C135 Deduplication removes strokes only in pairs that run forth and back -/

variable {K : Type u} [Field K] [LinearOrder K] [IsStrictOrderedRing K] [FloorRing K]

/-- **C135.** What deduplication leaves is obtained from the strokes of the path by taking out, again and again, a stroke together with
the next one when that prints as the same stroke backwards, and then only aligning starts that print the same. Any path, any number of
decimals. -/
theorem C135_pairs (n : Nat) (p q : Path K) (h : dedup n p = .ok q) :
    ∃ kept, Cancels n (strokes p) kept ∧ List.Forall₂ (Aligned n) kept (strokes q) := by
  obtain ⟨a, b, h1, h2, rfl⟩ := dedup_parts h
  exact ⟨strokes b, cancels_trans (dedupOnce_cancels h1) (dedupOnce_cancels h2),
    by simpa using C34_strokes (n : Int) b (fun s _ => by simp [EndsProperly])⟩

/-- **C135.** If no stroke runs back over the one before it, deduplication succeeds and keeps every stroke, whether or not the path begins
with a move. -/
theorem C135_keeps (n : Nat) (p : Path K) (h : (strokes p).IsChain (fun s t => ¬ PrintsBack n s t)) :
    ∃ q, dedup n p = .ok q ∧ List.Forall₂ (Aligned n) (strokes p) (strokes q) := by
  obtain ⟨a, h1, e1⟩ := dedupOnce_keeps h
  obtain ⟨b, h2, e2⟩ := dedupOnce_keeps (p := a) (by rw [e1]; exact h)
  refine ⟨cleanup n b, by simp [dedup, h1, h2], ?_⟩
  rw [← e1, ← e2]
  simpa using C34_strokes (n : Int) b (fun s _ => by simp [EndsProperly])

/-- **C135.** The number of strokes that disappear is even. -/
theorem C135_even (n : Nat) (p q : Path K) (h : dedup n p = .ok q) : ∃ k, (strokes p).length = (strokes q).length + 2 * k := by
  obtain ⟨kept, h1, h2⟩ := C135_pairs n p q h
  rw [← h2.length_eq]
  exact cancels_even h1

/-- **C135.** No such pair is left: where one stroke follows another in the result without a move between them, it does not print as the
other backwards. -/
theorem C135_none_left (n : Nat) (p q : Path K) (h : dedup n p = .ok q) :
    q.IsChain (fun a b => ∀ s t, strokeOf a = some s → strokeOf b = some t → ¬ PrintsBack n s t) := by
  obtain ⟨a, b, h1, h2, rfl⟩ := dedup_parts h
  have := notBack_cleanup (n := n) (p := b) (fun s _ => by simp [EndsProperly]) (notBack_dedupOnce h2)
  refine this.imp ?_
  intro x y hxy s t hs ht hb
  rcases hxy with h3 | h3 | h3
  · rw [strokeOf_eq_none.2 h3] at hs; cases hs
  · rw [strokeOf_eq_none.2 h3] at ht; cases ht
  · exact h3 ((uniqueString_back n x y hs ht).2 hb)

/-- **C135.** Reordering the parts of a path in which each segment starts where the previous one ended: the strokes, each as it was or
backwards, in some order, without the pairs that then run forth and back. -/
theorem C135_reorder (n : Nat) (p q : Path ℝ) (h : Chained p) (hq : reorder n p = .ok q) :
    q = p ∨ ∃ arranged kept, Rearranged (strokes p) arranged ∧ Cancels n arranged kept ∧ List.Forall₂ (Aligned n) kept (strokes q) := by
  rcases C36_reorder symmEq_field n p h with h1 | ⟨r, h1, h2⟩
  · rw [h1] at hq
    cases hq
    exact Or.inl rfl
  · rw [h2] at hq
    obtain ⟨kept, h3, h4⟩ := C135_pairs n r q hq
    exact Or.inr ⟨strokes r, kept, h1, h3, h4⟩

/-- **C135**, what the name promises: after the duplicates are removed each stroke of the path is still drawn, forwards or backwards. -/
def C135_once_statement (K : Type u) [Num K] : Prop :=
  ∀ (n : Nat) (p q : Path K), dedup n p = .ok q → ∀ s ∈ strokes p, s ∈ strokes q ∨ s.reverse ∈ strokes q

/-- **C135.** That is not so: of a stroke that is drawn forth and back both copies are removed and nothing is drawn there any more. -/
theorem C135_once_false : ¬ C135_once_statement ℚ := by
  intro h
  have h1 : dedup 3 ([.move ⟨0, 0, 0⟩ ⟨1, 0, 0⟩, .line ⟨1, 0, 0⟩ ⟨2, 0, 0⟩, .line ⟨2, 0, 0⟩ ⟨1, 0, 0⟩,
      .line ⟨1, 0, 0⟩ ⟨1, 5, 0⟩] : Path ℚ) = .ok [.move ⟨0, 0, 0⟩ ⟨1, 0, 0⟩, .line ⟨1, 0, 0⟩ ⟨1, 5, 0⟩] := by decide +kernel
  have := h 3 _ _ h1 (.line (1, 0) (2, 0)) (by decide +kernel)
  revert this
  decide +kernel

/-- Not vacuous: two nested pairs go, a curve among them, and a stroke that only nearly runs back, in the third decimal, stays. -/
example : (match dedup 3 ([.move ⟨0, 0, 0⟩ ⟨1, 0, 0⟩, .line ⟨1, 0, 0⟩ ⟨2, 0, 0⟩, .curve ⟨2, 0, 0⟩ ⟨3, 0, 0⟩ ⟨3, 1, 0⟩ ⟨4, 1, 0⟩,
      .curve ⟨4, 1, 0⟩ ⟨3, 1, 0⟩ ⟨3, 0, 0⟩ ⟨2, 0, 0⟩, .line ⟨2, 0, 0⟩ ⟨1, 1/10000, 0⟩, .line ⟨1, 0, 0⟩ ⟨5, 0, 0⟩,
      .line ⟨5, 0, 0⟩ ⟨1, 1/1000, 0⟩] : Path ℚ) with
    | .ok q => strokes q
    | _ => []) = [.line (1, 0) (5, 0), .line (5, 0) (1, 1/1000)] := by decide +kernel

/-- Not vacuous: a path without a move at its head and without strokes that run back keeps all of them. -/
example : (strokes ([.line ⟨0, 0, 0⟩ ⟨1, 0, 0⟩, .line ⟨1, 0, 0⟩ ⟨1, 1, 0⟩] : Path ℚ)).IsChain (fun s t => ¬ PrintsBack 3 s t) := by
  simp only [strokes, strokeOf, List.filterMap_cons, List.filterMap_nil]
  refine .cons_cons ?_ (.singleton _)
  intro h
  cases h with
  | line _ h2 =>
    revert h2
    unfold PrintsSame
    decide +kernel

end Verif.Path
