import Verif.Props.Meeting
import Verif.Lemmas.JoinLines

/-!
# C36 Which path comes next when a path is reordered

Of the runs that are left, the next one is that with an end nearest to where the pen is, turned round if need be, provided this end is there as printed; if none is there,
it is the first of them.
-/

namespace Verif.Path

open Verif Verif.Spec XNum

set_option linter.unusedSectionVars false

theorem shortest_least (d : Path (XNum ℝ) → XNum ℝ) (f : Path (XNum ℝ) → ℝ) : ∀ (l : List (Path (XNum ℝ))) (pre : List (Path (XNum ℝ))) (best : Nat) (b : Path (XNum ℝ)),
    (∀ q ∈ l, d q = fin (f q)) → pre[best]? = some b → (∀ q ∈ pre, f b ≤ f q) →
    ∃ c, (pre ++ l)[shortest d l pre.length best (fin (f b))]? = some c ∧ ∀ q ∈ pre ++ l, f c ≤ f q
  | [], pre, best, b, _, h1, h2 => ⟨b, by simpa [shortest] using h1, by simpa using h2⟩
  | q :: l, pre, best, b, hd, h1, h2 => by
    have hq := hd q (by simp)
    have hl : ∀ r ∈ l, d r = fin (f r) := fun r hr => hd r (by simp [hr])
    have e : pre ++ q :: l = (pre ++ [q]) ++ l := by simp
    rw [shortest, hq, lt_fin, e]
    by_cases h : f q < f b
    · rw [if_pos (by simpa using h)]
      have := shortest_least d f l (pre ++ [q]) pre.length q hl (by simp) (by
        intro r hr
        rcases List.mem_append.1 hr with hr | hr
        · exact h.le.trans (h2 r hr)
        · rw [List.mem_singleton.1 hr])
      simpa using this
    · rw [if_neg (by simpa using h)]
      have := shortest_least d f l (pre ++ [q]) best b hl (by
        rw [List.getElem?_append_left]
        · exact h1
        · exact (List.getElem?_eq_some_iff.1 h1).1) (by
        intro r hr
        rcases List.mem_append.1 hr with hr | hr
        · exact h2 r hr
        · rw [List.mem_singleton.1 hr]
          exact not_lt.1 h)
      simpa using this

/-- The least of the distances is found. -/
theorem shortest_first (d : Path (XNum ℝ) → XNum ℝ) (f : Path (XNum ℝ) → ℝ) (first : Path (XNum ℝ)) (rest : List (Path (XNum ℝ)))
    (hd : ∀ q ∈ first :: rest, d q = fin (f q)) :
    ∃ c, (first :: rest)[shortest d (first :: rest) 0 0 (d first)]? = some c ∧ ∀ q ∈ first :: rest, f c ≤ f q := by
  have h0 := hd first (by simp)
  rw [shortest, h0, lt_fin, if_neg (by simp)]
  have := shortest_least d f rest [first] 0 first (fun q hq => hd q (by simp [hq])) rfl (by simp)
  simpa using this

theorem endsOf_fin (p : Path ℝ) : startAndEndOf (finPath p) = (finPt (startAndEndOf p).1, finPt (startAndEndOf p).2) := by
  cases p with
  | nil =>
    simp only [startAndEndOf, finPath, List.map_nil, startAndEnd, Option.getD_none]
    simp [zeroPoint, finPt, Arith.zero]
  | cons s rest =>
    obtain ⟨b, hb⟩ : ∃ b, (s :: rest).getLast? = some b := ⟨_, List.getLast?_eq_some_getLast (by simp)⟩
    rw [startAndEndOf_fin (a := s) rfl hb]
    have e : (s :: rest).getLast (by simp) = b := by rwa [List.getLast?_eq_some_getLast (by simp), Option.some.injEq] at hb
    simp only [startAndEndOf, startAndEnd, Option.getD_some, e]

/-- **C36.** Which run comes next: let `m` be the least distance from the end of the drawing so far to an end of a run that is left. If it prints as zero, the next run is one
with an end at this distance, as it is if that is its start, and turned round if it is its end. If not, it is the first run. -/
theorem C36_nearest (n : Nat) (p first : Path ℝ) (rest : List (Path ℝ)) :
    let stop := pt (startAndEndOf (trimTailMove p)).2
    let r := nextPath (n : Int) (finPath p) (finPath first) (rest.map finPath)
    ∃ m : ℝ, (∀ q ∈ first :: rest, m ≤ farness stop (pt (startAndEndOf q).1) ∧ m ≤ farness stop (pt (startAndEndOf q).2)) ∧
      (∃ q ∈ first :: rest, m = farness stop (pt (startAndEndOf q).1) ∨ m = farness stop (pt (startAndEndOf q).2)) ∧
      ((Decimal.fmt n m = Decimal.fmt n (0 : ℝ) ∧ ∃ q, (first :: rest)[r.2]? = some q ∧
          ((r.1 = finPath q ∧ farness stop (pt (startAndEndOf q).1) = m) ∨
            (r.1 = finPath (reversePath q) ∧ farness stop (pt (startAndEndOf q).2) = m))) ∨
        (Decimal.fmt n m ≠ Decimal.fmt n (0 : ℝ) ∧ r = (finPath first, 0))) := by
  intro stop r
  let val : XNum ℝ → ℝ := fun x => match x with | .fin x => x | _ => 0
  have hm : ∀ q ∈ finPath first :: rest.map finPath, ∃ q₀ ∈ first :: rest, q = finPath q₀ := by
    intro q hq
    rcases List.mem_cons.1 hq with rfl | hq
    · exact ⟨first, by simp, rfl⟩
    · obtain ⟨q₀, h0, rfl⟩ := List.mem_map.1 hq
      exact ⟨q₀, by simp [h0], rfl⟩
  set S : Point (XNum ℝ) := (startAndEndOf (trimTailMove (finPath p))).2 with hS
  have eS : S = finPt (startAndEndOf (trimTailMove p)).2 := by rw [hS, trimTailMove_fin, endsOf_fin]
  set ds : Path (XNum ℝ) → XNum ℝ := fun q => distance S (startAndEndOf q).1 with hds
  set de : Path (XNum ℝ) → XNum ℝ := fun q => distance S (startAndEndOf q).2 with hde
  have e1 : ∀ q : Path ℝ, ds (finPath q) = fin (farness stop (pt (startAndEndOf q).1)) := by
    intro q
    rw [hds]
    simp only [endsOf_fin, eS]
    exact distance_finPt _ _
  have e2 : ∀ q : Path ℝ, de (finPath q) = fin (farness stop (pt (startAndEndOf q).2)) := by
    intro q
    rw [hde]
    simp only [endsOf_fin, eS]
    exact distance_finPt _ _
  obtain ⟨c, hc1, hc2⟩ := shortest_first ds (fun q => val (ds q)) (finPath first) (rest.map finPath) (by
    intro q hq
    obtain ⟨q₀, -, rfl⟩ := hm q hq
    rw [e1])
  obtain ⟨c', hc1', hc2'⟩ := shortest_first de (fun q => val (de q)) (finPath first) (rest.map finPath) (by
    intro q hq
    obtain ⟨q₀, -, rfl⟩ := hm q hq
    rw [e2])
  set i := shortest ds (finPath first :: rest.map finPath) 0 0 (ds (finPath first)) with hi
  set j := shortest de (finPath first :: rest.map finPath) 0 0 (de (finPath first)) with hj
  have cs : ∀ k : Nat, (finPath first :: rest.map finPath)[k]? = ((first :: rest)[k]?).map finPath := by
    intro k
    rw [← List.map_cons, List.getElem?_map]
  rw [cs, Option.map_eq_some_iff] at hc1 hc1'
  obtain ⟨a, ha, rfl⟩ := hc1
  obtain ⟨b, hb, rfl⟩ := hc1'
  have ga : (finPath first :: rest.map finPath).getD i (finPath first) = finPath a := by
    rw [List.getD_eq_getElem?_getD, cs, ha]; rfl
  have gb : (finPath first :: rest.map finPath).getD j (finPath first) = finPath b := by
    rw [List.getD_eq_getElem?_getD, cs, hb]; rfl
  have la : ∀ q ∈ first :: rest, farness stop (pt (startAndEndOf a).1) ≤ farness stop (pt (startAndEndOf q).1) := by
    intro q hq
    have := hc2 (finPath q) (by rw [← List.map_cons]; exact List.mem_map.2 ⟨q, hq, rfl⟩)
    simpa only [e1] using this
  have lb : ∀ q ∈ first :: rest, farness stop (pt (startAndEndOf b).2) ≤ farness stop (pt (startAndEndOf q).2) := by
    intro q hq
    have := hc2' (finPath q) (by rw [← List.map_cons]; exact List.mem_map.2 ⟨q, hq, rfl⟩)
    simpa only [e2] using this
  have hr : r = (let t := if de (finPath b) <. ds (finPath a) then (reversePath (finPath b), j, de (finPath b)) else (finPath a, i, ds (finPath a))
      if precisionEquals t.2.2 Arith.zero n then (t.1, t.2.1) else (finPath first, 0)) := by
    show nextPath _ _ _ _ = _
    unfold nextPath
    simp only []
    rw [← hS, ← hds, ← hde, ← hi, ← hj, ga, gb]
  have pe : ∀ x : ℝ, precisionEquals (fin x) (Arith.zero : XNum ℝ) n = true ↔ Decimal.fmt n x = Decimal.fmt n (0 : ℝ) := by
    intro x
    simp [precisionEquals]
  rw [hr, e1, e2, lt_fin]
  by_cases h : farness stop (pt (startAndEndOf b).2) < farness stop (pt (startAndEndOf a).1)
  · refine ⟨farness stop (pt (startAndEndOf b).2), fun q hq => ⟨h.le.trans (la q hq), lb q hq⟩, ⟨b, List.mem_of_getElem? hb, .inr rfl⟩, ?_⟩
    simp only [decide_eq_true h, if_true]
    by_cases hp : Decimal.fmt n (farness stop (pt (startAndEndOf b).2)) = Decimal.fmt n (0 : ℝ)
    · left
      rw [if_pos ((pe _).2 hp)]
      exact ⟨hp, b, hb, .inr ⟨reversePath_fin b, rfl⟩⟩
    · right
      rw [if_neg (fun g => hp ((pe _).1 g))]
      exact ⟨hp, rfl⟩
  · refine ⟨farness stop (pt (startAndEndOf a).1), fun q hq => ⟨la q hq, (not_lt.1 h).trans (lb q hq)⟩, ⟨a, List.mem_of_getElem? ha, .inl rfl⟩, ?_⟩
    simp only [decide_eq_false h, Bool.false_eq_true, if_false]
    by_cases hp : Decimal.fmt n (farness stop (pt (startAndEndOf a).1)) = Decimal.fmt n (0 : ℝ)
    · left
      rw [if_pos ((pe _).2 hp)]
      exact ⟨hp, a, ha, .inl ⟨rfl, rfl⟩⟩
    · right
      rw [if_neg (fun g => hp ((pe _).1 g))]
      exact ⟨hp, rfl⟩

/-- Not vacuous: a line that ends at the pen comes next, though another one is first. -/
example : (nextPath 3 (finPath ([.move ⟨0, 0, 0⟩ ⟨0, 0, 0⟩, .line ⟨0, 0, 0⟩ ⟨1, 0, 0⟩] : Path ℝ)) (finPath [.move ⟨1, 0, 0⟩ ⟨5, 5, 0⟩, .line ⟨5, 5, 0⟩ ⟨6, 6, 0⟩])
    ([[.move ⟨6, 6, 0⟩ ⟨1, 1, 0⟩, .line ⟨1, 1, 0⟩ ⟨1, 0, 0⟩]].map finPath)).2 = 1 := by
  obtain ⟨m, h1, ⟨q, -, h2⟩, h3⟩ := C36_nearest 3 [.move ⟨0, 0, 0⟩ ⟨0, 0, 0⟩, .line ⟨0, 0, 0⟩ ⟨1, 0, 0⟩]
    [.move ⟨1, 0, 0⟩ ⟨5, 5, 0⟩, .line ⟨5, 5, 0⟩ ⟨6, 6, 0⟩] [[.move ⟨6, 6, 0⟩ ⟨1, 1, 0⟩, .line ⟨1, 1, 0⟩ ⟨1, 0, 0⟩]]
  have h0 : 0 ≤ m := by rcases h2 with rfl | rfl <;> exact Real.sqrt_nonneg _
  have hz := (h1 [.move ⟨6, 6, 0⟩ ⟨1, 1, 0⟩, .line ⟨1, 1, 0⟩ ⟨1, 0, 0⟩] (by simp)).2
  have es : pt (startAndEndOf (trimTailMove ([.move ⟨0, 0, 0⟩ ⟨0, 0, 0⟩, .line ⟨0, 0, 0⟩ ⟨1, 0, 0⟩] : Path ℝ))).2 = (1, 0) := rfl
  rw [es] at hz h3
  have hm : m = 0 := by
    refine le_antisymm (hz.trans (le_of_eq ?_)) h0
    simp [farness, pt, startAndEndOf, startAndEnd, Segment.stop]
  subst hm
  rcases h3 with ⟨-, q, h4, h5⟩ | ⟨h4, -⟩
  · generalize (nextPath (F := XNum ℝ) _ _ _ _).2 = i at h4 ⊢
    match i with
    | 0 =>
      exfalso
      simp only [List.getElem?_cons_zero, Option.some.injEq] at h4
      subst h4
      rcases h5 with ⟨-, h⟩ | ⟨-, h⟩ <;>
      · rw [farness, Real.sqrt_eq_zero'] at h
        simp only [pt, startAndEndOf, startAndEnd, Segment.stop, Option.getD_some, List.getLast_cons_cons, List.getLast_singleton] at h
        norm_num at h
    | 1 => rfl
    | i + 2 => simp at h4
  · exact absurd rfl h4

end Verif.Path
