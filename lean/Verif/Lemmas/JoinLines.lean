import Verif.Lemmas.SepLines
import Verif.Props.DrawComponent
import Verif.Props.Parts

/-!
# One step of joining lines

What one call of the join transform does to two paths of lines, told of their strokes.
-/

namespace Verif.Path

open Verif Verif.Spec Verif.XNum

set_option linter.unusedSectionVars false

theorem finPath_reversed (p : Path ℝ) : (finPath p).reverse.map Segment.reverse = finPath (p.reverse.map Segment.reverse) := by
  simp only [finPath, ← List.map_reverse, List.map_map]
  congr 1
  funext s
  exact (finSeg_reverse s).symm

theorem reversePath_fin (p : Path ℝ) : reversePath (finPath p) = finPath (reversePath p) := by
  rw [reversePath, finPath_reversed, show ([] : Path (XNum ℝ)) = finPath [] from rfl, addSegments_finP]
  rfl

theorem chained_trimMove {p : Path ℝ} (h : Chained p) : Chained (trimMove p) := by
  obtain ⟨⟨before, after, e, -, -⟩, -⟩ := C20_trim p
  rw [chained_iff] at h ⊢
  rw [e] at h
  exact ((List.isChain_append.1 (List.isChain_append.1 h).1).2).1

theorem strokeOf_line {s : Segment ℝ} {a b : Pt ℝ} (h : strokeOf s = some (.line a b)) : ∃ A B, s = .line A B ∧ pt A = a ∧ pt B = b := by
  cases s with
  | move c d => cases h
  | line c d => cases h; exact ⟨c, d, rfl, rfl, rfl⟩
  | curve c d e f => cases h

theorem trim_first {p : Path ℝ} {s : Stroke ℝ} {l : List (Stroke ℝ)} (h : strokes p = s :: l) :
    ∃ seg rest, trimMove p = seg :: rest ∧ strokeOf seg = some s ∧ strokes rest = l := by
  have h1 := (C20_trim p).2.2.2.1
  have h2 := (C20_trim p).2.1
  rw [h] at h1
  cases e : trimMove p with
  | nil => rw [e] at h1; cases h1
  | cons seg rest =>
    rw [e] at h1 h2
    rw [strokes_cons] at h1
    have hm := h2 seg rfl
    cases hs : strokeOf seg with
    | none => rw [strokeOf_eq_none] at hs; rw [hs] at hm; cases hm
    | some t =>
      rw [hs] at h1
      simp only [Option.toList_some, List.cons_append, List.nil_append, List.cons.injEq] at h1
      exact ⟨seg, rest, rfl, by rw [hs, h1.1], h1.2⟩

theorem trim_last {p : Path ℝ} {s : Stroke ℝ} {l : List (Stroke ℝ)} (h : strokes p = l ++ [s]) :
    ∃ seg init, trimMove p = init ++ [seg] ∧ strokeOf seg = some s ∧ strokes init = l := by
  have h1 := (C20_trim p).2.2.2.1
  have h2 := (C20_trim p).2.2.1
  rw [h] at h1
  rcases List.eq_nil_or_concat (trimMove p) with e | ⟨init, seg, e⟩
  · rw [e] at h1; simp at h1
  · rw [List.concat_eq_append] at e
    rw [e] at h1 h2
    have hm := h2 seg (by simp)
    cases hs : strokeOf seg with
    | none => rw [strokeOf_eq_none] at hs; rw [hs] at hm; cases hm
    | some t =>
      rw [strokes_append, strokes_cons, hs] at h1
      have h3 : strokes init ++ [t] = l ++ [s] := by simpa using h1
      obtain ⟨h4, h5⟩ := List.append_inj' h3 rfl
      simp only [List.cons.injEq, and_true] at h5
      exact ⟨seg, init, e, by rw [hs, h5], h4⟩

/-- The state of the join transform, as far as strokes are concerned. -/
structure Joining (l1 l2 : List (Stroke ℝ)) (p1 p2 : Path ℝ) : Prop where
  solid : Solid p1
  chain1 : Chained p1
  strokes1 : strokes p1 = l1
  chain2 : Chained p2
  strokes2 : strokes p2 = l2

theorem start_of_stroke {s : Segment ℝ} {t : Stroke ℝ} (h : strokeOf s = some t) : pt s.start = t.first ∧ pt s.stop = t.last := by
  cases s with
  | move c d => cases h
  | line c d => cases h; exact ⟨rfl, rfl⟩
  | curve c d e f => cases h; exact ⟨rfl, rfl⟩

/-- The four distances that the transform compares. -/
theorem joinLoop_unfold (n so : Int) (fuel : Nat) (p1 p2 : Path ℝ) {f s1 s2 g : Segment ℝ} {rest : Path ℝ} (hf : (trimMove p1).head? = some f)
    (h1 : (trimMove p1).getLast? = some s1) (h2 : trimMove p2 = s2 :: rest) (hg : (trimMove p2).getLast? = some g) :
    joinLoop n so (fuel + 1) (finPath p1) (finPath p2) =
      if (shortestOf (fin (lengthOf (pt f.start) (pt s2.start))) (fin (lengthOf (pt f.start) (pt g.stop))) (fin (lengthOf (pt s1.stop) (pt s2.start)))
          (fin (lengthOf (pt s1.stop) (pt g.stop))) ==. (fin (lengthOf (pt s1.stop) (pt s2.start)) : XNum ℝ)) = true then
        joinLoop n so fuel (newPathWithoutMove (joinEnds n so (finPath (trimMove p1)) (finSeg s1) (finSeg s2))) (finPath (newPathWithoutMove rest))
      else if (shortestOf (fin (lengthOf (pt f.start) (pt s2.start))) (fin (lengthOf (pt f.start) (pt g.stop))) (fin (lengthOf (pt s1.stop) (pt s2.start)))
          (fin (lengthOf (pt s1.stop) (pt g.stop))) ==. (fin (lengthOf (pt s1.stop) (pt g.stop)) : XNum ℝ)) = true then
        joinLoop n so fuel (finPath (trimMove p1)) (finPath (reversePath (trimMove p2)))
      else if (shortestOf (fin (lengthOf (pt f.start) (pt s2.start))) (fin (lengthOf (pt f.start) (pt g.stop))) (fin (lengthOf (pt s1.stop) (pt s2.start)))
          (fin (lengthOf (pt s1.stop) (pt g.stop))) ==. (fin (lengthOf (pt f.start) (pt s2.start)) : XNum ℝ)) = true then
        joinLoop n so fuel (finPath (reversePath (trimMove p1))) (finPath (trimMove p2))
      else if (shortestOf (fin (lengthOf (pt f.start) (pt s2.start))) (fin (lengthOf (pt f.start) (pt g.stop))) (fin (lengthOf (pt s1.stop) (pt s2.start)))
          (fin (lengthOf (pt s1.stop) (pt g.stop))) ==. (fin (lengthOf (pt f.start) (pt g.stop)) : XNum ℝ)) = true then
        joinLoop n so fuel (finPath (reversePath (trimMove p1))) (finPath (reversePath (trimMove p2)))
      else joinLoop n so fuel (newPathWithoutMove (joinEnds n so (finPath (trimMove p1)) (finSeg s1) (finSeg s2))) (finPath (newPathWithoutMove rest)) := by
  have d1 : firstStart (finPath (trimMove p1)) = finPt f.start := by simp [firstStart, head_fin, hf]
  have d2 : (startAndEndOf (finPath (trimMove p1))).2 = finPt s1.stop := by
    rw [stop_of_getLast (s := finSeg s1) (by rw [getLast_fin, h1]; rfl), stop_finSeg]
  have d3 : (startAndEndOf (finPath (trimMove p2))).2 = finPt g.stop := by
    rw [stop_of_getLast (s := finSeg g) (by rw [getLast_fin, hg]; rfl), stop_finSeg]
  have e2 : finPath (trimMove p2) = finSeg s2 :: finPath rest := by rw [h2]; rfl
  have e3 : newPathWithoutMove (finPath rest) = finPath (newPathWithoutMove rest) := fixHeadMove_fin rest
  conv_lhs => rw [joinLoop]
  simp only [newPathWithoutMove_trim]
  simp only [trimMove_fin]
  rw [show finPath (trimMove p2) = finSeg s2 :: finPath rest from e2]
  simp only [getLast_fin, h1, Option.map_some]
  rw [← e2]
  simp only [d1, d2, d3, start_finSeg, distance_fin, e3, reversePath_fin]

theorem shortestOf_fin (ss se es ee : ℝ) : ∃ m : ℝ, shortestOf (fin ss) (fin se) (fin es) (fin ee) = fin m ∧ m ≤ ss ∧ m ≤ se ∧ m ≤ es ∧ m ≤ ee ∧
    (m = ss ∨ m = se ∨ m = es ∨ m = ee) := by
  have key : ∀ a b : ℝ, ∃ m : ℝ, (if ((fin b : XNum ℝ) <. fin a) = true then (fin b : XNum ℝ) else fin a) = fin m ∧ m ≤ a ∧ m ≤ b ∧ (m = a ∨ m = b) := by
    intro a b
    by_cases h : b < a
    · exact ⟨b, by simp [h], h.le, le_refl _, .inr rfl⟩
    · exact ⟨a, by simp [h], le_refl _, not_lt.1 h, .inl rfl⟩
  obtain ⟨m1, e1, a1, b1, c1⟩ := key ss se
  obtain ⟨m2, e2, a2, b2, c2⟩ := key m1 es
  obtain ⟨m3, e3, a3, b3, c3⟩ := key m2 ee
  refine ⟨m3, ?_, by linarith, by linarith, by linarith, by linarith, ?_⟩
  · simp only [shortestOf]
    rw [e1, e2, e3]
  · rcases c3 with h | h
    · rcases c2 with h' | h'
      · rcases c1 with h'' | h''
        · exact .inl (by linarith)
        · exact .inr (.inl (by linarith))
      · exact .inr (.inr (.inl (by linarith)))
    · exact .inr (.inr (.inr h))

/-- The end of the first path is nearest to the start of the second one: they are joined there. -/
theorem join_take (n so : Int) (fuel : Nat) {l1 l2 u v : List (Stroke ℝ)} {p1 p2 : Path ℝ} {a b c e x : Pt ℝ} {f g : Stroke ℝ} (h : Joining l1 l2 p1 p2)
    (h1 : l1 = u ++ [.line a b]) (hf : l1.head? = some f) (h2 : l2 = .line c e :: v) (hg : l2.getLast? = some g)
    (m1 : lengthOf b c ≤ lengthOf f.first c) (m2 : lengthOf b c ≤ lengthOf f.first g.last) (m3 : lengthOf b c ≤ lengthOf b g.last)
    (hx : ∀ A B C E : Point ℝ, pt A = a → pt B = b → pt C = c → pt E = e → (finPt B).equalsPrecision (finPt C) n = false ∧
      ∃ A' X Y : Point ℝ, pt A' = a ∧ pt X = x ∧ pt Y = x ∧ joinSegments so (finSeg (.line A B)) (finSeg (.line C E)) = [finSeg (.line A' X), finSeg (.line Y E)]) :
    ∃ p1' p2', joinLoop n so (fuel + 1) (finPath p1) (finPath p2) = joinLoop n so fuel (finPath p1') (finPath p2') ∧
      Joining (u ++ [.line a x, .line x e]) v p1' p2' := by
  obtain ⟨s1, init, t1, k1, k2⟩ := trim_last (h.strokes1.trans h1)
  obtain ⟨A, B, rfl, rfl, rfl⟩ := strokeOf_line k1
  obtain ⟨s2, rest, t2, k3, k4⟩ := trim_first (h.strokes2.trans h2)
  obtain ⟨C, E, rfl, rfl, rfl⟩ := strokeOf_line k3
  obtain ⟨f', fr, t3, k5, -⟩ : ∃ seg rest, trimMove p1 = seg :: rest ∧ strokeOf seg = some f ∧ True := by
    cases l1 with
    | nil => cases hf
    | cons s l =>
      simp only [List.head?_cons, Option.some.injEq] at hf
      subst hf
      obtain ⟨seg, rest, q1, q2, -⟩ := trim_first h.strokes1
      exact ⟨seg, rest, q1, q2, trivial⟩
  obtain ⟨g', gr, t4, k6, -⟩ : ∃ seg init, trimMove p2 = init ++ [seg] ∧ strokeOf seg = some g ∧ True := by
    rw [List.getLast?_eq_some_iff] at hg
    obtain ⟨l, hl⟩ := hg
    obtain ⟨seg, rest, q1, q2, -⟩ := trim_last (h.strokes2.trans hl)
    exact ⟨seg, rest, q1, q2, trivial⟩
  have hu := joinLoop_unfold n so fuel p1 p2 (f := f') (s1 := .line A B) (s2 := .line C E) (rest := rest) (g := g') (by rw [t3]; rfl) (by rw [t1]; simp) t2
    (by rw [t4]; simp)
  obtain ⟨f1, -⟩ := start_of_stroke k5
  obtain ⟨-, g1⟩ := start_of_stroke k6
  rw [f1, g1, show (Segment.line A B).stop = B from rfl, show (Segment.line C E).start = C from rfl] at hu
  obtain ⟨m, hm, q1, q2, q3, q4, q5⟩ := shortestOf_fin (lengthOf f.first (pt C)) (lengthOf f.first g.last) (lengthOf (pt B) (pt C)) (lengthOf (pt B) g.last)
  have hmm : m = lengthOf (pt B) (pt C) := by
    rcases q5 with e | e | e | e <;> linarith
  rw [hm, if_pos (by rw [hmm]; simp)] at hu
  obtain ⟨y1, A', X, Y, y2, y3, y4, y5⟩ := hx A B C E rfl rfl rfl rfl
  have hs : ∀ s ∈ init ++ [Segment.line A B], s.isMove = false := by rw [← t1]; exact h.solid
  have ej : joinEnds n so (finPath (trimMove p1)) (finSeg (.line A B)) (finSeg (.line C E)) = finPath (init ++ [.line A' X, .line Y E]) := by
    rw [joinEnds, if_neg (by rw [stop_finSeg, start_finSeg]; simp [y1, Segment.stop, Segment.start]), y5, t1]
    simp [finPath]
  have hsol : ∀ s ∈ init ++ [Segment.line A' X, .line Y E], s.isMove = false := by
    intro s hs'
    simp only [List.mem_append, List.mem_cons, List.not_mem_nil, or_false] at hs'
    rcases hs' with h' | rfl | rfl
    · exact hs s (by simp [h'])
    · rfl
    · rfl
  rw [ej, newPathWithoutMove_run (finPath_run hsol)] at hu
  refine ⟨_, _, hu, ⟨?_, ?_, ?_, ?_, ?_⟩⟩
  · exact (solid_of_all hsol).2
  · have := chained_trimMove h.chain1
    rw [t1, chained_iff, List.isChain_append] at this
    rw [chained_iff, List.isChain_append]
    refine ⟨this.1, ?_, ?_⟩
    · simp only [List.isChain_cons_cons, List.isChain_singleton, and_true]
      exact .inl (by simp only [Segment.stop, Segment.start]; rw [y3, y4])
    · intro w hw z hz
      simp only [List.head?_cons, Option.mem_def, Option.some.injEq] at hz
      subst hz
      have := this.2.2 w hw (.line A B) (by simp)
      rw [meets_iff] at this ⊢
      rw [this]
      exact y2.symm
  · rw [strokes_append, k2]
    simp [strokes, strokeOf, y2, y3, y4]
  · have := chained_trimMove h.chain2
    rw [t2] at this
    refine chained_fixHeadMove ?_
    rw [chained_iff] at this ⊢
    exact this.tail
  · rw [newPathWithoutMove, strokes_fixHeadMove, k4]

theorem head_last_swap {l : List (Stroke ℝ)} {s : Stroke ℝ} (h : l.head? = some s) : (l.map Stroke.reverse).reverse.getLast? = some s.reverse := by
  rw [List.getLast?_reverse, List.head?_map, h]; rfl

/-- The start of the first path is nearest to the end of the second one: both are turned round. -/
theorem join_swap (n so : Int) (fuel : Nat) {l1 l2 : List (Stroke ℝ)} {p1 p2 : Path ℝ} {f s1 s2 g : Stroke ℝ} (h : Joining l1 l2 p1 p2)
    (hf : l1.head? = some f) (h1 : l1.getLast? = some s1) (h2 : l2.head? = some s2) (hg : l2.getLast? = some g)
    (m1 : lengthOf f.first g.last < lengthOf f.first s2.first) (m2 : lengthOf f.first g.last < lengthOf s1.last s2.first)
    (m3 : lengthOf f.first g.last < lengthOf s1.last g.last) :
    ∃ p1' p2', joinLoop n so (fuel + 1) (finPath p1) (finPath p2) = joinLoop n so fuel (finPath p1') (finPath p2') ∧
      Joining (l1.map Stroke.reverse).reverse (l2.map Stroke.reverse).reverse p1' p2' := by
  have first : ∀ {p : Path ℝ} {l : List (Stroke ℝ)} {t : Stroke ℝ}, strokes p = l → l.head? = some t →
      ∃ seg rest, trimMove p = seg :: rest ∧ strokeOf seg = some t := by
    intro p l t hp hl
    cases l with
    | nil => cases hl
    | cons s l =>
      simp only [List.head?_cons, Option.some.injEq] at hl
      subst hl
      obtain ⟨seg, rest, q1, q2, -⟩ := trim_first hp
      exact ⟨seg, rest, q1, q2⟩
  have last : ∀ {p : Path ℝ} {l : List (Stroke ℝ)} {t : Stroke ℝ}, strokes p = l → l.getLast? = some t →
      ∃ seg init, trimMove p = init ++ [seg] ∧ strokeOf seg = some t := by
    intro p l t hp hl
    rw [List.getLast?_eq_some_iff] at hl
    obtain ⟨l, hl⟩ := hl
    obtain ⟨seg, rest, q1, q2, -⟩ := trim_last (hp.trans hl)
    exact ⟨seg, rest, q1, q2⟩
  obtain ⟨f', _, t1, k1⟩ := first h.strokes1 hf
  obtain ⟨s1', _, t2, k2⟩ := last h.strokes1 h1
  obtain ⟨s2', rest, t3, k3⟩ := first h.strokes2 h2
  obtain ⟨g', _, t4, k4⟩ := last h.strokes2 hg
  have hu := joinLoop_unfold n so fuel p1 p2 (f := f') (s1 := s1') (s2 := s2') (rest := rest) (g := g') (by rw [t1]; rfl) (by rw [t2]; simp) t3
    (by rw [t4]; simp)
  rw [(start_of_stroke k1).1, (start_of_stroke k2).2, (start_of_stroke k3).1, (start_of_stroke k4).2] at hu
  obtain ⟨m, hm, q1, q2, q3, q4, q5⟩ := shortestOf_fin (lengthOf f.first s2.first) (lengthOf f.first g.last) (lengthOf s1.last s2.first) (lengthOf s1.last g.last)
  have hmm : m = lengthOf f.first g.last := by
    rcases q5 with e | e | e | e <;> linarith
  have ne : ∀ r : ℝ, lengthOf f.first g.last < r → ¬ ((fin m : XNum ℝ) ==. fin r) = true := by
    intro r hr
    simp only [eq_fin, decide_eq_true_eq]
    linarith
  rw [hm, if_neg (ne _ m2), if_neg (ne _ m3), if_neg (ne _ m1), if_pos (by rw [hmm]; simp)] at hu
  have b1 := trimMove_bare p1
  obtain ⟨r, e1, -, -, -, -, e2⟩ := reverse_bare b1 (first := f') (last := s1') (by rw [t1]; rfl) (by rw [t2]; simp)
  refine ⟨_, _, hu, ⟨?_, ?_, ?_, ?_, ?_⟩⟩
  · intro s hs
    rw [e1] at hs
    exact e2 h.solid s hs
  · exact connected_chained (connected_reversePath _)
  · rw [C33_reverse symmEq_field _ (chained_trimMove h.chain1), (C20_trim p1).2.2.2.1, h.strokes1]
  · exact connected_chained (connected_reversePath _)
  · rw [C33_reverse symmEq_field _ (chained_trimMove h.chain2), (C20_trim p2).2.2.2.1, h.strokes2]

/-- Nothing is left to join. -/
theorem join_done (n so : Int) (fuel : Nat) {l1 : List (Stroke ℝ)} {p1 p2 : Path ℝ} (h : Joining l1 [] p1 p2) :
    ∃ r, joinLoop n so (fuel + 1) (finPath p1) (finPath p2) = some (finPath r) ∧ strokes r = l1 ∧ (∀ s ∈ r, s.isMove = false) ∧ Chained r := by
  have h2 : trimMove p2 = [] := by
    have e := (C20_trim p2).2.2.2.1
    have b := (C20_trim p2).2.1
    rw [h.strokes2] at e
    cases ht : trimMove p2 with
    | nil => rfl
    | cons s l =>
      rw [ht] at e b
      have := b s rfl
      rw [strokes_cons] at e
      cases s with
      | move c d => cases this
      | line c d => cases e
      | curve c d e' f => cases e
  refine ⟨trimMove p1, ?_, by rw [(C20_trim p1).2.2.2.1, h.strokes1], h.solid, chained_trimMove h.chain1⟩
  rw [joinLoop]
  simp only [newPathWithoutMove_trim]
  simp only [trimMove_fin]
  rw [h2]
  rfl

/-- The first stroke is taken as it is. -/
theorem join_first (n so : Int) (fuel : Nat) {p : Path ℝ} {s : Stroke ℝ} {l : List (Stroke ℝ)} (hc : Chained p) (h : strokes p = s :: l) :
    ∃ p1' p2', joinLoop n so (fuel + 1) [] (finPath p) = joinLoop n so fuel (finPath p1') (finPath p2') ∧ Joining [s] l p1' p2' := by
  obtain ⟨seg, rest, e1, e2, e3⟩ := trim_first h
  have hm : seg.isMove = false := by
    rw [← Bool.not_eq_true]
    intro hm
    rw [strokeOf_eq_none.2 hm] at e2
    cases e2
  refine ⟨[seg], newPathWithoutMove rest, ?_, ⟨?_, ?_, ?_, ?_, ?_⟩⟩
  · rw [joinLoop]
    simp only [newPathWithoutMove_trim]
    simp only [trimMove_fin]
    rw [e1]
    simp only [finPath_cons]
    have : newPathWithoutMove (trimMove ([] : Path (XNum ℝ)) ++ [finSeg seg]) = finPath [seg] :=
      newPathWithoutMove_run (p := finPath [seg]) (finPath_run (by simpa using hm))
    have e3 : newPathWithoutMove (finPath rest) = finPath (newPathWithoutMove rest) := fixHeadMove_fin rest
    rw [← e3]
    simp only [trimMove, List.getLast?_nil]
    exact congrArg (fun q => joinLoop n so fuel q _) this
  · exact (solid_of_all (by simpa using hm)).2
  · simp [Chained, ConnectedFrom]
  · simp [strokes, e2]
  · have := chained_trimMove hc
    rw [e1] at this
    refine chained_fixHeadMove ?_
    rw [chained_iff] at this ⊢
    exact this.tail
  · rw [newPathWithoutMove, strokes_fixHeadMove, e3]

/-! ## Lines at right angles -/

/-- A point of the plane, with its coordinates exchanged or not. -/
def turned (sw : Bool) (x y : ℝ) : Pt ℝ := if sw then (y, x) else (x, y)

theorem apart_equalsPrecision {n : Int} {P Q : Point ℝ} (h : 1 / 10 ^ n.toNat < |P.x - Q.x| ∨ 1 / 10 ^ n.toNat < |P.y - Q.y|) :
    (finPt P).equalsPrecision (finPt Q) n = false := by
  rw [← Bool.not_eq_true]
  intro he
  have hp : (0:ℝ) < 1 / 10 ^ n.toNat := by positivity
  unfold Point.equalsPrecision at he
  split at he
  · rw [equals_fin, equals_iff] at he
    simp only [pt, Prod.mk.injEq] at he
    rw [he.1, he.2] at h
    simp only [sub_self, abs_zero, or_self] at h
    linarith
  · simp only [finPt, fmt_fin, Bool.and_eq_true, beq_iff_eq] at he
    have h1 := Decimal.fmt_close he.1
    have h2 := Decimal.fmt_close he.2
    rcases h with h | h <;> linarith

theorem apart_precisionEquals {n : Int} {x y : ℝ} (h : 1 / 10 ^ n.toNat < |x - y|) : precisionEquals (fin x : XNum ℝ) (fin y) n = false := by
  rw [← Bool.not_eq_true]
  intro he
  have hp : (0:ℝ) < 1 / 10 ^ n.toNat := by positivity
  unfold precisionEquals at he
  split at he
  · simp only [eq_fin, decide_eq_true_eq] at he
    rw [he] at h
    simp only [sub_self, abs_zero] at h
    linarith
  · simp only [fmt_fin, beq_iff_eq] at he
    have h1 := Decimal.fmt_close he
    linarith

theorem same_precisionEquals (n : Int) (x : ℝ) : precisionEquals (fin x : XNum ℝ) (fin x) n = true := by
  unfold precisionEquals
  split <;> simp

theorem slope_flat {A B : Point ℝ} (hx : A.x ≠ B.x) (hy : A.y = B.y) : slope (finPt A) (finPt B) = fin 0 := by
  have : B.x - A.x ≠ 0 := fun e => hx (by linarith)
  simp [slope, finPt, hy, this]

theorem slope_steep {A B : Point ℝ} (hx : A.x = B.x) (hy : A.y ≠ B.y) : slope (finPt A) (finPt B) = pinf ∨ slope (finPt A) (finPt B) = ninf := by
  have : B.y - A.y ≠ 0 := fun e => hy (by linarith)
  rcases lt_or_gt_of_ne this with h | h
  · right
    simp [slope, finPt, hx, div_fin, infTimes, h, not_lt.2 h.le]
  · left
    simp [slope, finPt, hx, div_fin, infTimes, h]

theorem slopes_apart (n : Int) {s t : XNum ℝ} (hs : s = fin 0) (ht : t = pinf ∨ t = ninf) :
    precisionEquals s t n = false ∧ precisionEquals t s n = false := by
  have hc : ∀ c ∈ Decimal.fmt n.toNat (0 : ℝ), FmtChar c := signedText_chars _ _ _
  have hn : ¬ FmtChar 'n' := by
    rintro (h | h | ⟨d, hd, h⟩)
    · cases h
    · cases h
    · interval_cases d <;> cases h
  have k1 : Decimal.fmt n.toNat (0 : ℝ) ≠ "+Inf".toList := fun e => hn (hc 'n' (by rw [e]; decide))
  have k2 : Decimal.fmt n.toNat (0 : ℝ) ≠ "-Inf".toList := fun e => hn (hc 'n' (by rw [e]; decide))
  subst hs
  rcases ht with rfl | rfl <;> unfold precisionEquals <;> constructor <;> split
  · rfl
  · exact beq_eq_false_iff_ne.2 k1
  · rfl
  · exact beq_eq_false_iff_ne.2 k1.symm
  · rfl
  · exact beq_eq_false_iff_ne.2 k2
  · rfl
  · exact beq_eq_false_iff_ne.2 k2.symm

/-- Two lines at right angles, with their ends apart, are joined at the corner. -/
theorem corner_join (n so : Int) (sw : Bool) {xa xb T R yc ye : ℝ} (h1 : 1 / 10 ^ so.toNat < |xa - xb|) (h2 : 1 / 10 ^ so.toNat < |yc - ye|)
    (h3 : 1 / 10 ^ so.toNat < |xb - R|) (h4 : 1 / 10 ^ n.toNat < |xb - R|) (A B C E : Point ℝ) (hA : pt A = turned sw xa T) (hB : pt B = turned sw xb T)
    (hC : pt C = turned sw R yc) (hE : pt E = turned sw R ye) : (finPt B).equalsPrecision (finPt C) n = false ∧
      ∃ A' X Y : Point ℝ, pt A' = turned sw xa T ∧ pt X = turned sw R T ∧ pt Y = turned sw R T ∧
        joinSegments so (finSeg (.line A B)) (finSeg (.line C E)) = [finSeg (.line A' X), finSeg (.line Y E)] := by
  have hp : (0:ℝ) < 1 / 10 ^ so.toNat := by positivity
  have e : ∀ m : Int, 1 / 10 ^ m.toNat < |xb - R| → (finPt B).equalsPrecision (finPt C) m = false := by
    intro m hm
    apply apart_equalsPrecision
    cases sw <;> simp only [turned, pt, Prod.mk.injEq, Bool.false_eq_true, if_false, if_true] at hB hC
    · left; rw [hB.1, hC.1]; exact hm
    · right; rw [hB.2, hC.2]; exact hm
  refine ⟨e n h4, ?_⟩
  have hxab : xa ≠ xb := by rintro rfl; rw [sub_self, abs_zero] at h1; linarith
  have hyce : yc ≠ ye := by rintro rfl; rw [sub_self, abs_zero] at h2; linarith
  have hab : pt A ≠ pt B := by
    rw [hA, hB]
    cases sw <;> simp [turned, hxab]
  have hce : pt C ≠ pt E := by
    rw [hC, hE]
    cases sw <;> simp [turned, hyce]
  obtain ⟨p, hp1⟩ : ∃ p, lineIntersection so (finPt A, finPt B) (finPt C, finPt E) = some p := by
    rw [C39_found]
    cases sw <;> simp only [turned, pt, Prod.mk.injEq, Bool.false_eq_true, if_false, if_true] at hA hB hC hE
    · refine ⟨(slopes_apart so (slope_flat (by rw [hA.1, hB.1]; exact hxab) (by rw [hA.2, hB.2])) (slope_steep (by rw [hC.1, hE.1]) (by rw [hC.2, hE.2]; exact hyce))).1, ?_⟩
      rintro ⟨h, -⟩
      simp only [isVertical, finPt] at h
      rw [apart_precisionEquals (by rw [hA.1, hB.1]; exact h1)] at h
      cases h
    · refine ⟨(slopes_apart so (slope_flat (by rw [hC.1, hE.1]; exact hyce) (by rw [hC.2, hE.2])) (slope_steep (by rw [hA.1, hB.1]) (by rw [hA.2, hB.2]; exact hxab))).2, ?_⟩
      rintro ⟨-, h⟩
      simp only [isVertical, finPt] at h
      rw [apart_precisionEquals (by rw [hC.1, hE.1]; exact h2)] at h
      cases h
  have c1 : Clear so A B := by
    intro h
    cases sw <;> simp only [turned, pt, Prod.mk.injEq, Bool.false_eq_true, if_false, if_true] at hA hB
    · simp only [isVertical, finPt] at h
      rw [apart_precisionEquals (by rw [hA.1, hB.1]; exact h1)] at h
      cases h
    · rw [hA.1, hB.1]
  have c2 : Clear so C E := by
    intro h
    cases sw <;> simp only [turned, pt, Prod.mk.injEq, Bool.false_eq_true, if_false, if_true] at hC hE
    · rw [hC.1, hE.1]
    · simp only [isVertical, finPt] at h
      rw [apart_precisionEquals (by rw [hC.1, hE.1]; exact h2)] at h
      cases h
  obtain ⟨q, rfl, o1, o2⟩ := C39_on_both so A B C E hab hce c1 c2 p hp1
  have hq : pt q = turned sw R T := by
    obtain ⟨s, s1, s2⟩ := o1
    obtain ⟨t, t1, t2⟩ := o2
    rw [hA, hB] at s1 s2
    rw [hC, hE] at t1 t2
    cases sw <;> simp only [turned, Bool.false_eq_true, if_false, if_true, sub_self, mul_zero, add_zero] at s1 s2 t1 t2 ⊢
    · exact Prod.ext t1 s2
    · exact Prod.ext s1 t2
  refine ⟨A.clone, q.clone, q.clone, by rw [← hA]; exact pt_newPoint _ _, by rw [← hq]; exact pt_newPoint _ _, by rw [← hq]; exact pt_newPoint _ _, ?_⟩
  have ej : joinSegments so (finSeg (.line A B)) (finSeg (.line C E)) = [.line (finPt A).clone (finPt q).clone, .line (finPt q).clone (finPt E)] := by
    unfold joinSegments
    rw [if_neg (by rw [stop_finSeg, start_finSeg]; simp [e so h3, Segment.stop, Segment.start])]
    simp only [finSeg, joinLines, hp1]
  rw [ej, clone_fin, clone_fin]
  rfl

end Verif.Path
