import Verif.Lemmas.Clean
import Verif.Props.Path

/-!
# C27, C33 to C38: transforms that move, reverse, clean, reorder and join paths
-/

namespace Verif.Path

open Verif Verif.Spec

universe u

/-- In exact arithmetic the equality is symmetric. -/
theorem symmEq_field {K : Type u} [Field K] [LinearOrder K] : SymmEq K := by
  intro a b
  simp [eq_comm]

/-- Also with the special values of the doubles. -/
theorem symmEq_xnum {K : Type u} [Field K] [LinearOrder K] : SymmEq (XNum K) := by
  intro a b
  cases a <;> cases b <;> simp [Arith.eq, XNum.eq, eq_comm]

/-! ## C27 Shifting translates the drawing -/

/-- A point moved by a vector. -/
def translate {K : Type u} [Field K] (dx dy : K) (q : Pt K) : Pt K := (q.1 + dx, q.2 + dy)

/-- **C27.** Shifting translates every stroke, with its control points, by exactly the vector. -/
theorem C27_shift {K : Type u} [Field K] [LinearOrder K] (dx dy : K) (p : Path K) :
    strokes (shift dx dy p) = (strokes p).map (Stroke.map (translate dx dy)) := by
  apply strokes_mapPath
  intro q
  simp [newPoint_eq, pt, translate]

theorem stroke_map_map {F : Type u} (f g : Pt F → Pt F) (s : Stroke F) : (s.map f).map g = s.map (g ∘ f) := by
  cases s <;> rfl

theorem stroke_map_id {F : Type u} (f : Pt F → Pt F) (h : ∀ q, f q = q) (s : Stroke F) : s.map f = s := by
  cases s <;> simp [Stroke.map, h]

/-- **C27.** Two shifts are one shift by the sum. -/
theorem C27_compose {K : Type u} [Field K] [LinearOrder K] (dx dy dx' dy' : K) (p : Path K) :
    strokes (shift dx' dy' (shift dx dy p)) = strokes (shift (dx + dx') (dy + dy') p) := by
  simp only [C27_shift, List.map_map]
  congr 1
  funext s
  rw [Function.comp_apply, stroke_map_map]
  congr 1
  funext q
  simp [translate, add_assoc]

/-- **C27.** The opposite shift restores the drawing. -/
theorem C27_inverse {K : Type u} [Field K] [LinearOrder K] (dx dy : K) (p : Path K) :
    strokes (shift (-dx) (-dy) (shift dx dy p)) = strokes p := by
  rw [C27_compose, C27_shift]
  conv_rhs => rw [← List.map_id (strokes p)]
  congr 1
  funext s
  exact stroke_map_id _ (by intro q; simp [translate]) s

/-- **C27.** In the translated drawing, the point at each parameter of each stroke is the translated point. -/
theorem C27_points {K : Type u} [Field K] (dx dy : K) (s : Stroke K) (t : K) :
    (s.map (translate dx dy)).at t = translate dx dy (s.at t) := by
  cases s <;> simp only [Stroke.map, Stroke.at, translate] <;> ext <;> simp only [] <;> ring

/-- Not vacuous: a line and a curve, shifted. -/
example : strokes (shift 1 2 [.move ⟨0, 0, 0⟩ ⟨1, 0, 0⟩, .line ⟨1, 0, 0⟩ ⟨2, 0, 0⟩,
      .curve ⟨2, 0, 0⟩ ⟨3, 0, 0⟩ ⟨3, 1, 0⟩ ⟨4, 4, 0⟩] : Path ℚ) =
    [.line (2, 2) (3, 2), .curve (3, 2) (4, 2) (4, 3) (5, 6)] := by decide +kernel

/-! ## C33 Reversing draws the same strokes backwards -/

/-- **C33.** Reversing a path in which each segment starts where the previous one ended draws the reversed strokes in the opposite order,
control points included. Any path with moves anywhere, any arithmetic with a symmetric `==`. -/
theorem C33_reverse {F : Type u} [Arith F] (hs : SymmEq F) (p : Path F) (h : Chained p) :
    strokes (reversePath p) = ((strokes p).map Stroke.reverse).reverse :=
  strokes_reversePath hs h

/-- **C33.** The reversed path is connected, whatever the path was. -/
theorem C33_connected {F : Type u} [Arith F] (p : Path F) : Connected (reversePath p) := connected_reversePath p

/-- **C33.** Reversing twice draws the original strokes. -/
theorem C33_twice {F : Type u} [Arith F] (hs : SymmEq F) (p : Path F) (h : Chained p) :
    strokes (reversePath (reversePath p)) = strokes p := by
  rw [C33_reverse hs _ (connected_chained (C33_connected p)), C33_reverse hs p h, List.map_reverse, List.reverse_reverse,
    List.map_map]
  conv_rhs => rw [← List.map_id (strokes p)]
  congr 1
  funext s
  cases s <;> rfl

/-- Not vacuous: a path with two drawn parts. -/
example :
    let p : Path ℚ := [.move ⟨0, 0, 0⟩ ⟨1, 0, 0⟩, .line ⟨1, 0, 0⟩ ⟨2, 0, 0⟩, .move ⟨2, 0, 0⟩ ⟨4, 0, 0⟩,
      .curve ⟨4, 0, 0⟩ ⟨5, 0, 0⟩ ⟨6, 1, 0⟩ ⟨7, 7, 0⟩]
    Chained p ∧ strokes (reversePath p) = [.curve (7, 7) (6, 1) (5, 0) (4, 0), .line (2, 0) (1, 0)] := by
  refine ⟨?_, by decide +kernel⟩
  simp [Chained, ConnectedFrom, Meets, pt, Segment.start, Segment.stop]

/-- Connectedness matters: the reversal of a path with a gap draws across the gap. -/
example : strokes (reversePath [.line ⟨0, 0, 0⟩ ⟨1, 0, 0⟩, .line ⟨5, 0, 0⟩ ⟨6, 0, 0⟩] : Path ℚ) =
    [.line (6, 0) (5, 0), .line (5, 0) (0, 0)] := by decide +kernel

/-! ## C34 Cleanup never changes what is drawn -/

/-- **C34.** The cleanup of a path whose segments have proper ends draws the same strokes in the same order; a stroke may start at
another point that prints the same at the given precision. -/
theorem C34_strokes {F : Type u} [Num F] (n : Int) (p : Path F) (h : ∀ s ∈ p, EndsProperly s) :
    List.Forall₂ (Aligned n.toNat) (strokes p) (strokes (cleanup n p)) := by
  obtain ⟨l, _, h2, h3⟩ := cleanupSegments_strokes n p
  rw [strokes_cleanup_eq, ← h3 h]
  exact h2

/-- **C34.** If each segment starts where the previous one ended, the strokes are exactly the same. -/
theorem C34_exact {F : Type u} [Num F] (hs : SymmEq F) (n : Int) (p : Path F) (h : ∀ s ∈ p, EndsProperly s) (hc : Chained p) :
    strokes (cleanup n p) = strokes p := by
  rw [strokes_cleanup_eq, cleanupSegments_exact hs n h hc]

/-- **C34.** The result is connected, starts with a move from the origin and has no two moves in a row. -/
theorem C34_shape {F : Type u} [Num F] (hs : SymmEq F) (n : Int) (p : Path F) (h : ∀ s ∈ p, EndsProperly s) :
    Connected (cleanup n p) ∧
      List.IsChain (fun s t : Segment F => ¬ (s.isMove = true ∧ t.isMove = true)) (cleanup n p) ∧
      (p ≠ [] → ∃ a b rest, cleanup n p = .move a b :: rest ∧ Meets a (zeroPoint : Point F)) := by
  refine ⟨?_, noTwo_newPath (noTwo_mergeMoves _), ?_⟩
  · exact connected_newPath hs (chained_mergeMoves (chained_fixHeadMove (cleanupSegments_chained hs n h)))
  · intro hp
    exact newPath_starts (mergeMoves_ne_nil (fixHeadMove_ne_nil (cleanupSegments_ne_nil n h hp)))

/-- **C34.** As SVG, where a command starts at the current point, the result draws exactly its own strokes. -/
theorem C34_svg {F : Type u} [Field F] [LinearOrder F] [FloorRing F] (n : Int) (p : Path F) :
    svgStrokes (pt origin) (cleanup n p) = strokes (cleanup n p) := by
  have hc : Connected (cleanup n p) := (C34_shape symmEq_field n p (fun s _ => by simp [EndsProperly])).1
  have key : ∀ (q : Path F) (cur : Point F), ConnectedFrom cur q → svgStrokes (pt cur) q = strokes q := by
    intro q
    induction q with
    | nil => intro cur _; rfl
    | cons s q ih =>
      intro cur hq
      have h1 := meets_iff.1 hq.1
      cases s with
      | move a b => exact ih b hq.2
      | line a b =>
        simp only [svgStrokes, strokes_cons, strokeOf]
        rw [ih b hq.2, h1]; rfl
      | curve a c d b =>
        simp only [svgStrokes, strokes_cons, strokeOf]
        rw [ih b hq.2, h1]; rfl
  exact key _ _ hc

/-- A start within the precision of the previous end is really replaced: this is what the words "prints the same" allow. -/
example :
    let p : Path ℚ := [.line ⟨0, 0, 0⟩ ⟨1, 0, 0⟩, .line ⟨10001/10000, 0, 0⟩ ⟨2, 0, 0⟩]
    strokes (cleanup 3 p) = [.line (0, 0) (1, 0), .line (1, 0) (2, 0)] ∧ strokes p ≠ strokes (cleanup 3 p) := by
  decide +kernel

/-- Not vacuous: a gap is bridged by a move, and a run of moves becomes one. -/
example :
    cleanup 3 ([.line ⟨0, 0, 0⟩ ⟨1, 0, 0⟩, .line ⟨5, 0, 0⟩ ⟨6, 0, 0⟩, .move ⟨6, 0, 0⟩ ⟨7, 0, 0⟩, .move ⟨7, 0, 0⟩ ⟨8, 0, 0⟩,
      .line ⟨8, 0, 0⟩ ⟨9, 0, 0⟩] : Path ℚ) =
      [.move ⟨0, 0, 0⟩ ⟨0, 0, 0⟩, .line ⟨0, 0, 0⟩ ⟨1, 0, 0⟩, .move ⟨1, 0, 0⟩ ⟨5, 0, 0⟩, .line ⟨5, 0, 0⟩ ⟨6, 0, 0⟩,
        .move ⟨6, 0, 0⟩ ⟨8, 0, 0⟩, .line ⟨8, 0, 0⟩ ⟨9, 0, 0⟩] := by
  decide +kernel

/-! ## C35 Deduplication never fails and never invents strokes -/

/-- **C35**, as first stated: removing duplicate segments succeeds on every path. -/
def C35_statement (F : Type u) [Num F] : Prop := ∀ (n : Nat) (p : Path F), ∃ q, dedup n p = .ok q

/-- **C35** is false: a path that begins with a line and the same line backwards makes the Go code read before the start of an
array. -/
theorem C35_false : ¬ C35_statement ℚ := by
  intro h
  obtain ⟨q, hq⟩ := h 3 [.line ⟨0, 0, 0⟩ ⟨1, 0, 0⟩, .line ⟨1, 0, 0⟩ ⟨0, 0, 0⟩, .line ⟨0, 0, 0⟩ ⟨2, 0, 0⟩]
  have : dedup 3 ([.line ⟨0, 0, 0⟩ ⟨1, 0, 0⟩, .line ⟨1, 0, 0⟩ ⟨0, 0, 0⟩, .line ⟨0, 0, 0⟩ ⟨2, 0, 0⟩] : Path ℚ) = .panic := by
    decide +kernel
  rw [this] at hq
  cases hq

/-- **C35** for paths that begin with a move, as all paths do that the package `path` builds from segments: deduplication succeeds. -/
theorem C35_succeeds_partial {F : Type u} [Num F] (n : Nat) (p : Path F) (h : ∀ s, p.head? = some s → s.isMove = true) :
    ∃ q, dedup n p = .ok q := dedup_rooted n h

/-- **C35.** Every path that `NewPathFromSegments` builds qualifies. -/
theorem C35_newPath {F : Type u} [Num F] (n : Nat) (p : Path F) : ∃ q, dedup n (newPath p) = .ok q := by
  apply dedup_rooted
  intro s hs
  rcases newPath_head p with h1 | ⟨a, b, c, h1⟩
  · rw [h1] at hs; simp at hs
  · rw [h1] at hs; simp at hs; subst hs; rfl

/-- **C35.** The strokes of the result are strokes of the path, in the same order, up to the alignment of starts that C34 describes. Any
path. -/
theorem C35_no_new_strokes {F : Type u} [Num F] (n : Nat) (p q : Path F) (h : dedup n p = .ok q) :
    ∃ kept, kept.Sublist (strokes p) ∧ List.Forall₂ (Aligned n) kept (strokes q) := dedup_strokes h

/-- Not vacuous: a stroke and its reverse disappear, others stay. -/
example : (match dedup 3 ([.move ⟨0, 0, 0⟩ ⟨1, 0, 0⟩, .line ⟨1, 0, 0⟩ ⟨2, 0, 0⟩, .line ⟨2, 0, 0⟩ ⟨1, 0, 0⟩,
      .line ⟨1, 0, 0⟩ ⟨1, 5, 0⟩] : Path ℚ) with
    | .ok q => strokes q
    | _ => []) = [.line (1, 0) (1, 5)] := by decide +kernel

/-! ## C36 Reordering keeps every stroke -/

/-- **C36.** Reordering a path in which each segment starts where the previous one ended either leaves it alone or deduplicates a path
that draws the same strokes, each as it was or backwards, in some order: none is lost, none added, before the deduplication. -/
theorem C36_reorder {F : Type u} [Trig F] (hs : SymmEq F) (n : Nat) (p : Path F) (h : Chained p) :
    reorder n p = .ok p ∨ ∃ q, Rearranged (strokes p) (strokes q) ∧ reorder n p = dedup n q := by
  have h1 := C19_pieces p
  have h2 := C19_strokes p h
  unfold reorder
  split
  · exact Or.inl rfl
  · exact Or.inl rfl
  · next first rest _ heq =>
    right
    rw [heq] at h1 h2
    refine ⟨_, ?_, rfl⟩
    rw [← h2]
    exact reorderLoop_strokes hs n rest.length first rest rfl (fun q hq => connected_chained (h1 q (by simp [hq])).1)

/-- **C36.** Reordering never fails, whatever the path. -/
theorem C36_succeeds {F : Type u} [Trig F] (n : Nat) (p : Path F) : ∃ q, reorder n p = .ok q := by
  have h1 := C19_pieces p
  unfold reorder
  split
  · exact ⟨p, rfl⟩
  · exact ⟨p, rfl⟩
  · next first rest _ heq =>
    rw [heq] at h1
    obtain ⟨_, m, ss, rfl, hm, _⟩ := h1 first (by simp)
    exact dedup_rooted n (reorderLoop_head n _ _ _ (by simpa using hm))

/-- Not vacuous: three pieces, of which the third continues the first backwards, and two exchange places. -/
example :
    let p : Path ℝ := [.move ⟨0, 0, 0⟩ ⟨1, 0, 0⟩, .line ⟨1, 0, 0⟩ ⟨2, 0, 0⟩, .move ⟨2, 0, 0⟩ ⟨8, 0, 0⟩, .line ⟨8, 0, 0⟩ ⟨9, 0, 0⟩,
      .move ⟨9, 0, 0⟩ ⟨3, 0, 0⟩, .line ⟨3, 0, 0⟩ ⟨2, 0, 0⟩]
    Chained p ∧ ∃ q, reorder 3 p = dedup 3 q ∧ Rearranged (strokes p) (strokes q) := by
  intro p
  have hc : Chained p := by simp [p, Chained, ConnectedFrom, Meets, pt, Segment.start, Segment.stop]
  refine ⟨hc, ?_⟩
  rcases C36_reorder symmEq_field 3 p hc with h | ⟨q, h1, h2⟩
  · have : splitPathOnMove p = [[.move ⟨0, 0, 0⟩ ⟨1, 0, 0⟩, .line ⟨1, 0, 0⟩ ⟨2, 0, 0⟩],
        [.move ⟨0, 0, -1⟩ ⟨8, 0, 0⟩, .line ⟨8, 0, 0⟩ ⟨9, 0, 0⟩], [.move ⟨0, 0, -1⟩ ⟨3, 0, 0⟩, .line ⟨3, 0, 0⟩ ⟨2, 0, 0⟩]] := by
      simp [p, splitPathOnMove, splitLoop, addSegment, isEmptyPath, Segment.isMove, currentPosition, Segment.setStart, Segment.start,
        Segment.stop, Point.equals, origin, newPoint_eq]
    rw [reorder, this] at h
    simp only [] at h
    refine ⟨_, by rw [reorder, this], ?_⟩
    have h2 := C19_strokes p hc
    rw [this] at h2
    rw [← h2]
    exact reorderLoop_strokes symmEq_field 3 _ _ _ rfl (fun q hq => by
      have := C19_pieces p q (by rw [this]; simp [hq])
      exact connected_chained this.1)
  · exact ⟨q, h2, h1⟩

/-! ## C37 A transform pipeline runs in order and stops at the first error -/

/-- **C37.** The pipeline succeeds exactly when every transform succeeds on the result of the previous one, and then returns the last
result. -/
theorem C37_success {P : Type u} (ts : List (P → Res P)) (p q : P) :
    multiTransform ts p = .ok q ↔
      ∃ states : List P, states.length = ts.length + 1 ∧ states.head? = some p ∧ states.getLast? = some q ∧
        ∀ i t a b, ts[i]? = some t → states[i]? = some a → states[i + 1]? = some b → t a = .ok b := by
  induction ts generalizing p with
  | nil =>
    simp only [multiTransform, Res.ok.injEq]
    constructor
    · rintro rfl; exact ⟨[p], rfl, rfl, rfl, by simp⟩
    · rintro ⟨st, h1, h2, h3, _⟩
      match st, h1 with
      | [a], _ => simp_all
  | cons t ts ih =>
    simp only [multiTransform]
    constructor
    · intro h
      cases ht : t p with
      | err => rw [ht] at h; simp at h
      | panic => rw [ht] at h; simp at h
      | ok r =>
        rw [ht] at h
        obtain ⟨st, h1, h2, h3, h4⟩ := (ih r).1 h
        refine ⟨p :: st, by simp [h1], rfl, ?_, ?_⟩
        · cases st with
          | nil => simp at h1
          | cons a st => simpa using h3
        · intro i t' a b i1 i2 i3
          cases i with
          | zero =>
            simp only [List.getElem?_cons_zero, Option.some.injEq] at i1 i2
            subst i1; subst i2
            cases st with
            | nil => simp at h1
            | cons x st => simp at h2 i3; subst h2; subst i3; exact ht
          | succ i => exact h4 i t' a b (by simpa using i1) (by simpa using i2) (by simpa using i3)
    · rintro ⟨st, h1, h2, h3, h4⟩
      match st, h1 with
      | x :: y :: st, h1 =>
        simp only [List.head?_cons, Option.some.injEq] at h2
        subst h2
        have e := h4 0 t x y rfl rfl rfl
        rw [e]
        refine (ih y).2 ⟨y :: st, by simpa using h1, rfl, by simpa using h3, ?_⟩
        intro i t' a b i1 i2 i3
        exact h4 (i + 1) t' a b (by simpa using i1) (by simpa using i2) (by simpa using i3)

/-- **C37.** At the first error the pipeline stops with it: the transforms after it do not matter. -/
theorem C37_stops {P : Type u} (before after : List (P → Res P)) (t : P → Res P) (p q : P)
    (h : multiTransform before p = .ok q) (he : t q = .err) : multiTransform (before ++ t :: after) p = .err := by
  induction before generalizing p with
  | nil => simp only [multiTransform, Res.ok.injEq] at h; subst h; simp [multiTransform, he]
  | cons b before ih =>
    simp only [List.cons_append, multiTransform] at h ⊢
    cases hb : b p with
    | err => rfl
    | panic => rw [hb] at h; simp at h
    | ok r => rw [hb] at h; exact ih r h

/-- **C37.** An error comes from one of the transforms, the ones before it having succeeded. -/
theorem C37_error_source {P : Type u} (ts : List (P → Res P)) (p : P) (h : multiTransform ts p = .err) :
    ∃ before t after q, ts = before ++ t :: after ∧ multiTransform before p = .ok q ∧ t q = .err := by
  induction ts generalizing p with
  | nil => simp [multiTransform] at h
  | cons t ts ih =>
    simp only [multiTransform] at h
    cases ht : t p with
    | err => exact ⟨[], t, ts, p, rfl, rfl, ht⟩
    | panic => rw [ht] at h; simp at h
    | ok r =>
      rw [ht] at h
      obtain ⟨b, t', a, q, h1, h2, h3⟩ := ih r h
      exact ⟨t :: b, t', a, q, by simp [h1], by simp [multiTransform, ht, h2], h3⟩

/-- Not vacuous: a pipeline of two shifts. -/
example : multiTransform [fun p : Path ℚ => .ok (shift 1 0 p), fun p => .ok (shift 0 1 p)] [.move ⟨0, 0, 0⟩ ⟨0, 0, 0⟩, .line ⟨0, 0, 0⟩ ⟨1, 0, 0⟩] =
    .ok [.move ⟨0, 0, 0⟩ ⟨1, 1, -1⟩, .line ⟨1, 1, -1⟩ ⟨2, 1, -1⟩] := by decide +kernel

/-! ## C38 Joining component paths keeps all drawings -/

/-- **C38.** Joining paths that each start with a move (or are empty) draws, as SVG, the strokes of each in order and nothing else; a
coordinate `-0` becomes `0`. -/
theorem C38_join {F : Type u} [Arith F] (p : Path F) (ps : List (Path F))
    (h : ∀ q ∈ p :: ps, ∀ s, q.head? = some s → s.isMove = true) (c : Pt F) :
    ∃ r, simpleJoin (p :: ps) = .ok r ∧
      svgStrokes c r = ((p :: ps).flatMap (svgStrokes c)).map (Stroke.map unsignedPt) := by
  refine ⟨_, rfl, ?_⟩
  have key : ∀ (ps : List (Path F)) (acc : Path F), (∀ q ∈ ps, ∀ s, q.head? = some s → s.isMove = true) →
      svgStrokes c (ps.foldl appendPath acc) = svgStrokes c acc ++ (ps.flatMap (svgStrokes c)).map (Stroke.map unsignedPt) := by
    intro ps
    induction ps with
    | nil => intro acc _; simp
    | cons q ps ih =>
      intro acc hq
      rw [List.foldl_cons, ih _ (fun q' h' => hq q' (by simp [h'])), svgStrokes_appendPath (hq q (by simp)) c c]
      simp
  rw [key ps _ (fun q hq => h q (by simp [hq])), clonePath, svgStrokes_clone_moved (h p (by simp)) c c]
  simp

/-- **C38.** In exact arithmetic the strokes are literally those of the paths. -/
theorem C38_exact {K : Type u} [Field K] [LinearOrder K] (p : Path K) (ps : List (Path K))
    (h : ∀ q ∈ p :: ps, ∀ s, q.head? = some s → s.isMove = true) (c : Pt K) :
    ∃ r, simpleJoin (p :: ps) = .ok r ∧ svgStrokes c r = (p :: ps).flatMap (svgStrokes c) := by
  obtain ⟨r, h1, h2⟩ := C38_join p ps h c
  refine ⟨r, h1, ?_⟩
  rw [h2]
  conv_rhs => rw [← List.map_id ((p :: ps).flatMap (svgStrokes c))]
  congr 1
  funext s
  refine stroke_map_id _ ?_ s
  intro q
  simp only [unsignedPt, unsignedZero, Arith.eq_field]
  ext <;> simp only [] <;> split <;> simp_all [Arith.zero]

/-- **C38.** The leading move is needed: without it the first stroke of the second path is drawn as a dot at its own end, whatever the paths are, unless
it ends where the first path does. -/
theorem C38_unmoved_false {K : Type u} [Field K] [LinearOrder K] (p : Path K) (s : Segment K) (a b : Point K) (rest : Path K) (hb : pt s.stop ≠ pt b) (c : Pt K) :
    ∃ r, simpleJoin [p ++ [s], .line a b :: rest] = .ok r ∧ svgStrokes c r = svgStrokes c (p ++ [s]) ++ .line (pt b) (pt b) :: svgStrokes (pt b) rest := by
  have hn : ∀ q : Pt K, unsignedPt q = q := by
    intro q
    simp only [unsignedPt, unsignedZero, Arith.eq_field]
    ext <;> simp only [] <;> split <;> simp_all [Arith.zero]
  have hid : ∀ l : List (Stroke K), l.map (Stroke.map unsignedPt) = l := by
    intro l
    conv_rhs => rw [← List.map_id l]
    congr 1
    funext t
    exact stroke_map_id _ hn t
  have hcl : ∀ (c : Pt K) (q : Path K), svgStrokes c (q.map Segment.clone) = svgStrokes c q := by
    intro c q
    have := svgStrokes_clone c q
    rwa [hn, hid] at this
  have hstop : pt s.clone.stop = pt s.stop := by cases s <;> simp [Segment.clone, Segment.stop, Point.clone, pt]
  have hb' : s.clone.stop.equals b = false := by
    by_contra h
    simp only [Bool.not_eq_false, Point.equals, Bool.and_eq_true, Arith.eq_field, decide_eq_true_eq] at h
    exact hb (by rw [← hstop]; simp [pt, h.1, h.2])
  refine ⟨_, rfl, ?_⟩
  have e : List.foldl appendPath (clonePath (p ++ [s])) [.line a b :: rest] =
      clonePath (p ++ [s]) ++ (.move s.clone.stop b.clone :: clonePath (.line a b :: rest)) := by
    have h1 : (clonePath (p ++ [s])).getLast? = some s.clone := by simp [clonePath]
    simp only [List.foldl_cons, List.foldl_nil, appendPath, h1]
    rw [if_neg (by rw [show (Segment.line a b).stop = b from rfl, hb']; simp)]
    simp [clonePath, Segment.stop]
  rw [e, svgStrokes_append_moved (by simp [Segment.isMove]) c c]
  simp only [clonePath, svgStrokes]
  rw [hcl]
  simp only [List.map_cons, Segment.clone, svgStrokes, hcl]
  have : pt b.clone = pt b := by simp [Point.clone, pt]
  rw [this]

/-- The leading move is needed: without it the second path is drawn from its own end. -/
example : (match simpleJoin [([.move ⟨0, 0, 0⟩ ⟨0, 0, 0⟩, .line ⟨0, 0, 0⟩ ⟨1, 0, 0⟩] : Path ℚ), [.line ⟨5, 0, 0⟩ ⟨6, 0, 0⟩]] with
    | .ok r => svgStrokes (0, 0) r
    | _ => []) = [.line (0, 0) (1, 0), .line (6, 0) (6, 0)] := by decide +kernel

/-- Not vacuous: two paths with a gap between them. -/
example : (match simpleJoin [([.move ⟨0, 0, 0⟩ ⟨0, 0, 0⟩, .line ⟨0, 0, 0⟩ ⟨1, 0, 0⟩] : Path ℚ),
      [.move ⟨0, 0, 0⟩ ⟨5, 0, 0⟩, .line ⟨5, 0, 0⟩ ⟨6, 0, 0⟩]] with
    | .ok r => svgStrokes (0, 0) r
    | _ => []) = [.line (0, 0) (1, 0), .line (5, 0) (6, 0)] := by decide +kernel

end Verif.Path
