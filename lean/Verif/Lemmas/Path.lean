import Verif.Model.Draw
import Verif.Spec.Path

set_option linter.unusedSectionVars false
set_option linter.unusedSimpArgs false

/-! # Lemmas about paths -/

namespace Verif.Path

open Verif Verif.Spec

universe u

variable {F : Type u} [Arith F]

theorem meets_refl (p : Point F) : Meets p p := Or.inl rfl

@[simp] theorem currentPosition_nil : currentPosition ([] : Path F) = origin := rfl

@[simp] theorem currentPosition_append (p : Path F) (s : Segment F) : currentPosition (p ++ [s]) = s.stop := by
  simp [currentPosition]

theorem currentPosition_cons (s : Segment F) (p : Path F) :
    currentPosition (s :: p) = match p.getLast? with | none => s.stop | some l => l.stop := by
  unfold currentPosition
  cases p with
  | nil => rfl
  | cons a b => rw [List.getLast?_cons_cons]; simp [List.getLast?_cons]

/-- The position after following a path from `cur`. -/
def endFrom (cur : Point F) (p : Path F) : Point F :=
  match p.getLast? with
  | none => cur
  | some s => s.stop

theorem currentPosition_eq_endFrom (p : Path F) : currentPosition p = endFrom origin p := rfl

@[simp] theorem endFrom_nil (cur : Point F) : endFrom cur ([] : Path F) = cur := rfl

theorem endFrom_cons (cur : Point F) (s : Segment F) (p : Path F) : endFrom cur (s :: p) = endFrom s.stop p := by
  unfold endFrom
  cases p with
  | nil => rfl
  | cons a b => rw [List.getLast?_cons_cons]; simp [List.getLast?_cons]

@[simp] theorem endFrom_append (cur : Point F) (p : Path F) (s : Segment F) : endFrom cur (p ++ [s]) = s.stop := by
  simp [endFrom]

theorem endFrom_append' (cur : Point F) (p q : Path F) : endFrom cur (p ++ q) = endFrom (endFrom cur p) q := by
  induction p generalizing cur with
  | nil => rfl
  | cons s p ih => simp [endFrom_cons, ih]

theorem connectedFrom_append (cur : Point F) (p q : Path F) :
    ConnectedFrom cur (p ++ q) ↔ ConnectedFrom cur p ∧ ConnectedFrom (endFrom cur p) q := by
  induction p generalizing cur with
  | nil => simp [ConnectedFrom]
  | cons s p ih => simp [ConnectedFrom, ih, endFrom_cons, and_assoc]

theorem connected_snoc (p : Path F) (s : Segment F) :
    Connected (p ++ [s]) ↔ Connected p ∧ Meets (currentPosition p) s.start := by
  simp [Connected, connectedFrom_append, ConnectedFrom, currentPosition_eq_endFrom]

@[simp] theorem setStart_start (s : Segment F) (p : Point F) : (s.setStart p).start = p := by cases s <;> rfl
@[simp] theorem setStart_stop (s : Segment F) (p : Point F) : (s.setStart p).stop = s.stop := by cases s <;> rfl
@[simp] theorem setStart_isMove (s : Segment F) (p : Point F) : (s.setStart p).isMove = s.isMove := by cases s <;> rfl

/-- The segment that `AddSegment` appends. -/
def snapped (cur : Point F) (seg : Segment F) : Segment F :=
  if cur.equals seg.start then seg else seg.setStart cur

theorem snapped_meets (cur : Point F) (seg : Segment F) : Meets cur (snapped cur seg).start := by
  unfold snapped
  split
  · next h => exact Or.inr h
  · simp [meets_refl]

@[simp] theorem snapped_stop (cur : Point F) (seg : Segment F) : (snapped cur seg).stop = seg.stop := by
  unfold snapped; split <;> simp

@[simp] theorem snapped_isMove (cur : Point F) (seg : Segment F) : (snapped cur seg).isMove = seg.isMove := by
  unfold snapped; split <;> simp

theorem addSegment_nonempty {p : Path F} (h : p ≠ []) (seg : Segment F) :
    addSegment p seg = p ++ [snapped (currentPosition p) seg] := by
  have : p.isEmpty = false := by cases p <;> simp_all
  simp [addSegment, this, snapped]

theorem addSegment_nil_move {seg : Segment F} (h : seg.isMove = true) :
    addSegment [] seg = [snapped origin seg] := by
  simp [addSegment, h, snapped]

theorem addSegment_nil_stroke {seg : Segment F} (h : seg.isMove = false) :
    addSegment [] seg = [.move origin seg.start, snapped seg.start seg] := by
  simp [addSegment, h, snapped, currentPosition, Segment.stop]

theorem addSegment_connected {p : Path F} (h : Connected p) (seg : Segment F) : Connected (addSegment p seg) := by
  by_cases hp : p = []
  · subst hp
    cases hm : seg.isMove
    · rw [addSegment_nil_stroke hm]
      exact ⟨meets_refl _, snapped_meets _ _, trivial⟩
    · rw [addSegment_nil_move hm]
      exact ⟨snapped_meets _ _, trivial⟩
  · rw [addSegment_nonempty hp, connected_snoc]
    exact ⟨h, snapped_meets _ _⟩

theorem addSegment_position (p : Path F) (seg : Segment F) : currentPosition (addSegment p seg) = seg.stop := by
  by_cases hp : p = []
  · subst hp
    cases hm : seg.isMove
    · rw [addSegment_nil_stroke hm]; simp [currentPosition]
    · rw [addSegment_nil_move hm]; simp [currentPosition]
  · rw [addSegment_nonempty hp]; simp

theorem addSegment_prefix (p : Path F) (seg : Segment F) : p <+: addSegment p seg := by
  by_cases hp : p = []
  · subst hp; exact List.nil_prefix
  · rw [addSegment_nonempty hp]; exact List.prefix_append _ _

theorem addSegment_ne_nil (p : Path F) (seg : Segment F) : addSegment p seg ≠ [] := by
  unfold addSegment; simp

theorem addSegments_prefix (segs : List (Segment F)) : ∀ p : Path F, p <+: addSegments p segs := by
  induction segs with
  | nil => intro p; exact List.prefix_refl p
  | cons s segs ih => intro p; exact (addSegment_prefix p s).trans (ih _)

theorem addSegments_connected (segs : List (Segment F)) : ∀ {p : Path F}, Connected p → Connected (addSegments p segs) := by
  induction segs with
  | nil => intro p h; exact h
  | cons s segs ih => intro p h; exact ih (addSegment_connected h s)

theorem addSegments_nonempty (segs : List (Segment F)) : ∀ {p : Path F}, p ≠ [] →
    ∃ q, addSegments p segs = p ++ q ∧ q.length = segs.length := by
  induction segs with
  | nil => intro p _; exact ⟨[], by simp [addSegments], rfl⟩
  | cons s segs ih =>
    intro p h
    obtain ⟨q, hq, hl⟩ := ih (addSegment_ne_nil p s)
    rw [addSegments, List.foldl_cons, ← addSegments, hq, addSegment_nonempty h]
    exact ⟨snapped (currentPosition p) s :: q, by simp, by simp [hl]⟩

/-! ### Strokes -/

theorem strokeOf_snapped {cur : Point F} {seg : Segment F} (h : Meets cur seg.start) :
    strokeOf (snapped cur seg) = strokeOf seg := by
  unfold snapped
  split
  · rfl
  · next hne =>
    rcases h with h | h
    · cases seg <;> simp_all [Segment.setStart, strokeOf, Segment.start]
    · exact absurd h hne

@[simp] theorem strokes_nil : strokes ([] : Path F) = [] := rfl
@[simp] theorem strokes_append (p q : Path F) : strokes (p ++ q) = strokes p ++ strokes q := by
  simp [strokes]
theorem strokes_cons (s : Segment F) (p : Path F) : strokes (s :: p) = (strokeOf s).toList ++ strokes p := by
  cases h : strokeOf s <;> simp [strokes, h]

theorem strokeOf_eq_none {s : Segment F} : strokeOf s = none ↔ s.isMove = true := by
  cases s <;> simp [strokeOf, Segment.isMove]

theorem strokes_all_moves {p : Path F} (h : ∀ s ∈ p, s.isMove = true) : strokes p = [] := by
  simp only [strokes, List.filterMap_eq_nil_iff]
  exact fun s hs => strokeOf_eq_none.2 (h s hs)

theorem isEmptyPath_iff {p : Path F} : isEmptyPath p = true ↔ ∀ s ∈ p, s.isMove = true := by
  simp [isEmptyPath]

theorem isEmptyPath_iff_strokes {p : Path F} : isEmptyPath p = true ↔ strokes p = [] := by
  rw [isEmptyPath_iff]
  simp only [strokes, List.filterMap_eq_nil_iff, strokeOf_eq_none]

/-! ### SVG strokes -/

theorem svgStrokes_append (cur : Point F) (p q : Path F) :
    svgStrokes (pt cur) (p ++ q) = svgStrokes (pt cur) p ++ svgStrokes (pt (endFrom cur p)) q := by
  induction p generalizing cur with
  | nil => rfl
  | cons s p ih => cases s <;> simp [svgStrokes, ih, endFrom_cons, Segment.stop]

@[simp] theorem svgStrokes_snapped (c : Pt F) (cur : Point F) (seg : Segment F) (p : Path F) :
    svgStrokes c (snapped cur seg :: p) = svgStrokes c (seg :: p) := by
  unfold snapped
  split
  · rfl
  · cases seg <;> rfl

/-! ### Trimming moves -/

theorem trimTailMove_prefix (p : Path F) : ∃ ms, p = trimTailMove p ++ ms ∧ ∀ s ∈ ms, s.isMove = true := by
  refine ⟨(p.reverse.takeWhile Segment.isMove).reverse, ?_, ?_⟩
  · unfold trimTailMove
    rw [← List.reverse_append, List.takeWhile_append_dropWhile, List.reverse_reverse]
  · intro s hs
    rw [List.mem_reverse] at hs
    exact List.all_eq_true.1 List.all_takeWhile s hs

theorem trimTailMove_last (p : Path F) : ∀ s, (trimTailMove p).getLast? = some s → s.isMove = false := by
  intro s h
  unfold trimTailMove at h
  rw [List.getLast?_reverse] at h
  have := List.head?_dropWhile_not Segment.isMove p.reverse
  rw [h] at this
  simpa using this

theorem trimTailMove_head {s : Segment F} (h : s.isMove = false) (p : Path F) :
    ∃ q, trimTailMove (s :: p) = s :: q := by
  obtain ⟨ms, h1, h2⟩ := trimTailMove_prefix (s :: p)
  cases ht : trimTailMove (s :: p) with
  | nil =>
    rw [ht] at h1
    have : s ∈ ms := by rw [List.nil_append] at h1; rw [← h1]; simp
    rw [h2 s this] at h; cases h
  | cons a q =>
    rw [ht] at h1
    injection h1 with ha _
    exact ⟨q, by rw [ha]⟩

theorem trimMove_split (p : Path F) :
    ∃ ms ms', p = ms ++ trimMove p ++ ms' ∧ (∀ s ∈ ms, s.isMove = true) ∧ (∀ s ∈ ms', s.isMove = true) := by
  induction p with
  | nil => exact ⟨[], [], rfl, by simp, by simp⟩
  | cons s p ih =>
    cases h : s.isMove
    · obtain ⟨ms, h1, h2⟩ := trimTailMove_prefix (s :: p)
      exact ⟨[], ms, by simpa [trimMove, h] using h1, by simp, h2⟩
    · obtain ⟨ms, ms', h1, h2, h3⟩ := ih
      refine ⟨s :: ms, ms', ?_, ?_, h3⟩
      · simpa [trimMove, h] using h1
      · intro x hx
        rcases List.mem_cons.1 hx with rfl | hx
        · exact h
        · exact h2 x hx

theorem trimMove_head (p : Path F) : ∀ s, (trimMove p).head? = some s → s.isMove = false := by
  induction p with
  | nil => intro s h; simp [trimMove] at h
  | cons a p ih =>
    intro s h
    cases ha : a.isMove
    · obtain ⟨q, hq⟩ := trimTailMove_head ha p
      simp [trimMove, ha, hq] at h
      exact h ▸ ha
    · simp [trimMove, ha] at h
      exact ih s h

theorem trimMove_last (p : Path F) : ∀ s, (trimMove p).getLast? = some s → s.isMove = false := by
  induction p with
  | nil => intro s h; simp [trimMove] at h
  | cons a p ih =>
    intro s h
    cases ha : a.isMove
    · simp [trimMove, ha] at h
      exact trimTailMove_last _ s h
    · simp [trimMove, ha] at h
      exact ih s h

theorem trimTailMove_fixed {p : Path F} (h : ∀ s, p.getLast? = some s → s.isMove = false) : trimTailMove p = p := by
  unfold trimTailMove
  have : p.reverse.dropWhile Segment.isMove = p.reverse := by
    cases hr : p.reverse with
    | nil => rfl
    | cons a q =>
      have : p.getLast? = some a := by rw [← List.head?_reverse, hr]; rfl
      simp [List.dropWhile, h a this]
  rw [this, List.reverse_reverse]

theorem trimMove_fixed {p : Path F} (h1 : ∀ s, p.head? = some s → s.isMove = false)
    (h2 : ∀ s, p.getLast? = some s → s.isMove = false) : trimMove p = p := by
  cases p with
  | nil => rfl
  | cons a p =>
    simp [trimMove, h1 a rfl]
    exact trimTailMove_fixed h2

theorem trimMove_strokes (p : Path F) : strokes (trimMove p) = strokes p := by
  obtain ⟨ms, ms', h1, h2, h3⟩ := trimMove_split p
  conv_rhs => rw [h1]
  simp [strokes_all_moves h2, strokes_all_moves h3]

/-! ### Splitting on moves -/

theorem splitLoop_paths (rest : List (Segment F)) : ∀ (p : Path F) (paths : List (Path F)),
    splitLoop rest p paths = paths ++ splitLoop rest p [] := by
  induction rest with
  | nil => intro p paths; simp only [splitLoop]; split <;> simp
  | cons c rest ih =>
    intro p paths
    simp only [splitLoop]
    split
    · rw [ih _ (if isEmptyPath p = true then paths else paths ++ [p]),
        ih _ (if isEmptyPath p = true then [] else [] ++ [p])]
      split <;> simp
    · rw [ih _ paths]

/-- What every piece looks like: a move followed by at least one stroke and nothing else, connected from the origin. -/
def Piece (q : Path F) : Prop :=
  ∃ m ss, q = m :: ss ∧ m.isMove = true ∧ (∀ s ∈ ss, s.isMove = false) ∧ Connected q

theorem piece_first (c : Segment F) : Piece (addSegment [] c) := by
  have hc : Connected (addSegment [] c) := addSegment_connected (show Connected ([] : Path F) from trivial) c
  cases h : c.isMove
  · rw [addSegment_nil_stroke h] at hc ⊢
    exact ⟨_, _, rfl, rfl, by simp [h], hc⟩
  · rw [addSegment_nil_move h] at hc ⊢
    exact ⟨_, _, rfl, by simp [h], by simp, hc⟩

theorem piece_next {p : Path F} (hp : Piece p) {c : Segment F} (h : c.isMove = false) : Piece (addSegment p c) := by
  obtain ⟨m, ss, rfl, h1, h2, h3⟩ := hp
  have hc := addSegment_connected h3 c
  rw [addSegment_nonempty (by simp)] at hc ⊢
  refine ⟨m, ss ++ [snapped _ c], rfl, h1, ?_, hc⟩
  intro s hs
  rcases List.mem_append.1 hs with hs | hs
  · exact h2 s hs
  · simp at hs; subst hs; simp [h]

theorem splitLoop_pieces (rest : List (Segment F)) : ∀ (p : Path F), Piece p →
    ∀ q ∈ splitLoop rest p [], Piece q ∧ strokes q ≠ [] := by
  induction rest with
  | nil =>
    intro p hp q hq
    simp only [splitLoop] at hq
    split at hq
    · simp at hq
    · next h =>
      simp at hq; subst hq
      exact ⟨hp, fun hs => h (isEmptyPath_iff_strokes.2 hs)⟩
  | cons c rest ih =>
    intro p hp q hq
    simp only [splitLoop] at hq
    split at hq
    · rw [splitLoop_paths] at hq
      rcases List.mem_append.1 hq with hq | hq
      · split at hq
        · simp at hq
        · next h =>
          simp at hq; subst hq
          exact ⟨hp, fun hs => h (isEmptyPath_iff_strokes.2 hs)⟩
      · exact ih _ (piece_first c) q hq
    · next hm => exact ih _ (piece_next hp (by simpa using hm)) q hq

theorem strokes_addSegment {p : Path F} (hp : p ≠ []) {c : Segment F} (h : Meets (currentPosition p) c.start) :
    strokes (addSegment p c) = strokes p ++ (strokeOf c).toList := by
  rw [addSegment_nonempty hp]
  simp [strokes_cons, strokeOf_snapped h]

theorem splitLoop_strokes (rest : List (Segment F)) : ∀ (p : Path F), p ≠ [] →
    ConnectedFrom (currentPosition p) rest →
    (splitLoop rest p []).flatMap strokes = strokes p ++ strokes rest := by
  induction rest with
  | nil =>
    intro p hp _
    simp only [splitLoop]
    split
    · next h => simp [isEmptyPath_iff_strokes.1 h]
    · simp
  | cons c rest ih =>
    intro p hp hc
    simp only [splitLoop]
    split
    · next hm =>
      rw [splitLoop_paths, List.flatMap_append, ih _ (addSegment_ne_nil _ _) (by rw [addSegment_position]; exact hc.2)]
      have h1 : strokes (addSegment [] c) = [] := by
        rw [addSegment_nil_move hm]; simp [strokes_cons, strokeOf_eq_none, hm]
      have h2 : (strokeOf c) = none := strokeOf_eq_none.2 hm
      rw [h1, strokes_cons, h2]
      split
      · next h => simp [isEmptyPath_iff_strokes.1 h]
      · simp
    · next hm =>
      rw [ih _ (addSegment_ne_nil _ _) (by rw [addSegment_position]; exact hc.2), strokes_addSegment hp hc.1, strokes_cons]
      simp

theorem svgStrokes_all_moves {p : Path F} (h : ∀ s ∈ p, s.isMove = true) : ∀ c, svgStrokes c p = [] := by
  induction p with
  | nil => intro c; rfl
  | cons s p ih =>
    intro c
    have hs := h s (by simp)
    cases s with
    | move a b => simp [svgStrokes, ih (fun x hx => h x (by simp [hx]))]
    | line => simp [Segment.isMove] at hs
    | curve => simp [Segment.isMove] at hs

theorem svgStrokes_addSegment {p : Path F} (hp : p ≠ []) (c : Segment F) (rest : Path F) (o : Point F) :
    svgStrokes (pt o) (addSegment p c) ++ svgStrokes (pt c.stop) rest =
      svgStrokes (pt o) p ++ svgStrokes (pt (currentPosition p)) (c :: rest) := by
  have e : endFrom o p = currentPosition p := by
    cases p with
    | nil => exact absurd rfl hp
    | cons a p => simp [currentPosition_eq_endFrom, endFrom_cons]
  rw [addSegment_nonempty hp, svgStrokes_append, svgStrokes_snapped, e]
  cases c <;> simp [svgStrokes, Segment.stop]

theorem splitLoop_svgStrokes (o : Point F) (rest : List (Segment F)) : ∀ (p : Path F), p ≠ [] →
    (splitLoop rest p []).flatMap (svgStrokes (pt o)) =
      svgStrokes (pt o) p ++ svgStrokes (pt (currentPosition p)) rest := by
  induction rest with
  | nil =>
    intro p hp
    simp only [splitLoop]
    split
    · next h => simp [svgStrokes_all_moves (isEmptyPath_iff.1 h), svgStrokes]
    · simp [svgStrokes]
  | cons c rest ih =>
    intro p hp
    simp only [splitLoop]
    split
    · next hm =>
      rw [splitLoop_paths, List.flatMap_append, ih _ (addSegment_ne_nil _ _), addSegment_position,
        addSegment_nil_move hm, svgStrokes_snapped]
      have e : svgStrokes (pt o) [c] ++ svgStrokes (pt c.stop) rest = svgStrokes (pt (currentPosition p)) (c :: rest) := by
        cases c with
        | move a b => simp [svgStrokes, Segment.stop]
        | line => simp [Segment.isMove] at hm
        | curve => simp [Segment.isMove] at hm
      rw [e]
      split
      · next h => simp [svgStrokes_all_moves (isEmptyPath_iff.1 h)]
      · simp
    · rw [ih _ (addSegment_ne_nil _ _), addSegment_position, svgStrokes_addSegment hp]

end Verif.Path
