import Verif.Spec.Tree
import Verif.Lemmas.Clean
import Verif.Lemmas.Parts
import Verif.Model.Tree

/-!
# Lemmas: which operations keep a path faithful
-/

set_option linter.unusedSectionVars false

namespace Verif.Path

open Verif Verif.Spec

universe u w

variable {F : Type u}

/-- Every stroke begins where the pen is; `none` is a place that is not known. -/
def Inked (cur : Option (Pt F)) : Path F → Prop
  | [] => True
  | .move _ b :: rest => Inked (some (pt b)) rest
  | .line a b :: rest => cur = some (pt a) ∧ Inked (some (pt b)) rest
  | .curve a _ _ b :: rest => cur = some (pt a) ∧ Inked (some (pt b)) rest

/-- Where the pen is afterwards. -/
def penAfter (cur : Option (Pt F)) (p : Path F) : Option (Pt F) :=
  match p.getLast? with
  | none => cur
  | some s => some (pt s.stop)

theorem inked_cons (cur : Option (Pt F)) (s : Segment F) (p : Path F) :
    Inked cur (s :: p) ↔ (s.isMove = false → cur = some (pt s.start)) ∧ Inked (some (pt s.stop)) p := by
  cases s <;> simp [Inked, Segment.isMove, Segment.start, Segment.stop]

theorem penAfter_cons (cur : Option (Pt F)) (s : Segment F) (p : Path F) : penAfter cur (s :: p) = penAfter (some (pt s.stop)) p := by
  cases p with
  | nil => rfl
  | cons t p =>
    simp only [penAfter, List.getLast?_cons_cons]
    rw [List.getLast?_eq_some_getLast (List.cons_ne_nil t p)]

theorem inked_append (cur : Option (Pt F)) (p q : Path F) : Inked cur (p ++ q) ↔ Inked cur p ∧ Inked (penAfter cur p) q := by
  induction p generalizing cur with
  | nil => simp [Inked, penAfter]
  | cons s p ih => rw [List.cons_append, inked_cons, inked_cons, ih, penAfter_cons, and_assoc]

theorem penAfter_append_single (cur : Option (Pt F)) (p : Path F) (s : Segment F) : penAfter cur (p ++ [s]) = some (pt s.stop) := by
  simp [penAfter]

theorem Inked.mono {p : Path F} (h : Inked none p) (cur : Option (Pt F)) : Inked cur p := by
  cases p with
  | nil => trivial
  | cons s p =>
    rw [inked_cons] at h ⊢
    refine ⟨fun hs => ?_, h.2⟩
    have := h.1 hs
    cases this

theorem Inked.head {s : Segment F} {p : Path F} (h : Inked none (s :: p)) : s.isMove = true := by
  rw [inked_cons] at h
  by_contra hs
  have := h.1 (by simpa using hs)
  cases this

theorem svgStrokes_inked (c : Pt F) (p : Path F) (h : Inked (some c) p) : svgStrokes c p = strokes p := by
  induction p generalizing c with
  | nil => rfl
  | cons s p ih =>
    rw [inked_cons] at h
    have e := ih _ h.2
    cases s with
    | move a b =>
      simp only [svgStrokes, strokes, strokeOf, List.filterMap_cons, Segment.stop] at e ⊢
      exact e
    | line a b =>
      have := h.1 rfl
      simp only [Option.some.injEq, Segment.start] at this
      simp only [svgStrokes, strokes, strokeOf, List.filterMap_cons, Segment.stop, this] at e ⊢
      rw [e]
    | curve a k l b =>
      have := h.1 rfl
      simp only [Option.some.injEq, Segment.start] at this
      simp only [svgStrokes, strokes, strokeOf, List.filterMap_cons, Segment.stop, this] at e ⊢
      rw [e]

theorem Inked.faithful {p : Path F} (h : Inked none p) : ReadAsDrawn p := fun c => svgStrokes_inked c p (h.mono _)

variable [Arith F]

/-- Numbers that Go's `==` calls equal are the same (there is one zero only). -/
def ExactEq (F : Type u) [Arith F] : Prop := ∀ a b : F, (a ==. b) = true → a = b

theorem exact_meets (he : ExactEq F) {p q : Point F} (h : Meets p q) : pt p = pt q := by
  rcases h with h | h
  · exact h
  · simp only [Point.equals, Bool.and_eq_true] at h
    simp only [pt, he _ _ h.1, he _ _ h.2]

theorem inked_of_connected (he : ExactEq F) {cur : Point F} {p : Path F} (h : ConnectedFrom cur p) : Inked (some (pt cur)) p := by
  induction p generalizing cur with
  | nil => trivial
  | cons s p ih =>
    rw [inked_cons]
    exact ⟨fun _ => by rw [exact_meets he h.1], ih h.2⟩

theorem inked_connected_move (he : ExactEq F) {s : Segment F} {p : Path F} (h : Connected (s :: p)) (hs : s.isMove = true) : Inked none (s :: p) := by
  rw [inked_cons]
  exact ⟨fun e => (by rw [hs] at e; cases e), inked_of_connected he h.2⟩

theorem inked_headMove {cur : Option (Pt F)} {p : Path F} (h : Inked cur p) : Inked none (headMove p) := by
  cases p with
  | nil => trivial
  | cons s p =>
    rw [inked_cons] at h
    simp only [headMove]
    split
    · next hs =>
      rw [inked_cons]
      exact ⟨fun e => (by rw [hs] at e; cases e), h.2⟩
    · rw [inked_cons, inked_cons]
      exact ⟨fun e => (by cases e), fun _ => rfl, h.2⟩

theorem inked_fixHeadMove {cur : Option (Pt F)} {p : Path F} (h : Inked cur p) : Inked cur (fixHeadMove p) := by
  rcases fixHeadMove_cases p with ⟨a, b, c, rest, rfl, h2, _⟩ | ⟨_, h2⟩
  · rw [h2]; exact h
  · rw [h2]; exact h

theorem inked_newPath {cur : Option (Pt F)} {p : Path F} (h : Inked cur p) : Inked none (newPath p) := inked_fixHeadMove (inked_headMove h)

theorem mapPoints_isMove (f : Point F → Point F) (s : Segment F) : (s.mapPoints f).isMove = s.isMove := by cases s <;> rfl
theorem mapPoints_start (f : Point F → Point F) (s : Segment F) : (s.mapPoints f).start = f s.start := by cases s <;> rfl
theorem mapPoints_stop (f : Point F → Point F) (s : Segment F) : (s.mapPoints f).stop = f s.stop := by cases s <;> rfl

theorem inked_map {f : Point F → Point F} (hf : ∀ a b, pt a = pt b → pt (f a) = pt (f b)) (p : Path F) :
    ∀ a : Point F, Inked (some (pt a)) p → Inked (some (pt (f a))) (p.map (Segment.mapPoints f)) := by
  induction p with
  | nil => intro a _; trivial
  | cons s p ih =>
    intro a h
    rw [inked_cons] at h
    rw [List.map_cons, inked_cons, mapPoints_isMove, mapPoints_start, mapPoints_stop]
    refine ⟨fun hs => ?_, ih _ h.2⟩
    have := h.1 hs
    rw [Option.some.injEq] at this ⊢
    exact hf _ _ this

theorem inked_map_none {f : Point F → Point F} (hf : ∀ a b, pt a = pt b → pt (f a) = pt (f b)) {p : Path F} (h : Inked none p) :
    Inked none (p.map (Segment.mapPoints f)) := by
  cases p with
  | nil => trivial
  | cons s p =>
    have hs := h.head
    rw [inked_cons] at h
    rw [List.map_cons, inked_cons, mapPoints_isMove, mapPoints_stop]
    exact ⟨fun e => (by rw [hs] at e; cases e), inked_map hf p _ h.2⟩

theorem inked_mapPath {f : Point F → Point F} (hf : ∀ a b, pt a = pt b → pt (f a) = pt (f b)) {p : Path F} (h : Inked none p) :
    Inked none (mapPath f p) := inked_newPath (inked_map_none hf h)

theorem newPoint_pt {a b : Point F} (e : pt a = pt b) (g h : F → F → F) : pt (newPoint (g a.x a.y) (h a.x a.y)) = pt (newPoint (g b.x b.y) (h b.x b.y)) := by
  simp only [pt, Prod.mk.injEq] at e
  rw [e.1, e.2]

theorem inked_shift (dx dy : F) {p : Path F} (h : Inked none p) : Inked none (shift dx dy p) :=
  inked_mapPath (fun _ _ e => newPoint_pt e (fun x _ => x +. dx) (fun _ y => y +. dy)) h

theorem inked_scaleBy (u v : F) {p : Path F} (h : Inked none p) : Inked none (scaleBy u v p) :=
  inked_mapPath (fun _ _ e => newPoint_pt e (fun x _ => x *. u) (fun _ y => y *. v)) h

theorem inked_matrix (a b c d e f : F) {p : Path F} (h : Inked none p) : Inked none (matrixTransform a b c d e f p) :=
  inked_mapPath (fun _ _ e' => newPoint_pt e' (fun x y => x *. a +. y *. c +. e) (fun x y => x *. b +. y *. d +. f)) h

theorem clone_pt {a b : Point F} (e : pt a = pt b) : pt a.clone = pt b.clone := newPoint_pt e (fun x _ => x) (fun _ y => y)

theorem clone_eq_mapPoints (s : Segment F) : s.clone = s.mapPoints Point.clone := by cases s <;> rfl

theorem inked_clone {p : Path F} (h : Inked none p) : Inked none (p.map Segment.clone) := by
  rw [show (Segment.clone : Segment F → Segment F) = Segment.mapPoints Point.clone from funext clone_eq_mapPoints]
  exact inked_map_none (fun _ _ e => clone_pt e) h

theorem inked_addSegment (he : ExactEq F) {p : Path F} (h : Inked none p) (s : Segment F) : Inked none (addSegment p s) := by
  by_cases hp : p = []
  · subst hp
    cases hm : s.isMove
    · rw [addSegment_nil_stroke hm, inked_cons, inked_cons]
      refine ⟨fun e => (by cases e), fun _ => ?_, trivial⟩
      rw [← exact_meets he (snapped_meets _ _)]
      rfl
    · rw [addSegment_nil_move hm, inked_cons]
      refine ⟨fun e => ?_, trivial⟩
      have : (snapped (origin : Point F) s).isMove = true := by
        unfold snapped
        split
        · exact hm
        · cases s <;> simp_all [Segment.setStart, Segment.isMove]
      rw [this] at e
      cases e
  · rw [addSegment_nonempty hp, inked_append, inked_cons]
    refine ⟨h, fun _ => ?_, trivial⟩
    rw [← exact_meets he (snapped_meets _ _), penAfter, currentPosition]
    cases hl : p.getLast? with
    | none => exact absurd (List.getLast?_eq_none_iff.mp hl) hp
    | some t => rfl

theorem inked_addSegments (he : ExactEq F) (l : List (Segment F)) {p : Path F} (h : Inked none p) : Inked none (addSegments p l) := by
  induction l generalizing p with
  | nil => exact h
  | cons s l ih => exact ih (inked_addSegment he h s)

theorem inked_reversePath (he : ExactEq F) (p : Path F) : Inked none (reversePath p) := inked_addSegments he _ trivial

theorem inked_appendPath {acc p : Path F} (ha : Inked none acc) (hp : Inked none p) : Inked none (appendPath acc p) := by
  cases p with
  | nil => exact ha
  | cons s p =>
    have hc := inked_clone hp
    unfold appendPath
    rw [inked_append]
    refine ⟨?_, hc.mono _⟩
    split
    · exact ha
    · split
      · exact ha
      · rw [inked_append]
        exact ⟨ha, trivial⟩

theorem inked_simpleJoin {l : List (Path F)} (h : ∀ p ∈ l, Inked none p) {q : Path F} (e : simpleJoin l = .ok q) : Inked none q := by
  cases l with
  | nil => cases e
  | cons p l =>
    simp only [simpleJoin, Res.ok.injEq] at e
    subst e
    have key : ∀ (l : List (Path F)) (acc : Path F), Inked none acc → (∀ p ∈ l, Inked none p) → Inked none (l.foldl appendPath acc) := by
      intro l
      induction l with
      | nil => intro acc h _; exact h
      | cons p l ih =>
        intro acc h hl
        exact ih _ (inked_appendPath h (hl p (by simp))) (fun q hq => hl q (by simp [hq]))
    exact key l _ (inked_clone (h p (by simp))) (fun q hq => h q (by simp [hq]))

theorem inked_mergeStep {acc : Path F} {s : Segment F} (h : Inked none (acc ++ [s])) : Inked none (mergeStep acc s) ∧ penAfter none (mergeStep acc s) = some (pt s.stop) := by
  unfold mergeStep
  split
  · next e' a b hl =>
    obtain ⟨init, e⟩ : ∃ init, acc = init ++ [.move a b] := ⟨_, (List.dropLast_append_getLast? _ hl).symm⟩
    subst e
    rw [List.dropLast_concat]
    rw [inked_append, inked_append] at h
    refine ⟨?_, penAfter_append_single _ _ _⟩
    rw [inked_append]
    exact ⟨h.1.1, trivial⟩
  · exact ⟨h, penAfter_append_single _ _ _⟩

theorem inked_mergeMoves {p : Path F} (h : Inked none p) : Inked none (mergeMoves p) := by
  cases p with
  | nil => trivial
  | cons s p =>
    have key : ∀ (p acc : Path F) (s : Segment F), Inked none acc → penAfter none acc = some (pt s.stop) → Inked (some (pt s.stop)) p →
        Inked none (p.foldl mergeStep acc) := by
      intro p
      induction p with
      | nil => intro acc s h _ _; exact h
      | cons t p ih =>
        intro acc s h1 h2 h3
        have h4 : Inked none (acc ++ [t]) := by
          rw [inked_append, h2, inked_cons]
          rw [inked_cons] at h3
          exact ⟨h1, h3.1, trivial⟩
        obtain ⟨h5, h6⟩ := inked_mergeStep h4
        rw [inked_cons] at h3
        exact ih _ t h5 h6 h3.2
    have hs := h.head
    rw [inked_cons] at h
    refine key p [s] s ?_ rfl h.2
    rw [inked_cons]
    exact ⟨fun e => (by rw [hs] at e; cases e), trivial⟩

theorem inked_trimTailMove {p : Path F} (h : Inked none p) : Inked none (trimTailMove p) := by
  have : trimTailMove p <+: p := by
    unfold trimTailMove
    have := (List.dropWhile_suffix Segment.isMove (l := p.reverse)).reverse
    simpa using this
  obtain ⟨t, e⟩ := this
  rw [← e, inked_append] at h
  exact h.1

variable {F : Type u} [Trig F]

theorem inked_collapseMoves {p : Path F} (h : Inked none p) : Inked none (collapseMoves p) := by
  have key : ∀ (p acc : Path F), Inked none acc → Inked (penAfter none acc) p →
      Inked none (p.foldl (fun acc s => (if s.isMove then trimTailMove acc else acc) ++ [s]) acc) := by
    intro p
    induction p with
    | nil => intro acc h _; exact h
    | cons s p ih =>
      intro acc h1 h2
      rw [inked_cons] at h2
      refine ih _ ?_ ?_
      · rw [inked_append, inked_cons]
        cases hm : s.isMove with
        | true => exact ⟨inked_trimTailMove h1, fun e => (by cases e), trivial⟩
        | false => exact ⟨h1, fun _ => h2.1 hm, trivial⟩
      · rw [penAfter_append_single]
        exact h2.2
  exact inked_newPath (key p [] trivial h)

/-! ### Cleaning -/

/-- A number that is not a number is equal to nothing. -/
def NaNApart (F : Type u) [Arith F] : Prop := ∀ a b : F, Arith.isNaN a = true → (a ==. b) = false

/-- A place with a coordinate that is not a number. -/
def Nowhere (q : Pt F) : Prop := (Arith.isNaN q.1 || Arith.isNaN q.2) = true

theorem nowhere_apart (hn : NaNApart F) {a b : Point F} (h : Nowhere (pt a)) : a.equals b = false := by
  simp only [Nowhere, pt, Bool.or_eq_true] at h
  simp only [Point.equals]
  rcases h with h | h <;> simp [hn _ _ h]

theorem inked_gap (n : Int) (prev : Point F) (s : Segment F) (pen : Option (Pt F)) (rest : Path F)
    (h1 : s.start.equals prev = true → Inked pen rest) (h2 : s.start.equals prev = false → Inked (some (pt (cleaned n prev s).start)) rest) :
    Inked pen (gap n prev s ++ rest) := by
  unfold gap
  cases e : s.start.equals prev with
  | true => simpa using h1 e
  | false =>
    simp only [Bool.false_eq_true, if_false, List.cons_append, List.nil_append, inked_cons]
    exact ⟨fun e => (by cases e), h2 e⟩

theorem inked_cleanupLoop (he : ExactEq F) (hn : NaNApart F) (n : Int) (p : Path F) : ∀ (pen : Option (Pt F)) (prev : Point F) (q : Pt F),
    Inked (some q) p → (pen = some (pt prev) ∨ Nowhere q) → Inked pen (cleanupLoop n prev p) := by
  induction p with
  | nil => intro _ _ _ _ _; trivial
  | cons s p ih =>
    intro pen prev q h hq
    rw [inked_cons] at h
    rw [cleanupLoop_cons]
    have hc : (cleaned n prev s).stop = s.stop := cleaned_stop n prev s
    have key : s.start.equals prev = true → s.isMove = false → pen = some (pt (cleaned n prev s).start) := by
      intro e hm
      have hs := h.1 hm
      rw [Option.some.injEq] at hs
      have : cleaned n prev s = s := by simp [cleaned, e]
      rw [this]
      rcases hq with hq | hq
      · rw [hq, exact_meets he (Or.inr e)]
      · rw [hs] at hq
        rw [nowhere_apart hn hq] at e
        cases e
    have hmv : (cleaned n prev s).isMove = s.isMove := by
      unfold cleaned
      split
      · rfl
      · split
        · cases s <;> rfl
        · rfl
    split
    · next hnan =>
      exact inked_gap n prev s pen _ (fun _ => ih _ _ _ h.2 (.inr hnan)) (fun _ => ih _ _ _ h.2 (.inr hnan))
    · refine inked_gap n prev s pen _ (fun e => ?_) (fun e => ?_)
      · rw [inked_cons, hc, hmv]
        exact ⟨fun hm => key e hm, ih _ _ _ h.2 (.inl rfl)⟩
      · rw [inked_cons, hc]
        exact ⟨fun _ => rfl, ih _ _ _ h.2 (.inl rfl)⟩

theorem inked_cleanup (he : ExactEq F) (hn : NaNApart F) (n : Int) {p : Path F} (h : Inked none p) : Inked none (cleanup n p) := by
  refine inked_newPath (inked_mergeMoves (inked_fixHeadMove ?_))
  cases p with
  | nil => trivial
  | cons s p =>
    have hm := h.head
    rw [inked_cons] at h
    simp only [cleanupSegments, hm, if_true, List.nil_append]
    split
    · next hnan => exact inked_cleanupLoop he hn n p none _ _ h.2 (.inr hnan)
    · rw [inked_cons]
      exact ⟨fun e => (by rw [hm] at e; cases e), inked_cleanupLoop he hn n p _ _ _ h.2 (.inl rfl)⟩

/-- If every number is a number, a cleaned path draws its strokes whatever it was before. -/
theorem inked_cleanup_real (he : ExactEq F) (hn : ∀ a : F, Arith.isNaN a = false) (n : Int) (p : Path F) : Inked none (cleanup n p) := by
  have loop : ∀ (p : Path F) (prev : Point F), Inked (some (pt prev)) (cleanupLoop n prev p) := by
    intro p
    induction p with
    | nil => intro _; trivial
    | cons s p ih =>
      intro prev
      rw [cleanupLoop_cons, hn, hn]
      simp only [Bool.or_false, Bool.false_eq_true, if_false]
      refine inked_gap n prev s _ _ (fun e => ?_) (fun e => ?_)
      · rw [inked_cons, cleaned_stop]
        refine ⟨fun _ => ?_, ih _⟩
        have : cleaned n prev s = s := by simp [cleaned, e]
        rw [this, exact_meets he (Or.inr e)]
      · rw [inked_cons, cleaned_stop]
        exact ⟨fun _ => rfl, ih _⟩
  refine inked_newPath (inked_mergeMoves (inked_fixHeadMove ?_))
  cases p with
  | nil => trivial
  | cons s p =>
    simp only [cleanupSegments, hn, Bool.or_false, Bool.false_eq_true, if_false]
    cases hm : s.isMove with
    | true =>
      rw [if_pos rfl, List.nil_append, inked_cons]
      exact ⟨fun e => (by rw [hm] at e; cases e), loop _ _⟩
    | false =>
      simp only [Bool.false_eq_true, if_false, List.cons_append, List.nil_append, inked_cons]
      exact ⟨fun e => (by cases e), fun _ => rfl, loop _ _⟩

/-! ### The transforms -/

theorem inked_move {t : Point F} {h : Text} {p q : Path F} (hp : Inked none p) (e : Path.move t h p = .ok q) : Inked none q := by
  unfold Path.move at e
  split at e <;> simp only [Res.ok.injEq, reduceCtorEq] at e
  subst e
  exact inked_shift _ _ hp

theorem rotatePoint_pt (d : F) {a b : Point F} (e : pt a = pt b) : pt (rotatePoint d a) = pt (rotatePoint d b) := by
  simp only [pt, Prod.mk.injEq] at e
  simp only [rotatePoint, e.1, e.2]

theorem inked_rotate {d : F} {h : Text} {p q : Path F} (hp : Inked none p) (e : Path.rotate d h p = .ok q) : Inked none q := by
  unfold Path.rotate at e
  split at e <;> try cases e
  split at e <;> simp only [Res.ok.injEq, reduceCtorEq] at e
  next hm =>
  subst e
  exact inked_shift _ _ (inked_mapPath (fun _ _ e => rotatePoint_pt d e) (inked_move hp hm))

theorem mirrorPoint_pt (ax : Axis) (br : Point F) {a b : Point F} (e : pt a = pt b) : pt (mirrorPoint ax br a) = pt (mirrorPoint ax br b) := by
  have h := clone_pt e
  simp only [pt, Prod.mk.injEq] at e h
  cases ax <;> simp only [mirrorPoint, pt, Prod.mk.injEq, e.1, e.2, h.1, h.2, and_self]

theorem inked_mirror {ax : Axis} {h : Text} {p q : Path F} (hp : Inked none p) (e : Path.mirror ax h p = .ok q) : Inked none q := by
  unfold Path.mirror at e
  split at e <;> try cases e
  split at e <;> try cases e
  next hm =>
  split at e <;> simp only [Res.ok.injEq, reduceCtorEq] at e
  subst e
  exact inked_shift _ _ (inked_mapPath (fun _ _ e => mirrorPoint_pt ax _ e) (inked_move hp hm))

theorem inked_trimWhitespace {p : Path F} (hp : Inked none p) : Inked none (trimWhitespace p) := inked_shift _ _ hp

theorem inked_scale (s : Scale F) {p : Path F} (hp : Inked none p) : Inked none (Path.scale s p) := inked_scaleBy _ _ hp

theorem res_bind_ok {α β : Type u} {r : Res α} {f : α → Res β} {b : β} (h : (r >>= f) = .ok b) : ∃ a, r = .ok a ∧ f a = .ok b := by
  cases r with
  | ok a => exact ⟨a, rfl, h⟩
  | err => cases h
  | panic => cases h

theorem inked_rotateScale {a b : Point F} {p q : Path F} (hp : Inked none p) (e : Path.rotateScale a b p = .ok q) : Inked none q := by
  unfold Path.rotateScale at e
  obtain ⟨_, _, e⟩ := res_bind_ok e
  obtain ⟨r, hr, e⟩ := res_bind_ok e
  obtain ⟨_, _, e⟩ := res_bind_ok e
  exact inked_move (inked_scale _ (inked_rotate hp hr)) e

/-- What is inked stays inked. -/
def Keeps (f : Path F → Res (Path F)) : Prop := ∀ p q, Inked none p → f p = .ok q → Inked none q

/-- A transform that is neither `join` nor `offset` nor `slice`. -/
def Transform.gentle : Transform F → Bool
  | .join _ _ => false
  | .offset _ _ _ => false
  | .slice _ => false
  | _ => true

theorem keeps_gentle (he : ExactEq F) (hn : NaNApart F) (fuel : Nat) (t : Transform F) (h : t.gentle = true) : Keeps (Transform.run fuel t) := by
  intro p q hp e
  cases t <;> simp only [Transform.gentle, Bool.false_eq_true, reduceCtorEq] at h <;> simp only [Transform.run, Res.ok.injEq] at e
  · subst e; exact inked_cleanup he hn _ hp
  · exact inked_rotate hp e
  · subst e; exact inked_reversePath he _
  · exact inked_move hp e
  · subst e; exact inked_trimWhitespace hp
  · subst e; exact inked_matrix _ _ _ _ _ _ hp
  · exact inked_mirror hp e
  · subst e; exact inked_scale _ hp
  · exact inked_rotateScale hp e

theorem keeps_slice (he : ExactEq F) (hn : ∀ a : F, Arith.isNaN a = false) (fuel : Nat) (y : F) : Keeps (Transform.run fuel (.slice y)) := by
  intro p q hp e
  simp only [Transform.run, hSlice] at e
  cases hb : whitespaceBox p with
  | ok b =>
    obtain ⟨tl, br⟩ := b
    rw [hb] at e
    simp only at e
    cases hk : p.mapM (knifeCut defaultPrecision (newPoint tl.x y, newPoint br.x y) fuel) with
    | none => rw [hk] at e; cases e
    | some pieces =>
      rw [hk] at e
      simp only [Option.map_some, Res.ok.injEq] at e
      rw [← e]
      exact inked_cleanup_real he hn _ _
  | err => rw [hb] at e; cases e
  | panic => rw [hb] at e; cases e

theorem keeps_multi {ts : List (Path F → Res (Path F))} (h : ∀ t ∈ ts, Keeps t) : Keeps (multiTransform ts) := by
  induction ts with
  | nil =>
    intro p q hp e
    simp only [multiTransform, Res.ok.injEq] at e
    subst e; exact hp
  | cons t ts ih =>
    intro p q hp e
    simp only [multiTransform] at e
    cases ht : t p with
    | ok r =>
      rw [ht] at e
      exact ih (fun t ht => h t (by simp [ht])) r q (h t (by simp) p r hp ht) e
    | err => rw [ht] at e; cases e
    | panic => rw [ht] at e; cases e

/-! ### The components -/

/-- Whatever the map is made into keeps what is inked. -/
def MapKeeps (toInt : F → Int) (fuel : Nat) (m : TransformMap F) : Prop := ∀ t, m.make toInt = some t → Keeps (Transform.run fuel t)

theorem mapM_mem {α β : Type u} {f : α → Option β} {l : List α} {r : List β} (h : l.mapM f = some r) : ∀ b ∈ r, ∃ a ∈ l, f a = some b := by
  induction l generalizing r with
  | nil =>
    simp only [List.mapM_nil, Option.pure_def, Option.some.injEq] at h
    subst h
    simp
  | cons a l ih =>
    simp only [List.mapM_cons, Option.bind_eq_bind, Option.bind_eq_some_iff, Option.pure_def, Option.some.injEq] at h
    obtain ⟨b, hb, bs, hbs, rfl⟩ := h
    intro c hc
    rcases List.mem_cons.mp hc with rfl | hc
    · exact ⟨a, by simp, hb⟩
    · obtain ⟨a', ha', e⟩ := ih hbs c hc
      exact ⟨a', by simp [ha'], e⟩

theorem inked_finish {toInt : F → Int} {fuel : Nat} {ms : List (TransformMap F)} (h : ∀ m ∈ ms, MapKeeps toInt fuel m) {p q : Path F} (hp : Inked none p)
    (e : finish toInt fuel ms p = .ok q) : Inked none q := by
  unfold finish handleTransforms at e
  cases hm : makeAll toInt ms with
  | none => rw [hm] at e; cases e
  | some ts =>
    rw [hm] at e
    simp only at e
    cases hr : multiTransform (ts.map (Transform.run fuel)) p with
    | err => rw [hr] at e; cases e
    | panic => rw [hr] at e; cases e
    | ok r =>
      rw [hr] at e
      simp only at e
      have : Inked none r := by
        refine keeps_multi (ts := ts.map (Transform.run fuel)) ?_ p r hp hr
        intro t ht
        obtain ⟨t', ht', rfl⟩ := List.mem_map.mp ht
        obtain ⟨m, hm', e'⟩ := mapM_mem hm t' ht'
        exact h m hm' t' e'
      cases hl : r.getLast? with
      | none => rw [hl] at e; cases e
      | some s =>
        rw [hl] at e
        simp only [Res.ok.injEq] at e
        subst e
        exact this

theorem res_mapM_mem {α : Type w} {β : Type u} {f : α → Res β} {l : List α} {r : List β} (h : l.mapM f = .ok r) : ∀ b ∈ r, ∃ a ∈ l, f a = .ok b := by
  induction l generalizing r with
  | nil =>
    simp only [List.mapM_nil, Res.pure_eq, Res.ok.injEq] at h
    subst h
    simp
  | cons a l ih =>
    rw [List.mapM_cons] at h
    obtain ⟨b, hb, h⟩ := res_bind_ok h
    obtain ⟨bs, hbs, h⟩ := res_bind_ok h
    simp only [Res.pure_eq, Res.ok.injEq] at h
    subst h
    intro c hc
    rcases List.mem_cons.mp hc with rfl | hc
    · exact ⟨a, by simp, hb⟩
    · obtain ⟨a', ha', e⟩ := ih hbs c hc
      exact ⟨a', by simp [ha'], e⟩

theorem inked_renderChildren {cs : List (Point F → Res (Path F))} (h : ∀ c ∈ cs, ∀ cursor p, c cursor = .ok p → Inked none p) :
    ∀ (cursor : Point F) (ps : List (Path F)), renderChildren cs cursor = .ok ps → ∀ p ∈ ps, Inked none p := by
  induction cs with
  | nil =>
    intro cursor ps e p hp
    simp only [renderChildren, Res.ok.injEq] at e
    subst e
    simp at hp
  | cons c cs ih =>
    intro cursor ps e p hp
    unfold renderChildren at e
    obtain ⟨q, hq, e⟩ := res_bind_ok e
    cases hl : q.getLast? with
    | none => rw [hl] at e; cases e
    | some s =>
      rw [hl] at e
      obtain ⟨qs, hqs, e⟩ := res_bind_ok e
      simp only [Res.ok.injEq] at e
      subst e
      rcases List.mem_cons.mp hp with rfl | hp
      · exact h c (by simp) _ _ hq
      · exact ih (fun c hc => h c (by simp [hc])) _ _ hqs p hp

end Verif.Path
