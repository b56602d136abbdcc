import Verif.Lemmas.Join
import Verif.Lemmas.PathText
import Verif.Props.Lines
import Verif.Spec.Join

/-!
# C71 to C73: joining

Over the real numbers extended by the IEEE special values.
-/

namespace Verif.Path

open Verif Verif.Spec XNum

universe u

set_option linter.unusedSectionVars false

/-! ## C71 The join transform ends and draws in one go -/

theorem closePath_solid {F : Type u} [Trig F] (so : Int) {p : Path F} (h : ∀ s ∈ p, s.isMove = false) : ∀ s ∈ closePath so p, s.isMove = false := by
  unfold closePath
  split
  · next first last hf hl =>
    have h1 := h first (List.mem_of_head? hf)
    have h2 := h last (List.mem_of_getLast? hl)
    have hj := joinSegments_solid so last first h2 h1
    intro s hs
    simp only [List.mem_append, List.mem_singleton] at hs
    rcases hs with hs | rfl
    · rcases List.mem_or_eq_of_mem_set (List.dropLast_subset _ hs) with h' | rfl
      · exact h s h'
      · cases e : (joinSegments so last first).getLast? with
        | none => exact h1
        | some t => exact hj t (List.mem_of_getLast? e)
    · cases e : (joinSegments so last first).head? with
      | none => exact h2
      | some t => exact hj t (List.mem_of_head? e)
  · exact h

theorem newPath_run {F : Type u} [Arith F] {p : Path F} (h : ∀ s ∈ p, s.isMove = false) : OneRun (newPath p) := by
  match p, h with
  | [], _ => exact .inl rfl
  | s :: p, h =>
    right
    have hm : s.isMove = false := h s (by simp)
    simp only [newPath, headMove, hm, Bool.false_eq_true, if_false, fixHeadMove]
    split <;> exact ⟨_, _, _, rfl, h⟩

/-- **C71.** On every path that begins with a move (as all paths do that are built from segments), with any precisions, closing or
not, the join transform succeeds, and its result is drawn in one go. -/
theorem C71_one_run (n : Nat) (so : Int) (close : Bool) (p : Path (XNum ℝ)) (h : ∀ s, p.head? = some s → s.isMove = true) :
    ∃ r, join n so close p = .ok r ∧ OneRun r := by
  obtain ⟨q, hq⟩ := dedup_rooted n h
  obtain ⟨q', hq'⟩ := C36_succeeds n q
  obtain ⟨r, hr, hm⟩ := joinLoop_terminates n so q'
  refine ⟨newPath (if close then closePath so r else r), ?_, newPath_run ?_⟩
  · simp only [join, hq, Res.ok_bind, hq', hr, Res.pure_eq]
  · split
    · exact closePath_solid so hm
    · exact hm

/-- Without the leading move the transform can panic. -/
theorem C71_headless_false : ¬ ∀ (n : Nat) (so : Int) (close : Bool) (p : Path (XNum ℝ)), ∃ r, join n so close p = .ok r := by
  intro h
  let z : Segment (XNum ℝ) := .line ⟨fin 0, fin 0, fin 0⟩ ⟨fin 0, fin 0, fin 0⟩
  obtain ⟨r, hr⟩ := h 3 3 false [z, z, z]
  have hp : dedup 3 [z, z, z] = .panic := by
    have e : dedupOnce 3 [z, z, z] = .panic := by
      have h1 : dedupStep 3 [z] z = some [] := by simp [dedupStep, z, Segment.reverse]
      have h2 : dedupStep 3 [] z = none := rfl
      simp only [dedupOnce, dedupLoop, h1, h2]
    rw [dedup, e]; rfl
  rw [join, hp] at hr
  cases hr

/-- Not vacuous: two separate lines, of which the second is nearer at its end. -/
example : ∃ r, join 3 3 true ([.move ⟨fin 0, fin 0, fin 0⟩ ⟨fin 0, fin 0, fin 0⟩, .line ⟨fin 0, fin 0, fin 0⟩ ⟨fin 1, fin 0, fin 0⟩,
    .move ⟨fin 1, fin 0, fin 0⟩ ⟨fin 5, fin 5, fin 0⟩, .line ⟨fin 5, fin 5, fin 0⟩ ⟨fin 1, fin 1, fin 0⟩] : Path (XNum ℝ)) = .ok r ∧ OneRun r :=
  C71_one_run _ _ _ _ (by simp [Segment.isMove])

/-! ## C72 A drawing that is already connected is left as it is -/

/-- A text up to a separator that does not occur in it. -/
theorem text_split (sep : Char) : ∀ (a a' b b' : Text), (∀ c ∈ a, c ≠ sep) → (∀ c ∈ a', c ≠ sep) →
    a ++ sep :: b = a' ++ sep :: b' → a = a' ∧ b = b' := by
  intro a
  induction a with
  | nil =>
    intro a' b b' _ h' h
    cases a' with
    | nil => simpa using h
    | cons c a' => simp at h; exact absurd h.1.symm (h' c (by simp))
  | cons c a ih =>
    intro a' b b' ha h' h
    cases a' with
    | nil => simp at h; exact absurd h.1 (ha c (by simp))
    | cons c' a' =>
      simp at h
      obtain ⟨h1, h2⟩ := ih a' b b' (fun x hx => ha x (by simp [hx])) (fun x hx => h' x (by simp [hx])) h.2
      exact ⟨by rw [h.1, h1], h2⟩

theorem pairText_inj (n : Nat) (p q : Point ℝ) (r r' : Text)
    (h : pairText n (finPt p) ++ r = pairText n (finPt q) ++ r') : PrintsSame n (pt (finPt p)) (pt (finPt q)) ∧ r = r' := by
  have hc : ∀ (x : ℝ), ∀ c ∈ Decimal.fmt n x, c ≠ ',' ∧ c ≠ ')' := by
    intro x c hc
    rcases signedText_chars _ _ _ c hc with rfl | rfl | ⟨d, hd, rfl⟩
    · decide
    · decide
    · interval_cases d <;> decide
  simp only [pairText, finPt, fmt_fin, List.append_assoc, List.cons_append, List.nil_append, List.cons.injEq, true_and] at h
  obtain ⟨h1, h2⟩ := text_split _ _ _ _ _ (fun c h' => (hc _ c h').1) (fun c h' => (hc _ c h').1) h
  simp only [List.cons.injEq, true_and] at h2
  obtain ⟨h3, h4⟩ := text_split _ _ _ _ _ (fun c h' => (hc _ c h').2) (fun c h' => (hc _ c h').2) h2
  exact ⟨⟨h1, h3⟩, h4⟩

theorem uniqueString_inj (n : Nat) (s t : Segment ℝ) (u v : Stroke (XNum ℝ)) (hs : strokeOf (finSeg s) = some u)
    (ht : strokeOf (finSeg t) = some v) (h : uniqueString n (finSeg s) = uniqueString n (finSeg t)) : PrintsAs n u v := by
  cases s <;> cases t <;> simp only [finSeg, strokeOf, Option.some.injEq, reduceCtorEq] at hs ht <;> subst hs <;> subst ht
  · simp only [uniqueString, finSeg, List.append_assoc, List.append_cancel_left_eq] at h
    obtain ⟨h1, h2⟩ := pairText_inj _ _ _ _ _ h
    rw [List.append_cancel_left_eq] at h2
    have h3 := pairText_inj n _ _ [] [] (by simpa using h2)
    exact ⟨h1, h3.1⟩
  · exfalso; simp [uniqueString, finSeg] at h
  · exfalso; simp [uniqueString, finSeg] at h
  · simp only [uniqueString, finSeg, List.append_assoc, List.append_cancel_left_eq] at h
    obtain ⟨h1, h2⟩ := pairText_inj _ _ _ _ _ h
    rw [List.append_cancel_left_eq] at h2
    obtain ⟨h3, h4⟩ := pairText_inj _ _ _ _ _ h2
    rw [List.append_cancel_left_eq] at h4
    obtain ⟨h5, h6⟩ := pairText_inj _ _ _ _ _ h4
    rw [List.append_cancel_left_eq] at h6
    have h7 := pairText_inj n _ _ [] [] (by simpa using h6)
    exact ⟨h1, h3, h5, h7.1⟩

theorem finSeg_reverse (s : Segment ℝ) : finSeg s.reverse = (finSeg s).reverse := by cases s <;> rfl

/-- The deduplication keeps a run that does not go back over itself. -/
theorem dedupLoop_run (n : Nat) (run : Path ℝ) : ∀ (acc : List (Segment (XNum ℝ))) (prev : Segment ℝ),
    (∀ s ∈ run, s.isMove = false) →
    (prev.isMove = true ∨ NoRetrace n (strokes (finPath (prev :: run)))) → (prev.isMove = true → NoRetrace n (strokes (finPath run))) →
    dedupLoop n (finSeg prev :: acc) (finPath run) = some ((finSeg prev :: acc).reverse ++ finPath run) := by
  induction run with
  | nil => intro acc prev _ _ _; simp [dedupLoop, finPath]
  | cons s run ih =>
    intro acc prev hm h1 h2
    have hsm : s.isMove = false := hm s (by simp)
    obtain ⟨v, hv⟩ : ∃ v, strokeOf (finSeg s) = some v := by
      cases s <;> first | exact ⟨_, rfl⟩ | simp [Segment.isMove] at hsm
    have hstep : dedupStep n (finSeg prev :: acc) (finSeg s) = some (finSeg s :: finSeg prev :: acc) := by
      have e : dedupStep n (finSeg prev :: acc) (finSeg s) =
          if uniqueString n (finSeg s) = uniqueString n (finSeg prev).reverse then some acc else some (finSeg s :: finSeg prev :: acc) := by
        cases s <;> simp_all [dedupStep, Segment.isMove, finSeg]
      rw [e, if_neg]
      intro hu
      cases hp : prev.isMove with
      | true => exact uniqueString_move n (by simpa using hsm) (by simpa using hp) hu
      | false =>
        have h1 := h1.resolve_left (by simp [hp])
        rw [← finSeg_reverse] at hu
        obtain ⟨w, hw⟩ : ∃ w, strokeOf (finSeg prev) = some w := by
          cases prev <;> first | exact ⟨_, rfl⟩ | simp [Segment.isMove] at hp
        have hw' : strokeOf (finSeg prev.reverse) = some w.reverse := by rw [finSeg_reverse, strokeOf_reverse, hw]; rfl
        have := uniqueString_inj n _ _ _ _ hv hw' hu
        simp only [finPath_cons, strokes_cons, hw, hv, Option.toList_some, List.cons_append, List.nil_append, NoRetrace,
          List.isChain_cons_cons] at h1
        exact h1.1 this
    rw [finPath_cons, dedupLoop, hstep]
    simp only
    rw [ih _ s (fun t ht => hm t (by simp [ht])) (.inr ?_) (fun h => by rw [hsm] at h; cases h)]
    · simp
    · cases hp : prev.isMove with
      | true => exact h2 hp
      | false =>
        have h1 := h1.resolve_left (by simp [hp])
        rw [finPath_cons, strokes_cons] at h1
        exact (List.isChain_append.1 h1).2.1

theorem chain_connected {cur : Point ℝ} {run : Path ℝ} (h : ConnectedFrom cur run) : ConnectedFrom (finPt cur) (finPath run) := by
  induction run generalizing cur with
  | nil => trivial
  | cons s run ih =>
    refine ⟨?_, by rw [stop_finSeg]; exact ih h.2⟩
    rw [start_finSeg]
    rcases h.1 with e | e
    · left
      simp only [pt, Prod.mk.injEq] at e
      simp [pt, finPt, e.1, e.2]
    · right
      rw [equals_fin]; exact e

theorem fixHeadMove_move {F : Type u} [Arith F] (a b : Point F) (run : Path F) : ∃ a', fixHeadMove (.move a b :: run) = .move a' b :: run := by
  simp only [fixHeadMove]
  split <;> exact ⟨_, rfl⟩

theorem newPath_move {F : Type u} [Arith F] (a b : Point F) (run : Path F) : ∃ a', newPath (.move a b :: run) = .move a' b :: run :=
  fixHeadMove_move a b run

theorem connected_equals {cur : Point ℝ} {s : Segment ℝ} (h : Meets cur s.start) : (finSeg s).start.equals (finPt cur) = true := by
  rw [start_finSeg, equals_fin]
  rcases h with e | e
  · simp only [pt, Prod.mk.injEq] at e
    simp [Point.equals, e.1, e.2]
  · simp only [Point.equals, Arith.eq_field, Bool.and_eq_true, decide_eq_true_eq] at e ⊢
    exact ⟨e.1.symm, e.2.symm⟩

theorem cleanupLoop_run (n : Int) (run : Path ℝ) : ∀ (cur : Point ℝ), ConnectedFrom cur run → cleanupLoop n (finPt cur) (finPath run) = finPath run := by
  induction run with
  | nil => intro cur _; rfl
  | cons s run ih =>
    intro cur h
    have he := connected_equals h.1
    have hn : EndsProperly (finSeg s) := by
      rw [EndsProperly, stop_finSeg]
      simp [finPt]
    rw [finPath_cons, cleanupLoop_cons, endsProperly_test hn]
    simp only [gap, cleaned, he, if_true, Bool.false_eq_true, if_false, List.nil_append]
    rw [stop_finSeg, ih _ h.2]

theorem mergeMoves_run {F : Type u} (run : Path F) : ∀ (acc : List (Segment F)), (∀ s ∈ run, s.isMove = false) →
    run.foldl mergeStep acc = acc ++ run := by
  induction run with
  | nil => intro acc _; simp
  | cons s run ih =>
    intro acc h
    have : mergeStep acc s = acc ++ [s] := by
      have := h s (by simp)
      cases s <;> first | rfl | simp [Segment.isMove] at this
    rw [List.foldl_cons, this, ih _ (fun t ht => h t (by simp [ht]))]
    simp

theorem finPath_run {run : Path ℝ} (h : ∀ s ∈ run, s.isMove = false) : ∀ s ∈ finPath run, s.isMove = false := by
  intro s hs
  obtain ⟨t, ht, rfl⟩ := List.mem_map.1 hs
  rw [isMove_finSeg]; exact h t ht

theorem cleanup_run (n : Int) (a b : Point ℝ) (run : Path ℝ) (hm : ∀ s ∈ run, s.isMove = false) (hc : ConnectedFrom b run) :
    ∃ a', cleanup n (finPath (.move a b :: run)) = finPath (.move a' b :: run) := by
  have hn : EndsProperly (finSeg (.move a b)) := by simp [EndsProperly, Segment.stop, finPt, finSeg]
  have e : cleanupSegments n (finPath (.move a b :: run)) = finPath (.move a b :: run) := by
    rw [finPath_cons, cleanupSegments_cons n hn]
    have : (finSeg (.move a b)).stop = finPt b := rfl
    rw [this, cleanupLoop_run n run b hc]
    rfl
  obtain ⟨a', e'⟩ := fixHeadMove_move a b run
  obtain ⟨a'', e''⟩ := newPath_move a' b run
  refine ⟨a'', ?_⟩
  rw [cleanup, e, fixHeadMove_fin, e', finPath_cons, mergeMoves, mergeMoves_run _ _ (finPath_run hm), ← e'', ← newPath_fin]
  rfl

theorem dedupOnce_run (n : Nat) (a b : Point ℝ) (run : Path ℝ) (hm : ∀ s ∈ run, s.isMove = false)
    (hr : NoRetrace n (strokes (finPath run))) :
    ∃ a', dedupOnce n (finPath (.move a b :: run)) = .ok (finPath (.move a' b :: run)) := by
  match run with
  | [] => exact ⟨a, rfl⟩
  | s :: run =>
    have h := dedupLoop_run n (s :: run) [] (.move a b) hm (.inl rfl) (fun _ => hr)
    obtain ⟨a', e'⟩ := newPath_move a b (s :: run)
    refine ⟨a', ?_⟩
    rw [← e', ← newPath_fin]
    simp only [finPath_cons, dedupOnce] at h ⊢
    rw [h]
    rfl

theorem splitLoop_run {F : Type u} [Arith F] (run : Path F) : ∀ (p : Path F), (∀ s ∈ run, s.isMove = false) → (splitLoop run p []).length ≤ 1 := by
  induction run with
  | nil => intro p _; simp only [splitLoop]; split <;> simp
  | cons s run ih =>
    intro p h
    rw [splitLoop, h s (by simp)]
    simp only [Bool.false_eq_true, if_false]
    exact ih _ (fun t ht => h t (by simp [ht]))

theorem reorder_run {F : Type u} [Trig F] (n : Nat) (a b : Point F) (run : Path F) (hm : ∀ s ∈ run, s.isMove = false) :
    reorder n (.move a b :: run) = .ok (.move a b :: run) := by
  have h : (splitPathOnMove (.move a b :: run)).length ≤ 1 := splitLoop_run run _ hm
  unfold reorder
  split
  · rfl
  · rfl
  · next first rest hne he =>
    rw [he] at h
    match rest, hne, h with
    | [], hne, _ => exact absurd rfl hne
    | _ :: _, _, h => simp at h

theorem distance_finPt (p q : Point ℝ) : distance (finPt p) (finPt q) = fin (Real.sqrt ((p.x - q.x) * (p.x - q.x) + (p.y - q.y) * (p.y - q.y))) := by
  simp only [distance, finPt, sub_fin, mul_fin, add_fin, sqrt_fin]
  rw [if_neg]
  have h1 := mul_self_nonneg (p.x - q.x)
  have h2 := mul_self_nonneg (p.y - q.y)
  linarith

theorem equalsPrecision_self {n : Int} {p q : Point ℝ} (h : pt p = pt q) : (finPt p).equalsPrecision (finPt q) n = true := by
  simp only [pt, Prod.mk.injEq] at h
  unfold Point.equalsPrecision
  split
  · simp [Point.equals, finPt, h.1, h.2]
  · simp [finPt, h.1, h.2]

theorem setStart_fin (s : Segment ℝ) (p : Point ℝ) : (finSeg s).setStart (finPt p) = finSeg (s.setStart p) := by cases s <;> rfl

theorem strokes_fin (p : Path ℝ) : strokes (finPath p) = (strokes p).map (Stroke.map fun q => (fin q.1, fin q.2)) := by
  induction p with
  | nil => rfl
  | cons s p ih =>
    rw [finPath_cons, strokes_cons, strokes_cons, ih, List.map_append]
    congr 1
    cases s <;> rfl

theorem bare_run {F : Type u} [Arith F] {p : Path F} (h : ∀ s ∈ p, s.isMove = false) : Bare p :=
  ⟨fun s hs => h s (List.mem_of_head? hs), fun s hs => h s (List.mem_of_getLast? hs)⟩

theorem trimMove_run {F : Type u} [Arith F] {p : Path F} (h : ∀ s ∈ p, s.isMove = false) : trimMove p = p := trimMove_of_bare (bare_run h)

theorem newPathWithoutMove_run {F : Type u} [Arith F] {p : Path F} (h : ∀ s ∈ p, s.isMove = false) : newPathWithoutMove p = p :=
  newPathWithoutMove_bare (bare_run h)

/-- With the ends already together, the loop takes the strokes one by one as they are. -/
theorem joinLoop_run (n so : Int) (rest : Path ℝ) : ∀ (p1 : Path ℝ) (fuel : Nat), (∀ s ∈ p1, s.isMove = false) →
    (∀ s ∈ rest, s.isMove = false) → Chained (p1 ++ rest) → rest.length < fuel →
    ∃ r, joinLoop n so fuel (finPath p1) (finPath rest) = some (finPath r) ∧ strokes r = strokes (p1 ++ rest) ∧ ∀ s ∈ r, s.isMove = false := by
  induction rest with
  | nil =>
    intro p1 fuel h1 _ _ hf
    obtain ⟨fuel, rfl⟩ : ∃ f, fuel = f + 1 := ⟨fuel - 1, by omega⟩
    refine ⟨p1, ?_, by simp, h1⟩
    have g1 : newPathWithoutMove (trimMove (finPath p1)) = finPath p1 := by rw [newPathWithoutMove_trim, trimMove_run (finPath_run h1)]
    have g2 : newPathWithoutMove (trimMove (finPath ([] : Path ℝ))) = [] := rfl
    rw [joinLoop]
    simp only [g1, g2]
  | cons s2 rest ih =>
    intro p1 fuel h1 h2 hc hf
    obtain ⟨fuel, rfl⟩ : ∃ f, fuel = f + 1 := ⟨fuel - 1, by omega⟩
    have hs2 := h2 s2 (by simp)
    have hrest : ∀ s ∈ rest, s.isMove = false := fun t ht => h2 t (by simp [ht])
    simp only [List.length_cons, Nat.add_lt_add_iff_right] at hf
    have g1 : newPathWithoutMove (trimMove (finPath p1)) = finPath p1 := by rw [newPathWithoutMove_trim, trimMove_run (finPath_run h1)]
    have g2 : newPathWithoutMove (trimMove (finPath (s2 :: rest))) = finSeg s2 :: finPath rest := by
      rw [newPathWithoutMove_trim, trimMove_run (finPath_run h2)]; rfl
    have g3 := newPathWithoutMove_run (finPath_run hrest)
    rw [joinLoop]
    simp only [g1, g2, g3, getLast_fin]
    match hl : p1.getLast? with
    | none =>
      have e : p1 = [] := by simpa using hl
      subst e
      simp only [Option.map_none]
      obtain ⟨r, e1, e2⟩ := ih [s2] fuel (by simpa using hs2) hrest (by simpa using hc) hf
      refine ⟨r, ?_, by simpa using e2⟩
      have : newPathWithoutMove (finPath [] ++ [finSeg s2]) = finPath [s2] := newPathWithoutMove_run (p := finPath [s2]) (finPath_run (by simpa using hs2))
      rw [this]
      exact e1
    | some s1 =>
      have hchain := chained_iff.1 hc
      have hmeet : pt s1.stop = pt s2.start := by
        rw [List.isChain_append] at hchain
        have := hchain.2.2 s1 hl s2 (by simp)
        exact meets_iff.1 this
      have hs1 := h1 s1 (List.mem_of_getLast? hl)
      have d1 : (startAndEndOf (finPath p1)).2 = finPt s1.stop := by
        rw [stop_of_getLast (s := finSeg s1) (by rw [getLast_fin, hl]; rfl), stop_finSeg]
      obtain ⟨f1, hf1⟩ : ∃ f1, p1.head? = some f1 := by
        match p1, hl with
        | f :: _, _ => exact ⟨f, rfl⟩
      have d2 : firstStart (finPath p1) = finPt f1.start := by simp [firstStart, head_fin, hf1]
      obtain ⟨f2, hf2⟩ : ∃ f2, (s2 :: rest).getLast? = some f2 := ⟨_, List.getLast?_eq_some_getLast (by simp)⟩
      have d3 : (startAndEndOf (finSeg s2 :: finPath rest)).2 = finPt f2.stop := by
        rw [stop_of_getLast (s := finSeg f2) (by rw [← finPath_cons, getLast_fin, hf2]; rfl), stop_finSeg]
      simp only [Option.map_some, d1, d2, d3, start_finSeg, distance_finPt]
      have hz : Real.sqrt ((s1.stop.x - s2.start.x) * (s1.stop.x - s2.start.x) + (s1.stop.y - s2.start.y) * (s1.stop.y - s2.start.y)) = 0 := by
        simp only [pt, Prod.mk.injEq] at hmeet
        rw [hmeet.1, hmeet.2]; simp
      rw [hz]
      rw [if_pos]
      · have he : joinEnds n so (finPath p1) (finSeg s1) (finSeg s2) = finPath (p1 ++ [s2.setStart s1.stop]) := by
          rw [joinEnds, stop_finSeg, start_finSeg, if_pos (equalsPrecision_self hmeet), setStart_fin]
          have : p1 = p1.dropLast ++ [s1] := by
            rw [List.getLast?_eq_some_iff] at hl
            obtain ⟨l, rfl⟩ := hl
            simp
          conv_rhs => rw [this]
          simp [finPath]
        have hm' : ∀ s ∈ p1 ++ [s2.setStart s1.stop], s.isMove = false := by
          intro s hs
          simp only [List.mem_append, List.mem_singleton] at hs
          rcases hs with hs | rfl
          · exact h1 s hs
          · rw [setStart_isMove]; exact hs2
        rw [he, newPathWithoutMove_run (finPath_run hm')]
        have hst : strokeOf (s2.setStart s1.stop) = strokeOf s2 := by
          cases s2 <;> simp_all [strokeOf, Segment.setStart, Segment.start]
        have hc' : Chained (p1 ++ [s2.setStart s1.stop] ++ rest) := by
          rw [chained_iff, List.append_assoc, List.isChain_append]
          rw [List.isChain_append] at hchain
          refine ⟨hchain.1, ?_, ?_⟩
          · have := hchain.2.1
            match rest with
            | [] => simp
            | t :: rest =>
              simp only [List.isChain_cons_cons, List.cons_append, List.nil_append, setStart_stop] at this ⊢
              exact this
          · intro x hx y hy
            simp only [List.cons_append, List.nil_append, List.head?_cons, Option.mem_def, Option.some.injEq] at hy hx
            rw [hl, Option.some.injEq] at hx
            subst hx hy
            left
            cases s2 <;> rfl
        obtain ⟨r, e1, e2, e3⟩ := ih (p1 ++ [s2.setStart s1.stop]) fuel hm' hrest hc' hf
        refine ⟨r, e1, ?_, e3⟩
        rw [e2]
        simp only [strokes_append, strokes_cons, hst, List.append_assoc]
        rfl
      · generalize hA : Real.sqrt _ = A
        have hA0 : 0 ≤ A := hA ▸ Real.sqrt_nonneg _
        generalize hB : Real.sqrt _ = B
        have hB0 : 0 ≤ B := hB ▸ Real.sqrt_nonneg _
        generalize hC : Real.sqrt _ = C
        have hC0 : 0 ≤ C := hC ▸ Real.sqrt_nonneg _
        rw [eqb_iff]
        rcases shortestOf_spec (fin A) (fin B) (fin 0) (fin C) with ⟨h, _⟩ | h
        · cases h
        · refine ⟨?_, h.num⟩
          have hle := h.le_c
          rcases h.mem with e | e | e | e <;> rw [e] at hle ⊢ <;> simp at hle ⊢ <;> linarith

theorem join_run (n : Nat) (so : Int) (close : Bool) (a b : Point ℝ) (run : Path ℝ) (hm : ∀ s ∈ run, s.isMove = false)
    (hc : ConnectedFrom b run) (hr : NoRetrace n (strokes (finPath run))) :
    ∃ r : Path ℝ, join n so close (finPath (.move a b :: run)) = .ok (newPath (if close then closePath so (finPath r) else finPath r)) ∧
      strokes r = strokes run ∧ ∀ s ∈ r, s.isMove = false := by
  obtain ⟨a1, e1⟩ := dedupOnce_run n a b run hm hr
  obtain ⟨a2, e2⟩ := dedupOnce_run n a1 b run hm hr
  obtain ⟨a3, e3⟩ := cleanup_run n a2 b run hm hc
  have e4 : dedup n (finPath (.move a b :: run)) = .ok (finPath (.move a3 b :: run)) := by
    rw [dedup, e1, Res.ok_bind, e2, Res.ok_bind, e3]; rfl
  have e5 : reorder n (finPath (.move a3 b :: run)) = .ok (finPath (.move a3 b :: run)) := reorder_run n _ _ _ (finPath_run hm)
  have e6 : ∀ fuel, joinLoop n so fuel [] (finPath (.move a3 b :: run)) = joinLoop n so fuel [] (finPath run) := by
    intro fuel
    cases fuel with
    | zero => rfl
    | succ fuel =>
      have : trimMove (finPath (.move a3 b :: run)) = trimMove (finPath run) := rfl
      rw [joinLoop, joinLoop, this]
  obtain ⟨r, h1, h2, h3⟩ := joinLoop_run n so run [] (2 * (finPath (.move a3 b :: run)).length + 2) (by simp) hm (by
    match run, hc with
    | [], _ => trivial
    | s :: run, hc => exact hc.2) (by simp [finPath]; omega)
  refine ⟨r, ?_, by rw [h2]; rfl, h3⟩
  rw [join, e4, Res.ok_bind, e5, Res.ok_bind, e6, show ([] : Path (XNum ℝ)) = finPath [] from rfl, h1]
  rfl

/-- **C72.** A finite drawing in one go, in which each stroke starts where the one before it ended and none goes back over the one before
it, is drawn the same after joining without closing. -/
theorem C72_unchanged (n : Nat) (so : Int) (a b : Point ℝ) (run : Path ℝ) (hm : ∀ s ∈ run, s.isMove = false) (hc : ConnectedFrom b run)
    (hr : NoRetrace n (strokes (finPath run))) :
    ∃ r : Path ℝ, join n so false (finPath (.move a b :: run)) = .ok (finPath r) ∧ strokes r = strokes run := by
  obtain ⟨r, h1, h2, _⟩ := join_run n so false a b run hm hc hr
  exact ⟨newPath r, by rw [h1, ← newPath_fin]; rfl, by rw [strokes_newPath, h2]⟩

/-- A square corner. -/
def cornerRun : Path ℝ := [.line ⟨1, 1, 0⟩ ⟨2, 1, 0⟩, .curve ⟨2, 1, 0⟩ ⟨3, 1, 0⟩ ⟨3, 2, 0⟩ ⟨2, 2, 0⟩]

theorem cornerRun_ok : (∀ s ∈ cornerRun, s.isMove = false) ∧ ConnectedFrom ⟨1, 1, 5⟩ cornerRun ∧ NoRetrace 3 (strokes (finPath cornerRun)) := by
  refine ⟨by simp [cornerRun, Segment.isMove], ⟨.inl rfl, .inl rfl, trivial⟩, ?_⟩
  simp only [cornerRun, finPath, List.map_cons, List.map_nil, finSeg, strokes, List.filterMap_cons, strokeOf, List.filterMap_nil, NoRetrace,
    List.isChain_cons_cons, List.isChain_singleton, and_true]
  intro h
  exact h

/-- Not vacuous. -/
example : ∃ r : Path ℝ, join 3 3 false (finPath (.move ⟨0, 0, 0⟩ ⟨1, 1, 5⟩ :: cornerRun)) = .ok (finPath r) ∧ strokes r = strokes cornerRun :=
  C72_unchanged 3 3 _ _ _ cornerRun_ok.1 cornerRun_ok.2.1 cornerRun_ok.2.2

/-- Going back over the stroke before is not drawn any more. -/
theorem C72_retrace_false : ¬ ∀ (n : Nat) (so : Int) (a b : Point ℝ) (run : Path ℝ), (∀ s ∈ run, s.isMove = false) → ConnectedFrom b run →
    ∃ r : Path ℝ, join n so false (finPath (.move a b :: run)) = .ok (finPath r) ∧ strokes r = strokes run := by
  intro h
  obtain ⟨r, h1, h2⟩ := h 3 3 ⟨0, 0, 0⟩ ⟨0, 0, 0⟩ [.line ⟨0, 0, 0⟩ ⟨1, 0, 0⟩, .line ⟨1, 0, 0⟩ ⟨0, 0, 0⟩] (by simp [Segment.isMove])
    ⟨.inl rfl, .inl rfl, trivial⟩
  obtain ⟨a0, e0⟩ := newPath_move (⟨0, 0, 0⟩ : Point ℝ) ⟨0, 0, 0⟩ []
  have e1 : dedupOnce 3 (finPath [.move ⟨0, 0, 0⟩ ⟨0, 0, 0⟩, .line ⟨0, 0, 0⟩ ⟨1, 0, 0⟩, .line ⟨1, 0, 0⟩ ⟨0, 0, 0⟩]) =
      .ok (finPath [.move a0 ⟨0, 0, 0⟩]) := by
    have g1 : dedupStep 3 [finSeg (.move (⟨0, 0, 0⟩ : Point ℝ) ⟨0, 0, 0⟩)] (finSeg (.line ⟨0, 0, 0⟩ ⟨1, 0, 0⟩)) =
        some [finSeg (.line ⟨0, 0, 0⟩ ⟨1, 0, 0⟩), finSeg (.move ⟨0, 0, 0⟩ ⟨0, 0, 0⟩)] := by
      simp [dedupStep, finSeg, Segment.reverse, uniqueString]
    have g2 : dedupStep 3 [finSeg (.line (⟨0, 0, 0⟩ : Point ℝ) ⟨1, 0, 0⟩), finSeg (.move ⟨0, 0, 0⟩ ⟨0, 0, 0⟩)] (finSeg (.line ⟨1, 0, 0⟩ ⟨0, 0, 0⟩)) =
        some [finSeg (.move ⟨0, 0, 0⟩ ⟨0, 0, 0⟩)] := by
      simp [dedupStep, finSeg, Segment.reverse]
    simp only [finPath_cons, dedupOnce, dedupLoop, g1, g2]
    rw [← finPath_cons, ← e0, ← newPath_fin]
    rfl
  obtain ⟨a2, e2⟩ := dedupOnce_run 3 a0 ⟨0, 0, 0⟩ [] (by simp) .nil
  obtain ⟨a3, e3⟩ := cleanup_run (3 : Nat) a2 ⟨0, 0, 0⟩ [] (by simp) trivial
  have e5 : reorder 3 (finPath [.move a3 ⟨0, 0, 0⟩]) = .ok (finPath [.move a3 ⟨0, 0, 0⟩]) := reorder_run 3 _ _ _ (by simp)
  rw [join, dedup, e1, Res.ok_bind, e2, Res.ok_bind, e3, Res.pure_eq, Res.ok_bind, e5, Res.ok_bind] at h1
  have e6 : joinLoop (3 : Nat) 3 (2 * (finPath [.move a3 ⟨0, 0, 0⟩] : Path (XNum ℝ)).length + 2) [] (finPath [.move a3 ⟨0, 0, 0⟩]) = some [] := rfl
  rw [e6] at h1
  have h3 : r = [] := by
    have := (Res.ok.inj h1).symm
    have e7 : (newPath [] : Path (XNum ℝ)) = [] := rfl
    simpa [finPath, e7] using this
  rw [h3] at h2
  simp [strokes, strokeOf] at h2

theorem strokes_run_head {K : Type*} {r : Path K} {s : Segment K} (h : r.head? = some s) (hm : s.isMove = false) :
    ∃ t, strokeOf s = some t ∧ (strokes r).head? = some t ∧ pt s.start = t.first := by
  match r, h with
  | s' :: r, h =>
    simp only [List.head?_cons, Option.some.injEq] at h
    subst h
    cases s' with
    | move a b => simp [Segment.isMove] at hm
    | line a b => exact ⟨_, rfl, rfl, rfl⟩
    | curve a b c d => exact ⟨_, rfl, rfl, rfl⟩

theorem strokes_run_last {K : Type*} [Arith K] {r : Path K} {s : Segment K} (h : r.getLast? = some s) (hm : s.isMove = false) :
    ∃ t, strokeOf s = some t ∧ (strokes r).getLast? = some t ∧ pt s.stop = t.last := by
  obtain ⟨l, rfl⟩ := List.getLast?_eq_some_iff.1 h
  rw [strokes_append]
  cases s with
  | move a b => simp [Segment.isMove] at hm
  | line a b => exact ⟨_, rfl, by simp [strokes, strokeOf], rfl⟩
  | curve a b c d => exact ⟨_, rfl, by simp [strokes, strokeOf], rfl⟩

/-- The two ends of a path of at least two segments after closing. -/
theorem closePath_two {F : Type u} [Trig F] (so : Int) (first last : Segment F) (mid : Path F) :
    closePath so (first :: (mid ++ [last])) =
      (joinSegments so last first).getLast?.getD first :: (mid ++ [(joinSegments so last first).head?.getD last]) := by
  unfold closePath
  have h1 : (first :: (mid ++ [last])).head? = some first := rfl
  have h2 : (first :: (mid ++ [last])).getLast? = some last := by
    rw [← List.cons_append, List.getLast?_append]; simp
  simp only [h1, h2, List.set_cons_zero]
  rw [← List.cons_append, List.dropLast_concat]
  rfl

theorem joinSegments_near {F : Type u} [Trig F] {n : Int} {s1 s2 : Segment F} (h : s1.stop.equalsPrecision s2.start n = true) :
    joinSegments n s1 s2 = [s1, s2.setStart s1.stop] := by
  unfold joinSegments
  rw [if_pos h]

/-- **C72.** A drawing as above that ends where it begins is also unchanged when closing is asked for. -/
theorem C72_closed (n : Nat) (so : Int) (a b : Point ℝ) (run : Path ℝ) (hm : ∀ s ∈ run, s.isMove = false) (hc : ConnectedFrom b run)
    (hr : NoRetrace n (strokes (finPath run))) (hcl : Closed (strokes run)) :
    ∃ r : Path ℝ, join n so true (finPath (.move a b :: run)) = .ok (finPath r) ∧ strokes r = strokes run := by
  obtain ⟨r, h1, h2, h3⟩ := join_run n so true a b run hm hc hr
  simp only [if_true] at h1
  obtain ⟨s, t, hs, ht, hst⟩ := hcl
  rw [← h2] at hs ht
  have key : ∃ q, closePath so (finPath r) = finPath q ∧ strokes q = strokes r := by
    match hr : r, h3 with
    | [], _ => simp [strokes] at hs
    | [x], h3 =>
      have hx := h3 x (by simp)
      obtain ⟨u, hu, hu1, hu2⟩ := strokes_run_head (r := [x]) rfl hx
      obtain ⟨v, hv, hv1, hv2⟩ := strokes_run_last (r := [x]) (s := x) rfl hx
      rw [hs, Option.some.injEq] at hu1
      rw [ht, Option.some.injEq] at hv1
      subst hu1 hv1
      have he : pt x.stop = pt x.start := by rw [hu2, hv2, hst]
      refine ⟨[x], ?_, rfl⟩
      have : joinSegments so (finSeg x) (finSeg x) = [finSeg x, (finSeg x).setStart (finPt x.stop)] := by
        rw [joinSegments_near (by rw [stop_finSeg, start_finSeg]; exact equalsPrecision_self he), stop_finSeg]
      simp only [closePath, finPath, List.map_cons, List.map_nil, List.head?_cons, List.getLast?_singleton, this]
      simp
    | x :: y :: rest, h3 =>
      obtain ⟨mid, z, hz⟩ : ∃ mid z, y :: rest = mid ++ [z] := ⟨_, _, (List.dropLast_append_getLast (by simp)).symm⟩
      rw [hz] at hs ht h3 ⊢
      have hx := h3 x (by simp)
      have hz' := h3 z (by simp)
      obtain ⟨u, hu, hu1, hu2⟩ := strokes_run_head (r := x :: (mid ++ [z])) rfl hx
      obtain ⟨v, hv, hv1, hv2⟩ := strokes_run_last (r := x :: (mid ++ [z])) (by rw [← List.cons_append, List.getLast?_append]; rfl) hz'
      rw [hs, Option.some.injEq] at hu1
      rw [ht, Option.some.injEq] at hv1
      subst hu1 hv1
      have he : pt z.stop = pt x.start := by rw [hu2, hv2, hst]
      have hj : joinSegments so (finSeg z) (finSeg x) = [finSeg z, finSeg (x.setStart z.stop)] := by
        rw [joinSegments_near (by rw [stop_finSeg, start_finSeg]; exact equalsPrecision_self he), stop_finSeg, setStart_fin]
      refine ⟨x.setStart z.stop :: (mid ++ [z]), ?_, ?_⟩
      · have : finPath (x :: (mid ++ [z])) = finSeg x :: (finPath mid ++ [finSeg z]) := by simp [finPath]
        rw [this, closePath_two, hj]
        simp [finPath]
      · have : strokeOf (x.setStart z.stop) = strokeOf x := by
          cases x <;> simp_all [strokeOf, Segment.setStart, Segment.start]
        rw [strokes_cons, strokes_cons, this]
  obtain ⟨q, hq, hq2⟩ := key
  refine ⟨newPath q, by rw [h1, hq, newPath_fin], by rw [strokes_newPath, hq2, h2]⟩

/-- A square, drawn from a corner back to it. -/
def squareRun : Path ℝ :=
  [.line ⟨1, 1, 0⟩ ⟨2, 1, 0⟩, .line ⟨2, 1, 0⟩ ⟨2, 2, 0⟩, .line ⟨2, 2, 0⟩ ⟨1, 2, 0⟩, .line ⟨1, 2, 0⟩ ⟨1, 1, 0⟩]

theorem fmt_one_two : Decimal.fmt 3 (1 : ℝ) ≠ Decimal.fmt 3 (2 : ℝ) := by
  intro e
  have := Decimal.fmt_close e
  norm_num at this

/-- Not vacuous. -/
example : ∃ r : Path ℝ, join 3 3 true (finPath (.move ⟨0, 0, 0⟩ ⟨1, 1, 5⟩ :: squareRun)) = .ok (finPath r) ∧ strokes r = strokes squareRun := by
  refine C72_closed 3 3 _ _ _ (by simp [squareRun, Segment.isMove]) ⟨.inl rfl, .inl rfl, .inl rfl, .inl rfl, trivial⟩ ?_
    ⟨.line (1, 1) (2, 1), .line (1, 2) (1, 1), rfl, rfl, rfl⟩
  have h1 := fmt_one_two
  have h2 := h1.symm
  simp [squareRun, finPath, finSeg, strokes, strokeOf, NoRetrace, PrintsAs, PrintsSame, Stroke.reverse, pt, finPt, h1, h2]

/-! ## C73 Closing closes a drawing of lines, or of curves, at its ends -/

theorem closed_ends {F : Type u} [Arith F] {x y : Segment F} {s t : Stroke F} (mid : Path F) (hx : strokeOf x = some s)
    (hy : strokeOf y = some t) (h : t.last = s.first) : Closed (strokes (x :: (mid ++ [y]))) := by
  refine ⟨s, t, ?_, ?_, h⟩
  · rw [strokes_cons, hx]; rfl
  · rw [← List.cons_append, strokes_append, List.getLast?_append]
    simp [strokes, hy]

/-- **C73.** Closing a drawing of at least two strokes that begins and ends with lines that are not parallel to the precision: afterwards
it begins and ends at the same point. -/
theorem C73_lines (so : Int) (a b c d : Point ℝ) (mid : Path (XNum ℝ))
    (hs : precisionEquals (slope (finPt c) (finPt d)) (slope (finPt a) (finPt b)) so = false)
    (hv : ¬ (isVertical so (finPt c, finPt d) = true ∧ isVertical so (finPt a, finPt b) = true)) :
    Closed (strokes (closePath so (finSeg (.line a b) :: (mid ++ [finSeg (.line c d)])))) := by
  rw [closePath_two]
  by_cases h : (finSeg (.line c d)).stop.equalsPrecision (finSeg (.line a b)).start so = true
  · rw [joinSegments_near h]
    exact closed_ends mid rfl rfl rfl
  · obtain ⟨p, hp⟩ := (C39_found so c d a b).2 ⟨hs, hv⟩
    have e : joinSegments so (finSeg (.line c d)) (finSeg (.line a b)) = [.line (finPt c).clone p.clone, .line p.clone (finPt b)] := by
      unfold joinSegments
      rw [if_neg h]
      simp only [finSeg, joinLines, hp]
    rw [e]
    exact closed_ends mid rfl rfl rfl

/-- **C73.** The same for curves at both ends, of any position. -/
theorem C73_curves {F : Type u} [Trig F] (so : Int) (s c1 c2 e s' c1' c2' e' : Point F) (mid : Path F) :
    Closed (strokes (closePath so (.curve s c1 c2 e :: (mid ++ [.curve s' c1' c2' e'])))) := by
  rw [closePath_two]
  unfold joinSegments
  split
  · exact closed_ends mid rfl rfl rfl
  · exact closed_ends mid rfl rfl rfl

/-- Not vacuous: three sides of a trapezium that is open at its tip, closed there. -/
example : Closed (strokes (closePath 3 (finSeg (.line (⟨0, 0, 0⟩ : Point ℝ) ⟨1, 0, 0⟩) ::
    ([finSeg (.line (⟨1, 0, 0⟩ : Point ℝ) ⟨1, 1, 0⟩)] ++ [finSeg (.line (⟨1, 1, 0⟩ : Point ℝ) ⟨0, 2, 0⟩)])))) := by
  have hd : Decimal.fmt 3 (-1 : ℝ) ≠ Decimal.fmt 3 (0 : ℝ) := by
    intro e
    have := Decimal.fmt_close e
    norm_num at this
  have hd' : Decimal.fmt 3 (1 : ℝ) ≠ Decimal.fmt 3 (0 : ℝ) := by
    intro e
    have := Decimal.fmt_close e
    norm_num at this
  refine C73_lines 3 _ _ _ _ _ ?_ ?_
  · rw [slope_fin (by norm_num), slope_fin (by norm_num)]
    norm_num [precisionEquals]
    exact hd
  · simp [isVertical, precisionEquals, finPt, hd']

/-- Parallel lines at the ends are left apart. -/
theorem C73_parallel_false : ¬ ∀ (so : Int) (a b c d : Point ℝ) (mid : Path (XNum ℝ)), pt a ≠ pt b → pt c ≠ pt d →
    Closed (strokes (closePath so (finSeg (.line a b) :: (mid ++ [finSeg (.line c d)])))) := by
  intro h
  have hp := C39_parallel 3 ⟨2, 1, 0⟩ ⟨0, 1, 0⟩ ⟨0, 0, 0⟩ ⟨1, 0, 0⟩ (by norm_num [pt]) (by norm_num [pt]) (by norm_num)
  have hd : Decimal.fmt 3 (1 : ℝ) ≠ Decimal.fmt 3 (0 : ℝ) := by
    intro e
    have := Decimal.fmt_close e
    norm_num at this
  obtain ⟨s, t, h1, h2, h3⟩ := h 3 ⟨0, 0, 0⟩ ⟨1, 0, 0⟩ ⟨2, 1, 0⟩ ⟨0, 1, 0⟩ [] (by norm_num [pt]) (by norm_num [pt])
  have e : joinSegments 3 (finSeg (.line ⟨2, 1, 0⟩ ⟨0, 1, 0⟩)) (finSeg (.line ⟨0, 0, 0⟩ ⟨1, 0, 0⟩)) =
      ([finSeg (.line ⟨2, 1, 0⟩ ⟨0, 1, 0⟩), finSeg (.line ⟨0, 0, 0⟩ ⟨1, 0, 0⟩)] : Path (XNum ℝ)) := by
    have hq : (finPt ⟨0, 1, 0⟩ : Point (XNum ℝ)).equalsPrecision (finPt ⟨0, 0, 0⟩) 3 = false := by
      simp [Point.equalsPrecision, finPt, hd]
    unfold joinSegments
    simp only [stop_finSeg, start_finSeg]
    simp only [Segment.stop, Segment.start, hq, Bool.false_eq_true, if_false, finSeg, joinLines, hp]
  rw [closePath_two, e] at h1 h2
  simp [strokes, finSeg, strokeOf] at h1 h2
  subst h1 h2
  simp [Stroke.last, Stroke.first, pt, finPt] at h3

/-! ## C74 Joining two strokes keeps their outer ends -/

theorem pt_newPoint_x (x y : XNum ℝ) : pt (newPoint x y) = (x, y) := by
  rw [pt_newPoint']
  simp only [unsignedPt, unsignedZero, Prod.mk.injEq]
  constructor
  · split
    · next h => exact (eqb_iff.1 h).1.symm
    · rfl
  · split
    · next h => exact (eqb_iff.1 h).1.symm
    · rfl

theorem pt_clone_x (p : Point (XNum ℝ)) : pt p.clone = pt p := pt_newPoint_x _ _

/-- Splitting a stroke gives the stroke, or two that begin and end with it and meet. -/
theorem split_ends (seg : Segment (XNum ℝ)) (p : Point (XNum ℝ)) : split seg p = [seg] ∨
    ∃ a b, split seg p = [a, b] ∧ a.isMove = seg.isMove ∧ b.isMove = seg.isMove ∧ pt a.start = pt seg.start ∧ pt a.stop = pt b.start ∧
      pt b.stop = pt seg.stop := by
  unfold split
  split
  · exact .inl rfl
  · match seg with
    | .move s e => exact .inr ⟨_, _, rfl, rfl, rfl, rfl, rfl, rfl⟩
    | .line s e => exact .inr ⟨_, _, rfl, rfl, rfl, rfl, rfl, rfl⟩
    | .curve s c1 c2 e =>
      simp only
      split
      · exact .inl rfl
      · next h =>
        refine .inr ⟨_, _, rfl, rfl, rfl, ?_⟩
        have h0 : (paramOf (bezOf s c1 c2 e) p ==. Arith.zero) = false := by
          by_contra h'
          simp only [Bool.not_eq_false] at h'
          have := (eqb_iff.1 h').1
          apply h
          rw [this]
          simp [precisionEquals]
        have h1 : ((Arith.lit (-1) 0 : XNum ℝ) ==. Arith.one) = false := by
          show decide _ = false
          norm_num
        have h2 : ((Arith.lit (-1) 0 : XNum ℝ) <. Arith.zero) = true := by
          show decide _ = true
          norm_num
        have e1 : Bezier.splitCurve (bezOf s c1 c2 e) (paramOf (bezOf s c1 c2 e) p) = Bezier.halves (bezOf s c1 c2 e) (paramOf (bezOf s c1 c2 e) p) := by
          simp only [Bezier.splitCurve, Bezier.splitSection, h0, h1, h2, Bool.false_eq_true, if_false, if_true, Bezier.splitAt]
        rw [e1]
        simp only [curveOf, Segment.start, Segment.stop, ofBez, pt_newPoint_x, Bezier.halves, bezOf, toBez]
        exact ⟨rfl, trivial, rfl⟩

theorem joinLines_outer (so : Int) (a b c d : Point (XNum ℝ)) : FromTo (strokes (joinLines so (a, b) (c, d))) (pt a) (pt d) := by
  unfold joinLines
  split
  · split <;> exact ⟨rfl, rfl⟩
  · exact ⟨congrArg some (pt_clone_x a), rfl⟩

theorem fromTo_pair {x y : Segment (XNum ℝ)} (hx : x.isMove = false) (hy : y.isMove = false) : FromTo (strokes [x, y]) (pt x.start) (pt y.stop) := by
  cases x <;> cases y <;> first | (cases hx; done) | (cases hy; done) | exact ⟨rfl, rfl⟩

theorem joinLineAndCurve_outer (a b s c1 c2 e : Point (XNum ℝ)) :
    FromTo (strokes (joinLineAndCurve (a, b) s c1 c2 e)) (pt a) (pt e) := by
  unfold joinLineAndCurve
  split
  · exact ⟨rfl, rfl⟩
  · next p rest _ =>
    generalize hb : nearest (a, b).2 (p :: rest) p (distance (a, b).2 p) = q
    rcases split_ends (.curve s c1 c2 e) q with h | ⟨u, v, h, _, hv, _, _, he⟩
    · simp only [h]; exact ⟨rfl, rfl⟩
    · simp only [h]
      rw [show pt e = pt v.stop from he.symm]
      exact fromTo_pair (x := .line a q) rfl hv

theorem joinCurveAndLine_outer (a b s c1 c2 e : Point (XNum ℝ)) :
    FromTo (strokes (joinCurveAndLine s c1 c2 e (a, b))) (pt s) (pt b) := by
  unfold joinCurveAndLine
  split
  · exact ⟨rfl, rfl⟩
  · next p rest _ =>
    generalize hb : nearest e (p :: rest) p (distance e p) = q
    rcases split_ends (.curve s c1 c2 e) q with h | ⟨u, v, h, hu, _, he, _, _⟩
    · simp only [h]; exact ⟨rfl, rfl⟩
    · simp only [h]
      rw [show pt s = pt u.start from he.symm]
      exact fromTo_pair (y := .line q b) hu rfl

/-- **C74.** Whatever the strokes and the precision are, the result of joining them begins where the first one begins and ends where
the second one ends. -/
theorem C74_outer (so : Int) (s1 s2 : Segment (XNum ℝ)) (h1 : s1.isMove = false) (h2 : s2.isMove = false) :
    FromTo (strokes (joinSegments so s1 s2)) (pt s1.start) (pt s2.stop) := by
  by_cases hc : s1.stop.equalsPrecision s2.start so = true
  · rw [joinSegments_near hc]
    have e1 : (s2.setStart s1.stop).isMove = s2.isMove := by cases s2 <;> rfl
    have e2 : (s2.setStart s1.stop).stop = s2.stop := by cases s2 <;> rfl
    rw [← e2]
    exact fromTo_pair h1 (e1.trans h2)
  · unfold joinSegments
    rw [if_neg hc]
    cases s1 with
    | move => cases h1
    | line a b =>
      cases s2 with
      | move => cases h2
      | line c d => exact joinLines_outer so a b c d
      | curve s c1 c2 e => exact joinLineAndCurve_outer a b s c1 c2 e
    | curve s c1 c2 e =>
      cases s2 with
      | move => cases h2
      | line c d => exact joinCurveAndLine_outer c d s c1 c2 e
      | curve s' c1' c2' e' => exact ⟨rfl, rfl⟩

/-- Not vacuous: a line and a curve apart. -/
example : FromTo (strokes (joinSegments 3 (finSeg (.line (⟨0, 0, 0⟩ : Point ℝ) ⟨1, 0, 0⟩)) (finSeg (.curve ⟨2, 1, 0⟩ ⟨2, 2, 0⟩ ⟨3, 3, 0⟩ ⟨4, 3, 0⟩))))
    (.fin 0, .fin 0) (.fin 4, .fin 3) := C74_outer 3 _ _ rfl rfl

/-! ## C75 Joined strokes hang together -/

/-- **C75.** Strokes whose ends agree to the precision. -/
theorem C75_near {F : Type u} [Trig F] {so : Int} {s1 s2 : Segment F} (h1 : s1.isMove = false) (h2 : s2.isMove = false)
    (h : s1.stop.equalsPrecision s2.start so = true) : Unbroken (strokes (joinSegments so s1 s2)) := by
  rw [joinSegments_near h]
  cases s1 <;> cases s2 <;> first | (cases h1; done) | (cases h2; done) | exact List.isChain_pair.2 rfl

/-- **C75.** Lines that are not parallel to the precision: they are cut or drawn out to the point where they cross. -/
theorem C75_lines (so : Int) (a b c d : Point ℝ)
    (hs : precisionEquals (slope (finPt a) (finPt b)) (slope (finPt c) (finPt d)) so = false)
    (hv : ¬ (isVertical so (finPt a, finPt b) = true ∧ isVertical so (finPt c, finPt d) = true)) :
    Unbroken (strokes (joinSegments so (finSeg (.line a b)) (finSeg (.line c d)))) := by
  by_cases h : (finSeg (.line a b)).stop.equalsPrecision (finSeg (.line c d)).start so = true
  · exact C75_near rfl rfl h
  · obtain ⟨p, hp⟩ := (C39_found so a b c d).2 ⟨hs, hv⟩
    have e : joinSegments so (finSeg (.line a b)) (finSeg (.line c d)) = [.line (finPt a).clone p.clone, .line p.clone (finPt d)] := by
      unfold joinSegments
      rw [if_neg h]
      simp only [finSeg, joinLines, hp]
    rw [e]
    exact List.isChain_pair.2 rfl

/-- **C75.** Curves. -/
theorem C75_curves {F : Type u} [Trig F] (so : Int) (s c1 c2 e s' c1' c2' e' : Point F) :
    Unbroken (strokes (joinSegments so (.curve s c1 c2 e) (.curve s' c1' c2' e'))) := by
  by_cases h : (Segment.curve s c1 c2 e).stop.equalsPrecision (Segment.curve s' c1' c2' e').start so = true
  · exact C75_near rfl rfl h
  · unfold joinSegments
    rw [if_neg h]
    exact List.isChain_pair.2 rfl

/-- **C75.** A line and a curve that the line, drawn out, does not meet: a line between them is added. -/
theorem C75_line_curve {F : Type u} [Trig F] (so : Int) (a b s c1 c2 e : Point F)
    (h : curveProjectedPoints s c1 c2 e (a, b) = []) :
    Unbroken (strokes (joinSegments so (.line a b) (.curve s c1 c2 e))) ∧
      Unbroken (strokes (joinSegments so (.curve s c1 c2 e) (.line a b))) := by
  constructor
  · by_cases hn : (Segment.line a b).stop.equalsPrecision (Segment.curve s c1 c2 e).start so = true
    · exact C75_near rfl rfl hn
    · unfold joinSegments
      rw [if_neg hn]
      simp only [joinLineAndCurve, h]
      exact List.isChain_cons_cons.2 ⟨rfl, List.isChain_pair.2 rfl⟩
  · by_cases hn : (Segment.curve s c1 c2 e).stop.equalsPrecision (Segment.line a b).start so = true
    · exact C75_near rfl rfl hn
    · unfold joinSegments
      rw [if_neg hn]
      simp only [joinCurveAndLine, h]
      exact List.isChain_cons_cons.2 ⟨rfl, List.isChain_pair.2 rfl⟩

/-- Not vacuous: two lines with a gap that cross when drawn out. -/
example : Unbroken (strokes (joinSegments 3 (finSeg (.line (⟨0, 0, 0⟩ : Point ℝ) ⟨1, 0, 0⟩)) (finSeg (.line ⟨2, 1, 0⟩ ⟨3, 2, 0⟩)))) := by
  have hd : Decimal.fmt 3 (0 : ℝ) ≠ Decimal.fmt 3 (1 : ℝ) := by
    intro e
    have := Decimal.fmt_close e
    norm_num at this
  refine C75_lines 3 _ _ _ _ ?_ ?_
  · rw [slope_fin (by norm_num), slope_fin (by norm_num)]
    norm_num [precisionEquals]
    exact hd
  · simp [isVertical, precisionEquals, finPt, hd]

/-- Parallel lines with a gap between them stay apart. -/
theorem C75_parallel_false : ¬ ∀ (so : Int) (s1 s2 : Segment (XNum ℝ)), s1.isMove = false → s2.isMove = false →
    Unbroken (strokes (joinSegments so s1 s2)) := by
  intro h
  have hp := C39_parallel 3 ⟨2, 1, 0⟩ ⟨0, 1, 0⟩ ⟨0, 0, 0⟩ ⟨1, 0, 0⟩ (by norm_num [pt]) (by norm_num [pt]) (by norm_num)
  have hd : Decimal.fmt 3 (1 : ℝ) ≠ Decimal.fmt 3 (0 : ℝ) := by
    intro e
    have := Decimal.fmt_close e
    norm_num at this
  have h := h 3 (finSeg (.line ⟨2, 1, 0⟩ ⟨0, 1, 0⟩)) (finSeg (.line ⟨0, 0, 0⟩ ⟨1, 0, 0⟩)) rfl rfl
  have e : joinSegments 3 (finSeg (.line ⟨2, 1, 0⟩ ⟨0, 1, 0⟩)) (finSeg (.line ⟨0, 0, 0⟩ ⟨1, 0, 0⟩)) =
      ([finSeg (.line ⟨2, 1, 0⟩ ⟨0, 1, 0⟩), finSeg (.line ⟨0, 0, 0⟩ ⟨1, 0, 0⟩)] : Path (XNum ℝ)) := by
    have hq : (finPt ⟨0, 1, 0⟩ : Point (XNum ℝ)).equalsPrecision (finPt ⟨0, 0, 0⟩) 3 = false := by
      simp [Point.equalsPrecision, finPt, hd]
    unfold joinSegments
    simp only [stop_finSeg, start_finSeg]
    simp only [Segment.stop, Segment.start, hq, Bool.false_eq_true, if_false, finSeg, joinLines, hp]
  rw [e] at h
  have h := List.isChain_pair.1 h
  simp [Stroke.last, Stroke.first, pt, finPt] at h

end Verif.Path
