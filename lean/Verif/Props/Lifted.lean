import Verif.Props.Join
import Verif.Lemmas.Faithful

/-!
# Joining a drawing in which the pen is lifted (C152)

C72 is about a path with one move, at its beginning. A path that a program of commands draws has many: every group of commands begins
with its own. Joining still leaves the strokes alone if each begins where the one before it ended, however many moves there are between
them and wherever those go in the meantime.
-/

set_option linter.unusedSectionVars false

namespace Verif.Path

open Verif Verif.Spec XNum

/-- The strokes of a path as segments: the path without its moves. -/
def unlifted {F : Type*} (p : Path F) : Path F := p.filter fun s => !s.isMove

theorem unlifted_solid {F : Type*} (p : Path F) : ∀ s ∈ unlifted p, s.isMove = false := by
  intro s hs
  simpa using (List.mem_filter.1 hs).2

theorem unlifted_move {F : Type*} {s : Segment F} (hs : s.isMove = true) (p : Path F) : unlifted (s :: p) = unlifted p := by
  simp [unlifted, hs]

theorem unlifted_stroke {F : Type*} {s : Segment F} (hs : s.isMove = false) (p : Path F) : unlifted (s :: p) = s :: unlifted p := by
  simp [unlifted, hs]

theorem strokes_unlifted {F : Type*} [Arith F] (p : Path F) : strokes (unlifted p) = strokes p := by
  induction p with
  | nil => rfl
  | cons s p ih =>
    by_cases hs : s.isMove = true
    · rw [unlifted_move hs, ih, strokes_cons]
      cases s <;> first | rfl | simp [Segment.isMove] at hs
    · rw [unlifted_stroke (by simpa using hs), strokes_cons, strokes_cons, ih]

theorem strokes_fin_unlifted (p : Path ℝ) : strokes (finPath (unlifted p)) = strokes (finPath p) := by
  rw [strokes_fin, strokes_fin, strokes_unlifted]

/-- Every move ends where the last stroke ended. -/
def Tidy (cur : Pt ℝ) : Path ℝ → Prop
  | [] => True
  | .move _ b :: rest => pt b = cur ∧ Tidy cur rest
  | .line _ b :: rest => Tidy (pt b) rest
  | .curve _ _ _ b :: rest => Tidy (pt b) rest

theorem tidy_stroke {s : Segment ℝ} (hs : s.isMove = false) {cur : Pt ℝ} {q : Path ℝ} (h : Tidy (pt s.stop) q) : Tidy cur (s :: q) := by
  cases s <;> first | exact h | simp [Segment.isMove] at hs

theorem tidy_of_stroke {s : Segment ℝ} (hs : s.isMove = false) {cur : Pt ℝ} {q : Path ℝ} (h : Tidy cur (s :: q)) : Tidy (pt s.stop) q := by
  cases s <;> first | exact h | simp [Segment.isMove] at hs

theorem inked_of_stroke {s : Segment ℝ} (hs : s.isMove = false) {cur : Option (Pt ℝ)} {q : Path ℝ} (h : Inked cur (s :: q)) :
    cur = some (pt s.start) ∧ Inked (some (pt s.stop)) q := by
  cases s <;> first | exact h | simp [Segment.isMove] at hs

/-- The segment is kept if the stroke before it is not the same one backwards. -/
theorem dedupStep_stroke (n : Nat) (acc : List (Segment (XNum ℝ))) {s t : Segment ℝ} (hs : s.isMove = false) (ht : t.isMove = false)
    (rest : Path ℝ) (hr : NoRetrace n (strokes (finPath (s :: t :: rest)))) :
    dedupStep n (finSeg s :: acc) (finSeg t) = some (finSeg t :: finSeg s :: acc) := by
  have := dedupLoop_run n [t] acc s (by simpa using ht) (.inr ?_) (by simp [hs])
  · simp only [finPath_cons, dedupLoop] at this
    revert this
    cases dedupStep n (finSeg s :: acc) (finSeg t) with
    | none => simp
    | some l =>
      simp only [finPath, List.map_nil, dedupLoop, Option.some.injEq]
      intro e
      have := congrArg List.reverse e
      simpa using this
  · have e : s :: t :: rest = [s, t] ++ rest := rfl
    rw [e, finPath_append, strokes_append] at hr
    exact (List.isChain_append.1 hr).1

theorem dedupStep_lifted (n : Nat) (acc : List (Segment (XNum ℝ))) (a b : Point ℝ) {t : Segment ℝ} (ht : t.isMove = false) :
    dedupStep n (finSeg (.move a b) :: acc) (finSeg t) = some (finSeg t :: finSeg (.move a b) :: acc) := by
  have e : dedupStep n (finSeg (.move a b) :: acc) (finSeg t) =
      if uniqueString n (finSeg t) = uniqueString n (finSeg (.move a b)).reverse then some acc else some (finSeg t :: finSeg (.move a b) :: acc) := by
    cases t <;> simp_all [dedupStep, Segment.isMove, finSeg]
  rw [e, if_neg (uniqueString_move n (by simpa using ht) (by simp [finSeg, Segment.isMove, Segment.reverse]))]

theorem dedupStep_moves (n : Nat) (acc : List (Segment (XNum ℝ))) (a b a' b' : Point ℝ) :
    dedupStep n (finSeg (.move a b) :: acc) (finSeg (.move a' b')) = some (finSeg (.move a b') :: acc) := rfl

theorem dedupStep_lift (n : Nat) (acc : List (Segment (XNum ℝ))) {s : Segment ℝ} (hs : s.isMove = false) (a b : Point ℝ) :
    dedupStep n (finSeg s :: acc) (finSeg (.move a b)) =
      if (finPt s.stop).stringPrecision n = (finPt b).stringPrecision n then some (finSeg s :: acc)
      else some (finSeg (.move a b) :: finSeg s :: acc) := by
  cases s <;> first | rfl | simp [Segment.isMove] at hs

theorem noRetrace_tail {n : Nat} {s : Segment ℝ} {p : Path ℝ} (h : NoRetrace n (strokes (finPath (s :: p)))) : NoRetrace n (strokes (finPath p)) := by
  rw [finPath_cons, strokes_cons] at h
  exact (List.isChain_append.1 h).2.1

theorem noRetrace_lift {n : Nat} {s : Segment ℝ} {a b : Point ℝ} {p : Path ℝ} (h : NoRetrace n (strokes (finPath (s :: .move a b :: p)))) :
    NoRetrace n (strokes (finPath (s :: p))) := by
  simpa [finPath_cons, strokes_cons, finSeg, strokeOf] using h

theorem unbroken_tail {s : Segment ℝ} {p : Path ℝ} (h : Unbroken (strokes (s :: p))) : Unbroken (strokes p) := by
  rw [strokes_cons] at h
  exact (List.isChain_append.1 h).2.1

theorem unbroken_lift {s : Segment ℝ} {a b : Point ℝ} {p : Path ℝ} (h : Unbroken (strokes (s :: .move a b :: p))) : Unbroken (strokes (s :: p)) := by
  simpa [strokes_cons, strokeOf] using h

theorem unbroken_meet {s t : Segment ℝ} (hs : s.isMove = false) (ht : t.isMove = false) {p : Path ℝ} (h : Unbroken (strokes (s :: t :: p))) :
    pt s.stop = pt t.start := by
  cases s <;> cases t <;>
    simp_all [Segment.isMove, strokes, strokeOf, Unbroken, Stroke.first, Stroke.last, Segment.start, Segment.stop]

/-- What is in hand: the last stroke, and the move after it if there is one. -/
def inHand (s : Segment ℝ) (older : List (Segment (XNum ℝ))) : Option (Point ℝ × Point ℝ) → List (Segment (XNum ℝ))
  | none => finSeg s :: older
  | some m => finSeg (.move m.1 m.2) :: finSeg s :: older

/-- The first pass: the strokes stay, and of the moves between two of them at most one, which goes nowhere. -/
theorem dedup_first (n : Nat) : ∀ (rest : Path ℝ) (older : List (Segment (XNum ℝ))) (s : Segment ℝ) (m : Option (Point ℝ × Point ℝ)) (pen : Pt ℝ),
    s.isMove = false → Inked (some pen) rest → (∀ x, m = some x → pen = pt x.2 ∧ rest ≠ []) → (∀ t, rest.getLast? = some t → t.isMove = false) →
    Unbroken (strokes (s :: rest)) → NoRetrace n (strokes (finPath (s :: rest))) →
    ∃ q : Path ℝ, dedupLoop n (inHand s older m) (finPath rest) = some ((finSeg s :: older).reverse ++ finPath q) ∧
      unlifted q = unlifted rest ∧ Tidy (pt s.stop) q := by
  intro rest
  induction rest with
  | nil =>
    intro older s m pen hs _ hm _ _ _
    match m, hm with
    | none, _ => exact ⟨[], by simp [inHand, finPath, dedupLoop], rfl, trivial⟩
    | some x, hm => exact absurd rfl (hm x rfl).2
  | cons t r ih =>
    intro older s m pen hs hi hm hl hu hr
    have hl' : ∀ x, r.getLast? = some x → x.isMove = false := by
      intro x hx
      refine hl x ?_
      rw [List.getLast?_cons, hx]; rfl
    by_cases ht : t.isMove = false
    · have hmeet := unbroken_meet hs ht hu
      obtain ⟨h1, h2⟩ := inked_of_stroke ht hi
      match m, hm with
      | none, _ =>
        obtain ⟨q, e1, e2, e3⟩ := ih (finSeg s :: older) t none (pt t.stop) ht h2 (by simp) hl' (unbroken_tail hu) (noRetrace_tail hr)
        refine ⟨t :: q, ?_, by rw [unlifted_stroke ht, unlifted_stroke ht, e2], tidy_stroke ht e3⟩
        rw [finPath_cons, dedupLoop, inHand, dedupStep_stroke n older hs ht r hr]
        simp only
        rw [inHand] at e1
        rw [e1]; simp [finPath]
      | some (a, e), hm =>
        obtain ⟨hp, -⟩ := hm _ rfl
        obtain ⟨q, e1, e2, e3⟩ := ih (finSeg (.move a e) :: finSeg s :: older) t none (pt t.stop) ht h2 (by simp) hl' (unbroken_tail hu) (noRetrace_tail hr)
        refine ⟨.move a e :: t :: q, ?_, by rw [unlifted_move rfl, unlifted_stroke ht, unlifted_stroke ht, e2], ?_, tidy_stroke ht e3⟩
        · rw [finPath_cons, dedupLoop, inHand, dedupStep_lifted n _ a e ht]
          simp only
          rw [inHand] at e1
          rw [e1]; simp [finPath]
        · simp only [Option.some.injEq] at h1
          rw [hmeet, ← h1, hp]
    · obtain ⟨a', e', rfl⟩ : ∃ a' e', t = .move a' e' := by
        cases t <;> first | exact ⟨_, _, rfl⟩ | simp [Segment.isMove] at ht
      have hne : r ≠ [] := by
        rintro rfl
        exact ht (hl _ rfl)
      have hi' : Inked (some (pt e')) r := hi
      have hu' := unbroken_lift hu
      have hr' := noRetrace_lift hr
      match m, hm with
      | none, _ =>
        by_cases hp : (finPt s.stop).stringPrecision n = (finPt e').stringPrecision n
        · obtain ⟨q, e1, e2, e3⟩ := ih older s none (pt e') hs hi' (by simp) hl' hu' hr'
          refine ⟨q, ?_, by rw [unlifted_move rfl, e2], e3⟩
          rw [finPath_cons, dedupLoop, inHand, dedupStep_lift n _ hs, if_pos hp]
          exact e1
        · obtain ⟨q, e1, e2, e3⟩ := ih older s (some (a', e')) (pt e') hs hi' (by rintro _ ⟨⟩; exact ⟨rfl, hne⟩) hl' hu' hr'
          refine ⟨q, ?_, by rw [unlifted_move rfl, e2], e3⟩
          rw [finPath_cons, dedupLoop, inHand, dedupStep_lift n _ hs, if_neg hp]
          exact e1
      | some (a, e), _ =>
        obtain ⟨q, e1, e2, e3⟩ := ih older s (some (a, e')) (pt e') hs hi' (by rintro _ ⟨⟩; exact ⟨rfl, hne⟩) hl' hu' hr'
        refine ⟨q, ?_, by rw [unlifted_move rfl, e2], e3⟩
        rw [finPath_cons, dedupLoop, inHand, dedupStep_moves]
        exact e1

/-- The second pass takes the moves that go nowhere away. -/
theorem dedup_second (n : Nat) : ∀ (q : Path ℝ) (older : List (Segment (XNum ℝ))) (s : Segment ℝ), s.isMove = false → Tidy (pt s.stop) q →
    NoRetrace n (strokes (finPath (s :: q))) →
    dedupLoop n (finSeg s :: older) (finPath q) = some ((finSeg s :: older).reverse ++ finPath (unlifted q)) := by
  intro q
  induction q with
  | nil => intro older s _ _ _; simp [finPath, dedupLoop, unlifted]
  | cons t q ih =>
    intro older s hs ht hr
    by_cases hm : t.isMove = false
    · rw [finPath_cons, dedupLoop, dedupStep_stroke n older hs hm q hr]
      simp only
      rw [ih _ t hm (tidy_of_stroke hm ht) (noRetrace_tail hr)]
      simp [unlifted, hm, finPath]
    · obtain ⟨a, e, rfl⟩ : ∃ a e, t = .move a e := by
        cases t <;> first | exact ⟨_, _, rfl⟩ | simp [Segment.isMove] at hm
      obtain ⟨h1, h2⟩ := ht
      have hp : (finPt s.stop).stringPrecision n = (finPt e).stringPrecision n := by
        simp only [pt, Prod.mk.injEq] at h1
        simp [Point.stringPrecision, finPt, h1.1, h1.2]
      rw [finPath_cons, dedupLoop, dedupStep_lift n _ hs, if_pos hp]
      simp only
      rw [ih _ s hs h2 (noRetrace_lift hr)]
      simp [unlifted, Segment.isMove]

/-- The moves before the first stroke become one. -/
theorem dedup_lead (n : Nat) : ∀ (rest : Path ℝ) (a b : Point ℝ), rest ≠ [] → Inked (some (pt b)) rest →
    (∀ t, rest.getLast? = some t → t.isMove = false) → Unbroken (strokes rest) → NoRetrace n (strokes (finPath rest)) →
    ∃ (b' : Point ℝ) (t : Segment ℝ) (q : Path ℝ), dedupLoop n [finSeg (.move a b)] (finPath rest) = some (finPath (.move a b' :: t :: q)) ∧
      t.isMove = false ∧ pt b' = pt t.start ∧ t :: unlifted q = unlifted rest ∧ Tidy (pt t.stop) q := by
  intro rest
  induction rest with
  | nil => intro a b h; exact absurd rfl h
  | cons t r ih =>
    intro a b _ hi hl hu hr
    have hl' : ∀ x, r.getLast? = some x → x.isMove = false := by
      intro x hx
      refine hl x ?_
      rw [List.getLast?_cons, hx]; rfl
    by_cases ht : t.isMove = false
    · obtain ⟨h1, h2⟩ := inked_of_stroke ht hi
      obtain ⟨q, e1, e2, e3⟩ := dedup_first n r [finSeg (.move a b)] t none (pt t.stop) ht h2 (by simp) hl' hu hr
      refine ⟨b, t, q, ?_, ht, by simpa using h1, by rw [e2]; simp [unlifted, ht], e3⟩
      rw [finPath_cons, dedupLoop, dedupStep_lifted n _ a b ht]
      simp only
      rw [inHand] at e1
      rw [e1]; simp [finPath]
    · obtain ⟨a', e', rfl⟩ : ∃ a' e', t = .move a' e' := by
        cases t <;> first | exact ⟨_, _, rfl⟩ | simp [Segment.isMove] at ht
      have hne : r ≠ [] := by
        rintro rfl
        exact ht (hl _ rfl)
      obtain ⟨b', t, q, e1, e2, e3, e4, e5⟩ := ih a e' hne hi hl' (unbroken_tail hu) (noRetrace_tail hr)
      refine ⟨b', t, q, ?_, e2, e3, by rw [e4]; simp [unlifted, Segment.isMove], e5⟩
      rw [finPath_cons, dedupLoop, dedupStep_moves]
      exact e1

theorem connected_of_unbroken : ∀ (run : Path ℝ) (b : Point ℝ), (∀ s ∈ run, s.isMove = false) → Unbroken (strokes run) →
    (∀ s, run.head? = some s → pt b = pt s.start) → ConnectedFrom b run := by
  intro run
  induction run with
  | nil => intros; trivial
  | cons s run ih =>
    intro b hm hu hb
    refine ⟨.inl (hb s rfl), ih _ (fun t ht => hm t (by simp [ht])) (unbroken_tail hu) ?_⟩
    intro t ht
    match run, ht with
    | t :: run, rfl => exact unbroken_meet (hm s (by simp)) (hm t (by simp)) hu

/-- What `dedup` makes of a drawing with the pen lifted: one move and the strokes. -/
theorem dedup_lifted (n : Nat) (a b : Point ℝ) (rest : Path ℝ) (hne : rest ≠ []) (hi : Inked (some (pt b)) rest)
    (hl : ∀ t, rest.getLast? = some t → t.isMove = false) (hu : Unbroken (strokes rest)) (hr : NoRetrace n (strokes (finPath rest))) :
    ∃ a' b' : Point ℝ, dedup n (finPath (.move a b :: rest)) = .ok (finPath (.move a' b' :: unlifted rest)) ∧ ConnectedFrom b' (unlifted rest) := by
  obtain ⟨b', t, q, e1, e2, e3, e4, e5⟩ := dedup_lead n rest a b hne hi hl hu hr
  have hst : strokes (t :: q) = strokes rest := by
    rw [← strokes_unlifted rest, ← e4, ← strokes_unlifted (t :: q)]
    simp [unlifted, e2]
  have hrq : NoRetrace n (strokes (finPath (t :: q))) := by rw [strokes_fin, hst, ← strokes_fin]; exact hr
  obtain ⟨a1, f1⟩ := newPath_move a b' (t :: q)
  have g1 : dedupOnce n (finPath (.move a b :: rest)) = .ok (finPath (.move a1 b' :: t :: q)) := by
    rw [← f1, ← newPath_fin]
    match rest, hne with
    | x :: rest, _ =>
      simp only [finPath_cons, dedupOnce] at e1 ⊢
      rw [e1]
  obtain ⟨a2, f2⟩ := newPath_move a1 b' (unlifted rest)
  have g2 : dedupOnce n (finPath (.move a1 b' :: t :: q)) = .ok (finPath (.move a2 b' :: unlifted rest)) := by
    rw [← f2, ← newPath_fin, ← e4]
    have := dedup_second n q [finSeg (.move a1 b')] t e2 e5 hrq
    simp only [finPath_cons, dedupOnce, dedupLoop, dedupStep_lifted n [] a1 b' e2] at this ⊢
    rw [this]
    simp [finPath]
  have hc : ConnectedFrom b' (unlifted rest) := by
    refine connected_of_unbroken _ _ (unlifted_solid _) (by rw [strokes_unlifted]; exact hu) ?_
    rw [← e4]
    rintro s ⟨⟩
    exact e3
  obtain ⟨a3, f3⟩ := cleanup_run n a2 b' (unlifted rest) (unlifted_solid _) hc
  refine ⟨a3, b', ?_, hc⟩
  simp only [dedup, g1, g2, bind, Res.bind, pure, f3]

/-- Two paths of which `dedup` makes the same strokes are joined to the same. -/
theorem join_of_dedup (n : Nat) (so : Int) (close : Bool) {x y : Path (XNum ℝ)} {a1 a2 b1 b2 : Point ℝ} {run : Path ℝ}
    (hm : ∀ s ∈ run, s.isMove = false) (hx : dedup n x = .ok (finPath (.move a1 b1 :: run))) (hy : dedup n y = .ok (finPath (.move a2 b2 :: run))) :
    join n so close x = join n so close y := by
  have e5 : ∀ a b : Point ℝ, reorder n (finPath (.move a b :: run)) = .ok (finPath (.move a b :: run)) :=
    fun a b => reorder_run n _ _ _ (finPath_run hm)
  have e6 : ∀ (a b : Point ℝ) fuel, joinLoop n so fuel [] (finPath (.move a b :: run)) = joinLoop n so fuel [] (finPath run) := by
    intro a b fuel
    cases fuel with
    | zero => rfl
    | succ fuel =>
      have : trimMove (finPath (.move a b :: run)) = trimMove (finPath run) := rfl
      rw [joinLoop, joinLoop, this]
  have e7 : ∀ a b : Point ℝ, (finPath (.move a b :: run)).length = run.length + 1 := fun a b => by simp [finPath]
  rw [join, hx, join, hy]
  simp only [Res.ok_bind, e5, e6, e7]

/-- Joining a drawing with the pen lifted is joining its strokes drawn in one go. -/
theorem join_lifted (n : Nat) (so : Int) (close : Bool) (a b : Point ℝ) (rest : Path ℝ) (hne : rest ≠ []) (hi : Inked (some (pt b)) rest)
    (hl : ∀ t, rest.getLast? = some t → t.isMove = false) (hu : Unbroken (strokes rest)) (hr : NoRetrace n (strokes (finPath rest))) :
    ∃ b' : Point ℝ, ConnectedFrom b' (unlifted rest) ∧
      join n so close (finPath (.move a b :: rest)) = join n so close (finPath (.move a b' :: unlifted rest)) := by
  obtain ⟨a1, b', h1, h2⟩ := dedup_lifted n a b rest hne hi hl hu hr
  have hr' : NoRetrace n (strokes (finPath (unlifted rest))) := by rw [strokes_fin_unlifted]; exact hr
  obtain ⟨a2, e1⟩ := dedupOnce_run n a b' _ (unlifted_solid rest) hr'
  obtain ⟨a3, e2⟩ := dedupOnce_run n a2 b' _ (unlifted_solid rest) hr'
  obtain ⟨a4, e3⟩ := cleanup_run n a3 b' _ (unlifted_solid rest) h2
  refine ⟨b', h2, join_of_dedup n so close (unlifted_solid rest) h1 (a2 := a4) (b2 := b') ?_⟩
  rw [dedup, e1, Res.ok_bind, e2, Res.ok_bind, e3]; rfl

theorem inked_of_svgStrokes : ∀ (p : Path ℝ) (c : Pt ℝ), svgStrokes c p = strokes p → Inked (some c) p := by
  intro p
  induction p with
  | nil => intro c _; trivial
  | cons s p ih =>
    intro c h
    cases s with
    | move a b => exact ih _ h
    | line a b =>
      simp only [svgStrokes, strokes_cons, strokeOf, Option.toList_some, List.cons_append, List.nil_append, List.cons.injEq, Stroke.line.injEq] at h
      exact ⟨by rw [h.1.1], ih _ h.2⟩
    | curve a c1 c2 b =>
      simp only [svgStrokes, strokes_cons, strokeOf, Option.toList_some, List.cons_append, List.nil_append, List.cons.injEq, Stroke.curve.injEq] at h
      exact ⟨by rw [h.1.1], ih _ h.2⟩

/-- A path that is read as it is drawn, wherever the reader's pen is, begins with a move. -/
theorem readAsDrawn_inked {p : Path ℝ} (hne : p ≠ []) (h : ReadAsDrawn p) : ∃ a b rest, p = .move a b :: rest ∧ Inked (some (pt b)) rest := by
  match p, hne with
  | s :: rest, _ =>
    cases hs : s.isMove with
    | false =>
      have h1 := (inked_of_stroke hs (inked_of_svgStrokes _ _ (h (0, 0)))).1
      have h2 := (inked_of_stroke hs (inked_of_svgStrokes _ _ (h (1, 0)))).1
      rw [← h1] at h2
      simp at h2
    | true =>
      obtain ⟨a, b, rfl⟩ : ∃ a b, s = .move a b := by
        cases s <;> first | exact ⟨_, _, rfl⟩ | simp [Segment.isMove] at hs
      exact ⟨a, b, rest, rfl, inked_of_svgStrokes _ _ (h (0, 0))⟩

/-! ## The last segment -/

section Last

variable {F : Type*} [Trig F]

/-- The path ends with a stroke. -/
def EndsInk (p : Path F) : Prop := ∃ s, p.getLast? = some s ∧ s.isMove = false

theorem endsInk_append (p : Path F) {q : Path F} (h : EndsInk q) : EndsInk (p ++ q) := by
  obtain ⟨s, h1, h2⟩ := h
  exact ⟨s, by rw [List.getLast?_append, h1]; rfl, h2⟩

theorem endsInk_cons {s : Segment F} {q : Path F} (h : EndsInk q) : EndsInk (s :: q) := endsInk_append [s] h

theorem endsInk_tail {s : Segment F} {q : Path F} (hs : s.isMove = true) (h : EndsInk (s :: q)) : EndsInk q := by
  obtain ⟨t, h1, h2⟩ := h
  cases q with
  | nil =>
    simp only [List.getLast?_singleton, Option.some.injEq] at h1
    rw [← h1, hs] at h2
    cases h2
  | cons x q => exact ⟨t, by rw [List.getLast?_cons_cons] at h1; exact h1, h2⟩

theorem endsInk_map {f : Segment F → Segment F} (hf : ∀ s, (f s).isMove = s.isMove) {q : Path F} (h : EndsInk q) : EndsInk (q.map f) := by
  obtain ⟨s, h1, h2⟩ := h
  exact ⟨f s, by rw [List.getLast?_map, h1]; rfl, by rw [hf]; exact h2⟩

theorem endsInk_newPath {p : Path F} (h : EndsInk p) : EndsInk (newPath p) := by
  have hf : ∀ q : Path F, EndsInk q → EndsInk (fixHeadMove q) := by
    intro q hq
    match q, hq with
    | [], hq => exact hq
    | .move a b :: q, hq =>
      simp only [fixHeadMove]
      have := endsInk_tail rfl hq
      split <;> exact endsInk_cons this
    | .line a b :: q, hq => exact hq
    | .curve a c d b :: q, hq => exact hq
  refine hf _ ?_
  match p, h with
  | [], h => exact h
  | s :: p, h =>
    simp only [headMove]
    split
    · exact h
    · exact endsInk_cons h

end Last

/-! ## C152 Joining leaves an unbroken drawing alone, though the pen is lifted -/

/-- **C152.** A finite drawing that is read as it is drawn, ends with a stroke, and in which each stroke starts where the one before it
ended and none goes back over the one before it, is drawn the same after joining without closing, whatever moves are between its strokes; it is still read as it is drawn,
and still ends with a stroke. -/
theorem C152_unchanged (n : Nat) (so : Int) (p : Path ℝ) (hd : ReadAsDrawn p) (hl : ∃ s, p.getLast? = some s ∧ s.isMove = false)
    (hu : Unbroken (strokes p)) (hr : NoRetrace n (strokes (finPath p))) :
    ∃ r : Path ℝ, join n so false (finPath p) = .ok (finPath r) ∧ strokes r = strokes p ∧ ReadAsDrawn r ∧ EndsInk r := by
  obtain ⟨l, hl1, hl2⟩ := hl
  obtain ⟨a, b, rest, rfl, hi⟩ := readAsDrawn_inked (by rintro rfl; simp at hl1) hd
  have hne : rest ≠ [] := by
    rintro rfl
    simp only [List.getLast?_singleton, Option.some.injEq] at hl1
    rw [← hl1] at hl2
    cases hl2
  have hl' : ∀ t, rest.getLast? = some t → t.isMove = false := by
    intro t ht
    rw [List.getLast?_cons, ht] at hl1
    simp only [Option.getD_some, Option.some.injEq] at hl1
    rw [hl1]; exact hl2
  have hu' := unbroken_tail hu
  have hr' := noRetrace_tail hr
  obtain ⟨b', h1, h2⟩ := join_lifted n so false a b rest hne hi hl' hu' hr'
  obtain ⟨r, h3, h4, h5⟩ := join_run n so false a b' (unlifted rest) (unlifted_solid _) h1 (by rw [strokes_fin_unlifted]; exact hr')
  have h6 : strokes r = strokes rest := by rw [h4, strokes_unlifted]
  refine ⟨newPath r, by rw [h2, h3, ← newPath_fin]; rfl, by rw [strokes_newPath, h6]; rfl, ?_, ?_⟩
  rotate_left
  · apply endsInk_newPath
    cases e : r.getLast? with
    | none =>
      rw [List.getLast?_eq_none_iff.1 e] at h6
      obtain ⟨t, h7⟩ : ∃ t, rest.getLast? = some t := Option.ne_none_iff_exists'.1 fun h => hne (List.getLast?_eq_none_iff.1 h)
      have h8 := hl' t h7
      have h9 : t ∈ unlifted rest := List.mem_filter.2 ⟨List.mem_of_getLast? h7, by rw [h8]; rfl⟩
      have h10 := strokes_unlifted rest
      rw [← h6] at h10
      revert h10 h9
      cases hu : unlifted rest with
      | nil => simp
      | cons x xs =>
        have := unlifted_solid rest x (by rw [hu]; simp)
        intro _ h
        cases x <;> simp [strokes, strokeOf, Segment.isMove] at h this
    | some t => exact ⟨t, e, h5 t (List.mem_of_getLast? e)⟩
  refine (inked_newPath (cur := (r.head?.map fun s => pt s.start).or (some (0, 0))) ?_).faithful
  match r, h5, h6 with
  | [], _, _ => trivial
  | s :: r, h5, h6 =>
    exact inked_of_connected (fun a b h => by simpa using h) (connected_of_unbroken (s :: r) s.start h5 (by rw [h6]; exact hu') (by rintro t ⟨⟩; rfl))

/-- **C152.** If it ends where it begins, it is also drawn the same after joining with closing. -/
theorem C152_closed (n : Nat) (so : Int) (p : Path ℝ) (hd : ReadAsDrawn p) (hl : ∃ s, p.getLast? = some s ∧ s.isMove = false)
    (hu : Unbroken (strokes p)) (hr : NoRetrace n (strokes (finPath p))) (hcl : Closed (strokes p)) :
    ∃ r : Path ℝ, join n so true (finPath p) = .ok (finPath r) ∧ strokes r = strokes p := by
  obtain ⟨l, hl1, hl2⟩ := hl
  obtain ⟨a, b, rest, rfl, hi⟩ := readAsDrawn_inked (by rintro rfl; simp at hl1) hd
  have hne : rest ≠ [] := by
    rintro rfl
    simp only [List.getLast?_singleton, Option.some.injEq] at hl1
    rw [← hl1] at hl2
    cases hl2
  have hl' : ∀ t, rest.getLast? = some t → t.isMove = false := by
    intro t ht
    rw [List.getLast?_cons, ht] at hl1
    simp only [Option.getD_some, Option.some.injEq] at hl1
    rw [hl1]; exact hl2
  have hu' := unbroken_tail hu
  have hr' := noRetrace_tail hr
  obtain ⟨b', h1, h2⟩ := join_lifted n so true a b rest hne hi hl' hu' hr'
  obtain ⟨r, h3, h4⟩ := C72_closed n so a b' (unlifted rest) (unlifted_solid _) h1 (by rw [strokes_fin_unlifted]; exact hr')
    (by rw [strokes_unlifted]; exact hcl)
  exact ⟨r, by rw [h2, h3], by rw [h4, strokes_unlifted]; rfl⟩

end Verif.Path
