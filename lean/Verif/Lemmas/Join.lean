import Verif.Lemmas.Parts

/-!
# Lemmas about the join transform
-/

namespace Verif.Path

open Verif Spec XNum

universe u

set_option linter.unusedSectionVars false

/-! ### The shortest of four distances -/

section Shortest

variable {K : Type u} [Field K] [LinearOrder K]

theorem lt_def (a b : XNum K) : (a <. b) = XNum.lt a b := rfl
theorem eq_def' (a b : XNum K) : (a ==. b) = XNum.eq a b := rfl

theorem lt_trichotomy' {a b : XNum K} (ha : a ≠ nan) (hb : b ≠ nan) (h1 : (a <. b) = false) (h2 : (b <. a) = false) : a = b := by
  rw [lt_def] at h1 h2
  cases a <;> cases b <;> simp_all [XNum.lt]
  exact le_antisymm h2 h1

theorem not_lt_trans {a b c : XNum K} (h1 : (a <. b) = false) (h2 : (c <. b) = true) : (a <. c) = false := by
  rw [lt_def] at h1 h2 ⊢
  cases a <;> cases b <;> cases c <;> simp_all [XNum.lt]
  exact le_of_lt (lt_of_lt_of_le h2 h1)

theorem lt_num {a b : XNum K} (h : (a <. b) = true) : a ≠ nan ∧ b ≠ nan := by
  rw [lt_def] at h
  cases a <;> cases b <;> simp_all [XNum.lt]

theorem lt_self (a : XNum K) : (a <. a) = false := by
  rw [lt_def]
  cases a <;> simp [XNum.lt]

theorem eqb_iff {a b : XNum K} : (a ==. b) = true ↔ a = b ∧ a ≠ nan := by
  rw [eq_def']
  cases a <;> cases b <;> simp [XNum.eq]

theorem nan_eqb (a : XNum K) : ((nan : XNum K) ==. a) = false := by
  rw [eq_def']
  cases a <;> simp [XNum.eq]

theorem lt_nan (a : XNum K) : (a <. nan) = false := by
  rw [lt_def]
  cases a <;> simp [XNum.lt]

/-- One comparison of `shortestOf`. -/
theorem pick (m x : XNum K) : let r := if (x <. m) = true then x else m
    (r = x ∨ r = m) ∧ (m ≠ nan → r ≠ nan) ∧ (m = nan → r = nan) ∧ (x <. r) = false ∧ ∀ y : XNum K, (y <. m) = false → (y <. r) = false := by
  simp only
  split
  · rename_i h
    exact ⟨.inl rfl, fun _ => (lt_num h).1, fun e => absurd e (lt_num h).2, lt_self x, fun y hy => not_lt_trans hy h⟩
  · rename_i h
    exact ⟨.inr rfl, id, id, by simpa using h, fun y hy => hy⟩

end Shortest

section ShortestOf

/-- What `shortestOf` finds when its first argument is a number: a number among the four that none of the four is below. -/
structure IsShortest (m a b c d : XNum ℝ) : Prop where
  mem : m = a ∨ m = b ∨ m = c ∨ m = d
  num : m ≠ nan
  le_a : (a <. m) = false
  le_b : (b <. m) = false
  le_c : (c <. m) = false
  le_d : (d <. m) = false

theorem shortestOf_spec (a b c d : XNum ℝ) : (a = nan ∧ shortestOf a b c d = nan) ∨ IsShortest (shortestOf a b c d) a b c d := by
  unfold shortestOf
  simp only
  obtain ⟨m1, n1, z1, l1, t1⟩ := pick a b
  generalize (if (b <. a) = true then b else a) = r1 at *
  obtain ⟨m2, n2, z2, l2, t2⟩ := pick r1 c
  generalize (if (c <. r1) = true then c else r1) = r2 at *
  obtain ⟨m3, n3, z3, l3, t3⟩ := pick r2 d
  generalize (if (d <. r2) = true then d else r2) = r3 at *
  by_cases h : a = nan
  · exact .inl ⟨h, z3 (z2 (z1 h))⟩
  · refine .inr ⟨?_, n3 (n2 (n1 h)), t3 _ (t2 _ (t1 _ (lt_self a))), t3 _ (t2 _ l1), t3 _ l2, l3⟩
    rcases m3 with e | e
    · exact .inr (.inr (.inr e))
    · rcases m2 with e' | e'
      · exact .inr (.inr (.inl (e.trans e')))
      · rcases m1 with e'' | e''
        · exact .inr (.inl (e.trans (e'.trans e'')))
        · exact .inl (e.trans (e'.trans e''))

theorem IsShortest.unique {m m' a b c d a' b' c' d' : XNum ℝ} (h : IsShortest m a b c d) (h' : IsShortest m' a' b' c' d')
    (hs : ∀ x, (x = a ∨ x = b ∨ x = c ∨ x = d) ↔ (x = a' ∨ x = b' ∨ x = c' ∨ x = d')) : m = m' := by
  refine lt_trichotomy' h.num h'.num ?_ ?_
  · rcases (hs m).1 h.mem with e | e | e | e <;> rw [e]
    exacts [h'.le_a, h'.le_b, h'.le_c, h'.le_d]
  · rcases (hs m').2 h'.mem with e | e | e | e <;> rw [e]
    exacts [h.le_a, h.le_b, h.le_c, h.le_d]

/-- When the shortest of four distances is the number `x`, the shortest of them in another order is `x` or not a number. -/
theorem shortestOf_again {a b c d a' b' c' d' x : XNum ℝ}
    (hs : ∀ x, (x = a ∨ x = b ∨ x = c ∨ x = d) ↔ (x = a' ∨ x = b' ∨ x = c' ∨ x = d'))
    (h : (shortestOf a b c d ==. x) = true) : shortestOf a' b' c' d' = nan ∨ (shortestOf a' b' c' d' ==. x) = true := by
  rw [eqb_iff] at h
  obtain ⟨h1, h2⟩ := h
  rcases shortestOf_spec a b c d with ⟨_, e⟩ | e
  · exact absurd e h2
  · rcases shortestOf_spec a' b' c' d' with ⟨_, e'⟩ | e'
    · exact .inl e'
    · right
      rw [eqb_iff, ← e.unique e' hs]
      exact ⟨h1, h2⟩

end ShortestOf

/-! ### Reversing -/

section Reversing

variable {F : Type u} [Arith F]

/-- The number of strokes. -/
def strokeCount {F : Type u} (p : Path F) : Nat := p.countP fun s => !s.isMove

/-- What `addSegment` adds to a path that is not empty. -/
theorem addSegment_cons {p : Path F} (hp : p ≠ []) (s : Segment F) :
    ∃ t, addSegment p s = p ++ [t] ∧ t.isMove = s.isMove ∧ t.stop = s.stop := by
  unfold addSegment
  have : p.isEmpty = false := by simpa using hp
  simp only [this, Bool.false_and]
  refine ⟨_, rfl, ?_, ?_⟩
  · simp only [Bool.false_eq_true, if_false]
    split
    · rfl
    · exact setStart_isMove _ _
  · simp only [Bool.false_eq_true, if_false]
    split
    · rfl
    · exact setStart_stop _ _

theorem addSegments_shape (segs : List (Segment F)) : ∀ p : Path F, p ≠ [] →
    ∃ l, addSegments p segs = p ++ l ∧ List.Forall₂ (fun t s => t.isMove = s.isMove ∧ t.stop = s.stop) l segs := by
  induction segs with
  | nil => intro p _; exact ⟨[], by simp [addSegments], .nil⟩
  | cons s segs ih =>
    intro p hp
    obtain ⟨t, h1, h2⟩ := addSegment_cons hp s
    obtain ⟨l, h3, h4⟩ := ih (p ++ [t]) (by simp)
    refine ⟨t :: l, ?_, .cons h2 h4⟩
    rw [addSegments, List.foldl_cons, h1]
    rw [addSegments] at h3
    rw [h3]
    simp

theorem forall₂_countP {l l' : List (Segment F)} (h : List.Forall₂ (fun t s : Segment F => t.isMove = s.isMove ∧ t.stop = s.stop) l l') :
    strokeCount l = strokeCount l' := by
  induction h with
  | nil => rfl
  | cons h _ ih => simp only [strokeCount, List.countP_cons, h.1] at *; rw [ih]

theorem forall₂_getLast {l l' : List (Segment F)} (h : List.Forall₂ (fun t s : Segment F => t.isMove = s.isMove ∧ t.stop = s.stop) l l') :
    ∀ s, l'.getLast? = some s → ∃ t, l.getLast? = some t ∧ t.isMove = s.isMove ∧ t.stop = s.stop := by
  induction h with
  | nil => simp
  | @cons a b l l' h hl ih =>
    intro s hs
    match l', l, hl with
    | [], _, .nil =>
      simp only [List.getLast?_singleton, Option.some.injEq] at hs
      subst hs
      exact ⟨a, by simp, h⟩
    | b' :: l', a' :: l, hl =>
      rw [List.getLast?_cons_cons] at hs ⊢
      exact ih s hs

/-- A path that neither begins nor ends with a move, as the join transform has them after trimming. -/
def Bare (p : Path F) : Prop := (∀ s, p.head? = some s → s.isMove = false) ∧ ∀ s, p.getLast? = some s → s.isMove = false

theorem trimTailMove_bare {p : Path F} (h : ∀ s, p.getLast? = some s → s.isMove = false) : trimTailMove p = p := by
  unfold trimTailMove
  match hr : p.reverse with
  | [] => simpa using hr
  | s :: l =>
    have : p.getLast? = some s := by rw [← List.head?_reverse, hr]; rfl
    rw [List.dropWhile_cons_of_neg (by rw [h s this]; simp), ← hr, List.reverse_reverse]

theorem trimMove_bare (p : Path F) : Bare (trimMove p) := by
  induction p with
  | nil => exact ⟨by simp [trimMove], by simp [trimMove]⟩
  | cons s p ih =>
    rw [trimMove]
    split
    · exact ih
    · rename_i hs
      refine ⟨?_, trimTailMove_last _⟩
      intro t ht
      obtain ⟨l, hl, _⟩ := trimTailMove_prefix (s :: p)
      match hq : trimTailMove (s :: p), ht with
      | t' :: q, ht =>
        rw [hq] at hl
        simp only [List.head?_cons, Option.some.injEq] at ht
        simp only [List.cons_append, List.cons.injEq] at hl
        rw [← ht, ← hl.1]
        simpa using hs

theorem trimMove_of_bare {p : Path F} (h : Bare p) : trimMove p = p := by
  match p, h with
  | [], _ => rfl
  | s :: p, h =>
    rw [trimMove, h.1 s rfl]
    exact trimTailMove_bare h.2

theorem newPathWithoutMove_bare {p : Path F} (h : Bare p) : newPathWithoutMove p = p := by
  match p, h with
  | [], _ => rfl
  | .line _ _ :: _, _ => rfl
  | .curve _ _ _ _ :: _, _ => rfl
  | .move a b :: _, h => exact absurd (h.1 _ rfl) (by simp [Segment.isMove])

/-- Reversing a bare path and trimming the move at its head: the ends are exchanged and no stroke is lost. -/
theorem reverse_bare {p : Path F} (h : Bare p) {first last : Segment F} (hf : p.head? = some first) (hl : p.getLast? = some last) :
    ∃ r, trimMove (reversePath p) = r ∧ Bare r ∧ strokeCount r = strokeCount p ∧
      (∃ s, r.head? = some s ∧ s.start = last.stop) ∧ (∃ s, r.getLast? = some s ∧ s.stop = first.start) ∧
      ((∀ s ∈ p, s.isMove = false) → ∀ s ∈ r, s.isMove = false) := by
  have hne : p ≠ [] := by rintro rfl; simp at hf
  have hrev : ∃ l, p.reverse.map Segment.reverse = last.reverse :: l := by
    match hr : p.reverse with
    | [] => simp only [List.reverse_eq_nil_iff] at hr; exact absurd hr hne
    | s :: l =>
      have : p.getLast? = some s := by rw [← List.head?_reverse, hr]; rfl
      rw [hl, Option.some.injEq] at this
      exact ⟨l.map Segment.reverse, by rw [this]; rfl⟩
  obtain ⟨l, hrev⟩ := hrev
  have hlm : last.isMove = false := h.2 last hl
  have hcount : strokeCount (p.reverse.map Segment.reverse) = strokeCount p := by
    simp only [strokeCount, List.countP_map, List.countP_reverse]
    congr 1
    funext s
    simp
  have hlast : (p.reverse.map Segment.reverse).getLast? = some first.reverse := by
    rw [List.getLast?_map, List.getLast?_reverse, hf]; rfl
  -- the head move and the first segment
  have e1 : addSegment [] last.reverse = [.move origin last.stop, if (last.stop : Point F).equals last.stop then last.reverse else last.reverse.setStart last.stop] := by
    have hm : last.reverse.isMove = false := by rw [reverse_isMove, hlm]
    simp only [addSegment, hm, List.isEmpty_nil, Bool.not_false, Bool.and_self, if_true, currentPosition, List.getLast?_singleton,
      Segment.stop.eq_1, reverse_start, List.cons_append, List.nil_append]
  have e2 : (if (last.stop : Point F).equals last.stop then last.reverse else last.reverse.setStart last.stop) = last.reverse := by
    split
    · rfl
    · cases last <;> rfl
  rw [e2] at e1
  obtain ⟨l', h3, h4⟩ := addSegments_shape l [.move origin last.stop, last.reverse] (by simp)
  have e3 : reversePath p = .move origin last.stop :: last.reverse :: l' := by
    rw [reversePath, hrev, addSegments, List.foldl_cons, e1, ← addSegments, h3]
    rfl
  have hall : List.Forall₂ (fun t s : Segment F => t.isMove = s.isMove ∧ t.stop = s.stop) (last.reverse :: l') (p.reverse.map Segment.reverse) := by
    rw [hrev]; exact .cons ⟨rfl, rfl⟩ h4
  obtain ⟨t, ht, ht1, ht2⟩ := forall₂_getLast hall _ hlast
  have hb : Bare (last.reverse :: l') := by
    constructor
    · intro s hs
      simp only [List.head?_cons, Option.some.injEq] at hs
      rw [← hs, reverse_isMove, hlm]
    · intro s hs
      rw [ht, Option.some.injEq] at hs
      rw [← hs, ht1, reverse_isMove]
      exact h.1 first hf
  refine ⟨last.reverse :: l', ?_, hb, ?_, ⟨_, rfl, by simp⟩, ⟨t, ht, by rw [ht2]; simp⟩, ?_⟩
  · rw [e3, trimMove, if_pos (by rfl), trimMove_of_bare hb]
  · rw [forall₂_countP hall, hcount]
  · intro hp s hs
    have : strokeCount (last.reverse :: l') = (last.reverse :: l').length := by
      rw [forall₂_countP hall, hcount, hall.length_eq, strokeCount, List.countP_eq_length.2 (fun s hs => by simp [hp s hs])]
      simp
    simpa using List.countP_eq_length.1 this s hs

end Reversing

/-! ### The loop -/

section Loop

variable {n so : Int}

/-- The strokes that are left when a stroke has been taken from the head. -/
theorem strokeCount_trim {F : Type u} [Arith F] (p : Path F) : strokeCount (newPathWithoutMove (trimMove p)) = strokeCount p := by
  have h0 : ∀ q : Path F, strokeCount q = (strokes q).length := by
    intro q
    induction q with
    | nil => rfl
    | cons s q ih =>
      rw [strokes_cons, List.length_append, ← ih]
      cases s <;> simp [strokeCount, strokeOf, Segment.isMove, Nat.add_comm]
  rw [newPathWithoutMove_trim, h0, h0, trimMove_strokes]

theorem strokeCount_newPathWithoutMove {F : Type u} [Arith F] (p : Path F) : strokeCount (newPathWithoutMove p) = strokeCount p := by
  unfold newPathWithoutMove fixHeadMove
  split
  · split <;> rfl
  · rfl

/-- No moves, except at the ends. -/
def Solid {F : Type u} [Arith F] (p : Path F) : Prop := ∀ s ∈ trimMove p, s.isMove = false

theorem solid_of_all {F : Type u} [Arith F] {p : Path F} (h : ∀ s ∈ p, s.isMove = false) : Solid (newPathWithoutMove p) ∧ Solid p := by
  have hb : Bare p := ⟨fun s hs => h s (List.mem_of_head? hs), fun s hs => h s (List.mem_of_getLast? hs)⟩
  have : Solid p := by
    intro s hs
    rw [trimMove_of_bare hb] at hs
    exact h s hs
  exact ⟨by rw [newPathWithoutMove_bare hb]; exact this, this⟩

theorem split_curve_solid {F : Type u} [Trig F] (s c1 c2 e p : Point F) : ∀ t ∈ split (.curve s c1 c2 e) p, t.isMove = false := by
  intro t ht
  unfold split at ht
  split at ht
  · simp only [List.mem_singleton] at ht
    subst ht; rfl
  · simp only at ht
    split at ht
    · simp only [List.mem_singleton] at ht
      subst ht; rfl
    · simp only [List.mem_cons, List.not_mem_nil, or_false] at ht
      rcases ht with rfl | rfl <;> rfl

theorem joinSegments_solid {F : Type u} [Trig F] (so : Int) (s1 s2 : Segment F) (h1 : s1.isMove = false) (h2 : s2.isMove = false) :
    ∀ s ∈ joinSegments so s1 s2, s.isMove = false := by
  intro s hs
  unfold joinSegments at hs
  split at hs
  · simp only [List.mem_cons, List.not_mem_nil, or_false] at hs
    rcases hs with rfl | rfl
    · exact h1
    · rw [setStart_isMove]; exact h2
  · match s1, s2 with
    | .move _ _, _ => simp [Segment.isMove] at h1
    | .line _ _, .move _ _ => simp [Segment.isMove] at h2
    | .curve _ _ _ _, .move _ _ => simp [Segment.isMove] at h2
    | .line a b, .line c d =>
      simp only [joinLines] at hs
      split at hs
      · split at hs <;> simp only [List.mem_cons, List.not_mem_nil, or_false] at hs
        · subst hs; rfl
        · rcases hs with rfl | rfl <;> rfl
      · simp only [List.mem_cons, List.not_mem_nil, or_false] at hs
        rcases hs with rfl | rfl <;> rfl
    | .line a b, .curve s' c1 c2 e =>
      simp only [joinLineAndCurve] at hs
      split at hs
      · simp only [List.mem_cons, List.not_mem_nil, or_false] at hs
        rcases hs with rfl | rfl | rfl <;> rfl
      · rename_i p rest _
        have hc := split_curve_solid s' c1 c2 e (nearest b (p :: rest) p (distance b p))
        split at hs
        · rename_i x y he
          simp only [List.mem_cons, List.not_mem_nil, or_false] at hs
          rcases hs with rfl | rfl
          · rfl
          · exact hc _ (by rw [he]; simp)
        · rename_i x y he
          simp only [List.mem_cons, List.not_mem_nil, or_false] at hs
          rcases hs with rfl | rfl
          · rfl
          · exact hc _ (by rw [he]; simp)
        · simp at hs
    | .curve s' c1 c2 e, .line a b =>
      simp only [joinCurveAndLine] at hs
      split at hs
      · simp only [List.mem_cons, List.not_mem_nil, or_false] at hs
        rcases hs with rfl | rfl | rfl <;> rfl
      · rename_i p rest _
        have hc := split_curve_solid s' c1 c2 e (nearest e (p :: rest) p (distance e p))
        split at hs
        · rename_i x y he
          simp only [List.mem_cons, List.not_mem_nil, or_false] at hs
          rcases hs with rfl | rfl
          · exact hc _ (by rw [he]; simp)
          · rfl
        · simp at hs
    | .curve _ _ _ _, .curve _ _ _ _ =>
      simp only [joinCurves, List.mem_cons, List.not_mem_nil, or_false] at hs
      rcases hs with rfl | rfl <;> rfl

theorem joinEnds_solid {F : Type u} [Trig F] (n so : Int) {p1 : Path F} (h : ∀ s ∈ p1, s.isMove = false) (s1 s2 : Segment F)
    (h1 : s1.isMove = false) (h2 : s2.isMove = false) : ∀ s ∈ joinEnds n so p1 s1 s2, s.isMove = false := by
  intro s hs
  unfold joinEnds at hs
  rw [List.mem_append] at hs
  rcases hs with hs | hs
  · exact h s (List.dropLast_subset _ hs)
  · split at hs
    · simp only [List.mem_cons, List.not_mem_nil, or_false] at hs
      rcases hs with rfl | rfl
      · exact h1
      · rw [setStart_isMove]; exact h2
    · exact joinSegments_solid so s1 s2 h1 h2 s hs

/-- One call takes a stroke from the second path and joins it to the first. -/
def Takes (n so : Int) (fuel : Nat) (pth1 pth2 : Path (XNum ℝ)) : Prop :=
  ∃ x y, joinLoop n so (fuel + 1) pth1 pth2 = joinLoop n so fuel x y ∧ strokeCount y + 1 = strokeCount pth2 ∧ (Solid pth1 → Solid x)

theorem stop_of_getLast {F : Type u} [Trig F] {p : Path F} {s : Segment F} (h : p.getLast? = some s) : (startAndEndOf p).2 = s.stop := by
  match p, h with
  | a :: p, h =>
    simp only [startAndEndOf, startAndEnd, Option.getD_some]
    rw [List.getLast?_eq_some_getLast (by simp), Option.some.injEq] at h
    rw [h]

/-- The choice of the join transform, from the trimmed paths. -/
theorem joinLoop_cases (fuel : Nat) (pth1 pth2 : Path (XNum ℝ)) :
    (trimMove pth2 = [] ∧ joinLoop n so (fuel + 1) pth1 pth2 = some (trimMove pth1)) ∨
    Takes n so fuel pth1 pth2 ∨
    ∃ s1 s2 f1 f2, (trimMove pth1).head? = some f1 ∧ (trimMove pth1).getLast? = some s1 ∧
      (trimMove pth2).head? = some s2 ∧ (trimMove pth2).getLast? = some f2 ∧
      ∃ m, m = shortestOf (distance f1.start s2.start) (distance f1.start f2.stop) (distance s1.stop s2.start) (distance s1.stop f2.stop) ∧
        (((m ==. distance s1.stop f2.stop) = true ∧
            joinLoop n so (fuel + 1) pth1 pth2 = joinLoop n so fuel (trimMove pth1) (reversePath (trimMove pth2))) ∨
         ((m ==. distance f1.start s2.start) = true ∧
            joinLoop n so (fuel + 1) pth1 pth2 = joinLoop n so fuel (reversePath (trimMove pth1)) (trimMove pth2)) ∨
         ((m ==. distance f1.start f2.stop) = true ∧
            joinLoop n so (fuel + 1) pth1 pth2 = joinLoop n so fuel (reversePath (trimMove pth1)) (reversePath (trimMove pth2)))) := by
  have b1 := trimMove_bare pth1
  have b2 := trimMove_bare pth2
  have c2 := strokeCount_trim pth2
  rw [newPathWithoutMove_trim] at c2
  match h2 : trimMove pth2 with
  | [] =>
    refine .inl ⟨rfl, ?_⟩
    rw [joinLoop]
    simp only [newPathWithoutMove_trim]
    rw [h2]
  | s2 :: rest2 =>
    right
    rw [h2] at b2 c2
    have hs2 : s2.isMove = false := b2.1 s2 rfl
    have hc : strokeCount (newPathWithoutMove rest2) + 1 = strokeCount pth2 := by
      rw [strokeCount_newPathWithoutMove, ← c2]
      simp [strokeCount, hs2]
    have hloop : joinLoop n so (fuel + 1) pth1 pth2 = joinLoop n so (fuel + 1) pth1 pth2 := rfl
    conv_lhs at hloop => rw [joinLoop]
    simp only [newPathWithoutMove_trim] at hloop
    rw [h2] at hloop
    simp only at hloop
    match h1 : (trimMove pth1).getLast? with
    | none =>
      left
      have e1 : trimMove pth1 = [] := by simpa using h1
      simp only [h1] at hloop
      refine ⟨_, _, hloop.symm, hc, ?_⟩
      intro _
      apply (solid_of_all _).1
      intro s hs
      rw [e1, List.nil_append, List.mem_singleton] at hs
      rw [hs, hs2]
    | some s1 =>
      simp only [h1] at hloop
      have hs1 : s1.isMove = false := b1.2 s1 h1
      have hj : Solid pth1 → Solid (newPathWithoutMove (joinEnds n so (trimMove pth1) s1 s2)) :=
        fun hp => (solid_of_all (joinEnds_solid n so hp s1 s2 hs1 hs2)).1
      obtain ⟨f1, hf1⟩ : ∃ f1, (trimMove pth1).head? = some f1 := by
        match ht : trimMove pth1 with
        | [] => rw [ht] at h1; simp at h1
        | f :: _ => exact ⟨f, rfl⟩
      obtain ⟨f2, hf2⟩ : ∃ f2, (s2 :: rest2).getLast? = some f2 := ⟨_, List.getLast?_eq_some_getLast (by simp)⟩
      have d1 : firstStart (trimMove pth1) = f1.start := by simp [firstStart, hf1]
      have d2 := stop_of_getLast h1
      have d3 := stop_of_getLast hf2
      rw [d1, d2, d3] at hloop
      by_cases he : (shortestOf (distance f1.start s2.start) (distance f1.start f2.stop) (distance s1.stop s2.start) (distance s1.stop f2.stop) ==.
          distance s1.stop s2.start) = true
      · rw [if_pos he] at hloop
        exact .inl ⟨_, _, hloop.symm, hc, hj⟩
      · rw [if_neg he] at hloop
        by_cases h3 : (shortestOf (distance f1.start s2.start) (distance f1.start f2.stop) (distance s1.stop s2.start) (distance s1.stop f2.stop) ==.
            distance s1.stop f2.stop) = true
        · rw [if_pos h3] at hloop
          exact .inr ⟨s1, s2, f1, f2, hf1, rfl, rfl, hf2, _, rfl, .inl ⟨h3, hloop.symm⟩⟩
        · rw [if_neg h3] at hloop
          by_cases h4 : (shortestOf (distance f1.start s2.start) (distance f1.start f2.stop) (distance s1.stop s2.start) (distance s1.stop f2.stop) ==.
              distance f1.start s2.start) = true
          · rw [if_pos h4] at hloop
            exact .inr ⟨s1, s2, f1, f2, hf1, rfl, rfl, hf2, _, rfl, .inr (.inl ⟨h4, hloop.symm⟩)⟩
          · rw [if_neg h4] at hloop
            by_cases h5 : (shortestOf (distance f1.start s2.start) (distance f1.start f2.stop) (distance s1.stop s2.start) (distance s1.stop f2.stop) ==.
                distance f1.start f2.stop) = true
            · rw [if_pos h5] at hloop
              exact .inr ⟨s1, s2, f1, f2, hf1, rfl, rfl, hf2, _, rfl, .inr (.inr ⟨h5, hloop.symm⟩)⟩
            · rw [if_neg h5] at hloop
              exact .inl ⟨_, _, hloop.symm, hc, hj⟩

/-- After the ends have been exchanged as chosen, the next call takes a stroke. -/
theorem takes_of_again (fuel : Nat) (pth1 pth2 : Path (XNum ℝ)) {s1 s2 f1 f2 : Segment (XNum ℝ)}
    (h1 : (trimMove pth1).head? = some f1) (h2 : (trimMove pth1).getLast? = some s1)
    (h3 : (trimMove pth2).head? = some s2) (h4 : (trimMove pth2).getLast? = some f2)
    (h : ∀ m, m = shortestOf (distance f1.start s2.start) (distance f1.start f2.stop) (distance s1.stop s2.start) (distance s1.stop f2.stop) →
      m = nan ∨ (m ==. distance s1.stop s2.start) = true) : Takes n so fuel pth1 pth2 := by
  have b1 := trimMove_bare pth1
  have b2 := trimMove_bare pth2
  have c2 := strokeCount_trim pth2
  rw [newPathWithoutMove_trim] at c2
  match e2 : trimMove pth2, h3 with
  | s2' :: rest2, h3 =>
    simp only [List.head?_cons, Option.some.injEq] at h3
    subst h3
    rw [e2] at b2 c2 h4
    have hs2 : s2'.isMove = false := b2.1 s2' rfl
    have hs1 : s1.isMove = false := b1.2 s1 h2
    have hc : strokeCount (newPathWithoutMove rest2) + 1 = strokeCount pth2 := by
      rw [strokeCount_newPathWithoutMove, ← c2]
      simp [strokeCount, hs2]
    have hj : Solid pth1 → Solid (newPathWithoutMove (joinEnds n so (trimMove pth1) s1 s2')) :=
      fun hp => (solid_of_all (joinEnds_solid n so hp s1 s2' hs1 hs2)).1
    refine ⟨newPathWithoutMove (joinEnds n so (trimMove pth1) s1 s2'), newPathWithoutMove rest2, ?_, hc, hj⟩
    rw [joinLoop]
    simp only [newPathWithoutMove_trim]
    rw [e2]
    simp only [h2]
    have d1 : firstStart (trimMove pth1) = f1.start := by simp [firstStart, h1]
    rw [d1, stop_of_getLast h2, stop_of_getLast h4]
    rcases h _ rfl with e | e
    · rw [e]
      simp only [nan_eqb, Bool.false_eq_true, if_false]
    · rw [if_pos e]

/-- The recursion of the join transform: it ends, and its result has no moves when the first path has none. -/
theorem joinLoop_spec (k : Nat) : ∀ (fuel : Nat) (pth1 pth2 : Path (XNum ℝ)), strokeCount pth2 ≤ k → 2 * k + 1 ≤ fuel →
    ∃ r, joinLoop n so fuel pth1 pth2 = some r ∧ (Solid pth1 → ∀ s ∈ r, s.isMove = false) := by
  induction k with
  | zero =>
    intro fuel pth1 pth2 hk hf
    obtain ⟨fuel, rfl⟩ : ∃ f, fuel = f + 1 := ⟨fuel - 1, by omega⟩
    rcases joinLoop_cases (n := n) (so := so) fuel pth1 pth2 with ⟨_, h⟩ | ⟨_, _, _, hc, _⟩ | ⟨s1, s2, f1, f2, _, _, h3, _⟩
    · exact ⟨_, h, fun hp => hp⟩
    · omega
    · exfalso
      have hb := trimMove_bare pth2
      have c2 := strokeCount_trim pth2
      rw [newPathWithoutMove_trim] at c2
      match e : trimMove pth2, h3 with
      | s :: l, _ =>
        rw [e] at hb c2
        have : strokeCount (s :: l) = 0 := by omega
        simp [strokeCount, hb.1 s rfl] at this
  | succ k ih =>
    intro fuel pth1 pth2 hk hf
    have takes : ∀ (fuel : Nat) (pth1 pth2 : Path (XNum ℝ)), strokeCount pth2 ≤ k + 1 → 2 * k + 1 ≤ fuel → Takes n so fuel pth1 pth2 →
        ∃ r, joinLoop n so (fuel + 1) pth1 pth2 = some r ∧ (Solid pth1 → ∀ s ∈ r, s.isMove = false) := by
      rintro fuel pth1 pth2 hk hf ⟨x, y, h1, h2, h3⟩
      obtain ⟨r, h4, h5⟩ := ih fuel x y (by omega) hf
      exact ⟨r, by rw [h1, h4], fun hp => h5 (h3 hp)⟩
    obtain ⟨fuel, rfl⟩ : ∃ f, fuel = f + 1 + 1 := ⟨fuel - 2, by omega⟩
    rcases joinLoop_cases (n := n) (so := so) (fuel + 1) pth1 pth2 with ⟨_, h⟩ | h | ⟨s1, s2, f1, f2, h1, h2, h3, h4, m, hm, h⟩
    · exact ⟨_, h, fun hp => hp⟩
    · exact takes _ _ _ hk (by omega) h
    · have b1 := trimMove_bare pth1
      have b2 := trimMove_bare pth2
      have c2 := strokeCount_trim pth2
      rw [newPathWithoutMove_trim] at c2
      obtain ⟨r1, e1, br1, _, ⟨a1, ha1, ha1'⟩, ⟨z1, hz1, hz1'⟩, hs1⟩ := reverse_bare b1 h1 h2
      obtain ⟨r2, e2, br2, cr2, ⟨a2, ha2, ha2'⟩, ⟨z2, hz2, hz2'⟩, _⟩ := reverse_bare b2 h3 h4
      have t1 := trimMove_of_bare b1
      have t2 := trimMove_of_bare b2
      have cc : strokeCount (reversePath (trimMove pth2)) ≤ k + 1 := by
        have := strokeCount_trim (reversePath (trimMove pth2))
        rw [newPathWithoutMove_trim, e2, cr2, c2] at this
        omega
      rcases h with ⟨h, e⟩ | ⟨h, e⟩ | ⟨h, e⟩
      · have ht : Takes n so fuel (trimMove pth1) (reversePath (trimMove pth2)) := by
          refine takes_of_again fuel _ _ (by rw [t1]; exact h1) (by rw [t1]; exact h2) (by rw [e2]; exact ha2) (by rw [e2]; exact hz2) ?_
          rintro m' rfl
          rw [ha2', hz2']
          rw [hm] at h
          exact shortestOf_again (by intro x; tauto) h
        obtain ⟨r, g1, g2⟩ := takes _ _ _ cc (by omega) ht
        refine ⟨r, by rw [e, g1], fun hp => g2 ?_⟩
        intro s hs
        rw [t1] at hs
        exact hp s hs
      · have ht : Takes n so fuel (reversePath (trimMove pth1)) (trimMove pth2) := by
          refine takes_of_again fuel _ _ (by rw [e1]; exact ha1) (by rw [e1]; exact hz1) (by rw [t2]; exact h3) (by rw [t2]; exact h4) ?_
          rintro m' rfl
          rw [ha1', hz1']
          rw [hm] at h
          exact shortestOf_again (by intro x; tauto) h
        obtain ⟨r, g1, g2⟩ := takes _ _ _ (by omega) (by omega) ht
        refine ⟨r, by rw [e, g1], fun hp => g2 ?_⟩
        intro s hs
        rw [e1] at hs
        exact hs1 hp s hs
      · have ht : Takes n so fuel (reversePath (trimMove pth1)) (reversePath (trimMove pth2)) := by
          refine takes_of_again fuel _ _ (by rw [e1]; exact ha1) (by rw [e1]; exact hz1) (by rw [e2]; exact ha2) (by rw [e2]; exact hz2) ?_
          rintro m' rfl
          rw [ha1', hz1', ha2', hz2']
          rw [hm] at h
          exact shortestOf_again (by intro x; tauto) h
        obtain ⟨r, g1, g2⟩ := takes _ _ _ cc (by omega) ht
        refine ⟨r, by rw [e, g1], fun hp => g2 ?_⟩
        intro s hs
        rw [e1] at hs
        exact hs1 hp s hs

theorem strokeCount_le {F : Type u} (p : Path F) : strokeCount p ≤ p.length := List.countP_le_length

/-- The recursion of the join transform is never deeper than twice the number of segments. -/
theorem joinLoop_terminates (n so : Int) (q : Path (XNum ℝ)) :
    ∃ r, joinLoop n so (2 * q.length + 2) [] q = some r ∧ ∀ s ∈ r, s.isMove = false := by
  obtain ⟨r, h1, h2⟩ := joinLoop_spec (n := n) (so := so) q.length (2 * q.length + 2) [] q (strokeCount_le q) (by omega)
  exact ⟨r, h1, h2 (by intro s hs; simp [trimMove] at hs)⟩

end Loop

end Verif.Path
