import Verif.Lemmas.BezierRoots
import Mathlib.Data.List.Sort

/-!
# Lemmas about reducing a curve to simple pieces

Over the real numbers with the IEEE special values: `reduce` may divide by zero on the way.
-/

namespace Verif.Bezier

open Verif Verif.Spec XNum

set_option linter.unusedSectionVars false
set_option linter.unusedSimpArgs false

/-- A section with finite numbers. -/
def finSection (s : Section ℝ) : Section (XNum ℝ) := ⟨finCurve s.curve, .fin s.t1, .fin s.t2⟩

theorem lerp_fin (r : ℝ) (v w : Point ℝ) : lerp (fin r) (finPoint v) (finPoint w) = finPoint (lerp r v w) := by
  simp [lerp, finPoint]

theorem halves_fin (c : Curve ℝ) (t : ℝ) :
    halves (finCurve c) (fin t) = (finCurve (halves c t).1, finCurve (halves c t).2) := by
  simp only [halves, finCurve, lerp_fin]

theorem mapRange_fin {v ds de ts te : ℝ} (h : de - ds ≠ 0) :
    mapRange (fin v) (fin ds) (fin de) (fin ts) (fin te) = fin (mapRange v ds de ts te) := by
  simp only [mapRange, sub_fin, div_fin_ne h, mul_fin, add_fin, Arith.add_field, Arith.sub_field, Arith.mul_field, Arith.div_field]

theorem splitAt_fin (s : Section ℝ) (t : ℝ) :
    splitAt (finSection s) (fin t) = (finSection (splitAt s t).1, finSection (splitAt s t).2) := by
  have h : (1 : ℝ) - 0 ≠ 0 := by norm_num
  simp only [splitAt, finSection, halves_fin, zero_fin, one_fin, mapRange_fin h]
  simp [Arith.zero, Arith.one]

theorem zeroSection_fin : (zeroSection : Section (XNum ℝ)) = finSection zeroSection := by
  simp [zeroSection, finSection, finCurve, finPoint, Arith.zero]

theorem splitOnce_fin (s : Section ℝ) (t : ℝ) :
    splitOnce (finSection s) (fin t) = (finSection (splitOnce s t).1, finSection (splitOnce s t).2) := by
  unfold splitOnce
  rw [zero_fin, eq_fin, lit_zero_fin, splitAt_fin, splitAt_fin, zeroSection_fin]
  by_cases h : t = 0 <;> simp [h, Arith.zero]

/-- As long as the section does not start at the very end, splitting is exact arithmetic. -/
theorem splitSection_fin (s : Section ℝ) {t1 : ℝ} (t2 : ℝ) (h : t1 ≠ 1) :
    splitSection (finSection s) (fin t1) (fin t2) = (finSection (splitSection s t1 t2).1, finSection (splitSection s t1 t2).2) := by
  have h1 : (1 : ℝ) - t1 ≠ 0 := sub_ne_zero.2 (Ne.symm h)
  unfold splitSection
  simp only [zero_fin, one_fin, eq_fin, lt_fin, splitOnce_fin, splitAt_fin, zeroSection_fin, mapRange_fin h1]
  by_cases h0 : t1 = 0
  · simp [h0, Arith.zero]
  · by_cases h2 : t2 = 1
    · simp [h0, h2, Arith.zero, Arith.one]
    · by_cases h3 : t2 < 0
      · simp [h0, h2, h3, Arith.zero, Arith.one]
      · simp [h0, h2, h3, Arith.zero, Arith.one]

/-- The pieces run through the curve from `a` to `b` without gap. -/
inductive Covers (c : Curve ℝ) : ℝ → ℝ → List (Section (XNum ℝ)) → Prop
  | nil (a : ℝ) : Covers c a a []
  | cons (s : Section ℝ) (b : ℝ) (l : List (Section (XNum ℝ))) : s.t1 < s.t2 → Retraces s.curve c s.t1 s.t2 → Covers c s.t2 b l →
      Covers c s.t1 b (finSection s :: l)

theorem Covers.append {c : Curve ℝ} {a b d : ℝ} {l m : List (Section (XNum ℝ))} (h : Covers c a b l) (h' : Covers c b d m) :
    Covers c a d (l ++ m) := by
  induction h with
  | nil a => exact h'
  | cons s b l h1 h2 _ ih => exact .cons s d (l ++ m) h1 h2 (ih h')

theorem Covers.single {c : Curve ℝ} (s : Section ℝ) (h1 : s.t1 < s.t2) (h2 : Retraces s.curve c s.t1 s.t2) :
    Covers c s.t1 s.t2 [finSection s] := .cons s _ [] h1 h2 (.nil _)

theorem retraces_trans {a b c : Curve ℝ} {s t u v : ℝ} (h : Retraces a b s t) (h' : Retraces b c u v) :
    Retraces a c (u + (v - u) * s) (u + (v - u) * t) := by
  intro x
  rw [h x, h' _]
  congr 1; ring

theorem reduceStep_fin : (reduceStep : XNum ℝ) = fin (1 / 100) := by
  simp only [reduceStep, lit_fin]; norm_num

/-- The piece of a piece, as numbers. -/
noncomputable def subPiece (p : Section ℝ) (t1 t2 : ℝ) : Section ℝ :=
  ⟨(splitSection p t1 t2).1.curve, p.t1 + (p.t2 - p.t1) * t1, p.t1 + (p.t2 - p.t1) * t2⟩

theorem piece_fin (p : Section ℝ) {t1 : ℝ} (t2 : ℝ) (h : t1 ≠ 1) :
    piece (finSection p) (fin t1) (fin t2) = finSection (subPiece p t1 t2) := by
  have h1 : (1 : ℝ) - 0 ≠ 0 := by norm_num
  unfold piece
  rw [splitSection_fin p t2 h, zero_fin, one_fin]
  simp only [finSection, mapRange_fin h1, mapRange_field, subPiece, sub_zero, div_one]

/-- The second pass: the pieces cover the part up to the current parameter, and the number of steps is bounded. -/
theorem pass2Loop_covers (c : Curve ℝ) (p : Section ℝ) (hp : p.t1 < p.t2) (hr : Retraces p.curve c p.t1 p.t2) (n fuel : Nat) (t1 t2 : ℝ)
    (acc : List (Section (XNum ℝ))) (h0 : 0 ≤ t1) (h1 : t1 ≤ 1) (h12 : t1 + 1 / 100 ≤ t2) (hacc : Covers c p.t1 (p.t1 + (p.t2 - p.t1) * t1) acc)
    (hn : 1 + 1 / 100 < t2 + n * (1 / 100)) (hfuel : 2 * n + 1 + (if t1 + 1 / 100 < t2 then 1 else 0) ≤ fuel) :
    pass2Loop (finSection p) fuel (fin t1) (fin t2) acc = .abort ∨
      ∃ (t : ℝ) (acc' : List (Section (XNum ℝ))), pass2Loop (finSection p) fuel (fin t1) (fin t2) acc = .done (acc', fin t) ∧
        0 ≤ t ∧ t ≤ 1 ∧ Covers c p.t1 (p.t1 + (p.t2 - p.t1) * t) acc' := by
  induction fuel generalizing n t1 t2 acc with
  | zero => omega
  | succ fuel ih =>
    unfold pass2Loop
    simp only [reduceStep_fin, one_fin, add_fin, sub_fin, le_fin, abs_fin, lt_fin]
    by_cases h2 : t2 ≤ 1 + 1 / 100
    · simp only [h2, decide_true, if_true]
      have hn0 : n ≠ 0 := by
        rintro rfl
        simp only [Nat.cast_zero, zero_mul, add_zero] at hn
        linarith
      obtain ⟨m, rfl⟩ := Nat.exists_eq_succ_of_ne_zero hn0
      push_cast at hn
      by_cases hs : isSimple (splitSection (finSection p) (fin t1) (fin t2)).1.curve = true
      · simp only [hs, if_true]
        apply ih m t1 (t2 + 1 / 100) acc h0 h1 (by linarith) hacc (by linarith)
        split <;> omega
      · simp only [hs, if_false, Bool.false_eq_true]
        by_cases ha : |t1 - (t2 - 1 / 100)| < 1 / 100
        · exact .inl (by simp only [ha, decide_true, if_true])
        · have hle : t1 - (t2 - 1 / 100) ≤ 0 := by linarith
          rw [abs_of_nonpos hle] at ha
          have ha' : t1 + 1 / 100 ≤ t2 - 1 / 100 := by linarith [not_lt.1 ha]
          have ht2 : t2 - 1 / 100 ≤ 1 := by linarith
          have ht1 : t1 ≠ 1 := by intro h; linarith
          simp only [abs_of_nonpos hle, ha, ht2, decide_true, decide_false, if_true, if_false, Bool.false_eq_true]
          rw [piece_fin p _ ht1]
          have hlt : t1 < t2 - 1 / 100 := by linarith
          apply ih (m + 1) (t2 - 1 / 100) (t2 - 1 / 100 + 1 / 100) _ (by linarith) ht2 le_rfl
          · refine hacc.append (Covers.single (subPiece p t1 (t2 - 1 / 100)) ?_ ?_)
            · simp only [subPiece]
              have : 0 < p.t2 - p.t1 := by linarith
              nlinarith
            · exact retraces_trans (splitSection_field p h0 ht1 hlt) hr
          · push_cast; linarith
          · have hflag : t1 + 1 / 100 < t2 := by linarith
            simp only [hflag, if_true] at hfuel
            simp only [lt_irrefl, if_false]
            omega
    · have h3 : ¬ t2 ≤ 1 := by intro h; apply h2; linarith
      simp only [h2, h3, decide_false, if_false, Bool.false_eq_true]
      exact .inr ⟨t1, acc, rfl, h0, h1, hacc⟩

theorem pass2_covers (c : Curve ℝ) (p : Section ℝ) (hp : p.t1 < p.t2) (hr : Retraces p.curve c p.t1 p.t2) (fuel : Nat) (hf : 204 ≤ fuel) :
    pass2 fuel (finSection p) = .abort ∨ ∃ l, pass2 fuel (finSection p) = .done l ∧ Covers c p.t1 p.t2 l := by
  unfold pass2
  simp only [zero_fin, one_fin, reduceStep_fin, add_fin]
  rcases pass2Loop_covers c p hp hr 101 fuel 0 (0 + 1 / 100) [] le_rfl zero_le_one le_rfl
    (by rw [mul_zero, add_zero]; exact .nil _) (by norm_num) (by simp only [lt_irrefl, if_false]; omega) with h | ⟨t, acc, h, h0, h1, hc⟩
  · exact .inl (by rw [h])
  · right
    rw [h]
    simp only [lt_fin]
    by_cases ht : t < 1
    · simp only [ht, decide_true, if_true]
      have hd : (1 : ℝ) - 0 ≠ 0 := by norm_num
      refine ⟨_, rfl, ?_⟩
      have e : (⟨(splitSection (finSection p) (fin t) (fin 1)).1.curve, mapRange (fin t) (fin 0) (fin 1) (finSection p).t1 (finSection p).t2,
          (finSection p).t2⟩ : Section (XNum ℝ)) = finSection ⟨(splitSection p t 1).1.curve, p.t1 + (p.t2 - p.t1) * t, p.t2⟩ := by
        rw [splitSection_fin p 1 ht.ne]
        simp only [finSection, mapRange_fin hd, mapRange_field, sub_zero, div_one]
      rw [e]
      refine hc.append (Covers.single ⟨(splitSection p t 1).1.curve, p.t1 + (p.t2 - p.t1) * t, p.t2⟩ ?_ ?_)
      · simp only
        have : 0 < p.t2 - p.t1 := by linarith
        nlinarith
      · have := retraces_trans (splitSection_field p h0 ht.ne ht) hr
        simpa using this
    · simp only [ht, decide_false, if_false, Bool.false_eq_true]
      have : t = 1 := le_antisymm h1 (not_lt.1 ht)
      subst this
      refine ⟨acc, rfl, ?_⟩
      simpa using hc

theorem pass2All_covers (c : Curve ℝ) (fuel : Nat) (hf : 204 ≤ fuel) (a b : ℝ) (l : List (Section (XNum ℝ))) (h : Covers c a b l) :
    pass2All fuel l = .abort ∨ ∃ m, pass2All fuel l = .done m ∧ Covers c a b m := by
  induction h with
  | nil a => exact .inr ⟨[], rfl, .nil a⟩
  | cons s b l h1 h2 _ ih =>
    unfold pass2All
    rcases pass2_covers c s h1 h2 fuel hf with e | ⟨m, e, hm⟩
    · rw [e]; exact .inl rfl
    · rw [e]
      rcases ih with e' | ⟨m', e', hm'⟩
      · rw [e']; exact .inl rfl
      · rw [e']; exact .inr ⟨m ++ m', rfl, hm.append hm'⟩

/-! ### The cuts -/

theorem contains_fin {l : List (XNum ℝ)} (h : ∀ y ∈ l, ∃ s : ℝ, y = fin s) (t : ℝ) : contains l (fin t) = true ↔ fin t ∈ l := by
  unfold contains
  rw [List.any_eq_true]
  constructor
  · rintro ⟨y, hy, he⟩
    obtain ⟨s, rfl⟩ := h y hy
    simp only [eq_fin, decide_eq_true_eq] at he
    rw [he]; exact hy
  · intro ht
    exact ⟨fin t, ht, by simp⟩

theorem deDup_spec (l seen : List (XNum ℝ)) (hl : ∀ y ∈ l, ∃ s : ℝ, y = fin s) (hs : ∀ y ∈ seen, ∃ s : ℝ, y = fin s)
    (hn : seen.Nodup) : (deDup l seen).Nodup ∧ ∀ y, y ∈ deDup l seen ↔ y ∈ l ∨ y ∈ seen := by
  induction l generalizing seen with
  | nil => exact ⟨hn, by simp [deDup]⟩
  | cons x l ih =>
    obtain ⟨t, rfl⟩ := hl x (by simp)
    have hl' : ∀ y ∈ l, ∃ s : ℝ, y = fin s := fun y hy => hl y (by simp [hy])
    unfold deDup
    by_cases h : fin t ∈ seen
    · rw [if_pos ((contains_fin hs t).2 h)]
      obtain ⟨h1, h2⟩ := ih seen hl' hs hn
      refine ⟨h1, fun y => ?_⟩
      rw [h2, List.mem_cons]
      constructor
      · rintro (h | h)
        · exact .inl (.inr h)
        · exact .inr h
      · rintro ((rfl | h') | h')
        · exact .inr h
        · exact .inl h'
        · exact .inr h'
    · rw [if_neg (fun hc => h ((contains_fin hs t).1 hc))]
      have hs' : ∀ y ∈ seen ++ [fin t], ∃ s : ℝ, y = fin s := by
        intro y hy
        rcases List.mem_append.1 hy with hy | hy
        · exact hs y hy
        · exact ⟨t, List.mem_singleton.1 hy⟩
      have hn' : (seen ++ [fin t]).Nodup := by
        rw [List.nodup_append]
        exact ⟨hn, by simp, by rintro a ha b hb rfl; exact h (List.mem_singleton.1 hb ▸ ha)⟩
      obtain ⟨h1, h2⟩ := ih (seen ++ [fin t]) hl' hs' hn'
      refine ⟨h1, fun y => ?_⟩
      rw [h2, List.mem_cons, List.mem_append, List.mem_singleton]
      tauto

/-- Finite numbers in strictly ascending order. -/
def Ascending : List (XNum ℝ) → Prop := List.Pairwise fun x y => ∃ s t : ℝ, x = fin s ∧ y = fin t ∧ s < t

theorem insertSorted_spec (t : ℝ) (l : List (XNum ℝ)) (hl : ∀ y ∈ l, ∃ s : ℝ, y = fin s) (h : Ascending l) (ht : fin t ∉ l) :
    Ascending (insertSorted (fin t) l) ∧ ∀ y, y ∈ insertSorted (fin t) l ↔ y = fin t ∨ y ∈ l := by
  induction l with
  | nil => exact ⟨by simp [insertSorted, Ascending], by simp [insertSorted]⟩
  | cons x l ih =>
    obtain ⟨s, rfl⟩ := hl x (by simp)
    have hl' : ∀ y ∈ l, ∃ s : ℝ, y = fin s := fun y hy => hl y (by simp [hy])
    obtain ⟨h1, h2⟩ := List.pairwise_cons.1 h
    have hst : s ≠ t := by rintro rfl; exact ht (by simp)
    unfold insertSorted
    rw [lt_fin]
    by_cases hlt : s < t
    · simp only [hlt, decide_true, if_true]
      obtain ⟨h3, h4⟩ := ih hl' h2 (fun h => ht (by simp [h]))
      refine ⟨List.pairwise_cons.2 ⟨fun y hy => ?_, h3⟩, fun y => ?_⟩
      · rcases (h4 y).1 hy with rfl | hy
        · exact ⟨s, t, rfl, rfl, hlt⟩
        · exact h1 y hy
      · rw [List.mem_cons, h4, List.mem_cons]; tauto
    · simp only [hlt, decide_false, if_false, Bool.false_eq_true]
      have hts : t < s := lt_of_le_of_ne (not_lt.1 hlt) (Ne.symm hst)
      refine ⟨List.pairwise_cons.2 ⟨fun y hy => ?_, h⟩, fun y => by rw [List.mem_cons]⟩
      rcases List.mem_cons.1 hy with rfl | hy
      · exact ⟨t, s, rfl, rfl, hts⟩
      · obtain ⟨s', u, e1, e2, h5⟩ := h1 y hy
        cases e1
        exact ⟨t, u, rfl, e2, hts.trans h5⟩

theorem sortFloats_spec (l : List (XNum ℝ)) (hl : ∀ y ∈ l, ∃ s : ℝ, y = fin s) (hn : l.Nodup) :
    Ascending (sortFloats l) ∧ ∀ y, y ∈ sortFloats l ↔ y ∈ l := by
  induction l with
  | nil => exact ⟨List.Pairwise.nil, fun y => Iff.rfl⟩
  | cons x l ih =>
    obtain ⟨t, rfl⟩ := hl x (by simp)
    have hl' : ∀ y ∈ l, ∃ s : ℝ, y = fin s := fun y hy => hl y (by simp [hy])
    obtain ⟨h1, h2⟩ := List.nodup_cons.1 hn
    obtain ⟨h3, h4⟩ := ih hl' h2
    have e : sortFloats (fin t :: l) = insertSorted (fin t) (sortFloats l) := rfl
    rw [e]
    obtain ⟨h5, h6⟩ := insertSorted_spec t (sortFloats l) (fun y hy => hl' y ((h4 y).1 hy)) h3 (fun h => h1 ((h4 _).1 h))
    refine ⟨h5, fun y => ?_⟩
    rw [h6, h4, List.mem_cons]

theorem extrema_fin (c : Curve (XNum ℝ)) : ∀ y ∈ (extrema c).1 ++ (extrema c).2, ∃ s : ℝ, y = fin s ∧ 0 ≤ s ∧ s ≤ 1 := by
  intro y hy
  rcases List.mem_append.1 hy with h | h
  · exact (inUnit_fin h).2
  · exact (inUnit_fin h).2

/-- The cuts start with `0`, ascend, and end with `1`. -/
theorem cuts_spec (c : Curve (XNum ℝ)) : ∃ rest, cuts c = fin 0 :: rest ∧ Ascending (cuts c) ∧ fin 1 ∈ rest ∧
    ∀ y ∈ cuts c, ∃ s : ℝ, y = fin s ∧ 0 ≤ s ∧ s ≤ 1 := by
  set L := (extrema c).1 ++ (extrema c).2 ++ [Arith.zero, Arith.one] with hL
  have hfin : ∀ y ∈ L, ∃ s : ℝ, y = fin s ∧ 0 ≤ s ∧ s ≤ 1 := by
    intro y hy
    rw [hL, List.mem_append] at hy
    rcases hy with h | h
    · exact extrema_fin c y h
    · simp only [zero_fin, one_fin, List.mem_cons, List.not_mem_nil, or_false] at h
      rcases h with rfl | rfl
      · exact ⟨0, rfl, le_rfl, zero_le_one⟩
      · exact ⟨1, rfl, zero_le_one, le_rfl⟩
  have hfin' : ∀ y ∈ L, ∃ s : ℝ, y = fin s := fun y hy => let ⟨s, h, _⟩ := hfin y hy; ⟨s, h⟩
  obtain ⟨d1, d2⟩ := deDup_spec L [] hfin' (by simp) (by simp)
  obtain ⟨s1, s2⟩ := sortFloats_spec (deDup L []) (fun y hy => by
    rcases (d2 y).1 hy with h | h
    · exact hfin' y h
    · cases h) d1
  have hmem : ∀ y, y ∈ cuts c ↔ y ∈ L := by
    intro y
    show y ∈ sortFloats (deDup L []) ↔ _
    rw [s2, d2]; simp
  have h0 : fin 0 ∈ cuts c := (hmem _).2 (by rw [hL, zero_fin]; simp)
  have h1 : fin 1 ∈ cuts c := (hmem _).2 (by rw [hL, one_fin]; simp)
  have hall : ∀ y ∈ cuts c, ∃ s : ℝ, y = fin s ∧ 0 ≤ s ∧ s ≤ 1 := fun y hy => hfin y ((hmem y).1 hy)
  have hasc : Ascending (cuts c) := s1
  cases hc : cuts c with
  | nil => rw [hc] at h0; cases h0
  | cons x rest =>
    rw [hc] at h0 h1 hall hasc
    obtain ⟨a1, a2⟩ := List.pairwise_cons.1 hasc
    have hx : x = fin 0 := by
      rcases List.mem_cons.1 h0 with h | h
      · exact h.symm
      · obtain ⟨s, t, e1, e2, hlt⟩ := a1 _ h
        obtain ⟨s', e3, h3, -⟩ := hall x (by simp)
        cases e2
        rw [e3] at e1
        cases e1
        linarith
    subst hx
    refine ⟨rest, rfl, hasc, ?_, hall⟩
    rcases List.mem_cons.1 h1 with h | h
    · injection h with h; norm_num at h
    · exact h

theorem pass1_covers (c : Curve ℝ) (t : ℝ) (rest : List (XNum ℝ)) (h0 : 0 ≤ t) (hasc : Ascending (fin t :: rest))
    (hr : ∀ y ∈ rest, ∃ s : ℝ, y = fin s ∧ s ≤ 1) (h1 : fin 1 ∈ fin t :: rest) : Covers c t 1 (pass1 (finCurve c) (fin t) rest) := by
  induction rest generalizing t with
  | nil =>
    rw [List.mem_singleton] at h1
    injection h1 with h1
    subst h1
    exact .nil 1
  | cons x rest ih =>
    obtain ⟨s, rfl, hs⟩ := hr x (by simp)
    obtain ⟨a1, a2⟩ := List.pairwise_cons.1 hasc
    obtain ⟨t', s', e1, e2, hlt⟩ := a1 (fin s) (by simp)
    cases e1; cases e2
    have ht1 : t ≠ 1 := by intro h; linarith
    have h1' : fin 1 ∈ fin s :: rest := by
      rcases List.mem_cons.1 h1 with h | h
      · injection h with h; exact absurd h.symm ht1
      · exact h
    unfold pass1
    have e : (⟨finCurve c, Arith.zero, Arith.zero⟩ : Section (XNum ℝ)) = finSection ⟨c, 0, 0⟩ := by simp [finSection, zero_fin]
    rw [e, splitSection_fin _ _ ht1]
    exact .cons ⟨(splitSection ⟨c, 0, 0⟩ t s).1.curve, t, s⟩ 1 _ hlt (splitSection_field ⟨c, 0, 0⟩ h0 ht1 hlt)
      (ih s (h0.trans hlt.le) a2 (fun y hy => hr y (by simp [hy])) h1')

theorem reduceFuel_covers (c : Curve ℝ) (fuel : Nat) (hf : 204 ≤ fuel) :
    reduceFuel fuel (finCurve c) = .abort ∨ ∃ l, reduceFuel fuel (finCurve c) = .done l ∧ Covers c 0 1 l := by
  obtain ⟨rest, h1, h2, h3, h4⟩ := cuts_spec (finCurve c)
  unfold reduceFuel
  rw [h1] at h2 h4 ⊢
  exact pass2All_covers c fuel hf 0 1 _ (pass1_covers c 0 rest le_rfl h2
    (fun y hy => let ⟨s, e, _, h⟩ := h4 y (by simp [hy]); ⟨s, e, h⟩) (by simp [h3]))

/-- The number of steps allowed in `reduce` is never used up. -/
theorem reduce_fuel (c : Curve ℝ) (fuel : Nat) (hf : 204 ≤ fuel) : reduceFuel fuel (finCurve c) ≠ .outOfFuel := by
  rcases reduceFuel_covers c fuel hf with h | ⟨l, h, -⟩ <;> rw [h] <;> simp

theorem reduce_covers (c : Curve ℝ) : reduce (finCurve c) = [] ∨ Covers c 0 1 (reduce (finCurve c)) := by
  unfold reduce
  rcases reduceFuel_covers c 300 (by norm_num) with h | ⟨l, h, hc⟩
  · left; rw [h]
  · right; rw [h]; exact hc

end Verif.Bezier
