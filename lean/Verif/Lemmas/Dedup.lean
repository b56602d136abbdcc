import Verif.Lemmas.Clean
import Verif.Lemmas.PathText
import Verif.Spec.Dedup

/-!
# What deduplication removes
-/

namespace Verif.Path

open Verif Verif.Spec

universe u

set_option linter.unusedSectionVars false

section Relations

variable {F : Type u} [Num F]

theorem cancels_trans {n : Nat} {a b c : List (Stroke F)} (h : Cancels n a b) (h' : Cancels n b c) : Cancels n a c := by
  induction h with
  | done xs => exact h'
  | pair hp _ ih => exact .pair hp (ih h')

theorem cancels_append_right {n : Nat} {a b : List (Stroke F)} (h : Cancels n a b) (c : List (Stroke F)) : Cancels n (a ++ c) (b ++ c) := by
  induction h with
  | done xs => exact .done _
  | @pair before after ys s t hp _ ih =>
    have : before ++ s :: t :: after ++ c = before ++ s :: t :: (after ++ c) := by simp
    rw [this]
    exact .pair hp (by simpa using ih)

theorem cancels_sublist {n : Nat} {a b : List (Stroke F)} (h : Cancels n a b) : b.Sublist a := by
  induction h with
  | done xs => exact .refl _
  | @pair before after ys s t hp _ ih =>
    refine ih.trans (List.Sublist.append_left ?_ _)
    exact ((List.Sublist.refl after).cons t).cons s

theorem cancels_even {n : Nat} {a b : List (Stroke F)} (h : Cancels n a b) : ∃ k, a.length = b.length + 2 * k := by
  induction h with
  | done xs => exact ⟨0, rfl⟩
  | @pair before after ys s t hp _ ih =>
    obtain ⟨k, hk⟩ := ih
    refine ⟨k + 1, ?_⟩
    simp only [List.length_append, List.length_cons] at hk ⊢
    omega

theorem cancels_eq_of_chain {n : Nat} {a b : List (Stroke F)} (h : Cancels n a b)
    (hc : List.IsChain (fun s t => ¬ PrintsBack n s t) a) : b = a := by
  cases h with
  | done xs => rfl
  | @pair before after ys s t hp _ =>
    exfalso
    rw [List.isChain_append] at hc
    cases hc.2.1 with
    | cons_cons h1 _ => exact h1 hp

/-- One of two neighbours is a move, or the second is not printed as the first backwards. -/
def NotBack (n : Nat) (a b : Segment F) : Prop :=
  a.isMove = true ∨ b.isMove = true ∨ uniqueString n b ≠ uniqueString n a.reverse

theorem notBack_fixHeadMove {n : Nat} {p : Path F} (h : p.IsChain (NotBack n)) : (fixHeadMove p).IsChain (NotBack n) := by
  rcases fixHeadMove_cases p with ⟨a, b, c, rest, rfl, h2, _⟩ | ⟨_, h2⟩
  · rw [h2]
    cases rest with
    | nil => exact .singleton _
    | cons t rest =>
      cases h with
      | cons_cons _ h3 => exact .cons_cons (Or.inl rfl) h3
  · rw [h2]; exact h

theorem notBack_newPath {n : Nat} {p : Path F} (h : p.IsChain (NotBack n)) : (newPath p).IsChain (NotBack n) := by
  refine notBack_fixHeadMove ?_
  rcases headMove_cases p with ⟨_, h2⟩ | ⟨_, _, _, _, h2⟩ | ⟨s, rest, rfl, h1, h2⟩
  · rw [h2]; exact .nil
  · rw [h2]; exact h
  · rw [h2]; exact .cons_cons (Or.inl rfl) h

theorem notBack_foldl_merge {n : Nat} (rest : List (Segment F)) : ∀ acc : List (Segment F), (acc ++ rest).IsChain (NotBack n) →
    (rest.foldl mergeStep acc).IsChain (NotBack n) := by
  induction rest with
  | nil => intro acc h; simpa using h
  | cons s rest ih =>
    intro acc h
    refine ih _ ?_
    rcases mergeStep_cases acc s with ⟨acc', a, b, e, rfl, h1, h2, h3⟩ | ⟨_, h3⟩
    · rw [h3]
      rw [List.append_assoc, List.isChain_append] at h
      rw [List.append_assoc, List.isChain_append]
      refine ⟨h.1, ?_, ?_⟩
      · cases h.2.1 with
        | cons_cons _ h4 =>
          cases rest with
          | nil => exact .singleton _
          | cons t rest =>
            cases h4 with
            | cons_cons _ h5 => exact .cons_cons (Or.inl rfl) h5
      · intro x _ y hy
        simp only [List.cons_append, List.nil_append, List.head?_cons, Option.mem_def, Option.some.injEq] at hy
        subst hy
        exact Or.inr (Or.inl rfl)
    · rw [h3]; simpa using h

theorem notBack_mergeMoves {n : Nat} {p : Path F} (h : p.IsChain (NotBack n)) : (mergeMoves p).IsChain (NotBack n) := by
  cases p with
  | nil => exact .nil
  | cons s p => exact notBack_foldl_merge p [s] h

theorem pairText_prints {n : Nat} {p q : Point F} (h : PrintsSame n (pt p) (pt q)) : pairText n p = pairText n q := by
  have h1 : Num.fmt n p.x = Num.fmt n q.x := h.1
  have h2 : Num.fmt n p.y = Num.fmt n q.y := h.2
  simp only [pairText, h1, h2]

theorem cleaned_isMove (n : Int) (prev : Point F) (s : Segment F) : (cleaned n prev s).isMove = s.isMove := by
  unfold cleaned
  split
  · rfl
  · split
    · cases s <;> rfl
    · rfl

theorem cleaned_reverse_text (n : Nat) (prev : Point F) (s : Segment F) :
    uniqueString n (cleaned n prev s).reverse = uniqueString n s.reverse := by
  unfold cleaned
  split
  · rfl
  · next h1 =>
    split
    · next h2 =>
      rcases equalsPrecision_prints h2 with h3 | h3
      · exact absurd h3 h1
      · have h4 : pairText n s.start = pairText n prev := pairText_prints (by simpa using h3)
        cases s <;> simp only [Segment.setStart, Segment.reverse, uniqueString, Segment.start] at h4 ⊢ <;> rw [h4]
    · rfl

theorem notBack_cleanupLoop {n : Nat} (p : List (Segment F)) (hp : ∀ s ∈ p, EndsProperly s) : ∀ (before s : Segment F),
    uniqueString n before.reverse = uniqueString n s.reverse → before.isMove = s.isMove →
    (s :: p).IsChain (NotBack n) → (before :: cleanupLoop n s.stop p).IsChain (NotBack n) := by
  induction p with
  | nil => intro before s _ _ _; exact .singleton _
  | cons t p ih =>
    intro before s h1 h2 h
    rw [cleanupLoop_cons]
    simp only [endsProperly_test (hp t (by simp)), Bool.false_eq_true, if_false]
    cases h with
    | cons_cons h3 h4 =>
      have key := ih (fun x hx => hp x (by simp [hx])) (cleaned n s.stop t) t (cleaned_reverse_text n _ t) (cleaned_isMove _ _ t) h4
      unfold gap
      split
      · next he =>
        have hc : cleaned (n : Int) s.stop t = t := by unfold cleaned; simp [he]
        rw [List.nil_append]
        refine .cons_cons ?_ key
        rw [hc]
        rcases h3 with h3 | h3 | h3
        · exact Or.inl (h2.trans h3)
        · exact Or.inr (Or.inl h3)
        · exact Or.inr (Or.inr (by rw [h1]; exact h3))
      · exact .cons_cons (Or.inr (Or.inl rfl)) (.cons_cons (Or.inl rfl) key)

theorem notBack_cleanup {n : Nat} {p : Path F} (hp : ∀ s ∈ p, EndsProperly s) (h : p.IsChain (NotBack n)) :
    (cleanup n p).IsChain (NotBack n) := by
  refine notBack_newPath (notBack_mergeMoves (notBack_fixHeadMove ?_))
  cases p with
  | nil => exact .nil
  | cons s p =>
    rw [cleanupSegments_cons _ (hp s (by simp))]
    have key := notBack_cleanupLoop p (fun x hx => hp x (by simp [hx])) s s rfl rfl h
    split
    · exact key
    · exact .cons_cons (Or.inl rfl) key

/-- The kept segments, the last one first, hold no segment followed by its reverse. -/
theorem notBack_dedupStep {n : Nat} {acc acc' : List (Segment F)} {cur : Segment F} (h : dedupStep n acc cur = some acc')
    (ha : acc.reverse.IsChain (NotBack n)) : acc'.reverse.IsChain (NotBack n) := by
  have push : ∀ (c prev : Segment F) (older : List (Segment F)), NotBack n prev c → (prev :: older).reverse.IsChain (NotBack n) →
      (c :: prev :: older).reverse.IsChain (NotBack n) := by
    intro c prev older h1 h2
    rw [List.reverse_cons, List.isChain_append]
    refine ⟨h2, .singleton _, ?_⟩
    intro x hx y hy
    simp only [List.reverse_cons, List.getLast?_append, List.getLast?_singleton, Option.some_or, Option.mem_def, Option.some.injEq] at hx
    simp only [List.head?_cons, Option.mem_def, Option.some.injEq] at hy
    subst hx hy
    exact h1
  cases acc with
  | nil => simp [dedupStep] at h
  | cons prev older =>
    have pop : older.reverse.IsChain (NotBack n) := by
      rw [List.reverse_cons, List.isChain_append] at ha
      exact ha.1
    cases hc : cur.isMove
    · have hstep : dedupStep n (prev :: older) cur =
          if uniqueString n cur = uniqueString n prev.reverse then some older else some (cur :: prev :: older) := by
        cases cur <;> simp_all [dedupStep, Segment.isMove]
      rw [hstep] at h
      split at h <;> simp only [Option.some.injEq] at h <;> subst h
      · exact pop
      · next hne => exact push _ _ _ (Or.inr (Or.inr hne)) ha
    · cases cur with
      | line a b => simp [Segment.isMove] at hc
      | curve a b c d => simp [Segment.isMove] at hc
      | move a e =>
        cases hp : prev.isMove
        · have hstep : dedupStep n (prev :: older) (.move a e) =
              if prev.stop.stringPrecision n = e.stringPrecision n then some (prev :: older) else some (.move a e :: prev :: older) := by
            cases prev <;> simp_all [dedupStep, Segment.isMove]
          rw [hstep] at h
          split at h <;> simp only [Option.some.injEq] at h <;> subst h
          · exact ha
          · exact push _ _ _ (Or.inr (Or.inl rfl)) ha
        · cases prev with
          | line a b => simp [Segment.isMove] at hp
          | curve a b c d => simp [Segment.isMove] at hp
          | move b c =>
            simp only [dedupStep, Option.some.injEq] at h
            subst h
            cases older with
            | nil => exact .singleton _
            | cons o os => exact push _ _ _ (Or.inr (Or.inl rfl)) pop

theorem notBack_dedupLoop {n : Nat} (rest : List (Segment F)) : ∀ (acc r : List (Segment F)), dedupLoop n acc rest = some r →
    acc.reverse.IsChain (NotBack n) → r.IsChain (NotBack n) := by
  induction rest with
  | nil => intro acc r h ha; simp only [dedupLoop, Option.some.injEq] at h; subst h; exact ha
  | cons s rest ih =>
    intro acc r h ha
    simp only [dedupLoop] at h
    split at h
    · simp at h
    · next acc' h1 => exact ih acc' r h (notBack_dedupStep h1 ha)

theorem notBack_dedupOnce {n : Nat} {p q : Path F} (h : dedupOnce n p = .ok q) : q.IsChain (NotBack n) := by
  unfold dedupOnce at h
  split at h
  · cases h; exact .nil
  · cases h; exact .singleton _
  · next s rest _ =>
    split at h
    · simp at h
    · next segs h1 =>
      cases h
      exact notBack_newPath (notBack_dedupLoop rest [s] segs h1 (.singleton _))

theorem dedup_parts {n : Nat} {p q : Path F} (h : dedup n p = .ok q) :
    ∃ a b, dedupOnce n p = .ok a ∧ dedupOnce n a = .ok b ∧ q = cleanup n b := by
  unfold dedup at h
  cases h1 : dedupOnce n p with
  | err => rw [h1] at h; simp at h
  | panic => rw [h1] at h; simp at h
  | ok a =>
    rw [h1] at h
    simp only [Res.ok_bind] at h
    cases h2 : dedupOnce n a with
    | err => rw [h2] at h; simp at h
    | panic => rw [h2] at h; simp at h
    | ok b =>
      rw [h2] at h
      simp only [Res.ok_bind, Res.pure_eq, Res.ok.injEq] at h
      exact ⟨a, b, rfl, h2, h.symm⟩

end Relations

section Fields

variable {K : Type u} [Field K] [LinearOrder K] [IsStrictOrderedRing K] [FloorRing K]

/-- A text without the character `d` that is followed by `d` can be read back. -/
theorem split_at (d : Char) : ∀ (a a' b b' : Text), (∀ c ∈ a, c ≠ d) → (∀ c ∈ a', c ≠ d) →
    a ++ d :: b = a' ++ d :: b' → a = a' ∧ b = b' := by
  intro a
  induction a with
  | nil =>
    intro a' b b' _ h' h
    cases a' with
    | nil => simpa using h
    | cons c a' => simp at h; exact absurd h.1.symm (h' c (by simp))
  | cons c a ih =>
    intro a' b b' ha h' h
    cases a' with
    | nil => simp at h; exact absurd h.1 (ha c (by simp))
    | cons c' a' =>
      simp at h
      obtain ⟨h1, h2⟩ := ih a' b b' (fun x hx => ha x (by simp [hx])) (fun x hx => h' x (by simp [hx])) h.2
      exact ⟨by rw [h.1, h1], h2⟩

theorem fmt_no_paren (n : Nat) (x : K) : ∀ c ∈ (Num.fmt n x : Text), c ≠ ')' := by
  intro c hc
  have := signedText_chars _ _ _ c hc
  rintro rfl
  revert this
  simp only [FmtChar]
  decide

theorem pairText_append (n : Nat) (p q : Point K) (a b : Text) (h : pairText n p ++ a = pairText n q ++ b) :
    PrintsSame n (pt p) (pt q) ∧ a = b := by
  simp only [pairText, List.append_assoc, List.cons_append, List.nil_append, List.cons.injEq, true_and] at h
  obtain ⟨h1, h2⟩ := split_at ',' _ _ _ _ (fun c hc => ((clean_fmt n p.x).sep c hc).2.1) (fun c hc => ((clean_fmt n q.x).sep c hc).2.1) h
  simp only [List.cons.injEq, true_and] at h2
  obtain ⟨h3, h4⟩ := split_at ')' _ _ _ _ (fmt_no_paren n p.y) (fmt_no_paren n q.y) h2
  exact ⟨⟨h1, h3⟩, h4⟩

/-- The texts of two segments tell exactly whether the second prints as the first backwards. -/
theorem uniqueString_back (n : Nat) (a b : Segment K) {s t : Stroke K} (ha : strokeOf a = some s) (hb : strokeOf b = some t) :
    uniqueString n b = uniqueString n a.reverse ↔ PrintsBack n s t := by
  cases a with
  | move _ _ => simp [strokeOf] at ha
  | line p q =>
    simp only [strokeOf, Option.some.injEq] at ha
    subst ha
    cases b with
    | move _ _ => simp [strokeOf] at hb
    | line p' q' =>
      simp only [strokeOf, Option.some.injEq] at hb
      subst hb
      constructor
      · intro h
        simp only [Segment.reverse, uniqueString, List.append_assoc, List.append_cancel_left_eq] at h
        obtain ⟨h1, h2⟩ := pairText_append _ _ _ _ _ h
        simp only [List.append_cancel_left_eq] at h2
        obtain ⟨h3, _⟩ := pairText_append n q' p [] [] (by simpa using h2)
        exact .line h1 h3
      · rintro (⟨h1, h2⟩ | _)
        simp only [Segment.reverse, uniqueString, pairText_prints h1, pairText_prints h2]
    | curve _ _ _ _ =>
      simp only [strokeOf, Option.some.injEq] at hb
      subst hb
      constructor
      · intro h
        simpa [Segment.reverse, uniqueString] using congrArg List.head? h
      · intro h; cases h
  | curve p c d q =>
    simp only [strokeOf, Option.some.injEq] at ha
    subst ha
    cases b with
    | move _ _ => simp [strokeOf] at hb
    | line p' q' =>
      simp only [strokeOf, Option.some.injEq] at hb
      subst hb
      constructor
      · intro h
        simpa [Segment.reverse, uniqueString] using congrArg List.head? h
      · intro h; cases h
    | curve p' c' d' q' =>
      simp only [strokeOf, Option.some.injEq] at hb
      subst hb
      constructor
      · intro h
        simp only [Segment.reverse, uniqueString, List.append_assoc, List.append_cancel_left_eq] at h
        obtain ⟨h1, h⟩ := pairText_append _ _ _ _ _ h
        simp only [List.append_cancel_left_eq] at h
        obtain ⟨h2, h⟩ := pairText_append _ _ _ _ _ h
        simp only [List.append_cancel_left_eq] at h
        obtain ⟨h3, h⟩ := pairText_append _ _ _ _ _ h
        simp only [List.append_cancel_left_eq] at h
        obtain ⟨h4, _⟩ := pairText_append n q' p [] [] (by simpa using h)
        exact .curve h1 h2 h3 h4
      · intro h
        cases h with
        | curve h1 h2 h3 h4 =>
          simp only [Segment.reverse, uniqueString, pairText_prints h1, pairText_prints h2, pairText_prints h3, pairText_prints h4]

theorem dedupStep_cancels {n : Nat} {acc acc' : List (Segment K)} {cur : Segment K} (h : dedupStep n acc cur = some acc') :
    Cancels n (strokes acc.reverse ++ (strokeOf cur).toList) (strokes acc'.reverse) := by
  cases acc with
  | nil => simp [dedupStep] at h
  | cons prev older =>
    cases hc : cur.isMove
    · have hstep : dedupStep n (prev :: older) cur =
          if uniqueString n cur = uniqueString n prev.reverse then some older else some (cur :: prev :: older) := by
        cases cur <;> simp_all [dedupStep, Segment.isMove]
      rw [hstep] at h
      split at h <;> simp only [Option.some.injEq] at h <;> subst h
      · next he =>
        cases hp : prev.isMove
        · obtain ⟨s, hs⟩ : ∃ s, strokeOf prev = some s := by cases prev <;> simp_all [strokeOf, Segment.isMove]
          obtain ⟨t, ht⟩ : ∃ t, strokeOf cur = some t := by cases cur <;> simp_all [strokeOf, Segment.isMove]
          rw [strokes_reverse_cons, hs, ht]
          have := (uniqueString_back n prev cur hs ht).1 he
          have e : strokes older.reverse ++ (some s).toList ++ (some t).toList = strokes older.reverse ++ s :: t :: [] := by simp
          rw [e]
          exact .pair this (by rw [List.append_nil]; exact .done _)
        · exact absurd he (uniqueString_move n hc (by simpa using hp))
      · rw [strokes_reverse_cons (F := K) cur]
        exact .done _
    · have hn : strokeOf cur = none := strokeOf_eq_none.2 hc
      cases cur with
      | line a b => simp [Segment.isMove] at hc
      | curve a b c d => simp [Segment.isMove] at hc
      | move a e =>
        rw [hn]
        simp only [Option.toList_none, List.append_nil]
        cases hp : prev.isMove
        · have hstep : dedupStep n (prev :: older) (.move a e) =
              if prev.stop.stringPrecision n = e.stringPrecision n then some (prev :: older) else some (.move a e :: prev :: older) := by
            cases prev <;> simp_all [dedupStep, Segment.isMove]
          rw [hstep] at h
          split at h <;> simp only [Option.some.injEq] at h <;> subst h
          · exact .done _
          · rw [strokes_reverse_cons (F := K) (.move a e), hn]; simpa using Cancels.done _
        · cases prev with
          | line a b => simp [Segment.isMove] at hp
          | curve a b c d => simp [Segment.isMove] at hp
          | move b c =>
            simp only [dedupStep, Option.some.injEq] at h
            subst h
            rw [strokes_reverse_cons, strokes_reverse_cons]
            simpa [strokeOf] using Cancels.done _

theorem dedupLoop_cancels {n : Nat} (rest : List (Segment K)) : ∀ (acc r : List (Segment K)), dedupLoop n acc rest = some r →
    Cancels n (strokes acc.reverse ++ strokes rest) (strokes r) := by
  induction rest with
  | nil => intro acc r h; simp only [dedupLoop, Option.some.injEq] at h; subst h; simpa [strokes] using Cancels.done _
  | cons s rest ih =>
    intro acc r h
    simp only [dedupLoop] at h
    split at h
    · simp at h
    · next acc' h1 =>
      rw [strokes_cons, ← List.append_assoc]
      exact cancels_trans (cancels_append_right (dedupStep_cancels h1) _) (ih acc' r h)

theorem dedupOnce_cancels {n : Nat} {p q : Path K} (h : dedupOnce n p = .ok q) : Cancels n (strokes p) (strokes q) := by
  unfold dedupOnce at h
  split at h
  · cases h; exact .done _
  · cases h; exact .done _
  · next s rest _ =>
    split at h
    · simp at h
    · next segs h1 =>
      cases h
      rw [strokes_newPath]
      have := dedupLoop_cancels rest [s] segs h1
      rw [List.reverse_singleton, ← strokes_append] at this
      exact this

/-- A list that is not empty stays so while nothing can be taken out. -/
theorem dedupLoop_keeps {n : Nat} (rest : List (Segment K)) : ∀ acc : List (Segment K), acc ≠ [] →
    List.IsChain (fun s t => ¬ PrintsBack n s t) (strokes acc.reverse ++ strokes rest) →
    ∃ r, dedupLoop n acc rest = some r := by
  induction rest with
  | nil => intro acc _ _; exact ⟨_, rfl⟩
  | cons s rest ih =>
    intro acc hne h
    obtain ⟨acc', h1⟩ : ∃ acc', dedupStep n acc s = some acc' := by
      cases acc with
      | nil => exact absurd rfl hne
      | cons prev older =>
        unfold dedupStep
        simp only
        split
        · split
          · exact ⟨_, rfl⟩
          · split <;> exact ⟨_, rfl⟩
        · split <;> exact ⟨_, rfl⟩
    have h2 : strokes acc.reverse ++ strokes (s :: rest) = strokes acc.reverse ++ (strokeOf s).toList ++ strokes rest := by
      rw [strokes_cons, List.append_assoc]
    rw [h2] at h
    have h3 := cancels_eq_of_chain (dedupStep_cancels h1) (List.isChain_append.1 h).1
    rw [← h3] at h
    have hne' : acc' ≠ [] := by
      rintro rfl
      simp only [List.reverse_nil, strokes, List.filterMap_nil] at h3
      have h4 : strokes acc.reverse = [] ∧ (strokeOf s).toList = [] := by simpa [strokes] using h3.symm
      have hm : s.isMove = true := strokeOf_eq_none.1 (by simpa using h4.2)
      cases acc with
      | nil => exact hne rfl
      | cons prev older =>
        cases s with
        | line a b => simp [Segment.isMove] at hm
        | curve a b c d => simp [Segment.isMove] at hm
        | move a e =>
          simp only [dedupStep] at h1
          split at h1
          · simp at h1
          · split at h1 <;> simp at h1
    obtain ⟨r, hr⟩ := ih acc' hne' h
    exact ⟨r, by simp [dedupLoop, h1, hr]⟩

theorem dedupOnce_keeps {n : Nat} {p : Path K} (h : List.IsChain (fun s t => ¬ PrintsBack n s t) (strokes p)) :
    ∃ q, dedupOnce n p = .ok q ∧ strokes q = strokes p := by
  have : ∃ q, dedupOnce n p = .ok q := by
    unfold dedupOnce
    split
    · exact ⟨_, rfl⟩
    · exact ⟨_, rfl⟩
    · next s rest _ =>
      obtain ⟨r, hr⟩ := dedupLoop_keeps rest [s] (by simp) (by rw [List.reverse_singleton, ← strokes_append]; exact h)
      rw [hr]
      exact ⟨_, rfl⟩
  obtain ⟨q, hq⟩ := this
  exact ⟨q, hq, cancels_eq_of_chain (dedupOnce_cancels hq) h⟩

end Fields

end Verif.Path
