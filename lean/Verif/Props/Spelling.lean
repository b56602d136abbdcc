import Verif.Props.PathText

/-!
# C18 How the text of a path may be spelled

Between the letters and numbers of a path there may be any number of blanks, commas, tabs and line ends, and none at all where a letter and a digit or a point meet.
-/

namespace Verif.Path

open Verif Verif.Spec

universe u

set_option linter.unusedSectionVars false

/-- A character that separates the words of a path. -/
def Separates (c : Char) : Prop := c = ' ' ∨ c = ',' ∨ c = '\n' ∨ c = '\t' ∨ c = '\r'

/-- A letter of the Latin alphabet. -/
def Latin (c : Char) : Prop := ('a' ≤ c ∧ c ≤ 'z') ∨ ('A' ≤ c ∧ c ≤ 'Z')

/-- A digit or a point. -/
def Numeric (c : Char) : Prop := ('0' ≤ c ∧ c ≤ '9') ∨ c = '.'

/-- A word: a command, or a number without an exponent. -/
def Word (t : Text) : Prop := t ≠ [] ∧ (∀ c ∈ t, ¬ Separates c) ∧ ((∀ c ∈ t, ¬ Latin c) ∨ ∀ c ∈ t, ¬ Numeric c)

/-- A letter and a digit or a point meet. -/
def Meets (c d : Char) : Prop := (Latin c ∧ Numeric d) ∨ (Numeric c ∧ Latin d)

/-- The text spells these words. -/
inductive SpellsWords : List Text → Text → Prop where
  | nil {s : Text} : (∀ c ∈ s, Separates c) → SpellsWords [] s
  | cons {sep t s : Text} {ts : List Text} : (∀ c ∈ sep, Separates c) → Word t → SpellsWords ts s →
      (∀ d ∈ s.head?, Separates d ∨ ∀ c ∈ t.getLast?, Meets c d) → SpellsWords (t :: ts) (sep ++ t ++ s)

theorem isAlpha_iff (c : Char) : isAlpha c = true ↔ Latin c := by simp [isAlpha, Latin]

theorem isNumChar_iff (c : Char) : isNumChar c = true ↔ Numeric c := by simp [isNumChar, Numeric]

theorem Word.clean {t : Text} (h : Word t) : Clean t := by
  obtain ⟨h1, h2, h3⟩ := h
  refine ⟨h1, fun c hc => ?_, ?_⟩
  · have := h2 c hc
    simp only [Separates, not_or] at this
    exact this
  · rcases h3 with h3 | h3
    · exact .inl fun c hc => by rw [← Bool.not_eq_true, isAlpha_iff]; exact h3 c hc
    · exact .inr fun c hc => by rw [← Bool.not_eq_true, isNumChar_iff]; exact h3 c hc

/-- What comes between two texts. -/
def wordGap (left right : Char → Bool) (a b : Text) : Text :=
  match a.getLast?, b.head? with
  | some c, some d => if left c && right d then [' '] else []
  | _, _ => []

theorem separate_wordGap (left right : Char → Bool) : ∀ a b, separate left right (a ++ b) = separate left right a ++ wordGap left right a b ++ separate left right b
  | [], b => by simp [wordGap, separate]
  | [c], [] => by simp [wordGap, separate]
  | [c], d :: b => by
    simp only [List.cons_append, List.nil_append, separate, wordGap, List.getLast?_singleton, List.head?_cons]
    split <;> simp
  | c :: d :: a, b => by
    have ih := separate_wordGap left right (d :: a) b
    have hg : wordGap left right (c :: d :: a) b = wordGap left right (d :: a) b := by simp [wordGap, List.getLast?_cons_cons]
    simp only [List.cons_append] at ih ⊢
    simp only [separate]
    rw [ih, hg]
    split <;> simp

theorem separate_head (left right : Char → Bool) (s : Text) : (separate left right s).head? = s.head? := by
  match s with
  | [] => rfl
  | [c] => rfl
  | c :: d :: s => simp only [separate]; split <;> rfl

theorem separate_blank {left right : Char → Bool} (hl : left ' ' = false) (s : Text) : separate left right (' ' :: s) = ' ' :: separate left right s := by
  have := separate_wordGap left right [' '] s
  rw [List.singleton_append] at this
  rw [this]
  have hg : wordGap left right [' '] s = [] := by
    unfold wordGap
    simp only [List.getLast?_singleton]
    cases s.head? <;> simp [hl]
  rw [hg]
  rfl

theorem spaceCommands_blank (s : Text) : spaceCommands (' ' :: s) = ' ' :: spaceCommands s := by
  unfold spaceCommands
  rw [separate_blank (by decide), separate_blank (by decide)]

/-- Before a text that does not touch it, a word stays apart. -/
theorem spaceCommands_word {t : Text} (ht : Clean t) (s : Text) :
    spaceCommands (t ++ s) = t ++ spaceCommands s ∨ spaceCommands (t ++ s) = t ++ ' ' :: spaceCommands s := by
  have g : ∀ l r a b, wordGap l r a b = [] ∨ wordGap l r a b = [' '] := by
    intro l r a b
    unfold wordGap
    split
    · split
      · exact .inr rfl
      · exact .inl rfl
    · exact .inl rfl
  unfold spaceCommands
  rw [separate_wordGap, separate_clean (left := isAlpha) (right := isNumChar) ht.one]
  rcases g isAlpha isNumChar t s with h | h
  · rw [h, List.append_nil, separate_wordGap, separate_clean (left := isNumChar) (right := isAlpha) ht.one.symm]
    rcases g isNumChar isAlpha t (separate isAlpha isNumChar s) with h' | h'
    · rw [h']; simp
    · rw [h']; simp
  · rw [h]
    right
    rw [List.append_assoc, List.singleton_append, separate_append (by decide) (by decide), separate_clean (left := isNumChar) (right := isAlpha) ht.one.symm]

/-- Where a letter and a digit or a point meet, they are parted. -/
theorem spaceCommands_meet {t : Text} (ht : Clean t) {s : Text} {c d : Char} (hc : t.getLast? = some c) (hd : s.head? = some d) (hm : Meets c d) :
    spaceCommands (t ++ s) = t ++ ' ' :: spaceCommands s := by
  unfold spaceCommands
  rw [separate_wordGap, separate_clean (left := isAlpha) (right := isNumChar) ht.one]
  by_cases h : wordGap isAlpha isNumChar t s = []
  · rw [h, List.append_nil, separate_wordGap, separate_clean (left := isNumChar) (right := isAlpha) ht.one.symm]
    have : wordGap isNumChar isAlpha t (separate isAlpha isNumChar s) = [' '] := by
      unfold wordGap at h ⊢
      rw [separate_head, hc, hd] at *
      simp only at h ⊢
      rcases hm with ⟨h1, h2⟩ | ⟨h1, h2⟩
      · rw [(isAlpha_iff c).2 h1, (isNumChar_iff d).2 h2] at h
        simp at h
      · rw [(isAlpha_iff d).2 h2, (isNumChar_iff c).2 h1]
        rfl
    rw [this]; simp
  · have h' : wordGap isAlpha isNumChar t s = [' '] := by
      unfold wordGap at h ⊢
      rw [hc, hd] at h ⊢
      simp only at h ⊢
      by_cases hb : (isAlpha c && isNumChar d) = true
      · rw [if_pos hb]
      · rw [if_neg hb] at h; exact absurd rfl h
    rw [h', List.append_assoc, List.singleton_append, separate_append (by decide) (by decide), separate_clean (left := isNumChar) (right := isAlpha) ht.one.symm]

theorem spaced_append (a b : Text) : spaced (a ++ b) = spaced a ++ spaced b := by simp [spaced]

theorem spaced_separators {s : Text} (h : ∀ c ∈ s, Separates c) : spaced s = List.replicate s.length ' ' := by
  unfold spaced
  rw [List.eq_replicate_iff]
  refine ⟨by simp, fun b hb => ?_⟩
  obtain ⟨c, hc, rfl⟩ := List.mem_map.1 hb
  have := h c hc
  rcases this with rfl | rfl | rfl | rfl | rfl <;> decide

theorem spaced_clean {t : Text} (ht : Clean t) : spaced t = t := by
  unfold spaced
  conv_rhs => rw [← List.map_id t]
  apply List.map_congr_left
  intro c hc
  obtain ⟨-, a, b, c', d⟩ := ht.sep c hc
  simp [a, b, c', d]

theorem split_blanks (n : Nat) (s : Text) : splitSpaces (spaceCommands (List.replicate n ' ' ++ s)) [] = splitSpaces (spaceCommands s) [] := by
  induction n with
  | zero => rfl
  | succ n ih => rw [List.replicate_succ, List.cons_append, spaceCommands_blank, splitSpaces, if_pos rfl, if_pos rfl, ih]

/-- **C18.** Whatever separates the words of a path, and wherever a letter and a digit or a point meet without a separator: the text is read as its words. -/
theorem C18_spelled (its : List Text) (s : Text) (h : SpellsWords its s) : items s = its := by
  induction h with
  | nil h =>
    unfold items
    rw [spaced_separators h]
    have := split_blanks
    rename_i s
    have e := this s.length []
    rw [List.append_nil] at e
    rw [e]
    rfl
  | @cons sep t s ts hsep ht _sp hm ih =>
    unfold items at ih ⊢
    have hc := ht.clean
    rw [spaced_append, spaced_append, spaced_separators hsep, spaced_clean hc, List.append_assoc, split_blanks]
    have parted : splitSpaces (t ++ ' ' :: spaceCommands (spaced s)) [] = t :: ts := by
      rw [splitSpaces_clean (fun c hc' => (hc.sep c hc').1), splitSpaces, if_pos rfl, List.nil_append, if_neg hc.ne, ih]
    cases hs : s with
    | nil =>
      subst hs
      have e : spaceCommands (t ++ spaced []) = t := by
        show spaceCommands (t ++ []) = t
        rw [List.append_nil]
        unfold spaceCommands
        rw [separate_clean (left := isAlpha) (right := isNumChar) hc.one, separate_clean (left := isNumChar) (right := isAlpha) hc.one.symm]
      have ets : ts = [] := by rw [← ih]; rfl
      rw [e, ets]
      have := splitSpaces_clean (fun c hc' => (hc.sep c hc').1) [] []
      rw [List.append_nil] at this
      rw [this, splitSpaces, List.nil_append, if_neg hc.ne]
    | cons d s' =>
      rw [← hs]
      have hd : s.head? = some d := by rw [hs]; rfl
      rcases hm d (by rw [hd]; rfl) with hsd | hmeet
      · have e : spaced s = ' ' :: spaced s' := by
          rw [hs, ← List.singleton_append, spaced_append, spaced_separators (s := [d]) (by simpa using hsd)]
          rfl
        have e2 : spaceCommands (t ++ ' ' :: spaced s') = t ++ ' ' :: spaceCommands (spaced s') := by
          rcases spaceCommands_word hc (' ' :: spaced s') with h | h
          · rw [h, spaceCommands_blank]
          · unfold spaceCommands
            rw [separate_append (by decide) (by decide), separate_clean (left := isAlpha) (right := isNumChar) hc.one,
              separate_append (by decide) (by decide), separate_clean (left := isNumChar) (right := isAlpha) hc.one.symm]
        rw [e, e2, splitSpaces_clean (fun c hc' => (hc.sep c hc').1), splitSpaces, if_pos rfl, List.nil_append, if_neg hc.ne]
        rw [e, spaceCommands_blank, splitSpaces, if_pos rfl, if_pos rfl] at ih
        rw [ih]
      · obtain ⟨c, hl⟩ : ∃ c, t.getLast? = some c := by
          cases h : t.getLast? with
          | none => exact absurd (List.getLast?_eq_none_iff.1 h) hc.ne
          | some c => exact ⟨c, rfl⟩
        have hcd := hmeet c (by rw [hl]; rfl)
        have hd' : (spaced s).head? = some d := by
          have hns : ¬ Separates d := by
            rcases hcd with ⟨-, h⟩ | ⟨-, h⟩
            · rintro (rfl | rfl | rfl | rfl | rfl) <;> revert h <;> unfold Numeric <;> decide
            · rintro (rfl | rfl | rfl | rfl | rfl) <;> revert h <;> unfold Latin <;> decide
          simp only [Separates, not_or] at hns
          rw [hs]
          simp [spaced, hns.2.1, hns.2.2.1, hns.2.2.2.1, hns.2.2.2.2]
        rw [spaceCommands_meet hc hl hd' hcd, parted]

/-- **C18.** So two texts that spell the same words are the same path. -/
theorem C18_same_path {F : Type u} [Trig F] (its : List Text) (s s' : Text) (h : SpellsWords its s) (h' : SpellsWords its s') :
    parsePath (F := F) s = parsePath s' := by
  unfold parsePath
  rw [C18_spelled its s h, C18_spelled its s' h']

/-- Not vacuous: a line end, a tab and commas, and no blanks around the letters. -/
example : SpellsWords ["M".toList, "1.5".toList, "-2".toList, "L".toList, ".5".toList, "0".toList] "\r\nM1.5,\t-2L.5 ,0\n".toList := by
  have w : ∀ t ∈ ["M".toList, "1.5".toList, "-2".toList, "L".toList, ".5".toList, "0".toList], Word t := by
    unfold Word Separates Latin Numeric
    decide +kernel
  refine .cons (sep := "\r\n".toList) (t := "M".toList) (s := "1.5,\t-2L.5 ,0\n".toList) (by unfold Separates; decide +kernel) (w _ (by simp)) ?_
    (by unfold Separates Meets Latin Numeric; decide +kernel)
  refine .cons (sep := []) (t := "1.5".toList) (s := ",\t-2L.5 ,0\n".toList) (by simp) (w _ (by simp)) ?_ (by unfold Separates Meets Latin Numeric; decide +kernel)
  refine .cons (sep := ",\t".toList) (t := "-2".toList) (s := "L.5 ,0\n".toList) (by unfold Separates; decide +kernel) (w _ (by simp)) ?_
    (by unfold Separates Meets Latin Numeric; decide +kernel)
  refine .cons (sep := []) (t := "L".toList) (s := ".5 ,0\n".toList) (by simp) (w _ (by simp)) ?_ (by unfold Separates Meets Latin Numeric; decide +kernel)
  refine .cons (sep := []) (t := ".5".toList) (s := " ,0\n".toList) (by simp) (w _ (by simp)) ?_ (by unfold Separates Meets Latin Numeric; decide +kernel)
  refine .cons (sep := " ,".toList) (t := "0".toList) (s := "\n".toList) (by unfold Separates; decide +kernel) (w _ (by simp)) (.nil (by unfold Separates; decide +kernel))
    (by unfold Separates Meets Latin Numeric; decide +kernel)

end Verif.Path
