import Verif.Model.Files
import Verif.Lemmas.Dynmap
import Verif.Num
import Mathlib.Data.List.Nodup
import Mathlib.Data.List.TakeWhile
import Mathlib.Tactic.FieldSimp
import Mathlib.Tactic.NormNum

/-!
# Properties of units and file names (C54, C55)
-/

set_option linter.unusedSectionVars false
set_option linter.unusedSimpArgs false

namespace Verif.Files

open Verif.Dyn Verif.Path

universe u

/-! ## C54 Units -/

section Units

variable {K : Type u} [Field K] [LinearOrder K] [IsStrictOrderedRing K]

theorem inchMM : (Arith.lit 254 1 : K) ≠ 0 := by
  show ((254 : ℤ) : K) / 10 ^ 1 ≠ 0
  norm_num

/-- **C54.** Inches to millimetres and back. -/
theorem C54_inch (x : K) : mmToInch (inchToMM x) = x := by
  show x * (Arith.lit 254 1 : K) / (Arith.lit 254 1 : K) = x
  exact mul_div_cancel_right₀ x inchMM

/-- **C54.** Millimetres to inches and back. -/
theorem C54_mm (x : K) : inchToMM (mmToInch x) = x := by
  show x / (Arith.lit 254 1 : K) * (Arith.lit 254 1 : K) = x
  exact div_mul_cancel₀ x inchMM

/-- **C54.** An inch is 25.4 millimetres. -/
theorem C54_factor (x : K) : inchToMM x = x * (254 / 10) ∧ mmToInch x = x / (254 / 10) := by
  constructor
  · show x * (((254 : ℤ) : K) / 10 ^ 1) = _
    norm_num
  · show x / (((254 : ℤ) : K) / 10 ^ 1) = _
    norm_num

/-- **C54.** A length given in either unit has one value in each unit: converting it to one unit and on to the other gives what converting
it directly gives. -/
theorem C54_units (u : Units) (x : K) : u.fromMM (inchToMM x) = u.fromInch x ∧ u.fromInch (mmToInch x) = u.fromMM x := by
  cases u
  · exact ⟨rfl, C54_mm x⟩
  · exact ⟨C54_inch x, rfl⟩

/-- A letter of a word, in upper or lower case. The Turkish capital i with a dot is one, too. -/
def Letter (c d : Char) : Prop := c.toLower = d ∨ c = 'İ' ∧ d = 'i'

/-- A word, each letter in upper or lower case. -/
def Word (s w : Text) : Prop := List.Forall₂ Letter s w

theorem word_iff (s w : Text) (hw : ∀ d ∈ w, d ≠ 'İ') : newUnits.lower s = w ↔ Word s w := by
  unfold newUnits.lower Word
  induction s generalizing w with
  | nil => cases w <;> simp
  | cons c s ih =>
    cases w with
    | nil => simp
    | cons d w =>
      have hl : (if c = 'İ' then 'i' else c.toLower) = d ↔ Letter c d := by
        have := hw d (by simp)
        unfold Letter
        split
        · rename_i h
          subst h
          constructor
          · rintro rfl
            exact .inr ⟨rfl, rfl⟩
          · rintro (h | ⟨_, h⟩)
            · exact absurd h.symm (by simpa using this)
            · exact h.symm
        · rename_i h
          simp [h]
      rw [List.map_cons, List.cons.injEq, hl, ih w (fun d hd => hw d (List.mem_cons_of_mem _ hd)), List.forall₂_cons]

/-- **C54.** The names of the units, in upper or lower case; any other name gives millimetres and is reported. -/
theorem C54_names (s : Text) :
    (newUnits s = (.inch, true) ↔ Word s ['i', 'n'] ∨ Word s ['i', 'n', 'c', 'h', 'e', 's']) ∧
    (newUnits s = (.mm, true) ↔ Word s ['m', 'm'] ∨ Word s ['m', 'i', 'l', 'l', 'i', 'm', 'e', 't', 'e', 'r', 's']) ∧
    ((newUnits s).2 = false → (newUnits s).1 = .mm) ∧
    (∀ d, (newUnits s).2 = false → mustUnits s d = d) ∧ (∀ d, (newUnits s).2 = true → mustUnits s d = (newUnits s).1) := by
  rw [← word_iff _ _ (by decide), ← word_iff _ _ (by decide), ← word_iff _ _ (by decide), ← word_iff _ _ (by decide)]
  refine ⟨?_, ?_, ?_, ?_, ?_⟩
  · unfold newUnits
    split
    · simp_all
    · split <;> simp_all
  · unfold newUnits
    split
    · rename_i h
      rcases h with h | h <;> simp [h]
    · split <;> simp_all
  · unfold newUnits
    split
    · simp
    · split <;> simp
  · intro d h; simp [mustUnits, h]
  · intro d h; simp [mustUnits, h]

example : inchToMM (2 : ℚ) = 508 / 10 ∧ mmToInch (127 : ℚ) = 5 ∧ newUnits ['I', 'n'] = (.inch, true) ∧
    newUnits ['c', 'm'] = (.mm, false) := by
  refine ⟨by rw [(C54_factor _).1]; norm_num, by rw [(C54_factor _).2]; norm_num, rfl, rfl⟩

end Units

/-! ## C55 Files -/

theorem last_sep {c : Char} {a a' b b' : Text} (hb : c ∉ b) (hb' : c ∉ b') (h : a ++ c :: b = a' ++ c :: b') : a = a' ∧ b = b' := by
  induction a generalizing a' with
  | nil =>
    cases a' with
    | nil => simpa using h
    | cons x xs =>
      simp only [List.nil_append, List.cons_append, List.cons.injEq] at h
      exact absurd (by rw [h.2]; simp) hb
  | cons y ys ih =>
    cases a' with
    | nil =>
      simp only [List.nil_append, List.cons_append, List.cons.injEq] at h
      exact absurd (by rw [← h.2]; simp) hb'
    | cons x xs =>
      simp only [List.cons_append, List.cons.injEq] at h
      obtain ⟨h1, h2⟩ := ih h.2
      exact ⟨by rw [h.1, h1], h2⟩

theorem digits_inj {i j : Nat} (h : digits i = digits j) : i = j := by
  have := congrArg (fun l => Nat.ofDigitChars 10 l 0) h
  simpa [digits, Nat.ofDigitChars_toDigits] using this

theorem pad3_inj {i j : Nat} (h : pad3 i = pad3 j) : i = j := by
  have := congrArg (fun l => Nat.ofDigitChars 10 l 0) h
  simpa [pad3, digits, Nat.ofDigitChars_append, Nat.ofDigitChars_toDigits] using this

theorem digits_isDigit {i : Nat} {c : Char} (h : c ∈ digits i) : c.isDigit = true :=
  Nat.isDigit_of_mem_toDigits (by decide) (by decide) h

theorem pad3_no_sep (i : Nat) : '_' ∉ pad3 i := by
  unfold pad3
  intro h
  rcases List.mem_append.1 h with h | h
  · have := List.eq_of_mem_replicate h
    revert this; decide
  · have := digits_isDigit h
    revert this; decide

theorem digits_no_dot (i : Nat) : '.' ∉ digits i := by
  intro h
  have := digits_isDigit h
  revert this; decide

/-- **C55.** The name of a file gives back the name it was saved under and the number of the sheet. -/
theorem C55_sheets (s t : Text) (i j : Nat) : sheetFile s i = sheetFile t j ↔ s = t ∧ i = j := by
  constructor
  · intro h
    have h' : (s ++ '_' :: pad3 i) ++ ['.', 's', 'v', 'g'] = (t ++ '_' :: pad3 j) ++ ['.', 's', 'v', 'g'] := by
      simpa [sheetFile] using h
    obtain ⟨h1, h2⟩ := last_sep (pad3_no_sep i) (pad3_no_sep j) (List.append_cancel_right h')
    exact ⟨h1, pad3_inj h2⟩
  · rintro ⟨rfl, rfl⟩; rfl

/-- **C55.** The same for the entries of a zip file. -/
theorem C55_zip (s t : Text) (i j : Nat) : zipEntry s i = zipEntry t j ↔ s = t ∧ i = j := by
  constructor
  · intro h
    have h' : (s ++ '.' :: digits i) ++ ['.', 's', 'v', 'g'] = (t ++ '.' :: digits j) ++ ['.', 's', 'v', 'g'] := by
      simpa [zipEntry] using h
    obtain ⟨h1, h2⟩ := last_sep (digits_no_dot i) (digits_no_dot j) (List.append_cancel_right h')
    exact ⟨h1, digits_inj h2⟩
  · rintro ⟨rfl, rfl⟩; rfl

/-- **C55.** The files of one plan have different names, one for each sheet. -/
theorem C55_plan (saveFile : Text) (sheets : Nat) : (saveFiles saveFile sheets).Nodup ∧ (saveFiles saveFile sheets).length = sheets := by
  refine ⟨?_, by simp [saveFiles]⟩
  exact List.Nodup.map (fun i j h => ((C55_sheets _ _ i j).1 h).2) List.nodup_range

theorem base_eq {a b : Text} (h : '/' ∉ b) : base (a ++ '/' :: b) = b := by
  unfold base
  have : (a ++ '/' :: b).reverse = b.reverse ++ '/' :: a.reverse := by simp
  rw [this, List.takeWhile_append_of_pos (by
    intro c hc
    have : c ≠ '/' := by rintro rfl; exact h (List.mem_reverse.1 hc)
    simpa using this)]
  simp

theorem base_plain {b : Text} (h : '/' ∉ b) : base b = b := by
  unfold base
  have : (b.reverse.takeWhile fun c => decide (c ≠ '/')) = b.reverse := by
    rw [List.takeWhile_eq_self_iff]
    intro c hc
    have : c ≠ '/' := by rintro rfl; exact h (List.mem_reverse.1 hc)
    simpa using this
  rw [this, List.reverse_reverse]

theorem base_no_slash (s : Text) : '/' ∉ base s := by
  intro h
  have := List.mem_takeWhile_imp (List.mem_reverse.1 h)
  simp at this

theorem ext_eq {a b : Text} (hb : '.' ∉ b) (hs : '/' ∉ a) (hs' : '/' ∉ b) : ext (a ++ '.' :: b) = '.' :: b := by
  have hp : base (a ++ '.' :: b) = a ++ '.' :: b := base_plain (by simp [hs, hs'])
  unfold ext
  rw [hp, if_pos (by simp)]
  have : (a ++ '.' :: b).reverse = b.reverse ++ '.' :: a.reverse := by simp
  rw [this, List.takeWhile_append_of_pos (by
    intro c hc
    have : c ≠ '.' := by rintro rfl; exact hb (List.mem_reverse.1 hc)
    simpa using this)]
  simp

theorem trimSuffix_eq (a b : Text) : trimSuffix (a ++ b) b = a := by
  unfold trimSuffix
  rw [if_pos (List.suffix_append a b)]
  simp

theorem splitOn_append_sep (c : Char) (d r : Text) (h : c ∉ r) : ∀ acc, splitOn c (d ++ c :: r) acc = splitOn c d acc ++ [r] := by
  induction d with
  | nil =>
    intro acc
    simp only [List.nil_append, splitOn, if_true]
    rw [splitOn_plain h]
    simp
  | cons x d ih =>
    intro acc
    simp only [List.cons_append, splitOn]
    split
    · rw [ih]; rfl
    · exact ih _

theorem slashes_snoc (l : List Text) (a : Text) : ∃ pre, slashes (l ++ [a]) = pre ++ a ∧ (pre = [] ∨ ∃ p, pre = p ++ ['/']) := by
  induction l with
  | nil => exact ⟨[], by simp [slashes], .inl rfl⟩
  | cons x l ih =>
    obtain ⟨pre, h1, h2⟩ := ih
    have : slashes (x :: (l ++ [a])) = x ++ '/' :: slashes (l ++ [a]) := by
      cases hl : l ++ [a] with
      | nil => simp at hl
      | cons y ys => rfl
    refine ⟨x ++ '/' :: pre, ?_, .inr ?_⟩
    · rw [List.cons_append, this, h1]; simp
    · rcases h2 with rfl | ⟨p, rfl⟩
      · exact ⟨x, rfl⟩
      · exact ⟨x ++ '/' :: p, by simp⟩

/-- The last component of a joined path. -/
theorem base_join {d fp : Text} (hd : d ≠ []) (hs : '/' ∉ fp) (h0 : fp ≠ []) (h1 : fp ≠ ['.']) (h2 : fp ≠ ['.', '.']) :
    base (join d fp) = fp := by
  unfold join
  rw [if_neg hd]
  unfold clean
  simp only [splitOn_append_sep '/' d fp hs, List.foldl_append, List.foldl_cons, List.foldl_nil]
  generalize decide ((d ++ '/' :: fp).head? = some '/') = rooted
  generalize (splitOn '/' d []).foldl (cleanStep rooted) [] = st
  have hstep : cleanStep rooted st fp = fp :: st := by simp [cleanStep, h0, h1, h2]
  rw [hstep, List.reverse_cons]
  obtain ⟨pre, hp, hor⟩ := slashes_snoc st.reverse fp
  rw [hp]
  have hne : (if rooted = true then '/' :: (pre ++ fp) else pre ++ fp) ≠ [] := by
    split <;> simp [h0]
  rw [if_neg hne]
  split
  · rcases hor with rfl | ⟨p, rfl⟩
    · have := base_eq (a := []) hs
      simpa using this
    · have := base_eq (a := '/' :: p) hs
      simpa using this
  · rcases hor with rfl | ⟨p, rfl⟩
    · simpa using base_plain hs
    · have := base_eq (a := p) hs
      simpa using this

/-- The name of a document: a stem that names a file, and the extension `.hfd`. -/
def IsDoc (path stem : Text) : Prop :=
  base path = stem ++ ['.', 'h', 'f', 'd'] ∧ stem ≠ [] ∧ stem ≠ ['.'] ∧ stem ≠ ['.', '.']

theorem IsDoc.stem {path stem : Text} (h : IsDoc path stem) : trimSuffix (base path) (ext (base path)) = stem := by
  have hs : '/' ∉ stem := by
    have := base_no_slash path
    rw [h.1] at this
    intro hm
    exact this (List.mem_append_left _ hm)
  rw [h.1, show (['.', 'h', 'f', 'd'] : Text) = '.' :: ['h', 'f', 'd'] from rfl, ext_eq (by decide) hs (by decide), trimSuffix_eq]

theorem clean_ne_nil (s : Text) : clean s ≠ [] := by
  unfold clean
  intro h
  dsimp only at h
  generalize (if decide (s.head? = some '/') = true then '/' :: slashes ((splitOn '/' s []).foldl (cleanStep (decide (s.head? = some '/'))) []).reverse
    else slashes ((splitOn '/' s []).foldl (cleanStep (decide (s.head? = some '/'))) []).reverse) = out at h
  by_cases ho : out = []
  · simp [ho] at h
  · rw [if_neg ho] at h; exact ho h

/-- The name a document is saved under ends in its stem. -/
theorem createFilename_base (isDir : Text → Bool) {dir path stem : Text} (hd : dir ≠ []) (hdir : isDir dir = true) (h : IsDoc path stem) :
    base (createFilename isDir dir path) = stem := by
  simp only [createFilename, if_neg hd, hdir, if_true]
  rw [h.stem]
  have hs : '/' ∉ stem := by
    have := base_no_slash path
    rw [h.1] at this
    intro hm
    exact this (List.mem_append_left _ hm)
  exact base_join (clean_ne_nil dir) hs h.2.1 h.2.2.1 h.2.2.2

/-- **C55.** A document that is rendered without an output file is saved under its own name without the extension, in the current directory. -/
theorem C55_default (isDir : Text → Bool) {path stem : Text} (h : IsDoc path stem) : createFilename isDir [] path = stem := by
  have he : ext path = ext (base path) := by
    unfold ext
    rw [base_plain (base_no_slash path)]
  simp only [createFilename, if_true, he]
  exact h.stem

/-- **C55.** In an output directory it is saved under its name too. -/
theorem C55_directory (isDir : Text → Bool) {dir path stem : Text} (hd : dir ≠ []) (hdir : isDir dir = true) (h : IsDoc path stem) :
    base (createFilename isDir dir path) = stem := createFilename_base isDir hd hdir h

/-- The full statement of C55 for `RenderAll`: different documents are saved in different files. -/
def C55_statement (isDir : Text → Bool) (dir : Text) (docs : List (Text × Nat)) : Prop :=
  (docs.map Prod.fst).Nodup → (renderAllFiles isDir dir docs).Nodup

/-- **C55**, for documents whose names without their directories are different: all the files written into the output directory have different
names. (Missing: documents of the same name in different directories, for which it fails.) -/
theorem C55_all_partial (isDir : Text → Bool) (dir : Text) (hd : dir ≠ []) (hdir : isDir dir = true) (docs : List (Text × Nat))
    (hdoc : ∀ d ∈ docs, ∃ stem, IsDoc d.1 stem) (hne : (docs.map fun d => base d.1).Nodup) :
    (renderAllFiles isDir dir docs).Nodup := by
  unfold renderAllFiles
  rw [List.nodup_flatMap]
  refine ⟨fun d _ => (C55_plan _ _).1, ?_⟩
  rw [List.Nodup, List.pairwise_map] at hne
  refine List.Pairwise.imp_of_mem ?_ hne
  intro a b ha hb hab f hfa hfb
  obtain ⟨sa, hsa⟩ := hdoc a ha
  obtain ⟨sb, hsb⟩ := hdoc b hb
  obtain ⟨i, _, rfl⟩ := List.mem_map.1 hfa
  obtain ⟨j, _, hj⟩ := List.mem_map.1 hfb
  have := ((C55_sheets _ _ _ _).1 hj).1
  have h1 := createFilename_base isDir hd hdir hsa
  have h2 := createFilename_base isDir hd hdir hsb
  rw [this, h1] at h2
  exact hab (by rw [hsa.1, hsb.1, h2])

/-- **C55** fails for documents of the same name in different directories, such as these two designs of the repository: the first sheet of
one is overwritten by the first sheet of the other. -/
theorem C55_directories_false :
    let isDir : Text → Bool := fun _ => true
    let dir : Text := "designs_rendered".toList
    let docs : List (Text × Nat) := [("designs/box/bottom.hfd".toList, 1), ("designs/game_cabinet/bottom.hfd".toList, 1)]
    renderAllFiles isDir dir docs = ["designs_rendered/bottom_000.svg".toList, "designs_rendered/bottom_000.svg".toList] ∧
    ¬ C55_statement isDir dir docs := by
  intro isDir dir docs
  have h : renderAllFiles isDir dir docs = ["designs_rendered/bottom_000.svg".toList, "designs_rendered/bottom_000.svg".toList] := by
    decide +kernel
  refine ⟨h, ?_⟩
  intro hs
  have := hs (by decide)
  rw [h] at this
  simp at this

/-- Two designs of the repository whose files do not collide. -/
example : renderAllFiles (fun _ => true) "out/".toList [("designs/box/bottom.hfd".toList, 2), ("designs/box/top.hfd".toList, 1)] =
    ["out/bottom_000.svg".toList, "out/bottom_001.svg".toList, "out/top_000.svg".toList] := by
  decide +kernel

end Verif.Files
