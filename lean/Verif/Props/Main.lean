import Verif.Model.Main
import Verif.Props.FileSystem
import Verif.Props.Dynmap
import Verif.Props.Typecast
import Verif.Lemmas.Document

/-!
# Properties of the program: its commands, its flags and the server (C111, C112)
-/

namespace Verif.Files

open Verif.Dyn Verif.Path

universe u

variable {F : Type u}

/-! ## C111 Commands and flags -/

/-- The names of flags. -/
def flagNames : List Text := ["path".toList, "output_file".toList, "render_dir".toList, "output_dir".toList, "compare_dir".toList]

/-- The value of a flag. -/
def Flags.value (f : Flags) (name : Text) : Text :=
  if name = "path".toList then f.path
  else if name = "output_file".toList then f.outputFile
  else if name = "render_dir".toList then f.renderDir
  else if name = "output_dir".toList then f.outputDir
  else f.compareDir

/-- Four ways to write a flag and its value. -/
inductive Written (name value : Text) : List Text → Prop where
  | one : Written name value ['-' :: name ++ '=' :: value]
  | two : Written name value ['-' :: '-' :: name ++ '=' :: value]
  | apart : Written name value ['-' :: name, value]
  | apart2 : Written name value ['-' :: '-' :: name, value]

theorem set_some (f : Flags) {name : Text} (h : name ∈ flagNames) (v : Text) :
    ∃ f', f.set name v = some f' ∧ ∀ n ∈ flagNames, f'.value n = if n = name then v else f.value n := by
  have h01 : "path".toList ≠ "output_file".toList := by decide
  have h02 : "path".toList ≠ "render_dir".toList := by decide
  have h03 : "path".toList ≠ "output_dir".toList := by decide
  have h04 : "path".toList ≠ "compare_dir".toList := by decide
  have h10 : "output_file".toList ≠ "path".toList := by decide
  have h12 : "output_file".toList ≠ "render_dir".toList := by decide
  have h13 : "output_file".toList ≠ "output_dir".toList := by decide
  have h14 : "output_file".toList ≠ "compare_dir".toList := by decide
  have h20 : "render_dir".toList ≠ "path".toList := by decide
  have h21 : "render_dir".toList ≠ "output_file".toList := by decide
  have h23 : "render_dir".toList ≠ "output_dir".toList := by decide
  have h24 : "render_dir".toList ≠ "compare_dir".toList := by decide
  have h30 : "output_dir".toList ≠ "path".toList := by decide
  have h31 : "output_dir".toList ≠ "output_file".toList := by decide
  have h32 : "output_dir".toList ≠ "render_dir".toList := by decide
  have h34 : "output_dir".toList ≠ "compare_dir".toList := by decide
  have h40 : "compare_dir".toList ≠ "path".toList := by decide
  have h41 : "compare_dir".toList ≠ "output_file".toList := by decide
  have h42 : "compare_dir".toList ≠ "render_dir".toList := by decide
  have h43 : "compare_dir".toList ≠ "output_dir".toList := by decide
  unfold flagNames at *
  unfold Flags.set Flags.value
  generalize "path".toList = n0, "output_file".toList = n1, "render_dir".toList = n2, "output_dir".toList = n3, "compare_dir".toList = n4 at *
  simp only [List.mem_cons, List.not_mem_nil, or_false] at h
  rcases h with rfl | rfl | rfl | rfl | rfl
  · exact ⟨{ f with path := v }, by simp [*], by simp [*]⟩
  · exact ⟨{ f with outputFile := v }, by simp [*], by simp [*]⟩
  · exact ⟨{ f with renderDir := v }, by simp [*], by simp [*]⟩
  · exact ⟨{ f with outputDir := v }, by simp [*], by simp [*]⟩
  · exact ⟨{ f with compareDir := v }, by simp [*], by simp [*]⟩

theorem nameValue_eq {c : Char} {s : Text} (h : '=' ∉ s) (v : Text) : nameValue c (s ++ '=' :: v) = .flag (c :: s) (some v) := by
  have hall : ∀ x ∈ s, (fun x : Char => decide (x ≠ '=')) x = true := by
    intro x hx
    have : x ≠ '=' := by rintro rfl; exact h hx
    simpa using this
  unfold nameValue
  rw [if_pos (by simp), List.takeWhile_append_of_pos hall, List.dropWhile_append_of_pos hall]
  simp

theorem parse_written (f : Flags) {name v : Text} (h : name ∈ flagNames) {l : List Text} (hl : Written name v l) (rest : List Text) :
    parseFlags f (l ++ rest) = (f.set name v).bind fun f' => parseFlags f' rest := by
  obtain ⟨c, s, rfl, hc, hc', hs⟩ : ∃ c s, name = c :: s ∧ c ≠ '-' ∧ c ≠ '=' ∧ '=' ∉ s := by
    simp only [flagNames, List.mem_cons, List.not_mem_nil, or_false] at h
    rcases h with rfl | rfl | rfl | rfl | rfl <;> exact ⟨_, _, rfl, by decide, by decide, by decide⟩
  have r1 : ∀ t, readArg ('-' :: c :: t) = nameValue c t := by
    intro t
    unfold readArg
    split
    · rename_i h; simp at h; exact absurd h.1 hc
    · rename_i h; simp at h; obtain ⟨rfl, rfl⟩ := h; rw [if_neg hc']
    · rename_i h; simp at h
  have r2 : ∀ t, readArg ('-' :: '-' :: c :: t) = nameValue c t := by
    intro t
    simp [readArg, hc, hc']
  have hn : nameValue c s = .flag (c :: s) none := by rw [nameValue, if_neg hs]
  cases hl with
  | one =>
    simp only [List.cons_append, List.nil_append]
    rw [parseFlags, r1, nameValue_eq hs]
  | two =>
    simp only [List.cons_append, List.nil_append]
    rw [parseFlags, r2, nameValue_eq hs]
  | apart =>
    simp only [List.cons_append, List.nil_append]
    rw [parseFlags.eq_def]
    simp only [r1, hn]
  | apart2 =>
    simp only [List.cons_append, List.nil_append]
    rw [parseFlags.eq_def]
    simp only [r2, hn]

/-- **C111.** Flags, each written in any of the four ways, and then an argument that is not one, or nothing: all of them are read, the last value
of a flag counts, and what follows is not read. -/
theorem C111_flags (f : Flags) (given : List (Text × Text)) (hn : ∀ e ∈ given, e.1 ∈ flagNames) (ls : List (List Text))
    (hl : List.Forall₂ (fun e l => Written e.1 e.2 l) given ls) (rest : List Text) (hr : ∀ a ∈ rest.head?, readArg a = .stop) :
    ∃ f', parseFlags f (ls.flatten ++ rest) = some f' ∧ ∀ n ∈ flagNames, f'.value n = (given.reverse.lookup n).getD (f.value n) := by
  induction hl generalizing f with
  | nil =>
    refine ⟨f, ?_, fun n _ => rfl⟩
    cases rest with
    | nil => rfl
    | cons a rest =>
      have := hr a rfl
      simp only [List.flatten_nil, List.nil_append]
      rw [parseFlags, this]
  | @cons e l given ls he _ ih =>
    obtain ⟨f1, h1, h2⟩ := set_some f (hn e (by simp)) e.2
    obtain ⟨f', h3, h4⟩ := ih f1 fun x hx => hn x (by simp [hx])
    refine ⟨f', ?_, ?_⟩
    · rw [List.flatten_cons, List.append_assoc, parse_written f (hn e (by simp)) he, h1]
      exact h3
    · intro n hm
      rw [h4 n hm, h2 n hm, List.reverse_cons, List.lookup_append]
      cases given.reverse.lookup n with
      | some v => rfl
      | none =>
        by_cases hne : n = e.1
        · subst hne; simp [List.lookup]
        · have : (n == e.1) = false := by simpa using hne
          simp [List.lookup, this, hne]

example : parseFlags Flags.start ["-path=a.hfd".toList, "--output_file".toList, "x".toList, "-path".toList, "b.hfd".toList, "rest".toList, "-bad".toList] =
    some { Flags.start with path := "b.hfd".toList, outputFile := "x".toList } := by decide +kernel

theorem readArg_plain {a : Text} (h : a.head? ≠ some '-') : readArg a = .stop := by
  unfold readArg
  split
  · simp at h
  · simp at h
  · rfl

/-- **C111.** `render` followed by a file: all other arguments are ignored, and the sheets go into the working directory, named like the document. -/
theorem C111_render (env : Env F) (file : Text) (rest : List Text) (fs : FS) (h : file.head? ≠ some '-') (h0 : file ≠ []) :
    run env ("render".toList :: file :: rest) fs =
      match env.renderer fs file with
      | .err => (fs, .fatal)
      | .panic => (fs, .panic)
      | .ok sheets => ((save fs (createFilename fs.isDir [] file) 0 sheets).1, exitOf (save fs (createFilename fs.isDir [] file) 0 sheets).2) := by
  have hp : parseFlags Flags.start (file :: rest) = some Flags.start := by rw [parseFlags, readArg_plain h]
  unfold run
  simp only
  rw [hp]
  simp only [runCommand]
  rw [if_neg (by decide), if_pos trivial, runRender]
  simp only [Flags.start]
  rw [if_pos trivial, if_neg h0]
  cases env.renderer fs file <;> rfl

/-- **C111.** What is not: the flag for the output has no effect after the file. -/
theorem C111_output_false : ¬ ∀ (env : Env Nat) (file out : Text) (fs : FS), file.head? ≠ some '-' → file ≠ [] → out ≠ [] →
    ∀ sheets, env.renderer fs file = .ok sheets →
    (run env ["render".toList, file, "-output_file".toList, out] fs).1 = (save fs (createFilename fs.isDir out file) 0 sheets).1 := by
  intro h
  let env : Env Nat := ⟨fun _ => [], fun _ => 0, fun _ => some [], fun _ _ => .ok [([], false)], fun _ _ => [], fun _ => none⟩
  let fs : FS := ⟨.dir [("a.hfd".toList, .file [])], []⟩
  have := h env "a.hfd".toList "b.svg".toList fs (by decide) (by decide) (by decide) [([], false)] (by decide +kernel)
  have := congrArg (fun f => f.isDir "a_000.svg".toList || f.bytes "b_000.svg".toList = [] && (f.find "b_000.svg".toList).isSome) this
  revert this
  decide +kernel

/-- **C111.** `render` alone panics. -/
theorem C111_render_alone (env : Env F) (fs : FS) : run env ["render".toList] fs = (fs, .panic) := rfl

/-- **C111.** With a flag in front, the argument is still taken for the file: `render -output_file x a.hfd` looks for a file of the name
`-output_file`. -/
theorem C111_render_flag_first (env : Env F) (out : Text) (rest : List Text) (fs : FS) (hr : ∀ a ∈ rest.head?, readArg a = .stop)
    (h : fs.find "-output_file".toList = none) : run env ("render".toList :: "-output_file".toList :: out :: rest) fs = (fs, .fatal) := by
  have hp := parse_written Flags.start (name := "output_file".toList) (v := out) (by decide) (l := ["-output_file".toList, out]) .apart rest
  have hp' : parseFlags Flags.start ("-output_file".toList :: out :: rest) = some { Flags.start with outputFile := out } := by
    have e : Flags.start.set "output_file".toList out = some { Flags.start with outputFile := out } := rfl
    rw [e] at hp
    refine hp.trans ?_
    simp only [Option.bind_some]
    cases rest with
    | nil => rfl
    | cons a rest => rw [parseFlags, hr a rfl]
  unfold run
  simp only
  rw [hp']
  simp only [runCommand]
  rw [if_neg (by decide), if_pos trivial, runRender]
  simp only [Flags.start]
  rw [if_pos trivial, if_neg (by decide)]
  have : env.renderer fs "-output_file".toList = .err := by
    simp only [Env.renderer, renderPlanSet]
    rw [h]
  rw [this]

/-- **C111.** The way that works: the file as a flag too. -/
theorem C111_render_path (env : Env F) (file out : Text) (rest : List Text) (fs : FS) (hr : ∀ a ∈ rest.head?, readArg a = .stop) (h0 : file ≠ []) :
    run env ("render".toList :: "-path".toList :: file :: "-output_file".toList :: out :: rest) fs =
      match env.renderer fs file with
      | .err => (fs, .fatal)
      | .panic => (fs, .panic)
      | .ok sheets => ((save fs (createFilename fs.isDir out file) 0 sheets).1, exitOf (save fs (createFilename fs.isDir out file) 0 sheets).2) := by
  have hp := parse_written Flags.start (name := "path".toList) (v := file) (by decide) (l := ["-path".toList, file]) .apart
    ("-output_file".toList :: out :: rest)
  have hp2 := parse_written { Flags.start with path := file } (name := "output_file".toList) (v := out) (by decide) (l := ["-output_file".toList, out]) .apart rest
  have hp' : parseFlags Flags.start ("-path".toList :: file :: "-output_file".toList :: out :: rest) =
      some { Flags.start with path := file, outputFile := out } := by
    have e : Flags.start.set "path".toList file = some { Flags.start with path := file } := rfl
    have e2 : Flags.set { Flags.start with path := file } "output_file".toList out = some { Flags.start with path := file, outputFile := out } := rfl
    rw [e] at hp
    rw [e2] at hp2
    refine hp.trans (hp2.trans ?_)
    simp only [Option.bind_some]
    cases rest with
    | nil => rfl
    | cons a rest => rw [parseFlags, hr a rfl]
  unfold run
  simp only
  rw [hp']
  simp only [runCommand]
  rw [if_neg (by decide), if_pos trivial, runRender]
  simp only
  rw [if_neg h0, if_neg h0]
  cases env.renderer fs file <;> rfl

/-- **C111.** `render_all` does nothing without the flag for the output directory. -/
theorem C111_render_all (env : Env F) (rest : List Text) (fs : FS) (f : Flags) (h : parseFlags Flags.start rest = some f) (ho : f.outputDir = []) :
    run env ("render_all".toList :: rest) fs = (fs, .done) := by
  unfold run
  simp only
  rw [h]
  simp only [runCommand]
  rw [if_neg (by decide), if_neg (by decide), if_pos trivial, ho, C110_default]
  rfl

theorem removeAll_cwd (l : List Text) (fs : FS) : (removeAll fs l).1.cwd = fs.cwd := by
  induction l generalizing fs with
  | nil => rfl
  | cons s l ih =>
    rw [removeAll]
    cases h : fs.remove s with
    | none => rfl
    | some fs' =>
      simp only
      rw [ih]
      unfold FS.remove at h
      split at h
      · obtain ⟨r, _, rfl⟩ := Option.map_eq_some_iff.mp h
        rfl
      · cases h

theorem clearDir_cwd (fs : FS) (d e : Text) : (clearDir fs d e).1.cwd = fs.cwd := by
  unfold clearDir
  split
  · rfl
  · exact removeAll_cwd _ fs

/-- **C111.** After `designs_updated`, the files below `designs_rendered` that end in `svg` are sheets of the documents below `designs`: no old
ones are left. -/
theorem C111_updated (env : Env F) (fs : FS) (hw : WellNamed fs.root) (hr : ∀ c, fs.root ≠ .file c)
    (hl : (fileList fs "designs_rendered".toList "svg".toList).2 = true) (q : List Text) (c : Text) :
    let r := run env ["designs_updated".toList] fs
    FileAt r.1 (resolve fs.cwd "designs_rendered".toList ++ q) c → EndsIn "svg".toList "designs_rendered".toList q →
    ∃ f ∈ (fileList (clearDir fs "designs_rendered".toList "svg".toList).1 "designs".toList "hfd".toList).1, ∃ i,
      resolve fs.cwd "designs_rendered".toList ++ q = resolve fs.cwd (sheetFile (createFilename r.1.isDir "designs_rendered".toList f) i) := by
  intro r hf he
  by_contra hc
  push Not at hc
  have hr1 : r.1 = (renderAll env.renderer (clearDir fs "designs_rendered".toList "svg".toList).1 "designs".toList "designs_rendered".toList).1 := rfl
  have hcl := C108_clear fs "designs_rendered".toList "svg".toList hw hr (by decide)
  have hcwd : (clearDir fs "designs_rendered".toList "svg".toList).1.cwd = fs.cwd := by
    exact clearDir_cwd fs _ _
  rw [hr1] at hf hc
  have := (C110_frame env.renderer (clearDir fs "designs_rendered".toList "svg".toList).1 "designs".toList "designs_rendered".toList _ c
    (by rw [hcwd]; exact fun f hf i => hc f hf i)).mp hf
  exact ((hcl.2.2 hl _ _).mp this).2 ⟨q, rfl, he⟩

/-- The places of paths are made of names. -/
theorem resolve_names {cwd : List Text} (hc : ∀ x ∈ cwd, Name x) (s : Text) : ∀ x ∈ resolve cwd s, Name x := by
  have key : ∀ (l : List Text), (∀ c ∈ l, '/' ∉ c) → ∀ st : List Text, (∀ x ∈ st, Name x) → ∀ x ∈ l.foldl (cleanStep true) st, Name x := by
    intro l
    induction l with
    | nil => exact fun _ st h => h
    | cons c l ih =>
      intro hl st h
      rw [List.foldl_cons]
      refine ih (fun c hc => hl c (by simp [hc])) _ ?_
      unfold cleanStep
      split
      · exact h
      · rename_i h1
        split
        · cases st with
          | nil => simp
          | cons t st =>
            simp only
            split
            · rename_i h3
              exact absurd h3 (h t (by simp)).2.2.2
            · exact fun x hx => h x (by simp [hx])
        · rename_i h2
          intro x hx
          rcases List.mem_cons.mp hx with rfl | hx
          · push Not at h1
            exact ⟨h1.1, hl x (by simp), h1.2, h2⟩
          · exact h x hx
  intro x hx
  rw [resolve, List.mem_reverse] at hx
  refine key _ (splitOn_no_sep _ _ _ (by simp)) _ ?_ x hx
  split
  · simp
  · simpa using hc

theorem wellNamed_create {fs fs' : FS} {s c : Text} (hw : WellNamed fs.root) (hc : ∀ x ∈ fs.cwd, Name x) (h : fs.create s c = some fs') :
    WellNamed fs'.root ∧ fs'.cwd = fs.cwd := by
  have hput : s ≠ [] → (fs.root.put (.file c) (resolve fs.cwd s)).map (fun r => ({ fs with root := r } : FS)) = some fs' → WellNamed fs'.root ∧ fs'.cwd = fs.cwd := by
    intro _ h
    obtain ⟨r, hr, rfl⟩ := Option.map_eq_some_iff.mp h
    exact ⟨wellNamed_put (wellNamed_file c) hw (resolve_names hc s) hr, rfl⟩
  unfold FS.create at h
  split at h
  · cases h
  · cases h
  · split at h
    · cases h
    · rename_i h0
      exact hput h0 h

theorem wellNamed_save (sf : Text) (sheets : List SheetText) : ∀ (i : Nat) (fs : FS), WellNamed fs.root → (∀ x ∈ fs.cwd, Name x) →
    WellNamed (save fs sf i sheets).1.root ∧ (save fs sf i sheets).1.cwd = fs.cwd := by
  induction sheets with
  | nil => exact fun i fs h _ => ⟨h, rfl⟩
  | cons s rest ih =>
    intro i fs h hc
    rw [save]
    cases he : fs.create (sheetFile sf i) s.1 with
    | none => exact ⟨h, rfl⟩
    | some fs' =>
      obtain ⟨h1, h2⟩ := wellNamed_create h hc he
      simp only
      split
      · exact ⟨h1, h2⟩
      · have := ih (i + 1) fs' h1 (by rw [h2]; exact hc)
        exact ⟨this.1, this.2.trans h2⟩

theorem wellNamed_renderFiles (render : Renderer) (out : Text) (l : List Text) : ∀ fs : FS, WellNamed fs.root → (∀ x ∈ fs.cwd, Name x) →
    WellNamed (renderFiles render out fs l).1.root := by
  induction l with
  | nil => exact fun fs h _ => h
  | cons f l ih =>
    intro fs h hc
    rw [renderFiles]
    cases render fs f with
    | panic => exact h
    | err => exact ih fs h hc
    | ok sheets =>
      simp only
      have hs := wellNamed_save (createFilename fs.isDir out f) sheets 0 fs h hc
      generalize save fs (createFilename fs.isDir out f) 0 sheets = r at hs ⊢
      obtain ⟨fs', r⟩ := r
      cases r with
      | panic => exact hs.1
      | err => exact ih fs' hs.1 (by rw [hs.2]; exact hc)
      | ok _ => exact ih fs' hs.1 (by rw [hs.2]; exact hc)

theorem wellNamed_renderAll (render : Renderer) (fs : FS) (dir out : Text) (hw : WellNamed fs.root) (hc : ∀ x ∈ fs.cwd, Name x) :
    WellNamed (renderAll render fs dir out).1.root := by
  unfold renderAll
  split
  · exact hw
  · split
    · exact hw
    · rename_i fs' h
      unfold FS.createDir at h
      split at h
      · cases h
      · obtain ⟨r, hr, rfl⟩ := Option.map_eq_some_iff.mp h
        exact wellNamed_renderFiles render out _ _ (wellNamed_mkdirs hw (resolve_names hc out) hr) hc

/-- `RenderAll` fails only before it renders. -/
theorem renderFiles_ne_err (render : Renderer) (out : Text) (l : List Text) : ∀ fs : FS, (renderFiles render out fs l).2 ≠ .err := by
  induction l with
  | nil => exact fun fs h => by cases h
  | cons f l ih =>
    intro fs
    rw [renderFiles]
    cases render fs f with
    | panic => exact fun h => by cases h
    | err => exact ih fs
    | ok sheets =>
      simp only
      generalize save fs (createFilename fs.isDir out f) 0 sheets = r
      obtain ⟨fs', r⟩ := r
      cases r with
      | panic => exact fun h => by cases h
      | err => exact ih fs'
      | ok _ => exact ih fs'

/-- The first file of a list with the name of the file `l` has another content. -/
def Differs (fs : FS) (right : List Text) (l : Text) : Prop :=
  ∃ pre x post, right = pre ++ x :: post ∧ (∀ y ∈ pre, base y ≠ base l) ∧ base x = base l ∧
    ∃ c c', FileAt fs (resolve fs.cwd l) c ∧ FileAt fs (resolve fs.cwd x) c' ∧ c ≠ c'

/-- **C111.** `diff_test` into a directory: the designs are rendered there. If they could not be listed, or the directory not be made, that is all. If not,
it counts the old sheets that have a new one of the same name with another content, and none if one of the directories cannot be listed. -/
theorem C111_diff (env : Env F) (hd : Honest env.diff) (rest : List Text) (fs : FS) (f : Flags) (h : parseFlags Flags.start rest = some f) (ho : f.outputDir ≠ [])
    (hw : WellNamed fs.root) (hc : ∀ x ∈ fs.cwd, Name x) :
    (run env ("diff_test".toList :: rest) fs).1 = (renderAll env.renderer fs f.renderDir f.outputDir).1 ∧
    (((fileList fs f.renderDir "hfd".toList).2 = false ∨ fs.createDir f.outputDir = none) →
      run env ("diff_test".toList :: rest) fs = (fs, .done)) ∧
    ((renderAll env.renderer fs f.renderDir f.outputDir).2 = .panic → (run env ("diff_test".toList :: rest) fs).2 = .panic) ∧
    ((fileList fs f.renderDir "hfd".toList).2 = true → fs.createDir f.outputDir ≠ none → (renderAll env.renderer fs f.renderDir f.outputDir).2 ≠ .panic →
      ∃ n, (run env ("diff_test".toList :: rest) fs).2 = .differences n ∧
        let new := (renderAll env.renderer fs f.renderDir f.outputDir).1
        if (fileList new f.compareDir "svg".toList).2 ∧ (fileList new f.outputDir "svg".toList).2 then
          ∃ ds : List Text, ds.Sublist (fileList new f.compareDir "svg".toList).1 ∧ ds.length = n ∧
            ∀ l ∈ (fileList new f.compareDir "svg".toList).1, l ∈ ds ↔ Differs new (fileList new f.outputDir "svg".toList).1 l
        else n = 0) := by
  have hrun : run env ("diff_test".toList :: rest) fs = runDiffIn env f f.outputDir fs := by
    unfold run
    simp only [h, runCommand]
    rw [if_neg (by decide), if_neg (by decide), if_neg (by decide), if_neg (by decide), if_pos trivial, runDiff, if_neg ho]
  have hall := wellNamed_renderAll env.renderer fs f.renderDir f.outputDir hw hc
  have herr : ((renderAll env.renderer fs f.renderDir f.outputDir) = (fs, .err)) ↔
      ((fileList fs f.renderDir "hfd".toList).2 = false ∨ fs.createDir f.outputDir = none) := by
    unfold renderAll
    cases hl : fileList fs f.renderDir "hfd".toList with
    | mk l b =>
      cases b with
      | false => simp
      | true =>
        simp only [Bool.true_eq_false, false_or]
        cases hcd : fs.createDir f.outputDir with
        | none => simp
        | some fs' =>
          simp only [reduceCtorEq, iff_false]
          intro e
          exact renderFiles_ne_err env.renderer f.outputDir l fs' (by rw [e])
  have hne : (fileList fs f.renderDir "hfd".toList).2 = true → fs.createDir f.outputDir ≠ none → (renderAll env.renderer fs f.renderDir f.outputDir).2 ≠ .err := by
    intro h1 h2
    unfold renderAll
    cases hl : fileList fs f.renderDir "hfd".toList with
    | mk l b =>
      rw [hl] at h1
      simp only at h1
      subst h1
      cases hcd : fs.createDir f.outputDir with
      | none => exact absurd hcd h2
      | some fs' => exact renderFiles_ne_err _ _ _ _
  rw [hrun]
  unfold runDiffIn
  refine ⟨?_, ?_, ?_, ?_⟩
  · generalize renderAll env.renderer fs f.renderDir f.outputDir = r
    obtain ⟨fs', r⟩ := r
    cases r <;> rfl
  · intro h
    rw [herr.mpr h]
  · intro h
    generalize renderAll env.renderer fs f.renderDir f.outputDir = r at h
    obtain ⟨fs', r⟩ := r
    simp only at h
    subst h
    rfl
  · intro h1 h2 h3
    have h4 := hne h1 h2
    generalize renderAll env.renderer fs f.renderDir f.outputDir = r at h3 h4 hall ⊢
    obtain ⟨new, r⟩ := r
    cases r with
    | panic => exact absurd rfl h3
    | err => exact absurd rfl h4
    | ok _ =>
      refine ⟨_, rfl, ?_⟩
      simp only
      split
      · rename_i hl
        obtain ⟨rs, hrs, h2⟩ := C109_reports hd new f.compareDir f.outputDir "svg".toList hall (by decide) hl.1 hl.2
        have hmap : rs = (fileList new f.compareDir "svg".toList).1.map fun l => compareFile env.diff new l (fileList new f.outputDir "svg".toList).1 := by
          unfold compareDirectories at hrs
          rw [show fileList new f.compareDir "svg".toList = ((fileList new f.compareDir "svg".toList).1, true) by rw [← hl.1],
            show fileList new f.outputDir "svg".toList = ((fileList new f.outputDir "svg".toList).1, true) by rw [← hl.2]] at hrs
          simpa using hrs.symm
        rw [hrs]
        rw [hmap, List.forall₂_map_right_iff, List.forall₂_same] at h2
        refine ⟨(fileList new f.compareDir "svg".toList).1.filter fun l =>
          match compareFile env.diff new l (fileList new f.outputDir "svg".toList).1 with | .differ _ _ => true | _ => false, List.filter_sublist, ?_, ?_⟩
        · rw [diffCount, hmap, List.filter_map, List.length_map]
          rfl
        · intro l hm
          rw [List.mem_filter, and_iff_right hm]
          rcases h2 l hm with ⟨h3, h4⟩ | ⟨pre, x, post, h3, h4, h5, c, c', h6, h7, h8⟩
          · rw [h3]
            simp only [Bool.false_eq_true, false_iff]
            rintro ⟨pre, x, post, h5, -, h6, -⟩
            exact h4 x (by rw [h5]; simp) h6
          · have huniq : ∀ pre' x' post', (fileList new f.outputDir "svg".toList).1 = pre' ++ x' :: post' → (∀ y ∈ pre', base y ≠ base l) → base x' = base l → x' = x := by
              intro pre' x' post' g1 g2 g3
              have e1 : (fileList new f.outputDir "svg".toList).1.find? (fun y => decide (base y = base l)) = some x' := by
                rw [List.find?_eq_some_iff_append]
                exact ⟨by simpa using g3, pre', post', g1, by simpa using g2⟩
              have e2 : (fileList new f.outputDir "svg".toList).1.find? (fun y => decide (base y = base l)) = some x := by
                rw [List.find?_eq_some_iff_append]
                exact ⟨by simpa using h5, pre, post, h3, by simpa using h4⟩
              exact Option.some.inj (e1.symm.trans e2)
            rcases h8 with ⟨h8, h9⟩ | ⟨h8, h9⟩
            · rw [h8]
              simp only [Bool.false_eq_true, false_iff]
              rintro ⟨pre', x', post', g1, g2, g3, d, d', g4, g5, g6⟩
              rw [huniq pre' x' post' g1 g2 g3] at g5
              have e1 := Option.some.inj (g4.symm.trans h6)
              have e2 := Option.some.inj (g5.symm.trans h7)
              simp only [Node.file.injEq] at e1 e2
              exact g6 (by rw [e1, e2, h9])
            · rw [h8]
              simp only [true_iff]
              exact ⟨pre, x, post, h3, h4, h5, c, c', h6, h7, h9⟩
      · rename_i hl
        unfold compareDirectories
        cases g1 : fileList new f.compareDir "svg".toList with
        | mk l1 b1 =>
          cases g2 : fileList new f.outputDir "svg".toList with
          | mk l2 b2 =>
            rw [g1, g2] at hl
            cases b1 <;> cases b2 <;> first | rfl | exact absurd ⟨rfl, rfl⟩ hl

/-- A document is drawn as the text `new` and there are two old sheets, one of them with another text. -/
example : (run (F := Nat) ⟨fun _ => [], fun _ => 0, fun _ => some [], fun _ _ => .ok [("new".toList, false), ("same".toList, false)],
      fun a b => if a = b then [(.equal, a)] else [(.delete, a), (.insert, b)], fun _ => none⟩
    ["diff_test".toList, "-output_dir=o".toList]
    ⟨.dir [("designs".toList, .dir [("a.hfd".toList, .file [])]),
      ("designs_rendered".toList, .dir [("a_000.svg".toList, .file "old".toList), ("a_001.svg".toList, .file "same".toList)])], []⟩).2 = .differences 1 := by
  decide +kernel

/-! ## C112 The server -/

theorem neat_putParts {v : Val F} (hv : Neat v) : ∀ (ks : List Text) (m : DMap F), (∀ k ∈ ks, '.' ∉ k) → Neat (.map m) → Neat (.map (putParts v ks m).1)
  | [], _, _, hm => hm
  | [k], m, hk, hm => by rw [putParts]; exact neat_put (hk k (by simp)) hv hm
  | k :: k' :: ks, m, hk, hm => by
    rw [putParts]
    · cases hl : m.lookup k with
      | none => exact neat_put (hk k (by simp)) (neat_putParts hv (k' :: ks) [] (fun x hx => hk x (by simp [hx])) neat_nil) hm
      | some w =>
        cases w with
        | map m' => exact neat_put (hk k (by simp)) (neat_putParts hv (k' :: ks) m' (fun x hx => hk x (by simp [hx])) (hm.lookup hl)) hm
        | _ => exact hm
    · simp

/-- Whatever a request says, its parameters are maps without dots in the keys. -/
theorem neat_unmarshal (values : UrlValues) : ∀ m : DMap F, Neat (.map m) → Neat (.map (unmarshalUrlValues m values)) := by
  unfold unmarshalUrlValues
  induction values with
  | nil => exact fun m h => h
  | cons e values ih =>
    intro m h
    refine ih _ ?_
    have hv : Neat (urlValue e.2 : Val F) := by
      unfold urlValue
      split
      · exact .str _
      · refine .list ?_
        intro v hv
        obtain ⟨t, _, rfl⟩ := List.mem_map.mp hv
        exact .str t
    simp only [putWithDot]
    split
    · rename_i h1
      refine neat_put ?_ hv h
      have := dots_no_dot (urlKey e.1)
      rw [dots_length_one h1] at this
      exact this _ (by simp)
    · exact neat_putParts hv _ m (dots_no_dot _) h

/-- **C112.** The document of a request is rendered with its own parameters overridden by those of the request: what the request has counts,
and everything else is as in the document. -/
theorem C112_params (form : UrlValues) (dm : DMap F) (hd : Neat (.map dm)) (p : List Text) :
    let params : DMap F := unmarshalUrlValues [] form
    let used := sub (withParams dm params) paramsName
    (see params p ≠ .nothing → see used p = see params p) ∧
      (see params p = .nothing → (∀ q v, q <+: p → see params q ≠ .leaf v) → see used p = see (sub dm paramsName) p) := by
  intro params used
  have hn : Neat (.map params) := neat_unmarshal form [] neat_nil
  have hu : used = merge (sub dm paramsName) params := by
    show sub (putKey dm paramsName (.map (merge (clone (sub dm paramsName)) params))) paramsName = _
    rw [clone_neat (neat_sub (by decide) hd)]
    generalize merge (sub dm paramsName) params = x
    simp only [sub, getDynMap, Dyn.get, putKey, lookup_put, if_true, Option.bind_some, Val.toMap, Option.getD_some]
  rw [hu]
  exact ⟨fun h => C43_right _ _ hn.tidy hn.noDots p h, fun h h' => C43_left _ _ hn.tidy hn.noDots p h h'⟩

/-- The file that a request asks for. -/
def requested (env : Env F) (form : UrlValues) : Text := (env.text (unmarshalUrlValues [] form) "file".toList).getD "dom/testdata/box_test.hfd".toList

/-- The sheet that a request asks for. -/
def wanted (env : Env F) (form : UrlValues) : Int := mustInt env.toInt (unmarshalUrlValues [] form : DMap F) "index".toList 0

theorem save_no_panic (sf : Text) (sheets : List SheetText) (hp : ∀ s ∈ sheets, s.2 = false) : ∀ (i : Nat) (fs : FS), (save fs sf i sheets).2 ≠ .panic := by
  induction sheets with
  | nil => intro i fs h; cases h
  | cons s rest ih =>
    intro i fs
    rw [save]
    cases fs.create (sheetFile sf i) s.1 with
    | none => intro h; cases h
    | some fs' =>
      simp only [hp s (by simp), Bool.false_eq_true, if_false]
      exact ih (fun x hx => hp x (by simp [hx])) _ _

/-- What a request does if its document can be rendered. -/
theorem request_ok (env : Env F) (fs : FS) (form : UrlValues) (sheets : List SheetText)
    (hr : renderPlanSet env fs (requested env form) (unmarshalUrlValues [] form) = .ok sheets) (hp : ∀ s ∈ sheets, s.2 = false) :
    processRequest env fs (some form) =
      if h : 0 ≤ wanted env form ∧ (wanted env form).toNat < sheets.length then
        (match env.text (unmarshalUrlValues [] form) "save_file".toList with
          | none => fs
          | some saveFile => (save fs (createFilename fs.isDir (requested env form) saveFile) 0 sheets).1,
          .ok (Answer.setType ⟨sheets[(wanted env form).toNat].1, none⟩ "image/svg+xml".toList))
      else (fs, .panic) := by
  unfold processRequest
  simp only
  rw [show (env.text (unmarshalUrlValues [] form) "file".toList).getD "dom/testdata/box_test.hfd".toList = requested env form from rfl,
    show mustInt env.toInt (unmarshalUrlValues [] form : DMap F) "index".toList 0 = wanted env form from rfl, hr]
  simp only
  by_cases h0 : wanted env form < 0
  · rw [if_pos h0, dif_neg (by omega)]
  · rw [if_neg h0]
    by_cases hl : (wanted env form).toNat < sheets.length
    · rw [dif_pos ⟨by omega, hl⟩, List.getElem?_eq_getElem hl]
      have hf := hp _ (List.getElem_mem hl)
      generalize sheets[(wanted env form).toNat] = x at hf ⊢
      obtain ⟨t, b⟩ := x
      simp only at hf
      subst hf
      simp only
      cases env.text (unmarshalUrlValues [] form) "save_file".toList with
      | none => rfl
      | some sf =>
        simp only
        have := save_no_panic (createFilename fs.isDir (requested env form) sf) sheets hp 0 fs
        generalize save fs (createFilename fs.isDir (requested env form) sf) 0 sheets = r at this
        obtain ⟨fs', r⟩ := r
        cases r with
        | panic => exact absurd rfl this
        | ok u => rfl
        | err => rfl
    · rw [dif_neg (by omega), List.getElem?_eq_none (by omega)]

theorem setType_body (a : Answer) (t : Text) : (a.setType t).body = a.body := by
  unfold Answer.setType
  split <;> rfl

/-- **C112.** A request for a sheet of a document that can be rendered is answered with the text of the sheet. -/
theorem C112_answer (env : Env F) (fs : FS) (form : UrlValues) (sheets : List SheetText)
    (hr : renderPlanSet env fs (requested env form) (unmarshalUrlValues [] form) = .ok sheets) (hp : ∀ s ∈ sheets, s.2 = false) (i : Nat)
    (hi : wanted env form = i) (hl : i < sheets.length) :
    ∃ a, (processRequest env fs (some form)).2 = .ok a ∧ a.body = sheets[i].1 := by
  rw [request_ok env fs form sheets hr hp, dif_pos (by rw [hi]; exact ⟨by omega, by simpa using hl⟩)]
  refine ⟨_, rfl, ?_⟩
  rw [setType_body]
  simp only [hi, Int.toNat_natCast]

/-- **C112.** It panics exactly if there is no such sheet. -/
theorem C112_panic (env : Env F) (fs : FS) (form : UrlValues) (sheets : List SheetText)
    (hr : renderPlanSet env fs (requested env form) (unmarshalUrlValues [] form) = .ok sheets) (hp : ∀ s ∈ sheets, s.2 = false) :
    (processRequest env fs (some form)).2 = .panic ↔ wanted env form < 0 ∨ sheets.length ≤ wanted env form := by
  rw [request_ok env fs form sheets hr hp]
  split
  · rename_i h
    simp only [reduceCtorEq, false_iff]
    omega
  · rename_i h
    simp only [true_iff]
    omega

/-- **C112.** A document that cannot be rendered is answered with nothing, and no error. -/
theorem C112_error (env : Env F) (fs : FS) (form : UrlValues) (hr : renderPlanSet env fs (requested env form) (unmarshalUrlValues [] form) = .err) :
    processRequest env fs (some form) = (fs, .ok ⟨[], none⟩) := by
  unfold processRequest
  simp only
  rw [show (env.text (unmarshalUrlValues [] form) "file".toList).getD "dom/testdata/box_test.hfd".toList = requested env form from rfl, hr]
  rfl

/-- **C112.** What is not: the answer is not said to be a drawing, because that is said after the drawing is written. -/
theorem C112_type_false (env : Env F) (fs : FS) (form : UrlValues) (a : Answer) (h : (processRequest env fs (some form)).2 = .ok a) (hb : a.body ≠ []) :
    a.contentType = none := by
  unfold processRequest at h
  simp only at h
  split at h
  · cases h; rfl
  · cases h
  · have hs : ∀ t : Text, (Answer.setType ⟨t, none⟩ "image/svg+xml".toList) = a → a.contentType = none := by
      rintro t rfl
      rw [setType_body] at hb
      simp only at hb
      simp only [Answer.setType, if_neg hb]
    split at h
    · cases h
    · split at h
      · cases h
      · cases h
      · split at h
        · exact hs _ (Res.ok.inj h)
        · split at h
          · cases h
          · exact hs _ (Res.ok.inj h)

/-- **C112.** Files are written only if the request has a `save_file`, and then beside the document, named like it: the text of `save_file`
does not matter. -/
theorem C112_saved (env : Env F) (fs : FS) (form : UrlValues) (sheets : List SheetText)
    (hr : renderPlanSet env fs (requested env form) (unmarshalUrlValues [] form) = .ok sheets) (hp : ∀ s ∈ sheets, s.2 = false)
    (hi : 0 ≤ wanted env form ∧ wanted env form < sheets.length) (stem : Text) (hd : IsDoc (requested env form) stem) :
    (processRequest env fs (some form)).1 =
      if env.text (unmarshalUrlValues [] form) "save_file".toList = none then fs else (save fs (dirOf (requested env form) ++ stem) 0 sheets).1 := by
  have hfile : fs.isDir (requested env form) = false := by
    unfold renderPlanSet at hr
    split at hr
    · rename_i h
      simp only [FS.isDir, h]
    · cases hr
  have hne : requested env form ≠ [] := by
    intro h
    have := hd.1
    rw [h] at this
    simp [base] at this
  have hb : base (requested env form) ≠ [] := by
    rw [hd.1]
    simp
  have hs := hd.stem
  rw [request_ok env fs form sheets hr hp, dif_pos ⟨hi.1, by omega⟩]
  cases env.text (unmarshalUrlValues [] form) "save_file".toList with
  | none => rfl
  | some sf =>
    simp only [reduceCtorEq, if_false]
    congr 2
    simp only [createFilename, if_neg hne, hfile, Bool.false_eq_true, if_false, if_neg hb]
    have he : ext (requested env form) = ['.', 'h', 'f', 'd'] := by
      have h1 : ext (requested env form) = ext (base (requested env form)) := by
        unfold ext
        rw [base_plain (base_no_slash _)]
      rw [h1, hd.1]
      exact ext_eq (a := stem) (b := ['h', 'f', 'd']) (by decide) hd.name.2.1 (by decide)
    rw [he]
    conv_lhs => rw [← dirOf_base (requested env form), hd.1, ← List.append_assoc]
    exact trimSuffix_eq _ _

/-- Documents of two sheets for the examples. -/
def exEnv : Env Nat :=
  ⟨fun _ => [], fun _ => 0, fun t => if t = "A".toList then some [] else none,
    fun _ m => .ok [("<svg/>".toList, false), (((getDynMap m paramsName).getD []).flatMap (·.1), false)], fun _ _ => [], fun _ => none⟩

example : (processRequest exEnv exFS (some [("file".toList, ["d/a.hfd".toList]), ("index".toList, ["1".toList])])).2 =
    .ok ⟨"fileindex".toList, none⟩ := by decide +kernel

example : (processRequest exEnv exFS (some [("file".toList, ["d/a.hfd".toList]), ("index".toList, ["2".toList])])).2 = .panic := by decide +kernel

example : (processRequest exEnv exFS (some [("file".toList, ["d/b/c.hfd".toList])])).2 = .ok ⟨[], none⟩ := by decide +kernel

example : (processRequest exEnv exFS (some [("file".toList, ["d/a.hfd".toList]), ("save_file".toList, ["out/mine.svg".toList])])).1.bytes "d/a_000.svg".toList =
    "<svg/>".toList := by decide +kernel

example : run exEnv ["render".toList, "d/a.hfd".toList, "-output_file".toList, "out/x".toList] exFS |>.1.bytes "a_000.svg".toList |> (· = "<svg/>".toList) := by
  decide +kernel

example : fileList (run exEnv ["designs_updated".toList] ⟨.dir [("designs".toList, .dir [("a.hfd".toList, .file "A".toList)]),
      ("designs_rendered".toList, .dir [("old.svg".toList, .file []), ("keep.txt".toList, .file [])])], []⟩).1 "designs_rendered".toList [] =
    (["designs_rendered/a_000.svg".toList, "designs_rendered/a_001.svg".toList, "designs_rendered/keep.txt".toList], true) := by decide +kernel

end Verif.Files
