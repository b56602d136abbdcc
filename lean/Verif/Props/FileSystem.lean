import Verif.Lemmas.FileSystem

/-!
# C107-C110: lists of files, clearing, comparing and rendering directories
-/

namespace Verif.Files

open Verif.Dyn Verif.Path

/-! ## C107 Lists of files -/

theorem takeWhile_prefix_of {α : Type} (p : α → Bool) {l m : List α} (h : l <+: m) (hl : ∀ x ∈ l, p x = true) : l <+: m.takeWhile p := by
  induction l generalizing m with
  | nil => exact List.nil_prefix
  | cons x l ih =>
    cases m with
    | nil => simp at h
    | cons y m =>
      rw [List.cons_prefix_cons] at h
      obtain ⟨rfl, h⟩ := h
      rw [List.takeWhile_cons, if_pos (hl x (by simp)), List.cons_prefix_cons]
      exact ⟨rfl, ih h fun x hx => hl x (by simp [hx])⟩

theorem suffix_base {e s : Text} (he : '/' ∉ e) : e <:+ s ↔ e <:+ base s := by
  unfold base
  rw [← List.reverse_prefix, ← List.reverse_prefix (l₁ := e), List.reverse_reverse]
  constructor
  · intro h
    refine takeWhile_prefix_of _ h ?_
    intro x hx
    have : x ≠ '/' := by rintro rfl; exact he (List.mem_reverse.mp hx)
    simpa using this
  · intro h
    exact h.trans (List.takeWhile_prefix _)

theorem foldl_join_ne_nil {d : Text} (hd : d ≠ []) (q : List Text) : q.foldl join d ≠ [] := by
  induction q generalizing d with
  | nil => exact hd
  | cons n q ih => exact ih (join_ne_nil hd n)

theorem resolve_foldl (cwd : List Text) {d : Text} (hd : d ≠ []) (q : List Text) (hq : ∀ n ∈ q, Name n) :
    resolve cwd (q.foldl join d) = resolve cwd d ++ q := by
  induction q generalizing d with
  | nil => simp
  | cons n q ih =>
    rw [List.foldl_cons, ih (join_ne_nil hd n) fun x hx => hq x (by simp [hx]), resolve_join cwd hd (hq n (by simp))]
    simp

theorem endsIn_iff {e d : Text} (hd : d ≠ []) (he : '/' ∉ e) (q : List Text) (hq : ∀ n ∈ q, Name n) :
    e <:+ q.foldl join d ↔ EndsIn e d q := by
  unfold EndsIn
  rcases List.eq_nil_or_concat q with rfl | ⟨q', n, rfl⟩
  · simp
  · rw [List.concat_eq_append, List.foldl_append, List.foldl_cons, List.foldl_nil]
    have hn := hq n (by simp)
    rw [suffix_base he, base_join (foldl_join_ne_nil hd q') hn.2.1 hn.1 hn.2.2.1 hn.2.2.2]
    simp

theorem WellNamed.below {n m : Node} (h : WellNamed n) {p : List Text} (hp : n.at p = some m) : WellNamed m := by
  intro q es hq
  exact h (p ++ q) es (by rw [at_append, hp]; exact hq)

theorem WellNamed.names {n : Node} (h : WellNamed n) {q : List Text} {m : Node} (hq : n.at q = some m) : ∀ x ∈ q, Name x := by
  induction q generalizing n with
  | nil => simp
  | cons c q ih =>
    cases n with
    | file => simp [Node.at] at hq
    | locked => simp [Node.at] at hq
    | dir es =>
      rw [Node.at] at hq
      cases hl : es.lookup c with
      | none => rw [hl] at hq; cases hq
      | some m' =>
        rw [hl] at hq
        have he := mem_of_lookup_node hl
        intro x hx
        rcases List.mem_cons.mp hx with rfl | hx
        · exact (h [] es rfl).2 _ he
        · exact ih (h.child he) hq x hx

theorem find_some {fs : FS} {d : Text} {n : Node} (h : fs.find d = some n) : d ≠ [] ∧ fs.root.at (resolve fs.cwd d) = some n := by
  unfold FS.find at h
  split at h
  · cases h
  · rename_i hd
    exact ⟨hd, h⟩

theorem find_of_ne {fs : FS} {d : Text} (h : d ≠ []) : fs.find d = fs.root.at (resolve fs.cwd d) := by
  rw [FS.find, if_neg h]

/-- A file system for the examples. -/
def exFS : FS :=
  ⟨.dir [("d".toList, .dir [("b".toList, .dir [("c.hfd".toList, .file "C".toList), ("n.txt".toList, .file [])]), ("a.hfd".toList, .file "A".toList)]),
    ("out".toList, .dir [("old.svg".toList, .file "O".toList)]), ("no".toList, .dir [("x".toList, .locked)])], []⟩

theorem wellNamed_exFS : WellNamed exFS.root := by
  refine wellNamed_dir (by decide) (by simp [Name]) ?_
  simp only [List.mem_cons, List.not_mem_nil, or_false, forall_eq_or_imp, forall_eq]
  refine ⟨wellNamed_dir (by decide) (by simp [Name]) ?_, wellNamed_dir (by decide) (by simp [Name]) (by simp [wellNamed_file]),
    wellNamed_dir (by decide) (by simp [Name]) (by simp [wellNamed_locked])⟩
  simp only [List.mem_cons, List.not_mem_nil, or_false, forall_eq_or_imp, forall_eq]
  exact ⟨wellNamed_dir (by decide) (by simp [Name]) (by simp [wellNamed_file]), wellNamed_file _⟩

/-- **C107.** The list fails exactly if the directory does not exist, or there is a directory in it that cannot be listed. -/
theorem C107_error (fs : FS) (d e : Text) (hw : WellNamed fs.root) :
    (fileList fs d e).2 = false ↔ fs.find d = none ∨ ∃ q, fs.root.at (resolve fs.cwd d ++ q) = some .locked ∧ d ≠ [] := by
  unfold fileList FS.walk
  cases h : fs.find d with
  | none => simp
  | some n =>
    obtain ⟨hd, hn⟩ := find_some h
    simp only [walk_places, reduceCtorEq, false_or]
    rw [places_ok n (hw.below hn)]
    simp [at_append, hn, hd]

example : (fileList exFS "no".toList "hfd".toList).2 = false ∧ (fileList exFS "nowhere".toList "hfd".toList).2 = false := by decide +kernel

/-- **C107.** Without an error, the list has the files below the directory whose name has the ending, at any depth, and nothing else. -/
theorem C107_files (fs : FS) (d e : Text) (hw : WellNamed fs.root) (he : '/' ∉ e) (hok : (fileList fs d e).2 = true) (p : List Text) :
    (∃ s ∈ (fileList fs d e).1, resolve fs.cwd s = p) ↔ ∃ q c, p = resolve fs.cwd d ++ q ∧ FileAt fs p c ∧ EndsIn e d q := by
  unfold fileList FS.walk at *
  cases h : fs.find d with
  | none => rw [h] at hok; cases hok
  | some n =>
    rw [h] at hok
    obtain ⟨hd, hn⟩ := find_some h
    have hwn := hw.below hn
    simp only [walk_places] at hok ⊢
    have hm := mem_places n hwn hok
    constructor
    · rintro ⟨s, hs, rfl⟩
      obtain ⟨⟨s', b⟩, hs', rfl⟩ := List.mem_map.mp hs
      obtain ⟨hs', hb⟩ := List.mem_filter.mp hs'
      obtain ⟨⟨q, b'⟩, hq, hh⟩ := List.mem_map.mp hs'
      cases hh
      simp only [Bool.and_eq_true, Bool.not_eq_eq_eq_not, Bool.not_true, decide_eq_true_eq] at hb
      obtain ⟨hb, hse⟩ := hb
      cases hb
      obtain ⟨m, hqm, hmd⟩ := (hm q false).mp hq
      have hnames := hwn.names hqm
      cases m with
      | dir es => cases hmd
      | locked => cases hmd
      | file c =>
        refine ⟨q, c, resolve_foldl _ hd q hnames, ?_, (endsIn_iff hd he q hnames).mp hse⟩
        simp only [FileAt, resolve_foldl _ hd q hnames, at_append, hn]
        exact hqm
    · rintro ⟨q, c, rfl, hf, hend⟩
      rw [FileAt, at_append, hn] at hf
      have hf : n.at q = some (.file c) := hf
      have hnames := hwn.names hf
      refine ⟨q.foldl join d, ?_, resolve_foldl _ hd q hnames⟩
      refine List.mem_map.mpr ⟨(q.foldl join d, false), List.mem_filter.mpr ⟨List.mem_map.mpr ⟨(q, false), ?_, rfl⟩, ?_⟩, rfl⟩
      · exact (hm q false).mpr ⟨_, hf, rfl⟩
      · simpa using (endsIn_iff hd he q hnames).mpr hend

theorem places_names (n : Node) : WellNamed n → ∀ q ∈ n.places.1, ∀ x ∈ q.1, Name x := by
  induction n using node_induction with
  | file c => intro _; simp [Node.places]
  | locked => intro _; simp [Node.places]
  | dir es ih =>
    intro hw q hq x hx
    have h0 := hw [] es rfl
    rw [Node.places, placesEntries_eq] at hq
    rcases List.mem_cons.mp hq with rfl | hq
    · cases hx
    · have := (joinWalks_prefix _).subset hq
      obtain ⟨w, hw', hq'⟩ := List.mem_flatten.mp this
      obtain ⟨y, hy, rfl⟩ := List.mem_map.mp hw'
      obtain ⟨z, hz, rfl⟩ := List.mem_map.mp hy
      obtain ⟨e, he, rfl⟩ := List.mem_map.mp (mem_sortNames.mp hz)
      obtain ⟨r, hr, rfl⟩ := List.mem_map.mp hq'
      rcases List.mem_cons.mp hx with rfl | hx
      · exact h0.2 e he
      · exact ih e he (hw.child he) r hr x hx

/-- **C107.** The list is in the order of names, and no file is in it twice. -/
theorem C107_order (fs : FS) (d e : Text) (hw : WellNamed fs.root) : ((fileList fs d e).1.map (resolve fs.cwd)).Pairwise (· < ·) := by
  unfold fileList FS.walk
  cases h : fs.find d with
  | none => simp
  | some n =>
    obtain ⟨hd, hn⟩ := find_some h
    have hwn := hw.below hn
    simp only [walk_places]
    have hs := places_sorted n hwn
    have hnm := places_names n hwn
    rw [List.pairwise_map] at hs
    have h1 : (n.places.1.map fun q => (q.1.foldl join d, q.2)).Pairwise fun a b => resolve fs.cwd a.1 < resolve fs.cwd b.1 := by
      rw [List.pairwise_map]
      refine hs.imp_of_mem ?_
      intro a b ha hb hab
      rw [resolve_foldl _ hd _ (hnm a ha), resolve_foldl _ hd _ (hnm b hb)]
      exact List.append_left_lt hab
    rw [List.map_map, List.pairwise_map]
    exact h1.filter _

example : fileList exFS "d".toList "hfd".toList = (["d/a.hfd".toList, "d/b/c.hfd".toList], true) := by decide +kernel

theorem join_clean {d n : Text} (hc : clean d = d) (hr : d ≠ ['/']) (hr' : d ≠ ['.']) (h : Name n) : join d n = d ++ '/' :: n := by
  have hd : d ≠ [] := by
    intro e
    have := clean_ne_nil d
    rw [hc] at this
    exact this e
  have hh : (d ++ '/' :: n).head? = d.head? := by
    cases d with
    | nil => exact absurd rfl hd
    | cons x d => rfl
  rw [join, if_neg hd]
  unfold clean at hc ⊢
  simp only [hh, splitOn_append_sep '/' d n h.2.1, List.foldl_append, List.foldl_cons, List.foldl_nil, h.step, List.reverse_cons] at hc ⊢
  generalize decide (d.head? = some '/') = rooted at hc ⊢
  generalize ((splitOn '/' d []).foldl (cleanStep rooted) []).reverse = st at hc ⊢
  have hst : st ≠ [] := by
    rintro rfl
    cases rooted with
    | true => exact hr (by simpa [slashes] using hc.symm)
    | false => exact hr' (by simpa [slashes] using hc.symm)
  have hsn : ∀ l : List Text, l ≠ [] → slashes (l ++ [n]) = slashes l ++ '/' :: n := by
    intro l hl
    induction l with
    | nil => exact absurd rfl hl
    | cons a l ih =>
      cases l with
      | nil => rfl
      | cons b l =>
        rw [List.cons_append, List.cons_append, slashes, ← List.cons_append, ih (by simp), slashes]
        simp
  rw [hsn st hst]
  cases rooted with
  | true =>
    simp only [if_true, reduceCtorEq, if_false] at hc ⊢
    rw [← List.cons_append, hc]
  | false =>
    simp only [Bool.false_eq_true, if_false] at hc ⊢
    split at hc
    · exact absurd hc.symm hr'
    · rw [if_neg (by simp), hc]

theorem clean_join {d n : Text} (hc : clean d = d) (hr : d ≠ ['/']) (hr' : d ≠ ['.']) (h : Name n) :
    clean (join d n) = join d n ∧ join d n ≠ ['/'] ∧ join d n ≠ ['.'] := by
  have hd : d ≠ [] := by
    intro e
    have := clean_ne_nil d
    rw [hc] at this
    exact this e
  have hj := join_clean hc hr hr' h
  refine ⟨?_, ?_, ?_⟩
  · conv_lhs => rw [hj]
    rw [join, if_neg hd]
  · rw [hj]
    intro e
    have := congrArg List.length e
    have h1 := List.length_pos_iff.mpr hd
    simp at this
    omega
  · rw [hj]
    intro e
    have := congrArg List.length e
    have h1 := List.length_pos_iff.mpr hd
    simp at this
    omega

theorem foldl_join_clean {d : Text} (hc : clean d = d) (hr : d ≠ ['/']) (hr' : d ≠ ['.']) (q : List Text) (h : ∀ n ∈ q, Name n) :
    q.foldl join d = d ++ q.flatMap fun n => '/' :: n := by
  induction q generalizing d with
  | nil => simp
  | cons n q ih =>
    have hn := h n (by simp)
    obtain ⟨h1, h2, h3⟩ := clean_join hc hr hr' hn
    rw [List.foldl_cons, ih h1 h2 h3 fun x hx => h x (by simp [hx]), join_clean hc hr hr' hn]
    simp

theorem trimPrefix_append (a b : Text) : trimPrefix (a ++ b) a = b := by
  rw [trimPrefix, if_pos (List.prefix_append _ _), List.drop_left]

/-- **C107.** The relative list is the list without the directory and the slash, if the directory is in its shortest form. -/
theorem C107_relative (fs : FS) (d e : Text) (hc : clean d = d) (hr : d ≠ ['/']) (hr' : d ≠ ['.']) (hw : WellNamed fs.root)
    (hdir : ∀ c, fs.find d ≠ some (.file c)) :
    (relFileList fs d e).1.map (fun s => d ++ '/' :: s) = (fileList fs d e).1 ∧ (relFileList fs d e).2 = (fileList fs d e).2 := by
  refine ⟨?_, rfl⟩
  unfold relFileList fileList FS.walk
  cases h : fs.find d with
  | none => rfl
  | some n =>
    obtain ⟨hd, hn⟩ := find_some h
    have hwn := hw.below hn
    simp only [walk_places, List.map_map]
    refine List.map_congr_left fun x hx => ?_
    obtain ⟨hx, hb⟩ := List.mem_filter.mp hx
    obtain ⟨q, hq, rfl⟩ := List.mem_map.mp hx
    simp only [Bool.and_eq_true, Bool.not_eq_eq_eq_not, Bool.not_true, decide_eq_true_eq] at hb
    have hnames := places_names n hwn q hq
    simp only [Function.comp]
    rw [foldl_join_clean hc hr hr' _ hnames, trimPrefix_append]
    obtain ⟨q, b⟩ := q
    cases q with
    | nil =>
      exfalso
      cases n with
      | file c => exact hdir c h
      | locked => simp [Node.places] at hq
      | dir es =>
        have hb := hb.1
        simp only at hb
        subst hb
        have hs := places_sorted (.dir es) hwn
        rw [Node.places] at hq hs
        rcases List.mem_cons.mp hq with hq | hq
        · cases hq
        · rw [List.map_cons, List.pairwise_cons] at hs
          exact absurd (hs.1 _ (List.mem_map_of_mem hq)) (lt_irrefl _)
    | cons x q =>
      rw [List.flatMap_cons, List.cons_append, show '/' :: (x ++ q.flatMap fun n => '/' :: n) = ['/'] ++ (x ++ q.flatMap fun n => '/' :: n) from rfl,
        trimPrefix_append]
      simp

example : relFileList exFS "d".toList "hfd".toList = (["a.hfd".toList, "b/c.hfd".toList], true) := by decide +kernel

/-- **C107.** What is not: written with `./` before it, the directory is not removed. -/
theorem C107_relative_false : ¬ ∀ (fs : FS) (d e : Text), WellNamed fs.root → (∃ es, fs.find d = some (.dir es)) →
    ((relFileList fs d e).1.map fun s => resolve (resolve fs.cwd d) s) = (fileList fs d e).1.map (resolve fs.cwd) := by
  intro h
  have := h ⟨.dir [(['d'], .dir [(['f'], .file [])])], []⟩ "./d".toList [] ?_ ?_
  · revert this
    decide +kernel
  · exact wellNamed_dir (by decide) (by simp [Name]) (by simpa using wellNamed_dir (by decide) (by simp [Name]) (by simp [wellNamed_file]))
  · exact ⟨_, rfl⟩

/-- **C107.** The list of directories is the list of all files: it has no directory in it. -/
theorem C107_directories_false (fs : FS) (d : Text) : directoryList fs d = fileList fs d [] := by
  simp [directoryList, fileList]

/-! ## C108 Clearing a directory -/

theorem mem_fileList {fs : FS} {d e s : Text} (hw : WellNamed fs.root) (he : '/' ∉ e) (hok : (fileList fs d e).2 = true) (hs : s ∈ (fileList fs d e).1) :
    s ≠ [] ∧ ∃ c, FileAt fs (resolve fs.cwd s) c := by
  constructor
  · unfold fileList FS.walk at hs
    cases h : fs.find d with
    | none => rw [h] at hs; simp at hs
    | some n =>
      rw [h] at hs
      simp only [walk_places] at hs
      obtain ⟨x, hx, rfl⟩ := List.mem_map.mp hs
      obtain ⟨q, -, rfl⟩ := List.mem_map.mp (List.mem_filter.mp hx).1
      exact foldl_join_ne_nil (find_some h).1 _
  · obtain ⟨q, c, -, h, -⟩ := (C107_files fs d e hw he hok _).mp ⟨s, hs, rfl⟩
    exact ⟨c, h⟩

theorem remove_file {fs : FS} (hr : ∀ c, fs.root ≠ .file c) {s c : Text} (hs : s ≠ []) (hf : FileAt fs (resolve fs.cwd s) c) :
    ∃ fs', fs.remove s = some fs' ∧ fs'.cwd = fs.cwd ∧ (∀ c, fs'.root ≠ .file c) ∧
      ∀ p d, FileAt fs' p d ↔ p ≠ resolve fs.cwd s ∧ FileAt fs p d := by
  have hp : resolve fs.cwd s ≠ [] := by
    intro h
    rw [FileAt, h, Node.at, Option.some.injEq] at hf
    exact hr c hf
  obtain ⟨n', hn'⟩ := cut_of_file hp hf
  have hat := at_cut hn' hf
  refine ⟨{ fs with root := n' }, ?_, rfl, ?_, ?_⟩
  · rw [FS.remove, find_of_ne hs, show fs.root.at (resolve fs.cwd s) = some (.file c) from hf]
    simp [hn']
  · intro d h
    have := (hat [] d).mp (by simp only [] at h; rw [h]; rfl)
    have h2 := this.2
    rw [Node.at, Option.some.injEq] at h2
    exact hr d h2
  · intro p d
    exact hat p d

theorem removeAll_files (l : List Text) (fs : FS) (hr : ∀ c, fs.root ≠ .file c) (hl : ∀ s ∈ l, s ≠ [] ∧ ∃ c, FileAt fs (resolve fs.cwd s) c)
    (hn : (l.map (resolve fs.cwd)).Nodup) :
    (removeAll fs l).2 = true ∧ ∀ p c, FileAt (removeAll fs l).1 p c ↔ FileAt fs p c ∧ p ∉ l.map (resolve fs.cwd) := by
  induction l generalizing fs with
  | nil => simp [removeAll]
  | cons s l ih =>
    obtain ⟨hs, c, hf⟩ := hl s (by simp)
    obtain ⟨fs', h1, h2, h3, h4⟩ := remove_file hr hs hf
    rw [List.map_cons, List.nodup_cons] at hn
    rw [removeAll, h1]
    simp only []
    obtain ⟨i1, i2⟩ := ih fs' h3 (by
      intro t ht
      obtain ⟨ht0, c', hc'⟩ := hl t (by simp [ht])
      refine ⟨ht0, c', ?_⟩
      rw [h2, h4]
      refine ⟨?_, hc'⟩
      intro e
      exact hn.1 (by rw [← e]; exact List.mem_map_of_mem ht)) (by rw [h2]; exact hn.2)
    refine ⟨i1, ?_⟩
    intro p d
    rw [i2, h4, h2, List.map_cons, List.mem_cons]
    tauto

/-- **C108.** Clearing a directory fails exactly if its files cannot be listed, and then changes nothing; otherwise exactly the files below it whose
name has the ending are gone. -/
theorem C108_clear (fs : FS) (d e : Text) (hw : WellNamed fs.root) (hr : ∀ c, fs.root ≠ .file c) (he : '/' ∉ e) :
    (clearDir fs d e).2 = (fileList fs d e).2 ∧ ((fileList fs d e).2 = false → (clearDir fs d e).1 = fs) ∧
      ((fileList fs d e).2 = true → ∀ p c, FileAt (clearDir fs d e).1 p c ↔ FileAt fs p c ∧ ¬ ∃ q, p = resolve fs.cwd d ++ q ∧ EndsIn e d q) := by
  have hord := C107_order fs d e hw
  unfold clearDir
  cases h : (fileList fs d e).2 with
  | false =>
    rw [show fileList fs d e = ((fileList fs d e).1, false) by rw [← h]]
    simp
  | true =>
    rw [show fileList fs d e = ((fileList fs d e).1, true) by rw [← h]]
    simp only [Bool.true_eq_false, false_imp_iff, true_and, forall_const]
    have := removeAll_files (fileList fs d e).1 fs hr (fun s hs => mem_fileList hw he h hs) (hord.imp fun h => ne_of_lt h)
    refine ⟨this.1, ?_⟩
    intro p c
    rw [this.2]
    refine and_congr_right fun hf => not_congr ?_
    have := C107_files fs d e hw he h p
    rw [List.mem_map, this]
    constructor
    · rintro ⟨q, c, h1, -, h2⟩; exact ⟨q, h1, h2⟩
    · rintro ⟨q, h1, h2⟩; exact ⟨q, c, h1, hf, h2⟩

example : (clearDir exFS "d".toList "hfd".toList).2 = true ∧
    fileList (clearDir exFS "d".toList "hfd".toList).1 "d".toList [] = (["d/b/n.txt".toList], true) := by decide +kernel

/-- **C108.** What is not: files without an extension can be removed too, if their name happens to end like it. -/
theorem C108_extension_false : ¬ ∀ (fs : FS) (d e : Text) (p : List Text) (n c : Text), WellNamed fs.root → e ≠ [] → '.' ∉ n →
    FileAt fs (p ++ [n]) c → FileAt (clearDir fs d e).1 (p ++ [n]) c := by
  intro h
  have := h ⟨.dir [("oldsvg".toList, .file [])], []⟩ ".".toList "svg".toList [] "oldsvg".toList []
    (wellNamed_dir (by decide) (by simp [Name]) (by simp [wellNamed_file])) (by simp) (by decide) (by rfl)
  have hw : WellNamed (.dir [("oldsvg".toList, .file [])]) := wellNamed_dir (by decide) (by simp [Name]) (by simp [wellNamed_file])
  have hc := C108_clear ⟨.dir [("oldsvg".toList, .file [])], []⟩ ".".toList "svg".toList hw (by simp) (by decide)
  have := (hc.2.2 (by decide +kernel) _ _).mp this
  exact this.2 ⟨["oldsvg".toList], by decide +kernel, by simp only [EndsIn]; decide +kernel⟩

/-! ## C109 Comparing directories -/

theorem isEqualDiff_iff {diff : Text → Text → Diffs} (h : Honest diff) (a b : Text) : isEqualDiff (diff a b) = true ↔ a = b := by
  obtain ⟨h1, h2, h3⟩ := h a b
  unfold isEqualDiff
  rw [List.all_eq_true]
  constructor
  · intro hall
    have e : ∀ t : DiffType, t ≠ .equal → ((diff a b).filter fun e => e.1 ≠ t) = diff a b := by
      intro t ht
      refine List.filter_eq_self.mpr fun x hx => ?_
      have := hall x hx
      simp only [decide_eq_true_eq] at this
      simp [this, ht.symm]
    unfold Diffs.first at h1
    unfold Diffs.second at h2
    rw [e .insert (by decide)] at h1
    rw [e .delete (by decide)] at h2
    rw [← h1.symm.trans h2]
  · intro hab x hx
    simpa using h3 hab x hx

theorem bytes_file {fs : FS} {s c : Text} (hs : s ≠ []) (h : FileAt fs (resolve fs.cwd s) c) : fs.bytes s = c := by
  rw [FS.bytes, find_of_ne hs, show fs.root.at (resolve fs.cwd s) = some (.file c) from h]

/-- **C109.** If the directories can be listed, there is one report for each file on the left, in order: that it has no partner of the same name, or
that it and the first partner of the same name are equal, or that they are not. -/
theorem C109_reports {diff : Text → Text → Diffs} (hd : Honest diff) (fs : FS) (left right e : Text) (hw : WellNamed fs.root) (he : '/' ∉ e)
    (hl : (fileList fs left e).2 = true) (hr : (fileList fs right e).2 = true) :
    ∃ rs, compareDirectories diff fs left right e = some rs ∧ List.Forall₂ (fun l r =>
      (r = .missing l ∧ ∀ x ∈ (fileList fs right e).1, base x ≠ base l) ∨
      ∃ pre x post, (fileList fs right e).1 = pre ++ x :: post ∧ (∀ y ∈ pre, base y ≠ base l) ∧ base x = base l ∧ ∃ c c', FileAt fs (resolve fs.cwd l) c ∧ FileAt fs (resolve fs.cwd x) c' ∧
        ((r = .equal l x ∧ c = c') ∨ (r = .differ l x ∧ c ≠ c'))) (fileList fs left e).1 rs := by
  refine ⟨(fileList fs left e).1.map fun l => compareFile diff fs l (fileList fs right e).1, ?_, ?_⟩
  · unfold compareDirectories
    rw [show fileList fs left e = ((fileList fs left e).1, true) by rw [← hl], show fileList fs right e = ((fileList fs right e).1, true) by rw [← hr]]
  · rw [List.forall₂_map_right_iff, List.forall₂_same]
    intro l hm
    unfold compareFile
    cases hf : (fileList fs right e).1.find? fun r => decide (base r = base l) with
    | none =>
      left
      refine ⟨rfl, ?_⟩
      intro x hx
      have := List.find?_eq_none.mp hf x hx
      simpa using this
    | some x =>
      right
      have hx := List.mem_of_find?_eq_some hf
      have hb := List.find?_some hf
      obtain ⟨-, pre, post, hpp, hpre⟩ := List.find?_eq_some_iff_append.mp hf
      obtain ⟨l0, c, hc⟩ := mem_fileList hw he hl hm
      obtain ⟨x0, c', hc'⟩ := mem_fileList hw he hr hx
      refine ⟨pre, x, post, hpp, by simpa using hpre, by simpa using hb, c, c', hc, hc', ?_⟩
      simp only [bytes_file l0 hc, bytes_file x0 hc']
      by_cases hcc : c = c'
      · left
        exact ⟨if_pos ((isEqualDiff_iff hd _ _).mpr hcc), hcc⟩
      · right
        exact ⟨if_neg fun h => hcc ((isEqualDiff_iff hd _ _).mp h), hcc⟩

/-- **C109.** What is not: `diff_test` can count no difference although the directories have no file in common. -/
theorem C109_count_false : ¬ ∀ (diff : Text → Text → Diffs) (fs : FS) (left right e : Text), Honest diff → WellNamed fs.root →
    diffCount (compareDirectories diff fs left right e) = 0 →
    ∀ q c, FileAt fs (resolve fs.cwd left ++ q) c → EndsIn e left q → FileAt fs (resolve fs.cwd right ++ q) c := by
  intro h
  have hh : Honest fun a b => if a = b then [(.equal, a)] else [(.delete, a), (.insert, b)] := by
    intro a b
    by_cases hab : a = b
    · subst hab; simp [Diffs.first, Diffs.second]
    · simp [hab, Diffs.first, Diffs.second]
  have := h _ ⟨.dir [(['a'], .dir [(['f'], .file [])]), (['b'], .dir [(['g'], .file ['x'])])], []⟩ ['a'] ['b'] [] hh
    (wellNamed_dir (by decide) (by simp [Name]) (by
      simp only [List.mem_cons, List.not_mem_nil, or_false, forall_eq_or_imp, forall_eq]
      exact ⟨wellNamed_dir (by decide) (by simp [Name]) (by simp [wellNamed_file]), wellNamed_dir (by decide) (by simp [Name]) (by simp [wellNamed_file])⟩))
    (by decide +kernel) [['f']] [] (by rfl) (by simp [EndsIn])
  simp [FileAt, resolve, splitOn, cleanStep, Node.at, List.lookup] at this

/-- **C109.** What is not: files that are only on the right are not reported. -/
theorem C109_extra_false : ¬ ∀ (diff : Text → Text → Diffs) (fs : FS) (left right e : Text) (rs : List Report), Honest diff → WellNamed fs.root →
    compareDirectories diff fs left right e = some rs → (∀ r ∈ rs, ∃ a b, r = .equal a b) →
    ∀ q c, FileAt fs (resolve fs.cwd right ++ q) c → EndsIn e right q → FileAt fs (resolve fs.cwd left ++ q) c := by
  intro h
  have hh : Honest fun a b => if a = b then [(.equal, a)] else [(.delete, a), (.insert, b)] := by
    intro a b
    by_cases hab : a = b
    · subst hab; simp [Diffs.first, Diffs.second]
    · simp [hab, Diffs.first, Diffs.second]
  have := h _ ⟨.dir [(['a'], .dir []), (['b'], .dir [(['g'], .file ['x'])])], []⟩ ['a'] ['b'] [] [] hh
    (wellNamed_dir (by decide) (by simp [Name]) (by
      simp only [List.mem_cons, List.not_mem_nil, or_false, forall_eq_or_imp, forall_eq]
      exact ⟨wellNamed_dir (by decide) (by simp [Name]) (by simp [wellNamed_file]), wellNamed_dir (by decide) (by simp [Name]) (by simp [wellNamed_file])⟩))
    (by decide +kernel) (by simp) [['g']] ['x'] (by rfl) (by simp [EndsIn])
  simp [FileAt, resolve, splitOn, cleanStep, Node.at] at this

/-! ## C110 Rendering a directory -/

theorem dirOf_base (s : Text) : dirOf s ++ base s = s := by
  unfold dirOf base
  rw [← List.reverse_append, List.takeWhile_append_dropWhile, List.reverse_reverse]

theorem dirOf_cases (s : Text) : dirOf s = [] ∨ ∃ d, dirOf s = d ++ ['/'] := by
  unfold dirOf
  cases h : s.reverse.dropWhile fun c => decide (c ≠ '/') with
  | nil => exact .inl rfl
  | cons x l =>
    right
    have := List.head_dropWhile_not (fun c : Char => decide (c ≠ '/')) (l := s.reverse) (by rw [h]; simp)
    have hx : x = '/' := by
      have e : ((s.reverse.dropWhile fun c => decide (c ≠ '/')).head (by rw [h]; simp)) = x := by
        simp only [h, List.head_cons]
      rw [e] at this
      simpa using this
    exact ⟨l.reverse, by rw [hx]; simp⟩

/-- The last component of a path is the last step to its place. -/
theorem resolve_base (cwd : List Text) {s : Text} (h : Name (base s)) : resolve cwd s = resolve cwd (dirOf s) ++ [base s] := by
  conv_lhs => rw [← dirOf_base s]
  rcases dirOf_cases s with h0 | ⟨d, h0⟩
  · rw [h0, List.nil_append]
    have hh : (base s).head? ≠ some '/' := by
      intro e
      exact h.2.1 (List.mem_of_head? e)
    rw [resolve, if_neg hh, splitOn_plain h.2.1]
    have e0 : resolve cwd [] = cwd := by simp [resolve, splitOn, cleanStep]
    rw [e0]
    simp [h.step]
  · rw [h0]
    have e1 : (d ++ ['/'] ++ base s).head? = (d ++ ['/']).head? := by cases d <;> rfl
    rw [resolve, e1, List.append_assoc, List.singleton_append, splitOn_append_sep '/' d _ h.2.1, resolve, splitOn_append_sep '/' d [] (by simp)]
    simp [h.step, step_skip]

theorem base_append_plain (s : Text) {t : Text} (ht : '/' ∉ t) : base (s ++ t) = base s ++ t ∧ dirOf (s ++ t) = dirOf s := by
  have hall : ∀ x ∈ t.reverse, (fun c : Char => decide (c ≠ '/')) x = true := by
    intro x hx
    have : x ≠ '/' := by rintro rfl; exact ht (List.mem_reverse.mp hx)
    simpa using this
  unfold base dirOf
  rw [List.reverse_append, List.takeWhile_append_of_pos hall, List.dropWhile_append_of_pos hall]
  simp

theorem sheetFile_eq (s : Text) (i : Nat) : sheetFile s i = s ++ sheetFile [] i := by
  simp [sheetFile]

theorem sheetFile_no_slash (i : Nat) : '/' ∉ sheetFile [] i := by
  unfold sheetFile pad3
  simp only [List.nil_append, List.mem_cons, List.mem_append, List.mem_replicate, not_or]
  refine ⟨by decide, ⟨by simp, ?_⟩, by decide⟩
  intro h
  have := digits_isDigit h
  revert this
  decide

theorem base_sheetFile (s : Text) (i : Nat) : base (sheetFile s i) = sheetFile (base s) i ∧ dirOf (sheetFile s i) = dirOf s := by
  have := base_append_plain s (sheetFile_no_slash i)
  rw [← sheetFile_eq] at this
  exact ⟨by rw [this.1, sheetFile_eq (base s)], this.2⟩

theorem sheetFile_name (s : Text) (i : Nat) : Name (sheetFile (base s) i) := by
  refine ⟨by simp [sheetFile], ?_, ?_, ?_⟩
  · rw [sheetFile_eq, List.mem_append, not_or]
    exact ⟨base_no_slash s, sheetFile_no_slash i⟩
  · intro h
    have := congrArg List.length h
    simp [sheetFile] at this
    omega
  · intro h
    have := congrArg List.length h
    simp [sheetFile] at this
    omega

/-- Where the sheet of a document goes. -/
theorem sheet_place (cwd : List Text) (s : Text) (i : Nat) : resolve cwd (sheetFile s i) = resolve cwd (dirOf s) ++ [sheetFile (base s) i] := by
  have h := base_sheetFile s i
  rw [resolve_base cwd (by rw [h.1]; exact sheetFile_name s i), h.1, h.2]

theorem create_some {fs fs' : FS} {s c : Text} (h : fs.create s c = some fs') :
    fs'.cwd = fs.cwd ∧ (∀ p d, FileAt fs' p d ↔ if p = resolve fs.cwd s then d = c else FileAt fs p d) ∧
      (∀ p, (∃ es, fs.root.at p = some (.dir es)) ↔ ∃ es, fs'.root.at p = some (.dir es)) ∧
      ∀ p, fs.root.at p = some .locked ↔ fs'.root.at p = some .locked := by
  have hs : s ≠ [] := by
    rintro rfl
    simp [FS.create, FS.find] at h
  have hnd : ∀ es, fs.root.at (resolve fs.cwd s) ≠ some (.dir es) := by
    intro es he
    rw [FS.create, find_of_ne hs, he] at h
    cases h
  have hnl : fs.root.at (resolve fs.cwd s) ≠ some .locked := by
    intro he
    rw [FS.create, find_of_ne hs, he] at h
    cases h
  have hput : (fs.root.put (.file c) (resolve fs.cwd s)).map (fun r => ({ fs with root := r } : FS)) = some fs' := by
    rw [FS.create, if_neg hs] at h
    split at h
    · cases h
    · cases h
    · exact h
  obtain ⟨n', hn', rfl⟩ := Option.map_eq_some_iff.mp hput
  exact ⟨rfl, fun p d => at_put hn' hnd p d, fun p => dir_put hn' hnd p, fun p => locked_put hn' hnd hnl p⟩

theorem isDir_iff (fs : FS) (s : Text) : fs.isDir s = true ↔ s ≠ [] ∧ ∃ es, fs.root.at (resolve fs.cwd s) = some (.dir es) := by
  unfold FS.isDir FS.find
  by_cases hs : s = []
  · simp [hs]
  · rw [if_neg hs]
    simp only [ne_eq, hs, not_false_eq_true, true_and]
    split
    · rename_i es h; simp [h]
    · rename_i h
      simp only [Bool.false_eq_true, false_iff]
      rintro ⟨es, he⟩
      exact h es he

/-- What the writing of files keeps. -/
structure Keeps (w : List Text → Prop) (fs fs' : FS) : Prop where
  cwd : fs'.cwd = fs.cwd
  dirs : ∀ p, (∃ es, fs.root.at p = some (.dir es)) ↔ ∃ es, fs'.root.at p = some (.dir es)
  locked : ∀ p, fs.root.at p = some .locked ↔ fs'.root.at p = some .locked
  files : ∀ p c, ¬ w p → (FileAt fs' p c ↔ FileAt fs p c)

theorem Keeps.refl (w : List Text → Prop) (fs : FS) : Keeps w fs fs := ⟨rfl, fun _ => Iff.rfl, fun _ => Iff.rfl, fun _ _ _ => Iff.rfl⟩

theorem Keeps.trans {w : List Text → Prop} {a b c : FS} (h : Keeps w a b) (h' : Keeps w b c) : Keeps w a c :=
  ⟨h'.cwd.trans h.cwd, fun p => (h.dirs p).trans (h'.dirs p), fun p => (h.locked p).trans (h'.locked p), fun p d hp => (h'.files p d hp).trans (h.files p d hp)⟩

theorem Keeps.mono {w w' : List Text → Prop} (hw : ∀ p, w p → w' p) {a b : FS} (h : Keeps w a b) : Keeps w' a b :=
  ⟨h.cwd, h.dirs, h.locked, fun p d hp => h.files p d fun hc => hp (hw p hc)⟩

theorem Keeps.isDir {w : List Text → Prop} {a b : FS} (h : Keeps w a b) : b.isDir = a.isDir := by
  funext s
  rw [Bool.eq_iff_iff, isDir_iff, isDir_iff, h.cwd, h.dirs]

theorem save_keeps (sf : Text) (sheets : List SheetText) (i : Nat) (fs : FS) :
    Keeps (fun p => ∃ j, p = resolve fs.cwd (sheetFile sf j)) fs (save fs sf i sheets).1 := by
  induction sheets generalizing fs i with
  | nil => exact Keeps.refl _ _
  | cons s rest ih =>
    rw [save]
    cases h : fs.create (sheetFile sf i) s.1 with
    | none => exact Keeps.refl _ _
    | some fs' =>
      obtain ⟨h1, h2, h3, h4⟩ := create_some h
      have hk : Keeps (fun p => ∃ j, p = resolve fs.cwd (sheetFile sf j)) fs fs' :=
        ⟨h1, h3, h4, fun p c hp => by rw [h2, if_neg fun hc => hp ⟨i, hc⟩]⟩
      simp only
      split
      · exact hk
      · have := ih (i + 1) fs'
        rw [h1] at this
        exact hk.trans this

theorem renderFiles_keeps (render : Renderer) (out : Text) (l : List Text) (fs : FS) :
    Keeps (fun p => ∃ f ∈ l, ∃ j, p = resolve fs.cwd (sheetFile (createFilename fs.isDir out f) j)) fs (renderFiles render out fs l).1 := by
  induction l generalizing fs with
  | nil => exact Keeps.refl _ _
  | cons f l ih =>
    have hmono : ∀ p, (∃ g ∈ l, ∃ j, p = resolve fs.cwd (sheetFile (createFilename fs.isDir out g) j)) →
        ∃ g ∈ f :: l, ∃ j, p = resolve fs.cwd (sheetFile (createFilename fs.isDir out g) j) := by
      rintro p ⟨g, hg, hj⟩
      exact ⟨g, by simp [hg], hj⟩
    rw [renderFiles]
    cases render fs f with
    | panic => exact Keeps.refl _ _
    | err => exact (ih fs).mono hmono
    | ok sheets =>
      simp only
      have hk := save_keeps (createFilename fs.isDir out f) sheets 0 fs
      have hk' := hk.mono (w' := fun p => ∃ g ∈ f :: l, ∃ j, p = resolve fs.cwd (sheetFile (createFilename fs.isDir out g) j))
        fun p ⟨j, hj⟩ => ⟨f, by simp, j, hj⟩
      generalize save fs (createFilename fs.isDir out f) 0 sheets = r at hk hk'
      obtain ⟨fs', r⟩ := r
      have := ih fs'
      rw [hk.isDir, hk.cwd] at this
      cases r with
      | panic => exact hk'
      | ok u => exact hk'.trans (this.mono hmono)
      | err => exact hk'.trans (this.mono hmono)

/-- **C110.** Whatever the documents are and however it ends: rendering a directory changes no file but those it writes sheets to. -/
theorem C110_frame (render : Renderer) (fs : FS) (dir out : Text) (p : List Text) (c : Text)
    (hp : ∀ f ∈ (fileList fs dir "hfd".toList).1, ∀ i, p ≠ resolve fs.cwd (sheetFile (createFilename (renderAll render fs dir out).1.isDir out f) i)) :
    FileAt (renderAll render fs dir out).1 p c ↔ FileAt fs p c := by
  unfold renderAll at *
  cases h : (fileList fs dir "hfd".toList).2 with
  | false =>
    rw [show fileList fs dir "hfd".toList = ((fileList fs dir "hfd".toList).1, false) by rw [← h]]
  | true =>
    rw [show fileList fs dir "hfd".toList = ((fileList fs dir "hfd".toList).1, true) by rw [← h]] at hp ⊢
    simp only at hp ⊢
    cases h' : fs.createDir out with
    | none => rfl
    | some fs' =>
      rw [h'] at hp
      simp only at hp ⊢
      have hk := renderFiles_keeps render out (fileList fs dir "hfd".toList).1 fs'
      have hfs' : fs'.cwd = fs.cwd ∧ (FileAt fs' p c ↔ FileAt fs p c) := by
        unfold FS.createDir at h'
        split at h'
        · cases h'
        · obtain ⟨r, hr, rfl⟩ := Option.map_eq_some_iff.mp h'
          exact ⟨rfl, at_mkdirs hr p c⟩
      rw [hk.isDir] at hp
      rw [hk.files p c ?_, hfs'.2]
      rintro ⟨f, hf, j, hj⟩
      rw [hfs'.1] at hj
      exact hp f hf j hj

/-- **C110.** So it changes no file whose name does not end in `.svg`, and no document. -/
theorem C110_documents (render : Renderer) (fs : FS) (dir out : Text) (p : List Text) (n c : Text) (hn : ¬ ".svg".toList <:+ n) :
    FileAt (renderAll render fs dir out).1 (p ++ [n]) c ↔ FileAt fs (p ++ [n]) c := by
  refine C110_frame render fs dir out _ c ?_
  intro f _ i h
  rw [sheet_place] at h
  have := List.append_inj_right' h rfl
  simp only [List.cons.injEq, and_true] at this
  exact hn ⟨base (createFilename (renderAll render fs dir out).1.isDir out f) ++ '_' :: pad3 i, by rw [this, sheetFile]; simp⟩

/-- **C110.** Without an output directory, which is how the command is set up, nothing is rendered. -/
theorem C110_default (render : Renderer) (fs : FS) (dir : Text) : renderAll render fs dir [] = (fs, .err) := by
  unfold renderAll
  cases fileList fs dir "hfd".toList with
  | mk l b => cases b <;> simp [FS.createDir]

theorem create_of_dir {fs : FS} {s : Text} (c : Text) {d : List Text} {n : Text} (hs : s ≠ []) (hp : resolve fs.cwd s = d ++ [n])
    (hd : ∃ es, fs.root.at d = some (.dir es)) (hf : ∀ m, fs.root.at (d ++ [n]) = some m → ∃ c, m = .file c) : ∃ fs', fs.create s c = some fs' := by
  obtain ⟨es, hd⟩ := hd
  obtain ⟨r, hr⟩ := put_in_dir (.file c) hd n
  refine ⟨{ fs with root := r }, ?_⟩
  rw [FS.create, find_of_ne hs, if_neg hs, hp, hr]
  cases h : fs.root.at (d ++ [n]) with
  | none => rfl
  | some m =>
    obtain ⟨c', rfl⟩ := hf m h
    rfl

/-- Nothing but a file is at the place. -/
theorem Keeps.free {w : List Text → Prop} {a b : FS} (h : Keeps w a b) {p : List Text} (hf : ∀ m, a.root.at p = some m → ∃ c, m = .file c) :
    ∀ m, b.root.at p = some m → ∃ c, m = .file c := by
  intro m hm
  cases m with
  | file c => exact ⟨c, rfl⟩
  | dir es =>
    obtain ⟨es', he⟩ := (h.dirs p).mpr ⟨es, hm⟩
    obtain ⟨c, hc⟩ := hf _ he
    cases hc
  | locked =>
    obtain ⟨c, hc⟩ := hf _ ((h.locked p).mpr hm)
    cases hc

theorem save_written (sf : Text) (d : List Text) (sheets : List SheetText) (i : Nat) (fs : FS) (hp : ∀ j, resolve fs.cwd (sheetFile sf j) = d ++ [sheetFile (base sf) j])
    (hd : ∃ es, fs.root.at d = some (.dir es)) (hf : ∀ j m, fs.root.at (d ++ [sheetFile (base sf) j]) = some m → ∃ c, m = .file c)
    (hok : (save fs sf i sheets).2 ≠ .panic) :
    (save fs sf i sheets).2 = .ok () ∧
      ∀ k (hk : k < sheets.length), FileAt (save fs sf i sheets).1 (d ++ [sheetFile (base sf) (i + k)]) sheets[k].1 := by
  induction sheets generalizing fs i with
  | nil => exact ⟨rfl, fun k hk => absurd hk (by simp)⟩
  | cons s rest ih =>
    obtain ⟨fs', h⟩ := create_of_dir s.1 (by simp [sheetFile]) (hp i) hd (hf i)
    obtain ⟨h1, h2, h3, h4⟩ := create_some h
    have hk : Keeps (fun p => ∃ j, p = resolve fs.cwd (sheetFile sf j)) fs fs' :=
      ⟨h1, h3, h4, fun p c hp => by rw [h2, if_neg fun hc => hp ⟨i, hc⟩]⟩
    rw [save, h] at hok ⊢
    simp only at hok ⊢
    split at hok
    · exact absurd rfl hok
    · rename_i hs
      rw [if_neg hs]
      obtain ⟨e1, e2⟩ := ih (i + 1) fs' (by rw [h1]; exact hp) ((h3 d).mp hd) (fun j => hk.free (hf j)) hok
      refine ⟨e1, ?_⟩
      intro k hk'
      cases k with
      | succ k =>
        have := e2 k (by simpa using hk')
        rw [show i + 1 + k = i + (k + 1) by omega] at this
        exact this
      | zero =>
        have hlater : ∀ (l : List SheetText) (g : FS) (n : Nat), i < n → g.cwd = fs.cwd →
            (FileAt (save g sf n l).1 (d ++ [sheetFile (base sf) i]) s.1 ↔ FileAt g (d ++ [sheetFile (base sf) i]) s.1) := by
          intro l
          induction l with
          | nil => intro g n _ _; rfl
          | cons t l ihl =>
            intro g n hn hg
            rw [save]
            cases hc : g.create (sheetFile sf n) t.1 with
            | none => rfl
            | some g' =>
              obtain ⟨c1, c2, _, _⟩ := create_some hc
              have hne : d ++ [sheetFile (base sf) i] ≠ resolve g.cwd (sheetFile sf n) := by
                rw [hg, hp n]
                intro he
                have := List.append_inj_right' he rfl
                simp only [List.cons.injEq, and_true] at this
                have := ((C55_sheets _ _ _ _).1 this).2
                omega
              have hg' : FileAt g' (d ++ [sheetFile (base sf) i]) s.1 ↔ FileAt g (d ++ [sheetFile (base sf) i]) s.1 := by
                rw [c2, if_neg hne]
              simp only
              split
              · exact hg'
              · rw [ihl g' (n + 1) (by omega) (c1.trans hg), hg']
        exact (hlater rest fs' (i + 1) (by omega) h1).mpr ((h2 _ _).mpr (by rw [if_pos (hp i).symm]))

theorem IsDoc.name {path stem : Text} (h : IsDoc path stem) : Name stem := by
  refine ⟨h.2.1, ?_, h.2.2.1, h.2.2.2⟩
  have := base_no_slash path
  rw [h.1] at this
  intro hm
  exact this (List.mem_append_left _ hm)

/-- The place of a sheet is the place of the output directory and the name of the sheet. -/
theorem doc_place (fs : FS) {out f stem : Text} (ho : fs.isDir out = true) (h : IsDoc f stem) (j : Nat) :
    base (createFilename fs.isDir out f) = stem ∧
      resolve fs.cwd (sheetFile (createFilename fs.isDir out f) j) = resolve fs.cwd out ++ [sheetFile (base (createFilename fs.isDir out f)) j] := by
  have hne : out ≠ [] := ((isDir_iff fs out).mp ho).1
  have hb := createFilename_base fs.isDir hne ho h
  refine ⟨hb, ?_⟩
  rw [sheet_place]
  congr 1
  have e : createFilename fs.isDir out f = join (clean out) stem := by
    simp only [createFilename, if_neg hne, ho, if_true]
    rw [h.stem]
  have e1 := resolve_base fs.cwd (s := createFilename fs.isDir out f) (by rw [hb]; exact h.name)
  rw [hb] at e1
  rw [e] at e1 ⊢
  rw [resolve_join fs.cwd (clean_ne_nil out) h.name, resolve_clean] at e1
  exact (List.append_cancel_right e1).symm

theorem renderFiles_written (render : Renderer) (out : Text) (stem : Text → Text) (l : List Text) (fs : FS) (ho : out ≠ [])
    (hd : ∃ es, fs.root.at (resolve fs.cwd out) = some (.dir es)) (hs : ∀ f ∈ l, IsDoc f (stem f)) (hn : (l.map stem).Nodup)
    (hr : ∀ f a b, SameButSheets a b → render a f = render b f)
    (hf : ∀ f ∈ l, ∀ j m, fs.root.at (resolve fs.cwd out ++ [sheetFile (stem f) j]) = some m → ∃ c, m = .file c)
    (hok : (renderFiles render out fs l).2 ≠ .panic) :
    ∀ f ∈ l, ∀ sheets, render fs f = .ok sheets → ∀ k (hk : k < sheets.length),
      FileAt (renderFiles render out fs l).1 (resolve fs.cwd out ++ [sheetFile (stem f) k]) sheets[k].1 := by
  induction l generalizing fs with
  | nil => intro f h; cases h
  | cons g l ih =>
    rw [List.map_cons, List.nodup_cons] at hn
    have hdir : fs.isDir out = true := (isDir_iff fs out).mpr ⟨ho, hd⟩
    rw [renderFiles] at hok ⊢
    cases hg : render fs g with
    | panic => rw [hg] at hok; exact absurd rfl hok
    | err =>
      rw [hg] at hok
      intro f hfm sheets hsh
      rcases List.mem_cons.mp hfm with rfl | hfm
      · rw [hg] at hsh; cases hsh
      · exact ih fs hd (fun f h => hs f (by simp [h])) hn.2 (fun f h => hf f (by simp [h])) hok f hfm sheets hsh
    | ok sheets =>
      rw [hg] at hok
      simp only at hok ⊢
      have hdoc := hs g (by simp)
      have hb := (doc_place fs hdir hdoc 0).1
      have hk := save_keeps (createFilename fs.isDir out g) sheets 0 fs
      have hw := save_written (createFilename fs.isDir out g) (resolve fs.cwd out) sheets 0 fs (fun j => (doc_place fs hdir hdoc j).2) hd
        (by rw [hb]; exact hf g (by simp))
      rw [hb] at hw
      generalize hsv : save fs (createFilename fs.isDir out g) 0 sheets = r at hk hw hok
      obtain ⟨fs', r⟩ := r
      have hrp : r ≠ .panic := by
        rintro rfl
        exact hok rfl
      obtain ⟨hr1, hw⟩ := hw hrp
      simp only at hr1
      subst hr1
      simp only at hok ⊢
      have hsame : SameButSheets fs fs' := by
        refine ⟨hk.cwd, hk.dirs, hk.locked, ?_⟩
        intro p n c hpn
        refine (hk.files _ c ?_).symm
        rintro ⟨j, hj⟩
        rw [(doc_place fs hdir hdoc j).2] at hj
        have := List.append_inj_right' hj rfl
        simp only [List.cons.injEq, and_true] at this
        exact hpn ⟨base (createFilename fs.isDir out g) ++ '_' :: pad3 j, by rw [this, sheetFile]; simp⟩
      have hcwd : fs'.cwd = fs.cwd := hk.cwd
      have hd' : ∃ es, fs'.root.at (resolve fs'.cwd out) = some (.dir es) := by
        rw [hcwd]; exact (hk.dirs _).mp hd
      have ih' := ih fs' hd' (fun f h => hs f (by simp [h])) hn.2
        (fun f h j => by rw [hcwd]; exact hk.free (hf f (by simp [h]) j)) hok
      rw [hcwd] at ih'
      intro f hfm sh hsh
      rcases List.mem_cons.mp hfm with rfl | hfm
      · rw [hg] at hsh
        obtain rfl := Res.ok.inj hsh
        intro k hkl
        have hk2 := renderFiles_keeps render out l fs'
        refine (hk2.files _ _ ?_).mpr ?_
        · rintro ⟨f', hf', j, hj⟩
          have hdir' : fs'.isDir out = true := by rw [hk.isDir]; exact hdir
          have h1 := doc_place fs' hdir' (hs f' (by simp [hf'])) j
          rw [h1.2, hcwd, h1.1] at hj
          have := List.append_inj_right' hj rfl
          simp only [List.cons.injEq, and_true] at this
          have := ((C55_sheets _ _ _ _).1 this).1
          exact hn.1 (List.mem_map.mpr ⟨f', hf', this.symm⟩)
        · have := hw k hkl
          rwa [Nat.zero_add] at this
      · exact ih' f hfm sh (by rw [← hr f fs fs' hsame]; exact hsh)

/-- **C110.** After rendering a directory of documents with different names into a directory, every sheet of every document that could be
rendered is in its file. What a document looks like must not depend on sheets. -/
theorem C110_written (render : Renderer) (fs fs' : FS) (dir out : Text) (docs : List Text) (stem : Text → Text)
    (hl : fileList fs dir "hfd".toList = (docs, true)) (hc : fs.createDir out = some fs') (hd : fs.root.at (resolve fs.cwd out) ≠ some .locked)
    (hs : ∀ f ∈ docs, IsDoc f (stem f)) (hn : (docs.map stem).Nodup) (hr : ∀ f a b, SameButSheets a b → render a f = render b f)
    (hf : ∀ f ∈ docs, ∀ j m, fs'.root.at (resolve fs.cwd out ++ [sheetFile (stem f) j]) = some m → ∃ c, m = .file c)
    (hok : (renderAll render fs dir out).2 ≠ .panic) :
    ∀ f ∈ docs, ∀ sheets, render fs' f = .ok sheets → ∀ k (hk : k < sheets.length),
      FileAt (renderAll render fs dir out).1 (resolve fs.cwd out ++ [sheetFile (stem f) k]) sheets[k].1 := by
  have e : renderAll render fs dir out = renderFiles render out fs' docs := by
    rw [renderAll, hl]
    simp only
    rw [hc]
  rw [e] at hok ⊢
  have ho : out ≠ [] := by
    rintro rfl
    simp [FS.createDir] at hc
  rw [FS.createDir, if_neg ho] at hc
  obtain ⟨r, hr', rfl⟩ := Option.map_eq_some_iff.mp hc
  exact renderFiles_written render out stem docs _ ho ((mkdirs_dir hr').resolve_right hd) hs hn hr hf hok

/-- A renderer for the examples: two sheets, with the content of the file. -/
def exRender : Renderer := fun fs f => if fs.isDir f then .err else .ok [(f, false), (fs.bytes f, false)]

example : fileList (renderAll exRender exFS "d".toList "out".toList).1 "out".toList [] =
    (["out/a_000.svg".toList, "out/a_001.svg".toList, "out/c_000.svg".toList, "out/c_001.svg".toList, "out/old.svg".toList], true) ∧
    (renderAll exRender exFS "d".toList "out".toList).1.bytes "out/c_001.svg".toList = "C".toList := by decide +kernel

/-- **C110.** What is not: of two documents with the same name in different directories, only the sheets of the last one are kept, although
both are rendered without an error. -/
theorem C110_same_name_false : ¬ ∀ (render : Renderer) (fs fs' : FS) (dir out : Text) (docs : List Text) (stem : Text → Text), WellNamed fs.root →
    fileList fs dir "hfd".toList = (docs, true) → fs.createDir out = some fs' → (∀ f ∈ docs, IsDoc f (stem f)) →
    (∀ f a b, SameButSheets a b → render a f = render b f) → (renderAll render fs dir out).2 = .ok () →
    ∀ f ∈ docs, ∀ sheets, render fs' f = .ok sheets → ∀ k (hk : k < sheets.length),
      ∃ p, FileAt (renderAll render fs dir out).1 p sheets[k].1 := by
  intro h
  let fs : FS := ⟨.dir [("a".toList, .dir [("b.hfd".toList, .file [])]), ("c".toList, .dir [("b.hfd".toList, .file [])]), ("o".toList, .dir [])], []⟩
  obtain ⟨p, hp⟩ := h (fun _ f => .ok [(f, false)]) fs fs ".".toList "o".toList ["a/b.hfd".toList, "c/b.hfd".toList] (fun _ => "b".toList)
    (by
      refine wellNamed_dir (by decide) (by simp [Name]) ?_
      simp only [List.mem_cons, List.not_mem_nil, or_false, forall_eq_or_imp, forall_eq]
      exact ⟨wellNamed_dir (by decide) (by simp [Name]) (by simp [wellNamed_file]), wellNamed_dir (by decide) (by simp [Name]) (by simp [wellNamed_file]),
        wellNamed_dir (by decide) (by simp) (by simp)⟩)
    (by decide +kernel) (by rfl)
    (by
      simp only [List.mem_cons, List.not_mem_nil, or_false, forall_eq_or_imp, forall_eq]
      exact ⟨⟨by decide +kernel, by decide, by decide, by decide⟩, ⟨by decide +kernel, by decide, by decide, by decide⟩⟩)
    (fun _ _ _ _ => rfl) (by rfl) "a/b.hfd".toList (by simp) _ rfl 0 (by simp)
  have e : (renderAll (fun _ f => .ok [(f, false)]) fs ".".toList "o".toList).1 =
      ⟨.dir [("a".toList, .dir [("b.hfd".toList, .file [])]), ("c".toList, .dir [("b.hfd".toList, .file [])]),
        ("o".toList, .dir [("b_000.svg".toList, .file "c/b.hfd".toList)])], []⟩ := by rfl
  rw [e] at hp
  have hw : WellNamed (.dir [("a".toList, .dir [("b.hfd".toList, .file [])]), ("c".toList, .dir [("b.hfd".toList, .file [])]),
        ("o".toList, .dir [("b_000.svg".toList, .file "c/b.hfd".toList)])]) := by
    refine wellNamed_dir (by decide) (by simp [Name]) ?_
    simp only [List.mem_cons, List.not_mem_nil, or_false, forall_eq_or_imp, forall_eq]
    exact ⟨wellNamed_dir (by decide) (by simp [Name]) (by simp [wellNamed_file]), wellNamed_dir (by decide) (by simp [Name]) (by simp [wellNamed_file]),
      wellNamed_dir (by decide) (by simp [Name]) (by simp [wellNamed_file])⟩
  have hpl := (mem_places _ hw (by decide +kernel) p false).mpr ⟨_, hp, rfl⟩
  have hall : ∀ x ∈ (Node.places (.dir [("a".toList, .dir [("b.hfd".toList, .file [])]), ("c".toList, .dir [("b.hfd".toList, .file [])]),
        ("o".toList, .dir [("b_000.svg".toList, .file "c/b.hfd".toList)])])).1,
      x.1 ∈ [[], ["a".toList], ["a".toList, "b.hfd".toList], ["c".toList], ["c".toList, "b.hfd".toList], ["o".toList], ["o".toList, "b_000.svg".toList]] := by
    decide +kernel
  have := hall _ hpl
  simp only [List.mem_cons, List.not_mem_nil, or_false] at this
  rcases this with rfl | rfl | rfl | rfl | rfl | rfl | rfl <;> simp [FileAt, Node.at, List.lookup] at hp

end Verif.Files
