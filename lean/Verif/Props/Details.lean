import Verif.Props.Main
import Verif.Props.Files

/-!
# Further facts for some claims

Facts about single steps that the theorems elsewhere leave open: what is read for flags that are not given, what becomes of comments, of lists that are flattened and of
maps that are merged under a dotted key.
-/

namespace Verif.Files

open Verif Verif.Dyn

universe u

set_option linter.unusedSectionVars false

section Commands

variable {F : Type u} [Arith F]

/-- **C111.** Flags that are not given: the designs are those below `designs/` and they are compared with those below `designs_rendered`. -/
theorem C111_defaults (env : Env F) (out : Text) (fs : FS) :
    run env ["diff_test".toList, "-output_dir".toList, out] fs =
        run env ["diff_test".toList, "-output_dir".toList, out, "-render_dir".toList, "designs/".toList, "-compare_dir".toList, "designs_rendered".toList] fs ∧
      run env ["render_all".toList, "-output_dir".toList, out] fs =
        run env ["render_all".toList, "-output_dir".toList, out, "-render_dir".toList, "designs/".toList] fs := ⟨rfl, rfl⟩

/-- **C111.** `diff_test` without a directory for the output makes one and does the same there; if it cannot, it ends and has done nothing. -/
theorem C111_diff_temp (env : Env F) (fs : FS) :
    (env.temp fs = none → run env ["diff_test".toList] fs = (fs, .done)) ∧
      ∀ fs' out, env.temp fs = some (fs', out) → out ≠ [] →
        run env ["diff_test".toList] fs = run env ["diff_test".toList, "-output_dir".toList, out] fs' := by
  refine ⟨fun h => ?_, fun fs' out h ho => ?_⟩
  · show runDiff env Flags.start fs = _
    rw [runDiff, if_pos (show Flags.start.outputDir = [] from rfl), h]
  · show runDiff env Flags.start fs = runDiff env { Flags.start with outputDir := out } fs'
    rw [runDiff, if_pos (show Flags.start.outputDir = [] from rfl), h, runDiff, if_neg ho]
    rfl

/-- **C111.** Comments in a document make no difference: two files that are the same without their comments are drawn the same, if no quoted text looks as if a comment
starts in it (see C45). -/
theorem C111_comments (env : Env F) (fs fs' : FS) (file : Text) (l l' : List Piece) (hl : ∀ p ∈ l, p.Ok) (hl' : ∀ p ∈ l', p.Ok)
    (hq : ∀ s, Piece.quoted s ∈ l ∨ Piece.quoted s ∈ l' → ¬ ['/', '/'] <:+: s ∧ ¬ ['/', '*'] <:+: s)
    (hb : fs.find file = some (.file (document l))) (hb' : fs'.find file = some (.file (document l')))
    (hs : document (withoutComments l) = document (withoutComments l')) (he : env.sheets fs = env.sheets fs') (params : DMap F) :
    renderPlanSet env fs file params = renderPlanSet env fs' file params := by
  simp only [renderPlanSet, hb, hb', C45_strip_partial l hl (fun s h => hq s (.inl h)), C45_strip_partial l' hl' (fun s h => hq s (.inr h)), hs, he]

/-- Not vacuous: a document with a comment and the same with another one. -/
example : document [.code "{} ".toList, .line " plain".toList] = "{} // plain\n".toList ∧
    document (withoutComments [.code "{} ".toList, .line " plain".toList]) = document (withoutComments [.code "{} ".toList, .block " plain ".toList]) := by
  decide +kernel

end Commands

end Verif.Files

namespace Verif.Dyn

universe u

variable {F : Type u}

/-! ## Merging under a dotted key -/

theorem follow_setParts (v : Val F) : ∀ (ks : List Text) (m : DMap F) (w : DMap F), follow (.map m) ks = some (.map w) → ks ≠ [] →
    follow (.map (setParts v ks m)) ks = some v ∧ (∀ q, q <+: ks → q ≠ ks → see (setParts v ks m) q = .map) ∧
      ∀ q, ¬ q <+: ks → ¬ ks <+: q → see (setParts v ks m) q = see m q
  | [], _, _, _, h => absurd rfl h
  | [k], m, w, _, _ => by
    refine ⟨?_, ?_, ?_⟩
    · simp [setParts, follow, lookup_put]
    · intro q hq hne
      cases q with
      | nil => rfl
      | cons c q =>
        obtain ⟨t, ht⟩ := hq
        simp only [List.cons_append, List.cons.injEq, List.append_eq_nil_iff] at ht
        exact absurd (by rw [ht.1, ht.2.1]) hne
    · intro q h1 h2
      cases q with
      | nil => exact absurd (List.nil_prefix) h1
      | cons c q =>
        have hc : c ≠ k := by
          rintro rfl
          exact h2 ⟨q, rfl⟩
        simp only [see, setParts, follow]
        rw [lookup_put, if_neg hc]
  | k :: k' :: ks, m, w, h, _ => by
    cases hl : m.lookup k with
    | none => simp [follow, hl] at h
    | some x =>
      cases x with
      | map m' =>
        have h' : follow (.map m') (k' :: ks) = some (.map w) := by simpa [follow, hl] using h
        obtain ⟨i1, i2, i3⟩ := follow_setParts v (k' :: ks) m' w h' (by simp)
        have e : setParts v (k :: k' :: ks) m = put k (.map (setParts v (k' :: ks) m')) m := by
          simp [setParts, hl]
        rw [e]
        refine ⟨?_, ?_, ?_⟩
        · rw [follow, lookup_put, if_pos rfl]
          exact i1
        · intro q hq hne
          cases q with
          | nil => rfl
          | cons c q =>
            obtain ⟨rfl, hq'⟩ := List.cons_prefix_cons.1 hq
            rw [see, follow, lookup_put, if_pos rfl]
            exact i2 q hq' (fun e => hne (by rw [e]))
        · intro q h1 h2
          cases q with
          | nil => exact absurd (List.nil_prefix) h1
          | cons c q =>
            by_cases hc : c = k
            · subst hc
              have := i3 q (fun g => h1 (List.cons_prefix_cons.2 ⟨rfl, g⟩)) (fun g => h2 (List.cons_prefix_cons.2 ⟨rfl, g⟩))
              rw [see, follow, lookup_put, if_pos rfl, see, follow, hl]
              exact this
            · rw [see, follow, lookup_put, if_neg hc, see, follow]
      | _ => simp [follow, hl] at h

/-- **C43.** With a dotted key in the second map: a map under it is merged into the map at that place, if there is one and the first map does not have the dotted text
itself as a key; nothing beside that place is changed. -/
theorem C43_dotted (a m m2 : DMap F) (key : Text) (hl : a.lookup key = none) (hf : follow (.map a) (dots key) = some (.map m2)) :
    follow (.map (merge a [(key, .map m)])) (dots key) = some (.map (merge m2 m)) ∧
      (∀ q, q <+: dots key → q ≠ dots key → see (merge a [(key, .map m)]) q = .map) ∧
      ∀ q, ¬ q <+: dots key → ¬ dots key <+: q → see (merge a [(key, .map m)]) q = see a q := by
  have hd : dots key ≠ [] := dots_ne_nil key
  have hlen : (dots key).length ≠ 1 := by
    intro h1
    obtain ⟨k, hk⟩ := List.length_eq_one_iff.1 h1
    have e : k = key := by
      have := joined_dots key
      rw [hk] at this
      simpa [joined] using this
    rw [hk, e, follow, hl] at hf
    cases hf
  have hg : getDynMap a key = some m2 := by
    simp only [getDynMap, get, hl, if_neg hlen, getParts_eq_follow _ hd, hf]
    rfl
  have hp : place a key = dots key := by simp [place, hl]
  have e : merge a [(key, .map m)] = setParts (.map (merge m2 m)) (dots key) a := by
    rw [merge, hg]
    simp only [hp]
    rw [merge]
  rw [e]
  exact follow_setParts _ _ _ _ hf hd

/-- Not vacuous: a map two steps down, with another value beside it. -/
example : follow (.map (merge ([("a".toList, .map [("b".toList, .map [("x".toList, .num 1)]), ("c".toList, .num 2)])] : DMap Nat)
    [("a.b".toList, .map [("y".toList, .num 3)])])) ["a".toList, "b".toList, "x".toList] = some (.num 1) := by
  have := (C43_dotted ([("a".toList, .map [("b".toList, .map [("x".toList, .num 1)]), ("c".toList, .num 2)])] : DMap Nat)
    [("y".toList, .num 3)] [("x".toList, .num 1)] "a.b".toList rfl rfl).1
  rw [show (["a".toList, "b".toList, "x".toList] : List Text) = dots "a.b".toList ++ ["x".toList] from rfl, follow_append this]
  simp [merge, follow, putKey, put]

/-! ## Flattening lists -/

theorem flattenList_plain (k : Text) : ∀ (l : List (Val F)) (i : Nat) (acc : DMap F), (∀ v ∈ l, ∀ m, v ≠ .map m) →
    flattenList k i acc l = ((l.zipIdx i).foldl (fun m e => putKey m (k ++ '.' :: digits e.2) e.1) acc)
  | [], i, acc, _ => by rw [flattenList]; rfl
  | v :: l, i, acc, h => by
    have hv := h v (by simp)
    cases v <;> first
      | exact absurd rfl (hv _)
      | (rw [flattenList]
         · rw [flattenList_plain k l _ _ (fun w hw => h w (by simp [hw]))]
           rfl
         · intro m e; cases e)

theorem lookup_fold_fresh (f : Val F × Nat → Text) (x : Text) : ∀ (l : List (Val F × Nat)) (acc : DMap F), (∀ e ∈ l, f e ≠ x) →
    (l.foldl (fun m e => putKey m (f e) e.1) acc).lookup x = acc.lookup x
  | [], _, _ => rfl
  | e :: l, acc, h => by
    rw [List.foldl_cons, lookup_fold_fresh f x l _ (fun e he => h e (by simp [he])), putKey, lookup_put, if_neg (Ne.symm (h e (by simp)))]

theorem lookup_fold_mem (f : Val F × Nat → Text) : ∀ (l : List (Val F × Nat)) (acc : DMap F), (l.map f).Nodup → ∀ e ∈ l,
    (l.foldl (fun m e => putKey m (f e) e.1) acc).lookup (f e) = some e.1
  | [], _, _, _, h => by cases h
  | d :: l, acc, hn, e, he => by
    rw [List.foldl_cons]
    rw [List.map_cons, List.nodup_cons] at hn
    rcases List.mem_cons.1 he with rfl | he
    · rw [lookup_fold_fresh f _ l _ (fun d hd g => hn.1 (by rw [← g]; exact List.mem_map.2 ⟨d, hd, rfl⟩)), putKey, lookup_put, if_pos rfl]
    · exact lookup_fold_mem f l _ hn.2 e he

/-- **C44.** A list is flattened to its members, each under the key of the list, a dot and its number, counted from zero; nothing else. -/
theorem C44_list (k : Text) (l : List (Val F)) (h : ∀ v ∈ l, ∀ m, v ≠ .map m) :
    (∀ i : Nat, (flatten ([(k, .list l)] : DMap F)).lookup (k ++ '.' :: digits i) = l[i]?) ∧
      ∀ key, (∀ i < l.length, key ≠ k ++ '.' :: digits i) → (flatten ([(k, .list l)] : DMap F)).lookup key = none := by
  have e : flatten ([(k, .list l)] : DMap F) = (l.zipIdx 0).foldl (fun m e => putKey m (k ++ '.' :: digits e.2) e.1) [] := by
    rw [flatten, flattenInto.eq_def]
    simp only []
    rw [flattenInto, flattenList_plain k l 0 [] h]
  have far : ∀ key, (∀ i < l.length, key ≠ k ++ '.' :: digits i) → (flatten ([(k, .list l)] : DMap F)).lookup key = none := by
    intro key hk
    rw [e, lookup_fold_fresh (fun e => k ++ '.' :: digits e.2) key _ _ (fun d hd => ?_)]
    · rfl
    · obtain ⟨v, i⟩ := d
      have := List.mem_zipIdx hd
      exact Ne.symm (hk i (by omega))
  refine ⟨fun i => ?_, far⟩
  by_cases hi : i < l.length
  · have hm : (l[i], i) ∈ l.zipIdx 0 := by
      rw [List.mem_iff_getElem?]
      exact ⟨i, by simp [hi]⟩
    have nd : ((l.zipIdx 0).map fun e => k ++ '.' :: digits e.2).Nodup := by
      have : ((l.zipIdx 0).map fun e : Val F × Nat => k ++ '.' :: digits e.2) = ((l.zipIdx 0).map Prod.snd).map fun i => k ++ '.' :: digits i := by
        rw [List.map_map]; rfl
      rw [this, List.zipIdx_map_snd]
      exact (List.nodup_range' ..).map fun i j hij => Files.digits_inj (List.cons_inj_right '.' |>.1 (List.append_cancel_left hij))
    rw [e, lookup_fold_mem (fun e : Val F × Nat => k ++ '.' :: digits e.2) _ _ nd _ hm, List.getElem?_eq_getElem hi]
  · rw [List.getElem?_eq_none (by omega)]
    refine far _ fun j hj g => hi ?_
    have := Files.digits_inj (List.cons_inj_right '.' |>.1 (List.append_cancel_left g))
    omega

/-- Not vacuous: a list of two numbers. -/
example : (flatten ([("a".toList, .list [.num 7, .num 8])] : DMap Nat)).lookup "a.1".toList = some (.num 8) :=
  (C44_list "a".toList [.num 7, .num 8] (by intro v hv m e; subst e; simp at hv)).1 1

end Verif.Dyn
