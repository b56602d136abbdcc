import Verif.Lemmas.Dynmap

/-!
# Properties of nested maps (C41-C45)
-/

set_option linter.unusedSectionVars false
set_option linter.unusedSimpArgs false

namespace Verif.Dyn

universe u

variable {F : Type u}

/-! ## C41 A map returns what was put into it -/

/-- **C41.** After a plain put the key has the value. -/
theorem C41_put_get (m : DMap F) (key : Text) (v : Val F) : get (putKey m key v) key = some v := by
  rw [get_eq, putKey, lookup_put, if_pos rfl]

/-- **C41.** Every key that is not the one put and whose first part is not that key is unchanged. -/
theorem C41_put_other (m : DMap F) (key other : Text) (v : Val F) (h : other ≠ key) (h' : (dots other).head? ≠ some key) :
    get (putKey m key v) other = get m other := by
  rw [get_eq, get_eq, putKey, lookup_put, if_neg h]
  cases m.lookup other with
  | some w => rfl
  | none =>
    simp only []
    cases hd : dots other with
    | nil => exact absurd hd (dots_ne_nil _)
    | cons a l =>
      rw [follow_map_cons, follow_map_cons, lookup_put, if_neg]
      rintro rfl
      exact h' (by rw [hd]; rfl)

/-- **C41.** After a successful dotted put the value is at the end of the dotted path, everything on the way is a map, and every path that
neither leads to it nor goes through it sees what it saw before. -/
theorem C41_put_dotted (m : DMap F) (key : Text) (v : Val F) (h : (putWithDot m key v).2 = true) :
    follow (.map (putWithDot m key v).1) (dots key) = some v ∧
      (∀ q, q <+: dots key → q ≠ dots key → see (putWithDot m key v).1 q = .map) ∧
      (∀ q, ¬ q <+: dots key → ¬ dots key <+: q → see (putWithDot m key v).1 q = see m q) := by
  rw [putWithDot_eq] at h ⊢
  have hf := follow_putParts v (dots key) (dots_ne_nil _) m h
  refine ⟨?_, ?_, ?_⟩
  · rw [(hf _).1 [] (by simp), follow_nil]
  · intro q h1 h2
    obtain ⟨m', hm'⟩ := (hf q).2.1 h1 h2
    rw [see, hm']
    rfl
  · intro q h1 h2
    rw [see, see, (hf q).2.2 h1 h2]

/-- A dotted put does not add a literal key. -/
theorem lookup_putWithDot (m : DMap F) (key : Text) (v : Val F) (h : (putWithDot m key v).2 = true) (hl : m.lookup key = none) (hk : (dots key).length ≠ 1) :
    (putWithDot m key v).1.lookup key = none := by
  have h3 : see (putWithDot m key v).1 [key] = see m [key] := by
    refine (C41_put_dotted m key v h).2.2 [key] ?_ ?_
    · rintro ⟨t, ht⟩
      exact dots_no_dot key key (by rw [← ht]; simp) (dots_ne_self hk)
    · rintro ⟨t, ht⟩
      cases hd : dots key with
      | nil => exact dots_ne_nil _ hd
      | cons a l =>
        rw [hd] at ht
        simp only [List.cons_append, List.cons.injEq, List.append_eq_nil_iff] at ht
        exact hk (by rw [hd, ht.2.1]; rfl)
  rw [see_cons_none hl, see, seen_eq_nothing, follow_map_cons] at h3
  cases hl' : List.lookup key (putWithDot m key v).1 with
  | none => rfl
  | some w =>
    rw [hl'] at h3
    simp at h3

/-- **C41.** `Get` then finds the value, unless the map has the dotted key as a literal key. -/
theorem C41_get_dotted (m : DMap F) (key : Text) (v : Val F) (h : (putWithDot m key v).2 = true) (hl : m.lookup key = none) :
    get (putWithDot m key v).1 key = some v := by
  rw [get_eq]
  have h1 := (C41_put_dotted m key v h).1
  by_cases hk : (dots key).length = 1
  · have e := dots_length_one hk
    rw [e, follow_map_cons] at h1
    cases hl' : List.lookup key (putWithDot m key v).1 with
    | none =>
      rw [hl'] at h1
      simp at h1
    | some w =>
      rw [hl'] at h1
      simpa using h1
  · rw [lookup_putWithDot m key v h hl hk]
    exact h1

/-- **C41.** A literal dotted key hides what is put under the dotted path. -/
theorem C41_shadow_false : ∃ (m : DMap Nat) (key : Text) (v w : Val Nat), (putWithDot m key v).2 = true ∧
    get (putWithDot m key v).1 key = some w ∧ w ≠ v :=
  ⟨[(['a', '.', 'b'], .num 1)], ['a', '.', 'b'], .num 2, .num 1, by rfl, by rfl, by simp⟩

/-- Not vacuous: a dotted put into an empty map. -/
example : (putWithDot ([] : DMap Nat) ['a', '.', 'b'] (.num 7)).2 = true ∧ get (putWithDot ([] : DMap Nat) ['a', '.', 'b'] (.num 7)).1
    ['a', '.', 'b'] = some (.num 7) := ⟨rfl, rfl⟩

/-! ## C42 A failed dotted put changes nothing -/

/-- **C42.** A dotted put fails exactly when a value that is not a map is in the way, and then the map is what it was. -/
theorem C42_failed_put (m : DMap F) (key : Text) (v : Val F) :
    ((putWithDot m key v).2 = false ↔ ∃ q w, q <+: dots key ∧ q ≠ dots key ∧ see m q = .leaf w) ∧
      ((putWithDot m key v).2 = false → (putWithDot m key v).1 = m) := by
  rw [putWithDot_eq]
  refine ⟨?_, putParts_fail v _ m⟩
  rw [putParts_ok_iff]
  constructor
  · rintro ⟨q, w, h1, h2, h3, h4⟩
    exact ⟨q, w, h1, h2, by rw [see, h3, seen_leaf h4]⟩
  · rintro ⟨q, w, h1, h2, h3⟩
    rw [see, seen_eq_leaf] at h3
    exact ⟨q, w, h1, h2, h3.1, h3.2⟩

/-- Not vacuous: a put that fails. -/
example : (putWithDot ([(['a'], .num 1)] : DMap Nat) ['a', '.', 'b'] (.num 7)).2 = false := rfl

/-! ## C43 Merging is a right-biased deep merge -/

/-- **C43.** Where `b` has something, the merged map has the same. -/
theorem C43_right (a b : DMap F) (ht : Tidy b) (hd : NoDots b) (p : List Text) (h : see b p ≠ .nothing) : see (merge a b) p = see b p := by
  induction p generalizing a b with
  | nil => rfl
  | cons k ks ih =>
    have hl := lookup_merge ht.keys hd.keys a k
    cases hb : b.lookup k with
    | none => exact absurd (see_cons_none hb ks) h
    | some v =>
      rw [hb] at hl
      simp only [] at hl
      rcases isLeaf_or v with hv | ⟨m, rfl⟩
      · have e : mergeEntry (a.lookup k) v = v := by
          cases v <;> first | rfl | exact absurd rfl (hv _)
        rw [e] at hl
        rw [see_cons_leaf hv hl, see_cons_leaf hv hb]
      · rw [see_cons_map hb] at h ⊢
        simp only [mergeEntry] at hl
        rw [see_cons_map hl]
        exact ih _ m (ht.sub hb) (hd.sub hb) h

/-- **C43.** Below a value of `b` that is not a map there is nothing: what `a` had there is gone. -/
theorem C43_replaced (a b : DMap F) (ht : Tidy b) (hd : NoDots b) (p q : List Text) (v : Val F) (hp : p <+: q) (hne : p ≠ q)
    (h : see b p = .leaf v) : see (merge a b) q = .nothing := by
  have h1 := C43_right a b ht hd p (by rw [h]; simp)
  rw [h, see, seen_eq_leaf] at h1
  obtain ⟨t, rfl⟩ := hp
  rw [see, follow_append h1.1]
  cases t with
  | nil => simp at hne
  | cons c t => rw [follow_leaf h1.2]; rfl

/-- **C43.** Where `b` has nothing, and nothing that is not a map above, the merged map has what `a` had. -/
theorem C43_left (a b : DMap F) (ht : Tidy b) (hd : NoDots b) (p : List Text) (h : see b p = .nothing)
    (hp : ∀ q v, q <+: p → see b q ≠ .leaf v) : see (merge a b) p = see a p := by
  induction p generalizing a b with
  | nil => rfl
  | cons k ks ih =>
    have hl := lookup_merge ht.keys hd.keys a k
    cases hb : b.lookup k with
    | none =>
      rw [hb] at hl
      exact see_congr_lookup hl ks
    | some v =>
      rw [hb] at hl
      simp only [] at hl
      rcases isLeaf_or v with hv | ⟨m, rfl⟩
      · exact absurd (see_cons_leaf hv hb []) (by simpa using hp [k] v ⟨ks, rfl⟩)
      · rw [see_cons_map hb] at h
        simp only [mergeEntry] at hl
        rw [see_cons_map hl]
        have hks : ks ≠ [] := by
          rintro rfl
          simp at h
        rw [ih _ m (ht.sub hb) (hd.sub hb) h (fun q v hq => by
          rw [← see_cons_map hb]
          exact hp (k :: q) v (by simpa using hq))]
        cases ha : a.lookup k with
        | none =>
          rw [see_cons_none ha]
          cases ks with
          | nil => exact absurd rfl hks
          | cons c l => exact see_cons_none rfl l
        | some w =>
          rcases isLeaf_or w with hw | ⟨m', rfl⟩
          · rw [see_cons_leaf hw ha, if_neg hks]
            simp only [Option.bind_some, toMap_leaf hw, Option.getD_none]
            cases ks with
            | nil => exact absurd rfl hks
            | cons c l => exact see_cons_none rfl l
          · rw [see_cons_map ha]
            rfl

/-- **C43.** Merging does not depend on the order of the keys of either map, at any level. -/
theorem C43_order (a a' b b' : DMap F) (ha : Same a a') (hb : Same b b') (ht : Tidy b) (ht' : Tidy b') (hd : NoDots b) (hd' : NoDots b') :
    Same (merge a b) (merge a' b') := by
  intro p
  by_cases h : see b p = .nothing
  · by_cases hp : ∀ q v, q <+: p → see b q ≠ .leaf v
    · rw [C43_left a b ht hd p h hp, C43_left a' b' ht' hd' p (by rw [← hb, h]) (fun q v hq => by rw [← hb]; exact hp q v hq), ha]
    · simp only [ne_eq, not_forall, not_not] at hp
      obtain ⟨q, v, hq, hv⟩ := hp
      have hne : q ≠ p := by
        rintro rfl
        rw [h] at hv
        simp at hv
      rw [C43_replaced a b ht hd q p v hq hne hv, C43_replaced a' b' ht' hd' q p v hq hne (by rw [← hb, hv])]
  · rw [C43_right a b ht hd p h, C43_right a' b' ht' hd' p (by rwa [← hb]), hb]

/-- **C43.** Merging a map with itself changes nothing. -/
theorem C43_self (a : DMap F) (ht : Tidy a) (hd : NoDots a) : Same (merge a a) a := by
  intro p
  by_cases h : see a p = .nothing
  · by_cases hp : ∀ q v, q <+: p → see a q ≠ .leaf v
    · rw [C43_left a a ht hd p h hp]
    · simp only [ne_eq, not_forall, not_not] at hp
      obtain ⟨q, v, hq, hv⟩ := hp
      rw [C43_replaced a a ht hd q p v hq (by rintro rfl; rw [h] at hv; simp at hv) hv, h]
  · exact C43_right a a ht hd p h

/-- **C43.** A clone is the same map. -/
theorem C43_clone (a : DMap F) (ht : Tidy a) (hd : NoDots a) : Same (clone a) a := by
  intro p
  by_cases h : see a p = .nothing
  · by_cases hp : ∀ q v, q <+: p → see a q ≠ .leaf v
    · rw [clone, C43_left [] a ht hd p h hp, h]
      cases p with
      | nil => simp at h
      | cons k ks => exact see_cons_none rfl ks
    · simp only [ne_eq, not_forall, not_not] at hp
      obtain ⟨q, v, hq, hv⟩ := hp
      rw [clone, C43_replaced [] a ht hd q p v hq (by rintro rfl; rw [h] at hv; simp at hv) hv, h]
  · exact C43_right [] a ht hd p h

/-- **C43.** With dots in the keys of `b` the statement is false: a map under a dotted key is merged into the nested map, if there is one. -/
theorem C43_dots_false : ∃ (a b : DMap Nat) (p : List Text), Tidy b ∧ see b p = .map ∧ see (merge a b) p = .nothing := by
  refine ⟨[(['a'], .map [(['b'], .map [])])], [(['a', '.', 'b'], .map [])], [['a', '.', 'b']], ?_, rfl, ?_⟩
  · intro p m h
    cases p with
    | nil =>
      simp only [follow_nil, Option.some.injEq, Val.map.injEq] at h
      subst h
      simp
    | cons k ks =>
      rw [follow_map_cons, lookup_cons] at h
      split at h
      · cases ks with
        | nil =>
          simp only [Option.bind_some, follow_nil, Option.some.injEq, Val.map.injEq] at h
          subst h
          simp
        | cons c l => simp [follow_map_cons] at h
      · simp at h
  · have e : merge ([(['a'], .map [(['b'], .map [])])] : DMap Nat) [(['a', '.', 'b'], .map [])] = [(['a'], .map [(['b'], .map [])])] := by
      rw [merge.eq_def]
      have : getDynMap ([(['a'], .map [(['b'], .map [])])] : DMap Nat) ['a', '.', 'b'] = some [] := rfl
      simp only []
      rw [this]
      simp only []
      rw [merge, merge]
      rfl
    rw [e]
    rfl

/-- A small map, to show that the hypotheses hold of something. -/
def sample : DMap Nat := [(['a'], .map [(['b'], .num 1)]), (['c'], .str ['x'])]

theorem sample_paths (p : List Text) (w : Val Nat) (h : follow (.map sample) p = some w) :
    (p = [] ∧ w = .map sample) ∨ (p = [['a']] ∧ w = .map [(['b'], .num 1)]) ∨ IsLeaf w ∧ ∀ l, w ≠ .list l := by
  cases p with
  | nil =>
    simp only [follow_nil, Option.some.injEq] at h
    exact .inl ⟨rfl, h.symm⟩
  | cons k ks =>
    rw [follow_map_cons] at h
    simp only [sample, lookup_cons] at h
    split at h
    · rename_i hk
      cases ks with
      | nil =>
        simp only [Option.bind_some, follow_nil, Option.some.injEq] at h
        exact .inr (.inl ⟨by rw [hk], h.symm⟩)
      | cons c l =>
        simp only [Option.bind_some, follow_map_cons, lookup_cons] at h
        split at h
        · cases l with
          | nil =>
            simp only [Option.bind_some, follow_nil, Option.some.injEq] at h
            subst h
            exact .inr (.inr ⟨fun m h => (by cases h), fun l h => (by cases h)⟩)
          | cons d l => simp [follow] at h
        · simp at h
    · split at h
      · cases ks with
        | nil =>
          simp only [Option.bind_some, follow_nil, Option.some.injEq] at h
          subst h
          exact .inr (.inr ⟨fun m h => (by cases h), fun l h => (by cases h)⟩)
        | cons c l => simp [follow] at h
      · simp at h

theorem sample_ok : Tidy sample ∧ NoDots sample ∧ NoEmpty sample ∧ NoLists sample := by
  refine ⟨?_, ?_, ?_, ?_⟩
  · intro p m h
    rcases sample_paths p _ h with ⟨-, e⟩ | ⟨-, e⟩ | ⟨e, -⟩
    · cases e
      decide
    · cases e
      decide
    · exact absurd rfl (e m)
  · intro p m h
    rcases sample_paths p _ h with ⟨-, e⟩ | ⟨-, e⟩ | ⟨e, -⟩
    · cases e
      simp [sample]
    · cases e
      simp
    · exact absurd rfl (e m)
  · intro p hp h
    rcases sample_paths p _ h with ⟨e, -⟩ | ⟨-, e⟩ | ⟨e, -⟩
    · exact hp e
    · cases e
    · exact absurd rfl (e [])
  · intro p l h
    rcases sample_paths p _ h with ⟨-, e⟩ | ⟨-, e⟩ | ⟨-, e⟩
    · cases e
    · cases e
    · exact e l rfl

/-- Not vacuous. -/
example (a : DMap Nat) : see (merge a sample) [['a'], ['b']] = .leaf (.num 1) :=
  C43_right a sample sample_ok.1 sample_ok.2.1 _ (by simp [see, sample, follow, lookup_cons, seen])

/-! ## C44 Flattening and unflattening are inverse -/

/-- **C44.** Unflattening the flattened map, in whatever order its entries come, gives the map back. -/
theorem C44_round_trip (m : DMap F) (ht : Tidy m) (hd : NoDots m) (hne : NoEmpty m) (hl : NoLists m) (l : DMap F)
    (hp : l.Perm (flatten m)) : ∃ m', unflatten l = some m' ∧ Same m' m := by
  rw [flatten_eq ht hd hl] at hp
  obtain ⟨l', hl', hp'⟩ : ∃ l' : List (List Text × Val F), l = l'.map (fun e => (joined e.1, e.2)) ∧ l'.Perm (leaves m) := by
    refine ⟨l.map fun e => (dots e.1, e.2), ?_, ?_⟩
    · rw [List.map_map]
      conv_lhs => rw [← List.map_id l]
      refine List.map_congr_left fun e _ => ?_
      simp [joined_dots]
    · refine (hp.map _).trans ?_
      unfold flat
      rw [List.map_map]
      conv_rhs => rw [← List.map_id (leaves m)]
      refine List.Perm.of_eq (List.map_congr_left fun e he => ?_)
      simp [dots_joined (leaves_ne_nil m e he) (leaves_no_dots ht hd e he)]
  have hmem : ∀ e, e ∈ l' ↔ e ∈ leaves m := fun e => hp'.mem_iff
  have hpw : l'.Pairwise fun a b => ¬ a.1 <+: b.1 ∧ ¬ b.1 <+: a.1 := by
    have hnd : l'.Pairwise fun a b => a.1 ≠ b.1 := by
      have := (hp'.map (·.1)).nodup_iff.mpr (leaves_nodup ht)
      rwa [List.Nodup, List.pairwise_map] at this
    refine hnd.imp_of_mem ?_
    intro a b ha hb hab
    exact ⟨fun hc => hab (leaves_apart ht ((hmem a).mp ha) ((hmem b).mp hb) hc),
      fun hc => hab (leaves_apart ht ((hmem b).mp hb) ((hmem a).mp ha) hc).symm⟩
  obtain ⟨m', hm', hh⟩ := unflattenLoop_holds l' [] [] holds_nil (fun e he => leaves_ne_nil m e ((hmem e).mp he))
    (fun e he => leaves_no_dots ht hd e ((hmem e).mp he)) (fun e he => leaves_isLeaf m e ((hmem e).mp he)) hpw
    (fun e _ e' he' => by simp at he')
  refine ⟨m', by rw [hl']; exact hm', ?_⟩
  rw [List.append_nil] at hh
  have hr : ∀ e, e ∈ l'.reverse ↔ e ∈ leaves m := fun e => by rw [List.mem_reverse, hmem]
  intro q
  obtain ⟨s1, s2, s3⟩ := see_of_leaves ht hne q
  by_cases h1 : ∃ v, (q, v) ∈ leaves m
  · obtain ⟨v, hv⟩ := h1
    rw [s1 v hv]
    exact hh.leaf (q, v) ((hr _).mpr hv)
  · by_cases h2 : q = [] ∨ ∃ e ∈ leaves m, q <+: e.1 ∧ q ≠ e.1
    · rw [s2 h2]
      refine hh.map q ?_
      rcases h2 with h2 | ⟨e, he, h2⟩
      · exact .inl h2
      · exact .inr ⟨e, (hr e).mpr he, h2⟩
    · rw [s3 (fun v hv => h1 ⟨v, hv⟩) h2]
      refine hh.nothing q ?_ ?_
      · rintro ⟨p, v⟩ he rfl
        exact h1 ⟨v, (hr _).mp he⟩
      · rintro (h3 | ⟨e, he, h3⟩)
        · exact h2 (.inl h3)
        · exact h2 (.inr ⟨e, (hr e).mp he, h3⟩)

/-- **C44.** Every key of the flattened map is the dotted path of a value that is not a map, and every such value is there. -/
theorem C44_flatten (m : DMap F) (ht : Tidy m) (hd : NoDots m) (hl : NoLists m) (key : Text) (v : Val F) :
    (key, v) ∈ flatten m ↔ see m (dots key) = .leaf v := by
  rw [flatten_eq ht hd hl, see, seen_eq_leaf, ← mem_leaves ht]
  constructor
  · intro h
    obtain ⟨⟨p, w⟩, h1, h2⟩ := List.mem_map.mp h
    simp only [Prod.mk.injEq] at h2
    rw [← h2.1, ← h2.2, dots_joined (leaves_ne_nil m _ h1) (leaves_no_dots ht hd _ h1)]
    exact h1
  · intro h
    refine List.mem_map.mpr ⟨(dots key, v), h, ?_⟩
    simp only [Prod.mk.injEq, and_true]
    exact joined_dots key

/-- **C44.** A list does not come back as a list. -/
theorem C44_list_false : unflatten (flatten ([(['a'], .list [.num 1])] : DMap Nat)) = some [(['a'], .map [(['0'], .num 1)])] := by
  have e : flatten ([(['a'], .list [.num 1])] : DMap Nat) = [(['a', '.', '0'], .num 1)] := by
    rw [flatten, flattenInto.eq_def]
    simp only []
    rw [flattenList, flattenInto, flattenList]
    · rfl
    · intro m h
      cases h
  rw [e]
  rfl

/-- **C44.** An empty map inside is lost. -/
theorem C44_empty_false : unflatten (flatten ([(['a'], .map [])] : DMap Nat)) = some [] := by
  have e : flatten ([(['a'], .map [])] : DMap Nat) = [] := by
    rw [flatten, flattenInto.eq_def]
    simp only []
    rw [flattenInto, flattenInto]
    rfl
  rw [e]
  rfl

/-- Not vacuous: the sample comes back. -/
example : ∃ m', unflatten (flatten sample) = some m' ∧ Same m' sample :=
  C44_round_trip sample sample_ok.1 sample_ok.2.1 sample_ok.2.2.1 sample_ok.2.2.2 _ (.refl _)

/-! ## C45 Comment stripping leaves data alone -/

theorem strip_other {c : Char} (h : c ≠ '/') (t : Text) : strip (c :: t) = c :: strip t := by
  rw [strip.eq_def]
  simp only []
  split
  · exact absurd rfl h
  · exact absurd rfl h
  · rfl

theorem strip_slash {c : Char} (h1 : c ≠ '/') (h2 : c ≠ '*') (t : Text) : strip ('/' :: c :: t) = '/' :: strip (c :: t) := by
  rw [strip.eq_def]
  simp only []
  split
  · rename_i h
    simp only [List.cons.injEq] at h
    exact absurd h.1 h1
  · rename_i h
    simp only [List.cons.injEq] at h
    exact absurd h.1 h2
  · rfl

theorem afterLine_found {s : Text} (h : '\n' ∉ s) (t : Text) : afterLine (s ++ '\n' :: t) = some t := by
  induction s with
  | nil => simp [afterLine]
  | cons c s ih =>
    simp only [List.mem_cons, not_or] at h
    rw [List.cons_append, afterLine, if_neg (Ne.symm h.1), ih h.2]

theorem afterBlock_found {s : Text} (h : ¬ ['*', '/'] <:+: (s ++ ['*'])) (t : Text) : afterBlock (s ++ '*' :: '/' :: t) = some t := by
  induction s with
  | nil => simp [afterBlock]
  | cons c s ih =>
    rw [List.cons_append, afterBlock.eq_def]
    simp only []
    split
    · rename_i c' rest' he
      exfalso
      cases s with
      | nil => simp at he
      | cons d s =>
        simp only [List.cons_append, List.cons.injEq] at he
        exact h ⟨[], s ++ ['*'], by simp [he.1]⟩
    · rename_i c' s' _
      refine ih ?_
      rintro ⟨a, b, hab⟩
      exact h ⟨_ :: a, b, by rw [List.cons_append, List.cons_append, hab]; rfl⟩

theorem strip_line {s : Text} (h : '\n' ∉ s) (t : Text) : strip ('/' :: '/' :: (s ++ '\n' :: t)) = strip t := by
  rw [strip.eq_def]
  simp only []
  split
  · rename_i r hr
    rw [afterLine_found h] at hr
    simp only [Option.some.injEq] at hr
    rw [hr]
  · rename_i hr
    rw [afterLine_found h] at hr
    simp at hr

theorem strip_block {s : Text} (h : ¬ ['*', '/'] <:+: (s ++ ['*'])) (t : Text) : strip ('/' :: '*' :: (s ++ '*' :: '/' :: t)) = strip t := by
  rw [strip.eq_def]
  simp only []
  split
  · rename_i r hr
    rw [afterBlock_found h] at hr
    simp only [Option.some.injEq] at hr
    rw [hr]
  · rename_i hr
    rw [afterBlock_found h] at hr
    simp at hr

theorem strip_code {s : Text} (h : '/' ∉ s) (t : Text) : strip (s ++ t) = s ++ strip t := by
  induction s with
  | nil => rfl
  | cons c s ih =>
    simp only [List.mem_cons, not_or] at h
    rw [List.cons_append, strip_other (Ne.symm h.1), ih h.2]
    rfl

theorem strip_quoted {s : Text} (h1 : ¬ ['/', '/'] <:+: s) (h2 : ¬ ['/', '*'] <:+: s) (t : Text) :
    strip (s ++ '"' :: t) = s ++ '"' :: strip t := by
  induction s with
  | nil => exact strip_other (by decide) t
  | cons c s ih =>
    have ih' := ih (fun ⟨a, b, hab⟩ => h1 ⟨c :: a, b, by rw [List.cons_append, List.cons_append, hab]⟩)
      (fun ⟨a, b, hab⟩ => h2 ⟨c :: a, b, by rw [List.cons_append, List.cons_append, hab]⟩)
    by_cases hc : c = '/'
    · subst hc
      cases s with
      | nil =>
        rw [List.cons_append, List.nil_append, strip_slash (by decide) (by decide), strip_other (by decide)]
        rfl
      | cons d s =>
        have hd1 : d ≠ '/' := fun e => h1 ⟨[], s, by rw [e]; rfl⟩
        have hd2 : d ≠ '*' := fun e => h2 ⟨[], s, by rw [e]; rfl⟩
        rw [List.cons_append, List.cons_append, strip_slash hd1 hd2, ← List.cons_append, ih']
        rfl
    · rw [List.cons_append, strip_other hc, ih']
      rfl

/-- C45, as it would be right. -/
def C45_statement : Prop := ∀ l : List Piece, (∀ p ∈ l, p.Ok) → strip (document l) = document (withoutComments l)

/-- **C45, restricted.** The comments and nothing else are removed from every document none of whose strings contains `//` or `/*`. -/
theorem C45_strip_partial (l : List Piece) (h : ∀ p ∈ l, p.Ok)
    (hs : ∀ s, Piece.quoted s ∈ l → ¬ ['/', '/'] <:+: s ∧ ¬ ['/', '*'] <:+: s) : strip (document l) = document (withoutComments l) := by
  induction l with
  | nil => simp [document, withoutComments, strip]
  | cons p l ih =>
    have ih' := ih (fun p hp => h p (List.mem_cons_of_mem _ hp)) (fun s hs' => hs s (List.mem_cons_of_mem _ hs'))
    have hp := h p (by simp)
    have e : document (p :: l) = p.text ++ document l := by simp [document]
    rw [e]
    cases p with
    | code s =>
      have e2 : withoutComments (Piece.code s :: l) = .code s :: withoutComments l := by simp [withoutComments, isComment]
      rw [e2]
      simp only [Piece.text, Piece.Ok] at hp ⊢
      rw [strip_code hp.1, ih']
      simp [document, Piece.text]
    | quoted s =>
      have e2 : withoutComments (Piece.quoted s :: l) = .quoted s :: withoutComments l := by simp [withoutComments, isComment]
      rw [e2]
      obtain ⟨h1, h2⟩ := hs s (by simp)
      simp only [Piece.text, List.cons_append, List.append_assoc, List.nil_append]
      rw [strip_other (by decide), strip_quoted h1 h2, ih']
      simp [document, Piece.text]
    | line s =>
      have e2 : withoutComments (Piece.line s :: l) = withoutComments l := by simp [withoutComments, isComment]
      rw [e2, ← ih']
      simp only [Piece.text, List.cons_append, List.append_assoc, List.nil_append]
      exact strip_line hp _
    | block s =>
      have e2 : withoutComments (Piece.block s :: l) = withoutComments l := by simp [withoutComments, isComment]
      rw [e2, ← ih']
      simp only [Piece.text, List.cons_append, List.append_assoc, List.nil_append]
      exact strip_block hp _

/-- **C45.** The property is false of the code: an address in a string is cut off, together with the closing quote. -/
theorem C45_false : ¬ C45_statement := by
  intro h
  have := h [.quoted ['a', ':', '/', '/', 'b'], .code ['\n']] (by
    intro p hp
    rcases List.mem_cons.mp hp with rfl | hp
    · simp [Piece.Ok, Piece.Ok.Quoted]
    · rw [List.mem_singleton.mp hp]
      simp [Piece.Ok])
  have e : strip (document [.quoted ['a', ':', '/', '/', 'b'], .code ['\n']]) = ['"', 'a', ':'] := by
    simp only [document, Piece.text, List.map_cons, List.map_nil, List.flatten_cons, List.flatten_nil, List.cons_append, List.nil_append,
      List.append_nil]
    rw [strip_other (by decide), strip_other (by decide), strip_other (by decide)]
    have := strip_line (s := ['b', '"']) (by decide) []
    simp only [List.cons_append, List.nil_append] at this
    rw [this]
    simp [strip]
  rw [e] at this
  simp [document, withoutComments, isComment, Piece.text] at this

/-- **C45.** A comment on the last line is kept when no line end follows. -/
theorem C45_last_line_false : strip ['1', '/', '/', 'x'] = ['1', '/', '/', 'x'] := by
  rw [strip_other (by decide)]
  have : strip ['/', '/', 'x'] = ['/', '/', 'x'] := by
    rw [strip.eq_def]
    simp only []
    split
    · rename_i r hr
      simp [afterLine] at hr
    · rw [strip_slash (by decide) (by decide), strip_other (by decide)]
      simp [strip]
  rw [this]

/-- Not vacuous. -/
example : strip (document [.code ['{'], .line ['h', 'i'], .block ['*'], .quoted ['a', '/', 'b'], .code ['}']]) =
    document [.code ['{'], .quoted ['a', '/', 'b'], .code ['}']] :=
  C45_strip_partial _ (by
    intro p hp
    simp only [List.mem_cons, List.not_mem_nil, or_false] at hp
    rcases hp with rfl | rfl | rfl | rfl | rfl
    · simp [Piece.Ok]
    · simp [Piece.Ok]
    · simp only [Piece.Ok]
      decide
    · simp [Piece.Ok, Piece.Ok.Quoted]
    · simp [Piece.Ok]) (by
    intro s hs
    simp only [List.mem_cons, List.not_mem_nil, or_false, reduceCtorEq, false_or, Piece.quoted.injEq] at hs
    subst hs
    decide)

/-! ## C68 Removing a key removes that key and nothing else -/

theorem removeParts_cons {k : Text} {ks : List Text} (h : ks ≠ []) (m : DMap F) :
    removeParts (k :: ks) m = (match m.lookup k with
      | none => m
      | some v =>
        match v.toMap with
        | none => m
        | some m' => put k (.map (removeParts ks m')) m) := by
  cases ks with
  | nil => exact absurd rfl h
  | cons a l =>
    rw [removeParts]
    · rfl
    · simp

theorem see_erase (k : Text) (m : DMap F) (q : List Text) : see (erase k m) q = if [k] <+: q then .nothing else see m q := by
  cases q with
  | nil => simp
  | cons a q =>
    by_cases h : a = k
    · subst h
      rw [if_pos (by simp)]
      exact see_cons_none (by rw [lookup_erase, if_pos rfl]) q
    · rw [if_neg (by simp [Ne.symm h])]
      exact see_congr_lookup (by rw [lookup_erase, if_neg h]) q

theorem see_removeParts (ks : List Text) (hne : ks ≠ []) (m : DMap F) (q : List Text) :
    see (removeParts ks m) q = if ks <+: q then .nothing else see m q := by
  induction ks generalizing m q with
  | nil => exact absurd rfl hne
  | cons k ks ih =>
    by_cases hks : ks = []
    · subst hks
      exact see_erase k m q
    · rw [removeParts_cons hks]
      cases q with
      | nil => simp
      | cons a q =>
        by_cases ha : a = k
        · subst ha
          have e : (a :: ks <+: a :: q) ↔ ks <+: q := by simp
          cases hl : m.lookup a with
          | none =>
            simp only []
            rw [see_cons_none hl]
            split <;> rfl
          | some v =>
            simp only []
            rcases isLeaf_or v with hv | ⟨m', rfl⟩
            · rw [toMap_leaf hv]
              simp only []
              rw [see_cons_leaf hv hl]
              by_cases hq : q = []
              · subst hq
                simp [hks]
              · rw [if_neg hq]
                split <;> rfl
            · simp only [Val.toMap]
              rw [see_cons_map (by rw [lookup_put, if_pos rfl]), see_cons_map hl, ih hks]
              simp only [e]
        · rw [if_neg (by simp [Ne.symm ha])]
          cases hl : m.lookup k with
          | none => rfl
          | some v =>
            simp only []
            cases v.toMap with
            | none => rfl
            | some m' => exact see_congr_lookup (by rw [lookup_put, if_neg ha]) q

/-- **C68.** Removing a literal key removes what is at it and below it, and nothing else. -/
theorem C68_literal (m : DMap F) (key : Text) (h : (m.lookup key).isSome) (q : List Text) :
    see (remove m key) q = if [key] <+: q then .nothing else see m q := by
  rw [remove, if_pos h, see_erase]

/-- **C68.** If there is no such literal key, removing it removes what is at its dotted path and below, and nothing else. -/
theorem C68_dotted (m : DMap F) (key : Text) (h : m.lookup key = none) (q : List Text) :
    see (remove m key) q = if dots key <+: q then .nothing else see m q := by
  rw [remove, if_neg (by simp [h])]
  split
  · rename_i hk
    rw [dots_length_one hk]
    split
    · rename_i hq
      obtain ⟨t, rfl⟩ := hq
      exact see_cons_none h t
    · rfl
  · exact see_removeParts _ (dots_ne_nil _) m q

/-- **C68.** Removing a key that is not there leaves the map as it is. -/
theorem C68_absent (m : DMap F) (key : Text) (h : get m key = none) : remove m key = m := by
  have hl : m.lookup key = none := by
    rw [get_eq] at h
    cases hl : m.lookup key with
    | none => rfl
    | some v => simp [hl] at h
  have hf : follow (.map m) (dots key) = none := by simpa [get_eq, hl] using h
  have main : ∀ (ks : List Text) (m : DMap F), ks ≠ [] → follow (.map m) ks = none → removeParts ks m = m := by
    intro ks
    induction ks with
    | nil => exact fun m h => absurd rfl h
    | cons k ks ih =>
      intro m _ hf
      rw [follow_map_cons] at hf
      by_cases hks : ks = []
      · subst hks
        have : m.lookup k = none := by
          cases hm : m.lookup k with
          | none => rfl
          | some v => simp [hm] at hf
        rw [removeParts, erase, List.filter_eq_self]
        intro e he
        have := lookup_none_iff.mp this
        simp only [ne_eq, decide_eq_true_eq]
        rintro rfl
        exact this (List.mem_map_of_mem he)
      · rw [removeParts_cons hks]
        cases hm : m.lookup k with
        | none => rfl
        | some v =>
          rw [hm] at hf
          simp only [Option.bind_some] at hf ⊢
          cases hv : v.toMap with
          | none => rfl
          | some m' =>
            rw [toMap_eq_some.mp hv] at hf hm
            simp only []
            rw [ih m' hks hf, put_same hm]
  rw [remove, if_neg (by simp [hl])]
  split
  · rfl
  · exact main _ m (dots_ne_nil _) hf

/-- **C68.** After a key without dots has been removed, it is not found. -/
theorem C68_gone (m : DMap F) (key : Text) (h : '.' ∉ key) : get (remove m key) key = none := by
  by_cases hl : (m.lookup key).isSome
  · rw [remove, if_pos hl, get_plain h, lookup_erase, if_pos rfl]
  · rw [remove, if_neg hl, if_pos (by rw [dots_plain h]; rfl), get_plain h]
    exact Option.not_isSome_iff_eq_none.mp hl

/-- **C68.** A dotted key can still be found after it has been removed: the literal key hides the dotted path, and only one of them is removed. -/
theorem C68_gone_false : ∃ (m : DMap Nat) (key : Text), Tidy m ∧ get (remove m key) key ≠ none := by
  refine ⟨[(['a', '.', 'b'], .num 1), (['a'], .map [(['b'], .num 2)])], ['a', '.', 'b'], ?_, ?_⟩
  · intro p m h
    cases p with
    | nil =>
      simp only [follow_nil, Option.some.injEq, Val.map.injEq] at h
      subst h
      decide
    | cons k ks =>
      rw [follow_map_cons] at h
      simp only [lookup_cons, List.lookup_nil] at h
      split at h
      · cases ks <;> simp [follow] at h
      · split at h
        · cases ks with
          | nil =>
            simp only [Option.bind_some, follow_nil, Option.some.injEq, Val.map.injEq] at h
            subst h
            decide
          | cons k ks =>
            rw [Option.bind_some, follow_map_cons] at h
            simp only [lookup_cons, List.lookup_nil] at h
            split at h
            · cases ks <;> simp [follow] at h
            · simp at h
        · simp at h
  · have e : get (remove ([(['a', '.', 'b'], .num 1), (['a'], .map [(['b'], .num 2)])] : DMap Nat) ['a', '.', 'b']) ['a', '.', 'b'] =
        some (.num 2) := rfl
    rw [e]
    simp

/-- **C68.** Removing several keys without dots removes exactly those. -/
theorem C68_all (m : DMap F) (keys : List Text) (h : ∀ k ∈ keys, '.' ∉ k) (q : List Text) :
    see (removeAll m keys) q = if ∃ k ∈ keys, [k] <+: q then .nothing else see m q := by
  induction keys generalizing m with
  | nil => simp [removeAll]
  | cons k keys ih =>
    have hk : see (remove m k) q = if [k] <+: q then .nothing else see m q := by
      by_cases hl : (m.lookup k).isSome
      · exact C68_literal m k hl q
      · rw [C68_dotted m k (Option.not_isSome_iff_eq_none.mp hl), dots_plain (h k (by simp))]
    have e := ih (remove m k) (fun k' hk' => h k' (by simp [hk']))
    rw [show removeAll m (k :: keys) = removeAll (remove m k) keys from rfl, e, hk]
    by_cases h1 : [k] <+: q
    · simp [h1]
    · simp [h1]

/-- Not vacuous: a nested key. -/
example : see (remove sample ['a', '.', 'b']) [['a'], ['b']] = .nothing ∧ see (remove sample ['a', '.', 'b']) [['a']] = .map := ⟨rfl, rfl⟩

/-! ## C69 Putting if absent and adding to a list -/

/-- **C69.** Putting a value if the key is absent keeps the value that is there. -/
theorem C69_absent (m : DMap F) (key : Text) (v : Val F) :
    get (putIfAbsent m key v) key = some ((get m key).getD v) ∧ (get m key ≠ none → putIfAbsent m key v = m) := by
  unfold putIfAbsent
  cases h : get m key with
  | none => exact ⟨C41_put_get m key v, fun h' => absurd rfl h'⟩
  | some w => exact ⟨by simp [h], fun _ => rfl⟩

/-- **C69.** Adding to a list appends in order; a missing list is started. -/
theorem C69_add (m : DMap F) (key : Text) (l vs : List (Val F)) (h : get m key = some (.list l) ∨ get m key = none ∧ l = []) :
    get (addToSlice m key vs) key = some (.list (l ++ vs)) := by
  have e : get (putIfAbsent m key (.list [])) key = some (.list l) := by
    rw [(C69_absent m key _).1]
    rcases h with h | ⟨h, rfl⟩ <;> simp [h]
  unfold addToSlice
  simp only [e]
  exact C41_put_get _ key _

/-- **C69.** A value that is not a list is left alone. -/
theorem C69_not_list (m : DMap F) (key : Text) (v : Val F) (vs : List (Val F)) (h : get m key = some v) (hv : ∀ l, v ≠ .list l) :
    addToSlice m key vs = m := by
  have e : putIfAbsent m key (.list []) = m := (C69_absent m key _).2 (by simp [h])
  unfold addToSlice
  simp only [e, h]
  cases v <;> first | rfl | exact absurd rfl (hv _)

/-- **C69.** Putting all entries of a map: they win, the rest stays. -/
theorem C69_all (m l : DMap F) (hl : (l.map (·.1)).Nodup) (k : Text) : (putAll m l).lookup k = (l.lookup k).or (m.lookup k) := by
  induction l generalizing m with
  | nil => rfl
  | cons e l ih =>
    obtain ⟨k', v⟩ := e
    simp only [List.map_cons, List.nodup_cons] at hl
    rw [show putAll m ((k', v) :: l) = putAll (putKey m k' v) l from rfl, ih _ hl.2, lookup_cons, putKey, lookup_put]
    by_cases h : k = k'
    · subst h
      have := lookup_none_iff.mpr hl.1
      simp [this]
    · simp [h]

/-- Not vacuous. -/
example : get (addToSlice ([(['a'], .list [.num 1])] : DMap Nat) ['a'] [.num 2]) ['a'] = some (.list [.num 1, .num 2]) :=
  C69_add _ _ [.num 1] [.num 2] (.inl rfl)

end Verif.Dyn
