import Verif.Model.Custom
import Verif.Props.Dynmap

/-!
# Properties of custom components (C58)
-/

set_option linter.unusedSectionVars false
set_option linter.unusedSimpArgs false

namespace Verif.Dyn

universe u

variable {F : Type u}

theorem put_keys (k : Text) (v : Val F) (m : DMap F) (x : Text) : x ∈ (put k v m).map (·.1) ↔ x = k ∨ x ∈ m.map (·.1) := by
  induction m with
  | nil => simp [put]
  | cons e m ih =>
    obtain ⟨k', v'⟩ := e
    rw [put]
    split
    · rename_i h; subst h; simp
    · simp only [List.map_cons, List.mem_cons, ih]
      tauto

theorem put_nodup (k : Text) (v : Val F) (m : DMap F) (h : (m.map (·.1)).Nodup) : ((put k v m).map (·.1)).Nodup := by
  induction m with
  | nil => simp [put]
  | cons e m ih =>
    obtain ⟨k', v'⟩ := e
    simp only [List.map_cons, List.nodup_cons] at h
    rw [put]
    split
    · rename_i hk; subst hk; simpa using h
    · rename_i hk
      simp only [List.map_cons, List.nodup_cons]
      refine ⟨?_, ih h.2⟩
      rw [put_keys]
      rintro (rfl | hm)
      · exact hk rfl
      · exact h.1 hm

theorem merge_keys (b : DMap F) (hd : ∀ e ∈ b, '.' ∉ e.1) (a : DMap F) (ha : (a.map (·.1)).Nodup) (hda : ∀ e ∈ a, '.' ∉ e.1) :
    ((merge a b).map (·.1)).Nodup ∧ ∀ e ∈ merge a b, '.' ∉ e.1 := by
  induction b generalizing a with
  | nil => rw [merge]; exact ⟨ha, hda⟩
  | cons e b ih =>
    obtain ⟨k, v⟩ := e
    have hk : '.' ∉ k := hd (k, v) (by simp)
    rw [merge_cons hk]
    refine ih (fun e he => hd e (List.mem_cons_of_mem _ he)) _ (put_nodup _ _ _ ha) ?_
    intro e he
    have := (put_keys k _ a e.1).1 (List.mem_map_of_mem he)
    rcases this with h | h
    · rw [h]; exact hk
    · obtain ⟨e', he', h⟩ := List.mem_map.1 h
      rw [← h]; exact hda e' he'

theorem merge_follow (p : List Text) : ∀ (a b : DMap F), Tidy a → NoDots a → Tidy b → NoDots b → ∀ m, follow (.map (merge a b)) p = some (.map m) →
    (m.map (·.1)).Nodup ∧ ∀ e ∈ m, '.' ∉ e.1 := by
  induction p with
  | nil =>
    intro a b hta hda htb hdb m h
    simp only [follow_nil, Option.some.injEq, Val.map.injEq] at h
    subst h
    exact merge_keys b hdb.keys a hta.keys hda.keys
  | cons k ks ih =>
    intro a b hta hda htb hdb m h
    rw [follow_map_cons, lookup_merge htb.keys hdb.keys a k] at h
    cases hb : b.lookup k with
    | none =>
      rw [hb] at h
      simp only at h
      have h' : follow (.map a) (k :: ks) = some (.map m) := by rw [follow_map_cons]; exact h
      exact ⟨hta _ _ h', hda _ _ h'⟩
    | some v =>
      rw [hb] at h
      simp only [Option.bind_some] at h
      rcases isLeaf_or v with hv | ⟨m', rfl⟩
      · have e : mergeEntry (a.lookup k) v = v := by
          cases v <;> first | rfl | exact absurd rfl (hv _)
        rw [e] at h
        have h' : follow (.map b) (k :: ks) = some (.map m) := by rw [follow_map_cons, hb]; exact h
        exact ⟨htb _ _ h', hdb _ _ h'⟩
      · simp only [mergeEntry] at h
        cases ha : (a.lookup k).bind Val.toMap with
        | none =>
          rw [ha] at h
          exact ih [] m' (by intro p m h; cases p with
              | nil => simp only [follow_nil, Option.some.injEq, Val.map.injEq] at h; subst h; simp
              | cons c p => simp [follow] at h)
            (by intro p m h; cases p with
              | nil => simp only [follow_nil, Option.some.injEq, Val.map.injEq] at h; subst h; simp
              | cons c p => simp [follow] at h) (htb.sub hb) (hdb.sub hb) m h
        | some a' =>
          rw [ha] at h
          obtain ⟨w, hw, hw'⟩ := Option.bind_eq_some_iff.1 ha
          rw [toMap_eq_some] at hw'
          subst hw'
          exact ih a' m' (hta.sub hw) (hda.sub hw) (htb.sub hb) (hdb.sub hb) m h

theorem tidy_nil : Tidy ([] : DMap F) ∧ NoDots ([] : DMap F) := by
  constructor
  · intro p m h
    cases p with
    | nil => simp only [follow_nil, Option.some.injEq, Val.map.injEq] at h; subst h; simp
    | cons c p => simp [follow] at h
  · intro p m h
    cases p with
    | nil => simp only [follow_nil, Option.some.injEq, Val.map.injEq] at h; subst h; simp
    | cons c p => simp [follow] at h

theorem tidy_clone {m : DMap F} (ht : Tidy m) (hd : NoDots m) : Tidy (clone m) ∧ NoDots (clone m) :=
  ⟨fun p m' h => (merge_follow p [] m tidy_nil.1 tidy_nil.2 ht hd m' h).1, fun p m' h => (merge_follow p [] m tidy_nil.1 tidy_nil.2 ht hd m' h).2⟩

theorem tidy_erase {m : DMap F} (ht : Tidy m) (hd : NoDots m) (k : Text) : Tidy (erase k m) ∧ NoDots (erase k m) := by
  have hf : ∀ c p m', follow (.map (erase k m)) (c :: p) = some (.map m') → follow (.map m) (c :: p) = some (.map m') := by
    intro c p m' h
    rw [follow_map_cons, lookup_erase] at h
    split at h
    · simp at h
    · rw [follow_map_cons]; exact h
  constructor
  · intro p m' h
    cases p with
    | nil =>
      simp only [follow_nil, Option.some.injEq, Val.map.injEq] at h
      subst h
      exact ht.keys.sublist (List.Sublist.map _ List.filter_sublist)
    | cons c p => exact ht _ _ (hf c p m' h)
  · intro p m' h
    cases p with
    | nil =>
      simp only [follow_nil, Option.some.injEq, Val.map.injEq] at h
      subst h
      intro e he
      exact hd.keys e (List.mem_of_mem_filter he)
    | cons c p => exact hd _ _ (hf c p m' h)

theorem tidy_removeAll_one {m : DMap F} (ht : Tidy m) (hd : NoDots m) (k : Text) (hk : '.' ∉ k) :
    Tidy (removeAll m [k]) ∧ NoDots (removeAll m [k]) := by
  show Tidy (remove m k) ∧ NoDots (remove m k)
  unfold remove
  split
  · exact tidy_erase ht hd k
  · rw [if_pos (by rw [dots_plain hk]; rfl)]; exact ⟨ht, hd⟩

theorem see_removeAll_one (m : DMap F) (k : Text) (hk : '.' ∉ k) (q : List Text) :
    see (removeAll m [k]) q = if [k] <+: q then .nothing else see m q := by
  have := C68_all m [k] (by simpa using hk) q
  simpa using this

theorem see_putKey (m : DMap F) (k : Text) (v : Val F) (c : Text) (p : List Text) (h : c ≠ k) : see (putKey m k v) (c :: p) = see m (c :: p) :=
  see_congr_lookup (by rw [putKey, lookup_put, if_neg h]) p

theorem lookup_of_see {a b : DMap F} {k : Text} {v : Val F} (h : see a [k] = see b [k]) (hv : IsLeaf v) (hb : b.lookup k = some v) :
    a.lookup k = some v := by
  rw [see_cons_leaf hv hb, if_pos rfl, see, seen_eq_leaf] at h
  have := h.1
  rw [follow_map_cons] at this
  cases ha : a.lookup k with
  | none => rw [ha] at this; simp at this
  | some w => rw [ha] at this; simpa [follow_nil] using this

theorem lookup_none_of_see {a b : DMap F} {k : Text} (h : see a [k] = see b [k]) (hb : b.lookup k = none) : a.lookup k = none := by
  rw [see_cons_none hb, see, seen_eq_nothing, follow_map_cons] at h
  cases ha : a.lookup k with
  | none => rfl
  | some w => rw [ha] at h; simp [follow_nil] at h

theorem lookup_map_of_see {a b : DMap F} {k : Text} {m : DMap F} (h : see a [k] = see b [k]) (hb : b.lookup k = some (.map m)) :
    ∃ m', a.lookup k = some (.map m') := by
  rw [see_cons_map hb, show see m [] = Seen.map from rfl, see, seen_eq_map] at h
  obtain ⟨m', h⟩ := h
  refine ⟨m', ?_⟩
  rw [follow_map_cons] at h
  cases ha : a.lookup k with
  | none => rw [ha] at h; simp at h
  | some w => rw [ha] at h; simpa [follow_nil] using h

theorem slice_of_see {a b : DMap F} {k : Text} (hk : '.' ∉ k) (h : see a [k] = see b [k]) : getDynMapSlice a k = getDynMapSlice b k := by
  unfold getDynMapSlice
  rw [get_plain hk, get_plain hk]
  cases hb : b.lookup k with
  | none => rw [lookup_none_of_see h hb]
  | some v =>
    rcases isLeaf_or v with hv | ⟨m, rfl⟩
    · rw [lookup_of_see h hv hb]
    · obtain ⟨m', h'⟩ := lookup_map_of_see h hb
      rw [h']

theorem isPart_of_see {a b : DMap F} (h : see a [typeKey] = see b [typeKey]) : isPart a = isPart b := by
  have hk : '.' ∉ typeKey := by decide
  unfold isPart
  rw [get_plain hk, get_plain hk]
  cases hb : b.lookup typeKey with
  | none => rw [lookup_none_of_see h hb]
  | some v =>
    rcases isLeaf_or v with hv | ⟨m, rfl⟩
    · rw [lookup_of_see h hv hb]
    · obtain ⟨m', h'⟩ := lookup_map_of_see h hb
      rw [h']

/-- The instance without its type. -/
def overrides (dm : DMap F) : DMap F := removeAll (clone dm) [typeKey]

/-- The custom component without its name, as a group if it was a part. -/
def prepared (base : DMap F) : DMap F :=
  let new := removeAll (clone base) [customKey]
  if isPart new then remove (putKey new typeKey (.str groupText)) indexKey else new

theorem see_overrides {dm : DMap F} (ht : Tidy dm) (hd : NoDots dm) (q : List Text) :
    see (overrides dm) q = if [typeKey] <+: q then .nothing else see dm q := by
  rw [overrides, see_removeAll_one _ _ (by decide), C43_clone dm ht hd q]

theorem isPart_prepared {base : DMap F} (ht : Tidy base) (hd : NoDots base) : isPart (removeAll (clone base) [customKey]) = isPart base := by
  apply isPart_of_see
  rw [see_removeAll_one _ _ (by decide), if_neg (by decide), C43_clone base ht hd]

theorem see_prepared {base : DMap F} (ht : Tidy base) (hd : NoDots base) (c : Text) (p : List Text) :
    see (prepared base) (c :: p) =
      if c = customKey then .nothing
      else if isPart base = true ∧ c = typeKey then (if p = [] then .leaf (.str groupText) else .nothing)
      else if isPart base = true ∧ dots indexKey <+: c :: p then .nothing
      else see base (c :: p) := by
  have hnew : ∀ q, see (removeAll (clone base) [customKey]) q = if [customKey] <+: q then .nothing else see base q := by
    intro q
    rw [see_removeAll_one _ _ (by decide), C43_clone base ht hd q]
  have hdots : dots indexKey = [['p', 'a', 'r', 'a', 'm', 's'], ['i', 'n', 'd', 'e', 'x']] := by decide
  unfold prepared
  simp only [isPart_prepared ht hd]
  by_cases hp : isPart base = true
  · rw [if_pos hp]
    have hnone : (putKey (removeAll (clone base) [customKey]) typeKey (.str groupText)).lookup indexKey = none := by
      rw [putKey, lookup_put, if_neg (by decide)]
      have := hnew [indexKey]
      rw [if_neg (by decide)] at this
      refine lookup_none_of_see this ?_
      rw [lookup_none_iff]
      intro hm
      obtain ⟨e, he, hk⟩ := List.mem_map.1 hm
      have := hd.keys e he
      rw [hk] at this
      exact this (by decide)
    rw [C68_dotted _ _ hnone]
    simp only [hp, true_and]
    by_cases hct : c = typeKey
    · subst hct
      rw [if_neg (by rw [hdots]; simp [typeKey]), if_neg (by decide), if_pos rfl]
      have hl : (putKey (removeAll (clone base) [customKey]) typeKey (.str groupText)).lookup typeKey = some (.str groupText) := by
        rw [putKey, lookup_put, if_pos rfl]
      rw [see_cons_leaf (by intro m h; cases h) hl]
    · rw [see_putKey _ _ _ _ _ hct, hnew]
      by_cases hcc : c = customKey
      · subst hcc
        rw [if_pos rfl]
        split <;> simp
      · have hcp : ¬ [customKey] <+: c :: p := by simpa using Ne.symm hcc
        simp only [hcc, hct, hcp, if_false]
  · rw [if_neg hp, hnew]
    simp only [Bool.not_eq_true] at hp
    simp only [hp, Bool.false_eq_true, false_and, if_false]
    by_cases hcc : c = customKey
    · subst hcc; simp
    · rw [if_neg hcc, if_neg (by simpa using Ne.symm hcc)]

theorem customMap_eq (base dm : DMap F) :
    customMap base dm = putKey (merge (prepared base) (overrides dm)) transformsKey
      (.list (((getDynMapSlice base transformsKey).getD [] ++ (getDynMapSlice (overrides dm) transformsKey).getD []).map .map)) := rfl

theorem overrides_ok {dm : DMap F} (ht : Tidy dm) (hd : NoDots dm) : Tidy (overrides dm) ∧ NoDots (overrides dm) :=
  tidy_removeAll_one (tidy_clone ht hd).1 (tidy_clone ht hd).2 _ (by decide)

/-- **C58.** What the instance says (apart from its type and transforms) holds for the new component. -/
theorem C58_override (base dm : DMap F) (ht : Tidy dm) (hd : NoDots dm) (c : Text) (p : List Text) (h1 : c ≠ typeKey) (h2 : c ≠ transformsKey)
    (h : see dm (c :: p) ≠ .nothing) : see (customMap base dm) (c :: p) = see dm (c :: p) := by
  rw [customMap_eq, see_putKey _ _ _ _ _ h2]
  have hs : see (overrides dm) (c :: p) = see dm (c :: p) := by
    rw [see_overrides ht hd, if_neg (by simpa using Ne.symm h1)]
  rw [C43_right _ _ (overrides_ok ht hd).1 (overrides_ok ht hd).2 _ (by rw [hs]; exact h), hs]

/-- **C58.** What the instance says nothing about is as in the custom component, apart from its name `custom_component`, its type and transforms
and, for a part, its index. -/
theorem C58_base (base dm : DMap F) (htb : Tidy base) (hdb : NoDots base) (ht : Tidy dm) (hd : NoDots dm) (c : Text) (p : List Text)
    (h1 : c ≠ typeKey) (h2 : c ≠ transformsKey) (h3 : c ≠ customKey) (h4 : isPart base = true → ¬ dots indexKey <+: c :: p)
    (h : see dm (c :: p) = .nothing) (hl : ∀ q v, q <+: c :: p → see dm q ≠ .leaf v) : see (customMap base dm) (c :: p) = see base (c :: p) := by
  rw [customMap_eq, see_putKey _ _ _ _ _ h2]
  have hs : ∀ q, q <+: c :: p → see (overrides dm) q = see dm q := by
    intro q hq
    rw [see_overrides ht hd, if_neg]
    intro hq'
    have := hq'.trans hq
    simp only [List.cons_prefix_cons] at this
    exact h1 this.1.symm
  rw [C43_left _ _ (overrides_ok ht hd).1 (overrides_ok ht hd).2 _ (by rw [hs _ List.prefix_rfl]; exact h)
    (by intro q v hq; rw [hs q hq]; exact hl q v hq), see_prepared htb hdb, if_neg h3, if_neg (fun h => h1 h.2), if_neg (fun h => h4 h.1 h.2)]

/-- **C58.** The type is that of the custom component, and `group` if that is a part; the instance does not change it. -/
theorem C58_type (base dm : DMap F) (htb : Tidy base) (hdb : NoDots base) (ht : Tidy dm) (hd : NoDots dm) :
    see (customMap base dm) [typeKey] = if isPart base then .leaf (.str groupText) else see base [typeKey] := by
  rw [customMap_eq, see_putKey _ _ _ _ _ (by decide), C43_left _ _ (overrides_ok ht hd).1 (overrides_ok ht hd).2 _
    (by rw [see_overrides ht hd, if_pos List.prefix_rfl]), see_prepared htb hdb, if_neg (by decide)]
  · by_cases hp : isPart base = true
    · simp [hp]
    · simp [hp]
  · intro q v hq
    rw [see_overrides ht hd]
    rcases List.prefix_cons_iff.1 hq with rfl | ⟨t, rfl, htq⟩
    · rw [if_neg (by simp)]
      simp [see, follow_nil, seen]
    · rw [List.prefix_nil] at htq
      subst htq
      rw [if_pos List.prefix_rfl]
      simp

/-- **C58.** The transforms are those of the custom component followed by those of the instance. -/
theorem C58_transforms (base dm : DMap F) (ht : Tidy dm) (hd : NoDots dm) :
    get (customMap base dm) transformsKey =
      some (.list (((getDynMapSlice base transformsKey).getD [] ++ (getDynMapSlice dm transformsKey).getD []).map .map)) := by
  rw [customMap_eq, get_plain (by decide), putKey, lookup_put, if_pos rfl]
  have : getDynMapSlice (overrides dm) transformsKey = getDynMapSlice dm transformsKey := by
    apply slice_of_see (by decide)
    rw [see_overrides ht hd, if_neg (by decide)]
  rw [this]

/-- **C58.** The name under which the component is known is not passed on. -/
theorem C58_name (base dm : DMap F) (htb : Tidy base) (hdb : NoDots base) (ht : Tidy dm) (hd : NoDots dm) (h : see dm [customKey] = .nothing) :
    see (customMap base dm) [customKey] = .nothing := by
  rw [customMap_eq, see_putKey _ _ _ _ _ (by decide), C43_left _ _ (overrides_ok ht hd).1 (overrides_ok ht hd).2 _
    (by rw [see_overrides ht hd, if_neg (by decide)]; exact h), see_prepared htb hdb, if_pos rfl]
  intro q v hq
  rw [see_overrides ht hd]
  rcases List.prefix_cons_iff.1 hq with rfl | ⟨t, rfl, htq⟩
  · rw [if_neg (by simp)]
    simp [see, follow_nil, seen]
  · rw [List.prefix_nil] at htq
    subst htq
    rw [if_neg (by decide), h]
    simp

/-- A component without a type, and an instance that says nothing: a group with the component's attributes. -/
example : see (customMap sample []) [typeKey] = .leaf (.str groupText) ∧ see (customMap sample []) [['a'], ['b']] = .leaf (.num 1) ∧
    see (customMap [] sample) [['a'], ['b']] = .leaf (.num 1) ∧ get (customMap sample sample) transformsKey = some (.list []) := by
  obtain ⟨h1, h2, _, _⟩ := sample_ok
  obtain ⟨t1, t2⟩ := tidy_nil (F := Nat)
  refine ⟨?_, ?_, ?_, ?_⟩
  · rw [C58_type sample [] h1 h2 t1 t2]; rfl
  · rw [C58_base sample [] h1 h2 t1 t2 ['a'] [['b']] (by decide) (by decide) (by decide) (by decide) rfl]
    · rfl
    · intro q v hq
      cases q with
      | nil => simp [see, follow_nil, seen]
      | cons c q => simp [see, follow, seen]
  · rw [C58_override [] sample h1 h2 ['a'] [['b']] (by decide) (by decide)]
    · rfl
    · simp [see, sample, follow, seen, List.lookup]
  · rw [C58_transforms sample sample h1 h2]; rfl

end Verif.Dyn
