import Verif.Spec.Dynmap
import Mathlib.Data.List.Basic
import Mathlib.Tactic.Common

/-!
# Lemmas about nested maps
-/

set_option linter.unusedSectionVars false
set_option linter.unusedSimpArgs false

namespace Verif.Dyn

open Verif.Path (splitOn)

universe u

variable {F : Type u}

/-! ## One level -/

theorem lookup_cons (k k' : Text) (v : Val F) (m : DMap F) : List.lookup k ((k', v) :: m) = if k = k' then some v else List.lookup k m := by
  rw [List.lookup_cons]
  by_cases h : k = k'
  · simp [h]
  · rw [beq_false_of_ne h, if_neg h]

theorem lookup_put (k k' : Text) (v : Val F) (m : DMap F) : (put k v m).lookup k' = if k' = k then some v else m.lookup k' := by
  induction m with
  | nil => simp [put, lookup_cons]
  | cons e m ih =>
    obtain ⟨k'', v''⟩ := e
    unfold put
    by_cases h : k'' = k
    · subst h
      simp only [if_true, lookup_cons]
      split <;> rfl
    · rw [if_neg h]
      simp only [lookup_cons, ih]
      by_cases h1 : k' = k''
      · subst h1
        simp [h]
      · simp [h1]

theorem put_same {k : Text} {v : Val F} {m : DMap F} (h : m.lookup k = some v) : put k v m = m := by
  induction m with
  | nil => simp at h
  | cons e m ih =>
    obtain ⟨k'', v''⟩ := e
    rw [lookup_cons] at h
    unfold put
    by_cases h' : k'' = k
    · subst h'
      simp only [if_true, Option.some.injEq] at h
      simp [h]
    · rw [if_neg (Ne.symm h')] at h
      rw [if_neg h', ih h]

theorem lookup_none_iff {k : Text} {m : DMap F} : m.lookup k = none ↔ k ∉ m.map (·.1) := by
  induction m with
  | nil => simp
  | cons e m ih =>
    obtain ⟨k', v'⟩ := e
    rw [lookup_cons]
    by_cases h : k = k'
    · simp [h]
    · rw [if_neg h, ih]
      simp [h]

theorem lookup_mem {k : Text} {v : Val F} {m : DMap F} (h : m.lookup k = some v) : (k, v) ∈ m := by
  induction m with
  | nil => simp at h
  | cons e m ih =>
    obtain ⟨k', v'⟩ := e
    rw [lookup_cons] at h
    by_cases h' : k = k'
    · rw [if_pos h'] at h
      simp only [Option.some.injEq] at h
      simp [h', h]
    · rw [if_neg h'] at h
      exact List.mem_cons_of_mem _ (ih h)

theorem lookup_of_mem {k : Text} {v : Val F} {m : DMap F} (hn : (m.map (·.1)).Nodup) (h : (k, v) ∈ m) : m.lookup k = some v := by
  induction m with
  | nil => simp at h
  | cons e m ih =>
    obtain ⟨k', v'⟩ := e
    rw [lookup_cons]
    simp only [List.map_cons, List.nodup_cons] at hn
    rcases List.mem_cons.mp h with h | h'
    · simp only [Prod.mk.injEq] at h
      rw [if_pos h.1, h.2]
    · rw [if_neg, ih hn.2 h']
      rintro rfl
      exact hn.1 (List.mem_map.mpr ⟨(k, v), h', rfl⟩)

theorem lookup_erase (k k' : Text) (m : DMap F) : (erase k m).lookup k' = if k' = k then none else m.lookup k' := by
  induction m with
  | nil => simp [erase]
  | cons e m ih =>
    obtain ⟨k'', v''⟩ := e
    unfold erase at ih ⊢
    by_cases h : k'' = k
    · subst h
      rw [List.filter_cons_of_neg (by simp), ih]
      simp only [lookup_cons]
      split <;> rfl
    · rw [List.filter_cons_of_pos (by simpa using h), lookup_cons, lookup_cons, ih]
      by_cases h1 : k' = k''
      · subst h1
        simp [h]
      · simp [h1]

/-! ## Keys with dots -/

theorem splitOn_ne_nil (c : Char) (s acc : Text) : splitOn c s acc ≠ [] := by
  cases s with
  | nil => simp [splitOn]
  | cons d s =>
    unfold splitOn
    split
    · simp
    · exact splitOn_ne_nil c s _

theorem splitOn_plain {c : Char} {s : Text} (h : c ∉ s) (acc : Text) : splitOn c s acc = [acc.reverse ++ s] := by
  induction s generalizing acc with
  | nil => simp [splitOn]
  | cons d s ih =>
    unfold splitOn
    simp only [List.mem_cons, not_or] at h
    rw [if_neg (Ne.symm h.1), ih h.2]
    simp

theorem splitOn_sep {c : Char} {s : Text} (h : c ∉ s) (r acc : Text) :
    splitOn c (s ++ c :: r) acc = (acc.reverse ++ s) :: splitOn c r [] := by
  induction s generalizing acc with
  | nil => simp [splitOn]
  | cons d s ih =>
    simp only [List.mem_cons, not_or] at h
    rw [List.cons_append]
    rw [splitOn, if_neg (Ne.symm h.1), ih h.2]
    simp

theorem splitOn_no_sep (c : Char) (s acc : Text) (ha : c ∉ acc) : ∀ k ∈ splitOn c s acc, c ∉ k := by
  induction s generalizing acc with
  | nil => simpa [splitOn] using ha
  | cons d s ih =>
    unfold splitOn
    split
    · intro k hk
      rcases List.mem_cons.mp hk with rfl | hk
      · simpa using ha
      · exact ih [] (by simp) k hk
    · rename_i hd
      exact ih _ (by simpa [Ne.symm hd] using ha)

theorem splitOn_length_one {c : Char} {s acc : Text} (h : (splitOn c s acc).length = 1) : c ∉ s := by
  induction s generalizing acc with
  | nil => simp
  | cons d s ih =>
    unfold splitOn at h
    split at h
    · have := List.length_pos_iff.mpr (splitOn_ne_nil c s [])
      simp only [List.length_cons] at h
      omega
    · rename_i hd
      simp only [List.mem_cons, not_or]
      exact ⟨Ne.symm hd, ih h⟩

theorem dots_ne_nil (k : Text) : dots k ≠ [] := splitOn_ne_nil _ _ _

theorem dots_plain {k : Text} (h : '.' ∉ k) : dots k = [k] := by
  simp [dots, splitOn_plain h]

theorem dots_no_dot (k : Text) : ∀ x ∈ dots k, '.' ∉ x := splitOn_no_sep _ _ _ (by simp)

theorem dots_length_one {k : Text} (h : (dots k).length = 1) : dots k = [k] := dots_plain (splitOn_length_one h)

/-- A dotted key is not one of its parts. -/
theorem dots_ne_self {k : Text} (h : (dots k).length ≠ 1) : '.' ∈ k := by
  by_contra hc
  exact h (by rw [dots_plain hc]; rfl)

/-- The dotted key of a path. -/
def joined : List Text → Text
  | [] => []
  | [k] => k
  | k :: ks => k ++ '.' :: joined ks

theorem joined_cons {k : Text} {ks : List Text} (h : ks ≠ []) : joined (k :: ks) = k ++ '.' :: joined ks := by
  cases ks with
  | nil => exact absurd rfl h
  | cons a l => rfl

theorem dots_joined {ks : List Text} (hne : ks ≠ []) (h : ∀ k ∈ ks, '.' ∉ k) : dots (joined ks) = ks := by
  induction ks with
  | nil => exact absurd rfl hne
  | cons k ks ih =>
    cases ks with
    | nil => exact dots_plain (h k (by simp))
    | cons a l =>
      rw [joined_cons (by simp)]
      unfold dots
      rw [splitOn_sep (h k (by simp))]
      have := ih (by simp) (fun k hk => h k (List.mem_cons_of_mem _ hk))
      unfold dots at this
      rw [this]
      simp

theorem splitOn_acc (c : Char) (s acc : Text) : ∃ k ks, splitOn c s [] = k :: ks ∧ splitOn c s acc = (acc.reverse ++ k) :: ks := by
  induction s generalizing acc with
  | nil => exact ⟨[], [], by simp [splitOn], by simp [splitOn]⟩
  | cons d s ih =>
    by_cases h : d = c
    · exact ⟨[], splitOn c s [], by simp [splitOn, h], by simp [splitOn, h]⟩
    · obtain ⟨k, ks, h1, h2⟩ := ih [d]
      obtain ⟨k', ks', h3, h4⟩ := ih (d :: acc)
      rw [h1] at h3
      simp only [List.cons.injEq] at h3
      refine ⟨d :: k, ks, ?_, ?_⟩
      · rw [splitOn, if_neg h, h2]
        simp
      · rw [splitOn, if_neg h, h4, ← h3.1, ← h3.2]
        simp

theorem joined_dots (key : Text) : joined (dots key) = key := by
  unfold dots
  induction key with
  | nil => rfl
  | cons d s ih =>
    by_cases h : d = '.'
    · subst h
      rw [splitOn, if_pos rfl, joined_cons (splitOn_ne_nil _ _ _), ih]
      rfl
    · rw [splitOn, if_neg h]
      obtain ⟨k, ks, h1, h2⟩ := splitOn_acc '.' s [d]
      rw [h2]
      rw [h1] at ih
      cases ks with
      | nil =>
        simp only [joined] at ih ⊢
        rw [ih]
        rfl
      | cons a l =>
        rw [joined_cons (by simp)] at ih ⊢
        rw [← ih]
        simp

/-! ## Following paths -/

@[simp] theorem follow_nil (v : Val F) : follow v [] = some v := by
  cases v <;> rfl

theorem follow_map_cons (m : DMap F) (k : Text) (ks : List Text) : follow (.map m) (k :: ks) = (m.lookup k).bind fun v => follow v ks := by
  rw [follow]
  cases m.lookup k <;> rfl

/-- A value that is not a map. -/
def IsLeaf (v : Val F) : Prop := ∀ m, v ≠ .map m

theorem toMap_leaf {v : Val F} (h : IsLeaf v) : v.toMap = none := by
  cases v <;> first | rfl | exact absurd rfl (h _)

theorem toMap_eq_none {v : Val F} : v.toMap = none ↔ IsLeaf v := by
  constructor
  · rintro h m rfl
    simp [Val.toMap] at h
  · exact toMap_leaf

theorem toMap_eq_some {v : Val F} {m : DMap F} : v.toMap = some m ↔ v = .map m := by
  cases v <;> simp [Val.toMap]

theorem isLeaf_or (v : Val F) : IsLeaf v ∨ ∃ m, v = .map m := by
  cases v with
  | map m => exact .inr ⟨m, rfl⟩
  | _ => exact .inl (by intro m h; cases h)

theorem follow_leaf {v : Val F} (h : IsLeaf v) (k : Text) (ks : List Text) : follow v (k :: ks) = none := by
  cases v <;> first | rfl | exact absurd rfl (h _)

theorem seen_leaf {v : Val F} (h : IsLeaf v) : seen (some v) = .leaf v := by
  cases v <;> first | rfl | exact absurd rfl (h _)

@[simp] theorem see_nil (m : DMap F) : see m [] = .map := rfl

theorem see_cons (m : DMap F) (k : Text) (ks : List Text) : see m (k :: ks) = seen ((m.lookup k).bind fun v => follow v ks) := by
  rw [see, follow_map_cons]

theorem see_cons_none {m : DMap F} {k : Text} (h : m.lookup k = none) (ks : List Text) : see m (k :: ks) = .nothing := by
  rw [see_cons, h]
  rfl

theorem see_cons_map {m m' : DMap F} {k : Text} (h : m.lookup k = some (.map m')) (ks : List Text) : see m (k :: ks) = see m' ks := by
  rw [see_cons, h]
  rfl

theorem see_cons_leaf {m : DMap F} {v : Val F} {k : Text} (hv : IsLeaf v) (h : m.lookup k = some v) (ks : List Text) :
    see m (k :: ks) = if ks = [] then .leaf v else .nothing := by
  rw [see_cons, h]
  cases ks with
  | nil => simp [seen_leaf hv]
  | cons a l => simp [follow_leaf hv, seen]

theorem see_congr_lookup {a b : DMap F} {k : Text} (h : a.lookup k = b.lookup k) (ks : List Text) : see a (k :: ks) = see b (k :: ks) := by
  rw [see_cons, see_cons, h]

theorem seen_eq_nothing {o : Option (Val F)} : seen o = .nothing ↔ o = none := by
  cases o with
  | none => simp [seen]
  | some v => cases v <;> simp [seen]

theorem seen_eq_map {o : Option (Val F)} : seen o = .map ↔ ∃ m, o = some (.map m) := by
  cases o with
  | none => simp [seen]
  | some v => cases v <;> simp [seen]

theorem seen_eq_leaf {o : Option (Val F)} {v : Val F} : seen o = .leaf v ↔ o = some v ∧ IsLeaf v := by
  cases o with
  | none => simp [seen]
  | some w => cases w <;> simp [seen, IsLeaf] <;> rintro rfl <;> simp

theorem Tidy.keys {m : DMap F} (h : Tidy m) : (m.map (·.1)).Nodup := h [] m rfl

theorem NoDots.keys {m : DMap F} (h : NoDots m) : ∀ e ∈ m, '.' ∉ e.1 := h [] m rfl

theorem Tidy.sub {m m' : DMap F} {k : Text} (h : Tidy m) (hl : m.lookup k = some (.map m')) : Tidy m' := by
  intro p m'' hp
  refine h (k :: p) m'' ?_
  rw [follow_map_cons, hl]
  exact hp

theorem NoDots.sub {m m' : DMap F} {k : Text} (h : NoDots m) (hl : m.lookup k = some (.map m')) : NoDots m' := by
  intro p m'' hp
  refine h (k :: p) m'' ?_
  rw [follow_map_cons, hl]
  exact hp

theorem NoLists.sub {m m' : DMap F} {k : Text} (h : NoLists m) (hl : m.lookup k = some (.map m')) : NoLists m' := by
  intro p l hp
  refine h (k :: p) l ?_
  rw [follow_map_cons, hl]
  exact hp

theorem NoEmpty.sub {m m' : DMap F} {k : Text} (h : NoEmpty m) (hl : m.lookup k = some (.map m')) : NoEmpty m' := by
  intro p _ hp
  refine h (k :: p) (by simp) ?_
  rw [follow_map_cons, hl]
  exact hp

/-! ## Getting -/

theorem getParts_eq_follow (ks : List Text) (h : ks ≠ []) (m : DMap F) : getParts m ks = follow (.map m) ks := by
  induction ks generalizing m with
  | nil => exact absurd rfl h
  | cons k ks ih =>
    rw [follow_map_cons]
    cases ks with
    | nil =>
      rw [getParts]
      cases m.lookup k <;> simp
    | cons a l =>
      rw [getParts]
      · cases hm : m.lookup k with
        | none => rfl
        | some v =>
          simp only [Option.bind_some]
          rcases isLeaf_or v with hv | ⟨m', rfl⟩
          · rw [toMap_leaf hv, follow_leaf hv]
          · exact ih (by simp) m'
      · simp

theorem get_eq (m : DMap F) (key : Text) :
    get m key = match m.lookup key with | some v => some v | none => follow (.map m) (dots key) := by
  unfold get
  cases h : m.lookup key with
  | some v => rfl
  | none =>
    simp only []
    split
    · rename_i h1
      rw [dots_length_one h1, follow_map_cons, h]
      rfl
    · exact getParts_eq_follow _ (dots_ne_nil _) m

theorem get_plain {m : DMap F} {key : Text} (h : '.' ∉ key) : get m key = m.lookup key := by
  rw [get_eq]
  cases hl : m.lookup key with
  | some v => rfl
  | none => simp [dots_plain h, follow_map_cons, hl]

/-! ## Putting -/

theorem putParts_nil_ok (v : Val F) (ks : List Text) : (putParts v ks []).2 = true := by
  induction ks with
  | nil => rfl
  | cons k ks ih =>
    cases ks with
    | nil => rfl
    | cons a l =>
      rw [putParts]
      · simpa using ih
      · simp

theorem putParts_fail (v : Val F) (ks : List Text) (m : DMap F) (h : (putParts v ks m).2 = false) : (putParts v ks m).1 = m := by
  induction ks generalizing m with
  | nil => rfl
  | cons k ks ih =>
    cases ks with
    | nil => simp [putParts] at h
    | cons a l =>
      have e : putParts v (k :: a :: l) m = (match m.lookup k with
        | none => (put k (.map (putParts v (a :: l) []).1) m, (putParts v (a :: l) []).2)
        | some w =>
          match w.toMap with
          | some m' => (put k (.map (putParts v (a :: l) m').1) m, (putParts v (a :: l) m').2)
          | none => (m, false)) := by
        rw [putParts]
        · rfl
        · simp
      rw [e] at h ⊢
      cases hl : m.lookup k with
      | none =>
        rw [hl] at h
        simp [putParts_nil_ok] at h
      | some w =>
        rw [hl] at h
        simp only [] at h ⊢
        cases hw : w.toMap with
        | none => rfl
        | some m' =>
          rw [hw] at h
          simp only [] at h ⊢
          rw [ih m' h, put_same]
          rw [hl, toMap_eq_some.mp hw]

theorem putParts_cons {v : Val F} {k : Text} {ks : List Text} (h : ks ≠ []) (m : DMap F) :
    putParts v (k :: ks) m = (match m.lookup k with
        | none => (put k (.map (putParts v ks []).1) m, (putParts v ks []).2)
        | some w =>
          match w.toMap with
          | some m' => (put k (.map (putParts v ks m').1) m, (putParts v ks m').2)
          | none => (m, false)) := by
  cases ks with
  | nil => exact absurd rfl h
  | cons a l =>
    rw [putParts]
    · rfl
    · simp

/-- What a path sees after a successful dotted put. -/
theorem follow_putParts (v : Val F) (ks : List Text) (hne : ks ≠ []) (m : DMap F) (h : (putParts v ks m).2 = true) (q : List Text) :
    (∀ r, q = ks ++ r → follow (.map (putParts v ks m).1) q = follow v r) ∧
    (q <+: ks → q ≠ ks → ∃ m', follow (.map (putParts v ks m).1) q = some (.map m')) ∧
    (¬ q <+: ks → ¬ ks <+: q → follow (.map (putParts v ks m).1) q = follow (.map m) q) := by
  induction ks generalizing m q with
  | nil => exact absurd rfl hne
  | cons k ks ih =>
    by_cases hks : ks = []
    · subst hks
      have e : (putParts v [k] m).1 = put k v m := rfl
      rw [e]
      refine ⟨?_, ?_, ?_⟩
      · rintro r rfl
        rw [List.cons_append, List.nil_append, follow_map_cons, lookup_put, if_pos rfl]
        rfl
      · intro hq hq'
        obtain ⟨t, ht⟩ := hq
        cases q with
        | nil => exact ⟨_, follow_nil _⟩
        | cons a l =>
          simp only [List.cons_append, List.cons.injEq, List.append_eq_nil_iff] at ht
          exact absurd (by rw [ht.1, ht.2.1]) hq'
      · intro hq hq'
        cases q with
        | nil => exact absurd (List.nil_prefix) hq
        | cons a l =>
          rw [follow_map_cons, follow_map_cons, lookup_put, if_neg]
          rintro rfl
          exact hq' ⟨l, rfl⟩
    · rw [putParts_cons hks] at h ⊢
      -- the map in which the rest is put
      obtain ⟨m0, hm0, h1, h2⟩ : ∃ m0 : DMap F, (m.lookup k = none ∧ m0 = [] ∨ m.lookup k = some (.map m0)) ∧ (putParts v ks m0).2 = true ∧
          (match m.lookup k with
          | none => (put k (.map (putParts v ks []).1) m, (putParts v ks []).2)
          | some w =>
            match w.toMap with
            | some m' => (put k (.map (putParts v ks m').1) m, (putParts v ks m').2)
            | none => (m, false)).1 = put k (.map (putParts v ks m0).1) m := by
        cases hl : m.lookup k with
        | none =>
          rw [hl] at h
          exact ⟨[], .inl ⟨rfl, rfl⟩, h, rfl⟩
        | some w =>
          rw [hl] at h
          simp only [] at h ⊢
          cases hw : w.toMap with
          | none =>
            rw [hw] at h
            simp at h
          | some m' =>
            rw [hw] at h
            exact ⟨m', .inr (by rw [toMap_eq_some.mp hw]), h, rfl⟩
      rw [h2]
      have ih' := fun q => ih hks m0 h1 q
      refine ⟨?_, ?_, ?_⟩
      · rintro r rfl
        rw [List.cons_append, follow_map_cons, lookup_put, if_pos rfl]
        exact (ih' _).1 r rfl
      · intro hq hq'
        cases q with
        | nil => exact ⟨_, follow_nil _⟩
        | cons a l =>
          obtain ⟨t, ht⟩ := hq
          simp only [List.cons_append, List.cons.injEq] at ht
          obtain ⟨rfl, ht⟩ := ht
          rw [follow_map_cons, lookup_put, if_pos rfl]
          exact (ih' l).2.1 ⟨t, ht⟩ (fun e => hq' (by rw [e]))
      · intro hq hq'
        cases q with
        | nil => exact absurd (List.nil_prefix) hq
        | cons a l =>
          rw [follow_map_cons, follow_map_cons, lookup_put]
          by_cases ha : a = k
          · subst ha
            rw [if_pos rfl]
            have hq1 : ¬ l <+: ks := fun ⟨t, ht⟩ => hq ⟨t, by rw [List.cons_append, ht]⟩
            have hq2 : ¬ ks <+: l := fun ⟨t, ht⟩ => hq' ⟨t, by rw [List.cons_append, ht]⟩
            have := (ih' l).2.2 hq1 hq2
            simp only [Option.bind_some]
            rw [this]
            rcases hm0 with ⟨hn, rfl⟩ | hs
            · rw [hn]
              cases l with
              | nil => exact absurd (List.nil_prefix) hq1
              | cons b l' => simp [follow_map_cons]
            · rw [hs]
              rfl
          · rw [if_neg ha]

/-- A dotted put fails exactly when a value that is not a map is in the way. -/
theorem putParts_ok_iff (v : Val F) (ks : List Text) (m : DMap F) :
    (putParts v ks m).2 = false ↔ ∃ q w, q <+: ks ∧ q ≠ ks ∧ follow (.map m) q = some w ∧ IsLeaf w := by
  induction ks generalizing m with
  | nil =>
    simp only [putParts, List.prefix_nil, Bool.true_eq_false, false_iff]
    rintro ⟨q, w, h1, h2, -⟩
    exact h2 h1
  | cons k ks ih =>
    by_cases hks : ks = []
    · subst hks
      simp only [putParts, Bool.true_eq_false, false_iff]
      rintro ⟨q, w, ⟨t, ht⟩, h2, h3, h4⟩
      cases q with
      | nil =>
        simp only [follow_nil, Option.some.injEq] at h3
        exact h4 _ h3.symm
      | cons a l =>
        simp only [List.cons_append, List.cons.injEq, List.append_eq_nil_iff] at ht
        exact h2 (by rw [ht.1, ht.2.1])
    · rw [putParts_cons hks]
      cases hl : m.lookup k with
      | none =>
        simp only [putParts_nil_ok, Bool.true_eq_false, false_iff]
        rintro ⟨q, w, ⟨t, ht⟩, h2, h3, h4⟩
        cases q with
        | nil =>
          simp only [follow_nil, Option.some.injEq] at h3
          exact h4 _ h3.symm
        | cons a l =>
          simp only [List.cons_append, List.cons.injEq] at ht
          obtain ⟨rfl, ht⟩ := ht
          rw [follow_map_cons, hl] at h3
          simp at h3
      | some w0 =>
        simp only []
        rcases isLeaf_or w0 with hw | ⟨m', rfl⟩
        · rw [toMap_leaf hw]
          simp only [true_iff]
          exact ⟨[k], w0, ⟨ks, rfl⟩, fun e => hks (by simpa using e.symm), by rw [follow_map_cons, hl]; simp, hw⟩
        · simp only [Val.toMap]
          rw [ih]
          constructor
          · rintro ⟨q, w, ⟨t, ht⟩, h2, h3, h4⟩
            refine ⟨k :: q, w, ⟨t, by rw [List.cons_append, ht]⟩, fun e => h2 (by simpa using e), ?_, h4⟩
            rw [follow_map_cons, hl]
            exact h3
          · rintro ⟨q, w, ⟨t, ht⟩, h2, h3, h4⟩
            cases q with
            | nil =>
              simp only [follow_nil, Option.some.injEq] at h3
              exact absurd h3.symm (h4 _)
            | cons a l =>
              simp only [List.cons_append, List.cons.injEq] at ht
              obtain ⟨rfl, ht⟩ := ht
              rw [follow_map_cons, hl] at h3
              exact ⟨l, w, ⟨t, ht⟩, fun e => h2 (by rw [e]), h3, h4⟩

theorem putWithDot_eq (m : DMap F) (key : Text) (v : Val F) : putWithDot m key v = putParts v (dots key) m := by
  unfold putWithDot
  split
  · rename_i h
    rw [dots_length_one h]
    rfl
  · rfl

/-! ## Merging -/

theorem setParts_plain (v : Val F) (k : Text) (m : DMap F) : setParts v [k] m = put k v m := rfl

theorem place_plain {m : DMap F} {k : Text} (h : '.' ∉ k) : place m k = [k] := by
  unfold place
  split
  · rfl
  · exact dots_plain h

/-- What becomes of one entry when it is merged. -/
def mergeEntry (old : Option (Val F)) : Val F → Val F
  | .map m => .map (merge ((old.bind Val.toMap).getD []) m)
  | v => v

theorem merge_cons {this : DMap F} {k : Text} (hk : '.' ∉ k) (v : Val F) (rest : DMap F) :
    merge this ((k, v) :: rest) = merge (put k (mergeEntry (this.lookup k) v) this) rest := by
  rcases isLeaf_or v with hv | ⟨m, rfl⟩
  · cases v <;> first | exact absurd rfl (hv _) | (rw [merge.eq_def]; rfl)
  · rw [merge.eq_def]
    simp only [getDynMap, get_plain hk, place_plain hk, setParts_plain, mergeEntry]
    cases h : (this.lookup k).bind Val.toMap with
    | none => rfl
    | some m2 => rfl

theorem lookup_merge {b : DMap F} (hn : (b.map (·.1)).Nodup) (hd : ∀ e ∈ b, '.' ∉ e.1) (a : DMap F) (k : Text) :
    (merge a b).lookup k = match b.lookup k with
      | none => a.lookup k
      | some v => some (mergeEntry (a.lookup k) v) := by
  induction b generalizing a with
  | nil =>
    rw [merge]
    rfl
  | cons e b ih =>
    obtain ⟨k', v⟩ := e
    simp only [List.map_cons, List.nodup_cons] at hn
    rw [merge_cons (hd (k', v) (by simp)), ih hn.2 (fun e he => hd e (List.mem_cons_of_mem _ he)), lookup_cons]
    by_cases h : k = k'
    · subst h
      rw [lookup_none_iff.mpr hn.1, if_pos rfl]
      simp only [lookup_put, if_true]
    · rw [if_neg h]
      cases hb : b.lookup k with
      | none => simp only [lookup_put, if_neg h]
      | some w => simp only [lookup_put, if_neg h]

/-! ## Flattening -/

/-- The leaves of a nested map with their paths. -/
def leaves : DMap F → List (List Text × Val F)
  | [] => []
  | (k, .map m) :: rest => (leaves m).map (fun e => (k :: e.1, e.2)) ++ leaves rest
  | (k, v) :: rest => ([k], v) :: leaves rest
termination_by l => sizeOf l

theorem leaves_cons_leaf (k : Text) {v : Val F} (hv : IsLeaf v) (rest : DMap F) : leaves ((k, v) :: rest) = ([k], v) :: leaves rest := by
  cases v <;> first | exact absurd rfl (hv _) | rw [leaves.eq_def]

theorem leaves_cons_map (k : Text) (m rest : DMap F) :
    leaves ((k, .map m) :: rest) = (leaves m).map (fun e => (k :: e.1, e.2)) ++ leaves rest := by
  rw [leaves.eq_def]

/-- An induction over nested maps. -/
theorem map_induction {P : DMap F → Prop} (nil : P []) (leaf : ∀ k v rest, IsLeaf v → P rest → P ((k, v) :: rest))
    (map : ∀ k m rest, P m → P rest → P ((k, .map m) :: rest)) : ∀ m, P m := by
  intro m
  induction h : sizeOf m using Nat.strong_induction_on generalizing m with
  | _ n ih =>
    subst h
    match m with
    | [] => exact nil
    | (k, v) :: rest =>
      rcases isLeaf_or v with hv | ⟨m', rfl⟩
      · exact leaf k v rest hv (ih _ (by simp only [List.cons.sizeOf_spec, Prod.mk.sizeOf_spec]; omega) _ rfl)
      · exact map k m' rest (ih _ (by simp only [List.cons.sizeOf_spec, Prod.mk.sizeOf_spec, Val.map.sizeOf_spec]; omega) _ rfl)
          (ih _ (by simp only [List.cons.sizeOf_spec, Prod.mk.sizeOf_spec]; omega) _ rfl)

theorem leaves_ne_nil (m : DMap F) : ∀ e ∈ leaves m, e.1 ≠ [] := by
  induction m using map_induction with
  | nil => simp [leaves]
  | leaf k v rest hv ih =>
    rw [leaves_cons_leaf k hv]
    intro e he
    rcases List.mem_cons.mp he with rfl | he
    · simp
    · exact ih e he
  | map k m rest ih1 ih2 =>
    rw [leaves_cons_map]
    intro e he
    rcases List.mem_append.mp he with he | he
    · obtain ⟨e', -, rfl⟩ := List.mem_map.mp he
      simp
    · exact ih2 e he

theorem leaves_isLeaf (m : DMap F) : ∀ e ∈ leaves m, IsLeaf e.2 := by
  induction m using map_induction with
  | nil => simp [leaves]
  | leaf k v rest hv ih =>
    rw [leaves_cons_leaf k hv]
    intro e he
    rcases List.mem_cons.mp he with rfl | he
    · exact hv
    · exact ih e he
  | map k m rest ih1 ih2 =>
    rw [leaves_cons_map]
    intro e he
    rcases List.mem_append.mp he with he | he
    · obtain ⟨e', he', rfl⟩ := List.mem_map.mp he
      exact ih1 e' he'
    · exact ih2 e he

theorem leaves_head (m : DMap F) : ∀ e ∈ leaves m, ∃ k ks, e.1 = k :: ks ∧ k ∈ m.map (·.1) := by
  induction m using map_induction with
  | nil => simp [leaves]
  | leaf k v rest hv ih =>
    rw [leaves_cons_leaf k hv]
    intro e he
    rcases List.mem_cons.mp he with rfl | he
    · exact ⟨k, [], rfl, by simp⟩
    · obtain ⟨k', ks, h1, h2⟩ := ih e he
      exact ⟨k', ks, h1, List.mem_cons_of_mem _ h2⟩
  | map k m rest ih1 ih2 =>
    rw [leaves_cons_map]
    intro e he
    rcases List.mem_append.mp he with he | he
    · obtain ⟨e', -, rfl⟩ := List.mem_map.mp he
      exact ⟨k, e'.1, rfl, by simp⟩
    · obtain ⟨k', ks, h1, h2⟩ := ih2 e he
      exact ⟨k', ks, h1, List.mem_cons_of_mem _ h2⟩

theorem lookup_rest {k k' : Text} {v w : Val F} {rest : DMap F} (hk : k ∉ rest.map (·.1)) (h : rest.lookup k' = some w) :
    List.lookup k' ((k, v) :: rest) = some w := by
  rw [lookup_cons, if_neg, h]
  rintro rfl
  rw [lookup_none_iff.mpr hk] at h
  simp at h

theorem follow_rest {k : Text} {v w : Val F} {rest : DMap F} (hk : k ∉ rest.map (·.1)) {p : List Text} (hp : p ≠ [])
    (h : follow (.map rest) p = some w) : follow (.map ((k, v) :: rest)) p = some w := by
  cases p with
  | nil => exact absurd rfl hp
  | cons a l =>
    rw [follow_map_cons] at h ⊢
    cases hl : rest.lookup a with
    | none =>
      rw [hl] at h
      simp at h
    | some w' =>
      rw [lookup_rest hk hl]
      rwa [hl] at h

theorem Tidy.tail {k : Text} {v : Val F} {rest : DMap F} (h : Tidy ((k, v) :: rest)) : Tidy rest := by
  have hk : k ∉ rest.map (·.1) ∧ (rest.map (·.1)).Nodup := by
    have := h.keys
    simpa only [List.map_cons, List.nodup_cons] using this
  intro p m hp
  by_cases hne : p = []
  · subst hne
    simp only [follow_nil, Option.some.injEq, Val.map.injEq] at hp
    exact hp ▸ hk.2
  · exact h p m (follow_rest hk.1 hne hp)

theorem Tidy.notin {k : Text} {v : Val F} {rest : DMap F} (h : Tidy ((k, v) :: rest)) : k ∉ rest.map (·.1) := by
  have := h.keys
  simp only [List.map_cons, List.nodup_cons] at this
  exact this.1

theorem lookup_head (k : Text) (v : Val F) (rest : DMap F) : List.lookup k ((k, v) :: rest) = some v := by
  rw [lookup_cons, if_pos rfl]

theorem NoDots.tail {k : Text} {v : Val F} {rest : DMap F} (ht : Tidy ((k, v) :: rest)) (h : NoDots ((k, v) :: rest)) : NoDots rest := by
  intro p m hp
  by_cases hne : p = []
  · subst hne
    simp only [follow_nil, Option.some.injEq, Val.map.injEq] at hp
    exact hp ▸ fun e he => h.keys e (List.mem_cons_of_mem _ he)
  · exact h p m (follow_rest ht.notin hne hp)

theorem NoLists.tail {k : Text} {v : Val F} {rest : DMap F} (ht : Tidy ((k, v) :: rest)) (h : NoLists ((k, v) :: rest)) :
    NoLists rest := by
  intro p m hp
  by_cases hne : p = []
  · subst hne
    simp at hp
  · exact h p m (follow_rest ht.notin hne hp)

theorem NoEmpty.tail {k : Text} {v : Val F} {rest : DMap F} (ht : Tidy ((k, v) :: rest)) (h : NoEmpty ((k, v) :: rest)) :
    NoEmpty rest := by
  intro p hne hp
  exact h p hne (follow_rest ht.notin hne hp)

/-- The leaves are what paths see. -/
theorem mem_leaves {m : DMap F} (ht : Tidy m) (p : List Text) (v : Val F) : (p, v) ∈ leaves m ↔ follow (.map m) p = some v ∧ IsLeaf v := by
  induction m using map_induction generalizing p with
  | nil =>
    simp only [leaves, List.not_mem_nil, false_iff]
    rintro ⟨h, hl⟩
    cases p with
    | nil => exact hl _ (Option.some.inj h).symm
    | cons a l => simp [follow_map_cons] at h
  | leaf k w rest hw ih =>
    rw [leaves_cons_leaf k hw, List.mem_cons, ih ht.tail]
    cases p with
    | nil =>
      simp only [Prod.mk.injEq, List.nil_eq, reduceCtorEq, false_and, false_or, follow_nil, Option.some.injEq]
      constructor
      · rintro ⟨h, hl⟩
        exact absurd h.symm (hl _)
      · rintro ⟨h, hl⟩
        exact absurd h.symm (hl _)
    | cons a l =>
      simp only [follow_map_cons, lookup_cons]
      by_cases ha : a = k
      · subst ha
        rw [lookup_none_iff.mpr ht.notin, if_pos rfl]
        simp only [Option.bind_none, reduceCtorEq, false_and, or_false, Option.bind_some, Prod.mk.injEq, List.cons.injEq, true_and]
        constructor
        · rintro ⟨rfl, rfl⟩
          exact ⟨follow_nil _, hw⟩
        · rintro ⟨h, hv⟩
          cases l with
          | nil => exact ⟨rfl, (Option.some.inj ((follow_nil w).symm.trans h)).symm⟩
          | cons b l' =>
            rw [follow_leaf hw] at h
            simp at h
      · rw [if_neg ha]
        simp [ha]
  | map k m rest ih1 ih2 =>
    have hs : Tidy m := ht.sub (lookup_head k _ rest)
    rw [leaves_cons_map, List.mem_append, ih2 ht.tail, List.mem_map]
    cases p with
    | nil =>
      simp only [Prod.mk.injEq, reduceCtorEq, false_and, and_false, exists_false, false_or, follow_nil, Option.some.injEq]
      constructor
      · rintro ⟨h, hl⟩
        exact absurd h.symm (hl _)
      · rintro ⟨h, hl⟩
        exact absurd h.symm (hl _)
    | cons a l =>
      simp only [follow_map_cons, lookup_cons]
      by_cases ha : a = k
      · subst ha
        rw [lookup_none_iff.mpr ht.notin, if_pos rfl]
        simp only [Option.bind_none, reduceCtorEq, false_and, or_false, Option.bind_some]
        rw [← ih1 hs]
        constructor
        · rintro ⟨⟨p', v'⟩, h, e⟩
          simp only [Prod.mk.injEq, List.cons.injEq, true_and] at e
          rw [← e.1, ← e.2]
          exact h
        · intro h
          exact ⟨(l, v), h, rfl⟩
      · rw [if_neg ha]
        constructor
        · rintro (⟨e, -, he⟩ | h)
          · simp only [Prod.mk.injEq, List.cons.injEq] at he
            exact absurd he.1.1.symm ha
          · exact h
        · exact .inr

/-- Every map that is not empty has a leaf below it. -/
theorem exists_leaf {m : DMap F} (ht : Tidy m) (hne : NoEmpty m) (h : m ≠ []) : ∃ e, e ∈ leaves m := by
  induction m using map_induction with
  | nil => exact absurd rfl h
  | leaf k v rest hv ih => exact ⟨([k], v), by rw [leaves_cons_leaf k hv]; simp⟩
  | map k m rest ih1 ih2 =>
    have hl := lookup_head k (.map m) rest
    have hm : m ≠ [] := by
      rintro rfl
      exact hne [k] (by simp) (by rw [follow_map_cons, hl]; simp)
    obtain ⟨e, he⟩ := ih1 (ht.sub hl) (hne.sub hl) hm
    exact ⟨(k :: e.1, e.2), by rw [leaves_cons_map]; exact List.mem_append_left _ (List.mem_map.mpr ⟨e, he, rfl⟩)⟩

theorem follow_append {v w : Val F} {p : List Text} (h : follow v p = some w) (q : List Text) : follow v (p ++ q) = follow w q := by
  induction p generalizing v with
  | nil =>
    simp only [follow_nil, Option.some.injEq] at h
    rw [h]
    rfl
  | cons a l ih =>
    rcases isLeaf_or v with hv | ⟨m, rfl⟩
    · rw [follow_leaf hv] at h
      simp at h
    · rw [follow_map_cons] at h
      rw [List.cons_append, follow_map_cons]
      cases hl : m.lookup a with
      | none =>
        rw [hl] at h
        simp at h
      | some w' =>
        rw [hl] at h
        exact ih h

theorem follow_prefix {v w : Val F} {p q : List Text} (h : follow v (p ++ q) = some w) : ∃ w', follow v p = some w' ∧ follow w' q = some w := by
  induction p generalizing v with
  | nil => exact ⟨v, follow_nil v, h⟩
  | cons a l ih =>
    rcases isLeaf_or v with hv | ⟨m, rfl⟩
    · rw [List.cons_append, follow_leaf hv] at h
      simp at h
    · rw [List.cons_append, follow_map_cons] at h
      rw [follow_map_cons]
      cases hl : m.lookup a with
      | none =>
        rw [hl] at h
        simp at h
      | some w' =>
        rw [hl] at h
        exact ih h

theorem Tidy.at {m m' : DMap F} (h : Tidy m) {p : List Text} (hp : follow (.map m) p = some (.map m')) : Tidy m' := by
  intro q m'' hq
  exact h (p ++ q) m'' (by rw [follow_append hp, hq])

theorem NoEmpty.at {m m' : DMap F} (h : NoEmpty m) {p : List Text} (hp : follow (.map m) p = some (.map m')) : NoEmpty m' := by
  intro q hq e
  exact h (p ++ q) (by simp [hq]) (by rw [follow_append hp, e])

/-- What paths see in a map without empty maps is settled by its leaves. -/
theorem see_of_leaves {m : DMap F} (ht : Tidy m) (hne : NoEmpty m) (q : List Text) :
    (∀ v, (q, v) ∈ leaves m → see m q = .leaf v) ∧
    ((q = [] ∨ ∃ e ∈ leaves m, q <+: e.1 ∧ q ≠ e.1) → see m q = .map) ∧
    ((∀ v, (q, v) ∉ leaves m) → ¬ (q = [] ∨ ∃ e ∈ leaves m, q <+: e.1 ∧ q ≠ e.1) → see m q = .nothing) := by
  refine ⟨?_, ?_, ?_⟩
  · intro v hv
    obtain ⟨h1, h2⟩ := (mem_leaves ht q v).mp hv
    rw [see, h1, seen_leaf h2]
  · rintro (rfl | ⟨⟨p, v⟩, he, ⟨t, rfl⟩, hq⟩)
    · rfl
    · obtain ⟨h1, h2⟩ := (mem_leaves ht _ v).mp he
      obtain ⟨w', h3, h4⟩ := follow_prefix h1
      rw [see, h3]
      rcases isLeaf_or w' with hw | ⟨m', rfl⟩
      · cases t with
        | nil => simp at hq
        | cons a l =>
          rw [follow_leaf hw] at h4
          simp at h4
      · rfl
  · intro h1 h2
    rw [see]
    cases hf : follow (.map m) q with
    | none => rfl
    | some w =>
      exfalso
      rcases isLeaf_or w with hw | ⟨m', rfl⟩
      · exact h1 w ((mem_leaves ht q w).mpr ⟨hf, hw⟩)
      · have hm' : m' ≠ [] := by
          rintro rfl
          by_cases hq : q = []
          · exact h2 (.inl hq)
          · exact hne q hq hf
        obtain ⟨e, he⟩ := exists_leaf (ht.at hf) (hne.at hf) hm'
        refine h2 (.inr ⟨(q ++ e.1, e.2), ?_, ⟨_, rfl⟩, ?_⟩)
        · rw [mem_leaves ht]
          obtain ⟨h3, h4⟩ := (mem_leaves (ht.at hf) e.1 e.2).mp he
          exact ⟨by rw [follow_append hf, h3], h4⟩
        · intro hc
          exact leaves_ne_nil m' e he (by simpa using hc)

/-- Putting entries under new keys appends them. -/
theorem put_new {k : Text} {v : Val F} {m : DMap F} (h : k ∉ m.map (·.1)) : put k v m = m ++ [(k, v)] := by
  induction m with
  | nil => rfl
  | cons e m ih =>
    obtain ⟨k', v'⟩ := e
    simp only [List.map_cons, List.mem_cons, not_or] at h
    rw [put, if_neg (Ne.symm h.1), ih h.2]
    rfl

theorem putFlat_new {pre : Text} {l acc : DMap F} (hn : (l.map (·.1)).Nodup) (hd : ∀ e ∈ l, pre ++ '.' :: e.1 ∉ acc.map (·.1)) :
    putFlat pre l acc = acc ++ l.map fun e => (pre ++ '.' :: e.1, e.2) := by
  unfold putFlat
  induction l generalizing acc with
  | nil => simp
  | cons e l ih =>
    obtain ⟨k, v⟩ := e
    simp only [List.map_cons, List.nodup_cons] at hn
    rw [List.foldl_cons, putKey, put_new (hd (k, v) (by simp)), ih hn.2]
    · simp
    · intro e he hc
      simp only [List.map_append, List.mem_append, List.map_cons, List.map_nil, List.mem_singleton] at hc
      rcases hc with hc | hc
      · exact hd e (List.mem_cons_of_mem _ he) hc
      · have : e.1 = k := by simpa using hc
        exact hn.1 (List.mem_map.mpr ⟨e, he, this⟩)

/-- The leaves with dotted keys. -/
def flat (m : DMap F) : DMap F := (leaves m).map fun e => (joined e.1, e.2)

theorem leaves_no_dots {m : DMap F} (ht : Tidy m) (hd : NoDots m) : ∀ e ∈ leaves m, ∀ k ∈ e.1, '.' ∉ k := by
  induction m using map_induction with
  | nil => simp [leaves]
  | leaf k v rest hv ih =>
    rw [leaves_cons_leaf k hv]
    intro e he
    rcases List.mem_cons.mp he with rfl | he
    · intro k' hk'
      rw [List.mem_singleton.mp hk']
      exact hd.keys (k, v) (by simp)
    · exact ih ht.tail (hd.tail ht) e he
  | map k m rest ih1 ih2 =>
    rw [leaves_cons_map]
    intro e he
    have hl := lookup_head k (.map m) rest
    rcases List.mem_append.mp he with he | he
    · obtain ⟨e', he', rfl⟩ := List.mem_map.mp he
      intro k' hk'
      rcases List.mem_cons.mp hk' with rfl | hk'
      · exact hd.keys (k', .map m) (by simp)
      · exact ih1 (ht.sub hl) (hd.sub hl) e' he' k' hk'
    · exact ih2 ht.tail (hd.tail ht) e he

theorem leaves_nodup {m : DMap F} (ht : Tidy m) : ((leaves m).map (·.1)).Nodup := by
  induction m using map_induction with
  | nil => simp [leaves]
  | leaf k v rest hv ih =>
    rw [leaves_cons_leaf k hv, List.map_cons, List.nodup_cons]
    refine ⟨?_, ih ht.tail⟩
    intro hc
    obtain ⟨e, he, e1⟩ := List.mem_map.mp hc
    obtain ⟨k', ks, h1, h2⟩ := leaves_head rest e he
    rw [h1] at e1
    simp only [List.cons.injEq] at e1
    exact ht.notin (e1.1 ▸ h2)
  | map k m rest ih1 ih2 =>
    have hl := lookup_head k (.map m) rest
    rw [leaves_cons_map, List.map_append, List.nodup_append]
    refine ⟨?_, ih2 ht.tail, ?_⟩
    · rw [List.map_map]
      have := (ih1 (ht.sub hl)).map (f := fun p => k :: p) (fun a b h => by simpa using h)
      rw [List.map_map] at this
      exact this
    · intro a ha b hb
      rw [List.map_map] at ha
      obtain ⟨e, -, rfl⟩ := List.mem_map.mp ha
      obtain ⟨e', he', rfl⟩ := List.mem_map.mp hb
      obtain ⟨k', ks, h1, h2⟩ := leaves_head rest e' he'
      rw [h1]
      intro hc
      simp only [Function.comp, List.cons.injEq] at hc
      exact ht.notin (hc.1 ▸ h2)

theorem joined_inj {a b : List Text} (ha : a ≠ []) (hb : b ≠ []) (hda : ∀ k ∈ a, '.' ∉ k) (hdb : ∀ k ∈ b, '.' ∉ k)
    (h : joined a = joined b) : a = b := by
  rw [← dots_joined ha hda, ← dots_joined hb hdb, h]

theorem flat_nodup {m : DMap F} (ht : Tidy m) (hd : NoDots m) : ((flat m).map (·.1)).Nodup := by
  unfold flat
  rw [List.map_map]
  have h := leaves_nodup ht
  have h1 := leaves_ne_nil m
  have h2 := leaves_no_dots ht hd
  generalize leaves m = l at h h1 h2
  induction l with
  | nil => simp
  | cons e l ih =>
    simp only [List.map_cons, List.nodup_cons] at h ⊢
    refine ⟨?_, ih h.2 (fun e he => h1 e (List.mem_cons_of_mem _ he)) (fun e he => h2 e (List.mem_cons_of_mem _ he))⟩
    intro hc
    obtain ⟨e', he', e1⟩ := List.mem_map.mp hc
    refine h.1 (List.mem_map.mpr ⟨e', he', ?_⟩)
    exact joined_inj (h1 e' (List.mem_cons_of_mem _ he')) (h1 e (by simp)) (h2 e' (List.mem_cons_of_mem _ he')) (h2 e (by simp)) e1

theorem flattenInto_cons_leaf (k : Text) {v : Val F} (hv : IsLeaf v) (hl : ∀ l, v ≠ .list l) (acc rest : DMap F) :
    flattenInto acc ((k, v) :: rest) = flattenInto (putKey acc k v) rest := by
  cases v <;> first | exact absurd rfl (hv _) | exact absurd rfl (hl _) | rw [flattenInto.eq_def]

theorem flattenInto_cons_map (k : Text) (m acc rest : DMap F) :
    flattenInto acc ((k, .map m) :: rest) = flattenInto (putFlat k (flattenInto [] m) acc) rest := by
  rw [flattenInto.eq_def]

theorem flat_cons_leaf (k : Text) {v : Val F} (hv : IsLeaf v) (rest : DMap F) : flat ((k, v) :: rest) = (k, v) :: flat rest := by
  simp [flat, leaves_cons_leaf k hv, joined]

theorem flat_cons_map (k : Text) (m rest : DMap F) :
    flat ((k, .map m) :: rest) = (flat m).map (fun e => (k ++ '.' :: e.1, e.2)) ++ flat rest := by
  simp only [flat, leaves_cons_map, List.map_append, List.map_map]
  congr 1
  refine List.map_congr_left fun e he => ?_
  simp only [Function.comp, joined_cons (leaves_ne_nil m e he)]

theorem flattenInto_eq {m : DMap F} (ht : Tidy m) (hd : NoDots m) (hl : NoLists m) (acc : DMap F)
    (hacc : ∀ e ∈ flat m, e.1 ∉ acc.map (·.1)) : flattenInto acc m = acc ++ flat m := by
  induction m using map_induction generalizing acc with
  | nil =>
    rw [flattenInto.eq_def]
    simp [flat, leaves]
  | leaf k v rest hv ih =>
    have hn := flat_nodup ht hd
    rw [flat_cons_leaf k hv] at hacc hn ⊢
    have hvl : ∀ l, v ≠ .list l := by
      rintro l rfl
      exact hl [k] l (by rw [follow_map_cons, lookup_head]; simp)
    rw [flattenInto_cons_leaf k hv hvl, putKey, put_new (hacc (k, v) (by simp)), ih ht.tail (hd.tail ht) (hl.tail ht)]
    · simp
    · intro e he hc
      simp only [List.map_append, List.mem_append, List.map_cons, List.map_nil, List.mem_singleton] at hc
      rcases hc with hc | hc
      · exact hacc e (List.mem_cons_of_mem _ he) hc
      · simp only [List.map_cons, List.nodup_cons] at hn
        exact hn.1 (List.mem_map.mpr ⟨e, he, hc⟩)
  | map k m rest ih1 ih2 =>
    have hn := flat_nodup ht hd
    have hlk := lookup_head k (.map m) rest
    have hm := ih1 (ht.sub hlk) (hd.sub hlk) (hl.sub hlk) [] (by simp)
    rw [List.nil_append] at hm
    rw [flat_cons_map] at hacc hn ⊢
    rw [flattenInto_cons_map, hm, putFlat_new (flat_nodup (ht.sub hlk) (hd.sub hlk)), ih2 ht.tail (hd.tail ht) (hl.tail ht)]
    · simp
    · intro e he hc
      simp only [List.map_append, List.mem_append] at hc
      rcases hc with hc | hc
      · exact hacc e (List.mem_append_right _ he) hc
      · rw [List.map_append, List.nodup_append] at hn
        exact hn.2.2 _ hc _ (List.mem_map.mpr ⟨e, he, rfl⟩) rfl
    · intro e he hc
      exact hacc (k ++ '.' :: e.1, e.2) (List.mem_append_left _ (List.mem_map.mpr ⟨e, he, rfl⟩)) hc

theorem flatten_eq {m : DMap F} (ht : Tidy m) (hd : NoDots m) (hl : NoLists m) : flatten m = flat m := by
  rw [flatten, flattenInto_eq ht hd hl [] (by simp), List.nil_append]

/-! ## Unflattening -/

/-- The map holds exactly the given leaves. -/
structure Holds (acc : DMap F) (l : List (List Text × Val F)) : Prop where
  leaf : ∀ e ∈ l, see acc e.1 = .leaf e.2
  map : ∀ q, (q = [] ∨ ∃ e ∈ l, q <+: e.1 ∧ q ≠ e.1) → see acc q = .map
  nothing : ∀ q, (∀ e ∈ l, e.1 ≠ q) → ¬ (q = [] ∨ ∃ e ∈ l, q <+: e.1 ∧ q ≠ e.1) → see acc q = .nothing

/-- No path is a beginning of another one. -/
def Apart (p : List Text) (l : List (List Text × Val F)) : Prop := ∀ e ∈ l, ¬ p <+: e.1 ∧ ¬ e.1 <+: p

theorem holds_nil : Holds ([] : DMap F) [] := by
  refine ⟨by simp, ?_, ?_⟩
  · rintro q (rfl | ⟨e, he, -⟩)
    · rfl
    · simp at he
  · intro q _ h
    cases q with
    | nil => exact absurd (.inl rfl) h
    | cons a l => exact see_cons_none rfl l

theorem Holds.put {acc : DMap F} {l : List (List Text × Val F)} (h : Holds acc l) {p : List Text} {v : Val F} (hp : p ≠ []) (hv : IsLeaf v)
    (ha : Apart p l) : (putParts v p acc).2 = true ∧ Holds (putParts v p acc).1 ((p, v) :: l) := by
  have hok : (putParts v p acc).2 = true := by
    by_contra hc
    rw [Bool.not_eq_true, putParts_ok_iff] at hc
    obtain ⟨q, w, h1, h2, h3, h4⟩ := hc
    have hs : see acc q = .leaf w := by rw [see, h3, seen_leaf h4]
    by_cases hq : q = [] ∨ ∃ e ∈ l, q <+: e.1 ∧ q ≠ e.1
    · rw [h.map q hq] at hs
      simp at hs
    · by_cases hq' : ∀ e ∈ l, e.1 ≠ q
      · rw [h.nothing q hq' hq] at hs
        simp at hs
      · simp only [not_forall, not_not] at hq'
        obtain ⟨e, he, rfl⟩ := hq'
        exact (ha e he).2 h1
  refine ⟨hok, ?_⟩
  have hf := follow_putParts v p hp acc hok
  have hsee : ∀ q, ¬ q <+: p → ¬ p <+: q → see (putParts v p acc).1 q = see acc q := by
    intro q h1 h2
    rw [see, see, (hf q).2.2 h1 h2]
  have hpre : ∀ q, q <+: p → q ≠ p → see (putParts v p acc).1 q = .map := by
    intro q h1 h2
    obtain ⟨m', hm'⟩ := (hf q).2.1 h1 h2
    rw [see, hm']
    rfl
  refine ⟨?_, ?_, ?_⟩
  · intro e he
    rcases List.mem_cons.mp he with rfl | he
    · simp only [see]
      rw [(hf p).1 [] (by simp), follow_nil, seen_leaf hv]
    · rw [hsee e.1 (fun hc => (ha e he).2 hc) (fun hc => (ha e he).1 hc)]
      exact h.leaf e he
  · rintro q (rfl | ⟨e, he, h1, h2⟩)
    · rfl
    · rcases List.mem_cons.mp he with rfl | he
      · exact hpre q h1 h2
      · by_cases hqp : q <+: p
        · refine hpre q hqp ?_
          intro hc
          exact (ha e he).1 (hc ▸ h1)
        · rw [hsee q hqp ?_]
          · exact h.map q (.inr ⟨e, he, h1, h2⟩)
          · intro hc
            exact (ha e he).1 (hc.trans h1)
  · intro q h1 h2
    have hne : q ≠ p := fun e => h1 (p, v) (by simp) e.symm
    have hqp : ¬ q <+: p := fun hc => h2 (.inr ⟨(p, v), by simp, hc, hne⟩)
    by_cases hpq : p <+: q
    · obtain ⟨t, rfl⟩ := hpq
      rw [see, (hf _).1 t rfl]
      cases t with
      | nil => simp at hne
      | cons a t' =>
        rw [follow_leaf hv]
        rfl
    · rw [hsee q hqp hpq]
      refine h.nothing q (fun e he => h1 e (List.mem_cons_of_mem _ he)) ?_
      rintro (rfl | ⟨e, he, h3⟩)
      · exact h2 (.inl rfl)
      · exact h2 (.inr ⟨e, List.mem_cons_of_mem _ he, h3⟩)

theorem unflattenLoop_holds (l done : List (List Text × Val F)) (acc : DMap F) (h : Holds acc done)
    (hne : ∀ e ∈ l, e.1 ≠ []) (hd : ∀ e ∈ l, ∀ k ∈ e.1, '.' ∉ k) (hv : ∀ e ∈ l, IsLeaf e.2)
    (hl : l.Pairwise fun a b => ¬ a.1 <+: b.1 ∧ ¬ b.1 <+: a.1) (hdone : ∀ e ∈ l, Apart e.1 done) :
    ∃ m, unflattenLoop acc (l.map fun e => (joined e.1, e.2)) = some m ∧ Holds m (l.reverse ++ done) := by
  induction l generalizing acc done with
  | nil => exact ⟨acc, rfl, h⟩
  | cons e l ih =>
    obtain ⟨p, v⟩ := e
    rw [List.pairwise_cons] at hl
    obtain ⟨h1, h2⟩ := h.put (p := p) (v := v) (hne (p, v) (by simp)) (hv (p, v) (by simp)) (hdone (p, v) (by simp))
    rw [List.map_cons, unflattenLoop, putWithDot_eq]
    simp only [dots_joined (hne (p, v) (by simp)) (hd (p, v) (by simp))]
    rw [if_pos h1]
    obtain ⟨m, hm, hm'⟩ := ih ((p, v) :: done) _ h2 (fun e he => hne e (List.mem_cons_of_mem _ he))
      (fun e he => hd e (List.mem_cons_of_mem _ he)) (fun e he => hv e (List.mem_cons_of_mem _ he)) hl.2 (by
        intro e he e' he'
        rcases List.mem_cons.mp he' with rfl | he'
        · exact ⟨(hl.1 e he).2, (hl.1 e he).1⟩
        · exact hdone e (List.mem_cons_of_mem _ he) e' he')
    exact ⟨m, hm, by simpa using hm'⟩

theorem leaves_apart {m : DMap F} (ht : Tidy m) {a b : List Text × Val F} (ha : a ∈ leaves m) (hb : b ∈ leaves m) (h : a.1 <+: b.1) :
    a.1 = b.1 := by
  obtain ⟨h1, h2⟩ := (mem_leaves ht a.1 a.2).mp ha
  obtain ⟨h3, h4⟩ := (mem_leaves ht b.1 b.2).mp hb
  obtain ⟨t, ht'⟩ := h
  rw [← ht', follow_append h1] at h3
  cases t with
  | nil => simpa using ht'
  | cons c t =>
    rw [follow_leaf h2] at h3
    simp at h3

end Verif.Dyn
