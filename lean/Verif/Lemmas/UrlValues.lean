import Verif.Lemmas.Typecast

/-!
# Lemmas about splitting texts and about URL values
-/

namespace Verif.Dyn

universe u

variable {F : Type u}

/-! ## Splitting -/

theorem afterPrefix_iff (d s r : Text) : afterPrefix d s = some r ↔ s = d ++ r := by
  induction d generalizing s with
  | nil => simp [afterPrefix, eq_comm]
  | cons c d ih =>
    cases s with
    | nil => simp [afterPrefix]
    | cons e s =>
      rw [afterPrefix]
      split
      · rename_i h
        subst h
        rw [ih]
        simp
      · rename_i h
        simp [h]

theorem splitAtText_ne_nil (delim s acc : Text) : splitAtText delim s acc ≠ [] := by
  fun_induction splitAtText delim s acc <;> simp_all

/-- The pieces with the delimiter between them. -/
def glued (delim : Text) (l : List Text) : Text := (l.intersperse delim).flatten

theorem glued_cons (delim p : Text) {l : List Text} (h : l ≠ []) : glued delim (p :: l) = p ++ (delim ++ glued delim l) := by
  cases l with
  | nil => exact absurd rfl h
  | cons q l => simp [glued, List.intersperse]

theorem glued_eq (delim : Text) (l : List Text) : glued delim l = interleaved delim l := by
  induction l with
  | nil => rfl
  | cons p l ih =>
    cases l with
    | nil => simp [glued, interleaved]
    | cons q l => rw [glued_cons _ _ (by simp), ih, interleaved, List.append_assoc]

theorem glued_splitAtText (delim s acc : Text) : glued delim (splitAtText delim s acc) = acc.reverse ++ s := by
  fun_induction splitAtText delim s acc with
  | case1 acc => simp [glued]
  | case2 acc c rest r h hd ih => rw [ih]; simp
  | case3 acc c rest r h hd ih =>
    rw [glued_cons _ _ (splitAtText_ne_nil _ _ _), ih, (afterPrefix_iff _ _ _).mp h]
    simp
  | case4 acc c rest h ih => rw [ih]; simp

theorem splitAtText_free (delim s acc : Text) (hd : delim ≠ [])
    (hacc : ∀ t u, acc.reverse = t ++ u → u ≠ [] → ¬ delim <+: u ++ s) : ∀ p ∈ splitAtText delim s acc, ¬ delim <:+: p := by
  have base : ∀ acc s : Text, (∀ t u, acc.reverse = t ++ u → u ≠ [] → ¬ delim <+: u ++ s) → ¬ delim <:+: acc.reverse := by
    rintro acc s h ⟨a, b, e⟩
    refine h a (delim ++ b) (by rw [← e]; simp) (by simp [hd]) ⟨b ++ s, by simp⟩
  fun_induction splitAtText delim s acc with
  | case1 acc =>
    intro p hp
    simp only [List.mem_singleton] at hp
    rw [hp]
    exact base acc [] hacc
  | case2 acc c rest r h hd' ih => exact absurd hd' hd
  | case3 acc c rest r h hd' ih =>
    intro p hp
    rcases List.mem_cons.mp hp with rfl | hp
    · exact base acc _ hacc
    · exact ih (by
        intro t u e hu
        simp only [List.reverse_nil] at e
        exact absurd (List.append_eq_nil_iff.mp e.symm).2 hu) p hp
  | case4 acc c rest h ih =>
    refine ih ?_
    intro t u e hu
    rw [List.reverse_cons] at e
    rcases List.eq_nil_or_concat u with rfl | ⟨u', c', rfl⟩
    · exact absurd rfl hu
    · simp only [List.concat_eq_append] at e ⊢
      rw [← List.append_assoc] at e
      obtain ⟨e1, e2⟩ := List.append_inj' e rfl
      simp only [List.cons.injEq, and_true] at e2
      subst e2
      rw [List.append_assoc, List.singleton_append]
      by_cases hu' : u' = []
      · subst hu'
        rintro ⟨r, e⟩
        have := (afterPrefix_iff delim (c :: rest) r).mpr e.symm
        rw [h] at this
        cases this
      · exact hacc t u' e1 hu'

theorem splitAtText_char (d : Char) (p : Text) (hp : d ∉ p) (rest acc : Text) (hr : rest = [] ∨ ∃ r, rest = d :: r) :
    splitAtText [d] (p ++ rest) acc =
      match rest with
      | [] => [acc.reverse ++ p]
      | _ :: r => (acc.reverse ++ p) :: splitAtText [d] r [] := by
  induction p generalizing acc with
  | nil =>
    rcases hr with rfl | ⟨r, rfl⟩
    · rw [List.nil_append, splitAtText.eq_def]
      simp
    · rw [List.nil_append, splitAtText.eq_def]
      simp only [List.append_nil]
      split
      · rename_i r' h
        rw [afterPrefix_iff] at h
        simp only [List.singleton_append, List.cons.injEq, true_and] at h
        rw [if_neg (by simp), h]
      · rename_i h
        simp [afterPrefix] at h
  | cons c p ih =>
    simp only [List.mem_cons, not_or] at hp
    rw [List.cons_append, splitAtText.eq_def]
    simp only []
    split
    · rename_i r' h
      simp [afterPrefix, Ne.symm hp.1] at h
    · rw [ih hp.2]
      simp

/-! ## URL values -/

/-- The key of a path in a URL, after its first key. -/
def brackets (ks : List Text) : Text := (ks.map fun k => '[' :: k ++ [']']).flatten

/-- The key of a path in a URL. -/
def rails : List Text → Text
  | [] => []
  | k :: ks => k ++ brackets ks

theorem urlKey_append (a b : Text) : urlKey (a ++ b) = urlKey a ++ urlKey b := by simp [urlKey]

theorem urlKey_plain {k : Text} (h1 : '[' ∉ k) (h2 : ']' ∉ k) : urlKey k = k := by
  unfold urlKey
  have : (k.map fun c => if c = '[' then '.' else c) = k := by
    conv_rhs => rw [← List.map_id k]
    refine List.map_congr_left fun c hc => ?_
    rw [if_neg (by rintro rfl; exact h1 hc)]
    rfl
  rw [this, List.filter_eq_self]
  intro c hc
  simp only [ne_eq, decide_eq_true_eq]
  rintro rfl
  exact h2 hc

theorem urlKey_rails {ks : List Text} (h : ∀ k ∈ ks, '[' ∉ k ∧ ']' ∉ k) : urlKey (rails ks) = joined ks := by
  cases ks with
  | nil => rfl
  | cons k ks =>
    rw [rails, urlKey_append, urlKey_plain (h k (by simp)).1 (h k (by simp)).2]
    replace h : ∀ k ∈ ks, '[' ∉ k ∧ ']' ∉ k := fun k' hk' => h k' (by simp [hk'])
    induction ks generalizing k with
    | nil => simp [brackets, urlKey, joined]
    | cons k' ks ih =>
      rw [joined_cons (by simp)]
      have e : brackets (k' :: ks) = '[' :: k' ++ ']' :: brackets ks := by simp [brackets]
      have e2 : urlKey (brackets (k' :: ks)) = '.' :: (k' ++ urlKey (brackets ks)) := by
        rw [e, urlKey_append]
        have e3 : urlKey ('[' :: k') = '.' :: urlKey k' := by simp [urlKey]
        have e4 : urlKey (']' :: brackets ks) = urlKey (brackets ks) := by simp [urlKey]
        rw [e3, e4, urlKey_plain (h k' (by simp)).1 (h k' (by simp)).2]
        rfl
      rw [e2, ih k' fun x hx => h x (by simp [hx])]

theorem addValue_new {vals : UrlValues} {key v : Text} (h : key ∉ vals.map (·.1)) : addValue vals key v = vals ++ [(key, [v])] := by
  induction vals with
  | nil => rfl
  | cons e vals ih =>
    obtain ⟨k, l⟩ := e
    simp only [List.map_cons, List.mem_cons, not_or] at h
    rw [addValue, if_neg (Ne.symm h.1), ih h.2]
    rfl

theorem urlEncode_leaf (printed : Val F → Text) (vals : UrlValues) (key : Text) {v : Val F} (hv : IsLeaf v) (hl : ∀ l, v ≠ .list l) :
    urlEncode printed vals key v = addValue vals key (shownText printed v) := by
  cases v <;> first | exact absurd rfl (hv _) | exact absurd rfl (hl _) | rw [urlEncode.eq_def]

theorem urlEncode_map (printed : Val F → Text) (vals : UrlValues) (key : Text) (m : DMap F) :
    urlEncode printed vals key (.map m) = urlEncodeMap printed vals key m := by
  rw [urlEncode.eq_def]

theorem urlEncodeMap_cons (printed : Val F → Text) (vals : UrlValues) (key k : Text) (v : Val F) (rest : DMap F) :
    urlEncodeMap printed vals key ((k, v) :: rest) = urlEncodeMap printed (urlEncode printed vals (key ++ '[' :: k ++ [']']) v) key rest := by
  rw [urlEncodeMap.eq_def]

theorem urlEncodeMap_eq (printed : Val F → Text) {m : DMap F} (ht : Tidy m) (hl : NoLists m) (vals : UrlValues) (key : Text) :
    urlEncodeMap printed vals key m = (leaves m).foldl (fun vals e => addValue vals (key ++ brackets e.1) (shownText printed e.2)) vals := by
  induction m using map_induction generalizing vals key with
  | nil =>
    rw [urlEncodeMap.eq_def]
    simp [leaves]
  | leaf k v rest hv ih =>
    have hvl : ∀ l, v ≠ .list l := by
      rintro l rfl
      exact hl [k] l (by rw [follow_map_cons, lookup_head]; simp)
    rw [urlEncodeMap_cons, urlEncode_leaf printed _ _ hv hvl, ih ht.tail (hl.tail ht), leaves_cons_leaf k hv, List.foldl_cons]
    simp [brackets]
  | map k m rest ih1 ih2 =>
    have hlk := lookup_head k (.map m) rest
    rw [urlEncodeMap_cons, urlEncode_map, ih1 (ht.sub hlk) (hl.sub hlk), ih2 ht.tail (hl.tail ht), leaves_cons_map, List.foldl_append,
      List.foldl_map]
    simp [brackets]

theorem marshalUrl_foldl (printed : Val F → Text) {m : DMap F} (ht : Tidy m) (hl : NoLists m) (vals : UrlValues) :
    m.foldl (fun vals e => urlEncode printed vals e.1 e.2) vals =
      (leaves m).foldl (fun vals e => addValue vals (rails e.1) (shownText printed e.2)) vals := by
  induction m generalizing vals with
  | nil => simp [leaves]
  | cons e rest ih =>
    obtain ⟨k, v⟩ := e
    rw [List.foldl_cons, ih ht.tail (hl.tail ht)]
    rcases isLeaf_or v with hv | ⟨m', rfl⟩
    · have hvl : ∀ l, v ≠ .list l := by
        rintro l rfl
        exact hl [k] l (by rw [follow_map_cons, lookup_head]; simp)
      rw [leaves_cons_leaf k hv, List.foldl_cons, urlEncode_leaf printed _ _ hv hvl]
      simp [rails, brackets]
    · have hlk := lookup_head k (.map m') rest
      rw [leaves_cons_map, List.foldl_append, List.foldl_map, urlEncode_map, urlEncodeMap_eq printed (ht.sub hlk) (hl.sub hlk)]
      simp [rails]

theorem addValue_foldl {α : Type*} (key : α → Text) (val : α → Text) (l : List α) (vals : UrlValues) (hn : (l.map key).Nodup)
    (hv : ∀ e ∈ l, key e ∉ vals.map (·.1)) :
    l.foldl (fun vals e => addValue vals (key e) (val e)) vals = vals ++ l.map fun e => (key e, [val e]) := by
  induction l generalizing vals with
  | nil => simp
  | cons e l ih =>
    rw [List.map_cons, List.nodup_cons] at hn
    rw [List.foldl_cons, addValue_new (hv e (by simp)), ih _ hn.2]
    · simp
    · intro e' he' hc
      rw [List.map_append, List.mem_append] at hc
      rcases hc with hc | hc
      · exact hv e' (by simp [he']) hc
      · simp only [List.map_cons, List.map_nil, List.mem_singleton] at hc
        exact hn.1 (List.mem_map.mpr ⟨e', he', hc⟩)

theorem leaves_no_brackets {m : DMap F} (ht : Tidy m) (hb : NoBrackets m) : ∀ e ∈ leaves m, ∀ k ∈ e.1, '[' ∉ k ∧ ']' ∉ k := by
  rintro ⟨p, v⟩ he k hk
  obtain ⟨h1, -⟩ := (mem_leaves ht p v).mp he
  obtain ⟨p1, p2, rfl⟩ := List.append_of_mem hk
  obtain ⟨w, hw1, hw2⟩ := follow_prefix h1
  rcases isLeaf_or w with hw | ⟨m', rfl⟩
  · rw [follow_leaf hw] at hw2
    cases hw2
  · rw [follow_map_cons] at hw2
    cases hlk : m'.lookup k with
    | none => rw [hlk] at hw2; cases hw2
    | some x => exact hb p1 m' hw1 (k, x) (lookup_mem hlk)

theorem marshalUrl_eq (printed : Val F → Text) {m : DMap F} (ht : Tidy m) (hd : NoDots m) (hb : NoBrackets m) (hl : NoLists m) :
    marshalUrl printed m = (leaves m).map fun e => (rails e.1, [shownText printed e.2]) := by
  rw [marshalUrl, marshalUrl_foldl printed ht hl]
  have := addValue_foldl (fun e : List Text × Val F => rails e.1) (fun e => shownText printed e.2) (leaves m) [] ?_ (by simp)
  · simpa using this
  · have hnd := leaves_nodup ht
    rw [List.Nodup, List.pairwise_map] at hnd ⊢
    refine hnd.imp_of_mem ?_
    intro a b ha hb' hab hc
    refine hab ?_
    have := congrArg urlKey hc
    rw [urlKey_rails (leaves_no_brackets ht hb a ha), urlKey_rails (leaves_no_brackets ht hb b hb')] at this
    have := congrArg dots this
    rwa [dots_joined (leaves_ne_nil m a ha) (leaves_no_dots ht hd a ha), dots_joined (leaves_ne_nil m b hb') (leaves_no_dots ht hd b hb')] at this

theorem foldl_of_unflattenLoop (l : DMap F) (acc m : DMap F) (h : unflattenLoop acc l = some m) :
    l.foldl (fun m e => (putWithDot m e.1 e.2).1) acc = m := by
  induction l generalizing acc with
  | nil => simpa [unflattenLoop] using h
  | cons e l ih =>
    obtain ⟨k, v⟩ := e
    rw [unflattenLoop] at h
    split at h
    · exact ih _ h
    · cases h

end Verif.Dyn
