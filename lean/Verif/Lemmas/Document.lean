import Verif.Spec.Document
import Verif.Props.Custom

/-!
# Lemmas about documents
-/

set_option linter.unusedSectionVars false

namespace Verif.Dyn

universe u

variable {F : Type u}

/-! ## Neat maps -/

theorem Neat.keys {m : DMap F} (h : Neat (.map m)) : (m.map (·.1)).Nodup := by cases h; assumption

theorem Neat.noDot {m : DMap F} (h : Neat (.map m)) : ∀ e ∈ m, '.' ∉ e.1 := by cases h; assumption

theorem Neat.sub {m : DMap F} (h : Neat (.map m)) : ∀ e ∈ m, Neat e.2 := by cases h; assumption

theorem Neat.lookup {m : DMap F} (h : Neat (.map m)) {k : Text} {v : Val F} (hl : m.lookup k = some v) : Neat v := h.sub _ (lookup_mem hl)

theorem Neat.mem {l : List (Val F)} (h : Neat (.list l)) : ∀ v ∈ l, Neat v := by cases h; assumption

theorem neat_nil : Neat (.map ([] : DMap F)) := .map (by simp) (by simp) (by simp)

theorem mem_put {k : Text} {v : Val F} {m : DMap F} {e : Text × Val F} (h : e ∈ put k v m) : e = (k, v) ∨ e ∈ m := by
  induction m with
  | nil => left; simpa [put] using h
  | cons a m ih =>
    obtain ⟨k', v'⟩ := a
    unfold put at h
    split at h
    · simp only [List.mem_cons] at h ⊢
      tauto
    · simp only [List.mem_cons] at h ⊢
      rcases h with h | h
      · tauto
      · rcases ih h with h | h <;> tauto

theorem neat_put {k : Text} {v : Val F} {m : DMap F} (hk : '.' ∉ k) (hv : Neat v) (h : Neat (.map m)) : Neat (.map (put k v m)) := by
  refine .map (put_nodup k v m h.keys) ?_ ?_
  · intro e he
    rcases mem_put he with rfl | he
    · exact hk
    · exact h.noDot e he
  · intro e he
    rcases mem_put he with rfl | he
    · exact hv
    · exact h.sub e he

theorem neat_erase {k : Text} {m : DMap F} (h : Neat (.map m)) : Neat (.map (erase k m)) := by
  refine .map ?_ ?_ ?_
  · exact List.Nodup.sublist (List.Sublist.map _ List.filter_sublist) h.keys
  · exact fun e he => h.noDot e (List.mem_of_mem_filter he)
  · exact fun e he => h.sub e (List.mem_of_mem_filter he)

theorem neat_tail {e : Text × Val F} {m : DMap F} (h : Neat (.map (e :: m))) : Neat (.map m) := by
  refine .map ?_ ?_ ?_
  · have := h.keys
    simp only [List.map_cons, List.nodup_cons] at this
    exact this.2
  · exact fun x hx => h.noDot x (List.mem_cons_of_mem _ hx)
  · exact fun x hx => h.sub x (List.mem_cons_of_mem _ hx)

theorem neat_merge (a b : DMap F) (ha : Neat (.map a)) (hb : Neat (.map b)) : Neat (.map (merge a b)) := by
  match b with
  | [] => rw [merge]; exact ha
  | (k, v) :: rest =>
    have hk : '.' ∉ k := hb.noDot (k, v) (by simp)
    have hv : Neat v := hb.sub (k, v) (by simp)
    rw [merge_cons hk]
    refine neat_merge _ rest (neat_put hk ?_ ha) (neat_tail hb)
    cases v with
    | map m =>
      unfold mergeEntry
      refine neat_merge _ m ?_ hv
      cases hl : (a.lookup k).bind Val.toMap with
      | none => exact neat_nil
      | some m2 =>
        rw [Option.bind_eq_some_iff] at hl
        obtain ⟨w, h1, h2⟩ := hl
        have := ha.lookup h1
        cases w <;> simp only [Val.toMap, Option.some.injEq, reduceCtorEq] at h2
        subst h2
        exact this
    | _ => exact hv
termination_by sizeOf b

theorem put_fresh {k : Text} {v : Val F} {m : DMap F} (h : k ∉ m.map (·.1)) : put k v m = m ++ [(k, v)] := by
  induction m with
  | nil => rfl
  | cons e m ih =>
    obtain ⟨k', v'⟩ := e
    simp only [List.map_cons, List.mem_cons, not_or] at h
    rw [put, if_neg (Ne.symm h.1), ih h.2]
    rfl

theorem merge_fresh (a b : DMap F) (hb : Neat (.map b)) (h : ∀ e ∈ b, e.1 ∉ a.map (·.1)) : merge a b = a ++ b := by
  match b with
  | [] => rw [merge, List.append_nil]
  | (k, v) :: rest =>
    have hk : '.' ∉ k := hb.noDot (k, v) (by simp)
    have hv : Neat v := hb.sub (k, v) (by simp)
    have hka : k ∉ a.map (·.1) := h (k, v) (by simp)
    have e : mergeEntry (a.lookup k) v = v := by
      rw [lookup_none_iff.mpr hka]
      cases v with
      | map m =>
        simp only [mergeEntry, Option.bind_none, Option.getD_none]
        rw [merge_fresh [] m hv (by simp)]
        rfl
      | _ => rfl
    rw [merge_cons hk, e, put_fresh hka, merge_fresh _ rest (neat_tail hb)]
    · simp
    · intro x hx
      have hn := hb.keys
      simp only [List.map_cons, List.nodup_cons] at hn
      simp only [List.map_append, List.map_cons, List.map_nil, List.mem_append, List.mem_singleton, not_or]
      exact ⟨h x (List.mem_cons_of_mem _ hx), fun e => hn.1 (e ▸ List.mem_map_of_mem hx)⟩
termination_by sizeOf b

/-- A clone is the same map. -/
theorem clone_neat {m : DMap F} (h : Neat (.map m)) : clone m = m := by
  unfold clone
  rw [merge_fresh [] m h (by simp)]
  rfl

/-! ## Lookups -/

theorem sub_plain {k : Text} (hk : '.' ∉ k) (m : DMap F) : sub m k = ((m.lookup k).bind Val.toMap).getD [] := by
  unfold sub getDynMap
  rw [get_plain hk]

theorem slice_plain {k : Text} (hk : '.' ∉ k) (m : DMap F) :
    slice m k = match m.lookup k with
      | some (.list l) => (mapItems l).getD []
      | _ => [] := by
  unfold slice getDynMapSlice
  rw [get_plain hk]
  cases m.lookup k with
  | none => rfl
  | some v => cases v <;> rfl

theorem mapItems_maps (l : List (DMap F)) : mapItems (l.map .map) = some l := by
  induction l with
  | nil => rfl
  | cons m l ih => simp [mapItems, ih]

theorem mapItems_mem {l : List (Val F)} {ms : List (DMap F)} (h : mapItems l = some ms) : ∀ m ∈ ms, .map m ∈ l := by
  induction l generalizing ms with
  | nil =>
    simp only [mapItems, Option.some.injEq] at h
    subst h
    simp
  | cons v l ih =>
    cases v <;> simp only [mapItems, reduceCtorEq, Option.map_eq_some_iff] at h
    obtain ⟨ms', h1, rfl⟩ := h
    intro m hm
    rcases List.mem_cons.mp hm with rfl | hm
    · simp
    · exact List.mem_cons_of_mem _ (ih h1 m hm)

theorem slice_mem {k : Text} (hk : '.' ∉ k) {m x : DMap F} (h : x ∈ slice m k) : ∃ l, m.lookup k = some (.list l) ∧ .map x ∈ l := by
  rw [slice_plain hk] at h
  split at h
  · next l e =>
    refine ⟨l, e, ?_⟩
    cases hl : mapItems l with
    | none => rw [hl] at h; simp at h
    | some ms => rw [hl] at h; exact mapItems_mem hl x h
  · simp at h

theorem neat_slice {k : Text} (hk : '.' ∉ k) {m : DMap F} (hm : Neat (.map m)) : ∀ x ∈ slice m k, Neat (.map x) := by
  intro x hx
  obtain ⟨l, h1, h2⟩ := slice_mem hk hx
  exact (hm.lookup h1).mem _ h2

theorem sub_cases {k : Text} (hk : '.' ∉ k) (m : DMap F) : sub m k = [] ∨ m.lookup k = some (.map (sub m k)) := by
  rw [sub_plain hk]
  cases m.lookup k with
  | none => left; rfl
  | some v => cases v <;> first | (left; rfl) | (right; rfl)

theorem neat_sub {k : Text} (hk : '.' ∉ k) {m : DMap F} (hm : Neat (.map m)) : Neat (.map (sub m k)) := by
  rcases sub_cases hk m with h | h
  · rw [h]; exact neat_nil
  · exact hm.lookup h

/-! ## Fuel -/

/-- `f` runs on where `g` has ended with the same. -/
def Extends {α β : Type u} (f g : α → Out β) : Prop := ∀ x, g x ≠ .running → f x = g x

theorem makeList_extends {α : Type u} {f g : DMap F → Out α} (h : Extends f g) (l : List (DMap F)) (hg : makeList g l ≠ .running) :
    makeList f l = makeList g l := by
  induction l with
  | nil => rfl
  | cons m l ih =>
    unfold makeList at hg ⊢
    cases e : g m with
    | running => rw [e] at hg; exact absurd rfl hg
    | err => rw [h m (by rw [e]; simp), e]
    | val c =>
      rw [h m (by rw [e]; simp), e]
      rw [e] at hg
      simp only at hg ⊢
      cases e2 : makeList g l with
      | running => rw [e2] at hg; exact absurd rfl hg
      | err => rw [ih (by rw [e2]; simp), e2]
      | val cs => rw [ih (by rw [e2]; simp), e2]

theorem create_extends (w : World F) {f g : DMap F → Out (Node F)} (h : Extends f g) (b : Built) (m : DMap F) (hg : w.create g b m ≠ .running) :
    w.create f b m = w.create g b m := by
  have key : ∀ (l : List (DMap F)) (k : List (Node F) → Node F),
      (match makeList g l with | .val cs => (.val (k cs) : Out (Node F)) | .err => .err | .running => .running) ≠ .running →
      (match makeList f l with | .val cs => (.val (k cs) : Out (Node F)) | .err => .err | .running => .running) =
        match makeList g l with | .val cs => .val (k cs) | .err => .err | .running => .running := by
    intro l k hl
    rw [makeList_extends h l]
    intro e
    rw [e] at hl
    exact hl rfl
  cases b <;> first | rfl | exact key _ _ hg

theorem make_succ (w : World F) (cs : List (Text × DMap F)) (n : Nat) : Extends (w.make cs (n + 1)) (w.make cs n) := by
  induction n with
  | zero => exact fun _ h => absurd rfl h
  | succ n ih =>
    intro m h
    unfold World.make at h ⊢
    cases e : w.text m typeKey with
    | none => rfl
    | some t =>
      rw [e] at h
      simp only at h ⊢
      cases eb : Built.ofText t with
      | some b =>
        rw [eb] at h
        exact create_extends w ih b m h
      | none =>
        rw [eb] at h
        simp only at h ⊢
        cases ec : cs.lookup t with
        | none => rfl
        | some base =>
          rw [ec] at h
          exact ih _ h

theorem make_le (w : World F) (cs : List (Text × DMap F)) {n n' : Nat} (h : n ≤ n') : Extends (w.make cs n') (w.make cs n) := by
  induction h with
  | refl => exact fun _ _ => rfl
  | step _ ih =>
    intro m hm
    have := ih m hm
    rw [make_succ w cs _ m (by rw [this]; exact hm), this]

theorem makeList_val {α : Type u} {f : DMap F → Out α} {l : List (DMap F)} {cs : List α} : makeList f l = .val cs ↔ List.Forall₂ (fun m c => f m = .val c) l cs := by
  induction l generalizing cs with
  | nil => simp [makeList, eq_comm]
  | cons m l ih =>
    unfold makeList
    cases e : f m with
    | val c =>
      cases e2 : makeList f l with
      | val ds =>
        simp only [Out.val.injEq]
        rw [List.forall₂_cons_left_iff]
        constructor
        · rintro rfl
          exact ⟨c, ds, e, ih.mp e2, rfl⟩
        · rintro ⟨c', ds', h1, h2, rfl⟩
          rw [e] at h1
          have h2 := ih.mpr h2
          rw [e2] at h2
          simp only [Out.val.injEq] at h1 h2
          rw [h1, h2]
      | err =>
        simp only [reduceCtorEq, false_iff]
        intro h
        rw [List.forall₂_cons_left_iff] at h
        obtain ⟨_, ds, _, h2, _⟩ := h
        rw [ih.mpr h2] at e2
        cases e2
      | running =>
        simp only [reduceCtorEq, false_iff]
        intro h
        rw [List.forall₂_cons_left_iff] at h
        obtain ⟨_, ds, _, h2, _⟩ := h
        rw [ih.mpr h2] at e2
        cases e2
    | err =>
      simp only [reduceCtorEq, false_iff]
      intro h
      rw [List.forall₂_cons_left_iff] at h
      obtain ⟨_, ds, h1, _⟩ := h
      rw [e] at h1
      cases h1
    | running =>
      simp only [reduceCtorEq, false_iff]
      intro h
      rw [List.forall₂_cons_left_iff] at h
      obtain ⟨_, ds, h1, _⟩ := h
      rw [e] at h1
      cases h1

theorem makeList_ends {α : Type u} {f : DMap F → Out α} {l : List (DMap F)} (h : ∀ m ∈ l, f m ≠ .running) : makeList f l ≠ .running := by
  induction l with
  | nil => simp [makeList]
  | cons m l ih =>
    unfold makeList
    have h1 := h m (by simp)
    have h2 := ih fun x hx => h x (List.mem_cons_of_mem _ hx)
    cases e : f m with
    | running => exact absurd e h1
    | err => simp
    | val c =>
      cases e2 : makeList f l with
      | running => exact absurd e2 h2
      | err => simp
      | val cs => simp

/-! ## Custom components -/

theorem removeAll_one (m : DMap F) (k : Text) (hk : '.' ∉ k) : removeAll m [k] = erase k m := by
  unfold removeAll
  simp only [List.foldl_cons, List.foldl_nil]
  unfold remove
  split
  · rfl
  · next h =>
    rw [if_pos (by rw [dots_plain hk]; rfl)]
    have hl : m.lookup k = none := by
      cases e : m.lookup k with
      | none => rfl
      | some v => rw [e] at h; exact absurd rfl h
    unfold erase
    rw [List.filter_eq_self.mpr]
    intro e he
    simp only [decide_eq_true_eq]
    intro hc
    exact lookup_none_iff.mp hl (hc ▸ List.mem_map_of_mem he)

/-- The parameters without the index. -/
theorem remove_index (m : DMap F) (hm : Neat (.map m)) : Neat (.map (remove m indexKey)) ∧ ∀ k, k ≠ paramsKey → (remove m indexKey).lookup k = m.lookup k := by
  have hd : dots indexKey = [paramsKey, ['i', 'n', 'd', 'e', 'x']] := by decide
  have hl : m.lookup indexKey = none := by
    rw [lookup_none_iff]
    intro h
    obtain ⟨e, he, hk⟩ := List.mem_map.mp h
    have := hm.noDot e he
    rw [hk] at this
    revert this
    decide
  unfold remove
  rw [hl, hd]
  simp only [Option.isSome_none, Bool.false_eq_true, if_false, List.length_cons, List.length_nil]
  rw [if_neg (by decide)]
  unfold removeParts
  cases hp : m.lookup paramsKey with
  | none => exact ⟨hm, fun _ _ => rfl⟩
  | some v =>
    simp only
    cases hv : v.toMap with
    | none => exact ⟨hm, fun _ _ => rfl⟩
    | some m' =>
      simp only [removeParts]
      have hm' : Neat (.map m') := by
        have := hm.lookup hp
        cases v <;> simp only [Val.toMap, Option.some.injEq, reduceCtorEq] at hv
        subst hv
        exact this
      refine ⟨neat_put (by decide) (neat_erase hm') hm, fun k hk => ?_⟩
      rw [lookup_put, if_neg hk]

/-- What becomes of the custom component before it is merged. -/
theorem prepared_spec (base : DMap F) (hb : Neat (.map base)) : Neat (.map (prepared base)) ∧
    (∀ k, k ≠ paramsKey → k ≠ typeKey → k ≠ customKey → (prepared base).lookup k = base.lookup k) ∧
    (prepared base).lookup typeKey = if isPart base then some (.str groupText) else base.lookup typeKey := by
  have e : removeAll (clone base) [customKey] = erase customKey base := by rw [clone_neat hb, removeAll_one _ _ (by decide)]
  have hn : Neat (.map (erase customKey base)) := neat_erase hb
  have hp : isPart (erase customKey base) = isPart base := by
    unfold isPart
    rw [get_plain (by decide), get_plain (by decide), lookup_erase, if_neg (by decide)]
  unfold prepared
  simp only [e, hp]
  cases isPart base with
  | false =>
    simp only [Bool.false_eq_true, if_false]
    refine ⟨hn, fun k _ _ h => ?_, ?_⟩
    · rw [lookup_erase, if_neg h]
    · rw [lookup_erase, if_neg (by decide)]
  | true =>
    simp only [if_true]
    have hn' : Neat (.map (putKey (erase customKey base) typeKey (.str groupText))) := neat_put (by decide) (.str _) hn
    obtain ⟨h1, h2⟩ := remove_index _ hn'
    refine ⟨h1, fun k a b c => ?_, ?_⟩
    · rw [h2 k a, putKey, lookup_put, if_neg b, lookup_erase, if_neg c]
    · rw [h2 _ (by decide), putKey, lookup_put, if_pos rfl]

theorem overrides_neat {dm : DMap F} (h : Neat (.map dm)) : overrides dm = erase typeKey dm := by
  unfold overrides
  rw [clone_neat h, removeAll_one _ _ (by decide)]

theorem neat_maps {l : List (DMap F)} (h : ∀ m ∈ l, Neat (.map m)) : Neat (.list (l.map .map)) := by
  refine .list ?_
  intro v hv
  obtain ⟨m, hm, rfl⟩ := List.mem_map.mp hv
  exact h m hm

theorem neat_customMap {base dm : DMap F} (hb : Neat (.map base)) (hd : Neat (.map dm)) : Neat (.map (customMap base dm)) := by
  rw [customMap_eq]
  refine neat_put (by decide) ?_ (neat_merge _ _ (prepared_spec base hb).1 ?_)
  · refine neat_maps fun m hm => ?_
    rcases List.mem_append.mp hm with hm | hm
    · exact neat_slice (by decide) hb m hm
    · refine neat_slice (by decide) ?_ m hm
      rw [overrides_neat hd]
      exact neat_erase hd
  · rw [overrides_neat hd]
    exact neat_erase hd

/-! ## Types deep inside -/

/-- Only the components less than `h` deep inside may have types that the program does not have. -/
def Deep (h : Nat) (m : DMap F) : Prop := ∀ d x, Inside d m x → h ≤ d → Plain x

theorem resolved_iff {m : DMap F} : Resolved m ↔ Deep 0 m := ⟨fun h d x hx _ => h d x hx, fun h d x hx => h d x hx (Nat.zero_le _)⟩

theorem Deep.hole {h : Nat} {m m' : DMap F} {k : Text} (hd : Deep h m) (hk : k ∈ holeKeys) (hm : m.lookup k = some (.map m')) : Deep (h - 1) m' :=
  fun d x hx hh => hd (d + 1) x (.hole hk hm hx) (by omega)

theorem Deep.item {h : Nat} {m m' : DMap F} {l : List (Val F)} (hd : Deep h m) (hl : m.lookup componentsKey = some (.list l)) (hm : .map m' ∈ l) : Deep (h - 1) m' :=
  fun d x hx hh => hd (d + 1) x (.item hl hm hx) (by omega)

theorem deep_nil (h : Nat) : Deep h ([] : DMap F) := by
  intro d x hx _ v hv
  cases hx with
  | here => cases hv
  | hole hk hm => cases hm
  | item hl => cases hl

theorem Deep.mono {h h' : Nat} {m : DMap F} (hd : Deep h m) (hh : h ≤ h') : Deep h' m := fun d x hx hh' => hd d x hx (by omega)

theorem lookup_size {m : DMap F} {k : Text} {v : Val F} (h : m.lookup k = some v) : sizeOf v < sizeOf m := by
  have := List.sizeOf_lt_of_mem (lookup_mem h)
  simp only [Prod.mk.sizeOf_spec] at this
  omega

theorem inside_size {d : Nat} {m x : DMap F} (h : Inside d m x) : d + sizeOf x ≤ sizeOf m := by
  induction h with
  | here => simp
  | hole _ hm _ ih =>
    have := lookup_size hm
    simp only [Val.map.sizeOf_spec] at this
    omega
  | item hl hm _ ih =>
    have h1 := lookup_size hl
    have h2 := List.sizeOf_lt_of_mem hm
    simp only [Val.map.sizeOf_spec, Val.list.sizeOf_spec] at h1 h2
    omega

theorem deep_self (m : DMap F) : Deep (sizeOf m) m := by
  intro d x hx hh
  have := inside_size hx
  have : 0 < sizeOf x := by cases x <;> simp
  omega

theorem plain_merge {a b : DMap F} (hb : Neat (.map b)) (ha : Plain a) (hp : Plain b) : Plain (merge a b) := by
  intro v hv
  rw [lookup_merge hb.keys hb.noDot] at hv
  cases e : b.lookup typeKey with
  | none => rw [e] at hv; exact ha v hv
  | some y =>
    rw [e] at hv
    obtain ⟨t, rfl⟩ := hp y e
    simp only [mergeEntry, Option.some.injEq] at hv
    exact ⟨t, hv.symm⟩

theorem deep_merge {d : Nat} : ∀ {h : Nat} {a b x : DMap F}, Neat (.map a) → Neat (.map b) → Deep 0 a → Deep h b → Inside d (merge a b) x → h ≤ d → Plain x := by
  induction d with
  | zero =>
    intro h a b x ha hb da db hx hh
    cases hx
    exact plain_merge hb (da 0 a (.here a) (Nat.zero_le _)) (db 0 b (.here b) hh)
  | succ d ih =>
    intro h a b x ha hb da db hx hh
    cases hx with
    | hole hk hm hi =>
      next m' k =>
      rw [lookup_merge hb.keys hb.noDot] at hm
      cases e : b.lookup k with
      | none =>
        rw [e] at hm
        exact da (d + 1) x (.hole hk hm hi) (Nat.zero_le _)
      | some y =>
        rw [e] at hm
        cases y with
        | map y =>
          simp only [mergeEntry, Option.some.injEq, Val.map.injEq] at hm
          subst hm
          refine ih ?_ (hb.lookup e) ?_ (db.hole hk e) hi (by omega)
          · cases e2 : (a.lookup k).bind Val.toMap with
            | none => exact neat_nil
            | some z =>
              rw [Option.bind_eq_some_iff] at e2
              obtain ⟨v, h1, h2⟩ := e2
              cases v <;> simp only [Val.toMap, Option.some.injEq, reduceCtorEq] at h2
              subst h2
              exact ha.lookup h1
          · cases e2 : (a.lookup k).bind Val.toMap with
            | none => exact deep_nil 0
            | some z =>
              rw [Option.bind_eq_some_iff] at e2
              obtain ⟨v, h1, h2⟩ := e2
              cases v <;> simp only [Val.toMap, Option.some.injEq, reduceCtorEq] at h2
              subst h2
              exact da.hole hk h1
        | _ => simp [mergeEntry] at hm
    | item hl hm hi =>
      next m' l =>
      rw [lookup_merge hb.keys hb.noDot] at hl
      cases e : b.lookup componentsKey with
      | none =>
        rw [e] at hl
        exact da (d + 1) x (.item hl hm hi) (Nat.zero_le _)
      | some y =>
        rw [e] at hl
        cases y with
        | list y =>
          simp only [mergeEntry, Option.some.injEq, Val.list.injEq] at hl
          subst hl
          exact db (d + 1) x (.item e hm hi) hh
        | _ => simp [mergeEntry] at hl

/-- Two maps that agree on the keys of components and on the type. -/
theorem deep_congr {h : Nat} {a b : DMap F} (hd : Deep h a) (hh : ∀ k ∈ holeKeys, b.lookup k = a.lookup k) (hc : b.lookup componentsKey = a.lookup componentsKey)
    (ht : h = 0 → Plain b) : Deep h b := by
  intro d x hx hle
  cases hx with
  | here => exact ht (by omega)
  | hole hk hm hi => exact hd _ x (.hole hk (by rw [← hh _ hk]; exact hm) hi) hle
  | item hl hm hi => exact hd _ x (.item (by rw [← hc]; exact hl) hm hi) hle

theorem holeKeys_other : ∀ k ∈ holeKeys, k ≠ paramsKey ∧ k ≠ typeKey ∧ k ≠ customKey ∧ k ≠ transformsKey ∧ k ≠ componentsKey ∧ '.' ∉ k := by decide

theorem deep_prepared {base : DMap F} (hb : Neat (.map base)) (hd : Deep 0 base) : Deep 0 (prepared base) := by
  obtain ⟨_, h1, h2⟩ := prepared_spec base hb
  refine deep_congr hd (fun k hk => ?_) (h1 _ (by decide) (by decide) (by decide)) fun _ v hv => ?_
  · obtain ⟨a, b, c, _⟩ := holeKeys_other k hk
    exact h1 k a b c
  · rw [h2] at hv
    split at hv
    · exact ⟨.group, by cases hv; rfl⟩
    · exact hd 0 base (.here _) (le_refl _) v hv

theorem plain_erase (dm : DMap F) : Plain (erase typeKey dm) := by
  intro v hv
  rw [lookup_erase, if_pos rfl] at hv
  cases hv

theorem deep_overrides {h : Nat} {dm : DMap F} (hn : Neat (.map dm)) (hd : Deep h dm) : Deep h (overrides dm) := by
  rw [overrides_neat hn]
  refine deep_congr hd (fun k hk => ?_) (by rw [lookup_erase, if_neg (by decide)]) fun _ => plain_erase dm
  rw [lookup_erase, if_neg (holeKeys_other k hk).2.1]

theorem lookup_customMap_type {base dm : DMap F} (hb : Neat (.map base)) (hd : Neat (.map dm)) :
    (customMap base dm).lookup typeKey = if isPart base then some (.str groupText) else base.lookup typeKey := by
  rw [customMap_eq, putKey, lookup_put, if_neg (by decide), overrides_neat hd, lookup_merge (neat_erase hd).keys (neat_erase hd).noDot, lookup_erase, if_pos rfl]
  exact (prepared_spec base hb).2.2

theorem deep_customMap {h : Nat} {base dm : DMap F} (hb : Neat (.map base)) (hn : Neat (.map dm)) (db : Deep 0 base) (hd : Deep h dm) : Deep h (customMap base dm) := by
  have hm : Deep h (merge (prepared base) (overrides dm)) := fun d x hx hh =>
    deep_merge (prepared_spec base hb).1 (by rw [overrides_neat hn]; exact neat_erase hn) (deep_prepared hb db) (deep_overrides hn hd) hx hh
  rw [customMap_eq]
  refine deep_congr hm (fun k hk => ?_) (by rw [putKey, lookup_put, if_neg (by decide)]) fun _ => ?_
  · rw [putKey, lookup_put, if_neg (holeKeys_other k hk).2.2.2.1]
  · have := lookup_customMap_type hb hn
    rw [customMap_eq] at this
    intro v hv
    rw [this] at hv
    split at hv
    · exact ⟨.group, by cases hv; rfl⟩
    · exact db 0 base (.here _) (le_refl _) v hv

theorem lookup_assoc_mem {α : Type*} {k : Text} {v : α} {l : List (Text × α)} (h : l.lookup k = some v) : (k, v) ∈ l := by
  obtain ⟨l1, l2, rfl, _⟩ := List.lookup_eq_some_iff.mp h
  simp

/-! ## Ends -/

/-- Making the component ends. -/
def Ends (w : World F) (cs : List (Text × DMap F)) (m : DMap F) : Prop := ∃ n, w.make cs n m ≠ .running

theorem ends_nil (w : World F) (cs : List (Text × DMap F)) : Ends w cs [] := ⟨1, by simp [World.make, World.text, get, dots_plain (show '.' ∉ typeKey by decide)]⟩

theorem ends_list (w : World F) (cs : List (Text × DMap F)) {l : List (DMap F)} (h : ∀ m ∈ l, Ends w cs m) : ∃ n, ∀ m ∈ l, w.make cs n m ≠ .running := by
  induction l with
  | nil => exact ⟨0, by simp⟩
  | cons m l ih =>
    obtain ⟨n, hn⟩ := h m (by simp)
    obtain ⟨n', hn'⟩ := ih fun x hx => h x (List.mem_cons_of_mem _ hx)
    refine ⟨max n n', ?_⟩
    intro x hx
    rcases List.mem_cons.mp hx with rfl | hx
    · rw [make_le w cs (le_max_left n n') _ hn]; exact hn
    · rw [make_le w cs (le_max_right n n') _ (hn' x hx)]; exact hn' x hx

/-- A component ends if those inside it do. -/
theorem create_ends (w : World F) (cs : List (Text × DMap F)) {m : DMap F} (hm : Neat (.map m)) (b : Built)
    (hh : ∀ k ∈ holeKeys, ∀ m', m.lookup k = some (.map m') → Ends w cs m')
    (hi : ∀ l, m.lookup componentsKey = some (.list l) → ∀ m', .map m' ∈ l → Ends w cs m') : ∃ n, w.create (w.make cs n) b m ≠ .running := by
  have hole : ∀ k ∈ holeKeys, Ends w cs (sub m k) := by
    intro k hk
    rcases sub_cases (holeKeys_other k hk).2.2.2.2.2 m with h | h
    · rw [h]; exact ends_nil w cs
    · exact hh k hk _ h
  have item : ∀ x ∈ slice m componentsKey, Ends w cs x := by
    intro x hx
    obtain ⟨l, h1, h2⟩ := slice_mem (by decide) hx
    exact hi l h1 x h2
  have key : ∀ (n : Nat) (l : List (DMap F)) (k : List (Node F) → Node F), (∀ x ∈ l, w.make cs n x ≠ .running) →
      (match makeList (w.make cs n) l with | .val cs => (.val (k cs) : Out (Node F)) | .err => .err | .running => .running) ≠ .running := by
    intro n l k hl
    have := makeList_ends hl
    split
    · simp
    · simp
    · next e => exact absurd e this
  obtain ⟨n1, h1⟩ := ends_list w cs item
  have holes : ∃ n, ∀ x ∈ b.holes.map (sub m), w.make cs n x ≠ .running := by
    apply ends_list
    intro x hx
    obtain ⟨k, hk, rfl⟩ := List.mem_map.mp hx
    refine hole k ?_
    clear hx
    revert hk
    cases b <;> revert k <;> decide
  obtain ⟨n2, h2⟩ := holes
  cases b with
  | draw => exact ⟨0, by simp [World.create]⟩
  | gear => exact ⟨0, by simp [World.create]⟩
  | part =>
    refine ⟨n1, key n1 _ _ ?_⟩
    have e : slice (putIfAbsent (clone m) typeKey (.str partText)) componentsKey = slice m componentsKey := by
      rw [clone_neat hm]
      unfold putIfAbsent
      split
      · rfl
      · rw [slice_plain (by decide), slice_plain (by decide), putKey, lookup_put, if_neg (by decide)]
    rw [e]
    exact h1
  | group => exact ⟨n1, key n1 _ _ (by rw [clone_neat hm]; exact h1)⟩
  | basicEdge => exact ⟨n1, key n1 _ _ (by rw [clone_neat hm]; exact h1)⟩
  | copies => exact ⟨n2, key n2 _ _ h2⟩
  | repeatEdge => exact ⟨n2, key n2 _ _ (by rw [clone_neat hm]; exact h2)⟩
  | xIntercept => exact ⟨n2, key n2 _ _ (by rw [clone_neat hm]; exact h2)⟩
  | around => exact ⟨n2, key n2 _ _ (by rw [clone_neat hm]; exact h2)⟩

theorem built_text (b : Built) : Built.ofText b.text = some b := by cases b <;> decide +kernel

theorem text_type (w : World F) {m : DMap F} {b : Built} (h : m.lookup typeKey = some (.str b.text)) : w.text m typeKey = some b.text := by
  unfold World.text
  rw [get_plain (by decide), h]
  simp only
  rw [if_neg (by cases b <;> decide +kernel)]

/-- A component of a type that the program has ends if those inside it do. -/
theorem ends_built (w : World F) (cs : List (Text × DMap F)) {m : DMap F} (hm : Neat (.map m)) {b : Built} (hb : (w.text m typeKey).bind Built.ofText = some b)
    (hh : ∀ k ∈ holeKeys, ∀ m', m.lookup k = some (.map m') → Ends w cs m')
    (hi : ∀ l, m.lookup componentsKey = some (.list l) → ∀ m', .map m' ∈ l → Ends w cs m') : Ends w cs m := by
  obtain ⟨n, hn⟩ := create_ends w cs hm b hh hi
  refine ⟨n + 1, ?_⟩
  rw [Option.bind_eq_some_iff] at hb
  obtain ⟨t, h1, h2⟩ := hb
  unfold World.make
  rw [h1]
  simp only [h2]
  exact hn

theorem ends_resolved (w : World F) (cs : List (Text × DMap F)) (m : DMap F) (hm : Neat (.map m)) (hd : Deep 0 m) : Ends w cs m := by
  cases ht : m.lookup typeKey with
  | none =>
    refine ⟨1, ?_⟩
    unfold World.make World.text
    rw [get_plain (by decide), ht]
    simp
  | some v =>
    obtain ⟨b, rfl⟩ := hd 0 m (.here m) (le_refl _) v ht
    refine ends_built w cs hm (b := b) (by rw [text_type w ht, Option.bind_some, built_text]) (fun k hk m' hl => ?_) fun l hl m' hi => ?_
    · have := lookup_size hl
      have h3 : sizeOf m' < sizeOf (Val.map m') := by simp
      exact ends_resolved w cs m' (hm.lookup hl) (hd.hole hk hl)
    · have h1 := lookup_size hl
      have h2 := List.sizeOf_lt_of_mem hi
      have h3 : sizeOf m' < sizeOf (Val.map m') := by simp
      have h4 : sizeOf l < sizeOf (Val.list l) := by simp
      exact ends_resolved w cs m' ((hm.lookup hl).mem _ hi) (hd.item hl hi)
termination_by sizeOf m
decreasing_by all_goals omega

theorem ends_deep (w : World F) (cs : List (Text × DMap F)) (hc : ∀ e ∈ cs, Neat (.map e.2) ∧ Resolved e.2) (h : Nat) :
    ∀ m : DMap F, Neat (.map m) → Deep h m → Ends w cs m := by
  induction h with
  | zero => exact fun m hm hd => ends_resolved w cs m hm hd
  | succ h ih =>
    have below : ∀ m : DMap F, Neat (.map m) → Deep (h + 1) m → ∀ b, (w.text m typeKey).bind Built.ofText = some b → Ends w cs m := by
      intro m hm hd b hb
      exact ends_built w cs hm hb (fun k hk m' hl => ih m' (hm.lookup hl) (hd.hole hk hl)) fun l hl m' hi => ih m' ((hm.lookup hl).mem _ hi) (hd.item hl hi)
    intro m hm hd
    cases ht : w.text m typeKey with
    | none => exact ⟨1, by simp [World.make, ht]⟩
    | some t =>
      cases hb : Built.ofText t with
      | some b => exact below m hm hd b (by rw [ht]; exact hb)
      | none =>
        cases hl : cs.lookup t with
        | none => exact ⟨1, by simp [World.make, ht, hb, hl]⟩
        | some base =>
          obtain ⟨h1, h2⟩ := hc (t, base) (lookup_assoc_mem hl)
          have h2 := resolved_iff.mp h2
          have htype := lookup_customMap_type h1 hm
          have : ∃ b : Built, (customMap base m).lookup typeKey = some (.str b.text) := by
            rw [htype]
            cases hp : isPart base with
            | true => exact ⟨.group, rfl⟩
            | false =>
              cases hv : base.lookup typeKey with
              | none =>
                unfold isPart at hp
                rw [get_plain (by decide), hv] at hp
                cases hp
              | some v =>
                obtain ⟨b, rfl⟩ := h2 0 base (.here _) (le_refl _) v hv
                exact ⟨b, by simp⟩
          obtain ⟨b, hb'⟩ := this
          obtain ⟨n, hn⟩ := below _ (neat_customMap h1 hm) (deep_customMap h1 hm h2 hd) b (by rw [text_type w hb', Option.bind_some, built_text])
          refine ⟨n + 1, ?_⟩
          unfold World.make
          rw [ht]
          simp only [hb, hl]
          exact hn

/-! ## Making a component again from its map -/

theorem allAlike_iff (w : World F) : ∀ {cs ds : List (Node F)}, Node.AllAlike w cs ds ↔ List.Forall₂ (Node.Alike w) cs ds
  | [], [] => by simp [Node.AllAlike]
  | [], d :: ds => by simp [Node.AllAlike]
  | c :: cs, [] => by simp [Node.AllAlike]
  | c :: cs, d :: ds => by simp only [Node.AllAlike, List.forall₂_cons, allAlike_iff w]

theorem allStored_iff (w : World F) : ∀ {cs : List (Node F)}, Node.AllStored w cs ↔ ∀ c ∈ cs, c.Stored w
  | [] => by simp [Node.AllStored]
  | c :: cs => by simp [Node.AllStored, allStored_iff w]

theorem Node.Alike.map_eq {w : World F} {c d : Node F} (h : c.Alike w d) : c.map = d.map := by
  cases c; cases d
  exact h.1

theorem text_congr (w : World F) {m m' : DMap F} {k : Text} (hk : '.' ∉ k) (h : m'.lookup k = m.lookup k) : w.text m' k = w.text m k := by
  unfold World.text
  rw [get_plain hk, get_plain hk, h]

/-- The component can be made again from its map, also where there are other custom components. -/
def Again (w : World F) (c : Node F) : Prop :=
  Neat (.map c.map) ∧ ∀ cs : List (Text × DMap F), ∃ n c', w.make cs n c.map = .val c' ∧ c.Alike w c'

theorem again_list (w : World F) {l : List (Node F)} (h : ∀ c ∈ l, Again w c) (cs : List (Text × DMap F)) :
    ∃ n l', makeList (w.make cs n) (l.map Node.map) = .val l' ∧ Node.AllAlike w l l' := by
  induction l with
  | nil => exact ⟨0, [], rfl, trivial⟩
  | cons c l ih =>
    obtain ⟨n1, c', h1, a1⟩ := (h c (by simp)).2 cs
    obtain ⟨n2, l', h2, a2⟩ := ih fun x hx => h x (List.mem_cons_of_mem _ hx)
    refine ⟨max n1 n2, c' :: l', ?_, a1, a2⟩
    have e1 := make_le w cs (le_max_left n1 n2) c.map (by rw [h1]; simp)
    have e2 := makeList_extends (make_le w cs (le_max_right n1 n2)) (l.map Node.map) (by rw [h2]; simp)
    rw [List.map_cons]
    unfold makeList
    rw [e1, h1]
    simp only
    rw [e2, h2]

theorem alike_maps {w : World F} {l l' : List (Node F)} (h : Node.AllAlike w l l') : l'.map Node.map = l.map Node.map := by
  rw [allAlike_iff] at h
  induction h with
  | nil => rfl
  | cons h _ ih => rw [List.map_cons, List.map_cons, ih, h.map_eq]

theorem make_built (w : World F) (cs : List (Text × DMap F)) (n : Nat) {m : DMap F} {b : Built} (h : (w.text m typeKey).bind Built.ofText = some b) :
    w.make cs (n + 1) m = w.create (w.make cs n) b m := by
  rw [Option.bind_eq_some_iff] at h
  obtain ⟨t, h1, h2⟩ := h
  rw [World.make]
  simp only [h1, h2]

theorem ofText_some {t : Text} {b : Built} (h : Built.ofText t = some b) : t = b.text := by
  unfold Built.ofText at h
  have := List.find?_some h
  simpa [eq_comm] using this

theorem withComponents_eq (m : DMap F) (cs : List (Node F)) : withComponents m cs = put componentsKey (.list ((cs.map Node.map).map .map)) m := by
  unfold withComponents putKey
  rw [List.map_map]
  rfl

theorem slice_withComponents (m : DMap F) (cs : List (Node F)) : slice (withComponents m cs) componentsKey = cs.map Node.map := by
  rw [slice_plain (by decide), withComponents_eq, lookup_put, if_pos rfl]
  simp only [mapItems_maps, Option.getD_some]

theorem put_put (k : Text) (v v' : Val F) (m : DMap F) : put k v (put k v' m) = put k v m := by
  induction m with
  | nil => simp [put]
  | cons e m ih =>
    obtain ⟨k', x⟩ := e
    by_cases h : k' = k
    · simp [put, h]
    · simp [put, h, ih]

theorem neat_withComponents {m : DMap F} {cs : List (Node F)} (hm : Neat (.map m)) (hc : ∀ c ∈ cs, Neat (.map c.map)) : Neat (.map (withComponents m cs)) := by
  rw [withComponents_eq]
  refine neat_put (by decide) (neat_maps fun x hx => ?_) hm
  obtain ⟨c, h, rfl⟩ := List.mem_map.mp hx
  exact hc c h

theorem lookup_fillHoles (k : Text) : ∀ (ks : List Text) (cs : List (Node F)) (m : DMap F), k ∉ ks → (fillHoles m ks cs).lookup k = m.lookup k
  | [], _, m, _ => by cases ‹List (Node F)› <;> rfl
  | _ :: _, [], m, _ => rfl
  | k' :: ks, c :: cs, m, h => by
    simp only [List.mem_cons, not_or] at h
    rw [fillHoles, lookup_fillHoles k ks cs _ h.2, putKey, lookup_put, if_neg h.1]

theorem neat_fillHoles : ∀ (ks : List Text) (cs : List (Node F)) (m : DMap F), (∀ k ∈ ks, '.' ∉ k) → (∀ c ∈ cs, Neat (.map c.map)) → Neat (.map m) →
    Neat (.map (fillHoles m ks cs))
  | [], [], m, _, _, hm => hm
  | [], _ :: _, m, _, _, hm => hm
  | _ :: _, [], m, _, _, hm => hm
  | k :: ks, c :: cs, m, hk, hc, hm =>
    neat_fillHoles ks cs _ (fun x hx => hk x (List.mem_cons_of_mem _ hx)) (fun x hx => hc x (List.mem_cons_of_mem _ hx))
      (neat_put (hk k (by simp)) (hc c (by simp)) hm)

theorem sub_fillHoles : ∀ (ks : List Text) (cs : List (Node F)) (m : DMap F), ks.Nodup → (∀ k ∈ ks, '.' ∉ k) → ks.length = cs.length →
    ks.map (sub (fillHoles m ks cs)) = cs.map Node.map
  | [], [], m, _, _, _ => rfl
  | k :: ks, c :: cs, m, hn, hk, hl => by
    simp only [List.nodup_cons] at hn
    rw [List.map_cons, List.map_cons, fillHoles]
    congr 1
    · rw [sub_plain (hk k (by simp)), lookup_fillHoles k ks cs _ hn.1, putKey, lookup_put, if_pos rfl]
      rfl
    · exact sub_fillHoles ks cs _ hn.2 (fun x hx => hk x (List.mem_cons_of_mem _ hx)) (by simpa using hl)

theorem fill_same : ∀ (ks : List Text) (cs ds : List (Node F)) (m : DMap F), (∀ p ∈ ks.zip cs, m.lookup p.1 = some (.map p.2.map)) →
    cs.map Node.map = ds.map Node.map → fillHoles m ks ds = m
  | [], _, ds, m, _, _ => by cases ds <;> rfl
  | _ :: _, [], [], m, _, _ => rfl
  | _ :: _, [], _ :: _, m, _, he => by simp at he
  | _ :: _, _ :: _, [], m, _, he => by simp at he
  | k :: ks, c :: cs, d :: ds, m, h, he => by
    simp only [List.map_cons, List.cons.injEq] at he
    have h0 := h (k, c) (by simp)
    have : put k (.map d.map) m = m := by
      rw [← he.1]
      exact put_same h0
    rw [fillHoles, putKey, this]
    exact fill_same ks cs ds m (fun p hp => h p (by simp [hp])) he.2

theorem lookup_filled : ∀ (ks : List Text) (cs : List (Node F)) (m : DMap F), ks.Nodup → ∀ p ∈ ks.zip cs, (fillHoles m ks cs).lookup p.1 = some (.map p.2.map)
  | [], _, m, _, p, hp => by simp at hp
  | _ :: _, [], m, _, p, hp => by simp at hp
  | k :: ks, c :: cs, m, hn, p, hp => by
    simp only [List.nodup_cons] at hn
    simp only [List.zip_cons_cons, List.mem_cons] at hp
    rcases hp with rfl | hp
    · rw [fillHoles, lookup_fillHoles k ks cs _ hn.1, putKey, lookup_put, if_pos rfl]
    · rw [fillHoles]
      exact lookup_filled ks cs _ hn.2 p hp

theorem holes_nodup (b : Built) : b.holes.Nodup ∧ (∀ k ∈ b.holes, '.' ∉ k) ∧ typeKey ∉ b.holes ∧ idKey ∉ b.holes := by cases b <;> decide

theorem forall₂_mem_right {α β : Type*} {R : α → β → Prop} {l : List α} {l' : List β} (h : List.Forall₂ R l l') : ∀ b ∈ l', ∃ a ∈ l, R a b := by
  induction h with
  | nil => simp
  | cons h _ ih =>
    intro b hb
    rcases List.mem_cons.mp hb with rfl | hb
    · exact ⟨_, by simp, h⟩
    · obtain ⟨a, ha, hr⟩ := ih b hb
      exact ⟨a, List.mem_cons_of_mem _ ha, hr⟩

/-- If the components inside can be made again, the component can. -/
theorem create_again (w : World F) {mk : DMap F → Out (Node F)} {b : Built} {m : DMap F} {c : Node F} (hm : Neat (.map m)) (ht : w.text m typeKey = some b.text)
    (hc : w.create mk b m = .val c) (hs : c.Stored w) (ih : ∀ m' c', Neat (.map m') → mk m' = .val c' → c'.Stored w → Again w c') : Again w c := by
  have inner : ∀ {l : List (DMap F)} {cs : List (Node F)}, (∀ x ∈ l, Neat (.map x)) → makeList mk l = .val cs → (∀ c ∈ cs, c.Stored w) → ∀ c ∈ cs, Again w c := by
    intro l cs hl h hst c hcs
    obtain ⟨a, ha, e⟩ := forall₂_mem_right (makeList_val.mp h) c hcs
    exact ih a c (hl a ha) e (hst c hcs)
  have bound : ∀ {m' : DMap F}, m'.lookup typeKey = m.lookup typeKey → (w.text m' typeKey).bind Built.ofText = some b := by
    intro m' h
    rw [text_congr w (by decide) h, ht, Option.bind_some, built_text]
  have htext : ∀ {m' : DMap F}, m'.lookup typeKey = m.lookup typeKey → w.text m' typeKey = some b.text := by
    intro m' h
    rw [text_congr w (by decide) h, ht]
  have hid : ∀ {m' m'' : DMap F}, m' = m'' → w.idOf m' = w.idOf m'' := by rintro _ _ rfl; rfl
  -- components in a list
  have comps : ∀ (i : Text) (b' : Built), b = b' → (b' = .part ∨ b' = .group ∨ b' = .basicEdge) → ∀ cs, makeList mk (slice m componentsKey) = .val cs →
      c = .mk i (withComponents m cs) cs → (b' ≠ .part → i = w.idOf (withComponents m cs)) → Again w c := by
    intro i b' hb hb' cs hcs he hi
    subst hb he
    have hch := inner (neat_slice (by decide) hm) hcs ((allStored_iff w).mp hs.2)
    have hn := neat_withComponents hm fun c hc => (hch c hc).1
    refine ⟨hn, fun customs => ?_⟩
    obtain ⟨n, l', h1, h2⟩ := again_list w hch customs
    have hlt : (withComponents m cs).lookup typeKey = m.lookup typeKey := by rw [withComponents_eq, lookup_put, if_neg (by decide)]
    have hw : withComponents (withComponents m cs) l' = withComponents m cs := by
      rw [withComponents_eq, alike_maps h2, withComponents_eq, put_put]
    rcases hb' with rfl | rfl | rfl
    · refine ⟨n + 1, .mk (w.idOf (withComponents m cs)) (withComponents m cs) l', ?_, rfl, ?_, h2⟩
      · rw [show (Node.mk i (withComponents m cs) cs).map = withComponents m cs from rfl, make_built w customs n (bound hlt)]
        have hp : putIfAbsent (clone (withComponents m cs)) typeKey (.str partText) = withComponents m cs := by
          rw [clone_neat hn]
          unfold putIfAbsent
          rw [get_plain (by decide)]
          cases e : (withComponents m cs).lookup typeKey with
          | some v => rfl
          | none =>
            have := htext hlt
            unfold World.text at this
            rw [get_plain (by decide), e] at this
            cases this
        simp only [World.create, hp, slice_withComponents, h1, hw]
      · intro hne
        exact absurd (htext hlt) hne
    all_goals
      refine ⟨n + 1, .mk (w.idOf (withComponents m cs)) (withComponents m cs) l', ?_, rfl, fun _ => hi (by decide), h2⟩
      rw [show (Node.mk i (withComponents m cs) cs).map = withComponents m cs from rfl, make_built w customs n (bound hlt)]
      simp only [World.create, clone_neat hn, slice_withComponents, h1, hw]
  -- components under keys
  have holes : ∀ (b' : Built), b = b' → (b' = .repeatEdge ∨ b' = .xIntercept ∨ b' = .around) → ∀ cs, makeList mk (b'.holes.map (sub m)) = .val cs →
      c = .mk (w.idOf (fillHoles m b'.holes cs)) (fillHoles m b'.holes cs) cs → Again w c := by
    intro b' hb hb' cs hcs he
    subst hb he
    obtain ⟨q1, q2, q3, q4⟩ := holes_nodup b
    have hch := inner (by
      intro x hx
      obtain ⟨k, hk, rfl⟩ := List.mem_map.mp hx
      exact neat_sub (q2 k hk) hm) hcs ((allStored_iff w).mp hs.2)
    have hn := neat_fillHoles b.holes cs m q2 (fun c hc => (hch c hc).1) hm
    refine ⟨hn, fun customs => ?_⟩
    obtain ⟨n, l', h1, h2⟩ := again_list w hch customs
    have hlt := lookup_fillHoles typeKey b.holes cs m q3
    have hlen : b.holes.length = cs.length := by simpa using (makeList_val.mp hcs).length_eq
    have hsub := sub_fillHoles b.holes cs m q1 q2 hlen
    have hf : fillHoles (fillHoles m b.holes cs) b.holes l' = fillHoles m b.holes cs := fill_same b.holes cs l' _ (lookup_filled b.holes cs m q1) (alike_maps h2).symm
    refine ⟨n + 1, .mk (w.idOf (fillHoles m b.holes cs)) (fillHoles m b.holes cs) l', ?_, rfl, fun _ => rfl, h2⟩
    rw [show (Node.mk (w.idOf (fillHoles m b.holes cs)) (fillHoles m b.holes cs) cs).map = fillHoles m b.holes cs from rfl, make_built w customs n (bound hlt)]
    rcases hb' with rfl | rfl | rfl <;> simp only [World.create, clone_neat hn, hsub, h1, hf]
  -- no components
  have leaf : (b = .draw ∨ b = .gear) → c = .mk (w.idOf m) m [] → Again w c := by
    rintro hb rfl
    refine ⟨hm, fun customs => ⟨1, .mk (w.idOf m) m [], ?_, rfl, fun _ => rfl, trivial⟩⟩
    rw [show (Node.mk (w.idOf m) m []).map = m from rfl, make_built w customs 0 (bound rfl)]
    rcases hb with rfl | rfl <;> rfl
  have split3 : ∀ {l : List (DMap F)} {k : List (Node F) → Node F},
      (match makeList mk l with | .val cs => (.val (k cs) : Out (Node F)) | .err => .err | .running => .running) = .val c → ∃ cs, makeList mk l = .val cs ∧ c = k cs := by
    intro l k h
    split at h
    · next cs e => exact ⟨cs, e, by simpa using h.symm⟩
    · cases h
    · cases h
  cases b with
  | draw => exact leaf (.inl rfl) (by simpa [World.create, eq_comm] using hc)
  | gear => exact leaf (.inr rfl) (by simpa [World.create, eq_comm] using hc)
  | part =>
    have hp : putIfAbsent (clone m) typeKey (.str partText) = m := by
      rw [clone_neat hm]
      unfold putIfAbsent
      rw [get_plain (by decide)]
      cases e : m.lookup typeKey with
      | some v => rfl
      | none =>
        unfold World.text at ht
        rw [get_plain (by decide), e] at ht
        cases ht
    simp only [World.create, hp] at hc
    obtain ⟨cs, h1, h2⟩ := split3 hc
    exact comps _ .part rfl (.inl rfl) cs h1 h2 fun h => absurd rfl h
  | group =>
    simp only [World.create, clone_neat hm] at hc
    obtain ⟨cs, h1, h2⟩ := split3 hc
    exact comps _ .group rfl (.inr (.inl rfl)) cs h1 h2 fun _ => rfl
  | basicEdge =>
    simp only [World.create, clone_neat hm] at hc
    obtain ⟨cs, h1, h2⟩ := split3 hc
    exact comps _ .basicEdge rfl (.inr (.inr rfl)) cs h1 h2 fun _ => rfl
  | repeatEdge =>
    simp only [World.create, clone_neat hm] at hc
    obtain ⟨cs, h1, h2⟩ := split3 hc
    exact holes .repeatEdge rfl (.inl rfl) cs h1 h2
  | xIntercept =>
    simp only [World.create, clone_neat hm] at hc
    obtain ⟨cs, h1, h2⟩ := split3 hc
    exact holes .xIntercept rfl (.inr (.inl rfl)) cs h1 h2
  | around =>
    simp only [World.create, clone_neat hm] at hc
    obtain ⟨cs, h1, h2⟩ := split3 hc
    exact holes .around rfl (.inr (.inr rfl)) cs h1 h2
  | copies =>
    simp only [World.create] at hc
    obtain ⟨cs, h1, rfl⟩ := split3 hc
    have hch := inner (by simpa using neat_sub (by decide) hm) h1 ((allStored_iff w).mp hs.2)
    refine ⟨hm, fun customs => ?_⟩
    have hlen : cs.length = 1 := by simpa using (makeList_val.mp h1).length_eq.symm
    obtain ⟨x, rfl⟩ := List.length_eq_one_iff.mp hlen
    obtain ⟨n, l', e1, e2⟩ := again_list w hch customs
    refine ⟨n + 1, .mk (w.idOf m) m l', ?_, rfl, fun _ => rfl, e2⟩
    rw [show (Node.mk (w.idOf m) m [x]).map = m from rfl, make_built w customs n (bound rfl)]
    have hsub : sub m componentKey = x.map := by
      have := hs.1 ht
      rw [sub_plain (by decide), this]
      rfl
    simp only [World.create, hsub]
    rw [show [x.map] = List.map Node.map [x] from rfl, e1]

theorem make_again (w : World F) (cs : List (Text × DMap F)) (hcs : ∀ e ∈ cs, Neat (.map e.2)) (n : Nat) : ∀ (m : DMap F) (c : Node F), Neat (.map m) →
    w.make cs n m = .val c → c.Stored w → Again w c := by
  induction n with
  | zero => intro m c _ h; cases h
  | succ n ih =>
    intro m c hm h hs
    rw [World.make] at h
    cases ht : w.text m typeKey with
    | none => simp [ht] at h
    | some t =>
      rw [ht] at h
      simp only at h
      cases hb : Built.ofText t with
      | some b =>
        rw [hb] at h
        exact create_again w hm (by rw [ht, ofText_some hb]) h hs ih
      | none =>
        rw [hb] at h
        simp only at h
        cases hl : cs.lookup t with
        | none => simp [hl] at h
        | some base =>
          rw [hl] at h
          have hbn : Neat (.map base) := hcs (t, base) (lookup_assoc_mem hl)
          exact ih _ c (neat_customMap hbn hm) h hs

/-! ## Files -/

theorem follow_neat : ∀ (p : List Text) {v x : Val F}, Neat v → follow v p = some x → Neat x
  | [], v, x, h, hf => by
    simp only [follow, Option.some.injEq] at hf
    exact hf ▸ h
  | k :: ks, v, x, h, hf => by
    cases v with
    | map m =>
      simp only [follow] at hf
      cases e : m.lookup k with
      | none => rw [e] at hf; cases hf
      | some y =>
        rw [e] at hf
        exact follow_neat ks (h.lookup e) hf
    | _ => simp [follow] at hf

theorem Neat.tidy {m : DMap F} (h : Neat (.map m)) : Tidy m := fun p _ hf => (follow_neat p h hf).keys

theorem Neat.noDots {m : DMap F} (h : Neat (.map m)) : NoDots m := fun p _ hf => (follow_neat p h hf).noDot

theorem remove_one (m : DMap F) (k : Text) (hk : '.' ∉ k) : remove m k = erase k m := removeAll_one m k hk

theorem mapItems_append (l : List (Val F)) (m : DMap F) : mapItems (l ++ [.map m]) = (mapItems l).map (· ++ [m]) := by
  induction l with
  | nil => rfl
  | cons v l ih =>
    cases v with
    | map x =>
      simp only [List.cons_append, mapItems, ih, Option.map_map]
      rfl
    | _ => rfl

/-- One more import. -/
def addImport (d imp : DMap F) : DMap F := addToSlice d importsKey [.map imp]

theorem lookup_addImport (d imp : DMap F) {k : Text} (hk : k ≠ importsKey) : (addImport d imp).lookup k = d.lookup k := by
  have h1 : ∀ m : DMap F, (putIfAbsent m importsKey (.list [])).lookup k = m.lookup k := by
    intro m
    unfold putIfAbsent
    split
    · rfl
    · rw [putKey, lookup_put, if_neg hk]
  unfold addImport addToSlice
  simp only
  split
  · rw [putKey, lookup_put, if_neg hk, h1]
  · exact h1 d

theorem addImport_imports (d imp : DMap F) : (addImport d imp).lookup importsKey =
    match d.lookup importsKey with
    | none => some (.list [.map imp])
    | some (.list l) => some (.list (l ++ [.map imp]))
    | some v => some v := by
  unfold addImport addToSlice putIfAbsent
  rw [get_plain (by decide)]
  cases e : d.lookup importsKey with
  | none =>
    simp only
    rw [get_plain (by decide), putKey, lookup_put, if_pos rfl]
    simp only
    rw [putKey, lookup_put, if_pos rfl, List.nil_append]
  | some v =>
    simp only
    rw [get_plain (by decide), e]
    cases v with
    | list l =>
      simp only
      rw [putKey, lookup_put, if_pos rfl]
    | _ => exact e

theorem slice_addImport (d imp : DMap F) : ∀ x ∈ slice (addImport d imp) importsKey, x ∈ slice d importsKey ∨ x = imp := by
  intro x hx
  rw [slice_plain (by decide), addImport_imports] at hx
  rw [slice_plain (by decide)]
  cases e : d.lookup importsKey with
  | none =>
    rw [e] at hx
    simp [mapItems] at hx
    exact .inr hx
  | some v =>
    rw [e] at hx
    cases v with
    | list l =>
      simp only [mapItems_append] at hx
      cases e' : mapItems l with
      | none => rw [e'] at hx; simp at hx
      | some ms =>
        rw [e'] at hx
        simpa [e'] using hx
    | _ => simp at hx

theorem lookup_imports (l : List (DMap F)) (d : DMap F) {k : Text} (hk : k ≠ importsKey) : (l.foldl addImport d).lookup k = d.lookup k := by
  induction l generalizing d with
  | nil => rfl
  | cons imp l ih => rw [List.foldl_cons, ih, lookup_addImport d imp hk]

theorem slice_imports (l : List (DMap F)) (d : DMap F) : ∀ x ∈ slice (l.foldl addImport d) importsKey, x ∈ slice d importsKey ∨ x ∈ l := by
  induction l generalizing d with
  | nil => exact fun x hx => .inl hx
  | cons imp l ih =>
    intro x hx
    rcases ih _ x hx with h | h
    · rcases slice_addImport d imp x h with h | h
      · exact .inl h
      · exact .inr (by simp [h])
    · exact .inr (List.mem_cons_of_mem _ h)

theorem imports_list (l ms : List (DMap F)) (d : DMap F) (h : d.lookup importsKey = some (.list (ms.map .map))) :
    (l.foldl addImport d).lookup importsKey = some (.list ((ms ++ l).map .map)) := by
  induction l generalizing d ms with
  | nil => rw [List.append_nil]; exact h
  | cons imp l ih =>
    rw [List.foldl_cons, ih (ms ++ [imp])]
    · simp
    · rw [addImport_imports, h]
      simp

theorem refer_eq (d1 dm : DMap F) : refer d1 dm = merge ((slice dm importsKey).foldl addImport d1) (erase importsKey (erase filenameKey dm)) := by
  unfold refer
  simp only [remove_one _ _ (show '.' ∉ filenameKey by decide), remove_one _ _ (show '.' ∉ importsKey by decide)]
  have : slice (erase filenameKey dm) importsKey = slice dm importsKey := by
    rw [slice_plain (by decide), slice_plain (by decide), lookup_erase, if_neg (by decide)]
  rw [this]
  rfl

theorem lookup_refer_own (d1 : DMap F) {dm : DMap F} (hm : Neat (.map dm)) {k : Text} (hk : k = filenameKey ∨ k = importsKey) :
    (refer d1 dm).lookup k = ((slice dm importsKey).foldl addImport d1).lookup k := by
  have hn : Neat (.map (erase importsKey (erase filenameKey dm))) := neat_erase (neat_erase hm)
  rw [refer_eq, lookup_merge hn.keys hn.noDot]
  have : (erase importsKey (erase filenameKey dm)).lookup k = none := by
    rw [lookup_erase]
    split
    · rfl
    · next h => rw [lookup_erase, if_pos (hk.resolve_right h)]
  rw [this]

theorem refer_filename (w : World F) (d1 : DMap F) {dm : DMap F} (hm : Neat (.map dm)) : w.text (refer d1 dm) filenameKey = w.text d1 filenameKey :=
  text_congr w (by decide) (by rw [lookup_refer_own d1 hm (.inl rfl), lookup_imports _ _ (by decide)])

theorem refer_imports (d1 : DMap F) {dm : DMap F} (hm : Neat (.map dm)) : ∀ x ∈ slice (refer d1 dm) importsKey, x ∈ slice d1 importsKey ∨ x ∈ slice dm importsKey := by
  intro x hx
  apply slice_imports
  rw [slice_plain (by decide)] at hx ⊢
  rw [lookup_refer_own d1 hm (.inr rfl)] at hx
  exact hx

theorem neat_addImport {d imp : DMap F} (hd : Neat (.map d)) (hi : Neat (.map imp)) : Neat (.map (addImport d imp)) := by
  have h1 : Neat (.map (putIfAbsent d importsKey (.list []))) := by
    unfold putIfAbsent
    split
    · exact hd
    · exact neat_put (by decide) (.list (by simp)) hd
  unfold addImport addToSlice
  simp only
  split
  · next l e =>
    refine neat_put (by decide) (.list ?_) h1
    rw [get_plain (by decide)] at e
    intro v hv
    rcases List.mem_append.mp hv with hv | hv
    · exact (h1.lookup e).mem v hv
    · rw [List.mem_singleton.mp hv]; exact hi
  · exact h1

theorem neat_imports {d : DMap F} (hd : Neat (.map d)) (l : List (DMap F)) (hl : ∀ x ∈ l, Neat (.map x)) : Neat (.map (l.foldl addImport d)) := by
  induction l generalizing d with
  | nil => exact hd
  | cons imp l ih => exact ih (neat_addImport hd (hl imp (by simp))) fun x hx => hl x (List.mem_cons_of_mem _ hx)

theorem neat_refer {d1 dm : DMap F} (h1 : Neat (.map d1)) (hm : Neat (.map dm)) : Neat (.map (refer d1 dm)) := by
  rw [refer_eq]
  exact neat_merge _ _ (neat_imports h1 _ (neat_slice (by decide) hm)) (neat_erase (neat_erase hm))

theorem runImports_congr (w : World F) {p q : DMap F → Out (Doc F)} (l : List (DMap F))
    (h : ∀ imp ∈ l, ∀ d, w.load ((w.text imp pathKey).getD []) = some d → p d = q d) (cs : List (Text × DMap F)) (ps : DMap F) :
    w.runImports p l cs ps = w.runImports q l cs ps := by
  induction l generalizing cs ps with
  | nil => rfl
  | cons imp l ih =>
    have ih' := fun cs ps => ih (fun x hx => h x (List.mem_cons_of_mem _ hx)) cs ps
    have h0 := h imp (by simp)
    unfold World.runImports
    simp only
    split
    · cases e : w.load ((w.text imp pathKey).getD []) with
      | none => rfl
      | some d =>
        simp only [h0 d e, ih']
    · simp only [ih']

/-- From this many files on nothing changes any more. -/
def Settles (w : World F) (m : Nat) (dm : DMap F) : Prop := ∃ N, ∀ n, N ≤ n → w.parse m n dm = w.parse m N dm

theorem settles_list (w : World F) (m : Nat) {l : List (DMap F)} (h : ∀ d ∈ l, Settles w m d) : ∃ N, ∀ d ∈ l, ∀ n, N ≤ n → w.parse m n d = w.parse m N d := by
  induction l with
  | nil => exact ⟨0, by simp⟩
  | cons d l ih =>
    obtain ⟨a, ha⟩ := h d (by simp)
    obtain ⟨b, hb⟩ := ih fun x hx => h x (List.mem_cons_of_mem _ hx)
    refine ⟨max a b, ?_⟩
    intro x hx n hn
    rcases List.mem_cons.mp hx with rfl | hx
    · rw [ha n (by omega), ha (max a b) (by omega)]
    · rw [hb x hx n (by omega), hb x hx (max a b) (by omega)]

theorem settles_ranked (w : World F) (m : Nat) {rank : Text → Nat} (hr : Ranked w rank) (hl : ∀ f d, w.load f = some d → Neat (.map d)) (r : Nat) :
    ∀ (s : Nat), s ≤ r → ∀ (dm : DMap F), Neat (.map dm) → (∀ imp ∈ slice dm importsKey, rank ((w.text imp pathKey).getD []) < r) →
      (∀ f, w.text dm filenameKey = some f → rank f < s) → Settles w m dm := by
  induction r using Nat.strongRecOn with
  | ind r ihr =>
    intro s
    induction s using Nat.strongRecOn with
    | ind s ihs =>
      intro hs dm hm hi hf
      cases ht : w.text dm filenameKey with
      | some f =>
        cases hd : w.load f with
        | none =>
          refine ⟨1, fun n hn => ?_⟩
          obtain ⟨n, rfl⟩ : ∃ k, n = k + 1 := ⟨n - 1, by omega⟩
          simp [World.parse, ht, hd]
        | some d1 =>
          have hfs := hf f ht
          obtain ⟨hr1, hr2⟩ := hr f d1 hd
          obtain ⟨N, hN⟩ := ihs (rank f) hfs (by omega) (refer d1 dm) (neat_refer (hl f d1 hd) hm) (fun imp himp => by
              rcases refer_imports d1 hm imp himp with h | h
              · have := hr2 imp h; omega
              · exact hi imp h) (fun g hg => hr1 g (by rw [← refer_filename w d1 hm]; exact hg))
          refine ⟨N + 1, fun n hn => ?_⟩
          obtain ⟨n, rfl⟩ : ∃ k, n = k + 1 := ⟨n - 1, by omega⟩
          simp only [World.parse, ht, hd]
          exact hN n (by omega)
      | none =>
        let files := (slice dm importsKey).filterMap fun imp => w.load ((w.text imp pathKey).getD [])
        have : ∀ d ∈ files, Settles w m d := by
          intro d hd
          obtain ⟨imp, h1, h2⟩ := List.mem_filterMap.mp hd
          obtain ⟨hr1, hr2⟩ := hr _ d h2
          exact ihr _ (hi imp h1) _ (le_refl _) d (hl _ d h2) hr2 hr1
        obtain ⟨N, hN⟩ := settles_list w m this
        refine ⟨N + 1, fun n hn => ?_⟩
        obtain ⟨n, rfl⟩ : ∃ k, n = k + 1 := ⟨n - 1, by omega⟩
        have e : w.runImports (w.parse m n) (slice dm importsKey) [] [] = w.runImports (w.parse m N) (slice dm importsKey) [] [] := by
          apply runImports_congr
          intro imp himp d hd
          exact hN d (List.mem_filterMap.mpr ⟨imp, himp, hd⟩) n (by omega)
        simp only [World.parse, ht, e]

theorem settles (w : World F) (m : Nat) {rank : Text → Nat} (hr : Ranked w rank) (hl : ∀ f d, w.load f = some d → Neat (.map d)) (dm : DMap F)
    (hm : Neat (.map dm)) : Settles w m dm := by
  let l := (slice dm importsKey).map fun imp => rank ((w.text imp pathKey).getD [])
  let r := l.sum + 1 + rank ((w.text dm filenameKey).getD [])
  refine settles_ranked w m hr hl (r + 1) (r + 1) (le_refl _) dm hm (fun imp himp => ?_) fun f hf => ?_
  · have : rank ((w.text imp pathKey).getD []) ≤ l.sum := List.single_le_sum (by simp) _ (List.mem_map.mpr ⟨imp, himp, rfl⟩)
    omega
  · have : rank ((w.text dm filenameKey).getD []) = rank f := by rw [hf]; rfl
    omega

/-! ## Imports -/

theorem lookup_assign {α : Type u} (k : Text) (v : α) (l : List (Text × α)) (t : Text) : (assign k v l).lookup t = if t = k then some v else l.lookup t := by
  induction l with
  | nil =>
    by_cases h : t = k
    · simp [assign, h]
    · simp [assign, h, List.lookup_cons, beq_eq_false_iff_ne.mpr h]
  | cons e l ih =>
    obtain ⟨k', v'⟩ := e
    unfold assign
    split
    · next h =>
      subst h
      by_cases h : t = k'
      · simp [h]
      · simp [h, List.lookup_cons, beq_eq_false_iff_ne.mpr h]
    · next h =>
      by_cases ht : t = k'
      · subst ht
        simp [h]
      · simp [List.lookup_cons, beq_eq_false_iff_ne.mpr ht, ih]

theorem importElement_eq (w : World F) (d : Doc F) (imp : DMap F) (cs : List (Text × DMap F)) (m : DMap F) :
    w.importElement d imp cs m = match w.nameOf imp m with | none => cs | some t => assign t (imported d m) cs := by
  unfold World.importElement World.nameOf
  cases w.text m customTypeKey <;> rfl

theorem importDoc_fold (w : World F) (d : Doc F) (imp : DMap F) (t : Text) (l : List (DMap F)) (cs : List (Text × DMap F)) :
    ((∀ x ∈ l, w.nameOf imp x ≠ some t) → (l.foldl (w.importElement d imp) cs).lookup t = cs.lookup t) ∧
    ∀ x ∈ l, w.nameOf imp x = some t → (∀ y ∈ l, w.nameOf imp y = some t → y = x) → (l.foldl (w.importElement d imp) cs).lookup t = some (imported d x) := by
  induction l generalizing cs with
  | nil => simp
  | cons a l ih =>
    have hstep : (w.importElement d imp cs a).lookup t = if w.nameOf imp a = some t then some (imported d a) else cs.lookup t := by
      rw [importElement_eq]
      cases e : w.nameOf imp a with
      | none => simp
      | some s =>
        simp only [lookup_assign, Option.some.injEq]
        by_cases h : t = s
        · simp [h]
        · simp [h, Ne.symm h]
    refine ⟨fun h => ?_, fun x hx hn hu => ?_⟩
    · rw [List.foldl_cons, (ih _).1 fun x hx => h x (List.mem_cons_of_mem _ hx), hstep, if_neg (h a (by simp))]
    · rw [List.foldl_cons]
      by_cases hl : ∃ y ∈ l, w.nameOf imp y = some t
      · obtain ⟨y, hy, hny⟩ := hl
        have hyx := hu y (List.mem_cons_of_mem _ hy) hny
        subst hyx
        exact (ih _).2 y hy hny fun z hz hnz => hu z (List.mem_cons_of_mem _ hz) hnz
      · have hl' : ∀ y ∈ l, w.nameOf imp y ≠ some t := fun y hy h => hl ⟨y, hy, h⟩
        rw [(ih _).1 hl', hstep]
        rcases List.mem_cons.mp hx with rfl | hx
        · rw [if_pos hn]
        · exact absurd hn (hl' x hx)

theorem importDoc_other (w : World F) (hw : w.Fair) (d : Doc F) (imp : DMap F) (cs : List (Text × DMap F)) (t : Text)
    (h : ∀ e ∈ d.elements, w.nameOf imp e.2 ≠ some t) : (w.importDoc d imp cs).lookup t = cs.lookup t := by
  refine (importDoc_fold w d imp t _ cs).1 fun x hx => ?_
  obtain ⟨e, he, rfl⟩ := List.mem_map.mp hx
  exact h e ((hw _).mem_iff.mp he)

theorem importDoc_found (w : World F) (hw : w.Fair) (d : Doc F) (imp : DMap F) (cs : List (Text × DMap F)) (t : Text) (e : Text × DMap F) (he : e ∈ d.elements)
    (hn : w.nameOf imp e.2 = some t) (hu : ∀ e' ∈ d.elements, w.nameOf imp e'.2 = some t → e'.2 = e.2) :
    (w.importDoc d imp cs).lookup t = some (imported d e.2) := by
  refine (importDoc_fold w d imp t _ cs).2 e.2 (List.mem_map.mpr ⟨e, (hw _).mem_iff.mpr he, rfl⟩) hn fun y hy hny => ?_
  obtain ⟨e', he', rfl⟩ := List.mem_map.mp hy
  exact hu e' ((hw _).mem_iff.mp he') hny

/-- The same world, but for the order of the elements. -/
def World.reorder (w : World F) (o : List (Text × DMap F) → List (Text × DMap F)) : World F := { w with order := o }

theorem importDoc_order (w : World F) (o : List (Text × DMap F) → List (Text × DMap F)) (hw : w.Fair) (ho : (w.reorder o).Fair) {d d' : Doc F} (hd : d.Alike d')
    (imp : DMap F) (hu : w.Unambiguous imp d) {cs cs' : List (Text × DMap F)} (hc : SameNames cs cs') :
    SameNames (w.importDoc d imp cs) ((w.reorder o).importDoc d' imp cs') := by
  obtain ⟨h1, h2, h3, h4, h5, h6⟩ := hd
  have hel : d'.elements = d.elements := by unfold Doc.elements; rw [h5]
  have himp : ∀ m, imported d' m = imported d m := fun m => by unfold imported; rw [h3, h4]
  intro t
  by_cases h : ∃ e ∈ d.elements, w.nameOf imp e.2 = some t
  · obtain ⟨e, he, hn⟩ := h
    have hone : ∀ e' ∈ d.elements, w.nameOf imp e'.2 = some t → e'.2 = e.2 := fun e' he' hn' =>
      hu e' he' e he (by rw [hn']; simp) (by rw [hn', hn])
    rw [importDoc_found w hw d imp cs t e he hn hone, importDoc_found (w.reorder o) ho d' imp cs' t e (by rw [hel]; exact he) hn (by rw [hel]; exact hone), himp]
  · have hnone : ∀ e ∈ d.elements, w.nameOf imp e.2 ≠ some t := fun e he hn => h ⟨e, he, hn⟩
    rw [importDoc_other w hw d imp cs t hnone, importDoc_other (w.reorder o) ho d' imp cs' t (by rw [hel]; exact hnone)]
    exact hc t

theorem create_reorder (w : World F) (o : List (Text × DMap F) → List (Text × DMap F)) (mk : DMap F → Out (Node F)) (b : Built) (m : DMap F) :
    (w.reorder o).create mk b m = w.create mk b m := rfl

theorem make_names (w : World F) (o : List (Text × DMap F) → List (Text × DMap F)) {cs cs' : List (Text × DMap F)} (hc : SameNames cs cs') (n : Nat) :
    (w.reorder o).make cs' n = w.make cs n := by
  induction n with
  | zero => rfl
  | succ n ih =>
    funext m
    rw [World.make, World.make, ih]
    simp only [← hc _]
    rfl

theorem runImports_order (w : World F) (o : List (Text × DMap F) → List (Text × DMap F)) (hw : w.Fair) (ho : (w.reorder o).Fair) {p q : DMap F → Out (Doc F)}
    (l : List (DMap F)) (h : ∀ imp ∈ l, (w.text imp typeKey).getD componentKey = componentKey → ∀ d', w.load ((w.text imp pathKey).getD []) = some d' →
      Out.Alike Doc.Alike (p d') (q d') ∧ ∀ d, p d' = .val d → w.Unambiguous imp d) {cs cs' : List (Text × DMap F)} (hc : SameNames cs cs') (ps : DMap F) :
    Out.Alike (fun a b => SameNames a.1 b.1 ∧ a.2 = b.2) (w.runImports p l cs ps) ((w.reorder o).runImports q l cs' ps) := by
  induction l generalizing cs cs' ps with
  | nil => exact .val ⟨hc, rfl⟩
  | cons imp l ih =>
    have ih' := fun {cs cs'} (hc : SameNames cs cs') ps => ih (fun x hx => h x (List.mem_cons_of_mem _ hx)) hc ps
    have h0 := h imp (by simp)
    unfold World.runImports
    have et : ∀ k, (w.reorder o).text imp k = w.text imp k := fun _ => rfl
    have el : (w.reorder o).load = w.load := rfl
    have es : (w.reorder o).svg = w.svg := rfl
    simp only [et, el, es]
    split
    · next hk =>
      cases e : w.load ((w.text imp pathKey).getD []) with
      | none => exact .err
      | some d' =>
        obtain ⟨h1, h2⟩ := h0 hk d' e
        simp only
        cases hp : p d' with
        | val d =>
          rw [hp] at h1
          cases hq : q d' with
          | val dq =>
            rw [hq] at h1
            cases h1 with
            | val h1 => exact ih' (importDoc_order w o hw ho h1 imp (h2 d hp) hc) ps
          | err => rw [hq] at h1; cases h1
          | running => rw [hq] at h1; cases h1
        | err =>
          rw [hp] at h1
          cases hq : q d' <;> rw [hq] at h1 <;> cases h1
          exact .err
        | running =>
          rw [hp] at h1
          cases hq : q d' <;> rw [hq] at h1 <;> cases h1
          exact .running
    · split
      · cases w.svg ((w.text imp pathKey).getD []) with
        | none => exact .err
        | some s =>
          simp only
          cases w.text imp aliasKey with
          | none => exact .err
          | some a =>
            cases s with
            | none => exact .err
            | some s => exact ih' hc _
      · exact ih' hc ps

theorem parse_order (w : World F) (o : List (Text × DMap F) → List (Text × DMap F)) (hw : w.Fair) (ho : (w.reorder o).Fair) (m n : Nat) :
    ∀ dm : DMap F, w.Clear m n dm → Out.Alike Doc.Alike (w.parse m n dm) ((w.reorder o).parse m n dm) := by
  induction n with
  | zero => exact fun _ _ => .running
  | succ n ih =>
    intro dm hc
    unfold World.Clear at hc
    unfold World.parse
    have et : (w.reorder o).text dm filenameKey = w.text dm filenameKey := rfl
    have el : (w.reorder o).load = w.load := rfl
    simp only [et, el]
    cases e : w.text dm filenameKey with
    | some f =>
      rw [e] at hc
      simp only
      cases hd : w.load f with
      | none => exact .err
      | some d1 => exact ih _ (hc d1 hd)
    | none =>
      rw [e] at hc
      simp only
      have hrun := runImports_order w o hw ho (p := w.parse m n) (q := (w.reorder o).parse m n) (slice dm importsKey) (fun imp himp hk d' hd' =>
        ⟨ih d' (hc imp himp hk d' hd').1, (hc imp himp hk d' hd').2⟩) (cs := []) (cs' := []) (fun _ => rfl) []
      cases hp : w.runImports (w.parse m n) (slice dm importsKey) [] [] with
      | err =>
        rw [hp] at hrun
        cases hq : (w.reorder o).runImports ((w.reorder o).parse m n) (slice dm importsKey) [] [] <;> rw [hq] at hrun <;> cases hrun
        exact .err
      | running =>
        rw [hp] at hrun
        cases hq : (w.reorder o).runImports ((w.reorder o).parse m n) (slice dm importsKey) [] [] <;> rw [hq] at hrun <;> cases hrun
        exact .running
      | val a =>
        rw [hp] at hrun
        cases hq : (w.reorder o).runImports ((w.reorder o).parse m n) (slice dm importsKey) [] [] with
        | err => rw [hq] at hrun; cases hrun
        | running => rw [hq] at hrun; cases hrun
        | val b =>
          rw [hq] at hrun
          obtain ⟨cs, ps⟩ := a
          obtain ⟨cs', ps'⟩ := b
          cases hrun with
          | val h =>
            obtain ⟨h1, h2⟩ := h
            simp only at h1 h2
            subst h2
            simp only
            rw [make_names w o h1 m]
            have : (w.reorder o).create (w.make cs m) .part = w.create (w.make cs m) .part := rfl
            rw [this]
            cases makeList (w.create (w.make cs m) .part) (slice dm partsKey) with
            | val ns => exact .val ⟨rfl, rfl, rfl, rfl, rfl, h1⟩
            | err => exact .err
            | running => exact .running

/-! ## Elements -/

theorem assign_fresh {α : Type u} {k : Text} {v : α} {l : List (Text × α)} (h : k ∉ l.map (·.1)) : assign k v l = l ++ [(k, v)] := by
  induction l with
  | nil => rfl
  | cons e l ih =>
    obtain ⟨k', v'⟩ := e
    simp only [List.map_cons, List.mem_cons, not_or] at h
    rw [assign, if_neg (Ne.symm h.1), ih h.2, List.cons_append]

mutual

theorem populate_eq : ∀ (c : Node F) (acc : List (Text × DMap F)), c.populate acc = c.all.foldl (fun a x => assign x.id x.map a) acc
  | .mk i m cs, acc => by
    rw [Node.populate, Node.all, List.foldl_cons, populates_eq cs]
    rfl

theorem populates_eq : ∀ (cs : List (Node F)) (acc : List (Text × DMap F)), Node.populates cs acc = (Node.alls cs).foldl (fun a x => assign x.id x.map a) acc
  | [], acc => rfl
  | c :: cs, acc => by rw [Node.populates, Node.alls, List.foldl_append, ← populate_eq c acc, populates_eq cs]

end

theorem assign_all (l : List (Node F)) (acc : List (Text × DMap F)) (h : (acc.map (·.1) ++ l.map Node.id).Nodup) :
    l.foldl (fun a x => assign x.id x.map a) acc = acc ++ l.map fun x => (x.id, x.map) := by
  induction l generalizing acc with
  | nil => simp
  | cons c l ih =>
    have hc : c.id ∉ acc.map (·.1) := by
      intro hc
      rw [List.nodup_append] at h
      exact h.2.2 c.id hc c.id (by simp) rfl
    rw [List.foldl_cons, assign_fresh hc, ih]
    · simp
    · simpa using h

/-! ## What has been made is resolved -/

mutual

/-- Every component has the maps of its components in its own map. -/
def Node.Filled (w : World F) : Node F → Prop
  | .mk _ m cs => (∃ b : Built, w.text m typeKey = some b.text ∧
      (∀ l, componentsKey ∈ b.keys → m.lookup componentsKey = some (.list l) → l = cs.map fun c => .map c.map) ∧
      ∀ k ∈ holeKeys, k ∈ b.keys → ∀ m', m.lookup k = some (.map m') → ∃ c ∈ cs, c.map = m') ∧ Node.AllFilled w cs

def Node.AllFilled (w : World F) : List (Node F) → Prop
  | [] => True
  | c :: cs => c.Filled w ∧ Node.AllFilled w cs

end

theorem allFilled_iff (w : World F) : ∀ {cs : List (Node F)}, Node.AllFilled w cs ↔ ∀ c ∈ cs, c.Filled w
  | [] => by simp [Node.AllFilled]
  | c :: cs => by simp [Node.AllFilled, allFilled_iff w]

theorem zip_mem_left {α β : Type*} : ∀ {l : List α} {l' : List β} {a : α}, l.length = l'.length → a ∈ l → ∃ b, (a, b) ∈ l.zip l'
  | a :: l, b :: l', x, h, hx => by
    rcases List.mem_cons.mp hx with rfl | hx
    · exact ⟨b, by simp⟩
    · obtain ⟨y, hy⟩ := zip_mem_left (by simpa using h) hx
      exact ⟨y, by simp [hy]⟩

theorem create_filled (w : World F) {mk : DMap F → Out (Node F)} {b : Built} {m : DMap F} {c : Node F} (hm : Neat (.map m)) (ht : w.text m typeKey = some b.text)
    (hc : w.create mk b m = .val c) (hs : c.Stored w) (ih : ∀ m' c', Neat (.map m') → mk m' = .val c' → c'.Stored w → c'.Filled w) : c.Filled w := by
  have inner : ∀ {l : List (DMap F)} {cs : List (Node F)}, (∀ x ∈ l, Neat (.map x)) → makeList mk l = .val cs → (∀ c ∈ cs, c.Stored w) → Node.AllFilled w cs := by
    intro l cs hl h hst
    rw [allFilled_iff]
    intro c hcs
    obtain ⟨a, ha, e⟩ := forall₂_mem_right (makeList_val.mp h) c hcs
    exact ih a c (hl a ha) e (hst c hcs)
  have htext : ∀ {m' : DMap F}, m'.lookup typeKey = m.lookup typeKey → w.text m' typeKey = some b.text := by
    intro m' h
    rw [text_congr w (by decide) h, ht]
  have comps : ∀ (i : Text), b.keys = [componentsKey] → ∀ cs, makeList mk (slice m componentsKey) = .val cs → c = .mk i (withComponents m cs) cs → c.Filled w := by
    rintro i hb cs hcs rfl
    refine ⟨⟨b, htext (by rw [withComponents_eq, lookup_put, if_neg (by decide)]), fun l _ hl => ?_, fun k hk hkb => ?_⟩, inner (neat_slice (by decide) hm) hcs ((allStored_iff w).mp hs.2)⟩
    · rw [withComponents, putKey, lookup_put, if_pos rfl] at hl
      simpa [eq_comm] using hl
    · rw [hb, List.mem_singleton] at hkb
      exact absurd hkb (holeKeys_other k hk).2.2.2.2.1
  have holes : ∀ (i : Text), b.keys = b.holes → componentsKey ∉ b.keys → ∀ cs, makeList mk (b.holes.map (sub m)) = .val cs →
      c = .mk i (fillHoles m b.holes cs) cs → c.Filled w := by
    rintro i hb hnc cs hcs rfl
    obtain ⟨q1, q2, q3, q4⟩ := holes_nodup b
    refine ⟨⟨b, htext (lookup_fillHoles typeKey b.holes cs m q3), fun l hh => absurd hh hnc, fun k _ hkb m' hl => ?_⟩, inner ?_ hcs ((allStored_iff w).mp hs.2)⟩
    · have hlen : b.holes.length = cs.length := by simpa using (makeList_val.mp hcs).length_eq
      obtain ⟨x, hx⟩ := zip_mem_left hlen (hb ▸ hkb)
      have := lookup_filled b.holes cs m q1 _ hx
      rw [hl] at this
      exact ⟨x, (List.of_mem_zip hx).2, by simpa [eq_comm] using this⟩
    · intro x hx
      obtain ⟨k, hk, rfl⟩ := List.mem_map.mp hx
      exact neat_sub (q2 k hk) hm
  have leaf : b.keys = [] → c = .mk (w.idOf m) m [] → c.Filled w := by
    rintro hb rfl
    refine ⟨⟨b, ht, fun l hh => ?_, fun k _ hh => ?_⟩, trivial⟩
    · rw [hb] at hh; cases hh
    · rw [hb] at hh; cases hh
  have split3 : ∀ {l : List (DMap F)} {k : List (Node F) → Node F},
      (match makeList mk l with | .val cs => (.val (k cs) : Out (Node F)) | .err => .err | .running => .running) = .val c → ∃ cs, makeList mk l = .val cs ∧ c = k cs := by
    intro l k h
    split at h
    · next cs e => exact ⟨cs, e, by simpa using h.symm⟩
    · cases h
    · cases h
  cases b with
  | draw => exact leaf rfl (by simpa [World.create, eq_comm] using hc)
  | gear => exact leaf rfl (by simpa [World.create, eq_comm] using hc)
  | part =>
    have hp : putIfAbsent (clone m) typeKey (.str partText) = m := by
      rw [clone_neat hm]
      unfold putIfAbsent
      rw [get_plain (by decide)]
      cases e : m.lookup typeKey with
      | some v => rfl
      | none =>
        unfold World.text at ht
        rw [get_plain (by decide), e] at ht
        cases ht
    simp only [World.create, hp] at hc
    obtain ⟨cs, h1, h2⟩ := split3 hc
    exact comps _ rfl cs h1 h2
  | group =>
    simp only [World.create, clone_neat hm] at hc
    obtain ⟨cs, h1, h2⟩ := split3 hc
    exact comps _ rfl cs h1 h2
  | basicEdge =>
    simp only [World.create, clone_neat hm] at hc
    obtain ⟨cs, h1, h2⟩ := split3 hc
    exact comps _ rfl cs h1 h2
  | repeatEdge =>
    simp only [World.create, clone_neat hm] at hc
    obtain ⟨cs, h1, h2⟩ := split3 hc
    exact holes _ rfl (by decide) cs h1 h2
  | xIntercept =>
    simp only [World.create, clone_neat hm] at hc
    obtain ⟨cs, h1, h2⟩ := split3 hc
    exact holes _ rfl (by decide) cs h1 h2
  | around =>
    simp only [World.create, clone_neat hm] at hc
    obtain ⟨cs, h1, h2⟩ := split3 hc
    exact holes _ rfl (by decide) cs h1 h2
  | copies =>
    simp only [World.create] at hc
    obtain ⟨cs, h1, rfl⟩ := split3 hc
    refine ⟨⟨.copies, ht, fun l hh => absurd hh (by decide), fun k _ hkb m' hl => ?_⟩, inner (by simpa using neat_sub (by decide) hm) h1 ((allStored_iff w).mp hs.2)⟩
    have hst := hs.1 ht
    have hkk : k = componentKey := by simpa [Built.keys] using hkb
    rw [hkk, hst] at hl
    have hlen : cs.length = 1 := by simpa using (makeList_val.mp h1).length_eq.symm
    obtain ⟨x, rfl⟩ := List.length_eq_one_iff.mp hlen
    exact ⟨x, by simp, by simpa using hl⟩

theorem make_filled (w : World F) (cs : List (Text × DMap F)) (hcs : ∀ e ∈ cs, Neat (.map e.2)) (n : Nat) : ∀ (m : DMap F) (c : Node F), Neat (.map m) →
    w.make cs n m = .val c → c.Stored w → c.Filled w := by
  induction n with
  | zero => intro m c _ h; cases h
  | succ n ih =>
    intro m c hm h hs
    rw [World.make] at h
    cases ht : w.text m typeKey with
    | none => simp [ht] at h
    | some t =>
      rw [ht] at h
      simp only at h
      cases hb : Built.ofText t with
      | some b =>
        rw [hb] at h
        exact create_filled w hm (by rw [ht, ofText_some hb]) h hs ih
      | none =>
        rw [hb] at h
        simp only at h
        cases hl : cs.lookup t with
        | none => simp [hl] at h
        | some base =>
          rw [hl] at h
          exact ih _ c (neat_customMap (hcs (t, base) (lookup_assoc_mem hl)) hm) h hs

theorem mem_alls {cs : List (Node F)} {x : Node F} : x ∈ Node.alls cs ↔ ∃ c ∈ cs, x ∈ c.all := by
  induction cs with
  | nil => simp [Node.alls]
  | cons c cs ih => simp [Node.alls, ih]

theorem Node.Tight.child {c : Node F} (h : c.Tight) : ∀ x ∈ c.children, x.Tight := by
  intro x hx y hy
  refine h y ?_
  cases c with
  | mk i m cs =>
    rw [Node.all]
    exact List.mem_cons_of_mem _ (mem_alls.mpr ⟨x, hx, hy⟩)

theorem inside_filled (w : World F) {d : Nat} {m x : DMap F} (hi : Inside d m x) : ∀ c : Node F, c.map = m → c.Filled w → c.Tight → Plain x := by
  have head : ∀ c : Node F, c ∈ c.all := fun c => by cases c; simp [Node.all]
  have type : ∀ c : Node F, c.Filled w → c.Tight → ∃ b : Built, c.map.lookup typeKey = some (.str b.text) ∧ w.text c.map typeKey = some b.text := by
    intro c hf ht
    cases c with
    | mk i m cs =>
      obtain ⟨⟨b, hb, _⟩, _⟩ := hf
      cases e : m.lookup typeKey with
      | none =>
        unfold World.text at hb
        rw [get_plain (by decide), e] at hb
        cases hb
      | some v =>
        obtain ⟨t, rfl, _⟩ := ht _ (head _) v e
        refine ⟨b, ?_, hb⟩
        unfold World.text at hb
        rw [get_plain (by decide), e] at hb
        simp only at hb
        split at hb
        · cases hb
        · simp only [Option.some.injEq] at hb
          rw [hb] at e
          exact e
  induction hi with
  | here m =>
    rintro c rfl hf ht v hv
    obtain ⟨b, h1, _⟩ := type c hf ht
    rw [h1] at hv
    exact ⟨b, by simpa [eq_comm] using hv⟩
  | @hole d m m' x k hk hm _ ih =>
    rintro c rfl hf ht
    obtain ⟨b, h1, h2⟩ := type c hf ht
    obtain ⟨t, e1, e2⟩ := ht c (head c) _ h1
    have hkb : k ∈ b.keys := by
      by_contra hn
      have := e2 b (by simpa [eq_comm] using e1) k (List.mem_cons_of_mem _ hk) hn
      rw [hm] at this
      cases this
    cases c with
    | mk i mm cs =>
      obtain ⟨⟨b', hb', _, hh⟩, hall⟩ := hf
      have : b' = b := by
        have : b'.text = b.text := by
          have := hb'.symm.trans h2
          simpa using this
        have h3 := built_text b'
        rw [this, built_text] at h3
        simpa [eq_comm] using h3
      subst this
      obtain ⟨c', hc', e⟩ := hh k hk hkb m' hm
      exact ih c' e ((allFilled_iff w).mp hall c' hc') (ht.child c' hc')
  | @item d m m' x l hl hm _ ih =>
    rintro c rfl hf ht
    obtain ⟨b, h1, h2⟩ := type c hf ht
    obtain ⟨t, e1, e2⟩ := ht c (head c) _ h1
    have hkb : componentsKey ∈ b.keys := by
      by_contra hn
      have := e2 b (by simpa [eq_comm] using e1) componentsKey (by simp) hn
      rw [hl] at this
      cases this
    cases c with
    | mk i mm cs =>
      obtain ⟨⟨b', hb', hh, _⟩, hall⟩ := hf
      have : b' = b := by
        have : b'.text = b.text := by
          have := hb'.symm.trans h2
          simpa using this
        have h3 := built_text b'
        rw [this, built_text] at h3
        simpa [eq_comm] using h3
      subst this
      have := hh l hkb hl
      rw [this] at hm
      obtain ⟨c', hc', e⟩ := List.mem_map.mp hm
      exact ih c' (by simpa using e) ((allFilled_iff w).mp hall c' hc') (ht.child c' hc')

end Verif.Dyn
