import Verif.Lemmas.Document

/-!
# Properties of documents (C95-C98)
-/

set_option linter.unusedSectionVars false

namespace Verif.Dyn

universe u

variable {F : Type u}

/-! ## C95: making components ends -/

/-- If the custom components are made of components that the program has, making a component ends, however deep it is and however the custom
components are used inside each other. -/
theorem C95_ends (w : World F) (customs : List (Text × DMap F)) (hc : ∀ e ∈ customs, Neat (.map e.2) ∧ Resolved e.2) (dm : DMap F) (hd : Neat (.map dm)) :
    ∃ n, ∀ n', n ≤ n' → w.make customs n' dm = w.make customs n dm ∧ w.make customs n' dm ≠ .running := by
  obtain ⟨n, hn⟩ := ends_deep w customs hc _ dm hd (deep_self dm)
  refine ⟨n, fun n' h => ?_⟩
  have := make_le w customs h dm hn
  exact ⟨this, by rw [this]; exact hn⟩

/-- What has been made is made of components that the program has, so it can be used as a custom component again. -/
theorem C95_made (w : World F) (customs : List (Text × DMap F)) (hc : ∀ e ∈ customs, Neat (.map e.2)) (n : Nat) (dm : DMap F) (hd : Neat (.map dm)) (c : Node F)
    (h : w.make customs n dm = .val c) (hs : c.Stored w) (ht : c.Tight) : Neat (.map c.map) ∧ Resolved c.map :=
  ⟨(make_again w customs hc n dm c hd h hs).1, fun _ _ hi => inside_filled w hi c rfl (make_filled w customs hc n dm c hd h hs) ht⟩

/-- A custom component whose map is of its own type is looked up for ever: the program does not end. -/
theorem C95_ends_false (w : World F) (customs : List (Text × DMap F)) (t : Text) (base : DMap F) (hl : customs.lookup t = some base) (hb : Neat (.map base))
    (ht : base.lookup typeKey = some (.str t)) (hn : t ≠ []) (hp : Built.ofText t = none) (n : Nat) (dm : DMap F) (hd : Neat (.map dm))
    (hdt : dm.lookup typeKey = some (.str t)) : w.make customs n dm = .running := by
  have hpart : isPart base = false := by
    unfold isPart
    rw [get_plain (by decide), ht]
    simp only [decide_eq_false_iff_not, not_or]
    refine ⟨hn, ?_⟩
    rintro rfl
    exact absurd hp (by decide +kernel)
  induction n generalizing dm with
  | zero => rfl
  | succ n ih =>
    have htx : w.text dm typeKey = some t := by
      unfold World.text
      rw [get_plain (by decide), hdt]
      simp [hn]
    rw [World.make]
    simp only [htx, hp, hl]
    refine ih _ (neat_customMap hb hd) ?_
    rw [lookup_customMap_type hb hd, hpart]
    simpa using ht

/-! ## C96: making a component again from its map -/

/-- From the map of a component the same component can be made, also in a document with other custom components: only the repeat component does not
put the map of its component into its own. -/
theorem C96_again (w : World F) (customs : List (Text × DMap F)) (hc : ∀ e ∈ customs, Neat (.map e.2)) (n : Nat) (dm : DMap F) (hd : Neat (.map dm)) (c : Node F)
    (h : w.make customs n dm = .val c) (hs : c.Stored w) (customs' : List (Text × DMap F)) : ∃ n' c', w.make customs' n' c.map = .val c' ∧ c.Alike w c' :=
  (make_again w customs hc n dm c hd h hs).2 customs'

theorem neat_one {k : Text} {v : Val F} (hk : '.' ∉ k) (hv : Neat v) : Neat (.map [(k, v)]) := neat_put (m := []) hk hv neat_nil

/-- A component with nothing but its type. -/
def only (t : Text) : DMap F := [(typeKey, .str t)]

theorem neat_only (t : Text) : Neat (.map (only t : DMap F)) := neat_one (by decide) (.str t)

theorem lookup_only (t k : Text) : (only t : DMap F).lookup k = if k = typeKey then some (.str t) else none := by
  unfold only
  by_cases h : k = typeKey
  · simp [h]
  · simp [h, List.lookup_cons, beq_eq_false_iff_ne.mpr h]

theorem resolved_only (b : Built) : Resolved (only b.text : DMap F) := by
  intro d x hx
  cases hx with
  | here =>
    intro v hv
    rw [lookup_only, if_pos rfl] at hv
    exact ⟨b, by simpa [eq_comm] using hv⟩
  | hole hk hm => rw [lookup_only, if_neg (holeKeys_other _ hk).2.1] at hm; cases hm
  | item hl => rw [lookup_only, if_neg (by decide)] at hl; cases hl

/-- A group made by way of a custom component. -/
theorem make_custom_group (w : World F) (t : Text) (ht : t ≠ []) (hb : Built.ofText t = none) :
    ∃ c, w.make [(t, only Built.group.text)] 2 (only t) = .val c := by
  have h1 : w.text (only t) typeKey = some t := by
    unfold World.text
    rw [get_plain (by decide), lookup_only, if_pos rfl]
    simp [ht]
  have hpart : isPart (only Built.group.text : DMap F) = false := by
    unfold isPart
    rw [get_plain (by decide), lookup_only, if_pos rfl]
    show decide (Built.group.text = [] ∨ Built.group.text = partText) = false
    decide +kernel
  have h2 : (customMap (only Built.group.text) (only t) : DMap F).lookup typeKey = some (.str Built.group.text) := by
    rw [lookup_customMap_type (neat_only _) (neat_only _), hpart, lookup_only, if_pos rfl]
    rfl
  have hn := neat_customMap (neat_only (F := F) Built.group.text) (neat_only t)
  have h3 : slice (customMap (only Built.group.text) (only t) : DMap F) componentsKey = [] := by
    have : (customMap (only Built.group.text) (only t) : DMap F).lookup componentsKey = none := by
      rw [customMap_eq, putKey, lookup_put, if_neg (by decide), overrides_neat (neat_only t)]
      have hn := neat_erase (k := typeKey) (neat_only (F := F) t)
      rw [lookup_merge hn.keys hn.noDot, lookup_erase, if_neg (by decide), lookup_only, if_neg (by decide)]
      simp only
      rw [(prepared_spec _ (neat_only (F := F) Built.group.text)).2.1 _ (by decide) (by decide) (by decide), lookup_only, if_neg (by decide)]
    rw [slice_plain (by decide), this]
  refine ⟨.mk (w.idOf (withComponents (customMap (only Built.group.text) (only t)) [])) (withComponents (customMap (only Built.group.text) (only t)) []) [], ?_⟩
  rw [World.make]
  simp only [h1, hb, List.lookup_cons, beq_self_eq_true]
  rw [make_built w _ 0 (b := .group) (by rw [text_type w h2, Option.bind_some, built_text])]
  simp only [World.create, clone_neat hn, h3, makeList]

/-- C95 is about something: a custom component that ends, and one that does not. -/
example (w : World F) : (∃ c, w.make [(['x'], only Built.group.text)] 2 (only ['x']) = .val c) ∧
    (∀ e ∈ [(['x'], (only Built.group.text : DMap F))], Neat (.map e.2) ∧ Resolved e.2) ∧ Neat (.map (only ['x'] : DMap F)) ∧
    ∀ n, w.make [(['x'], only ['x'])] n (only ['x']) = .running := by
  refine ⟨make_custom_group w ['x'] (by decide) (by decide +kernel), ?_, neat_only _, fun n => ?_⟩
  · simp only [List.mem_singleton, forall_eq]
    exact ⟨neat_only _, resolved_only .group⟩
  · exact C95_ends_false w _ ['x'] (only ['x']) (by simp) (neat_only _) (by simp [lookup_only]) (by decide) (by decide +kernel) n _ (neat_only _) (by simp [lookup_only])

/-- The repeat component keeps the map it was given, so what has been made from a custom component cannot be made again where the custom component is
not known. -/
theorem C96_again_false (w : World F) : ∃ (customs : List (Text × DMap F)) (dm : DMap F) (n : Nat) (c : Node F), (∀ e ∈ customs, Neat (.map e.2)) ∧
    Neat (.map dm) ∧ w.make customs n dm = .val c ∧ ∀ n' c', w.make [] n' c.map ≠ .val c' := by
  obtain ⟨c, hc⟩ := make_custom_group w ['x'] (by decide) (by decide +kernel)
  let dm : DMap F := [(typeKey, .str Built.copies.text), (componentKey, .map (only ['x']))]
  have hty : w.text dm typeKey = some Built.copies.text := text_type w (by simp [dm])
  have hsub : sub dm componentKey = only ['x'] := by
    rw [sub_plain (by decide)]
    rfl
  refine ⟨[(['x'], only Built.group.text)], dm, 3, .mk (w.idOf dm) dm [c], ?_, ?_, ?_, ?_⟩
  · simp only [List.mem_singleton, forall_eq]
    exact neat_only _
  · refine .map (show [typeKey, componentKey].Nodup by decide) (by simp [dm]; decide) ?_
    simp only [dm, List.mem_cons, List.not_mem_nil, or_false, forall_eq_or_imp, forall_eq]
    exact ⟨.str _, neat_only _⟩
  · rw [make_built w _ 2 (b := .copies) (by rw [hty, Option.bind_some, built_text])]
    simp only [World.create, hsub, makeList, hc]
  · intro n' c'
    have h1 : w.text (only ['x']) typeKey = some ['x'] := by
      unfold World.text
      rw [get_plain (by decide), lookup_only, if_pos rfl]
      simp
    have hx : Built.ofText ['x'] = none := by decide +kernel
    show w.make [] n' dm ≠ _
    match n' with
    | 0 => simp [World.make]
    | 1 =>
      rw [make_built w _ 0 (b := .copies) (by rw [hty, Option.bind_some, built_text])]
      simp [World.create, makeList, World.make]
    | k + 2 =>
      rw [make_built w _ (k + 1) (b := .copies) (by rw [hty, Option.bind_some, built_text])]
      simp [World.create, makeList, World.make, hsub, h1, hx]

/-- C96 is about something. -/
example (w : World F) : ∃ c, w.make [] 1 (only Built.draw.text : DMap F) = .val c ∧ c.Stored w := by
  have ht : w.text (only Built.draw.text : DMap F) typeKey = some Built.draw.text := text_type w (by simp [lookup_only])
  refine ⟨.mk (w.idOf (only Built.draw.text)) (only Built.draw.text) [], ?_, ?_, trivial⟩
  · rw [make_built w _ 0 (b := .draw) (by rw [ht, Option.bind_some, built_text])]
    rfl
  · rw [ht]
    intro h
    exact absurd h (by decide +kernel)

/-! ## C97: documents that name a file -/

/-- What the document itself says, apart from the imports and the name of the file, is kept. -/
theorem C97_local (d1 dm : DMap F) (hm : Neat (.map dm)) (k : Text) (ks : List Text) (h1 : k ≠ filenameKey) (h2 : k ≠ importsKey)
    (h : see dm (k :: ks) ≠ .nothing) : see (refer d1 dm) (k :: ks) = see dm (k :: ks) := by
  have hn : Neat (.map (erase importsKey (erase filenameKey dm))) := neat_erase (neat_erase hm)
  have e : see (erase importsKey (erase filenameKey dm)) (k :: ks) = see dm (k :: ks) := by
    unfold see follow
    rw [lookup_erase, if_neg h2, lookup_erase, if_neg h1]
  rw [refer_eq, C43_right _ _ hn.tidy hn.noDots _ (by rw [e]; exact h), e]

/-- Everything else is taken from the file. -/
theorem C97_file (d1 dm : DMap F) (hm : Neat (.map dm)) (k : Text) (ks : List Text) (h1 : k ≠ filenameKey) (h2 : k ≠ importsKey)
    (h : see dm (k :: ks) = .nothing) (hq : ∀ q v, q <+: k :: ks → see dm q ≠ .leaf v) : see (refer d1 dm) (k :: ks) = see d1 (k :: ks) := by
  have hn : Neat (.map (erase importsKey (erase filenameKey dm))) := neat_erase (neat_erase hm)
  have e : ∀ qs, see (erase importsKey (erase filenameKey dm)) (k :: qs) = see dm (k :: qs) := by
    intro qs
    unfold see follow
    rw [lookup_erase, if_neg h2, lookup_erase, if_neg h1]
  rw [refer_eq, C43_left _ _ hn.tidy hn.noDots _ (by rw [e]; exact h)]
  · unfold see follow
    rw [lookup_imports _ _ h2]
  · intro q v hqp
    cases q with
    | nil => simp [see, follow, seen]
    | cons a qs =>
      obtain ⟨t, ht⟩ := hqp
      simp only [List.cons_append, List.cons.injEq] at ht
      rw [ht.1, e]
      exact hq _ v ⟨t, by rw [← ht.2]; rfl⟩

/-- The imports of the file come first, then those of the document. -/
theorem C97_imports (d1 dm : DMap F) (hm : Neat (.map dm)) (ms ls : List (DMap F)) (h1 : d1.lookup importsKey = some (.list (ms.map .map)))
    (h2 : dm.lookup importsKey = some (.list (ls.map .map))) : slice (refer d1 dm) importsKey = ms ++ ls := by
  have h3 : slice dm importsKey = ls := by
    rw [slice_plain (by decide), h2]
    simp only [mapItems_maps, Option.getD_some]
  rw [slice_plain (by decide), lookup_refer_own d1 hm (.inr rfl), h3, imports_list ls ms d1 h1]
  simp only [mapItems_maps, Option.getD_some]

/-- Which file is read next is what the file says. -/
theorem C97_next (w : World F) (d1 dm : DMap F) (hm : Neat (.map dm)) : w.text (refer d1 dm) filenameKey = w.text d1 filenameKey := refer_filename w d1 hm

/-- If no file leads back to itself, reading the files ends. -/
theorem C97_ends (w : World F) (rank : Text → Nat) (hr : Ranked w rank) (hl : ∀ f d, w.load f = some d → Neat (.map d)) (m : Nat) (dm : DMap F)
    (hm : Neat (.map dm)) : ∃ N, ∀ n, N ≤ n → w.parse m n dm = w.parse m N dm := settles w m hr hl dm hm

/-- A file that names itself is read for ever. -/
theorem C97_ends_false (w : World F) (f : Text) (d1 : DMap F) (hf : w.load f = some d1) (hs : w.text d1 filenameKey = some f) (m n : Nat) (dm : DMap F)
    (hd : Neat (.map d1)) (hm : Neat (.map dm)) (h : w.text dm filenameKey = some f) : w.parse m n dm = .running := by
  induction n generalizing dm with
  | zero => rfl
  | succ n ih =>
    rw [World.parse]
    simp only [h, hf]
    exact ih _ (neat_refer hd hm) (by rw [refer_filename w d1 hm, hs])

/-- A file that imports itself first is read for ever. -/
theorem C97_import_false (w : World F) (f : Text) (d : DMap F) (hf : w.load f = some d) (hn : w.text d filenameKey = none) (imp : DMap F) (imps : List (DMap F))
    (hi : slice d importsKey = imp :: imps) (hp : w.text imp pathKey = some f) (ht : w.text imp typeKey = none) (m n : Nat) : w.parse m n d = .running := by
  induction n with
  | zero => rfl
  | succ n ih =>
    rw [World.parse]
    simp only [hn, hi]
    rw [World.runImports]
    simp only [hp, ht, Option.getD_none, Option.getD_some, if_true, hf, ih]

/-- Two files, of which one names the other. -/
def twoFiles : World F where
  printed := fun _ => []
  hash := fun _ => []
  load := fun f => if f = ['b'] then some [(filenameKey, .str ['a'])] else if f = ['a'] then some [(idKey, .str ['i'])] else none
  svg := fun _ => none
  order := id

theorem refer_name (d1 : DMap F) (f : Text) : refer d1 [(filenameKey, .str f)] = d1 := by
  have h1 : slice [(filenameKey, (.str f : Val F))] importsKey = [] := by
    rw [slice_plain (by decide)]
    rfl
  have h2 : erase importsKey (erase filenameKey [(filenameKey, (.str f : Val F))]) = [] := rfl
  rw [refer_eq, h1, h2, List.foldl_nil, merge]

/-- C97 is about something: the document in the file that the file names. -/
example : Ranked (twoFiles (F := F)) (fun f => if f = ['b'] then 1 else 0) ∧
    ∃ d, (twoFiles (F := F)).parse 0 3 [(filenameKey, .str ['b'])] = .val d ∧ d.id = ['i'] := by
  have hfa : ∀ f : Text, f ≠ [] → (twoFiles (F := F)).text [(filenameKey, .str f)] filenameKey = some f := by
    intro f hf
    unfold World.text
    rw [get_plain (by decide)]
    simp [hf]
  have hi : ∀ k : Text, k ≠ idKey → '.' ∉ k → get [(idKey, (.str ['i'] : Val F))] k = none := by
    intro k hk hd
    rw [get_plain hd]
    simp [List.lookup_cons, beq_eq_false_iff_ne.mpr hk]
  have hs : ∀ (k' k : Text) (v : Val F), k ≠ k' → '.' ∉ k → slice [(k', v)] k = [] := by
    intro k' k v hk hd
    rw [slice_plain hd]
    simp [List.lookup_cons, beq_eq_false_iff_ne.mpr hk]
  refine ⟨?_, ?_⟩
  · intro f d hd
    simp only [twoFiles] at hd
    split_ifs at hd with h1 h2
    · simp only [Option.some.injEq] at hd
      subst hd
      refine ⟨fun g hg => ?_, fun imp himp => ?_⟩
      · rw [hfa _ (by decide)] at hg
        simp only [Option.some.injEq] at hg
        subst hg
        simp [h1]
      · rw [hs _ _ _ (by decide) (by decide)] at himp
        cases himp
    · simp only [Option.some.injEq] at hd
      subst hd
      refine ⟨fun g hg => ?_, fun imp himp => ?_⟩
      · unfold World.text at hg
        rw [hi _ (by decide) (by decide)] at hg
        cases hg
      · rw [hs _ _ _ (by decide) (by decide)] at himp
        cases himp
  · have hb : (twoFiles (F := F)).load ['b'] = some [(filenameKey, .str ['a'])] := by simp [twoFiles]
    have ha : (twoFiles (F := F)).load ['a'] = some [(idKey, .str ['i'])] := by simp [twoFiles]
    have hn : (twoFiles (F := F)).text [(idKey, .str ['i'])] filenameKey = none := by
      unfold World.text
      rw [hi _ (by decide) (by decide)]
    rw [World.parse]
    simp only [hfa _ (show (['b'] : Text) ≠ [] by decide), hb, refer_name]
    rw [World.parse]
    simp only [hfa _ (show (['a'] : Text) ≠ [] by decide), ha, refer_name]
    rw [World.parse]
    simp only [hn, hs idKey importsKey _ (by decide) (by decide), hs idKey partsKey _ (by decide) (by decide), World.runImports, makeList]
    refine ⟨_, rfl, ?_⟩
    unfold World.idOf World.text
    rw [get_plain (by decide)]
    simp

/-! ## C98: imports -/

/-- A custom component of an imported document is found under its alias or, if it has none, its type, whatever the order in which the elements are
looked at. -/
theorem C98_found (w : World F) (hw : w.Fair) (d : Doc F) (imp : DMap F) (customs : List (Text × DMap F)) (t : Text) (e : Text × DMap F) (he : e ∈ d.elements)
    (hn : w.nameOf imp e.2 = some t) (hu : ∀ e' ∈ d.elements, w.nameOf imp e'.2 = some t → e'.2 = e.2) :
    (w.importDoc d imp customs).lookup t = some (imported d e.2) := importDoc_found w hw d imp customs t e he hn hu

/-- The other custom components stay. -/
theorem C98_kept (w : World F) (hw : w.Fair) (d : Doc F) (imp : DMap F) (customs : List (Text × DMap F)) (t : Text)
    (h : ∀ e ∈ d.elements, w.nameOf imp e.2 ≠ some t) : (w.importDoc d imp customs).lookup t = customs.lookup t := importDoc_other w hw d imp customs t h

/-- The whole document does not depend on the order in which Go goes through the elements of the imported documents, if each name is given once. -/
theorem C98_order (w : World F) (o : List (Text × DMap F) → List (Text × DMap F)) (hw : w.Fair) (ho : (w.reorder o).Fair) (m n : Nat) (dm : DMap F)
    (hc : w.Clear m n dm) : Out.Alike Doc.Alike (w.parse m n dm) ((w.reorder o).parse m n dm) := parse_order w o hw ho m n dm hc

/-- The defaults of an imported component: the parameters of its document win over its own defaults. -/
theorem C98_defaults (d : Doc F) (m : DMap F) (hp : Neat (.map d.params)) (hc : Neat (.map d.context)) (k : Text) (ks : List Text)
    (h1 : see d.params (k :: ks) ≠ .nothing) (h2 : d.context.lookup k = none) : see (sub (imported d m) defaultsKey) (k :: ks) = see d.params (k :: ks) := by
  have e : sub (imported d m) defaultsKey = merge (merge (sub m defaultsKey) d.params) d.context := by
    unfold imported
    rw [sub_plain (by decide), putKey, lookup_put, if_pos rfl]
    rfl
  have h3 : ∀ qs, see d.context (k :: qs) = .nothing := by
    intro qs
    unfold see follow
    rw [h2]
    rfl
  rw [e, C43_left _ _ hc.tidy hc.noDots _ (h3 ks), C43_right _ _ hp.tidy hp.noDots _ h1]
  intro q v hq
  cases q with
  | nil => simp [see, follow, seen]
  | cons a qs =>
    obtain ⟨t, ht⟩ := hq
    simp only [List.cons_append, List.cons.injEq] at ht
    rw [ht.1, h3]
    simp

/-- The drawings imported by the document win over both. -/
theorem C98_drawings (d : Doc F) (m : DMap F) (hc : Neat (.map d.context)) (p : List Text) (h : see d.context p ≠ .nothing) :
    see (sub (imported d m) defaultsKey) p = see d.context p := by
  have e : sub (imported d m) defaultsKey = merge (merge (sub m defaultsKey) d.params) d.context := by
    unfold imported
    rw [sub_plain (by decide), putKey, lookup_put, if_pos rfl]
    rfl
  rw [e, C43_right _ _ hc.tidy hc.noDots _ h]

/-- The elements of a document are all the components in its parts, if no two have the same id. -/
theorem C98_elements (d : Doc F) (h : ((Node.alls d.parts).map Node.id).Nodup) : d.elements = (Node.alls d.parts).map fun c => (c.id, c.map) := by
  unfold Doc.elements
  rw [populates_eq, assign_all _ _ (by simpa using h), List.nil_append]

/-- A component with the id of a later one is no element, so it cannot be imported. -/
theorem C98_elements_false (a b : DMap F) (hab : a ≠ b) (i : Text) (d : Doc F) (hd : d.parts = [.mk i a [], .mk i b []]) : ∀ e ∈ d.elements, e.2 ≠ a := by
  have : d.elements = [(i, b)] := by
    unfold Doc.elements
    rw [hd]
    simp [Node.populates, Node.populate, assign]
  rw [this]
  simpa using hab.symm

/-- Of two custom components with the same name the one that comes last is kept, so it depends on the order of the elements which one. -/
theorem C98_order_false (w : World F) (a b : DMap F) (t : Text) (imp : DMap F) (d : Doc F) (hd : d.elements = [(['a'], a), (['b'], b)])
    (ha : w.nameOf imp a = some t) (hb : w.nameOf imp b = some t) (hab : imported d a ≠ imported d b) :
    ∃ o o' : List (Text × DMap F) → List (Text × DMap F), (w.reorder o).Fair ∧ (w.reorder o').Fair ∧
      ((w.reorder o).importDoc d imp []).lookup t ≠ ((w.reorder o').importDoc d imp []).lookup t := by
  refine ⟨id, List.reverse, fun l => .refl _, fun l => List.reverse_perm l, ?_⟩
  have na : ∀ o, (w.reorder o).nameOf imp a = some t := fun _ => ha
  have nb : ∀ o, (w.reorder o).nameOf imp b = some t := fun _ => hb
  have r : ∀ o, (w.reorder o).order = o := fun _ => rfl
  simp only [World.importDoc, hd, r, id, List.reverse_cons, List.reverse_nil, List.nil_append, List.cons_append, List.map_cons, List.map_nil,
    List.foldl_cons, List.foldl_nil, importElement_eq, na, nb, lookup_assign, if_true]
  intro h
  exact hab (by simpa using h.symm)

/-- The map of a custom component of type `x`. -/
def exampleCustom (i : Text) : DMap F := [("custom_component".toList, .map [(typeKey, .str ['x'])]), (idKey, .str i)]

/-- C98 is about something: two custom components of the same type in one document, and one of them alone. -/
example : ∃ (w : World F) (d d' : Doc F) (imp : DMap F), w.Fair ∧ d.elements = [(['a'], exampleCustom ['a']), (['b'], exampleCustom ['b'])] ∧
    d'.elements = [(['a'], exampleCustom ['a'])] ∧ (∀ i, w.nameOf imp (exampleCustom i) = some ['x']) ∧ w.Unambiguous imp d' ∧ ¬w.Unambiguous imp d ∧
    imported d (exampleCustom ['a']) ≠ imported d (exampleCustom ['b']) := by
  let d : Doc F := ⟨[], [], [], [], [], [.mk ['a'] (exampleCustom ['a']) [], .mk ['b'] (exampleCustom ['b']) []]⟩
  let d' : Doc F := ⟨[], [], [], [], [], [.mk ['a'] (exampleCustom ['a']) []]⟩
  have hd : d.elements = [(['a'], exampleCustom ['a']), (['b'], exampleCustom ['b'])] := by
    simp [Doc.elements, d, Node.populates, Node.populate, assign]
  have hd' : d'.elements = [(['a'], exampleCustom ['a'])] := by
    simp [Doc.elements, d', Node.populates, Node.populate, assign]
  have hn : ∀ i, (twoFiles (F := F)).nameOf [] (exampleCustom i) = some ['x'] := by
    intro i
    have hc : (twoFiles (F := F)).text (exampleCustom i) customTypeKey = some ['x'] := by
      have : get (exampleCustom i : DMap F) customTypeKey = some (.str ['x']) := by
        unfold get
        have : (exampleCustom i : DMap F).lookup customTypeKey = none := rfl
        rw [this]
        have : dots customTypeKey = ["custom_component".toList, typeKey] := by decide +kernel
        simp only [this]
        rfl
      unfold World.text
      rw [this]
      simp
    unfold World.nameOf
    rw [hc]
    have : (twoFiles (F := F)).text [] (aliasKey ++ '.' :: ['x']) = none := by
      unfold World.text
      have : get ([] : DMap F) (aliasKey ++ '.' :: ['x']) = none := by
        unfold get
        have : dots (aliasKey ++ '.' :: ['x']) = [aliasKey, ['x']] := by decide +kernel
        simp only [List.lookup_nil, this]
        rfl
      rw [this]
    simp [this]
  have hne : (exampleCustom ['a'] : DMap F) ≠ exampleCustom ['b'] := by
    intro h
    have := congrArg (fun m : DMap F => m.lookup idKey) h
    have e : ∀ i, (exampleCustom i : DMap F).lookup idKey = some (.str i) := fun _ => rfl
    simp only [e, Option.some.injEq, Val.str.injEq] at this
    exact absurd this (by decide)
  refine ⟨twoFiles, d, d', [], fun l => .refl _, hd, hd', hn, ?_, ?_, ?_⟩
  · intro e he e' he' _ _
    rw [hd', List.mem_singleton] at he he'
    rw [he, he']
  · intro h
    have ha : (['a'], exampleCustom ['a']) ∈ d.elements := by rw [hd]; exact List.mem_cons_self
    have hb : (['b'], exampleCustom ['b']) ∈ d.elements := by rw [hd]; exact List.mem_cons_of_mem _ List.mem_cons_self
    exact hne (h _ ha _ hb (by rw [hn]; simp) (by rw [hn, hn]))
  · intro h
    have := congrArg (fun m : DMap F => m.lookup idKey) h
    have e : ∀ i, (imported d (exampleCustom i) : DMap F).lookup idKey = some (.str i) := by
      intro i
      unfold imported
      rw [putKey, lookup_put, if_neg (by decide)]
      rfl
    simp only [e, Option.some.injEq, Val.str.injEq] at this
    exact absurd this (by decide)

end Verif.Dyn
