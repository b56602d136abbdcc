import Verif.Props.Document

/-!
# C113: What a parsed document consists of
-/

namespace Verif.Dyn

universe u

set_option linter.unusedSectionVars false

variable {F : Type u}

/-- The import statement makes the drawing in its file known under the name. -/
def World.Draws (w : World F) (imp : DMap F) (name s : Text) : Prop :=
  w.text imp typeKey = some "svg".toList ∧ w.text imp aliasKey = some name ∧ w.svg ((w.text imp pathKey).getD []) = some (some s)

/-- The import statement makes the components of the document known. -/
def World.Reads (w : World F) (parse : DMap F → Out (Doc F)) (imp : DMap F) (d : Doc F) : Prop :=
  (w.text imp typeKey).getD "component".toList = "component".toList ∧ ∃ dm, w.load ((w.text imp pathKey).getD []) = some dm ∧ parse dm = .val d

/-- One import statement: what it does and what follows. -/
theorem runImports_cons (w : World F) (parse : DMap F → Out (Doc F)) (imp : DMap F) (imps : List (DMap F)) (cs : List (Text × DMap F)) (ps : DMap F)
    (r : List (Text × DMap F) × DMap F) (h : w.runImports parse (imp :: imps) cs ps = .val r) :
    (∃ d, w.Reads parse imp d ∧ w.runImports parse imps (w.importDoc d imp cs) ps = .val r) ∨
    (∃ name s, w.Draws imp name s ∧ w.runImports parse imps cs (putKey ps name (.str s)) = .val r) ∨
    ((w.text imp typeKey).getD "component".toList ≠ "component".toList ∧ w.text imp typeKey ≠ some "svg".toList ∧ w.runImports parse imps cs ps = .val r) := by
  rw [World.runImports] at h
  split at h
  · next hk =>
    split at h
    · cases h
    · next dm hl =>
      split at h
      · next d hd => exact .inl ⟨d, ⟨hk, dm, hl, hd⟩, h⟩
      · cases h
      · cases h
  · next hk =>
    split at h
    · next hs =>
      have ht : w.text imp typeKey = some "svg".toList := by
        cases e : w.text imp typeKey with
        | none => rw [e] at hk; exact absurd rfl hk
        | some t => rw [e, Option.getD_some] at hs; rw [hs]
      split at h
      · cases h
      · next p hp =>
        split at h
        · next name s hn => exact .inr (.inl ⟨name, s, ⟨ht, hn, hp⟩, h⟩)
        · cases h
    · next hs => exact .inr (.inr ⟨hk, fun e => hs (by rw [e]; rfl), h⟩)

/-- A parsed document that names no file. -/
theorem parse_parts (w : World F) (m n : Nat) (dm : DMap F) (d : Doc F) (hf : w.text dm filenameKey = none) (h : w.parse m (n + 1) dm = .val d) :
    w.runImports (w.parse m n) (slice dm importsKey) [] [] = .val (d.customs, d.context) ∧
    makeList (w.create (w.make d.customs m) .part) (slice dm partsKey) = .val d.parts ∧
    d.id = w.idOf dm ∧ d.map = withParts dm d.parts ∧ d.params = sub dm paramsName := by
  rw [World.parse] at h
  simp only [hf] at h
  split at h
  · next customs params hi =>
    split at h
    · next ps hp =>
      cases h
      exact ⟨hi, hp, rfl, rfl, rfl⟩
    · cases h
    · cases h
  · cases h
  · cases h

/-- **C113.** The id of a document is its `id`, or the hash of its map; its parameters are those under `params`. -/
theorem C113_document (w : World F) (m n : Nat) (dm : DMap F) (d : Doc F) (hf : w.text dm filenameKey = none) (h : w.parse m (n + 1) dm = .val d) :
    d.id = (w.text dm "id".toList).getD (w.hash dm) ∧ d.params = sub dm "params".toList := by
  obtain ⟨_, _, h3, _, h5⟩ := parse_parts w m n dm d hf h
  exact ⟨h3, h5⟩

/-- **C113.** The document that names a file is the document in the file with its own entries. -/
theorem C113_file (w : World F) (m n : Nat) (dm d1 : DMap F) (f : Text) (hf : w.text dm filenameKey = some f) (hl : w.load f = some d1) :
    w.parse m (n + 1) dm = w.parse m n (refer d1 dm) := by
  rw [World.parse]
  simp only [hf, hl]

/-- **C113.** There is one part for each map under `parts`, in this order, and each is made as a part, whatever type its map has. -/
theorem C113_parts (w : World F) (m n : Nat) (dm : DMap F) (d : Doc F) (hf : w.text dm filenameKey = none) (h : w.parse m (n + 1) dm = .val d) :
    List.Forall₂ (fun mp p => w.create (w.make d.customs m) .part mp = .val p) (slice dm "parts".toList) d.parts :=
  makeList_val.mp (parse_parts w m n dm d hf h).2.1

theorem lookup_addPart (mp : DMap F) (v : Val F) (k : Text) : (addToSlice mp partsKey [v]).lookup k =
    if k = partsKey then
      (match mp.lookup partsKey with
      | none => some (.list [v])
      | some (.list l) => some (.list (l ++ [v]))
      | some x => some x)
    else mp.lookup k := by
  unfold addToSlice putIfAbsent
  rw [get_plain (show '.' ∉ partsKey by decide)]
  cases e : mp.lookup partsKey with
  | none =>
    simp only
    rw [get_plain (show '.' ∉ partsKey by decide), putKey, lookup_put, if_pos rfl]
    simp only [List.nil_append, putKey, lookup_put]
    by_cases hk : k = partsKey <;> simp [hk]
  | some x =>
    simp only
    rw [get_plain (show '.' ∉ partsKey by decide), e]
    cases x <;> simp only [putKey, lookup_put] <;> by_cases hk : k = partsKey <;> simp [hk, e]

theorem lookup_parts (ps : List (Node F)) (mp : DMap F) (l : List (DMap F)) (k : Text)
    (h : mp.lookup partsKey = some (.list (l.map .map)) ∨ mp.lookup partsKey = none ∧ l = []) :
    (ps.foldl (fun m p => addToSlice m partsKey [.map p.map]) mp).lookup k =
      if k = partsKey then (if l ++ ps.map Node.map = [] then mp.lookup partsKey else some (.list ((l ++ ps.map Node.map).map .map))) else mp.lookup k := by
  induction ps generalizing mp l with
  | nil =>
    by_cases hk : k = partsKey
    · rcases h with h | ⟨h, rfl⟩
      · by_cases hl : l = [] <;> simp [hk, h, hl]
      · simp [hk]
    · simp [hk]
  | cons p ps ih =>
    rw [List.foldl_cons, ih _ (l ++ [p.map])]
    · by_cases hk : k = partsKey
      · simp [hk]
      · simp only [hk, if_false]
        rw [lookup_addPart, if_neg hk]
    · left
      rw [lookup_addPart, if_pos rfl]
      rcases h with h | ⟨h, rfl⟩ <;> rw [h] <;> simp

/-- **C113.** The map of the document has under `parts` the maps of the parts as they have been made, and nothing else; everything else is as it was read. -/
theorem C113_map (w : World F) (m n : Nat) (dm : DMap F) (hd : Neat (.map dm)) (d : Doc F) (hf : w.text dm filenameKey = none)
    (h : w.parse m (n + 1) dm = .val d) : slice d.map "parts".toList = d.parts.map Node.map ∧ ∀ k, k ≠ "parts".toList → d.map.lookup k = dm.lookup k := by
  have e : ∀ k, d.map.lookup k = if k = partsKey then (if [] ++ d.parts.map Node.map = [] then (erase partsKey dm).lookup partsKey
      else some (.list (([] ++ d.parts.map Node.map).map .map))) else (erase partsKey dm).lookup k := fun k => by
    rw [(parse_parts w m n dm d hf h).2.2.2.1]
    unfold withParts
    rw [remove_one _ _ (show '.' ∉ partsKey by decide), clone_neat hd]
    exact lookup_parts d.parts (erase partsKey dm) [] k (.inr ⟨by rw [lookup_erase, if_pos rfl], rfl⟩)
  constructor
  · rw [show "parts".toList = partsKey from rfl, slice_plain (by decide), e, if_pos rfl, List.nil_append]
    split_ifs with hp
    · rw [lookup_erase, if_pos rfl, hp]
    · simp only [mapItems_maps, Option.getD_some]
  · intro k hk
    have hk' : k ≠ partsKey := hk
    rw [e, if_neg hk', lookup_erase, if_neg hk']

theorem runImports_context (w : World F) (parse : DMap F → Out (Doc F)) (imps : List (DMap F)) (cs : List (Text × DMap F)) (ps : DMap F)
    (r : List (Text × DMap F) × DMap F) (h : w.runImports parse imps cs ps = .val r) (name : Text) :
    ((∀ imp ∈ imps, ∀ s, ¬ w.Draws imp name s) → r.2.lookup name = ps.lookup name) ∧
    ∀ a imp b s, imps = a ++ imp :: b → w.Draws imp name s → (∀ imp' ∈ b, ∀ s', ¬ w.Draws imp' name s') → r.2.lookup name = some (.str s) := by
  induction imps generalizing cs ps with
  | nil =>
    rw [World.runImports] at h
    cases h
    refine ⟨fun _ => rfl, fun a imp b s he => ?_⟩
    simp at he
  | cons i imps ih =>
    have hcomp : ∀ d n s, w.Reads parse i d → ¬ w.Draws i n s := by
      rintro d n s ⟨h1, _⟩ ⟨h2, _⟩
      rw [h2, Option.getD_some] at h1
      revert h1
      decide
    rcases runImports_cons w parse i imps cs ps r h with ⟨d, hd, h⟩ | ⟨n, s, hd, h⟩ | ⟨h1, h2, h⟩
    · obtain ⟨k1, k2⟩ := ih _ _ h
      refine ⟨fun hn => k1 fun imp hi => hn imp (List.mem_cons_of_mem _ hi), fun a imp b s he hs hb => ?_⟩
      cases a with
      | nil => cases he; exact absurd hs (hcomp d name s hd)
      | cons x a => cases he; exact k2 a imp b s rfl hs hb
    · obtain ⟨k1, k2⟩ := ih _ _ h
      refine ⟨fun hn => ?_, fun a imp b s' he hs hb => ?_⟩
      · rw [k1 fun imp hi => hn imp (List.mem_cons_of_mem _ hi), putKey, lookup_put, if_neg]
        rintro rfl
        exact hn i (List.mem_cons_self ..) s hd
      · cases a with
        | nil =>
          cases he
          obtain ⟨_, e1, e2⟩ := hd
          obtain ⟨_, f1, f2⟩ := hs
          rw [k1 hb, putKey, lookup_put]
          rw [e1, Option.some.injEq] at f1
          rw [e2, Option.some.injEq, Option.some.injEq] at f2
          rw [if_pos f1.symm, f2]
        | cons x a => cases he; exact k2 a imp b s' rfl hs hb
    · obtain ⟨k1, k2⟩ := ih _ _ h
      refine ⟨fun hn => k1 fun imp hi => hn imp (List.mem_cons_of_mem _ hi), fun a imp b s he hs hb => ?_⟩
      cases a with
      | nil => cases he; exact absurd hs.1 h2
      | cons x a => cases he; exact k2 a imp b s rfl hs hb

/-- **C113.** Each drawing that is imported is a parameter of the document under its alias: the last one with this alias. There are no other parameters of
this kind. -/
theorem C113_drawings (w : World F) (m n : Nat) (dm : DMap F) (d : Doc F) (hf : w.text dm filenameKey = none) (h : w.parse m (n + 1) dm = .val d) (name : Text) :
    (∀ a imp b s, slice dm "imports".toList = a ++ imp :: b → w.Draws imp name s → (∀ imp' ∈ b, ∀ s', ¬ w.Draws imp' name s') →
      d.context.lookup name = some (.str s)) ∧
    ((∀ imp ∈ slice dm "imports".toList, ∀ s, ¬ w.Draws imp name s) → d.context.lookup name = none) := by
  obtain ⟨h1, h2⟩ := runImports_context w _ _ _ _ _ (parse_parts w m n dm d hf h).1 name
  exact ⟨h2, fun hn => by rw [h1 hn]; rfl⟩

/-- The import statement makes a component known under the name `t`. -/
def World.Gives (w : World F) (parse : DMap F → Out (Doc F)) (imp : DMap F) (t : Text) : Prop :=
  ∃ d, w.Reads parse imp d ∧ ∃ e ∈ d.elements, w.nameOf imp e.2 = some t

theorem reads_unique {w : World F} {parse : DMap F → Out (Doc F)} {imp : DMap F} {d d' : Doc F} (h : w.Reads parse imp d) (h' : w.Reads parse imp d') : d = d' := by
  obtain ⟨_, m, h1, h2⟩ := h
  obtain ⟨_, m', h1', h2'⟩ := h'
  rw [h1, Option.some.injEq] at h1'
  subst h1'
  rw [h2] at h2'
  cases h2'
  rfl

theorem runImports_customs (w : World F) (hw : w.Fair) (parse : DMap F → Out (Doc F)) (imps : List (DMap F)) (cs : List (Text × DMap F)) (ps : DMap F)
    (r : List (Text × DMap F) × DMap F) (h : w.runImports parse imps cs ps = .val r) (t : Text) :
    ((∀ imp ∈ imps, ¬ w.Gives parse imp t) → r.1.lookup t = cs.lookup t) ∧
    ∀ a imp b d e, imps = a ++ imp :: b → w.Reads parse imp d → e ∈ d.elements → w.nameOf imp e.2 = some t →
      (∀ e' ∈ d.elements, w.nameOf imp e'.2 = some t → e'.2 = e.2) → (∀ imp' ∈ b, ¬ w.Gives parse imp' t) → r.1.lookup t = some (imported d e.2) := by
  induction imps generalizing cs ps with
  | nil =>
    rw [World.runImports] at h
    cases h
    refine ⟨fun _ => rfl, fun a imp b d e he => ?_⟩
    simp at he
  | cons i imps ih =>
    rcases runImports_cons w parse i imps cs ps r h with ⟨d, hd, h⟩ | ⟨n, s, hd, h⟩ | ⟨h1, h2, h⟩
    · obtain ⟨k1, k2⟩ := ih _ _ h
      refine ⟨fun hn => ?_, fun a imp b d' e he hr hm hname hu hb => ?_⟩
      · rw [k1 fun imp hi => hn imp (List.mem_cons_of_mem _ hi)]
        exact importDoc_other w hw d i cs t fun e he hne => hn i (List.mem_cons_self ..) ⟨d, hd, e, he, hne⟩
      · cases a with
        | nil =>
          cases he
          cases reads_unique hd hr
          rw [k1 hb]
          exact importDoc_found w hw d i cs t e hm hname hu
        | cons x a => cases he; exact k2 a imp b d' e rfl hr hm hname hu hb
    · obtain ⟨k1, k2⟩ := ih _ _ h
      refine ⟨fun hn => k1 fun imp hi => hn imp (List.mem_cons_of_mem _ hi), fun a imp b d' e he hr hm hname hu hb => ?_⟩
      cases a with
      | nil =>
        cases he
        obtain ⟨h1, _⟩ := hr
        rw [hd.1, Option.getD_some] at h1
        exact absurd h1 (by decide)
      | cons x a => cases he; exact k2 a imp b d' e rfl hr hm hname hu hb
    · obtain ⟨k1, k2⟩ := ih _ _ h
      refine ⟨fun hn => k1 fun imp hi => hn imp (List.mem_cons_of_mem _ hi), fun a imp b d' e he hr hm hname hu hb => ?_⟩
      cases a with
      | nil => cases he; exact absurd hr.1 h1
      | cons x a => cases he; exact k2 a imp b d' e rfl hr hm hname hu hb

/-- **C113.** The custom components of the document are those of the imported documents: under each name the one of the last import statement that gives
this name (of which the elements with this name have the same map), and none under another name. -/
theorem C113_customs (w : World F) (hw : w.Fair) (m n : Nat) (dm : DMap F) (d : Doc F) (hf : w.text dm filenameKey = none) (h : w.parse m (n + 1) dm = .val d)
    (t : Text) :
    (∀ a imp b d' e, slice dm "imports".toList = a ++ imp :: b → w.Reads (w.parse m n) imp d' → e ∈ d'.elements → w.nameOf imp e.2 = some t →
      (∀ e' ∈ d'.elements, w.nameOf imp e'.2 = some t → e'.2 = e.2) → (∀ imp' ∈ b, ¬ w.Gives (w.parse m n) imp' t) →
      d.customs.lookup t = some (imported d' e.2)) ∧
    ((∀ imp ∈ slice dm "imports".toList, ¬ w.Gives (w.parse m n) imp t) → d.customs.lookup t = none) := by
  obtain ⟨h1, h2⟩ := runImports_customs w hw _ _ _ _ _ (parse_parts w m n dm d hf h).1 t
  exact ⟨h2, fun hn => by rw [h1 hn]; rfl⟩

/-- The statement without the names: a document with parameters, an imported drawing and a part. -/
def exDrawing : DMap F := [(typeKey, .str "svg".toList), (aliasKey, .str "fish".toList), (pathKey, .str "fish.svg".toList)]

def exParsed : DMap F := [("id".toList, .str "doc".toList), (paramsName, .map [(['w'], .str ['7'])]), (importsKey, .list [.map exDrawing]),
  (partsKey, .list [.map [("id".toList, .str "one".toList)]])]

def exDrawWorld : World F := ⟨fun _ => [], fun _ => "hash".toList, fun _ => none, fun f => if f = "fish.svg".toList then some (some "M 1 2".toList) else none, id⟩

theorem exParsed_neat : Neat (.map (exParsed : DMap F)) := by
  refine .map (show (["id".toList, paramsName, importsKey, partsKey] : List Text).Nodup by decide) (fun e he => (show ∀ k ∈ (["id".toList, paramsName, importsKey, partsKey] : List Text), '.' ∉ k by decide) _ (List.mem_map_of_mem (f := (·.1)) he)) ?_
  simp only [exParsed, List.forall_mem_cons, List.not_mem_nil, false_imp_iff, implies_true, and_true]
  refine ⟨.str _, neat_one (by decide) (.str _), .list ?_, .list ?_⟩
  · simp only [List.forall_mem_cons, List.not_mem_nil, false_imp_iff, implies_true, and_true]
    refine .map (show ([typeKey, aliasKey, pathKey] : List Text).Nodup by decide) (fun e he => (show ∀ k ∈ ([typeKey, aliasKey, pathKey] : List Text), '.' ∉ k by decide) _ (List.mem_map_of_mem (f := (·.1)) he)) ?_
    simp only [exDrawing, List.forall_mem_cons, List.not_mem_nil, false_imp_iff, implies_true, and_true]
    exact ⟨.str _, .str _, .str _⟩
  · simp only [List.forall_mem_cons, List.not_mem_nil, false_imp_iff, implies_true, and_true]
    exact neat_one (by decide) (.str _)

/-- A document with all of this is parsed. -/
example : ∃ d : Doc F, exDrawWorld.parse 3 1 (exParsed : DMap F) = .val d ∧ d.id = "doc".toList ∧ d.context.lookup "fish".toList = some (.str "M 1 2".toList) ∧
    d.params.lookup ['w'] = some (.str ['7']) ∧ d.parts.map Node.id = ["one".toList] := by
  have hone : Neat (.map ([("id".toList, .str "one".toList)] : DMap F)) := neat_one (by decide) (.str _)
  refine ⟨?_, ?_, ?_⟩
  rotate_left
  · rw [World.parse]
    rw [show exDrawWorld.text (exParsed : DMap F) filenameKey = none from rfl]
    simp only
    rw [show exDrawWorld.runImports (exDrawWorld.parse 3 0) (slice (exParsed : DMap F) importsKey) [] [] = .val ([], [("fish".toList, .str "M 1 2".toList)]) from rfl]
    simp only
    rw [show slice (exParsed : DMap F) partsKey = [[("id".toList, .str "one".toList)]] from rfl]
    simp only [makeList, World.create, clone_neat hone]
    rfl
  · refine ⟨?_, ?_, ?_, ?_⟩ <;> rfl

end Verif.Dyn
