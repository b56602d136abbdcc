import Verif.Props.Refine
import Verif.Spec.RefineParts

/-!
# Property C120: the parts of a document and their transformers
-/

set_option linter.unusedSectionVars false

namespace Verif.Render

open Verif Verif.Dyn Verif.Path Verif.PlanSet Verif.Svg Verif.Files Verif.Spec

universe u

variable {F : Type u} [Trig F] {O : Type}

theorem setVar_setting (c : Live F) {k : Text} (h : '.' ∉ k) (v : Val F) : c.setVar k v = setting c [(k, v)] := by
  cases c with | mk t i e cs => simp only [Live.setVar, setVar_plain _ h, setting]

theorem setting_cons (c : Live F) (kv : Text × Val F) (l : DMap F) : setting c (kv :: l) = setting (setting c [kv]) l := by
  cases c with | mk t i e cs => rfl

theorem setting_append (c : Live F) (l l' : DMap F) : setting (setting c l) l' = setting c (l ++ l') := by
  cases c with | mk t i e cs => simp only [setting, putAll, List.foldl_append]

theorem setting_again (c : Live F) {l l' : DMap F} (h : l.map (·.1) = l'.map (·.1)) (hn : (l.map (·.1)).Nodup) :
    setting (setting c l) l' = setting c l' := by
  cases c with | mk t i e cs => simp only [setting, putAll_putAll h hn]

theorem plain_setting {c : Live F} (h : Plain c) (l : DMap F) : Plain (setting c l) := by
  cases c with | mk t i e cs => exact h

/-! ## The copies of a part -/

/-- The component after some copies. -/
def afterCopies (c : Live F) : Option Nat → Live F
  | none => c
  | some i => numberedCopy c i

theorem copy_again (c : Live F) (o : Option Nat) (i : Nat) : (afterCopies c o).setVar partIndexKey (indexVal i) = numberedCopy c i := by
  rw [setVar_setting _ (by decide +kernel)]
  cases o with
  | none => rfl
  | some j => exact setting_again c rfl (by simp)

theorem labelOf_eq (a : Source F O) (total : Int) (i : Nat) : Machine.labelOf a total i =
    ⟨if 1 < total.toNat ∧ (labelAt a).text ≠ [] then numbered (labelAt a).text i else (labelAt a).text, (labelAt a).position⟩ := by
  have : (1 < total) ↔ (1 < total.toNat) := by omega
  have key : ∀ t p : Text, (⟨if 1 < total ∧ t ≠ [] then numbered t i else t, p⟩ : Label) =
      ⟨if 1 < total.toNat ∧ t ≠ [] then numbered t i else t, p⟩ := by
    intro t p
    simp only [this]
  exact key _ _

theorem still_partCopies (m : Machine F O) (doc : Elem F) {c : Live F} (h : Plain c) (g : DMap F) (total : Int) :
    ∀ (l : List Nat) (o : Option Nat), ∃ o', m.partCopies doc total l (afterCopies c o) g =
      (l.mapM fun i => renderCopy (fun i => pathOf (m.render (m.fuel + 1) ⟨doc, [], false⟩ (numberedCopy c i) g origin))
        (labelAt (m.attrs ⟨doc, [], false⟩ g (numberedCopy c i).elem none (numberedCopy c i).elem.original)) total.toNat i) >>= fun ps =>
          .ok (ps, afterCopies c o', g)
  | [], o => ⟨o, rfl⟩
  | i :: l, o => by
    obtain ⟨o', ho⟩ := still_partCopies m doc h g total l (some i)
    refine ⟨o', ?_⟩
    have h1 := still_plain m (m.fuel + 1) ⟨doc, [], false⟩ (plain_setting h [("part_index".toList, .num (Arith.lit i 0))]) g origin
    rw [Machine.partCopies, copy_again, List.mapM_cons]
    change m.render (m.fuel + 1) ⟨doc, [], false⟩ (numberedCopy c i) g origin = _ at h1
    rw [h1]
    simp only [bind_assoc, Res.pure_eq, Res.ok_bind, renderCopy]
    change pathOf (m.render (m.fuel + 1) ⟨doc, [], false⟩ (numberedCopy c i) g origin) >>= _ = _
    congr 1
    funext p
    change (m.partCopies doc total l (afterCopies c (some i)) g >>= _) = _
    rw [ho, bind_assoc]
    congr 1
    funext ps
    rw [Res.ok_bind, labelOf_eq]
    rfl

/-- **C120.** A part of the document that is made of parts, drawings and groups is rendered once for each of the copies that it is repeated (C52), with the
variable `part_index`; the labels are looked up for each copy. Then its transformers are run. -/
theorem C120_part (m : Machine F O) (doc : Elem F) (customs : List (Text × DMap F)) (c : Live F) (h : Plain c) (g : DMap F) (total : Int)
    (ht : total = m.int (m.attrs ⟨doc, [], false⟩ g c.elem none c.elem.original) "repeat.total".toList 1) :
    ∃ c', (c' = c ∨ ∃ i, c' = numberedCopy c i) ∧ m.renderPart doc customs c g =
      ((List.range total.toNat).mapM fun i => renderCopy (fun i => pathOf (m.render (m.fuel + 1) ⟨doc, [], false⟩ (numberedCopy c i) g origin))
        (labelAt (m.attrs ⟨doc, [], false⟩ g (numberedCopy c i).elem none (numberedCopy c i).elem.original)) total.toNat i) >>= fun parts =>
          need (m.makeTransformers (slice c'.elem.original "part_transformers".toList)) fun ts => m.runTransformers ⟨doc, customs, c'.elem⟩ ts parts g := by
  subst ht
  obtain ⟨o, ho⟩ := still_partCopies m doc h g (m.int (m.attrs ⟨doc, [], false⟩ g c.elem none c.elem.original) "repeat.total".toList 1)
    (List.range (m.int (m.attrs ⟨doc, [], false⟩ g c.elem none c.elem.original) "repeat.total".toList 1).toNat) none
  refine ⟨afterCopies c o, ?_, ?_⟩
  · cases o with
    | none => exact .inl rfl
    | some i => exact .inr ⟨i, rfl⟩
  · unfold Machine.renderPart
    change (m.partCopies doc _ _ (afterCopies c none) g >>= _) = _
    refine (congrArg (· >>= _) ho).trans ?_
    rw [bind_assoc]
    rfl

/-! ## Transformers -/

theorem quiet_each {b : DMap F} {f : Rendered F → DMap F → Res (List (Rendered F) × DMap F)} (hf : ∀ p l g', f p b = .ok (l, g') → g' = b) :
    ∀ ps : List (Rendered F), Machine.eachPart f ps b = ps.mapM (fun p => partsOf (f p b)) >>= fun ls => .ok (ls.flatten, b)
  | [] => rfl
  | p :: ps => by
    rw [Machine.eachPart, List.mapM_cons]
    cases h : f p b with
    | err => simp only [partsOf]; rfl
    | panic => simp only [partsOf]; rfl
    | ok x =>
      obtain ⟨l, g'⟩ := x
      obtain rfl := hf p l g' h
      simp only [partsOf, Res.ok_bind, bind_assoc, Res.pure_eq, quiet_each hf ps, List.flatten_cons]

/-- **C120.** The transformers are run one after the other, each on every part there is (C52), if they do not change global variables. -/
theorem C120_transformers (m : Machine F O) (b : Machine.Bench F) (g : DMap F) : ∀ (ts : List (Machine.Transformer F)) (parts : List (Rendered F)),
    (∀ t ∈ ts, ∀ p l g', m.runTransformer b t p g = .ok (l, g') → g' = g) →
    m.runTransformers b ts parts g = applyTransformers (ts.map fun t p => partsOf (m.runTransformer b t p g)) parts >>= fun l => .ok (l, g)
  | [], parts, _ => rfl
  | t :: ts, parts, h => by
    rw [Machine.runTransformers, quiet_each (h t (by simp)), List.map_cons, applyTransformers, bind_assoc, bind_assoc]
    congr 1
    funext ls
    rw [Res.ok_bind]
    exact C120_transformers m b g ts ls.flatten fun t' ht => h t' (by simp [ht])

/-! ## Splitting -/

theorem silent_eq {r : Rendering F} {c : Live F} {g : DMap F} (h : Silent r c g) (cursor : Point F) :
    ∃ c', r c g cursor = pathOf (r c g cursor) >>= fun p => .ok (p, c', g) := by
  cases hx : r c g cursor with
  | ok x =>
    obtain ⟨p, c', g'⟩ := x
    obtain rfl := h cursor p c' g' hx
    exact ⟨c', rfl⟩
  | err => exact ⟨c, rfl⟩
  | panic => exact ⟨c, rfl⟩

theorem edgeFor_eq (c : Live F) (p q : Point F) : (c.setVar fromKey (pointVal p)).setVar toKey (pointVal q) = edgeFor c p q := by
  rw [setVar_setting _ (by decide +kernel), setVar_setting _ (by decide +kernel), setting_append]
  rfl

/-- **C120.** Cutting a part in a document is cutting with the splitter that the document describes, if its edges do not set global variables. -/
theorem C120_cut (m : Machine F O) (b : Machine.Bench F) (mp g : DMap F) (plug socket : Live F) (hp : m.makeFor b (sub mp "plug_edge".toList) = .ok plug)
    (hs : m.makeFor b (sub mp "socket_edge".toList) = .ok socket)
    (hp' : ∀ p q, Silent (m.render m.fuel ⟨b.doc, [b.part], false⟩) (edgeFor plug p q) g)
    (hs' : ∀ p q, Silent (m.render m.fuel ⟨b.doc, [b.part], false⟩) (edgeFor socket p q) g) (part : Path F) (y : F) :
    m.cutPart b mp part y g = cut (splitterOf m b mp g plug socket) part y >>= fun l => .ok (l, g) := by
  unfold Machine.cutPart cut
  rw [show plugKey = "plug_edge".toList from rfl, show socketKey = "socket_edge".toList from rfl, hp, Res.ok_bind, hs, Res.ok_bind]
  simp only
  by_cases hy : ((trimmedBox (trimWhitespace part)).2.y <=. (y +. (splitterOf m b mp g plug socket).yOffset)) = true
  · rw [if_pos hy]
    refine (if_pos hy).trans rfl
  · rw [if_neg hy]
    refine (if_neg hy).trans ?_
    simp only [edgeFor_eq]
    obtain ⟨c1, h1⟩ := silent_eq (hp' (newPoint (trimmedBox (trimWhitespace part)).2.x (y +. (splitterOf m b mp g plug socket).yOffset))
      (newPoint (trimmedBox (trimWhitespace part)).1.x (y +. (splitterOf m b mp g plug socket).yOffset))) origin
    obtain ⟨c2, h2⟩ := silent_eq (hs' (newPoint (trimmedBox (trimWhitespace part)).2.x
        ((trimmedBox (trimWhitespace part)).2.y -. (y +. (splitterOf m b mp g plug socket).yOffset)))
      (newPoint (trimmedBox (trimWhitespace part)).1.x
        ((trimmedBox (trimWhitespace part)).2.y -. (y +. (splitterOf m b mp g plug socket).yOffset)))) origin
    refine (congrArg (· >>= _) h1).trans ?_
    rw [bind_assoc, bind_assoc]
    change pathOf _ >>= _ = pathOf _ >>= _
    congr 1
    funext plugPath
    rw [Res.ok_bind, bind_assoc]
    simp only
    change (splitterOf m b mp g plug socket).slice _ _ >>= _ = _ >>= _
    congr 1
    funext top
    rw [bind_assoc]
    congr 1
    funext top'
    rw [bind_assoc]
    congr 1
    funext flipped
    refine (congrArg (· >>= _) h2).trans ?_
    rw [bind_assoc, bind_assoc]
    change pathOf _ >>= _ = pathOf _ >>= _
    congr 1
    funext socketPath
    rw [Res.ok_bind]
    simp only [bind_assoc]
    rfl

theorem each_concat {g : DMap F} {f : Rendered F → DMap F → Res (List (Rendered F) × DMap F)} {f' : Rendered F → Option (Res (List (Rendered F)))}
    (hf : ∀ p, f p g = ended (f' p) >>= fun l => .ok (l, g)) :
    ∀ ps : List (Rendered F), Machine.eachPart f ps g = ended (concatAll f' ps) >>= fun l => .ok (l, g)
  | [] => rfl
  | p :: ps => by
    rw [Machine.eachPart, hf p, concatAll]
    cases f' p with
    | none => rfl
    | some r =>
      cases r with
      | err => rfl
      | panic => rfl
      | ok l =>
        simp only [ended, Res.ok_bind, each_concat hf ps]
        cases concatAll f' ps with
        | none => rfl
        | some r =>
          cases r with
          | err => rfl
          | panic => rfl
          | ok l' => rfl

/-- **C120.** Splitting a part in a document is splitting with the splitter that the document describes (C50), if its edges do not set global variables. -/
theorem C120_split (m : Machine F O) (b : Machine.Bench F) (mp g : DMap F) (plug socket : Live F) (hp : m.makeFor b (sub mp "plug_edge".toList) = .ok plug)
    (hs : m.makeFor b (sub mp "socket_edge".toList) = .ok socket)
    (hp' : ∀ p q, Silent (m.render m.fuel ⟨b.doc, [b.part], false⟩) (edgeFor plug p q) g)
    (hs' : ∀ p q, Silent (m.render m.fuel ⟨b.doc, [b.part], false⟩) (edgeFor socket p q) g) : ∀ (fuel : Nat) (part : Rendered F),
    m.splitPart b mp fuel part g = ended (splitPart (splitterOf m b mp g plug socket) fuel part) >>= fun l => .ok (l, g)
  | 0, part => rfl
  | fuel + 1, part => by
    have ih := C120_split m b mp g plug socket hp hs hp' hs' fuel
    have hc := C120_cut m b mp g plug socket hp hs hp' hs'
    rw [Machine.splitPart, splitPart]
    change (if (splitterOf m b mp g plug socket).auto = true then
      (if (splitterOf m b mp g plug socket).y.isSome = true then Res.err
      else if (((splitterOf m b mp g plug socket).maxHeight ==. Arith.zero) || ((splitterOf m b mp g plug socket).maxWidth ==. Arith.zero)) = true then Res.err
        else
          match decideSplit (splitterOf m b mp g plug socket).maxWidth (splitterOf m b mp g plug socket).maxHeight (measure part.path).1 (measure part.path).2 with
          | .turn => do
            let p ← rotate (Arith.lit 90 0) [] part.path
            m.splitPart b mp fuel ⟨p, (measure part.path).2, (measure part.path).1, ⟨[], []⟩⟩ g
          | .fits => .ok ([part], g)
          | .split =>
            if ((measure part.path).2 /. Arith.two ==. Arith.zero) = true then .ok ([part], g)
            else do
              let (parts, g) ← m.cutPart b mp part.path ((measure part.path).2 /. Arith.two) g
              if parts.length ≤ 1 then .ok (parts, g) else Machine.eachPart (m.splitPart b mp fuel) parts g)
      else need (splitterOf m b mp g plug socket).y fun y => if (y ==. Arith.zero) = true then .ok ([part], g) else m.cutPart b mp part.path y g) = _
    generalize splitterOf m b mp g plug socket = S at *
    by_cases ha : S.auto = true
    · rw [if_pos ha, if_pos ha]
      by_cases hy : S.y.isSome = true
      · rw [if_pos hy, if_pos hy]; rfl
      · rw [if_neg hy, if_neg hy]
        simp only
        by_cases hz : ((S.maxHeight ==. Arith.zero) || (S.maxWidth ==. Arith.zero)) = true
        · rw [if_pos hz, if_pos hz]; rfl
        · rw [if_neg hz, if_neg hz]
          cases decideSplit S.maxWidth S.maxHeight (measure part.path).1 (measure part.path).2 with
          | turn =>
            simp only
            cases rotate (Arith.lit 90 0) [] part.path with
            | err => rfl
            | panic => rfl
            | ok p => exact ih _
          | fits => rfl
          | split =>
            simp only
            by_cases h0 : ((measure part.path).2 /. Arith.two ==. Arith.zero) = true
            · rw [if_pos h0, if_pos h0]; rfl
            · rw [if_neg h0, if_neg h0, hc]
              cases cut S part.path ((measure part.path).2 /. Arith.two) with
              | err => rfl
              | panic => rfl
              | ok parts =>
                simp only [Res.ok_bind]
                by_cases hl : parts.length ≤ 1
                · rw [if_pos hl, if_pos hl]; rfl
                · rw [if_neg hl, if_neg hl]
                  exact each_concat ih parts
    · rw [if_neg ha, if_neg ha]
      cases S.y with
      | none => rfl
      | some y =>
        simp only [need]
        by_cases h0 : (y ==. Arith.zero) = true
        · rw [if_pos h0, if_pos h0]; rfl
        · rw [if_neg h0, if_neg h0, hc]; rfl

/-! ## The lathe -/

/-- The component after some layers. -/
def afterLayers (c : Live F) : Option (Point F × Point F × F × Nat) → Live F
  | none => c
  | some (p, q, length, i) => layerOf c p q length i

theorem layer_again (c : Live F) (o : Option (Point F × Point F × F × Nat)) (p q : Point F) (i : Nat) :
    Machine.setLayer (afterLayers c o) p q i = layerOf c p q (q.x -. p.x) i := by
  have h : ∀ d : Live F, Machine.setLayer d p q i = layerOf d p q (q.x -. p.x) i := by
    intro d
    unfold Machine.setLayer
    simp only [setVar_setting _ (show '.' ∉ fromXKey by decide +kernel), setVar_setting _ (show '.' ∉ fromYKey by decide +kernel),
      setVar_setting _ (show '.' ∉ toKey by decide +kernel), setVar_setting _ (show '.' ∉ toXKey by decide +kernel),
      setVar_setting _ (show '.' ∉ toYKey by decide +kernel), setVar_setting _ (show '.' ∉ latheWidthKey by decide +kernel),
      setVar_setting _ (show '.' ∉ latheIndexKey by decide +kernel), setting_append, List.cons_append, List.nil_append]
    rfl
  rw [h]
  cases o with
  | none => rfl
  | some o =>
    refine setting_again c rfl ?_
    show [fromXKey, fromYKey, toKey, toXKey, toYKey, latheWidthKey, latheIndexKey].Nodup
    decide +kernel

theorem still_latheRows (m : Machine F O) (b : Machine.Bench F) (mp g : DMap F) {c : Live F} (h : Plain c) (part : Rendered F) (bottom : F) :
    ∀ (fuel : Nat) (y : F) (st : Lathe F) (o : Option (Point F × Point F × F × Nat)), ∃ o',
      m.latheRows b part.path part.label (latheOf m b mp g c part).thickness bottom fuel y st (afterLayers c o) g =
        ended (latheLoop (latheOf m b mp g c part) bottom fuel y st) >>= fun st => .ok (st, afterLayers c o', g)
  | 0, y, st, o => ⟨o, rfl⟩
  | fuel + 1, y, st, o => by
    have ih := still_latheRows m b mp g h part bottom fuel
    rw [Machine.latheRows, latheLoop]
    by_cases hy : (y <=. bottom) = true
    · rw [if_pos hy, if_pos hy]
      change ∃ o', (horizontalIntercepts defaultPrecision part.path y >>= _) = ended (match horizontalIntercepts defaultPrecision part.path y with
        | .ok (a :: b :: _) => _
        | .ok _ => _
        | .err => _
        | .panic => _) >>= _
      cases horizontalIntercepts defaultPrecision part.path y with
      | err => exact ⟨o, rfl⟩
      | panic => exact ⟨o, rfl⟩
      | ok ps =>
        rw [Res.ok_bind]
        match ps with
        | [] => exact ih _ st o
        | [_] => exact ih _ st o
        | p :: q :: rest =>
          simp only
          by_cases hz : (precisionEquals (q.x -. p.x) Arith.zero defaultPrecision) = true
          · rw [if_pos hz]
            simp only [show (latheOf m b mp g c part).precision = defaultPrecision from rfl]
            rw [if_pos hz]
            exact ih _ st o
          · rw [if_neg hz]
            simp only [show (latheOf m b mp g c part).precision = defaultPrecision from rfl]
            rw [if_neg hz, layer_again]
            have h1 := still_plain m m.fuel ⟨b.doc, [b.part], false⟩ (c := layerOf c p q (q.x -. p.x) st.index) (plain_setting h _) g origin
            change ∃ o', (m.render m.fuel ⟨b.doc, [b.part], false⟩ (layerOf c p q (q.x -. p.x) st.index) g origin >>= _) = _
            rw [h1]
            unfold latheLayer
            simp only [show (latheOf m b mp g c part).render p q (q.x -. p.x) st.index =
              pathOf (m.render m.fuel ⟨b.doc, [b.part], false⟩ (layerOf c p q (q.x -. p.x) st.index) g origin) from rfl]
            cases pathOf (m.render m.fuel ⟨b.doc, [b.part], false⟩ (layerOf c p q (q.x -. p.x) st.index) g origin) with
            | err => exact ⟨o, rfl⟩
            | panic => exact ⟨o, rfl⟩
            | ok r => exact ih _ _ (some (p, q, q.x -. p.x, st.index))
    · rw [if_neg hy, if_neg hy]
      exact ⟨o, rfl⟩

/-- **C120.** A lathe in a document makes the layers of the lathe that the document describes (C51), if its component is made of parts, drawings and
groups, and leaves its results in the global variables. -/
theorem C120_lathe (m : Machine F O) (b : Machine.Bench F) (mp g : DMap F) (c : Live F) (hc : m.makeFor b (sub mp "repeat".toList) = .ok c) (h : Plain c)
    (part : Rendered F) : m.lathePart b mp part g =
      ended (lathe (latheOf m b mp g c part) part.path (m.number (transformerAttrs m b mp g) "padding_top".toList Arith.zero)
        (m.number (transformerAttrs m b mp g) "padding_bottom".toList Arith.zero) m.fuel) >>= fun st =>
          .ok (st.parts, withLathe (((transformerAttrs m b mp g).string "lathe_variable_name".toList).getD []) st g) := by
  unfold Machine.lathePart lathe
  cases whitespaceBox part.path with
  | err => rfl
  | panic => rfl
  | ok box =>
    rw [Res.ok_bind]
    simp only
    change (if ((latheOf m b mp g c part).thickness <=. Arith.zero) = true then _ else _) = _
    by_cases ht : ((latheOf m b mp g c part).thickness <=. Arith.zero) = true
    · rw [if_pos ht, if_pos ht]; rfl
    · rw [if_neg ht, if_neg ht, show repeatKey = "repeat".toList from rfl, hc, Res.ok_bind]
      obtain ⟨o, ho⟩ := still_latheRows m b mp g h part (box.2.y -. m.number (transformerAttrs m b mp g) "padding_bottom".toList Arith.zero) m.fuel
        (box.1.y +. m.number (transformerAttrs m b mp g) "padding_top".toList Arith.zero) latheStart none
      refine (congrArg (· >>= _) ho).trans ?_
      rw [bind_assoc]
      rfl

/-! ## Examples -/

/-- What is plain sets no global variable. -/
theorem silent_plain (m : Machine F O) (n : Nat) (s : Spot F) {c : Live F} (h : Plain c) (g : DMap F) : Silent (m.render n s) c g := by
  intro cursor p c' g' e
  rw [still_plain m n s h g cursor] at e
  obtain ⟨q, -, e⟩ := res_bind_ok e
  simp only [Res.ok.injEq, Prod.mk.injEq] at e
  exact e.2.2.symm

/-- **C120.** Splitting with edges that are drawings, groups and parts. -/
theorem C120_split_plain (m : Machine F O) (b : Machine.Bench F) (mp g : DMap F) (plug socket : Live F) (hp : m.makeFor b (sub mp "plug_edge".toList) = .ok plug)
    (hs : m.makeFor b (sub mp "socket_edge".toList) = .ok socket) (hp' : Plain plug) (hs' : Plain socket) (fuel : Nat) (part : Rendered F) :
    m.splitPart b mp fuel part g = ended (splitPart (splitterOf m b mp g plug socket) fuel part) >>= fun l => .ok (l, g) :=
  C120_split m b mp g plug socket hp hs (fun _ _ => silent_plain m _ _ (plain_setting hp' _) g) (fun _ _ => silent_plain m _ _ (plain_setting hs' _) g) fuel part

/-- A transformer with two drawings as edges. -/
def twoEdges : DMap F := [("plug_edge".toList, .map [("type".toList, .str "draw".toList)]), ("socket_edge".toList, .map [("type".toList, .str "draw".toList)])]

/-- Its edges are made. -/
example (m : Machine F O) (hf : 0 < m.fuel) (b : Machine.Bench F) : ∃ c, m.makeFor b (sub twoEdges "plug_edge".toList) = .ok c ∧
    m.makeFor b (sub twoEdges "socket_edge".toList) = .ok c ∧ Plain c := by
  obtain ⟨f, hf'⟩ : ∃ f, m.fuel = f + 1 := ⟨m.fuel - 1, by omega⟩
  refine ⟨live m.world (.mk (m.world.idOf [("type".toList, .str "draw".toList)]) [("type".toList, .str "draw".toList)] []), ?_, ?_, ?_⟩
  all_goals first
    | (unfold Machine.makeFor; rw [hf']; rfl)
    | exact ⟨by show Built.draw ∈ _; decide, trivial⟩

end Verif.Render
