import Verif.Spec.SeenPart
import Verif.Props.Sketch
import Verif.Props.Leaving

/-!
# Property C140: what a reader of the written files sees of any document
-/

set_option linter.unusedSectionVars false

namespace Verif.Render

open Verif Verif.Dyn Verif.Path Verif.PlanSet Verif.Svg Verif.Files Verif.Xml Verif.Spec

variable {O : Type}

/-! ## Finite parts -/

/-- The size as real numbers. -/
noncomputable def realSize (p : RenderedPart (XNum ℝ) (Drawing (XNum ℝ))) : RenderedPart ℝ (Drawing (XNum ℝ)) := ⟨realOf p.width, realOf p.height, p.payload⟩

theorem realSize_fin {p : RenderedPart (XNum ℝ) (Drawing (XNum ℝ))} (h : Fine p) : finPart (realSize p) = p := by
  obtain ⟨r, w, k, -, h2, h3, -⟩ := h
  obtain ⟨a, b, c⟩ := p
  simp only at h2 h3
  subst h2 h3
  rfl

theorem realSizes_fin {ps : List (RenderedPart (XNum ℝ) (Drawing (XNum ℝ)))} (h : ∀ p ∈ ps, Fine p) : (ps.map realSize).map finPart = ps := by
  rw [List.map_map]
  conv_rhs => rw [← List.map_id ps]
  exact List.map_congr_left fun p hp => realSize_fin (h p hp)

theorem laidOut_flatten : ∀ (cs : List (Live (XNum ℝ))) (all : List (List (Rendered (XNum ℝ)))), laidOut cs all = (laidGroups cs all).flatten
  | [], all => by cases all <;> rfl
  | c :: cs, [] => rfl
  | c :: cs, l :: all => by
    rw [laidOut, laidOut_flatten cs all]
    rfl

/-! ## Sheets -/

theorem plan_parts (m : Machine (XNum ℝ) O) (doc : Elem (XNum ℝ)) (customs : List (Text × DMap (XNum ℝ))) (s : Sheet ℝ)
    (page : Page (XNum ℝ)) (G : DMap (XNum ℝ) → Prop) (hs : ∀ g, G g → m.sheetOf doc g = finSheet s) (hp : ∀ g, G g → m.pageOf doc g = page) :
      ∀ (cs : List (Live (XNum ℝ))) (g : DMap (XNum ℝ)) (all : List (List (Rendered (XNum ℝ)))), G g →
      (∀ c ∈ cs, ∀ g, G g → ∀ parts g', m.renderPart doc customs c g = .ok (parts, g') → G g') → RenderedTo m doc customs cs g all → (∀ p ∈ laidOut cs all, Fine p) → ∀ docs docs' : List (SvgDoc ℝ (Drawing (XNum ℝ))),
      initLoop s docs ((laidGroups cs all).map fun l => some (l.map realSize)) = some (docs', .ok) →
      m.plan doc customs cs g (docs.map finDoc) (List.replicate docs.length page) = .ok (docs'.map finDoc, List.replicate docs'.length page)
  | [], g, all, _, _, hr, _, docs, docs', h => by
    simp only [RenderedTo] at hr
    subst hr
    simp only [laidGroups, List.zipWith_nil_left, List.map_nil, initLoop, Option.some.injEq, Prod.mk.injEq, and_true] at h
    subst h
    rfl
  | c :: cs, g, all, hg, hk, hr, hf, docs, docs', h => by
    obtain ⟨parts, g', rest, h1, h2, rfl⟩ := hr
    have hg' : G g' := hk c (by simp) g hg _ _ h1
    simp only [laidOut, List.mem_append] at hf
    have hf1 : ∀ p ∈ parts.map (Machine.toLayout c.id), Fine p := fun p hp => hf p (Or.inl hp)
    have hf2 : ∀ p ∈ laidOut cs rest, Fine p := fun p hp => hf p (Or.inr hp)
    simp only [laidGroups, List.zipWith_cons_cons, List.map_cons, initLoop] at h
    cases ha : addRendered s docs ((parts.map (Machine.toLayout c.id)).map realSize) with
    | none => rw [ha] at h; cases h
    | some x =>
      obtain ⟨docs1, res⟩ := x
      rw [ha] at h
      cases res with
      | ok =>
        simp only at h
        have hl := addRendered_length ha
        have := addRendered_fin s ((parts.map (Machine.toLayout c.id)).map realSize) docs
        rw [realSizes_fin hf1, ha] at this
        simp only [Option.map_some] at this
        simp only [Machine.plan]
        rw [h1]
        simp only [Res.ok_bind, hs _ hg', this, hp _ hg']
        rw [show (docs1.map finDoc).length - (docs.map finDoc).length = docs1.length - docs.length by simp, ← List.replicate_add,
          show docs.length + (docs1.length - docs.length) = docs1.length by omega]
        exact plan_parts m doc customs s page G hs hp cs g' rest hg' (fun c hc => hk c (by simp [hc])) h2 hf2 docs1 docs' h
      | renderError => cases h
      | addError => cases h
      | tooBig => cases h

/-- **C140.** A document of any components whose parts are rendered to finite drawings within their sizes becomes sheets with these drawings, laid out as exact
arithmetic does. -/
theorem C140_sheets (m : Machine (XNum ℝ) O) (d : Doc (XNum ℝ)) (s : Sheet ℝ) (hs : 0 ≤ s.padding) (page : Page (XNum ℝ))
    (G : DMap (XNum ℝ) → Prop) (hG : G d.context)
    (hkeep : ∀ n ∈ d.parts, ∀ g, G g → ∀ parts g', m.renderPart (Machine.docElem d) d.customs (livePart m.world n) g = .ok (parts, g') → G g')
    (hsheet : ∀ g, G g → m.sheetOf (Machine.docElem d) g = finSheet s) (hpage : ∀ g, G g → m.pageOf (Machine.docElem d) g = page) (all : List (List (Rendered (XNum ℝ))))
    (hr : RenderedTo m (Machine.docElem d) d.customs (d.parts.map (livePart m.world)) d.context all)
    (hf : ∀ p ∈ laidOut (d.parts.map (livePart m.world)) all, Fine p) :
    ∃ docs : List (SvgDoc ℝ (Drawing (XNum ℝ))),
      PlanSet.init s ((laidGroups (d.parts.map (livePart m.world)) all).map fun l => some (l.map realSize)) = some (docs, .ok) ∧
      (docs.map (·.parts)).flatten.Perm ((laidOut (d.parts.map (livePart m.world)) all).map realSize) ∧
      m.planSet d = .ok (docs.map finDoc, List.replicate docs.length page) := by
  obtain ⟨docs, h3⟩ := C11_positive_parts_always_placed s hs ((laidGroups (d.parts.map (livePart m.world)) all).map (List.map realSize)) (by
    intro p hp
    rw [← List.map_flatten, ← laidOut_flatten] at hp
    obtain ⟨p, hp', rfl⟩ := List.mem_map.mp hp
    obtain ⟨r, w, k, -, h2, h3, h4, h5, -⟩ := hf p hp'
    simp only [realSize, h2, h3, realOf]
    exact ⟨h4, h5⟩)
  rw [List.map_map] at h3
  refine ⟨docs, h3, ?_, ?_⟩
  · obtain ⟨all', e1, e2, -⟩ := C10_no_part_lost s _ h3
    have : all' = (laidGroups (d.parts.map (livePart m.world)) all).map (List.map realSize) := by
      have h := congrArg (List.map fun o : Option (List (RenderedPart ℝ (Drawing (XNum ℝ)))) => o.getD []) e1
      simpa [Function.comp_def] using h.symm
    rwa [this, ← List.map_flatten, ← laidOut_flatten] at e2
  · have := plan_parts m _ d.customs s page G hsheet hpage _ _ all hG (by
      intro c hc
      obtain ⟨n, hn, rfl⟩ := List.mem_map.mp hc
      exact hkeep n hn) hr hf _ docs h3
    unfold Machine.planSet
    simp only [List.map_cons, List.map_nil] at this
    rw [← newSvgDoc_fin] at this
    rw [hsheet _ hG, hpage _ hG]
    exact this

/-! ## Groups -/

/-- What is seen of a part. -/
noncomputable def seenPartOf (r : Renderable ℝ (Drawing (XNum ℝ))) : SeenPart := ⟨seenOf r, r.part.payload.label.text⟩

theorem sees_part (s : Sheet ℝ) (u : Units) (r : Renderable ℝ (Drawing (XNum ℝ))) (hl : Printable (finPart r.part))
    (hp : ∃ p : Path ℝ, r.part.payload.path = finPath p) :
    SeesPart (itemElement (newPage (.fin s.width) (.fin s.height) u) (finRend r)) (seenPartOf r) := by
  obtain ⟨p, hp⟩ := hp
  obtain ⟨cs, h1, h2⟩ := C136_path 3 p
  have hr : (realRend r).part.payload.path = p := by
    show r.part.payload.path.map realSeg = p
    rw [hp, realPath_fin]
  obtain ⟨ls, hls, hlab⟩ : ∃ ls : List (Element (XNum ℝ)), itemElement (newPage (.fin s.width) (.fin s.height) u) (finRend r) =
      .mk "g".toList [("transform".toList, .str (joinSpace ((realRend r).transforms.map transformText)))]
        (.mk "path".toList [("id".toList, .str r.part.payload.id), ("d".toList, .str (printPath 3 p)),
          ("style".toList, .str (newPage (.fin s.width : XNum ℝ) (.fin s.height) u).cutStyle)] [] [] :: ls) [] ∧
      ((r.part.payload.label.text = [] ∧ ls = []) ∨ (r.part.payload.label.text ≠ [] ∧ ∃ x y st' : Text,
        ls = [.mk "text".toList [("x".toList, .str x), ("y".toList, .str y), ("style".toList, .str st')] [] r.part.payload.label.text])) := by
    unfold itemElement
    simp only [transformText_fin]
    rw [show (finRend r).part.payload = r.part.payload from rfl, show (newPage (.fin s.width : XNum ℝ) (.fin s.height) u).precision = 3 from rfl]
    rw [show printPath 3 r.part.payload.path = printPath 3 p by rw [hp, printPath_fin]]
    refine ⟨_, rfl, ?_⟩
    by_cases ht : r.part.payload.label.text = []
    · exact Or.inl ⟨ht, if_pos ht⟩
    · obtain ⟨hn, q, hq⟩ := hl.2.2 ht
      change trimSpace r.part.payload.label.text ≠ [] at hn
      change pointAttribute r.part.payload.label.position r.part.payload.path = .ok q at hq
      refine Or.inr ⟨ht, Num.fmt 3 q.x, Num.fmt 3 q.y, (newPage (.fin s.width : XNum ℝ) (.fin s.height) u).labelStyle, ?_⟩
      simp only [if_neg ht, hq, labelElement, if_neg hn]
  refine ⟨joinSpace ((realRend r).transforms.map transformText), printPath 3 p, (newPage (.fin s.width : XNum ℝ) (.fin s.height) u).cutStyle,
    (realRend r).transforms.map roundTransform, cs, ls, hls, C101_spelled _, h1, ?_, hlab⟩
  rw [h2]
  show (writtenStrokes (newPage 0 0 .inch) (realRend r)).map _ = _
  unfold writtenStrokes
  rw [hr]
  rfl

theorem sees_plan (s : Sheet ℝ) (u : Units) (d : SvgDoc ℝ (Drawing (XNum ℝ))) (t : Text)
    (ht : Says t [pageElement (newPage (.fin s.width) (.fin s.height) u) (finDoc d).renderables])
    (hd : ∀ r ∈ d.renderables, Printable (finPart r.part) ∧ ∃ p : Path ℝ, r.part.payload.path = finPath p) : SeesPlan s u t (d.renderables.map seenPartOf) := by
  refine ⟨_, _, ht, rfl, rfl, rfl, ?_⟩
  show List.Forall₂ _ ((d.renderables.map finRend).map _) _
  rw [List.map_map, List.forall₂_map_left_iff, List.forall₂_map_right_iff]
  exact List.forall₂_same.mpr fun r hr => sees_part s u r (hd r hr).1 (hd r hr).2

theorem shows_part (r : Renderable ℝ (Drawing (XNum ℝ))) (hf : Fine (finPart r.part)) (hr : ReadAsDrawn r.part.payload.path) :
    ShowsPart (1 / 1000) (finPart r.part) (seenPartOf r) := by
  obtain ⟨p, -, -, h1, -⟩ := hf
  change r.part.payload.path = finPath p at h1
  rw [h1] at hr
  have hr := readAsDrawn_real hr
  have hp : (realRend r).part.payload.path = p := by
    show r.part.payload.path.map realSeg = p
    rw [h1, realPath_fin]
  refine ⟨rfl, rfl, p, _, h1, rigid_placed (realRend r) 0 0, ?_⟩
  show List.Forall₂ _ _ ((writtenStrokes (newPage 0 0 .inch) (realRend r)).map _)
  unfold writtenStrokes
  rw [hp, hr, List.map_map, List.forall₂_map_right_iff]
  refine List.forall₂_same.mpr fun s hs => ?_
  have e : ∀ q : Pt ℝ, translate 0 0 q = q := fun q => by simp [translate]
  simp only [e]
  cases s with
  | line a b => exact .line (near_placed _ _) (near_placed _ _)
  | curve a c d b => exact .curve (near_placed _ _) (near_placed _ _) (near_placed _ _) (near_placed _ _)

theorem inBox_fine (r : Renderable ℝ (Drawing (XNum ℝ))) (hf : Fine (finPart r.part)) (hr : ReadAsDrawn r.part.payload.path) : InBox (realRend r) := by
  obtain ⟨p, w, k, h1, h2, h3, -, -, h4⟩ := hf
  change r.part.payload.path = finPath p at h1
  rw [h1] at hr
  have hr := readAsDrawn_real hr
  intro s hs t h0 h1'
  have hp : (realRend r).part.payload.path = p := by
    show r.part.payload.path.map realSeg = p
    rw [h1, realPath_fin]
  rw [hp, hr] at hs
  obtain ⟨a, b, c, d⟩ := h4 _ ⟨s, hs, t, h0, h1', rfl⟩
  have h2 : r.part.width = w := by injection h2
  have h3 : r.part.height = k := by injection h3
  refine ⟨a, ?_, c, ?_⟩
  · show (s.at t).1 ≤ 0 + r.part.width
    rw [h2]
    simpa using b
  · show (s.at t).2 ≤ 0 + r.part.height
    rw [h3]
    simpa using d

/-! ## Files -/

/-- **C140.** Any document whose parts are rendered to finite drawings that are read as they are drawn, whatever components and transforms
they are made of: the files show each of these drawings exactly once, as in `C140_seen`. -/
theorem C140_seen_drawn (m : Machine (XNum ℝ) O) (files : Nat) (dm : DMap (XNum ℝ)) (d : Doc (XNum ℝ)) (hd : m.world.parse m.fuel files dm = .val d)
    (s : Sheet ℝ) (hs : 0 ≤ s.padding) (u : Units) (G : DMap (XNum ℝ) → Prop) (hG : G d.context)
    (hkeep : ∀ n ∈ d.parts, ∀ g, G g → ∀ parts g', m.renderPart (Machine.docElem d) d.customs (livePart m.world n) g = .ok (parts, g') → G g')
    (hsheet : ∀ g, G g → m.sheetOf (Machine.docElem d) g = finSheet s)
    (hpage : ∀ g, G g → m.pageOf (Machine.docElem d) g = newPage (.fin s.width) (.fin s.height) u)
    (all : List (List (Rendered (XNum ℝ)))) (hr : RenderedTo m (Machine.docElem d) d.customs (d.parts.map (livePart m.world)) d.context all)
    (hf : ∀ p ∈ laidOut (d.parts.map (livePart m.world)) all, Fine p ∧ Printable p ∧ ReadAsDrawn p.payload.path) :
    ∃ (texts : List SheetText) (seen : List (List SeenPart)) (ps : List (RenderedPart (XNum ℝ) (Drawing (XNum ℝ)))), m.sheets files dm = .ok texts ∧
      List.Forall₂ (fun t gs => t.2 = false ∧ SeesPlan s u t.1 gs) texts seen ∧ ps.Perm (laidOut (d.parts.map (livePart m.world)) all) ∧
      List.Forall₂ (ShowsPart (1 / 1000)) ps seen.flatten ∧
      (PartsNeverFill s (laidGroups (d.parts.map (livePart m.world)) all) → ∀ gs ∈ seen, (∃ g, gs = [g]) ∨
        ((∀ g ∈ gs, g.drawing.Inside (s.padding - 1 / 1000) s) ∧ gs.Pairwise fun g g' => Seen.Apart (2 * s.padding - 1 / 500) g.drawing g'.drawing)) := by
  obtain ⟨docs, h1, h2, h3⟩ := C140_sheets m d s hs _ G hG hkeep hsheet hpage all hr fun p hp => (hf p hp).1
  have hpart : ∀ d ∈ docs, ∀ r ∈ d.renderables, Fine (finPart r.part) ∧ Printable (finPart r.part) ∧ ReadAsDrawn (finPart r.part).payload.path := by
    intro x hx r hr'
    have hp := h2.subset (List.mem_flatten.mpr ⟨x.parts, List.mem_map_of_mem hx, List.mem_map_of_mem hr'⟩)
    obtain ⟨p, hp', e⟩ := List.mem_map.mp hp
    rw [← e, realSize_fin (hf p hp').1]
    exact hf p hp'
  have hread : ∀ d ∈ docs, ∀ r ∈ d.renderables, ReadAsDrawn r.part.payload.path := fun x hx r hr' => (hpart x hx r hr').2.2
  have hsay : ∀ x ∈ docs, (Machine.sheetText (newPage (.fin s.width) (.fin s.height) u) (finDoc x)).2 = false ∧
      Says (Machine.sheetText (newPage (.fin s.width) (.fin s.height) u) (finDoc x)).1 [pageElement (newPage (.fin s.width) (.fin s.height) u) (finDoc x).renderables] := by
    intro x hx
    have hw : ∀ r ∈ (finDoc x).renderables, Writable r := by
      intro r hr'
      obtain ⟨r', hm, rfl⟩ := List.mem_map.mp hr'
      obtain ⟨-, ⟨a, b, c⟩, -⟩ := hpart x hx r' hm
      exact ⟨a, b, fun h => (c h).2⟩
    obtain ⟨h5, h6⟩ := C99_written_special (newPage (.fin s.width) (.fin s.height) u)
      ((unmarked_of_all (by decide)).append (unmarked_xnum _ _)) (((unmarked_of_all (by decide)).append (unmarked_xnum _ _)).append (unmarked_of_all (by decide)))
      (finDoc x).renderables hw
    unfold Machine.sheetText
    split
    · next e => rw [e] at h5; cases h5
    · next t' r e e' => rw [e'] at h6; exact ⟨rfl, h6⟩
  refine ⟨docs.map fun x => Machine.sheetText (newPage (.fin s.width) (.fin s.height) u) (finDoc x), docs.map fun d => d.renderables.map seenPartOf,
    (docs.flatMap (·.renderables)).map fun r => finPart r.part, ?_, ?_, ?_, ?_, ?_⟩
  · unfold Machine.sheets
    simp only [hd, h3]
    congr 1
    generalize newPage (.fin s.width : XNum ℝ) (.fin s.height) u = page
    clear * -
    induction docs with
    | nil => rfl
    | cons x xs ih => simpa [List.replicate_succ] using ih
  · rw [List.forall₂_map_right_iff, List.forall₂_map_left_iff]
    refine List.forall₂_same.mpr fun x hx => ⟨(hsay x hx).1, sees_plan s u x _ (hsay x hx).2 fun r hr' => ?_⟩
    obtain ⟨⟨p, -, -, hp, -⟩, hw, -⟩ := hpart x hx r hr'
    exact ⟨hw, p, hp⟩
  · have e1 : (docs.flatMap (·.renderables)).map (fun r => finPart r.part) = (docs.map (·.parts)).flatten.map finPart := by
      simp [SvgDoc.parts, List.flatMap, List.map_flatten, Function.comp_def]
    rw [e1]
    have := h2.map finPart
    rwa [realSizes_fin fun p hp => (hf p hp).1] at this
  · have e2 : (docs.map fun d => d.renderables.map seenPartOf).flatten = (docs.flatMap (·.renderables)).map seenPartOf := by
      simp [List.flatMap, List.map_flatten, Function.comp_def]
    rw [e2, List.forall₂_map_right_iff, List.forall₂_map_left_iff]
    refine List.forall₂_same.mpr fun r hr' => ?_
    obtain ⟨x, hx, hr'⟩ := List.mem_flatMap.mp hr'
    exact shows_part r (hpart x hx r hr').1 (hread x hx r hr')
  · intro hnf gs hgs
    obtain ⟨x, hx, rfl⟩ := List.mem_map.mp hgs
    have h1' : PlanSet.init s (((laidGroups (d.parts.map (livePart m.world)) all).map (List.map realSize)).map some) = some (docs, .ok) := by
      rw [List.map_map]
      exact h1
    have hne := hnf _ docs (by
      rw [List.forall₂_map_right_iff]
      refine List.forall₂_same.mpr fun l hl => ?_
      rw [List.forall₂_map_right_iff]
      refine List.forall₂_same.mpr fun p hp => ?_
      obtain ⟨⟨r, w, k, -, e2, e3, -⟩, -⟩ := hf p (by rw [laidOut_flatten]; exact List.mem_flatten.mpr ⟨l, hl, hp⟩)
      simp only [realSize, e2, e3, realOf, and_self]) h1' x hx
    have hbox : ∀ r ∈ x.renderables, InBox (realRend r) := fun r hr' => inBox_fine r (hpart x hx r hr').1 (hread x hx r hr')
    obtain ⟨-, ⟨-, hfit⟩ | ⟨p, -, hp⟩⟩ := C136_sheets s hs h1 x hx
    · obtain ⟨hin, hap⟩ := hfit hne
      refine Or.inr ⟨?_, ?_⟩
      · intro g hg
        obtain ⟨r, hr', rfl⟩ := List.mem_map.mp hg
        exact inside_seen s r (hbox r hr') (hin r hr')
      · rw [List.pairwise_map]
        refine hap.imp_of_mem fun {r t} hr' ht h => apart_seen r t (hbox r hr') (hbox t ht) ?_
        rw [two_mul]
        exact h
    · exact Or.inl ⟨_, by rw [hp]; rfl⟩

/-- **C140.** Take any document whose sheets have one size and unit, whatever variables its parts leave, with parts of any components in which no transform is a join, an offset or a slice, and
whose part transformers are lathes. Suppose that its parts are rendered, to finite drawings within their sizes, with texts without markup and labels that have a
place. Then the program writes files, and whoever reads them, with any reader of XML and of SVG paths and transforms, sees everything that the parts were rendered to
exactly once, under the id of its part and with its label: all its lines and curves in their order, shifted or turned by a quarter and shifted, with every end
and control point within a thousandth of its place. If nothing but squares ever meets a free bin of exactly its padded size, then on every sheet with more than one
drawing they keep the padding to the sides and twice the padding to each other, up to one and two thousandths. -/
theorem C140_seen (m : Machine (XNum ℝ) O) (files : Nat) (dm : DMap (XNum ℝ)) (d : Doc (XNum ℝ)) (hd : m.world.parse m.fuel files dm = .val d)
    (s : Sheet ℝ) (hs : 0 ≤ s.padding) (u : Units) (G : DMap (XNum ℝ) → Prop) (hG : G d.context)
    (hkeep : ∀ n ∈ d.parts, ∀ g, G g → ∀ parts g', m.renderPart (Machine.docElem d) d.customs (livePart m.world n) g = .ok (parts, g') → G g')
    (hsheet : ∀ g, G g → m.sheetOf (Machine.docElem d) g = finSheet s)
    (hpage : ∀ g, G g → m.pageOf (Machine.docElem d) g = newPage (.fin s.width) (.fin s.height) u)
    (htame : ∀ n ∈ d.parts, PartOf (TamePart m.world m.toInt m.fuel roughNames [latheName] d.customs) (Tame m.world m.toInt roughNames) (livePart m.world n))
    (all : List (List (Rendered (XNum ℝ)))) (hr : RenderedTo m (Machine.docElem d) d.customs (d.parts.map (livePart m.world)) d.context all)
    (hf : ∀ p ∈ laidOut (d.parts.map (livePart m.world)) all, Fine p ∧ Printable p) :
    ∃ (texts : List SheetText) (seen : List (List SeenPart)) (ps : List (RenderedPart (XNum ℝ) (Drawing (XNum ℝ)))), m.sheets files dm = .ok texts ∧
      List.Forall₂ (fun t gs => t.2 = false ∧ SeesPlan s u t.1 gs) texts seen ∧ ps.Perm (laidOut (d.parts.map (livePart m.world)) all) ∧
      List.Forall₂ (ShowsPart (1 / 1000)) ps seen.flatten ∧
      (PartsNeverFill s (laidGroups (d.parts.map (livePart m.world)) all) → ∀ gs ∈ seen, (∃ g, gs = [g]) ∨
        ((∀ g ∈ gs, g.drawing.Inside (s.padding - 1 / 1000) s) ∧ gs.Pairwise fun g g' => Seen.Apart (2 * s.padding - 1 / 500) g.drawing g'.drawing)) := by
  refine C140_seen_drawn m files dm d hd s hs u G hG hkeep hsheet hpage all hr fun p hp => ⟨(hf p hp).1, (hf p hp).2, ?_⟩
  obtain ⟨c, hc, l, hl, x, hx, e⟩ := laidOut_mem hp
  rw [e]
  refine renderedTo_mem (Q := fun r => ReadAsDrawn r.path) hr ?_ l hl x hx
  intro c hc g parts g' e
  obtain ⟨n, hn, rfl⟩ := List.mem_map.mp hc
  exact C114_part m _ _ _ (htame n hn) g e

/-! ## When the suppositions hold -/

/-- **C140.** The size of the sheets is fixed if the document gives its three numbers. -/
theorem C140_fixed (m : Machine (XNum ℝ) O) (d : Doc (XNum ℝ)) (s : Sheet ℝ) (h1 : Dyn.get d.map materialWidthKey = some (.num (.fin s.width)))
    (h2 : Dyn.get d.map materialHeightKey = some (.num (.fin s.height))) (h3 : Dyn.get d.map docPaddingKey = some (.num (.fin s.padding))) (g : DMap (XNum ℝ)) :
    m.sheetOf (Machine.docElem d) g = finSheet s := by
  have key : ∀ (k : Text) (x y : XNum ℝ), Dyn.get d.map k = some (.num x) → m.number (m.docAttrs (Machine.docElem d) g) k y = x := by
    intro k x y h
    unfold Machine.number
    rw [C91_number _ _ _ x h]
    rfl
  simp only [Machine.sheetOf, finSheet, key _ _ _ h1, key _ _ _ h2, key _ _ _ h3]

section

universe u

variable {F : Type u} [Trig F]

theorem same_original {c c' : Live F} (h : Same c c') : LeftAs c.elem c'.elem := by
  cases c
  cases c'
  exact h.2.2.1

theorem partCopies_spec (m : Machine F O) (doc : Elem F) (total : Int) : ∀ (l : List Nat) (c : Live F) (g : DMap F) (parts : List (Rendered F)) (c' : Live F) (g' : DMap F),
    m.partCopies doc total l c g = .ok (parts, c', g') → Same c c' ∧ parts.length = l.length ∧ ∀ x ∈ parts, ∃ (c₁ : Live F) (g₁ : DMap F) (p : Path F) (c₂ : Live F) (g₂ : DMap F),
      Same c c₁ ∧ m.render (m.fuel + 1) ⟨doc, [], false⟩ c₁ g₁ origin = .ok (p, c₂, g₂) ∧ x.path = trimWhitespace p ∧ (x.width, x.height) = Path.measure x.path
  | [], c, g, parts, c', g', h => by
    simp only [Machine.partCopies, Res.ok.injEq, Prod.mk.injEq] at h
    obtain ⟨rfl, rfl, rfl⟩ := h
    exact ⟨Same.refl _, rfl, by simp⟩
  | i :: l, c, g, parts, c', g', h => by
    rw [Machine.partCopies] at h
    obtain ⟨⟨p, c₂, g₂⟩, h1, h⟩ := res_bind_ok h
    simp only at h
    obtain ⟨⟨ps, c₃, g₃⟩, h2, h⟩ := res_bind_ok h
    simp only [Res.ok.injEq, Prod.mk.injEq] at h
    obtain ⟨rfl, rfl, rfl⟩ := h
    obtain ⟨a1, a2, a3⟩ := partCopies_spec m doc total l _ _ _ _ _ h2
    have s0 : Same c (c.setVar partIndexKey (indexVal i)) := same_setVar c (by decide +kernel) _
    have s1 := (C116_left m _ _ _ _ _ _ _ _ h1).1
    refine ⟨(s0.trans s1).trans a1, by simp [a2], fun x hx => ?_⟩
    rcases List.mem_cons.mp hx with rfl | hx
    · exact ⟨_, g, p, c₂, g₂, s0, h1, rfl, rfl⟩
    · obtain ⟨c₁, g₁, p', c₄, g₄, b1, b2⟩ := a3 x hx
      exact ⟨c₁, g₁, p', c₄, g₄, (s0.trans s1).trans b1, b2⟩

/-- **C140.** Whatever the arithmetic: a part without part transformers is rendered to as many copies as `repeat.total` says; each has the path that the same part,
with other variables, is rendered to, trimmed, and the size that is measured for it. -/
theorem C140_copies (m : Machine F O) (doc : Elem F) (customs : List (Text × DMap F)) (c : Live F) (hc : slice c.elem.original partTransformersKey = [])
    (g : DMap F) (parts : List (Rendered F)) (g' : DMap F) (h : m.renderPart doc customs c g = .ok (parts, g')) :
    parts.length = (m.int (m.partAttrs doc g c.elem c.elem.original) repeatTotalKey 1).toNat ∧
    ∀ x ∈ parts, ∃ (c₁ : Live F) (g₁ : DMap F) (p : Path F) (c₂ : Live F) (g₂ : DMap F),
      Same c c₁ ∧ m.render (m.fuel + 1) ⟨doc, [], false⟩ c₁ g₁ origin = .ok (p, c₂, g₂) ∧ x.path = trimWhitespace p ∧ (x.width, x.height) = Path.measure x.path := by
  unfold Machine.renderPart at h
  obtain ⟨⟨ps, c₂, g₂⟩, h1, h⟩ := res_bind_ok h
  obtain ⟨a1, a2, a3⟩ := partCopies_spec m doc _ _ _ _ _ _ _ h1
  have e : slice c₂.elem.original partTransformersKey = [] := by
    rw [← hc]
    unfold slice getDynMapSlice
    rw [(same_original a1).1 partTransformersKey (by decide +kernel) (by decide +kernel) (by decide +kernel)]
  simp only [e, Machine.makeTransformers, need, Machine.runTransformers, Res.ok.injEq, Prod.mk.injEq] at h
  obtain ⟨rfl, -⟩ := h
  exact ⟨by simpa using a2, a3⟩

end

/-- **C140.** A part that is rendered to a finite path, neither upright nor level and with coordinates below 2^62, and then trimmed and measured, is fine. -/
theorem C140_fine (i : Text) (x : Rendered (XNum ℝ)) (r : Path ℝ) (h1 : x.path = trimWhitespace (finPath r)) (h2 : (x.width, x.height) = Path.measure x.path)
    (hw : (∃ p q, Drawn r p ∧ Drawn r q ∧ p.1 < q.1) ∧ ∃ p q, Drawn r p ∧ Drawn r q ∧ p.2 < q.2) (hb : ∀ q, Drawn r q → |q.1| < 2 ^ 62 ∧ |q.2| < 2 ^ 62) :
    Fine (Machine.toLayout i x) ∧ ∃ (r' : Path ℝ) (dx dy : ℝ), x.path = finPath r' ∧ strokes r' = (strokes r).map (Stroke.map (translate dx dy)) := by
  have hne : strokes r ≠ [] := by
    intro e
    obtain ⟨⟨p, q, ⟨s, hs, -⟩, -⟩, -⟩ := hw
    rw [e] at hs
    cases hs
  obtain ⟨dx, dy, h3, br, h4⟩ := C29_trim r hne (small_bounded hb)
  have h5 : strokes (shift dx dy r) = (strokes r).map (Stroke.map (translate dx dy)) := C27_shift dx dy r
  have hne' : strokes (shift dx dy r) ≠ [] := by
    rw [h5]
    simpa using hne
  have h6 := measure_fin hne' (small_moved (r := shift dx dy r) hb h5 h4) h4
  have key : ∀ q, Drawn r q → Drawn (shift dx dy r) (translate dx dy q) := fun q hq => (covered_moved h5 q).1 hq
  rw [h1, h3, h6] at h2
  simp only [Prod.mk.injEq, sub_zero] at h2
  refine ⟨⟨shift dx dy r, br.1, br.2, h1.trans h3, h2.1, h2.2, ?_, ?_, fun q hq => h4.inside q hq⟩, shift dx dy r, dx, dy, h1.trans h3, h5⟩
  · obtain ⟨⟨p, q, hp, hq, hlt⟩, -⟩ := hw
    have a1 := h4.inside _ (key p hp)
    have a2 := h4.inside _ (key q hq)
    simp only [translate] at a1 a2
    linarith
  · obtain ⟨-, p, q, hp, hq, hlt⟩ := hw
    have a1 := h4.inside _ (key p hp)
    have a2 := h4.inside _ (key q hq)
    simp only [translate] at a1 a2
    linarith

end Verif.Render
