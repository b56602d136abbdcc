import Verif.Lemmas.Formula

/-!
# Property C142: numbers written as expressions of parameters
-/

set_option linter.unusedSectionVars false

namespace Verif.Render

open Verif Verif.Dyn Verif.Path Verif.PlanSet Verif.Svg Verif.Files Verif.Xml Verif.Spec

variable {O : Type}

/-! ## Commands -/

section Commands

variable {m : Machine (XNum ℝ) O} {ps : DMap (XNum ℝ)} (h : FineParams m.lib ps) (hf : 0 < m.fuel)
include h hf

theorem point_form (a : Source (XNum ℝ) O) (hl : a.lib = m.lib) (hc : Calm ps a.chain) (key : Text) (hk : key.head? ≠ some '$') (x y : Slot)
    (hx : Ready m.lib ps m.fuel x) (hy : Ready m.lib ps m.fuel y) (hg : Dyn.get a.mp key = some (slotPair x y)) :
    m.point a key = some (finPt (newPoint x.worth y.worth)) := by
  obtain ⟨f, hf⟩ : ∃ f, m.fuel = f + 1 := ⟨m.fuel - 1, by omega⟩
  have e : a.find key = some (slotPair x y) := C46_attr_local _ _ _ _ hg (by intro s hs; cases hs)
  have e1 : Dyn.get [("x".toList, x.shown), ("y".toList, y.shown)] xKey = some x.shown := rfl
  have e2 : Dyn.get [("x".toList, x.shown), ("y".toList, y.shown)] yKey = some y.shown := rfl
  unfold Machine.point
  rw [show a.point m.fuel m.fuel key = a.point m.fuel (f + 1) key by rw [← hf]]
  rw [Source.point, if_neg hk, e]
  simp only [slotPair, Source.mapPoint, e1, e2, Option.getD_some, Source.pair, (hx a hl hc).1, (hy a hl hc).1, found, newPoint_fin]

theorem command_form (s : Spot (XNum ℝ)) (e : Elem (XNum ℝ)) (cursor : Option (Point (XNum ℝ))) (hc : Calm ps (.component e (chainOf s.doc [] s.ups))) (c : Form)
    (hp : ∀ s ∈ c.points, Ready m.lib ps m.fuel s) (hn : ∀ e ∈ c.named, Ready m.lib ps m.fuel e.2 ∧ Clear ps e.1 e.2) (p : Path ℝ) :
    (m.command (m.attrs s [] e cursor (formMap c))).exec (finPath p) = .ok (finPath (c.cmd.run p)) := by
  have h1 : (m.command (m.attrs s [] e cursor (formMap c))).name = c.cmd.op.text := by
    show (m.world.text (formMap c) commandKey).getD unknownName = _
    have : Dyn.get (formMap c) commandKey = some (.str c.cmd.op.text) := by cases c <;> rfl
    simp only [World.text, this]
    cases c <;> rfl
  have pg : ∀ key : Text, key.head? ≠ some '$' → ∀ x y : Slot, x ∈ c.points → y ∈ c.points → Dyn.get (formMap c) key = some (slotPair x y) →
      (m.command (m.attrs s [] e cursor (formMap c))).point key = some (finPt (newPoint x.worth y.worth)) := fun key hk x y hx hy hg =>
    point_form h hf (m.attrs s [] e cursor (formMap c)) rfl hc key hk x y (hp x hx) (hp y hy) hg
  have keys : ∀ k, k ∉ cmdWords → (formMap c).lookup k = none := by
    intro k hk
    simp only [cmdWords, List.mem_cons, List.not_mem_nil, or_false, not_or] at hk
    obtain ⟨k1, k2, k3, k4, k5, k6, k7, k8, k9⟩ := hk
    cases c <;> simp only [formMap, List.lookup, beq_eq_false_iff_ne.mpr k1, beq_eq_false_iff_ne.mpr k2, beq_eq_false_iff_ne.mpr k3, beq_eq_false_iff_ne.mpr k4,
      beq_eq_false_iff_ne.mpr k5, beq_eq_false_iff_ne.mpr k6, beq_eq_false_iff_ne.mpr k7, beq_eq_false_iff_ne.mpr k8, beq_eq_false_iff_ne.mpr k9]
  have ng : ∀ (key : Text) (x : Slot), (key, x) ∈ c.named → Dyn.get (formMap c) key = some x.shown →
      (m.command (m.attrs s [] e cursor (formMap c))).number key = some (.fin x.worth) := by
    intro key x hx hg
    obtain ⟨hr, hcl⟩ := hn (key, x) hx
    show found ((m.attrs s [] e cursor (formMap c)).number m.fuel key) = _
    rw [(hr (m.attrs s [] e cursor (formMap c)) rfl hc).2 key hg]
    · rfl
    · intro t ht
      cases x with
      | plain x => cases ht
      | text t' x =>
        cases ht
        rcases hcl with hcl | ⟨rfl, hcl⟩
        · exact .inl (get_words keys plain_cmdWords hcl)
        · exact .inr ⟨rfl, hcl⟩
  unfold Command.exec
  rw [h1, ofText_text]
  cases c <;> simp only [Form.cmd, PenCmd.op, PenCmd.run]
  case move x y =>
    simp only [pg toKey (by decide +kernel) x y (by simp [Form.points]) (by simp [Form.points]) rfl, need, fin_moveTo]
  case relMove x y =>
    simp only [pg toKey (by decide +kernel) x y (by simp [Form.points]) (by simp [Form.points]) rfl, need, relMoveTo, fin_toAbs, fin_moveTo]
  case line x y =>
    simp only [pg toKey (by decide +kernel) x y (by simp [Form.points]) (by simp [Form.points]) rfl, need, fin_lineTo]
  case relLine x y =>
    simp only [pg toKey (by decide +kernel) x y (by simp [Form.points]) (by simp [Form.points]) rfl, need, fin_relLineTo]
  case curve cx cy dx dy x y =>
    simp only [pg toKey (by decide +kernel) x y (by simp [Form.points]) (by simp [Form.points]) rfl,
      pg ctrlStartKey (by decide +kernel) cx cy (by simp [Form.points]) (by simp [Form.points]) rfl,
      pg ctrlEndKey (by decide +kernel) dx dy (by simp [Form.points]) (by simp [Form.points]) rfl, need, fin_curveTo]
  case relCurve cx cy dx dy x y =>
    simp only [pg toKey (by decide +kernel) x y (by simp [Form.points]) (by simp [Form.points]) rfl,
      pg ctrlStartKey (by decide +kernel) cx cy (by simp [Form.points]) (by simp [Form.points]) rfl,
      pg ctrlEndKey (by decide +kernel) dx dy (by simp [Form.points]) (by simp [Form.points]) rfl, need, fin_relCurveTo]
  case smooth dx dy x y =>
    simp only [pg toKey (by decide +kernel) x y (by simp [Form.points]) (by simp [Form.points]) rfl,
      pg ctrlEndKey (by decide +kernel) dx dy (by simp [Form.points]) (by simp [Form.points]) rfl, need, smoothCurveTo, fin_smoothControl, fin_curveTo]
  case relSmooth dx dy x y =>
    simp only [pg toKey (by decide +kernel) x y (by simp [Form.points]) (by simp [Form.points]) rfl,
      pg ctrlEndKey (by decide +kernel) dx dy (by simp [Form.points]) (by simp [Form.points]) rfl, need, relSmoothCurveTo, smoothCurveTo, fin_toAbs, fin_smoothControl,
      fin_curveTo]
  case angle l a =>
    simp only [ng lengthKey l (.head _) rfl, ng angleKey a (.tail _ (.head _)) rfl, need, fin_lineByAngle]
  case rectangle w k =>
    simp only [ng widthKey w (.head _) rfl, ng heightKey k (.tail _ (.head _)) rfl, need, fin_rect]
  case circle r =>
    simp only [ng radiusKey r (.head _) rfl, need, fin_circle]

theorem execAll_form (s : Spot (XNum ℝ)) (e : Elem (XNum ℝ)) (cursor : Option (Point (XNum ℝ))) (hc : Calm ps (.component e (chainOf s.doc [] s.ups))) :
    ∀ cs : List Form, (∀ c ∈ cs, (∀ s ∈ c.points, Ready m.lib ps m.fuel s) ∧ ∀ e ∈ c.named, Ready m.lib ps m.fuel e.2 ∧ Clear ps e.1 e.2) → ∀ p : Path ℝ,
    execAll ((cs.map formMap).map fun mp => m.command (m.attrs s [] e cursor mp)) (finPath p) = .ok (finPath (penRun p (cs.map Form.cmd)))
  | [], _, p => rfl
  | c :: cs, hr, p => by
    obtain ⟨h1, h2⟩ := hr c (by simp)
    simp only [List.map_cons, execAll, command_form h hf s e cursor hc c h1 h2, penRun]
    exact execAll_form s e cursor hc cs (fun c hc => hr c (by simp [hc])) _

end Commands

/-! ## Drawings -/

/-- The component that draws with the pen. -/
def liveForm (w : World (XNum ℝ)) (cs : List Form) : Live (XNum ℝ) := .mk .draw (w.idOf (formDrawing cs)) ⟨[], formDrawing cs, []⟩ []

/-- All numbers of the drawings are read as they should be. -/
def ReadyForms (m : Machine (XNum ℝ) O) (ps : DMap (XNum ℝ)) (cs : List Form) : Prop :=
  ∀ c ∈ cs, (∀ s ∈ c.points, Ready m.lib ps m.fuel s) ∧ ∀ e ∈ c.named, Ready m.lib ps m.fuel e.2 ∧ Clear ps e.1 e.2

theorem no_params {mp : DMap (XNum ℝ)} (h : mp.lookup paramsKey = none) : (⟨[], mp, []⟩ : Elem (XNum ℝ)).allParams = [] := by
  simp [Elem.allParams, getDynMap, get_plain (show '.' ∉ paramsKey by decide +kernel), h]

theorem calm_drawing {ps : DMap (XNum ℝ)} {c : Chain (XNum ℝ)} (hc : Calm ps c) (cs : List Form) : Calm ps (.component ⟨[], formDrawing cs, []⟩ c) := by
  refine .component _ _ (no_params rfl) ?_ rfl hc
  intro k hk
  have h1 : k ≠ "type".toList := by rintro rfl; exact hk (by decide)
  have h2 : k ≠ "commands".toList := by rintro rfl; exact hk (by decide)
  simp only [formDrawing, List.lookup, beq_eq_false_iff_ne.mpr h1, beq_eq_false_iff_ne.mpr h2]

theorem slice_maps {α : Type} {mp : DMap (XNum ℝ)} {key : Text} (hk : '.' ∉ key) {l : List α} {f : α → DMap (XNum ℝ)}
    (h : mp.lookup key = some (.list (l.map fun a => .map (f a)))) : slice mp key = l.map f := by
  rw [slice_plain hk, h]
  have : (l.map fun a => (.map (f a) : Val (XNum ℝ))) = (l.map f).map .map := by simp
  simp only [this, mapItems_maps, Option.getD_some]

section Drawings

variable {m : Machine (XNum ℝ) O} {ps : DMap (XNum ℝ)} (h : FineParams m.lib ps) (hf : 0 < m.fuel)
include h hf

theorem render_form (n : Nat) (s : Spot (XNum ℝ)) (hc : Calm ps (chainOf s.doc [] s.ups)) (a : Point ℝ) (cs : List Form) (hr : ReadyForms m ps cs) :
    m.render (n + 1) s (liveForm m.world cs) [] (finPt a) = .ok (finPath (penPath a (cs.map Form.cmd)), liveForm m.world cs, []) := by
  have h1 : slice (formDrawing cs) commandsKey = cs.map formMap := slice_maps (by decide +kernel) rfl
  have h2 : slice (formDrawing cs) transformsKey = [] := rfl
  have h3 : moveTo [] (finPt a) = finPath [.move origin a] := by
    unfold moveTo
    rw [show currentPosition ([] : Path (XNum ℝ)) = origin from rfl, origin_fin]
    rfl
  simp only [Machine.render, liveForm, Live.kind, Machine.renderDraw, Live.elem, h1, drawRender, h3]
  rw [execAll_form h hf s _ _ (calm_drawing hc cs) cs hr [.move origin a], Res.ok_bind]
  simp only [Machine.finishAt, h2, List.map_nil]
  rw [finish_none _ _ _ (by have := penPath_ne_nil a (cs.map Form.cmd); unfold penPath at this; simpa [finPath] using this), Res.ok_bind]
  rfl

theorem render_forms (n : Nat) (s : Spot (XNum ℝ)) (hc : Calm ps (chainOf s.doc [] s.ups)) : ∀ (ds : List (List Form)) (_ : ∀ cs ∈ ds, ReadyForms m ps cs) (a : Point ℝ),
    renderAllOf (m.render (n + 1) s) (ds.map (liveForm m.world)) [] (finPt a) =
      .ok ((penPaths a (ds.map fun cs => cs.map Form.cmd)).map finPath, ds.map (liveForm m.world), [])
  | [], _, a => rfl
  | cs :: ds, hr, a => by
    obtain ⟨t, h1, h2⟩ := penPath_last a (cs.map Form.cmd)
    simp only [List.map_cons, renderAllOf, render_form h hf n s hc a cs (hr cs (by simp)), Res.ok_bind, h1, h2,
      render_forms n s hc ds (fun cs hcs => hr cs (by simp [hcs])), penPaths]

end Drawings

/-! ## Parts -/

/-- The part as it is made. -/
def madeForm (o : FormTile) : DMap (XNum ℝ) := formTileMap o ++ [("type".toList, .str "part".toList)]

/-- The part while it is rendered. -/
noncomputable def shownForm (o : FormTile) (i : Nat) : DMap (XNum ℝ) :=
  formTileMap o ++ [("type".toList, .str "part".toList), ("part_index".toList, .num (Arith.lit i 0))]

/-- The part as a component. -/
def liveFormTile (w : World (XNum ℝ)) (i : Text) (o : FormTile) : Live (XNum ℝ) := .mk .part i ⟨[], madeForm o, []⟩ (o.drawings.map (liveForm w))

theorem numbered_form (w : World (XNum ℝ)) (i : Text) (o : FormTile) (n : Nat) :
    numberedCopy (liveFormTile w i o) n = .mk .part i ⟨[], shownForm o n, []⟩ (o.drawings.map (liveForm w)) := rfl

theorem plain_form (w : World (XNum ℝ)) (i : Text) (o : FormTile) : Plain (liveFormTile w i o) := by
  refine ⟨by simp, ?_⟩
  show EachOf _ (o.drawings.map (liveForm w))
  generalize o.drawings = ds
  induction ds with
  | nil => trivial
  | cons cs ds ih => exact ⟨⟨by simp, trivial⟩, ih⟩

theorem shownForm_absent (o : FormTile) (i : Nat) (k : Text) (h : k ∉ ["id".toList, "components".toList, "label".toList, "repeat".toList, "type".toList, "part_index".toList]) :
    (shownForm o i).lookup k = none := by
  simp only [List.mem_cons, List.not_mem_nil, or_false, not_or] at h
  obtain ⟨h1, h2, h3, h4, h5, h6⟩ := h
  simp only [shownForm, formTileMap, List.cons_append, List.nil_append, List.lookup, beq_eq_false_iff_ne.mpr h1, beq_eq_false_iff_ne.mpr h2, beq_eq_false_iff_ne.mpr h3,
    beq_eq_false_iff_ne.mpr h4, beq_eq_false_iff_ne.mpr h5, beq_eq_false_iff_ne.mpr h6]

theorem madeForm_absent (o : FormTile) (k : Text) (h : k ∉ ["id".toList, "components".toList, "label".toList, "repeat".toList, "type".toList, "part_index".toList]) :
    (madeForm o).lookup k = none := by
  simp only [List.mem_cons, List.not_mem_nil, or_false, not_or] at h
  obtain ⟨h1, h2, h3, h4, h5, h6⟩ := h
  simp only [madeForm, formTileMap, List.cons_append, List.nil_append, List.lookup, beq_eq_false_iff_ne.mpr h1, beq_eq_false_iff_ne.mpr h2, beq_eq_false_iff_ne.mpr h3,
    beq_eq_false_iff_ne.mpr h4, beq_eq_false_iff_ne.mpr h5]

theorem partWords_sub (k : Text) (hk : k ∉ docWords) : k ∉ ["id".toList, "components".toList, "label".toList, "repeat".toList, "type".toList, "part_index".toList] :=
  fun h => hk (List.mem_append_left ["commands".toList, "material_width".toList, "material_height".toList, "doc_padding".toList, "parts".toList, "params".toList,
    "measurement_units".toList] h)

theorem calm_shown {ps : DMap (XNum ℝ)} {c : Chain (XNum ℝ)} (hc : Calm ps c) (o : FormTile) (i : Nat) : Calm ps (.component ⟨[], shownForm o i, []⟩ c) :=
  .component _ _ (no_params (shownForm_absent o i _ (by decide +kernel))) (fun k hk => shownForm_absent o i k (partWords_sub k hk)) rfl hc

theorem calm_made {ps : DMap (XNum ℝ)} {c : Chain (XNum ℝ)} (hc : Calm ps c) (o : FormTile) : Calm ps (.component ⟨[], madeForm o, []⟩ c) :=
  .component _ _ (no_params (madeForm_absent o _ (by decide +kernel))) (fun k hk => madeForm_absent o k (partWords_sub k hk)) rfl hc

/-- The path of a tile. -/
noncomputable def tilePath (m : Machine (XNum ℝ) O) (ds : List (List PenCmd)) : Res (Path (XNum ℝ)) :=
  if (penPaths origin ds).isEmpty then .err
  else do
    let p ← simpleJoin ((penPaths origin ds).map finPath)
    let p ← finish m.toInt m.fuel [] p
    .ok (collapseMoves (trimWhitespace p))

/-- What a tile is rendered to. -/
noncomputable def tileParts (m : Machine (XNum ℝ) O) (o : Tile) : Res (List (Rendered (XNum ℝ))) :=
  (List.range o.copies).mapM fun n => renderCopy (fun _ => tilePath m o.sketch.drawings) ⟨o.label, Attr.bottomMiddle.text⟩ o.copies n

/-- A name that is a word of the document with something behind it is not found. -/
theorem lookup_word {lib : Lib (XNum ℝ) O} {ps : DMap (XNum ℝ)} (h : FineParams lib ps) {key : Text} (hk : firstOf key ∈ docWords) : ps.lookup key = none := by
  cases hl : ps.lookup key with
  | none => rfl
  | some v =>
    obtain ⟨h1, h2, -⟩ := h.names _ (mem_of_lookup hl)
    simp only at h1 h2
    rw [first_plain h1] at hk
    exact absurd hk h2

section Parts

variable {m : Machine (XNum ℝ) O} {ps : DMap (XNum ℝ)} (h : FineParams m.lib ps) (hf : 0 < m.fuel) (doc : Elem (XNum ℝ)) (hd : Calm ps (.document doc []))
include h hf hd

theorem path_form (f : Nat) (i : Text) (o : FormTile) (n : Nat) (hr : ∀ cs ∈ o.drawings, ReadyForms m ps cs) :
    pathOf (m.render (f + 2) ⟨doc, [], false⟩ (.mk .part i ⟨[], shownForm o n, []⟩ (o.drawings.map (liveForm m.world))) [] origin) = tilePath m o.tile.sketch.drawings := by
  have ht : slice (shownForm o n) transformsKey = [] := by
    rw [slice_plain (by decide +kernel), shownForm_absent o n _ (by decide +kernel)]
  rw [Machine.render.eq_def]
  simp only [Live.kind, Machine.renderPartNode, Live.children, Live.elem, Live.id]
  rw [origin_fin, render_forms h hf f _ (show Calm ps (chainOf doc [] [⟨[], shownForm o n, []⟩]) from calm_shown hd o n) o.drawings hr, Res.ok_bind]
  rw [show o.tile.sketch.drawings = o.drawings.map fun cs => cs.map Form.cmd from rfl]
  unfold tilePath
  simp only [List.isEmpty_map]
  by_cases he : (penPaths origin (o.drawings.map fun cs => cs.map Form.cmd)).isEmpty = true
  · rw [if_pos he, if_pos he]
    rfl
  · rw [if_neg he, if_neg he]
    simp only [Machine.finishAt, ht, List.map_nil]
    cases simpleJoin ((penPaths origin (o.drawings.map fun cs => cs.map Form.cmd)).map finPath) with
    | err => rfl
    | panic => rfl
    | ok p =>
      simp only [Res.ok_bind]
      cases finish m.toInt m.fuel [] p <;> rfl

omit hf in
theorem label_form (hp : doc.allParams = ps) (hg : Dyn.get doc.original "label.position".toList = none) (hdf : doc.defaults = []) (o : FormTile)
    (hl : Free o.label ∧ paramLook ps o.label = none) (i : Nat) :
    labelAt (m.attrs ⟨doc, [], false⟩ [] ⟨[], shownForm o i, []⟩ none (shownForm o i)) = ⟨o.label, Attr.bottomMiddle.text⟩ := by
  have hc : Calm ps (m.attrs ⟨doc, [], false⟩ [] ⟨[], shownForm o i, []⟩ none (shownForm o i)).chain := calm_shown hd o i
  have e1 : (m.attrs ⟨doc, [], false⟩ [] ⟨[], shownForm o i, []⟩ none (shownForm o i)).string "label.text".toList = some o.label := by
    have e := hc.find h (key := "label.text".toList) (t := o.label) rfl hl.1
      (.inl (get_words (fun k hk => shownForm_absent o i k (partWords_sub k hk)) plain_docWords hl.1))
    rw [hl.2, Option.getD_none] at e
    unfold Source.string
    simp only [e, Source.textOf, hc.lookup h hl.1, hl.2]
    split <;> rfl
  have e2 : (m.attrs ⟨doc, [], false⟩ [] ⟨[], shownForm o i, []⟩ none (shownForm o i)).find "label.position".toList = none := by
    have hg' : Dyn.get (shownForm o i) "label.position".toList = none := rfl
    refine find_absent _ _ _ _ _ _ _ _ hg' (by rw [no_params (shownForm_absent o i _ (by decide +kernel))]; exact Render.get_nil _) hg' (Render.get_nil _)
      (by rw [hp, h.get]; exact lookup_word h (by decide +kernel)) hg (by rw [hdf]; exact Render.get_nil _) (Render.get_nil _)
  have e3 : (m.attrs ⟨doc, [], false⟩ [] ⟨[], shownForm o i, []⟩ none (shownForm o i)).handle "label.position".toList = none := by
    simp only [Source.handle, Source.string, e2]
    rfl
  simp only [labelAt, e1, e3, Option.getD_some, Option.getD_none]

theorem renderPart_form (hi : ∀ k : Nat, m.toInt (.fin k) = k) (hp : doc.allParams = ps) (hg : Dyn.get doc.original "label.position".toList = none) (hdf : doc.defaults = [])
    (i : Text) (o : FormTile) (hr : ∀ cs ∈ o.drawings, ReadyForms m ps cs) (ht : Ready m.lib ps m.fuel o.total) (hfine : o.Fine m.lib ps) :
    m.renderPart doc [] (liveFormTile m.world i o) [] = tileParts m o.tile >>= fun parts => .ok (parts, []) := by
  obtain ⟨f, hf'⟩ : ∃ f, m.fuel = f + 1 := ⟨m.fuel - 1, by omega⟩
  have ht : (o.copies : Int) = m.int (m.attrs ⟨doc, [], false⟩ [] (liveFormTile m.world i o).elem none (liveFormTile m.world i o).elem.original) "repeat.total".toList 1 := by
    have hc : Calm ps (m.attrs ⟨doc, [], false⟩ [] (liveFormTile m.world i o).elem none (liveFormTile m.world i o).elem.original).chain := calm_made hd o
    unfold Machine.int
    rw [(ht _ rfl hc).2 "repeat.total".toList rfl]
    · rw [hfine.total.2]
      exact (hi _).symm
    · intro t e
      have hs := hfine.total.1
      cases hto : o.total with
      | plain x =>
        rw [hto] at e
        cases e
      | text t' x =>
        rw [hto] at e hs
        cases e
        exact .inl (get_words (fun k hk => madeForm_absent o k (partWords_sub k hk)) plain_docWords hs.2.1)
  obtain ⟨c', hc', he⟩ := C120_part m doc [] (liveFormTile m.world i o) (plain_form m.world i o) [] _ ht
  rw [Int.toNat_natCast] at he
  have hts : slice c'.elem.original "part_transformers".toList = [] := by
    rcases hc' with rfl | ⟨n, rfl⟩
    · show slice (madeForm o) _ = []
      rw [slice_plain (by decide +kernel), madeForm_absent o _ (by decide +kernel)]
    · show slice (shownForm o n) _ = []
      rw [slice_plain (by decide +kernel), shownForm_absent o n _ (by decide +kernel)]
  rw [he, hts]
  have hfun : (fun n => renderCopy (fun n => pathOf (m.render (m.fuel + 1) ⟨doc, [], false⟩ (numberedCopy (liveFormTile m.world i o) n) [] origin))
        (labelAt (m.attrs ⟨doc, [], false⟩ [] (numberedCopy (liveFormTile m.world i o) n).elem none (numberedCopy (liveFormTile m.world i o) n).elem.original)) o.copies n) =
      fun n => renderCopy (fun _ => tilePath m o.tile.sketch.drawings) ⟨o.tile.label, Attr.bottomMiddle.text⟩ o.tile.copies n := by
    funext n
    simp only [numbered_form, Live.elem, label_form h doc hd hp hg hdf o hfine.label n, renderCopy]
    rw [show m.fuel + 1 = f + 2 by omega, path_form h hf doc hd f i o n hr]
    rfl
  rw [hfun]
  rfl

end Parts

/-! ## Documents -/

theorem neat_slot (s : Slot) : Neat s.shown := by
  cases s
  · exact .num _
  · exact .str _

theorem neat_slotPair (x y : Slot) : Neat (slotPair x y) := by
  refine .map (by simp) ?_ ?_ <;> intro e he <;> simp only [List.mem_cons, List.not_mem_nil, or_false] at he
  · rcases he with rfl | rfl <;> simp only <;> decide +kernel
  · rcases he with rfl | rfl <;> exact neat_slot _

theorem neat_form (c : Form) : Neat (.map (formMap c)) := by
  cases c <;> refine .map (by simp [formMap]) ?_ ?_ <;> intro e he <;> simp only [formMap, List.mem_cons, List.not_mem_nil, or_false] at he
  all_goals (rcases he with rfl | rfl | rfl | rfl) <;> first | exact .str _ | exact neat_slot _ | exact neat_slotPair _ _ | (simp only; decide +kernel)

theorem neat_formDrawing (cs : List Form) : Neat (.map (formDrawing cs)) := by
  refine .map (by simp [formDrawing]) ?_ ?_ <;> intro e he <;> simp only [formDrawing, List.mem_cons, List.not_mem_nil, or_false] at he
  · rcases he with rfl | rfl <;> simp only <;> decide +kernel
  · rcases he with rfl | rfl
    · exact .str _
    · refine .list fun v hv => ?_
      obtain ⟨q, _, rfl⟩ := List.mem_map.mp hv
      exact neat_form q

theorem neat_formTile (o : FormTile) : Neat (.map (formTileMap o)) := by
  refine .map (by simp [formTileMap]) ?_ ?_ <;> intro e he <;> simp only [formTileMap, List.mem_cons, List.not_mem_nil, or_false] at he
  · rcases he with rfl | rfl | rfl | rfl <;> simp only <;> decide +kernel
  · rcases he with rfl | rfl | rfl | rfl
    · exact .str _
    · refine .list fun v hv => ?_
      obtain ⟨q, _, rfl⟩ := List.mem_map.mp hv
      exact neat_formDrawing q
    · refine .map (by simp) ?_ ?_ <;> intro e he <;> rw [List.mem_singleton] at he <;> subst he
      · simp only; decide +kernel
      · exact .str _
    · refine .map (by simp) ?_ ?_ <;> intro e he <;> rw [List.mem_singleton] at he <;> subst he
      · simp only; decide +kernel
      · exact neat_slot _

theorem neat_params {lib : Lib (XNum ℝ) O} {ps : DMap (XNum ℝ)} (h : FineParams lib ps) : Neat (.map ps) := by
  refine .map h.nodup (fun e he => (h.names e he).1) fun e he => ?_
  rcases h.values e he with ⟨x, hx⟩ | ⟨t, ht, -⟩
  · rw [hx]; exact .num _
  · rw [ht]; exact .str _

theorem paramsPart_cases (ps : DMap (XNum ℝ)) : ps = [] ∧ paramsPart ps = [] ∨ paramsPart ps = [("params".toList, .map ps)] := by
  cases ps with
  | nil => exact .inl ⟨rfl, rfl⟩
  | cons e ps => exact .inr rfl

theorem neat_formDoc {lib : Lib (XNum ℝ) O} {ps : DMap (XNum ℝ)} (h : FineParams lib ps) (w k p : Slot) (os : List FormTile) : Neat (.map (formDoc ps w k p os)) := by
  have parts : Neat (.list (os.map fun o => .map (formTileMap o)) : Val (XNum ℝ)) := by
    refine .list fun v hv => ?_
    obtain ⟨q, _, rfl⟩ := List.mem_map.mp hv
    exact neat_formTile q
  unfold formDoc
  rcases paramsPart_cases ps with ⟨-, e⟩ | e <;> rw [e]
  · refine .map (by simp) ?_ ?_ <;> intro e he <;> simp only [List.nil_append, List.mem_cons, List.not_mem_nil, or_false] at he
    · rcases he with rfl | rfl | rfl | rfl <;> simp only <;> decide +kernel
    · rcases he with rfl | rfl | rfl | rfl
      · exact neat_slot _
      · exact neat_slot _
      · exact neat_slot _
      · exact parts
  · refine .map (by simp) ?_ ?_ <;> intro e he <;> simp only [List.cons_append, List.nil_append, List.mem_cons, List.not_mem_nil, or_false] at he
    · rcases he with rfl | rfl | rfl | rfl | rfl <;> simp only <;> decide +kernel
    · rcases he with rfl | rfl | rfl | rfl | rfl
      · exact neat_params h
      · exact neat_slot _
      · exact neat_slot _
      · exact neat_slot _
      · exact parts

/-- The nodes that are made. -/
def formNode (w : World (XNum ℝ)) (cs : List Form) : Dyn.Node (XNum ℝ) := .mk (w.idOf (formDrawing cs)) (formDrawing cs) []

def formTileNode (w : World (XNum ℝ)) (o : FormTile) : Dyn.Node (XNum ℝ) := .mk (w.idOf (madeForm o)) (madeForm o) (o.drawings.map (formNode w))

theorem make_form (w : World (XNum ℝ)) (xs : List (Text × DMap (XNum ℝ))) (n : Nat) (cs : List Form) : w.make xs (n + 1) (formDrawing cs) = .val (formNode w cs) := by
  have h1 : w.text (formDrawing cs) typeKey = some Built.draw.text := text_type w (b := .draw) rfl
  rw [World.make]
  simp only [h1, built_text, World.create]
  rfl

theorem create_form (w : World (XNum ℝ)) (xs : List (Text × DMap (XNum ℝ))) (n : Nat) (o : FormTile) :
    w.create (w.make xs (n + 1)) .part (formTileMap o) = .val (formTileNode w o) := by
  have h1 : putIfAbsent (formTileMap o) typeKey (.str partText) = madeForm o := rfl
  have h2 : slice (madeForm o) componentsKey = o.drawings.map formDrawing := slice_maps (by decide +kernel) rfl
  have h3 : withComponents (madeForm o) (o.drawings.map (formNode w)) = madeForm o := by
    have : (o.drawings.map (formNode w)).map (fun c => (.map c.map : Val (XNum ℝ))) = o.drawings.map fun cs => .map (formDrawing cs) := by
      simp [formNode, Dyn.Node.map, Function.comp_def]
    unfold withComponents
    rw [this]
    rfl
  simp only [World.create, clone_neat (neat_formTile o), h1, h2]
  rw [makeList_map (make_form w xs n)]
  simp only [h3]
  rfl

theorem live_form (w : World (XNum ℝ)) (cs : List Form) : live w (formNode w cs) = liveForm w cs := by
  have h1 : w.text (formDrawing cs) typeKey = some Built.draw.text := text_type w (b := .draw) rfl
  rw [formNode, live, h1, Option.getD_some, built_text]
  rfl

theorem livePart_form (w : World (XNum ℝ)) (o : FormTile) : livePart w (formTileNode w o) = liveFormTile w (w.idOf (madeForm o)) o := by
  have : ∀ ds : List (List Form), lives w (ds.map (formNode w)) = ds.map (liveForm w) := by
    intro ds
    induction ds with
    | nil => rfl
    | cons d ds ih => rw [List.map_cons, List.map_cons, lives, ih, live_form]
  unfold livePart formTileNode
  simp only [Dyn.Node.children, this]
  rfl

theorem idOf_form (w : World (XNum ℝ)) (o : FormTile) (h : o.id ≠ []) : w.idOf (madeForm o) = o.id := by
  have : Dyn.get (madeForm o) idKey = some (.str o.id) := rfl
  simp only [World.idOf, World.text, this, if_neg h, Option.getD_some]

/-- The document that is made. -/
def formsDoc (w : World (XNum ℝ)) (ps : DMap (XNum ℝ)) (a b p : Slot) (os : List FormTile) : Doc (XNum ℝ) :=
  ⟨w.idOf (formDoc ps a b p os), withParts (formDoc ps a b p os) (os.map (formTileNode w)), ps, [], [], os.map (formTileNode w)⟩

section Documents

variable (w : World (XNum ℝ)) (ps : DMap (XNum ℝ)) (a b p : Slot) (os : List FormTile)

theorem form_lookup (k : Text) : (formDoc ps a b p os).lookup k = ((paramsPart ps).lookup k).or (([("material_width".toList, a.shown),
    ("material_height".toList, b.shown), ("doc_padding".toList, p.shown), ("parts".toList, .list (os.map fun o => .map (formTileMap o)))] : DMap (XNum ℝ)).lookup k) := by
  unfold formDoc
  rcases paramsPart_cases ps with ⟨-, e⟩ | e <;> rw [e]
  · rfl
  · cases hk : k == "params".toList <;> simp only [List.cons_append, List.nil_append, List.lookup, hk] <;> rfl

theorem paramsPart_absent (k : Text) (h : k ≠ "params".toList) : (paramsPart ps).lookup k = none := by
  rcases paramsPart_cases ps with ⟨-, e⟩ | e <;> rw [e]
  · rfl
  · simp only [List.lookup, beq_eq_false_iff_ne.mpr h]

theorem form_absent (k : Text) (h : k ∉ ["params".toList, "material_width".toList, "material_height".toList, "doc_padding".toList, "parts".toList]) :
    (formDoc ps a b p os).lookup k = none := by
  simp only [List.mem_cons, List.not_mem_nil, or_false, not_or] at h
  obtain ⟨h0, h1, h2, h3, h4⟩ := h
  rw [form_lookup, paramsPart_absent ps k h0]
  simp only [Option.none_or, List.lookup, beq_eq_false_iff_ne.mpr h1, beq_eq_false_iff_ne.mpr h2, beq_eq_false_iff_ne.mpr h3, beq_eq_false_iff_ne.mpr h4]

theorem form_params : sub (formDoc ps a b p os) paramsName = ps := by
  rw [sub_plain (by decide +kernel), form_lookup]
  rcases paramsPart_cases ps with ⟨rfl, e⟩ | e <;> rw [e] <;> rfl

theorem form_filename : w.text (formDoc ps a b p os) filenameKey = none := by
  have : Dyn.get (formDoc ps a b p os) filenameKey = none := by
    rw [get_plain (by decide +kernel), form_absent ps a b p os _ (by decide +kernel)]
  simp only [World.text, this]

theorem parse_form (n files : Nat) : w.parse (n + 1) (files + 1) (formDoc ps a b p os) = .val (formsDoc w ps a b p os) := by
  have h2 : slice (formDoc ps a b p os) importsKey = [] := by
    rw [slice_plain (by decide +kernel), form_absent ps a b p os _ (by decide +kernel)]
  have h3 : slice (formDoc ps a b p os) partsKey = os.map formTileMap := by
    refine slice_maps (by decide +kernel) ?_
    rw [form_lookup, paramsPart_absent ps _ (by decide +kernel)]
    rfl
  rw [World.parse]
  simp only [form_filename w ps a b p os, h2, World.runImports, h3, form_params]
  rw [makeList_map (create_form w [] n)]
  rfl

variable {ps} {lib : Lib (XNum ℝ) O} (h : FineParams lib ps)
include h

theorem forms_lookup (k : Text) (hk : k ≠ "parts".toList) : (formsDoc w ps a b p os).map.lookup k = (formDoc ps a b p os).lookup k :=
  (C113_map w 1 0 (formDoc ps a b p os) (neat_formDoc h a b p os) (formsDoc w ps a b p os) (form_filename w ps a b p os) (parse_form w ps a b p os 0 0)).2 k hk

theorem forms_absent (k : Text) (hk : k ∉ ["params".toList, "material_width".toList, "material_height".toList, "doc_padding".toList, "parts".toList]) :
    (Machine.docElem (formsDoc w ps a b p os)).original.lookup k = none := by
  rw [show (Machine.docElem (formsDoc w ps a b p os)).original = (formsDoc w ps a b p os).map from rfl,
    forms_lookup w a b p os h k (by rintro rfl; exact hk (by simp)), form_absent ps a b p os k hk]

theorem forms_params : (Machine.docElem (formsDoc w ps a b p os)).allParams = ps := by
  show (if ps.isEmpty then (getDynMap (formsDoc w ps a b p os).map paramsKey).getD [] else ps) = ps
  cases ps with
  | cons e ps => rfl
  | nil =>
    simp only [List.isEmpty_nil, if_true]
    rw [getDynMap, get_plain (by decide +kernel), forms_lookup w a b p os h _ (by decide +kernel), form_lookup]
    rfl

theorem forms_defaults : (Machine.docElem (formsDoc w ps a b p os)).defaults = [] := by
  show sub (formsDoc w ps a b p os).map defaultsKey = []
  rw [sub_plain (by decide +kernel), forms_lookup w a b p os h _ (by decide +kernel), form_absent ps a b p os _ (by decide +kernel)]
  rfl

theorem forms_words (k : Text) (hk : k ∉ docWords) : (Machine.docElem (formsDoc w ps a b p os)).original.lookup k = none := by
  refine forms_absent w a b p os h k fun hm => hk ?_
  have : ∀ k ∈ ["params".toList, "material_width".toList, "material_height".toList, "doc_padding".toList, "parts".toList], k ∈ docWords := by decide +kernel
  exact this k hm

theorem calm_forms : Calm ps (.document (Machine.docElem (formsDoc w ps a b p os)) []) :=
  .document _ (forms_params w a b p os h) (forms_words w a b p os h) (forms_defaults w a b p os h)

end Documents

section Sheets

variable {m : Machine (XNum ℝ) O} {ps : DMap (XNum ℝ)} (h : FineParams m.lib ps) (a b p : Slot) (os : List FormTile)
include h

theorem number_formDoc {key : Text} (hk : key ∈ [materialWidthKey, materialHeightKey, docPaddingKey]) (s : Slot) (hs : Stands m.lib ps s) (hr : Ready m.lib ps m.fuel s)
    (hg : (formDoc ps a b p os).lookup key = some s.shown) (d : XNum ℝ) :
    m.number (m.docAttrs (Machine.docElem (formsDoc m.world ps a b p os)) []) key d = .fin s.worth := by
  have hg : Dyn.get (Machine.docElem (formsDoc m.world ps a b p os)).original key = some s.shown := by
    have h1 : ∀ k ∈ [materialWidthKey, materialHeightKey, docPaddingKey], '.' ∉ k ∧ k ≠ "parts".toList := by decide +kernel
    rw [get_plain (h1 key hk).1]
    exact (forms_lookup m.world a b p os h key (h1 key hk).2).trans hg
  unfold Machine.number
  rw [(hr (m.docAttrs (Machine.docElem (formsDoc m.world ps a b p os)) []) rfl (calm_forms m.world a b p os h)).2 key hg]
  · rfl
  · intro t e
    cases s with
    | plain x => cases e
    | text t' x =>
      cases e
      exact .inl (get_words (forms_words m.world a b p os h) plain_docWords hs.2.1)

theorem sheetOf_form (ha : Stands m.lib ps a ∧ Ready m.lib ps m.fuel a) (hb : Stands m.lib ps b ∧ Ready m.lib ps m.fuel b) (hp : Stands m.lib ps p ∧ Ready m.lib ps m.fuel p) :
    m.sheetOf (Machine.docElem (formsDoc m.world ps a b p os)) [] = finSheet ⟨a.worth, b.worth, p.worth⟩ := by
  have key : ∀ k ≠ "params".toList, (formDoc ps a b p os).lookup k = ([("material_width".toList, a.shown), ("material_height".toList, b.shown), ("doc_padding".toList, p.shown),
      ("parts".toList, .list (os.map fun o => .map (formTileMap o)))] : DMap (XNum ℝ)).lookup k := fun k hk => by
    rw [form_lookup, paramsPart_absent ps k hk]
    rfl
  unfold Machine.sheetOf finSheet
  simp only
  rw [number_formDoc h a b p os (key := materialWidthKey) (by simp) a ha.1 ha.2 ((key _ (by decide +kernel)).trans rfl),
    number_formDoc h a b p os (key := materialHeightKey) (by simp) b hb.1 hb.2 ((key _ (by decide +kernel)).trans rfl),
    number_formDoc h a b p os (key := docPaddingKey) (by simp) p hp.1 hp.2 ((key _ (by decide +kernel)).trans rfl)]

theorem pageOf_form (s : Sheet ℝ) (hs : m.sheetOf (Machine.docElem (formsDoc m.world ps a b p os)) [] = finSheet s) :
    m.pageOf (Machine.docElem (formsDoc m.world ps a b p os)) [] = newPage (.fin s.width) (.fin s.height) .inch := by
  have hg : Dyn.get (Machine.docElem (formsDoc m.world ps a b p os)).original unitsKey = none := by
    rw [get_plain (by decide +kernel)]
    exact forms_absent m.world a b p os h _ (by decide +kernel)
  have e : (m.docAttrs (Machine.docElem (formsDoc m.world ps a b p os)) []).find unitsKey = none := by
    have l : Chain.lookup (.document (Machine.docElem (formsDoc m.world ps a b p os)) []) unitsKey = none := by
      rw [Chain.lookup]
      refine define_absent (c := .document _ []) ?_ hg (Render.get_nil _)
      rw [show Chain.elem (.document (Machine.docElem (formsDoc m.world ps a b p os)) []) = Machine.docElem (formsDoc m.world ps a b p os) from rfl,
        forms_params m.world a b p os h, h.get]
      exact lookup_word h (by decide +kernel)
    unfold Source.find Machine.docAttrs
    rw [attrLookup]
    simp only [show ¬ 0 > recursionMax from by decide, if_false, hg, l]
    exact (calm_forms m.world a b p os h).default _ _ _ _
  unfold Machine.pageOf
  rw [hs]
  simp only [Source.string, e]
  rfl

end Sheets

/-! ## Files -/

/-- The two parts are rendered to the same, and global variables stay empty. -/
def SameParts (m : Machine (XNum ℝ) O) (doc doc' : Elem (XNum ℝ)) (c c' : Live (XNum ℝ)) : Prop :=
  c.id = c'.id ∧ ∃ r : Res (List (Rendered (XNum ℝ))), (m.renderPart doc [] c [] = r >>= fun ps => .ok (ps, [])) ∧
    m.renderPart doc' [] c' [] = r >>= fun ps => .ok (ps, [])

theorem plan_same (m : Machine (XNum ℝ) O) {doc doc' : Elem (XNum ℝ)} (h1 : m.sheetOf doc [] = m.sheetOf doc' []) (h2 : m.pageOf doc [] = m.pageOf doc' [])
    {l l' : List (Live (XNum ℝ))} (h : List.Forall₂ (SameParts m doc doc') l l') :
    ∀ docs pages, m.plan doc [] l [] docs pages = m.plan doc' [] l' [] docs pages := by
  induction h with
  | nil => intro docs pages; rw [Machine.plan, Machine.plan]
  | cons h hr ih =>
    intro docs pages
    obtain ⟨hi, r, e1, e2⟩ := h
    rw [Machine.plan, Machine.plan, e1, e2]
    cases r with
    | err => rw [Res.err_bind, Res.err_bind, Res.err_bind]
    | panic => rw [Res.panic_bind, Res.panic_bind, Res.panic_bind]
    | ok parts =>
      simp only [Res.ok_bind, hi, h1, h2, ih]

/-- All numbers of the drawings. -/
def Form.slots (c : Form) : List Slot := c.points ++ c.named.map (·.2)

/-- All numbers of the document. -/
def formSlots (a b p : Slot) (os : List FormTile) : List Slot := a :: b :: p :: os.flatMap fun o => o.total :: o.drawings.flatMap fun cs => cs.flatMap Form.slots

theorem slots_stand {lib : Lib (XNum ℝ) O} {ps : DMap (XNum ℝ)} {a b p : Slot} {os : List FormTile} (ha : Stands lib ps a) (hb : Stands lib ps b) (hp : Stands lib ps p)
    (ho : ∀ o ∈ os, o.Fine lib ps) : ∀ s ∈ formSlots a b p os, Stands lib ps s := by
  intro s hs
  simp only [formSlots, List.mem_cons, List.mem_flatMap] at hs
  rcases hs with rfl | rfl | rfl | ⟨o, hm, hs⟩
  · exact ha
  · exact hb
  · exact hp
  · rcases hs with rfl | ⟨cs, hcs, c, hc, hs⟩
    · exact (ho o hm).total.1
    · have hf := (ho o hm).cmds cs hcs c hc
      rcases List.mem_append.mp hs with hs | hs
      · exact hf.1 s hs
      · obtain ⟨e, he, rfl⟩ := List.mem_map.mp hs
        exact (hf.2 e he).1

/-- The document is written to sheets of that size with these parts. -/
structure FormWritten (m : Machine (XNum ℝ) O) (ps : DMap (XNum ℝ)) (a b p : Slot) (os : List FormTile) : Prop where
  sheet : m.sheetOf (Machine.docElem (formsDoc m.world ps a b p os)) [] = finSheet ⟨a.worth, b.worth, p.worth⟩
  page : m.pageOf (Machine.docElem (formsDoc m.world ps a b p os)) [] = newPage (.fin a.worth) (.fin b.worth) .inch
  parts : ∀ o ∈ os, (livePart m.world (formTileNode m.world o)).id = o.id ∧
    m.renderPart (Machine.docElem (formsDoc m.world ps a b p os)) [] (livePart m.world (formTileNode m.world o)) [] = tileParts m o.tile >>= fun ps => .ok (ps, [])

theorem written (m : Machine (XNum ℝ) O) (hi : ∀ k : Nat, m.toInt (.fin k) = k) {ps : DMap (XNum ℝ)} (h : FineParams m.lib ps) {a b p : Slot} {os : List FormTile}
    (ha : Stands m.lib ps a) (hb : Stands m.lib ps b) (hp : Stands m.lib ps p) (ho : ∀ o ∈ os, o.Fine m.lib ps) :
    ∃ f0, ∀ fuel, f0 ≤ fuel → 0 < fuel ∧ FormWritten { m with fuel := fuel } ps a b p os := by
  obtain ⟨f0, hf⟩ := ready_all h (formSlots a b p os) (slots_stand ha hb hp ho)
  refine ⟨f0 + 1, fun fuel hle => ⟨by omega, ?_⟩⟩
  have hr := hf fuel (by omega)
  generalize hm' : ({ m with fuel := fuel } : Machine (XNum ℝ) O) = m'
  have e1 : m'.lib = m.lib := by rw [← hm']
  have e2 : m'.fuel = fuel := by rw [← hm']
  have e3 : m'.toInt = m.toInt := by rw [← hm']
  rw [← e1] at h ha hb hp hr ho
  rw [← e2] at hr hle
  rw [← e3] at hi
  have hsh := sheetOf_form h a b p os ⟨ha, hr a (by simp [formSlots])⟩ ⟨hb, hr b (by simp [formSlots])⟩ ⟨hp, hr p (by simp [formSlots])⟩
  refine ⟨hsh, pageOf_form h a b p os _ hsh, fun o hm => ?_⟩
  rw [livePart_form]
  refine ⟨idOf_form m'.world o (ho o hm).id, ?_⟩
  refine renderPart_form h (by omega) _ (calm_forms m'.world a b p os h) hi (forms_params m'.world a b p os h) ?_ (forms_defaults m'.world a b p os h) _ o ?_ ?_ (ho o hm)
  · exact get_absent (k := "label".toList) (ks := ["position".toList]) (by decide +kernel) (forms_absent m'.world a b p os h _ (by decide +kernel))
      (forms_absent m'.world a b p os h _ (by decide +kernel))
  · intro cs hcs c hc
    have mem : ∀ s ∈ c.slots, s ∈ formSlots a b p os := fun s hs => by
      simp only [formSlots, List.mem_cons, List.mem_flatMap]
      exact .inr (.inr (.inr ⟨o, hm, .inr ⟨cs, hcs, c, hc, hs⟩⟩))
    refine ⟨fun s hs => hr s (mem s (List.mem_append_left _ hs)), fun e he => ⟨hr e.2 (mem _ (List.mem_append_right _ (List.mem_map_of_mem he))), ?_⟩⟩
    exact (((ho o hm).cmds cs hcs c hc).2 e he).2
  · exact hr _ (by
      simp only [formSlots, List.mem_cons, List.mem_flatMap]
      exact .inr (.inr (.inr ⟨o, hm, .inl rfl⟩)))

/-- **C142.** Two documents of tiles whose numbers are worth the same, however they are written — as they are, or as expressions of parameters, which may be others and
refer to each other —, are written to the same files. -/
theorem C142_same (m : Machine (XNum ℝ) O) (hi : ∀ k : Nat, m.toInt (.fin k) = k) {ps ps' : DMap (XNum ℝ)} (h : FineParams m.lib ps) (h' : FineParams m.lib ps')
    {a b p a' b' p' : Slot} {os os' : List FormTile} (ha : Stands m.lib ps a) (hb : Stands m.lib ps b) (hp : Stands m.lib ps p) (ho : ∀ o ∈ os, o.Fine m.lib ps)
    (ha' : Stands m.lib ps' a') (hb' : Stands m.lib ps' b') (hp' : Stands m.lib ps' p') (ho' : ∀ o ∈ os', o.Fine m.lib ps')
    (e1 : a.worth = a'.worth) (e2 : b.worth = b'.worth) (e3 : p.worth = p'.worth) (e4 : os.map FormTile.tile = os'.map FormTile.tile) :
    ∃ f0, ∀ fuel, f0 ≤ fuel → ∀ files, Machine.sheets { m with fuel := fuel } (files + 1) (formDoc ps a b p os) =
      Machine.sheets { m with fuel := fuel } (files + 1) (formDoc ps' a' b' p' os') := by
  obtain ⟨f1, h1⟩ := written m hi h ha hb hp ho
  obtain ⟨f2, h2⟩ := written m hi h' ha' hb' hp' ho'
  refine ⟨max f1 f2, fun fuel hle files => ?_⟩
  obtain ⟨hpos, w1⟩ := h1 fuel (by omega)
  obtain ⟨-, w2⟩ := h2 fuel (by omega)
  generalize hm : ({ m with fuel := fuel } : Machine (XNum ℝ) O) = m' at *
  obtain ⟨f, hf⟩ : ∃ f, m'.fuel = f + 1 := ⟨fuel - 1, by rw [← hm]; simp only; omega⟩
  unfold Machine.sheets
  rw [hf, parse_form, parse_form]
  simp only
  have : m'.planSet (formsDoc m'.world ps a b p os) = m'.planSet (formsDoc m'.world ps' a' b' p' os') := by
    unfold Machine.planSet
    rw [show (formsDoc m'.world ps a b p os).context = [] from rfl, show (formsDoc m'.world ps' a' b' p' os').context = [] from rfl, w1.sheet, w2.sheet, w1.page, w2.page, e1, e2, e3]
    refine plan_same m' (by rw [w1.sheet, w2.sheet, e1, e2, e3]) (by rw [w1.page, w2.page, e1, e2]) ?_ _ _
    show List.Forall₂ _ ((os.map (formTileNode m'.world)).map (livePart m'.world)) ((os'.map (formTileNode m'.world)).map (livePart m'.world))
    have k1 := w1.parts
    have k2 := w2.parts
    generalize Machine.docElem (formsDoc m'.world ps a b p os) = d at *
    generalize Machine.docElem (formsDoc m'.world ps' a' b' p' os') = d' at *
    clear * - k1 k2 e4
    induction os generalizing os' with
    | nil =>
      cases os' with
      | nil => exact .nil
      | cons => cases e4
    | cons o os ih =>
      cases os' with
      | nil => cases e4
      | cons o' os' =>
        rw [List.map_cons, List.map_cons, List.cons.injEq] at e4
        obtain ⟨i1, r1⟩ := k1 o (by simp)
        obtain ⟨i2, r2⟩ := k2 o' (by simp)
        refine .cons ⟨?_, tileParts m' o.tile, r1, ?_⟩ (ih e4.2 (fun o ho => k1 o (by simp [ho])) fun o ho => k2 o (by simp [ho]))
        · rw [i1, i2]
          exact congrArg (·.sketch.id) e4.1
        · rw [e4.1]
          exact r2
  rw [this]

/-! ## Numbers in their place -/

theorem penMap_form (c : PenCmd) : formMap c.form = penMap c := by cases c <;> rfl

theorem cmd_form (c : PenCmd) : c.form.cmd = c := by cases c <;> rfl

theorem penDrawing_form (cs : List PenCmd) : formDrawing (cs.map PenCmd.form) = penDrawing cs := by
  simp only [formDrawing, penDrawing, List.map_map, Function.comp_def, penMap_form]

theorem tileMap_form (o : Tile) : formTileMap o.form = tileMap o := by
  simp only [formTileMap, tileMap, Tile.form, List.map_map, Function.comp_def, penDrawing_form]
  rfl

theorem tile_form (o : Tile) : o.form.tile = o := by
  obtain ⟨⟨i, ds⟩, t, k⟩ := o
  simp [FormTile.tile, Tile.form, Function.comp_def, cmd_form]

theorem tileDoc_form (s : Sheet ℝ) (os : List Tile) : formDoc [] (.plain s.width) (.plain s.height) (.plain s.padding) (os.map Tile.form) = tileDoc s os := by
  simp only [formDoc, tileDoc, paramsPart, List.map_map, Function.comp_def, tileMap_form]
  rfl

theorem fine_none (lib : Lib (XNum ℝ) O) : FineParams lib [] := ⟨by simp, by simp, by simp⟩

theorem look_none (lib : Lib (XNum ℝ) O) (t : Text) : paramLook [] t = none := by
  unfold paramLook
  rw [Chain.lookup, localLookup, (fine_none lib).define]
  rfl

theorem fine_form (lib : Lib (XNum ℝ) O) (o : Tile) (hi : o.sketch.id ≠ []) (hl : Free o.label) : o.form.Fine lib [] := by
  refine ⟨hi, ?_, ⟨trivial, rfl⟩, hl, look_none lib _⟩
  intro cs hcs c hc
  obtain ⟨ps, _, rfl⟩ := List.mem_map.mp hcs
  obtain ⟨q, _, rfl⟩ := List.mem_map.mp hc
  have plain : ∀ x : ℝ, Stands lib [] (.plain x) ∧ ∀ key, Clear [] key (.plain x) := fun x => ⟨trivial, fun _ => trivial⟩
  cases q <;> simp [PenCmd.form, Form.Fine, Form.points, Form.named, plain]

/-- **C142.** A document of tiles whose numbers are expressions of parameters is written to the same files as the document with the numbers in their place. -/
theorem C142_values (m : Machine (XNum ℝ) O) (hi : ∀ k : Nat, m.toInt (.fin k) = k) {ps : DMap (XNum ℝ)} (h : FineParams m.lib ps) {a b p : Slot} {os : List FormTile}
    (ha : Stands m.lib ps a) (hb : Stands m.lib ps b) (hp : Stands m.lib ps p) (ho : ∀ o ∈ os, o.Fine m.lib ps) :
    ∃ f0, ∀ fuel, f0 ≤ fuel → ∀ files, Machine.sheets { m with fuel := fuel } (files + 1) (formDoc ps a b p os) =
      Machine.sheets { m with fuel := fuel } (files + 1) (tileDoc ⟨a.worth, b.worth, p.worth⟩ (os.map FormTile.tile)) := by
  rw [← tileDoc_form]
  refine C142_same m hi h (fine_none _) ha hb hp ho trivial trivial trivial ?_ rfl rfl rfl ?_
  · intro o ho'
    obtain ⟨o1, h1, rfl⟩ := List.mem_map.mp ho'
    obtain ⟨o2, h2, rfl⟩ := List.mem_map.mp h1
    exact fine_form m.lib o2.tile (ho o2 h2).id (ho o2 h2).label.1
  · simp only [List.map_map, Function.comp_def, tile_form]

/-- **C142.** Whoever reads the files that the program writes for a document of tiles whose numbers are expressions of parameters sees the tiles with the values of the
expressions (C141). -/
theorem C142_seen (m : Machine (XNum ℝ) O) (hi : ∀ k : Nat, m.toInt (.fin k) = k) {ps : DMap (XNum ℝ)} (h : FineParams m.lib ps) {a b p : Slot} {os : List FormTile}
    (ha : Stands m.lib ps a) (hb : Stands m.lib ps b) (hp : Stands m.lib ps p) (h0 : 0 ≤ p.worth) (hf : ∀ o ∈ os, o.Fine m.lib ps)
    (ho : ∀ o ∈ os, o.tile.sketch.Wide ∧ o.tile.sketch.Bounded ∧ Unmarked o.id) (hl : ∀ o ∈ os, Inert o.label ∧ Unmarked o.label ∧ (o.label ≠ [] → trimSpace o.label ≠ [])) :
    ∃ f0, ∀ fuel, f0 ≤ fuel → ∀ files, ∃ (texts : List SheetText) (seen : List (List SeenPart)) (cs : List (Tile × Nat)),
      Machine.sheets { m with fuel := fuel } (files + 1) (formDoc ps a b p os) = .ok texts ∧
      List.Forall₂ (fun t gs => t.2 = false ∧ SeesPlan ⟨a.worth, b.worth, p.worth⟩ .inch t.1 gs) texts seen ∧ cs.Perm (allCopies (os.map FormTile.tile)) ∧
      List.Forall₂ (ShowsCopy (1 / 1000)) cs seen.flatten ∧
      (TilesNeverFill ⟨a.worth, b.worth, p.worth⟩ (os.map FormTile.tile) → ∀ gs ∈ seen, (∃ g, gs = [g]) ∨
        ((∀ g ∈ gs, g.drawing.Inside (p.worth - 1 / 1000) ⟨a.worth, b.worth, p.worth⟩) ∧
          gs.Pairwise fun g g' => Seen.Apart (2 * p.worth - 1 / 500) g.drawing g'.drawing)) := by
  obtain ⟨f0, h1⟩ := C142_values m hi h ha hb hp hf
  refine ⟨f0 + 1, fun fuel hle files => ?_⟩
  rw [h1 fuel (by omega) files]
  refine C141_seen { m with fuel := fuel } (show 0 < fuel by omega) hi files ⟨a.worth, b.worth, p.worth⟩ h0 _ ?_ ?_
  · intro o ho'
    obtain ⟨o1, h2, rfl⟩ := List.mem_map.mp ho'
    exact ⟨(ho o1 h2).1, (ho o1 h2).2.1, (hf o1 h2).id, (ho o1 h2).2.2⟩
  · intro o ho'
    obtain ⟨o1, h2, rfl⟩ := List.mem_map.mp ho'
    exact hl o1 h2

/-! ## Example -/

/-- A small language: `r+r` and `5*side` are what they look like, and every other text is the name that it is. -/
noncomputable def sizeLib : Lib (XNum ℝ) Bool where
  parse s :=
    if s = "r+r".toList then some (.op true (.var "r".toList) (.var "r".toList))
    else if s = "5*side".toList then some (.op false (.num (.fin 5)) (.var "side".toList))
    else some (.var s)
  shortcut _ := none
  op b x y :=
    match b, x, y with
    | true, .num (.fin x), .num (.fin y) => some (.num (.fin (x + y)))
    | false, .num (.fin x), .num (.fin y) => some (.num (.fin (x * y)))
    | _, _, _ => none

/-- The parameters: a number, and a text with another parameter. -/
def sizes : DMap (XNum ℝ) := [("r".toList, .num (.fin 1)), ("side".toList, .str "r+r".toList)]

theorem sizes_fine : FineParams sizeLib sizes where
  nodup := by simp [sizes]
  names := by
    intro e he
    simp only [sizes, List.mem_cons, List.not_mem_nil, or_false] at he
    rcases he with rfl | rfl
    · exact ⟨by decide, by decide, rfl⟩
    · exact ⟨by decide, by decide, rfl⟩
  values := by
    intro e he
    simp only [sizes, List.mem_cons, List.not_mem_nil, or_false] at he
    rcases he with rfl | rfl
    · exact .inl ⟨_, rfl⟩
    · exact .inr ⟨_, rfl, by decide, by unfold Free; decide, by simp only [toFloat64, toFloat]; rfl⟩

theorem look_r : paramLook sizes "r".toList = some (.num (.fin 1)) := by
  unfold paramLook
  rw [Chain.lookup, localLookup, sizes_fine.define]
  rfl

theorem look_side : paramLook sizes "side".toList = some (.str "r+r".toList) := by
  unfold paramLook
  rw [Chain.lookup, localLookup, sizes_fine.define]
  show localLookup _ "r+r".toList 1 = _
  rw [localLookup, sizes_fine.define]
  rfl

theorem stands_r : Stands sizeLib sizes (.text "r".toList 1) :=
  ⟨by decide, by unfold Free; decide, 0, by decide, .parsed _ (.var "r".toList) _ _ rfl (.number _ _ _ look_r rfl rfl)⟩

theorem means_side (ok : Nat → Prop) : MeansE sizeLib (paramLook sizes) ok (.var "side".toList) (.num (.fin 2)) 1 := by
  refine .ref _ "r+r".toList _ 0 ⟨look_side, by decide, by simp only [toFloat64, toFloat]; rfl⟩ (.parsed _ _ _ _ rfl ?_)
  have e : MeansE sizeLib (paramLook sizes) ok (.var "r".toList) (.num (.fin 1)) 0 := .number _ _ _ look_r rfl rfl
  refine .op true _ _ _ _ _ 0 0 e rfl e ?_
  simp only [sizeLib]
  norm_num

theorem stands_sheet : Stands sizeLib sizes (.text "5*side".toList 10) := by
  refine ⟨by decide, by unfold Free; decide, 1, by decide, .parsed _ _ _ _ rfl ?_⟩
  refine .op false _ _ _ _ _ 0 1 (.num _) rfl (means_side _) ?_
  simp only [sizeLib]
  norm_num

/-- A wheel of radius `r`, as many as `side`. -/
def sizedWheel : FormTile :=
  ⟨"w".toList, [[.circle (.text "r".toList 1)], [.move (.plain 0) (.text "r".toList 1), .curve (.plain 0) (.plain 0) (.text "r".toList 1) (.plain 0) (.plain 1) (.plain 1),
    .relSmooth (.plain 1) (.text "r".toList 1) (.plain 1) (.plain 0)]], "Front wheel".toList, 2, .text "side".toList 2⟩

theorem sizedWheel_fine : sizedWheel.Fine sizeLib sizes where
  id := by decide
  cmds := by
    have p : ∀ x : ℝ, Stands sizeLib sizes (.plain x) := fun x => trivial
    have c : Clear sizes "radius".toList (.text "r".toList 1) := .inl (by decide)
    have r := stands_r
    intro cs hcs
    simp only [sizedWheel, List.mem_cons, List.not_mem_nil, or_false] at hcs
    rcases hcs with rfl | rfl <;> intro q hq <;> simp only [List.mem_cons, List.not_mem_nil, or_false] at hq
    · subst hq
      refine ⟨by simp [Form.points], ?_⟩
      intro e he
      simp only [Form.named, List.mem_cons, List.not_mem_nil, or_false] at he
      subst he
      exact ⟨r, c⟩
    · rcases hq with rfl | rfl | rfl <;> refine ⟨?_, by simp [Form.named]⟩ <;> intro s hs <;> simp only [Form.points, List.mem_cons, List.not_mem_nil, or_false] at hs
      · rcases hs with rfl | rfl <;> first | exact p _ | exact r
      · rcases hs with rfl | rfl | rfl | rfl | rfl | rfl <;> first | exact p _ | exact r
      · rcases hs with rfl | rfl | rfl | rfl <;> first | exact p _ | exact r
  total := ⟨⟨by decide, by unfold Free; decide, 1, by decide, .parsed _ (.var "side".toList) _ _ rfl (means_side _)⟩, by simp [sizedWheel, Slot.worth]⟩
  label := by
    refine ⟨by unfold Free; decide, ?_⟩
    unfold paramLook
    rw [Chain.lookup, localLookup, sizes_fine.define]
    rfl

/-- **C142** is not empty: two wheels on a sheet of ten by ten, all sizes from one parameter. -/
example (m : Machine (XNum ℝ) Bool) :
    let o : Tile := ⟨wheel "w".toList, "Front wheel".toList, 2⟩
    ∃ f0, ∀ fuel, f0 ≤ fuel → ∀ files, ∃ (texts : List SheetText) (seen : List (List SeenPart)) (cs : List (Tile × Nat)),
      Machine.sheets { m with lib := sizeLib, fuel := fuel, toInt := fun x => ⌊realOf x⌋ } (files + 1)
        (formDoc sizes (.text "5*side".toList 10) (.plain 10) (.plain (1 / 4)) [sizedWheel]) = .ok texts ∧
      List.Forall₂ (fun t gs => t.2 = false ∧ SeesPlan ⟨10, 10, 1 / 4⟩ .inch t.1 gs) texts seen ∧ cs.Perm [(o, 0), (o, 1)] ∧
      List.Forall₂ (ShowsCopy (1 / 1000)) cs seen.flatten := by
  intro o
  have e : sizedWheel.tile = o := rfl
  obtain ⟨f0, h⟩ := C142_seen { m with lib := sizeLib, toInt := fun x => ⌊realOf x⌋ } (fun k => by simp [realOf]) (os := [sizedWheel]) sizes_fine
    stands_sheet (b := .plain 10) trivial (p := .plain (1 / 4)) trivial (by norm_num [Slot.worth]) (by
      intro o' ho
      rw [List.mem_singleton] at ho
      subst ho
      exact sizedWheel_fine) (by
      intro o' ho
      rw [List.mem_singleton] at ho
      subst ho
      have := wheel_fine "w".toList ⟨by decide, unmarked_of_all (by decide)⟩
      exact ⟨this.1, this.2.1, this.2.2.2⟩) (by
      intro o' ho
      rw [List.mem_singleton] at ho
      subst ho
      exact ⟨⟨by decide, by decide, by decide⟩, unmarked_of_all (by decide), fun _ => by decide⟩)
  refine ⟨f0, fun fuel hle files => ?_⟩
  obtain ⟨texts, seen, cs, h1, h2, h3, h4, -⟩ := h fuel hle files
  exact ⟨texts, seen, cs, h1, h2, h3, h4⟩

end Verif.Render
