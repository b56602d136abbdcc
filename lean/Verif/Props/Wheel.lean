import Verif.Spec.Wheel
import Verif.Lemmas.Piece
import Verif.Props.Plate
import Verif.Props.Gear
import Verif.Props.Refine

/-!
# Property C156: gears in documents
-/

set_option linter.unusedSectionVars false
set_option linter.unusedSimpArgs false

namespace Verif.Render

open Verif Verif.Dyn Verif.Path Verif.PlanSet Verif.Svg Verif.Files Verif.Xml Verif.Spec

variable {O : Type}

/-- The element of a gear. -/
def Wheel.elem (o : Wheel) : Elem (XNum ℝ) := ⟨[], o.map, []⟩

/-- The words of a gear. -/
def wheelWords : List Text := ["type".toList, "teeth".toList, "tooth_width".toList, "pressure_angle".toList, "clearance".toList, "backlash".toList]

theorem lookup_entry {key k : Text} (h : k ≠ key) (x : Option ℝ) (l : DMap (XNum ℝ)) : (entryOf key x ++ l).lookup k = l.lookup k := by
  cases x with
  | none => rfl
  | some x => simp only [entryOf, List.singleton_append, List.lookup, beq_eq_false_iff_ne.mpr h]

theorem lookup_entry_own (key : Text) (x : Option ℝ) (l : DMap (XNum ℝ)) (hl : l.lookup key = none) :
    (entryOf key x ++ l).lookup key = x.map fun x => .num (.fin x) := by
  cases x with
  | none => exact hl
  | some x => simp only [entryOf, List.singleton_append, List.lookup, beq_self_eq_true, Option.map_some]

theorem wheel_map (o : Wheel) : o.map = ("type".toList, .str "gear".toList) :: (entryOf "teeth".toList (o.teeth.map Nat.cast) ++ (entryOf "tooth_width".toList o.width ++
    (entryOf "pressure_angle".toList o.angle ++ (entryOf "clearance".toList o.clearance ++ (entryOf "backlash".toList o.backlash ++ []))))) := by
  simp only [Wheel.map, List.append_assoc, List.append_nil]

theorem wheel_absent (o : Wheel) {k : Text} (h : k ∉ wheelWords) : o.map.lookup k = none := by
  simp only [wheelWords, List.mem_cons, List.not_mem_nil, or_false, not_or] at h
  obtain ⟨h1, h2, h3, h4, h5, h6⟩ := h
  rw [wheel_map, List.lookup, beq_eq_false_iff_ne.mpr h1, lookup_entry h2, lookup_entry h3, lookup_entry h4, lookup_entry h5, lookup_entry h6]
  rfl

theorem wheel_teeth (o : Wheel) : o.map.lookup teethKey = o.teeth.map fun n => .num (.fin (n : ℝ)) := by
  rw [wheel_map, List.lookup, beq_eq_false_iff_ne.mpr (show teethKey ≠ "type".toList by decide +kernel)]
  refine (lookup_entry_own "teeth".toList _ _ ?_).trans (by rw [Option.map_map]; rfl)
  rw [lookup_entry (by decide +kernel), lookup_entry (by decide +kernel), lookup_entry (by decide +kernel), lookup_entry (by decide +kernel)]
  rfl

theorem wheel_width (o : Wheel) : o.map.lookup toothWidthKey = o.width.map fun x => .num (.fin x) := by
  rw [wheel_map, List.lookup, beq_eq_false_iff_ne.mpr (show toothWidthKey ≠ "type".toList by decide +kernel)]
  show List.lookup toothWidthKey _ = _
  rw [lookup_entry (by decide +kernel)]
  refine lookup_entry_own "tooth_width".toList _ _ ?_
  rw [lookup_entry (by decide +kernel), lookup_entry (by decide +kernel), lookup_entry (by decide +kernel)]
  rfl

theorem wheel_angle (o : Wheel) : o.map.lookup pressureKey = o.angle.map fun x => .num (.fin x) := by
  rw [wheel_map, List.lookup, beq_eq_false_iff_ne.mpr (show pressureKey ≠ "type".toList by decide +kernel)]
  show List.lookup pressureKey _ = _
  rw [lookup_entry (by decide +kernel), lookup_entry (by decide +kernel)]
  refine lookup_entry_own "pressure_angle".toList _ _ ?_
  rw [lookup_entry (by decide +kernel), lookup_entry (by decide +kernel)]
  rfl

theorem wheel_clearance (o : Wheel) : o.map.lookup clearanceKey = o.clearance.map fun x => .num (.fin x) := by
  rw [wheel_map, List.lookup, beq_eq_false_iff_ne.mpr (show clearanceKey ≠ "type".toList by decide +kernel)]
  show List.lookup clearanceKey _ = _
  rw [lookup_entry (by decide +kernel), lookup_entry (by decide +kernel), lookup_entry (by decide +kernel)]
  refine lookup_entry_own "clearance".toList _ _ ?_
  rw [lookup_entry (by decide +kernel)]
  rfl

theorem wheel_backlash (o : Wheel) : o.map.lookup backlashKey = o.backlash.map fun x => .num (.fin x) := by
  rw [wheel_map, List.lookup, beq_eq_false_iff_ne.mpr (show backlashKey ≠ "type".toList by decide +kernel)]
  show List.lookup backlashKey _ = _
  rw [lookup_entry (by decide +kernel), lookup_entry (by decide +kernel), lookup_entry (by decide +kernel), lookup_entry (by decide +kernel)]
  exact lookup_entry_own "backlash".toList _ _ rfl

/-- The names that nothing around a gear has. -/
def FarFromWheel (k : Text) : Prop := k ∉ ["id".toList, "components".toList, "type".toList, "part_index".toList] ∧
  k ∉ ["material_width".toList, "material_height".toList, "doc_padding".toList, "parts".toList]

instance (k : Text) : Decidable (FarFromWheel k) := by unfold FarFromWheel; infer_instance

theorem wheel_undefined {doc : Elem (XNum ℝ)} (hd : Bare doc) (p : Piece) (o : Wheel) {k : Text} (hk : dots k = [k]) (h : FarFromWheel k) (h0 : o.map.lookup k = none) :
    (Chain.component o.elem (.component ⟨[], shownPiece p, []⟩ (.document doc []))).Undefined k ∧
    NoDefault k (Chain.component o.elem (.component ⟨[], shownPiece p, []⟩ (.document doc []))) := by
  have a1 : o.elem.allParams = [] := by
    show (getDynMap o.map paramsKey).getD [] = []
    unfold getDynMap
    rw [get_absent (key := paramsKey) (k := paramsKey) (ks := []) (by decide +kernel) (wheel_absent o (by decide +kernel)) (wheel_absent o (by decide +kernel))]
    rfl
  have a2 : (⟨[], shownPiece p, []⟩ : Elem (XNum ℝ)).allParams = [] := rfl
  refine ⟨⟨by rw [a1]; exact Render.get_nil _, get_absent hk h0 h0, by rw [a2]; exact Render.get_nil _,
    get_absent hk (shownPiece_absent _ _ h.1) (shownPiece_absent _ _ h.1), by rw [hd.allParams]; exact Render.get_nil _, hd.get hk h.2 h.2, Render.get_nil _⟩,
    Render.get_nil _, Render.get_nil _, ?_⟩
  show Dyn.get doc.defaults k = none
  rw [hd.defaults]
  exact Render.get_nil _

section Wheels

variable (m : Machine (XNum ℝ) O) {doc : Elem (XNum ℝ)} (hd : Bare doc) (p : Piece) (o : Wheel) (cursor : Point (XNum ℝ))

/-- The attributes of a gear. -/
noncomputable def wheelAttrs : Source (XNum ℝ) O := m.attrs (pieceSpot doc p) [] o.elem (some cursor) o.map

include hd in
theorem wheel_number {k : Text} (hk : dots k = [k]) (hf : FarFromWheel k) {x : Option ℝ} (h : o.map.lookup k = x.map fun x => .num (.fin x)) :
    found ((wheelAttrs m (doc := doc) p o cursor).number m.fuel k) = x.map .fin := by
  have hg : Dyn.get o.map k = o.map.lookup k := by
    cases hx : o.map.lookup k with
    | none => exact get_absent hk hx hx
    | some v => simp only [Dyn.get, hx]
  cases x with
  | none =>
    obtain ⟨h1, h2⟩ := wheel_undefined hd p o hk hf h
    have : (wheelAttrs m (doc := doc) p o cursor).find k = none := attrLookup_absent 0 (show Dyn.get o.map k = none by rw [hg, h]; rfl) h1 h2
    simp only [Source.number, this]
    rfl
  | some x =>
    rw [C91_number (wheelAttrs m (doc := doc) p o cursor) _ _ (.fin x) (by rw [show Dyn.get (wheelAttrs m (doc := doc) p o cursor).mp k = o.map.lookup k from hg, h]; rfl)]
    rfl

include hd in
theorem wheel_size (ht : Faithful m.toInt) (ho : o.Fits) : m.gearSize (wheelAttrs m (doc := doc) p o cursor) = gearSize o.dims := by
  have e1 : ∀ (k : Text) (x : Option ℝ) (d : ℝ) (d' : XNum ℝ), d' = .fin d → found ((wheelAttrs m (doc := doc) p o cursor).number m.fuel k) = x.map .fin →
      m.number (wheelAttrs m (doc := doc) p o cursor) k d' = .fin (x.getD d) := by
    intro k x d d' hd h
    show (found _).getD d' = _
    rw [h, hd]
    cases x <;> rfl
  have e2 : m.int (wheelAttrs m (doc := doc) p o cursor) teethKey 10 = (o.teeth.getD 10 : ℕ) := by
    show ((found _).map m.toInt).getD 10 = _
    rw [wheel_number m hd p o cursor (by decide +kernel) (by decide +kernel) (x := o.teeth.map Nat.cast) (by rw [wheel_teeth, Option.map_map]; rfl)]
    cases hx : o.teeth with
    | none => rfl
    | some n =>
      have := ho.count
      simp only [Wheel.dims, hx, Option.getD_some] at this
      simp only [Option.map_some, Option.getD_some]
      exact_mod_cast ht (n : ℤ) (by rw [abs_of_nonneg (by positivity)]; exact_mod_cast this)
  unfold Machine.gearSize gearSize
  rw [e2, e1 toothWidthKey _ (1 / 2) _ (by rw [XNum.lit_fin]; norm_num) (wheel_number m hd p o cursor (by decide +kernel) (by decide +kernel) (wheel_width o)),
    e1 pressureKey _ 20 _ (by rw [XNum.lit_fin]; norm_num) (wheel_number m hd p o cursor (by decide +kernel) (by decide +kernel) (wheel_angle o)),
    e1 clearanceKey _ (1 / 100) _ (by rw [XNum.lit_fin]; norm_num) (wheel_number m hd p o cursor (by decide +kernel) (by decide +kernel) (wheel_clearance o)),
    e1 backlashKey _ (1 / 100) _ (by rw [XNum.lit_fin]; norm_num) (wheel_number m hd p o cursor (by decide +kernel) (by decide +kernel) (wheel_backlash o))]
  rfl

/-- The component that is made of a gear. -/
def Wheel.node (w : World (XNum ℝ)) (o : Wheel) : Dyn.Node (XNum ℝ) := .mk (w.idOf o.map) o.map []

theorem make_wheel (w : World (XNum ℝ)) (n : Nat) (o : Wheel) : w.make [] (n + 1) o.map = .val (o.node w) := by
  have h1 : w.text o.map typeKey = some Built.gear.text := text_type w (b := .gear) rfl
  rw [World.make]
  simp only [h1, built_text, World.create]
  rfl

theorem live_wheel (w : World (XNum ℝ)) (o : Wheel) : live w (o.node w) = .mk .gear (w.idOf o.map) o.elem [] := by
  have h1 : w.text o.map typeKey = some Built.gear.text := text_type w (b := .gear) rfl
  have e : elemOf o.map = o.elem := by
    have s1 : sub o.map paramsName = [] := by
      unfold sub getDynMap
      rw [get_absent (key := paramsName) (k := paramsName) (ks := []) (by decide +kernel) (wheel_absent o (by decide +kernel)) (wheel_absent o (by decide +kernel))]
      rfl
    have s2 : sub o.map defaultsKey = [] := by
      unfold sub getDynMap
      rw [get_absent (key := defaultsKey) (k := defaultsKey) (ks := []) (by decide +kernel) (wheel_absent o (by decide +kernel)) (wheel_absent o (by decide +kernel))]
      rfl
    unfold elemOf Wheel.elem
    rw [s1, s2]
  simp only [Wheel.node, live, lives, h1, built_text, Option.getD_some, e]

theorem neat_wheel (o : Wheel) : Neat (.map o.map) := by
  have key : ∀ e ∈ o.map, e.1 ∈ wheelWords ∧ Neat e.2 := by
    intro e he
    simp only [Wheel.map, List.mem_cons, List.mem_append] at he
    have h : ∀ (k : Text) (x : Option ℝ), e ∈ entryOf k x → e.1 = k ∧ Neat e.2 := by
      intro k x hx
      cases x with
      | none => cases hx
      | some x =>
        simp only [entryOf, List.mem_singleton] at hx
        subst hx
        exact ⟨rfl, .num _⟩
    rcases he with rfl | (((he | he) | he) | he) | he
    · exact ⟨by decide +kernel, .str _⟩
    all_goals
      obtain ⟨e1, e2⟩ := h _ _ he
      exact ⟨by rw [e1]; decide +kernel, e2⟩
  have hd : List.Sublist (o.map.map Prod.fst) wheelWords := by
    have h : ∀ (k : Text) (x : Option ℝ), List.Sublist ((entryOf k x).map Prod.fst) [k] := by
      intro k x
      cases x with
      | none => exact List.nil_sublist _
      | some x => exact List.Sublist.refl _
    rw [wheel_map, List.map_cons, List.map_append, List.map_append, List.map_append, List.map_append, List.map_append]
    exact .cons_cons _ ((h _ _).append ((h _ _).append ((h _ _).append ((h _ _).append ((h _ _).append (List.Sublist.refl _))))))
  exact .map (hd.nodup (show wheelWords.Nodup by decide +kernel)) (fun e he => (show ∀ k ∈ wheelWords, '.' ∉ k by decide +kernel) _ (key e he).1) fun e he => (key e he).2

include hd in
/-- **C156.** A gear in a document is rendered to the gear that is meant, wherever the cursor is. -/
theorem C156_gear (hf : 0 < m.fuel) (ht : Faithful m.toInt) (ho : o.Fits) : ∃ r : Path ℝ,
    m.render m.fuel (pieceSpot doc p) (live m.world (o.node m.world)) [] cursor = .ok (finPath r, live m.world (o.node m.world), []) ∧ strokes r = o.draws ∧ Inked none r ∧ r ≠ [] := by
  obtain ⟨f, hf'⟩ : ∃ f, m.fuel = f + 1 := ⟨m.fuel - 1, by omega⟩
  obtain ⟨r, h2, h3⟩ := outline_corners o.dims ho.ok
  have hi : Inked none r := (inked_finPath none r).1 (by
    have := inked_outline (gearSize o.dims) (show (1 : ℤ) ≤ (o.dims.teeth : ℤ) by exact_mod_cast ho.ok.teeth)
    rw [h2] at this
    exact this)
  have hs : strokes r = o.draws := h3
  have hne : r ≠ [] := by
    rintro rfl
    have := congrArg List.length hs
    obtain ⟨n, hn⟩ : ∃ n, o.dims.teeth = n + 1 := ⟨o.dims.teeth - 1, by have := ho.ok.teeth; omega⟩
    simp [Wheel.draws, polygon, hn, List.range_succ_eq_map, toothCorners] at this
  refine ⟨r, ?_, hs, hi, hne⟩
  have hname : (wheelAttrs m (doc := doc) p o cursor).string gearVariableKey = none := by
    have h0 : o.map.lookup gearVariableKey = none := wheel_absent o (by decide +kernel)
    obtain ⟨k1, k2⟩ := wheel_undefined hd p o (k := gearVariableKey) (by decide +kernel) (by decide +kernel) h0
    have : (wheelAttrs m (doc := doc) p o cursor).find gearVariableKey = none :=
      attrLookup_absent 0 (get_absent (k := gearVariableKey) (ks := []) (by decide +kernel) h0 h0) k1 k2
    simp only [Source.string, this]
  have htr : slice o.map transformsKey = [] := by
    have h0 : o.map.lookup transformsKey = none := wheel_absent o (by decide +kernel)
    rw [slice_plain (by decide +kernel), h0]
  have hfin : finPath r ≠ [] := by simpa [finPath] using hne
  have ha : m.attrs (pieceSpot doc p) [] o.elem (some cursor) o.elem.original = wheelAttrs m (doc := doc) p o cursor := rfl
  rw [live_wheel, hf', Machine.render.eq_def]
  simp only [Live.kind, Machine.renderGear, Live.elem, ha, Machine.setGear, hname, wheel_size m hd p o cursor ht ho, h2, Res.ok_bind, Machine.finishAt]
  rw [show o.elem.original = o.map from rfl, htr, List.map_nil, finish_none _ _ _ hfin]
  rfl

end Wheels

/-- **C156.** Nothing of a gear is outside of its outer circle. -/
theorem C156_within (o : Wheel) (ho : o.dims.Ok) {q : Pt ℝ} (h : Meets o.draws q) : q.1 ^ 2 + q.2 ^ 2 ≤ o.dims.outer ^ 2 := by
  obtain ⟨r, h2, h3⟩ := outline_corners o.dims ho
  have hs : strokes r = o.draws := h3
  rw [← hs] at h
  exact C82_within o.dims ho r h2 q h

/-- The gear with nothing said. -/
def plainWheel : Wheel := ⟨none, none, none, none, none⟩

theorem plainWheel_fits : plainWheel.Fits where
  ok := by
    have := gear_default_ok
    norm_num at this
    have e : plainWheel.dims = ⟨10, 1 / 2, 20, 1 / 100, 1 / 100⟩ := rfl
    rw [e]
    exact this
  count := by show (10 : ℕ) < _; norm_num

/-- **C156** is not empty: the gear of a document that says nothing but its type. -/
example (m : Machine (XNum ℝ) O) (hf : 0 < m.fuel) (ht : Faithful m.toInt) {doc : Elem (XNum ℝ)} (hd : Bare doc) (p : Piece) (cursor : Point (XNum ℝ)) :
    plainWheel.map = [("type".toList, .str "gear".toList)] ∧ ∃ r : Path ℝ,
      m.render m.fuel (pieceSpot doc p) (live m.world (plainWheel.node m.world)) [] cursor = .ok (finPath r, live m.world (plainWheel.node m.world), []) ∧ (strokes r).length = 160 := by
  obtain ⟨r, h1, h2, -, -⟩ := C156_gear m hd p plainWheel cursor hf ht plainWheel_fits
  refine ⟨rfl, r, h1, ?_⟩
  rw [h2]
  simp [Wheel.draws, polygon, plainWheel, Wheel.dims, toothCorners, List.length_flatMap]

end Verif.Render
