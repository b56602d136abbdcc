import Verif.Spec.Plate
import Verif.Lemmas.Piece
import Verif.Props.OffsetRect

/-!
# Property C149: what a reader of the written files sees of a document of plates
-/

set_option linter.unusedSectionVars false

namespace Verif.Render

open Verif Verif.Dyn Verif.Path Verif.PlanSet Verif.Svg Verif.Files Verif.Xml Verif.Spec

universe u

variable {O : Type}

/-! ## Attributes that are nowhere to be found -/

/-- No defaults along the chain have it. -/
def NoDefault {F : Type u} (key : Text) : Chain F → Prop
  | .document e _ => Dyn.get e.defaults key = none
  | .component e parent => Dyn.get e.defaults key = none ∧ NoDefault key parent

theorem attrDefault_absent {F : Type u} [Trig F] (c : Chain F) (mp : DMap F) (key : Text) : ∀ (e : Chain F) (r : Nat), NoDefault key e → attrDefault c mp e key r = none
  | .document e ctx, r, h => by
    rw [attrDefault.eq_def, show Dyn.get (Chain.document e ctx).elem.defaults key = none from h]
  | .component e parent, r, h => by
    rw [attrDefault.eq_def, show Dyn.get (Chain.component e parent).elem.defaults key = none from h.1]
    exact attrDefault_absent c mp key parent (r + 1) h.2

theorem attrLookup_absent {F : Type u} [Trig F] {c : Chain F} {mp : DMap F} {key : Text} (r : Nat) (h0 : Dyn.get mp key = none) (h1 : c.Undefined key)
    (h2 : NoDefault key c) : attrLookup c mp key r = none := by
  rw [attrLookup]
  split
  · rfl
  · simp only [h0, C46_missing c key h1, attrDefault_absent c mp key c r h2]

/-- A text that names nothing stands for itself. -/
theorem string_given {F : Type u} [Trig F] {O : Type} (a : Source F O) (key t : Text) (h : Dyn.get a.mp key = some (.str t)) (hk : t ≠ key)
    (h0 : Dyn.get a.mp t = none) (h1 : a.chain.Undefined t) (h2 : NoDefault t a.chain) : a.string key = some t := by
  have : a.find key = some (.str t) := by
    unfold Source.find
    rw [attrLookup]
    simp only [show ¬ 0 > recursionMax from by decide, if_false, h, ne_eq, hk, not_false_eq_true, if_true, attrLookup_absent 1 h0 h1 h2]
  simp only [Source.string, this, Source.textOf, C46_missing _ _ h1]
  split <;> rfl

/-! ## The drawing -/

theorem straight_run {c : PenCmd} (h : c.Straight) (p : Path ℝ) : ∃ l, c.run p = p ++ l ∧ ∀ s ∈ l, s.isMove = false := by
  cases c <;> simp only [PenCmd.Straight] at h
  case line q => exact ⟨_, rfl, by simp [Segment.isMove]⟩
  case relLine q => exact ⟨_, rfl, by simp [Segment.isMove]⟩
  case angle l a => exact ⟨_, rfl, by simp [Segment.isMove]⟩
  case rectangle w k =>
    simp only [PenCmd.run, rect, relLineTo, lineTo, List.append_assoc]
    refine ⟨_, rfl, ?_⟩
    simp [Segment.isMove]

theorem straight_runs : ∀ (cs : List PenCmd) (_ : ∀ c ∈ cs, c.Straight) (p : Path ℝ), ∃ l, penRun p cs = p ++ l ∧ ∀ s ∈ l, s.isMove = false
  | [], _, p => ⟨[], by simp [penRun], by simp⟩
  | c :: cs, h, p => by
    obtain ⟨l1, e1, h1⟩ := straight_run (h c (by simp)) p
    obtain ⟨l2, e2, h2⟩ := straight_runs cs (fun c hc => h c (by simp [hc])) (c.run p)
    refine ⟨l1 ++ l2, by rw [penRun, e2, e1, List.append_assoc], ?_⟩
    intro s hs
    rcases List.mem_append.mp hs with hs | hs
    · exact h1 s hs
    · exact h2 s hs

/-- The component that is made of a drawing. -/
def componentNode (w : World (XNum ℝ)) (mp : DMap (XNum ℝ)) : Dyn.Node (XNum ℝ) := .mk (w.idOf mp) mp []

theorem make_drawing (w : World (XNum ℝ)) (xs : List (Text × DMap (XNum ℝ))) (n : Nat) (mp : DMap (XNum ℝ)) (h : mp.lookup typeKey = some (.str Built.draw.text)) :
    w.make xs (n + 1) mp = .val (componentNode w mp) := by
  have h1 : w.text mp typeKey = some Built.draw.text := text_type w (b := .draw) h
  rw [World.make]
  simp only [h1, built_text, World.create]
  rfl

theorem plate_undefined {doc : Elem (XNum ℝ)} (hd : Bare doc) (o : Plate) (key : Text) (hk : dots key = [key])
    (h1 : key ∉ ["type".toList, "commands".toList, "transforms".toList]) (h2 : key ∉ ["id".toList, "components".toList, "type".toList, "part_index".toList])
    (h3 : key ∉ ["material_width".toList, "material_height".toList, "doc_padding".toList, "parts".toList]) :
    (Chain.component ⟨[], plateDrawing o, []⟩ (.component ⟨[], shownPiece o.piece, []⟩ (.document doc []))).Undefined key ∧
    NoDefault key (Chain.component ⟨[], plateDrawing o, []⟩ (.component ⟨[], shownPiece o.piece, []⟩ (.document doc []))) := by
  have hp : (plateDrawing o).lookup key = none := by
    simp only [List.mem_cons, List.not_mem_nil, or_false, not_or] at h1
    simp only [plateDrawing, List.lookup, beq_eq_false_iff_ne.mpr h1.1, beq_eq_false_iff_ne.mpr h1.2.1, beq_eq_false_iff_ne.mpr h1.2.2]
  have a1 : (⟨[], plateDrawing o, []⟩ : Elem (XNum ℝ)).allParams = [] := rfl
  have a2 : (⟨[], shownPiece o.piece, []⟩ : Elem (XNum ℝ)).allParams = [] := rfl
  refine ⟨⟨by rw [a1]; exact Render.get_nil _, get_absent hk hp hp, by rw [a2]; exact Render.get_nil _,
    get_absent hk (shownPiece_absent _ _ h2) (shownPiece_absent _ _ h2), by rw [hd.allParams]; exact Render.get_nil _, hd.get hk h3 h3, Render.get_nil _⟩,
    Render.get_nil _, Render.get_nil _, ?_⟩
  show Dyn.get doc.defaults key = none
  rw [hd.defaults]
  exact Render.get_nil _

theorem sizeOf_plate (o : Plate) : sizeOfText (some (if o.larger then "larger".toList else "smaller".toList)) = if o.larger then .larger else .smaller := by
  cases o.larger <;> decide +kernel

/-- The offset that is made. -/
theorem make_offset (m : Machine (XNum ℝ) O) {doc : Elem (XNum ℝ)} (hd : Bare doc) (o : Plate) (cursor : Option (Point (XNum ℝ))) :
    (m.transformMap (m.attrs (pieceSpot doc o.piece) [] ⟨[], plateDrawing o, []⟩ cursor (offsetMap o))).make m.toInt =
      some (.offset 3 (.fin o.distance) (if o.larger then .larger else .smaller)) := by
  have hname : (m.transformMap (m.attrs (pieceSpot doc o.piece) [] ⟨[], plateDrawing o, []⟩ cursor (offsetMap o))).name = Kind.offset.text := by
    show (m.world.text (offsetMap o) typeKey).getD unknownName = _
    have : Dyn.get (offsetMap o) typeKey = some (.str "offset".toList) := rfl
    simp only [World.text, this]
    decide +kernel
  have hnum : (m.transformMap (m.attrs (pieceSpot doc o.piece) [] ⟨[], plateDrawing o, []⟩ cursor (offsetMap o))).number distanceKey = some (.fin o.distance) := by
    show found ((m.attrs (pieceSpot doc o.piece) [] ⟨[], plateDrawing o, []⟩ cursor (offsetMap o)).number m.fuel distanceKey) = _
    rw [C91_number _ _ _ (.fin o.distance) rfl]
    rfl
  have hprec : (m.transformMap (m.attrs (pieceSpot doc o.piece) [] ⟨[], plateDrawing o, []⟩ cursor (offsetMap o))).number precisionKey = none := by
    show found ((m.attrs (pieceSpot doc o.piece) [] ⟨[], plateDrawing o, []⟩ cursor (offsetMap o)).number m.fuel precisionKey) = _
    have : (m.attrs (pieceSpot doc o.piece) [] ⟨[], plateDrawing o, []⟩ cursor (offsetMap o)).find precisionKey = none := by
      obtain ⟨h1, h2⟩ := plate_undefined hd o precisionKey (by decide +kernel) (by decide +kernel) (by decide +kernel) (by decide +kernel)
      exact attrLookup_absent 0 rfl h1 h2
    simp only [Source.number, this]
    rfl
  have htext : (m.transformMap (m.attrs (pieceSpot doc o.piece) [] ⟨[], plateDrawing o, []⟩ cursor (offsetMap o))).text sizeKey =
      some (if o.larger then "larger".toList else "smaller".toList) := by
    show (m.attrs (pieceSpot doc o.piece) [] ⟨[], plateDrawing o, []⟩ cursor (offsetMap o)).string sizeKey = _
    cases hl : o.larger
    · obtain ⟨h1, h2⟩ := plate_undefined hd o "smaller".toList (by decide +kernel) (by decide +kernel) (by decide +kernel) (by decide +kernel)
      refine string_given _ _ _ ?_ (by decide +kernel) rfl h1 h2
      show Dyn.get (offsetMap o) sizeKey = _
      rw [show Dyn.get (offsetMap o) sizeKey = some (.str (if o.larger then "larger".toList else "smaller".toList)) from rfl, hl]
    · obtain ⟨h1, h2⟩ := plate_undefined hd o "larger".toList (by decide +kernel) (by decide +kernel) (by decide +kernel) (by decide +kernel)
      refine string_given _ _ _ ?_ (by decide +kernel) rfl h1 h2
      show Dyn.get (offsetMap o) sizeKey = _
      rw [show Dyn.get (offsetMap o) sizeKey = some (.str (if o.larger then "larger".toList else "smaller".toList)) from rfl, hl]
  unfold TransformMap.make
  rw [hname]
  have hk : Kind.ofText Kind.offset.text = some .offset := by decide +kernel
  simp only [hk, hnum, Option.map_some, TransformMap.int, hprec, Option.map_none, Option.getD_none, htext, sizeOf_plate]

/-! ## What the closed line around a rectangle covers -/

theorem meets_start {a b : Pt ℝ} {ss : List (Stroke ℝ)} (h : Stroke.line a b ∈ ss) : Meets ss a := ⟨_, h, 0, le_refl 0, zero_le_one, by simp [Stroke.at]⟩

theorem abs_between {a b t B : ℝ} (ha : |a| < B) (hb : |b| < B) (h0 : 0 ≤ t) (h1 : t ≤ 1) : |(1 - t) * a + t * b| < B := by
  rw [abs_lt] at *
  rcases eq_or_lt_of_le h0 with rfl | h0
  · simpa using ha
  · constructor <;> nlinarith [mul_lt_mul_of_pos_left hb.1 h0, mul_lt_mul_of_pos_left hb.2 h0, mul_nonneg (sub_nonneg.mpr h1) (sub_nonneg.mpr ha.1.le),
      mul_nonneg (sub_nonneg.mpr h1) (sub_nonneg.mpr ha.2.le)]

theorem around_sizeable {x0 x1 y0 y1 : ℝ} {ss : List (Stroke ℝ)} (h : Around x0 x1 y0 y1 ss) (hx : x0 < x1) (hy : y0 < y1)
    (hb : |x0| < 2 ^ 62 ∧ |x1| < 2 ^ 62 ∧ |y0| < 2 ^ 62 ∧ |y1| < 2 ^ 62) : Sizeable ss := by
  obtain ⟨a, c, ⟨h1, h2⟩, h3⟩ := h
  have hm : Meets ss a ∧ Meets ss c := by
    rcases h3 with rfl | rfl
    · exact ⟨meets_start (b := (c.1, a.2)) (by simp [acrossFirst, Spec.polyline]), meets_start (b := (a.1, c.2)) (by simp [acrossFirst, Spec.polyline])⟩
    · exact ⟨meets_start (b := (a.1, c.2)) (by simp [downFirst, Spec.polyline]), meets_start (b := (c.1, a.2)) (by simp [downFirst, Spec.polyline])⟩
  have ha : |a.1| < 2 ^ 62 ∧ |a.2| < 2 ^ 62 ∧ |c.1| < 2 ^ 62 ∧ |c.2| < 2 ^ 62 := by
    obtain ⟨b1, b2, b3, b4⟩ := hb
    rcases h1 with ⟨e1, e2⟩ | ⟨e1, e2⟩ <;> rcases h2 with ⟨e3, e4⟩ | ⟨e3, e4⟩ <;> rw [e1, e2, e3, e4] <;> exact ⟨by assumption, by assumption, by assumption, by assumption⟩
  refine ⟨?_, ?_, ?_⟩
  · rcases h1 with ⟨e1, e2⟩ | ⟨e1, e2⟩
    · exact ⟨a, c, hm.1, hm.2, by rw [e1, e2]; exact hx⟩
    · exact ⟨c, a, hm.2, hm.1, by rw [e1, e2]; exact hx⟩
  · rcases h2 with ⟨e1, e2⟩ | ⟨e1, e2⟩
    · exact ⟨a, c, hm.1, hm.2, by rw [e1, e2]; exact hy⟩
    · exact ⟨c, a, hm.2, hm.1, by rw [e1, e2]; exact hy⟩
  · obtain ⟨a1, a2, c1, c2⟩ := ha
    rintro q ⟨s, hs, t, h0, h1', rfl⟩
    have key : ∃ p r : Pt ℝ, s = .line p r ∧ |p.1| < 2 ^ 62 ∧ |p.2| < 2 ^ 62 ∧ |r.1| < 2 ^ 62 ∧ |r.2| < 2 ^ 62 := by
      rcases h3 with rfl | rfl <;> simp only [acrossFirst, downFirst, Spec.polyline, List.mem_cons, List.not_mem_nil, or_false] at hs <;>
        rcases hs with rfl | rfl | rfl | rfl <;> exact ⟨_, _, rfl, by assumption, by assumption, by assumption, by assumption⟩
    obtain ⟨p, r, rfl, k1, k2, k3, k4⟩ := key
    exact ⟨abs_between k1 k3 h0 h1', abs_between k2 k4 h0 h1'⟩

/-! ## Plates -/

theorem drawsPlate (m : Machine (XNum ℝ) O) (hf : 2 ≤ m.fuel) {doc : Elem (XNum ℝ)} (hd : Bare doc) (o : Plate) (ho : o.WellMade) :
    ∃ ss, o.Cut ss ∧ Sizeable ss ∧ DrawsPiece m (componentNode m.world) doc o.piece ss := by
  obtain ⟨f, hf'⟩ : ∃ f, m.fuel = f + 2 := ⟨m.fuel - 2, by omega⟩
  obtain ⟨run, e1, hm⟩ := straight_runs o.commands ho.straight [.move origin origin]
  have h0 : PenIs [.move origin origin] ⟨((0 : ℝ), (0 : ℝ)), none⟩ := ⟨by simp [currentPosition, pt, Segment.stop, origin], rfl⟩
  obtain ⟨h1, -⟩ := pen_commands o.commands h0
  have hs : strokes run = penDraws ⟨(0, 0), none⟩ o.commands := by
    rw [e1] at h1
    exact h1
  have har : Around o.left o.right o.top o.bottom (strokes run) := by
    rw [hs]
    exact ho.around
  have hsz : (if o.larger then SizeShouldBe.larger else .smaller) ≠ .unknown := by cases o.larger <;> decide
  obtain ⟨r, δ, g1, g2, g3, g4⟩ := rect_sized 3 defaultPrecision o.distance (1 / 1000) (by norm_num) (by rw [show defaultPrecision.toNat = 3 from rfl]; norm_num) ho.distance ho.wide ho.high f
    origin origin run hm har (if o.larger then .larger else .smaller) hsz
  have hδ : δ = o.out := by
    rw [g2, Plate.out]
    cases o.larger <;> rfl
  subst hδ
  have hc : ∀ x, |round7 x - x| ≤ 1 / (2 * 10 ^ 7) := fun x => (Decimal.rounded_close 7 x).trans (by norm_num)
  have hout : |o.out| ≤ |o.distance| := by
    unfold Plate.out
    cases o.larger <;> simp
  have hsize : Sizeable (strokes r) := by
    have b1 := abs_le.mp hout
    have k : ∀ x, -(1 / (2 * 10 ^ 7)) ≤ round7 x - x ∧ round7 x - x ≤ 1 / (2 * 10 ^ 7) := fun x => abs_le.mp (hc x)
    have := ho.distance
    have hw := ho.wide
    have hh := ho.high
    obtain ⟨c1, c2, c3, c4⟩ := ho.bounded
    rw [abs_lt] at c1 c2 c3 c4
    have t1 := k (o.left - o.out)
    have t2 := k (o.right + o.out)
    have t3 := k (o.top - o.out)
    have t4 := k (o.bottom + o.out)
    norm_num at this hw hh c1 c2 c3 c4 t1 t2 t3 t4
    refine around_sizeable g3 (by linarith) (by linarith) ⟨?_, ?_, ?_, ?_⟩ <;> rw [abs_lt] <;> norm_num <;> constructor <;> linarith
  refine ⟨strokes r, ⟨_, _, _, _, g3, hc _, hc _, hc _, hc _⟩, hsize, [r], o.piece.components.map fun c => live m.world (componentNode m.world c), by simpa using g4, by simp, ?_⟩
  have hsl : slice (plateDrawing o) commandsKey = o.commands.map penMap := by
    rw [slice_plain (by decide +kernel)]
    rw [show (plateDrawing o).lookup commandsKey = some (.list (o.commands.map fun c => .map (penMap c))) from rfl]
    have : (o.commands.map fun c => (.map (penMap c) : Val (XNum ℝ))) = (o.commands.map penMap).map .map := by simp
    simp only [this, mapItems_maps, Option.getD_some]
  have htr : slice (plateDrawing o) transformsKey = [offsetMap o] := rfl
  have h3 : moveTo [] (finPt (origin : Point ℝ)) = finPath [.move origin origin] := by
    unfold moveTo
    rw [show currentPosition ([] : Path (XNum ℝ)) = origin from rfl, origin_fin]
    rfl
  have hne : finPath r ≠ [] := by
    intro e
    have e' : r = [] := by simpa [finPath] using e
    exact hsize.ne_nil (by rw [e']; rfl)
  have hlast : ∃ s, (finPath r).getLast? = some s := by
    cases h : (finPath r).getLast? with
    | none => exact absurd (List.getLast?_eq_none_iff.mp h) hne
    | some s => exact ⟨s, rfl⟩
  obtain ⟨last, hlast⟩ := hlast
  have hlive : live m.world (componentNode m.world (plateDrawing o)) = .mk .draw (m.world.idOf (plateDrawing o)) ⟨[], plateDrawing o, []⟩ [] := by
    have := text_type m.world (m := plateDrawing o) (b := .draw) rfl
    simp only [live, componentNode, lives, this]
    rfl
  have hrender : m.render m.fuel (pieceSpot doc o.piece) (live m.world (componentNode m.world (plateDrawing o))) [] (finPt origin) =
      .ok (finPath r, live m.world (componentNode m.world (plateDrawing o)), []) := by
    rw [hlive, hf']
    simp only [Machine.render, Live.kind, Machine.renderDraw, Live.elem, hsl, drawRender, h3]
    rw [execAll_pen m (by omega) _ _ _ _ o.commands [.move origin origin], Res.ok_bind, e1]
    simp only [Machine.finishAt, htr, List.map_cons, List.map_nil, finish, handleTransforms, makeAll, List.mapM_cons, List.mapM_nil, make_offset m hd]
    simp only [Option.bind_eq_bind, Option.bind_some, Option.pure_def, List.map_cons, List.map_nil, multiTransform, Transform.run, hf', List.singleton_append]
    rw [show (3 : Int).toNat = 3 from rfl, g1]
    simp only [Option.getD_some, hlast]
    rfl
  show renderAllOf _ [live m.world (componentNode m.world (plateDrawing o))] [] (finPt origin) = _
  simp only [renderAllOf, hrender, Res.ok_bind, hlast]
  rfl

theorem neat_offset (o : Plate) : Neat (.map (offsetMap o)) := by
  refine .map (show List.Nodup ["type".toList, "distance".toList, "size_should_be".toList] by decide +kernel) ?_ ?_ <;> intro e he <;> simp only [offsetMap, List.mem_cons, List.not_mem_nil, or_false] at he
  · rcases he with rfl | rfl | rfl <;> simp only <;> decide +kernel
  · rcases he with rfl | rfl | rfl
    · exact .str _
    · exact .num _
    · exact .str _

theorem neat_plate (o : Plate) : o.piece.Neat := by
  intro c hc
  rw [show o.piece.components = [plateDrawing o] from rfl, List.mem_singleton] at hc
  subst hc
  refine .map (by simp [plateDrawing]) ?_ ?_ <;> intro e he <;> simp only [plateDrawing, List.mem_cons, List.not_mem_nil, or_false] at he
  · rcases he with rfl | rfl | rfl <;> simp only <;> decide +kernel
  · rcases he with rfl | rfl | rfl
    · exact .str _
    · refine .list fun v hv => ?_
      obtain ⟨q, _, rfl⟩ := List.mem_map.mp hv
      exact neat_pen q
    · refine .list fun v hv => ?_
      rw [List.mem_singleton] at hv
      subst hv
      exact neat_offset o

/-- **C149.** Whoever reads the files of a document of plates sees every plate once, with its name: one closed line around its rectangle with every side moved
out, or in, by the distance, up to rounding, shifted or turned as a whole; the plates are kept apart. -/
theorem C149_seen (m : Machine (XNum ℝ) O) (hf : 2 ≤ m.fuel) (files : Nat) (s : Sheet ℝ) (hs : 0 ≤ s.padding) (os : List Plate) (ho : ∀ o ∈ os, o.WellMade) :
    ∃ ss : Plate → List (Stroke ℝ), (∀ o ∈ os, o.Cut (ss o)) ∧ SheetsShow s (m.sheets (files + 1) (plateDoc s os)) (os.map fun o => (o.id, ss o)) := by
  have hd := bare_piece m.world (componentNode m.world) s (os.map Plate.piece) (by
    intro o h
    obtain ⟨o, -, rfl⟩ := List.mem_map.mp h
    exact neat_plate o)
  have key : ∀ o : Plate, ∃ ss, o ∈ os → o.Cut ss ∧ Sizeable ss ∧
      DrawsPiece m (componentNode m.world) (Machine.docElem (piecesDoc m.world (componentNode m.world) s (os.map Plate.piece))) o.piece ss := by
    intro o
    by_cases h : o ∈ os
    · obtain ⟨ss, h1⟩ := drawsPlate m hf hd o (ho o h)
      exact ⟨ss, fun _ => h1⟩
    · exact ⟨[], fun h' => absurd h' h⟩
  choose ss h using key
  refine ⟨ss, fun o h' => (h o h').1, ?_⟩
  refine pieces_seen m files s hs (componentNode m.world) Plate.piece ss os (fun o _ => neat_plate o) ?_ (fun o h' => ⟨(ho o h').name.1, (ho o h').name.2, (h o h').2.1⟩)
    fun o h' => (h o h').2.2
  intro o _ c hc
  rw [show o.piece.components = [plateDrawing o] from rfl, List.mem_singleton] at hc
  subst hc
  obtain ⟨f, hf'⟩ : ∃ f, m.fuel = f + 1 := ⟨m.fuel - 1, by omega⟩
  rw [hf']
  exact ⟨make_drawing m.world [] f _ rfl, rfl⟩

/-- The plate of an example: the command `rectangle`, three by two. -/
noncomputable def examplePlate : Plate := ⟨"base".toList, [.rectangle 3 2], 0, 3, 0, 2, 1 / 10, true⟩

theorem examplePlate_wellMade : examplePlate.WellMade where
  name := ⟨by decide, unmarked_of_all (by decide)⟩
  straight := by
    intro c hc
    rw [show examplePlate.commands = [.rectangle 3 2] from rfl, List.mem_singleton] at hc
    subst hc
    trivial
  around := by
    refine ⟨(0, 0), (3, 2), ⟨Or.inl ⟨rfl, rfl⟩, Or.inl ⟨rfl, rfl⟩⟩, Or.inl ?_⟩
    simp [examplePlate, penDraws, PenCmd.draws, acrossFirst, Spec.polyline]
  distance := by norm_num [examplePlate]
  wide := by norm_num [examplePlate]
  high := by norm_num [examplePlate]
  bounded := by norm_num [examplePlate]

/-- **C149** is not empty. -/
example (m : Machine (XNum ℝ) O) (hf : 2 ≤ m.fuel) (files : Nat) : ∃ ss : Plate → List (Stroke ℝ), examplePlate.Cut (ss examplePlate) ∧
    SheetsShow ⟨20, 10, 1⟩ (m.sheets (files + 1) (plateDoc ⟨20, 10, 1⟩ [examplePlate, examplePlate])) [("base".toList, ss examplePlate), ("base".toList, ss examplePlate)] := by
  obtain ⟨ss, h1, h2⟩ := C149_seen m hf files ⟨20, 10, 1⟩ zero_le_one [examplePlate, examplePlate] fun o h => by
    simp only [List.mem_cons, List.not_mem_nil, or_false, or_self] at h
    subst h
    exact examplePlate_wellMade
  exact ⟨ss, h1 _ (by simp), h2⟩

end Verif.Render
