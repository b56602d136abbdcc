import Verif.Spec.Scene
import Verif.Props.Plate

/-!
# Lemmas: documents of scenes
-/

set_option linter.unusedSectionVars false

namespace Verif.Render

open Verif Verif.Dyn Verif.Path Verif.PlanSet Verif.Svg Verif.Files Verif.Xml Verif.Spec Verif.XNum

variable {O : Type}

/-! ## Paths -/

/-- The path draws these strokes, ends here, and is read as it is drawn. -/
structure Shape (p : Path ℝ) (ss : List (Stroke ℝ)) (q : Pt ℝ) : Prop where
  ne : p ≠ []
  strokes : strokes p = ss
  stop : pt (currentPosition p) = q
  inked : Inked none p

theorem currentPosition_eq {F : Type} [Arith F] (p : Path F) : ∀ s, p.getLast? = some s → currentPosition p = s.stop := by
  intro s h
  simp only [currentPosition, h]

theorem last_of_ne {α : Type} {l : List α} (h : l ≠ []) : ∃ s, l.getLast? = some s := by
  cases e : l.getLast? with
  | none => exact absurd (List.getLast?_eq_none_iff.mp e) h
  | some s => exact ⟨s, rfl⟩

theorem penAfter_ne {F : Type} [Arith F] {p : Path F} (h : p ≠ []) : penAfter none p = some (pt (currentPosition p)) := by
  obtain ⟨l, s, rfl⟩ : ∃ l s, p = l ++ [s] := ⟨p.dropLast, p.getLast h, (List.dropLast_append_getLast h).symm⟩
  rw [penAfter_append_single, currentPosition_append]

theorem inked_snoc {F : Type} [Arith F] {p : Path F} (h : p ≠ []) (hi : Inked none p) (s : Segment F) (hs : s.start = currentPosition p) : Inked none (p ++ [s]) := by
  rw [inked_append, penAfter_ne h]
  refine ⟨hi, ?_⟩
  cases s <;> simp_all [Inked, Segment.start]

theorem inked_line {p : Path ℝ} (h : p ≠ []) (hi : Inked none p) (q : Point ℝ) : Inked none (lineTo p q) := inked_snoc h hi _ rfl

theorem inked_moveTo {p : Path ℝ} (h : p ≠ []) (hi : Inked none p) (q : Point ℝ) : Inked none (moveTo p q) := inked_snoc h hi _ rfl

theorem inked_curve {p : Path ℝ} (h : p ≠ []) (hi : Inked none p) (c d q : Point ℝ) : Inked none (curveTo p c d q) := inked_snoc h hi _ rfl

theorem inked_run (c : PenCmd) {p : Path ℝ} (h : p ≠ []) (hi : Inked none p) : Inked none (c.run p) := by
  have k1 : ∀ {p : Path ℝ} (q : Point ℝ), p ≠ [] → lineTo p q ≠ [] := by intro p q _; simp [lineTo]
  have k2 : ∀ {p : Path ℝ} (c d q : Point ℝ), p ≠ [] → curveTo p c d q ≠ [] := by intro p c d q _; simp [curveTo]
  have k3 : ∀ {p : Path ℝ} (q : Point ℝ), p ≠ [] → moveTo p q ≠ [] := by intro p q _; simp [moveTo]
  cases c
  case move q => exact inked_moveTo h hi _
  case relMove q => exact inked_moveTo h hi _
  case line q => exact inked_line h hi _
  case relLine q => exact inked_line h hi _
  case curve c d q => exact inked_curve h hi _ _ _
  case relCurve c d q => exact inked_curve h hi _ _ _
  case smooth d q => exact inked_curve h hi _ _ _
  case relSmooth d q => exact inked_curve h hi _ _ _
  case angle l a => exact inked_line h hi _
  case rectangle w k =>
    exact inked_line (k1 _ (k1 _ (k1 _ h))) (inked_line (k1 _ (k1 _ h)) (inked_line (k1 _ h) (inked_line h hi _) _) _) _
  case circle r =>
    have a1 := inked_moveTo h hi (toAbs p (newPoint r 0))
    simp only [PenCmd.run, Path.circle, relMoveTo, relCurveTo]
    exact inked_curve (k2 _ _ _ (k2 _ _ _ (k2 _ _ _ (k3 _ h)))) (inked_curve (k2 _ _ _ (k2 _ _ _ (k3 _ h))) (inked_curve (k2 _ _ _ (k3 _ h))
      (inked_curve (k3 _ h) (inked_moveTo h hi _) _ _ _) _ _ _) _ _ _) _ _ _

theorem inked_runs : ∀ (cs : List PenCmd) {p : Path ℝ}, p ≠ [] → Inked none p → Inked none (penRun p cs)
  | [], _, _, hi => hi
  | c :: cs, p, h, hi => inked_runs cs (run_ne_nil c p) (inked_run c h hi)

/-- What the pen draws from a point. -/
theorem shape_pen (a : Point ℝ) (cs : List PenCmd) : Shape (penRun [.move origin a] cs) (penDraws ⟨pt a, none⟩ cs) (penEnd ⟨pt a, none⟩ cs).cur := by
  obtain ⟨h1, h2⟩ := pen_commands cs (p := [.move origin a]) (s := ⟨pt a, none⟩) ⟨rfl, rfl⟩
  exact ⟨penRun_ne_nil cs _ (by simp), h1, h2.cur, inked_runs cs (by simp) trivial⟩

theorem currentPosition_newPath {F : Type} [Arith F] {l : List (Segment F)} (h : l ≠ []) : currentPosition (newPath l) = currentPosition l := by
  have k : ∀ (s : Segment F) (r : List (Segment F)), currentPosition (fixHeadMove (s :: r)) = currentPosition (s :: r) := by
    intro s r
    cases s with
    | line a b => rfl
    | curve a c d b => rfl
    | move a b =>
      simp only [fixHeadMove]
      split
      · cases r with
        | nil => rfl
        | cons t r => simp [currentPosition, List.getLast?_cons_cons]
      · rfl
  match l, h with
  | s :: r, _ =>
    rw [newPath, headMove]
    split
    · exact k _ _
    · rw [k]
      simp [currentPosition, List.getLast?_cons_cons]

theorem shape_map {f : Point ℝ → Point ℝ} {g : Pt ℝ → Pt ℝ} (h : ∀ x, pt (f x) = g (pt x)) {p : Path ℝ} {ss : List (Stroke ℝ)} {q : Pt ℝ} (hp : Shape p ss q) :
    Shape (mapPath f p) (ss.map (Stroke.map g)) (g q) := by
  have hne : p.map (Segment.mapPoints f) ≠ [] := by simpa using hp.ne
  refine ⟨?_, ?_, ?_, inked_mapPath (fun a b e => by rw [h, h, e]) hp.inked⟩
  · have : ∀ l : List (Segment ℝ), l ≠ [] → newPath l ≠ [] := by
      rintro (_ | ⟨s, r⟩) hl
      · exact absurd rfl hl
      · rw [newPath, headMove]
        split <;> cases s <;> simp only [fixHeadMove] <;> first | (split <;> simp) | simp
    exact this _ hne
  · rw [strokes_mapPath f g h, hp.strokes]
  · rw [mapPath, currentPosition_newPath hne]
    obtain ⟨s, hs⟩ := last_of_ne hp.ne
    rw [currentPosition_eq _ (s.mapPoints f) (by simp [List.getLast?_map, hs]), mapPoints_stop, h, ← hp.stop, currentPosition_eq _ s hs]

/-- Where paths end. -/
noncomputable def endOf (q : Pt ℝ) (ps : List (Path ℝ)) : Pt ℝ :=
  match ps.getLast? with
  | none => q
  | some p => pt (currentPosition p)

theorem endOf_cons (q : Pt ℝ) (p : Path ℝ) (ps : List (Path ℝ)) : endOf q (p :: ps) = endOf (pt (currentPosition p)) ps := by
  cases ps with
  | nil => rfl
  | cons r ps =>
    obtain ⟨s, hs⟩ := last_of_ne (show r :: ps ≠ [] by simp)
    simp only [endOf, List.getLast?_cons_cons, hs]

theorem shape_join (q : Pt ℝ) (ps : List (Path ℝ)) (h : ps ≠ []) (hp : ∀ p ∈ ps, p ≠ [] ∧ Inked none p) :
    ∃ j, simpleJoin (ps.map finPath) = .ok (finPath j) ∧ Shape j (ps.flatMap strokes) (endOf q ps) := by
  have pc : ∀ s : Segment ℝ, pt s.clone.stop = pt s.stop := by
    intro s
    cases s <;> simp [Segment.clone, Segment.stop, Point.clone, pt]
  have cc : ∀ (a : Path ℝ) (p : Path ℝ), p ≠ [] → pt (currentPosition (a ++ p.map Segment.clone)) = pt (currentPosition p) := by
    intro a p hp
    obtain ⟨s, hs⟩ := last_of_ne hp
    rw [currentPosition_eq _ s.clone (by simp [List.getLast?_append, List.getLast?_map, hs]), currentPosition_eq _ s hs, pc]
  have ca : ∀ (a : Path ℝ) (p : Path ℝ), p ≠ [] → pt (currentPosition (appendPath a p)) = pt (currentPosition p) := by
    intro a p hp
    match p, hp with
    | s :: r, hp => exact cc _ _ hp
  have na : ∀ (a : Path ℝ) (p : Path ℝ), a ≠ [] → appendPath a p ≠ [] := by
    intro a p ha
    cases p with
    | nil => exact ha
    | cons s r => simp [appendPath]
  have key : ∀ (ps : List (Path ℝ)) (acc : Path ℝ), acc ≠ [] → (∀ p ∈ ps, p ≠ []) →
      ps.foldl appendPath acc ≠ [] ∧ pt (currentPosition (ps.foldl appendPath acc)) = endOf (pt (currentPosition acc)) ps := by
    intro ps
    induction ps with
    | nil => intro acc ha _; exact ⟨ha, rfl⟩
    | cons p ps ih =>
      intro acc ha hp
      obtain ⟨h1, h2⟩ := ih (appendPath acc p) (na _ _ ha) fun p' h' => hp p' (by simp [h'])
      refine ⟨h1, ?_⟩
      rw [List.foldl_cons, h2, ca _ _ (hp p (by simp)), endOf_cons]
  obtain ⟨r, h1, h2⟩ := simpleJoin_strokes ps h
  refine ⟨r, h1, ?_, h2, ?_, ?_⟩
  all_goals match ps, h with
    | p :: ps, _ =>
      have hr : r = ps.foldl appendPath (clonePath p) := by
        have := h1.symm.trans (simpleJoin_fin p ps)
        rw [Res.ok.injEq] at this
        have := congrArg (List.map realSeg) this
        rwa [realPath_fin, realPath_fin] at this
      subst hr
      have hc : clonePath p ≠ [] := by simpa [clonePath] using (hp p (by simp)).1
      obtain ⟨k1, k2⟩ := key ps (clonePath p) hc fun p' h' => (hp p' (by simp [h'])).1
      first
      | exact k1
      | (rw [k2, endOf_cons, show pt (currentPosition (clonePath p)) = pt (currentPosition p) from cc [] p (hp p (by simp)).1])
      | (refine (inked_finPath none _).1 (inked_simpleJoin ?_ h1)
         intro p' hp'
         obtain ⟨p0, hp0, rfl⟩ := List.mem_map.mp hp'
         exact (inked_finPath none p0).2 (hp p0 hp0).2)

/-! ## Transforms -/

/-- The transform that is made. -/
noncomputable def Bend.made : Bend → Transform (XNum ℝ)
  | .matrix a b c d e f => .matrix (.fin a) (.fin b) (.fin c) (.fin d) (.fin e) (.fin f)
  | .scale x y => .scale ⟨.fin x, .fin y, origin, origin, Arith.zero, Arith.zero⟩
  | .rotate d => .rotate (.fin d) Attr.origin.text
  | .move q => .move (finPt (newPoint q.1 q.2)) Attr.origin.text

theorem origin_handle (p : Path (XNum ℝ)) : pointAttribute (handleOf Attr.origin.text) p = .ok origin := by
  rw [handleOf_text, pointAttribute_text]
  rfl

theorem shape_congr {p : Path ℝ} {ss : List (Stroke ℝ)} {q : Pt ℝ} {g g' : Pt ℝ → Pt ℝ} (h : Shape p (ss.map (Stroke.map g)) (g q)) (e : ∀ x, g x = g' x) :
    Shape p (ss.map (Stroke.map g')) (g' q) := by
  rwa [show g' = g from funext fun x => (e x).symm]

theorem run_bend (fuel : Nat) (b : Bend) {p : Path ℝ} {ss : List (Stroke ℝ)} {q : Pt ℝ} (hp : Shape p ss q) :
    ∃ p', Transform.run fuel b.made (finPath p) = .ok (finPath p') ∧ Shape p' (ss.map (Stroke.map b.act)) (b.act q) := by
  cases b with
  | matrix a b c d e f =>
    refine ⟨matrixTransform a b c d e f p, ?_, ?_⟩
    · show Res.ok (matrixTransform _ _ _ _ _ _ _) = _
      congr 1
      refine mapPath_fin _ _ ?_ p
      intro q
      simp only [finPt, mul_fin, add_fin]
      rw [newPoint_fin]
      simp [finPt]
    · refine shape_map ?_ hp
      intro x
      simp [pt, Bend.act]
      constructor <;> ring
  | scale x y =>
    refine ⟨scaleBy x y p, ?_, ?_⟩
    · show Res.ok (Path.scale _ _) = _
      congr 1
      unfold Path.scale
      have : scaleFactors ⟨.fin x, .fin y, origin, origin, Arith.zero, Arith.zero⟩ (finPath p) = ((.fin x, .fin y) : XNum ℝ × XNum ℝ) := by
        have h0 : (Arith.zero : XNum ℝ) = .fin 0 := by simp
        have h1 : ((Arith.zero : XNum ℝ) <. Arith.zero) = false := by rw [h0]; simp
        have h2 : (origin : Point (XNum ℝ)).equals origin = true := by rw [origin_fin]; simp [Point.equals, finPt]
        simp only [scaleFactors, h1, h2, Bool.or_self, Bool.not_true, Bool.false_eq_true, if_false]
      rw [this, scaleBy_fin]
    · refine shape_map ?_ hp
      intro z
      simp [pt, Bend.act]
      constructor <;> ring
  | rotate d =>
    refine ⟨shift 0 0 (mapPath (rotatePoint d) (shift 0 0 p)), ?_, ?_⟩
    · show Path.rotate (XNum.fin d) Attr.origin.text (finPath p) = _
      have hh : handleOf (handleOf Attr.origin.text) = handleOf Attr.origin.text := by rw [handleOf_text, handleOf_text]
      have hx : (origin : Point (XNum ℝ)).x = .fin 0 := by rw [origin_fin]; simp [finPt, origin]
      have hy : (origin : Point (XNum ℝ)).y = .fin 0 := by rw [origin_fin]; simp [finPt, origin]
      simp only [Path.rotate, Path.move, hh, origin_handle, hx, hy, sub_fin, sub_zero, shift_fin, mapPath_fin _ _ (rotatePoint_fin d)]
    · have h1 := shape_map (f := fun q => newPoint (q.x +. (0 : ℝ)) (q.y +. 0)) (g := fun q => q) (by intro x; simp [pt]) hp
      have h2 := shape_map (f := rotatePoint d) (g := rotateAbout (0, 0) (d * Real.pi / 180)) (pt_rotatePoint d) h1
      have h3 := shape_map (f := fun q => newPoint (q.x +. (0 : ℝ)) (q.y +. 0)) (g := fun q => q) (by intro x; simp [pt]) h2
      rw [List.map_map, List.map_map] at h3
      have e : (Stroke.map (fun q : Pt ℝ => q) ∘ Stroke.map (rotateAbout (0, 0) (d * Real.pi / 180))) ∘ Stroke.map (fun q : Pt ℝ => q) =
          Stroke.map (rotateAbout (0, 0) (d * Real.pi / 180)) := by
        funext s
        cases s <;> rfl
      rw [e] at h3
      refine shape_congr h3 ?_
      intro x
      simp [rotateAbout, Bend.act]
  | move t =>
    refine ⟨shift t.1 t.2 p, ?_, ?_⟩
    · show Path.move (finPt (newPoint t.1 t.2)) Attr.origin.text (finPath p) = _
      have hx : (origin : Point (XNum ℝ)).x = .fin 0 := by rw [origin_fin]; simp [finPt, origin]
      have hy : (origin : Point (XNum ℝ)).y = .fin 0 := by rw [origin_fin]; simp [finPt, origin]
      simp only [Path.move, origin_handle, hx, hy, finPt, newPoint_x, newPoint_y, sub_fin, sub_zero, shift_fin]
    · refine shape_map ?_ hp
      intro z
      simp [pt, Bend.act, Prod.ext_iff]

theorem run_bends (fuel : Nat) : ∀ (bs : List Bend) {p : Path ℝ} {ss : List (Stroke ℝ)} {q : Pt ℝ}, Shape p ss q →
    ∃ p', multiTransform ((bs.map Bend.made).map (Transform.run fuel)) (finPath p) = .ok (finPath p') ∧ Shape p' (ss.map (Stroke.map (bend bs))) (bend bs q)
  | [], p, ss, q, h => by
    refine ⟨p, rfl, ?_⟩
    have : ss.map (Stroke.map (bend [])) = ss := by
      rw [show bend [] = fun q => q from rfl]
      conv_rhs => rw [← List.map_id ss]
      refine List.map_congr_left fun s _ => ?_
      cases s <;> rfl
    rwa [this]
  | b :: bs, p, ss, q, h => by
    obtain ⟨p1, e1, h1⟩ := run_bend fuel b h
    obtain ⟨p2, e2, h2⟩ := run_bends fuel bs h1
    refine ⟨p2, ?_, ?_⟩
    · simp only [List.map_cons, multiTransform, e1, e2]
    · rw [List.map_map] at h2
      have : Stroke.map (bend bs) ∘ Stroke.map b.act = Stroke.map (bend (b :: bs)) := by
        funext s
        cases s <;> rfl
      rwa [this] at h2

/-! ## Attributes -/

/-- The keys of parts and scenes. -/
def sceneKeys : List Text := ["id".toList, "components".toList, "type".toList, "part_index".toList, "commands".toList, "transforms".toList]

/-- The element has no parameters and no defaults, and no other keys than parts and scenes have. -/
structure PlainElem (e : Elem (XNum ℝ)) : Prop where
  params : e.params = []
  defaults : e.defaults = []
  absent : ∀ k, k ∉ sceneKeys → e.original.lookup k = none

/-- All elements around are such, and the document has only the size of its sheets and its parts. -/
structure PlainSpot (s : Spot (XNum ℝ)) : Prop where
  doc : Bare s.doc
  ups : ∀ e ∈ s.ups, PlainElem e

theorem PlainElem.allParams {e : Elem (XNum ℝ)} (h : PlainElem e) : e.allParams = [] := by
  have : getDynMap e.original paramsKey = none := by
    unfold getDynMap
    rw [get_absent (k := paramsKey) (ks := []) (by decide +kernel) (h.absent _ (by decide +kernel)) (h.absent _ (by decide +kernel))]
    rfl
  unfold Elem.allParams
  rw [this, h.params]
  rfl

theorem plain_chain {doc : Elem (XNum ℝ)} (hd : Bare doc) (key : Text) (hk : dots key = [key]) (h1 : key ∉ sceneKeys)
    (h2 : key ∉ ["material_width".toList, "material_height".toList, "doc_padding".toList, "parts".toList]) : ∀ (es : List (Elem (XNum ℝ))), (∀ e ∈ es, PlainElem e) →
    (chainOf doc [] es).Undefined key ∧ NoDefault key (chainOf doc [] es)
  | [], _ => by
    refine ⟨⟨by rw [hd.allParams]; exact Render.get_nil _, hd.get hk h2 h2, Render.get_nil _⟩, ?_⟩
    show Dyn.get doc.defaults key = none
    rw [hd.defaults]
    exact Render.get_nil _
  | e :: es, h => by
    obtain ⟨k1, k2⟩ := plain_chain hd key hk h1 h2 es fun e' h' => h e' (by simp [h'])
    have he := h e (by simp)
    refine ⟨⟨by rw [he.allParams]; exact Render.get_nil _, get_absent hk (he.absent _ h1) (he.absent _ h1), k1⟩, ?_, k2⟩
    rw [he.defaults]
    exact Render.get_nil _

section Made

variable (m : Machine (XNum ℝ) O) {s : Spot (XNum ℝ)} (hs : PlainSpot s) {e : Elem (XNum ℝ)} (he : PlainElem e) (cursor : Option (Point (XNum ℝ)))

include hs he

theorem plain_undefined (key : Text) (hk : dots key = [key]) (h1 : key ∉ sceneKeys)
    (h2 : key ∉ ["material_width".toList, "material_height".toList, "doc_padding".toList, "parts".toList]) :
    (Chain.component e (chainOf s.doc [] s.ups)).Undefined key ∧ NoDefault key (Chain.component e (chainOf s.doc [] s.ups)) :=
  plain_chain hs.doc key hk h1 h2 (e :: s.ups) fun e' h' => by
    rcases List.mem_cons.mp h' with rfl | h'
    · exact he
    · exact hs.ups e' h'

theorem plain_find (mp : DMap (XNum ℝ)) (key : Text) (hk : dots key = [key]) (h1 : key ∉ sceneKeys)
    (h2 : key ∉ ["material_width".toList, "material_height".toList, "doc_padding".toList, "parts".toList]) (h0 : Dyn.get mp key = none) :
    (m.attrs s [] e cursor mp).find key = none := by
  obtain ⟨k1, k2⟩ := plain_undefined hs he key hk h1 h2
  exact attrLookup_absent 0 h0 k1 k2

theorem plain_number (mp : DMap (XNum ℝ)) (key : Text) (hk : dots key = [key]) (h1 : key ∉ sceneKeys)
    (h2 : key ∉ ["material_width".toList, "material_height".toList, "doc_padding".toList, "parts".toList]) (h0 : Dyn.get mp key = none) :
    (m.transformMap (m.attrs s [] e cursor mp)).number key = none := by
  show found ((m.attrs s [] e cursor mp).number m.fuel key) = _
  simp only [Source.number, plain_find m hs he cursor mp key hk h1 h2 h0]
  rfl

theorem plain_point (hf : 0 < m.fuel) (mp : DMap (XNum ℝ)) (key : Text) (hk : dots key = [key]) (h1 : key ∉ sceneKeys)
    (h2 : key ∉ ["material_width".toList, "material_height".toList, "doc_padding".toList, "parts".toList]) (h0 : Dyn.get mp key = none) (h3 : key.head? ≠ some '$') :
    (m.transformMap (m.attrs s [] e cursor mp)).point key = none := by
  show found ((m.attrs s [] e cursor mp).point m.fuel m.fuel key) = _
  obtain ⟨f, hf'⟩ : ∃ f, m.fuel = f + 1 := ⟨m.fuel - 1, by omega⟩
  simp only [hf', Source.point, if_neg h3, plain_find m hs he cursor mp key hk h1 h2 h0]
  rfl

theorem plain_handle (mp : DMap (XNum ℝ)) (key d : Text) (h : Dyn.get mp key = some (.str Attr.origin.text)) (hk : Attr.origin.text ≠ key)
    (h0 : Dyn.get mp Attr.origin.text = none) : (m.transformMap (m.attrs s [] e cursor mp)).handle key d = Attr.origin.text := by
  obtain ⟨k1, k2⟩ := plain_undefined hs he Attr.origin.text (by decide +kernel) (by decide +kernel) (by decide +kernel)
  have : (m.transformMap (m.attrs s [] e cursor mp)).text key = some Attr.origin.text := string_given (m.attrs s [] e cursor mp) key _ h hk h0 k1 k2
  have ha : acceptsAttr (F := XNum ℝ) Attr.origin.text = true := by
    unfold acceptsAttr
    rw [if_neg (by decide +kernel)]
    decide +kernel
  simp only [TransformMap.handle, this, Option.bind_some, ha, if_true, Option.getD_some]

theorem make_bend (hf : 0 < m.fuel) (b : Bend) : (m.transformMap (m.attrs s [] e cursor (bendMap b))).make m.toInt = some b.made := by
  have hname : ∀ (mp : DMap (XNum ℝ)) (k : Kind), Dyn.get mp typeKey = some (.str k.text) → (m.transformMap (m.attrs s [] e cursor mp)).name = k.text := by
    intro mp k h
    show (m.world.text mp typeKey).getD unknownName = _
    simp only [World.text, h]
    rw [if_neg (by cases k <;> decide +kernel)]
    rfl
  have hkind : ∀ k : Kind, Kind.ofText k.text = some k := by intro k; cases k <;> decide +kernel
  have hnum : ∀ (mp : DMap (XNum ℝ)) (key : Text) (x : ℝ), Dyn.get mp key = some (.num (.fin x)) → (m.transformMap (m.attrs s [] e cursor mp)).number key = some (.fin x) := by
    intro mp key x h
    show found ((m.attrs s [] e cursor mp).number m.fuel key) = _
    rw [C91_number _ _ _ (.fin x) h]
    rfl
  unfold TransformMap.make
  cases b with
  | matrix a b c d e' f =>
    rw [hname _ .matrix rfl, hkind]
    simp only [matrixKeys, List.mapM_cons, List.mapM_nil, hnum (bendMap (.matrix a b c d e' f)) "a".toList a rfl, hnum (bendMap (.matrix a b c d e' f)) "b".toList b rfl,
      hnum (bendMap (.matrix a b c d e' f)) "c".toList c rfl, hnum (bendMap (.matrix a b c d e' f)) "d".toList d rfl,
      hnum (bendMap (.matrix a b c d e' f)) "e".toList e' rfl, hnum (bendMap (.matrix a b c d e' f)) "f".toList f rfl]
    rfl
  | scale x y =>
    rw [hname _ .scale rfl, hkind]
    simp only [hnum (bendMap (.scale x y)) scaleXKey x rfl, hnum (bendMap (.scale x y)) scaleYKey y rfl,
      plain_number m hs he cursor (bendMap (.scale x y)) widthKey (by decide +kernel) (by decide +kernel) (by decide +kernel) rfl,
      plain_number m hs he cursor (bendMap (.scale x y)) heightKey (by decide +kernel) (by decide +kernel) (by decide +kernel) rfl,
      plain_point m hs he cursor hf (bendMap (.scale x y)) startPointKey (by decide +kernel) (by decide +kernel) (by decide +kernel) rfl (by decide +kernel),
      plain_point m hs he cursor hf (bendMap (.scale x y)) endPointKey (by decide +kernel) (by decide +kernel) (by decide +kernel) rfl (by decide +kernel),
      Option.getD_some, Option.getD_none]
    rfl
  | rotate d =>
    rw [hname _ .rotate rfl, hkind]
    simp only [hnum (bendMap (.rotate d)) degreesKey d rfl, Option.map_some, plain_handle m hs he cursor (bendMap (.rotate d)) axisKey _ rfl (by decide +kernel) rfl]
    rfl
  | move q =>
    rw [hname _ .move rfl, hkind]
    have : (m.transformMap (m.attrs s [] e cursor (bendMap (.move q)))).point toKey = some (finPt (newPoint q.1 q.2)) :=
      point_given m hf s [] e cursor (bendMap (.move q)) toKey (by decide +kernel) q rfl
    simp only [this, Option.map_some, plain_handle m hs he cursor (bendMap (.move q)) handleKey _ rfl (by decide +kernel) rfl]
    rfl

theorem makeAll_bends (hf : 0 < m.fuel) : ∀ bs : List Bend,
    makeAll m.toInt ((bs.map bendMap).map fun mp => m.transformMap (m.attrs s [] e cursor mp)) = some (bs.map Bend.made)
  | [] => rfl
  | b :: bs => by
    have ih := makeAll_bends hf bs
    unfold makeAll at ih ⊢
    simp only [List.map_cons, List.mapM_cons, make_bend m hs he cursor hf b, ih, Option.bind_eq_bind, Option.bind_some, Option.pure_def]

/-- The transforms of a component. -/
theorem finish_bends (hf : 0 < m.fuel) (bs : List Bend) (hb : slice e.original transformsKey = bs.map bendMap) {p : Path ℝ} {ss : List (Stroke ℝ)} {q : Pt ℝ} (hp : Shape p ss q) :
    ∃ p', m.finishAt s [] e cursor (finPath p) = .ok (finPath p') ∧ Shape p' (ss.map (Stroke.map (bend bs))) (bend bs q) := by
  obtain ⟨p', h1, h2⟩ := run_bends m.fuel bs hp
  refine ⟨p', ?_, h2⟩
  obtain ⟨l, hl⟩ := last_of_ne (show finPath p' ≠ [] by simpa [finPath] using h2.ne)
  simp only [Machine.finishAt, hb, finish, handleTransforms, makeAll_bends m hs he cursor hf bs, h1, hl]

end Made

/-! ## Making -/

theorem maps_map : ∀ ss : List Scene, Scene.maps ss = (ss.map Scene.map).map .map
  | [] => rfl
  | s :: ss => by rw [Scene.maps, maps_map ss]; rfl

theorem neat_bend (b : Bend) : Neat (.map (bendMap b)) := by
  cases b with
  | matrix a b c d e f =>
    refine .map (show List.Nodup ["type".toList, "a".toList, "b".toList, "c".toList, "d".toList, "e".toList, "f".toList] by decide +kernel) ?_ ?_ <;> intro x hx <;>
      simp only [bendMap, List.mem_cons, List.not_mem_nil, or_false] at hx
    · rcases hx with rfl | rfl | rfl | rfl | rfl | rfl | rfl <;> simp only <;> decide +kernel
    · rcases hx with rfl | rfl | rfl | rfl | rfl | rfl | rfl <;> first | exact .str _ | exact .num _
  | scale a b =>
    refine .map (show List.Nodup ["type".toList, "scale_x".toList, "scale_y".toList] by decide +kernel) ?_ ?_ <;> intro x hx <;>
      simp only [bendMap, List.mem_cons, List.not_mem_nil, or_false] at hx
    · rcases hx with rfl | rfl | rfl <;> simp only <;> decide +kernel
    · rcases hx with rfl | rfl | rfl <;> first | exact .str _ | exact .num _
  | rotate d =>
    refine .map (show List.Nodup ["type".toList, "degrees".toList, "axis".toList] by decide +kernel) ?_ ?_ <;> intro x hx <;>
      simp only [bendMap, List.mem_cons, List.not_mem_nil, or_false] at hx
    · rcases hx with rfl | rfl | rfl <;> simp only <;> decide +kernel
    · rcases hx with rfl | rfl | rfl <;> first | exact .str _ | exact .num _
  | move q =>
    refine .map (show List.Nodup ["type".toList, "to".toList, "handle".toList] by decide +kernel) ?_ ?_ <;> intro x hx <;>
      simp only [bendMap, List.mem_cons, List.not_mem_nil, or_false] at hx
    · rcases hx with rfl | rfl | rfl <;> simp only <;> decide +kernel
    · rcases hx with rfl | rfl | rfl
      · exact .str _
      · refine .map (show List.Nodup ["x".toList, "y".toList] by decide +kernel) ?_ ?_ <;> intro x hx <;> simp only [List.mem_cons, List.not_mem_nil, or_false] at hx
        · rcases hx with rfl | rfl <;> simp only <;> decide +kernel
        · rcases hx with rfl | rfl <;> exact .num _
      · exact .str _

theorem neat_bends (bs : List Bend) : Neat (bendsVal bs) := by
  refine .list fun v hv => ?_
  obtain ⟨b, _, rfl⟩ := List.mem_map.mp hv
  exact neat_bend b

mutual

theorem neat_scene : ∀ s : Scene, Neat (.map s.map)
  | .draw cs bs => by
    rw [Scene.map]
    refine .map (show List.Nodup ["type".toList, "commands".toList, "transforms".toList] by decide +kernel) ?_ ?_ <;> intro x hx <;>
      simp only [List.mem_cons, List.not_mem_nil, or_false] at hx
    · rcases hx with rfl | rfl | rfl <;> simp only <;> decide +kernel
    · rcases hx with rfl | rfl | rfl
      · exact .str _
      · refine .list fun v hv => ?_
        obtain ⟨c, _, rfl⟩ := List.mem_map.mp hv
        exact neat_pen c
      · exact neat_bends bs
  | .group s ss bs => by
    have h1 := neat_scene s
    have h2 := neat_scenes ss
    rw [Scene.map]
    refine .map (show List.Nodup ["type".toList, "components".toList, "transforms".toList] by decide +kernel) ?_ ?_ <;> intro x hx <;>
      simp only [List.mem_cons, List.not_mem_nil, or_false] at hx
    · rcases hx with rfl | rfl | rfl <;> simp only <;> decide +kernel
    · rcases hx with rfl | rfl | rfl
      · exact .str _
      · refine .list fun v hv => ?_
        rcases List.mem_cons.mp hv with rfl | hv
        · exact h1
        · exact h2 v hv
      · exact neat_bends bs

theorem neat_scenes : ∀ (ss : List Scene), ∀ v ∈ Scene.maps ss, Neat v
  | [] => by
    intro v hv
    rw [Scene.maps] at hv
    cases hv
  | s :: ss => by
    have h1 := neat_scene s
    have h2 := neat_scenes ss
    intro v hv
    rw [Scene.maps] at hv
    rcases List.mem_cons.mp hv with rfl | hv
    · exact h1
    · exact h2 v hv

end

mutual

/-- The component that is made of a scene. -/
def Scene.node (w : World (XNum ℝ)) : Scene → Dyn.Node (XNum ℝ)
  | .draw cs bs => .mk (w.idOf (Scene.draw cs bs).map) (Scene.draw cs bs).map []
  | .group s ss bs => .mk (w.idOf (Scene.group s ss bs).map) (Scene.group s ss bs).map (s.node w :: Scene.nodes w ss)

/-- Several of them. -/
def Scene.nodes (w : World (XNum ℝ)) : List Scene → List (Dyn.Node (XNum ℝ))
  | [] => []
  | s :: ss => s.node w :: Scene.nodes w ss

end

theorem node_map (w : World (XNum ℝ)) (s : Scene) : (s.node w).map = s.map := by
  cases s <;> rw [Scene.node] <;> rfl

theorem nodes_map (w : World (XNum ℝ)) : ∀ ss : List Scene, (Scene.nodes w ss).map (fun c => (.map c.map : Val (XNum ℝ))) = Scene.maps ss
  | [] => by rw [Scene.nodes, Scene.maps]; rfl
  | s :: ss => by rw [Scene.nodes, Scene.maps, List.map_cons, node_map, nodes_map w ss]

theorem nodes_eq (w : World (XNum ℝ)) : ∀ ss : List Scene, Scene.nodes w ss = ss.map (Scene.node w)
  | [] => by rw [Scene.nodes]; rfl
  | s :: ss => by rw [Scene.nodes, nodes_eq w ss]; rfl

mutual

theorem make_scene (w : World (XNum ℝ)) (xs : List (Text × DMap (XNum ℝ))) : ∀ (s : Scene) (n : Nat), s.depth ≤ n → w.make xs n s.map = .val (s.node w)
  | .draw cs bs, n, h => by
    obtain ⟨n, rfl⟩ : ∃ k, n = k + 1 := ⟨n - 1, by rw [Scene.depth] at h; omega⟩
    rw [make_drawing w xs n _ (by rw [Scene.map]; rfl), Scene.node]
    rfl
  | .group s ss bs, n, h => by
    rw [Scene.depth] at h
    obtain ⟨n, rfl⟩ : ∃ k, n = k + 1 := ⟨n - 1, by omega⟩
    have h1 := make_scene w xs s n (by omega)
    have h2 := make_scenes w xs ss n (by omega)
    have ht : (Scene.group s ss bs).map.lookup typeKey = some (.str Built.group.text) := by rw [Scene.map]; rfl
    have hc : slice (Scene.group s ss bs).map componentsKey = s.map :: ss.map Scene.map := by
      rw [slice_plain (by decide +kernel)]
      rw [show (Scene.group s ss bs).map.lookup componentsKey = some (.list (.map s.map :: Scene.maps ss)) from by rw [Scene.map]; rfl]
      rw [show (Val.map s.map :: Scene.maps ss) = (s.map :: ss.map Scene.map).map .map from by rw [maps_map]; rfl]
      simp only [mapItems_maps, Option.getD_some]
    have hm : makeList (w.make xs n) (s.map :: ss.map Scene.map) = .val (s.node w :: Scene.nodes w ss) := by simp only [makeList, h1, h2]
    have hw : withComponents (Scene.group s ss bs).map (s.node w :: Scene.nodes w ss) = (Scene.group s ss bs).map := by
      unfold withComponents
      rw [List.map_cons, node_map, nodes_map, Scene.map]
      rfl
    rw [World.make]
    simp only [text_type w (b := .group) ht, built_text, World.create, clone_neat (neat_scene _), hc, hm, hw]
    rw [Scene.node]

theorem make_scenes (w : World (XNum ℝ)) (xs : List (Text × DMap (XNum ℝ))) : ∀ (ss : List Scene) (n : Nat), Scene.depths ss ≤ n →
    makeList (w.make xs n) (ss.map Scene.map) = .val (Scene.nodes w ss)
  | [], n, _ => by rw [Scene.nodes]; rfl
  | s :: ss, n, h => by
    rw [Scene.depths] at h
    have h1 := make_scene w xs s n (by omega)
    have h2 := make_scenes w xs ss n (by omega)
    rw [Scene.nodes]
    simp only [List.map_cons, makeList, h1, h2]

end

/-! ## Rendering -/

theorem scene_plain (s : Scene) : PlainElem ⟨[], s.map, []⟩ where
  params := rfl
  defaults := rfl
  absent := fun k hk => by
    simp only [sceneKeys, List.mem_cons, List.not_mem_nil, or_false, not_or] at hk
    obtain ⟨h1, h2, h3, h4, h5, h6⟩ := hk
    cases s <;> rw [Scene.map] <;> simp only [List.lookup, beq_eq_false_iff_ne.mpr h2, beq_eq_false_iff_ne.mpr h3, beq_eq_false_iff_ne.mpr h5, beq_eq_false_iff_ne.mpr h6]

theorem piece_plain (o : Piece) : PlainElem ⟨[], shownPiece o, []⟩ where
  params := rfl
  defaults := rfl
  absent := fun k hk => shownPiece_absent o k fun h =>
    hk (List.mem_append_left (bs := ["commands".toList, "transforms".toList]) h)

theorem bends_slice (bs : List Bend) {mp : DMap (XNum ℝ)} (h : mp.lookup transformsKey = some (bendsVal bs)) : slice mp transformsKey = bs.map bendMap := by
  rw [slice_plain (by decide +kernel), h]
  have : (bs.map fun b => (.map (bendMap b) : Val (XNum ℝ))) = (bs.map bendMap).map .map := by simp
  simp only [bendsVal, this, mapItems_maps, Option.getD_some]

theorem elemOf_scene (s : Scene) : elemOf s.map = ⟨[], s.map, []⟩ := by
  unfold elemOf
  rw [sub_plain (by decide +kernel), (scene_plain s).absent _ (by decide +kernel), sub_plain (by decide +kernel), (scene_plain s).absent _ (by decide +kernel)]
  rfl

theorem live_draw (w : World (XNum ℝ)) (cs : List PenCmd) (bs : List Bend) :
    live w ((Scene.draw cs bs).node w) = .mk .draw (w.idOf (Scene.draw cs bs).map) ⟨[], (Scene.draw cs bs).map, []⟩ [] := by
  have := text_type w (m := (Scene.draw cs bs).map) (b := .draw) (by rw [Scene.map]; rfl)
  rw [Scene.node]
  simp only [live, lives, this, built_text, Option.getD_some, elemOf_scene]

theorem live_group (w : World (XNum ℝ)) (s : Scene) (ss : List Scene) (bs : List Bend) :
    live w ((Scene.group s ss bs).node w) =
      .mk .group (w.idOf (Scene.group s ss bs).map) ⟨[], (Scene.group s ss bs).map, []⟩ (live w (s.node w) :: lives w (Scene.nodes w ss)) := by
  have := text_type w (m := (Scene.group s ss bs).map) (b := .group) (by rw [Scene.map]; rfl)
  rw [Scene.node]
  simp only [live, lives, this, built_text, Option.getD_some, elemOf_scene]

/-- The paths are drawn one after the other from `q`. -/
structure Shapes (q : Pt ℝ) (ps : List (Path ℝ)) (r : List (Stroke ℝ) × Pt ℝ) : Prop where
  ok : ∀ p ∈ ps, p ≠ [] ∧ Inked none p
  strokes : ps.flatMap strokes = r.1
  stop : endOf q ps = r.2

theorem render_cons {r : Rendering (XNum ℝ)} {c : Live (XNum ℝ)} {cs : List (Live (XNum ℝ))} {a : Point ℝ} {p : Path ℝ} {ps : List (Path ℝ)} {ss : List (Stroke ℝ)} {q : Pt ℝ}
    {t : List (Stroke ℝ) × Pt ℝ} (h1 : r c [] (finPt a) = .ok (finPath p, c, [])) (h2 : Shape p ss q)
    (h3 : renderAllOf r cs [] (finPt (currentPosition p)) = .ok (ps.map finPath, cs, [])) (h4 : Shapes q ps t) :
    renderAllOf r (c :: cs) [] (finPt a) = .ok ((p :: ps).map finPath, c :: cs, []) ∧ Shapes (pt a) (p :: ps) (ss ++ t.1, t.2) := by
  obtain ⟨l, hl⟩ := last_of_ne h2.ne
  have hl' : (finPath p).getLast? = some (finSeg l) := by simp [finPath, List.getLast?_map, hl]
  have hs : (finSeg l).stop = finPt (currentPosition p) := by
    rw [currentPosition_eq p l hl]
    cases l <;> rfl
  refine ⟨?_, ?_, ?_, ?_⟩
  · simp only [renderAllOf, h1, Res.ok_bind, hl', hs, h3]
    rfl
  · intro p' hp'
    rcases List.mem_cons.mp hp' with rfl | hp'
    · exact ⟨h2.ne, h2.inked⟩
    · exact h4.ok p' hp'
  · rw [List.flatMap_cons, h2.strokes, h4.strokes]
  · rw [endOf_cons, h2.stop, h4.stop]

mutual

theorem render_scene (m : Machine (XNum ℝ) O) (hf : 0 < m.fuel) : ∀ (sc : Scene) (n : Nat) (_ : sc.depth ≤ n) (s : Spot (XNum ℝ)) (_ : PlainSpot s) (a : Point ℝ),
    ∃ p, m.render n s (live m.world (sc.node m.world)) [] (finPt a) = .ok (finPath p, live m.world (sc.node m.world), []) ∧
      Shape p (sc.draws (pt a)).1 (sc.draws (pt a)).2
  | .draw cs bs, n, h, s, hs, a => by
    obtain ⟨n, rfl⟩ : ∃ k, n = k + 1 := ⟨n - 1, by rw [Scene.depth] at h; omega⟩
    have hsl : slice (Scene.draw cs bs).map commandsKey = cs.map penMap := by
      rw [slice_plain (by decide +kernel), show (Scene.draw cs bs).map.lookup commandsKey = some (.list (cs.map fun c => .map (penMap c))) from by rw [Scene.map]; rfl]
      have : (cs.map fun c => (.map (penMap c) : Val (XNum ℝ))) = (cs.map penMap).map .map := by simp
      simp only [this, mapItems_maps, Option.getD_some]
    have hm : moveTo [] (finPt a) = finPath [.move origin a] := by
      unfold moveTo
      rw [show currentPosition ([] : Path (XNum ℝ)) = origin from rfl, origin_fin]
      rfl
    obtain ⟨p', h1, h2⟩ := finish_bends m hs (scene_plain (.draw cs bs)) (some (finPt a)) hf bs (bends_slice bs (by rw [Scene.map]; rfl)) (shape_pen a cs)
    refine ⟨p', ?_, ?_⟩
    · rw [live_draw]
      simp only [Machine.render, Live.kind, Machine.renderDraw, Live.elem, hsl, drawRender, hm]
      rw [execAll_pen m hf _ _ _ _ cs [.move origin a], Res.ok_bind]
      simp only [h1, Res.ok_bind]
    · rw [Scene.draws]
      exact h2
  | .group s1 ss bs, n, h, s, hs, a => by
    rw [Scene.depth] at h
    obtain ⟨n, rfl⟩ : ∃ k, n = k + 1 := ⟨n - 1, by omega⟩
    have hs' : PlainSpot (Machine.below s ⟨[], (Scene.group s1 ss bs).map, []⟩ s.nested) := ⟨hs.doc, by
      intro e he
      rcases List.mem_cons.mp he with rfl | he
      · exact scene_plain _
      · exact hs.ups e he⟩
    obtain ⟨p, h1, h2⟩ := render_scene m hf s1 n (by omega) _ hs' a
    obtain ⟨ps, h3, h4⟩ := render_scenes m hf ss n (by omega) _ hs' (currentPosition p)
    rw [h2.stop] at h4
    obtain ⟨h5, h6⟩ := render_cons h1 h2 h3 h4
    obtain ⟨j, h7, h8⟩ := shape_join (pt a) (p :: ps) (by simp) h6.ok
    rw [h6.strokes, h6.stop] at h8
    obtain ⟨p', h9, h10⟩ := finish_bends m hs (scene_plain (.group s1 ss bs)) (some (finPt a)) hf bs (bends_slice bs (by rw [Scene.map]; rfl)) h8
    refine ⟨p', ?_, ?_⟩
    · rw [live_group]
      simp only [Machine.render, Live.kind, Machine.renderGroup, Live.elem, Live.children, Live.id]
      rw [h5]
      simp only [Res.ok_bind, h7, h9]
    · rw [Scene.draws]
      exact h10

theorem render_scenes (m : Machine (XNum ℝ) O) (hf : 0 < m.fuel) : ∀ (ss : List Scene) (n : Nat) (_ : Scene.depths ss ≤ n) (s : Spot (XNum ℝ)) (_ : PlainSpot s) (a : Point ℝ),
    ∃ ps, renderAllOf (m.render n s) (lives m.world (Scene.nodes m.world ss)) [] (finPt a) = .ok (ps.map finPath, lives m.world (Scene.nodes m.world ss), []) ∧
      Shapes (pt a) ps (Scene.drawsAll (pt a) ss)
  | [], n, h, s, hs, a => by
    rw [Scene.nodes, lives, Scene.drawsAll]
    exact ⟨[], rfl, by simp, rfl, rfl⟩
  | s1 :: ss, n, h, s, hs, a => by
    rw [Scene.depths] at h
    obtain ⟨p, h1, h2⟩ := render_scene m hf s1 n (by omega) s hs a
    obtain ⟨ps, h3, h4⟩ := render_scenes m hf ss n (by omega) s hs (currentPosition p)
    rw [h2.stop] at h4
    obtain ⟨h5, h6⟩ := render_cons h1 h2 h3 h4
    refine ⟨p :: ps, ?_, ?_⟩
    · rw [Scene.nodes, lives]
      exact h5
    · rw [Scene.drawsAll]
      exact h6

end

end Verif.Render
