import Verif.Lemmas.NearShapes
import Verif.Props.NearSheet
import Verif.Props.Seen

/-!
# C137: what a reader of the written files sees of a document of outlines, with doubles
-/

set_option linter.unusedSectionVars false

namespace Verif.Shapes

open Verif Verif.Dyn Verif.Path Verif.PlanSet Verif.Svg Verif.Files Verif.Spec Verif.Double Verif.Xml
open Verif.Render (Machine livePart)

/-- The part is the outline: its name, no label, its lines, moved so that they begin at the origin, and their size. -/
structure LaidOut (o : Shape Double) (p : RenderedPart Double (Drawing Double)) : Prop where
  id : o.id ≠ [] → p.payload.id = o.id
  label : p.payload.label.text = []
  read : ReadAsDrawn p.payload.path
  targets : ∀ s ∈ p.payload.path, TargetsUpTo 2000 s
  width : p.width.Finite ∧ 0 < p.width.val ∧ p.width.val ≤ 1800
  height : p.height.Finite ∧ 0 < p.height.val ∧ p.height.val ≤ 1800
  box : BoxOf (Drawn (valPath p.payload.path)) (0, 0) (p.width.val, p.height.val)
  sized : o.Sized p.width p.height
  lines : ∃ tl : Pt ℚ, List.Forall₂ (fun s s' => ∀ u : ℚ, 0 ≤ u → u ≤ 1 → NearPt (1 / 10 ^ 10) ((s'.map valPt).at u) ((s.at u).1 - tl.1, (s.at u).2 - tl.2))
    o.lines (strokes p.payload.path)

theorem polyline_map {F G : Type} (f : Pt F → Pt G) : ∀ (a : Pt F) (qs : List (Pt F)), (polyline a qs).map (Stroke.map f) = polyline (f a) (qs.map f)
  | a, [] => rfl
  | a, q :: qs => by simp [polyline, polyline_map f q qs, Stroke.map]

theorem polyline_ends : ∀ (a : Pt ℚ) (qs : List (Pt ℚ)), qs ≠ [] → ∀ x ∈ a :: qs, ∃ s ∈ polyline a qs, ∃ u : ℚ, 0 ≤ u ∧ u ≤ 1 ∧ s.at u = x
  | a, [], h, _, _ => absurd rfl h
  | a, [q], _, x, hx => by
    simp only [List.mem_cons, List.not_mem_nil, or_false] at hx
    rcases hx with rfl | rfl
    · exact ⟨_, List.mem_cons_self, 0, le_rfl, zero_le_one, by simp [Stroke.at]⟩
    · exact ⟨_, List.mem_cons_self, 1, zero_le_one, le_rfl, by simp [Stroke.at]⟩
  | a, q :: q' :: qs, _, x, hx => by
    rcases List.mem_cons.1 hx with rfl | hx
    · exact ⟨_, List.mem_cons_self, 0, le_rfl, zero_le_one, by simp [Stroke.at]⟩
    · obtain ⟨s, hs, h⟩ := polyline_ends q (q' :: qs) (by simp) x hx
      exact ⟨s, List.mem_cons_of_mem _ hs, h⟩

section
variable [MathLib] {O : Type}

theorem origin_val : valPt (pt (origin : Point Double)) = (0, 0) := by decide +kernel

theorem origin_upTo {B : ℚ} (h : 0 ≤ B) : PtUpTo B (pt (origin : Point Double)) := by
  have : PtUpTo 0 (pt (origin : Point Double)) := by
    unfold PtUpTo
    decide +kernel
  exact ⟨this.1, this.2.1, this.2.2.1.trans h, this.2.2.2.trans h⟩

theorem lines_eq (o : Shape Double) : (polyline (pt origin) o.points).map (Stroke.map valPt) = o.lines := by
  rw [polyline_map, origin_val]
  rfl

/-- A part of lines with coordinates up to 600. -/
theorem part_shape (m : Machine Double O) (hf : 0 < m.fuel) (doc : Elem Double) (hd : Bare doc) (customs : List (Text × DMap Double)) (o : Shape Double)
    (hw : o.Wide) (hu : ∀ q ∈ o.points, PtUpTo 600 q) :
    ∃ q, m.renderPart doc customs (livePart m.world (madeNode m.world o)) [] = .ok ([q], []) ∧
      LaidOut o (Machine.toLayout (livePart m.world (madeNode m.world o)).id q) := by
  have hne : o.points ≠ [] := by
    intro h
    obtain ⟨⟨a, ha, b, hb, hab⟩, -⟩ := hw
    rw [h] at ha hb
    simp only [List.map_nil, List.mem_singleton] at ha hb
    exact hab (by rw [ha, hb])
  rw [livePart_made]
  obtain ⟨j, h1, h2, h3, h4⟩ := renderPart_shape exactEq_double m hf doc hd customs (m.world.idOf (madeMap o)) o hne
  refine ⟨_, h4, ?_⟩
  have hsj : StraightUpTo 600 j := by
    intro s hs
    rw [h1] at hs
    obtain ⟨x, hx, y, hy, rfl⟩ := polyline_straight _ _ s hs
    have key : ∀ x ∈ pt origin :: o.points, PtUpTo 600 x := by
      intro x hx
      rcases List.mem_cons.1 hx with rfl | hx
      · exact origin_upTo (by norm_num)
      · exact hu x hx
    exact ⟨x, y, rfl, key x hx, key y hy⟩
  have hnj : strokes j ≠ [] := by
    rw [h1]
    cases e : o.points with
    | nil => exact absurd e hne
    | cons => simp [polyline]
  have hpj := h3 (PtUpTo 600) (origin_upTo (by norm_num)) hu
  obtain ⟨tl, br, b1, b2, b3, b4, b5, b6, b7, b8⟩ := trim_box (by norm_num) (by norm_num) hnj hsj
  have hb : (3 : ℚ) * 600 = 1800 := by norm_num
  rw [hb] at b3
  have hc : strokes (collapseMoves (trimWhitespace j)) = strokes (trimWhitespace j) := strokes_collapseMoves _
  have hdr : ∀ p p' : Path Double, strokes p = strokes p' → Drawn (valPath p) = Drawn (valPath p') := by
    intro p p' h
    funext q
    unfold Drawn
    rw [strokes_valPath, strokes_valPath, h]
  have hsc : StraightUpTo 1800 (collapseMoves (trimWhitespace j)) := by
    intro s hs
    rw [hc] at hs
    exact b3 s hs
  have hbc : BoxOf (Drawn (valPath (collapseMoves (trimWhitespace j)))) (0, 0) (rnd (br.1 - tl.1), rnd (br.2 - tl.2)) := by
    rw [hdr _ _ hc]
    exact b2
  obtain ⟨t1, t2⟩ := trim_trimmed (by norm_num) (by rw [hc]; exact b4) hsc hbc
  have hst : StraightUpTo 1800 (trimWhitespace (collapseMoves (trimWhitespace j))) := by
    intro s hs
    rw [t1] at hs
    exact hsc s hs
  have hbt : BoxOf (Drawn (valPath (trimWhitespace (collapseMoves (trimWhitespace j))))) (0, 0) (rnd (br.1 - tl.1), rnd (br.2 - tl.2)) := by
    rw [hdr _ _ t1]
    exact hbc
  obtain ⟨⟨m1, m2, m3⟩, m4, m5, m6⟩ := measure_trimmed (by norm_num) (by rw [t1, hc]; exact b4) hst hbt
  have hps := t2 (pointsIn_collapseMoves (by
    have := b8 j rfl hpj
    rw [hb] at this
    exact this))
  have hlines : (strokes j).map (Stroke.map valPt) = o.lines := by
    rw [h1, lines_eq]
  have hdrawn : ∀ q, Drawn (valPath j) q ↔ ∃ s ∈ o.lines, ∃ u : ℚ, 0 ≤ u ∧ u ≤ 1 ∧ s.at u = q := by
    intro q
    unfold Drawn
    rw [strokes_valPath, hlines]
  have hsize : 0 < br.1 - tl.1 ∧ 0 < br.2 - tl.2 := by
    have hm : ∀ x ∈ (0, 0) :: o.points.map valPt, Drawn (valPath j) x := by
      intro x hx
      rw [hdrawn]
      exact polyline_ends _ _ (by simpa using hne) x hx
    obtain ⟨⟨a, ha, b, hb, hab⟩, c, hc, d, hd, hcd⟩ := hw
    have ka := b1.inside _ (hm a ha)
    have kb := b1.inside _ (hm b hb)
    have kc := b1.inside _ (hm c hc)
    have kd := b1.inside _ (hm d hd)
    constructor
    · rcases lt_or_gt_of_ne hab with h | h <;> linarith [ka.1, ka.2.1, kb.1, kb.2.1]
    · rcases lt_or_gt_of_ne hcd with h | h <;> linarith [kc.2.2.1, kc.2.2.2, kd.2.2.1, kd.2.2.2]
  refine
    { id := fun h => idOf_made m.world o h
      label := rfl
      read := ((inked_shift _ _ (inked_collapseMoves (inked_shift _ _ h2)))).faithful
      targets := ?_
      width := ⟨m1, ?_, ?_⟩
      height := ⟨m4, ?_, ?_⟩
      box := ?_
      sized := ⟨tl, br, ?_, m2, m5⟩
      lines := ⟨tl, ?_⟩ }
  · intro s hs
    have k : ∀ {a : Pt Double}, PtUpTo 1800 a → PtUpTo 2000 a := fun h => ⟨h.1, h.2.1, h.2.2.1.trans (by norm_num), h.2.2.2.trans (by norm_num)⟩
    have := hps s hs
    cases s
    · exact k this
    · exact k this.2
    · exact ⟨k this.2.1, k this.2.2.1, k this.2.2.2⟩
  · show 0 < (Path.measure (_ : Path Double)).1.val
    rw [m2]
    exact rnd_pos hsize.1 b5
  · show (Path.measure (_ : Path Double)).1.val ≤ 1800
    rw [m2]
    exact (le_abs_self _).trans m3
  · show 0 < (Path.measure (_ : Path Double)).2.val
    rw [m5]
    exact rnd_pos hsize.2 b6
  · show (Path.measure (_ : Path Double)).2.val ≤ 1800
    rw [m5]
    exact (le_abs_self _).trans m6
  · show BoxOf (Drawn (valPath (trimWhitespace (collapseMoves (trimWhitespace j))))) (0, 0) ((Path.measure (_ : Path Double)).1.val, (Path.measure (_ : Path Double)).2.val)
    rw [m2, m5]
    exact hbt
  · rw [show (fun q => ∃ s ∈ o.lines, ∃ u : ℚ, 0 ≤ u ∧ u ≤ 1 ∧ s.at u = q) = Drawn (valPath j) from funext fun q => propext (hdrawn q).symm]
    exact b1
  · show List.Forall₂ _ o.lines (strokes (trimWhitespace (collapseMoves (trimWhitespace j))))
    rw [t1, hc, ← hlines, List.forall₂_map_left_iff]
    refine List.Forall₂.imp ?_ b7
    intro s s' h u u0 u1
    obtain ⟨n1, n2⟩ := h.2 u u0 u1
    have : 3 * (eps * 600) ≤ 1 / 10 ^ 10 := by norm_num
    exact ⟨n1.trans this, n2.trans this⟩

theorem parts_shapes (m : Machine Double O) (hf : 0 < m.fuel) (doc : Elem Double) (hd : Bare doc) (customs : List (Text × DMap Double)) :
    ∀ (os : List (Shape Double)), (∀ o ∈ os, o.Wide ∧ ∀ q ∈ o.points, PtUpTo 600 q) →
    ∃ parts, List.Forall₂ LaidOut os parts ∧ List.Forall₂ (fun o p => ∃ q, m.renderPart doc customs (livePart m.world (madeNode m.world o)) [] = .ok ([q], []) ∧
      Machine.toLayout (livePart m.world (madeNode m.world o)).id q = p) os parts
  | [], _ => ⟨[], .nil, .nil⟩
  | o :: os, h => by
    obtain ⟨q, h1, h2⟩ := part_shape m hf doc hd customs o (h o (by simp)).1 (h o (by simp)).2
    obtain ⟨parts, h3, h4⟩ := parts_shapes m hf doc hd customs os fun o ho => h o (by simp [ho])
    exact ⟨_ :: parts, .cons h2 h3, .cons ⟨q, h1, rfl⟩ h4⟩

/-- A part that is laid out is drawn inside its box. -/
theorem LaidOut.inBox {o : Shape Double} {p : RenderedPart Double (Drawing Double)} (h : LaidOut o p) : InBoxUpTo 0 p := by
  intro s hs u u0 u1
  rw [h.read] at hs
  obtain ⟨a, b, c, d⟩ := h.box.inside ((s.map valPt).at u) ⟨s.map valPt, by rw [strokes_valPath]; exact List.mem_map_of_mem hs, u, u0, u1, rfl⟩
  simp only at a b c d
  refine ⟨?_, ?_, ?_, ?_⟩ <;> simp only [Rect.grow] <;> linarith

omit [MathLib] in
theorem flatten_singles {α : Type*} (l : List α) : (l.map fun p => [p]).flatten = l := by
  induction l with
  | nil => rfl
  | cons => simp_all

/-- What the program makes of a document of outlines. -/
theorem shape_files (m : Machine Double O) (hf : 0 < m.fuel) (files : Nat) (s : Sheet Double) (hs : s.width.Finite ∧ s.height.Finite ∧ s.padding.Finite)
    (hw : 0 ≤ s.width.val ∧ s.width.val ≤ 1000) (hh : 0 ≤ s.height.val ∧ s.height.val ≤ 1000) (hp : 0 ≤ s.padding.val ∧ s.padding.val ≤ 1000)
    (os : List (Shape Double)) (hn : os.length ≤ 1000) (ho : ∀ o ∈ os, o.Wide ∧ (∀ q ∈ o.points, PtUpTo 600 q) ∧ o.id ≠ [] ∧ Unmarked o.id) :
    ∃ (parts : List (RenderedPart Double (Drawing Double))) (docs : List (SvgDoc Double (Drawing Double))) (texts : List SheetText),
      List.Forall₂ LaidOut os parts ∧ PlanSet.init s (parts.map fun p => some [p]) = some (docs, .ok) ∧ (docs.map (·.parts)).flatten.Perm parts ∧
      m.sheets (files + 1) (shapeDoc s os) = .ok texts ∧
      List.Forall₂ (fun d t => t.2 = false ∧ Says t.1 [pageElement (newPage s.width s.height .inch) d.renderables]) docs texts ∧
      ∀ d ∈ docs, (∀ r ∈ d.renderables, PtUpTo 2000 (r.x, r.y)) ∧
        (((∀ r ∈ d.renderables, FitsRounded Double.val s r.part) ∧ (NoFillings Double.val (newSvgDoc s.width s.height s.padding) d.parts →
          (∀ r ∈ d.renderables, ∀ q, Shown 3 r q →
            (Rect.grow ⟨0, 0, s.width.val, s.height.val⟩ (1 / 2000 + 1 / 2 / 10 ^ 3 + 0 + 2 / 10 ^ 6 - s.padding.val)).Mem q) ∧
          d.renderables.Pairwise fun r r' => ∀ q q', Shown 3 r q → Shown 3 r' q' →
            2 * s.padding.val - (1 / 1000 + 1 / 10 ^ 3 + 2 * 0 + 2 / 10 ^ 6) ≤ max |q.1 - q'.1| |q.2 - q'.2|)) ∨ Alone Double.val s d) := by
  obtain ⟨parts, h1, h2⟩ := parts_shapes m hf (Machine.docElem (madeDoc m.world s os)) (bare_doc m.world s os) [] os fun o h => ⟨(ho o h).1, (ho o h).2.1⟩
  have hmem : ∀ p ∈ parts, ∃ o ∈ os, LaidOut o p := fun p hp => forall₂_right h1 hp
  obtain ⟨docs, h3, h4⟩ := C133_sheets s (parts.map fun p => [p]) 0 3 hs hw hh hp (by rw [flatten_singles, ← h1.length_eq]; exact hn)
    (by
      rw [flatten_singles]
      intro p hp
      obtain ⟨o, -, hl⟩ := hmem p hp
      exact ⟨hl.width.1, hl.height.1, hl.width.2.1, hl.height.2.1, hl.width.2.2.trans (by norm_num), hl.height.2.2.trans (by norm_num)⟩)
    (by
      rw [flatten_singles]
      intro p hp
      obtain ⟨o, -, hl⟩ := hmem p hp
      exact ⟨hl.inBox, hl.targets⟩)
  rw [List.map_map] at h3
  obtain ⟨all, e1, e2, -⟩ := C10_no_part_lost s _ h3
  have : all = parts.map fun p => [p] := by
    have h := congrArg (List.map fun o : Option (List (RenderedPart Double (Drawing Double))) => o.getD []) e1
    simpa [Function.comp_def] using h.symm
  rw [this, flatten_singles] at e2
  have hplan : m.planSet (madeDoc m.world s os) = .ok (docs, List.replicate docs.length (newPage s.width s.height .inch)) := by
    have := plan_shapes m _ [] s (sheetOf_doc m s os) _ (pageOf_doc m s os) os parts h2 _ docs h3
    unfold Machine.planSet
    rw [show (madeDoc m.world s os).context = [] from rfl, sheetOf_doc, pageOf_doc]
    exact this
  have hparse : m.world.parse m.fuel (files + 1) (shapeDoc s os) = .val (madeDoc m.world s os) := by
    obtain ⟨f, hf'⟩ : ∃ f, m.fuel = f + 1 := ⟨m.fuel - 1, by omega⟩
    rw [hf']
    exact parse_outline m.world f files s os
  refine ⟨parts, docs, docs.map fun x => Machine.sheetText (newPage s.width s.height .inch) x, h1, h3, e2, ?_, ?_, h4⟩
  · unfold Machine.sheets
    simp only [hparse, hplan]
    congr 1
    generalize newPage s.width s.height .inch = page
    clear * -
    induction docs with
    | nil => rfl
    | cons x xs ih => simpa [List.replicate_succ] using ih
  · rw [List.forall₂_map_right_iff]
    refine List.forall₂_same.mpr fun x hx => ?_
    have hw : ∀ r ∈ x.renderables, Writable r := by
      intro r hr
      obtain ⟨o, hm, hl⟩ := hmem r.part (e2.subset (List.mem_flatten.mpr ⟨x.parts, List.mem_map_of_mem hx, List.mem_map_of_mem hr⟩))
      obtain ⟨_, _, hi, hu⟩ := ho o hm
      refine ⟨?_, ?_, fun h => absurd hl.label h⟩
      · rw [hl.id hi]
        exact hu
      · rw [hl.label]
        exact unmarked_of_all (by decide)
    obtain ⟨h5, h6⟩ := C133_written (newPage s.width s.height .inch)
      ((unmarked_of_all (by decide)).append (unmarked_double _ _)) (((unmarked_of_all (by decide)).append (unmarked_double _ _)).append (unmarked_of_all (by decide)))
      x.renderables hw
    unfold Machine.sheetText
    split
    · next e => rw [e] at h5; cases h5
    · next t' r e e' => rw [e'] at h6; exact ⟨rfl, h6⟩

/-- The part of the outline as it is written. -/
theorem sees_part (s : Sheet Double) (r : Renderable Double (Drawing Double)) (o : Shape Double) (hi : o.id ≠ []) (hl : LaidOut o r.part) (hx : PtUpTo 2000 (r.x, r.y)) :
    ∃ g : Seen, SeesGroup (itemElement (newPage s.width s.height .inch) r) g ∧ Shows (1 / 1000 + 1 / 10 ^ 6) o g ∧ ∀ q, g.Has q → Shown 3 r q := by
  have hr : PartUpTo 2000 r := ⟨hx, hl.height.1, by rw [abs_of_pos hl.height.2.1]; exact hl.height.2.2.trans (by norm_num), hl.targets⟩
  obtain ⟨ts, p, h1, h2, -, h3⟩ := C133_placed (by norm_num) (by norm_num) 3 r hr
  rw [hl.read] at h3
  have hat : ∀ (s : Stroke Double) (u : ℚ), (s.map fun q => PlanSet.applyTransforms (ts.map valTransform) (valPt q)).at u =
      PlanSet.applyTransforms (ts.map valTransform) ((s.map valPt).at u) := by
    have key : ∀ (ts : List (SvgTransform ℚ)) (s : Stroke ℚ) (t : ℚ), (s.map (PlanSet.applyTransforms ts)).at t = PlanSet.applyTransforms ts (s.at t) := by
      intro ts
      induction ts with
      | nil => intro s t; cases s <;> rfl
      | cons x ts ih =>
        intro s t
        have h : s.map (PlanSet.applyTransforms (x :: ts)) = (s.map (PlanSet.applyTransforms ts)).map x.apply := by cases s <;> rfl
        have h' : PlanSet.applyTransforms (x :: ts) (s.at t) = x.apply (PlanSet.applyTransforms ts (s.at t)) := rfl
        rw [h, h', ← ih s t]
        generalize s.map (PlanSet.applyTransforms ts) = s
        cases x <;> cases s <;> simp only [Stroke.map, Stroke.at, SvgTransform.apply, Prod.mk.injEq] <;> constructor <;> ring
    intro s u
    rw [← key]
    cases s <;> rfl
  refine ⟨⟨o.id, (strokes p).map (Stroke.map fun q => PlanSet.applyTransforms (ts.map valTransform) (valPt q))⟩, ?_, ⟨rfl, ?_⟩, ?_⟩
  · refine ⟨joinSpace (r.transforms.map transformText), printPath 3 r.part.payload.path, (newPage s.width s.height .inch).cutStyle, ts, p, ?_, h1, h2, rfl⟩
    unfold itemElement
    simp only []
    rw [hl.label, if_pos rfl, hl.id hi, show (newPage s.width s.height .inch).precision = 3 from rfl]
  · obtain ⟨tl, hn⟩ := hl.lines
    refine ⟨fun q => Svg.place r (q.1 - tl.1, q.2 - tl.2), ?_, ?_⟩
    · unfold Svg.place
      cases r.rotate
      · exact ⟨r.x.val - tl.1, r.y.val - tl.2, .inl (funext fun q => Prod.ext (by simp; ring) (by simp; ring))⟩
      · exact ⟨r.x.val + r.part.height.val + tl.2, r.y.val - tl.1, .inr (funext fun q => Prod.ext (by simp; ring) (by simp; ring))⟩
    · rw [List.forall₂_map_right_iff]
      have hplace : ∀ {e : ℚ} {a b : Pt ℚ}, NearPt e a b → NearPt e (Svg.place r a) (Svg.place r b) := by
        rintro e a b ⟨n1, n2⟩
        unfold Svg.place
        cases r.rotate
        · refine ⟨?_, ?_⟩ <;> simp only [Bool.false_eq_true, if_false]
          · rwa [add_sub_add_left_eq_sub]
          · rwa [add_sub_add_left_eq_sub]
        · refine ⟨?_, ?_⟩ <;> simp only [if_true]
          · rwa [sub_sub_sub_cancel_left, abs_sub_comm]
          · rwa [add_sub_add_left_eq_sub]
      generalize strokes r.part.payload.path = ss at hn h3
      generalize o.lines = ls at hn
      generalize strokes p = qs at h3
      clear * - hn h3 hat hplace
      induction hn generalizing qs with
      | nil => cases h3; exact .nil
      | @cons a b _ _ hab _ ih =>
        cases h3 with
        | cons hbc hrest =>
          refine .cons ?_ (ih _ hrest)
          intro u u0 u1
          rw [hat]
          obtain ⟨n1, n2⟩ := hbc u u0 u1
          obtain ⟨n3, n4⟩ := hplace (hab u u0 u1)
          have small : (1 : ℚ) / 2000 + 1 / 2 / 10 ^ 3 + 11 * (eps * 2000) + 1 / 10 ^ 10 ≤ 1 / 1000 + 1 / 10 ^ 6 := by norm_num
          refine ⟨le_trans ?_ small, le_trans ?_ small⟩
          · exact (abs_sub_le _ _ _).trans (add_le_add n1 n3)
          · exact (abs_sub_le _ _ _).trans (add_le_add n2 n4)
  · rintro q ⟨s', hs', u, u0, u1, rfl⟩
    obtain ⟨s, hs, rfl⟩ := List.mem_map.1 hs'
    exact ⟨ts, p, h1, h2, s, hs, u, u0, u1, hat s u⟩

theorem exists_forall₂ {α β : Type*} {R : α → β → Prop} : ∀ (l : List α), (∀ a ∈ l, ∃ b, R a b) → ∃ l', List.Forall₂ R l l'
  | [], _ => ⟨[], .nil⟩
  | a :: l, h => by
    obtain ⟨b, hb⟩ := h a (by simp)
    obtain ⟨l', hl⟩ := exists_forall₂ l fun a ha => h a (by simp [ha])
    exact ⟨b :: l', .cons hb hl⟩

/-- **C137.** Whoever reads the files that the program, computing with doubles, writes for a document of at most a thousand outlines, with coordinates up to 600 and sheets up to
1000, sees every outline exactly once, under its name: its lines in their order, shifted or turned by a quarter and shifted, with every point within a thousandth and a millionth
of its place. If no outline but squares ever meets a free bin of exactly its padded size, then on every sheet with more than one outline they keep the padding to the sides and
twice the padding to each other, up to one and two thousandths and two millionths. -/
theorem C137_seen (m : Machine Double O) (hf : 0 < m.fuel) (files : Nat) (s : Sheet Double) (hs : s.width.Finite ∧ s.height.Finite ∧ s.padding.Finite)
    (hw : 0 ≤ s.width.val ∧ s.width.val ≤ 1000) (hh : 0 ≤ s.height.val ∧ s.height.val ≤ 1000) (hp : 0 ≤ s.padding.val ∧ s.padding.val ≤ 1000)
    (os : List (Shape Double)) (hn : os.length ≤ 1000) (ho : ∀ o ∈ os, o.Wide ∧ (∀ q ∈ o.points, PtUpTo 600 q) ∧ o.id ≠ [] ∧ Unmarked o.id) :
    ∃ (texts : List SheetText) (seen : List (List Seen)) (os' : List (Shape Double)), m.sheets (files + 1) (shapeDoc s os) = .ok texts ∧
      List.Forall₂ (fun t gs => t.2 = false ∧ SeesSheet s t.1 gs) texts seen ∧ os'.Perm os ∧ List.Forall₂ (Shows (1 / 1000 + 1 / 10 ^ 6)) os' seen.flatten ∧
      (NeverFills s os → ∀ gs ∈ seen, (∃ g, gs = [g]) ∨
        ((∀ g ∈ gs, g.Inside (s.padding.val - (1 / 1000 + 2 / 10 ^ 6)) s) ∧ gs.Pairwise (Seen.Apart (2 * s.padding.val - (1 / 500 + 2 / 10 ^ 6))))) := by
  obtain ⟨parts, docs, texts, h1, h2, h3, h4, h5, h6⟩ := shape_files m hf files s hs hw hh hp os hn ho
  obtain ⟨os', p1, p2⟩ : ∃ os', os'.Perm os ∧ List.Forall₂ LaidOut os' (docs.map (·.parts)).flatten := by
    obtain ⟨os', a, b⟩ := List.perm_comp_forall₂ h3 h1.flip
    exact ⟨os', b, a.flip⟩
  -- what is seen of a sheet
  have key : ∀ (docs : List (SvgDoc Double (Drawing Double))) (os' : List (Shape Double)), (∀ o ∈ os', o.id ≠ []) →
      (∀ d ∈ docs, ∀ r ∈ d.renderables, PtUpTo 2000 (r.x, r.y)) → List.Forall₂ LaidOut os' (docs.map (·.parts)).flatten →
      ∃ seen : List (List Seen), List.Forall₂ (fun d gs => List.Forall₂ (fun r g => SeesGroup (itemElement (newPage s.width s.height .inch) r) g ∧ ∀ q, g.Has q → Shown 3 r q)
        d.renderables gs) docs seen ∧ List.Forall₂ (Shows (1 / 1000 + 1 / 10 ^ 6)) os' seen.flatten := by
    intro docs
    induction docs with
    | nil =>
      intro os' _ _ h
      cases h
      exact ⟨[], .nil, .nil⟩
    | cons d docs ih =>
      intro os' hid hx h
      rw [List.map_cons, List.flatten_cons] at h
      obtain ⟨o1, o2, h7, h8, rfl⟩ : ∃ o1 o2, List.Forall₂ LaidOut o1 d.parts ∧ List.Forall₂ LaidOut o2 (docs.map (·.parts)).flatten ∧ os' = o1 ++ o2 :=
        ⟨os'.take d.parts.length, os'.drop d.parts.length, by simpa using List.forall₂_take_append _ _ _ h, List.forall₂_drop_append _ _ _ h, (List.take_append_drop _ _).symm⟩
      obtain ⟨seen, k1, k2⟩ := ih o2 (fun o ho => hid o (by simp [ho])) (fun d' hd' => hx d' (by simp [hd'])) h8
      have one : ∀ (rs : List (Renderable Double (Drawing Double))) (o1 : List (Shape Double)), (∀ o ∈ o1, o.id ≠ []) → (∀ r ∈ rs, PtUpTo 2000 (r.x, r.y)) →
          List.Forall₂ LaidOut o1 (rs.map (·.part)) → ∃ gs : List Seen, List.Forall₂ (fun r g => SeesGroup (itemElement (newPage s.width s.height .inch) r) g ∧ ∀ q, g.Has q → Shown 3 r q) rs gs ∧
            List.Forall₂ (Shows (1 / 1000 + 1 / 10 ^ 6)) o1 gs := by
        intro rs
        induction rs with
        | nil =>
          intro o1 _ _ h
          cases h
          exact ⟨[], .nil, .nil⟩
        | cons r rs ih' =>
          intro o1 hid hx h
          cases h with
          | cons hr hrs =>
            obtain ⟨g, g1, g2, g3⟩ := sees_part s r _ (hid _ (by simp)) hr (hx r (by simp))
            obtain ⟨gs, g4, g5⟩ := ih' _ (fun o ho => hid o (by simp [ho])) (fun r' hr' => hx r' (by simp [hr'])) hrs
            exact ⟨g :: gs, .cons ⟨g1, g3⟩ g4, .cons g2 g5⟩
      obtain ⟨gs, j1, j2⟩ := one d.renderables o1 (fun o ho => hid o (by simp [ho])) (hx d (by simp)) h7
      refine ⟨gs :: seen, .cons j1 k1, ?_⟩
      rw [List.flatten_cons]
      exact List.rel_append j2 k2
  obtain ⟨seen, k1, k2⟩ := key docs os' (fun o h => (ho o (p1.subset h)).2.2.1) (fun d hd => (h6 d hd).1) p2
  refine ⟨texts, seen, os', h4, ?_, p1, k2, ?_⟩
  · clear * - h5 k1
    induction h5 generalizing seen with
    | nil => cases k1; exact .nil
    | cons hd _ ih =>
      cases k1 with
      | cons hg hrest =>
        refine .cons ⟨hd.1, _, _, hd.2, ?_, ?_⟩ (ih _ hrest)
        · simp only [sizeAttributes]
          split <;> rfl
        · rw [List.forall₂_map_left_iff]
          exact hg.imp fun _ _ h => h.1
  · intro hnf gs hgs
    obtain ⟨d, hd, hrel⟩ := forall₂_right k1 hgs
    have hne := hnf parts docs (h1.imp fun _ _ h => h.sized) h2 d hd
    rcases (h6 d hd).2 with ⟨-, hfit⟩ | ⟨p, hp1, -⟩
    · obtain ⟨hin, hap⟩ := hfit hne
      refine Or.inr ⟨?_, ?_⟩
      · intro g hg q hq
        obtain ⟨r, hr, -, hsh⟩ := forall₂_right hrel hg
        obtain ⟨a, b, c, e⟩ := hin r hr q (hsh q hq)
        simp only [Rect.grow] at a b c e
        have e1 : (1 : ℚ) / 2 / 10 ^ 3 = 1 / 2000 := by norm_num
        have e2 : (1 : ℚ) / 1000 = 1 / 2000 + 1 / 2000 := by norm_num
        rw [e1] at a b c e
        rw [e2]
        refine ⟨?_, ?_, ?_, ?_⟩ <;> linarith
      · generalize d.renderables = rs at hap hrel
        clear * - hap hrel
        induction hrel with
        | nil => exact .nil
        | cons hrg hrest ih =>
          rw [List.pairwise_cons] at hap
          refine List.Pairwise.cons ?_ (ih hap.2)
          intro g' hg' q q' hq hq'
          obtain ⟨r', hr', -, hsh⟩ := forall₂_right hrest hg'
          have := hap.1 r' hr' q q' (hrg.2 q hq) (hsh q' hq')
          have e1 : (1 : ℚ) / 1000 + 1 / 10 ^ 3 + 2 * 0 + 2 / 10 ^ 6 = 1 / 500 + 2 / 10 ^ 6 := by norm_num
          rw [e1] at this
          exact le_max_iff.mp this
    · rw [hp1] at hrel
      cases hrel with
      | cons _ hrest =>
        cases hrest
        exact Or.inl ⟨_, rfl⟩

end

/-- A square with sides of one unit. -/
def unitShape (i : Text) : Shape Double :=
  ⟨i, [[(Arith.lit 1 0, Arith.zero), (Arith.lit 1 0, Arith.lit 1 0)], [(Arith.zero, Arith.lit 1 0), (Arith.zero, Arith.zero)]]⟩

theorem unitShape_points (i : Text) : (unitShape i).points.map valPt = [(1, 0), (1, 1), (0, 1), (0, 0)] := by
  show [(Arith.lit 1 0, Arith.zero), (Arith.lit 1 0, Arith.lit 1 0), (Arith.zero, Arith.lit 1 0), ((Arith.zero, Arith.zero) : Pt Double)].map valPt = _
  decide +kernel

theorem unitShape_sized (i : Text) {w h : Double} (hs : (unitShape i).Sized w h) : w.val = h.val := by
  obtain ⟨tl, br, hb, h1, h2⟩ := hs
  have e : (unitShape i).lines = polyline (0, 0) [(1, 0), (1, 1), (0, 1), (0, 0)] := by rw [Shape.lines, unitShape_points]
  rw [e] at hb
  have hb' : BoxOf (fun q : Pt ℚ => ∃ s ∈ polyline ((0, 0) : Pt ℚ) [(1, 0), (1, 1), (0, 1), (0, 0)], ∃ u : ℚ, 0 ≤ u ∧ u ≤ 1 ∧ s.at u = q) (0, 0) (1, 1) := by
    have m0 : ∃ s ∈ polyline ((0, 0) : Pt ℚ) [(1, 0), (1, 1), (0, 1), (0, 0)], ∃ u : ℚ, 0 ≤ u ∧ u ≤ 1 ∧ s.at u = (0, 0) :=
      ⟨.line (0, 0) (1, 0), by simp [polyline], 0, le_refl 0, by norm_num, by simp [Stroke.at]⟩
    have m1 : ∃ s ∈ polyline ((0, 0) : Pt ℚ) [(1, 0), (1, 1), (0, 1), (0, 0)], ∃ u : ℚ, 0 ≤ u ∧ u ≤ 1 ∧ s.at u = (1, 1) :=
      ⟨.line (1, 0) (1, 1), by simp [polyline], 1, by norm_num, le_refl 1, by simp [Stroke.at]⟩
    refine ⟨?_, ⟨_, m0, rfl⟩, ⟨_, m1, rfl⟩, ⟨_, m0, rfl⟩, ⟨_, m1, rfl⟩⟩
    rintro q ⟨s, hs, t, h0, h1, rfl⟩
    simp only [polyline, List.mem_cons, List.not_mem_nil, or_false] at hs
    rcases hs with rfl | rfl | rfl | rfl <;> simp only [Stroke.at] <;> refine ⟨?_, ?_, ?_, ?_⟩ <;> linarith
  obtain ⟨rfl, rfl⟩ := hb.unique hb'
  rw [h1, h2]

theorem noFillings_squares : ∀ (ps : List (RenderedPart Double (Drawing Double))) (d : SvgDoc Double (Drawing Double)), (∀ p ∈ ps, p.width.val = p.height.val) →
    NoFillings Double.val d ps
  | [], _, _ => trivial
  | p :: ps, d, h => ⟨Or.inl (h p (by simp)), fun d' _ _ => noFillings_squares ps d' fun q hq => h q (by simp [hq])⟩

/-- **C137** is not empty: any squares, on any sheet. -/
example (s : Sheet Double) (is : List Text) (hi : ∀ i ∈ is, i ≠ [] ∧ Unmarked i) :
    NeverFills s (is.map unitShape) ∧ ∀ o ∈ is.map unitShape, o.Wide ∧ (∀ q ∈ o.points, PtUpTo 600 q) ∧ o.id ≠ [] ∧ Unmarked o.id := by
  constructor
  · intro parts docs hp hd d hdm
    refine noFillings_squares _ _ fun p hpm => ?_
    obtain ⟨all, e1, -, e3⟩ := C10_no_part_lost s _ hd
    have hall : all = parts.map fun p => [p] := by
      have h := congrArg (List.map fun o : Option (List (RenderedPart Double (Drawing Double))) => o.getD []) e1
      simpa [Function.comp_def] using h.symm
    have := (e3 d hdm).subset hpm
    rw [hall, flatten_singles] at this
    obtain ⟨o, ho, hs⟩ := forall₂_right hp this
    obtain ⟨i, -, rfl⟩ := List.mem_map.mp ho
    exact unitShape_sized i hs
  · intro o ho
    obtain ⟨i, hm, rfl⟩ := List.mem_map.mp ho
    refine ⟨⟨⟨(0, 0), by simp, (1, 1), by simp [unitShape_points], by norm_num⟩, ⟨(0, 0), by simp, (1, 1), by simp [unitShape_points], by norm_num⟩⟩, ?_, hi i hm⟩
    show ∀ q ∈ [(Arith.lit 1 0, Arith.zero), (Arith.lit 1 0, Arith.lit 1 0), (Arith.zero, Arith.lit 1 0), ((Arith.zero, Arith.zero) : Pt Double)], PtUpTo 600 q
    unfold PtUpTo
    decide +kernel

end Verif.Shapes
