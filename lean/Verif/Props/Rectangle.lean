import Verif.Props.Panel
import Verif.Spec.Rectangle

/-!
# Property C161: rectangles
-/

set_option linter.unusedSectionVars false
set_option linter.unusedSimpArgs false

namespace Verif.Render

open Verif Verif.Dyn Verif.Path Verif.PlanSet Verif.Svg Verif.Files Verif.Xml Verif.Spec

variable {O : Type}

/-- The element of a rectangle. -/
def Oblong.elem (o : Oblong) : Elem (XNum ℝ) := ⟨o.params, o.map, []⟩

theorem live_oblong (w : World (XNum ℝ)) (o : Oblong) : live w (componentNode w o.map) = .mk .draw (w.idOf o.map) o.elem [] := by
  have := text_type w (m := o.map) (b := .draw) rfl
  simp only [live, componentNode, lives, this]
  rfl

/-- A number whose text is its own name is the number that the name stands for. -/
theorem number_itself {a : Source (XNum ℝ) O} {s : Text} {x : XNum ℝ} (fuel : Nat) (h : Dyn.get a.mp s = some (.str s)) (hs : a.chain.lookup s = some (.num x)) :
    a.number fuel s = .val x := by
  have : a.find s = some (.num x) := by
    unfold Source.find
    rw [attrLookup]
    simp only [show ¬ 0 > recursionMax from by decide, if_false, h, ne_eq, not_true_eq_false, hs]
  simp only [Source.number, this, Source.convert, toFloat64]

theorem rect_drawn (o : Oblong) (c : Point ℝ) : ∃ r : Path ℝ, drawRender (finPt c) [rectCommand (.fin o.width) (.fin o.height)] = .ok (finPath r) ∧
    strokes r = o.sides (pt c) ∧ ∃ s, r.getLast? = some s ∧ pt s.stop = pt c := by
  obtain ⟨k1, k2⟩ := C15_rect (moveTo [] c) o.width o.height
  have hc : currentPosition (moveTo [] c) = c := by simp [moveTo, currentPosition, Segment.stop]
  have hs : strokes (moveTo [] c) = [] := by simp [moveTo, strokes, strokeOf]
  rw [hc, hs, List.nil_append] at k1
  rw [hc] at k2
  refine ⟨rect (moveTo [] c) o.width o.height, ?_, k1, ?_⟩
  · simp only [drawRender, moveTo_cursor, execAll, exec_rectCommand, Res.ok_bind]
  · have hne : rect (moveTo [] c) o.width o.height ≠ [] := by
      intro e
      rw [e] at k1
      cases k1
    obtain ⟨s, h⟩ : ∃ s, (rect (moveTo [] c) o.width o.height).getLast? = some s := ⟨_, List.getLast?_eq_getLast_of_ne_nil hne⟩
    refine ⟨s, h, ?_⟩
    rw [currentPosition, h] at k2
    exact k2

/-- **C161.** A rectangle in a document begins where the pen is, is as wide and as high as its parameters say, and brings the pen back. -/
theorem C161_rectangle (m : Machine (XNum ℝ) O) (hf : 0 < m.fuel) (doc : Elem (XNum ℝ)) (p : Piece) (o : Oblong) (cursor : Point ℝ) :
    ∃ r : Path ℝ, m.render m.fuel (pieceSpot doc p) (live m.world (componentNode m.world o.map)) [] (finPt cursor) =
        .ok (finPath r, live m.world (componentNode m.world o.map), []) ∧
      strokes r = o.sides (pt cursor) ∧ Inked none r ∧ ∃ s, r.getLast? = some s ∧ pt s.stop = pt cursor := by
  obtain ⟨n, hn⟩ : ∃ k, m.fuel = k + 1 := ⟨m.fuel - 1, by omega⟩
  obtain ⟨r, h1, h2, h3⟩ := rect_drawn o cursor
  have hne : finPath r ≠ [] := by
    intro e
    have e' : r = [] := by simpa [finPath] using e
    obtain ⟨s, h, -⟩ := h3
    rw [e'] at h
    cases h
  have w1 : ∀ c, (Chain.component o.elem c).lookup widthKey = some (.num (.fin o.width)) := fun c => C46_own _ _ _ rfl (by intro s h; cases h)
  have w2 : ∀ c, (Chain.component o.elem c).lookup heightKey = some (.num (.fin o.height)) := fun c => C46_own _ _ _ rfl (by intro s h; cases h)
  have s1 : (m.command (m.attrs (pieceSpot doc p) [] o.elem (some (finPt cursor)) rectangleMap)).number widthKey = some (.fin o.width) := by
    show found ((m.attrs (pieceSpot doc p) [] o.elem (some (finPt cursor)) rectangleMap).number m.fuel widthKey) = _
    rw [number_itself (s := widthKey) (x := .fin o.width) _ rfl (w1 _)]
    rfl
  have s2 : (m.command (m.attrs (pieceSpot doc p) [] o.elem (some (finPt cursor)) rectangleMap)).number heightKey = some (.fin o.height) := by
    show found ((m.attrs (pieceSpot doc p) [] o.elem (some (finPt cursor)) rectangleMap).number m.fuel heightKey) = _
    rw [number_itself (s := heightKey) (x := .fin o.height) _ rfl (w2 _)]
    rfl
  have s3 : (m.command (m.attrs (pieceSpot doc p) [] o.elem (some (finPt cursor)) rectangleMap)).name = "rectangle".toList := by
    show (m.world.text rectangleMap commandKey).getD unknownName = _
    have : Dyn.get rectangleMap commandKey = some (.str "rectangle".toList) := rfl
    simp only [World.text, this, if_neg (show "rectangle".toList ≠ [] from by decide), Option.getD_some]
  refine ⟨r, ?_, h2, (inked_finPath none r).1 (inked_drawRender exactEq_xnum h1), h3⟩
  have hex : drawRender (finPt cursor) ((slice o.elem.original commandsKey).map fun mp => m.command (m.attrs (pieceSpot doc p) [] o.elem (some (finPt cursor)) mp)) = .ok (finPath r) := by
    rw [← h1]
    exact drawRender_same (show List.Forall₂ SameExec [m.command (m.attrs (pieceSpot doc p) [] o.elem (some (finPt cursor)) rectangleMap)] _ from .cons (sameExec_rect s3 s1 s2) .nil) _
  have ht : slice o.map transformsKey = [] := rfl
  rw [live_oblong, hn]
  simp only [Machine.render, Live.kind, Machine.renderDraw, Live.elem]
  rw [hex, Res.ok_bind]
  simp only [Machine.finishAt, show o.elem.original = o.map from rfl, ht, List.map_nil]
  rw [finish_none _ _ _ hne, Res.ok_bind]

theorem neat_oblong (o : Oblong) : Neat (.map o.map) := by
  refine .map (show List.Nodup ["type".toList, "params".toList, "commands".toList] by decide +kernel) ?_ ?_ <;> intro e he <;>
    simp only [Oblong.map, List.mem_cons, List.not_mem_nil, or_false] at he
  · rcases he with rfl | rfl | rfl <;> simp only <;> decide +kernel
  · rcases he with rfl | rfl | rfl
    · exact .str _
    · refine .map (show List.Nodup ["width".toList, "height".toList] by decide +kernel) ?_ ?_ <;> intro e he <;>
        simp only [Oblong.params, List.mem_cons, List.not_mem_nil, or_false] at he
      · rcases he with rfl | rfl <;> simp only <;> decide +kernel
      · rcases he with rfl | rfl <;> exact .num _
    · refine .list fun v hv => ?_
      rw [List.mem_singleton] at hv
      subst hv
      refine .map (show List.Nodup ["command".toList, "width".toList, "height".toList] by decide +kernel) ?_ ?_ <;> intro e he <;>
        simp only [rectangleMap, List.mem_cons, List.not_mem_nil, or_false] at he
      · rcases he with rfl | rfl | rfl <;> simp only <;> decide +kernel
      · rcases he with rfl | rfl | rfl <;> exact .str _

theorem make_oblong (w : World (XNum ℝ)) (n : Nat) (o : Oblong) : w.make [] (n + 1) o.map = .val (componentNode w o.map) := make_drawing w [] n o.map rfl

theorem render_oblongs (m : Machine (XNum ℝ) O) (hf : 0 < m.fuel) (doc : Elem (XNum ℝ)) (p : Piece) : ∀ (gs : List Oblong) (a : Point ℝ),
    ∃ (ps : List (Path ℝ)) (ls : List (Live (XNum ℝ))),
      renderAllOf (m.render m.fuel (pieceSpot doc p)) (gs.map fun g => live m.world (componentNode m.world g.map)) [] (finPt a) = .ok (ps.map finPath, ls, []) ∧
      (∀ p ∈ ps, Inked none p) ∧ ps.flatMap strokes = gs.flatMap fun r => r.sides (pt a)
  | [], _ => ⟨[], [], rfl, by simp, rfl⟩
  | g :: gs, a => by
    obtain ⟨r, h1, h2, h3, l, hl', h4⟩ := C161_rectangle m hf doc p g a
    have hlast : (finPath r).getLast? = some (finSeg l) := by simp [finPath, List.getLast?_map, hl']
    have hstop : (finSeg l).stop = finPt l.stop := by cases l <;> rfl
    obtain ⟨ps, ls, k1, k2, k3⟩ := render_oblongs m hf doc p gs l.stop
    refine ⟨r :: ps, live m.world (componentNode m.world g.map) :: ls, ?_, ?_, ?_⟩
    · simp only [List.map_cons, renderAllOf, h1, Res.ok_bind, hlast, hstop, k1]
    · intro q hq
      rcases List.mem_cons.mp hq with rfl | hq
      · exact h3
      · exact k2 q hq
    · rw [h4] at k3
      simp only [List.flatMap_cons, h2, k3]

theorem sizeable_oblong {o : OblongPlate} (h : o.WellMade) : Sizeable o.draws := by
  obtain ⟨k1, -, k3, -⟩ := h.sizes o.outer (by simp)
  have hd : ∀ st ∈ o.outer.sides (0, 0), st ∈ o.draws := by
    intro st hst
    simp only [OblongPlate.draws, List.flatMap_cons, List.mem_append]
    exact .inl hst
  have m1 : Meets o.draws (0, 0) := meets_start (b := (0 + o.outer.width, 0)) (hd _ (by simp [Oblong.sides]))
  have m2 : Meets o.draws (0 + o.outer.width, 0) := meets_start (b := (0 + o.outer.width, 0 + o.outer.height)) (hd _ (by simp [Oblong.sides]))
  have m3 : Meets o.draws (0, 0 + o.outer.height) := meets_start (b := (0, 0)) (hd _ (by simp [Oblong.sides]))
  refine ⟨⟨_, _, m1, m2, by simpa using k1⟩, ⟨_, _, m1, m3, by simpa using k3⟩, ?_⟩
  rintro q ⟨st, hst, t, h0, h1, rfl⟩
  simp only [OblongPlate.draws, List.mem_flatMap] at hst
  obtain ⟨r, hr, hst⟩ := hst
  obtain ⟨r1, r2, r3, r4⟩ := h.sizes r hr
  have a0 : |(0 : ℝ)| < 2 ^ 62 := by norm_num
  have a1 : |0 + r.width| < 2 ^ 62 := by rw [zero_add, abs_of_pos r1]; exact r2
  have a2 : |0 + r.height| < 2 ^ 62 := by rw [zero_add, abs_of_pos r3]; exact r4
  have key : ∃ p r : Pt ℝ, st = .line p r ∧ |p.1| < 2 ^ 62 ∧ |p.2| < 2 ^ 62 ∧ |r.1| < 2 ^ 62 ∧ |r.2| < 2 ^ 62 := by
    simp only [Oblong.sides, List.mem_cons, List.not_mem_nil, or_false] at hst
    rcases hst with rfl | rfl | rfl | rfl <;> exact ⟨_, _, rfl, by assumption, by assumption, by assumption, by assumption⟩
  obtain ⟨p, r, rfl, k1, k2, k3, k4⟩ := key
  exact ⟨abs_between k1 k3 h0 h1, abs_between k2 k4 h0 h1⟩

/-- **C161.** Whoever reads the files of a document of plates of rectangles sees every plate once, with its name: its rectangles, all with the same corner, shifted or turned as a
whole; the plates are kept apart. -/
theorem C161_seen (m : Machine (XNum ℝ) O) (hf : 0 < m.fuel) (files : Nat) (s : Sheet ℝ) (hs : 0 ≤ s.padding) (os : List OblongPlate) (ho : ∀ o ∈ os, o.WellMade) :
    SheetsShow s (m.sheets (files + 1) (oblongDoc s os)) (os.map fun o => (o.id, o.draws)) := by
  have hN : ∀ o : OblongPlate, o.piece.Neat := by
    intro o c hc
    obtain ⟨i, _, rfl⟩ := List.mem_map.mp hc
    exact neat_oblong i
  obtain ⟨f, hf'⟩ : ∃ f, m.fuel = f + 1 := ⟨m.fuel - 1, by omega⟩
  have hmk : ∀ g : Oblong, m.world.make [] m.fuel g.map = .val (componentNode m.world g.map) := fun g => by rw [hf']; exact make_oblong _ _ g
  refine pieces_seen m files s hs (madeOf m.world m.fuel) OblongPlate.piece OblongPlate.draws os (fun o _ => hN o) ?_
    (fun o h => ⟨(ho o h).name.1, (ho o h).name.2, sizeable_oblong (ho o h)⟩) fun o h => ?_
  · intro o h c hc
    obtain ⟨i, hi, rfl⟩ := List.mem_map.mp hc
    simp only [madeOf, hmk]
    exact ⟨trivial, rfl⟩
  · obtain ⟨ps, ls, h1, h2, h3⟩ := render_oblongs m hf _ o.piece (o.outer :: o.others) origin
    have h0 : pt (origin : Point ℝ) = (0, 0) := by simp [origin, newPoint_eq, pt]
    rw [h0] at h3
    refine ⟨ps, ls, h2, h3, ?_⟩
    rw [← h1]
    congr 1
    show ((o.outer :: o.others).map Oblong.map).map _ = _
    rw [List.map_map]
    refine List.map_congr_left fun i hi => ?_
    simp only [Function.comp_apply, madeOf, hmk]

/-! ## Example -/

/-- A frame: two rectangles with the same corner. -/
noncomputable def cornerFrame : OblongPlate := ⟨"frame".toList, ⟨3, 2⟩, [⟨1, 1⟩]⟩

theorem cornerFrame_wellMade : cornerFrame.WellMade where
  name := ⟨by simp [cornerFrame], unmarked_of_all (by show List.all "frame".toList _ = true; decide)⟩
  sizes := by
    intro r hr
    simp only [cornerFrame, List.mem_cons, List.not_mem_nil, or_false] at hr
    rcases hr with rfl | rfl <;> norm_num

/-- **C161** is not empty: two frames. -/
example (w : World (XNum ℝ)) (toInt : XNum ℝ → Int) (files : Nat) :
    SheetsShow ⟨20, 10, 1⟩ (Machine.sheets ⟨w, lineLib, toInt, 1⟩ (files + 1) (oblongDoc ⟨20, 10, 1⟩ [cornerFrame, cornerFrame]))
      [("frame".toList, cornerFrame.draws), ("frame".toList, cornerFrame.draws)] :=
  C161_seen ⟨w, lineLib, toInt, 1⟩ one_pos files ⟨20, 10, 1⟩ zero_le_one [cornerFrame, cornerFrame] fun o h => by
    simp only [List.mem_cons, List.not_mem_nil, or_false, or_self] at h
    subst h
    exact cornerFrame_wellMade

end Verif.Render
