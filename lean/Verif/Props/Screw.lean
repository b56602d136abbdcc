import Verif.Props.Tab
import Verif.Props.Scene
import Verif.Spec.Screw

/-!
# Property C159: screw holes
-/

set_option linter.unusedSectionVars false
set_option linter.unusedSimpArgs false

namespace Verif.Render

open Verif Verif.Dyn Verif.Path Verif.PlanSet Verif.Svg Verif.Files Verif.Xml Verif.Spec

variable {O : Type}

/-! ## Where the holes are -/

theorem bern_inside {lo hi a b c d t : ℝ} (h0 : 0 ≤ t) (h1 : t ≤ 1) (ha : lo ≤ a ∧ a ≤ hi) (hb : lo ≤ b ∧ b ≤ hi) (hc : lo ≤ c ∧ c ≤ hi) (hd : lo ≤ d ∧ d ≤ hi) {x : ℝ}
    (hx : x = (1 - t) ^ 3 * a + 3 * (1 - t) ^ 2 * t * b + 3 * (1 - t) * t ^ 2 * c + t ^ 3 * d) : lo ≤ x ∧ x ≤ hi := by
  have k : 0 ≤ 1 - t := by linarith
  have w1 : 0 ≤ (1 - t) ^ 3 := by positivity
  have w2 : 0 ≤ 3 * (1 - t) ^ 2 * t := by positivity
  have w3 : 0 ≤ 3 * (1 - t) * t ^ 2 := by positivity
  have w4 : 0 ≤ t ^ 3 := by positivity
  have e : (1 - t) ^ 3 + 3 * (1 - t) ^ 2 * t + 3 * (1 - t) * t ^ 2 + t ^ 3 = 1 := by ring
  constructor
  · have := mul_nonneg w1 (sub_nonneg.mpr ha.1)
    have := mul_nonneg w2 (sub_nonneg.mpr hb.1)
    have := mul_nonneg w3 (sub_nonneg.mpr hc.1)
    have := mul_nonneg w4 (sub_nonneg.mpr hd.1)
    have e' : lo = lo * ((1 - t) ^ 3 + 3 * (1 - t) ^ 2 * t + 3 * (1 - t) * t ^ 2 + t ^ 3) := by rw [e, mul_one]
    rw [hx, e']
    linarith
  · have := mul_nonneg w1 (sub_nonneg.mpr ha.2)
    have := mul_nonneg w2 (sub_nonneg.mpr hb.2)
    have := mul_nonneg w3 (sub_nonneg.mpr hc.2)
    have := mul_nonneg w4 (sub_nonneg.mpr hd.2)
    have e' : hi = hi * ((1 - t) ^ 3 + 3 * (1 - t) ^ 2 * t + 3 * (1 - t) * t ^ 2 + t ^ 3) := by rw [e, mul_one]
    rw [hx, e']
    linarith

theorem quarterControl_le : quarterControl ≤ 1 := by
  have h : Real.sqrt 2 ≤ 3 / 2 := by
    rw [Real.sqrt_le_left (by norm_num)]
    norm_num
  unfold quarterControl
  linarith

/-- **C159.** A screw hole is in the square of its diameter. -/
theorem C159_hole {d : ℝ} (hd : 0 < d) (q p : Pt ℝ) (h : Meets (screwHole d q) p) : q.1 ≤ p.1 ∧ p.1 ≤ q.1 + d ∧ q.2 ≤ p.2 ∧ p.2 ≤ q.2 + d := by
  obtain ⟨s, hs, t, h0, h1, rfl⟩ := h
  have k0 : 0 ≤ quarterControl * (d / 2) := mul_nonneg quarterControl_pos.le (by linarith)
  have k1 : quarterControl * (d / 2) ≤ d / 2 := mul_le_of_le_one_left (by linarith) quarterControl_le
  simp only [screwHole, PenCmd.draws, List.mem_cons, List.not_mem_nil, or_false] at hs
  generalize quarterControl * (d / 2) = k at *
  rw [← and_assoc]
  rcases hs with rfl | rfl | rfl | rfl <;> refine ⟨bern_inside h0 h1 (a := _) (b := _) (c := _) (d := _) ?_ ?_ ?_ ?_ rfl, bern_inside h0 h1 (a := _) (b := _) (c := _) (d := _) ?_ ?_ ?_ ?_ rfl⟩ <;>
    constructor <;> simp only [Prod.fst_add, Prod.snd_add] <;> linarith

/-- **C159.** It is round: no point of it is nearer to its centre than the radius, or farther than the radius and 0.03% of it. -/
theorem C159_round {d : ℝ} (hd : 0 < d) (q p : Pt ℝ) (h : Meets (screwHole d q) p) :
    d / 2 ≤ dist2 p (q.1 + d / 2, q.2 + d / 2) ∧ dist2 p (q.1 + d / 2, q.2 + d / 2) ≤ 1.0003 * (d / 2) := by
  obtain ⟨s, hs, t, h0, h1, rfl⟩ := h
  have k := (pen_command (.circle (d / 2)) (p := [.move origin ⟨q.1, q.2, 0⟩]) (s := ⟨q, none⟩) ⟨rfl, rfl⟩).1
  have := C15_circle_round (d / 2) q.1 q.2 0 (s.at t) ⟨s, by
    show s ∈ strokes (PenCmd.run [.move origin ⟨q.1, q.2, 0⟩] (.circle (d / 2)))
    rw [k]
    exact List.mem_append_right _ hs, t, h0, h1, rfl⟩
  rwa [abs_of_pos (by linarith : 0 < d / 2)] at this

theorem hole_top (d : ℝ) (q : Pt ℝ) : Meets (screwHole d q) (q + (d / 2, 0)) :=
  ⟨_, List.mem_cons_self .., 0, le_refl 0, zero_le_one, by
    simp only [Stroke.at, Prod.ext_iff, Prod.fst_add, Prod.snd_add]
    constructor <;> ring⟩

theorem hole_right (d : ℝ) (q : Pt ℝ) : Meets (screwHole d q) (q + (d, d / 2)) :=
  ⟨_, List.mem_cons_of_mem _ (List.mem_cons_self ..), 0, le_refl 0, zero_le_one, by
    simp only [Stroke.at, Prod.ext_iff, Prod.fst_add, Prod.snd_add]
    constructor <;> ring⟩

theorem hole_bottom (d : ℝ) (q : Pt ℝ) : Meets (screwHole d q) (q + (d / 2, d)) :=
  ⟨_, List.mem_cons_of_mem _ (List.mem_cons_of_mem _ (List.mem_cons_self ..)), 0, le_refl 0, zero_le_one, by
    simp only [Stroke.at, Prod.ext_iff, Prod.fst_add, Prod.snd_add]
    constructor <;> ring⟩

theorem hole_left (d : ℝ) (q : Pt ℝ) : Meets (screwHole d q) (q + (0, d / 2)) :=
  ⟨_, List.mem_cons_of_mem _ (List.mem_cons_of_mem _ (List.mem_cons_of_mem _ (List.mem_cons_self ..))), 0, le_refl 0, zero_le_one, by
    simp only [Stroke.at, Prod.ext_iff, Prod.fst_add, Prod.snd_add]
    constructor <;> ring⟩

theorem meets_screws {o : ScrewHoles} {p : Pt ℝ} : Meets o.draws p ↔ ∃ q ∈ o.corners, Meets (screwHole o.diameter q) p := by
  simp only [Meets, ScrewHoles.draws, List.mem_flatMap]
  constructor
  · rintro ⟨s, ⟨q, hq, hs⟩, r⟩
    exact ⟨q, hq, s, hs, r⟩
  · rintro ⟨q, hq, s, hs, r⟩
    exact ⟨s, ⟨q, hq, hs⟩, r⟩

/-- **C159.** From outer edge to outer edge the holes are as wide and as high as their parameters say; two holes side by side are as high as their diameter. -/
theorem C159_box (o : ScrewHoles) (ho : o.Fits) : BoxOf (Meets o.draws) (0, 0) (o.width, o.height.getD o.diameter) := by
  obtain ⟨w, h, d⟩ := o
  obtain ⟨h1, h2, h3⟩ := ho
  simp only at h1 h2 h3
  cases h with
  | none =>
    have m1 : ((0, 0) : Pt ℝ) ∈ (ScrewHoles.mk w none d).corners := List.mem_cons_self ..
    have m2 : ((w - d, 0) : Pt ℝ) ∈ (ScrewHoles.mk w none d).corners := List.mem_cons_of_mem _ (List.mem_cons_self ..)
    refine ⟨?_, ⟨_, meets_screws.mpr ⟨_, m1, hole_left d _⟩, by simp⟩, ⟨_, meets_screws.mpr ⟨_, m2, hole_right d _⟩, by simp⟩, ⟨_, meets_screws.mpr ⟨_, m1, hole_top d _⟩, by simp⟩,
      ⟨_, meets_screws.mpr ⟨_, m1, hole_bottom d _⟩, by simp⟩⟩
    intro p hp
    obtain ⟨q, hq, hp⟩ := meets_screws.mp hp
    have k := C159_hole h1 q p hp
    simp only [ScrewHoles.corners, List.mem_cons, List.not_mem_nil, or_false] at hq
    simp only [Option.getD_none]
    rcases hq with rfl | rfl <;> simp only at k <;> refine ⟨?_, ?_, ?_, ?_⟩ <;> linarith
  | some h =>
    have h4 := h3 h rfl
    have m1 : ((0, 0) : Pt ℝ) ∈ (ScrewHoles.mk w (some h) d).corners := List.mem_cons_self ..
    have m2 : ((w - d, 0) : Pt ℝ) ∈ (ScrewHoles.mk w (some h) d).corners := List.mem_cons_of_mem _ (List.mem_cons_self ..)
    have m3 : ((w - d, h - d) : Pt ℝ) ∈ (ScrewHoles.mk w (some h) d).corners := List.mem_cons_of_mem _ (List.mem_cons_of_mem _ (List.mem_cons_self ..))
    refine ⟨?_, ⟨_, meets_screws.mpr ⟨_, m1, hole_left d _⟩, by simp⟩, ⟨_, meets_screws.mpr ⟨_, m2, hole_right d _⟩, by simp⟩, ⟨_, meets_screws.mpr ⟨_, m1, hole_top d _⟩, by simp⟩,
      ⟨_, meets_screws.mpr ⟨_, m3, hole_bottom d _⟩, by simp⟩⟩
    intro p hp
    obtain ⟨q, hq, hp⟩ := meets_screws.mp hp
    have k := C159_hole h1 q p hp
    simp only [ScrewHoles.corners, List.mem_cons, List.not_mem_nil, or_false] at hq
    simp only [Option.getD_some]
    rcases hq with rfl | rfl | rfl | rfl <;> simp only at k <;> refine ⟨?_, ?_, ?_, ?_⟩ <;> linarith

/-! ## Elements -/

/-- The element of screw holes. -/
def ScrewHoles.elem (o : ScrewHoles) : Elem (XNum ℝ) := ⟨o.params, o.map, []⟩

theorem elemOf_screws (o : ScrewHoles) : elemOf o.map = o.elem := rfl

theorem screw_width (o : ScrewHoles) (c : Chain (XNum ℝ)) : (Chain.component o.elem c).lookup "width".toList = some (.num (.fin o.width)) :=
  C46_own _ _ _ (by obtain ⟨w, h, d⟩ := o; cases h <;> rfl) (by intro s h; cases h)

theorem screw_diameter (o : ScrewHoles) (c : Chain (XNum ℝ)) : (Chain.component o.elem c).lookup "diameter".toList = some (.num (.fin o.diameter)) :=
  C46_own _ _ _ (by obtain ⟨w, h, d⟩ := o; cases h <;> rfl) (by intro s h; cases h)

theorem screw_height (o : ScrewHoles) {h : ℝ} (ho : o.height = some h) (c : Chain (XNum ℝ)) : (Chain.component o.elem c).lookup "height".toList = some (.num (.fin h)) := by
  obtain ⟨w, h', d⟩ := o
  subst ho
  exact C46_own _ _ _ rfl (by intro s h; cases h)

/-- Names that neither screw holes nor anything around them has. -/
def FarFromScrew (k : Text) : Prop := FarFromTab k ∧ k ∉ ["height".toList, "diameter".toList, "radius".toList]

instance (k : Text) : Decidable (FarFromScrew k) := by unfold FarFromScrew; infer_instance

theorem screw_far {doc : Elem (XNum ℝ)} (hd : Bare doc) (p : Piece) (o : ScrewHoles) {k : Text} (h : FarFromScrew k) :
    (Chain.component o.elem (.component ⟨[], shownPiece p, []⟩ (.document doc []))).Undefined k ∧
    NoDefault k (Chain.component o.elem (.component ⟨[], shownPiece p, []⟩ (.document doc []))) := by
  have k0 := far_piece hd p h.1
  have n1 : k ≠ "height".toList := by rintro rfl; exact h.2 (by simp)
  have n2 : k ≠ "diameter".toList := by rintro rfl; exact h.2 (by simp)
  have q1 : o.params.lookup k = none := by
    obtain ⟨w, h', d⟩ := o
    cases h' <;> simp only [ScrewHoles.params, List.lookup, beq_eq_false_iff_ne.mpr (h.1.ne (t := "width".toList) (by simp)), beq_eq_false_iff_ne.mpr n1, beq_eq_false_iff_ne.mpr n2]
  have q2 : o.map.lookup k = none := by
    simp only [ScrewHoles.map, List.lookup, beq_eq_false_iff_ne.mpr (h.1.ne (t := "type".toList) (by simp)), beq_eq_false_iff_ne.mpr (h.1.ne (t := "params".toList) (by simp)),
      beq_eq_false_iff_ne.mpr (h.1.ne (t := "commands".toList) (by simp))]
  have a1 : o.elem.allParams = o.params := by
    obtain ⟨w, h', d⟩ := o
    cases h' <;> rfl
  exact ⟨⟨by rw [a1]; exact get_absent h.1.1 q1 q1, get_absent h.1.1 q2 q2, k0.1⟩, Render.get_nil _, k0.2⟩

/-! ## Commands -/

/-- The command does what the pen does. -/
def DoesPen (c : Command (XNum ℝ)) (d : PenCmd) : Prop := ∀ p : Path ℝ, c.exec (finPath p) = .ok (finPath (d.run p))

theorem doesPen_all : ∀ {cs : List (Command (XNum ℝ))} {ds : List PenCmd}, List.Forall₂ DoesPen cs ds → ∀ p : Path ℝ, execAll cs (finPath p) = .ok (finPath (penRun p ds))
  | _, _, .nil, _ => rfl
  | _, _, .cons h hs, p => by
    simp only [execAll, h p, penRun]
    exact doesPen_all hs _

theorem doesPen_move {c : Command (XNum ℝ)} {u v : ℝ} (h1 : c.name = "move".toList) (h2 : c.point toKey = some (newPoint (.fin u) (.fin v))) : DoesPen c (.move (u, v)) := by
  intro p
  rw [Command.exec, exec_named _ .move h1]
  simp only [h2, need, newPoint_fin, fin_moveTo, PenCmd.run]

theorem doesPen_circle {c : Command (XNum ℝ)} {r : ℝ} (h1 : c.name = "circle".toList) (h2 : c.number radiusKey = some (.fin r)) : DoesPen c (.circle r) := by
  intro p
  rw [Command.exec, exec_named _ .circle h1]
  simp only [h2, need, fin_circle, PenCmd.run]

/-- The commands of the pen. -/
noncomputable def ScrewHoles.pen (o : ScrewHoles) : List PenCmd := o.corners.flatMap fun q => [.move q, .circle (o.diameter / 2)]

theorem pen_screws (d : ℝ) : ∀ (qs : List (Pt ℝ)) (s : PenAt), penDraws s (qs.flatMap fun q => [.move q, .circle (d / 2)]) = qs.flatMap (screwHole d)
  | [], _ => rfl
  | q :: qs, s => by
    simp only [List.flatMap_cons, List.cons_append, List.nil_append, penDraws, pen_screws d qs]
    rfl

/-- The map of the command that draws a hole. -/
def holeCmdMap : DMap (XNum ℝ) := [("command".toList, .str "circle".toList), ("radius".toList, .str "diameter / 2".toList)]

section Child

variable (m : Machine (XNum ℝ) O) (hf : 0 < m.fuel) (hl : ReadsScrews m.lib) {doc : Elem (XNum ℝ)} (hd : Bare doc) (p : Piece) (o : ScrewHoles) (cursor : Option (Point (XNum ℝ)))

/-- What an expression is worth at the holes. -/
def HasAtScrew (t : Text) (x : ℝ) : Prop := ∀ mp, (m.attrs (pieceSpot doc p) [] o.elem cursor mp).convert m.fuel (.str t) = .val (.fin x)

include hf hl

theorem screw_const {t : Text} (h : m.lib.parse t = some (.num (.fin 0))) (ht : t.filter (fun c => decide (c ≠ '$')) = t) : HasAtScrew m (doc := doc) p o cursor t 0 := by
  intro mp
  obtain ⟨n, hn⟩ : ∃ k, m.fuel = k + 1 := ⟨m.fuel - 1, by omega⟩
  have hz : (m.attrs (pieceSpot doc p) [] o.elem cursor mp).lib.parse t = some (.num (.fin 0)) := h
  rw [hn]
  simp only [Source.convert, evalExpression, ht, evalText, show ¬ 0 > maxRecursion from by decide, if_false, hz, evalExpr, toFloat64]

theorem screw_radius : HasAtScrew m (doc := doc) p o cursor "diameter / 2".toList (o.diameter / 2) := by
  intro mp
  obtain ⟨b, h1, h2, h3⟩ := hl.half
  exact convert_right (a := m.attrs (pieceSpot doc p) [] o.elem cursor mp) (by decide +kernel) h1 h2 (screw_diameter o _) (h3 _) hf

theorem screw_minus {t x : Text} {u : ℝ} (ht : t.filter (fun c => decide (c ≠ '$')) = t) (hx : ∀ c, (Chain.component o.elem c).lookup x = some (.num (.fin u)))
    (h : ∃ b, m.lib.parse t = some (.op b (.var x) (.var "diameter".toList)) ∧ m.lib.shortcut b = none ∧
      ∀ x y : ℝ, m.lib.op b (.num (.fin x)) (.num (.fin y)) = some (.num (.fin (x - y)))) : HasAtScrew m (doc := doc) p o cursor t (u - o.diameter) := by
  intro mp
  obtain ⟨b, h1, h2, h3⟩ := h
  obtain ⟨n, hn⟩ : ∃ k, m.fuel = k + 1 := ⟨m.fuel - 1, by omega⟩
  have e1 : (m.attrs (pieceSpot doc p) [] o.elem cursor mp).lib.parse t = some (.op b (.var x) (.var "diameter".toList)) := h1
  have e2 : (m.attrs (pieceSpot doc p) [] o.elem cursor mp).lib.shortcut b = none := h2
  have e3 : ∀ x y : ℝ, (m.attrs (pieceSpot doc p) [] o.elem cursor mp).lib.op b (.num (.fin x)) (.num (.fin y)) = some (.num (.fin (x - y))) := h3
  have e4 : (m.attrs (pieceSpot doc p) [] o.elem cursor mp).chain.lookup x = some (.num (.fin u)) := hx _
  have e5 : (m.attrs (pieceSpot doc p) [] o.elem cursor mp).chain.lookup "diameter".toList = some (.num (.fin o.diameter)) := screw_diameter o _
  rw [hn]
  simp only [Source.convert, evalExpression, ht, evalText, show ¬ 0 > maxRecursion from by decide, if_false, e1, evalExpr, e4, e5, Dyn.toBool, toFloat64, e2, Option.bind_none, e3]

include hd

theorem screw_move {t x y : Text} {u v : ℝ} (hs : splitOn ',' t [] = [x, y]) (ht : FarFromScrew t) (hx : HasAtScrew m (doc := doc) p o cursor x u)
    (hy : HasAtScrew m (doc := doc) p o cursor y v) :
    DoesPen (m.command (m.attrs (pieceSpot doc p) [] o.elem cursor (textCmdMap "move".toList t))) (.move (u, v)) :=
  doesPen_move (command_text_name m _ _ _ _ (by decide) _) (command_text m hf _ _ _ _ "move".toList hs (ht.1.ne (by simp)) (far_cmd _ ht.1) (screw_far hd p o ht).1 (screw_far hd p o ht).2 (hx _) (hy _))

theorem does_hole : DoesPen (m.command (m.attrs (pieceSpot doc p) [] o.elem cursor holeCmdMap)) (.circle (o.diameter / 2)) := by
  refine doesPen_circle ?_ ?_
  · show (m.world.text holeCmdMap commandKey).getD unknownName = _
    have : Dyn.get holeCmdMap commandKey = some (.str "circle".toList) := rfl
    simp only [World.text, this, if_neg (show "circle".toList ≠ [] from by decide), Option.getD_some]
  · show found ((m.attrs (pieceSpot doc p) [] o.elem cursor holeCmdMap).number m.fuel radiusKey) = _
    have hfar : FarFromScrew "diameter / 2".toList := by decide +kernel
    have hfind : (m.attrs (pieceSpot doc p) [] o.elem cursor holeCmdMap).find radiusKey = some (.str "diameter / 2".toList) :=
      find_text (a := m.attrs (pieceSpot doc p) [] o.elem cursor holeCmdMap) (key := radiusKey) (t := "diameter / 2".toList) rfl (by decide +kernel) rfl (screw_far hd p o hfar).1 (screw_far hd p o hfar).2
    simp only [Source.number, hfind, screw_radius m hf hl p o cursor holeCmdMap, found]

theorem does_screws : List.Forall₂ DoesPen ((slice o.map "commands".toList).map fun mp => m.command (m.attrs (pieceSpot doc p) [] o.elem cursor mp)) o.pen := by
  have z := screw_const m hf hl (doc := doc) p o cursor hl.zero (by decide +kernel)
  have z' := screw_const m hf hl (doc := doc) p o cursor hl.spaced (by decide +kernel)
  have a := screw_minus m hf hl (doc := doc) p o cursor (t := "width - diameter".toList) (by decide +kernel) (screw_width o) hl.across
  have c := does_hole m hf hl hd p o cursor
  have k1 := screw_move m hf hl hd p o cursor (t := "0,0".toList) (by decide +kernel) (by decide +kernel) z z
  have k2 := screw_move m hf hl hd p o cursor (t := "width - diameter, 0".toList) (by decide +kernel) (by decide +kernel) a z'
  cases hh : o.height with
  | none =>
    have e1 : slice o.map "commands".toList = [textCmdMap "move".toList "0,0".toList, holeCmdMap, textCmdMap "move".toList "width - diameter, 0".toList, holeCmdMap] := by
      obtain ⟨w, h, d⟩ := o
      cases hh
      rfl
    have e2 : o.pen = [.move (0, 0), .circle (o.diameter / 2), .move (o.width - o.diameter, 0), .circle (o.diameter / 2)] := by
      simp only [ScrewHoles.pen, ScrewHoles.corners, hh]
      rfl
    rw [e1, e2]
    exact .cons k1 <| .cons c <| .cons k2 <| .cons c .nil
  | some h =>
    have b := screw_minus m hf hl (doc := doc) p o cursor (t := " height - diameter".toList) (by decide +kernel) (screw_height o hh) hl.down
    have k3 := screw_move m hf hl hd p o cursor (t := "width - diameter, height - diameter".toList) (by decide +kernel) (by decide +kernel) a b
    have k4 := screw_move m hf hl hd p o cursor (t := "0, height - diameter".toList) (by decide +kernel) (by decide +kernel) z b
    have e1 : slice o.map "commands".toList = [textCmdMap "move".toList "0,0".toList, holeCmdMap, textCmdMap "move".toList "width - diameter, 0".toList, holeCmdMap,
        textCmdMap "move".toList "width - diameter, height - diameter".toList, holeCmdMap, textCmdMap "move".toList "0, height - diameter".toList, holeCmdMap] := by
      obtain ⟨w, h, d⟩ := o
      cases hh
      rfl
    have e2 : o.pen = [.move (0, 0), .circle (o.diameter / 2), .move (o.width - o.diameter, 0), .circle (o.diameter / 2),
        .move (o.width - o.diameter, h - o.diameter), .circle (o.diameter / 2), .move (0, h - o.diameter), .circle (o.diameter / 2)] := by
      simp only [ScrewHoles.pen, ScrewHoles.corners, hh]
      rfl
    rw [e1, e2]
    exact .cons k1 <| .cons c <| .cons k2 <| .cons c <| .cons k3 <| .cons c <| .cons k4 <| .cons c .nil

end Child

/-! ## The holes in a document -/

theorem live_screws (w : World (XNum ℝ)) (o : ScrewHoles) : live w (componentNode w o.map) = .mk .draw (w.idOf o.map) o.elem [] := by
  have := text_type w (m := o.map) (b := .draw) rfl
  simp only [live, componentNode, lives, this]
  rfl

/-- **C159.** Screw holes in a document are rendered to their circles, wherever the cursor is. -/
theorem C159_screws (m : Machine (XNum ℝ) O) (hf : 0 < m.fuel) (hl : ReadsScrews m.lib) {doc : Elem (XNum ℝ)} (hd : Bare doc) (p : Piece) (o : ScrewHoles) (cursor : Point ℝ) :
    ∃ r : Path ℝ, m.render m.fuel (pieceSpot doc p) (live m.world (componentNode m.world o.map)) [] (finPt cursor) =
        .ok (finPath r, live m.world (componentNode m.world o.map), []) ∧ strokes r = o.draws ∧ Inked none r ∧ r ≠ [] := by
  obtain ⟨n, hn⟩ : ∃ k, m.fuel = k + 1 := ⟨m.fuel - 1, by omega⟩
  have hs := shape_pen cursor o.pen
  refine ⟨penRun [.move origin cursor] o.pen, ?_, ?_, hs.inked, hs.ne⟩
  · have h3 : moveTo [] (finPt cursor) = finPath [.move origin cursor] := by
      unfold moveTo
      rw [show currentPosition ([] : Path (XNum ℝ)) = origin from rfl, origin_fin]
      rfl
    have h2 : slice o.map transformsKey = [] := rfl
    have hex := doesPen_all (does_screws m hf hl hd p o (some (finPt cursor))) [.move origin cursor]
    rw [live_screws, hn]
    simp only [Machine.render, Live.kind, Machine.renderDraw, Live.elem, drawRender, h3]
    rw [show execAll (List.map (fun mp => m.command (m.attrs (pieceSpot doc p) [] o.elem (some (finPt cursor)) mp)) (slice o.elem.original commandsKey)) _ = _ from hex, Res.ok_bind]
    simp only [Machine.finishAt, show o.elem.original = o.map from rfl, h2, List.map_nil]
    rw [finish_none _ _ _ (by simpa [finPath] using hs.ne), Res.ok_bind]
  · rw [hs.strokes]
    exact pen_screws _ _ _

theorem neat_screws (o : ScrewHoles) : Neat (.map o.map) := by
  refine .map (show List.Nodup ["type".toList, "params".toList, "commands".toList] by decide +kernel) ?_ ?_ <;> intro e he <;>
    simp only [ScrewHoles.map, List.mem_cons, List.not_mem_nil, or_false] at he
  · rcases he with rfl | rfl | rfl <;> simp only <;> decide +kernel
  · rcases he with rfl | rfl | rfl
    · exact .str _
    · obtain ⟨w, h, d⟩ := o
      cases h with
      | none =>
        refine .map (show List.Nodup ["width".toList, "diameter".toList] by decide +kernel) ?_ ?_ <;> intro e he <;>
          simp only [ScrewHoles.params, List.mem_cons, List.not_mem_nil, or_false] at he
        · rcases he with rfl | rfl <;> simp only <;> decide +kernel
        · rcases he with rfl | rfl <;> exact .num _
      | some h =>
        refine .map (show List.Nodup ["width".toList, "height".toList, "diameter".toList] by decide +kernel) ?_ ?_ <;> intro e he <;>
          simp only [ScrewHoles.params, List.mem_cons, List.not_mem_nil, or_false] at he
        · rcases he with rfl | rfl | rfl <;> simp only <;> decide +kernel
        · rcases he with rfl | rfl | rfl <;> exact .num _
    · have hh : Neat holeCmd := by
        refine .map (show List.Nodup ["command".toList, "radius".toList] by decide +kernel) ?_ ?_ <;> intro e he <;>
          simp only [List.mem_cons, List.not_mem_nil, or_false] at he
        · rcases he with rfl | rfl <;> simp only <;> decide +kernel
        · rcases he with rfl | rfl <;> exact .str _
      refine .list fun v hv => ?_
      obtain ⟨w, h, d⟩ := o
      cases h <;> simp only [ScrewHoles.commands, List.mem_cons, List.not_mem_nil, or_false] at hv
      · rcases hv with rfl | rfl | rfl | rfl <;> first | exact hh | exact neat_textCmd _ _
      · rcases hv with rfl | rfl | rfl | rfl | rfl | rfl | rfl | rfl <;> first | exact hh | exact neat_textCmd _ _

theorem make_screws (w : World (XNum ℝ)) (n : Nat) (o : ScrewHoles) : w.make [] (n + 1) o.map = .val (componentNode w o.map) := make_drawing w [] n o.map rfl

section Documents

variable (m : Machine (XNum ℝ) O) (hf : 0 < m.fuel) (hl : ReadsScrews m.lib)

include hf hl

theorem render_groups {doc : Elem (XNum ℝ)} (hd : Bare doc) (p : Piece) : ∀ (gs : List ScrewHoles) (a : Point ℝ),
    ∃ (ps : List (Path ℝ)) (ls : List (Live (XNum ℝ))),
      renderAllOf (m.render m.fuel (pieceSpot doc p)) (gs.map fun g => live m.world (componentNode m.world g.map)) [] (finPt a) = .ok (ps.map finPath, ls, []) ∧
      (∀ p ∈ ps, Inked none p) ∧ ps.flatMap strokes = gs.flatMap ScrewHoles.draws
  | [], _ => ⟨[], [], rfl, by simp, rfl⟩
  | g :: gs, a => by
    obtain ⟨r, h1, h2, h3, hne⟩ := C159_screws m hf hl hd p g a
    obtain ⟨l, hl'⟩ : ∃ l, r.getLast? = some l := by
      cases e : r.getLast? with
      | some l => exact ⟨l, rfl⟩
      | none => exact absurd (List.getLast?_eq_none_iff.mp e) hne
    have hlast : (finPath r).getLast? = some (finSeg l) := by simp [finPath, List.getLast?_map, hl']
    have hstop : (finSeg l).stop = finPt l.stop := by cases l <;> rfl
    obtain ⟨ps, ls, k1, k2, k3⟩ := render_groups hd p gs l.stop
    refine ⟨r :: ps, live m.world (componentNode m.world g.map) :: ls, ?_, ?_, ?_⟩
    · simp only [List.map_cons, renderAllOf, h1, Res.ok_bind, hlast, hstop, k1]
    · intro q hq
      rcases List.mem_cons.mp hq with rfl | hq
      · exact h3
      · exact k2 q hq
    · simp only [List.flatMap_cons, h2, k3]

omit hf hl in
theorem meets_plate {o : ScrewPlate} {q : Pt ℝ} : Meets o.draws q ↔ ∃ g ∈ o.groups, Meets g.draws q := by
  simp only [Meets, ScrewPlate.draws, List.mem_flatMap]
  constructor
  · rintro ⟨s, ⟨q, hq, hs⟩, r⟩
    exact ⟨q, hq, s, hs, r⟩
  · rintro ⟨q, hq, s, hs, r⟩
    exact ⟨s, ⟨q, hq, hs⟩, r⟩

omit hf hl in
theorem sizeable_plate {o : ScrewPlate} (ho : o.WellMade) : Sizeable o.draws := by
  obtain ⟨g, hg⟩ := List.exists_mem_of_ne_nil _ ho.groups
  have hb := C159_box g (ho.fits g hg)
  have hh : 0 < g.height.getD g.diameter := by
    cases e : g.height with
    | none => exact (ho.fits g hg).hole
    | some h => exact (ho.fits g hg).hole.trans_le ((ho.fits g hg).height h e)
  refine ⟨?_, ?_, ?_⟩
  · obtain ⟨p, hp, ep⟩ := hb.left
    obtain ⟨q, hq, eq⟩ := hb.right
    exact ⟨p, q, meets_plate.mpr ⟨g, hg, hp⟩, meets_plate.mpr ⟨g, hg, hq⟩, by rw [ep, eq]; exact (ho.fits g hg).hole.trans_le (ho.fits g hg).width⟩
  · obtain ⟨p, hp, ep⟩ := hb.top
    obtain ⟨q, hq, eq⟩ := hb.bottom
    exact ⟨p, q, meets_plate.mpr ⟨g, hg, hp⟩, meets_plate.mpr ⟨g, hg, hq⟩, by rw [ep, eq]; exact hh⟩
  · intro q hq
    obtain ⟨g, hg, hq⟩ := meets_plate.mp hq
    have k := (C159_box g (ho.fits g hg)).inside q hq
    have w := (ho.small g hg).1
    have h' : g.height.getD g.diameter < 2 ^ 62 := by
      cases e : g.height with
      | none => exact (ho.fits g hg).width.trans_lt w
      | some h => exact (ho.small g hg).2 h e
    simp only at k
    rw [abs_of_nonneg k.1, abs_of_nonneg k.2.2.1]
    exact ⟨k.2.1.trans_lt w, k.2.2.2.trans_lt h'⟩

/-- **C159.** Whoever reads the files of a document of plates with screw holes sees every plate once, with its name: its holes at their places, shifted or turned as a whole; the
plates are kept apart. -/
theorem C159_seen (files : Nat) (s : Sheet ℝ) (hs : 0 ≤ s.padding) (os : List ScrewPlate) (ho : ∀ o ∈ os, o.WellMade) :
    SheetsShow s (m.sheets (files + 1) (screwDoc s os)) (os.map fun o => (o.id, o.draws)) := by
  have hN : ∀ o : ScrewPlate, o.piece.Neat := by
    intro o c hc
    obtain ⟨i, _, rfl⟩ := List.mem_map.mp hc
    exact neat_screws i
  obtain ⟨f, hf'⟩ : ∃ f, m.fuel = f + 1 := ⟨m.fuel - 1, by omega⟩
  have hmk : ∀ g : ScrewHoles, m.world.make [] m.fuel g.map = .val (componentNode m.world g.map) := fun g => by rw [hf']; exact make_screws _ _ g
  have hd := bare_piece m.world (madeOf m.world m.fuel) s (os.map ScrewPlate.piece) (by
    intro o h
    obtain ⟨o, -, rfl⟩ := List.mem_map.mp h
    exact hN o)
  refine pieces_seen m files s hs (madeOf m.world m.fuel) ScrewPlate.piece ScrewPlate.draws os (fun o _ => hN o) ?_
    (fun o h => ⟨(ho o h).name.1, (ho o h).name.2, sizeable_plate (ho o h)⟩) fun o h => ?_
  · intro o h c hc
    obtain ⟨i, hi, rfl⟩ := List.mem_map.mp hc
    simp only [madeOf, hmk]
    exact ⟨trivial, rfl⟩
  · obtain ⟨ps, ls, h1, h2, h3⟩ := render_groups m hf hl hd o.piece o.groups origin
    refine ⟨ps, ls, h2, h3, ?_⟩
    rw [← h1]
    congr 1
    show (o.groups.map ScrewHoles.map).map _ = _
    rw [List.map_map]
    refine List.map_congr_left fun i hi => ?_
    simp only [Function.comp_apply, madeOf, hmk]

end Documents

/-! ## Example -/

/-- A language that reads the expressions of the screw holes. -/
noncomputable def screwLib : Lib (XNum ℝ) Bool where
  parse s :=
    if s = "0".toList then some (.num (.fin 0))
    else if s = " 0".toList then some (.num (.fin 0))
    else if s = "diameter / 2".toList then some (.op true (.var "diameter".toList) (.num (.fin 2)))
    else if s = "width - diameter".toList then some (.op false (.var "width".toList) (.var "diameter".toList))
    else if s = " height - diameter".toList then some (.op false (.var "height".toList) (.var "diameter".toList))
    else none
  shortcut _ := none
  op b x y :=
    match x, y with
    | .num (.fin x), .num (.fin y) => some (.num (.fin (if b then x / y else x - y)))
    | _, _ => none

theorem screwLib_reads : ReadsScrews screwLib where
  zero := rfl
  spaced := rfl
  half := ⟨true, rfl, rfl, fun _ => rfl⟩
  across := ⟨false, rfl, rfl, fun _ _ => rfl⟩
  down := ⟨false, rfl, rfl, fun _ _ => rfl⟩

/-- The plate of an example: the holes of the two designs with the numbers that they have by default. -/
noncomputable def exampleScrews : ScrewPlate := ⟨"screws".toList, [⟨2, none, 1 / 5⟩, ⟨2, some 2, 9 / 40⟩]⟩

theorem exampleScrews_wellMade : exampleScrews.WellMade where
  name := ⟨by show "screws".toList ≠ []; decide, by show Unmarked "screws".toList; exact unmarked_of_all (by decide)⟩
  groups := by simp [exampleScrews]
  fits := by
    intro g hg
    simp only [exampleScrews, List.mem_cons, List.not_mem_nil, or_false] at hg
    rcases hg with rfl | rfl
    · exact ⟨by norm_num, by norm_num, fun h e => by cases e⟩
    · exact ⟨by norm_num, by norm_num, fun h e => by cases e; norm_num⟩
  small := by
    intro g hg
    simp only [exampleScrews, List.mem_cons, List.not_mem_nil, or_false] at hg
    rcases hg with rfl | rfl
    · exact ⟨by norm_num, fun h e => by cases e⟩
    · exact ⟨by norm_num, fun h e => by cases e; norm_num⟩

/-- **C159** is not empty: two plates. -/
example (w : World (XNum ℝ)) (toInt : XNum ℝ → Int) (files : Nat) :
    SheetsShow ⟨20, 10, 1⟩ (Machine.sheets ⟨w, screwLib, toInt, 1⟩ (files + 1) (screwDoc ⟨20, 10, 1⟩ [exampleScrews, exampleScrews]))
      [("screws".toList, exampleScrews.draws), ("screws".toList, exampleScrews.draws)] :=
  C159_seen ⟨w, screwLib, toInt, 1⟩ zero_lt_one screwLib_reads files ⟨20, 10, 1⟩ zero_le_one [exampleScrews, exampleScrews] fun o h => by
    simp only [List.mem_cons, List.not_mem_nil, or_false, or_self] at h
    subst h
    exact exampleScrews_wellMade

/-- Not vacuous: a hole is where the second one of the pair is meant to end. -/
example : Meets (ScrewHoles.draws ⟨2, none, 1 / 5⟩) (2, 1 / 10) ∧ ¬ Meets (ScrewHoles.draws ⟨2, none, 1 / 5⟩) (21 / 10, 1 / 10) := by
  refine ⟨meets_screws.mpr ⟨(2 - 1 / 5, 0), by simp [ScrewHoles.corners], ?_⟩, fun h => ?_⟩
  · have := hole_right (1 / 5) (2 - 1 / 5, 0)
    norm_num at this ⊢
    exact this
  · have := (C159_box ⟨2, none, 1 / 5⟩ ⟨by norm_num, by norm_num, fun h e => by cases e⟩).inside _ h
    norm_num at this

end Verif.Render
