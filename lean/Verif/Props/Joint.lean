import Verif.Props.Parts
import Verif.Props.Commands
import Verif.Props.Affine
import Verif.Lemmas.Scene
import Verif.Props.Gear
import Verif.Spec.Joint

/-!
# C151: the parts of a finger joint fit together
-/

set_option linter.unusedSectionVars false
set_option linter.unusedSimpArgs false

namespace Verif.Path

open Verif Verif.Spec XNum
open GearLemmas (currentPosition_finP lineTo_finP)
open Verif.Render (currentPosition_newPath currentPosition_eq last_of_ne endOf endOf_cons)

/-! ## Pieces that run from the origin to the width -/

/-- A path that begins at the origin, stays to the left of the width and ends at the width. -/
structure Runs (p : Path ℝ) (W : ℝ) : Prop where
  head : ∃ (z b : Point ℝ) (rest : Path ℝ), p = .move z b :: rest ∧ z.x = 0 ∧ z.y = 0 ∧ b.x ≤ W
  small : Small p
  left : ∀ q, Drawn p q → q.1 ≤ W
  stop : ∃ s, p.getLast? = some s ∧ s.stop.x = W

/-- The width that is measured. -/
theorem runs_box {p : Path ℝ} {W : ℝ} (h : Runs p W) (hW : 0 ≤ W) :
    ∃ tl br : Point ℝ, whitespaceBox (finPath p) = .ok (finPt tl, finPt br) ∧ tl.x = 0 ∧ br.x = W := by
  obtain ⟨z, b, rest, rfl, hzx, hzy, hb⟩ := h.head
  have hline := at_line_box (pt z) (pt b)
  obtain ⟨c, d, h1, h2⟩ := boxLoop_fin rest _ _ _ h.small.tail hline
  have hd : ∀ q, Drawn (.move z b :: rest) q ↔ Drawn rest q := by
    intro q
    rw [drawn_cons]
    simp [strokeOf]
  have hpb : (pathBox (finPath (.move z b :: rest))).2 = finPt (mk d) := by
    rw [finPath_cons]
    simp only [pathBox]
    rw [lineBox_fin _ z b (Or.inl rfl)]
    simp only [pt] at h1
    rw [h1]
  have hdw : d.1 ≤ W := by
    obtain ⟨q, hq, e⟩ := h2.right
    rw [← e]
    rcases hq with hq | hq
    · have := (hline.inside q hq).2.1
      refine this.trans (max_le ?_ hb)
      simp only [pt, hzx]
      exact hW
    · exact h.left q ((hd q).mpr hq)
  obtain ⟨l, hl, hls⟩ := h.stop
  have hl' : (finPath (.move z b :: rest)).getLast? = some (finSeg l) := by rw [getLast_fin, hl]; rfl
  refine ⟨⟨0, 0, (origin : Point ℝ).t⟩, ⟨max d.1 l.stop.x, max d.2 l.stop.y, (mk d).t⟩, ?_, rfl, ?_⟩
  · unfold whitespaceBox
    rw [hl']
    rw [finPath_cons] at hpb ⊢
    have hst : (finSeg (Segment.move z b)).start = ⟨fin 0, fin 0, fin z.t⟩ := by simp [Segment.start, finSeg, finPt, hzx, hzy]
    have hor : (origin : Point (XNum ℝ)) = ⟨fin 0, fin 0, fin (origin : Point ℝ).t⟩ := by
      rw [origin_fin]
      simp [finPt, origin, newPoint_eq, Arith.zero]
    simp only [hpb, hst, hor, stop_finSeg, finPt, mk, lt_fin, lt_self_iff_false, decide_false, Bool.false_eq_true, if_false, Res.ok.injEq, Prod.mk.injEq,
      Point.mk.injEq, true_and, and_true]
    refine ⟨?_, ?_⟩
    · split
      · rename_i h; rw [max_eq_right (by simpa using h : d.1 < _).le]
      · rename_i h; rw [max_eq_left (by simpa using h)]
    · split
      · rename_i h; rw [max_eq_right (by simpa using h : d.2 < _).le]
      · rename_i h; rw [max_eq_left (by simpa using h)]
  · simp only [hls]
    exact max_eq_right hdw

/-- Where a path goes last. -/
theorem last_shift (dx dy : ℝ) (p : Path ℝ) (hp : p ≠ []) : (currentPosition (shift dx dy p)).x = (currentPosition p).x + dx := by
  have hne : p.map (Segment.mapPoints fun q => newPoint (q.x +. dx) (q.y +. dy)) ≠ [] := by simpa using hp
  rw [shift, mapPath, currentPosition_newPath hne]
  obtain ⟨s, hs⟩ := last_of_ne hp
  rw [currentPosition_eq _ (s.mapPoints _) (by rw [List.getLast?_map, hs]; rfl), mapPoints_stop, currentPosition_eq _ s hs]
  simp [newPoint_eq]

theorem runs_shift {p : Path ℝ} {W : ℝ} (h : Runs p W) (dx : ℝ) : ∃ (z b : Point ℝ) (rest : Path ℝ), shift dx 0 p = .move z b :: rest ∧
    z.x = 0 ∧ z.y = 0 ∧ b.x ≤ W + dx := by
  obtain ⟨z, b, rest, rfl, hzx, hzy, hb⟩ := h.head
  simp only [shift, mapPath, List.map_cons, Segment.mapPoints, newPath, headMove, Segment.isMove, if_true, fixHeadMove]
  split
  · exact ⟨_, _, _, rfl, by simp [zeroPoint], by simp [zeroPoint], by simpa [newPoint_eq] using hb⟩
  · rename_i hc
    simp only [Bool.or_eq_true, Bool.not_eq_true', not_or, Bool.not_eq_false] at hc
    exact ⟨_, _, _, rfl, by simpa using hc.1, by simpa using hc.2, by simpa [newPoint_eq] using hb⟩

/-! ## Joined paths -/

theorem appendPath_last (a p : Path ℝ) (hp : p ≠ []) : pt (currentPosition (appendPath a p)) = pt (currentPosition p) := by
  have pc : ∀ s : Segment ℝ, pt s.clone.stop = pt s.stop := by
    intro s
    cases s <;> simp [Segment.clone, Segment.stop, Point.clone, pt]
  obtain ⟨s, hs⟩ := last_of_ne hp
  match p, hp with
  | t :: r, hp =>
    simp only [appendPath]
    rw [currentPosition_eq _ s.clone (by rw [List.getLast?_append, List.getLast?_map, hs]; rfl), currentPosition_eq _ s hs, pc]

theorem clonePath_last (p : Path ℝ) (hp : p ≠ []) : pt (currentPosition (clonePath p)) = pt (currentPosition p) := by
  have := appendPath_last [] p hp
  match p, hp with
  | t :: r, hp => simpa [appendPath, clonePath] using this

theorem foldl_last (ps : List (Path ℝ)) : ∀ (acc : Path ℝ), (∀ p ∈ ps, p ≠ []) → pt (currentPosition (ps.foldl appendPath acc)) = endOf (pt (currentPosition acc)) ps := by
  induction ps with
  | nil => intro acc _; rfl
  | cons p ps ih =>
    intro acc hp
    rw [List.foldl_cons, ih _ fun p' h' => hp p' (by simp [h']), appendPath_last _ _ (hp p (by simp)), endOf_cons]

theorem foldl_head (ps : List (Path ℝ)) : ∀ (s : Segment ℝ) (r : Path ℝ), ∃ r', ps.foldl appendPath (s :: r) = s :: r' := by
  induction ps with
  | nil => intro s r; exact ⟨r, rfl⟩
  | cons p ps ih =>
    intro s r
    have : ∃ r', appendPath (s :: r) p = s :: r' := by
      cases p with
      | nil => exact ⟨r, rfl⟩
      | cons t rest =>
        simp only [appendPath]
        split
        · exact ⟨_, rfl⟩
        · split
          · exact ⟨_, rfl⟩
          · exact ⟨_, rfl⟩
    obtain ⟨r', h⟩ := this
    rw [List.foldl_cons, h]
    exact ih s r'

theorem Runs.ne {p : Path ℝ} {W : ℝ} (h : Runs p W) : p ≠ [] := by
  obtain ⟨z, b, rest, rfl, _⟩ := h.head
  simp

theorem small_of_lines {p : Path ℝ} (h : ∀ s ∈ strokes p, ∃ a b, s = .line a b) : Small p := by
  intro a c d b hm
  obtain ⟨x, y, e⟩ := h _ hm
  cases e

/-- A repeat of a piece that consists of lines and runs to its width. -/
theorem repeat_runs {toInt : XNum ℝ → Int} (ht : Faithful toInt) {p : Path ℝ} {W : ℝ} (h : Runs p W) (hl : ∀ s ∈ strokes p, ∃ a b, s = .line a b) (hW : 0 < W)
    (maxX : ℝ) (hb : maxX / W < 2 ^ 62) (hn : copies maxX W ≠ 0) :
    ∃ r : Path ℝ, repeatRender toInt (fun _ => .ok (finPath p)) (fin maxX) (fin 0) = .ok (finPath r) ∧
      strokes r = (List.range (copies maxX W)).flatMap (fun k : ℕ => (strokes p).map (Stroke.map (translate (k * W) 0))) ∧ Runs r (copies maxX W * W) := by
  obtain ⟨tl, br, hbox, htl, hbr⟩ := runs_box h hW.le
  obtain ⟨z, b, rest, hpe, hzx, hzy, hbx⟩ := h.head
  have hhead : p.head? = some (.move z b) := by rw [hpe]; rfl
  have hw : br.x - tl.x = W := by rw [htl, hbr]; ring
  set n := copies maxX W with hnn
  have hit : iterations toInt (fin 0) (fin (br.y - tl.y)) = 1 := by
    unfold iterations
    rw [zero_lt_fin]
    simp
  have hg : grid n 1 = (List.range n).map fun k => (k, 0) := by
    simp [grid, List.flatMap_singleton', List.flatMap]
    induction List.range n with
    | nil => rfl
    | cons a l ih => simp [ih]
  have hm : repeatRender toInt (fun _ => .ok (finPath p)) (fin maxX) (fin 0) =
      simpleJoin (((List.range n).map fun k : ℕ => shift (k * W) 0 p).map finPath) := by
    unfold repeatRender
    simp only [hbox, Res.ok_bind]
    have hit2 : iterations toInt (fin maxX) (fin W) = n := iterations_fin ht _ _ (fun _ => hW) hb
    simp only [finPt, sub_fin, hw, hit, hit2, hg]
    rw [Res.mapM_ok _ (fun i : ℕ × ℕ => finPath (shift (i.1 * W) 0 p))]
    · have : (List.range n) ≠ [] := by simpa using hn
      simp [List.map_map, Function.comp_def, hn]
    · intro i hi
      obtain ⟨k, -, rfl⟩ := List.mem_map.mp hi
      simp only [lit_zero_fin, mul_fin]
      rw [move_startPosition _ _ _ _ hhead]
      simp [Segment.start, hzx, hzy]
  obtain ⟨m, hmn⟩ : ∃ m, n = m + 1 := ⟨n - 1, by omega⟩
  obtain ⟨r, h1, h2⟩ := simpleJoin_strokes ((List.range n).map fun k : ℕ => shift (k * W) 0 p) (by simpa using hn)
  have hst : strokes r = (List.range n).flatMap (fun k : ℕ => (strokes p).map (Stroke.map (translate (k * W) 0))) := by
    rw [h2, List.flatMap_map]
    simp only [C27_shift]
  refine ⟨r, by rw [hm]; exact h1, hst, ?_⟩
  have hne : ∀ k : ℕ, shift (k * W) 0 p ≠ [] := by
    intro k
    obtain ⟨_, _, _, e, _⟩ := runs_shift h (k * W)
    rw [e]
    simp
  have hr : r = ((List.range m).map fun k : ℕ => shift ((k + 1 : ℕ) * W) 0 p).foldl appendPath (clonePath (shift ((0 : ℕ) * W) 0 p)) := by
    rw [hmn, List.range_succ_eq_map, List.map_cons, List.map_map] at h1
    have := h1.symm.trans (simpleJoin_fin _ _)
    rw [Res.ok.injEq] at this
    exact finPath_injective this
  refine ⟨?_, ?_, ?_, ?_⟩
  · obtain ⟨z', b', rest', e, h3, h4, h5⟩ := runs_shift h ((0 : ℕ) * W)
    rw [hr, e]
    obtain ⟨r', h6⟩ := foldl_head ((List.range m).map fun k : ℕ => shift ((k + 1 : ℕ) * W) 0 p) (Segment.clone (.move z' b')) (rest'.map Segment.clone)
    refine ⟨z'.clone, b'.clone, r', ?_, ?_, ?_, ?_⟩
    · simpa [clonePath, Segment.clone] using h6
    · simpa [Point.clone] using h3
    · simpa [Point.clone] using h4
    · have : (1:ℝ) ≤ n := by exact_mod_cast Nat.one_le_iff_ne_zero.mpr hn
      simp only [Nat.cast_zero, zero_mul, add_zero] at h5
      simp only [Point.clone, newPoint_eq]
      nlinarith
  · refine small_of_lines ?_
    intro s hs
    rw [hst] at hs
    simp only [List.mem_flatMap, List.mem_map] at hs
    obtain ⟨k, -, s', hs', rfl⟩ := hs
    obtain ⟨x, y, rfl⟩ := hl s' hs'
    exact ⟨_, _, rfl⟩
  · rintro q ⟨st, hs, t, t0, t1, rfl⟩
    rw [hst] at hs
    simp only [List.mem_flatMap, List.mem_range, List.mem_map] at hs
    obtain ⟨k, hk, s', hs', rfl⟩ := hs
    rw [C27_points]
    have := h.left _ ⟨s', hs', t, t0, t1, rfl⟩
    have hk' : ((k : ℝ) + 1) ≤ n := by exact_mod_cast hk
    simp only [translate]
    nlinarith
  · have hrne : r ≠ [] := by
      intro e
      have := h1
      rw [e] at hst
      obtain ⟨z', b', rest', e', -⟩ := runs_shift h ((0 : ℕ) * W)
      rw [hr, e', show clonePath (.move z' b' :: rest') = Segment.clone (.move z' b') :: rest'.map Segment.clone from rfl] at e
      obtain ⟨r', h6⟩ := foldl_head ((List.range m).map fun k : ℕ => shift ((k + 1 : ℕ) * W) 0 p) (Segment.clone (.move z' b')) (rest'.map Segment.clone)
      rw [h6] at e
      cases e
    obtain ⟨s, hs⟩ := last_of_ne hrne
    refine ⟨s, hs, ?_⟩
    rw [← currentPosition_eq _ s hs]
    have hps : (currentPosition p).x = W := by
      obtain ⟨s, h3, h4⟩ := h.stop
      rw [currentPosition_eq _ s h3, h4]
    have hfl := foldl_last ((List.range m).map fun k : ℕ => shift ((k + 1 : ℕ) * W) 0 p) (clonePath (shift ((0 : ℕ) * W) 0 p)) (by
      intro p' hp'
      obtain ⟨k, -, rfl⟩ := List.mem_map.mp hp'
      exact hne _)
    rw [← hr] at hfl
    have hx := congrArg Prod.fst hfl
    rw [show (currentPosition r).x = (pt (currentPosition r)).1 from rfl, hx, clonePath_last _ (hne _)]
    cases m with
    | zero =>
      simp only [List.range_zero, List.map_nil, endOf, List.getLast?_nil, pt]
      rw [last_shift _ _ _ h.ne, hps, hmn]
      simp
    | succ m =>
      simp only [endOf, List.range_succ (n := m), List.map_append, List.map_cons, List.map_nil, List.getLast?_append, List.getLast?_singleton, Option.some_or, pt]
      rw [last_shift _ _ _ h.ne, hps, hmn]
      push_cast
      ring

/-- An edge made of such pieces. -/
theorem edge_runs {toInt : XNum ℝ → Int} (ht : Faithful toInt) {p : Path ℝ} {W : ℝ} (h : Runs p W) (hl : ∀ s ∈ strokes p, ∃ a b, s = .line a b) (hW : 0 < W)
    (left right : XNum ℝ → Res (Path (XNum ℝ))) (pl pr : ℝ → Path ℝ) (hpl : ∀ w, left (fin w) = .ok (finPath (pl w)))
    (hpr : ∀ w, right (fin w) = .ok (finPath (pr w))) (hpr0 : ∀ w, StartsAtOrigin (pr w)) (a b : Point ℝ) (hab : pt a ≠ pt b) (padL padR : ℝ)
    (n : ℕ) (hn : n = copies (lengthOf (pt a) (pt b) - (padL + padR)) W) (hn0 : n ≠ 0) (hb : (lengthOf (pt a) (pt b) - (padL + padR)) / W < 2 ^ 62)
    (l : ℝ) (hll : l = (lengthOf (pt a) (pt b) - (padL + padR) - n * W) / 2 + padL) (handle : Text)
    (hh : handle = Attr.origin.text ∨ handle = Attr.startPoint.text ∧ (strokes (pl l)).head?.map Stroke.first = some (0, 0)) :
    ∃ r : Path ℝ, repeatEdge toInt (fun _ => .ok (finPath p)) left right (finPt a) (finPt b) (fin padL) (fin padR) handle = .ok (finPath r) ∧
      strokes r = (strokes (pl l) ++ (List.range n).flatMap (fun k : ℕ => (strokes p).map (Stroke.map (translate (l + k * W) 0))) ++
        (strokes (pr (lengthOf (pt a) (pt b) - (l + n * W)))).map (Stroke.map (translate (l + n * W) 0))).map (Stroke.map (Spec.along (pt a) (pt b))) := by
  obtain ⟨q, h1, h2, h3⟩ := repeat_runs ht h hl hW _ hb (by rw [← hn]; exact hn0)
  rw [← hn] at h2 h3
  obtain ⟨tl, br, h4, h5, h6⟩ := runs_box h3 (by positivity)
  obtain ⟨z, b', rest, hq, hzx, hzy, -⟩ := h3.head
  have hw : br.x - tl.x = n * W := by rw [h5, h6]; ring
  obtain ⟨z', b'', rest', hq', hzx', hzy'⟩ := hpr0 (lengthOf (pt a) (pt b) - (l + n * W))
  obtain ⟨-, -, j, hj, key⟩ := C49_edge toInt (fun _ => .ok (finPath p)) left right a b hab padL padR handle q (pl l)
    (pr (lengthOf (pt a) (pt b) - (l + n * W))) (.move z b') (.move z' b'') tl br l (lengthOf (pt a) (pt b) - (l + n * W))
    (by rw [hw, hll]) (by rw [hw, hll]; ring) h1 h4 (by rw [hq]; rfl) (hpl _) (hpr _) (by rw [hq']; rfl)
  have hj' : strokes j = strokes (pl l) ++ (List.range n).flatMap (fun k : ℕ => (strokes p).map (Stroke.map (translate (l + k * W) 0))) ++
        (strokes (pr (lengthOf (pt a) (pt b) - (l + n * W)))).map (Stroke.map (translate (l + n * W) 0)) := by
    rw [hj, h2, hw]
    simp only [Segment.start, hzx, hzy, hzx', hzy', sub_zero, neg_zero, List.map_flatMap, List.map_map]
    congr 3
    funext k
    congr 1
    funext s
    simp only [Function.comp_apply, stroke_map_map]
    congr 1
    funext x
    simp only [Function.comp_apply, translate]
    refine Prod.ext ?_ ?_ <;> simp only [] <;> ring
  obtain ⟨x, hne, hx, hx0⟩ : ∃ x : Point ℝ, handle ≠ [] ∧ pointAttribute handle (finPath j) = .ok (finPt x) ∧ pt x = (0, 0) := by
    rcases hh with rfl | ⟨rfl, hf⟩
    · exact ⟨origin, by decide, by rw [pointAttribute_text]; simp only [namedValue, origin_fin], by simp [origin, newPoint_eq, pt]⟩
    · have hne : strokes (pl l) ≠ [] := by
        intro e
        rw [e] at hf
        cases hf
      have hjn : strokes j ≠ [] := by
        rw [hj']
        simp [hne]
      obtain ⟨x, e1, e2⟩ := startPoint_fin j hjn
      refine ⟨x, by decide, e1, ?_⟩
      rw [hj'] at e2
      cases hs : strokes (pl l) with
      | nil => exact absurd hs hne
      | cons s0 r0 =>
        rw [hs] at e2 hf
        simp only [List.cons_append, List.head?_cons, Option.map_some, Option.some.injEq] at e2 hf
        rw [← e2, hf]
  obtain ⟨r, e1, e2⟩ := key x hne hx
  refine ⟨r, e1, ?_⟩
  rw [e2, hj']
  have h7 := congrArg Prod.fst hx0
  have h8 := congrArg Prod.snd hx0
  simp only [pt] at h7 h8
  simp only [h7, h8, sub_zero]

/-! ## The pieces of the joints -/

section Pieces

variable (p : Path ℝ) (x y : ℝ)

theorem exec_moveCommand : (moveCommand (fin x) (fin y)).exec (finPath p) = .ok (finPath (moveTo p (newPoint x y))) := by
  rw [Command.exec, exec_named _ .move rfl]
  simp only [need, moveCommand, toCommand, toKey, if_true, newPoint_fin, moveTo, currentPosition_finP]
  simp [finPath, finSeg]

theorem toAbs_finP (q : Point ℝ) : toAbs (finPath p) (finPt q) = finPt (toAbs p q) := by
  simp only [toAbs, currentPosition_finP]
  simp only [finPt, add_fin, newPoint_fin]
  simp [finPt]

theorem exec_relLineCommand : (relLineCommand (fin x) (fin y)).exec (finPath p) = .ok (finPath (relLineTo p (newPoint x y))) := by
  rw [Command.exec, exec_named _ .relLine rfl]
  simp only [need, relLineCommand, toCommand, toKey, if_true, newPoint_fin, relLineTo, toAbs_finP, lineTo_finP]

theorem exec_relMoveCommand : (relMoveCommand (fin x) (fin y)).exec (finPath p) = .ok (finPath (relMoveTo p (newPoint x y))) := by
  rw [Command.exec, exec_named _ .relMove rfl]
  simp only [need, relMoveCommand, toCommand, toKey, if_true, newPoint_fin, relMoveTo, toAbs_finP, moveTo, currentPosition_finP]
  simp [finPath, finSeg]

theorem exec_rectCommand : (rectCommand (fin x) (fin y)).exec (finPath p) = .ok (finPath (rect p x y)) := by
  rw [Command.exec, exec_named _ .rectangle rfl]
  have h1 : (rectCommand (fin x) (fin y)).number widthKey = some (fin x) := by
    show (if widthKey = widthKey then some (fin x) else if widthKey = heightKey then some (fin y) else none) = some (fin x)
    rw [if_pos rfl]
  have h2 : (rectCommand (fin x) (fin y)).number heightKey = some (fin y) := by
    show (if heightKey = widthKey then some (fin x) else if heightKey = heightKey then some (fin y) else none) = some (fin y)
    rw [if_neg (by decide +kernel), if_pos rfl]
  have h0 : (Arith.zero : ℝ) = 0 := by simp [Arith.zero]
  simp only [need, h1, h2, rect, relLineTo, Bezier.zero_fin, neg_fin, newPoint_fin, toAbs_finP, lineTo_finP, h0]
  rfl

end Pieces

theorem moveTo_origin : (moveTo [] (origin : Point (XNum ℝ))) = finPath (moveTo [] (origin : Point ℝ)) := by
  simp [moveTo, currentPosition, origin_fin, finPath, finSeg]

theorem plugFinger_drawn (w h s : ℝ) : drawRender origin (plugFinger w h s) =
    .ok (finPath (relLineTo (relLineTo (relLineTo (relLineTo (relLineTo (moveTo (moveTo [] origin) (newPoint 0 h)) (newPoint (s / 2) 0)) (newPoint 0 (0 - h)))
      (newPoint w 0)) (newPoint 0 h)) (newPoint (s / 2) 0))) := by
  simp only [drawRender, plugFinger, moveTo_origin, execAll, exec_moveCommand, exec_relLineCommand]

theorem plugEnd_drawn (h w : ℝ) : drawRender origin (plugEnd h (fin w)) = .ok (finPath (relLineTo (moveTo (moveTo [] origin) (newPoint 0 h)) (newPoint w 0))) := by
  simp only [drawRender, plugEnd, moveTo_origin, execAll, exec_moveCommand, exec_relLineCommand]

theorem socketNotch_drawn (w h s : ℝ) : drawRender origin (socketNotch w h s) =
    .ok (finPath (relLineTo (relLineTo (relLineTo (relLineTo (relLineTo (moveTo [] origin) (newPoint (s / 2) 0)) (newPoint 0 h))
      (newPoint w 0)) (newPoint 0 (0 - h))) (newPoint (s / 2) 0))) := by
  simp only [drawRender, socketNotch, moveTo_origin, execAll, exec_moveCommand, exec_relLineCommand]

theorem socketEnd_drawn (w : ℝ) : drawRender origin (socketEnd (fin w)) = .ok (finPath (relLineTo (moveTo (moveTo [] origin) (newPoint 0 0)) (newPoint w 0))) := by
  simp only [drawRender, socketEnd, moveTo_origin, execAll, exec_moveCommand, exec_relLineCommand]

theorem holePiece_drawn (w d s : ℝ) : drawRender origin (holePiece w d s) =
    .ok (finPath (relMoveTo (rect (moveTo (moveTo [] origin) (newPoint (s / 2) 0)) w d) (newPoint (w + s / 2) 0))) := by
  simp only [drawRender, holePiece, moveTo_origin, execAll, exec_moveCommand, exec_rectCommand, exec_relMoveCommand]

theorem holeEnd_drawn (w : ℝ) : drawRender origin (holeEnd (fin w)) = .ok (finPath (relMoveTo (moveTo (moveTo [] origin) (newPoint 0 0)) (newPoint w 0))) := by
  simp only [drawRender, holeEnd, moveTo_origin, execAll, exec_moveCommand, exec_relMoveCommand]

/-- Lines whose ends are to the left of the width stay there. -/
theorem left_of_lines {p : Path ℝ} {W : ℝ} (h : ∀ s ∈ strokes p, ∃ a b, s = .line a b ∧ a.1 ≤ W ∧ b.1 ≤ W) : ∀ q, Drawn p q → q.1 ≤ W := by
  rintro q ⟨s, hs, t, t0, t1, rfl⟩
  obtain ⟨a, b, rfl, ha, hb⟩ := h s hs
  simp only [Stroke.at]
  nlinarith

theorem runs_plug (w h s : ℝ) (hw : 0 ≤ w) (hs : 0 ≤ s) :
    let p := relLineTo (relLineTo (relLineTo (relLineTo (relLineTo (moveTo (moveTo [] origin) (newPoint 0 h)) (newPoint (s / 2) 0)) (newPoint 0 (0 - h)))
      (newPoint w 0)) (newPoint 0 h)) (newPoint (s / 2) 0)
    strokes p = tooth h 0 w s 0 ∧ Runs p (s + w) := by
  intro p
  have hp : p = [.move origin origin, .move origin ⟨0, h, -1⟩, .line ⟨0, h, -1⟩ ⟨s / 2, h, -1⟩, .line ⟨s / 2, h, -1⟩ ⟨s / 2, 0, -1⟩,
      .line ⟨s / 2, 0, -1⟩ ⟨s / 2 + w, 0, -1⟩, .line ⟨s / 2 + w, 0, -1⟩ ⟨s / 2 + w, h, -1⟩, .line ⟨s / 2 + w, h, -1⟩ ⟨s / 2 + w + s / 2, h, -1⟩] := by
    simp [p, relLineTo, moveTo, lineTo, toAbs, currentPosition, Segment.stop, origin, newPoint_eq]
  have hst : strokes p = tooth h 0 w s 0 := by
    rw [hp]
    simp only [strokes, List.filterMap_cons, strokeOf, List.filterMap_nil, tooth, pt, zero_add]
    rw [show s / 2 + w + s / 2 = s + w by ring]
  have hlines : ∀ st ∈ strokes p, ∃ a b, st = .line a b ∧ a.1 ≤ s + w ∧ b.1 ≤ s + w := by
    rw [hst]
    intro st hm
    simp only [tooth, List.mem_cons, List.not_mem_nil, or_false] at hm
    rcases hm with rfl | rfl | rfl | rfl | rfl <;> exact ⟨_, _, rfl, by simp only []; linarith, by simp only []; linarith⟩
  refine ⟨hst, ?_, small_of_lines fun st hm => ?_, left_of_lines hlines, ?_⟩
  · rw [hp]
    refine ⟨_, _, _, rfl, by simp [origin, newPoint_eq], by simp [origin, newPoint_eq], ?_⟩
    simp only [origin, newPoint_eq]
    show (Arith.zero : ℝ) ≤ _
    rw [show (Arith.zero : ℝ) = 0 by simp [Arith.zero]]
    linarith
  · obtain ⟨a, b, e, -⟩ := hlines st hm
    exact ⟨a, b, e⟩
  · rw [hp]
    exact ⟨_, rfl, show s / 2 + w + s / 2 = s + w by ring⟩

theorem runs_socket (w h s : ℝ) (hw : 0 ≤ w) (hs : 0 ≤ s) :
    let p := relLineTo (relLineTo (relLineTo (relLineTo (relLineTo (moveTo [] origin) (newPoint (s / 2) 0)) (newPoint 0 h))
      (newPoint w 0)) (newPoint 0 (0 - h))) (newPoint (s / 2) 0)
    strokes p = tooth 0 h w s 0 ∧ Runs p (s + w) := by
  intro p
  have hp : p = [.move origin origin, .line origin ⟨s / 2, 0, -1⟩, .line ⟨s / 2, 0, -1⟩ ⟨s / 2, h, -1⟩,
      .line ⟨s / 2, h, -1⟩ ⟨s / 2 + w, h, -1⟩, .line ⟨s / 2 + w, h, -1⟩ ⟨s / 2 + w, 0, -1⟩, .line ⟨s / 2 + w, 0, -1⟩ ⟨s / 2 + w + s / 2, 0, -1⟩] := by
    simp [p, relLineTo, moveTo, lineTo, toAbs, currentPosition, Segment.stop, origin, newPoint_eq]
  have hst : strokes p = tooth 0 h w s 0 := by
    rw [hp]
    simp only [strokes, List.filterMap_cons, strokeOf, List.filterMap_nil, tooth, pt, zero_add, origin, newPoint_eq]
    rw [show s / 2 + w + s / 2 = s + w by ring, show (Arith.zero : ℝ) = 0 by simp [Arith.zero]]
  have hlines : ∀ st ∈ strokes p, ∃ a b, st = .line a b ∧ a.1 ≤ s + w ∧ b.1 ≤ s + w := by
    rw [hst]
    intro st hm
    simp only [tooth, List.mem_cons, List.not_mem_nil, or_false] at hm
    rcases hm with rfl | rfl | rfl | rfl | rfl <;> exact ⟨_, _, rfl, by simp only []; linarith, by simp only []; linarith⟩
  refine ⟨hst, ?_, small_of_lines fun st hm => ?_, left_of_lines hlines, ?_⟩
  · rw [hp]
    refine ⟨_, _, _, rfl, by simp [origin, newPoint_eq], by simp [origin, newPoint_eq], ?_⟩
    simp only [origin, newPoint_eq]
    show (Arith.zero : ℝ) ≤ _
    rw [show (Arith.zero : ℝ) = 0 by simp [Arith.zero]]
    linarith
  · obtain ⟨a, b, e, -⟩ := hlines st hm
    exact ⟨a, b, e⟩
  · rw [hp]
    exact ⟨_, rfl, show s / 2 + w + s / 2 = s + w by ring⟩

theorem runs_hole (w d s : ℝ) (hw : 0 ≤ w) (hs : 0 ≤ s) :
    let p := relMoveTo (rect (moveTo (moveTo [] origin) (newPoint (s / 2) 0)) w d) (newPoint (w + s / 2) 0)
    strokes p = holeAt w d (s / 2) ∧ Runs p (s + w) := by
  intro p
  have hp : p = [.move origin origin, .move origin ⟨s / 2, 0, -1⟩, .line ⟨s / 2, 0, -1⟩ ⟨s / 2 + w, 0, -1⟩,
      .line ⟨s / 2 + w, 0, -1⟩ ⟨s / 2 + w, d, -1⟩, .line ⟨s / 2 + w, d, -1⟩ ⟨s / 2, d, -1⟩, .line ⟨s / 2, d, -1⟩ ⟨s / 2, 0, -1⟩,
      .move ⟨s / 2, 0, -1⟩ ⟨s / 2 + (w + s / 2), 0, -1⟩] := by
    simp [p, rect, relLineTo, moveTo, relMoveTo, lineTo, toAbs, currentPosition, Segment.stop, origin, newPoint_eq]
  have hst : strokes p = holeAt w d (s / 2) := by
    rw [hp]
    simp only [strokes, List.filterMap_cons, strokeOf, List.filterMap_nil, holeAt, pt]
  have hlines : ∀ st ∈ strokes p, ∃ a b, st = .line a b ∧ a.1 ≤ s + w ∧ b.1 ≤ s + w := by
    rw [hst]
    intro st hm
    simp only [holeAt, List.mem_cons, List.not_mem_nil, or_false] at hm
    rcases hm with rfl | rfl | rfl | rfl <;> exact ⟨_, _, rfl, by simp only []; linarith, by simp only []; linarith⟩
  refine ⟨hst, ?_, small_of_lines fun st hm => ?_, left_of_lines hlines, ?_⟩
  · rw [hp]
    refine ⟨_, _, _, rfl, by simp [origin, newPoint_eq], by simp [origin, newPoint_eq], ?_⟩
    simp only [origin, newPoint_eq]
    show (Arith.zero : ℝ) ≤ _
    rw [show (Arith.zero : ℝ) = 0 by simp [Arith.zero]]
    linarith
  · obtain ⟨a, b, e, -⟩ := hlines st hm
    exact ⟨a, b, e⟩
  · rw [hp]
    exact ⟨_, rfl, show s / 2 + (w + s / 2) = s + w by ring⟩

theorem tooth_translate (base tip w s x : ℝ) : (tooth base tip w s 0).map (Stroke.map (translate x 0)) = tooth base tip w s x := by
  simp only [tooth, List.map_cons, List.map_nil, Stroke.map, translate, zero_add, add_zero]
  simp only [add_comm, add_left_comm]

theorem hole_translate (w d z x : ℝ) : (holeAt w d z).map (Stroke.map (translate x 0)) = holeAt w d (x + z) := by
  simp only [holeAt, List.map_cons, List.map_nil, Stroke.map, translate, zero_add, add_zero]
  simp only [add_comm, add_left_comm]

/-! ## C151 The parts of a finger joint fit together -/

section Joint

variable {toInt : XNum ℝ → Int} (ht : Faithful toInt) (a b : Point ℝ) (hab : pt a ≠ pt b) (w h s padL padR : ℝ) (hw : 0 < w) (hs : 0 ≤ s)
  (hn : teeth w s padL padR (lengthOf (pt a) (pt b)) ≠ 0) (hb : (lengthOf (pt a) (pt b) - (padL + padR)) / (s + w) < 2 ^ 62)

include ht hab hw hs hn hb

/-- **C151.** The plug: along the edge run as many fingers as fit between the paddings, in the middle; the fingers reach to the edge, the
spaces between them lie back by the height of a finger. -/
theorem C151_plug : ∃ r : Path ℝ,
    repeatEdge toInt (fun _ => drawRender origin (plugFinger w h s)) (fun x => drawRender origin (plugEnd h x)) (fun x => drawRender origin (plugEnd h x))
      (finPt a) (finPt b) (fin padL) (fin padR) Attr.origin.text = .ok (finPath r) ∧
    strokes r = (comb h 0 w s (teethStart w s padL padR (lengthOf (pt a) (pt b))) (teeth w s padL padR (lengthOf (pt a) (pt b)))
      (lengthOf (pt a) (pt b))).map (Stroke.map (Spec.along (pt a) (pt b))) := by
  obtain ⟨h1, h2⟩ := runs_plug w h s hw.le hs
  have hend : ∀ x : ℝ, strokes (relLineTo (moveTo (moveTo [] origin) (newPoint 0 h)) (newPoint x 0)) = [.line (0, h) (x, h)] := by
    intro x
    simp [relLineTo, moveTo, lineTo, toAbs, currentPosition, Segment.stop, newPoint_eq, strokes, strokeOf, pt]
    rfl
  obtain ⟨r, h3, h4⟩ := edge_runs ht h2 (by
      rw [h1]
      intro st hm
      simp only [tooth, List.mem_cons, List.not_mem_nil, or_false] at hm
      rcases hm with rfl | rfl | rfl | rfl | rfl <;> exact ⟨_, _, rfl⟩) (by linarith)
    (fun x => drawRender origin (plugEnd h x)) (fun x => drawRender origin (plugEnd h x)) _ _ (fun x => plugEnd_drawn h x) (fun x => plugEnd_drawn h x)
    (fun x => ⟨_, _, _, rfl, by simp [currentPosition, origin, newPoint_eq], by simp [currentPosition, origin, newPoint_eq]⟩) a b hab padL padR
    _ rfl hn hb (teethStart w s padL padR (lengthOf (pt a) (pt b))) rfl Attr.origin.text (Or.inl rfl)
  refine ⟨r, ?_, ?_⟩
  · rw [← h3]
    simp only [plugFinger_drawn]
  · rw [h4, h1, hend, hend]
    simp only [tooth_translate, comb, List.cons_append, List.nil_append, List.map_cons, List.map_nil, Stroke.map, translate, zero_add, add_zero, teeth]
    simp

/-- **C151.** The socket: the notches are where the plug has its fingers. -/
theorem C151_socket : ∃ r : Path ℝ,
    repeatEdge toInt (fun _ => drawRender origin (socketNotch w h s)) (fun x => drawRender origin (socketEnd x)) (fun x => drawRender origin (socketEnd x))
      (finPt a) (finPt b) (fin padL) (fin padR) Attr.startPoint.text = .ok (finPath r) ∧
    strokes r = (comb 0 h w s (teethStart w s padL padR (lengthOf (pt a) (pt b))) (teeth w s padL padR (lengthOf (pt a) (pt b)))
      (lengthOf (pt a) (pt b))).map (Stroke.map (Spec.along (pt a) (pt b))) := by
  obtain ⟨h1, h2⟩ := runs_socket w h s hw.le hs
  have hend : ∀ x : ℝ, strokes (relLineTo (moveTo (moveTo [] origin) (newPoint 0 0)) (newPoint x 0)) = [.line (0, 0) (x, 0)] := by
    intro x
    simp [relLineTo, moveTo, lineTo, toAbs, currentPosition, Segment.stop, newPoint_eq, strokes, strokeOf, pt]
    rfl
  obtain ⟨r, h3, h4⟩ := edge_runs ht h2 (by
      rw [h1]
      intro st hm
      simp only [tooth, List.mem_cons, List.not_mem_nil, or_false] at hm
      rcases hm with rfl | rfl | rfl | rfl | rfl <;> exact ⟨_, _, rfl⟩) (by linarith)
    (fun x => drawRender origin (socketEnd x)) (fun x => drawRender origin (socketEnd x)) _ _ (fun x => socketEnd_drawn x) (fun x => socketEnd_drawn x)
    (fun x => ⟨_, _, _, rfl, by simp [currentPosition, origin, newPoint_eq], by simp [currentPosition, origin, newPoint_eq]⟩) a b hab padL padR
    _ rfl hn hb (teethStart w s padL padR (lengthOf (pt a) (pt b))) rfl Attr.startPoint.text (Or.inr ⟨rfl, by rw [hend]; rfl⟩)
  refine ⟨r, ?_, ?_⟩
  · rw [← h3]
    simp only [socketNotch_drawn]
  · rw [h4, h1, hend, hend]
    simp only [tooth_translate, comb, List.cons_append, List.nil_append, List.map_cons, List.map_nil, Stroke.map, translate, zero_add, add_zero, teeth]
    simp

/-- **C151.** The holes: a hole for every finger of a plug along the same line, as wide as the finger; `d` is the thickness of the material. -/
theorem C151_holes (d : ℝ) : ∃ r : Path ℝ,
    repeatEdge toInt (fun _ => drawRender origin (holePiece w d s)) (fun x => drawRender origin (holeEnd x)) (fun x => drawRender origin (holeEnd x))
      (finPt a) (finPt b) (fin padL) (fin padR) Attr.origin.text = .ok (finPath r) ∧
    strokes r = ((List.range (teeth w s padL padR (lengthOf (pt a) (pt b)))).flatMap fun k : ℕ =>
      holeAt w d (teethStart w s padL padR (lengthOf (pt a) (pt b)) + k * (s + w) + s / 2)).map (Stroke.map (Spec.along (pt a) (pt b))) := by
  obtain ⟨h1, h2⟩ := runs_hole w d s hw.le hs
  have hend : ∀ x : ℝ, strokes (relMoveTo (moveTo (moveTo [] origin) (newPoint 0 0)) (newPoint x 0)) = [] := by
    intro x
    simp [relMoveTo, moveTo, strokes, strokeOf]
  obtain ⟨r, h3, h4⟩ := edge_runs ht h2 (by
      rw [h1]
      intro st hm
      simp only [holeAt, List.mem_cons, List.not_mem_nil, or_false] at hm
      rcases hm with rfl | rfl | rfl | rfl <;> exact ⟨_, _, rfl⟩) (by linarith)
    (fun x => drawRender origin (holeEnd x)) (fun x => drawRender origin (holeEnd x)) _ _ (fun x => holeEnd_drawn x) (fun x => holeEnd_drawn x)
    (fun x => ⟨_, _, _, rfl, by simp [currentPosition, origin, newPoint_eq], by simp [currentPosition, origin, newPoint_eq]⟩) a b hab padL padR
    _ rfl hn hb (teethStart w s padL padR (lengthOf (pt a) (pt b))) rfl Attr.origin.text (Or.inl rfl)
  refine ⟨r, ?_, ?_⟩
  · rw [← h3]
    simp only [holePiece_drawn]
  · rw [h4, h1, hend, hend]
    simp only [hole_translate, List.nil_append, List.map_nil, List.append_nil, teeth]

end Joint

/-- **C151.** Plug and socket are mirror images of each other: what lies back in one stands out in the other. -/
theorem C151_mirror (w h s l : ℝ) (n : ℕ) (L : ℝ) :
    comb h 0 w s l n L = (comb 0 h w s l n L).map (Stroke.map fun q => (q.1, h - q.2)) := by
  simp only [comb, tooth, List.map_cons, List.map_append, List.map_flatMap, List.map_nil, Stroke.map, sub_zero, sub_self]

/-- **C151.** The teeth are within the edge, between the paddings. -/
theorem C151_room (w s padL padR L : ℝ) (hw : 0 < w) (hs : 0 ≤ s) (hL : padL + padR < L) :
    padL ≤ teethStart w s padL padR L ∧ teethStart w s padL padR L + teeth w s padL padR L * (s + w) ≤ L - padR := by
  have := (C48_fill (L - (padL + padR)) (s + w) (by linarith) (by linarith)).1
  simp only [teethStart, teeth]
  constructor <;> linarith

theorem on_flat {x0 x1 y : ℝ} (hx : x0 ≤ x1) (q : Pt ℝ) : On (.line (x0, y) (x1, y)) q ↔ x0 ≤ q.1 ∧ q.1 ≤ x1 ∧ q.2 = y := by
  constructor
  · rintro ⟨t, t0, t1, rfl⟩
    simp only [Stroke.at]
    refine ⟨by nlinarith, by nlinarith, by ring⟩
  · rintro ⟨h0, h1, h2⟩
    by_cases he : x0 = x1
    · refine ⟨0, le_refl _, by norm_num, ?_⟩
      simp only [Stroke.at]
      refine Prod.ext ?_ ?_ <;> simp only [] <;> linarith
    · have hp : 0 < x1 - x0 := by
        rcases lt_or_eq_of_le hx with h | h
        · linarith
        · exact absurd h he
      refine ⟨(q.1 - x0) / (x1 - x0), div_nonneg (by linarith) hp.le, (div_le_one hp).mpr (by linarith), ?_⟩
      simp only [Stroke.at]
      refine Prod.ext ?_ ?_ <;> simp only []
      · field_simp
        ring
      · rw [h2]
        ring

theorem on_riser {x y0 y1 : ℝ} {q : Pt ℝ} (h : On (.line (x, y0) (x, y1)) q) : q.1 = x := by
  obtain ⟨t, t0, t1, rfl⟩ := h
  simp only [Stroke.at]
  ring

theorem onTooth_iff {base tip w s x : ℝ} (hw : 0 < w) (hs : 0 ≤ s) {q : Pt ℝ} (h1 : q.1 ≠ x + s / 2) (h2 : q.1 ≠ x + s / 2 + w) :
    OnComb (tooth base tip w s x) q ↔ x ≤ q.1 ∧ q.1 ≤ x + (s + w) ∧
      ((x + s / 2 < q.1 ∧ q.1 < x + s / 2 + w) ∧ q.2 = tip ∨ ¬ (x + s / 2 < q.1 ∧ q.1 < x + s / 2 + w) ∧ q.2 = base) := by
  constructor
  · rintro ⟨st, hm, ho⟩
    simp only [tooth, List.mem_cons, List.not_mem_nil, or_false] at hm
    rcases hm with rfl | rfl | rfl | rfl | rfl
    · obtain ⟨e1, e2, e3⟩ := (on_flat (by linarith) q).mp ho
      exact ⟨e1, by linarith, Or.inr ⟨fun h => by linarith [h.1], e3⟩⟩
    · exact absurd (on_riser ho) h1
    · obtain ⟨e1, e2, e3⟩ := (on_flat (by linarith) q).mp ho
      exact ⟨by linarith, by linarith, Or.inl ⟨⟨lt_of_le_of_ne e1 (Ne.symm h1), lt_of_le_of_ne e2 h2⟩, e3⟩⟩
    · exact absurd (on_riser ho) h2
    · obtain ⟨e1, e2, e3⟩ := (on_flat (by linarith) q).mp ho
      exact ⟨by linarith, e2, Or.inr ⟨fun h => by linarith [h.2], e3⟩⟩
  · rintro ⟨e1, e2, ⟨⟨e3, e4⟩, e5⟩ | ⟨e3, e5⟩⟩
    · exact ⟨.line (x + s / 2, tip) (x + s / 2 + w, tip), by simp [tooth], (on_flat (by linarith) q).mpr ⟨e3.le, e4.le, e5⟩⟩
    · rcases le_or_gt q.1 (x + s / 2) with h | h
      · exact ⟨.line (x, base) (x + s / 2, base), by simp [tooth], (on_flat (by linarith) q).mpr ⟨e1, h, e5⟩⟩
      · exact ⟨.line (x + s / 2 + w, base) (x + (s + w), base), by simp [tooth],
          (on_flat (by linarith) q).mpr ⟨not_lt.mp fun h' => e3 ⟨h, h'⟩, e2, e5⟩⟩

/-- **C151.** The outline, away from the sides of the teeth, is over every place of the edge exactly once: at the tip inside a tooth, at the
base elsewhere. -/
theorem C151_outline {base tip w s l L : ℝ} {n : ℕ} (hw : 0 < w) (hs : 0 ≤ s) (hl : 0 ≤ l) (hL : l + n * (s + w) ≤ L) {x : ℝ} (hx : ¬ AtSide w s l n x) (y : ℝ) :
    OnComb (comb base tip w s l n L) (x, y) ↔ 0 ≤ x ∧ x ≤ L ∧ (InTooth w s l n x ∧ y = tip ∨ ¬ InTooth w s l n x ∧ y = base) := by
  have hW : 0 < s + w := by linarith
  have hn0 : (0:ℝ) ≤ n * (s + w) := by positivity
  have hside : ∀ k < n, x ≠ l + k * (s + w) + s / 2 ∧ x ≠ l + k * (s + w) + s / 2 + w :=
    fun k hk => ⟨fun e => hx ⟨k, hk, Or.inl e⟩, fun e => hx ⟨k, hk, Or.inr e⟩⟩
  have hkn : ∀ k < n, ((k : ℝ) + 1) * (s + w) ≤ n * (s + w) := by
    intro k hk
    have : ((k : ℝ) + 1) ≤ n := by exact_mod_cast hk
    nlinarith
  have hk0 : ∀ k : ℕ, (0:ℝ) ≤ k * (s + w) := fun k => by positivity
  -- a place in a cell is in no other tooth
  have huniq : ∀ k j : ℕ, l + k * (s + w) ≤ x → x ≤ l + k * (s + w) + (s + w) → l + j * (s + w) + s / 2 < x → x < l + j * (s + w) + s / 2 + w → j = k := by
    intro k j h1 h2 h3 h4
    by_contra hne
    rcases lt_or_gt_of_ne hne with h | h
    · have : ((j : ℝ) + 1) ≤ k := by exact_mod_cast h
      nlinarith
    · have : ((k : ℝ) + 1) ≤ j := by exact_mod_cast h
      nlinarith
  constructor
  · rintro ⟨st, hm, ho⟩
    simp only [comb, List.cons_append, List.mem_cons, List.mem_append, List.mem_flatMap, List.mem_range, List.not_mem_nil, or_false] at hm
    rcases hm with rfl | ⟨k, hk, hm⟩ | rfl
    · obtain ⟨e1, e2, e3⟩ := (on_flat hl (x, y)).mp ho
      refine ⟨e1, by linarith, Or.inr ⟨?_, e3⟩⟩
      rintro ⟨k, hk, h1, h2⟩
      have := hk0 k
      linarith
    · obtain ⟨e1, e2, e3⟩ := (onTooth_iff hw hs (q := (x, y)) (hside k hk).1 (hside k hk).2).mp ⟨st, hm, ho⟩
      have h1 := hk0 k
      have h2 := hkn k hk
      refine ⟨by linarith, by linarith, ?_⟩
      rcases e3 with ⟨e3, e4⟩ | ⟨e3, e4⟩
      · exact Or.inl ⟨⟨k, hk, e3⟩, e4⟩
      · refine Or.inr ⟨?_, e4⟩
        rintro ⟨j, hj, h3, h4⟩
        have := huniq k j e1 e2 h3 h4
        subst this
        exact e3 ⟨h3, h4⟩
    · obtain ⟨e1, e2, e3⟩ := (on_flat hL (x, y)).mp ho
      refine ⟨by linarith, e2, Or.inr ⟨?_, e3⟩⟩
      rintro ⟨k, hk, h1, h2⟩
      have := hkn k hk
      linarith
  · rintro ⟨h0, h1, h2⟩
    have hmem : ∀ (k : ℕ), k < n → OnComb (tooth base tip w s (l + k * (s + w))) (x, y) → OnComb (comb base tip w s l n L) (x, y) := by
      rintro k hk ⟨st, hm, ho⟩
      refine ⟨st, ?_, ho⟩
      simp only [comb, List.cons_append, List.mem_cons, List.mem_append, List.mem_flatMap, List.mem_range, List.not_mem_nil, or_false]
      exact Or.inr (Or.inl ⟨k, hk, hm⟩)
    rcases le_or_gt x l with hxl | hxl
    · have hout : ¬ InTooth w s l n x := by
        rintro ⟨k, hk, h3, h4⟩
        have := hk0 k
        linarith
      rcases h2 with ⟨h2, -⟩ | ⟨-, h2⟩
      · exact absurd h2 hout
      · exact ⟨_, by simp [comb], (on_flat hl (x, y)).mpr ⟨h0, hxl, h2⟩⟩
    rcases le_or_gt (l + n * (s + w)) x with hxr | hxr
    · have hout : ¬ InTooth w s l n x := by
        rintro ⟨k, hk, h3, h4⟩
        have := hkn k hk
        linarith
      rcases h2 with ⟨h2, -⟩ | ⟨-, h2⟩
      · exact absurd h2 hout
      · exact ⟨.line (l + n * (s + w), base) (L, base), by simp [comb], (on_flat hL (x, y)).mpr ⟨hxr, h1, h2⟩⟩
    -- the cell of the place
    have hd : 0 ≤ (x - l) / (s + w) := div_nonneg (by linarith) hW.le
    set k := ⌊(x - l) / (s + w)⌋₊ with hk
    have hk1 : (k : ℝ) * (s + w) ≤ x - l := by
      rw [← le_div_iff₀ hW]
      exact Nat.floor_le hd
    have hk2 : x - l < ((k : ℝ) + 1) * (s + w) := by
      rw [← div_lt_iff₀ hW]
      exact Nat.lt_floor_add_one _
    have hkn' : k < n := by
      have : (k : ℝ) < n := by
        by_contra h
        have := mul_le_mul_of_nonneg_right (not_lt.mp h) hW.le
        linarith
      exact_mod_cast this
    refine hmem k hkn' ((onTooth_iff hw hs (q := (x, y)) (hside k hkn').1 (hside k hkn').2).mpr ⟨by linarith, by linarith, ?_⟩)
    rcases h2 with ⟨⟨j, hj, h3, h4⟩, h5⟩ | ⟨h3, h5⟩
    · have := huniq k j (by linarith) (by linarith) h3 h4
      rw [this] at h3 h4
      exact Or.inl ⟨⟨h3, h4⟩, h5⟩
    · exact Or.inr ⟨fun h => h3 ⟨k, hkn', h⟩, h5⟩

/-- **C151.** The two boards fill the joint: over every place of the edge, away from the sides of the teeth, the outline of the plug is at the
height 0 exactly where that of the socket is at the height of a finger, and the other way round. -/
theorem C151_fit {w h s l L : ℝ} {n : ℕ} (hw : 0 < w) (hs : 0 ≤ s) (hl : 0 ≤ l) (hL : l + n * (s + w) ≤ L) {x : ℝ} (h0 : 0 ≤ x) (h1 : x ≤ L)
    (hx : ¬ AtSide w s l n x) :
    (OnComb (comb h 0 w s l n L) (x, 0) ∧ OnComb (comb 0 h w s l n L) (x, h) ∧ ∀ y, (OnComb (comb h 0 w s l n L) (x, y) → y = 0) ∧ (OnComb (comb 0 h w s l n L) (x, y) → y = h)) ∨
    (OnComb (comb h 0 w s l n L) (x, h) ∧ OnComb (comb 0 h w s l n L) (x, 0) ∧ ∀ y, (OnComb (comb h 0 w s l n L) (x, y) → y = h) ∧ (OnComb (comb 0 h w s l n L) (x, y) → y = 0)) := by
  simp only [C151_outline hw hs hl hL hx, h0, h1, true_and]
  by_cases hi : InTooth w s l n x
  · left
    simp [hi]
  · right
    simp [hi]

/-- What is laid along the line is drawn where it is laid. -/
theorem drawn_along {r : Path ℝ} {ss : List (Stroke ℝ)} {a b : Pt ℝ} (hab : a ≠ b) (hr : strokes r = ss.map (Stroke.map (Spec.along a b)))
    (hl : ∀ st ∈ ss, ∃ u v, st = .line u v) (q : Pt ℝ) : Drawn r (Spec.along a b q) ↔ OnComb ss q := by
  have hinj : ∀ x y : Pt ℝ, Spec.along a b x = Spec.along a b y → x = y := by
    intro x y e
    have := (C49_along a b hab).2.2 x y
    rw [e] at this
    simp only [sub_self] at this
    have h1 : x.1 - y.1 = 0 := by nlinarith [sq_nonneg (x.1 - y.1), sq_nonneg (x.2 - y.2)]
    have h2 : x.2 - y.2 = 0 := by nlinarith [sq_nonneg (x.1 - y.1), sq_nonneg (x.2 - y.2)]
    exact Prod.ext (by linarith) (by linarith)
  have hat : ∀ (u v : Pt ℝ) (t : ℝ), (Stroke.map (Spec.along a b) (.line u v)).at t = Spec.along a b ((Stroke.line u v).at t) := by
    intro u v t
    simp only [Stroke.map, Stroke.at, Spec.along]
    refine Prod.ext ?_ ?_ <;> simp only [] <;> ring
  constructor
  · rintro ⟨st, hm, t, t0, t1, e⟩
    rw [hr] at hm
    obtain ⟨st', hm', rfl⟩ := List.mem_map.mp hm
    obtain ⟨u, v, rfl⟩ := hl _ hm'
    rw [hat] at e
    exact ⟨_, hm', t, t0, t1, hinj _ _ e⟩
  · rintro ⟨st, hm, t, t0, t1, e⟩
    obtain ⟨u, v, rfl⟩ := hl _ hm
    refine ⟨_, by rw [hr]; exact List.mem_map.mpr ⟨_, hm, rfl⟩, t, t0, t1, ?_⟩
    rw [hat, e]

theorem comb_lines (base tip w s l : ℝ) (n : ℕ) (L : ℝ) : ∀ st ∈ comb base tip w s l n L, ∃ u v, st = .line u v := by
  intro st hm
  simp only [comb, tooth, List.cons_append, List.mem_cons, List.mem_append, List.mem_flatMap, List.mem_range, List.not_mem_nil, or_false] at hm
  rcases hm with rfl | ⟨k, -, rfl | rfl | rfl | rfl | rfl⟩ | rfl <;> exact ⟨_, _, rfl⟩

/-- **C151.** Put together: a plug and a socket along the same line, with the same widths, heights, spaces and paddings. In the coordinates of the
edge the plug is drawn at `(x, y)` exactly if the socket is drawn at `(x, h - y)`; and at every place of the edge that is not the side of a
finger the plug is drawn once, at the height 0 in a finger and at the height `h` elsewhere, and the socket at the other height. -/
theorem C151_joint {toInt : XNum ℝ → Int} (ht : Faithful toInt) (a b : Point ℝ) (hab : pt a ≠ pt b) (w h s padL padR : ℝ) (hw : 0 < w) (hs : 0 ≤ s)
    (hpl : 0 ≤ padL) (hpr : 0 ≤ padR) (hroom : padL + padR + (s + w) ≤ lengthOf (pt a) (pt b))
    (hb : (lengthOf (pt a) (pt b) - (padL + padR)) / (s + w) < 2 ^ 62) :
    ∃ plug socket : Path ℝ,
      repeatEdge toInt (fun _ => drawRender origin (plugFinger w h s)) (fun x => drawRender origin (plugEnd h x)) (fun x => drawRender origin (plugEnd h x))
        (finPt a) (finPt b) (fin padL) (fin padR) Attr.origin.text = .ok (finPath plug) ∧
      repeatEdge toInt (fun _ => drawRender origin (socketNotch w h s)) (fun x => drawRender origin (socketEnd x)) (fun x => drawRender origin (socketEnd x))
        (finPt a) (finPt b) (fin padL) (fin padR) Attr.startPoint.text = .ok (finPath socket) ∧
      (∀ x y, Drawn plug (Spec.along (pt a) (pt b) (x, y)) ↔ Drawn socket (Spec.along (pt a) (pt b) (x, h - y))) ∧
      ∀ n l, n = teeth w s padL padR (lengthOf (pt a) (pt b)) → l = teethStart w s padL padR (lengthOf (pt a) (pt b)) →
        n ≠ 0 ∧ ∀ x, 0 ≤ x → x ≤ lengthOf (pt a) (pt b) → ¬ AtSide w s l n x → ∀ y,
          (Drawn plug (Spec.along (pt a) (pt b) (x, y)) ↔ InTooth w s l n x ∧ y = 0 ∨ ¬ InTooth w s l n x ∧ y = h) ∧
          (Drawn socket (Spec.along (pt a) (pt b) (x, y)) ↔ InTooth w s l n x ∧ y = h ∨ ¬ InTooth w s l n x ∧ y = 0) := by
  have hW : 0 < s + w := by linarith
  have hn : teeth w s padL padR (lengthOf (pt a) (pt b)) ≠ 0 := by
    intro e
    have := (C48_fill (lengthOf (pt a) (pt b) - (padL + padR)) (s + w) (by linarith) hW).2
    rw [show copies (lengthOf (pt a) (pt b) - (padL + padR)) (s + w) = 0 from e] at this
    simp only [Nat.cast_zero, zero_add, one_mul] at this
    linarith
  obtain ⟨p, h1, h2⟩ := C151_plug ht a b hab w h s padL padR hw hs hn hb
  obtain ⟨q, h3, h4⟩ := C151_socket ht a b hab w h s padL padR hw hs hn hb
  have hp := drawn_along hab h2 (comb_lines _ _ _ _ _ _ _)
  have hq := drawn_along hab h4 (comb_lines _ _ _ _ _ _ _)
  obtain ⟨r1, r2⟩ := C151_room w s padL padR (lengthOf (pt a) (pt b)) hw hs (by linarith)
  refine ⟨p, q, h1, h3, ?_, ?_⟩
  · intro x y
    rw [hp, hq, C151_mirror]
    constructor
    · rintro ⟨st, hm, t, t0, t1, e⟩
      obtain ⟨st', hm', rfl⟩ := List.mem_map.mp hm
      obtain ⟨u, v, rfl⟩ := comb_lines _ _ _ _ _ _ _ _ hm'
      refine ⟨_, hm', t, t0, t1, ?_⟩
      simp only [Stroke.map, Stroke.at, Prod.mk.injEq] at e ⊢
      exact ⟨e.1, by linarith [e.2]⟩
    · rintro ⟨st, hm, t, t0, t1, e⟩
      obtain ⟨u, v, rfl⟩ := comb_lines _ _ _ _ _ _ _ _ hm
      refine ⟨_, List.mem_map.mpr ⟨_, hm, rfl⟩, t, t0, t1, ?_⟩
      simp only [Stroke.map, Stroke.at, Prod.mk.injEq] at e ⊢
      exact ⟨e.1, by linarith [e.2]⟩
  · rintro n l rfl rfl
    refine ⟨hn, fun x h0 h5 hx y => ⟨?_, ?_⟩⟩
    · rw [hp, C151_outline hw hs (by linarith) (by linarith) hx]
      simp only [h0, h5, true_and]
    · rw [hq, C151_outline hw hs (by linarith) (by linarith) hx]
      simp only [h0, h5, true_and]

/-- **C151.** An edge with room between the paddings, but not for one finger, is an error. -/
theorem C151_short {toInt : XNum ℝ → Int} (ht : Faithful toInt) (a b : Point ℝ) (w h s padL padR : ℝ) (hw : 0 < w) (hs : 0 ≤ s)
    (h0 : padL + padR < lengthOf (pt a) (pt b)) (h1 : lengthOf (pt a) (pt b) < padL + padR + (s + w)) (left right : XNum ℝ → Res (Path (XNum ℝ))) (handle : Text) :
    repeatEdge toInt (fun _ => drawRender origin (plugFinger w h s)) left right (finPt a) (finPt b) (fin padL) (fin padR) handle = .err ∧
    repeatEdge toInt (fun _ => drawRender origin (socketNotch w h s)) left right (finPt a) (finPt b) (fin padL) (fin padR) handle = .err := by
  have hW : 0 < s + w := by linarith
  have key : ∀ p : Path ℝ, Runs p (s + w) → ∀ e : Res (Path (XNum ℝ)), e = .ok (finPath p) →
      repeatEdge toInt (fun _ => e) left right (finPt a) (finPt b) (fin padL) (fin padR) handle = .err := by
    rintro p hp e rfl
    obtain ⟨tl, br, hbox, htl, hbr⟩ := runs_box hp hW.le
    obtain ⟨z, b', rest, hpe, -⟩ := hp.head
    have hw' : br.x - tl.x = s + w := by rw [htl, hbr]; ring
    have hc : copies (lengthOf (pt a) (pt b) - (padL + padR)) (s + w) = 0 := by
      rw [copies, if_pos (by linarith)]
      exact Nat.floor_eq_zero.mpr ((div_lt_one hW).mpr (by linarith))
    have hr : repeatRender toInt (fun _ => .ok (finPath p)) (fin (lengthOf (pt a) (pt b) - (padL + padR))) (fin 0) = .err := by
      unfold repeatRender
      simp only [hbox, Res.ok_bind]
      have hit : iterations toInt (fin (lengthOf (pt a) (pt b) - (padL + padR))) (fin (s + w)) = 0 := by
        rw [iterations_fin ht _ _ (fun _ => hW) (lt_trans ((div_lt_one hW).mpr (by linarith)) (by norm_num)), hc]
      simp only [finPt, sub_fin, hw', hit]
      rfl
    unfold repeatEdge
    simp only [distance_fin, add_fin, sub_fin]
    rw [Bezier.zero_fin, hr]
    rfl
  exact ⟨key _ (runs_plug w h s hw.le hs).2 _ (plugFinger_drawn w h s), key _ (runs_socket w h s hw.le hs).2 _ (socketNotch_drawn w h s)⟩

/-- **C151.** It is not so that the fingers are always within the edge: if the paddings leave no room at all there is no error, but one finger. On an
edge of length 1 with paddings of 1 a finger of the width 2 reaches from 1/2 before the edge to 1/2 behind it. -/
theorem C151_within_false : ¬ ∀ w s padL padR L : ℝ, 0 < w → 0 ≤ s → 0 ≤ padL → 0 ≤ padR → 0 < L →
    teeth w s padL padR L ≠ 0 → ∀ x, InTooth w s (teethStart w s padL padR L) (teeth w s padL padR L) x → 0 ≤ x ∧ x ≤ L := by
  intro h
  have hc : teeth 2 1 1 1 1 = 1 := by simp [teeth, copies]
  have hl : teethStart 2 1 1 1 1 = -1 := by rw [teethStart, hc]; norm_num
  have := h 2 1 1 1 1 (by norm_num) (by norm_num) (by norm_num) (by norm_num) (by norm_num) (by rw [hc]; simp) (-1 / 4) (by
    rw [hc, hl]
    exact ⟨0, by norm_num, by norm_num, by norm_num⟩)
  linarith [this.1]

/-- C151: the shipped sizes on an edge of length 5: seven fingers, the first cell begins at 0.225. -/
example : teeth (1 / 4) (2 / 5) (11 / 50) (11 / 50) 5 = 7 ∧ teethStart (1 / 4) (2 / 5) (11 / 50) (11 / 50) 5 = 9 / 40 := by
  have h : teeth (1 / 4) (2 / 5) (11 / 50) (11 / 50) 5 = 7 := by
    rw [teeth, copies, if_pos (by norm_num), Nat.floor_eq_iff (by norm_num)]
    norm_num
  refine ⟨h, ?_⟩
  rw [teethStart, h]
  norm_num

/-- C151: the middle of the first finger of that edge is drawn at the height 0 in the plug and at the height of a finger in the socket. -/
example {toInt : XNum ℝ → Int} (ht : Faithful toInt) : ∃ plug socket : Path ℝ,
    repeatEdge toInt (fun _ => drawRender origin (plugFinger (1 / 4) (1 / 5) (2 / 5))) (fun x => drawRender origin (plugEnd (1 / 5) x))
      (fun x => drawRender origin (plugEnd (1 / 5) x)) (finPt ⟨0, 0, -1⟩) (finPt ⟨5, 0, -1⟩) (fin (11 / 50)) (fin (11 / 50)) Attr.origin.text = .ok (finPath plug) ∧
    repeatEdge toInt (fun _ => drawRender origin (socketNotch (1 / 4) (1 / 5) (2 / 5))) (fun x => drawRender origin (socketEnd x))
      (fun x => drawRender origin (socketEnd x)) (finPt ⟨0, 0, -1⟩) (finPt ⟨5, 0, -1⟩) (fin (11 / 50)) (fin (11 / 50)) Attr.startPoint.text = .ok (finPath socket) ∧
    Drawn plug (11 / 20, 0) ∧ ¬ Drawn plug (11 / 20, 1 / 5) ∧ Drawn socket (11 / 20, 1 / 5) ∧ ¬ Drawn socket (11 / 20, 0) := by
  have h5 : lengthOf (pt ⟨0, 0, -1⟩) (pt ⟨5, 0, -1⟩) = 5 := by
    simp only [lengthOf, pt]
    rw [show ((5 : ℝ) - 0) ^ 2 + (0 - 0) ^ 2 = 5 ^ 2 by norm_num, Real.sqrt_sq (by norm_num)]
  have hal : ∀ y : ℝ, Spec.along (pt ⟨0, 0, -1⟩) (pt ⟨5, 0, -1⟩) (11 / 20, y) = (11 / 20, y) := by
    intro y
    simp only [Spec.along, h5]
    simp only [pt]
    refine Prod.ext ?_ ?_ <;> simp
  have hn : teeth (1 / 4) (2 / 5) (11 / 50) (11 / 50) 5 = 7 := by
    rw [teeth, copies, if_pos (by norm_num), Nat.floor_eq_iff (by norm_num)]
    norm_num
  have hl : teethStart (1 / 4) (2 / 5) (11 / 50) (11 / 50) 5 = 9 / 40 := by
    rw [teethStart, hn]
    norm_num
  obtain ⟨p, q, h1, h2, -, h3⟩ := C151_joint ht ⟨0, 0, -1⟩ ⟨5, 0, -1⟩ (by simp [pt]) (1 / 4) (1 / 5) (2 / 5) (11 / 50) (11 / 50) (by norm_num) (by norm_num)
    (by norm_num) (by norm_num) (by rw [h5]; norm_num) (by rw [h5]; norm_num)
  rw [h5, hn, hl] at h3
  obtain ⟨-, h4⟩ := h3 7 (9 / 40) rfl rfl
  have hin : InTooth (1 / 4) (2 / 5) (9 / 40) 7 (11 / 20) := ⟨0, by norm_num, by norm_num, by norm_num⟩
  have hs : ¬ AtSide (1 / 4) (2 / 5) (9 / 40) 7 (11 / 20 : ℝ) := by
    rintro ⟨k, hk, h | h⟩ <;> interval_cases k <;> norm_num at h
  have h6 := h4 (11 / 20) (by norm_num) (by norm_num) hs
  simp only [hal, hin, not_true_eq_false, true_and, false_and, or_false] at h6
  exact ⟨p, q, h1, h2, ((h6 0).1).mpr rfl, fun h => by have := ((h6 _).1).mp h; norm_num at this, ((h6 _).2).mpr rfl,
    fun h => by have := ((h6 0).2).mp h; norm_num at this⟩

end Verif.Path
