import Verif.Props.Joint
import Verif.Props.Lifted
import Verif.Props.Tree
import Verif.Lemmas.Piece

/-!
# The join transform of the finger joints (C152)

designs/joints/finger_joint_plug.hfd and designs/joints/finger_joint_socket.hfd put a transform `join`, without closing, on the edge. It
leaves the outline of C151 as it is.
-/

set_option linter.unusedSectionVars false
set_option linter.unusedSimpArgs false

namespace Verif.Path

open Verif Verif.Spec XNum
open Verif.Render (inked_finPath)

/-! ## The last segment -/

section Last

variable {F : Type*} [Trig F]

theorem endsInk_mapPath (f : Point F → Point F) {p : Path F} (h : EndsInk p) : EndsInk (mapPath f p) :=
  endsInk_newPath (endsInk_map (fun s => by cases s <;> rfl) h)

theorem endsInk_shift (dx dy : F) {p : Path F} (h : EndsInk p) : EndsInk (shift dx dy p) := endsInk_mapPath _ h

theorem endsInk_move {t : Point F} {h : Text} {p q : Path F} (hp : EndsInk p) (e : Path.move t h p = .ok q) : EndsInk q := by
  unfold Path.move at e
  split at e <;> simp only [Res.ok.injEq, reduceCtorEq] at e
  subst e
  exact endsInk_shift _ _ hp

theorem endsInk_rotate {d : F} {h : Text} {p q : Path F} (hp : EndsInk p) (e : Path.rotate d h p = .ok q) : EndsInk q := by
  unfold Path.rotate at e
  split at e <;> try cases e
  split at e <;> simp only [Res.ok.injEq, reduceCtorEq] at e
  next hm =>
  subst e
  exact endsInk_shift _ _ (endsInk_mapPath _ (endsInk_move hp hm))

theorem endsInk_appendPath (acc : Path F) {p : Path F} (h : EndsInk p) : EndsInk (appendPath acc p) := by
  match p, h with
  | [], h => obtain ⟨s, h1, _⟩ := h; cases h1
  | s :: p, h => exact endsInk_append _ (endsInk_map (fun s => by cases s <;> rfl) h)

/-- A repeated edge ends as its right end does. -/
theorem endsInk_repeatEdge {toInt : F → Int} {render : Option (Nat × Nat) → Res (Path F)} {left right : F → Res (Path F)}
    (hr : ∀ w p, right w = .ok p → EndsInk p) {start stop : Point F} {padLeft padRight : F} {handle : Text} {q : Path F}
    (e : Path.repeatEdge toInt render left right start stop padLeft padRight handle = .ok q) : EndsInk q := by
  unfold Path.repeatEdge at e
  obtain ⟨p, hp, e⟩ := res_bind_ok e
  obtain ⟨b, _, e⟩ := res_bind_ok e
  obtain ⟨pl, hpl, e⟩ := res_bind_ok e
  obtain ⟨pr, hpr, e⟩ := res_bind_ok e
  obtain ⟨p', hp', e⟩ := res_bind_ok e
  obtain ⟨pr', hpr', e⟩ := res_bind_ok e
  obtain ⟨j, hj, e⟩ := res_bind_ok e
  obtain ⟨a, _, e⟩ := res_bind_ok e
  have hj' : EndsInk j := by
    simp only [simpleJoin, Res.ok.injEq] at hj
    rw [← hj]
    exact endsInk_appendPath _ (endsInk_move (hr _ _ hpr) hpr')
  split at e
  · obtain ⟨r, hr, e⟩ := res_bind_ok e
    simp only [Res.ok.injEq] at e
    subst e
    exact endsInk_shift _ _ (endsInk_rotate hj' hr)
  · simp only [Res.ok_bind, Res.ok.injEq] at e
    subst e; exact endsInk_shift _ _ hj'

end Last

/-- What is drawn by a move and a line to the place `(x, 0)` from there ends with the line. -/
theorem endsInk_drawn {u v x : XNum ℝ} {p : Path (XNum ℝ)} (e : drawRender origin [moveCommand u v, relLineCommand x (fin 0)] = .ok p) : EndsInk p := by
  have e1 : ∀ q : Path (XNum ℝ), (moveCommand u v).exec q = .ok (moveTo q (newPoint u v)) := by
    intro q
    rw [Command.exec, exec_named _ .move rfl]
    simp only [need, moveCommand, toCommand, toKey, if_true]
  have e2 : ∀ q : Path (XNum ℝ), (relLineCommand x (fin 0)).exec q = .ok (relLineTo q (newPoint x (fin 0))) := by
    intro q
    rw [Command.exec, exec_named _ .relLine rfl]
    simp only [need, relLineCommand, toCommand, toKey, if_true]
  simp only [drawRender, execAll, e1, e2, Res.ok.injEq] at e
  subst e
  exact ⟨_, by simp only [relLineTo, lineTo, List.getLast?_append, List.getLast?_singleton, Option.some_or]; rfl, rfl⟩

theorem endsInk_fin {p : Path ℝ} (h : EndsInk (finPath p)) : ∃ s, p.getLast? = some s ∧ s.isMove = false := by
  obtain ⟨s, h1, h2⟩ := h
  rw [getLast_fin] at h1
  cases hl : p.getLast? with
  | none => rw [hl] at h1; cases h1
  | some t =>
    rw [hl] at h1
    simp only [Option.map_some, Option.some.injEq] at h1
    exact ⟨t, rfl, by rw [← h1, isMove_finSeg] at h2; exact h2⟩

/-! ## Strokes that do not turn back -/

/-- The places a stroke's distance from where the one before it began: more than `d`. -/
def Moving (d : ℝ) (l : List (Stroke ℝ)) : Prop :=
  List.IsChain (fun u v => u.last = v.first ∧ d < (v.last.1 - u.first.1) ^ 2 + (v.last.2 - u.first.2) ^ 2) l

theorem along_dist {a b : Pt ℝ} (hab : a ≠ b) (p q : Pt ℝ) :
    ((Spec.along a b p).1 - (Spec.along a b q).1) ^ 2 + ((Spec.along a b p).2 - (Spec.along a b q).2) ^ 2 = (p.1 - q.1) ^ 2 + (p.2 - q.2) ^ 2 := by
  have hL : lengthOf a b ≠ 0 := by
    intro h
    rw [lengthOf, Real.sqrt_eq_zero (by positivity)] at h
    exact hab (Prod.ext (by nlinarith [sq_nonneg (b.1 - a.1), sq_nonneg (b.2 - a.2)]) (by nlinarith [sq_nonneg (b.1 - a.1), sq_nonneg (b.2 - a.2)]))
  have hs : lengthOf a b ^ 2 = (b.1 - a.1) ^ 2 + (b.2 - a.2) ^ 2 := Real.sq_sqrt (by positivity)
  simp only [Spec.along]
  generalize lengthOf a b = L at hL hs
  field_simp
  rw [hs]
  ring

theorem stroke_map_first (f : Pt ℝ → Pt ℝ) (s : Stroke ℝ) : (s.map f).first = f s.first := by cases s <;> rfl
theorem stroke_map_last (f : Pt ℝ → Pt ℝ) (s : Stroke ℝ) : (s.map f).last = f s.last := by cases s <;> rfl

theorem moving_along {a b : Pt ℝ} (hab : a ≠ b) {d : ℝ} {l : List (Stroke ℝ)} (h : Moving d l) : Moving d (l.map (Stroke.map (Spec.along a b))) := by
  rw [Moving, List.isChain_map]
  refine List.IsChain.imp ?_ h
  intro u v ⟨h1, h2⟩
  simp only [stroke_map_first, stroke_map_last, h1, true_and]
  rw [along_dist hab]
  exact h2

theorem moving_unbroken {d : ℝ} {l : List (Stroke ℝ)} (h : Moving d l) : Unbroken l := List.IsChain.imp (fun _ _ h => h.1) h

/-- Printed with `n` decimals, none goes back over the one before it. -/
theorem moving_noRetrace {n : ℕ} {l : List (Stroke ℝ)} (h : Moving (2 * (1 / 10 ^ n) ^ 2) l) :
    NoRetrace n (l.map (Stroke.map fun q => ((fin q.1, fin q.2) : Pt (XNum ℝ)))) := by
  rw [NoRetrace, List.isChain_map]
  refine List.IsChain.imp ?_ h
  rintro u v ⟨-, h2⟩ hp
  have key : PrintsSame n (fin v.last.1, fin v.last.2) ((fin u.first.1, fin u.first.2) : Pt (XNum ℝ)) := by
    cases u <;> cases v <;> first | exact hp.2.2.2 | exact hp.2 | exact hp.elim
  have k1 := Decimal.fmt_close (K := ℝ) key.1
  have k2 := Decimal.fmt_close (K := ℝ) key.2
  have k1' := sq_le_sq' (by linarith [neg_abs_le (v.last.1 - u.first.1)]) ((le_abs_self _).trans k1)
  have k2' := sq_le_sq' (by linarith [neg_abs_le (v.last.2 - u.first.2)]) ((le_abs_self _).trans k2)
  linarith

theorem moving_teeth {d base tip w s l L : ℝ} {n : ℕ} (_ : 0 ≤ w) (hL : l + n * (s + w) ≤ L)
    (hd : d < (tip - base) ^ 2) (hs0 : 0 ≤ s) (hs : d < (s / 2) ^ 2) : ∀ (m k : ℕ) (x : ℝ), k + m = n → x ≤ l + k * (s + w) →
    (m = 0 → x + s / 2 ≤ l + k * (s + w)) →
    Moving d (.line (x, base) (l + k * (s + w), base) :: ((List.range' k m).flatMap (fun k : ℕ => tooth base tip w s (l + k * (s + w))) ++
      [.line (l + n * (s + w), base) (L, base)])) := by
  intro m
  induction m with
  | zero =>
    intro k x hk _ h0
    have h0 := h0 rfl
    have hk : k = n := by omega
    subst hk
    simp only [List.range'_zero, List.flatMap_nil, List.nil_append, Moving, List.isChain_cons_cons, List.isChain_singleton, Stroke.first, Stroke.last, and_true, true_and]
    have : (s / 2) ^ 2 ≤ (L - x) ^ 2 := pow_le_pow_left₀ (by linarith) (by linarith) 2
    nlinarith
  | succ m ih =>
    intro k x hk hx _
    have h1 := ih (k + 1) (l + k * (s + w) + s / 2 + w) (by omega) (by push_cast; linarith) (fun _ => by push_cast; linarith)
    have e : l + ((k + 1 : ℕ) : ℝ) * (s + w) = l + k * (s + w) + (s + w) := by push_cast; ring
    rw [e] at h1
    rw [List.range'_succ, List.flatMap_cons, tooth]
    simp only [List.cons_append, List.nil_append]
    generalize l + (k : ℝ) * (s + w) = z at hx h1 ⊢
    have hsq : (s / 2) ^ 2 ≤ (z + s / 2 - x) ^ 2 := pow_le_pow_left₀ (by linarith) (by linarith) 2
    refine List.isChain_cons_cons.2 ⟨⟨rfl, ?_⟩, List.isChain_cons_cons.2 ⟨⟨rfl, ?_⟩, List.isChain_cons_cons.2 ⟨⟨rfl, ?_⟩,
      List.isChain_cons_cons.2 ⟨⟨rfl, ?_⟩, List.isChain_cons_cons.2 ⟨⟨rfl, ?_⟩, h1⟩⟩⟩⟩⟩ <;>
      simp only [Stroke.first, Stroke.last] <;> nlinarith [sq_nonneg (s / 2), sq_nonneg w]

/-- A comb whose teeth are neither too flat nor too close to each other. -/
theorem moving_comb {d base tip w s l L : ℝ} {n : ℕ} (hn : n ≠ 0) (hw : 0 ≤ w) (hl : 0 ≤ l) (hL : l + n * (s + w) ≤ L)
    (hd : d < (tip - base) ^ 2) (hs0 : 0 ≤ s) (hs : d < (s / 2) ^ 2) : Moving d (comb base tip w s l n L) := by
  have h := moving_teeth hw hL hd hs0 hs n 0 0 (by omega) (by simpa using hl) (fun h => absurd h hn)
  simpa [comb, List.range_eq_range'] using h

/-! ## C152 The joint after joining -/

section Joint

variable {toInt : XNum ℝ → Int} (ht : Faithful toInt) (a b : Point ℝ) (hab : pt a ≠ pt b) (w h s padL padR : ℝ) (hw : 0 < w)
  (hn : teeth w s padL padR (lengthOf (pt a) (pt b)) ≠ 0) (hb : (lengthOf (pt a) (pt b) - (padL + padR)) / (s + w) < 2 ^ 62)
  (hLL : padL + padR < lengthOf (pt a) (pt b)) (hL : 0 ≤ padL) (hR : 0 ≤ padR) (n : ℕ) (so : ℤ) (hh : 2 / 10 ^ n ≤ |h|) (hs : 4 / 10 ^ n ≤ s)

include ht hab hw hn hb hLL hL hR hh hs

/-- An edge that is drawn as a comb is drawn so after joining, too. -/
theorem join_comb {base tip : ℝ} (hbt : |tip - base| = |h|) {r : Path ℝ} (hi : Inked none r) (he : ∃ s, r.getLast? = some s ∧ s.isMove = false)
    (hst : strokes r = (comb base tip w s (teethStart w s padL padR (lengthOf (pt a) (pt b))) (teeth w s padL padR (lengthOf (pt a) (pt b)))
      (lengthOf (pt a) (pt b))).map (Stroke.map (Spec.along (pt a) (pt b)))) :
    ∃ r' : Path ℝ, join n so false (finPath r) = .ok (finPath r') ∧ strokes r' = strokes r ∧ ReadAsDrawn r' ∧ EndsInk r' := by
  have hp : (0 : ℝ) < 1 / 10 ^ n := by positivity
  have e2 : (2 : ℝ) / 10 ^ n = 2 * (1 / 10 ^ n) := by ring
  have e4 : (4 : ℝ) / 10 ^ n = 4 * (1 / 10 ^ n) := by ring
  rw [e2] at hh
  rw [e4] at hs
  have hs0 : 0 ≤ s := by linarith
  obtain ⟨r1, r2⟩ := C151_room w s padL padR (lengthOf (pt a) (pt b)) hw hs0 hLL
  have hm : Moving (2 * (1 / 10 ^ n) ^ 2) (strokes r) := by
    rw [hst]
    refine moving_along hab (moving_comb hn hw.le ?_ ?_ ?_ hs0 ?_)
    · linarith
    · linarith
    · rw [← sq_abs (tip - base), hbt]
      nlinarith
    · nlinarith
  exact C152_unchanged n so r hi.faithful he (moving_unbroken hm) (by rw [strokes_fin]; exact moving_noRetrace hm)

/-- **C152.** The plug of C151 is drawn the same after its transform `join`, and it is read as it is drawn. -/
theorem C152_plug : ∃ r : Path ℝ,
    (do
      let p ← repeatEdge toInt (fun _ => drawRender origin (plugFinger w h s)) (fun x => drawRender origin (plugEnd h x)) (fun x => drawRender origin (plugEnd h x))
        (finPt a) (finPt b) (fin padL) (fin padR) Attr.origin.text
      join n so false p) = .ok (finPath r) ∧
    strokes r = (comb h 0 w s (teethStart w s padL padR (lengthOf (pt a) (pt b))) (teeth w s padL padR (lengthOf (pt a) (pt b)))
      (lengthOf (pt a) (pt b))).map (Stroke.map (Spec.along (pt a) (pt b))) ∧ ReadAsDrawn r ∧ EndsInk r := by
  have hs0 : 0 ≤ s := le_trans (by positivity) hs
  obtain ⟨r, h1, h2⟩ := C151_plug ht a b hab w h s padL padR hw hs0 hn hb
  obtain ⟨r', h3, h4, h5⟩ := join_comb ht a b hab w h s padL padR hw hn hb hLL hL hR n so hh hs (base := h) (tip := 0) (by simp)
    ((inked_finPath none r).1 (inked_repeatEdge (fun _ _ e => inked_drawRender exactEq_xnum e) (fun _ _ e => inked_drawRender exactEq_xnum e)
      (fun _ _ e => inked_drawRender exactEq_xnum e) h1)) (endsInk_fin (endsInk_repeatEdge (fun x p e => endsInk_drawn e) h1)) h2
  exact ⟨r', by rw [h1, Res.ok_bind, h3], by rw [h4, h2], h5⟩

/-- **C152.** The socket of C151 is drawn the same after its transform `join`, and it is read as it is drawn. -/
theorem C152_socket : ∃ r : Path ℝ,
    (do
      let p ← repeatEdge toInt (fun _ => drawRender origin (socketNotch w h s)) (fun x => drawRender origin (socketEnd x)) (fun x => drawRender origin (socketEnd x))
        (finPt a) (finPt b) (fin padL) (fin padR) Attr.startPoint.text
      join n so false p) = .ok (finPath r) ∧
    strokes r = (comb 0 h w s (teethStart w s padL padR (lengthOf (pt a) (pt b))) (teeth w s padL padR (lengthOf (pt a) (pt b)))
      (lengthOf (pt a) (pt b))).map (Stroke.map (Spec.along (pt a) (pt b))) ∧ ReadAsDrawn r ∧ EndsInk r := by
  have hs0 : 0 ≤ s := le_trans (by positivity) hs
  obtain ⟨r, h1, h2⟩ := C151_socket ht a b hab w h s padL padR hw hs0 hn hb
  obtain ⟨r', h3, h4, h5⟩ := join_comb ht a b hab w h s padL padR hw hn hb hLL hL hR n so hh hs (base := 0) (tip := h) (by simp)
    ((inked_finPath none r).1 (inked_repeatEdge (fun _ _ e => inked_drawRender exactEq_xnum e) (fun _ _ e => inked_drawRender exactEq_xnum e)
      (fun _ _ e => inked_drawRender exactEq_xnum e) h1)) (endsInk_fin (endsInk_repeatEdge (fun x p e => endsInk_drawn e) h1)) h2
  exact ⟨r', by rw [h1, Res.ok_bind, h3], by rw [h4, h2], h5⟩

end Joint

/-- C152: the values of the shipped design, with which the transform prints three decimals. -/
example {toInt : XNum ℝ → Int} (ht : Faithful toInt) : ∃ r : Path ℝ,
    (do
      let p ← repeatEdge toInt (fun _ => drawRender origin (plugFinger (1 / 4) (1 / 5) (2 / 5))) (fun x => drawRender origin (plugEnd (1 / 5) x))
        (fun x => drawRender origin (plugEnd (1 / 5) x)) (finPt ⟨0, 0, -1⟩) (finPt ⟨5, 0, -1⟩) (fin (11 / 50)) (fin (11 / 50)) Attr.origin.text
      join 3 3 false p) = .ok (finPath r) ∧ (strokes r).length = 37 := by
  have h5 : lengthOf (pt ⟨0, 0, -1⟩) (pt ⟨5, 0, -1⟩) = 5 := by
    simp only [lengthOf, pt]
    rw [show ((5 : ℝ) - 0) ^ 2 + (0 - 0) ^ 2 = 5 ^ 2 by norm_num, Real.sqrt_sq (by norm_num)]
  have hn : teeth (1 / 4) (2 / 5) (11 / 50) (11 / 50) 5 = 7 := by
    rw [teeth, copies, if_pos (by norm_num), Nat.floor_eq_iff (by norm_num)]
    norm_num
  obtain ⟨r, h1, h2, -⟩ := C152_plug ht ⟨0, 0, -1⟩ ⟨5, 0, -1⟩ (by simp [pt]) (1 / 4) (1 / 5) (2 / 5) (11 / 50) (11 / 50) (by norm_num)
    (by rw [h5, hn]; norm_num) (by rw [h5]; norm_num) (by rw [h5]; norm_num) (by norm_num) (by norm_num) 3 3 (by norm_num [abs_of_pos]) (by norm_num)
  refine ⟨r, h1, ?_⟩
  rw [h2, h5, hn]
  simp [comb, tooth, List.length_flatMap]

/-- Two strokes, between which the pen is lifted, moved away and brought back. -/
noncomputable def liftedCorner : Path ℝ :=
  [.move ⟨0, 0, -1⟩ ⟨1, 1, 5⟩, .line ⟨1, 1, 5⟩ ⟨2, 1, 5⟩, .move ⟨2, 1, 5⟩ ⟨7, 7, -1⟩, .move ⟨7, 7, -1⟩ ⟨2, 1, -1⟩, .line ⟨2, 1, -1⟩ ⟨2, 2, 5⟩]

/-- C152: they are still drawn after joining, and nothing else. -/
example : ∃ r : Path ℝ, join 3 3 false (finPath liftedCorner) = .ok (finPath r) ∧ strokes r = [.line (1, 1) (2, 1), .line (2, 1) (2, 2)] := by
  obtain ⟨r, h1, h2, -⟩ := C152_unchanged 3 3 liftedCorner (fun c => rfl) ⟨_, rfl, rfl⟩
    (List.isChain_cons_cons.2 ⟨rfl, List.isChain_singleton _⟩) (by
      refine List.isChain_cons_cons.2 ⟨fun h => fmt_one_two ?_, List.isChain_singleton _⟩
      exact h.2.2.symm)
  exact ⟨r, h1, by rw [h2]; rfl⟩

end Verif.Path
