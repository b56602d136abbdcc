import Verif.Lemmas.Faithful
import Verif.Props.DrawComponent

/-!
# Lemmas: what does not panic
-/

set_option linter.unusedSectionVars false

namespace Verif.Path

open Verif Verif.Spec

universe u w

/-- No panic, and a result satisfies `Q`. -/
def Fine {α : Type u} (Q : α → Prop) : Res α → Prop
  | .ok a => Q a
  | .err => True
  | .panic => False

theorem Fine.bind {α β : Type u} {Q : α → Prop} {R : β → Prop} {r : Res α} {f : α → Res β} (h : Fine Q r) (hf : ∀ a, Q a → Fine R (f a)) :
    Fine R (r >>= f) := by
  cases r with
  | ok a => exact hf a h
  | err => trivial
  | panic => exact h.elim

theorem Fine.mono {α : Type u} {Q R : α → Prop} {r : Res α} (h : Fine Q r) (hf : ∀ a, Q a → R a) : Fine R r := by
  cases r with
  | ok a => exact hf a h
  | err => trivial
  | panic => exact h.elim

theorem fine_need {α : Type w} {β : Type u} {Q : β → Prop} (o : Option α) {f : α → Res β} (h : ∀ a, Fine Q (f a)) : Fine Q (need o f) := by
  cases o with
  | none => trivial
  | some a => exact h a

theorem fine_mapM {α : Type w} {β : Type u} {Q : β → Prop} {f : α → Res β} (l : List α) (h : ∀ a, Fine Q (f a)) :
    Fine (fun r => r.length = l.length ∧ ∀ b ∈ r, Q b) (l.mapM f) := by
  induction l with
  | nil => simp [Fine, Res.pure_eq]
  | cons a l ih =>
    rw [List.mapM_cons]
    refine (h a).bind fun b hb => ih.bind fun bs hbs => ?_
    simp only [Res.pure_eq, Fine, List.length_cons, hbs.1, true_and, List.mem_cons]
    rintro c (rfl | hc)
    · exact hb
    · exact hbs.2 c hc

variable {F : Type u} [Trig F]

theorem fine_namedValue (a : Attr) (p : Path F) : Fine (fun _ => True) (namedValue a p) := by
  unfold namedValue
  cases a <;> first | trivial | (simp only; split <;> trivial)

theorem fine_pathAttribute (s : Text) (p : Path F) : Fine (fun _ => True) (pathAttribute s p) := by
  unfold pathAttribute
  split
  · trivial
  · split
    · trivial
    · split
      · trivial
      · next a _ =>
        have := fine_namedValue a p
        split
        · trivial
        · next e => rw [e] at this; exact this
        · trivial
        · trivial
        · split
          · trivial
          · split
            · trivial
            · split <;> trivial

theorem fine_pointAttribute (s : Text) (p : Path F) : Fine (fun _ => True) (pointAttribute s p) := by
  have := fine_pathAttribute s p
  unfold pointAttribute
  split
  · trivial
  · trivial
  · trivial
  · next e => rw [e] at this; exact this

theorem fine_whitespaceBox {p : Path F} (h : p ≠ []) : Fine (fun _ => True) (whitespaceBox p) := by
  cases p with
  | nil => exact absurd rfl h
  | cons s p =>
    unfold whitespaceBox
    rw [List.getLast?_eq_some_getLast (List.cons_ne_nil s p)]
    trivial

theorem mapPath_ne_nil (f : Point F → Point F) {p : Path F} (h : p ≠ []) : mapPath f p ≠ [] := newPath_ne_nil (by simpa using h)

theorem shift_ne_nil (dx dy : F) {p : Path F} (h : p ≠ []) : shift dx dy p ≠ [] := mapPath_ne_nil _ h

theorem fine_move (t : Point F) (s : Text) {p : Path F} (h : p ≠ []) : Fine (· ≠ []) (Path.move t s p) := by
  have := fine_pointAttribute (handleOf s) p
  unfold Path.move
  split
  · exact shift_ne_nil _ _ h
  · trivial
  · next e => rw [e] at this; exact this

theorem fine_rotate (d : F) (s : Text) {p : Path F} (h : p ≠ []) : Fine (· ≠ []) (Path.rotate d s p) := by
  have h1 := fine_pointAttribute (handleOf s) p
  have h2 := fine_move (origin : Point F) (handleOf s) h
  unfold Path.rotate
  split
  · split
    · next e =>
      rw [e] at h2
      exact shift_ne_nil _ _ (mapPath_ne_nil _ h2)
    · trivial
    · next e => rw [e] at h2; exact h2
  · trivial
  · next e => rw [e] at h1; exact h1

theorem fine_mirror (ax : Axis) (s : Text) {p : Path F} (h : p ≠ []) : Fine (· ≠ []) (Path.mirror ax s p) := by
  have h1 := fine_pointAttribute (handleOf s) p
  have h2 := fine_move (origin : Point F) (handleOf s) h
  unfold Path.mirror
  split
  · split
    · next q e =>
      rw [e] at h2
      have h3 := fine_whitespaceBox h2
      split
      · exact shift_ne_nil _ _ (mapPath_ne_nil _ h2)
      · trivial
      · next e => rw [e] at h3; exact h3
    · trivial
    · next e => rw [e] at h2; exact h2
  · trivial
  · next e => rw [e] at h1; exact h1

theorem fine_visibleLine (p : Path F) : Fine (fun _ => True) (visibleLine p) := by
  have h1 := fine_pointAttribute Attr.startPoint.text p
  have h2 := fine_pointAttribute Attr.endPoint.text p
  unfold visibleLine
  split
  · split
    · trivial
    · trivial
    · next e => rw [e] at h2; exact h2
  · trivial
  · next e => rw [e] at h1; exact h1

theorem scale_ne_nil (s : Scale F) {p : Path F} (h : p ≠ []) : Path.scale s p ≠ [] := mapPath_ne_nil _ h

theorem fine_rotateScale (a b : Point F) {p : Path F} (h : p ≠ []) : Fine (· ≠ []) (Path.rotateScale a b p) := by
  unfold Path.rotateScale
  exact (fine_visibleLine p).bind fun _ _ => (fine_rotate _ _ h).bind fun q hq => (fine_visibleLine q).bind fun _ _ => fine_move _ _ (scale_ne_nil _ hq)

theorem addSegments_ne_nil (l : List (Segment F)) {p : Path F} (h : p ≠ [] ∨ l ≠ []) : addSegments p l ≠ [] := by
  induction l generalizing p with
  | nil => exact h.resolve_right (by simp)
  | cons s l ih => exact ih (.inl (by simp [addSegment]))

theorem reversePath_ne_nil {p : Path F} (h : p ≠ []) : reversePath p ≠ [] := addSegments_ne_nil _ (.inr (by simpa using h))

theorem clonePath_ne_nil {p : Path F} (h : p ≠ []) : p.map Segment.clone ≠ [] := by simpa using h

theorem appendPath_ne_nil {a p : Path F} (h : a ≠ []) : appendPath a p ≠ [] := by
  unfold appendPath
  split
  · exact h
  · intro e
    rw [List.append_eq_nil_iff] at e
    obtain ⟨e, _⟩ := e
    revert e
    split
    · exact h
    · split
      · exact h
      · simp

theorem fine_simpleJoin {l : List (Path F)} (hl : l ≠ []) (h : ∀ p ∈ l, p ≠ []) : Fine (· ≠ []) (simpleJoin l) := by
  cases l with
  | nil => exact absurd rfl hl
  | cons p l =>
    have key : ∀ (l : List (Path F)) (a : Path F), a ≠ [] → l.foldl appendPath a ≠ [] := by
      intro l
      induction l with
      | nil => intro a h; exact h
      | cons q l ih => intro a h; exact ih _ (appendPath_ne_nil h)
    exact key l _ (clonePath_ne_nil (h p (by simp)))

theorem cleanup_ne_nil (hn : ∀ a : F, Arith.isNaN a = false) (n : Int) {p : Path F} (h : p ≠ []) : cleanup n p ≠ [] := by
  have h1 : cleanupSegments n p ≠ [] := by
    cases p with
    | nil => exact absurd rfl h
    | cons s p =>
      simp only [cleanupSegments, hn, Bool.or_false, Bool.false_eq_true, if_false]
      simp
  have h2 : fixHeadMove (cleanupSegments n p) ≠ [] := by
    rcases fixHeadMove_cases (cleanupSegments n p) with ⟨a, b, c, rest, _, e, _⟩ | ⟨_, e⟩
    · rw [e]; simp
    · rw [e]; exact h1
  exact newPath_ne_nil (mergeMoves_ne_nil h2)

/-! ### Transforms -/

/-- A transform that does not panic and does not wipe out everything. -/
def Safe (f : Path F → Res (Path F)) : Prop := ∀ p, p ≠ [] → Fine (· ≠ []) (f p)

/-- A gentle transform other than `cleanup`. -/
def Transform.plain : Transform F → Bool
  | .cleanup _ => false
  | t => t.gentle

theorem safe_plain (fuel : Nat) (t : Transform F) (h : t.plain = true) : Safe (Transform.run fuel t) := by
  intro p hp
  cases t <;> simp only [Transform.plain, Transform.gentle, Bool.false_eq_true] at h <;> simp only [Transform.run]
  · exact fine_rotate _ _ hp
  · exact reversePath_ne_nil hp
  · exact fine_move _ _ hp
  · exact shift_ne_nil _ _ hp
  · exact mapPath_ne_nil _ hp
  · exact fine_mirror _ _ hp
  · exact scale_ne_nil _ hp
  · exact fine_rotateScale _ _ hp

theorem safe_gentle (hn : ∀ a : F, Arith.isNaN a = false) (fuel : Nat) (t : Transform F) (h : t.gentle = true) : Safe (Transform.run fuel t) := by
  by_cases hc : t.plain = true
  · exact safe_plain fuel t hc
  · intro p hp
    cases t <;> simp_all [Transform.plain]
    exact cleanup_ne_nil hn _ hp

theorem safe_multi {ts : List (Path F → Res (Path F))} (h : ∀ t ∈ ts, Safe t) : Safe (multiTransform ts) := by
  induction ts with
  | nil => intro p hp; exact hp
  | cons t ts ih =>
    intro p hp
    have h1 := h t (by simp) p hp
    simp only [multiTransform]
    split
    · next q e =>
      rw [e] at h1
      exact ih (fun t ht => h t (by simp [ht])) q h1
    · trivial
    · next e => rw [e] at h1; exact h1

/-- Whatever the map is made into is safe. -/
def MapSafe (toInt : F → Int) (fuel : Nat) (m : TransformMap F) : Prop := ∀ t, m.make toInt = some t → Safe (Transform.run fuel t)

theorem fine_finish {toInt : F → Int} {fuel : Nat} {ms : List (TransformMap F)} (h : ∀ m ∈ ms, MapSafe toInt fuel m) {p : Path F} (hp : p ≠ []) :
    Fine (· ≠ []) (finish toInt fuel ms p) := by
  unfold finish handleTransforms
  cases hm : makeAll toInt ms with
  | none => trivial
  | some ts =>
    simp only
    have hr : Fine (· ≠ []) (multiTransform (ts.map (Transform.run fuel)) p) := by
      refine safe_multi (ts := ts.map (Transform.run fuel)) ?_ p hp
      intro t ht
      obtain ⟨t', ht', rfl⟩ := List.mem_map.mp ht
      obtain ⟨m, hm', e'⟩ := mapM_mem hm t' ht'
      exact h m hm' t' e'
    cases hq : multiTransform (ts.map (Transform.run fuel)) p with
    | err => trivial
    | panic => rw [hq] at hr; exact hr
    | ok q =>
      rw [hq] at hr
      simp only
      rw [List.getLast?_eq_some_getLast hr]
      exact hr

/-! ### Components -/

theorem fine_exec (c : Command F) (p : Path F) : Fine (fun _ => True) (c.exec p) := by
  have mv : ∀ (t : Point F) (s : Text) (q : Path F), Fine (fun _ => True) (Path.move t s q) := by
    intro t s q
    have := fine_pointAttribute (handleOf s) q
    unfold Path.move
    split
    · trivial
    · trivial
    · next e => rw [e] at this; exact this
  have rot : ∀ (d : F) (s : Text) (q : Path F), Fine (fun _ => True) (Path.rotate d s q) := by
    intro d s q
    have h1 := fine_pointAttribute (handleOf s) q
    have h2 := mv (origin : Point F) (handleOf s) q
    unfold Path.rotate
    split
    · split
      · trivial
      · trivial
      · next e => rw [e] at h2; exact h2
    · trivial
    · next e => rw [e] at h1; exact h1
  have sc : ∀ (t : Point F) (s : Text) (b : Bool), Fine (fun _ => True) (Path.svgScaleTo p t s b) := fun t s b =>
    fine_need _ fun q => (mv _ _ _).bind fun _ _ => trivial
  have rs : ∀ (t : Point F) (s : Text) (b : Bool), Fine (fun _ => True) (svgRotateScaleTo p t s b) := fun t s b =>
    fine_need _ fun q => Fine.bind (Q := fun _ => True)
      ((fine_visibleLine q).bind fun _ _ => (rot _ _ q).bind fun r _ => (fine_visibleLine r).bind fun _ _ => mv _ _ _) fun _ _ => trivial
  unfold Command.exec
  cases DrawOp.ofText c.name with
  | none => trivial
  | some op =>
    cases op <;> simp only <;> (repeat' (first | exact sc _ _ _ | exact rs _ _ _ | (refine fine_need _ fun _ => ?_))) <;> trivial

theorem fine_execAll (cs : List (Command F)) : ∀ p : Path F, Fine (fun _ => True) (execAll cs p) := by
  induction cs with
  | nil => intro p; trivial
  | cons c cs ih =>
    intro p
    have := fine_exec c p
    unfold execAll
    split
    · exact ih _
    · trivial
    · next e => rw [e] at this; exact this

theorem fine_drawRender (cursor : Point F) (cs : List (Command F)) : Fine (· ≠ []) (drawRender cursor cs) := by
  have h := fine_execAll cs (moveTo [] cursor)
  cases e : drawRender cursor cs with
  | ok q =>
    obtain ⟨_, rest, rfl⟩ := C88_connected cursor cs q e
    exact List.cons_ne_nil _ _
  | err => trivial
  | panic =>
    unfold drawRender at e
    rw [e] at h
    exact h

theorem fine_renderChildren {cs : List (Point F → Res (Path F))} (h : ∀ c ∈ cs, ∀ cursor, Fine (· ≠ []) (c cursor)) :
    ∀ cursor : Point F, Fine (fun ps => ps.length = cs.length ∧ ∀ p ∈ ps, p ≠ []) (renderChildren cs cursor) := by
  induction cs with
  | nil => intro cursor; simp [renderChildren, Fine]
  | cons c cs ih =>
    intro cursor
    unfold renderChildren
    refine (h c (by simp) cursor).bind fun p hp => ?_
    rw [List.getLast?_eq_some_getLast hp]
    refine (ih (fun c hc => h c (by simp [hc])) _).bind fun ps hps => ?_
    simp only [Fine, List.length_cons, hps.1, true_and, List.mem_cons]
    rintro q (rfl | hq)
    · exact hp
    · exact hps.2 q hq

theorem fine_repeatRender {toInt : F → Int} {render : Option (Nat × Nat) → Res (Path F)} (h : ∀ i, Fine (· ≠ []) (render i)) (maxX maxY : F) :
    Fine (· ≠ []) (repeatRender toInt render maxX maxY) := by
  unfold repeatRender
  refine (h none).bind fun p hp => (fine_whitespaceBox hp).bind fun b _ => ?_
  refine (fine_mapM _ (Q := (· ≠ [])) fun i => (h (some i)).bind fun q hq => fine_move _ _ hq).bind fun ps hps => ?_
  split
  · trivial
  · next e => exact fine_simpleJoin (by simpa using e) hps.2

theorem fine_turned {d dx dy : F} {h : Text} {b : Bool} {p : Path F} (hp : p ≠ []) :
    Fine (· ≠ []) (if b then (Path.rotate d h p >>= fun p => Res.ok (shift dx dy p)) else (Res.ok p >>= fun p => Res.ok (shift dx dy p))) := by
  split
  · exact (fine_rotate _ _ hp).bind fun q hq => shift_ne_nil _ _ hq
  · exact shift_ne_nil _ _ hp

theorem fine_repeatEdge {toInt : F → Int} {render : Option (Nat × Nat) → Res (Path F)} {left right : F → Res (Path F)}
    (h : ∀ i, Fine (· ≠ []) (render i)) (hl : ∀ w, Fine (· ≠ []) (left w)) (hr : ∀ w, Fine (· ≠ []) (right w))
    (start stop : Point F) (padLeft padRight : F) (handle : Text) :
    Fine (· ≠ []) (Path.repeatEdge toInt render left right start stop padLeft padRight handle) := by
  unfold Path.repeatEdge
  refine (fine_repeatRender h _ _).bind fun p hp => (fine_whitespaceBox hp).bind fun b _ => (hl _).bind fun pl hpl => (hr _).bind fun pr hpr =>
    (fine_move _ _ hp).bind fun p' hp' => (fine_move _ _ hpr).bind fun pr' hpr' => (fine_simpleJoin (by simp) ?_).bind fun j hj =>
      (fine_pointAttribute _ _).bind fun a _ => fine_turned hj
  intro x hx
  simp only [List.mem_cons, List.not_mem_nil, or_false] at hx
  rcases hx with rfl | rfl | rfl
  · exact hpl
  · exact hp'
  · exact hpr'

theorem fine_basicEdge {children : F → List (Point F → Res (Path F))} (hne : ∀ w, children w ≠ [])
    (h : ∀ w, ∀ c ∈ children w, ∀ cursor, Fine (· ≠ []) (c cursor)) (cursor start stop : Point F) (handle : Text) :
    Fine (· ≠ []) (Path.basicEdge children cursor start stop handle) := by
  unfold Path.basicEdge
  refine (fine_renderChildren (h _) cursor).bind fun ps hps => (fine_simpleJoin ?_ hps.2).bind fun j hj => (fine_pointAttribute _ _).bind fun a _ =>
    fine_turned hj
  intro e
  rw [e] at hps
  exact hne _ (List.length_eq_zero_iff.mp hps.1.symm)

theorem fine_around {n : Nat} {num : Int} (hnum : 0 ≤ num) {radius : F} {center : Point F} {render : F → Nat → Res (Path F)}
    (h : ∀ l i, Fine (· ≠ []) (render l i)) : Fine (· ≠ []) (Path.around n num radius center render) := by
  unfold Path.around
  split
  · trivial
  · next hz =>
    split
    · trivial
    · simp only
      have := fine_mapM (List.range num.toNat) (Q := (· ≠ []))
        (f := fun i => render (distance (aroundEdge num radius center).1 (aroundEdge num radius center).2) 0 >>= fun p =>
          aroundCopy n num center (aroundEdge num radius center).1 p i)
        fun i => (h _ _).bind fun p hp => (fine_move _ _ hp).bind fun q hq => fine_rotate _ _ hq
      split
      · next ps e =>
        rw [e] at this
        refine fine_simpleJoin ?_ this.2
        intro e0
        have h1 := this.1
        rw [e0, List.length_range] at h1
        simp only [List.length_nil] at h1
        omega
      · trivial
      · next e => rw [e] at this; exact this

theorem outline_ne_nil (g : GearSize F) : g.outline ≠ [] := by
  unfold GearSize.outline
  simp only
  split <;> simp [lineTo]

theorem collapseMoves_ne_nil {p : Path F} (h : p ≠ []) : collapseMoves p ≠ [] := by
  refine newPath_ne_nil ?_
  have key : ∀ (l a : Path F), (l ≠ [] ∨ a ≠ []) → l.foldl (fun acc s => (if s.isMove then trimTailMove acc else acc) ++ [s]) a ≠ [] := by
    intro l
    induction l with
    | nil => intro a h; simpa using h
    | cons s l ih => intro a _; exact ih _ (.inr (by simp))
  exact key p [] (.inl h)

mutual

theorem fine_render (toInt : F → Int) (fuel : Nat) : ∀ (c : Comp F), Sturdy (MapSafe toInt fuel) c →
    ∀ (v : Vars F) (cursor : Point F), Fine (· ≠ []) (c.render toInt fuel v cursor)
  | .part cs ts, h, v, cursor => by
    simp only [Comp.render]
    simp only [Sturdy] at h
    refine (fine_renderChildren (fine_renders toInt fuel cs h.1 v) cursor).bind fun ps hps => ?_
    split
    · trivial
    · next e =>
      exact (fine_simpleJoin (by simpa using e) hps.2).bind fun j hj => (fine_finish (h.2 v cursor) hj).bind fun q hq =>
        collapseMoves_ne_nil (shift_ne_nil _ _ hq)
  | .draw commands ts, h, v, cursor => by
    simp only [Comp.render]
    simp only [Sturdy] at h
    exact (fine_drawRender _ _).bind fun q hq => fine_finish (h v cursor) hq
  | .copies c maxX maxY ts, h, v, cursor => by
    simp only [Comp.render]
    simp only [Sturdy] at h
    exact (fine_repeatRender (fun i => fine_render toInt fuel c h.1 _ _) _ _).bind fun q hq => fine_finish (h.2 v cursor) hq
  | .group cs ts, h, v, cursor => by
    simp only [Comp.render]
    simp only [Sturdy] at h
    refine (fine_renderChildren (fine_renders toInt fuel cs h.2.1 v) cursor).bind fun ps hps => (fine_simpleJoin ?_ hps.2).bind fun j hj =>
      fine_finish (h.2.2 v cursor) hj
    intro e
    rw [e] at hps
    exact renders_ne_nil toInt fuel h.1 v (List.length_eq_zero_iff.mp hps.1.symm)
  | .repeatEdge c left right attrs ts, h, v, cursor => by
    simp only [Comp.render]
    simp only [Sturdy] at h
    exact fine_need _ fun stop => (fine_repeatEdge (fun i => fine_render toInt fuel c h.1 _ _) (fun w => fine_render toInt fuel left h.2.1 _ _)
      (fun w => fine_render toInt fuel right h.2.2.1 _ _) _ _ _ _ _).bind fun q hq => fine_finish (h.2.2.2 v cursor) hq
  | .basicEdge cs attrs ts, h, v, cursor => by
    simp only [Comp.render]
    simp only [Sturdy] at h
    exact fine_need _ fun stop => (fine_basicEdge (fun w => renders_ne_nil toInt fuel h.1 _) (fun w => fine_renders toInt fuel cs h.2.1 _) _ _ _ _).bind
      fun q hq => fine_finish (h.2.2 v cursor) hq
  | .xIntercept _ _ _ _ _, h, _, _ => by
    simp only [Sturdy] at h
  | .around c attrs, h, v, cursor => by
    simp only [Comp.render]
    simp only [Sturdy] at h
    exact fine_around (h.2 v cursor) fun l i => fine_render toInt fuel c h.1 _ _
  | .gear size ts, h, v, cursor => by
    simp only [Comp.render]
    simp only [Sturdy] at h
    exact fine_finish (h v cursor) (outline_ne_nil _)

theorem fine_renders (toInt : F → Int) (fuel : Nat) : ∀ (cs : List (Comp F)), SturdyIn (MapSafe toInt fuel) cs →
    ∀ (v : Vars F), ∀ r ∈ Comp.renders toInt fuel cs v, ∀ cursor : Point F, Fine (· ≠ []) (r cursor)
  | [], _, v, r, hr, _ => by simp [Comp.renders] at hr
  | c :: cs, h, v, r, hr, cursor => by
    simp only [SturdyIn] at h
    rw [Comp.renders] at hr
    rcases List.mem_cons.mp hr with rfl | hr
    · exact fine_render toInt fuel c h.1 v cursor
    · exact fine_renders toInt fuel cs h.2 v r hr cursor

theorem renders_ne_nil (toInt : F → Int) (fuel : Nat) {cs : List (Comp F)} (h : cs ≠ []) (v : Vars F) : Comp.renders toInt fuel cs v ≠ [] := by
  cases cs with
  | nil => exact absurd rfl h
  | cons c cs => simp [Comp.renders]

end

end Verif.Path
