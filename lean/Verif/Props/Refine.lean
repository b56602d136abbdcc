import Verif.Lemmas.Refine

/-!
# Property C119: the components of a document do what the components do

The models of the components (`Verif/Model/Parts.lean`, `Verif/Model/Components.lean`) take what they are given as arguments: the renderings of their
children, and their attributes. Here the rendering of a whole document (`Verif/Model/Render.lean`) is shown to be made of them, so that what has been proved
about them (C48, C49, C52, C70, C84, C85, C86, C88) holds in every document. If the children are made of parts, drawings and groups this is an equation. For any
other children, which may change variables while they are rendered, every path that is rendered is one that the component makes of renderings of its children.
-/

set_option linter.unusedSectionVars false

namespace Verif.Render

open Verif Verif.Dyn Verif.Path Verif.PlanSet Verif.Svg Verif.Files Verif.Spec

universe u

section

variable {F : Type u} [Trig F] {O : Type}

theorem pathOf_bind {α β : Type u} (r : Res α) (f : α → Res (Path F × β)) : pathOf (r >>= f) = r >>= fun a => pathOf (f a) := by
  cases r <;> rfl

theorem pathOf_need {α β : Type u} (o : Option α) (f : α → Res (Path F × β)) : pathOf (need o f) = need o fun a => pathOf (f a) := by
  cases o <;> rfl

theorem pathOf_ok {α : Type u} (p : Path F) (a : α) : pathOf (.ok (p, a)) = .ok p := rfl

theorem res_ok_id {α : Type u} (r : Res α) : (r >>= fun a => .ok a) = r := by cases r <;> rfl

theorem setEdge_eq (nested : Bool) (a : Source F O) (start stop : Point F) (g : DMap F) : Machine.setEdge nested a start stop g =
    withTwo nested (a.string "edge_variable_name".toList) "__length".toList "__angle".toList (distance start stop) (lineAngle (start, stop)) g := by
  unfold Machine.setEdge withTwo setGlobal edgeVariableKey
  cases a.string "edge_variable_name".toList with
  | none => rfl
  | some t => cases nested <;> rfl

theorem setGear_eq (nested : Bool) (a : Source F O) (size : GearSize F) (g : DMap F) : Machine.setGear nested a size g =
    withTwo nested (a.string "gear_variable_name".toList) "__outer_radius".toList "__inner_radius".toList size.outer size.root g := by
  unfold Machine.setGear withTwo setGlobal gearVariableKey
  cases a.string "gear_variable_name".toList with
  | none => rfl
  | some t => cases nested <;> rfl

variable (m : Machine F O) (n : Nat) (s : Spot F) (i : Text) (e : Elem F) (g : DMap F) (cursor : Point F)

/-- **C119.** A drawing runs its commands, which look for their values in their own maps and then above, and then its transforms. -/
theorem C119_draw (cs : List (Live F)) : pathOf (m.render (n + 1) s (.mk .draw i e cs) g cursor) =
    drawRender cursor ((slice e.original "commands".toList).map fun mp => m.command (m.attrs s g e (some cursor) mp)) >>=
      m.finishAt s g e (some cursor) := by
  rw [Machine.render.eq_def]
  simp only [Live.kind, Machine.renderDraw, Live.elem, pathOf_bind, pathOf_ok, res_ok_id]
  rfl

/-- **C119.** A gear has the outline of its attributes. -/
theorem C119_gear (cs : List (Live F)) : pathOf (m.render (n + 1) s (.mk .gear i e cs) g cursor) =
    (withTwo s.nested ((m.attrs s g e (some cursor) e.original).string "gear_variable_name".toList) "__outer_radius".toList "__inner_radius".toList
        (m.gearSize (m.attrs s g e (some cursor) e.original)).outer (m.gearSize (m.attrs s g e (some cursor) e.original)).root g >>= fun g' =>
      m.finishAt s g' e (some cursor) (m.gearSize (m.attrs s g e (some cursor) e.original)).outline) := by
  rw [Machine.render.eq_def]
  simp only [Live.kind, Machine.renderGear, Live.elem, pathOf_bind, pathOf_ok, res_ok_id, setGear_eq]

/-- **C119.** A part draws what its children draw, one after the other (C70). -/
theorem C119_part (cs : List (Live F)) (h : ∀ c ∈ cs, Plain c) : pathOf (m.render (n + 1) s (.mk .part i e cs) g cursor) =
    partRender (cs.map fun c cursor => pathOf (m.render n ⟨s.doc, e :: s.ups, !s.ups.isEmpty⟩ c g cursor)) [m.finishAt s g e none] cursor := by
  rw [Machine.render.eq_def]
  simp only [Live.kind, Machine.renderPartNode, Live.elem, Live.children, Live.id, Machine.below, partRender]
  rw [still_all (fun c hc => still_plain m n _ (h c hc)), bind_assoc, pathOf_bind]
  congr 1
  funext ps
  rw [Res.ok_bind]
  simp only
  split
  · rfl
  · simp only [pathOf_bind, pathOf_ok, multiTransform]
    congr 1
    funext p
    cases m.finishAt s g e none p <;> rfl

/-- **C119.** A group draws what its children draw, one after the other. -/
theorem C119_group (cs : List (Live F)) (h : ∀ c ∈ cs, Plain c) : pathOf (m.render (n + 1) s (.mk .group i e cs) g cursor) =
    (renderChildren (cs.map fun c cursor => pathOf (m.render n ⟨s.doc, e :: s.ups, s.nested⟩ c g cursor)) cursor >>= simpleJoin >>=
      m.finishAt s g e (some cursor)) := by
  rw [Machine.render.eq_def]
  simp only [Live.kind, Machine.renderGroup, Live.elem, Live.children, Live.id, Machine.below]
  rw [still_all (fun c hc => still_plain m n _ (h c hc)), bind_assoc, pathOf_bind, bind_assoc]
  congr 1
  funext ps
  simp only [Res.ok_bind, pathOf_bind, pathOf_ok, res_ok_id]

/-- **C119.** A repeat places copies of its child in the space of its attributes `max_x` and `max_y` (C48). -/
theorem C119_copies (c : Live F) (h : Plain c) : pathOf (m.render (n + 1) s (.mk .copies i e [c]) g cursor) =
    (repeatRender m.toInt (fun o => pathOf (m.render n ⟨s.doc, e :: s.ups, s.nested⟩ (indexed c o) g origin))
        (m.number (m.attrs s g e (some cursor) e.original) "max_x".toList Arith.zero)
        (m.number (m.attrs s g e (some cursor) e.original) "max_y".toList Arith.zero) >>= m.finishAt s g e (some cursor)) := by
  rw [Machine.render.eq_def]
  simp only [Live.kind, Machine.renderCopies, Live.elem, Live.children, Live.id, Machine.below]
  obtain ⟨o, ho⟩ := still_copiesOf (r := m.render n ⟨s.doc, e :: s.ups, s.nested⟩) (c := c) (fun o => still_plain m n _ (plain_indexed h o)) m.toInt g
    (m.number (m.attrs s g e (some cursor) e.original) maxXKey Arith.zero) (m.number (m.attrs s g e (some cursor) e.original) maxYKey Arith.zero)
  rw [ho, bind_assoc, pathOf_bind]
  simp only [Res.ok_bind, pathOf_bind, pathOf_ok, res_ok_id]
  rfl

/-- **C119.** An edge renders its children with its length as their width, and lays what they draw from its start to its end (C85). -/
theorem C119_basicEdge (cs : List (Live F)) (h : ∀ c ∈ cs, Plain c) (a : Source F O) (ha : a = m.attrs s g e (some cursor) e.original) (start : Point F)
    (hs : start = (m.point a "from".toList).getD cursor) : pathOf (m.render (n + 1) s (.mk .basicEdge i e cs) g cursor) =
    need (found (a.point2 m.fuel m.fuel "to".toList start)) fun stop =>
      withTwo s.nested (a.string "edge_variable_name".toList) "__length".toList "__angle".toList (distance start stop) (lineAngle (start, stop)) g >>= fun g' =>
        (basicEdge (fun w => cs.map fun c cursor => pathOf (m.render n ⟨s.doc, withVar e "width".toList (.num w) :: s.ups, s.nested⟩ c g' cursor))
          cursor start stop ((a.handle "handle".toList).getD Attr.origin.text) >>=
            m.finishAt s g' (withVar e "width".toList (.num (distance start stop))) (some cursor)) := by
  subst ha hs
  rw [Machine.render.eq_def]
  simp only [Live.kind, Machine.renderBasicEdge, Live.elem, Live.children, Live.id, Machine.below, pathOf_need, pathOf_bind, setEdge_eq, Machine.edgeStart,
    Machine.edgeStop]
  show need _ _ = need _ _
  congr 1
  funext stop
  congr 1
  funext g'
  rw [setVar_plain _ (by decide +kernel), still_all (fun c hc => still_plain m n _ (h c hc)), bind_assoc]
  unfold basicEdge
  rw [bind_assoc]
  show _ >>= _ = _ >>= _
  congr 1
  funext ps
  simp only [Res.ok_bind, pathOf_ok, res_ok_id, bind_assoc, placeEdge]
  rfl

/-- **C119.** A repeated edge renders its left and its right component with the widths that are left for them, and lays all between its start and its end
(C49). The paddings are looked up after the global variables of the edge have been set. -/
theorem C119_repeatEdge (c left right : Live F) (h : Plain c) (hl : Plain left) (hr : Plain right) (a : Source F O)
    (ha : a = m.attrs s g e (some cursor) e.original) (start : Point F) (hs : start = (m.point a "from".toList).getD cursor) :
    pathOf (m.render (n + 1) s (.mk .repeatEdge i e [c, left, right]) g cursor) =
    need (found (a.point2 m.fuel m.fuel "to".toList start)) fun stop =>
      withTwo s.nested (a.string "edge_variable_name".toList) "__length".toList "__angle".toList (distance start stop) (lineAngle (start, stop)) g >>= fun g' =>
        (repeatEdge m.toInt (fun o => pathOf (m.render n ⟨s.doc, e :: s.ups, s.nested⟩ (indexed c o) g' origin))
          (fun w => pathOf (m.render n ⟨s.doc, e :: s.ups, s.nested⟩ (left.putParam "left_width".toList (.num w)) g' origin))
          (fun w => pathOf (m.render n ⟨s.doc, e :: s.ups, s.nested⟩ (right.putParam "right_width".toList (.num w)) g' origin)) start stop
          (m.number (m.attrs s g' e (some cursor) e.original) "padding_left".toList Arith.zero)
          (m.number (m.attrs s g' e (some cursor) e.original) "padding_right".toList Arith.zero)
          ((a.handle "handle".toList).getD Attr.origin.text) >>= m.finishAt s g' e (some cursor)) := by
  subst ha hs
  rw [Machine.render.eq_def]
  simp only [Live.kind, Machine.renderRepeatEdge, Live.elem, Live.children, Live.id, Machine.below, pathOf_need, pathOf_bind, setEdge_eq, Machine.edgeStart,
    Machine.edgeStop]
  show need _ _ = need _ _
  congr 1
  funext stop
  congr 1
  funext g'
  obtain ⟨o, ho⟩ := still_copiesOf (r := m.render n ⟨s.doc, e :: s.ups, s.nested⟩) (c := c) (fun o => still_plain m n _ (plain_indexed h o)) m.toInt g'
    (distance ((m.point (m.attrs s g e (some cursor) e.original) fromKey).getD cursor) stop -.
      (m.number (m.attrs s g' e (some cursor) e.original) padLeftKey Arith.zero +. m.number (m.attrs s g' e (some cursor) e.original) padRightKey Arith.zero))
    Arith.zero
  rw [ho, bind_assoc]
  unfold repeatEdge
  rw [bind_assoc]
  show _ >>= _ = _ >>= _
  congr 1
  funext p
  rw [Res.ok_bind, bind_assoc]
  show _ >>= _ = _ >>= _
  congr 1
  funext b
  simp only
  rw [still_plain m n _ (plain_putParam hl _ _), bind_assoc, bind_assoc]
  show _ >>= _ = _ >>= _
  congr 1
  funext pl
  simp only [Res.ok_bind]
  rw [still_plain m n _ (plain_putParam hr _ _), bind_assoc, bind_assoc]
  show _ >>= _ = _ >>= _
  congr 1
  funext pr
  simp only [Res.ok_bind, pathOf_ok, res_ok_id, bind_assoc, placeEdge]
  rfl

theorem set_side (e : Elem F) (length : F) : setVar (setVar e aroundLengthKey (.num length)) aroundIndexKey (indexVal 0) = onSide e length 0 := by
  rw [setVar_plain _ (by decide +kernel), setVar_plain _ (by decide +kernel)]
  rfl

theorem render_around (c : Live F) (num : Int) (hn : num = m.int (m.attrs s g e (some cursor) e.original) numEdgesKey 0) (radius : F)
    (hr : radius = m.number (m.attrs s g e (some cursor) e.original) radiusKey Arith.zero) (center : Point F)
    (hc : center = (m.point (m.attrs s g e (some cursor) e.original) centerKey).getD cursor) :
    m.render (n + 1) s (.mk .around i e [c]) g cursor =
    (if num = 0 then .err
    else if radius ==. Arith.zero then .err
    else do
      let edge := aroundEdge num radius center
      let e' := setVar e aroundLengthKey (.num (distance edge.1 edge.2))
      let e' := if num.toNat = 0 then e' else setVar e' aroundIndexKey (indexVal 0)
      let (paths, child, g) ← aroundLoop (m.render n ⟨s.doc, e' :: s.ups, s.nested⟩) num center edge.1 (List.range num.toNat) c g
      let p ← simpleJoin paths
      .ok (p, .mk .around i e' [child], g)) := by
  subst hn hr hc
  rfl

theorem render_xIntercept (c outline : Live F) (initial spacing : F) (hi : initial = m.number (m.attrs s g e (some cursor) e.original) initialKey Arith.zero)
    (hs : spacing = m.number (m.attrs s g e (some cursor) e.original) spacingKey Arith.zero) :
    m.render (n + 1) s (.mk .xIntercept i e [c, outline]) g cursor =
    (if spacing ==. Arith.zero then .err
    else do
      let (o, outline, g) ← lost (m.render n ⟨s.doc, e :: s.ups, s.nested⟩ outline g cursor)
      let b ← lost (whitespaceBox o)
      let (st, e, child, g) ← interRows defaultPrecision o (fun e => m.render n ⟨s.doc, e :: s.ups, s.nested⟩) cursor b.2.y spacing m.fuel (b.1.y +. initial)
        ((Arith.zero, []), e, c, g)
      if st.2.isEmpty then .err
      else
        let p ← simpleJoin st.2
        let p ← m.finishAt s g e (some cursor) p
        .ok (p, .mk .xIntercept i e [child, outline], g)) := by
  subst hi hs
  rfl

/-- **C119.** Around renders its child for the length of a side, and places the copies (C84); its own transforms are not applied. -/
theorem C119_around (c : Live F) (h : Plain c) (a : Source F O) (ha : a = m.attrs s g e (some cursor) e.original) :
    pathOf (m.render (n + 1) s (.mk .around i e [c]) g cursor) =
    around 3 (m.int a "num_edges".toList 0) (m.number a "radius".toList Arith.zero) ((m.point a "center_point".toList).getD cursor)
      (fun length k => pathOf (m.render n ⟨s.doc, onSide e length k :: s.ups, s.nested⟩ c g origin)) := by
  subst ha
  rw [render_around m n s i e g cursor c _ rfl _ rfl _ rfl]
  unfold around
  rw [show "num_edges".toList = numEdgesKey from rfl, show "radius".toList = radiusKey from rfl, show "center_point".toList = centerKey from rfl]
  generalize m.int (m.attrs s g e (some cursor) e.original) numEdgesKey 0 = num
  generalize m.number (m.attrs s g e (some cursor) e.original) radiusKey Arith.zero = radius
  generalize (m.point (m.attrs s g e (some cursor) e.original) centerKey).getD cursor = center
  by_cases h0 : num = 0
  · rw [if_pos h0, if_pos h0]; rfl
  · rw [if_neg h0, if_neg h0]
    by_cases h1 : (radius ==. Arith.zero) = true
    · rw [if_pos h1, if_pos h1]; rfl
    · rw [if_neg h1, if_neg h1]
      simp only
      rw [still_aroundLoop (still_plain m n _ h), bind_assoc, pathOf_bind]
      simp only [Res.ok_bind, pathOf_bind, pathOf_ok, res_ok_id]
      by_cases hz : num.toNat = 0
      · rw [hz]; rfl
      · simp only [if_neg hz]
        rw [set_side]
        generalize (List.mapM _ _ : Res (List (Path F))) = x
        cases x <;> rfl

/-- **C119.** The copies of an intercept component are rendered for the points and the length between the intercepts of its outline (C86). Errors of the
outline and of the copies are lost: there is no path then, and the component above panics, as it does when the rows do not end. -/
theorem C119_xIntercept (c outline : Live F) (h : Plain c) (ho : Plain outline) (a : Source F O) (ha : a = m.attrs s g e (some cursor) e.original) :
    ∃ e', pathOf (m.render (n + 1) s (.mk .xIntercept i e [c, outline]) g cursor) =
    delivered (xIntercept defaultPrecision (m.number a "initial_spacing".toList Arith.zero) (m.number a "repeat_spacing".toList Arith.zero)
      (pathOf (m.render n ⟨s.doc, e :: s.ups, s.nested⟩ outline g cursor))
      (fun a b length => pathOf (m.render n ⟨s.doc, between e a b length :: s.ups, s.nested⟩ c g cursor)) m.fuel) >>= m.finishAt s g e' (some cursor) ∧
      (e' = e ∨ ∃ a b length, e' = between e a b length) := by
  subst ha
  rw [render_xIntercept m n s i e g cursor c outline _ _ rfl rfl]
  unfold xIntercept
  rw [show "initial_spacing".toList = initialKey from rfl, show "repeat_spacing".toList = spacingKey from rfl]
  generalize m.number (m.attrs s g e (some cursor) e.original) initialKey Arith.zero = initial
  generalize m.number (m.attrs s g e (some cursor) e.original) spacingKey Arith.zero = spacing
  by_cases h0 : (spacing ==. Arith.zero) = true
  · rw [if_pos h0, if_pos h0]; exact ⟨e, rfl, .inl rfl⟩
  · rw [if_neg h0, if_neg h0, still_plain m n _ ho]
    generalize pathOf (m.render n ⟨s.doc, e :: s.ups, s.nested⟩ outline g cursor) = x
    cases x with
    | err => exact ⟨e, rfl, .inl rfl⟩
    | panic => exact ⟨e, rfl, .inl rfl⟩
    | ok o =>
      simp only [Res.ok_bind, lost_ok, pathOf_ok]
      cases whitespaceBox o with
      | err => exact ⟨e, rfl, .inl rfl⟩
      | panic => exact ⟨e, rfl, .inl rfl⟩
      | ok b =>
        simp only [Res.ok_bind, lost_ok]
        obtain ⟨p', height, hp⟩ := still_interRows (d := defaultPrecision) (e := e) (r := fun e => m.render n ⟨s.doc, e :: s.ups, s.nested⟩) (c := c)
          (fun e => still_plain m n _ h) o cursor b.2.y spacing g m.fuel (b.1.y +. initial) (Arith.zero, []) none
        rw [show inter e none = e from rfl] at hp
        refine ⟨inter e p', ?_, ?_⟩
        · rw [hp]
          cases interceptRows defaultPrecision (horizontalIntercepts defaultPrecision o)
            (fun a b l => pathOf (m.render n ⟨s.doc, between e a b l :: s.ups, s.nested⟩ c g cursor)) b.2.y spacing m.fuel (b.1.y +. initial)
            (Arith.zero, []) with
          | none => rfl
          | some r =>
            cases r with
            | err => rfl
            | panic => rfl
            | ok ps =>
              cases ps with
              | nil => rfl
              | cons q qs =>
                simp only [losing, Res.ok_bind, pathOf_bind, pathOf_ok, res_ok_id, List.isEmpty_cons, Bool.false_eq_true, if_false]
                cases simpleJoin (q :: qs) <;> rfl
        · cases p' with
          | none => exact .inl rfl
          | some ab => exact .inr ⟨ab.1, ab.2, _, rfl⟩

/-- **C119.** Any part: what it draws is what a part makes of renderings of its children. -/
theorem C119_part_any (cs : List (Live F)) (p : Path F) (c' : Live F) (g' : DMap F) (h : m.render (n + 1) s (.mk .part i e cs) g cursor = .ok (p, c', g')) :
    ∃ fs, partRender fs [m.finishAt s g' e none] cursor = .ok p ∧ FromEach (m.render n ⟨s.doc, e :: s.ups, !s.ups.isEmpty⟩) cs g fs := by
  rw [Machine.render.eq_def] at h
  simp only [Live.kind, Machine.renderPartNode, Live.elem, Live.children, Live.id, Machine.below] at h
  obtain ⟨⟨ps, cs', g1⟩, h1, h⟩ := res_bind_ok h
  obtain ⟨fs, hf, hfs⟩ := any_all (leaves_render m n _) (.none g) h1
  refine ⟨fs, ?_, hfs⟩
  simp only at h
  unfold partRender
  rw [hf, Res.ok_bind]
  split at h
  · cases h
  · next hne =>
    obtain ⟨j, h2, h⟩ := res_bind_ok h
    obtain ⟨q, h3, h⟩ := res_bind_ok h
    simp only [Res.ok.injEq, Prod.mk.injEq] at h
    obtain ⟨rfl, -, rfl⟩ := h
    rw [if_neg hne, h2, Res.ok_bind]
    simp only [multiTransform, h3]
    rfl

/-- **C119.** Any group: what it draws is what its children draw, one after the other. -/
theorem C119_group_any (cs : List (Live F)) (p : Path F) (c' : Live F) (g' : DMap F) (h : m.render (n + 1) s (.mk .group i e cs) g cursor = .ok (p, c', g')) :
    ∃ fs, (renderChildren fs cursor >>= simpleJoin >>= m.finishAt s g' e (some cursor)) = .ok p ∧ FromEach (m.render n ⟨s.doc, e :: s.ups, s.nested⟩) cs g fs := by
  rw [Machine.render.eq_def] at h
  simp only [Live.kind, Machine.renderGroup, Live.elem, Live.children, Live.id, Machine.below] at h
  obtain ⟨⟨ps, cs', g1⟩, h1, h⟩ := res_bind_ok h
  obtain ⟨fs, hf, hfs⟩ := any_all (leaves_render m n _) (.none g) h1
  refine ⟨fs, ?_, hfs⟩
  simp only at h
  obtain ⟨j, h2, h⟩ := res_bind_ok h
  obtain ⟨q, h3, h⟩ := res_bind_ok h
  simp only [Res.ok.injEq, Prod.mk.injEq] at h
  obtain ⟨rfl, -, rfl⟩ := h
  rw [hf, Res.ok_bind, h2, Res.ok_bind, h3]

/-- **C119.** Any repeat: what it draws is what a repeat makes of renderings of its child with the indices. -/
theorem C119_copies_any (cs : List (Live F)) (p : Path F) (c' : Live F) (g' : DMap F)
    (h : m.render (n + 1) s (.mk .copies i e cs) g cursor = .ok (p, c', g')) :
    ∃ c render, cs = [c] ∧ (repeatRender m.toInt render (m.number (m.attrs s g e (some cursor) e.original) "max_x".toList Arith.zero)
        (m.number (m.attrs s g e (some cursor) e.original) "max_y".toList Arith.zero) >>= m.finishAt s g' e (some cursor)) = .ok p ∧
      FromIndexed (m.render n ⟨s.doc, e :: s.ups, s.nested⟩) c g render := by
  rw [Machine.render.eq_def] at h
  simp only [Live.kind, Machine.renderCopies, Live.elem, Live.children, Live.id, Machine.below] at h
  split at h
  · next c =>
    obtain ⟨⟨q, c1, g1⟩, h1, h⟩ := res_bind_ok h
    simp only at h
    obtain ⟨q1, h2, h⟩ := res_bind_ok h
    simp only [Res.ok.injEq, Prod.mk.injEq] at h
    obtain ⟨rfl, -, rfl⟩ := h
    obtain ⟨render, h3, h4⟩ := any_copiesOf (leaves_render m n _) (.none g) h1
    refine ⟨c, render, rfl, ?_, h4⟩
    rw [show "max_x".toList = maxXKey from rfl, show "max_y".toList = maxYKey from rfl, h3, Res.ok_bind, h2]
  · cases h

/-- **C119.** Any edge: what it draws is what an edge makes of renderings of its children. -/
theorem C119_basicEdge_any (cs : List (Live F)) (p : Path F) (c' : Live F) (g' : DMap F) (a : Source F O)
    (ha : a = m.attrs s g e (some cursor) e.original) (start : Point F) (hs : start = (m.point a "from".toList).getD cursor)
    (h : m.render (n + 1) s (.mk .basicEdge i e cs) g cursor = .ok (p, c', g')) :
    ∃ stop g1 fs, found (a.point2 m.fuel m.fuel "to".toList start) = some stop ∧
      withTwo s.nested (a.string "edge_variable_name".toList) "__length".toList "__angle".toList (distance start stop) (lineAngle (start, stop)) g = .ok g1 ∧
      (basicEdge (fun _ => fs) cursor start stop ((a.handle "handle".toList).getD Attr.origin.text) >>=
        m.finishAt s g' (withVar e "width".toList (.num (distance start stop))) (some cursor)) = .ok p ∧
      FromEach (m.render n ⟨s.doc, withVar e "width".toList (.num (distance start stop)) :: s.ups, s.nested⟩) cs g1 fs := by
  subst ha hs
  rw [Machine.render.eq_def] at h
  simp only [Live.kind, Machine.renderBasicEdge, Live.elem, Live.children, Live.id, Machine.below, setEdge_eq, Machine.edgeStart, Machine.edgeStop] at h
  unfold need at h
  split at h
  · next stop h0 =>
    obtain ⟨g1, h1, h⟩ := res_bind_ok h
    obtain ⟨⟨ps, cs', g2⟩, h2, h⟩ := res_bind_ok h
    simp only at h
    rw [setVar_plain _ (by decide +kernel)] at h2 h
    obtain ⟨j, h3, h⟩ := res_bind_ok h
    obtain ⟨q, h4, h⟩ := res_bind_ok h
    obtain ⟨q', h5, h⟩ := res_bind_ok h
    simp only [Res.ok.injEq, Prod.mk.injEq] at h
    obtain ⟨rfl, -, rfl⟩ := h
    obtain ⟨fs, hf, hfs⟩ := any_all (leaves_render m n _) (.none g1) h2
    refine ⟨stop, g1, fs, h0, h1, ?_, hfs⟩
    have : basicEdge (fun _ => fs) cursor ((m.point (m.attrs s g e (some cursor) e.original) "from".toList).getD cursor) stop
        (((m.attrs s g e (some cursor) e.original).handle "handle".toList).getD Attr.origin.text) = .ok q := by
      unfold basicEdge
      rw [hf, Res.ok_bind, h3, Res.ok_bind]
      exact h4
    rw [this, Res.ok_bind]
    exact h5
  · cases h

/-- **C119.** Any repeated edge: what it draws is what a repeated edge makes of renderings of its three children. -/
theorem C119_repeatEdge_any (cs : List (Live F)) (p : Path F) (c' : Live F) (g' : DMap F) (a : Source F O)
    (ha : a = m.attrs s g e (some cursor) e.original) (start : Point F) (hs : start = (m.point a "from".toList).getD cursor)
    (h : m.render (n + 1) s (.mk .repeatEdge i e cs) g cursor = .ok (p, c', g')) :
    ∃ c left right stop g1 render fl fr, cs = [c, left, right] ∧ found (a.point2 m.fuel m.fuel "to".toList start) = some stop ∧
      withTwo s.nested (a.string "edge_variable_name".toList) "__length".toList "__angle".toList (distance start stop) (lineAngle (start, stop)) g = .ok g1 ∧
      (repeatEdge m.toInt render fl fr start stop (m.number (m.attrs s g1 e (some cursor) e.original) "padding_left".toList Arith.zero)
        (m.number (m.attrs s g1 e (some cursor) e.original) "padding_right".toList Arith.zero) ((a.handle "handle".toList).getD Attr.origin.text) >>=
          m.finishAt s g' e (some cursor)) = .ok p ∧
      FromIndexed (m.render n ⟨s.doc, e :: s.ups, s.nested⟩) c g1 render ∧
      FromWidth (m.render n ⟨s.doc, e :: s.ups, s.nested⟩) left "left_width".toList g1 fl ∧
      FromWidth (m.render n ⟨s.doc, e :: s.ups, s.nested⟩) right "right_width".toList g1 fr := by
  subst ha hs
  rw [Machine.render.eq_def] at h
  simp only [Live.kind, Machine.renderRepeatEdge, Live.elem, Live.children, Live.id, Machine.below, setEdge_eq, Machine.edgeStart, Machine.edgeStop] at h
  split at h
  · next c left right =>
    unfold need at h
    split at h
    · next stop h0 =>
      obtain ⟨g1, h1, h⟩ := res_bind_ok h
      obtain ⟨⟨q, c1, g2⟩, h2, h⟩ := res_bind_ok h
      simp only at h
      obtain ⟨b, h3, h⟩ := res_bind_ok h
      obtain ⟨⟨pl, c2, g3⟩, h4, h⟩ := res_bind_ok h
      simp only at h
      obtain ⟨⟨pr, c3, g4⟩, h5, h⟩ := res_bind_ok h
      simp only at h
      obtain ⟨q1, h6, h⟩ := res_bind_ok h
      obtain ⟨pr1, h7, h⟩ := res_bind_ok h
      obtain ⟨j, h8, h⟩ := res_bind_ok h
      obtain ⟨q2, h9, h⟩ := res_bind_ok h
      obtain ⟨q3, h10, h⟩ := res_bind_ok h
      simp only [Res.ok.injEq, Prod.mk.injEq] at h
      obtain ⟨rfl, -, rfl⟩ := h
      have hl : Leaves (m.render n ⟨s.doc, e :: s.ups, s.nested⟩) := leaves_render m n _
      obtain ⟨render, h11, h12⟩ := any_copiesOf hl (.none g1) h2
      have w2 : Written g1 g2 := ((leaves_copiesOf hl m.toInt c g1 _ _).ok h2).2
      have w3 : Written g2 g3 := ((hl _ g2 origin).ok h4).2
      have from_path : ∀ (g' : DMap F) (c : Live F) (q : Path F), pathOf (m.render n ⟨s.doc, e :: s.ups, s.nested⟩ c g' origin) = .ok q →
          ∃ x, m.render n ⟨s.doc, e :: s.ups, s.nested⟩ c g' origin = .ok (q, x) := by
        intro g' c q hq
        cases hx : m.render n ⟨s.doc, e :: s.ups, s.nested⟩ c g' origin with
        | ok x =>
          rw [hx] at hq
          simp only [pathOf, Res.ok.injEq] at hq
          exact ⟨x.2, by rw [← hq]⟩
        | err => rw [hx] at hq; cases hq
        | panic => rw [hx] at hq; cases hq
      refine ⟨c, left, right, stop, g1, render, fun w => pathOf (m.render n ⟨s.doc, e :: s.ups, s.nested⟩ (left.putParam leftWidthKey (.num w)) g2 origin),
        fun w => pathOf (m.render n ⟨s.doc, e :: s.ups, s.nested⟩ (right.putParam rightWidthKey (.num w)) g3 origin), rfl, h0, h1, ?_, h12, ?_, ?_⟩
      · rw [show "padding_left".toList = padLeftKey from rfl, show "padding_right".toList = padRightKey from rfl, show "from".toList = fromKey from rfl,
          show "handle".toList = handleKey from rfl]
        refine (congrArg (· >>= m.finishAt s g4 e (some cursor)) (?_ : _ = Res.ok q2)).trans h10
        unfold repeatEdge
        simp only
        rw [h11, Res.ok_bind, h3, Res.ok_bind]
        simp only [h4, h5, pathOf_ok, Res.ok_bind, h6, h7, h8]
        exact h9
      · intro w q hq
        obtain ⟨x, hx⟩ := from_path _ _ _ hq
        exact ⟨g2, x, w2, hx⟩
      · intro w q hq
        obtain ⟨x, hx⟩ := from_path _ _ _ hq
        exact ⟨g3, x, w2.trans w3, hx⟩
    · cases h
  · cases h

/-- **C119.** Any around component: what it draws is made of one rendering of its child for each side. -/
theorem C119_around_any (cs : List (Live F)) (p : Path F) (c' : Live F) (g' : DMap F) (num : Int)
    (hn : num = m.int (m.attrs s g e (some cursor) e.original) "num_edges".toList 0) (radius : F)
    (hr : radius = m.number (m.attrs s g e (some cursor) e.original) "radius".toList Arith.zero) (center : Point F)
    (hc : center = (m.point (m.attrs s g e (some cursor) e.original) "center_point".toList).getD cursor)
    (h : m.render (n + 1) s (.mk .around i e cs) g cursor = .ok (p, c', g')) :
    ∃ (c : Live F) (qs : List (Path F)), cs = [c] ∧ num ≠ 0 ∧ (radius ==. Arith.zero) = false ∧ qs.length = num.toNat ∧
      (((qs.zip (List.range num.toNat)).mapM fun x => aroundCopy 3 num center (aroundEdge num radius center).1 x.1 x.2) >>= simpleJoin) = .ok p ∧
      ∀ q ∈ qs, ∃ c1 g1 x, Same c c1 ∧ Written g g1 ∧
        m.render n ⟨s.doc, onSide e (distance (aroundEdge num radius center).1 (aroundEdge num radius center).2) 0 :: s.ups, s.nested⟩ c1 g1 origin =
          .ok (q, x) := by
  have hcs : ∃ c, cs = [c] := by
    rw [Machine.render.eq_def] at h
    simp only [Live.kind, Machine.renderAround, Live.children] at h
    split at h
    · exact ⟨_, rfl⟩
    · cases h
  obtain ⟨c, rfl⟩ := hcs
  rw [render_around m n s i e g cursor c num hn radius hr center hc] at h
  split at h
  · cases h
  · next h0 =>
    split at h
    · cases h
    · next h1 =>
      simp only at h
      obtain ⟨⟨ps, c1, g1⟩, h2, h⟩ := res_bind_ok h
      simp only at h
      obtain ⟨q, h3, h⟩ := res_bind_ok h
      simp only [Res.ok.injEq, Prod.mk.injEq] at h
      obtain ⟨rfl, -, rfl⟩ := h
      obtain ⟨qs, h4, h5, h6⟩ := any_aroundLoop (leaves_render m n _) c g _ _ _ (Same.refl c) (.none g) h2
      rw [List.length_range] at h4
      refine ⟨c, qs, rfl, h0, by simpa using h1, h4, by rw [h5, Res.ok_bind, h3], ?_⟩
      intro x hx
      have hz : num.toNat ≠ 0 := by
        intro hz
        rw [hz] at h4
        rw [List.length_eq_zero_iff.mp h4] at hx
        cases hx
      have := h6 x hx
      rw [if_neg hz, set_side] at this
      exact this

end

/-! ## Examples -/

section Examples

variable {F : Type u} [Trig F] {O : Type}

/-- A part of a group of a drawing is plain. -/
example (i i' i'' : Text) (e e' e'' : Elem F) : Plain (.mk .part i e [.mk .group i' e' [.mk .draw i'' e'' []]]) :=
  ⟨show Built.part ∈ _ by decide, ⟨show Built.group ∈ _ by decide, ⟨show Built.draw ∈ _ by decide, trivial⟩, trivial⟩, trivial⟩

/-- A repeat is not. -/
example (i : Text) (e : Elem F) (cs : List (Live F)) : ¬ Plain (.mk .copies i e cs) := fun h => absurd h.1 (show Built.copies ∉ _ by decide)

/-- A drawing without commands has a path, and so the equation for a group with it is about a path. -/
example (m : Machine F O) (n : Nat) (s : Spot F) (g : DMap F) (cursor : Point F) : ∃ p, p ≠ [] ∧
    pathOf (m.render (n + 1) s (.mk .draw [] ⟨[], [], []⟩ []) g cursor) = .ok p := ⟨_, List.cons_ne_nil _ _, rfl⟩

/-- An edge without a name sets nothing; one with a name sets both variables, and panics in a part of a part. -/
example (g : DMap F) (x y : F) : withTwo true none "__length".toList "__angle".toList x y g = .ok g ∧
    withTwo false (some "e".toList) "__length".toList "__angle".toList x y ([] : DMap F) = .ok [("e__length".toList, .num x), ("e__angle".toList, .num y)] ∧
      withTwo true (some "e".toList) "__length".toList "__angle".toList x y g = .panic := ⟨rfl, rfl, rfl⟩

/-- The variables of a repeat. -/
example (i : Text) (cs : List (Live F)) : indexed (.mk .draw i ⟨[("a".toList, .list [])], [], []⟩ cs) (some (2, 3)) =
    .mk .draw i ⟨[("a".toList, .list []), ("index_x".toList, .num (Arith.lit 2 0)), ("index_y".toList, .num (Arith.lit 3 0))], [], []⟩ cs := rfl

end Examples

end Verif.Render
