import Verif.Lemmas.Scene
import Verif.Props.Refine
import Verif.Props.Scene
import Verif.Props.JoinedJoint
import Verif.Spec.Board

/-!
# Property C153: documents of boards with finger joints
-/

set_option linter.unusedSectionVars false
set_option linter.unusedSimpArgs false

namespace Verif.Render

open Verif Verif.Dyn Verif.Path Verif.PlanSet Verif.Svg Verif.Files Verif.Xml Verif.Spec

variable {O : Type}

/-! ## Expressions -/

section Evaluation

variable {a : Source (XNum ℝ) O} {t x y : Text} {u v : XNum ℝ} {n : Nat}

theorem convert_var (ht : t.filter (fun c => decide (c ≠ '$')) = t) (hp : a.lib.parse t = some (.var x)) (hl : a.chain.lookup x = some (.num u)) (hn : 0 < n) :
    a.convert n (.str t) = .val u := by
  obtain ⟨n, rfl⟩ : ∃ k, n = k + 1 := ⟨n - 1, by omega⟩
  simp only [Source.convert, evalExpression, ht, evalText, show ¬ 0 > maxRecursion from by decide, if_false, hp, evalExpr, hl, Dyn.toBool, toFloat64]

theorem convert_right {o} {z : XNum ℝ} (ht : t.filter (fun c => decide (c ≠ '$')) = t) (hp : a.lib.parse t = some (.op o (.var x) (.num z))) (hs : a.lib.shortcut o = none)
    (hl : a.chain.lookup x = some (.num u)) (ho : a.lib.op o (.num u) (.num z) = some (.num v)) (hn : 0 < n) : a.convert n (.str t) = .val v := by
  obtain ⟨n, rfl⟩ : ∃ k, n = k + 1 := ⟨n - 1, by omega⟩
  simp only [Source.convert, evalExpression, ht, evalText, show ¬ 0 > maxRecursion from by decide, if_false, hp, evalExpr, hl, Dyn.toBool, toFloat64, hs, Option.bind_none, ho]

theorem convert_left {o} {z : XNum ℝ} (ht : t.filter (fun c => decide (c ≠ '$')) = t) (hp : a.lib.parse t = some (.op o (.num z) (.var x))) (hs : a.lib.shortcut o = none)
    (hl : a.chain.lookup x = some (.num u)) (ho : a.lib.op o (.num z) (.num u) = some (.num v)) (hn : 0 < n) : a.convert n (.str t) = .val v := by
  obtain ⟨n, rfl⟩ : ∃ k, n = k + 1 := ⟨n - 1, by omega⟩
  simp only [Source.convert, evalExpression, ht, evalText, show ¬ 0 > maxRecursion from by decide, if_false, hp, evalExpr, hl, Dyn.toBool, toFloat64, hs, Option.bind_none, ho]

/-- The parameters of a joint are seen. -/
structure SeesJoint (c : Chain (XNum ℝ)) (w h s : ℝ) : Prop where
  width : c.lookup "finger_width".toList = some (.num (.fin w))
  height : c.lookup "finger_height".toList = some (.num (.fin h))
  space : c.lookup "finger_space".toList = some (.num (.fin s))

variable {w h s : ℝ} (hc : SeesJoint a.chain w h s) (hl : ReadsJoints a.lib) (hn : 0 < n)

include hc hl hn

theorem convert_width : a.convert n (.str "finger_width".toList) = .val (.fin w) :=
  convert_var (by decide +kernel) (hl.names _ (by simp)) hc.width hn

theorem convert_height : a.convert n (.str "finger_height".toList) = .val (.fin h) :=
  convert_var (by decide +kernel) (hl.names _ (by simp)) hc.height hn

theorem convert_half : a.convert n (.str "finger_space / 2".toList) = .val (.fin (s / 2)) := by
  obtain ⟨o, h1, h2, h3⟩ := hl.half
  exact convert_right (by decide +kernel) h1 h2 hc.space (h3 _) hn

theorem convert_minus : a.convert n (.str "0-finger_height".toList) = .val (.fin (0 - h)) := by
  obtain ⟨o, h1, h2, h3⟩ := hl.minus
  exact convert_left (by decide +kernel) h1 h2 hc.height (h3 _) hn

theorem convert_times : a.convert n (.str "finger_height * 1.1".toList) = .val (.fin (h * (11 / 10))) := by
  obtain ⟨o, h1, h2, h3⟩ := hl.times
  exact convert_right (by decide +kernel) h1 h2 hc.height (h3 _) hn

end Evaluation

/-! ## Commands -/

/-- The map of a command with a point. -/
def pointCmdMap (name : Text) (x y : Val (XNum ℝ)) : DMap (XNum ℝ) := [("command".toList, .str name), ("to".toList, .map [("x".toList, x), ("y".toList, y)])]

theorem command_point (m : Machine (XNum ℝ) O) (hf : 0 < m.fuel) (s : Spot (XNum ℝ)) (g : DMap (XNum ℝ)) (e : Elem (XNum ℝ)) (cur : Option (Point (XNum ℝ))) (name : Text)
    {x y : Val (XNum ℝ)} {u v : XNum ℝ} (hx : (m.attrs s g e cur (pointCmdMap name x y)).convert m.fuel x = .val u)
    (hy : (m.attrs s g e cur (pointCmdMap name x y)).convert m.fuel y = .val v) :
    (m.command (m.attrs s g e cur (pointCmdMap name x y))).point toKey = some (newPoint u v) := by
  show found ((m.attrs s g e cur (pointCmdMap name x y)).point m.fuel m.fuel toKey) = _
  obtain ⟨f, hf'⟩ : ∃ f, m.fuel = f + 1 := ⟨m.fuel - 1, by omega⟩
  have hfind : (m.attrs s g e cur (pointCmdMap name x y)).find toKey = some (.map [("x".toList, x), ("y".toList, y)]) :=
    C46_attr_local _ _ _ _ rfl (by intro s hs; cases hs)
  rw [show (m.attrs s g e cur (pointCmdMap name x y)).point m.fuel m.fuel toKey = (m.attrs s g e cur (pointCmdMap name x y)).point m.fuel (f + 1) toKey from by rw [← hf']]
  simp only [Source.point, if_neg (show ¬ toKey.head? = some '$' from by decide +kernel), hfind, Source.mapPoint]
  rw [show (Dyn.get [("x".toList, x), ("y".toList, y)] xKey).getD (.str []) = x from rfl, show (Dyn.get [("x".toList, x), ("y".toList, y)] yKey).getD (.str []) = y from rfl]
  simp only [Source.pair, hx, hy, found]

theorem command_name (m : Machine (XNum ℝ) O) (s : Spot (XNum ℝ)) (g : DMap (XNum ℝ)) (e : Elem (XNum ℝ)) (cur : Option (Point (XNum ℝ))) {name : Text} (hne : name ≠ [])
    (x y : Val (XNum ℝ)) : (m.command (m.attrs s g e cur (pointCmdMap name x y))).name = name := by
  show (m.world.text (pointCmdMap name x y) commandKey).getD unknownName = _
  have : Dyn.get (pointCmdMap name x y) commandKey = some (.str name) := rfl
  simp only [World.text, this, if_neg hne, Option.getD_some]

/-- Two commands that do the same. -/
def SameExec (c d : Command (XNum ℝ)) : Prop := ∀ p, c.exec p = d.exec p

theorem drawRender_same {cs ds : List (Command (XNum ℝ))} (h : List.Forall₂ SameExec cs ds) (cursor : Point (XNum ℝ)) : drawRender cursor cs = drawRender cursor ds := by
  have key : ∀ p, execAll cs p = execAll ds p := by
    induction h with
    | nil => intro p; rfl
    | cons h _ ih =>
      intro p
      simp only [execAll, h p]
      congr 1
      funext q
      exact ih q
  simp only [drawRender, key]

theorem sameExec_move {c : Command (XNum ℝ)} {u v : XNum ℝ} (h1 : c.name = "move".toList) (h2 : c.point toKey = some (newPoint u v)) : SameExec c (moveCommand u v) := by
  intro p
  rw [Command.exec, exec_named _ .move h1, Command.exec, exec_named _ .move rfl]
  simp only [moveCommand, toCommand, h2]
  rw [if_pos (show toKey = "to".toList from rfl)]

theorem sameExec_relLine {c : Command (XNum ℝ)} {u v : XNum ℝ} (h1 : c.name = "rel_line".toList) (h2 : c.point toKey = some (newPoint u v)) : SameExec c (relLineCommand u v) := by
  intro p
  rw [Command.exec, exec_named _ .relLine h1, Command.exec, exec_named _ .relLine rfl]
  simp only [relLineCommand, toCommand, h2]
  rw [if_pos (show toKey = "to".toList from rfl)]

theorem exec_move_any (u v : XNum ℝ) (p : Path (XNum ℝ)) : (moveCommand u v).exec p = .ok (moveTo p (newPoint u v)) := by
  rw [Command.exec, exec_named _ .move rfl]
  simp only [moveCommand, toCommand, if_true]
  rfl

theorem exec_relLine_any (u v : XNum ℝ) (p : Path (XNum ℝ)) : (relLineCommand u v).exec p = .ok (relLineTo p (newPoint u v)) := by
  rw [Command.exec, exec_named _ .relLine rfl]
  simp only [relLineCommand, toCommand, if_true]
  rfl

/-- Commands that move or draw lines. -/
inductive Drafts : List (Command (XNum ℝ)) → Prop
  | nil : Drafts []
  | move (u v : XNum ℝ) {cs} : Drafts cs → Drafts (moveCommand u v :: cs)
  | relLine (u v : XNum ℝ) {cs} : Drafts cs → Drafts (relLineCommand u v :: cs)

theorem drafts_ok {cs : List (Command (XNum ℝ))} (h : Drafts cs) : ∀ p : Path (XNum ℝ), p ≠ [] → ∃ q, execAll cs p = .ok q ∧ q ≠ [] := by
  induction h with
  | nil => intro p hp; exact ⟨p, rfl, hp⟩
  | move u v _ ih =>
    intro p _
    simp only [execAll, exec_move_any, Res.ok_bind]
    exact ih _ (by simp [moveTo])
  | relLine u v _ ih =>
    intro p _
    simp only [execAll, exec_relLine_any, Res.ok_bind]
    exact ih _ (by simp [relLineTo, lineTo])

theorem drafts_drawn {cs : List (Command (XNum ℝ))} (h : Drafts cs) : ∃ q, drawRender origin cs = .ok q ∧ q ≠ [] := drafts_ok h _ (by simp [moveTo])

/-! ## The children -/

/-- The element of a drawing with some parameters. -/
def childElem (ps : DMap (XNum ℝ)) (cs : List (Val (XNum ℝ))) : Elem (XNum ℝ) := ⟨ps, drawingMap cs, []⟩

/-- The element of a joint. -/
def FingerJoint.elem (o : FingerJoint) : Elem (XNum ℝ) :=
  ⟨[("finger_width".toList, .num (.fin o.width)), ("finger_height".toList, .num (.fin o.height)), ("finger_space".toList, .num (.fin o.space))], o.map, []⟩

theorem elemOf_joint (o : FingerJoint) : elemOf o.map = o.elem := rfl

theorem joint_sees (o : FingerJoint) (c : Chain (XNum ℝ)) : SeesJoint (.component o.elem c) o.width o.height o.space :=
  ⟨C46_own _ _ _ rfl (by intro s h; cases h), C46_own _ _ _ rfl (by intro s h; cases h), C46_own _ _ _ rfl (by intro s h; cases h)⟩

/-- What the element of a child may have. -/
def ChildParams (ps : DMap (XNum ℝ)) : Prop :=
  ps = [] ∨ (∃ i j, ps = [("index_x".toList, .num i), ("index_y".toList, .num j)]) ∨ (∃ x, ps = [("left_width".toList, .num x)]) ∨ ∃ x, ps = [("right_width".toList, .num x)]

theorem child_absent {ps : DMap (XNum ℝ)} (h : ChildParams ps) (cs : List (Val (XNum ℝ))) (c : Chain (XNum ℝ)) (k : Text)
    (hk : k ∈ ["finger_width".toList, "finger_height".toList, "finger_space".toList]) : (Chain.component (childElem ps cs) c).define k = none := by
  simp only [List.mem_cons, List.not_mem_nil, or_false] at hk
  rcases h with rfl | ⟨i, j, rfl⟩ | ⟨x, rfl⟩ | ⟨x, rfl⟩ <;> rcases hk with rfl | rfl | rfl <;> rfl

theorem child_sees (o : FingerJoint) {ps : DMap (XNum ℝ)} (h : ChildParams ps) (cs : List (Val (XNum ℝ))) (c : Chain (XNum ℝ)) :
    SeesJoint (.component (childElem ps cs) (.component o.elem c)) o.width o.height o.space := by
  have k := joint_sees o c
  exact ⟨by rw [C46_inherit _ _ _ (child_absent h cs _ _ (by simp))]; exact k.width, by rw [C46_inherit _ _ _ (child_absent h cs _ _ (by simp))]; exact k.height,
    by rw [C46_inherit _ _ _ (child_absent h cs _ _ (by simp))]; exact k.space⟩

section Child

variable (m : Machine (XNum ℝ) O) (hf : 0 < m.fuel) (hl : ReadsJoints m.lib) (s : Spot (XNum ℝ)) (g : DMap (XNum ℝ)) (o : FingerJoint)

/-- The command does the same at this child. -/
def DoesThere (e : Elem (XNum ℝ)) (v : Val (XNum ℝ)) (d : Command (XNum ℝ)) : Prop :=
  ∃ mp, v = .map mp ∧ SameExec (m.command (m.attrs ⟨s.doc, o.elem :: s.ups, s.nested⟩ g e (some origin) mp)) d

/-- An expression has this value at this child. -/
def HasThere (e : Elem (XNum ℝ)) (v : Val (XNum ℝ)) (x : XNum ℝ) : Prop :=
  ∀ mp, (m.attrs ⟨s.doc, o.elem :: s.ups, s.nested⟩ g e (some origin) mp).convert m.fuel v = .val x

variable {m s g o} {e : Elem (XNum ℝ)}

include hf

theorem does_move {x y : Val (XNum ℝ)} {u v : XNum ℝ} (hx : HasThere m s g o e x u) (hy : HasThere m s g o e y v) :
    DoesThere m s g o e (pointCmd "move".toList x y) (moveCommand u v) :=
  ⟨_, rfl, sameExec_move (command_name m _ _ _ _ (by decide) x y) (command_point m hf _ _ _ _ _ (hx _) (hy _))⟩

theorem does_relLine {x y : Val (XNum ℝ)} {u v : XNum ℝ} (hx : HasThere m s g o e x u) (hy : HasThere m s g o e y v) :
    DoesThere m s g o e (pointCmd "rel_line".toList x y) (relLineCommand u v) :=
  ⟨_, rfl, sameExec_relLine (command_name m _ _ _ _ (by decide) x y) (command_point m hf _ _ _ _ _ (hx _) (hy _))⟩

theorem render_child (n : Nat) (i : Text) (ps : DMap (XNum ℝ)) (cs : List (Val (XNum ℝ))) (ds : List (Command (XNum ℝ))) (hd : Drafts ds)
    (h : List.Forall₂ (DoesThere m s g o (childElem ps cs)) cs ds) :
    pathOf (m.render (n + 1) ⟨s.doc, o.elem :: s.ups, s.nested⟩ (.mk .draw i (childElem ps cs) []) g origin) = drawRender origin ds := by
  rw [C119_draw]
  have key : ∃ ms : List (DMap (XNum ℝ)), cs = ms.map .map ∧
      List.Forall₂ SameExec (ms.map fun mp => m.command (m.attrs ⟨s.doc, o.elem :: s.ups, s.nested⟩ g (childElem ps cs) (some origin) mp)) ds := by
    generalize childElem ps cs = e at h ⊢
    clear hd
    induction h with
    | nil => exact ⟨[], rfl, .nil⟩
    | cons h _ ih =>
      obtain ⟨ms, rfl, k⟩ := ih
      obtain ⟨mp, rfl, k1⟩ := h
      exact ⟨mp :: ms, rfl, .cons k1 k⟩
  obtain ⟨ms, e1, k⟩ := key
  have e2 : slice (childElem ps cs).original "commands".toList = ms := by
    rw [slice_plain (by decide +kernel)]
    show (mapItems cs).getD [] = ms
    rw [e1, mapItems_maps]
    rfl
  have e3 : slice (childElem ps cs).original transformsKey = [] := rfl
  rw [e2, drawRender_same k]
  obtain ⟨q, h1, h2⟩ := drafts_drawn hd
  rw [h1, Res.ok_bind]
  simp only [Machine.finishAt, e3, List.map_nil]
  exact finish_none _ _ _ h2

omit hf in
theorem has_zero : HasThere m s g o e zeroVal (.fin 0) := fun _ => rfl

variable {ps : DMap (XNum ℝ)} (hp : ChildParams ps) (cs : List (Val (XNum ℝ)))

include hl hp

theorem has_width : HasThere m s g o (childElem ps cs) (.str "finger_width".toList) (.fin o.width) := fun _ => convert_width (child_sees o hp cs _) hl hf
theorem has_height : HasThere m s g o (childElem ps cs) (.str "finger_height".toList) (.fin o.height) := fun _ => convert_height (child_sees o hp cs _) hl hf
theorem has_half : HasThere m s g o (childElem ps cs) (.str "finger_space / 2".toList) (.fin (o.space / 2)) := fun _ => convert_half (child_sees o hp cs _) hl hf
theorem has_minus : HasThere m s g o (childElem ps cs) (.str "0-finger_height".toList) (.fin (0 - o.height)) := fun _ => convert_minus (child_sees o hp cs _) hl hf

omit hp in
theorem has_left (x : XNum ℝ) : HasThere m s g o (childElem [("left_width".toList, .num x)] cs) (.str "left_width".toList) x := fun _ =>
  convert_var (by decide +kernel) (hl.names _ (by simp)) (C46_own _ _ _ rfl (by intro s h; cases h)) hf

omit hp in
theorem has_right (x : XNum ℝ) : HasThere m s g o (childElem [("right_width".toList, .num x)] cs) (.str "right_width".toList) x := fun _ =>
  convert_var (by decide +kernel) (hl.names _ (by simp)) (C46_own _ _ _ rfl (by intro s h; cases h)) hf

theorem does_plug : List.Forall₂ (DoesThere m s g o (childElem ps cs)) plugCommands (plugFinger o.width o.height o.space) :=
  .cons (does_move hf has_zero (has_height hf hl hp cs)) <| .cons (does_relLine hf (has_half hf hl hp cs) has_zero) <|
    .cons (does_relLine hf has_zero (has_minus hf hl hp cs)) <| .cons (does_relLine hf (has_width hf hl hp cs) has_zero) <|
    .cons (does_relLine hf has_zero (has_height hf hl hp cs)) <| .cons (does_relLine hf (has_half hf hl hp cs) has_zero) .nil

theorem does_socket : List.Forall₂ (DoesThere m s g o (childElem ps cs)) socketCommands (socketNotch o.width o.height o.space) :=
  .cons (does_relLine hf (has_half hf hl hp cs) has_zero) <| .cons (does_relLine hf has_zero (has_height hf hl hp cs)) <|
    .cons (does_relLine hf (has_width hf hl hp cs) has_zero) <| .cons (does_relLine hf has_zero (has_minus hf hl hp cs)) <|
    .cons (does_relLine hf (has_half hf hl hp cs) has_zero) .nil

theorem does_plugEnd {rest : Text} {x : XNum ℝ} (hx : HasThere m s g o (childElem ps cs) (.str rest) x) :
    List.Forall₂ (DoesThere m s g o (childElem ps cs)) (plugEndCommands rest) (plugEnd o.height x) :=
  .cons (does_move hf has_zero (has_height hf hl hp cs)) <| .cons (does_relLine hf hx has_zero) .nil

omit hl hp in
theorem does_socketEnd {rest : Text} {x : XNum ℝ} (hx : HasThere m s g o (childElem ps cs) (.str rest) x) :
    List.Forall₂ (DoesThere m s g o (childElem ps cs)) (socketEndCommands rest) (socketEnd x) :=
  .cons (does_move hf has_zero has_zero) <| .cons (does_relLine hf hx has_zero) .nil

end Child

/-! ## The joint -/

/-- Names that neither a joint nor anything around it has. -/
def FarKey (k : Text) : Prop := k ∉ ["type".toList, "params".toList, "padding_left".toList, "padding_right".toList, "from".toList, "to".toList, "handle".toList,
  "transforms".toList, "repeatable".toList, "left".toList, "right".toList, "finger_width".toList, "finger_height".toList, "finger_space".toList, "id".toList,
  "components".toList, "part_index".toList, "material_width".toList, "material_height".toList, "doc_padding".toList, "parts".toList]

instance (k : Text) : Decidable (FarKey k) := by unfold FarKey; infer_instance

theorem joint_lookup_absent (o : FingerJoint) {k : Text} (h : FarKey k) : o.map.lookup k = none := by
  simp only [FarKey, List.mem_cons, List.not_mem_nil, or_false, not_or] at h
  obtain ⟨h1, h2, h3, h4, h5, h6, h7, h8, h9, h10, h11, -⟩ := h
  simp only [FingerJoint.map, List.lookup, beq_eq_false_iff_ne.mpr h1, beq_eq_false_iff_ne.mpr h2, beq_eq_false_iff_ne.mpr h3, beq_eq_false_iff_ne.mpr h4,
    beq_eq_false_iff_ne.mpr h5, beq_eq_false_iff_ne.mpr h6, beq_eq_false_iff_ne.mpr h7, beq_eq_false_iff_ne.mpr h8, beq_eq_false_iff_ne.mpr h9,
    beq_eq_false_iff_ne.mpr h10, beq_eq_false_iff_ne.mpr h11]

theorem joint_get_absent (o : FingerJoint) {k d : Text} {ds : List Text} (hd : dots k = d :: ds) (h : FarKey k) (h' : FarKey d) : Dyn.get o.map k = none :=
  get_absent hd (joint_lookup_absent o h) (joint_lookup_absent o h')

theorem joint_undefined {doc : Elem (XNum ℝ)} (hd : Bare doc) (p : Piece) (o : FingerJoint) {k d : Text} {ds : List Text} (hk : dots k = d :: ds) (h : FarKey k)
    (h' : FarKey d) : (Chain.component o.elem (.component ⟨[], shownPiece p, []⟩ (.document doc []))).Undefined k ∧
    NoDefault k (Chain.component o.elem (.component ⟨[], shownPiece p, []⟩ (.document doc []))) := by
  have a2 : (⟨[], shownPiece p, []⟩ : Elem (XNum ℝ)).allParams = [] := rfl
  have a1 : o.elem.allParams = o.elem.params := rfl
  have q : ∀ {t : Text}, FarKey t → o.elem.params.lookup t = none := by
    intro t ht
    simp only [FarKey, List.mem_cons, List.not_mem_nil, or_false, not_or] at ht
    obtain ⟨-, -, -, -, -, -, -, -, -, -, -, h1, h2, h3, -⟩ := ht
    simp only [FingerJoint.elem, List.lookup, beq_eq_false_iff_ne.mpr h1, beq_eq_false_iff_ne.mpr h2, beq_eq_false_iff_ne.mpr h3]
  have r : ∀ {t : Text}, FarKey t → t ∉ ["id".toList, "components".toList, "type".toList, "part_index".toList] := by
    intro t ht hm
    exact ht ((show ∀ x ∈ ["id".toList, "components".toList, "type".toList, "part_index".toList], x ∈ _ from by decide +kernel) t hm)
  have r' : ∀ {t : Text}, FarKey t → t ∉ ["material_width".toList, "material_height".toList, "doc_padding".toList, "parts".toList] := by
    intro t ht hm
    exact ht ((show ∀ x ∈ ["material_width".toList, "material_height".toList, "doc_padding".toList, "parts".toList], x ∈ _ from by decide +kernel) t hm)
  refine ⟨⟨by rw [a1]; exact get_absent hk (q h) (q h'), joint_get_absent o hk h h', by rw [a2]; exact Render.get_nil _,
    get_absent hk (shownPiece_absent _ _ (r h)) (shownPiece_absent _ _ (r h')), by rw [hd.allParams]; exact Render.get_nil _, hd.get hk (r' h) (r' h'), Render.get_nil _⟩,
    Render.get_nil _, Render.get_nil _, ?_⟩
  show Dyn.get doc.defaults k = none
  rw [hd.defaults]
  exact Render.get_nil _

/-- The edge leaves the global variables alone when it has no name for them. -/
theorem repeatEdge_globals (m : Machine (XNum ℝ) O) {n : Nat} {s : Spot (XNum ℝ)} {i : Text} {e : Elem (XNum ℝ)} {g g' : DMap (XNum ℝ)} {cursor : Point (XNum ℝ)}
    {c left right c' : Live (XNum ℝ)} {p : Path (XNum ℝ)} (h : Plain c) (hl : Plain left) (hr : Plain right)
    (hn : (m.attrs s g e (some cursor) e.original).string edgeVariableKey = none)
    (he : m.render (n + 1) s (.mk .repeatEdge i e [c, left, right]) g cursor = .ok (p, c', g')) : g' = g := by
  rw [Machine.render.eq_def] at he
  simp only [Live.kind, Machine.renderRepeatEdge, Live.elem, Live.children, Live.id, Machine.below, Machine.setEdge, hn] at he
  generalize m.edgeStop _ _ = stop at he
  cases stop with
  | none => cases he
  | some stop =>
    simp only [need, Res.ok_bind] at he
    obtain ⟨⟨q, c1, g1⟩, h1, he⟩ := res_bind_ok he
    have e1 : g1 = g := by
      obtain ⟨o, ho⟩ := still_copiesOf (r := m.render n ⟨s.doc, e :: s.ups, s.nested⟩) (c := c) (fun o => still_plain m n _ (plain_indexed h o)) m.toInt g _ Arith.zero
      rw [ho] at h1
      obtain ⟨x, -, h1⟩ := res_bind_ok h1
      cases h1
      rfl
    subst e1
    obtain ⟨b, -, he⟩ := res_bind_ok he
    simp only at he
    obtain ⟨⟨pl, c2, g2⟩, h2, he⟩ := res_bind_ok he
    have e2 : g2 = g1 := by
      rw [still_plain m n _ (plain_putParam hl _ _)] at h2
      obtain ⟨x, -, h2⟩ := res_bind_ok h2
      cases h2
      rfl
    subst e2
    obtain ⟨⟨pr, c3, g3⟩, h3, he⟩ := res_bind_ok he
    have e3 : g3 = g2 := by
      rw [still_plain m n _ (plain_putParam hr _ _)] at h3
      obtain ⟨x, -, h3⟩ := res_bind_ok h3
      cases h3
      rfl
    subst e3
    obtain ⟨_, -, he⟩ := res_bind_ok he
    obtain ⟨_, -, he⟩ := res_bind_ok he
    obtain ⟨_, -, he⟩ := res_bind_ok he
    obtain ⟨_, -, he⟩ := res_bind_ok he
    obtain ⟨_, -, he⟩ := res_bind_ok he
    cases he
    rfl

/-- A text that names nothing is found as it is. -/
theorem find_text {a : Source (XNum ℝ) O} {key t : Text} (h : Dyn.get a.mp key = some (.str t)) (hk : t ≠ key) (h0 : Dyn.get a.mp t = none) (h1 : a.chain.Undefined t)
    (h2 : NoDefault t a.chain) : a.find key = some (.str t) := by
  unfold Source.find
  rw [attrLookup]
  simp only [show ¬ 0 > recursionMax from by decide, if_false, h, ne_eq, hk, not_false_eq_true, if_true, attrLookup_absent 1 h0 h1 h2]

/-- The handle of a joint. -/
def FingerJoint.handle (o : FingerJoint) : Text := if o.plug then "$ORIGIN".toList else "$START_POINT".toList

section Joint

variable (m : Machine (XNum ℝ) O) (hf : 0 < m.fuel) (hl : ReadsJoints m.lib) {doc : Elem (XNum ℝ)} (hd : Bare doc) (p : Piece) (o : FingerJoint)
  (cursor : Option (Point (XNum ℝ)))

/-- The attributes of a joint. -/
noncomputable def jointAttrs : Source (XNum ℝ) O := m.attrs (pieceSpot doc p) [] o.elem cursor o.map

include hd in
theorem joint_find_none {k d : Text} {ds : List Text} (hk : dots k = d :: ds) (h : FarKey k) (h' : FarKey d) (mp : DMap (XNum ℝ)) (h0 : Dyn.get mp k = none) :
    (m.attrs (pieceSpot doc p) [] o.elem cursor mp).find k = none :=
  attrLookup_absent 0 h0 (joint_undefined hd p o hk h h').1 (joint_undefined hd p o hk h h').2

include hd in
theorem joint_name : (jointAttrs m (doc := doc) p o cursor).string edgeVariableKey = none := by
  have : (jointAttrs m (doc := doc) p o cursor).find edgeVariableKey = none :=
    joint_find_none m hd p o cursor (d := edgeVariableKey) (ds := []) (by decide +kernel) (by decide +kernel) (by decide +kernel) _
      (joint_get_absent o (d := edgeVariableKey) (ds := []) (by decide +kernel) (by decide +kernel) (by decide +kernel))
  simp only [Source.string, this]

include hf in
theorem joint_start : m.point (jointAttrs m (doc := doc) p o cursor) fromKey = some (finPt (newPoint o.start.1 o.start.2)) :=
  point_given m hf _ _ _ _ _ fromKey (by decide +kernel) o.start rfl

include hf in
theorem joint_stop (start : Point (XNum ℝ)) : found ((jointAttrs m (doc := doc) p o cursor).point2 m.fuel m.fuel toKey start) = some (finPt (newPoint o.stop.1 o.stop.2)) := by
  have h : found ((jointAttrs m (doc := doc) p o cursor).point m.fuel m.fuel toKey) = some (finPt (newPoint o.stop.1 o.stop.2)) :=
    point_given m hf (pieceSpot doc p) [] o.elem cursor o.map toKey (by decide +kernel) o.stop rfl
  revert h
  simp only [Source.point2]
  cases (jointAttrs m (doc := doc) p o cursor).point m.fuel m.fuel toKey <;> intro h <;> first | exact h | cases h

include hf hl hd in
theorem joint_pad {key : Text} (hk : Dyn.get o.map key = some (.str "finger_height * 1.1".toList)) (hne : "finger_height * 1.1".toList ≠ key) :
    m.number (jointAttrs m (doc := doc) p o cursor) key Arith.zero = .fin o.pad := by
  have hu := joint_undefined hd p o (k := "finger_height * 1.1".toList) (d := "finger_height * 1".toList) (ds := ["1".toList]) (by decide +kernel) (by decide +kernel) (by decide +kernel)
  have h1 : (jointAttrs m (doc := doc) p o cursor).find key = some (.str "finger_height * 1.1".toList) :=
    find_text hk hne (joint_get_absent o (d := "finger_height * 1".toList) (ds := ["1".toList]) (by decide +kernel) (by decide +kernel) (by decide +kernel)) hu.1 hu.2
  have h2 : (jointAttrs m (doc := doc) p o cursor).convert m.fuel (.str "finger_height * 1.1".toList) = .val (.fin (o.height * (11 / 10))) :=
    convert_times (a := jointAttrs m (doc := doc) p o cursor) (joint_sees o _) hl hf
  simp only [Machine.number, Source.number, h1, h2]
  rfl

include hd in
theorem joint_handle : (jointAttrs m (doc := doc) p o cursor).handle handleKey = some o.handle := by
  have h : (jointAttrs m (doc := doc) p o cursor).string handleKey = some o.handle := by
    have hg : Dyn.get o.map handleKey = some (.str o.handle) := rfl
    cases hp : o.plug
    · have e : o.handle = "$START_POINT".toList := by simp [FingerJoint.handle, hp]
      rw [e] at hg ⊢
      have hu := joint_undefined hd p o (k := "$START_POINT".toList) (d := "$START_POINT".toList) (ds := []) (by decide +kernel) (by decide +kernel) (by decide +kernel)
      exact string_given _ _ _ hg (by decide +kernel) (joint_get_absent o (d := "$START_POINT".toList) (ds := []) (by decide +kernel) (by decide +kernel) (by decide +kernel)) hu.1 hu.2
    · have e : o.handle = "$ORIGIN".toList := by simp [FingerJoint.handle, hp]
      rw [e] at hg ⊢
      have hu := joint_undefined hd p o (k := "$ORIGIN".toList) (d := "$ORIGIN".toList) (ds := []) (by decide +kernel) (by decide +kernel) (by decide +kernel)
      exact string_given _ _ _ hg (by decide +kernel) (joint_get_absent o (d := "$ORIGIN".toList) (ds := []) (by decide +kernel) (by decide +kernel) (by decide +kernel)) hu.1 hu.2
  have ha : acceptsAttr (F := XNum ℝ) o.handle = true := by
    unfold FingerJoint.handle
    cases o.plug <;> decide +kernel
  simp only [Source.handle, h, Option.bind_some, ha, if_true]

/-- The transform of a joint. -/
def joinMap : DMap (XNum ℝ) := [("type".toList, .str "join".toList), ("close_path".toList, .bool false)]

include hd in
theorem make_join : (m.transformMap (m.attrs (pieceSpot doc p) [] o.elem cursor joinMap)).make m.toInt = some (.join 3 false) := by
  have hname : (m.transformMap (m.attrs (pieceSpot doc p) [] o.elem cursor joinMap)).name = Kind.join.text := by
    show (m.world.text joinMap typeKey).getD unknownName = _
    have : Dyn.get (joinMap) typeKey = some (.str "join".toList) := rfl
    simp only [World.text, this]
    decide +kernel
  have hprec : (m.transformMap (m.attrs (pieceSpot doc p) [] o.elem cursor joinMap)).number precisionKey = none := by
    show found ((m.attrs (pieceSpot doc p) [] o.elem cursor joinMap).number m.fuel precisionKey) = _
    have : (m.attrs (pieceSpot doc p) [] o.elem cursor joinMap).find precisionKey = none :=
      joint_find_none m hd p o cursor (d := precisionKey) (ds := []) (by decide +kernel) (by decide +kernel) (by decide +kernel) _ rfl
    simp only [Source.number, this]
    rfl
  have hflag : (m.transformMap (m.attrs (pieceSpot doc p) [] o.elem cursor joinMap)).closeFlag = some false := rfl
  unfold TransformMap.make
  rw [hname]
  have hk : Kind.ofText Kind.join.text = some .join := by decide +kernel
  simp only [hk, TransformMap.int, hprec, Option.map_none, Option.getD_none, hflag, Option.getD_some]

include hd in
theorem joint_finish (q : Path (XNum ℝ)) {r : Path ℝ} (h : join 3 defaultPrecision false q = .ok (finPath r)) (hr : strokes r ≠ []) :
    m.finishAt (pieceSpot doc p) [] o.elem cursor q = .ok (finPath r) := by
  have hne : finPath r ≠ [] := by
    intro e
    have e' : r = [] := by simpa [finPath] using e
    exact hr (by rw [e']; rfl)
  obtain ⟨last, hlast⟩ := last_of_ne hne
  have htr : slice o.elem.original transformsKey = [joinMap] := rfl
  simp only [Machine.finishAt, htr, List.map_cons, List.map_nil, finish, handleTransforms, makeAll, List.mapM_cons, List.mapM_nil, make_join m hd]
  simp only [Option.bind_eq_bind, Option.bind_some, Option.pure_def, List.map_cons, List.map_nil, multiTransform, Transform.run, List.singleton_append]
  rw [show (3 : Int).toNat = 3 from rfl, h]
  simp only [hlast]

end Joint

/-- The component that is made of a joint. -/
def FingerJoint.node (w : World (XNum ℝ)) (o : FingerJoint) : Dyn.Node (XNum ℝ) :=
  .mk (w.idOf o.map) o.map [componentNode w (drawingMap (if o.plug then plugCommands else socketCommands)),
    componentNode w (drawingMap (if o.plug then plugEndCommands "left_width".toList else socketEndCommands "left_width".toList)),
    componentNode w (drawingMap (if o.plug then plugEndCommands "right_width".toList else socketEndCommands "right_width".toList))]

theorem live_child (w : World (XNum ℝ)) (cs : List (Val (XNum ℝ))) : live w (componentNode w (drawingMap cs)) = .mk .draw (w.idOf (drawingMap cs)) (childElem [] cs) [] := by
  have := text_type w (m := drawingMap cs) (b := .draw) rfl
  simp only [live, componentNode, lives, this]
  rfl

theorem live_joint (w : World (XNum ℝ)) (o : FingerJoint) : live w (o.node w) =
    .mk .repeatEdge (w.idOf o.map) o.elem [.mk .draw (w.idOf (drawingMap (if o.plug then plugCommands else socketCommands)))
        (childElem [] (if o.plug then plugCommands else socketCommands)) [],
      .mk .draw (w.idOf (drawingMap (if o.plug then plugEndCommands "left_width".toList else socketEndCommands "left_width".toList)))
        (childElem [] (if o.plug then plugEndCommands "left_width".toList else socketEndCommands "left_width".toList)) [],
      .mk .draw (w.idOf (drawingMap (if o.plug then plugEndCommands "right_width".toList else socketEndCommands "right_width".toList)))
        (childElem [] (if o.plug then plugEndCommands "right_width".toList else socketEndCommands "right_width".toList)) []] := by
  have := text_type w (m := o.map) (b := .repeatEdge) rfl
  simp only [FingerJoint.node, live, lives, live_child, this, built_text, Option.getD_some, elemOf_joint]

section Rendering

variable (m : Machine (XNum ℝ) O) (hf : 0 < m.fuel) (hl : ReadsJoints m.lib) (s : Spot (XNum ℝ)) (o : FingerJoint) (n : Nat) (i : Text)

theorem drafts_plug (w h s : ℝ) : Drafts (plugFinger w h s) := .move _ _ (.relLine _ _ (.relLine _ _ (.relLine _ _ (.relLine _ _ (.relLine _ _ .nil)))))
theorem drafts_socket (w h s : ℝ) : Drafts (socketNotch w h s) := .relLine _ _ (.relLine _ _ (.relLine _ _ (.relLine _ _ (.relLine _ _ .nil))))
theorem drafts_plugEnd (h : ℝ) (x : XNum ℝ) : Drafts (plugEnd h x) := .move _ _ (.relLine _ _ .nil)
theorem drafts_socketEnd (x : XNum ℝ) : Drafts (socketEnd x) := .move _ _ (.relLine _ _ .nil)

theorem indexed_child (cs : List (Val (XNum ℝ))) (k : Option (Nat × Nat)) :
    ∃ ps, ChildParams ps ∧ indexed (.mk .draw i (childElem [] cs) []) k = .mk .draw i (childElem ps cs) [] := by
  cases k with
  | none => exact ⟨[], Or.inl rfl, rfl⟩
  | some k => exact ⟨[("index_x".toList, .num (Arith.lit k.1 0)), ("index_y".toList, .num (Arith.lit k.2 0))], Or.inr (Or.inl ⟨_, _, rfl⟩), rfl⟩

include hf hl

theorem render_plug (k : Option (Nat × Nat)) : pathOf (m.render (n + 1) ⟨s.doc, o.elem :: s.ups, s.nested⟩ (indexed (.mk .draw i (childElem [] plugCommands) []) k) [] origin) =
    drawRender origin (plugFinger o.width o.height o.space) := by
  obtain ⟨ps, hp, e⟩ := indexed_child i plugCommands k
  rw [e]
  exact render_child hf n i ps _ _ (drafts_plug _ _ _) (does_plug hf hl hp _)

theorem render_socket (k : Option (Nat × Nat)) :
    pathOf (m.render (n + 1) ⟨s.doc, o.elem :: s.ups, s.nested⟩ (indexed (.mk .draw i (childElem [] socketCommands) []) k) [] origin) =
    drawRender origin (socketNotch o.width o.height o.space) := by
  obtain ⟨ps, hp, e⟩ := indexed_child i socketCommands k
  rw [e]
  exact render_child hf n i ps _ _ (drafts_socket _ _ _) (does_socket hf hl hp _)

theorem render_plugLeft (x : XNum ℝ) : pathOf (m.render (n + 1) ⟨s.doc, o.elem :: s.ups, s.nested⟩
      ((Live.mk .draw i (childElem [] (plugEndCommands "left_width".toList)) []).putParam "left_width".toList (.num x)) [] origin) =
    drawRender origin (plugEnd o.height x) :=
  render_child hf n i [("left_width".toList, .num x)] _ _ (drafts_plugEnd _ _) (does_plugEnd hf hl (Or.inr (Or.inr (Or.inl ⟨x, rfl⟩))) _ (has_left hf hl _ x))

theorem render_plugRight (x : XNum ℝ) : pathOf (m.render (n + 1) ⟨s.doc, o.elem :: s.ups, s.nested⟩
      ((Live.mk .draw i (childElem [] (plugEndCommands "right_width".toList)) []).putParam "right_width".toList (.num x)) [] origin) =
    drawRender origin (plugEnd o.height x) :=
  render_child hf n i [("right_width".toList, .num x)] _ _ (drafts_plugEnd _ _) (does_plugEnd hf hl (Or.inr (Or.inr (Or.inr ⟨x, rfl⟩))) _ (has_right hf hl _ x))

theorem render_socketLeft (x : XNum ℝ) : pathOf (m.render (n + 1) ⟨s.doc, o.elem :: s.ups, s.nested⟩
      ((Live.mk .draw i (childElem [] (socketEndCommands "left_width".toList)) []).putParam "left_width".toList (.num x)) [] origin) =
    drawRender origin (socketEnd x) :=
  render_child hf n i [("left_width".toList, .num x)] _ _ (drafts_socketEnd _) (does_socketEnd hf _ (has_left hf hl _ x))

theorem render_socketRight (x : XNum ℝ) : pathOf (m.render (n + 1) ⟨s.doc, o.elem :: s.ups, s.nested⟩
      ((Live.mk .draw i (childElem [] (socketEndCommands "right_width".toList)) []).putParam "right_width".toList (.num x)) [] origin) =
    drawRender origin (socketEnd x) :=
  render_child hf n i [("right_width".toList, .num x)] _ _ (drafts_socketEnd _) (does_socketEnd hf _ (has_right hf hl _ x))

end Rendering

theorem plain_child (i : Text) (e : Elem (XNum ℝ)) : Plain (.mk .draw i e [] : Live (XNum ℝ)) := ⟨by simp, trivial⟩

section Assembled

variable (m : Machine (XNum ℝ) O) (hf : 2 ≤ m.fuel) (hl : ReadsJoints m.lib) (ht : Faithful m.toInt) {doc : Elem (XNum ℝ)} (hd : Bare doc) (p : Piece) (o : FingerJoint)
  (ho : o.Fits)

include hf hl ht hd ho

/-- A joint is rendered to its comb, wherever the cursor is. -/
theorem render_joint (cursor : Point (XNum ℝ)) : ∃ (r : Path ℝ) (c' : Live (XNum ℝ)),
    m.render m.fuel (pieceSpot doc p) (live m.world (o.node m.world)) [] cursor = .ok (finPath r, c', []) ∧ strokes r = o.draws ∧ ReadAsDrawn r ∧ EndsInk r := by
  obtain ⟨f, hf'⟩ : ∃ f, m.fuel = f + 2 := ⟨m.fuel - 2, by omega⟩
  have hf0 : 0 < m.fuel := by omega
  have hp0 : 0 ≤ o.pad := by
    have := ho.height
    unfold FingerJoint.pad
    linarith
  have key : ∀ (c left right : Live (XNum ℝ)), live m.world (o.node m.world) = .mk .repeatEdge (m.world.idOf o.map) o.elem [c, left, right] →
      Plain c → Plain left → Plain right →
      (∃ r : Path ℝ, (do
          let q ← repeatEdge m.toInt (fun k => pathOf (m.render (f + 1) ⟨doc, o.elem :: (pieceSpot doc p).ups, (pieceSpot doc p).nested⟩ (indexed c k) [] origin))
            (fun w => pathOf (m.render (f + 1) ⟨doc, o.elem :: (pieceSpot doc p).ups, (pieceSpot doc p).nested⟩ (left.putParam "left_width".toList (.num w)) [] origin))
            (fun w => pathOf (m.render (f + 1) ⟨doc, o.elem :: (pieceSpot doc p).ups, (pieceSpot doc p).nested⟩ (right.putParam "right_width".toList (.num w)) [] origin))
            (finPt (newPoint o.start.1 o.start.2)) (finPt (newPoint o.stop.1 o.stop.2)) (.fin o.pad) (.fin o.pad) o.handle
          join 3 defaultPrecision false q) = .ok (finPath r) ∧ strokes r = o.draws ∧ ReadAsDrawn r ∧ EndsInk r) →
      ∃ (r : Path ℝ) (c' : Live (XNum ℝ)),
        m.render m.fuel (pieceSpot doc p) (live m.world (o.node m.world)) [] cursor = .ok (finPath r, c', []) ∧ strokes r = o.draws ∧ ReadAsDrawn r ∧ EndsInk r := by
    rintro c left right e h1 h2 h3 ⟨r, k1, k2, k3⟩
    have hne : strokes r ≠ [] := by
      rw [k2]
      simp [FingerJoint.draws, comb]
    obtain ⟨q, k4, k5⟩ := res_bind_ok k1
    have hpath : pathOf (m.render (f + 1 + 1) (pieceSpot doc p) (.mk .repeatEdge (m.world.idOf o.map) o.elem [c, left, right]) [] cursor) = .ok (finPath r) := by
      rw [C119_repeatEdge (m := m) (n := f + 1) (s := pieceSpot doc p) (i := m.world.idOf o.map) (e := o.elem) (g := []) (cursor := cursor) c left right h1 h2 h3
        (jointAttrs m (doc := doc) p o (some cursor)) rfl _ rfl]
      rw [show m.point (jointAttrs m (doc := doc) p o (some cursor)) "from".toList = _ from joint_start m hf0 p o (some cursor), Option.getD_some,
        show found ((jointAttrs m (doc := doc) p o (some cursor)).point2 m.fuel m.fuel "to".toList _) = _ from joint_stop m hf0 p o (some cursor) _,
        show (jointAttrs m (doc := doc) p o (some cursor)).string "edge_variable_name".toList = none from joint_name m hd p o (some cursor),
        show (jointAttrs m (doc := doc) p o (some cursor)).handle "handle".toList = _ from joint_handle m hd p o (some cursor)]
      simp only [need, withTwo, Res.ok_bind, Option.getD_some]
      rw [show m.number (m.attrs (pieceSpot doc p) [] o.elem (some cursor) o.elem.original) "padding_left".toList Arith.zero = _ from
          joint_pad m hf0 hl hd p o (some cursor) (key := padLeftKey) rfl (by decide +kernel),
        show m.number (m.attrs (pieceSpot doc p) [] o.elem (some cursor) o.elem.original) "padding_right".toList Arith.zero = _ from
          joint_pad m hf0 hl hd p o (some cursor) (key := padRightKey) rfl (by decide +kernel)]
      have k4' := k4
      rw [show (pieceSpot doc p).doc = doc from rfl, k4', Res.ok_bind]
      exact joint_finish m hd p o (some cursor) q k5 hne
    rw [e, hf']
    cases h : m.render (f + 1 + 1) (pieceSpot doc p) (.mk .repeatEdge (m.world.idOf o.map) o.elem [c, left, right]) [] cursor with
    | ok x =>
      obtain ⟨q', c', g'⟩ := x
      have hg := repeatEdge_globals m h1 h2 h3 (joint_name m hd p o (some cursor)) h
      rw [h] at hpath
      have hq : q' = finPath r := by simpa [pathOf] using hpath
      exact ⟨r, c', by rw [hq, hg], k2, k3⟩
    | err => rw [h] at hpath; cases hpath
    | panic => rw [h] at hpath; cases hpath
  have e1 : pt (newPoint o.start.1 o.start.2) = o.start := by rw [pt_newPoint]
  have e2 : pt (newPoint o.stop.1 o.stop.2) = o.stop := by rw [pt_newPoint]
  have hab : pt (newPoint o.start.1 o.start.2) ≠ pt (newPoint o.stop.1 o.stop.2) := by rw [e1, e2]; exact ho.apart
  have hh : (2 : ℝ) / 10 ^ 3 ≤ |o.height| := by
    have := ho.height
    rw [abs_of_nonneg (by linarith)]
    norm_num
    linarith
  have hs : (4 : ℝ) / 10 ^ 3 ≤ o.space := by
    have := ho.space
    norm_num
    linarith
  cases hpl : o.plug
  · refine key _ _ _ (live_joint _ _) (plain_child _ _) (plain_child _ _) (plain_child _ _) ?_
    obtain ⟨r, r1, r2, r3⟩ := C152_socket ht (newPoint o.start.1 o.start.2) (newPoint o.stop.1 o.stop.2) hab o.width o.height o.space o.pad o.pad ho.width (by rw [e1, e2]; exact ho.some)
      (by rw [e1, e2]; exact ho.count) (by rw [e1, e2]; exact ho.room) hp0 hp0 3 defaultPrecision hh hs
    refine ⟨r, ?_, ?_, r3⟩
    · have e : o.handle = Attr.startPoint.text := by simp only [FingerJoint.handle, hpl]; decide +kernel
      simp only [hpl, Bool.false_eq_true, if_false, e]
      rw [← r1]
      congr 2
      · funext k
        exact render_socket m hf0 hl (pieceSpot doc p) o f _ k
      · funext x
        exact render_socketLeft m hf0 hl (pieceSpot doc p) o f _ x
      · funext x
        exact render_socketRight m hf0 hl (pieceSpot doc p) o f _ x
    · rw [r2, e1, e2]
      simp only [FingerJoint.draws, FingerJoint.fingers, hpl, Bool.false_eq_true, if_false]
  · refine key _ _ _ (live_joint _ _) (plain_child _ _) (plain_child _ _) (plain_child _ _) ?_
    obtain ⟨r, r1, r2, r3⟩ := C152_plug ht (newPoint o.start.1 o.start.2) (newPoint o.stop.1 o.stop.2) hab o.width o.height o.space o.pad o.pad ho.width (by rw [e1, e2]; exact ho.some)
      (by rw [e1, e2]; exact ho.count) (by rw [e1, e2]; exact ho.room) hp0 hp0 3 defaultPrecision hh hs
    refine ⟨r, ?_, ?_, r3⟩
    · have e : o.handle = Attr.origin.text := by simp only [FingerJoint.handle, hpl]; decide +kernel
      simp only [hpl, if_true, e]
      rw [← r1]
      congr 2
      · funext k
        exact render_plug m hf0 hl (pieceSpot doc p) o f _ k
      · funext x
        exact render_plugLeft m hf0 hl (pieceSpot doc p) o f _ x
      · funext x
        exact render_plugRight m hf0 hl (pieceSpot doc p) o f _ x
    · rw [r2, e1, e2]
      simp only [FingerJoint.draws, FingerJoint.fingers, hpl, if_true]

end Assembled

/-! ## The document -/

theorem neat_pointCmd (name : Text) {x y : Val (XNum ℝ)} (hx : Neat x) (hy : Neat y) : Neat (pointCmd name x y) := by
  refine .map (show List.Nodup ["command".toList, "to".toList] by decide +kernel) ?_ ?_ <;> intro e he <;> simp only [List.mem_cons, List.not_mem_nil, or_false] at he
  · rcases he with rfl | rfl <;> simp only <;> decide +kernel
  · rcases he with rfl | rfl
    · exact .str _
    · refine .map (show List.Nodup ["x".toList, "y".toList] by decide +kernel) ?_ ?_ <;> intro e he <;> simp only [List.mem_cons, List.not_mem_nil, or_false] at he
      · rcases he with rfl | rfl <;> simp only <;> decide +kernel
      · rcases he with rfl | rfl
        · exact hx
        · exact hy

theorem neat_drawing {cs : List (Val (XNum ℝ))} (h : ∀ v ∈ cs, Neat v) : Neat (.map (drawingMap cs)) := by
  refine .map (show List.Nodup ["type".toList, "commands".toList] by decide +kernel) ?_ ?_ <;> intro e he <;> simp only [drawingMap, List.mem_cons, List.not_mem_nil, or_false] at he
  · rcases he with rfl | rfl <;> simp only <;> decide +kernel
  · rcases he with rfl | rfl
    · exact .str _
    · exact .list h

theorem neat_commands (b : Bool) : ∀ v ∈ (if b then plugCommands else socketCommands), Neat v := by
  intro v hv
  cases b <;> simp only [Bool.false_eq_true, if_false, if_true, plugCommands, socketCommands, List.mem_cons, List.not_mem_nil, or_false] at hv
  · rcases hv with rfl | rfl | rfl | rfl | rfl <;> refine neat_pointCmd _ ?_ ?_ <;> first | exact .str _ | exact .num _
  · rcases hv with rfl | rfl | rfl | rfl | rfl | rfl <;> refine neat_pointCmd _ ?_ ?_ <;> first | exact .str _ | exact .num _

theorem neat_ends (b : Bool) (t : Text) : ∀ v ∈ (if b then plugEndCommands t else socketEndCommands t), Neat v := by
  intro v hv
  cases b <;> simp only [Bool.false_eq_true, if_false, if_true, plugEndCommands, socketEndCommands, List.mem_cons, List.not_mem_nil, or_false] at hv <;>
    rcases hv with rfl | rfl <;> refine neat_pointCmd _ ?_ ?_ <;> first | exact .str _ | exact .num _

theorem neat_joint (o : FingerJoint) : Neat (.map o.map) := by
  refine .map (show List.Nodup ["type".toList, "params".toList, "padding_left".toList, "padding_right".toList, "from".toList, "to".toList, "handle".toList,
    "transforms".toList, "repeatable".toList, "left".toList, "right".toList] by decide +kernel) ?_ ?_ <;> intro e he <;>
    simp only [FingerJoint.map, List.mem_cons, List.not_mem_nil, or_false] at he
  · rcases he with rfl | rfl | rfl | rfl | rfl | rfl | rfl | rfl | rfl | rfl | rfl <;> simp only <;> decide +kernel
  · rcases he with rfl | rfl | rfl | rfl | rfl | rfl | rfl | rfl | rfl | rfl | rfl
    · exact .str _
    · refine .map (show List.Nodup ["finger_width".toList, "finger_height".toList, "finger_space".toList] by decide +kernel) ?_ ?_ <;> intro e he <;>
        simp only [List.mem_cons, List.not_mem_nil, or_false] at he
      · rcases he with rfl | rfl | rfl <;> simp only <;> decide +kernel
      · rcases he with rfl | rfl | rfl <;> exact .num _
    · exact .str _
    · exact .str _
    · exact neat_pair _
    · exact neat_pair _
    · exact .str _
    · refine .list fun v hv => ?_
      rw [List.mem_singleton] at hv
      subst hv
      refine .map (show List.Nodup ["type".toList, "close_path".toList] by decide +kernel) ?_ ?_ <;> intro e he <;> simp only [List.mem_cons, List.not_mem_nil, or_false] at he
      · rcases he with rfl | rfl <;> simp only <;> decide +kernel
      · rcases he with rfl | rfl
        · exact .str _
        · exact .bool _
    · exact neat_drawing (neat_commands _)
    · exact neat_drawing (neat_ends _ _)
    · exact neat_drawing (neat_ends _ _)

theorem make_joint (w : World (XNum ℝ)) (n : Nat) (o : FingerJoint) : w.make [] (n + 2) o.map = .val (o.node w) := by
  have ht : o.map.lookup typeKey = some (.str Built.repeatEdge.text) := rfl
  have h1 := make_drawing w [] n (drawingMap (if o.plug then plugCommands else socketCommands)) rfl
  have h2 := make_drawing w [] n (drawingMap (if o.plug then plugEndCommands "left_width".toList else socketEndCommands "left_width".toList)) rfl
  have h3 := make_drawing w [] n (drawingMap (if o.plug then plugEndCommands "right_width".toList else socketEndCommands "right_width".toList)) rfl
  have hm : makeList (w.make [] (n + 1)) (Built.repeatEdge.holes.map (sub o.map)) = .val [componentNode w (drawingMap (if o.plug then plugCommands else socketCommands)),
      componentNode w (drawingMap (if o.plug then plugEndCommands "left_width".toList else socketEndCommands "left_width".toList)),
      componentNode w (drawingMap (if o.plug then plugEndCommands "right_width".toList else socketEndCommands "right_width".toList))] := by
    show makeList (w.make [] (n + 1)) [drawingMap (if o.plug then plugCommands else socketCommands),
      drawingMap (if o.plug then plugEndCommands "left_width".toList else socketEndCommands "left_width".toList),
      drawingMap (if o.plug then plugEndCommands "right_width".toList else socketEndCommands "right_width".toList)] = _
    simp only [makeList, h1, h2, h3]
  rw [World.make]
  simp only [text_type w (b := .repeatEdge) ht, built_text, World.create, clone_neat (neat_joint o), hm]
  rfl

theorem neat_board (o : Board) : o.piece.Neat := by
  intro c hc
  obtain ⟨j, _, rfl⟩ := List.mem_map.mp hc
  exact neat_joint j

section Documents

variable (m : Machine (XNum ℝ) O) (hf : 2 ≤ m.fuel) (hl : ReadsJoints m.lib) (ht : Faithful m.toInt)

include hf in
theorem madeOf_joint (o : FingerJoint) : m.world.make [] m.fuel o.map = .val (o.node m.world) := by
  obtain ⟨f, hf'⟩ : ∃ f, m.fuel = f + 2 := ⟨m.fuel - 2, by omega⟩
  rw [hf', make_joint]

include hf hl ht

theorem render_joints {doc : Elem (XNum ℝ)} (hd : Bare doc) (p : Piece) : ∀ (js : List FingerJoint), (∀ j ∈ js, j.Fits) → ∀ cursor : Point (XNum ℝ),
    ∃ (ps : List (Path ℝ)) (ls : List (Live (XNum ℝ))),
      renderAllOf (m.render m.fuel (pieceSpot doc p)) (js.map fun j => live m.world (j.node m.world)) [] cursor = .ok (ps.map finPath, ls, []) ∧
      (∀ p ∈ ps, Inked none p) ∧ ps.flatMap strokes = js.flatMap FingerJoint.draws
  | [], _, _ => ⟨[], [], rfl, by simp, rfl⟩
  | j :: js, h, cursor => by
    obtain ⟨r, c', h1, h2, h3, -⟩ := render_joint m hf hl ht hd p j (h j (by simp)) cursor
    have hne : r ≠ [] := by
      rintro rfl
      have : j.draws = [] := h2.symm
      simp [FingerJoint.draws, comb] at this
    obtain ⟨last, hlast⟩ := last_of_ne (show finPath r ≠ [] by simpa [finPath] using hne)
    obtain ⟨ps, ls, k1, k2, k3⟩ := render_joints hd p js (fun j' h' => h j' (by simp [h'])) last.stop
    refine ⟨r :: ps, c' :: ls, ?_, ?_, ?_⟩
    · simp only [List.map_cons, renderAllOf, h1, Res.ok_bind, hlast, k1]
    · intro q hq
      rcases List.mem_cons.mp hq with rfl | hq
      · obtain ⟨a, b, rest, rfl, hi⟩ := readAsDrawn_inked hne h3
        exact hi
      · exact k2 q hq
    · simp only [List.flatMap_cons, h2, k3]

theorem drawsBoard {doc : Elem (XNum ℝ)} (hd : Bare doc) (o : Board) (ho : o.WellMade) : DrawsPiece m (madeOf m.world m.fuel) doc o.piece o.draws := by
  obtain ⟨ps, ls, h1, h2, h3⟩ := render_joints m hf hl ht hd o.piece o.joints ho.fits (finPt origin)
  refine ⟨ps, ls, h2, h3, ?_⟩
  rw [← h1]
  congr 1
  show (o.joints.map FingerJoint.map).map _ = _
  rw [List.map_map]
  refine List.map_congr_left fun j _ => ?_
  simp only [Function.comp_apply, madeOf, madeOf_joint m hf j]

/-- **C153.** Whoever reads the files of a document of boards with finger joints sees every board once, with its name: the combs of its joints, each along its line
and with as many fingers as fit between the paddings, shifted or turned as a whole; the boards are kept apart. -/
theorem C153_seen (files : Nat) (s : Sheet ℝ) (hs : 0 ≤ s.padding) (os : List Board) (ho : ∀ o ∈ os, o.WellMade) :
    SheetsShow s (m.sheets (files + 1) (boardDoc s os)) (os.map fun o => (o.id, o.draws)) := by
  have hd := bare_piece m.world (madeOf m.world m.fuel) s (os.map Board.piece) (by
    intro o h
    obtain ⟨o, -, rfl⟩ := List.mem_map.mp h
    exact neat_board o)
  refine pieces_seen m files s hs (madeOf m.world m.fuel) Board.piece Board.draws os (fun o _ => neat_board o) ?_
    (fun o h => ⟨(ho o h).name.1, (ho o h).name.2, (ho o h).sizeable⟩) fun o h => drawsBoard m hf hl ht hd o (ho o h)
  intro o _ c hc
  obtain ⟨j, _, rfl⟩ := List.mem_map.mp hc
  simp only [madeOf, madeOf_joint m hf j]
  exact ⟨trivial, rfl⟩

end Documents

/-! ## Example -/

/-- A small language with the expressions of the shipped joints. -/
noncomputable def jointLib : Lib (XNum ℝ) (Fin 3) where
  parse s :=
    if s = "finger_space / 2".toList then some (.op 0 (.var "finger_space".toList) (.num (.fin 2)))
    else if s = "0-finger_height".toList then some (.op 1 (.num (.fin 0)) (.var "finger_height".toList))
    else if s = "finger_height * 1.1".toList then some (.op 2 (.var "finger_height".toList) (.num (.fin (11 / 10))))
    else some (.var s)
  shortcut _ := none
  op b x y :=
    match b, x, y with
    | 0, .num (.fin x), .num (.fin y) => some (.num (.fin (x / y)))
    | 1, .num (.fin x), .num (.fin y) => some (.num (.fin (x - y)))
    | 2, .num (.fin x), .num (.fin y) => some (.num (.fin (x * y)))
    | _, _, _ => none

theorem jointLib_reads : ReadsJoints jointLib where
  names := by
    intro x hx
    simp only [List.mem_cons, List.not_mem_nil, or_false] at hx
    rcases hx with rfl | rfl | rfl | rfl <;> rfl
  half := ⟨0, rfl, rfl, fun _ => rfl⟩
  minus := ⟨1, rfl, rfl, fun _ => rfl⟩
  times := ⟨2, rfl, rfl, fun _ => rfl⟩

/-- The joint of an example: one finger, with the sizes of the shipped design. -/
noncomputable def exampleJoint (plug : Bool) : FingerJoint := ⟨plug, 1 / 4, 1 / 5, 2 / 5, (0, 0), (5 / 4, 0)⟩

/-- The board of an example. -/
noncomputable def exampleBoard (plug : Bool) : Board := ⟨"side".toList, [exampleJoint plug]⟩

theorem exampleJoint_length (plug : Bool) : lengthOf (exampleJoint plug).start (exampleJoint plug).stop = 5 / 4 := by
  simp only [lengthOf, exampleJoint]
  rw [show ((5 / 4 : ℝ) - 0) ^ 2 + (0 - 0) ^ 2 = (5 / 4) ^ 2 by norm_num, Real.sqrt_sq (by norm_num)]

theorem exampleJoint_pad (plug : Bool) : (exampleJoint plug).pad = 11 / 50 := by
  simp only [FingerJoint.pad, exampleJoint]
  norm_num

theorem exampleJoint_teeth : teeth (1 / 4) (2 / 5) (11 / 50) (11 / 50) (5 / 4) = 1 := by
  rw [teeth, copies, if_pos (by norm_num), Nat.floor_eq_iff (by norm_num)]
  norm_num

theorem exampleJoint_fingers (plug : Bool) : (exampleJoint plug).fingers = 1 := by
  rw [FingerJoint.fingers, exampleJoint_length, exampleJoint_pad]
  exact exampleJoint_teeth

theorem exampleJoint_fits (plug : Bool) : (exampleJoint plug).Fits where
  apart := by
    intro h
    have := congrArg Prod.fst h
    norm_num [exampleJoint] at this
  width := by norm_num [exampleJoint]
  height := by norm_num [exampleJoint]
  space := by norm_num [exampleJoint]
  some := by rw [exampleJoint_fingers]; exact one_ne_zero
  count := by
    rw [exampleJoint_length, exampleJoint_pad]
    norm_num [exampleJoint]
  room := by
    rw [exampleJoint_length, exampleJoint_pad]
    norm_num

theorem exampleJoint_draws (plug : Bool) : (exampleJoint plug).draws =
    comb (if plug then 1 / 5 else 0) (if plug then 0 else 1 / 5) (1 / 4) (2 / 5) (3 / 10) 1 (5 / 4) := by
  have ha : ∀ q : Pt ℝ, Spec.along (0, 0) (5 / 4, 0) q = q := by
    intro q
    have hL : lengthOf ((0, 0) : Pt ℝ) (5 / 4, 0) = 5 / 4 := exampleJoint_length plug
    simp only [Spec.along, hL]
    ext <;> simp
  have hm : Stroke.map (Spec.along (0, 0) (5 / 4, 0)) = id := by
    funext st
    cases st <;> simp [Stroke.map, ha]
  rw [FingerJoint.draws, exampleJoint_length, exampleJoint_fingers, exampleJoint_pad]
  rw [show (exampleJoint plug).start = (0, 0) from rfl, show (exampleJoint plug).stop = (5 / 4, 0) from rfl, hm, List.map_id]
  rw [show teethStart (exampleJoint plug).width (exampleJoint plug).space (11 / 50) (11 / 50) (5 / 4) = 3 / 10 from by
    show teethStart (1 / 4) (2 / 5) (11 / 50) (11 / 50) (5 / 4) = 3 / 10
    rw [teethStart, exampleJoint_teeth]
    norm_num]
  rfl

theorem exampleBoard_wellMade (plug : Bool) : (exampleBoard plug).WellMade where
  name := ⟨by show "side".toList ≠ []; decide, by show Unmarked "side".toList; exact unmarked_of_all (by decide)⟩
  fits := by
    intro j hj
    rw [show (exampleBoard plug).joints = [exampleJoint plug] from rfl, List.mem_singleton] at hj
    subst hj
    exact exampleJoint_fits plug
  sizeable := by
    have e : (exampleBoard plug).draws = comb (if plug then 1 / 5 else 0) (if plug then 0 else 1 / 5) (1 / 4) (2 / 5) (3 / 10) 1 (5 / 4) := by
      rw [← exampleJoint_draws]
      simp [Board.draws, exampleBoard]
    rw [e]
    refine ⟨?_, ?_, ?_⟩
    · exact ⟨_, _, meets_start (a := (0, if plug then 1 / 5 else 0)) (b := (3 / 10, if plug then 1 / 5 else 0)) (by simp [comb]),
        meets_start (a := (3 / 10 + 1 * (2 / 5 + 1 / 4), if plug then 1 / 5 else 0)) (b := (5 / 4, if plug then 1 / 5 else 0)) (by simp [comb]), by norm_num⟩
    · cases plug
      · exact ⟨_, _, meets_start (a := (0, 0)) (b := (3 / 10, 0)) (by simp [comb]),
          meets_start (a := (3 / 10 + 2 / 5 / 2, 1 / 5)) (b := (3 / 10 + 2 / 5 / 2 + 1 / 4, 1 / 5)) (by simp [comb, tooth]), by norm_num⟩
      · exact ⟨_, _, meets_start (a := (3 / 10 + 2 / 5 / 2, 0)) (b := (3 / 10 + 2 / 5 / 2 + 1 / 4, 0)) (by simp [comb, tooth]),
          meets_start (a := (0, 1 / 5)) (b := (3 / 10, 1 / 5)) (by simp [comb]), by norm_num⟩
    · rintro q ⟨st, hst, t, h0, h1, rfl⟩
      have key : ∃ p r : Pt ℝ, st = .line p r ∧ |p.1| < 2 ^ 62 ∧ |p.2| < 2 ^ 62 ∧ |r.1| < 2 ^ 62 ∧ |r.2| < 2 ^ 62 := by
        simp only [comb, tooth, List.range_one, List.flatMap_cons, List.flatMap_nil, List.append_nil, List.cons_append, List.nil_append, List.mem_cons,
          List.not_mem_nil, or_false] at hst
        rcases hst with rfl | rfl | rfl | rfl | rfl | rfl | rfl <;> refine ⟨_, _, rfl, ?_, ?_, ?_, ?_⟩ <;> rw [abs_lt] <;> cases plug <;> norm_num
      obtain ⟨p, r, rfl, k1, k2, k3, k4⟩ := key
      exact ⟨abs_between k1 k3 h0 h1, abs_between k2 k4 h0 h1⟩

/-- **C153** is not empty: a plug and a socket. -/
example (w : World (XNum ℝ)) (toInt : XNum ℝ → Int) (ht : Faithful toInt) (files : Nat) :
    SheetsShow ⟨20, 10, 1⟩ (Machine.sheets ⟨w, jointLib, toInt, 2⟩ (files + 1) (boardDoc ⟨20, 10, 1⟩ [exampleBoard true, exampleBoard false]))
      [("side".toList, comb (1 / 5) 0 (1 / 4) (2 / 5) (3 / 10) 1 (5 / 4)), ("side".toList, comb 0 (1 / 5) (1 / 4) (2 / 5) (3 / 10) 1 (5 / 4))] := by
  have h := C153_seen ⟨w, jointLib, toInt, 2⟩ (le_refl 2) jointLib_reads ht files ⟨20, 10, 1⟩ zero_le_one [exampleBoard true, exampleBoard false] fun o h => by
    simp only [List.mem_cons, List.not_mem_nil, or_false] at h
    rcases h with rfl | rfl <;> exact exampleBoard_wellMade _
  have e : ∀ b, (exampleBoard b).draws = (exampleJoint b).draws := fun b => by simp [Board.draws, exampleBoard]
  simp only [List.map_cons, List.map_nil, e, exampleJoint_draws] at h
  exact h

end Verif.Render
