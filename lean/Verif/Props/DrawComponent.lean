import Verif.Spec.DrawComponent
import Verif.Props.Scale
import Verif.Props.Affine
import Verif.Lemmas.Parts

/-!
# C88, C89: draw components

C88: which commands are accepted, and that the path of a draw component hangs together and begins at the cursor.
C89: the commands that fit an svg text between the end of the drawing and a given point.
-/

set_option linter.unusedSectionVars false

namespace Verif.Path

open Verif Verif.Spec XNum

universe u

variable {F : Type u} [Trig F]

/-! ## C88 A draw component runs its commands -/

theorem need_ok {α : Type*} {β : Type u} {o : Option α} {f : α → Res β} {b : β} (h : need o f = .ok b) : ∃ a, o = some a ∧ f a = .ok b := by
  cases o with
  | none => cases h
  | some a => exact ⟨a, rfl, h⟩

theorem bind_ok {α β : Type u} {r : Res α} {f : α → Res β} {b : β} (h : (r >>= f) = .ok b) : ∃ a, r = .ok a ∧ f a = .ok b := by
  cases r with
  | ok a => exact ⟨a, rfl, h⟩
  | err => cases h
  | panic => cases h

theorem svgScaleTo_good {p q : Path F} {t : Point F} {s : Text} {r : Bool} (h : svgScaleTo p t s r = .ok q) : GoodStep p q := by
  obtain ⟨a, -, h⟩ := need_ok h
  obtain ⟨b, -, h⟩ := bind_ok h
  simp only [Res.pure_eq, Res.ok.injEq] at h
  exact h ▸ goodStep_addSegments _ _

theorem svgRotateScaleTo_good {p q : Path F} {t : Point F} {s : Text} {r : Bool} (h : svgRotateScaleTo p t s r = .ok q) : GoodStep p q := by
  obtain ⟨a, -, h⟩ := need_ok h
  obtain ⟨b, -, h⟩ := bind_ok h
  simp only [Res.pure_eq, Res.ok.injEq] at h
  exact h ▸ goodStep_addSegments _ _

theorem exec_good {c : Command F} {p q : Path F} (h : c.exec p = .ok q) : GoodStep p q := by
  have R : ∀ d : Cmd F, Res.ok (d.run p) = Res.ok q → GoodStep p q := fun d e => by
    rw [Res.ok.injEq] at e
    exact e ▸ goodStep_run d p
  unfold Command.exec at h
  split at h
  · cases h
  · obtain ⟨a, -, h⟩ := need_ok h; exact R (.moveTo a) h
  · obtain ⟨a, -, h⟩ := need_ok h; exact R (.relMoveTo a) h
  · obtain ⟨a, -, h⟩ := need_ok h; obtain ⟨b, -, h⟩ := need_ok h; exact R (.lineByAngle a b) h
  · obtain ⟨a, -, h⟩ := need_ok h; exact R (.lineTo a) h
  · obtain ⟨a, -, h⟩ := need_ok h; exact R (.relLineTo a) h
  · obtain ⟨a, -, h⟩ := need_ok h; obtain ⟨b, -, h⟩ := need_ok h; obtain ⟨d, -, h⟩ := need_ok h; exact R (.curveTo b d a) h
  · obtain ⟨a, -, h⟩ := need_ok h; obtain ⟨b, -, h⟩ := need_ok h; obtain ⟨d, -, h⟩ := need_ok h; exact R (.relCurveTo b d a) h
  · obtain ⟨a, -, h⟩ := need_ok h; obtain ⟨b, -, h⟩ := need_ok h; exact R (.smoothCurveTo b a) h
  · obtain ⟨a, -, h⟩ := need_ok h; obtain ⟨b, -, h⟩ := need_ok h; exact R (.relSmoothCurveTo b a) h
  · obtain ⟨a, -, h⟩ := need_ok h; exact R (.circle a) h
  · obtain ⟨a, -, h⟩ := need_ok h; obtain ⟨b, -, h⟩ := need_ok h; exact R (.rect a b) h
  · obtain ⟨a, -, h⟩ := need_ok h; obtain ⟨b, -, h⟩ := need_ok h; obtain ⟨d, -, h⟩ := need_ok h; exact R (.roundedCornerTo b d a) h
  · obtain ⟨a, -, h⟩ := need_ok h; obtain ⟨b, -, h⟩ := need_ok h; obtain ⟨d, -, h⟩ := need_ok h; exact R (.relRoundedCornerTo b d a) h
  · obtain ⟨a, -, h⟩ := need_ok h; obtain ⟨b, -, h⟩ := need_ok h; exact R (.addSegments b) h
  · obtain ⟨a, -, h⟩ := need_ok h; obtain ⟨b, -, h⟩ := need_ok h; exact svgScaleTo_good h
  · obtain ⟨a, -, h⟩ := need_ok h; obtain ⟨b, -, h⟩ := need_ok h; exact svgScaleTo_good h
  · obtain ⟨a, -, h⟩ := need_ok h; obtain ⟨b, -, h⟩ := need_ok h; exact svgRotateScaleTo_good h
  · obtain ⟨a, -, h⟩ := need_ok h; obtain ⟨b, -, h⟩ := need_ok h; exact svgRotateScaleTo_good h

theorem execAll_good : ∀ (cs : List (Command F)) {p q : Path F}, execAll cs p = .ok q → GoodStep p q
  | [], p, q, h => by
    simp only [execAll, Res.ok.injEq] at h
    exact h ▸ GoodStep.refl p
  | c :: cs, p, q, h => by
    unfold execAll at h
    split at h
    · next r hr => exact (exec_good hr).trans (execAll_good cs h)
    · cases h
    · cases h

/-- **C88.** Whatever the commands are: a path that is rendered is connected, and begins with a move to the cursor. -/
theorem C88_connected (cursor : Point F) (cs : List (Command F)) (q : Path F) (h : drawRender cursor cs = .ok q) :
    Connected q ∧ ∃ rest, q = .move origin cursor :: rest := by
  obtain ⟨⟨rest, e⟩, h2⟩ := execAll_good cs h
  exact ⟨h2 ⟨meets_refl _, trivial⟩, rest, e.symm⟩

/-- **C88.** What has been drawn stays: the path of a list of commands begins with the path of its first commands. -/
theorem C88_kept (cursor : Point F) (cs ds : List (Command F)) (p q : Path F) (h1 : drawRender cursor cs = .ok p)
    (h2 : drawRender cursor (cs ++ ds) = .ok q) : p <+: q := by
  have key : ∀ (cs : List (Command F)) (a : Path F), execAll cs a = .ok p → execAll (cs ++ ds) a = execAll ds p := by
    intro cs
    induction cs with
    | nil =>
      intro a h
      simp only [execAll, Res.ok.injEq] at h
      simp [h]
    | cons c cs ih =>
      intro a h
      simp only [List.cons_append, execAll] at h ⊢
      cases hc : c.exec a with
      | ok r => rw [hc] at h; exact ih r h
      | err => rw [hc] at h; cases h
      | panic => rw [hc] at h; cases h
  unfold drawRender at h1 h2
  rw [key cs _ h1] at h2
  exact (execAll_good ds h2).1

theorem ofText_name {s : Text} {op : DrawOp} (h : DrawOp.ofText s = some op) : op.text = s := by
  have := List.find?_some h
  simpa using this

theorem ofText_text (op : DrawOp) : DrawOp.ofText op.text = some op := by cases op <;> decide +kernel

theorem need_given {α : Type*} {β : Type u} {o : Option α} {f : α → Res β} (h : need o f ≠ .err) : o.isSome ∧ ∃ a, o = some a ∧ f a ≠ .err := by
  cases o with
  | none => exact absurd rfl h
  | some a => exact ⟨rfl, a, rfl, h⟩

/-- **C88.** A command with an unknown name, or without something that it needs, is refused with an error. -/
theorem C88_refused (c : Command F) (p : Path F) (h : ¬ Complete c) : c.exec p = .err := by
  by_contra H
  apply h
  unfold Command.exec at H
  split at H
  · exact absurd rfl H
  all_goals
    rename_i e
    have hn := ofText_name e
  · obtain ⟨a, -⟩ := need_given H
    exact ⟨("move", [.point "to"]), by simp [commandNeeds], hn, List.forall_mem_cons.2 ⟨a, List.forall_mem_nil _⟩⟩
  · obtain ⟨a, -⟩ := need_given H
    exact ⟨("rel_move", [.point "to"]), by simp [commandNeeds], hn, List.forall_mem_cons.2 ⟨a, List.forall_mem_nil _⟩⟩
  · obtain ⟨a, _, _, H⟩ := need_given H
    obtain ⟨b, -⟩ := need_given H
    exact ⟨("line_by_angle", [.number "length", .number "angle"]), by simp [commandNeeds], hn, List.forall_mem_cons.2 ⟨a, List.forall_mem_cons.2 ⟨b, List.forall_mem_nil _⟩⟩⟩
  · obtain ⟨a, -⟩ := need_given H
    exact ⟨("line", [.point "to"]), by simp [commandNeeds], hn, List.forall_mem_cons.2 ⟨a, List.forall_mem_nil _⟩⟩
  · obtain ⟨a, -⟩ := need_given H
    exact ⟨("rel_line", [.point "to"]), by simp [commandNeeds], hn, List.forall_mem_cons.2 ⟨a, List.forall_mem_nil _⟩⟩
  · obtain ⟨a, _, _, H⟩ := need_given H
    obtain ⟨b, _, _, H⟩ := need_given H
    obtain ⟨d, -⟩ := need_given H
    exact ⟨("curve", [.point "to", .point "ctrl_start", .point "ctrl_end"]), by simp [commandNeeds], hn, List.forall_mem_cons.2 ⟨a, List.forall_mem_cons.2 ⟨b, List.forall_mem_cons.2 ⟨d, List.forall_mem_nil _⟩⟩⟩⟩
  · obtain ⟨a, _, _, H⟩ := need_given H
    obtain ⟨b, _, _, H⟩ := need_given H
    obtain ⟨d, -⟩ := need_given H
    exact ⟨("rel_curve", [.point "to", .point "ctrl_start", .point "ctrl_end"]), by simp [commandNeeds], hn, List.forall_mem_cons.2 ⟨a, List.forall_mem_cons.2 ⟨b, List.forall_mem_cons.2 ⟨d, List.forall_mem_nil _⟩⟩⟩⟩
  · obtain ⟨a, _, _, H⟩ := need_given H
    obtain ⟨b, -⟩ := need_given H
    exact ⟨("smooth_curve", [.point "to", .point "ctrl_end"]), by simp [commandNeeds], hn, List.forall_mem_cons.2 ⟨a, List.forall_mem_cons.2 ⟨b, List.forall_mem_nil _⟩⟩⟩
  · obtain ⟨a, _, _, H⟩ := need_given H
    obtain ⟨b, -⟩ := need_given H
    exact ⟨("rel_smooth_curve", [.point "to", .point "ctrl_end"]), by simp [commandNeeds], hn, List.forall_mem_cons.2 ⟨a, List.forall_mem_cons.2 ⟨b, List.forall_mem_nil _⟩⟩⟩
  · obtain ⟨a, -⟩ := need_given H
    exact ⟨("circle", [.number "radius"]), by simp [commandNeeds], hn, List.forall_mem_cons.2 ⟨a, List.forall_mem_nil _⟩⟩
  · obtain ⟨a, _, _, H⟩ := need_given H
    obtain ⟨b, -⟩ := need_given H
    exact ⟨("rectangle", [.number "width", .number "height"]), by simp [commandNeeds], hn, List.forall_mem_cons.2 ⟨a, List.forall_mem_cons.2 ⟨b, List.forall_mem_nil _⟩⟩⟩
  · obtain ⟨a, _, _, H⟩ := need_given H
    obtain ⟨b, _, _, H⟩ := need_given H
    obtain ⟨d, -⟩ := need_given H
    exact ⟨("round_corner", [.number "radius", .point "to", .point "corner"]), by simp [commandNeeds], hn, List.forall_mem_cons.2 ⟨a, List.forall_mem_cons.2 ⟨b, List.forall_mem_cons.2 ⟨d, List.forall_mem_nil _⟩⟩⟩⟩
  · obtain ⟨a, _, _, H⟩ := need_given H
    obtain ⟨b, _, _, H⟩ := need_given H
    obtain ⟨d, -⟩ := need_given H
    exact ⟨("rel_round_corner", [.number "radius", .point "to", .point "corner"]), by simp [commandNeeds], hn, List.forall_mem_cons.2 ⟨a, List.forall_mem_cons.2 ⟨b, List.forall_mem_cons.2 ⟨d, List.forall_mem_nil _⟩⟩⟩⟩
  · obtain ⟨a, -⟩ := need_given H
    exact ⟨("svg", [.text "svg"]), by simp [commandNeeds], hn, List.forall_mem_cons.2 ⟨a, List.forall_mem_nil _⟩⟩
  · obtain ⟨a, _, _, H⟩ := need_given H
    obtain ⟨b, -⟩ := need_given H
    exact ⟨("svg_scale_to", [.text "svg", .point "to"]), by simp [commandNeeds], hn, List.forall_mem_cons.2 ⟨a, List.forall_mem_cons.2 ⟨b, List.forall_mem_nil _⟩⟩⟩
  · obtain ⟨a, _, _, H⟩ := need_given H
    obtain ⟨b, -⟩ := need_given H
    exact ⟨("rel_svg_scale_to", [.text "svg", .point "to"]), by simp [commandNeeds], hn, List.forall_mem_cons.2 ⟨a, List.forall_mem_cons.2 ⟨b, List.forall_mem_nil _⟩⟩⟩
  · obtain ⟨a, _, _, H⟩ := need_given H
    obtain ⟨b, -⟩ := need_given H
    exact ⟨("svg_connect_to", [.text "svg", .point "to"]), by simp [commandNeeds], hn, List.forall_mem_cons.2 ⟨a, List.forall_mem_cons.2 ⟨b, List.forall_mem_nil _⟩⟩⟩
  · obtain ⟨a, _, _, H⟩ := need_given H
    obtain ⟨b, -⟩ := need_given H
    exact ⟨("rel_svg_connect_to", [.text "svg", .point "to"]), by simp [commandNeeds], hn, List.forall_mem_cons.2 ⟨a, List.forall_mem_cons.2 ⟨b, List.forall_mem_nil _⟩⟩⟩

theorem need_some {α : Type*} {β : Type u} {o : Option α} {f : α → Res β} (h : o.isSome) (k : ∀ a, o = some a → ∃ b, f a = .ok b) :
    ∃ b, need o f = .ok b := by
  cases o with
  | none => cases h
  | some a => exact k a rfl

/-- **C88.** A complete command other than the four that fit an svg text between two points succeeds, if the svg text that it is given can
be read. -/
theorem C88_accepted (c : Command F) (p : Path F) (h : Complete c) (hr : Readable c) (hp : Plain c) : ∃ q, c.exec p = .ok q := by
  obtain ⟨e, he, hn, hg⟩ := h
  simp only [commandNeeds, List.mem_cons, List.not_mem_nil, or_false] at he
  unfold Command.exec
  rcases he with rfl | rfl | rfl | rfl | rfl | rfl | rfl | rfl | rfl | rfl | rfl | rfl | rfl | rfl | rfl | rfl | rfl | rfl
  · rw [← hn, show DrawOp.ofText "move".toList = some .move from ofText_text .move]
    exact need_some (hg (.point "to") (by simp)) fun _ _ => ⟨_, rfl⟩
  · rw [← hn, show DrawOp.ofText "rel_move".toList = some .relMove from ofText_text .relMove]
    exact need_some (hg (.point "to") (by simp)) fun _ _ => ⟨_, rfl⟩
  · rw [← hn, show DrawOp.ofText "line_by_angle".toList = some .lineByAngle from ofText_text .lineByAngle]
    exact need_some (hg (.number "length") (by simp)) fun _ _ => need_some (hg (.number "angle") (by simp)) fun _ _ => ⟨_, rfl⟩
  · rw [← hn, show DrawOp.ofText "line".toList = some .line from ofText_text .line]
    exact need_some (hg (.point "to") (by simp)) fun _ _ => ⟨_, rfl⟩
  · rw [← hn, show DrawOp.ofText "rel_line".toList = some .relLine from ofText_text .relLine]
    exact need_some (hg (.point "to") (by simp)) fun _ _ => ⟨_, rfl⟩
  · rw [← hn, show DrawOp.ofText "curve".toList = some .curve from ofText_text .curve]
    exact need_some (hg (.point "to") (by simp)) fun _ _ => need_some (hg (.point "ctrl_start") (by simp)) fun _ _ =>
      need_some (hg (.point "ctrl_end") (by simp)) fun _ _ => ⟨_, rfl⟩
  · rw [← hn, show DrawOp.ofText "rel_curve".toList = some .relCurve from ofText_text .relCurve]
    exact need_some (hg (.point "to") (by simp)) fun _ _ => need_some (hg (.point "ctrl_start") (by simp)) fun _ _ =>
      need_some (hg (.point "ctrl_end") (by simp)) fun _ _ => ⟨_, rfl⟩
  · rw [← hn, show DrawOp.ofText "smooth_curve".toList = some .smoothCurve from ofText_text .smoothCurve]
    exact need_some (hg (.point "to") (by simp)) fun _ _ => need_some (hg (.point "ctrl_end") (by simp)) fun _ _ => ⟨_, rfl⟩
  · rw [← hn, show DrawOp.ofText "rel_smooth_curve".toList = some .relSmoothCurve from ofText_text .relSmoothCurve]
    exact need_some (hg (.point "to") (by simp)) fun _ _ => need_some (hg (.point "ctrl_end") (by simp)) fun _ _ => ⟨_, rfl⟩
  · rw [← hn, show DrawOp.ofText "circle".toList = some .circle from ofText_text .circle]
    exact need_some (hg (.number "radius") (by simp)) fun _ _ => ⟨_, rfl⟩
  · rw [← hn, show DrawOp.ofText "rectangle".toList = some .rectangle from ofText_text .rectangle]
    exact need_some (hg (.number "width") (by simp)) fun _ _ => need_some (hg (.number "height") (by simp)) fun _ _ => ⟨_, rfl⟩
  · rw [← hn, show DrawOp.ofText "round_corner".toList = some .roundCorner from ofText_text .roundCorner]
    exact need_some (hg (.number "radius") (by simp)) fun _ _ => need_some (hg (.point "to") (by simp)) fun _ _ =>
      need_some (hg (.point "corner") (by simp)) fun _ _ => ⟨_, rfl⟩
  · rw [← hn, show DrawOp.ofText "rel_round_corner".toList = some .relRoundCorner from ofText_text .relRoundCorner]
    exact need_some (hg (.number "radius") (by simp)) fun _ _ => need_some (hg (.point "to") (by simp)) fun _ _ =>
      need_some (hg (.point "corner") (by simp)) fun _ _ => ⟨_, rfl⟩
  · rw [← hn, show DrawOp.ofText "svg".toList = some .svg from ofText_text .svg]
    exact need_some (hg (.text "svg") (by simp)) fun s hs => need_some (hr s hs) fun _ _ => ⟨_, rfl⟩
  all_goals
    exfalso
    apply hp
    rw [← hn]
    simp

/-- A command with no attributes at all. -/
def bare (F : Type u) (name : String) : Command F := ⟨name.toList, fun _ => none, fun _ => none, fun _ => none, fun _ => none⟩

/-- A command with only the point `to`. -/
def withTo {F : Type u} (name : String) (t : Point F) : Command F :=
  ⟨name.toList, fun k => if k = toKey then some t else none, fun _ => none, fun _ => none, fun _ => none⟩

/-- Not vacuous: a line needs its end, and with it it is drawn. -/
example : ¬ Complete (bare ℝ "line") ∧ Complete (withTo "line" (⟨1, 2, 0⟩ : Point ℝ)) ∧ Plain (withTo "line" (⟨1, 2, 0⟩ : Point ℝ)) ∧
    Readable (withTo "line" (⟨1, 2, 0⟩ : Point ℝ)) ∧
    drawRender (⟨0, 0, 0⟩ : Point ℝ) [withTo "line" ⟨1, 2, 0⟩] = .ok [.move origin ⟨0, 0, 0⟩, .line ⟨0, 0, 0⟩ ⟨1, 2, 0⟩] := by
  refine ⟨?_, ⟨("line", [.point "to"]), by simp [commandNeeds], rfl, by simp [Given, withTo, toKey]⟩, ?_, ?_, ?_⟩
  · rintro ⟨e, he, hn, hg⟩
    simp only [commandNeeds, List.mem_cons, List.not_mem_nil, or_false] at he
    rcases he with rfl | rfl | rfl | rfl | rfl | rfl | rfl | rfl | rfl | rfl | rfl | rfl | rfl | rfl | rfl | rfl | rfl | rfl <;>
      first | (exfalso; revert hn; decide +kernel) | simp [Given, bare] at hg
  · show "line".toList ∉ _
    decide +kernel
  · intro s hs
    cases hs
  · simp only [drawRender, execAll, Command.exec, withTo, show DrawOp.ofText "line".toList = some .line from ofText_text .line, need,
      if_pos trivial]
    rfl

/-! ## C89 Fitting an svg text between the end of the drawing and a point -/

theorem nextCommand_good {op : Text} {rest rest' : List Text} {p q : Path F} (h : nextCommand op rest p = some (rest', q)) : GoodStep p q := by
  have R : ∀ d : Cmd F, d.run p = q → GoodStep p q := fun d e => e ▸ goodStep_run d p
  unfold nextCommand at h
  split at h
  iterate 8
    split at h
    · simp only [Option.some.injEq, Prod.mk.injEq] at h
      first
        | exact R (.moveTo _) h.2
        | exact R (.relMoveTo _) h.2
        | exact R (.lineTo _) h.2
        | exact R (.relLineTo _) h.2
        | exact R (.curveTo _ _ _) h.2
        | exact R (.relCurveTo _ _ _) h.2
        | exact R (.smoothCurveTo _ _) h.2
        | exact R (.relSmoothCurveTo _ _) h.2
    · cases h
  · simp only [Option.some.injEq, Prod.mk.injEq] at h
    exact h.2 ▸ GoodStep.refl p
  · cases h

theorem parseLoop_good : ∀ (n : Nat) (its : List Text) {p q : Path F}, parseLoop n its p = some q → GoodStep p q
  | n, [], p, q, h => by
    rw [show parseLoop n [] p = some p by cases n <;> rfl, Option.some.injEq] at h
    exact h ▸ GoodStep.refl p
  | 0, _ :: _, p, q, h => by cases h
  | n + 1, op :: rest, p, q, h => by
    unfold parseLoop at h
    split at h
    · cases h
    · next e => exact (nextCommand_good e).trans (parseLoop_good n _ h)

/-- Whatever the text is: a path that is read hangs together. -/
theorem connected_parsePath {s : Text} {q : Path F} (h : parsePath s = some q) : Connected q := (parseLoop_good _ _ h).2 trivial

theorem connected_svgRun {s : Text} {r : Bool} {q : Path F} (h : svgRun s r = some q) : Connected q := by
  unfold svgRun at h
  obtain ⟨a, ha, e⟩ := Option.map_eq_some_iff.mp h
  cases r with
  | false =>
    simp only [Bool.false_eq_true, if_false] at e
    exact e ▸ connected_parsePath ha
  | true =>
    simp only [if_true] at e
    exact e ▸ connected_reversePath a

theorem meets_xnum {a b : Point (XNum ℝ)} : Meets a b ↔ pt a = pt b := by
  refine ⟨?_, Or.inl⟩
  rintro (h | h)
  · exact h
  · obtain ⟨ax, ay, at'⟩ := a
    obtain ⟨bx, by', bt⟩ := b
    simp only [Point.equals, Bool.and_eq_true] at h
    have key : ∀ u v : XNum ℝ, (u ==. v) = true → u = v := by
      intro u v e
      cases u <;> cases v <;> simp_all [Arith.eq, XNum.eq]
    simp only [pt, key _ _ h.1, key _ _ h.2]

/-- A mapping of points that does not look at the parameter keeps a path together. -/
theorem chained_mapPath {f : Point (XNum ℝ) → Point (XNum ℝ)} (hf : ∀ a b, pt a = pt b → pt (f a) = pt (f b)) {p : Path (XNum ℝ)}
    (h : Chained p) : Chained (mapPath f p) := by
  refine chained_fixHeadMove (chained_headMove ?_)
  rw [chained_iff] at h ⊢
  rw [List.isChain_map]
  refine h.imp ?_
  intro a b hab
  rw [meets_xnum] at hab ⊢
  have e1 : (Segment.mapPoints f a).stop = f a.stop := by cases a <;> rfl
  have e2 : (Segment.mapPoints f b).start = f b.start := by cases b <;> rfl
  rw [e1, e2]
  exact hf _ _ hab

theorem chained_shift (dx dy : XNum ℝ) {p : Path (XNum ℝ)} (h : Chained p) : Chained (shift dx dy p) :=
  chained_mapPath (fun a b e => by
    simp only [pt, Prod.mk.injEq] at e
    simp only [pt, newPoint, e.1, e.2]) h

theorem chained_scaleBy (u v : XNum ℝ) {p : Path (XNum ℝ)} (h : Chained p) : Chained (scaleBy u v p) :=
  chained_mapPath (fun a b e => by
    simp only [pt, Prod.mk.injEq] at e
    simp only [pt, newPoint, e.1, e.2]) h

theorem chained_move {t : Point (XNum ℝ)} {k : Text} {p q : Path (XNum ℝ)} (h : Chained p) (e : move t k p = .ok q) : Chained q := by
  unfold move at e
  split at e
  · cases e
    exact chained_shift _ _ h
  · cases e
  · cases e

theorem chained_rotate {d : XNum ℝ} {k : Text} {p q : Path (XNum ℝ)} (h : Chained p) (e : rotate d k p = .ok q) : Chained q := by
  unfold rotate at e
  split at e
  · split at e
    · next r hr =>
      cases e
      refine chained_shift _ _ (chained_mapPath (fun a b e => ?_) (chained_move h hr))
      simp only [pt, Prod.mk.injEq] at e
      simp only [pt, rotatePoint, newPoint, e.1, e.2]
    · cases e
    · cases e
  · cases e
  · cases e

theorem chained_scale (s : Scale (XNum ℝ)) {p : Path (XNum ℝ)} (h : Chained p) : Chained (scale s p) := by
  unfold scale
  exact chained_scaleBy _ _ h

theorem chained_rotateScale {a b : Point (XNum ℝ)} {p q : Path (XNum ℝ)} (h : Chained p) (e : rotateScale a b p = .ok q) : Chained q := by
  unfold rotateScale at e
  obtain ⟨_, -, e⟩ := bind_ok e
  obtain ⟨r, hr, e⟩ := bind_ok e
  obtain ⟨_, -, e⟩ := bind_ok e
  exact chained_move (chained_scale _ (chained_rotate h hr)) e

/-- The path is empty or begins with a move. -/
def Moved (p : Path F) : Prop := p = [] ∨ ∃ a b rest, p = .move a b :: rest

theorem moved_move {t : Point F} {k : Text} {p q : Path F} (e : move t k p = .ok q) : Moved q := by
  unfold move at e
  split at e
  · cases e
    exact newPath_head _
  · cases e
  · cases e

theorem moved_fin {q : Path ℝ} (h : Moved (finPath q)) : Moved q := by
  cases q with
  | nil => exact Or.inl rfl
  | cons s rest =>
    rcases h with h | ⟨a, b, r, h⟩
    · cases h
    · cases s with
      | move x y => exact Or.inr ⟨x, y, rest, rfl⟩
      | line x y => cases h
      | curve x y z w => cases h

theorem chained_fin {q : Path ℝ} (h : Chained (finPath q)) : Chained q := by
  rw [chained_iff] at h ⊢
  rw [finPath, List.isChain_map] at h
  refine h.imp ?_
  intro a b hab
  rw [meets_xnum] at hab
  rw [meets_iff]
  have e1 : (finSeg a).stop = finPt a.stop := by cases a <;> rfl
  have e2 : (finSeg b).start = finPt b.start := by cases b <;> rfl
  rw [e1, e2] at hab
  simp only [pt, finPt, Prod.mk.injEq, XNum.fin.injEq] at hab
  simp only [pt, hab.1, hab.2]

/-- Adding a path that hangs together and begins with a move adds exactly its strokes. -/
theorem strokes_add_moved {p q : Path F} (hp : p ≠ []) (e : Moved q) (h : Chained q) :
    strokes (addSegments p q) = strokes p ++ strokes q := by
  rcases e with rfl | ⟨a, b, rest, rfl⟩
  · simp [addSegments, strokes]
  · show strokes (addSegments (addSegment p (.move a b)) rest) = _
    rw [strokes_addSegments rest (addSegment_ne_nil _ _) (by rw [addSegment_position]; exact h), addSegment_nonempty hp]
    unfold snapped
    split <;> simp [strokes, strokeOf, Segment.setStart, List.filterMap_cons]

theorem position_finPath (p : Path ℝ) : currentPosition (finPath p) = finPt (currentPosition p) := by
  unfold currentPosition
  rw [finPath, List.getLast?_map]
  cases h : p.getLast? with
  | none => simp [origin_fin]
  | some s => cases s <;> rfl

theorem addSegment_finP (p : Path ℝ) (s : Segment ℝ) : addSegment (finPath p) (finSeg s) = finPath (addSegment p s) := by
  unfold addSegment
  have e1 : (finPath p).isEmpty = p.isEmpty := by cases p <;> rfl
  have e2 : (finSeg s).isMove = s.isMove := by cases s <;> rfl
  have e3 : (if p.isEmpty && !s.isMove then [Segment.move origin (finSeg s).start] else finPath p) =
      finPath (if p.isEmpty && !s.isMove then [Segment.move origin s.start] else p) := by
    split
    · cases s <;> simp only [finPath, List.map_cons, List.map_nil, Segment.start, finSeg, origin_fin]
    · rfl
  simp only [e1, e2, e3]
  set r := (if p.isEmpty && !s.isMove then [Segment.move origin s.start] else p) with hr
  rw [position_finPath, start_finSeg, equals_fin, finPath_append]
  congr 1
  split
  · rfl
  · cases s <;> rfl

theorem addSegments_finP : ∀ (segs p : Path ℝ), addSegments (finPath p) (finPath segs) = finPath (addSegments p segs)
  | [], _ => rfl
  | s :: segs, p => by
    show addSegments (addSegment (finPath p) (finSeg s)) (finPath segs) = _
    rw [addSegment_finP, addSegments_finP segs]
    rfl

theorem end_fin {p : Path ℝ} (hp : p ≠ []) : (startAndEndOf (finPath p)).2 = finPt (currentPosition p) := by
  obtain ⟨a, ha⟩ : ∃ a, p.head? = some a := by
    cases p with
    | nil => exact absurd rfl hp
    | cons s rest => exact ⟨s, rfl⟩
  obtain ⟨b, hb⟩ : ∃ b, p.getLast? = some b := ⟨p.getLast hp, List.getLast?_eq_getLast_of_ne_nil hp⟩
  rw [startAndEndOf_fin ha hb]
  simp only [currentPosition, hb]

/-- **C89.** `svg_connect_to`: the strokes of the svg text are added to the drawing, turned and scaled so that the first of them begins at
the end of the drawing and the last of them ends at the given point. -/
theorem C89_connect (p : Path ℝ) (hp : p ≠ []) (svg : Text) (r : Bool) (q : Path ℝ) (hq : svgRun svg r = some (finPath q)) (hs : Small q)
    (T : Point ℝ) (A B : Pt ℝ) (hA : (strokes q).head?.map Stroke.first = some A) (hB : (strokes q).getLast?.map Stroke.last = some B)
    (hAB : A ≠ B) :
    ∃ x : Path ℝ, svgRotateScaleTo (finPath p) (finPt T) svg r = .ok (finPath x) ∧
      strokes x = strokes p ++ (strokes q).map (Stroke.map (similarity A B (pt (currentPosition p)) (pt T))) ∧
      ((strokes q).map (Stroke.map (similarity A B (pt (currentPosition p)) (pt T)))).head?.map Stroke.first = some (pt (currentPosition p)) ∧
      (strokes x).getLast?.map Stroke.last = some (pt T) := by
  obtain ⟨y, y1, y2⟩ := C78_similarity q hs (currentPosition p) T A B hA hB hAB
  have c : Chained (finPath y) := chained_rotateScale (connected_chained (connected_svgRun hq)) y1
  have m : Moved (finPath y) := by
    have e := y1
    unfold rotateScale at e
    obtain ⟨_, -, e⟩ := bind_ok e
    obtain ⟨_, -, e⟩ := bind_ok e
    obtain ⟨_, -, e⟩ := bind_ok e
    exact moved_move e
  obtain ⟨k1, k2, -⟩ := C78_ends A B (pt (currentPosition p)) (pt T) hAB
  have hst : strokes (addSegments p y) = strokes p ++ (strokes q).map (Stroke.map (similarity A B (pt (currentPosition p)) (pt T))) := by
    rw [strokes_add_moved hp (moved_fin m) (chained_fin c), y2]
  have hq0 : strokes q ≠ [] := by
    intro e
    rw [e] at hA
    cases hA
  refine ⟨addSegments p y, ?_, hst, ?_, ?_⟩
  · simp only [svgRotateScaleTo, hq, need, end_fin hp, y1, Res.ok_bind, addSegments_finP, Res.pure_eq]
  · rw [head_first_map, hA, Option.map_some, k1]
  · rw [hst, List.getLast?_append_of_ne_nil _ (by simpa using hq0), last_last_map, hB, Option.map_some, k2]

/-- Multiplying and shifting so that `a` goes to `b`. -/
def stretch (a b : Point ℝ) (kx ky : ℝ) (z : Pt ℝ) : Pt ℝ := (b.x + kx * (z.1 - a.x), b.y + ky * (z.2 - a.y))

theorem svgScaleTo_fin (p : Path ℝ) (hp : p ≠ []) (svg : Text) (r : Bool) (q : Path ℝ) (hq : svgRun svg r = some (finPath q)) (a : Point ℝ)
    (T : Point ℝ) (hA : (strokes q).head?.map Stroke.first = some (pt a)) (kx ky : ℝ) (y : Path ℝ)
    (h1 : scale (scaleTo 0 0 (currentPosition p) T 0 0) (finPath q) = finPath y)
    (h2 : strokes y = (strokes q).map (Stroke.map (scalePt kx ky))) :
    ∃ x : Path ℝ, svgScaleTo (finPath p) (finPt T) svg r = .ok (finPath x) ∧
      strokes x = strokes p ++ (strokes q).map (Stroke.map (stretch a (currentPosition p) kx ky)) := by
  have hq0 : strokes y ≠ [] := by
    intro e
    rw [h2, List.map_eq_nil_iff] at e
    rw [e] at hA
    cases hA
  obtain ⟨c, c1, c2⟩ := startPoint_fin y hq0
  rw [h2, head_first_map, hA, Option.map_some, Option.some.injEq] at c2
  have hm : move (finPt (currentPosition p)) Attr.startPoint.text (finPath y) =
      .ok (finPath (shift ((currentPosition p).x - c.x) ((currentPosition p).y - c.y) y)) := by
    simp only [move, handleOf_text, c1]
    rw [← shift_fin]
    simp only [finPt, sub_fin]
  have hch : Chained (finPath y) := h1 ▸ chained_scale _ (connected_chained (connected_svgRun hq))
  refine ⟨addSegments p (shift ((currentPosition p).x - c.x) ((currentPosition p).y - c.y) y), ?_, ?_⟩
  · have e : (⟨Arith.zero, Arith.zero, finPt (currentPosition p), finPt T, Arith.zero, Arith.zero⟩ : Scale (XNum ℝ)) =
        scaleTo 0 0 (currentPosition p) T 0 0 := by
      simp only [scaleTo, Bezier.zero_fin]
    simp only [svgScaleTo, hq, need, end_fin hp, e, h1, hm, Res.ok_bind, addSegments_finP, Res.pure_eq]
  · rw [strokes_add_moved hp (moved_fin (moved_move hm)) (chained_fin (chained_move hch hm)), C27_shift, h2, List.map_map]
    congr 1
    apply List.map_congr_left
    intro st _
    simp only [Function.comp_apply, stroke_map_map]
    congr 1
    funext z
    have z1 := congrArg Prod.fst c2
    have z2 := congrArg Prod.snd c2
    simp only [pt, scalePt] at z1 z2
    ext
    · simp only [Function.comp_apply, translate, scalePt, stretch, ← z1]
      ring
    · simp only [Function.comp_apply, translate, scalePt, stretch, ← z2]
      ring

theorem same_sign {u v : ℝ} (h : 0 < u * v) {k : ℝ} (hk : 0 ≤ k) (e : |v * k| = |u|) : k * v = u := by
  rcases pos_and_pos_or_neg_and_neg_of_mul_pos h with ⟨a, b⟩ | ⟨a, b⟩
  · rw [abs_of_nonneg (by positivity), abs_of_pos a] at e
    linarith
  · rw [abs_of_nonpos (by nlinarith), abs_of_neg a] at e
    linarith

/-- **C89.** `svg_scale_to`: if the svg text leads in the same direction, left or right and up or down, as the given point lies from the end
of the drawing, its strokes are added stretched so that the first of them begins at the end of the drawing and the last ends at the point. -/
theorem C89_scale (p : Path ℝ) (hp : p ≠ []) (svg : Text) (r : Bool) (q : Path ℝ) (hq : svgRun svg r = some (finPath q)) (a b : Segment ℝ)
    (ha : q.head? = some a) (hb : q.getLast? = some b) (hA : (strokes q).head?.map Stroke.first = some (pt a.stop))
    (hB : (strokes q).getLast?.map Stroke.last = some (pt b.stop)) (T : Point ℝ)
    (hx : 0 < (T.x - (currentPosition p).x) * (b.stop.x - a.stop.x)) (hy : 0 < (T.y - (currentPosition p).y) * (b.stop.y - a.stop.y)) :
    ∃ (x : Path ℝ) (kx ky : ℝ), svgScaleTo (finPath p) (finPt T) svg r = .ok (finPath x) ∧ 0 ≤ kx ∧ 0 ≤ ky ∧
      strokes x = strokes p ++ (strokes q).map (Stroke.map (stretch a.stop (currentPosition p) kx ky)) ∧
      stretch a.stop (currentPosition p) kx ky (pt a.stop) = pt (currentPosition p) ∧
      stretch a.stop (currentPosition p) kx ky (pt b.stop) = pt T ∧ (strokes x).getLast?.map Stroke.last = some (pt T) := by
  have ne : ∀ {u v w z : ℝ}, 0 < (u - v) * (w - z) → v ≠ u ∧ z ≠ w := by
    intro u v w z h
    constructor
    · rintro rfl
      simp at h
    · rintro rfl
      simp at h
  obtain ⟨y, y1, kx, ky, k1, k2, y2, y3, y4, -⟩ := C87_both q a b ha hb 0 0 0 0 le_rfl le_rfl (currentPosition p) T (ne hx).1 (ne hy).1
    (ne hx).2 (ne hy).2
  obtain ⟨x, x1, x2⟩ := svgScaleTo_fin p hp svg r q hq a.stop T hA kx ky y y1 y2
  have y3 := y3 trivial
  have y4 := y4 trivial
  simp only [scalePt, pt, ← sub_mul] at y3 y4
  have e1 := same_sign hx k1 y3
  have e2 := same_sign hy k2 y4
  have eT : stretch a.stop (currentPosition p) kx ky (pt b.stop) = pt T := by
    simp only [stretch, pt, e1, e2]
    ext <;> simp
  have hq0 : strokes q ≠ [] := by
    intro e
    rw [e] at hA
    cases hA
  refine ⟨x, kx, ky, x1, k1, k2, x2, ?_, eT, ?_⟩
  · simp [stretch, pt]
  · rw [x2, List.getLast?_append_of_ne_nil _ (by simpa using hq0), last_last_map, hB, Option.map_some, eT]

/-- **C89.** `svg_scale_to` with the end of the drawing as the given point shrinks the svg text to that point. -/
theorem C89_scale_same (p : Path ℝ) (hp : p ≠ []) (svg : Text) (r : Bool) (q : Path ℝ) (hq : svgRun svg r = some (finPath q)) (a : Point ℝ)
    (hA : (strokes q).head?.map Stroke.first = some (pt a)) :
    ∃ x : Path ℝ, svgScaleTo (finPath p) (finPt (currentPosition p)) svg r = .ok (finPath x) ∧
      strokes x = strokes p ++ (strokes q).map (Stroke.map fun _ => pt (currentPosition p)) := by
  obtain ⟨y, y1, y2⟩ := C87_factors q 0 0 0 0 le_rfl le_rfl (currentPosition p)
  obtain ⟨x, x1, x2⟩ := svgScaleTo_fin p hp svg r q hq a (currentPosition p) hA 0 0 y y1 y2
  refine ⟨x, x1, ?_⟩
  rw [x2]
  congr 3
  funext z
  simp [stretch, pt]

/-- `svg_scale_to` ends the drawing at the given point, wherever the point is. -/
def C89_reach_statement : Prop :=
  ∀ (p : Path ℝ) (svg : Text) (q : Path ℝ) (a b : Segment ℝ) (T : Point ℝ) (x : Path ℝ), p ≠ [] → svgRun svg false = some (finPath q) →
    q.head? = some a → q.getLast? = some b → (strokes q).head?.map Stroke.first = some (pt a.stop) →
    (strokes q).getLast?.map Stroke.last = some (pt b.stop) → a.stop.x ≠ b.stop.x → a.stop.y ≠ b.stop.y →
    (currentPosition p).x ≠ T.x → (currentPosition p).y ≠ T.y →
    svgScaleTo (finPath p) (finPt T) svg false = .ok (finPath x) → (strokes x).getLast?.map Stroke.last = some (pt T)

/-- The path of the text `M 0 0 L 1 1`. -/
def readDiagonal : Path ℝ := [.move ⟨0, 0, -1⟩ ⟨0, 0, -1⟩, .line ⟨0, 0, -1⟩ ⟨1, 1, -1⟩]

theorem toFloat_zero : toFloat (F := XNum ℝ) "0".toList = some (fin 0) := by
  change (match Decimal.parseDecimal (trimSpace "0".toList) with
    | some d => some (fin (Decimal.value d))
    | none => parseSpecial (trimSpace "0".toList)) = some (fin 0 : XNum ℝ)
  rw [show Decimal.parseDecimal (trimSpace "0".toList) = some ⟨false, 0, 0⟩ by decide +kernel]
  simp [Decimal.value]

theorem toFloat_one : toFloat (F := XNum ℝ) "1".toList = some (fin 1) := by
  change (match Decimal.parseDecimal (trimSpace "1".toList) with
    | some d => some (fin (Decimal.value d))
    | none => parseSpecial (trimSpace "1".toList)) = some (fin 1 : XNum ℝ)
  rw [show Decimal.parseDecimal (trimSpace "1".toList) = some ⟨false, 1, 0⟩ by decide +kernel]
  simp [Decimal.value]

theorem readDiagonal_text : svgRun (F := XNum ℝ) "M 0 0 L 1 1".toList false = some (finPath readDiagonal) := by
  have e : items "M 0 0 L 1 1".toList = [['M'], "0".toList, "0".toList, ['L'], "1".toList, "1".toList] := by decide +kernel
  simp only [svgRun, parsePath, e, parseItems, List.length_cons, List.length_nil, parseLoop, nextCommand, List.head?_cons, nextFloats,
    toFloat_zero, toFloat_one]
  simp [readDiagonal, finPath, finSeg, finPt, moveTo, lineTo, newPoint, currentPosition, Segment.stop, origin]

/-- A drawing that has got to `(5, 5)`. -/
def atFive : Path ℝ := [.move ⟨0, 0, -1⟩ ⟨5, 5, 0⟩]

/-- **C89.** This is false: a point back to the left is not reached. The line of `M 0 0 L 1 1` drawn from `(5, 5)` to `(3, 3)` ends at
`(7, 7)`. -/
theorem C89_reach_false : ¬ C89_reach_statement := by
  intro H
  obtain ⟨y, y1, kx, ky, k1, -, y2, y3, -⟩ := C87_both readDiagonal (.move ⟨0, 0, -1⟩ ⟨0, 0, -1⟩) (.line ⟨0, 0, -1⟩ ⟨1, 1, -1⟩) rfl rfl 0 0 0 0
    le_rfl le_rfl (currentPosition atFive) ⟨3, 3, 0⟩ (by norm_num [atFive, currentPosition, Segment.stop])
    (by norm_num [atFive, currentPosition, Segment.stop]) (by norm_num [Segment.stop]) (by norm_num [Segment.stop])
  obtain ⟨x, x1, x2⟩ := svgScaleTo_fin atFive (by simp [atFive]) _ false readDiagonal readDiagonal_text ⟨0, 0, -1⟩ ⟨3, 3, 0⟩ rfl kx ky y y1 y2
  have h := H atFive _ readDiagonal (.move ⟨0, 0, -1⟩ ⟨0, 0, -1⟩) (.line ⟨0, 0, -1⟩ ⟨1, 1, -1⟩) ⟨3, 3, 0⟩ x (by simp [atFive])
    readDiagonal_text rfl rfl rfl rfl (by norm_num [Segment.stop]) (by norm_num [Segment.stop])
    (by norm_num [atFive, currentPosition, Segment.stop]) (by norm_num [atFive, currentPosition, Segment.stop]) x1
  rw [x2] at h
  simp [atFive, readDiagonal, strokes, strokeOf, Stroke.map, Stroke.last, stretch, pt, currentPosition, Segment.stop] at h
  linarith [h.1]

/-- Not vacuous: from `(5, 5)` on to `(7, 8)` the line is stretched. -/
example : ∃ x : Path ℝ, svgScaleTo (finPath atFive) (finPt ⟨7, 8, 0⟩) "M 0 0 L 1 1".toList false = .ok (finPath x) ∧
    (strokes x).getLast?.map Stroke.last = some (7, 8) := by
  obtain ⟨x, _, _, h1, -, -, -, -, -, h2⟩ := C89_scale atFive (by simp [atFive]) _ false readDiagonal readDiagonal_text
    (.move ⟨0, 0, -1⟩ ⟨0, 0, -1⟩) (.line ⟨0, 0, -1⟩ ⟨1, 1, -1⟩) rfl rfl rfl rfl ⟨7, 8, 0⟩
    (by norm_num [atFive, currentPosition, Segment.stop]) (by norm_num [atFive, currentPosition, Segment.stop])
  exact ⟨x, h1, h2⟩

/-- Not vacuous: back to `(3, 3)` the line is turned around by `svg_connect_to`. -/
example : ∃ x : Path ℝ, svgRotateScaleTo (finPath atFive) (finPt ⟨3, 3, 0⟩) "M 0 0 L 1 1".toList false = .ok (finPath x) ∧
    (strokes x).getLast?.map Stroke.last = some (3, 3) := by
  obtain ⟨x, h1, -, -, h2⟩ := C89_connect atFive (by simp [atFive]) _ false readDiagonal readDiagonal_text
    (by intro a c d b h; simp [readDiagonal, strokes, strokeOf] at h) ⟨3, 3, 0⟩ (0, 0) (1, 1) rfl rfl (by simp)
  exact ⟨x, h1, h2⟩

end Verif.Path
