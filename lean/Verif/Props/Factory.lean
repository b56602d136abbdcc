import Verif.Spec.Factory
import Verif.Props.Scale
import Verif.Props.Affine
import Verif.Lemmas.Parts

/-!
# Properties of the transform factories
-/

set_option linter.unusedSectionVars false

namespace Verif.Path

open Verif Verif.Spec

universe u

variable {F : Type u} [Trig F]

/-! ## C92 Transforms are made from their maps, all of them or none -/

theorem kind_text {s : Text} {k : Kind} (h : Kind.ofText s = some k) : k.text = s := by
  have := List.find?_some h
  simpa using this

theorem kind_ofText (k : Kind) : Kind.ofText k.text = some k := by cases k <;> decide +kernel

/-- What each kind needs. -/
def kindNeeds : Kind → String × List Need
  | .cleanup => ("cleanup", [])
  | .rotate => ("rotate", [.number "degrees"])
  | .reverse => ("reverse", [])
  | .join => ("join", [])
  | .offset => ("offset", [.number "distance"])
  | .move => ("move", [.point "to"])
  | .trim => ("trim", [])
  | .matrix => ("matrix", [.number "a", .number "b", .number "c", .number "d", .number "e", .number "f"])
  | .mirror => ("mirror", [])
  | .scale => ("scale", [])
  | .slice => ("slice", [.number "y"])
  | .rotateScale => ("rotate_scale", [])

theorem kindNeeds_text (k : Kind) : (kindNeeds k).1.toList = k.text := by cases k <;> rfl

theorem transformNeeds_eq : transformNeeds = Kind.all.map kindNeeds := rfl

theorem make_kind (toInt : F → Int) (m : TransformMap F) (k : Kind) (h : m.name = k.text) : (m.make toInt).isSome ↔ ∀ n ∈ (kindNeeds k).2, Has m n := by
  unfold TransformMap.make
  rw [h, kind_ofText]
  cases k <;> simp only [kindNeeds, Has, List.mem_cons, List.not_mem_nil, or_false, forall_eq, Option.isSome_some, Option.isSome_map,
    false_imp_iff, implies_true]
  case rotate => rfl
  case offset => rfl
  case move => rfl
  case slice => rfl
  case matrix =>
    simp only [forall_eq_or_imp, forall_eq]
    unfold matrixKeys
    cases ha : m.number "a".toList <;> cases hb : m.number "b".toList <;> cases hc : m.number "c".toList <;> cases hd : m.number "d".toList <;>
      cases he : m.number "e".toList <;> cases hf : m.number "f".toList <;>
      simp only [List.mapM_cons, List.mapM_nil, ha, hb, hc, hd, he, hf, Option.bind_eq_bind, Option.bind_some, Option.bind_none, Option.pure_def, Option.isSome_some,
        Option.isSome_none, Bool.false_eq_true, and_false, false_and, and_self]

/-- **C92.** A transform is made exactly when its name is one of the twelve and the map has what this transform needs. -/
theorem C92_made (toInt : F → Int) (m : TransformMap F) : (m.make toInt).isSome ↔ Makeable m := by
  unfold Makeable
  rw [transformNeeds_eq]
  constructor
  · intro h
    cases hk : Kind.ofText m.name with
    | none => unfold TransformMap.make at h; rw [hk] at h; cases h
    | some k =>
      refine ⟨kindNeeds k, List.mem_map.mpr ⟨k, by cases k <;> decide, rfl⟩, ?_, ?_⟩
      · rw [kindNeeds_text, kind_text hk]
      · exact (make_kind toInt m k (kind_text hk).symm).mp h
  · rintro ⟨e, he, hn, hg⟩
    obtain ⟨k, _, rfl⟩ := List.mem_map.mp he
    rw [kindNeeds_text] at hn
    exact (make_kind toInt m k hn.symm).mpr hg

/-- **C92.** The transform `reorder`, which the program contains, cannot be asked for. -/
theorem C92_reorder (toInt : F → Int) (m : TransformMap F) (h : m.name = "reorder".toList) : m.make toInt = none := by
  have : Kind.ofText m.name = none := by rw [h]; decide +kernel
  unfold TransformMap.make
  rw [this]

theorem makeAll_isSome (toInt : F → Int) (ms : List (TransformMap F)) : (makeAll toInt ms).isSome ↔ ∀ m ∈ ms, Makeable m := by
  unfold makeAll
  induction ms with
  | nil => simp
  | cons m ms ih =>
    rw [List.mapM_cons, List.forall_mem_cons, ← ih, ← C92_made toInt m]
    cases m.make toInt <;> cases List.mapM (fun m => TransformMap.make m toInt) ms <;> simp

/-- **C92.** If one of the maps cannot be made into a transform, there is an error, whatever the path and the other maps are: no transform is applied. -/
theorem C92_all_or_nothing (toInt : F → Int) (fuel : Nat) (ms : List (TransformMap F)) (p : Path F) (h : ∃ m ∈ ms, ¬ Makeable m) :
    handleTransforms toInt fuel ms p = .err := by
  have : makeAll toInt ms = none := by
    rw [← Option.not_isSome_iff_eq_none, makeAll_isSome]
    push Not
    exact h
  unfold handleTransforms
  rw [this]

theorem multiTransform_append {P : Type u} (a b : List (P → Res P)) (p : P) :
    multiTransform (a ++ b) p = match multiTransform a p with
      | .ok q => multiTransform b q
      | .err => .err
      | .panic => .panic := by
  induction a generalizing p with
  | nil => rfl
  | cons f a ih =>
    simp only [List.cons_append, multiTransform]
    cases f p with
    | ok q => exact ih q
    | err => rfl
    | panic => rfl

theorem makeAll_append (toInt : F → Int) (a b : List (TransformMap F)) (ta tb : List (Transform F)) (ha : makeAll toInt a = some ta)
    (hb : makeAll toInt b = some tb) : makeAll toInt (a ++ b) = some (ta ++ tb) := by
  unfold makeAll at *
  rw [List.mapM_append, ha, hb]
  rfl

/-- **C92.** The transforms are applied in the order in which they are listed: the first ones, and then the others to the result. -/
theorem C92_order (toInt : F → Int) (fuel : Nat) (a b : List (TransformMap F)) (p q : Path F) (c : Point F) (hb : ∀ m ∈ b, Makeable m)
    (h : handleTransforms toInt fuel a p = .ok (q, c)) : handleTransforms toInt fuel (a ++ b) p = handleTransforms toInt fuel b q := by
  obtain ⟨tb, hb⟩ := Option.isSome_iff_exists.mp ((makeAll_isSome toInt b).mpr hb)
  unfold handleTransforms at h
  cases ha : makeAll toInt a with
  | none => rw [ha] at h; cases h
  | some ta =>
    rw [ha] at h
    simp only at h
    have hq : multiTransform (ta.map (Transform.run fuel)) p = .ok q := by
      split at h
      · next r e =>
        split at h
        · cases h
        · simp only [Res.ok.injEq, Prod.mk.injEq] at h
          rw [e, h.1]
      · cases h
      · cases h
    unfold handleTransforms
    rw [makeAll_append toInt a b ta tb ha hb, hb]
    simp only [List.map_append]
    rw [multiTransform_append, hq]

/-- **C92.** The cursor is where the path ends. -/
theorem C92_cursor (toInt : F → Int) (fuel : Nat) (ms : List (TransformMap F)) (p q : Path F) (c : Point F) (h : handleTransforms toInt fuel ms p = .ok (q, c)) :
    ∃ s, q.getLast? = some s ∧ c = s.stop := by
  unfold handleTransforms at h
  split at h
  · cases h
  · split at h
    · split at h
      · cases h
      · next s e =>
        simp only [Res.ok.injEq, Prod.mk.injEq] at h
        obtain ⟨rfl, rfl⟩ := h
        exact ⟨s, e, rfl⟩
    · cases h
    · cases h

/-- **C92.** Without transforms the path stays as it is. -/
theorem C92_none (toInt : F → Int) (fuel : Nat) (p : Path F) (s : Segment F) (h : p.getLast? = some s) : handleTransforms toInt fuel [] p = .ok (p, s.stop) := by
  simp [handleTransforms, makeAll, multiTransform, h]

/-- One transform. -/
theorem handle_one (toInt : F → Int) (fuel : Nat) (m : TransformMap F) (t : Transform F) (p q : Path F) (hm : m.make toInt = some t) (hr : t.run fuel p = .ok q)
    (hq : q ≠ []) : ∃ c, handleTransforms toInt fuel [m] p = .ok (q, c) := by
  refine ⟨(q.getLast hq).stop, ?_⟩
  simp only [handleTransforms, makeAll, List.mapM_cons, List.mapM_nil, hm, Option.bind_eq_bind, Option.bind_some, Option.pure_def, List.map_cons, List.map_nil,
    multiTransform, hr]
  rw [List.getLast?_eq_some_getLast hq]

theorem map_ne_nil {p : Path F} (f : Point F → Point F) (h : p ≠ []) : mapPath f p ≠ [] := newPath_ne_nil (by simpa using h)

/-- **C92.** A map of the type `matrix` applies the matrix of its six numbers. -/
theorem C92_matrix (toInt : ℝ → Int) (fuel : Nat) (m : TransformMap ℝ) (M : Matrix ℝ) (p : Path ℝ) (hp : p ≠ []) (hn : m.name = "matrix".toList)
    (ha : m.number "a".toList = some M.a) (hb : m.number "b".toList = some M.b) (hc : m.number "c".toList = some M.c)
    (hd : m.number "d".toList = some M.d) (he : m.number "e".toList = some M.e) (hf : m.number "f".toList = some M.f) :
    ∃ q c, handleTransforms toInt fuel [m] p = .ok (q, c) ∧ strokes q = (strokes p).map (Stroke.map M.apply) := by
  have hm : m.make toInt = some (.matrix M.a M.b M.c M.d M.e M.f) := by
    unfold TransformMap.make
    rw [hn, show Kind.ofText "matrix".toList = some .matrix from kind_ofText .matrix]
    simp only [matrixKeys, List.mapM_cons, List.mapM_nil, ha, hb, hc, hd, he, hf, Option.bind_eq_bind, Option.bind_some, Option.pure_def]
  obtain ⟨c, h⟩ := handle_one toInt fuel m _ p _ hm rfl (map_ne_nil _ hp)
  exact ⟨_, c, h, C77_strokes M p⟩

/-- **C92.** A map of the type `move` puts the top left corner, or the handle that it names, to its point `to`. -/
theorem C92_move (toInt : F → Int) (fuel : Nat) (m : TransformMap F) (t h : Point F) (s : Text) (p : Path F) (hp : p ≠ []) (hn : m.name = "move".toList)
    (ht : m.point "to".toList = some t)
    (hs : m.text "handle".toList = none ∧ s = "$TOP_LEFT".toList ∨ m.text "handle".toList = some s ∧ acceptsAttr (F := F) s ∧ s ≠ [])
    (hh : pointAttribute s p = .ok h) :
    ∃ c, handleTransforms toInt fuel [m] p = .ok (shift (t.x -. h.x) (t.y -. h.y) p, c) := by
  have e : m.handle "handle".toList "$TOP_LEFT".toList = s := by
    unfold TransformMap.handle
    rcases hs with ⟨h1, rfl⟩ | ⟨h1, h2, _⟩
    · rw [h1]; rfl
    · rw [h1, Option.bind_some, if_pos h2]; rfl
  have hm : m.make toInt = some (.move t s) := by
    have k : Kind.ofText m.name = some .move := by rw [hn]; exact kind_ofText .move
    unfold TransformMap.make
    rw [k]
    dsimp only
    rw [show m.point toKey = some t from ht, ← e]
    rfl
  refine handle_one toInt fuel m _ p _ hm ?_ (map_ne_nil _ hp)
  have e : handleOf s = s := by
    unfold handleOf
    rw [if_neg]
    rcases hs with ⟨_, rfl⟩ | ⟨_, _, h3⟩
    · decide
    · exact h3
  simp only [Transform.run, Path.move, e]
  rw [hh]

theorem scaleFactors_given (u v : ℝ) (p : Path ℝ) : scaleFactors ⟨u, v, origin, origin, Arith.zero, Arith.zero⟩ p = (u, v) := by
  have h : (Arith.zero <. (Arith.zero : ℝ)) = false := by simp [Arith.lt_field]
  have e : (origin : Point ℝ).equals origin = true := by simp [Point.equals]
  unfold scaleFactors
  simp only [h, e, Bool.or_self, Bool.not_true, Bool.false_eq_true, if_false]

/-- **C92.** A map of the type `scale` without a size and without points multiplies the coordinates by its numbers, of which each is 1 if it is missing; so
without any attributes it changes nothing. -/
theorem C92_scale (toInt : ℝ → Int) (fuel : Nat) (m : TransformMap ℝ) (p : Path ℝ) (hp : p ≠ []) (hn : m.name = "scale".toList)
    (h1 : m.number "width".toList = none) (h2 : m.number "height".toList = none) (h3 : m.point "start_point".toList = none)
    (h4 : m.point "end_point".toList = none) :
    ∃ q c, handleTransforms toInt fuel [m] p = .ok (q, c) ∧
      strokes q = (strokes p).map (Stroke.map (scalePt ((m.number "scale_x".toList).getD 1) ((m.number "scale_y".toList).getD 1))) := by
  have one : (Arith.one : ℝ) = 1 := by simp [Arith.one]
  have hm : m.make toInt = some (.scale ⟨(m.number "scale_x".toList).getD 1, (m.number "scale_y".toList).getD 1, origin, origin, Arith.zero, Arith.zero⟩) := by
    have k : Kind.ofText m.name = some .scale := by rw [hn]; exact kind_ofText .scale
    have e1 : (m.number widthKey).getD Arith.zero = Arith.zero := by rw [show m.number widthKey = none from h1]; rfl
    have e2 : (m.number heightKey).getD Arith.zero = Arith.zero := by rw [show m.number heightKey = none from h2]; rfl
    have e3 : (m.point startPointKey).getD origin = origin := by rw [show m.point startPointKey = none from h3]; rfl
    have e4 : (m.point endPointKey).getD origin = origin := by rw [show m.point endPointKey = none from h4]; rfl
    unfold TransformMap.make
    rw [k]
    dsimp only
    rw [e1, e2, e3, e4, one]
    rfl
  have hq : Path.scale ⟨(m.number "scale_x".toList).getD 1, (m.number "scale_y".toList).getD 1, origin, origin, Arith.zero, Arith.zero⟩ p =
      scaleBy ((m.number "scale_x".toList).getD 1) ((m.number "scale_y".toList).getD 1) p := by
    unfold Path.scale
    rw [scaleFactors_given]
  obtain ⟨c, h⟩ := handle_one toInt fuel m _ p (scaleBy ((m.number "scale_x".toList).getD 1) ((m.number "scale_y".toList).getD 1) p) hm
    (by simp only [Transform.run, hq]) (map_ne_nil _ hp)
  exact ⟨_, c, h, C30_strokes _ _ p⟩

/-- **C92.** A map of the type `mirror` mirrors upside down unless its axis is exactly `vertical`. -/
theorem C92_mirror (toInt : F → Int) (m : TransformMap F) (hn : m.name = "mirror".toList) :
    m.make toInt = some (.mirror .vertical) ∧ m.text "axis".toList = some "vertical".toList ∨
      m.make toInt = some (.mirror .horizontal) ∧ m.text "axis".toList ≠ some "vertical".toList := by
  unfold TransformMap.make
  rw [hn, show Kind.ofText "mirror".toList = some .mirror from kind_ofText .mirror]
  by_cases h : m.text axisKey = some "vertical".toList
  · left
    exact ⟨by simp only [h, if_true], h⟩
  · right
    exact ⟨by simp only [h, if_false], h⟩

/-- **C92.** A map of the type `rotate` turns around the point of the path that its axis names, and around the top left corner if there is no such axis. -/
theorem C92_rotate (toInt : F → Int) (m : TransformMap F) (d : F) (hn : m.name = "rotate".toList) (hd : m.number "degrees".toList = some d) :
    (∀ s, m.text "axis".toList = some s → acceptsAttr (F := F) s → m.make toInt = some (.rotate d s)) ∧
    ((∀ s, m.text "axis".toList = some s → ¬ acceptsAttr (F := F) s) → m.make toInt = some (.rotate d "$TOP_LEFT".toList)) := by
  have hm : m.make toInt = some (.rotate d (m.handle axisKey Attr.topLeft.text)) := by
    unfold TransformMap.make
    rw [hn, show Kind.ofText "rotate".toList = some .rotate from kind_ofText .rotate]
    simp only [show m.number degreesKey = some d from hd, Option.map_some]
  rw [hm]
  unfold TransformMap.handle
  constructor
  · intro s hs ha
    rw [show m.text axisKey = some s from hs, Option.bind_some, if_pos ha, Option.getD_some]
  · intro h
    cases e : m.text axisKey with
    | none => rfl
    | some s => rw [Option.bind_some, if_neg (h s e)]; rfl

/-- **C92.** A map of the type `offset`: the size is one of the two words, everything else means that it does not matter; the precision is 3 unless there
is another one. -/
theorem C92_offset (toInt : F → Int) (m : TransformMap F) (d : F) (hn : m.name = "offset".toList) (hd : m.number "distance".toList = some d) :
    ∃ s, m.make toInt = some (.offset (((m.number "precision".toList).map toInt).getD 3) d s) ∧
      (s = .smaller ↔ m.text "size_should_be".toList = some "smaller".toList) ∧ (s = .larger ↔ m.text "size_should_be".toList = some "larger".toList) := by
  refine ⟨sizeOfText (m.text sizeKey), ?_, ?_, ?_⟩
  · unfold TransformMap.make
    rw [hn, show Kind.ofText "offset".toList = some .offset from kind_ofText .offset]
    simp only [show m.number distanceKey = some d from hd, Option.map_some]
    rfl
  all_goals
    rw [show "size_should_be".toList = sizeKey from rfl]
    unfold sizeOfText
    by_cases h1 : m.text sizeKey = some "smaller".toList
    · rw [if_pos h1, h1]; simp
    · rw [if_neg h1]
      by_cases h2 : m.text sizeKey = some "larger".toList
      · rw [if_pos h2, h2]; simp
      · rw [if_neg h2]
        first
        | exact ⟨nofun, fun h => absurd h h1⟩
        | exact ⟨nofun, fun h => absurd h h2⟩

/-- **C92.** Maps of the types `cleanup`, `join`, `slice`, `reverse`, `trim` and `rotate_scale`: what is missing is replaced by the precision 3, no closing and
the origin. -/
theorem C92_others (toInt : F → Int) (m : TransformMap F) :
    (m.name = "cleanup".toList → m.make toInt = some (.cleanup (((m.number "precision".toList).map toInt).getD 3))) ∧
    (m.name = "join".toList → m.make toInt = some (.join (((m.number "precision".toList).map toInt).getD 3) (m.closeFlag.getD false))) ∧
    (∀ y, m.name = "slice".toList → m.number "y".toList = some y → m.make toInt = some (.slice y)) ∧
    (m.name = "reverse".toList → m.make toInt = some .reverse) ∧
    (m.name = "trim".toList → m.make toInt = some .trim) ∧
    (m.name = "rotate_scale".toList →
      m.make toInt = some (.rotateScale ((m.point "start_point".toList).getD origin) ((m.point "end_point".toList).getD origin))) := by
  refine ⟨fun hn => ?_, fun hn => ?_, fun y hn hy => ?_, fun hn => ?_, fun hn => ?_, fun hn => ?_⟩ <;> unfold TransformMap.make <;> rw [hn]
  · rw [show Kind.ofText "cleanup".toList = some .cleanup from kind_ofText .cleanup]; rfl
  · rw [show Kind.ofText "join".toList = some .join from kind_ofText .join]; rfl
  · rw [show Kind.ofText "slice".toList = some .slice from kind_ofText .slice]
    simp only [show m.number yNameKey = some y from hy, Option.map_some]
  · rw [show Kind.ofText "reverse".toList = some .reverse from kind_ofText .reverse]
  · rw [show Kind.ofText "trim".toList = some .trim from kind_ofText .trim]
  · rw [show Kind.ofText "rotate_scale".toList = some .rotateScale from kind_ofText .rotateScale]; rfl

/-- Not vacuous: a scaling without attributes, and a rotation without degrees after it. -/
example : ∃ a b : TransformMap ℝ, Makeable a ∧ ¬ Makeable b ∧
    (∃ q c, handleTransforms (fun _ => 0) 0 [a] [.move ⟨0, 0, 0⟩ ⟨0, 0, 0⟩, .line ⟨0, 0, 0⟩ ⟨1, 2, 0⟩] = .ok (q, c) ∧
      strokes q = (strokes [.move ⟨0, 0, 0⟩ ⟨0, 0, 0⟩, .line ⟨0, 0, 0⟩ ⟨1, 2, 0⟩]).map (Stroke.map (scalePt 1 1))) ∧
    handleTransforms (fun _ => 0) 0 [a, b] [.move ⟨0, 0, 0⟩ ⟨0, 0, 0⟩, .line ⟨0, 0, 0⟩ ⟨1, 2, 0⟩] = .err := by
  have hb : ¬ Makeable (⟨"rotate".toList, fun _ => none, fun _ => none, fun _ => none, none⟩ : TransformMap ℝ) := by
    rw [← C92_made fun _ => 0, make_kind _ _ .rotate rfl]
    intro h
    have := h (.number "degrees") (by simp [kindNeeds])
    simp [Has] at this
  refine ⟨⟨"scale".toList, fun _ => none, fun _ => none, fun _ => none, none⟩, ⟨"rotate".toList, fun _ => none, fun _ => none, fun _ => none, none⟩, ?_, hb, ?_, ?_⟩
  · exact ⟨("scale", []), by simp [transformNeeds], rfl, by simp⟩
  · exact C92_scale _ _ _ _ (by simp) rfl rfl rfl rfl rfl
  · exact C92_all_or_nothing _ _ _ _ ⟨_, by simp, hb⟩

end Verif.Path
