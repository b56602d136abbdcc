import Verif.Props.Factory
import Verif.Props.Typecast
import Verif.Props.Params

/-!
# Further statements for C46, C92 and C104: limits, defaults, and the values of a URL
-/

namespace Verif.Path

open Verif Verif.Spec

universe u

variable {F : Type u} [Trig F]

/-- The map gives nothing but its name and these numbers and points. -/
structure OnlyGives (m : TransformMap F) (name : String) (numbers : List (String × F)) (points : List (String × Point F)) : Prop where
  name_eq : m.name = name.toList
  number_eq : ∀ k : String, m.number k.toList = numbers.lookup k
  point_eq : ∀ k : String, m.point k.toList = points.lookup k
  text_eq : ∀ k, m.text k = none
  flag_eq : m.closeFlag = none

/-- **C92.** What a transform takes where its map says nothing: three digits, the corner at the top left, no closing, no size, a mirror at a horizontal axis, and a scale that
keeps the drawing. -/
theorem C92_defaults (toInt : F → Int) (m : TransformMap F) (x : F) (q : Point F) :
    (OnlyGives m "cleanup" [] [] → m.make toInt = some (.cleanup 3)) ∧
    (OnlyGives m "rotate" [("degrees", x)] [] → m.make toInt = some (.rotate x "$TOP_LEFT".toList)) ∧
    (OnlyGives m "join" [] [] → m.make toInt = some (.join 3 false)) ∧
    (OnlyGives m "offset" [("distance", x)] [] → m.make toInt = some (.offset 3 x .unknown)) ∧
    (OnlyGives m "move" [] [("to", q)] → m.make toInt = some (.move q "$TOP_LEFT".toList)) ∧
    (OnlyGives m "mirror" [] [] → m.make toInt = some (.mirror .horizontal)) ∧
    (OnlyGives m "scale" [] [] → m.make toInt = some (.scale ⟨Arith.one, Arith.one, origin, origin, Arith.zero, Arith.zero⟩)) ∧
    (OnlyGives m "rotate_scale" [] [] → m.make toInt = some (.rotateScale origin origin)) := by
  have kind : ∀ {k : Kind} {n l p}, OnlyGives m n l p → n.toList = k.text → Kind.ofText m.name = some k := fun h e => by rw [h.name_eq, e, kind_ofText]
  refine ⟨fun h => ?_, fun h => ?_, fun h => ?_, fun h => ?_, fun h => ?_, fun h => ?_, fun h => ?_, fun h => ?_⟩
  · have h1 := h.number_eq "precision"
    unfold TransformMap.make TransformMap.int precisionKey
    rw [kind (k := .cleanup) h rfl, h1]; rfl
  · have h1 := h.number_eq "degrees"
    unfold TransformMap.make TransformMap.handle degreesKey
    rw [kind (k := .rotate) h rfl, h1, h.text_eq]; rfl
  · have h1 := h.number_eq "precision"
    unfold TransformMap.make TransformMap.int precisionKey
    rw [kind (k := .join) h rfl, h1, h.flag_eq]; rfl
  · have h1 := h.number_eq "precision"
    have h2 := h.number_eq "distance"
    unfold TransformMap.make TransformMap.int precisionKey distanceKey
    rw [kind (k := .offset) h rfl, h1, h2, h.text_eq]; rfl
  · have h1 := h.point_eq "to"
    unfold TransformMap.make TransformMap.handle toKey
    rw [kind (k := .move) h rfl]
    simp only
    rw [h1, h.text_eq]; rfl
  · unfold TransformMap.make
    rw [kind (k := .mirror) h rfl]
    simp only
    rw [h.text_eq]; rfl
  · have n1 : m.number scaleXKey = none := h.number_eq "scale_x"
    have n2 : m.number scaleYKey = none := h.number_eq "scale_y"
    have n3 : m.number widthKey = none := h.number_eq "width"
    have n4 : m.number heightKey = none := h.number_eq "height"
    have p1 : m.point startPointKey = none := h.point_eq "start_point"
    have p2 : m.point endPointKey = none := h.point_eq "end_point"
    unfold TransformMap.make
    rw [kind (k := .scale) h rfl, n1, n2, n3, n4, p1, p2]
    rfl
  · have p1 : m.point startPointKey = none := h.point_eq "start_point"
    have p2 : m.point endPointKey = none := h.point_eq "end_point"
    unfold TransformMap.make
    rw [kind (k := .rotateScale) h rfl, p1, p2]
    rfl

/-- Not vacuous. -/
example (x : F) : OnlyGives (F := F) ⟨"rotate".toList, fun _ => none, fun k => if k = "degrees".toList then some x else none, fun _ => none, none⟩ "rotate" [("degrees", x)] [] := by
  refine ⟨rfl, fun k => ?_, fun _ => rfl, fun _ => rfl, rfl⟩
  by_cases h : k = "degrees"
  · subst h; rfl
  · have : k.toList ≠ "degrees".toList := fun e => h (String.toList_inj.1 e)
    have e : (k == "degrees") = false := by simpa using h
    simp only [if_neg this, List.lookup, e]

end Verif.Path

namespace Verif.Dyn

open Verif

universe u

/-- **C104.** A further value comes after those that the key has, and the other keys keep theirs. -/
theorem C104_add (vals : UrlValues) (key v k : Text) :
    (addValue vals key v).lookup k = if k = key then some ((vals.lookup key).getD [] ++ [v]) else vals.lookup k := by
  induction vals with
  | nil =>
    by_cases h : k = key
    · subst h; simp [addValue]
    · have : (k == key) = false := by simpa using h
      simp [addValue, List.lookup, this, h]
  | cons e rest ih =>
    obtain ⟨k', l⟩ := e
    unfold addValue
    by_cases h : k' = key
    · subst h
      rw [if_pos rfl]
      by_cases hk : k = k'
      · subst hk; simp
      · have : (k == k') = false := by simpa using hk
        simp [List.lookup, this, hk]
    · rw [if_neg h]
      by_cases hk : k = k'
      · subst hk
        simp [List.lookup, h]
      · have e1 : (k == k') = false := by simpa using hk
        have e2 : (key == k') = false := by simpa using fun e => h e.symm
        simp only [List.lookup, e1, e2]
        exact ih

example : (addValue [(['a'], [['x']])] ['a'] ['y']).lookup ['a'] = some [['x'], ['y']] := by decide +kernel

variable {F : Type u}

/-- **C46.** The limit is twenty. -/
theorem C46_twenty (c : Chain F) (s : Nat → Text) (k : Nat) (hk : k ≤ 20) (hs : ∀ i, i < k → c.define (s i) = some (.str (s (i + 1)))) (v : Val F)
    (h : c.define (s k) = some v) (hv : NotText v) : c.lookup (s 0) = some v := C46_references c s k hk hs v h hv

/-- **C46.** What takes twenty-one steps is not found on the element. -/
theorem C46_no_more (c : Chain F) (s : Nat → Text) (hs : ∀ i, i ≤ 20 → c.define (s i) = some (.str (s (i + 1)))) :
    c.lookup (s 0) = match c with
      | .document _ _ => none
      | .component _ parent => parent.lookup (s 0) := C46_cycle c s hs

end Verif.Dyn
