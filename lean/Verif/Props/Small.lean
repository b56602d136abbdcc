import Verif.Model.Small
import Verif.Lemmas.BinPacking
import Verif.Props.Attr
import Verif.Props.Helpers
import Verif.Double

/-!
# C134: further small functions
-/

set_option linter.unusedSectionVars false

namespace Verif.BinPacking

open Verif Verif.Spec

universe u v

variable {K : Type u} [Field K] [LinearOrder K] [IsStrictOrderedRing K] {O : Type v}

/-- All bins of a tree. -/
def Bin.all : Bin K O → List (Bin K O)
  | .free b => [.free b]
  | .full b o => [.full b o]
  | .split b l r => .split b l r :: (l.all ++ r.all)

/-- The second box is below the first one; together they are the box. -/
def Stacked (b l r : Box K) : Prop :=
  l.x = b.x ∧ r.x = b.x ∧ l.width = b.width ∧ r.width = b.width ∧ l.y = b.y ∧ r.y = l.y + l.height ∧ l.height + r.height = b.height

/-- The second box is to the right of the first one; together they are the box. -/
def SideBySide (b l r : Box K) : Prop :=
  l.y = b.y ∧ r.y = b.y ∧ l.height = b.height ∧ r.height = b.height ∧ l.x = b.x ∧ r.x = l.x + l.width ∧ l.width + r.width = b.width

/-- What the flag says is so. -/
def FlagRight (t : Bin K O) : Prop :=
  ∀ b l r, t = .split b l r →
    (t.isHorizontalSplit = true → Stacked b l.fields r.fields) ∧
    (t.isHorizontalSplit = false → SideBySide b l.fields r.fields ∧ ¬ Stacked b l.fields r.fields)

theorem splitBoxes_flag {b : Box K} {W H : K} (rot : Bool) (hW : 0 < W) :
    let s := splitBoxes b rot W H
    ((s.1.x ==. s.2.x) = true → Stacked b s.1 s.2) ∧ ((s.1.x ==. s.2.x) = false → SideBySide b s.1 s.2 ∧ ¬ Stacked b s.1 s.2) := by
  have ne : b.x ≠ b.x + W := fun h => hW.ne' (by linarith)
  unfold splitBoxes
  simp only [Arith.sub_field, Arith.lt_field, Arith.add_field, Arith.eq_field, decide_eq_true_eq, decide_eq_false_iff_not]
  split
  · refine ⟨fun h => absurd h ne, fun _ => ⟨⟨rfl, rfl, rfl, rfl, rfl, rfl, ?_⟩, fun h => ne h.2.1.symm⟩⟩
    show W + (b.width - W) = b.width
    ring
  · refine ⟨fun _ => ⟨rfl, rfl, rfl, rfl, rfl, rfl, ?_⟩, fun h => absurd rfl h⟩
    show H + (b.height - H) = b.height
    ring

theorem insertFree_flags {w h : K} (hw : 0 ≤ w) (hh : 0 ≤ h) (o : O) :
    ∀ (fuel : Nat) (b : Box K) t res, insertFree fuel b o w h = some (t, res) → t.fields = b ∧ ∀ s ∈ t.all, FlagRight s := by
  intro fuel
  induction fuel with
  | zero => intro b t res hi; simp [insertFree] at hi
  | succ n ih =>
    intro b t res hi
    rw [insertFree] at hi
    split at hi
    · cases hi
      exact ⟨rfl, by simp [Bin.all, FlagRight]⟩
    next hdeg =>
    rw [degenerate_iff, not_or] at hdeg
    split at hi
    · cases hi
      exact ⟨rfl, by simp [Bin.all, FlagRight]⟩
    next rot W H ho =>
    split at hi
    · cases hi
      exact ⟨rfl, by simp [Bin.all, FlagRight]⟩
    obtain ⟨hW, hH, hc⟩ := orient_some ho
    have hW0 : 0 < W := by
      rcases hc with ⟨_, rfl, rfl⟩ | ⟨_, rfl, rfl, _⟩
      · exact lt_of_le_of_ne hw (Ne.symm hdeg.1)
      · exact lt_of_le_of_ne hh (Ne.symm hdeg.2)
    simp only at hi
    split at hi
    · cases hi
    next l at_ hl =>
    cases hi
    obtain ⟨e, hs⟩ := ih _ _ _ hl
    refine ⟨rfl, fun s hs' => ?_⟩
    simp only [Bin.all, List.mem_cons, List.mem_append, List.not_mem_nil, or_false] at hs'
    rcases hs' with rfl | hs' | rfl
    · rintro b' l' r' ⟨⟩
      have := splitBoxes_flag (b := b) (H := H) rot hW0
      simp only [Bin.isHorizontalSplit, e]
      exact this
    · exact hs s hs'
    · simp [FlagRight]

theorem insert_flags {w h : K} (hw : 0 ≤ w) (hh : 0 ≤ h) (o : O) (fuel : Nat) (t : Bin K O) (ht : ∀ s ∈ t.all, FlagRight s) :
    ∀ t' res, t.insert fuel o w h = some (t', res) → t'.fields = t.fields ∧ ∀ s ∈ t'.all, FlagRight s := by
  induction t with
  | free b => exact fun t' res hi => insertFree_flags hw hh o fuel b t' res hi
  | full b o' =>
    intro t' res hi
    cases hi
    exact ⟨rfl, ht⟩
  | split b l r ihl ihr =>
    simp only [Bin.all, List.mem_cons, List.mem_append] at ht
    have key : ∀ (l' r' : Bin K O), l'.fields = l.fields → r'.fields = r.fields → (∀ s ∈ l'.all, FlagRight s) → (∀ s ∈ r'.all, FlagRight s) →
        ∀ s ∈ (Bin.split b l' r').all, FlagRight s := by
      intro l' r' el er hl hr s hs
      simp only [Bin.all, List.mem_cons, List.mem_append] at hs
      rcases hs with rfl | hs | hs
      · rintro b' l'' r'' ⟨⟩
        have := ht _ (.inl rfl) _ _ _ rfl
        simpa only [Bin.isHorizontalSplit, el, er] using this
      · exact hl s hs
      · exact hr s hs
    intro t' res hi
    rw [Bin.insert] at hi
    split at hi
    · cases hi
    · next l' at_ hl =>
      cases hi
      obtain ⟨e, hs⟩ := ihl (fun s h => ht s (.inr (.inl h))) _ _ hl
      exact ⟨rfl, key l' r e rfl hs fun s h => ht s (.inr (.inr h))⟩
    · next l' hl =>
      obtain ⟨e, hs⟩ := ihl (fun s h => ht s (.inr (.inl h))) _ _ hl
      split at hi
      · cases hi
      · next r' res' hr =>
        cases hi
        obtain ⟨e', hs'⟩ := ihr (fun s h => ht s (.inr (.inr h))) _ _ hr
        exact ⟨rfl, key l' r' e e' hs hs'⟩

/-- **C134.** (a) Whatever was inserted before: the flag of a bin with children says whether its children are one below the other, and otherwise they are
side by side and not one below the other. Together they are the bin. -/
theorem C134_horizontal (c : Container K O) (h : Reachable c) :
    ∀ t ∈ c.root.all, ∀ b l r, t = .split b l r →
      (t.isHorizontalSplit = true → Stacked b l.fields r.fields) ∧
      (t.isHorizontalSplit = false → SideBySide b l.fields r.fields ∧ ¬ Stacked b l.fields r.fields) := by
  obtain ⟨x, y, W, H, reqs, results, hr, hrun⟩ := h
  have key : ∀ (reqs : List (Request K O)), (∀ r ∈ reqs, 0 ≤ r.w ∧ 0 ≤ r.h) → ∀ (c0 c : Container K O) results,
      (∀ s ∈ c0.root.all, FlagRight s) → c0.insertAll reqs = some (c, results) → ∀ s ∈ c.root.all, FlagRight s := by
    intro reqs
    induction reqs with
    | nil =>
      intro _ c0 c results h0 hrun
      cases hrun
      exact h0
    | cons r rs ih =>
      intro hr c0 c results h0 hrun
      rw [Container.insertAll] at hrun
      split at hrun
      · cases hrun
      next c1 res h1 =>
      split at hrun
      · cases hrun
      next c2 ress h2 =>
      cases hrun
      refine ih (fun r' h' => hr r' (by simp [h'])) c1 _ _ ?_ h2
      rw [Container.insert] at h1
      split at h1
      · cases h1
      next root res' hi =>
      cases h1
      exact (insert_flags (hr r (by simp)).1 (hr r (by simp)).2 r.obj _ _ h0 _ _ hi).2
  exact key reqs hr _ _ _ (by simp [newContainer, newBin, Bin.all, FlagRight]) hrun

/-- **C134.** (a) A bin without children is not split. -/
theorem C134_unsplit (b : Box K) (o : O) :
    (Bin.free b : Bin K O).isHorizontalSplit = false ∧ (Bin.full b o).isHorizontalSplit = false := ⟨rfl, rfl⟩

example : ((newContainer 0 0 10 10 : Container ℚ Nat).insert 7 4 2).map (fun r => (r.1.root.isHorizontalSplit, r.1.root.all.map Bin.isHorizontalSplit)) =
    some (true, [true, false, false, false, false]) := by decide +kernel

end Verif.BinPacking

namespace Verif.PlanSet

open Verif

universe u

variable {K : Type u} [Field K] [LinearOrder K] [IsStrictOrderedRing K]

/-- **C134.** (b) The position for a split is half of the width or a third of it. If pieces of half the width are shorter than a side of the sheet, it is half; if
only pieces of a third are, it is a third; if neither are, it is half. -/
theorem C134_position (w dw dh : K) :
    (w / 2 < dw ∨ w / 2 < dh → positionForSplit w dw dh = w / 2) ∧
    (¬ (w / 2 < dw ∨ w / 2 < dh) → (w / 3 < dw ∨ w / 3 < dh) → positionForSplit w dw dh = w / 3) ∧
    (¬ (w / 2 < dw ∨ w / 2 < dh) → ¬ (w / 3 < dw ∨ w / 3 < dh) → positionForSplit w dw dh = w / 2) := by
  simp only [positionForSplit, Arith.two, Arith.div_field, Arith.lit_zero_field, Arith.lt_field, Bool.or_eq_true, decide_eq_true_eq, Int.cast_ofNat]
  refine ⟨fun h => if_pos h, fun h h' => by rw [if_neg h, if_pos h'], fun h h' => by rw [if_neg h, if_neg h']⟩

/-- **C134.** (b) For a width that is not negative the position is within the width, and as long as a third of the width is shorter than a side of the sheet, the piece
before the position is too. -/
theorem C134_position_fits (w dw dh : K) (hw : 0 ≤ w) :
    0 ≤ positionForSplit w dw dh ∧ positionForSplit w dw dh ≤ w ∧
    ((w / 3 < dw ∨ w / 3 < dh) → positionForSplit w dw dh < dw ∨ positionForSplit w dw dh < dh) := by
  obtain ⟨h1, h2, h3⟩ := C134_position w dw dh
  by_cases h : w / 2 < dw ∨ w / 2 < dh
  · rw [h1 h]
    exact ⟨by positivity, by linarith, fun _ => h⟩
  · by_cases h' : w / 3 < dw ∨ w / 3 < dh
    · rw [h2 h h']
      exact ⟨by positivity, by linarith, fun h => h⟩
    · rw [h3 h h']
      exact ⟨by positivity, by linarith, fun h => absurd h h'⟩

/-- **C134.** (b) The rest after the position need not be shorter than a side of the sheet: a strip of 27 on a sheet of 10 by 10 is cut at 9, and 18 are left. -/
theorem C134_position_rest_false : positionForSplit (27 : ℚ) 10 10 = 9 ∧ ¬ ((27 : ℚ) - 9 < 10) := by decide +kernel

end Verif.PlanSet

namespace Verif.Path

open Verif Verif.Spec

universe u

/-- **C134.** (c) The short text of a point is that of the rounded point. -/
theorem C134_rounded (p : Point ℝ) :
    p.stringRounded = '(' :: Num.fmt 3 (newPointRounded p.x p.y).x ++ ',' :: Num.fmt 3 (newPointRounded p.x p.y).y ++ [')'] := by
  have e : ∀ x : ℝ, (if (x ==. Arith.zero) = true then Arith.zero else x) = x := by
    intro x
    split
    · next h => simpa using (show (0 : ℝ) = x from (by simpa using h : x = 0).symm)
    · rfl
  simp only [Point.stringRounded, e, newPointRounded, newPoint_eq]

/-- **C134.** (c) Whatever the arithmetic, with one zero or with two, a coordinate that is rounded to a zero is written as the zero without a sign. -/
theorem C134_unsigned {F : Type u} [Num F] (p : Point F) : ∃ x y : F, p.stringRounded = '(' :: Num.fmt 3 x ++ ',' :: Num.fmt 3 y ++ [')'] ∧
    (∀ r : F, r = Num.round (p.x *. Arith.lit 1000 0) /. Arith.lit 1000 0 → if (r ==. Arith.zero) = true then x = Arith.zero else x = r) ∧
    (∀ r : F, r = Num.round (p.y *. Arith.lit 1000 0) /. Arith.lit 1000 0 → if (r ==. Arith.zero) = true then y = Arith.zero else y = r) := by
  refine ⟨_, _, rfl, ?_, ?_⟩ <;> rintro r rfl <;> split <;> rfl

/-- Not vacuous: over the rational numbers `0.0004` is written as zero. -/
example : (⟨1 / 2500, 1 / 2, 0⟩ : Point ℚ).stringRounded = '(' :: Num.fmt 3 (0 : ℚ) ++ ',' :: Num.fmt 3 (1 / 2 : ℚ) ++ [')'] := by decide +kernel

end Verif.Path

namespace Verif.Bezier

open Verif

universe u

variable {K : Type u} [Field K] [LinearOrder K]

theorem contains_iff (l : List K) (x : K) : contains l x = true ↔ x ∈ l := by
  simp [contains]

theorem deDup_field (l seen : List K) (hn : seen.Nodup) :
    (deDup l seen).Nodup ∧ (∀ x, x ∈ deDup l seen ↔ x ∈ l ∨ x ∈ seen) ∧ ∃ k, deDup l seen = seen ++ k ∧ k.Sublist l := by
  induction l generalizing seen with
  | nil => exact ⟨hn, by simp [deDup], [], by simp [deDup], by simp⟩
  | cons a l ih =>
    rw [deDup]
    split
    · next h =>
      rw [contains_iff] at h
      obtain ⟨h1, h2, k, h3, h4⟩ := ih seen hn
      refine ⟨h1, fun x => ?_, k, h3, h4.cons a⟩
      rw [h2, List.mem_cons]
      constructor
      · rintro (h | h)
        · exact .inl (.inr h)
        · exact .inr h
      · rintro ((rfl | h) | h')
        · exact .inr h
        · exact .inl h
        · exact .inr h'
    · next h =>
      rw [contains_iff] at h
      obtain ⟨h1, h2, k, h3, h4⟩ := ih (seen ++ [a]) (by
        rw [List.nodup_append]
        exact ⟨hn, by simp, by simpa using fun x hx (e : x = a) => h (e ▸ hx)⟩)
      refine ⟨h1, fun x => ?_, a :: k, by rw [h3]; simp, h4.cons_cons a⟩
      rw [h2, List.mem_append, List.mem_singleton, List.mem_cons]
      tauto

/-- **C134.** (d) Removing duplicates from numbers keeps every number once, in the order of the list. -/
theorem C134_dedup (l : List K) : (deDup l []).Nodup ∧ (∀ x, x ∈ deDup l [] ↔ x ∈ l) ∧ (deDup l []).Sublist l := by
  obtain ⟨h1, h2, k, h3, h4⟩ := deDup_field l [] List.nodup_nil
  exact ⟨h1, fun x => by simpa using h2 x, by rw [h3]; exact h4⟩

/-- **C134.** (d) A number is inserted at the end, and only if the list does not have it. -/
theorem C134_insert (l : List K) (x : K) :
    (x ∈ l → insertIfAbsent l x = l) ∧ (x ∉ l → insertIfAbsent l x = l ++ [x]) := by
  simp only [insertIfAbsent, contains_iff]
  exact ⟨fun h => if_pos h, fun h => if_neg h⟩

/-- NaN as a double. -/
def nanDouble : Double := ⟨.nan⟩

/-- **C134.** (d) With doubles NaN is never found: it is inserted every time, and none of its copies is removed. -/
theorem C134_nan (l : List Double) :
    insertIfAbsent l nanDouble = l ++ [nanDouble] ∧
    deDup [nanDouble, nanDouble, Arith.one, nanDouble, Arith.one] [] = [nanDouble, nanDouble, Arith.one, nanDouble] := by
  constructor
  · have : contains l nanDouble = false := by
      rw [contains, List.any_eq_false]
      intro n _
      cases n with
      | mk n => cases n <;> simp [Arith.eq, nanDouble, XNum.eq]
    rw [insertIfAbsent, this]
    rfl
  · decide +kernel

end Verif.Bezier

namespace Verif.Render

open Verif Verif.Path

universe u

/-- **C134.** (e) Measuring a component gives an error, whatever the component is. -/
theorem C134_measure {F : Type u} [Trig F] : (measureComponent : Res (F × F)) = .err := rfl

end Verif.Render

namespace Verif.Dyn

open Verif Verif.Path Verif.Spec

universe u

variable {F : Type u}

mutual
theorem toMap_eq (m : DMap F) : toMap m = m := by
  match m with
  | [] => rfl
  | (k, v) :: rest => rw [toMap, toMapValue_eq v, toMap_eq rest]

theorem toMapValue_eq (v : Val F) : toMapValue v = v := by
  match v with
  | .map m => rw [toMapValue, toMap_eq m]
  | .null => rfl
  | .bool _ => rfl
  | .num _ => rfl
  | .str _ => rfl
  | .list _ => rfl
end

/-- **C134.** (f) The copy of a map has the same content at every depth. -/
theorem C134_toMap (m : DMap F) : toMap m = m := toMap_eq m

/-- **C134.** (f) A map is empty exactly when no key has a value. -/
theorem C134_empty (m : DMap F) : mapIsEmpty m = true ↔ ∀ key, get m key = none := by
  constructor
  · intro h key
    have : m = [] := by simpa [mapIsEmpty, mapLength] using h
    rw [this]
    exact get_nil key
  · intro h
    cases m with
    | nil => rfl
    | cons e m =>
      obtain ⟨k, v⟩ := e
      have := h k
      rw [get, List.lookup_cons_self] at this
      cases this

/-- **C134.** (f) A key has a map exactly when its value can be taken for one. -/
theorem C134_containsMap (m : DMap F) (key : Text) :
    containsDynMap m key = true ↔ ∃ v, get m key = some v ∧ isDynMapConvertable v = true := by
  simp only [containsDynMap, getDynMap]
  cases h : get m key with
  | none => simp
  | some v => cases v <;> simp [isDynMapConvertable, Val.toMap]

/-- **C134.** (f) A value that is no truth value or no integer is replaced by the default, and any other by what it is converted to. -/
theorem C134_must (toInt : F → Int) (v : Val F) :
    (∀ b d, toBool v = some b → mustBoolOf v d = b) ∧ (∀ d, toBool v = none → mustBoolOf v d = d) ∧
    (∀ i d, toInt64 toInt v = some i → mustIntOf toInt v d = i) ∧ (∀ d, toInt64 toInt v = none → mustIntOf toInt v d = d) :=
  ⟨fun b d h => by simp [mustBoolOf, h], fun d h => by simp [mustBoolOf, h], fun i d h => by simp [mustIntOf, h], fun d h => by simp [mustIntOf, h]⟩

variable [Trig F] {O : Type}

/-- **C134.** (g) A parameter that an element defines with a number is that number, as a number and, printed, as a text. The default is not used. -/
theorem C134_param (a : Source F O) (n : Nat) (param : Text) (x d : F) (t : Text) (h : a.chain.define param = some (.num x)) :
    a.paramNumber n param = .val x ∧ a.mustParamNumber n param d = .val x ∧
    a.paramString param = some (a.printed (.num x)) ∧ a.mustParamString param t = a.printed (.num x) := by
  have e : a.chain.lookup param = some (.num x) := C46_own _ _ _ h (by intro s hs; cases hs)
  simp [Source.paramNumber, Source.mustParamNumber, Source.paramString, Source.mustParamString, e, Source.convert, toFloat64, Source.textOf, Out.getD]

/-- **C134.** (g) A parameter that nobody defines is the default. -/
theorem C134_param_missing (a : Source F O) (n : Nat) (param : Text) (d : F) (t : Text) (h : a.chain.Undefined param) :
    a.paramNumber n param = .err ∧ a.mustParamNumber n param d = .val d ∧ a.paramString param = none ∧ a.mustParamString param t = t := by
  have e := C46_missing _ _ h
  simp [Source.paramNumber, Source.mustParamNumber, Source.paramString, Source.mustParamString, e, Out.getD]

/-- **C134.** (g) A parameter that is an expression is its value as a number, and its text as a text. -/
theorem C134_param_text (a : Source F O) (n : Nat) (param s : Text) (x d : F) (t : Text) (h : a.chain.define param = some (.str s))
    (hs : a.chain.Undefined s) (hx : a.convert n (.str s) = .val x) :
    a.paramNumber n param = .val x ∧ a.mustParamNumber n param d = .val x ∧ a.paramString param = some s ∧ a.mustParamString param t = s := by
  have e := C46_own_text _ _ _ h hs
  simp [Source.paramNumber, Source.mustParamNumber, Source.paramString, Source.mustParamString, e, hx, Source.textOf, Out.getD]

/-- A document with the parameter `w` of five. -/
def wide : Source ℝ Unit := ⟨noLib, fun _ => ['5'], .document ⟨[(['w'], .num 5)], [], []⟩ [], [], none⟩

example : wide.paramNumber 1 ['w'] = .val 5 ∧ wide.mustParamNumber 1 ['v'] 7 = .val 7 ∧ wide.mustParamString ['w'] ['x'] = ['5'] := by
  have h : wide.chain.define ['w'] = some (.num 5) := by
    simp [wide, Chain.define, Chain.elem, Elem.allParams, get]
  have u : wide.chain.Undefined ['v'] := by
    refine ⟨?_, ?_, ?_⟩ <;> rfl
  exact ⟨(C134_param wide 1 _ 5 0 [] h).1, (C134_param_missing wide 1 _ 7 [] u).2.1, (C134_param wide 1 _ 5 0 ['x'] h).2.2.2⟩

end Verif.Dyn
