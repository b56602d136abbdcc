import Verif.Model.Helpers
import Verif.Lemmas.BezierPairs
import Verif.Lemmas.Draw
import Verif.Props.Typecast
import Verif.Spec.Transform

/-!
# C132: helper functions
-/

namespace Verif.Path

open Verif Verif.Spec

universe u

/-- **C132.** (a) A text that is not longer than the limit is kept. A longer one becomes exactly as long as the limit: a beginning of the text and
three dots. With a limit below three, a longer text panics. Lengths count bytes. -/
theorem C132_elipses (str : List UInt8) (n : Int) :
    ((str.length : Int) ≤ n → stringElipses str n = .ok str) ∧
    (3 ≤ n → n < str.length → ∃ a b, str = a ++ b ∧ stringElipses str n = .ok (a ++ "...".toUTF8.data.toList) ∧ ((a ++ "...".toUTF8.data.toList).length : Int) = n) ∧
    (n < 3 → n < str.length → stringElipses str n = .panic) := by
  have hd : "...".toUTF8.data.toList = [46, 46, 46] := by decide +kernel
  rw [hd]
  refine ⟨fun h => by rw [stringElipses, if_neg (not_lt.2 h)], fun h3 h => ⟨_, _, (List.take_append_drop (n - 3).toNat str).symm, ?_, ?_⟩, fun h3 h => ?_⟩
  · rw [stringElipses, if_pos h, if_neg (by omega)]
  · simp only [List.length_append, List.length_take, List.length_cons, List.length_nil]
    omega
  · rw [stringElipses, if_pos h, if_pos (by omega)]

/-- **C132.** (a) The shortened text may end in half a character: of four letters with two bytes each, a limit of six keeps one and a half. -/
theorem C132_elipses_false : ∃ s : String, ∃ b, stringElipses s.toUTF8.data.toList 6 = .ok b ∧ ¬ ∃ t : String, t.toUTF8.data.toList = b := by
  refine ⟨"éééé", _, rfl, ?_⟩
  rintro ⟨t, ht⟩
  have h := t.isValidUTF8
  have e : t.toUTF8 = ⟨⟨[195, 169, 195, 46, 46, 46]⟩⟩ := by
    have : (t.toUTF8.data.toList) = [195, 169, 195, 46, 46, 46] := by
      rw [ht]
      decide +kernel
    cases hh : t.toUTF8 with
    | mk d =>
      rw [hh] at this
      cases d
      simp only at this
      rw [this]
  rw [← ByteArray.validateUTF8_eq_true_iff] at h
  change ByteArray.validateUTF8 t.toUTF8 = true at h
  rw [e] at h
  revert h
  decide +kernel

theorem stringDeDup_spec (l seen : List Text) (hn : seen.Nodup) :
    (stringDeDup l seen).Nodup ∧ (∀ x, x ∈ stringDeDup l seen ↔ x ∈ l ∨ x ∈ seen) ∧ ∃ k, stringDeDup l seen = seen ++ k ∧ k.Sublist l := by
  induction l generalizing seen with
  | nil => exact ⟨hn, by simp [stringDeDup], [], by simp [stringDeDup], by simp⟩
  | cons a l ih =>
    rw [stringDeDup]
    split
    · next h =>
      obtain ⟨h1, h2, k, h3, h4⟩ := ih seen hn
      refine ⟨h1, fun x => ?_, k, h3, h4.cons a⟩
      rw [h2, List.mem_cons]
      constructor
      · rintro (h | h)
        · exact .inl (.inr h)
        · exact .inr h
      · rintro ((rfl | h) | h')
        · exact .inr h
        · exact .inl h
        · exact .inr h'
    · next h =>
      obtain ⟨h1, h2, k, h3, h4⟩ := ih (seen ++ [a]) (by
        rw [List.nodup_append]
        exact ⟨hn, by simp, by simpa using fun x hx (e : x = a) => h (e ▸ hx)⟩)
      refine ⟨h1, fun x => ?_, a :: k, by rw [h3]; simp, h4.cons_cons a⟩
      rw [h2, List.mem_append, List.mem_singleton, List.mem_cons]
      tauto

/-- **C132.** (b) Removing duplicates keeps every entry once, in the order of the list. -/
theorem C132_dedup (l : List Text) :
    (stringDeDup l []).Nodup ∧ (∀ x, x ∈ stringDeDup l [] ↔ x ∈ l) ∧ (stringDeDup l []).Sublist l := by
  obtain ⟨h1, h2, k, h3, h4⟩ := stringDeDup_spec l [] List.nodup_nil
  refine ⟨h1, fun x => by simpa using h2 x, by rw [h3]; exact h4⟩

theorem stringDeDup_append (l k seen : List Text) : stringDeDup (l ++ k) seen = stringDeDup k (stringDeDup l seen) := by
  induction l generalizing seen with
  | nil => rfl
  | cons a l ih =>
    rw [List.cons_append, stringDeDup, stringDeDup]
    split <;> exact ih _

/-- **C132.** (b) Of equal entries the first one is kept: what a list begins with decides what its result begins with. -/
theorem C132_dedup_first (l k : List Text) : ∃ r, stringDeDup (l ++ k) [] = stringDeDup l [] ++ r ∧ ∀ x ∈ r, x ∉ l := by
  obtain ⟨h1, h2, -⟩ := stringDeDup_spec l [] List.nodup_nil
  obtain ⟨g1, g2, r, g3, -⟩ := stringDeDup_spec k (stringDeDup l []) h1
  refine ⟨r, by rw [stringDeDup_append, g3], fun x hx hl => ?_⟩
  rw [g3, List.nodup_append] at g1
  exact g1.2.2 x (by rw [h2]; exact .inl hl) x hx rfl

example : stringDeDup ["a".toList, "b".toList, "a".toList, "c".toList, "b".toList] [] = ["a".toList, "b".toList, "c".toList] := by decide

variable {F : Type u}

/-- **C132.** (c) A list that is not empty is everything but its last segment, and that one; or its first one, and the rest. -/
theorem C132_ends (l : List (Segment F)) (h : l ≠ []) :
    (∃ s, tail l = some s ∧ trimLast l ++ [s] = l) ∧ ∃ s, l.head? = some s ∧ s :: trimFirst l = l := by
  constructor
  · refine ⟨l.getLast h, List.getLast?_eq_getLast_of_ne_nil h, ?_⟩
    have : l.length ≠ 0 := by simpa using h
    rw [trimLast, if_neg this, ← List.dropLast_eq_take, List.dropLast_append_getLast]
  · cases l with
    | nil => exact absurd rfl h
    | cons s l => exact ⟨s, rfl, by simp [trimFirst]⟩

/-- **C132.** (c) The empty list has no last segment and stays as it is. The cursor after a path is the end of its last segment; for the empty path it
panics. -/
theorem C132_cursor (p : Path F) :
    (tail ([] : List (Segment F)) = none ∧ trimLast ([] : List (Segment F)) = [] ∧ trimFirst ([] : List (Segment F)) = []) ∧
    (pathCursor p = .panic ↔ p = []) ∧ ∀ q, pathCursor p = .ok q ↔ ∃ l s, p = l ++ [s] ∧ s.stop = q := by
  refine ⟨⟨rfl, rfl, rfl⟩, ?_, fun q => ?_⟩
  · rcases List.eq_nil_or_concat p with rfl | ⟨l, s, rfl⟩
    · simp [pathCursor, tail]
    · simp [pathCursor, tail]
  · rcases List.eq_nil_or_concat p with rfl | ⟨l, s, rfl⟩
    · simp [pathCursor, tail]
    · simp only [pathCursor, tail, List.concat_eq_append, List.getLast?_append, List.getLast?_singleton, Option.some_or, Res.ok.injEq]
      constructor
      · rintro rfl
        exact ⟨l, s, rfl, rfl⟩
      · rintro ⟨l', s', e, rfl⟩
        rw [(List.append_inj' e rfl).2 |> List.cons.inj |>.1]

section

variable {K : Type u} [Field K] [LinearOrder K] [IsStrictOrderedRing K]

omit [IsStrictOrderedRing K] in
/-- **C132.** (d) A point is in the box exactly when it is between the corners, borders included. -/
theorem C132_inBox (tl br q : Point K) :
    pointInBoundingBox tl br q = true ↔ (tl.x ≤ q.x ∧ q.x ≤ br.x) ∧ (tl.y ≤ q.y ∧ q.y ≤ br.y) := by
  simp only [pointInBoundingBox, Bool.and_eq_true, Arith.le_field, decide_eq_true_eq]
  tauto

omit [IsStrictOrderedRing K] in
/-- **C132.** (e) Moving a segment moves its points. -/
theorem C132_move (s : Segment K) (d : Point K) :
    strokeOf (segmentMove s d) = (strokeOf s).map fun t => t.map fun q => (q.1 + d.x, q.2 + d.y) := by
  cases s <;> simp [segmentMove, Segment.mapPoints, strokeOf, Stroke.map, pt, newPoint_eq]

end

/-- **C132.** (f) A rounded point has whole thousandths and is at most half a thousandth away; rounding again changes nothing. -/
theorem C132_rounded (x y : ℝ) :
    (∃ n m : ℤ, (newPointRounded x y).x = n / 1000 ∧ (newPointRounded x y).y = m / 1000) ∧
    |(newPointRounded x y).x - x| ≤ 1 / 2000 ∧ |(newPointRounded x y).y - y| ≤ 1 / 2000 ∧
    newPointRounded (newPointRounded x y).x (newPointRounded x y).y = newPointRounded x y := by
  have whole : ∀ z : ℝ, ∃ n : ℤ, Num.roundAway z = n := by
    intro z
    unfold Num.roundAway
    split
    · exact ⟨-⌊-z + 1 / 2⌋, by simp⟩
    · exact ⟨_, rfl⟩
  have fixed : ∀ n : ℤ, Num.roundAway (n : ℝ) = n := by
    intro n
    unfold Num.roundAway
    split
    · have : ⌊-(n : ℝ) + 1 / 2⌋ = -n := by
        rw [show -(n : ℝ) = ((-n : ℤ) : ℝ) by push_cast; ring, Int.floor_intCast_add]
        norm_num
      rw [this]
      push_cast
      ring
    · rw [Int.floor_intCast_add]
      norm_num
  have e : newPointRounded x y = ⟨Num.roundAway (x * 1000) / 1000, Num.roundAway (y * 1000) / 1000, -1⟩ := by
    simp [newPointRounded, newPoint_eq]
  have e' : ∀ n m : ℤ, newPointRounded ((n : ℝ) / 1000) ((m : ℝ) / 1000) = ⟨(n : ℝ) / 1000, (m : ℝ) / 1000, -1⟩ := by
    intro n m
    simp [newPointRounded, newPoint_eq, fixed]
  have close : ∀ z : ℝ, |Num.roundAway (z * 1000) / 1000 - z| ≤ 1 / 2000 := by
    intro z
    have := Bezier.roundAway_close (z * 1000)
    rw [abs_le] at this ⊢
    constructor <;> linarith
  obtain ⟨n, hn⟩ := whole (x * 1000)
  obtain ⟨m, hm⟩ := whole (y * 1000)
  refine ⟨⟨n, m, by rw [e, hn], by rw [e, hm]⟩, by rw [e]; exact close x, by rw [e]; exact close y, ?_⟩
  rw [e, hn, hm]
  exact e' n m

end Verif.Path

namespace Verif.Dyn

open Verif Verif.Spec

universe u

variable {F : Type u}

/-- **C132.** (g) A map contains keys exactly when it has a value for each of them. -/
theorem C132_contains (m : DMap F) (keys : List Text) : containsAll m keys = true ↔ ∀ k ∈ keys, ∃ v, get m k = some v := by
  simp [containsAll, List.all_eq_true, Option.isSome_iff_exists]

/-- **C132.** (h) A list of texts is read as it is. A text is cut at the delimiter, and texts without the delimiter come back when they were joined with
it. Other values, and missing ones, give no list. -/
theorem C132_slices (printed : Val F → Text) (m : DMap F) (key : Text) (d : Char) (l : List Text) :
    (get m key = some (.list (l.map .str)) → getStringSlice printed m key = some l ∧ getStringSliceSplit printed m key [d] = some l) ∧
    (l ≠ [] → (∀ p ∈ l, d ∉ p) → get m key = some (.str (interleaved [d] l)) → getStringSliceSplit printed m key [d] = some l) ∧
    ((∀ k, get m key ≠ some (.list k)) → getStringSlice printed m key = none) ∧
    ((∀ k, get m key ≠ some (.list k)) → (∀ s, get m key ≠ some (.str s)) → getStringSliceSplit printed m key [d] = none) := by
  have h3 : (∀ k, get m key ≠ some (.list k)) → getStringSlice printed m key = none := by
    intro h
    rw [getStringSlice]
    split
    · next k e => exact absurd e (h k)
    · rfl
  have h1 : get m key = some (.list (l.map .str)) → getStringSlice printed m key = some l := by
    intro h
    rw [getStringSlice, h]
    simp [Function.comp_def, shownText]
  refine ⟨fun h => ⟨h1 h, ?_⟩, fun hl hd h => ?_, h3, fun h h' => ?_⟩
  · rw [getStringSliceSplit, h]
    exact h1 h
  · rw [getStringSliceSplit, h]
    show some _ = _
    rw [C103_back d l hl hd]
  · rw [getStringSliceSplit]
    split
    · next s e => exact absurd e (h' s)
    · exact h3 h

/-- **C132.** (i) A default is used exactly when there is no value, or none of the right kind. -/
theorem C132_defaults [Num F] (printed : Val F → Text) (m : DMap F) (key : Text) (v : Val F) (x : F) (b : Bool) (l : List Text) (t : Text) :
    (must m key v = match get m key with | some w => w | none => v) ∧
    (mustFloat m key x = match get m key with | some w => (toFloat64 w).getD x | none => x) ∧
    (mustBool m key b = match get m key with | some w => (toBool w).getD b | none => b) ∧
    ((∀ k, get m key ≠ some (.list k)) → mustStringSlice printed m key l = l) ∧
    (mustShown printed .null t = t ∧ mustShown printed (.str []) t = t ∧ ∀ s : Text, s ≠ [] → mustShown printed (.str s) t = s) := by
  refine ⟨?_, ?_, ?_, fun h => ?_, rfl, rfl, fun s hs => ?_⟩
  · rw [must]
    cases get m key <;> rfl
  · rw [mustFloat, getFloat]
    cases get m key <;> rfl
  · rw [mustBool, getBool]
    cases get m key <;> rfl
  · rw [mustStringSlice, (C132_slices printed m key 'a' l).2.2.1 h]
    rfl
  · rw [mustShown]
    · rw [if_neg (by simpa [shownText] using hs)]
      rfl
    · simp

end Verif.Dyn

namespace Verif.Log

open Verif Verif.Dyn

universe u

variable {F : Type u}

/-- **C132.** (j) The names of the levels are different. A message as a map has its text, its level and its time, whatever fields it has; the other fields
are the ones of the message. -/
theorem C132_message (m : Msg F) (time : Val F) :
    (∀ a b : Level, a.text = b.text → a = b) ∧ get (m.toDynMap time) "message".toList = some (.str m.text) ∧
    get (m.toDynMap time) "level".toList = some (.str m.level.text) ∧ get (m.toDynMap time) "timestamp".toList = some time ∧
    ∀ k : Text, k ≠ "message".toList → k ≠ "level".toList → k ≠ "timestamp".toList → (m.toDynMap time).lookup k = (clone m.fields).lookup k := by
  refine ⟨by intro a b; cases a <;> cases b <;> decide, ?_, ?_, ?_, fun k h1 h2 h3 => ?_⟩
  · rw [get_plain (by decide), Msg.toDynMap, putKey, putKey, putKey, lookup_put, lookup_put, lookup_put]
    rfl
  · rw [get_plain (by decide), Msg.toDynMap, putKey, lookup_put]
    rfl
  · rw [get_plain (by decide), Msg.toDynMap, putKey, putKey, lookup_put, lookup_put]
    rfl
  · rw [Msg.toDynMap, putKey, putKey, putKey, lookup_put, lookup_put, lookup_put, if_neg h2, if_neg h3, if_neg h1]

end Verif.Log
