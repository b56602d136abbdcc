import Verif.Lemmas.Draw
import Verif.Spec.Svg

set_option linter.unusedSectionVars false
set_option linter.unusedSimpArgs false

/-! # Lemmas about the text of paths -/

namespace Verif.Path

open Verif Verif.Spec

universe u

/-! ### Fuel -/

section Fuel

variable {F : Type u} [Num F]

theorem nextFloats_length (k : Nat) : ∀ (its : List Text) (xs : List F) (rest : List Text),
    nextFloats k its = some (xs, rest) → rest.length ≤ its.length := by
  induction k with
  | zero => intro its xs rest h; simp [nextFloats] at h; simp [h.2]
  | succ k ih =>
    intro its xs rest h
    cases its with
    | nil => simp [nextFloats] at h
    | cons i its =>
      simp only [nextFloats] at h
      split at h
      · cases h
      · split at h
        · cases h
        · next h' =>
          injection h with h
          injection h with _ h
          subst h
          have := ih _ _ _ h'
          simp; omega

theorem nextCommand_length {op : Text} {rest rest' : List Text} {p q : Path F}
    (h : nextCommand op rest p = some (rest', q)) : rest'.length ≤ rest.length := by
  unfold nextCommand at h
  split at h <;> first | (split at h <;> first | (injection h with h; injection h with h1 h2; subst h1; rename_i h'; exact nextFloats_length _ _ _ _ h') | cases h) | (injection h with h; injection h with h1 h2; subst h1; exact le_rfl) | cases h

/-- As many rounds as there are items are enough: more rounds change nothing. -/
theorem parseLoop_fuel : ∀ (fuel : Nat) (its : List Text) (p : Path F), its.length ≤ fuel →
    parseLoop fuel its p = parseLoop its.length its p := by
  have key : ∀ (n : Nat) (its : List Text) (p : Path F), its.length ≤ n → ∀ f, its.length ≤ f →
      parseLoop f its p = parseLoop n its p := by
    intro n
    induction n with
    | zero =>
      intro its p h f hf
      cases its with
      | nil => cases f <;> rfl
      | cons => simp at h
    | succ n ih =>
      intro its p h f hf
      cases its with
      | nil => cases f <;> rfl
      | cons i its =>
        cases f with
        | zero => simp at hf
        | succ f =>
          simp only [parseLoop]
          split
          · rfl
          · next h' =>
            have := nextCommand_length h'
            simp at h hf
            exact ih _ _ (by omega) f (by omega)
  exact fun fuel its p h => key _ _ _ le_rfl _ h

theorem parseItems_nil (p : Path F) : parseItems [] p = some p := rfl

theorem parseItems_cons (op : Text) (rest : List Text) (p : Path F) :
    parseItems (op :: rest) p = match nextCommand op rest p with
      | none => none
      | some r => parseItems r.1 r.2 := by
  unfold parseItems
  simp only [List.length_cons, parseLoop]
  split
  · next h => rw [h]
  · next h => rw [h]; exact parseLoop_fuel _ _ _ (nextCommand_length h)

end Fuel

/-! ### Splitting into items -/

/-- An item that the normalisation of the text leaves alone: not empty, no separator in it, and either no letter or no digit. -/
structure Clean (t : Text) : Prop where
  ne : t ≠ []
  sep : ∀ c ∈ t, c ≠ ' ' ∧ c ≠ ',' ∧ c ≠ '\n' ∧ c ≠ '\t' ∧ c ≠ '\r'
  one : (∀ c ∈ t, isAlpha c = false) ∨ (∀ c ∈ t, isNumChar c = false)

theorem spaced_joinSpace {ts : List Text} (h : ∀ t ∈ ts, Clean t) : spaced (joinSpace ts) = joinSpace ts := by
  have h1 : ∀ t, Clean t → spaced t = t := by
    intro t ht
    unfold spaced
    conv_rhs => rw [← List.map_id t]
    apply List.map_congr_left
    intro c hc
    obtain ⟨-, a, b, c', d⟩ := ht.sep c hc
    simp [a, b, c', d]
  have h2 : ∀ a b, spaced (a ++ ' ' :: b) = spaced a ++ ' ' :: spaced b := by intro a b; simp [spaced]
  induction ts with
  | nil => rfl
  | cons t ts ih =>
    cases ts with
    | nil => exact h1 t (h t (by simp))
    | cons u ts =>
      rw [joinSpace, h2, h1 t (h t (by simp)), ih (fun x hx => h x (by simp [hx]))]
      simp

theorem separate_append {left right : Char → Bool} (hr : right ' ' = false) (hl : left ' ' = false) (b : Text) :
    ∀ a, separate left right (a ++ ' ' :: b) = separate left right a ++ ' ' :: separate left right b := by
  intro a
  induction a with
  | nil =>
    cases b with
    | nil => rfl
    | cons d b => simp [separate, hl]
  | cons c a ih =>
    cases a with
    | nil => simp only [List.cons_append, List.nil_append, separate, hr, Bool.and_false] at *; simp [ih]
    | cons d a =>
      simp only [List.cons_append, separate] at *
      rw [ih]; split <;> simp

theorem separate_clean {left right : Char → Bool} {t : Text}
    (h : (∀ c ∈ t, left c = false) ∨ (∀ c ∈ t, right c = false)) : separate left right t = t := by
  induction t with
  | nil => rfl
  | cons c t ih =>
    cases t with
    | nil => rfl
    | cons d t =>
      have hn : (left c && right d) = false := by
        rcases h with h | h
        · simp [h c (by simp)]
        · simp [h d (by simp)]
      simp only [separate, hn]
      rw [if_neg (by simp), ih]
      rcases h with h | h
      · exact Or.inl fun x hx => h x (by simp [hx])
      · exact Or.inr fun x hx => h x (by simp [hx])

theorem separate_joinSpace {left right : Char → Bool} (hr : right ' ' = false) (hl : left ' ' = false) {ts : List Text}
    (h : ∀ t ∈ ts, (∀ c ∈ t, left c = false) ∨ (∀ c ∈ t, right c = false)) :
    separate left right (joinSpace ts) = joinSpace ts := by
  induction ts with
  | nil => rfl
  | cons t ts ih =>
    cases ts with
    | nil => exact separate_clean (h t (by simp))
    | cons u ts =>
      rw [joinSpace, separate_append hr hl, separate_clean (h t (by simp)), ih (fun x hx => h x (by simp [hx]))]
      simp

theorem splitSpaces_clean {t : Text} (h : ∀ c ∈ t, c ≠ ' ') (s : Text) : ∀ cur,
    splitSpaces (t ++ s) cur = splitSpaces s (cur ++ t) := by
  induction t with
  | nil => intro cur; simp
  | cons c t ih =>
    intro cur
    simp only [List.cons_append, splitSpaces, if_neg (h c (by simp))]
    rw [ih (fun x hx => h x (by simp [hx]))]
    simp

theorem splitSpaces_joinSpace {ts : List Text} (h : ∀ t ∈ ts, Clean t) : splitSpaces (joinSpace ts) [] = ts := by
  induction ts with
  | nil => rfl
  | cons t ts ih =>
    have ht := h t (by simp)
    have hc := splitSpaces_clean (fun c hc => (ht.sep c hc).1)
    cases ts with
    | nil =>
      have := hc [] []
      rw [List.append_nil] at this
      rw [joinSpace, this, splitSpaces]
      simp [ht.ne]
    | cons u ts =>
      rw [joinSpace, hc, splitSpaces]
      simp only [if_true, List.nil_append, ht.ne, if_false]
      rw [ih (fun x hx => h x (by simp [hx]))]
      simp

/-- The items of clean items joined with spaces are those items. -/
theorem items_joinSpace {ts : List Text} (h : ∀ t ∈ ts, Clean t) : items (joinSpace ts) = ts := by
  unfold items spaceCommands
  rw [spaced_joinSpace h, separate_joinSpace (by decide) (by decide), separate_joinSpace (by decide) (by decide),
    splitSpaces_joinSpace h]
  · intro t ht
    exact (h t ht).one.symm
  · intro t ht
    exact (h t ht).one

theorem joinSpace_append {a b : List Text} (ha : a ≠ []) (hb : b ≠ []) :
    joinSpace (a ++ b) = joinSpace a ++ ' ' :: joinSpace b := by
  induction a with
  | nil => exact absurd rfl ha
  | cons t a ih =>
    cases a with
    | nil =>
      cases b with
      | nil => exact absurd rfl hb
      | cons => simp [joinSpace]
    | cons u a =>
      have h := ih (by simp)
      simp only [List.cons_append] at h ⊢
      simp only [joinSpace, h]
      simp

/-! ### Printed numbers -/

/-- The characters of printed numbers. -/
def FmtChar (c : Char) : Prop := c = '-' ∨ c = '.' ∨ ∃ d, d < 10 ∧ c = Decimal.digitChar d

theorem fmtChar_facts {c : Char} (h : FmtChar c) :
    (c ≠ ' ' ∧ c ≠ ',' ∧ c ≠ '\n' ∧ c ≠ '\t' ∧ c ≠ '\r') ∧ isAlpha c = false ∧ isSpace c = false := by
  rcases h with rfl | rfl | ⟨d, hd, rfl⟩
  · decide
  · decide
  · interval_cases d <;> decide

theorem padDigits_chars (n : Nat) : ∀ q, ∀ c ∈ Decimal.padDigits n q, FmtChar c := by
  induction n with
  | zero => intro q c h; simp [Decimal.padDigits] at h
  | succ n ih =>
    intro q c h
    simp only [Decimal.padDigits, List.mem_append, List.mem_singleton] at h
    rcases h with h | rfl
    · exact ih _ c h
    · exact Or.inr (Or.inr ⟨_, Nat.mod_lt _ (by norm_num), rfl⟩)

theorem signedText_chars (neg : Bool) (n q : Nat) : ∀ c ∈ Decimal.signedText neg n q, FmtChar c := by
  intro c h
  simp only [Decimal.signedText, Decimal.fixedText, List.mem_append] at h
  rcases h with h | h | h
  · split at h
    · simp at h; exact Or.inl h
    · simp at h
  · rw [(Decimal.natText_eq_pad _).1] at h
    exact padDigits_chars _ _ c h
  · split at h
    · simp at h
    · rcases List.mem_cons.1 h with rfl | h
      · exact Or.inr (Or.inl rfl)
      · exact padDigits_chars _ _ c h

theorem signedText_ne_nil (neg : Bool) (n q : Nat) : Decimal.signedText neg n q ≠ [] := by
  obtain ⟨d, cs, h, -⟩ := Decimal.natText_head (q / 10 ^ n)
  simp [Decimal.signedText, Decimal.fixedText, h]

theorem trimSpace_of_none {t : Text} (h : ∀ c ∈ t, isSpace c = false) : trimSpace t = t := by
  have hd : ∀ s : Text, (∀ c ∈ s, isSpace c = false) → s.dropWhile isSpace = s := by
    intro s hs
    cases s with
    | nil => rfl
    | cons c s => simp [List.dropWhile, hs c (by simp)]
  unfold trimSpace
  rw [hd t h, hd _ (by simpa using h), List.reverse_reverse]

section Items

variable {F : Type u} [Num F]

/-- The coordinates that are printed for a segment. -/
def Segment.targets : Segment F → List F
  | .move _ e => [e.x, e.y]
  | .line _ e => [e.x, e.y]
  | .curve _ c d e => [c.x, c.y, d.x, d.y, e.x, e.y]

/-- The items printed for a segment. -/
def segItems (n : Nat) : Segment F → List Text
  | .move _ e => [['M'], Num.fmt n e.x, Num.fmt n e.y]
  | .line _ e => [['L'], Num.fmt n e.x, Num.fmt n e.y]
  | .curve _ c1 c2 e =>
    [['C'], Num.fmt n c1.x, Num.fmt n c1.y, Num.fmt n c2.x, Num.fmt n c2.y, Num.fmt n e.x, Num.fmt n e.y]

theorem printSegment_items (n : Nat) (s : Segment F) : printSegment n s = joinSpace (segItems n s) := by
  cases s <;> simp only [printSegment, segItems, joinSpace, List.append_assoc, List.cons_append, List.nil_append]

theorem printPath_items_on {n : Nat} (p : Path F) (hcl : ∀ s ∈ p, ∀ t ∈ segItems n s, Clean t) : items (printPath n p) = p.flatMap (segItems n) := by
  unfold printPath
  have h : p.map (printSegment n) = p.map fun s => joinSpace (segItems n s) := by
    apply List.map_congr_left; intro s _; exact printSegment_items n s
  have h2 : joinSpace (p.map fun s => joinSpace (segItems n s)) = joinSpace (p.flatMap (segItems n)) := by
    clear h hcl
    induction p with
    | nil => rfl
    | cons a l ih =>
      have hf : ∀ a : Segment F, segItems n a ≠ [] := by intro a; cases a <;> simp [segItems]
      cases l with
      | nil => simp [joinSpace]
      | cons b l =>
        rw [List.flatMap_cons, joinSpace_append (hf a) (by simp [hf b]), ← ih]
        simp [joinSpace]
  rw [h, h2, items_joinSpace]
  intro t ht
  obtain ⟨s, hs', hs⟩ := List.mem_flatMap.1 ht
  exact hcl s hs' t hs

theorem clean_segItems {n : Nat} {s : Segment F} (hcl : ∀ x ∈ s.targets, Clean (Num.fmt n x)) : ∀ t ∈ segItems n s, Clean t := by
  intro t hs
  have hc : ∀ c : Char, isAlpha c = true → isNumChar c = false → (c ≠ ' ' ∧ c ≠ ',' ∧ c ≠ '\n' ∧ c ≠ '\t' ∧ c ≠ '\r') → Clean [c] :=
    fun c _ h2 h3 => ⟨by simp, by simpa using h3, Or.inr (by simpa using h2)⟩
  cases s <;> simp only [segItems, List.mem_cons, List.not_mem_nil, or_false] at hs <;> simp only [Segment.targets, List.forall_mem_cons] at hcl
  · rcases hs with rfl | rfl | rfl
    · exact hc _ (by decide) (by decide) (by decide)
    all_goals simp_all
  · rcases hs with rfl | rfl | rfl
    · exact hc _ (by decide) (by decide) (by decide)
    all_goals simp_all
  · rcases hs with rfl | rfl | rfl | rfl | rfl | rfl | rfl
    · exact hc _ (by decide) (by decide) (by decide)
    all_goals simp_all

theorem printPath_items_of {n : Nat} (hcl : ∀ x : F, Clean (Num.fmt n x)) (p : Path F) : items (printPath n p) = p.flatMap (segItems n) :=
  printPath_items_on p fun _ _ => clean_segItems fun x _ => hcl x

end Items

section Field

variable {K : Type u} [Field K] [LinearOrder K] [IsStrictOrderedRing K] [FloorRing K]

theorem clean_fmt (n : Nat) (x : K) : Clean (Num.fmt n x) :=
  ⟨signedText_ne_nil _ _ _, fun c hc => (fmtChar_facts (signedText_chars _ _ _ c hc)).1,
    Or.inl fun c hc => (fmtChar_facts (signedText_chars _ _ _ c hc)).2.1⟩

theorem toFloat_fmt (n : Nat) (x : K) : toFloat (F := K) (Num.fmt n x) = some (Decimal.rounded n x) := by
  have h : trimSpace (Decimal.fmt n x) = Decimal.fmt n x :=
    trimSpace_of_none (fun c hc => (fmtChar_facts (signedText_chars _ _ _ c hc)).2.2)
  unfold toFloat
  rw [Num.fmt_field, h, Num.parse_field, Decimal.value_parse_fmt]

/-- Two points have the same text exactly when both coordinates print the same. -/
theorem stringPrecision_injective (n : Nat) (p q : Point K) : p.stringPrecision n = q.stringPrecision n ↔
    Num.fmt n p.x = Num.fmt n q.x ∧ Num.fmt n p.y = Num.fmt n q.y := by
  have key : ∀ (a a' b b' : Text), (∀ c ∈ a, c ≠ ',') → (∀ c ∈ a', c ≠ ',') →
      a ++ ',' :: b = a' ++ ',' :: b' → a = a' ∧ b = b' := by
    intro a
    induction a with
    | nil =>
      intro a' b b' _ h' h
      cases a' with
      | nil => simpa using h
      | cons c a' => simp at h; exact absurd h.1.symm (h' c (by simp))
    | cons c a ih =>
      intro a' b b' ha h' h
      cases a' with
      | nil => simp at h; exact absurd h.1 (ha c (by simp))
      | cons c' a' =>
        simp at h
        obtain ⟨h1, h2⟩ := ih a' b b' (fun x hx => ha x (by simp [hx])) (fun x hx => h' x (by simp [hx])) h.2
        exact ⟨by rw [h.1, h1], h2⟩
  constructor
  · intro h
    simp only [Point.stringPrecision, List.append_assoc, List.cons_append, List.nil_append, List.cons.injEq, true_and] at h
    obtain ⟨h1, h2⟩ := key _ _ _ _ (fun c hc => ((clean_fmt n p.x).sep c hc).2.1) (fun c hc => ((clean_fmt n q.x).sep c hc).2.1) h
    simp only [List.cons.injEq, true_and] at h2
    exact ⟨h1, List.append_cancel_right h2⟩
  · rintro ⟨h1, h2⟩
    simp only [Point.stringPrecision, h1, h2]

theorem printPath_items (n : Nat) (p : Path K) : items (printPath n p) = p.flatMap (segItems n) := printPath_items_of (clean_fmt n) p

/-- A point with both coordinates rounded. -/
def roundPoint (n : Nat) (p : Point K) : Point K := newPoint (Decimal.rounded n p.x) (Decimal.rounded n p.y)

/-- Drawing the rounded targets of a segment. -/
def redraw (n : Nat) (p : Path K) : Segment K → Path K
  | .move _ e => moveTo p (roundPoint n e)
  | .line _ e => lineTo p (roundPoint n e)
  | .curve _ c1 c2 e => curveTo p (roundPoint n c1) (roundPoint n c2) (roundPoint n e)

theorem parseItems_printed (n : Nat) (q : Path K) : ∀ p : Path K,
    parseItems (q.flatMap (segItems n)) p = some (q.foldl (redraw n) p) := by
  induction q with
  | nil => intro p; rfl
  | cons s q ih =>
    intro p
    cases s <;>
      simp [List.flatMap_cons, segItems, parseItems_cons, nextCommand, nextFloats, toFloat_fmt, ih, redraw, roundPoint, -Num.fmt_field]

theorem parsePath_printed (n : Nat) (q : Path K) : parsePath (printPath n q) = some (q.foldl (redraw n) []) := by
  rw [parsePath, printPath_items, parseItems_printed]

/-- The point of the plane with both coordinates rounded. -/
theorem pt_roundPoint (n : Nat) (p : Point K) : pt (roundPoint n p) = (Decimal.rounded n p.x, Decimal.rounded n p.y) := by
  simp [roundPoint]

theorem currentPosition_redraw (n : Nat) (p : Path K) (s : Segment K) :
    currentPosition (redraw n p s) = roundPoint n s.stop := by
  cases s <;> simp [redraw, Segment.stop]

/-- The segment that `redraw` appends. -/
def redrawn (n : Nat) (p : Path K) : Segment K → Segment K
  | .move _ e => .move (currentPosition p) (roundPoint n e)
  | .line _ e => .line (currentPosition p) (roundPoint n e)
  | .curve _ c1 c2 e => .curve (currentPosition p) (roundPoint n c1) (roundPoint n c2) (roundPoint n e)

theorem redraw_eq (n : Nat) (p : Path K) (s : Segment K) : redraw n p s = p ++ [redrawn n p s] := by
  cases s <;> rfl

theorem redraw_connected (n : Nat) (q : Path K) : ∀ p : Path K, Connected p → Connected (q.foldl (redraw n) p) := by
  induction q with
  | nil => intro p h; exact h
  | cons s q ih =>
    intro p h
    apply ih
    rw [redraw_eq, connected_snoc]
    refine ⟨h, ?_⟩
    cases s <;> exact meets_refl _

theorem redraw_strokes (n : Nat) (q : Path K) : ∀ (p : Path K) (c : Point K), pt (currentPosition p) = pt (roundPoint n c) →
    ConnectedFrom c q →
    strokes (q.foldl (redraw n) p) =
      strokes p ++ (strokes q).map (Stroke.map fun r => (Decimal.rounded n r.1, Decimal.rounded n r.2)) := by
  induction q with
  | nil => intro p c _ _; simp
  | cons s q ih =>
    intro p c hc hq
    rw [List.foldl_cons, ih _ s.stop (by rw [currentPosition_redraw]) hq.2]
    have hs := meets_iff.1 hq.1
    rw [strokes_cons, List.map_append, ← List.append_assoc]
    congr 1
    rw [redraw_eq, strokes_append]
    congr 1
    rw [pt_roundPoint] at hc
    have h1 : (Decimal.rounded n c.x, Decimal.rounded n c.y) = (Decimal.rounded n s.start.x, Decimal.rounded n s.start.y) := by
      simp only [pt, Prod.mk.injEq] at hs
      rw [hs.1, hs.2]
    rw [h1] at hc
    cases s <;> simp [redrawn, strokes_cons, strokeOf, Stroke.map, pt_roundPoint, hc, Segment.start] <;> simp [pt]

/-- Whatever the path is, its text is read as what SVG draws from the origin. -/
theorem redraw_svg (n : Nat) (q : Path K) : ∀ (p : Path K) (c : Pt K), pt (currentPosition p) = (Decimal.rounded n c.1, Decimal.rounded n c.2) →
    strokes (q.foldl (redraw n) p) =
      strokes p ++ (svgStrokes c q).map (Stroke.map fun r => (Decimal.rounded n r.1, Decimal.rounded n r.2)) := by
  induction q with
  | nil => intro p c _; simp [svgStrokes]
  | cons s q ih =>
    intro p c hc
    rw [List.foldl_cons, ih _ (pt s.stop) (by rw [currentPosition_redraw, pt_roundPoint]; rfl), redraw_eq, strokes_append]
    cases s <;> simp [redrawn, svgStrokes, strokes_cons, strokeOf, Stroke.map, pt_roundPoint, hc, Segment.stop] <;> simp [pt]

end Field

/-! ### Reading commands -/

section Reading

variable {F : Type u} [Num F]

theorem nextFloats_iff (k : Nat) : ∀ (its : List Text) (xs : List F) (rest : List Text),
    nextFloats k its = some (xs, rest) ↔ ∃ ts, its = ts ++ rest ∧ List.Forall₂ Number ts xs ∧ xs.length = k := by
  induction k with
  | zero =>
    intro its xs rest
    simp only [nextFloats, Option.some.injEq, Prod.mk.injEq]
    constructor
    · rintro ⟨rfl, rfl⟩; exact ⟨[], rfl, .nil, rfl⟩
    · rintro ⟨ts, rfl, h1, h2⟩
      rw [List.length_eq_zero_iff] at h2; subst h2
      cases h1; exact ⟨rfl, rfl⟩
  | succ k ih =>
    intro its xs rest
    cases its with
    | nil =>
      simp only [nextFloats]
      constructor
      · intro h; cases h
      · rintro ⟨ts, h1, h2, h3⟩
        have : ts = [] := by cases ts <;> simp_all
        subst this; cases h2; simp at h3
    | cons i its =>
      simp only [nextFloats]
      constructor
      · intro h
        split at h
        · cases h
        · next x hx =>
          split at h
          · cases h
          · next ys rest' h' =>
            injection h with h; injection h with h1 h2; subst h1; subst h2
            obtain ⟨ts, rfl, h3, h4⟩ := (ih _ _ _).1 h'
            exact ⟨i :: ts, rfl, .cons hx h3, by simp [h4]⟩
      · rintro ⟨ts, h1, h2, h3⟩
        cases h2 with
        | nil => simp at h3
        | cons hx ht =>
          injection h1 with h1 h4
          subst h1
          have := (ih its _ rest).2 ⟨_, h4, ht, by simpa using h3⟩
          rw [hx, this]

theorem forall₂_two {ts : List Text} {x y : F} (h : List.Forall₂ Number ts [x, y]) :
    ∃ a b, ts = [a, b] ∧ Number a x ∧ Number b y := by
  cases h with | cons h1 h => cases h with | cons h2 h => cases h; exact ⟨_, _, rfl, h1, h2⟩

theorem forall₂_four {ts : List Text} {x y z w : F} (h : List.Forall₂ Number ts [x, y, z, w]) :
    ∃ a b c d, ts = [a, b, c, d] ∧ Number a x ∧ Number b y ∧ Number c z ∧ Number d w := by
  cases h with | cons h1 h => cases h with | cons h2 h => cases h with | cons h3 h => cases h with | cons h4 h =>
    cases h; exact ⟨_, _, _, _, rfl, h1, h2, h3, h4⟩

theorem forall₂_six {ts : List Text} {x y z w u v : F} (h : List.Forall₂ Number ts [x, y, z, w, u, v]) :
    ∃ a b c d e f, ts = [a, b, c, d, e, f] ∧ Number a x ∧ Number b y ∧ Number c z ∧ Number d w ∧ Number e u ∧ Number f v := by
  cases h with | cons h1 h => cases h with | cons h2 h => cases h with | cons h3 h => cases h with | cons h4 h =>
    cases h with | cons h5 h => cases h with | cons h6 h =>
      cases h; exact ⟨_, _, _, _, _, _, rfl, h1, h2, h3, h4, h5, h6⟩

/-- Every item that begins with a letter is a single letter. -/
def SingleLetters (its : List Text) : Prop := ∀ i ∈ its, ∀ c, i.head? = some c → isAlpha c = true → i = [c]

theorem singleLetters_tail {ts rest : List Text} (h : SingleLetters (ts ++ rest)) : SingleLetters rest :=
  fun i hi => h i (List.mem_append_right _ hi)

theorem nextCommand_reads {op : Text} {its rest : List Text} {p q : Path F} (hop : ∀ c, op.head? = some c → isAlpha c = true → op = [c])
    (h : nextCommand op its p = some (rest, q)) :
    (∃ ts, its = ts ++ rest) ∧ ∀ cs : List (SvgCmd F), Reads rest cs → ∃ cs', Reads (K := F) (op :: its) cs' := by
  unfold nextCommand at h
  split at h
  all_goals first
    | cases h; done
    | (rename_i hc
       have e := hop _ hc (by decide)
       rw [e]
       split at h
       · rename_i hx
         injection h with h; injection h with h1 h2; subst h1
         obtain ⟨ts, rfl, hf, -⟩ := (nextFloats_iff _ _ _ _).1 hx
         refine ⟨⟨ts, rfl⟩, fun cs hr => ?_⟩
         first
         | (obtain ⟨a, b, rfl, h1, h2⟩ := forall₂_two hf
            first
            | exact ⟨_, .moveTo h1 h2 hr⟩
            | exact ⟨_, .relMoveTo h1 h2 hr⟩
            | exact ⟨_, .lineTo h1 h2 hr⟩
            | exact ⟨_, .relLineTo h1 h2 hr⟩)
         | (obtain ⟨a, b, c, d, rfl, h1, h2, h3, h4⟩ := forall₂_four hf
            first
            | exact ⟨_, .smoothTo h1 h2 h3 h4 hr⟩
            | exact ⟨_, .relSmoothTo h1 h2 h3 h4 hr⟩)
         | (obtain ⟨a, b, c, d, e, f, rfl, h1, h2, h3, h4, h5, h6⟩ := forall₂_six hf
            first
            | exact ⟨_, .curveTo h1 h2 h3 h4 h5 h6 hr⟩
            | exact ⟨_, .relCurveTo h1 h2 h3 h4 h5 h6 hr⟩)
       · cases h)
    | (rename_i hc
       have e := hop _ hc (by decide)
       rw [e]
       injection h with h; injection h with h1 h2; subst h1
       exact ⟨⟨[], rfl⟩, fun cs hr => ⟨_, .close hr⟩⟩)

theorem parseItems_reads : ∀ (n : Nat) (its : List Text) (p q : Path F), its.length ≤ n → SingleLetters its →
    parseItems its p = some q → ∃ cs : List (SvgCmd F), Reads its cs := by
  intro n
  induction n with
  | zero =>
    intro its p q hn _ _
    have : its = [] := by cases its <;> simp_all
    subst this
    exact ⟨[], .nil⟩
  | succ n ih =>
    intro its p q hn hs h
    cases its with
    | nil => exact ⟨[], .nil⟩
    | cons op its =>
      rw [parseItems_cons] at h
      split at h
      · cases h
      · next r hr =>
        obtain ⟨⟨ts, rfl⟩, hread⟩ := nextCommand_reads (rest := r.1) (q := r.2) (hs op (by simp)) (by rw [hr])
        have hs' : SingleLetters r.1 := fun i hi => hs i (by simp [hi])
        obtain ⟨cs, hcs⟩ := ih r.1 r.2 q (by simp at hn; omega) hs' h
        exact hread cs hcs

end Reading

section Meaning

variable {K : Type u} [Field K] [LinearOrder K] [IsStrictOrderedRing K] [FloorRing K]

/-- The second control point of the last segment, if that is a curve. -/
def ctrlOf (p : Path K) : Option (Pt K) :=
  match p.getLast? with
  | some (.curve _ _ c _) => some (pt c)
  | _ => none

theorem pt_toAbs (p : Path K) (x y : K) :
    pt (toAbs p (newPoint x y)) = ((pt (currentPosition p)).1 + x, (pt (currentPosition p)).2 + y) := by
  simp [pt]

theorem pt_smoothControl (p : Path K) (st : Pt K) :
    pt (smoothControl p) = (Pen.reflected ⟨pt (currentPosition p), st, ctrlOf p⟩) := by
  unfold smoothControl ctrlOf Pen.reflected
  cases h : p.getLast? with
  | none => simp [pt]
  | some s =>
    cases s with
    | move => simp [pt]
    | line => simp [pt]
    | curve a b c d => simp [pt]; constructor <;> ring

@[simp] theorem ctrlOf_moveTo (p : Path K) (q : Point K) : ctrlOf (moveTo p q) = none := by simp [ctrlOf, moveTo]
@[simp] theorem ctrlOf_lineTo (p : Path K) (q : Point K) : ctrlOf (lineTo p q) = none := by simp [ctrlOf, lineTo]
@[simp] theorem ctrlOf_curveTo (p : Path K) (a b q : Point K) : ctrlOf (curveTo p a b q) = some (pt b) := by
  simp [ctrlOf, curveTo]

/-- The parser follows the SVG rules as long as closing has nothing to do. -/
theorem parseItems_draw {its : List Text} {cs : List (SvgCmd K)} (h : Reads its cs) : ∀ (p : Path K) (pen : Pen K),
    pt (currentPosition p) = pen.cur →
    (ctrlOf p = pen.ctrl ∨ ∀ c, cs.head? = some c → c.isSmooth = false) →
    ClosesNothing pen cs →
    ∃ q, parseItems its p = some q ∧ strokes q = strokes p ++ svgDraw pen cs := by
  induction h with
  | nil => intro p pen _ _ _; exact ⟨p, rfl, by simp [svgDraw]⟩
  | moveTo h1 h2 _ ih =>
    rename_i x y _
    intro p pen hc _ hz
    obtain ⟨q, hq, hs⟩ := ih (moveTo p (newPoint x y)) ⟨(x, y), (x, y), none⟩ (by simp) (Or.inl (by simp)) hz
    refine ⟨q, ?_, ?_⟩
    · simpa [parseItems_cons, nextCommand, nextFloats, h1, h2] using hq
    · rw [hs, strokes_moveTo]; simp [svgDraw, SvgCmd.draw]
  | relMoveTo h1 h2 _ ih =>
    rename_i x y _
    intro p pen hc _ hz
    obtain ⟨q, hq, hs⟩ := ih (relMoveTo p (newPoint x y)) ⟨pen.rel (x, y), pen.rel (x, y), none⟩
      (by simp [relMoveTo, pt_toAbs, hc, Pen.rel]) (Or.inl (by simp [relMoveTo])) hz
    refine ⟨q, ?_, ?_⟩
    · simpa [parseItems_cons, nextCommand, nextFloats, h1, h2] using hq
    · rw [hs, strokes_relMoveTo]; simp [svgDraw, SvgCmd.draw]
  | lineTo h1 h2 _ ih =>
    rename_i x y _
    intro p pen hc _ hz
    obtain ⟨q, hq, hs⟩ := ih (lineTo p (newPoint x y)) ⟨(x, y), pen.start, none⟩ (by simp) (Or.inl (by simp)) hz
    refine ⟨q, ?_, ?_⟩
    · simpa [parseItems_cons, nextCommand, nextFloats, h1, h2] using hq
    · rw [hs, strokes_lineTo]; simp [svgDraw, SvgCmd.draw, hc]
  | relLineTo h1 h2 _ ih =>
    rename_i x y _
    intro p pen hc _ hz
    obtain ⟨q, hq, hs⟩ := ih (relLineTo p (newPoint x y)) ⟨pen.rel (x, y), pen.start, none⟩
      (by simp [relLineTo, pt_toAbs, hc, Pen.rel]) (Or.inl (by simp [relLineTo])) hz
    refine ⟨q, ?_, ?_⟩
    · simpa [parseItems_cons, nextCommand, nextFloats, h1, h2] using hq
    · rw [hs, strokes_relLineTo]; simp [svgDraw, SvgCmd.draw, hc, pt_toAbs, Pen.rel]
  | curveTo h1 h2 h3 h4 h5 h6 _ ih =>
    rename_i x1 y1 x2 y2 x y _
    intro p pen hc _ hz
    obtain ⟨q, hq, hs⟩ := ih (curveTo p (newPoint x1 y1) (newPoint x2 y2) (newPoint x y)) ⟨(x, y), pen.start, some (x2, y2)⟩
      (by simp) (Or.inl (by simp)) hz
    refine ⟨q, ?_, ?_⟩
    · simpa [parseItems_cons, nextCommand, nextFloats, h1, h2, h3, h4, h5, h6] using hq
    · rw [hs, strokes_curveTo]; simp [svgDraw, SvgCmd.draw, hc]
  | relCurveTo h1 h2 h3 h4 h5 h6 _ ih =>
    rename_i x1 y1 x2 y2 x y _
    intro p pen hc _ hz
    obtain ⟨q, hq, hs⟩ := ih (relCurveTo p (newPoint x1 y1) (newPoint x2 y2) (newPoint x y))
      ⟨pen.rel (x, y), pen.start, some (pen.rel (x2, y2))⟩
      (by simp [relCurveTo, pt_toAbs, hc, Pen.rel]) (Or.inl (by simp [relCurveTo, pt_toAbs, hc, Pen.rel])) hz
    refine ⟨q, ?_, ?_⟩
    · simpa [parseItems_cons, nextCommand, nextFloats, h1, h2, h3, h4, h5, h6] using hq
    · rw [hs, strokes_relCurveTo]; simp [svgDraw, SvgCmd.draw, hc, pt_toAbs, Pen.rel]
  | smoothTo h1 h2 h3 h4 _ ih =>
    rename_i x2 y2 x y _
    intro p pen hc hk hz
    have hk : ctrlOf p = pen.ctrl := by
      rcases hk with hk | hk
      · exact hk
      · have := hk _ rfl; simp [SvgCmd.isSmooth] at this
    obtain ⟨q, hq, hs⟩ := ih (smoothCurveTo p (newPoint x2 y2) (newPoint x y)) ⟨(x, y), pen.start, some (x2, y2)⟩
      (by simp [smoothCurveTo]) (Or.inl (by simp [smoothCurveTo])) hz
    refine ⟨q, ?_, ?_⟩
    · simpa [parseItems_cons, nextCommand, nextFloats, h1, h2, h3, h4] using hq
    · rw [hs, smoothCurveTo, strokes_curveTo, pt_smoothControl p pen.start, hc, hk]; simp [svgDraw, SvgCmd.draw]
  | relSmoothTo h1 h2 h3 h4 _ ih =>
    rename_i x2 y2 x y _
    intro p pen hc hk hz
    have hk : ctrlOf p = pen.ctrl := by
      rcases hk with hk | hk
      · exact hk
      · have := hk _ rfl; simp [SvgCmd.isSmooth] at this
    obtain ⟨q, hq, hs⟩ := ih (relSmoothCurveTo p (newPoint x2 y2) (newPoint x y))
      ⟨pen.rel (x, y), pen.start, some (pen.rel (x2, y2))⟩
      (by simp [relSmoothCurveTo, smoothCurveTo, pt_toAbs, hc, Pen.rel])
      (Or.inl (by simp [relSmoothCurveTo, smoothCurveTo, pt_toAbs, hc, Pen.rel])) hz
    refine ⟨q, ?_, ?_⟩
    · simpa [parseItems_cons, nextCommand, nextFloats, h1, h2, h3, h4] using hq
    · rw [hs, relSmoothCurveTo, smoothCurveTo, strokes_curveTo, pt_smoothControl p pen.start, pt_toAbs, pt_toAbs, hc, hk]
      simp [svgDraw, SvgCmd.draw, Pen.rel]
  | close _ ih =>
    intro p pen hc hk hz
    obtain ⟨hcur, hctrl, hz⟩ := hz
    obtain ⟨q, hq, hs⟩ := ih p ⟨pen.start, pen.start, none⟩ (by rw [hc, hcur]) (Or.inr hctrl) hz
    refine ⟨q, ?_, ?_⟩
    · simpa [parseItems_cons, nextCommand] using hq
    · rw [hs]; simp [svgDraw, SvgCmd.draw, hcur]

end Meaning

end Verif.Path
