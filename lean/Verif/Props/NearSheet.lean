import Verif.Spec.NearSheet
import Verif.Props.SvgDoc
import Verif.Props.NearText
import Verif.Props.NearBox
import Verif.Props.RoundedSheets

/-!
# Property C133: the text of a sheet with doubles

C99 and C101 with IEEE doubles: the place of a turned part is added up with rounding, and everything is written with three decimals.
-/

namespace Verif.Svg

open Verif Verif.Path Verif.PlanSet Verif.Files Verif.Xml Verif.Dyn Verif.Spec Verif.Double

theorem unmarked_double (n : Nat) (x : Double) : Unmarked (Num.fmt n x) := by
  obtain ⟨x⟩ := x
  cases x with
  | fin a => exact unmarked_signed _ _ _
  | pinf => exact unmarked_of_all (s := "+Inf".toList) (by decide)
  | ninf => exact unmarked_of_all (s := "-Inf".toList) (by decide)
  | nan => exact unmarked_of_all (s := "NaN".toList) (by decide)

/-- What is read of a transform. -/
def readTransform : SvgTransform Double → SvgTransform Double
  | .rotate90 x y => .rotate90 (readDouble 3 x) (readDouble 3 y)
  | .translate x y => .translate (readDouble 3 x) (readDouble 3 y)

/-- The numbers of a transform can be written and read. -/
def Sound : SvgTransform Double → Prop
  | .rotate90 x y => PtUpTo (10 ^ 100) (x, y)
  | .translate x y => PtUpTo (10 ^ 100) (x, y)

theorem double_word {x : Double} (hx : x.Finite) : (Num.fmt 3 x : Text) ≠ [] ∧ ∀ c ∈ (Num.fmt 3 x : Text), isSeparator c = false := by
  have hf : (Num.fmt 3 x : Text) = Decimal.fmt 3 x.val := by
    show Num.fmt 3 x.num = _
    conv_lhs => rw [hx.eq.1]
    rfl
  rw [hf]
  refine ⟨signedText_ne_nil _ _ _, fun c hc => ?_⟩
  rcases signedText_chars _ _ _ c hc with rfl | rfl | ⟨d, hd, rfl⟩
  · decide
  · decide
  · interval_cases d <;> decide

theorem toFloat_ninety_double : (toFloat "90".toList : Option Double) = some (Arith.lit 90 0) := by decide +kernel

section
variable [MathLib]

theorem words_transform_double (t : SvgTransform Double) (ht : Sound t) (s : Text) : ∃ ws, transformWords (transformText t ++ s) = ws ++ transformWords s ∧
    ∀ rest ts, SpellsTransforms rest ts → SpellsTransforms (ws ++ rest) (readTransform t :: ts) := by
  cases t with
  | rotate90 x y =>
    obtain ⟨h1, h2, h3, h4⟩ := ht
    refine ⟨["rotate".toList, "90".toList, Num.fmt 3 x, Num.fmt 3 y], ?_, ?_⟩
    · have e : transformText (.rotate90 x y) ++ s = "rotate".toList ++ '(' :: ("90".toList ++ ' ' :: (Num.fmt 3 x ++ ' ' :: (Num.fmt 3 y ++ ')' :: s))) := by
        unfold transformText
        simp only [List.append_assoc]
        rfl
      rw [e, words_word (by decide) (by decide) (by decide), words_word (by decide) (by decide) (by decide),
        words_word (double_word h1).1 (double_word h1).2 (by decide), words_word (double_word h2).1 (double_word h2).2 (by decide)]
      rfl
    · intro rest ts h
      exact SpellsTransforms.rotate90 toFloat_ninety_double (toFloat_double 3 h1 h3) (toFloat_double 3 h2 h4) h
  | translate x y =>
    obtain ⟨h1, h2, h3, h4⟩ := ht
    refine ⟨["translate".toList, Num.fmt 3 x, Num.fmt 3 y], ?_, ?_⟩
    · have e : transformText (.translate x y) ++ s = "translate".toList ++ '(' :: (Num.fmt 3 x ++ ' ' :: (Num.fmt 3 y ++ ')' :: s)) := by
        unfold transformText
        simp only [List.append_assoc]
        rfl
      rw [e, words_word (by decide) (by decide) (by decide),
        words_word (double_word h1).1 (double_word h1).2 (by decide), words_word (double_word h2).1 (double_word h2).2 (by decide)]
      rfl
    · intro rest ts h
      exact SpellsTransforms.translate (toFloat_double 3 h1 h3) (toFloat_double 3 h2 h4) h

theorem words_joined_double (ts : List (SvgTransform Double)) (hts : ∀ t ∈ ts, Sound t) :
    SpellsTransforms (transformWords (joinSpace (ts.map transformText))) (ts.map readTransform) := by
  induction ts with
  | nil => exact .nil
  | cons t ts ih =>
    have ih := ih fun t ht => hts t (by simp [ht])
    cases ts with
    | nil =>
      obtain ⟨ws, h1, h2⟩ := words_transform_double t (hts t (by simp)) []
      simp only [List.append_nil] at h1
      simp only [List.map_cons, List.map_nil, joinSpace]
      rw [h1]
      exact h2 _ _ .nil
    | cons t' ts =>
      obtain ⟨ws, h1, h2⟩ := words_transform_double t (hts t (by simp)) (' ' :: joinSpace ((t' :: ts).map transformText))
      rw [words_separator (by decide)] at h1
      rw [List.map_cons, List.map_cons, joinSpace, ← List.map_cons, h1]
      · exact h2 _ _ ih
      · simp

/-- A text spells at most one list of transforms. -/
theorem spells_unique {ws : List Text} {ts : List (SvgTransform Double)} (h : SpellsTransforms ws ts) : ∀ {ts' : List (SvgTransform Double)},
    SpellsTransforms ws ts' → ts = ts' := by
  induction h with
  | nil => intro ts' h'; cases h'; rfl
  | translate a b _ ih =>
    intro ts' h'
    cases h' with
    | translate a' b' r' =>
      rw [a] at a'
      rw [b] at b'
      cases a'; cases b'
      rw [ih r']
  | rotate90 c a b _ ih =>
    intro ts' h'
    cases h' with
    | rotate90 c' a' b' r' =>
      rw [a] at a'
      rw [b] at b'
      cases a'; cases b'
      rw [ih r']

/-- **C133.** The text of a sheet is XML with one element, which has the size of the sheet and, for every part in the order of the layout, one group with
the place of the part, its path and its label: whatever the numbers are, even infinite ones, and whatever the functions of package `math` are. -/
theorem C133_written (d : Page Double) (hc : Unmarked d.cutStyle) (hl : Unmarked d.labelStyle) (rs : List (Renderable Double (Drawing Double)))
    (hr : ∀ r ∈ rs, Writable r) : (writePage d rs).2 = .ok () ∧ Says (writePage d rs).1 [pageElement d rs] := by
  obtain ⟨h1, h2⟩ := read_page unmarked_double d hc hl rs hr
  exact ⟨h1, _, h2, elements_page d rs, unique_page d rs⟩

theorem sound_transforms {B : ℚ} (h1 : 1 ≤ B) (hB : B ≤ 10 ^ 99) (r : Renderable Double (Drawing Double)) (hr : PartUpTo B r) :
    (∀ t ∈ r.transforms, Sound t) ∧ Double.Near (r.x +. r.part.height) (r.x.val + r.part.height.val) (3 * B) (3 * (eps * B)) := by
  obtain ⟨⟨f1, f2, b1, b2⟩, f3, b3, -⟩ := hr
  have big : (3 : ℚ) * B ≤ 10 ^ 100 := by
    calc (3 : ℚ) * B ≤ 3 * 10 ^ 99 := by linarith
      _ ≤ 10 ^ 100 := by norm_num
  have hn : Double.Near (r.x +. r.part.height) (r.x.val + r.part.height.val) (3 * B) (3 * (eps * B)) := by
    refine ((Double.Near.self f1 b1).add (Double.Near.self f3 b3) ?_).mono ?_ ?_
    · refine le_trans (b := 10 ^ 100) ?_ (by norm_num)
      linarith
    · have : (1 : ℚ) / 10 ^ 40 ≤ 1 / 2 := by norm_num
      unfold eps
      nlinarith
    · have : (1 : ℚ) / 10 ^ 40 ≤ eps := by norm_num
      have : eps * 1 ≤ eps * B := mul_le_mul_of_nonneg_left h1 (by norm_num)
      linarith
  refine ⟨?_, hn⟩
  have k1 : ∀ {x : Double}, |x.val| ≤ B → |x.val| ≤ 10 ^ 100 := fun h => h.trans (by linarith)
  intro t ht
  unfold Renderable.transforms at ht
  split at ht
  · simp only [List.mem_cons, List.not_mem_nil, or_false] at ht
    rcases ht with rfl | rfl
    · exact ⟨hn.fin, f2, hn.mag.trans big, k1 b2⟩
    · exact ⟨hn.fin, f2, hn.mag.trans big, k1 b2⟩
  · rw [List.mem_singleton] at ht
    subst ht
    exact ⟨f1, f2, k1 b1, k1 b2⟩

/-- What the spelled transforms do. -/
theorem near_place {B : ℚ} (h1 : 1 ≤ B) (hB : B ≤ 10 ^ 99) (r : Renderable Double (Drawing Double)) (hr : PartUpTo B r) {e : ℚ} {p q : Pt ℚ} (h : NearPt e p q) :
    NearPt (1 / 2000 + e + 9 * (eps * B)) (applyTransforms ((r.transforms.map readTransform).map valTransform) p) (place r q) := by
  obtain ⟨-, hn⟩ := sound_transforms h1 hB r hr
  obtain ⟨⟨f1, f2, b1, b2⟩, f3, b3, -⟩ := hr
  have r1 := (near_read (n := 3) h1 b1).2
  have r2 := (near_read (n := 3) h1 b2).2
  have r3 := (near_read (n := 3) (x := r.x +. r.part.height) (B := 3 * B) (by linarith) hn.mag).2
  have r4 := hn.err
  have e0 : 0 ≤ eps * B := mul_nonneg (by norm_num) (by linarith)
  have e1 : (1 : ℚ) / 2 / 10 ^ 3 = 1 / 2000 := by norm_num
  have e2 : eps * (3 * B) = 3 * (eps * B) := by ring
  rw [e1] at r1 r2 r3
  rw [e2] at r3
  obtain ⟨p1, p2⟩ := h
  unfold Renderable.transforms place
  generalize eps * B = k at *
  split
  · simp only [List.map_cons, List.map_nil, readTransform, valTransform, PlanSet.applyTransforms, List.foldr_cons, List.foldr_nil, SvgTransform.apply, NearPt]
    rw [abs_le] at *
    refine ⟨⟨?_, ?_⟩, ?_⟩
    · linarith
    · linarith
    · rw [abs_le]; constructor <;> linarith
  · simp only [List.map_cons, List.map_nil, readTransform, valTransform, PlanSet.applyTransforms, List.foldr_cons, List.foldr_nil, SvgTransform.apply, NearPt]
    rw [abs_le] at *
    refine ⟨⟨?_, ?_⟩, ?_⟩
    · linarith
    · linarith
    · rw [abs_le]; constructor <;> linarith

/-- **C133.** The attributes that are written for a part can be read, and what they show is the drawing of the part where the layout puts it, stroke for stroke and
point for point: up to half a thousandth for the place, half a unit of the last decimal for the path, and some half units in the last place of `B`. -/
theorem C133_placed {B : ℚ} (h1 : 1 ≤ B) (hB : B ≤ 10 ^ 99) (n : Nat) (r : Renderable Double (Drawing Double)) (hr : PartUpTo B r) :
    ∃ ts q, SpellsTransforms (transformWords (joinSpace (r.transforms.map transformText))) ts ∧ parsePath (printPath n r.part.payload.path) = some q ∧ Connected q ∧
      List.Forall₂ (fun s s' => ∀ u : ℚ, 0 ≤ u → u ≤ 1 → NearPt (1 / 2000 + 1 / 2 / 10 ^ n + 11 * (eps * B))
        (applyTransforms (ts.map valTransform) ((s'.map valPt).at u)) (place r ((s.map valPt).at u)))
        (svgStrokes (Arith.zero, Arith.zero) r.part.payload.path) (strokes q) := by
  obtain ⟨q, g1, g2, g3⟩ := C128_read h1 (hB.trans (by norm_num)) n r.part.payload.path hr.2.2.2
  refine ⟨_, q, words_joined_double _ (sound_transforms h1 hB r hr).1, g1, g2, g3.imp fun s s' h u u0 u1 => ?_⟩
  have h := near_place h1 hB r hr (h.2 u u0 u1)
  rw [id_eq] at h
  convert h using 1
  ring

/-- **C133.** Whoever reads the attributes sees nothing else. -/
theorem C133_shown {B : ℚ} (h1 : 1 ≤ B) (hB : B ≤ 10 ^ 99) (n : Nat) (r : Renderable Double (Drawing Double)) (hr : PartUpTo B r) (q : Pt ℚ) (hq : Shown n r q) :
    ∃ s ∈ svgStrokes (Arith.zero, Arith.zero) r.part.payload.path, ∃ u : ℚ, 0 ≤ u ∧ u ≤ 1 ∧
      NearPt (1 / 2000 + 1 / 2 / 10 ^ n + 11 * (eps * B)) q (place r ((s.map valPt).at u)) := by
  obtain ⟨ts, p, a1, a2, s', hs', u, u0, u1, rfl⟩ := hq
  obtain ⟨ts', p', c1, c2, -, c4⟩ := C133_placed h1 hB n r hr
  rw [spells_unique a1 c1]
  rw [a2] at c2
  cases c2
  obtain ⟨s, hs, h⟩ := forall₂_right c4 hs'
  exact ⟨s, hs, u, u0, u1, h u u0 u1⟩

/-- The layout puts the drawing of a part on the ground that it gives to the part. -/
theorem C133_ground {δ : ℚ} (r : Renderable Double (Drawing Double)) (hb : InBoxUpTo δ r.part) (s : Stroke Double)
    (hs : s ∈ svgStrokes (Arith.zero, Arith.zero) r.part.payload.path) (u : ℚ) (u0 : 0 ≤ u) (u1 : u ≤ 1) :
    ((groundOf Double.val r).grow δ).Mem (place r ((s.map valPt).at u)) := by
  obtain ⟨a1, a2, a3, a4⟩ := hb s hs u u0 u1
  simp only [Rect.grow] at a1 a2 a3 a4
  unfold groundOf place
  cases r.rotate <;> refine ⟨?_, ?_, ?_, ?_⟩ <;> simp [Rect.grow] <;> linarith

/-- **C133.** Two parts whose drawings are in their boxes up to `δ`, and whose grounds are apart by `g`, are shown apart by `g`, up to the rounding of both: two points of the
two drawings are at least so far from each other, horizontally or vertically. -/
theorem C133_apart {B δ g : ℚ} (h1 : 1 ≤ B) (hB : B ≤ 10 ^ 99) (n : Nat) (r r' : Renderable Double (Drawing Double)) (hr : PartUpTo B r) (hr' : PartUpTo B r')
    (hb : InBoxUpTo δ r.part) (hb' : InBoxUpTo δ r'.part) (h : (groundOf Double.val r).Apart (groundOf Double.val r') g) (q q' : Pt ℚ) (hq : Shown n r q) (hq' : Shown n r' q') :
    g - (1 / 1000 + 1 / 10 ^ n + 22 * (eps * B) + 2 * δ) ≤ max |q.1 - q'.1| |q.2 - q'.2| := by
  obtain ⟨s, hs, u, u0, u1, n1, n2⟩ := C133_shown h1 hB n r hr q hq
  obtain ⟨s', hs', u', u0', u1', n1', n2'⟩ := C133_shown h1 hB n r' hr' q' hq'
  obtain ⟨m1, m2, m3, m4⟩ := C133_ground r hb s hs u u0 u1
  obtain ⟨m1', m2', m3', m4'⟩ := C133_ground r' hb' s' hs' u' u0' u1'
  generalize place r _ = p at *
  generalize place r' _ = p' at *
  simp only [Rect.grow] at m1 m2 m3 m4 m1' m2' m3' m4'
  rw [abs_le] at n1 n2 n1' n2'
  have e : (1 : ℚ) / 10 ^ n = 2 * (1 / 2 / 10 ^ n) := by ring
  rw [e]
  generalize (1 : ℚ) / 2 / 10 ^ n = c at *
  generalize eps * B = k at *
  rcases h with h | h | h | h
  · exact le_max_of_le_left (by rw [le_abs]; right; linarith)
  · exact le_max_of_le_left (by rw [le_abs]; left; linarith)
  · exact le_max_of_le_right (by rw [le_abs]; right; linarith)
  · exact le_max_of_le_right (by rw [le_abs]; left; linarith)

/-- **C133.** A part whose ground keeps a distance `g` to the sides of the sheet is shown on the sheet, with this distance up to the rounding. -/
theorem C133_inside {B δ g w h : ℚ} (h1 : 1 ≤ B) (hB : B ≤ 10 ^ 99) (n : Nat) (r : Renderable Double (Drawing Double)) (hr : PartUpTo B r)
    (hb : InBoxUpTo δ r.part) (hg : ((groundOf Double.val r).grow g).Within ⟨0, 0, w, h⟩) (q : Pt ℚ) (hq : Shown n r q) :
    (Rect.grow ⟨0, 0, w, h⟩ (1 / 2000 + 1 / 2 / 10 ^ n + 11 * (eps * B) + δ - g)).Mem q := by
  obtain ⟨s, hs, u, u0, u1, n1, n2⟩ := C133_shown h1 hB n r hr q hq
  obtain ⟨m1, m2, m3, m4⟩ := C133_ground r hb s hs u u0 u1
  obtain ⟨k1, k2, k3, k4⟩ := hg
  generalize place r _ = p at *
  simp only [Rect.grow] at m1 m2 m3 m4 k1 k2 k3 k4
  rw [abs_le] at n1 n2
  generalize (1 : ℚ) / 2 / 10 ^ n = c at *
  generalize eps * B = k at *
  refine ⟨?_, ?_, ?_, ?_⟩ <;> simp only [Rect.grow] <;> linarith

theorem addAll_parts {d d' : SvgDoc Double (Drawing Double)} {ps : List (RenderedPart Double (Drawing Double))} (h : d.addAll ps = some d') :
    d'.parts.length ≤ d.parts.length + ps.length ∧ ∀ p ∈ d'.parts, p ∈ d.parts ∨ p ∈ ps := by
  induction ps generalizing d with
  | nil =>
    simp only [SvgDoc.addAll, Option.some.injEq] at h
    subst h
    exact ⟨by simp, fun r hr => .inl hr⟩
  | cons p ps ih =>
    rw [SvgDoc.addAll] at h
    split at h
    · cases h
    · next d1 res h1 =>
      obtain ⟨k1, k2⟩ := ih h
      obtain ⟨e, -, -⟩ := add_parts h1
      rw [e] at k1 k2
      constructor
      · rw [List.length_append] at k1
        have : (if res = AddResult.added then [p] else []).length ≤ 1 := by split <;> simp
        rw [List.length_cons]
        omega
      · intro q hq
        rcases k2 q hq with hq | hq
        · rcases List.mem_append.1 hq with hq | hq
          · exact .inl hq
          · split at hq
            · exact .inr (by simpa using .inl (List.mem_singleton.1 hq))
            · cases hq
        · exact .inr (by simp [hq])

/-- **C133.** From the parts to the written sheet, in figures: at most a thousand parts with drawings inside their boxes up to `δ`, and coordinates up to 2000, that fit a sheet of at
most 1000 by 1000. None of them meets a free bin of exactly its size. All of the sheet shows is on the sheet with the padding to its sides, and the parts are shown apart by
twice the padding: up to half a thousandth for the places, half a unit of the last decimal for the paths, and two millionths for the rounding of the layout, of each part. -/
theorem C133_sheet (s : Sheet Double) (ps : List (RenderedPart Double (Drawing Double))) (δ : ℚ) (n : Nat)
    (hs : s.width.Finite ∧ s.height.Finite ∧ s.padding.Finite)
    (hw : 0 ≤ s.width.val ∧ s.width.val ≤ 1000) (hh : 0 ≤ s.height.val ∧ s.height.val ≤ 1000) (hp : 0 ≤ s.padding.val ∧ s.padding.val ≤ 1000)
    (hn : ps.length ≤ 1000)
    (hparts : ∀ p ∈ ps, p.width.Finite ∧ p.height.Finite ∧ 0 < p.width.val ∧ 0 < p.height.val ∧ p.width.val ≤ 10 ^ 6 ∧ p.height.val ≤ 10 ^ 6)
    (hdraw : ∀ p ∈ ps, InBoxUpTo δ p ∧ ∀ s ∈ p.payload.path, TargetsUpTo 2000 s)
    (hfit : ∀ p ∈ ps, FitsRounded Double.val s p) (hne : NoFillings Double.val (newSvgDoc s.width s.height s.padding) ps) :
    ∃ d, (newSvgDoc s.width s.height s.padding).addAll ps = some d ∧
      (∀ r ∈ d.renderables, ∀ q, Shown n r q →
        (Rect.grow ⟨0, 0, s.width.val, s.height.val⟩ (1 / 2000 + 1 / 2 / 10 ^ n + δ + 2 / 10 ^ 6 - s.padding.val)).Mem q) ∧
      d.renderables.Pairwise fun r r' => ∀ q q', Shown n r q → Shown n r' q' →
        2 * s.padding.val - (1 / 1000 + 1 / 10 ^ n + 2 * δ + 2 / 10 ^ 6) ≤ max |q.1 - q'.1| |q.2 - q'.2| := by
  have hε : (0 : ℚ) ≤ 2 ^ (-53 : ℤ) * 2 ^ (20 : ℤ) := by norm_num
  have hR := C124_doubles (M := 2 ^ (20 : ℤ)) (by norm_num) (zpow_le_zpow_right₀ (by norm_num) (by norm_num))
  have hn' : (ps.length : ℚ) ≤ 1000 := by exact_mod_cast hn
  have hf : Feasible Double.Finite Double.val (2 ^ (20 : ℤ)) (2 ^ (-53 : ℤ) * 2 ^ (20 : ℤ)) s ps := by
    have hb : ((4 : ℚ) * ps.length + 2) * (2 ^ (-53 : ℤ) * 2 ^ (20 : ℤ)) ≤ 1 := by
      have := mul_le_mul_of_nonneg_right hn' hε
      norm_num at this ⊢
      linarith
    refine ⟨hs, ⟨hw.1, ?_⟩, ⟨hh.1, ?_⟩, hp.1, fun p hp' => ?_⟩
    · have : (1001 : ℚ) ≤ 2 ^ (20 : ℤ) := by norm_num
      linarith [hw.2]
    · have : (1001 : ℚ) ≤ 2 ^ (20 : ℤ) := by norm_num
      linarith [hh.2]
    · obtain ⟨p1, p2, p3, p4, p5, p6⟩ := hparts p hp'
      have : (2000 : ℚ) + 10 ^ 6 + 2 ^ (-53 : ℤ) * 2 ^ (20 : ℤ) ≤ 2 ^ (20 : ℤ) := by norm_num
      exact ⟨p1, p2, p3, p4, by linarith [hp.2], by linarith [hp.2]⟩
  obtain ⟨d, h1, h2, h3⟩ := C125_drawn hR hε s ps hf hfit hne
  obtain ⟨l1, l2⟩ := addAll_parts h1
  have l1 : (d.renderables.length : ℚ) ≤ 1000 := by
    simp only [newSvgDoc, SvgDoc.parts, List.map_nil, List.length_map, List.length_nil, Nat.zero_add] at l1
    exact_mod_cast l1.trans hn
  have l2 : ∀ r ∈ d.renderables, r.part ∈ ps := by
    intro r hr
    simpa [newSvgDoc, SvgDoc.parts] using l2 r.part (List.mem_map.2 ⟨r, hr, rfl⟩)
  have l3 := mul_le_mul_of_nonneg_right l1 hε
  have small : 22 * (eps * 2000) ≤ (1 : ℚ) / 10 ^ 6 := by norm_num
  have upTo : ∀ r ∈ d.renderables, PartUpTo 2000 r := by
    intro r hr
    obtain ⟨f1, f2, -, w1, w2, w3, w4⟩ := h2 r hr
    obtain ⟨p1, p2, p3, p4, -, -⟩ := hparts _ (l2 r hr)
    have t : (4 * (d.renderables.length : ℚ) + 3) * (2 ^ (-53 : ℤ) * 2 ^ (20 : ℤ)) ≤ 1 := by
      norm_num at l3 ⊢
      linarith
    generalize (4 * (d.renderables.length : ℚ) + 3) * (2 ^ (-53 : ℤ) * 2 ^ (20 : ℤ)) = k at *
    simp only [Rect.grow, groundOf] at w1 w2 w3 w4
    refine ⟨⟨f1, f2, ?_, ?_⟩, p2, ?_, (hdraw _ (l2 r hr)).2⟩
    all_goals
      rw [abs_le]
      cases hrot : r.rotate <;> simp only [hrot, if_true, if_false, Bool.false_eq_true] at w1 w2 w3 w4 <;> constructor <;> linarith [hw.2, hh.2, hp.1]
  have inBox : ∀ r ∈ d.renderables, InBoxUpTo δ r.part := fun r hr => (hdraw _ (l2 r hr)).1
  refine ⟨d, h1, fun r hr q hq => ?_, ?_⟩
  · have hg : ((groundOf Double.val r).grow (s.padding.val - 1 / 10 ^ 6)).Within ⟨0, 0, s.width.val, s.height.val⟩ := by
      obtain ⟨-, -, -, w1, w2, w3, w4⟩ := h2 r hr
      have t : (4 * (d.renderables.length : ℚ) + 3) * (2 ^ (-53 : ℤ) * 2 ^ (20 : ℤ)) ≤ 1 / 10 ^ 6 := by
        norm_num at l3 ⊢
        linarith
      generalize (4 * (d.renderables.length : ℚ) + 3) * (2 ^ (-53 : ℤ) * 2 ^ (20 : ℤ)) = k at *
      simp only [Rect.grow] at w1 w2 w3 w4
      refine ⟨?_, ?_, ?_, ?_⟩ <;> simp only [Rect.grow] <;> linarith
    obtain ⟨m1, m2, m3, m4⟩ := C133_inside (by norm_num) (by norm_num) n r (upTo r hr) (inBox r hr) hg q hq
    simp only [Rect.grow] at m1 m2 m3 m4
    generalize (1 : ℚ) / 2 / 10 ^ n = c at *
    have e : (2 : ℚ) / 10 ^ 6 = 1 / 10 ^ 6 + 1 / 10 ^ 6 := by norm_num
    refine ⟨?_, ?_, ?_, ?_⟩ <;> simp only [Rect.grow] <;> linarith
  · refine (List.Pairwise.imp_of_mem ?_ h3)
    intro r r' hr hr' h q q' hq hq'
    have t : (8 * (d.renderables.length : ℚ) + 6) * (2 ^ (-53 : ℤ) * 2 ^ (20 : ℤ)) ≤ 1 / 10 ^ 6 := by
      norm_num at l3 ⊢
      linarith
    have := C133_apart (by norm_num) (by norm_num) n r r' (upTo r hr) (upTo r' hr') (inBox r hr) (inBox r' hr') h q q' hq hq'
    have e : (2 : ℚ) / 10 ^ 6 = 1 / 10 ^ 6 + 1 / 10 ^ 6 := by norm_num
    linarith

/-- **C133.** The same for all sheets of a plan set: every part is laid out, on however many sheets, at positions up to 2000. A sheet has a single part that fits no sheet, or only parts that fit; if none of
these but squares ever met a free bin of exactly its size, all of what the sheet shows is on the sheet with the padding to its sides, and the parts are shown apart by twice
the padding, up to the same errors. -/
theorem C133_sheets (s : Sheet Double) (all : List (List (RenderedPart Double (Drawing Double)))) (δ : ℚ) (n : Nat)
    (hs : s.width.Finite ∧ s.height.Finite ∧ s.padding.Finite)
    (hw : 0 ≤ s.width.val ∧ s.width.val ≤ 1000) (hh : 0 ≤ s.height.val ∧ s.height.val ≤ 1000) (hp : 0 ≤ s.padding.val ∧ s.padding.val ≤ 1000)
    (hn : all.flatten.length ≤ 1000)
    (hparts : ∀ p ∈ all.flatten, p.width.Finite ∧ p.height.Finite ∧ 0 < p.width.val ∧ 0 < p.height.val ∧ p.width.val ≤ 10 ^ 6 ∧ p.height.val ≤ 10 ^ 6)
    (hdraw : ∀ p ∈ all.flatten, InBoxUpTo δ p ∧ ∀ s ∈ p.payload.path, TargetsUpTo 2000 s) :
    ∃ docs, PlanSet.init s (all.map some) = some (docs, .ok) ∧ ∀ d ∈ docs, (∀ r ∈ d.renderables, PtUpTo 2000 (r.x, r.y)) ∧
      (((∀ r ∈ d.renderables, FitsRounded Double.val s r.part) ∧ (NoFillings Double.val (newSvgDoc s.width s.height s.padding) d.parts →
        (∀ r ∈ d.renderables, ∀ q, Shown n r q →
          (Rect.grow ⟨0, 0, s.width.val, s.height.val⟩ (1 / 2000 + 1 / 2 / 10 ^ n + δ + 2 / 10 ^ 6 - s.padding.val)).Mem q) ∧
        d.renderables.Pairwise fun r r' => ∀ q q', Shown n r q → Shown n r' q' →
          2 * s.padding.val - (1 / 1000 + 1 / 10 ^ n + 2 * δ + 2 / 10 ^ 6) ≤ max |q.1 - q'.1| |q.2 - q'.2|)) ∨
      Alone Double.val s d) := by
  have hε : (0 : ℚ) ≤ 2 ^ (-53 : ℤ) * 2 ^ (20 : ℤ) := by norm_num
  have hR := C124_doubles (M := 2 ^ (20 : ℤ)) (by norm_num) (zpow_le_zpow_right₀ (by norm_num) (by norm_num))
  have hn' : (all.flatten.length : ℚ) ≤ 1000 := by exact_mod_cast hn
  have hf : Feasible Double.Finite Double.val (2 ^ (20 : ℤ)) (2 ^ (-53 : ℤ) * 2 ^ (20 : ℤ)) s all.flatten := by
    have hb : ((4 : ℚ) * all.flatten.length + 2) * (2 ^ (-53 : ℤ) * 2 ^ (20 : ℤ)) ≤ 1 := by
      have := mul_le_mul_of_nonneg_right hn' hε
      norm_num at this ⊢
      linarith
    refine ⟨hs, ⟨hw.1, ?_⟩, ⟨hh.1, ?_⟩, hp.1, fun p hp' => ?_⟩
    · have : (1001 : ℚ) ≤ 2 ^ (20 : ℤ) := by norm_num
      linarith [hw.2]
    · have : (1001 : ℚ) ≤ 2 ^ (20 : ℤ) := by norm_num
      linarith [hh.2]
    · obtain ⟨p1, p2, p3, p4, p5, p6⟩ := hparts p hp'
      have : (2000 : ℚ) + 10 ^ 6 + 2 ^ (-53 : ℤ) * 2 ^ (20 : ℤ) ≤ 2 ^ (20 : ℤ) := by norm_num
      exact ⟨p1, p2, p3, p4, by linarith [hp.2], by linarith [hp.2]⟩
  obtain ⟨docs, h1, h2⟩ := C125_doubles s all hs hw hh hp hn hparts
  refine ⟨docs, h1, fun d hd => ?_⟩
  obtain ⟨k1, kf, k2⟩ := C125_each hR hε s all hf h1 d hd
  constructor
  · intro r hr
    refine ⟨(kf r hr).1, (kf r hr).2, ?_⟩
    rcases h2 d hd with ⟨-, foot, g1, g2, -⟩ | ⟨p, g1, -⟩
    · obtain ⟨f, hf1, hf2, hf3, hf4⟩ := forall₂_left g1 hr
      obtain ⟨w1, w2, w3, w4⟩ := g2 f hf1
      simp only [Rect.grow] at w1 w2 w3 w4
      obtain ⟨all', e1, _, e2⟩ := C10_no_part_lost s _ h1
      obtain rfl : all = all' := List.map_injective_iff.2 (Option.some_injective _) e1
      obtain ⟨-, -, p3, p4, -, -⟩ := hparts r.part ((e2 d hd).subset (List.mem_map_of_mem hr))
      rw [hf2] at w1 w2
      rw [hf3] at w3 w4
      have : (1 : ℚ) / 10 ^ 6 ≤ 1 := by norm_num
      generalize (1 : ℚ) / 10 ^ 6 = k at *
      simp only [abs_le]
      rcases hf4 with ⟨e3, e4⟩ | ⟨e3, e4⟩ <;> rw [e3] at w2 <;> rw [e4] at w4 <;> refine ⟨⟨?_, ?_⟩, ?_, ?_⟩ <;> linarith [hw.2, hh.2, hp.1]
    · rw [g1, List.mem_singleton] at hr
      subst hr
      show |(Arith.zero : Double).val| ≤ 2000 ∧ |(Arith.zero : Double).val| ≤ 2000
      decide +kernel
  rcases k2 with ⟨k2, -⟩ | k2
  · refine .inl ⟨k2, fun hne => ?_⟩
    obtain ⟨all', e1, _, e2⟩ := C10_no_part_lost s _ h1
    obtain rfl : all = all' := List.map_injective_iff.2 (Option.some_injective _) e1
    have hsub := e2 d hd
    obtain ⟨d1, j1, j2, j3⟩ := C133_sheet s d.parts δ n hs hw hh hp (hsub.length_le.trans hn) (fun p hp' => hparts p (hsub.subset hp')) (fun p hp' => hdraw p (hsub.subset hp'))
      (by intro p hp'; obtain ⟨r, hr, rfl⟩ := List.mem_map.1 hp'; exact k2 r hr) hne
    rw [k1, Option.some.injEq] at j1
    subst j1
    exact ⟨j2, j3⟩
  · exact .inr k2

end

/-- A corner of the given size, as a part. -/
def cornerOf (w h : Int) : RenderedPart Double (Drawing Double) where
  width := Arith.lit w 1
  height := Arith.lit h 1
  payload :=
    { id := "part".toList
      path := [.move (newPoint (Arith.lit 0 0) (Arith.lit 0 0)) (newPoint (Arith.lit 0 0) (Arith.lit 0 0)),
        .line (newPoint (Arith.lit 0 0) (Arith.lit 0 0)) (newPoint (Arith.lit w 1) (Arith.lit 0 0)),
        .line (newPoint (Arith.lit w 1) (Arith.lit 0 0)) (newPoint (Arith.lit w 1) (Arith.lit h 1))]
      label := ⟨[], []⟩ }

/-- The default sheet of 20 by 12 with a padding of 0.1. -/
def twenty : Sheet Double := ⟨Arith.lit 20 0, Arith.lit 12 0, Arith.lit 1 1⟩

/-- Two corners, the second one is turned. -/
def twoCorners : List (RenderedPart Double (Drawing Double)) := [cornerOf 50 40, cornerOf 110 140]

theorem corners_in_box : ∀ p ∈ twoCorners, InBoxUpTo 0 p := by
  have key : ∀ {a b m u : ℚ}, 0 ≤ a → a ≤ m → 0 ≤ b → b ≤ m → 0 ≤ u → u ≤ 1 → 0 ≤ (1 - u) * a + u * b ∧ (1 - u) * a + u * b ≤ m := by
    intro a b m u a0 a1 b0 b1 u0 u1
    constructor
    · have := mul_nonneg (sub_nonneg.2 u1) a0
      have := mul_nonneg u0 b0
      linarith
    · have := mul_le_mul_of_nonneg_left a1 (sub_nonneg.2 u1)
      have := mul_le_mul_of_nonneg_left b1 u0
      linarith
  have lines : ∀ p ∈ twoCorners, ∀ s ∈ svgStrokes (Arith.zero, Arith.zero) p.payload.path, ∃ a b, s = .line a b ∧
      (0 ≤ a.1.val ∧ a.1.val ≤ p.width.val ∧ 0 ≤ a.2.val ∧ a.2.val ≤ p.height.val) ∧
      0 ≤ b.1.val ∧ b.1.val ≤ p.width.val ∧ 0 ≤ b.2.val ∧ b.2.val ≤ p.height.val := by
    intro p hp
    simp only [twoCorners, List.mem_cons, List.not_mem_nil, or_false] at hp
    rcases hp with rfl | rfl <;>
    · simp only [cornerOf, svgStrokes, List.forall_mem_cons]
      exact ⟨⟨_, _, rfl, by decide +kernel, by decide +kernel⟩, ⟨_, _, rfl, by decide +kernel, by decide +kernel⟩, by simp⟩
  intro p hp s hs u u0 u1
  obtain ⟨a, b, rfl, ⟨a1, a2, a3, a4⟩, b1, b2, b3, b4⟩ := lines p hp s hs
  have k1 := key a1 a2 b1 b2 u0 u1
  have k2 := key a3 a4 b3 b4 u0 u1
  simp only [Rect.Mem, Rect.grow, Stroke.map, Stroke.at, valPt]
  refine ⟨?_, ?_, ?_, ?_⟩ <;> linarith [k1.1, k1.2, k2.1, k2.2]

/-- **C133** is not empty: the two corners on the sheet, written with three decimals, are apart by 0.197 whatever the functions of package `math` are. -/
example [MathLib] : ∃ d, (newSvgDoc twenty.width twenty.height twenty.padding).addAll twoCorners = some d ∧ d.renderables.map (·.rotate) = [false, true] ∧
    d.renderables.Pairwise fun r r' => ∀ q q', Shown 3 r q → Shown 3 r' q' → (197 : ℚ) / 1000 ≤ max |q.1 - q'.1| |q.2 - q'.2| := by
  have hne : NoFillings Double.val (newSvgDoc twenty.width twenty.height twenty.padding) twoCorners := by
    refine ⟨.inr (by unfold NoFilling; decide +kernel), fun d' res h => ⟨.inr ?_, fun _ _ _ => trivial⟩⟩
    have : NoFilling Double.val (((newSvgDoc twenty.width twenty.height twenty.padding).add (cornerOf 50 40)).get (by decide +kernel)).1 (cornerOf 110 140) := by
      unfold NoFilling
      decide +kernel
    simpa only [h, Option.get_some] using this
  obtain ⟨d, h1, -, h3⟩ := C133_sheet twenty twoCorners 0 3 (by decide +kernel) (by decide +kernel) (by decide +kernel) (by decide +kernel) (by decide)
    (by decide +kernel) (fun p hp => ⟨corners_in_box p hp, by revert p; decide +kernel⟩) (by unfold FitsRounded Fits; decide +kernel) hne
  refine ⟨d, h1, ?_, h3.imp fun h q q' hq hq' => le_trans ?_ (h q q' hq hq')⟩
  · have : ((newSvgDoc twenty.width twenty.height twenty.padding).addAll twoCorners).map (fun d => d.renderables.map (·.rotate)) = some [false, true] := by
      decide +kernel
    rw [h1] at this
    simpa using this
  · have : (1999 : ℚ) / 20000 ≤ twenty.padding.val := by decide +kernel
    norm_num
    linarith

end Verif.Svg
