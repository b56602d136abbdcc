import Verif.Spec.OnPaper
import Verif.Props.SeenPart
import Verif.Props.RefineDoc
import Verif.Lemmas.SepLines

/-!
# C154 A drawing has its size on paper

The files say how large a sheet is on paper, and which box of the drawing fills it. The two agree: a unit of the drawing is an inch, or a millimetre if the document says so.
-/

namespace Verif.Render

open Verif Verif.Dyn Verif.Path Verif.PlanSet Verif.Svg Verif.Spec Verif.Files Verif.Xml

universe u

set_option linter.unusedSectionVars false

/-- A length is read in one way only. -/
theorem CssLength.unique {t : Text} {a b : ℝ} (ha : CssLength t a) (hb : CssLength t b) : a = b := by
  obtain ⟨n, u, x, k, e, hu, hx, rfl⟩ := ha
  obtain ⟨n', u', x', k', e', hu', hx', rfl⟩ := hb
  have len : ∀ p ∈ cssUnits, p.1.length = 2 := by decide +kernel
  have := len _ hu
  have := len _ hu'
  obtain ⟨rfl, rfl⟩ := List.append_inj' (e.symm.trans e') (by simp_all)
  have hk : ∀ p ∈ cssUnits, ∀ q ∈ cssUnits, p.1 = q.1 → p.2 = q.2 := by decide +kernel
  rw [hx, Option.some.injEq, XNum.fin.injEq] at hx'
  rw [hx', show k = k' from hk _ hu _ hu' rfl]

/-- How long a unit of a drawing is on paper, in millimetres. -/
noncomputable def unitMM : Units → ℝ
  | .mm => 1
  | .inch => 254 / 10

theorem cssLength_size (u : Units) (x : ℝ) : CssLength (Num.fmt 3 x ++ abbreviation u) (unitMM u * Decimal.rounded 3 x) := by
  have hx : (toFloat (Num.fmt 3 x) : Option (XNum ℝ)) = some (.fin (Decimal.rounded 3 x)) := toFloat_fmt_fin 3 x
  cases u with
  | mm => exact ⟨_, "mm".toList, _, 1, rfl, by decide +kernel, hx, by simp [unitMM]⟩
  | inch => exact ⟨_, "in".toList, _, 254 / 10, rfl, by decide +kernel, hx, by simp [unitMM]; ring⟩

theorem cssBox_size (w h : ℝ) :
    CssBox ("0.000 0.000 ".toList ++ Num.fmt 3 w ++ ' ' :: Num.fmt 3 h) (Decimal.rounded 3 w) (Decimal.rounded 3 h) := by
  have f : ∀ x : ℝ, (toFloat (Num.fmt 3 x) : Option (XNum ℝ)) = some (.fin (Decimal.rounded 3 x)) := toFloat_fmt_fin 3
  have z : (toFloat "0.000".toList : Option (XNum ℝ)) = some (.fin 0) := by
    unfold toFloat
    rw [show trimSpace "0.000".toList = "0.000".toList from by decide +kernel]
    have : Decimal.parseDecimal "0.000".toList = some (false, 0, -3) := by decide +kernel
    change (match Decimal.parseDecimal "0.000".toList with
      | some d => some (XNum.fin (Decimal.value d))
      | none => XNum.parseSpecial "0.000".toList) = _
    rw [this]
    simp [Decimal.value]
  refine ⟨"0.000".toList, "0.000".toList, Num.fmt 3 w, Num.fmt 3 h, ?_, z, z, f w, f h⟩
  have e : "0.000 0.000 ".toList ++ Num.fmt 3 w ++ ' ' :: Num.fmt 3 h =
      "0.000".toList ++ ' ' :: ("0.000".toList ++ ' ' :: (Num.fmt 3 w ++ ' ' :: Num.fmt 3 h)) := by
    rw [show "0.000 0.000 ".toList = "0.000".toList ++ ' ' :: "0.000".toList ++ [' '] from by decide +kernel]
    simp
  rw [e, words_word (by decide +kernel) (by decide +kernel) (by decide), words_word (by decide +kernel) (by decide +kernel) (by decide),
    words_word (fmt_ne_nil w) (fmt_no_separator w) (by decide)]
  unfold transformWords
  rw [List.splitOnP_eq_singleton (fun a ha => fmt_no_separator h a ha)]
  simpa using fmt_ne_nil h

/-- **C154.** A sheet that is seen in a file is on paper as large as its box, a unit of the drawing being an inch or a millimetre; and it has the size of the sheet. -/
theorem C154_scale (s : Sheet ℝ) (u : Units) (t : Text) (gs : List SeenPart) (h : SeesPlan s u t gs) : OnPaper (unitMM u) s t := by
  obtain ⟨as, es, h1, h2, h3, h4, -⟩ := h
  exact ⟨as, es, _, _, _, _, _, h1, h2, h3, h4, cssLength_size u _, cssLength_size u _, cssBox_size _ _, (Decimal.rounded_close 3 _).trans (by norm_num),
    (Decimal.rounded_close 3 _).trans (by norm_num)⟩

section Documents

variable {O : Type}

/-- **C154.** The units that the document names: a sheet is written in millimetres if the word says so, in capital letters or not, and in inches if not. -/
theorem C154_named (m : Machine (XNum ℝ) O) (doc : Elem (XNum ℝ)) (g : DMap (XNum ℝ)) (w : Text)
    (h : (m.docAttrs doc g).string "measurement_units".toList = some w) (hi : 'İ' ∉ w) :
    ∃ u, m.pageOf doc g = newPage (m.sheetOf doc g).width (m.sheetOf doc g).height u ∧ unitMM u = wordMM w := by
  refine ⟨_, C121_units m doc g w h, ?_⟩
  have e : newUnits.lower w = w.map Char.toLower := by
    unfold newUnits.lower
    refine List.map_congr_left fun c hc => ?_
    rw [if_neg]
    rintro rfl
    exact hi hc
  unfold newUnits wordMM
  rw [e, show "mm".toList = ['m', 'm'] from rfl, show "millimeters".toList = ['m', 'i', 'l', 'l', 'i', 'm', 'e', 't', 'e', 'r', 's'] from rfl]
  by_cases h1 : w.map Char.toLower = ['i', 'n'] ∨ w.map Char.toLower = ['i', 'n', 'c', 'h', 'e', 's']
  · rw [if_pos h1, if_pos rfl, if_neg (by rcases h1 with h1 | h1 <;> rw [h1] <;> decide)]
    rfl
  · rw [if_neg h1]
    by_cases h2 : w.map Char.toLower = ['m', 'm'] ∨ w.map Char.toLower = ['m', 'i', 'l', 'l', 'i', 'm', 'e', 't', 'e', 'r', 's']
    · rw [if_pos h2, if_pos h2]; rfl
    · rw [if_neg h2, if_neg h2]; rfl

/-- **C154.** The files of any document that C140 is about: each is a sheet that on paper has the size that the document gives, in inches, or in millimetres if the document
says so, and in which a unit of the drawing is as long. -/
theorem C154_written (m : Machine (XNum ℝ) O) (files : Nat) (dm : DMap (XNum ℝ)) (d : Doc (XNum ℝ)) (hd : m.world.parse m.fuel files dm = .val d)
    (s : Sheet ℝ) (hs : 0 ≤ s.padding) (w : Text) (hi : 'İ' ∉ w) (G : DMap (XNum ℝ) → Prop) (hG : G d.context)
    (hkeep : ∀ n ∈ d.parts, ∀ g, G g → ∀ parts g', m.renderPart (Machine.docElem d) d.customs (livePart m.world n) g = .ok (parts, g') → G g')
    (hsheet : ∀ g, G g → m.sheetOf (Machine.docElem d) g = finSheet s)
    (hword : ∀ g, G g → (m.docAttrs (Machine.docElem d) g).string "measurement_units".toList = some w)
    (all : List (List (Rendered (XNum ℝ)))) (hr : RenderedTo m (Machine.docElem d) d.customs (d.parts.map (livePart m.world)) d.context all)
    (hf : ∀ p ∈ laidOut (d.parts.map (livePart m.world)) all, Fine p ∧ Printable p ∧ ReadAsDrawn p.payload.path) :
    ∃ texts : List SheetText, m.sheets files dm = .ok texts ∧ ∀ t ∈ texts, OnPaper (wordMM w) s t.1 := by
  have hu : ∃ u : Units, unitMM u = wordMM w ∧ ∀ g, G g → m.pageOf (Machine.docElem d) g = newPage (.fin s.width) (.fin s.height) u := by
    obtain ⟨u, -, h2⟩ := C154_named m (Machine.docElem d) d.context w (hword _ hG) hi
    refine ⟨u, h2, fun g hg => ?_⟩
    obtain ⟨u', h3, h4⟩ := C154_named m (Machine.docElem d) g w (hword g hg) hi
    have : u' = u := by
      rw [← h2] at h4
      revert h4
      cases u <;> cases u' <;> simp [unitMM] <;> norm_num
    rw [h3, hsheet g hg, this]
    rfl
  obtain ⟨u, h1, h2⟩ := hu
  obtain ⟨texts, seen, ps, h3, h4, -⟩ := C140_seen_drawn m files dm d hd s hs u G hG hkeep hsheet h2 all hr hf
  refine ⟨texts, h3, fun t ht => ?_⟩
  rw [← h1]
  clear h3
  induction h4 with
  | nil => cases ht
  | cons h _ ih =>
    rcases List.mem_cons.1 ht with rfl | ht
    · exact C154_scale s u _ _ h.2
    · exact ih ht

end Documents

/-- Not vacuous: the size of a sheet as it is written for a document in millimetres, and for one in inches. -/
example : CssLength ("1.000mm".toList) 1 ∧ CssLength ("1.000in".toList) (254 / 10) := by
  have z : (toFloat "1.000".toList : Option (XNum ℝ)) = some (.fin 1) := by
    unfold toFloat
    rw [show trimSpace "1.000".toList = "1.000".toList from by decide +kernel]
    have : Decimal.parseDecimal "1.000".toList = some (false, 1000, -3) := by decide +kernel
    change (match Decimal.parseDecimal "1.000".toList with
      | some d => some (XNum.fin (Decimal.value d))
      | none => XNum.parseSpecial "1.000".toList) = _
    rw [this]
    norm_num [Decimal.value]
  exact ⟨⟨"1.000".toList, "mm".toList, 1, 1, rfl, by decide +kernel, z, by norm_num⟩,
    ⟨"1.000".toList, "in".toList, 1, 254 / 10, rfl, by decide +kernel, z, by norm_num⟩⟩

end Verif.Render
