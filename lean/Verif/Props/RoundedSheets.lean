import Verif.Lemmas.RoundedSheets
import Verif.Props.Rounded
import Verif.Props.PlanSet

/-!
# Property C125: sheets laid out with rounding

C11 (b), C12 and the places of C13 are about exact arithmetic. Here is what is left of them with rounding (`Rounds`), with figures for IEEE doubles.
-/

set_option linter.unusedSectionVars false

namespace Verif.PlanSet

open Verif Verif.BinPacking Verif.Spec

universe u v w
variable {F : Type u} [Arith F] {K : Type v} [Field K] [LinearOrder K] [IsStrictOrderedRing K] {P : Type w}
variable {fin : F → Prop} {val : F → K} {M ε : K}

/-- **C125.** (a) Parts with positive sides in the range are all laid out, on however many sheets. On every sheet, either the parts all fit an empty sheet, and keep
the padding to the sides and to each other up to a rounding error that grows with the number of parts of that sheet; or there is a single part that fits no sheet. -/
theorem C125_sheets (hR : Rounds fin val M ε) (hε : 0 ≤ ε) (s : Sheet F) (all : List (List (RenderedPart F P)))
    (hf : Feasible fin val M ε s all.flatten) :
    ∃ docs, init s (all.map some) = some (docs, .ok) ∧ ∀ d ∈ docs,
      Laid val s ((4 * d.renderables.length + 3) * ε) ((8 * d.renderables.length + 6) * ε) d ∨ Alone val s d := by
  have hs : FineSheet fin val M ε s all.flatten.length := by
    have e : 4 * (all.flatten.length : K) * ε + 2 * ε = (4 * all.flatten.length + 2) * ε := by ring
    refine ⟨hf.fins, ⟨⟨hR.zero.1, hR.zero.1, hf.fins.1, hf.fins.2.1⟩, hf.width.1, hf.height.1, ?_, ?_⟩, hf.padding⟩
    · rw [hR.zero.2, abs_zero, e]; linarith [hf.width.2]
    · rw [hR.zero.2, abs_zero, e]; linarith [hf.height.2]
  obtain ⟨docs, h1, h2⟩ := initLoop_fine hR hε hs all 0 [newSvgDoc s.width s.height s.padding] (by omega) hf.parts (by
    intro d hd; rw [List.mem_singleton.1 hd]; exact newSvgDoc_fine hR hs 0)
  exact ⟨docs, h1, fun d hd => (h2 d hd).laid hε hR.zero.2⟩

/-- **C125.** (b) A part that, with its padding, does not fit an empty sheet is alone on its sheet, at (0,0), not turned. -/
theorem C125_oversized_alone (hR : Rounds fin val M ε) (hε : 0 ≤ ε) (s : Sheet F) (all : List (List (RenderedPart F P)))
    (hf : Feasible fin val M ε s all.flatten) {docs : List (SvgDoc F P)} (h : init s (all.map some) = some (docs, .ok)) (d : SvgDoc F P) (hd : d ∈ docs)
    (r : Renderable F P) (hr : r ∈ d.renderables) (hbig : ¬FitsRounded val s r.part) : d.renderables = [⟨Arith.zero, Arith.zero, r.part, false⟩] := by
  obtain ⟨docs', h1, h2⟩ := C125_sheets hR hε s all hf
  rw [h1] at h
  simp only [Option.some.injEq, Prod.mk.injEq, and_true] at h
  subst h
  rcases h2 d hd with ⟨h3, _⟩ | ⟨p, h3, _⟩
  · exact absurd (h3 r hr) hbig
  · rw [h3] at hr ⊢
    rw [List.mem_singleton.1 hr]

/-- **C125.** (d) Parts that fit an empty sheet, and are added to one, are drawn on it with the padding to the sides and to each other, turned or not, up to the same
rounding error: unless a part meets a free bin of exactly its size (compare `C13_drawn_outside_false`). -/
theorem C125_drawn (hR : Rounds fin val M ε) (hε : 0 ≤ ε) (s : Sheet F) (ps : List (RenderedPart F P)) (hf : Feasible fin val M ε s ps)
    (hfit : ∀ p ∈ ps, FitsRounded val s p) (hne : NoFillings val (newSvgDoc s.width s.height s.padding) ps) :
    ∃ d, (newSvgDoc s.width s.height s.padding).addAll ps = some d ∧
      (∀ r ∈ d.renderables, fin r.x ∧ fin r.y ∧ FitsRounded val s r.part ∧
        ((groundOf val r).grow (val s.padding)).Within (Rect.grow ⟨0, 0, val s.width, val s.height⟩ ((4 * d.renderables.length + 3) * ε))) ∧
      d.renderables.Pairwise fun r t => (groundOf val r).Apart (groundOf val t) (val s.padding * 2 - (8 * d.renderables.length + 6) * ε) := by
  have hs : FineSheet fin val M ε s ps.length := by
    have e : 4 * (ps.length : K) * ε + 2 * ε = (4 * ps.length + 2) * ε := by ring
    refine ⟨hf.fins, ⟨⟨hR.zero.1, hR.zero.1, hf.fins.1, hf.fins.2.1⟩, hf.width.1, hf.height.1, ?_, ?_⟩, hf.padding⟩
    · rw [hR.zero.2, abs_zero, e]; linarith [hf.width.2]
    · rw [hR.zero.2, abs_zero, e]; linarith [hf.height.2]
  have h0 : Usual fin val ε s (newSvgDoc s.width s.height s.padding : SvgDoc F P) [] [] := by
    have hr := hs.room
    exact ⟨⟨hr.fins.1, hr.fins.2.1, hr.fins.2.2.1, hr.fins.2.2.2, hr.width, hr.height⟩, rfl, by simp [newSvgDoc, newContainer, newBin, Bin.depth], .nil, .nil,
      by simp [newSvgDoc, newContainer, newBin, Bin.placed], by simp [newSvgDoc], by simp [newSvgDoc]⟩
  obtain ⟨d, bins, h1, h2⟩ := addAll_ground hR hε hs ps 0 _ [] (by omega) hf.parts hfit hne ⟨rfl, rfl, rfl, rfl, rfl⟩ (by simp [newSvgDoc]) h0
  obtain ⟨h3, h4⟩ := h2.apart hε hR.zero.2
  exact ⟨d, h1, fun r hr => ⟨(h2.positions r hr).1, (h2.positions r hr).2, h2.fits r hr, h3 _ (List.mem_map.2 ⟨r, hr, rfl⟩)⟩, List.pairwise_map.1 h4⟩

/-- **C125.** (e) Every sheet is the sheet that its own parts, in their order, make of an empty one, and all positions are finite. Either all its parts fit an empty sheet, and if none but squares ever
met a free bin of exactly its size, they are drawn as in (d); or there is a single part that fits no sheet. -/
theorem C125_each (hR : Rounds fin val M ε) (hε : 0 ≤ ε) (s : Sheet F) (all : List (List (RenderedPart F P))) (hf : Feasible fin val M ε s all.flatten)
    {docs : List (SvgDoc F P)} (h : init s (all.map some) = some (docs, .ok)) (d : SvgDoc F P) (hd : d ∈ docs) :
    (newSvgDoc s.width s.height s.padding : SvgDoc F P).addAll d.parts = some d ∧ (∀ r ∈ d.renderables, fin r.x ∧ fin r.y) ∧
    (((∀ r ∈ d.renderables, FitsRounded val s r.part) ∧ (NoFillings val (newSvgDoc s.width s.height s.padding) d.parts →
        (∀ r ∈ d.renderables,
          ((groundOf val r).grow (val s.padding)).Within (Rect.grow ⟨0, 0, val s.width, val s.height⟩ ((4 * d.renderables.length + 3) * ε))) ∧
        d.renderables.Pairwise fun r t => (groundOf val r).Apart (groundOf val t) (val s.padding * 2 - (8 * d.renderables.length + 6) * ε))) ∨
      Alone val s d) := by
  have hs : FineSheet fin val M ε s all.flatten.length := by
    have e : 4 * (all.flatten.length : K) * ε + 2 * ε = (4 * all.flatten.length + 2) * ε := by ring
    refine ⟨hf.fins, ⟨⟨hR.zero.1, hR.zero.1, hf.fins.1, hf.fins.2.1⟩, hf.width.1, hf.height.1, ?_, ?_⟩, hf.padding⟩
    · rw [hR.zero.2, abs_zero, e]; linarith [hf.width.2]
    · rw [hR.zero.2, abs_zero, e]; linarith [hf.height.2]
  obtain ⟨docs', h1, h2⟩ := initLoop_fine hR hε hs all 0 [newSvgDoc s.width s.height s.padding] (by omega) hf.parts (by
    intro d hd; rw [List.mem_singleton.1 hd]; exact newSvgDoc_fine hR hs 0)
  have e : docs = docs' := by
    have := h.symm.trans h1
    simpa using this
  subst e
  obtain ⟨⟨-, hall⟩, -, hd'⟩ := h2 d hd
  refine ⟨hall, ?_⟩
  obtain ⟨all', e1, _, e2⟩ := C10_no_part_lost s _ h
  obtain rfl : all = all' := List.map_injective_iff.2 (Option.some_injective _) e1
  have hsub := e2 d hd
  rcases hd' with ⟨foot, bins, hu⟩ | ⟨b, p, _, h4, h5⟩
  · refine ⟨hu.positions, .inl ⟨hu.fits, fun hne => ?_⟩⟩
    have hlen : ((d.parts.length : Nat) : K) ≤ all.flatten.length := by exact_mod_cast hsub.length_le
    have hb : (4 * (d.parts.length : K) + 2) * ε ≤ (4 * all.flatten.length + 2) * ε := mul_le_mul_of_nonneg_right (by linarith) hε
    obtain ⟨d1, k1, k2, k3⟩ := C125_drawn hR hε s d.parts
      ⟨hf.fins, ⟨hf.width.1, by linarith [hf.width.2]⟩, ⟨hf.height.1, by linarith [hf.height.2]⟩, hf.padding, fun p hp => hf.parts p (hsub.subset hp)⟩
      (by intro p hp; obtain ⟨r, hr, rfl⟩ := List.mem_map.1 hp; exact hu.fits r hr) hne
    rw [hall, Option.some.injEq] at k1
    subst k1
    exact ⟨fun r hr => (k2 r hr).2.2.2, k3⟩
  · refine ⟨fun r hr => ?_, .inr ⟨p, h4, h5⟩⟩
    rw [h4, List.mem_singleton] at hr
    subst hr
    exact ⟨hR.zero.1, hR.zero.1⟩

/-- **C125.** (c) In figures: at most a thousand parts with sides up to a million, on sheets and with a padding up to 1000, all of them doubles. Every part is laid
out; parts that fit a sheet keep the padding to the sides of the sheet and to each other up to a millionth of a unit. -/
theorem C125_doubles (s : Sheet Double) (all : List (List (RenderedPart Double P))) (hs : s.width.Finite ∧ s.height.Finite ∧ s.padding.Finite)
    (hw : 0 ≤ s.width.val ∧ s.width.val ≤ 1000) (hh : 0 ≤ s.height.val ∧ s.height.val ≤ 1000) (hp : 0 ≤ s.padding.val ∧ s.padding.val ≤ 1000)
    (hn : all.flatten.length ≤ 1000) (hparts : ∀ p ∈ all.flatten, p.width.Finite ∧ p.height.Finite ∧ 0 < p.width.val ∧ 0 < p.height.val ∧
      p.width.val ≤ 10 ^ 6 ∧ p.height.val ≤ 10 ^ 6) :
    ∃ docs, init s (all.map some) = some (docs, .ok) ∧ ∀ d ∈ docs, Laid Double.val s (1 / 10 ^ 6) (1 / 10 ^ 6) d ∨ Alone Double.val s d := by
  have hε : (0 : ℚ) ≤ 2 ^ (-53 : ℤ) * 2 ^ (20 : ℤ) := by norm_num
  have hR := C124_doubles (M := 2 ^ (20 : ℤ)) (by norm_num) (zpow_le_zpow_right₀ (by norm_num) (by norm_num))
  have hn' : (all.flatten.length : ℚ) ≤ 1000 := by exact_mod_cast hn
  have hb : ((4 : ℚ) * all.flatten.length + 2) * (2 ^ (-53 : ℤ) * 2 ^ (20 : ℤ)) ≤ 1 := by
    have := mul_le_mul_of_nonneg_right hn' hε
    norm_num at this ⊢
    linarith
  have hf : Feasible Double.Finite Double.val (2 ^ (20 : ℤ)) (2 ^ (-53 : ℤ) * 2 ^ (20 : ℤ)) s all.flatten := by
    refine ⟨hs, ⟨hw.1, ?_⟩, ⟨hh.1, ?_⟩, hp.1, fun p hp' => ?_⟩
    · have : (1001 : ℚ) ≤ 2 ^ (20 : ℤ) := by norm_num
      linarith [hw.2]
    · have : (1001 : ℚ) ≤ 2 ^ (20 : ℤ) := by norm_num
      linarith [hh.2]
    · obtain ⟨p1, p2, p3, p4, p5, p6⟩ := hparts p hp'
      have : (2000 : ℚ) + 10 ^ 6 + 2 ^ (-53 : ℤ) * 2 ^ (20 : ℤ) ≤ 2 ^ (20 : ℤ) := by norm_num
      exact ⟨p1, p2, p3, p4, by linarith [hp.2], by linarith [hp.2]⟩
  obtain ⟨docs, h1, h2⟩ := C125_sheets hR hε s all hf
  refine ⟨docs, h1, fun d hd => (h2 d hd).imp_left fun ⟨h3, foot, h4, h5, h6⟩ => ?_⟩
  have hlen : (d.renderables.length : ℚ) ≤ 1000 := by
    obtain ⟨all', e1, _, e2⟩ := C10_no_part_lost s _ h1
    have e3 : all = all' := List.map_injective_iff.2 (Option.some_injective _) e1
    subst e3
    have := (e2 d hd).length_le
    rw [SvgDoc.parts, List.length_map] at this
    exact_mod_cast this.trans hn
  have := mul_le_mul_of_nonneg_right hlen hε
  exact ⟨h3, foot, h4, fun f hf => grow_mono (by norm_num at this ⊢; linarith) (h5 f hf), h6.imp fun h => apart_mono (by norm_num at this ⊢; linarith) h⟩

/-- The default sheet of 20 by 12 with a padding of 0.1. -/
def sheetDoubles : Sheet Double := ⟨tenth 200, tenth 120, tenth 1⟩

/-- Four parts; the third one fits no sheet. -/
def partDoubles : List (List (RenderedPart Double String)) :=
  [[⟨tenth 50, tenth 40, "a"⟩, ⟨tenth 110, tenth 140, "b"⟩], [⟨tenth 300, tenth 20, "c"⟩, ⟨tenth 30, tenth 30, "d"⟩]]

/-- The hypotheses of `C125_doubles` can be met. -/
example : (sheetDoubles.width.Finite ∧ sheetDoubles.height.Finite ∧ sheetDoubles.padding.Finite) ∧
    (0 ≤ sheetDoubles.width.val ∧ sheetDoubles.width.val ≤ 1000) ∧ (0 ≤ sheetDoubles.height.val ∧ sheetDoubles.height.val ≤ 1000) ∧
    (0 ≤ sheetDoubles.padding.val ∧ sheetDoubles.padding.val ≤ 1000) ∧ partDoubles.flatten.length ≤ 1000 ∧
    ∀ p ∈ partDoubles.flatten, p.width.Finite ∧ p.height.Finite ∧ 0 < p.width.val ∧ 0 < p.height.val ∧ p.width.val ≤ 10 ^ 6 ∧ p.height.val ≤ 10 ^ 6 := by
  refine ⟨by decide +kernel, by decide +kernel, by decide +kernel, by decide +kernel, by decide, ?_⟩
  intro p hp
  simp only [partDoubles, List.flatten_cons, List.flatten_nil, List.cons_append, List.nil_append, List.mem_cons, List.not_mem_nil, or_false] at hp
  rcases hp with rfl | rfl | rfl | rfl <;> decide +kernel

/-- The run of the four parts. -/
example : (init sheetDoubles (partDoubles.map some)).map (fun out => (out.1.map (·.renderables), out.2)) =
    some ([[⟨tenth 1, tenth 1, ⟨tenth 50, tenth 40, "a"⟩, false⟩, ⟨tenth 53, tenth 1, ⟨tenth 110, tenth 140, "b"⟩, true⟩,
            ⟨tenth 1, tenth 43, ⟨tenth 30, tenth 30, "d"⟩, false⟩],
           [⟨tenth 0, tenth 0, ⟨tenth 300, tenth 20, "c"⟩, false⟩]], .ok) := by
  decide +kernel

example : ¬FitsRounded Double.val sheetDoubles (⟨tenth 300, tenth 20, "c"⟩ : RenderedPart Double String) := by
  unfold FitsRounded Fits
  decide +kernel

end Verif.PlanSet
