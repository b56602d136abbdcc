import Verif.Lemmas.PlanSet

/-!
# Properties C10-C13: sheets and plan sets
-/

set_option linter.unusedSectionVars false

namespace Verif.PlanSet

open Verif Verif.BinPacking Verif.Spec

universe u v

section AnyArithmetic

variable {F : Type u} [Arith F] {P : Type v}

/-- **C10.** Whatever the arithmetic: if `Init` succeeds, then no part failed to render, the parts on all sheets together are
exactly the rendered parts, each as often as it was rendered, and each sheet has its parts in their original order. -/
theorem C10_no_part_lost (s : Sheet F) (parts : List (Option (List (RenderedPart F P)))) {docs : List (SvgDoc F P)}
    (h : init s parts = some (docs, .ok)) :
    ∃ all : List (List (RenderedPart F P)), parts = all.map some ∧
      (docs.map (·.parts)).flatten.Perm all.flatten ∧ ∀ d ∈ docs, d.parts.Sublist all.flatten := by
  obtain ⟨all, h1, h2, h3⟩ := initLoop_holds (handled := [])
    ⟨by simp [SvgDoc.parts, newSvgDoc], by simp [SvgDoc.parts, newSvgDoc]⟩ h
  simp only [List.nil_append] at h2 h3
  exact ⟨all, h1, h2, fun d hd => h3 _ (List.mem_map.2 ⟨d, hd, rfl⟩)⟩

/-- **C11.** (a) Whatever the arithmetic: `Init` does not succeed when a part has a side that is zero, negative or NaN. -/
theorem C11_bad_part_is_an_error (s : Sheet F) (parts : List (Option (List (RenderedPart F P))))
    {docs : List (SvgDoc F P)} (h : init s parts = some (docs, .ok)) (ps : List (RenderedPart F P)) (hps : some ps ∈ parts)
    (p : RenderedPart F P) (hp : p ∈ ps) :
    (p.height <=. Arith.zero) = false ∧ (p.width <=. Arith.zero) = false ∧ Arith.isNaN p.width = false ∧
      Arith.isNaN p.height = false := by
  have := initLoop_good h ps hps p hp
  simpa [badSize, and_assoc] using this

end AnyArithmetic

variable {K : Type u} [Field K] [LinearOrder K] [IsStrictOrderedRing K] {P : Type v}

/-- A sample: the default sheet and four parts; the third does not fit a sheet, the fourth goes to the first sheet. -/
def sampleSheet : Sheet ℚ := ⟨20, 12, 1/10⟩

def sampleParts : List (Option (List (RenderedPart ℚ String))) :=
  [some [⟨5, 4, "a"⟩, ⟨11, 14, "b"⟩], some [⟨30, 2, "c"⟩], some [⟨3, 3, "d"⟩]]

theorem sample_init : (init sampleSheet sampleParts).map (fun out => (out.1.map (·.renderables), out.2)) =
    some ([[⟨1/10, 1/10, ⟨5, 4, "a"⟩, false⟩, ⟨53/10, 1/10, ⟨11, 14, "b"⟩, true⟩,
            ⟨1/10, 43/10, ⟨3, 3, "d"⟩, false⟩],
           [⟨0, 0, ⟨30, 2, "c"⟩, false⟩]], .ok) := by
  decide +kernel

/-- **C11.** (b) `Init` succeeds for all parts with positive sides, however large. -/
theorem C11_positive_parts_always_placed (s : Sheet K) (hs : 0 ≤ s.padding) (all : List (List (RenderedPart K P)))
    (hp : ∀ p ∈ all.flatten, 0 < p.width ∧ 0 < p.height) : ∃ docs, init s (all.map some) = some (docs, .ok) := by
  obtain ⟨docs, h1, _⟩ := initLoop_ok hs all [newSvgDoc s.width s.height s.padding] hp (by
    intro d hd; rw [List.mem_singleton.1 hd]; exact newSvgDoc_ok s)
  exact ⟨docs, h1⟩

example : 0 ≤ sampleSheet.padding ∧ ∀ ps ∈ sampleParts.filterMap id, ∀ p ∈ ps, 0 < p.width ∧ 0 < p.height := by
  decide +kernel

/-- **C12.** A part that does not fit an empty sheet is alone on its sheet, at (0,0), not turned. -/
theorem C12_oversized_alone (s : Sheet K) (hs : 0 ≤ s.padding) (all : List (List (RenderedPart K P)))
    {docs : List (SvgDoc K P)} (h : init s (all.map some) = some (docs, .ok)) (d : SvgDoc K P) (hd : d ∈ docs)
    (r : Renderable K P) (hr : r ∈ d.renderables) (hbig : ¬ FitsSheet s r.part) :
    d.renderables = [⟨0, 0, r.part, false⟩] := by
  have hgood : ∀ p ∈ all.flatten, 0 < p.width ∧ 0 < p.height := by
    intro p hp
    obtain ⟨ps, hps, hp⟩ := List.mem_flatten.1 hp
    exact badSize_iff.1 (initLoop_good h ps (List.mem_map.2 ⟨ps, hps, rfl⟩) p hp)
  obtain ⟨docs', h1, h2⟩ := initLoop_ok hs all [newSvgDoc s.width s.height s.padding] hgood (by
    intro d hd; rw [List.mem_singleton.1 hd]; exact newSvgDoc_ok s)
  have : docs' = docs := by
    have h' : init s (all.map some) = some (docs', .ok) := h1
    rw [h'] at h
    simpa using h
  subst this
  obtain ⟨_, ⟨foot, hn⟩ | ⟨b, p, _, h4, h5⟩⟩ := h2 d hd
  · exact absurd (hn.fits r hr) hbig
  · rw [h4] at hr ⊢
    rw [List.mem_singleton.1 hr]

example : ¬ FitsSheet sampleSheet (⟨30, 2, "c"⟩ : RenderedPart ℚ String) := by
  simp [FitsSheet, Fits, sampleSheet]; norm_num

/-- **C13.** (a) The transform written for a part maps the part's box exactly onto the rectangle at its position, with the
part's size, turned when the orientation flag says so. (Exact numbers; the SVG text has them with three decimals.) -/
theorem C13_transform_covers (r : Renderable K P) (q : K × K) : r.covers q ↔ r.drawn.Mem q := by
  obtain ⟨x, y, ⟨w, h, pl⟩, rot⟩ := r
  obtain ⟨u, v⟩ := q
  cases rot with
  | false =>
    simp only [Renderable.covers, Renderable.transforms, Renderable.drawn, Bool.false_eq_true, if_false, applyTransforms,
      List.foldr, SvgTransform.apply, Rect.Mem]
    constructor
    · rintro ⟨⟨a, b⟩, ⟨h1, h2, h3, h4⟩, he⟩
      simp only [Prod.mk.injEq] at he h1 h2 h3 h4
      obtain ⟨e1, e2⟩ := he
      refine ⟨?_, ?_, ?_, ?_⟩ <;> linarith
    · rintro ⟨h1, h2, h3, h4⟩
      refine ⟨(u - x, v - y), ⟨?_, ?_, ?_, ?_⟩, by simp⟩ <;> simp only <;> linarith
  | true =>
    simp only [Renderable.covers, Renderable.transforms, Renderable.drawn, if_true, applyTransforms,
      List.foldr, SvgTransform.apply, Rect.Mem, Arith.add_field]
    constructor
    · rintro ⟨⟨a, b⟩, ⟨h1, h2, h3, h4⟩, he⟩
      simp only [Prod.mk.injEq] at he h1 h2 h3 h4
      obtain ⟨e1, e2⟩ := he
      refine ⟨?_, ?_, ?_, ?_⟩ <;> linarith
    · rintro ⟨h1, h2, h3, h4⟩
      refine ⟨(v - y, x + h - u), ⟨?_, ?_, ?_, ?_⟩, ?_⟩
      · simp only; linarith
      · simp only; linarith
      · simp only; linarith
      · simp only; linarith
      · simp only [Prod.mk.injEq]; constructor <;> ring

/-- **C13, negation.** A part that has its place on the sheet can be drawn partly outside of it and over another part: with the
default sheet (20 x 12, padding 0.1), a 5 x 19.8 part and a 19.8 x 6.6 part are both laid out on one sheet, and the
second one is drawn from y = 5.3 to y = 25.1 because its orientation flag is wrong (see `C04_flag_false`). -/
theorem C13_drawn_outside_false :
    (init sampleSheet [some [⟨5, 99/5, "a"⟩, ⟨99/5, 33/5, "b"⟩]]).map (fun out => out.1.map (·.renderables.map (·.drawn))) =
      some [[⟨1/10, 1/10, 99/5, 5⟩, ⟨1/10, 53/10, 33/5, 99/5⟩]] := by
  decide +kernel

/-- **C13, partial.** (b) If the parts added to a sheet all fit an empty sheet and none but squares ever meets a free bin of exactly
its padded size, then everything drawn stays inside the sheet by the padding and any two drawn parts are apart by twice the
padding. Missing: parts that exactly fill a free bin, for which the property is false (`C13_drawn_outside_false`). -/
theorem C13_drawn_apart_partial (s : Sheet K) (hs : 0 ≤ s.padding) (ps : List (RenderedPart K P))
    (hpos : ∀ p ∈ ps, 0 < p.width ∧ 0 < p.height) (hfit : ∀ p ∈ ps, FitsSheet s p)
    (hne : NoExactFits (newSvgDoc s.width s.height s.padding) ps) {d : SvgDoc K P}
    (hd : (newSvgDoc s.width s.height s.padding).addAll ps = some d) :
    (∀ r ∈ d.renderables, (r.drawn.grow s.padding).Within ⟨0, 0, s.width, s.height⟩) ∧
    d.renderables.Pairwise (fun r t => r.drawn.Apart t.drawn (s.padding + s.padding)) := by
  have key : ∀ (ps : List (RenderedPart K P)) (d0 d : SvgDoc K P), (∀ p ∈ ps, 0 < p.width ∧ 0 < p.height) →
      (∀ p ∈ ps, FitsSheet s p) → NoExactFits d0 ps → d0.addAll ps = some d → Settings s d0 →
      Normal s d0 (d0.renderables.map (·.drawn)) → Normal s d (d.renderables.map (·.drawn)) := by
    intro ps
    induction ps with
    | nil =>
      intro d0 d _ _ _ h _ hn
      simp only [SvgDoc.addAll, Option.some.injEq] at h
      subst h; exact hn
    | cons p ps ih =>
      intro d0 d hpos hfit hne h hset hn
      have hpos' := fun q hq => hpos q (List.mem_cons_of_mem _ hq)
      have hfit' := fun q hq => hfit q (List.mem_cons_of_mem _ hq)
      rcases add_normal hs hn hset p (hpos p (by simp)) with ⟨d', r, f, h1, h2, h3, h4, h5, h6⟩ | ⟨d', h1, _, _, _, h5⟩ |
        ⟨h1, h2⟩
      · simp only [SvgDoc.addAll, h1] at h
        refine ih d' d hpos' hfit' (hne.2 _ _ h1) h h3 ?_
        rw [h4, List.map_append]
        rw [h6 hne.1] at h2
        exact h2
      · exact absurd (hfit p (by simp)) h5
      · simp only [SvgDoc.addAll, h1] at h
        exact ih d0 d hpos' hfit' (hne.2 _ _ h1) h hset hn
  have hn := key ps _ d hpos hfit hne hd (newSvgDoc_settings s) (newSvgDoc_normal s)
  have hpl := hn.placed
  rw [List.map_map] at hpl
  constructor
  · intro r hr
    have hm := hpl.symm.subset (List.mem_map.2 ⟨r, hr, rfl⟩)
    obtain ⟨p, hp, hpe⟩ := List.mem_map.1 hm
    have := hn.inv.placed_within p hp
    rw [hn.box, hpe] at this
    exact this
  · have hd' : (d.container.root.placed.map fun p => rectOf p.1).Pairwise Rect.Disjoint :=
      List.pairwise_map.2 hn.inv.placed_disjoint
    rw [hpl.pairwise_iff (fun h => h.symm), List.pairwise_map] at hd'
    refine hd'.imp_of_mem fun {f g} hf hg hfg => ?_
    have pos : ∀ r ∈ d.renderables, 0 < (r.drawn.grow s.padding).w ∧ 0 < (r.drawn.grow s.padding).h := by
      intro r hr
      obtain ⟨p1, p2⟩ := hn.positive r hr
      unfold Renderable.drawn
      split <;> simp only [Rect.grow] <;> constructor <;> linarith
    have ha := hfg.apart (pos f hf).1 (pos f hf).2 (pos g hg).1 (pos g hg).2
    simp only [Rect.Apart, Rect.grow, Function.comp] at ha ⊢
    rcases ha with h | h | h | h
    · left; linarith
    · right; left; linarith
    · right; right; left; linarith
    · right; right; right; linarith

/-- The hypotheses of the partial theorem can be met, with a part that is really turned. -/
example : NoExactFits (newSvgDoc 20 12 (1/10) : SvgDoc ℚ String) [⟨5, 4, "a"⟩, ⟨11, 14, "b"⟩] := by
  refine ⟨Or.inr (by unfold NoExactFit; decide +kernel), fun d' res h => ?_⟩
  have h' : (newSvgDoc 20 12 (1/10) : SvgDoc ℚ String).add ⟨5, 4, "a"⟩ = some
      (⟨20, 12, 1/10, ⟨.split ⟨0, 0, 20, 12, false⟩ (.split ⟨0, 0, 26/5, 12, false⟩
        (.full ⟨0, 0, 26/5, 21/5, false⟩ ⟨5, 4, "a"⟩) (.free ⟨0, 21/5, 26/5, 39/5, false⟩))
        (.free ⟨26/5, 0, 74/5, 12, false⟩), 20, 12, 0, 0⟩, [⟨1/10, 1/10, ⟨5, 4, "a"⟩, false⟩]⟩, .added) := by
    decide +kernel
  rw [h'] at h
  obtain ⟨rfl, rfl⟩ := by simpa using h
  exact ⟨Or.inr (by unfold NoExactFit; decide +kernel), fun _ _ _ => trivial⟩

end Verif.PlanSet
