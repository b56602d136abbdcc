import Verif.Lemmas.PlanSet

/-!
# Induction over the sheets of a plan set
-/

set_option linter.unusedSectionVars false

namespace Verif.PlanSet

open Verif Verif.BinPacking Verif.Spec

universe u v

section Lawless

variable {F : Type u} [Arith F] {P : Type v}

theorem addToDocs_induct {Q : SvgDoc F P → Prop} (hstep : ∀ d p d' res, Q d → d.add p = some (d', res) → res ≠ .error → Q d') {p : RenderedPart F P} :
    ∀ {ds ds' : List (SvgDoc F P)} {res : AddResult}, (∀ d ∈ ds, Q d) → addToDocs p ds = some (ds', res) → res ≠ .error → ∀ d ∈ ds', Q d
  | [], ds', res, hq, h, _ => by
    simp only [addToDocs, Option.some.injEq, Prod.mk.injEq] at h
    obtain ⟨rfl, rfl⟩ := h
    simp
  | d :: ds, ds', res, hq, h, hr => by
    simp only [addToDocs] at h
    cases ha : d.add p with
    | none => simp [ha] at h
    | some out =>
      obtain ⟨d', r⟩ := out
      cases r with
      | error =>
        simp only [ha, Option.some.injEq, Prod.mk.injEq] at h
        exact absurd h.2.symm hr
      | added =>
        simp only [ha, Option.some.injEq, Prod.mk.injEq] at h
        obtain ⟨rfl, rfl⟩ := h
        intro x hx
        rcases List.mem_cons.1 hx with rfl | hx
        · exact hstep d p _ _ (hq d (by simp)) ha (by simp)
        · exact hq x (by simp [hx])
      | notAdded =>
        simp only [ha] at h
        cases hr' : addToDocs p ds with
        | none => simp [hr'] at h
        | some out =>
          obtain ⟨ds1, r1⟩ := out
          simp only [hr', Option.some.injEq, Prod.mk.injEq] at h
          obtain ⟨rfl, rfl⟩ := h
          intro x hx
          rcases List.mem_cons.1 hx with rfl | hx
          · exact hstep d p _ _ (hq d (by simp)) ha (by simp)
          · exact addToDocs_induct hstep (fun d hd => hq d (by simp [hd])) hr' hr x hx

theorem addPart_induct {Q : SvgDoc F P → Prop} {s : Sheet F} (h0 : Q (newSvgDoc s.width s.height s.padding))
    (hstep : ∀ d p d' res, Q d → d.add p = some (d', res) → res ≠ .error → Q d') {p : RenderedPart F P} {ds ds' : List (SvgDoc F P)}
    (hq : ∀ d ∈ ds, Q d) (h : addPart s ds p = some (ds', .added)) : ∀ d ∈ ds', Q d := by
  unfold addPart at h
  cases ha : addToDocs p ds with
  | none => simp [ha] at h
  | some out =>
    obtain ⟨ds1, r⟩ := out
    cases r with
    | error => simp [ha] at h
    | added =>
      simp only [ha, Option.some.injEq, Prod.mk.injEq, and_true] at h
      subst h
      exact addToDocs_induct hstep hq ha (by simp)
    | notAdded =>
      simp only [ha] at h
      cases hb : (newSvgDoc s.width s.height s.padding : SvgDoc F P).add p with
      | none => simp [hb] at h
      | some out =>
        obtain ⟨d1, r⟩ := out
        cases r with
        | error => simp [hb] at h
        | notAdded => simp [hb] at h
        | added =>
          simp only [hb, Option.some.injEq, Prod.mk.injEq, and_true] at h
          subst h
          intro x hx
          rcases List.mem_append.1 hx with hx | hx
          · exact addToDocs_induct hstep hq ha (by simp) x hx
          · rw [List.mem_singleton.1 hx]
            exact hstep _ _ _ _ h0 hb (by simp)

theorem addRendered_induct {Q : SvgDoc F P → Prop} {s : Sheet F} (h0 : Q (newSvgDoc s.width s.height s.padding))
    (hstep : ∀ d p d' res, Q d → d.add p = some (d', res) → res ≠ .error → Q d') : ∀ {ps : List (RenderedPart F P)} {ds ds' : List (SvgDoc F P)},
    (∀ d ∈ ds, Q d) → addRendered s ds ps = some (ds', .ok) → ∀ d ∈ ds', Q d
  | [], ds, ds', hq, h => by
    simp only [addRendered, Option.some.injEq, Prod.mk.injEq, and_true] at h
    exact h ▸ hq
  | p :: ps, ds, ds', hq, h => by
    simp only [addRendered] at h
    cases ha : addPart s ds p with
    | none => simp [ha] at h
    | some out =>
      obtain ⟨ds1, r⟩ := out
      cases r with
      | error => simp [ha] at h
      | notAdded => simp [ha] at h
      | added =>
        simp only [ha] at h
        exact addRendered_induct h0 hstep (addPart_induct h0 hstep hq ha) h

theorem initLoop_induct {Q : SvgDoc F P → Prop} {s : Sheet F} (h0 : Q (newSvgDoc s.width s.height s.padding))
    (hstep : ∀ d p d' res, Q d → d.add p = some (d', res) → res ≠ .error → Q d') : ∀ {parts : List (Option (List (RenderedPart F P)))} {ds ds' : List (SvgDoc F P)},
    (∀ d ∈ ds, Q d) → initLoop s ds parts = some (ds', .ok) → ∀ d ∈ ds', Q d
  | [], ds, ds', hq, h => by
    simp only [initLoop, Option.some.injEq, Prod.mk.injEq, and_true] at h
    exact h ▸ hq
  | none :: ps, ds, ds', hq, h => by simp [initLoop] at h
  | some p :: ps, ds, ds', hq, h => by
    simp only [initLoop] at h
    cases ha : addRendered s ds p with
    | none => simp [ha] at h
    | some out =>
      obtain ⟨ds1, r⟩ := out
      cases r with
      | ok =>
        simp only [ha] at h
        exact initLoop_induct h0 hstep (addRendered_induct h0 hstep hq ha) h
      | _ => simp [ha] at h

/-- What holds for a new sheet and is kept by adding parts holds for every sheet of a plan set. -/
theorem init_induct {Q : SvgDoc F P → Prop} {s : Sheet F} (h0 : Q (newSvgDoc s.width s.height s.padding))
    (hstep : ∀ d p d' res, Q d → d.add p = some (d', res) → res ≠ .error → Q d') {parts : List (Option (List (RenderedPart F P)))} {docs : List (SvgDoc F P)}
    (h : init s parts = some (docs, .ok)) : ∀ d ∈ docs, Q d :=
  initLoop_induct h0 hstep (by intro d hd; rw [List.mem_singleton.1 hd]; exact h0) h

theorem addAll_append (d : SvgDoc F P) : ∀ (ps : List (RenderedPart F P)) (p : RenderedPart F P) {d' d'' : SvgDoc F P} {res : AddResult},
    d.addAll ps = some d' → d'.add p = some (d'', res) → d.addAll (ps ++ [p]) = some d'' := by
  intro ps
  induction ps generalizing d with
  | nil =>
    intro p d' d'' res h1 h2
    simp only [SvgDoc.addAll, Option.some.injEq] at h1
    subst h1
    simp [SvgDoc.addAll, h2]
  | cons q ps ih =>
    intro p d' d'' res h1 h2
    simp only [SvgDoc.addAll, List.cons_append] at h1 ⊢
    cases hq : d.add q with
    | none => simp [hq] at h1
    | some out =>
      rw [hq] at h1
      exact ih _ p h1 h2

end Lawless

variable {K : Type u} [Field K] [LinearOrder K] [IsStrictOrderedRing K] {P : Type v}

/-- Every sheet of a plan set is what its own parts make of an empty sheet. -/
theorem init_addAll {s : Sheet K} (hs : 0 ≤ s.padding) {parts : List (Option (List (RenderedPart K P)))} {docs : List (SvgDoc K P)}
    (h : init s parts = some (docs, .ok)) :
    ∀ d ∈ docs, SheetOk s d ∧ (newSvgDoc s.width s.height s.padding : SvgDoc K P).addAll d.parts = some d ∧ ∀ p ∈ d.parts, 0 < p.width ∧ 0 < p.height := by
  refine init_induct ⟨newSvgDoc_ok s, rfl, by simp [newSvgDoc, SvgDoc.parts]⟩ ?_ h
  rintro d p d' res ⟨hok, hall, hpos⟩ hadd hres
  obtain ⟨e1, e2, e3⟩ := add_parts hadd
  have hp : 0 < p.width ∧ 0 < p.height := by
    apply badSize_iff.1
    cases hb : badSize p with
    | false => rfl
    | true => exact absurd (e3 hb) hres
  have hok' : SheetOk s d' := by
    obtain ⟨d1, r1, k1, k2, -⟩ := add_ok hs hok p hp
    rw [hadd] at k1
    cases k1
    exact k2
  cases res with
  | error => exact absurd rfl hres
  | added =>
    simp only [if_true] at e1
    refine ⟨hok', ?_, ?_⟩
    · rw [e1]
      exact addAll_append _ _ _ hall hadd
    · rw [e1]
      intro q hq
      rcases List.mem_append.1 hq with hq | hq
      · exact hpos q hq
      · rw [List.mem_singleton.1 hq]
        exact hp
  | notAdded =>
    have : d' = d := by
      obtain ⟨hset, ⟨foot, hn⟩ | ho⟩ := hok
      · rcases add_normal hs hn hset p hp with ⟨d1, r, f, k, -⟩ | ⟨d1, k, -⟩ | ⟨k, -⟩
        · rw [hadd] at k; cases k
        · rw [hadd] at k; cases k
        · rw [hadd] at k; cases k; rfl
      · have k := add_oversized ho p hp
        rw [hadd] at k; cases k; rfl
    rw [this]
    exact ⟨this ▸ hok', hall, hpos⟩

end Verif.PlanSet
