import Verif.Spec.PlanSet
import Verif.Lemmas.BinPacking

/-! # Helper lemmas for plan sets -/

set_option linter.unusedSectionVars false
set_option linter.unusedSimpArgs false

namespace Verif.BinPacking

open Verif Verif.Spec

universe u v
variable {K : Type u} [Field K] [LinearOrder K] [IsStrictOrderedRing K] {O : Type v}

theorem Bin.Inv.empties_within {t : Bin K O} (h : t.Inv) : ∀ b ∈ t.empties, (rectOf b).Within (rectOf t.box) := by
  induction t with
  | free b => simp [Bin.empties, Bin.box, Rect.Within.refl]
  | full b o => simp [Bin.empties]
  | split b l r ihl ihr =>
    obtain ⟨hl, hr, wl, wr, _, _⟩ := h
    intro p hp
    rcases List.mem_append.1 hp with hp | hp
    · exact (ihl hl p hp).trans wl
    · exact (ihr hr p hp).trans wr

theorem _root_.Verif.Spec.Rect.Within.fits {a b : Rect K} (h : a.Within b) {w k : K} (hf : Fits a w k) : Fits b w k := by
  obtain ⟨h1, h2, h3, h4⟩ := h
  rcases hf with ⟨f1, f2⟩ | ⟨f1, f2⟩
  · left; constructor <;> linarith
  · right; constructor <;> linarith

theorem insertWithPadding_spec {w h pad : K} (hw : 0 < w) (hh : 0 < h) (hp : 0 ≤ pad) (o : O) (c : Container K O)
    (ht : c.root.Inv) :
    (∃ c' bin foot, c.insertWithPadding o w h pad = some (c', some bin) ∧
        c' = { c with root := c'.root } ∧ c'.root.box = c.root.box ∧ c'.root.Inv ∧
        (c'.root.placed.map fun p => rectOf p.1).Perm
          (Rect.grow foot pad :: c.root.placed.map fun p => rectOf p.1) ∧
        foot.x = bin.x ∧ foot.y = bin.y ∧
        ((foot.w = w ∧ foot.h = h) ∨ (foot.w = h ∧ foot.h = w)) ∧
        (∃ b ∈ c.emptyBins, Fits (rectOf b) (w + 2 * pad) (h + 2 * pad)) ∧
        ((∀ f ∈ c.emptyBins, ¬ (f.width = w + 2 * pad ∧ f.height = h + 2 * pad) ∧
            ¬ (f.width = h + 2 * pad ∧ f.height = w + 2 * pad)) →
          (bin.rotated = false ∧ foot.w = w ∧ foot.h = h) ∨ (bin.rotated = true ∧ foot.w = h ∧ foot.h = w))) ∨
    (c.insertWithPadding o w h pad = some (c, none) ∧ ∀ b ∈ c.emptyBins, ¬ Fits (rectOf b) (w + 2 * pad) (h + 2 * pad)) := by
  have h2 : (Arith.two : K) = 2 := by simp [Arith.two]
  have hw' : 0 < w + 2 * pad := by positivity
  have hh' : 0 < h + 2 * pad := by positivity
  have ew : pad *. (Arith.two : K) +. w = w + 2 * pad := by simp only [h2, Arith.add_field, Arith.mul_field]; ring
  have eh : pad *. (Arith.two : K) +. h = h + 2 * pad := by simp only [h2, Arith.add_field, Arith.mul_field]; ring
  rcases container_insert_spec hw'.le hh'.le o c ht with ⟨c1, at_, h1, e2, h3, h4, h5, b, hb, h6, h7, h8⟩ | ⟨h1, hn⟩
  · left
    have hdim : (at_.width = w + 2 * pad ∧ at_.height = h + 2 * pad) ∨
        (at_.width = h + 2 * pad ∧ at_.height = w + 2 * pad) := by
      rcases h8 with h8 | h8
      · exact Or.inl ⟨h8.1, h8.2.1⟩
      · exact Or.inr ⟨h8.1, h8.2.1⟩
    have hgrow : (Rect.mk (at_.x + pad) (at_.y + pad) (at_.width - 2 * pad) (at_.height - 2 * pad)).grow pad
        = rectOf at_ := by
      simp only [Rect.grow, rectOf, Rect.mk.injEq]
      refine ⟨by ring, by ring, by ring, by ring⟩
    refine ⟨c1, ⟨at_.x + pad, at_.y + pad, w, h, at_.rotated⟩,
      ⟨at_.x + pad, at_.y + pad, at_.width - 2 * pad, at_.height - 2 * pad⟩, ?_, ?_, e2, h3, ?_, rfl, rfl, ?_, ?_, ?_⟩
    · simp only [Container.insertWithPadding, ew, eh, h1, Arith.add_field]
    · simp only [Container.insert] at h1
      split at h1
      · simp at h1
      · simp only [Option.some.injEq, Prod.mk.injEq] at h1
        rw [← h1.1]
    · rw [hgrow]; exact h4.map (fun p => rectOf p.1)
    · rcases hdim with ⟨e1, e2⟩ | ⟨e1, e2⟩
      · left; simp [e1, e2]
      · right; simp [e1, e2]
    · refine ⟨b, hb, ?_⟩
      rcases h8 with h8 | h8
      · exact Or.inl ⟨h8.2.2.1, h8.2.2.2.1⟩
      · exact Or.inr ⟨h8.2.2.1, h8.2.2.2.1⟩
    · intro hne
      obtain ⟨n1, n2⟩ := hne b hb
      rcases h8 with h8 | h8
      · left
        refine ⟨h8.2.2.2.2 (fun h => n1 ⟨h.2, h.1⟩), ?_, ?_⟩ <;> simp [h8.1, h8.2.1]
      · right
        refine ⟨h8.2.2.2.2.2 (fun h => n2 ⟨h.2, h.1⟩), ?_, ?_⟩ <;> simp [h8.1, h8.2.1]
  · right
    refine ⟨?_, ?_⟩
    · simp only [Container.insertWithPadding, ew, eh, h1]
    · rcases hn with hn | hn
      · rcases hn with hn | hn
        · exact absurd hn hw'.ne'
        · exact absurd hn hh'.ne'
      · exact hn

end Verif.BinPacking

namespace Verif.PlanSet

open Verif Verif.BinPacking Verif.Spec

universe u v

section Lawless

variable {F : Type u} [Arith F] {P : Type v}

theorem add_parts {d d' : SvgDoc F P} {p : RenderedPart F P} {res : AddResult} (h : d.add p = some (d', res)) :
    d'.parts = d.parts ++ (if res = .added then [p] else []) ∧ (res = .error → badSize p = true) ∧
      (badSize p = true → res = .error) := by
  unfold SvgDoc.add at h
  split at h
  · rename_i hb
    simp only [Option.some.injEq, Prod.mk.injEq] at h
    obtain ⟨rfl, rfl⟩ := h
    simp [hb]
  · rename_i hb
    split at h
    · simp at h
    · simp only [Option.some.injEq, Prod.mk.injEq] at h
      obtain ⟨rfl, rfl⟩ := h
      simp [SvgDoc.parts, hb]
    · split at h
      · simp only [Option.some.injEq, Prod.mk.injEq] at h
        obtain ⟨rfl, rfl⟩ := h
        simp [SvgDoc.parts, hb]
      · simp only [Option.some.injEq, Prod.mk.injEq] at h
        obtain ⟨rfl, rfl⟩ := h
        simp [SvgDoc.parts, hb]

/-- Adding a part to a list of sheets: nothing happens, or the part is appended to exactly one of them. -/
theorem addToDocs_parts {p : RenderedPart F P} : ∀ {ds ds' : List (SvgDoc F P)} {res : AddResult},
    addToDocs p ds = some (ds', res) →
    (res ≠ .added ∧ ds'.map (·.parts) = ds.map (·.parts)) ∨
    (res = .added ∧ ∃ pre post x, ds.map (·.parts) = pre ++ x :: post ∧ ds'.map (·.parts) = pre ++ (x ++ [p]) :: post) := by
  intro ds
  induction ds with
  | nil =>
    intro ds' res h
    simp only [addToDocs, Option.some.injEq, Prod.mk.injEq] at h
    obtain ⟨rfl, rfl⟩ := h
    simp
  | cons d ds ih =>
    intro ds' res h
    simp only [addToDocs] at h
    cases ha : d.add p with
    | none => simp [ha] at h
    | some out =>
      obtain ⟨d', r⟩ := out
      obtain ⟨h1, _⟩ := add_parts ha
      cases r with
      | error =>
        simp only [ha, Option.some.injEq, Prod.mk.injEq] at h
        obtain ⟨rfl, rfl⟩ := h
        left; simp [h1]
      | added =>
        simp only [ha, Option.some.injEq, Prod.mk.injEq] at h
        obtain ⟨rfl, rfl⟩ := h
        right
        exact ⟨rfl, [], ds.map (·.parts), d.parts, by simp, by simp [h1]⟩
      | notAdded =>
        simp only [ha] at h
        cases hr : addToDocs p ds with
        | none => simp [hr] at h
        | some out =>
          obtain ⟨ds1, r1⟩ := out
          simp only [hr, Option.some.injEq, Prod.mk.injEq] at h
          obtain ⟨rfl, rfl⟩ := h
          rcases ih hr with ⟨k1, k2⟩ | ⟨k1, pre, post, x, k2, k3⟩
          · left; exact ⟨k1, by simp [k2, h1]⟩
          · right
            exact ⟨k1, d.parts :: pre, post, x, by simp [k2], by simp [k3, h1]⟩

/-- Invariant of the loop: the sheets hold exactly the parts handled so far, each sheet in order. -/
def Holds (docs : List (SvgDoc F P)) (handled : List (RenderedPart F P)) : Prop :=
  (docs.map (·.parts)).flatten.Perm handled ∧ ∀ l ∈ docs.map (·.parts), l.Sublist handled

theorem Holds.snoc {docs docs' : List (SvgDoc F P)} {handled} {p : RenderedPart F P} (hh : Holds docs handled)
    {pre post x} (h1 : docs.map (·.parts) = pre ++ x :: post) (h2 : docs'.map (·.parts) = pre ++ (x ++ [p]) :: post) :
    Holds docs' (handled ++ [p]) := by
  obtain ⟨a, b⟩ := hh
  rw [h1] at a b
  refine ⟨?_, ?_⟩
  · rw [h2]
    simp only [List.flatten_append, List.flatten_cons] at a ⊢
    have : (pre.flatten ++ (x ++ [p] ++ post.flatten)).Perm ((pre.flatten ++ (x ++ post.flatten)) ++ [p]) := by
      simp only [List.append_assoc]
      refine (List.Perm.append_left _ (List.Perm.append_left _ ?_))
      exact List.perm_append_comm
    exact this.trans (a.append_right _)
  · rw [h2]
    intro l hl
    simp only [List.mem_append, List.mem_cons] at hl
    rcases hl with hl | rfl | hl
    · exact (b l (by simp [hl])).trans (List.sublist_append_left _ _)
    · exact (b x (by simp)).append (List.Sublist.refl _)
    · exact (b l (by simp [hl])).trans (List.sublist_append_left _ _)

theorem addPart_holds {s : Sheet F} {docs docs' : List (SvgDoc F P)} {p : RenderedPart F P} {handled}
    (hh : Holds docs handled) (h : addPart s docs p = some (docs', .added)) : Holds docs' (handled ++ [p]) := by
  unfold addPart at h
  cases ha : addToDocs p docs with
  | none => simp [ha] at h
  | some out =>
    obtain ⟨ds1, r⟩ := out
    cases r with
    | error => simp [ha] at h
    | added =>
      simp only [ha, Option.some.injEq, Prod.mk.injEq, and_true] at h
      subst h
      rcases addToDocs_parts ha with ⟨k1, _⟩ | ⟨_, pre, post, x, k2, k3⟩
      · simp at k1
      · exact hh.snoc k2 k3
    | notAdded =>
      simp only [ha] at h
      rcases addToDocs_parts ha with ⟨_, k2⟩ | ⟨k1, _⟩
      · cases hn : (newSvgDoc s.width s.height s.padding : SvgDoc F P).add p with
        | none => simp [hn] at h
        | some out =>
          obtain ⟨d, r⟩ := out
          cases r with
          | error => simp [hn] at h
          | notAdded => simp [hn] at h
          | added =>
            simp only [hn, Option.some.injEq, Prod.mk.injEq, and_true] at h
            subst h
            obtain ⟨q, _⟩ := add_parts hn
            have hh' : Holds (docs ++ [newSvgDoc s.width s.height s.padding]) handled := by
              obtain ⟨a, b⟩ := hh
              refine ⟨by simpa [SvgDoc.parts, newSvgDoc] using a, ?_⟩
              intro l hl
              simp only [List.map_append, List.mem_append, List.map_cons, List.map_nil, List.mem_singleton] at hl
              rcases hl with hl | rfl
              · exact b l hl
              · simp [SvgDoc.parts, newSvgDoc]
            refine hh'.snoc (pre := docs.map (·.parts)) (post := []) (x := []) ?_ ?_
            · simp [SvgDoc.parts, newSvgDoc]
            · rw [List.map_append, k2]
              simp [q]
              simp [SvgDoc.parts, newSvgDoc]
      · simp at k1

theorem addRendered_holds {s : Sheet F} : ∀ {ps : List (RenderedPart F P)} {docs docs' : List (SvgDoc F P)} {handled},
    Holds docs handled → addRendered s docs ps = some (docs', .ok) → Holds docs' (handled ++ ps) := by
  intro ps
  induction ps with
  | nil =>
    intro docs docs' handled hh h
    simp only [addRendered, Option.some.injEq, Prod.mk.injEq, and_true] at h
    subst h; simpa using hh
  | cons p ps ih =>
    intro docs docs' handled hh h
    simp only [addRendered] at h
    cases ha : addPart s docs p with
    | none => simp [ha] at h
    | some out =>
      obtain ⟨ds1, r⟩ := out
      cases r with
      | error => simp [ha] at h
      | notAdded => simp [ha] at h
      | added =>
        simp only [ha] at h
        have := ih (addPart_holds hh ha) h
        simpa using this

theorem initLoop_holds {s : Sheet F} : ∀ {parts : List (Option (List (RenderedPart F P)))}
    {docs docs' : List (SvgDoc F P)} {handled}, Holds docs handled → initLoop s docs parts = some (docs', .ok) →
    ∃ all : List (List (RenderedPart F P)), parts = all.map some ∧ Holds docs' (handled ++ all.flatten) := by
  intro parts
  induction parts with
  | nil =>
    intro docs docs' handled hh h
    simp only [initLoop, Option.some.injEq, Prod.mk.injEq, and_true] at h
    subst h; exact ⟨[], rfl, by simpa using hh⟩
  | cons p ps ih =>
    intro docs docs' handled hh h
    cases p with
    | none => simp [initLoop] at h
    | some rendered =>
      simp only [initLoop] at h
      cases ha : addRendered s docs rendered with
      | none => simp [ha] at h
      | some out =>
        obtain ⟨ds1, r⟩ := out
        cases r with
        | ok =>
          simp only [ha] at h
          obtain ⟨all, e, hall⟩ := ih (addRendered_holds hh ha) h
          exact ⟨rendered :: all, by simp [e], by simpa using hall⟩
        | renderError => simp [ha] at h
        | addError => simp [ha] at h
        | tooBig => simp [ha] at h

end Lawless

section Exact

variable {K : Type u} [Field K] [LinearOrder K] [IsStrictOrderedRing K] {P : Type v}

theorem badSize_iff {p : RenderedPart K P} : badSize p = false ↔ 0 < p.width ∧ 0 < p.height := by
  simp [badSize, Arith.zero, and_comm]

/-- A sheet in normal use, with the rectangles reserved for its parts. -/
structure Normal (s : Sheet K) (d : SvgDoc K P) (foot : List (Rect K)) : Prop where
  inv : d.container.root.Inv
  box : rectOf d.container.root.box = ⟨0, 0, s.width, s.height⟩
  foot_spec : List.Forall₂ (fun (r : Renderable K P) (f : Rect K) => f.x = r.x ∧ f.y = r.y ∧
    ((f.w = r.part.width ∧ f.h = r.part.height) ∨ (f.w = r.part.height ∧ f.h = r.part.width))) d.renderables foot
  placed : (d.container.root.placed.map fun p => rectOf p.1).Perm (foot.map (·.grow s.padding))
  positive : ∀ r ∈ d.renderables, 0 < r.part.width ∧ 0 < r.part.height
  fits : ∀ r ∈ d.renderables, FitsSheet s r.part

/-- The sheet holds a single part that does not fit. -/
def Oversized (s : Sheet K) (d : SvgDoc K P) : Prop :=
  ∃ b p, d.container.root = .full b p ∧ d.renderables = [⟨0, 0, p, false⟩] ∧ ¬ FitsSheet s p

/-- Settings of a sheet. -/
def Settings (s : Sheet K) (d : SvgDoc K P) : Prop :=
  d.padding = s.padding ∧ d.container.width = s.width ∧ d.container.height = s.height ∧
    d.container.x = 0 ∧ d.container.y = 0

theorem newSvgDoc_normal (s : Sheet K) : Normal s (newSvgDoc s.width s.height s.padding : SvgDoc K P) [] := by
  refine ⟨trivial, ?_, .nil, ?_, ?_, ?_⟩
  · simp [newSvgDoc, newContainer, newBin, Bin.box, rectOf, Arith.zero]
  · simp [newSvgDoc, newContainer, newBin, Bin.placed]
  · simp [newSvgDoc]
  · simp [newSvgDoc]

theorem newSvgDoc_settings (s : Sheet K) : Settings s (newSvgDoc s.width s.height s.padding : SvgDoc K P) := by
  simp [Settings, newSvgDoc, newContainer, Arith.zero]

theorem add_normal {s : Sheet K} (hs : 0 ≤ s.padding) {d : SvgDoc K P} {foot} (hd : Normal s d foot) (hset : Settings s d)
    (p : RenderedPart K P) (hp : 0 < p.width ∧ 0 < p.height) :
    (∃ d' r f, d.add p = some (d', .added) ∧ Normal s d' (foot ++ [f]) ∧ Settings s d' ∧
        d'.renderables = d.renderables ++ [r] ∧ r.part = p ∧
        (p.width = p.height ∨ NoExactFit d p → f = r.drawn)) ∨
    (∃ d', d.add p = some (d', .added) ∧ Oversized s d' ∧ Settings s d' ∧ d.renderables = [] ∧ ¬ FitsSheet s p) ∨
    (d.add p = some (d, .notAdded) ∧ d.container.isEmpty = false) := by
  have hb := badSize_iff.2 hp
  obtain ⟨hset1, hset2, hset3, hset4, hset5⟩ := hset
  rcases insertWithPadding_spec hp.1 hp.2 hs p d.container hd.inv with
    ⟨c', bin, f, h1, h2, h3, h4, h5, h6, h7, h8, ⟨b, hbm, hbf⟩, h9⟩ | ⟨h1, h2⟩
  · left
    refine ⟨{ d with container := c', renderables := d.renderables ++ [⟨bin.x, bin.y, p, bin.rotated⟩] },
      ⟨bin.x, bin.y, p, bin.rotated⟩, f, ?_, ⟨h4, ?_, ?_, ?_, ?_, ?_⟩, ?_, rfl, rfl, ?_⟩
    · simp only [SvgDoc.add, hb, hset1, h1, Bool.false_eq_true, if_false]
    · simp only [h3]; exact hd.box
    · refine List.rel_append hd.foot_spec (.cons ⟨h6, h7, h8⟩ .nil)
    · refine h5.trans ?_
      rw [List.map_append]
      exact ((hd.placed.cons _).trans (by simpa using (List.perm_append_singleton _ _).symm))
    · intro r hr
      rcases List.mem_append.1 hr with hr | hr
      · exact hd.positive r hr
      · obtain rfl := List.mem_singleton.1 hr; exact hp
    · intro r hr
      rcases List.mem_append.1 hr with hr | hr
      · exact hd.fits r hr
      · obtain rfl := List.mem_singleton.1 hr
        have := (hd.inv.empties_within b hbm).fits hbf
        rw [hd.box] at this
        exact this
    · rw [h2]; exact ⟨hset1, hset2, hset3, hset4, hset5⟩
    · intro hne
      have key : (bin.rotated = false ∧ f.w = p.width ∧ f.h = p.height) ∨
          (bin.rotated = true ∧ f.w = p.height ∧ f.h = p.width) := by
        rcases hne with hsq | hne
        · cases hrot : bin.rotated with
          | false =>
            left
            refine ⟨rfl, ?_⟩
            rcases h8 with h8 | h8
            · exact h8
            · rw [hsq] at h8 ⊢; exact h8
          | true =>
            right
            refine ⟨rfl, ?_⟩
            rcases h8 with h8 | h8
            · rw [hsq] at h8 ⊢; exact h8
            · exact h8
        · unfold NoExactFit at hne
          rw [hset1] at hne
          exact h9 hne
      obtain ⟨fx, fy, fw, fh⟩ := f
      simp only at h6 h7 key
      rcases key with ⟨e1, e2, e3⟩ | ⟨e1, e2, e3⟩
      · simp [Renderable.drawn, e1, e2, e3, h6, h7]
      · simp [Renderable.drawn, e1, e2, e3, h6, h7]
  · by_cases he : d.container.isEmpty = true
    · right; left
      obtain ⟨b, hroot⟩ : ∃ b, d.container.root = .free b := by
        unfold Container.isEmpty at he
        split at he
        · exact ⟨_, by assumption⟩
        · simp at he
      have hempty : d.renderables = [] := by
        have h := hd.placed
        rw [hroot] at h
        simp only [Bin.placed, List.map_nil, List.nil_perm, List.map_eq_nil_iff] at h
        have h' := hd.foot_spec
        rw [h] at h'
        exact List.forall₂_nil_right_iff.1 h'
      have hnf : ¬ FitsSheet s p := by
        have := h2 b (by simp [Container.emptyBins, hroot, Bin.empties])
        have hbx := hd.box
        rw [hroot] at hbx
        simp only [Bin.box] at hbx
        rw [hbx] at this
        exact this
      refine ⟨⟨d.width, d.height, d.padding,
        newSingleObjectContainer p d.container.x d.container.y d.container.width d.container.height,
        d.renderables ++ [⟨d.container.x, d.container.y, p, false⟩]⟩, ?_, ?_, ?_, hempty, hnf⟩
      · simp only [SvgDoc.add, hb, hset1, h1, he, Bool.false_eq_true, if_false, if_true]
      · exact ⟨_, p, rfl, by simp [hempty, hset4, hset5], hnf⟩
      · exact ⟨hset1, hset2, hset3, hset4, hset5⟩
    · right; right
      refine ⟨?_, ?_⟩
      · simp only [SvgDoc.add, hb, hset1, h1, he, Bool.false_eq_true, if_false]
        rw [← hset1]
      · simpa using he

theorem add_oversized {s : Sheet K} {d : SvgDoc K P} (hd : Oversized s d)
    (p : RenderedPart K P) (hp : 0 < p.width ∧ 0 < p.height) : d.add p = some (d, .notAdded) := by
  obtain ⟨b, q, hroot, _, _⟩ := hd
  have hb := badSize_iff.2 hp
  have hc : d.container.isEmpty = false := by simp [Container.isEmpty, hroot]
  have hi : ∀ w h, d.container.insert p w h = some (d.container, none) := by
    intro w h
    simp only [Container.insert, hroot, Bin.insert]
    rw [← hroot]
  have h1 : ∀ w h pad, d.container.insertWithPadding p w h pad = some (d.container, none) := by
    intro w h pad
    simp only [Container.insertWithPadding, hi]
  simp only [SvgDoc.add, hb, h1, hc, Bool.false_eq_true, if_false]

/-- Invariant of every sheet of a plan set. -/
def SheetOk (s : Sheet K) (d : SvgDoc K P) : Prop :=
  Settings s d ∧ ((∃ foot, Normal s d foot) ∨ Oversized s d)

theorem newSvgDoc_ok (s : Sheet K) : SheetOk s (newSvgDoc s.width s.height s.padding : SvgDoc K P) :=
  ⟨newSvgDoc_settings s, Or.inl ⟨[], newSvgDoc_normal s⟩⟩

theorem add_ok {s : Sheet K} (hs : 0 ≤ s.padding) {d : SvgDoc K P} (hd : SheetOk s d)
    (p : RenderedPart K P) (hp : 0 < p.width ∧ 0 < p.height) :
    ∃ d' res, d.add p = some (d', res) ∧ SheetOk s d' ∧ res ≠ .error ∧
      (d.container.isEmpty = true → res = .added) := by
  obtain ⟨hset, hd | hd⟩ := hd
  · obtain ⟨foot, hd⟩ := hd
    rcases add_normal hs hd hset p hp with ⟨d', r, f, h1, h2, h3, _⟩ | ⟨d', h1, h2, h3, _⟩ | ⟨h1, h2⟩
    · exact ⟨d', _, h1, ⟨h3, Or.inl ⟨_, h2⟩⟩, by simp, fun _ => rfl⟩
    · exact ⟨d', _, h1, ⟨h3, Or.inr h2⟩, by simp, fun _ => rfl⟩
    · exact ⟨d, _, h1, ⟨hset, Or.inl ⟨_, hd⟩⟩, by simp, fun h => by rw [h2] at h; simp at h⟩
  · refine ⟨d, _, add_oversized hd p hp, ⟨hset, Or.inr hd⟩, by simp, fun h => ?_⟩
    obtain ⟨b, q, hroot, _⟩ := hd
    simp [Container.isEmpty, hroot] at h

theorem addToDocs_ok {s : Sheet K} (hs : 0 ≤ s.padding) (p : RenderedPart K P) (hp : 0 < p.width ∧ 0 < p.height) :
    ∀ (docs : List (SvgDoc K P)), (∀ d ∈ docs, SheetOk s d) →
    ∃ docs' res, addToDocs p docs = some (docs', res) ∧ (∀ d ∈ docs', SheetOk s d) ∧ res ≠ .error := by
  intro docs
  induction docs with
  | nil => intro _; exact ⟨[], _, rfl, by simp, by simp⟩
  | cons d ds ih =>
    intro hds
    obtain ⟨d', res, h1, h2, h3, _⟩ := add_ok hs (hds d (by simp)) p hp
    obtain ⟨ds', res', k1, k2, k3⟩ := ih (fun d' h' => hds d' (by simp [h']))
    cases res with
    | error => simp at h3
    | added =>
      refine ⟨d' :: ds, .added, by simp [addToDocs, h1], ?_, by simp⟩
      intro x hx
      rcases List.mem_cons.1 hx with rfl | hx
      · exact h2
      · exact hds x (by simp [hx])
    | notAdded =>
      refine ⟨d' :: ds', res', by simp [addToDocs, h1, k1], ?_, k3⟩
      intro x hx
      rcases List.mem_cons.1 hx with rfl | hx
      · exact h2
      · exact k2 x hx

theorem addPart_ok {s : Sheet K} (hs : 0 ≤ s.padding) (p : RenderedPart K P) (hp : 0 < p.width ∧ 0 < p.height)
    (docs : List (SvgDoc K P)) (hd : ∀ d ∈ docs, SheetOk s d) :
    ∃ docs', addPart s docs p = some (docs', .added) ∧ (∀ d ∈ docs', SheetOk s d) := by
  obtain ⟨docs', res, h1, h2, h3⟩ := addToDocs_ok hs p hp docs hd
  cases res with
  | error => simp at h3
  | added => exact ⟨docs', by simp [addPart, h1], h2⟩
  | notAdded =>
    obtain ⟨d', res, k1, k2, _, k4⟩ := add_ok hs (newSvgDoc_ok s) p hp
    have : res = .added := k4 (by simp [newSvgDoc, newContainer, newBin, Container.isEmpty])
    subst this
    refine ⟨docs' ++ [d'], by simp [addPart, h1, k1], ?_⟩
    intro x hx
    rcases List.mem_append.1 hx with hx | hx
    · exact h2 x hx
    · rw [List.mem_singleton.1 hx]; exact k2

theorem addRendered_ok {s : Sheet K} (hs : 0 ≤ s.padding) : ∀ (ps : List (RenderedPart K P)) (docs : List (SvgDoc K P)),
    (∀ p ∈ ps, 0 < p.width ∧ 0 < p.height) → (∀ d ∈ docs, SheetOk s d) →
    ∃ docs', addRendered s docs ps = some (docs', .ok) ∧ (∀ d ∈ docs', SheetOk s d) := by
  intro ps
  induction ps with
  | nil => intro docs _ hd; exact ⟨docs, rfl, hd⟩
  | cons p ps ih =>
    intro docs hp hd
    obtain ⟨docs', h1, h2⟩ := addPart_ok hs p (hp p (by simp)) docs hd
    obtain ⟨docs'', k1, k2⟩ := ih docs' (fun q hq => hp q (by simp [hq])) h2
    exact ⟨docs'', by simp [addRendered, h1, k1], k2⟩

theorem initLoop_ok {s : Sheet K} (hs : 0 ≤ s.padding) : ∀ (all : List (List (RenderedPart K P))) (docs : List (SvgDoc K P)),
    (∀ p ∈ all.flatten, 0 < p.width ∧ 0 < p.height) → (∀ d ∈ docs, SheetOk s d) →
    ∃ docs', initLoop s docs (all.map some) = some (docs', .ok) ∧ (∀ d ∈ docs', SheetOk s d) := by
  intro all
  induction all with
  | nil => intro docs _ hd; exact ⟨docs, rfl, hd⟩
  | cons ps rest ih =>
    intro docs hp hd
    obtain ⟨docs', h1, h2⟩ := addRendered_ok hs ps docs (fun q hq => hp q (by simp [hq])) hd
    obtain ⟨docs'', k1, k2⟩ := ih docs' (fun q hq => hp q (by
      rw [List.flatten_cons]; exact List.mem_append.2 (Or.inr hq))) h2
    exact ⟨docs'', by simp [initLoop, h1, k1], k2⟩

end Exact

section Lawless2

variable {F : Type u} [Arith F] {P : Type v}

theorem addToDocs_bad {p : RenderedPart F P} (hb : badSize p = true) : ∀ (docs : List (SvgDoc F P)),
    addToDocs p docs = some (docs, if docs = [] then .notAdded else .error) := by
  intro docs
  cases docs with
  | nil => rfl
  | cons d ds => simp [addToDocs, SvgDoc.add, hb]

theorem addPart_bad {s : Sheet F} {p : RenderedPart F P} (hb : badSize p = true) (docs : List (SvgDoc F P)) :
    addPart s docs p = some (docs, .error) := by
  unfold addPart
  rw [addToDocs_bad hb]
  by_cases h : docs = []
  · simp [h, SvgDoc.add, hb]
  · simp [h]

theorem addRendered_good {s : Sheet F} : ∀ {ps : List (RenderedPart F P)} {docs docs' : List (SvgDoc F P)},
    addRendered s docs ps = some (docs', .ok) → ∀ p ∈ ps, badSize p = false := by
  intro ps
  induction ps with
  | nil => simp
  | cons p ps ih =>
    intro docs docs' h q hq
    simp only [addRendered] at h
    cases hb : badSize p with
    | true => rw [addPart_bad hb] at h; simp at h
    | false =>
      rcases List.mem_cons.1 hq with rfl | hq
      · exact hb
      · cases ha : addPart s docs p with
        | none => simp [ha] at h
        | some out =>
          obtain ⟨ds1, r⟩ := out
          cases r with
          | error => simp [ha] at h
          | notAdded => simp [ha] at h
          | added =>
            simp only [ha] at h
            exact ih h q hq

theorem initLoop_good {s : Sheet F} : ∀ {parts : List (Option (List (RenderedPart F P)))}
    {docs docs' : List (SvgDoc F P)}, initLoop s docs parts = some (docs', .ok) →
    ∀ ps, some ps ∈ parts → ∀ p ∈ ps, badSize p = false := by
  intro parts
  induction parts with
  | nil => simp
  | cons q qs ih =>
    intro docs docs' h ps hps
    cases q with
    | none => simp [initLoop] at h
    | some rendered =>
      simp only [initLoop] at h
      cases ha : addRendered s docs rendered with
      | none => simp [ha] at h
      | some out =>
        obtain ⟨ds1, r⟩ := out
        cases r with
        | ok =>
          simp only [ha] at h
          rcases List.mem_cons.1 hps with e | hps
          · simp only [Option.some.injEq] at e
            subst e
            exact addRendered_good ha
          · exact ih h ps hps
        | renderError => simp [ha] at h
        | addError => simp [ha] at h
        | tooBig => simp [ha] at h

end Lawless2

end Verif.PlanSet
