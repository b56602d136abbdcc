import Verif.Model.Render
import Verif.Lemmas.Panic
import Verif.Lemmas.Dynmap
import Verif.Props.Tree

/-!
# Lemmas: rendering a document

One induction over the renderings serves several properties: a rendering keeps a property `P` of the elements, gives paths with the property `Q`, and, if
`safe`, does not panic.
-/

set_option linter.unusedSectionVars false

namespace Verif.Render

open Verif Verif.Dyn Verif.Path Verif.PlanSet Verif.Svg Verif.Files Verif.Spec

universe u w

/-- No panic if `safe`, and a result satisfies `Q`. -/
def Holds {α : Type u} (safe : Prop) (Q : α → Prop) : Res α → Prop
  | .ok a => Q a
  | .err => True
  | .panic => ¬ safe

theorem Holds.bind {α β : Type u} {safe : Prop} {Q : α → Prop} {R : β → Prop} {r : Res α} {f : α → Res β} (h : Holds safe Q r)
    (hf : ∀ a, Q a → Holds safe R (f a)) : Holds safe R (r >>= f) := by
  cases r with
  | ok a => exact hf a h
  | err => trivial
  | panic => exact h

theorem Holds.mono {α : Type u} {safe : Prop} {Q R : α → Prop} {r : Res α} (h : Holds safe Q r) (hf : ∀ a, Q a → R a) : Holds safe R r := by
  cases r with
  | ok a => exact hf a h
  | err => trivial
  | panic => exact h

theorem holds_need {α : Type w} {β : Type u} {safe : Prop} {Q : β → Prop} (o : Option α) {f : α → Res β} (h : ∀ a, Holds safe Q (f a)) :
    Holds safe Q (need o f) := by
  cases o with
  | none => trivial
  | some a => exact h a

theorem holds_lost {α : Type u} {safe : Prop} {Q : α → Prop} {r : Res α} (hs : ¬ safe) (h : Holds safe Q r) : Holds safe Q (lost r) := by
  cases r with
  | ok a => exact h
  | err => exact hs
  | panic => exact h

theorem holds_ite {α : Type u} {safe : Prop} {Q : α → Prop} {c : Prop} {_ : Decidable c} {a b : Res α} (ha : c → Holds safe Q a) (hb : ¬ c → Holds safe Q b) :
    Holds safe Q (if c then a else b) := by
  split
  · next h => exact ha h
  · next h => exact hb h

theorem Holds.ok {α : Type u} {safe : Prop} {Q : α → Prop} {r : Res α} (h : Holds safe Q r) {a : α} (e : r = .ok a) : Q a := by
  subst e; exact h

theorem holds_of_ok {α : Type u} {Q : α → Prop} {r : Res α} (h : ∀ a, r = .ok a → Q a) : Holds False Q r := by
  cases r with
  | ok a => exact h a rfl
  | err => trivial
  | panic => exact id

theorem holds_of_fine {α : Type u} {safe : Prop} {Q : α → Prop} {r : Res α} (h : Fine Q r) : Holds safe Q r := by
  cases r with
  | ok a => exact h
  | err => trivial
  | panic => exact h.elim

theorem holds_true {α : Type u} (r : Res α) (h : r ≠ .panic) {safe : Prop} : Holds safe (fun _ => True) r := by
  cases r with
  | ok a => trivial
  | err => trivial
  | panic => exact absurd rfl h

/-- The names of the local variables that are set during a rendering. -/
def localKeys : List Text := [widthKey, interLengthKey, interFromXKey, interFromYKey, interToXKey, interToYKey, aroundLengthKey, aroundIndexKey,
  partIndexKey, fromKey, toKey, fromXKey, fromYKey, toXKey, toYKey, latheWidthKey, latheIndexKey]

/-- The names of the parameters that are set during a rendering. -/
def paramKeys : List Text := [indexXKey, indexYKey, leftWidthKey, rightWidthKey]

section

variable {F : Type u}

/-- Up to the depth `n` every component of the tree has the property `P` of its type, the number of its children and its maps. If `safe`, the tree is
not deeper than `n`. -/
def Keep (safe : Prop) (P : Built → Nat → Elem F → Prop) : Nat → Live F → Prop
  | 0, _ => ¬ safe
  | n + 1, .mk k _ e cs => P k cs.length e ∧ ∀ c ∈ cs, Keep safe P n c

/-- Setting variables keeps `P`. -/
structure Stable (P : Built → Nat → Elem F → Prop) : Prop where
  setVar : ∀ {k l e key}, key ∈ localKeys → ∀ v, P k l e → P k l (setVar e key v)
  putParam : ∀ {k l e key}, key ∈ paramKeys → ∀ v, P k l e → P k l (putParam e key v)

variable {safe : Prop} {P : Built → Nat → Elem F → Prop}

theorem Keep.setVar (hP : Stable P) {n : Nat} {c : Live F} (h : Keep safe P n c) {key : Text} (hk : key ∈ localKeys) (v : Val F) :
    Keep safe P n (c.setVar key v) := by
  cases n with
  | zero => exact h
  | succ n => cases c with | mk k i e cs => exact ⟨hP.setVar hk v h.1, h.2⟩

theorem Keep.putParam (hP : Stable P) {n : Nat} {c : Live F} (h : Keep safe P n c) {key : Text} (hk : key ∈ paramKeys) (v : Val F) :
    Keep safe P n (c.putParam key v) := by
  cases n with
  | zero => exact h
  | succ n => cases c with | mk k i e cs => exact ⟨hP.putParam hk v h.1, h.2⟩

theorem Keep.here {n : Nat} {c : Live F} (h : Keep safe P (n + 1) c) : P c.kind c.children.length c.elem := by
  cases c with | mk k i e cs => exact h.1

theorem Keep.below {n : Nat} {c : Live F} (h : Keep safe P (n + 1) c) : ∀ d ∈ c.children, Keep safe P n d := by
  cases c with | mk k i e cs => exact h.2

theorem holds_setGlobal {nested : Bool} (h : safe → nested = false) (key : Text) (v : Val F) (g : DMap F) :
    Holds safe (fun _ => True) (setGlobal nested key v g) := by
  unfold setGlobal
  split
  · next hn => intro hs; rw [h hs] at hn; cases hn
  · trivial

end

section

variable {F : Type u} [Trig F] {O : Type}

/-- What the operations on paths do with `Q`. -/
structure Care (safe : Prop) (Q : Path F → Prop) : Prop where
  nonempty : ∀ {p}, Q p → safe → p ≠ []
  join : ∀ {l}, (∀ p ∈ l, Q p) → (safe → l ≠ []) → Holds safe Q (simpleJoin l)
  move : ∀ {p} t h, Q p → Holds safe Q (move t h p)
  rotate : ∀ {p} d h, Q p → Holds safe Q (rotate d h p)
  shift : ∀ {p} dx dy, Q p → Q (shift dx dy p)
  collapse : ∀ {p}, Q p → Q (collapseMoves p)
  draw : ∀ cursor cs, Holds safe Q (drawRender cursor cs)

/-- What the property `P` of the elements is good for. -/
structure Manner (m : Machine F O) (safe : Prop) (Q : Path F → Prop) (P : Built → Nat → Elem F → Prop) : Prop where
  stable : Stable P
  finish : ∀ {k l e}, P k l e → ∀ s g cursor {p}, Q p → Holds safe Q (m.finishAt s g e cursor p)
  gear : ∀ {l e}, P .gear l e → ∀ s g cursor, Q (m.gearSize (m.attrs s g e cursor e.original)).outline
  around : ∀ {l e}, P .around l e → safe → ∀ s g cursor, 0 ≤ m.int (m.attrs s g e cursor e.original) numEdgesKey 0
  group : ∀ {l e}, P .group l e → safe → l ≠ 0
  basicEdge : ∀ {l e}, P .basicEdge l e → safe → l ≠ 0
  part : ∀ {l e}, P .part l e → ¬ safe
  xIntercept : ∀ {l e}, P .xIntercept l e → ¬ safe

variable {safe : Prop} {Q : Path F → Prop} {P : Built → Nat → Elem F → Prop} {m : Machine F O}

/-- A rendering of trees up to the depth `n` that goes well. -/
def GoesWell (safe : Prop) (Q : Path F → Prop) (P : Built → Nat → Elem F → Prop) (n : Nat) (r : Rendering F) : Prop :=
  ∀ c g cursor, Keep safe P n c → Holds safe (fun x => Q x.1 ∧ Keep safe P n x.2.1) (r c g cursor)

theorem Care.box (hQ : Care safe Q) {p : Path F} (h : Q p) : Holds safe (fun _ => True) (whitespaceBox p) := by
  by_cases hs : safe
  · exact holds_of_fine (fine_whitespaceBox (hQ.nonempty h hs))
  · cases whitespaceBox p <;> first | trivial | exact hs

theorem holds_renderAllOf (hQ : Care safe Q) {n : Nat} {r : Rendering F} (hr : GoesWell safe Q P n r) : ∀ (cs : List (Live F)) (g : DMap F)
    (cursor : Point F), (∀ c ∈ cs, Keep safe P n c) →
    Holds safe (fun x => (∀ p ∈ x.1, Q p) ∧ x.1.length = cs.length ∧ x.2.1.length = cs.length ∧ ∀ c ∈ x.2.1, Keep safe P n c) (renderAllOf r cs g cursor)
  | [], g, cursor, _ => by simp [renderAllOf, Holds]
  | c :: cs, g, cursor, h => by
    rw [renderAllOf]
    refine (hr c g cursor (h c (by simp))).bind ?_
    rintro ⟨p, c', g'⟩ ⟨hp, hc⟩
    simp only
    cases hl : p.getLast? with
    | none =>
      intro hs
      exact hQ.nonempty hp hs (List.getLast?_eq_none_iff.mp hl)
    | some s =>
      simp only
      refine (holds_renderAllOf hQ hr cs g' s.stop (fun d hd => h d (by simp [hd]))).bind ?_
      rintro ⟨ps, cs', g''⟩ ⟨h1, h2, h3, h4⟩
      simp only [Holds, List.mem_cons, List.length_cons] at *
      refine ⟨?_, by omega, by omega, ?_⟩
      · rintro x (rfl | hx)
        · exact hp
        · exact h1 x hx
      · rintro x (rfl | hx)
        · exact hc
        · exact h4 x hx

theorem holds_copiesLoop (hQ : Care safe Q) (hP : Stable P) {n : Nat} {r : Rendering F} (hr : GoesWell safe Q P n r) (width height : F) :
    ∀ (l : List (Nat × Nat)) (c : Live F) (g : DMap F), Keep safe P n c →
    Holds safe (fun x => (∀ p ∈ x.1, Q p) ∧ Keep safe P n x.2.1) (copiesLoop r width height l c g)
  | [], c, g, h => by simp [copiesLoop, Holds, h]
  | i :: l, c, g, h => by
    rw [copiesLoop]
    refine (hr _ g origin ((h.putParam hP (by simp [paramKeys]) _).putParam hP (by simp [paramKeys]) _)).bind ?_
    rintro ⟨p, c', g'⟩ ⟨hp, hc⟩
    refine (hQ.move _ _ hp).bind fun q hq => ?_
    refine (holds_copiesLoop hQ hP hr width height l c' g' hc).bind ?_
    rintro ⟨ps, c'', g''⟩ ⟨h1, h2⟩
    simp only [Holds, List.mem_cons] at *
    refine ⟨?_, h2⟩
    rintro x (rfl | hx)
    · exact hq
    · exact h1 x hx

theorem holds_copiesOf (hQ : Care safe Q) (hP : Stable P) {n : Nat} {r : Rendering F} (hr : GoesWell safe Q P n r) (toInt : F → Int) (c : Live F)
    (g : DMap F) (maxX maxY : F) (h : Keep safe P n c) : Holds safe (fun x => Q x.1 ∧ Keep safe P n x.2.1) (copiesOf toInt r c g maxX maxY) := by
  rw [copiesOf]
  refine (hr c g origin h).bind ?_
  rintro ⟨p, c', g'⟩ ⟨hp, hc⟩
  refine (hQ.box hp).bind fun b _ => ?_
  refine (holds_copiesLoop hQ hP hr _ _ _ c' g' hc).bind ?_
  rintro ⟨ps, c'', g''⟩ ⟨h1, h2⟩
  simp only
  split
  · trivial
  · next hne =>
    refine (hQ.join h1 fun _ => by simpa using hne).bind fun q hq => ?_
    exact ⟨hq, h2⟩

theorem holds_pointAttribute (h : Text) (p : Path F) : Holds safe (fun _ => True) (pointAttribute h p) := holds_of_fine (fine_pointAttribute h p)

theorem holds_placeEdge (hQ : Care safe Q) (start stop : Point F) (handle : Text) {p : Path F} (hp : Q p) : Holds safe Q (placeEdge start stop handle p) := by
  rw [placeEdge]
  refine (holds_pointAttribute handle p).bind fun a _ => ?_
  have : ∀ r : Res (Path F), Holds safe Q r → Holds safe Q (r >>= fun p => Res.ok (shift (start.x -. a.x) (start.y -. a.y) p)) := by
    intro r h
    exact h.bind fun q hq => hQ.shift _ _ hq
  split
  · exact this _ (hQ.rotate _ _ hp)
  · exact this _ hp

theorem holds_setEdge {nested : Bool} (h : safe → nested = false) (a : Source F O) (start stop : Point F) (g : DMap F) :
    Holds safe (fun _ => True) (Machine.setEdge nested a start stop g) := by
  unfold Machine.setEdge
  split
  · trivial
  · exact (holds_setGlobal h _ _ _).bind fun g' _ => holds_setGlobal h _ _ _

theorem holds_setGear {nested : Bool} (h : safe → nested = false) (a : Source F O) (size : GearSize F) (g : DMap F) :
    Holds safe (fun _ => True) (Machine.setGear nested a size g) := by
  unfold Machine.setGear
  split
  · trivial
  · exact (holds_setGlobal h _ _ _).bind fun g' _ => holds_setGlobal h _ _ _

theorem stable_setInter (hP : Stable P) {k : Built} {l : Nat} {e : Elem F} (h : P k l e) (a b : Point F) : P k l (setInter e a b) := by
  unfold setInter
  refine hP.setVar ?_ _ (hP.setVar ?_ _ (hP.setVar ?_ _ (hP.setVar ?_ _ (hP.setVar ?_ _ h)))) <;> simp [localKeys]

theorem holds_interRow (hs : ¬ safe) (hP : Stable P) {n : Nat} {k : Built} {l : Nat} {r : Elem F → Rendering F} (hr : ∀ e, GoesWell safe Q P n (r e))
    (d : Int) (cursor : Point F) : ∀ (ps : List (Point F)) (s : (F × List (Path F)) × Elem F × Live F × DMap F),
    (∀ p ∈ s.1.2, Q p) ∧ P k l s.2.1 ∧ Keep safe P n s.2.2.1 →
    Holds safe (fun s => (∀ p ∈ s.1.2, Q p) ∧ P k l s.2.1 ∧ Keep safe P n s.2.2.1) (interRow d r cursor ps s)
  | [], s, h => by rw [interRow.eq_2 _ _ _ _ _ (by simp)]; exact h
  | [_], s, h => by rw [interRow.eq_2 _ _ _ _ _ (by simp)]; exact h
  | a :: b :: rest, (st, e, c, g), h => by
    rw [interRow]
    split
    · exact holds_interRow hs hP hr d cursor rest _ h
    · refine (holds_lost hs (hr _ c g cursor h.2.2)).bind ?_
      rintro ⟨p, c', g'⟩ ⟨hp, hc⟩
      refine holds_interRow hs hP hr d cursor rest _ ⟨?_, stable_setInter hP h.2.1 a b, hc⟩
      simp only [List.mem_append, List.mem_singleton]
      rintro x (hx | rfl)
      · exact h.1 x hx
      · exact hp

theorem holds_any {α : Type u} (hs : ¬ safe) (r : Res α) : Holds safe (fun _ => True) r := by
  cases r <;> first | trivial | exact hs

theorem holds_interRows (hs : ¬ safe) (hP : Stable P) {n : Nat} {k : Built} {l : Nat} {r : Elem F → Rendering F} (hr : ∀ e, GoesWell safe Q P n (r e))
    (d : Int) (outline : Path F) (cursor : Point F) (bottom spacing : F) : ∀ (fuel : Nat) (y : F) (s : (F × List (Path F)) × Elem F × Live F × DMap F),
    (∀ p ∈ s.1.2, Q p) ∧ P k l s.2.1 ∧ Keep safe P n s.2.2.1 →
    Holds safe (fun s => (∀ p ∈ s.1.2, Q p) ∧ P k l s.2.1 ∧ Keep safe P n s.2.2.1) (interRows d outline r cursor bottom spacing fuel y s)
  | 0, y, s, h => hs
  | fuel + 1, y, s, h => by
    rw [interRows]
    split
    · refine (holds_lost hs (holds_any hs (horizontalIntercepts d outline y))).bind fun ps _ => ?_
      exact (holds_interRow hs hP hr d cursor ps s h).bind fun s' h' => holds_interRows hs hP hr d outline cursor bottom spacing fuel _ s' h'
    · exact h

theorem holds_aroundCopy (hQ : Care safe Q) (n : Nat) (num : Int) (center start : Point F) {p : Path F} (hp : Q p) (i : Nat) :
    Holds safe Q (aroundCopy n num center start p i) := by
  rw [aroundCopy]
  exact (hQ.move _ _ hp).bind fun q hq => hQ.rotate _ _ hq

theorem holds_aroundLoop (hQ : Care safe Q) {n : Nat} {r : Rendering F} (hr : GoesWell safe Q P n r) (num : Int) (center start : Point F) :
    ∀ (l : List Nat) (c : Live F) (g : DMap F), Keep safe P n c →
    Holds safe (fun x => (∀ p ∈ x.1, Q p) ∧ x.1.length = l.length ∧ Keep safe P n x.2.1) (aroundLoop r num center start l c g)
  | [], c, g, h => by simp [aroundLoop, Holds, h]
  | i :: l, c, g, h => by
    rw [aroundLoop]
    refine (hr c g origin h).bind ?_
    rintro ⟨p, c', g'⟩ ⟨hp, hc⟩
    refine (holds_aroundCopy hQ 3 num center start hp i).bind fun q hq => ?_
    refine (holds_aroundLoop hQ hr num center start l c' g' hc).bind ?_
    rintro ⟨ps, c'', g''⟩ ⟨h1, h2, h3⟩
    simp only [Holds, List.mem_cons, List.length_cons] at *
    refine ⟨?_, by omega, h3⟩
    rintro x (rfl | hx)
    · exact hq
    · exact h1 x hx

theorem stable_around (hP : Stable P) {k : Built} {l : Nat} {e : Elem F} (h : P k l e) (num : Int) (v : Val F) :
    P k l (if num.toNat = 0 then setVar e aroundLengthKey v else setVar (setVar e aroundLengthKey v) aroundIndexKey (indexVal 0)) := by
  have h1 := hP.setVar (key := aroundLengthKey) (by simp [localKeys]) v h
  split
  · exact h1
  · exact hP.setVar (by simp [localKeys]) _ h1

variable (m)

/-- Rendering goes well at every spot that is not below a part inside of another component. -/
theorem goesWell_render (hQ : Care safe Q) (hm : Manner m safe Q P) : ∀ (n : Nat) (s : Spot F), (safe → s.nested = false) → GoesWell safe Q P n (m.render n s)
  | 0, s, _ => fun c g cursor h => h
  | n + 1, s, hs => by
    intro c g cursor h
    have ih : ∀ e, GoesWell safe Q P n (m.render n (Machine.below s e s.nested)) := fun e => goesWell_render hQ hm n _ hs
    cases c with
    | mk k i e cs =>
      have he := h.1
      have hcs := h.2
      cases k with
      | part =>
        have hns := hm.part he
        simp only [Machine.render, Live.kind, Machine.renderPartNode, Live.children, Live.elem, Live.id]
        refine (holds_renderAllOf hQ (goesWell_render hQ hm n _ fun h => absurd h hns) cs g cursor hcs).bind ?_
        rintro ⟨ps, cs', g'⟩ ⟨h1, h2, h3, h4⟩
        simp only
        split
        · trivial
        · next hne =>
          refine (hQ.join h1 fun hs => absurd hs hns).bind fun p hp => ?_
          refine (hm.finish he s g' none hp).bind fun q hq => ?_
          refine ⟨hQ.collapse (hQ.shift _ _ hq), ?_, h4⟩
          simp only at h3
          rw [h3]; exact he
      | draw =>
        simp only [Machine.render, Live.kind, Machine.renderDraw, Live.elem]
        refine (hQ.draw _ _).bind fun p hp => ?_
        exact (hm.finish he s g _ hp).bind fun q hq => ⟨hq, h⟩
      | copies =>
        simp only [Machine.render, Live.kind, Machine.renderCopies, Live.children, Live.elem, Live.id]
        split
        · next child =>
          refine (holds_copiesOf hQ hm.stable (ih e) m.toInt child g _ _ (hcs child (by simp))).bind ?_
          rintro ⟨p, c', g'⟩ ⟨hp, hc⟩
          refine (hm.finish he s g' _ hp).bind fun q hq => ⟨hq, he, ?_⟩
          simpa using hc
        · trivial
      | group =>
        simp only [Machine.render, Live.kind, Machine.renderGroup, Live.children, Live.elem, Live.id]
        refine (holds_renderAllOf hQ (ih e) cs g cursor hcs).bind ?_
        rintro ⟨ps, cs', g'⟩ ⟨h1, h2, h3, h4⟩
        simp only at h2 h3
        refine (hQ.join h1 fun hs => ?_).bind fun p hp => ?_
        · have := hm.group he hs
          rintro rfl; exact this h2.symm
        refine (hm.finish he s g' _ hp).bind fun q hq => ⟨hq, ?_, h4⟩
        rw [h3]; exact he
      | repeatEdge =>
        simp only [Machine.render, Live.kind, Machine.renderRepeatEdge, Live.children, Live.elem, Live.id]
        split
        · next child left right =>
          refine holds_need _ fun stop => ?_
          refine (holds_setEdge hs _ _ _ _).bind fun g1 _ => ?_
          refine (holds_copiesOf hQ hm.stable (ih e) m.toInt child g1 _ _ (hcs child (by simp))).bind ?_
          rintro ⟨p, child', g2⟩ ⟨hp, hc⟩
          refine (hQ.box hp).bind fun b _ => ?_
          refine (ih e _ g2 origin ((hcs left (by simp)).putParam hm.stable (by simp [paramKeys]) _)).bind ?_
          rintro ⟨pl, left', g3⟩ ⟨hpl, hl⟩
          refine (ih e _ g3 origin ((hcs right (by simp)).putParam hm.stable (by simp [paramKeys]) _)).bind ?_
          rintro ⟨pr, right', g4⟩ ⟨hpr, hr⟩
          refine (hQ.move _ _ hp).bind fun p' hp' => ?_
          refine (hQ.move _ _ hpr).bind fun pr' hpr' => ?_
          refine (hQ.join (l := [pl, p', pr']) ?_ fun _ => by simp).bind fun j hj => ?_
          · simp only [List.mem_cons, List.not_mem_nil, or_false]
            rintro x (rfl | rfl | rfl)
            exacts [hpl, hp', hpr']
          refine (holds_placeEdge hQ _ _ _ hj).bind fun t ht => ?_
          refine (hm.finish he s g4 _ ht).bind fun q hq => ⟨hq, he, ?_⟩
          simp only [List.mem_cons, List.not_mem_nil, or_false]
          rintro x (rfl | rfl | rfl)
          exacts [hc, hl, hr]
        · trivial
      | basicEdge =>
        simp only [Machine.render, Live.kind, Machine.renderBasicEdge, Live.children, Live.elem, Live.id]
        refine holds_need _ fun stop => ?_
        refine (holds_setEdge hs _ _ _ _).bind fun g1 _ => ?_
        refine (holds_renderAllOf hQ (ih _) cs g1 cursor hcs).bind ?_
        rintro ⟨ps, cs', g'⟩ ⟨h1, h2, h3, h4⟩
        simp only at h2 h3
        refine (hQ.join h1 fun hs => ?_).bind fun p hp => ?_
        · have := hm.basicEdge he hs
          rintro rfl; exact this h2.symm
        refine (holds_placeEdge hQ _ _ _ hp).bind fun t ht => ?_
        have he' := hm.stable.setVar (key := widthKey) (by simp [localKeys]) (.num (distance (m.edgeStart (m.attrs s g e (some cursor) e.original) cursor) stop)) he
        refine (hm.finish he' s g' _ ht).bind fun q hq => ⟨hq, ?_, h4⟩
        rw [h3]; exact he'
      | xIntercept =>
        have hns := hm.xIntercept he
        simp only [Machine.render, Live.kind, Machine.renderXIntercept, Live.children, Live.elem, Live.id]
        split
        · next child outline =>
          refine holds_ite (fun _ => trivial) fun _ => ?_
          · refine (holds_lost hns (ih e outline g cursor (hcs outline (by simp)))).bind ?_
            rintro ⟨o, outline', g1⟩ ⟨ho, hoc⟩
            refine (holds_lost hns (holds_any hns (whitespaceBox o))).bind fun b _ => ?_
            refine (holds_interRows hns hm.stable (k := .xIntercept) (l := 2) (fun e => ih e) _ o cursor _ _ m.fuel _ _
              ⟨by simp, by simpa using he, hcs child (by simp)⟩).bind ?_
            rintro ⟨st, e', child', g2⟩ ⟨h1, h2, h3⟩
            simp only
            split
            · trivial
            · refine (hQ.join h1 fun h => absurd h hns).bind fun p hp => ?_
              refine (hm.finish h2 s g2 _ hp).bind fun q hq => ⟨hq, h2, ?_⟩
              simp only [List.mem_cons, List.not_mem_nil, or_false]
              rintro x (rfl | rfl)
              exacts [h3, hoc]
        · trivial
      | around =>
        simp only [Machine.render, Live.kind, Machine.renderAround, Live.children, Live.elem, Live.id]
        split
        · next child =>
          refine holds_ite (fun _ => trivial) fun hnum => ?_
          · refine holds_ite (fun _ => trivial) fun _ => ?_
            · refine (holds_aroundLoop hQ (ih _) _ _ _ (List.range _) child g (hcs child (by simp))).bind ?_
              rintro ⟨ps, child', g'⟩ ⟨h1, h2, h3⟩
              simp only [List.length_range] at h2
              refine (hQ.join h1 fun hs => ?_).bind fun p hp => ⟨hp, ?_, ?_⟩
              · have := hm.around he hs s g (some cursor)
                rintro rfl
                simp only [List.length_nil] at h2
                omega
              · exact stable_around hm.stable he _ _
              · simpa using h3
        · trivial
      | gear =>
        simp only [Machine.render, Live.kind, Machine.renderGear, Live.elem]
        refine (holds_setGear hs _ _ _).bind fun g1 _ => ?_
        exact (hm.finish he s g1 _ (hm.gear he s g (some cursor))).bind fun q hq => ⟨hq, h⟩

/-! ## Parts -/

variable {m}

/-- A part of the document: its maps have the property `C`, and its components have the property `P`. -/
def Rooted (safe : Prop) (C : Elem F → Prop) (P : Built → Nat → Elem F → Prop) : Nat → Live F → Prop
  | n, .mk k _ e cs => k = .part ∧ C e ∧ ∀ c ∈ cs, Keep safe P n c

/-- What the property `C` of the maps of a part is good for. -/
structure Frame (m : Machine F O) (safe : Prop) (Q : Path F → Prop) (C : Elem F → Prop) : Prop where
  setVar : ∀ {e key}, key ∈ localKeys → ∀ v, C e → C (setVar e key v)
  finish : ∀ {e}, C e → ∀ s g cursor {p}, Q p → Holds safe Q (m.finishAt s g e cursor p)

variable {C : Elem F → Prop}

theorem Rooted.setVar (hC : Frame m safe Q C) {n : Nat} {c : Live F} (h : Rooted safe C P n c) {key : Text} (hk : key ∈ localKeys) (v : Val F) :
    Rooted safe C P n (c.setVar key v) := by
  cases c with | mk k i e cs => exact ⟨h.1, hC.setVar hk v h.2.1, h.2.2⟩

/-- A part of the document goes well. -/
theorem holds_root (hQ : Care safe Q) (hm : Manner m safe Q P) (hC : Frame m safe Q C) (doc : Elem F) (n : Nat) (c : Live F) (g : DMap F) (cursor : Point F)
    (h : Rooted safe C P n c) : Holds safe (fun x => Q x.1 ∧ Rooted safe C P n x.2.1) (m.render (n + 1) ⟨doc, [], false⟩ c g cursor) := by
  cases c with
  | mk k i e cs =>
    obtain ⟨rfl, he, hcs⟩ := h
    simp only [Machine.render, Live.kind, Machine.renderPartNode, Live.children, Live.elem, Live.id]
    refine (holds_renderAllOf hQ (goesWell_render m hQ hm n _ fun _ => rfl) cs g cursor hcs).bind ?_
    rintro ⟨ps, cs', g'⟩ ⟨h1, h2, h3, h4⟩
    simp only
    split
    · trivial
    · next hne =>
      refine (hQ.join h1 fun _ => by simpa using hne).bind fun p hp => ?_
      refine (hC.finish he _ g' none hp).bind fun q hq => ?_
      exact ⟨hQ.collapse (hQ.shift _ _ hq), rfl, he, h4⟩

theorem holds_partCopies (hQ : Care safe Q) (hm : Manner m safe Q P) (hC : Frame m safe Q C) (doc : Elem F) (total : Int) : ∀ (l : List Nat) (c : Live F)
    (g : DMap F), Rooted safe C P m.fuel c →
    Holds safe (fun x => (∀ r ∈ x.1, Q r.path) ∧ Rooted safe C P m.fuel x.2.1) (m.partCopies doc total l c g)
  | [], c, g, h => by simp [Machine.partCopies, Holds, h]
  | i :: l, c, g, h => by
    rw [Machine.partCopies]
    refine (holds_root hQ hm hC doc _ _ g origin (h.setVar hC (by simp [localKeys]) _)).bind ?_
    rintro ⟨p, c', g'⟩ ⟨hp, hc⟩
    refine (holds_partCopies hQ hm hC doc total l c' g' hc).bind ?_
    rintro ⟨ps, c'', g''⟩ ⟨h1, h2⟩
    simp only [Holds, List.mem_cons] at *
    refine ⟨?_, h2⟩
    rintro x (rfl | hx)
    · exact hQ.shift _ _ hp
    · exact h1 x hx

/-- The components of the transformer have the property `P`. -/
def Fitted (m : Machine F O) (safe : Prop) (P : Built → Nat → Elem F → Prop) (customs : List (Text × DMap F)) (mp : DMap F) : Prop :=
  ∀ n, m.world.make customs m.fuel mp = .val n → Keep safe P m.fuel (live m.world n)

theorem holds_makeFor (hs : ¬ safe) {b : Machine.Bench F} {mp : DMap F} (h : Fitted m safe P b.customs mp) :
    Holds safe (Keep safe P m.fuel) (m.makeFor b mp) := by
  unfold Machine.makeFor
  split
  · next n hn => exact h n hn
  · trivial
  · exact hs

theorem goesWell_renderFor (hQ : Care safe Q) (hm : Manner m safe Q P) (b : Machine.Bench F) : GoesWell safe Q P m.fuel (m.renderFor b) :=
  goesWell_render m hQ hm _ _ fun _ => rfl

/-- What the slicing of a part does with `Q`. -/
structure Cutting (m : Machine F O) (safe : Prop) (Q : Path F → Prop) : Prop where
  slice : ∀ {p} y, Q p → Holds safe Q (m.sliceAt y p)
  mirror : ∀ {p} a h, Q p → Holds safe Q (mirror a h p)

theorem holds_cutPart (hs : ¬ safe) (hQ : Care safe Q) (hm : Manner m safe Q P) (hcut : Cutting m safe Q) {b : Machine.Bench F} {mp : DMap F}
    (h1 : Fitted m safe P b.customs (sub mp plugKey)) (h2 : Fitted m safe P b.customs (sub mp socketKey)) {part : Path F} (hp : Q part) (y : F) (g : DMap F) :
    Holds safe (fun x => ∀ r ∈ x.1, Q r.path) (m.cutPart b mp part y g) := by
  have hP := hm.stable
  have ht : Q (trimWhitespace part) := hQ.shift _ _ hp
  unfold Machine.cutPart
  refine (holds_makeFor hs h1).bind fun plug hplug => (holds_makeFor hs h2).bind fun socket hsocket => ?_
  refine holds_ite (fun _ => ?_) fun _ => ?_
  · simpa [Holds, unlabelled] using ht
  · refine (goesWell_renderFor hQ hm b _ g origin ((hplug.setVar hP (by simp [localKeys]) _).setVar hP (by simp [localKeys]) _)).bind ?_
    rintro ⟨pp, c1, g1⟩ ⟨hpp, _⟩
    refine (hcut.slice _ ht).bind fun top htop => ?_
    refine (hQ.join (l := [top, pp]) ?_ fun _ => by simp).bind fun top' htop' => ?_
    · simp only [List.mem_cons, List.not_mem_nil, or_false]
      rintro x (rfl | rfl)
      exacts [htop, hpp]
    refine (hcut.mirror _ _ ht).bind fun fl hfl => ?_
    refine (goesWell_renderFor hQ hm b _ g1 origin ((hsocket.setVar hP (by simp [localKeys]) _).setVar hP (by simp [localKeys]) _)).bind ?_
    rintro ⟨sp, c2, g2⟩ ⟨hsp, _⟩
    refine (hcut.slice _ hfl).bind fun bot hbot => ?_
    refine (hQ.join (l := [bot, sp]) ?_ fun _ => by simp).bind fun bot' hbot' => ?_
    · simp only [List.mem_cons, List.not_mem_nil, or_false]
      rintro x (rfl | rfl)
      exacts [hbot, hsp]
    refine (hcut.mirror _ _ hbot').bind fun bm hbm => ?_
    simp only [Holds, List.mem_cons, List.not_mem_nil, or_false]
    rintro x (rfl | rfl)
    exacts [htop', hbm]

theorem holds_eachPart {f : Rendered F → DMap F → Res (List (Rendered F) × DMap F)}
    (hf : ∀ r g, Q r.path → Holds safe (fun x => ∀ r ∈ x.1, Q r.path) (f r g)) : ∀ (ps : List (Rendered F)) (g : DMap F), (∀ r ∈ ps, Q r.path) →
    Holds safe (fun x => ∀ r ∈ x.1, Q r.path) (Machine.eachPart f ps g)
  | [], g, _ => by simp [Machine.eachPart, Holds]
  | p :: ps, g, h => by
    rw [Machine.eachPart]
    refine (hf p g (h p (by simp))).bind ?_
    rintro ⟨l, g'⟩ hl
    refine (holds_eachPart hf ps g' fun r hr => h r (by simp [hr])).bind ?_
    rintro ⟨l', g''⟩ hl'
    simp only [Holds, List.mem_append] at *
    rintro x (hx | hx)
    exacts [hl x hx, hl' x hx]

theorem holds_splitPart (hs : ¬ safe) (hQ : Care safe Q) (hm : Manner m safe Q P) (hcut : Cutting m safe Q) {b : Machine.Bench F} {mp : DMap F}
    (h1 : Fitted m safe P b.customs (sub mp plugKey)) (h2 : Fitted m safe P b.customs (sub mp socketKey)) : ∀ (fuel : Nat) (r : Rendered F) (g : DMap F),
    Q r.path → Holds safe (fun x => ∀ r ∈ x.1, Q r.path) (m.splitPart b mp fuel r g)
  | 0, r, g, _ => hs
  | fuel + 1, r, g, h => by
    have one : Holds safe (fun x : List (Rendered F) × DMap F => ∀ r ∈ x.1, Q r.path) (.ok ([r], g)) := by simpa [Holds] using h
    rw [Machine.splitPart]
    refine holds_ite (fun _ => ?_) fun _ => holds_need _ fun y => holds_ite (fun _ => one) fun _ => holds_cutPart hs hQ hm hcut h1 h2 h y g
    refine holds_ite (fun _ => trivial) fun _ => holds_ite (fun _ => trivial) fun _ => ?_
    split
    · exact (hQ.rotate _ _ h).bind fun q hq => holds_splitPart hs hQ hm hcut h1 h2 fuel _ g hq
    · exact one
    · refine holds_ite (fun _ => one) fun _ => (holds_cutPart hs hQ hm hcut h1 h2 h _ g).bind ?_
      rintro ⟨parts, g'⟩ hparts
      exact holds_ite (fun _ => hparts) fun _ => holds_eachPart (fun r g hr => holds_splitPart hs hQ hm hcut h1 h2 fuel r g hr) parts g' hparts

theorem keep_setLayer (hP : Stable P) {n : Nat} {c : Live F} (h : Keep safe P n c) (a b : Point F) (i : Nat) : Keep safe P n (Machine.setLayer c a b i) := by
  unfold Machine.setLayer
  refine Keep.setVar hP (Keep.setVar hP (Keep.setVar hP (Keep.setVar hP (Keep.setVar hP (Keep.setVar hP (Keep.setVar hP h ?_ _) ?_ _) ?_ _) ?_ _) ?_ _) ?_ _)
    ?_ _ <;> simp [localKeys]

theorem holds_latheRows (hs : ¬ safe) (hQ : Care safe Q) (hm : Manner m safe Q P) (b : Machine.Bench F) (outline : Path F) (label : Label) (thickness bottom : F) :
    ∀ (fuel : Nat) (y : F) (st : Lathe F) (c : Live F) (g : DMap F), (∀ r ∈ st.parts, Q r.path) → Keep safe P m.fuel c →
    Holds safe (fun x => ∀ r ∈ x.1.parts, Q r.path) (m.latheRows b outline label thickness bottom fuel y st c g)
  | 0, _, _, _, _, _, _ => hs
  | fuel + 1, y, st, c, g, hst, hc => by
    rw [Machine.latheRows]
    refine holds_ite (fun _ => ?_) fun _ => hst
    refine (holds_any hs (horizontalIntercepts defaultPrecision outline y)).bind fun points _ => ?_
    split
    · refine holds_ite (fun _ => holds_latheRows hs hQ hm b outline label thickness bottom fuel _ st c g hst hc) fun _ => ?_
      refine (goesWell_renderFor hQ hm b _ g origin (keep_setLayer hm.stable hc _ _ _)).bind ?_
      rintro ⟨p, c', g'⟩ ⟨hp, hc'⟩
      refine holds_latheRows hs hQ hm b outline label thickness bottom fuel _ _ c' g' ?_ hc'
      simp only [List.mem_append, List.mem_singleton]
      rintro x (hx | rfl)
      exacts [hst x hx, hp]
    · exact holds_latheRows hs hQ hm b outline label thickness bottom fuel _ st c g hst hc

theorem holds_lathePart (hs : ¬ safe) (hQ : Care safe Q) (hm : Manner m safe Q P) {b : Machine.Bench F} {mp : DMap F}
    (h1 : Fitted m safe P b.customs (sub mp repeatKey)) (r : Rendered F) (g : DMap F) :
    Holds safe (fun x => ∀ r ∈ x.1, Q r.path) (m.lathePart b mp r g) := by
  unfold Machine.lathePart
  refine (holds_any hs _).bind fun box _ => holds_ite (fun _ => trivial) fun _ => (holds_makeFor hs h1).bind fun c hc => ?_
  refine (holds_latheRows hs hQ hm b _ _ _ _ _ _ _ c g (by simp [latheStart]) hc).bind ?_
  rintro ⟨st, c', g'⟩ h
  exact h

/-- What is asked of a part transformer. -/
def Apt (m : Machine F O) (safe : Prop) (Q : Path F → Prop) (P : Built → Nat → Elem F → Prop) (customs : List (Text × DMap F)) : Machine.Transformer F → Prop
  | .splitter mp => Cutting m safe Q ∧ Fitted m safe P customs (sub mp plugKey) ∧ Fitted m safe P customs (sub mp socketKey)
  | .lathe mp => Fitted m safe P customs (sub mp repeatKey)

theorem holds_runTransformers (hQ : Care safe Q) (hm : Manner m safe Q P) (b : Machine.Bench F) : ∀ (ts : List (Machine.Transformer F)) (ps : List (Rendered F)) (g : DMap F),
    (∀ t ∈ ts, ¬ safe ∧ Apt m safe Q P b.customs t) → (∀ r ∈ ps, Q r.path) → Holds safe (fun x => ∀ r ∈ x.1, Q r.path) (m.runTransformers b ts ps g)
  | [], ps, g, _, h => h
  | t :: ts, ps, g, ht, h => by
    rw [Machine.runTransformers]
    refine (holds_eachPart (fun r g hr => ?_) ps g h).bind ?_
    · obtain ⟨hs, ha⟩ := ht t (by simp)
      cases t with
      | splitter mp => exact holds_splitPart hs hQ hm ha.1 ha.2.1 ha.2.2 _ r g hr
      | lathe mp => exact holds_lathePart hs hQ hm ha r g
    · rintro ⟨ps', g'⟩ h'
      exact holds_runTransformers hQ hm b ts ps' g' (fun t ht' => ht t (by simp [ht'])) h'

/-- A part of the document is rendered well: its copies and what its transformers make of them. -/
theorem holds_renderPart (hQ : Care safe Q) (hm : Manner m safe Q P) (hC : Frame m safe Q C) (doc : Elem F) (customs : List (Text × DMap F)) (c : Live F)
    (g : DMap F) (h : Rooted safe C P m.fuel c)
    (ht : ∀ e, C e → ∀ ts, m.makeTransformers (slice e.original partTransformersKey) = some ts → ∀ t ∈ ts, ¬ safe ∧ Apt m safe Q P customs t) :
    Holds safe (fun x => ∀ r ∈ x.1, Q r.path) (m.renderPart doc customs c g) := by
  unfold Machine.renderPart
  refine (holds_partCopies hQ hm hC doc _ _ c g h).bind ?_
  rintro ⟨ps, c', g'⟩ ⟨h1, h2⟩
  simp only
  cases hts : m.makeTransformers (slice c'.elem.original partTransformersKey) with
  | none => trivial
  | some ts =>
    refine holds_runTransformers hQ hm _ ts ps g' ?_ h1
    cases c' with
    | mk k i e cs => exact ht e h2.2.1 ts hts

end

end Verif.Render
