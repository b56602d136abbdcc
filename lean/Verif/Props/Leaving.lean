import Verif.Lemmas.Render
import Verif.Spec.Render

/-!
# Property C116: what a rendering leaves behind
-/

set_option linter.unusedSectionVars false

namespace Verif.Render

open Verif Verif.Dyn Verif.Path Verif.PlanSet Verif.Svg Verif.Files Verif.Spec

universe u

section

variable {F : Type u}

theorem own_plain : ∀ k ∈ ownNames, '.' ∉ k := by decide +kernel

theorem own_params : Dyn.paramsKey ∉ ownNames := by decide +kernel

theorem local_own : ∀ k ∈ localKeys, k ∈ ownNames := by decide +kernel

theorem params_child : ∀ k ∈ paramKeys, k ∈ childNames := by decide +kernel

theorem params_plain : '.' ∉ Dyn.paramsKey := by decide +kernel

theorem LeftAs.refl (e : Elem F) : LeftAs e e := ⟨fun _ _ _ _ => rfl, fun _ _ _ => rfl, rfl⟩

theorem LeftAs.trans {a b c : Elem F} (h : LeftAs a b) (h' : LeftAs b c) : LeftAs a c :=
  ⟨fun k h1 h2 h3 => (h'.1 k h1 h2 h3).trans (h.1 k h1 h2 h3), fun k h1 h2 => (h'.2.1 k h1 h2).trans (h.2.1 k h1 h2), h'.2.2.trans h.2.2⟩

theorem leftAs_setVar (e : Elem F) {key : Text} (hkey : key ∈ localKeys) (v : Val F) : LeftAs e (setVar e key v) := by
  have hk := local_own key hkey
  have hp := own_plain key hk
  have get_other : ∀ k, '.' ∉ k → k ≠ key → Dyn.get (setVar e key v).original k = Dyn.get e.original k := by
    intro k h1 h2
    rw [get_plain h1, get_plain h1]
    simp only [setVar, putWithDot_eq, dots_plain hp, putParts, lookup_put]
    rw [if_neg h2]
  refine ⟨fun k h1 h2 _ => get_other k h1 fun e => h2 (e ▸ hk), fun k h1 h2 => ?_, rfl⟩
  have : (setVar e key v).allParams = e.allParams := by
    simp only [Elem.allParams, getDynMap, get_other paramsKey params_plain fun e => own_params (e ▸ hk)]
    rfl
  rw [this]

theorem put_ne_nil (k : Text) (v : Val F) (m : DMap F) : (put k v m).isEmpty = false := by
  cases m with
  | nil => rfl
  | cons e m =>
    unfold put
    split <;> rfl

theorem leftAs_putParam (e : Elem F) {key : Text} (hkey : key ∈ paramKeys) (v : Val F) : LeftAs e (putParam e key v) := by
  refine ⟨fun k h1 h2 h3 => ?_, fun k h1 h2 => ?_, rfl⟩
  · rw [get_plain h1, get_plain h1]
    simp only [putParam]
    split
    · simp only [putKey, lookup_put]
      rw [if_neg h3]
    · rfl
  · have : (putParam e key v).allParams = putKey e.allParams key v := by
      simp only [Elem.allParams, putParam, putKey, put_ne_nil, Bool.false_eq_true, if_false]
    rw [this, get_plain h1, get_plain h1]
    simp only [putKey, lookup_put]
    rw [if_neg fun he : k = key => h2 (he ▸ params_child key hkey)]

mutual

theorem Same.refl : ∀ c : Live F, Same c c
  | .mk k i e cs => ⟨rfl, rfl, LeftAs.refl e, SameOf.refl cs⟩

theorem SameOf.refl : ∀ cs : List (Live F), SameOf cs cs
  | [] => trivial
  | c :: cs => ⟨Same.refl c, SameOf.refl cs⟩

end

mutual

theorem Same.trans : ∀ {a b c : Live F}, Same a b → Same b c → Same a c
  | .mk k i e cs, .mk k' i' e' cs', .mk k'' i'' e'' cs'', h, h' =>
    ⟨h'.1.trans h.1, h'.2.1.trans h.2.1, h.2.2.1.trans h'.2.2.1, SameOf.trans h.2.2.2 h'.2.2.2⟩

theorem SameOf.trans : ∀ {a b c : List (Live F)}, SameOf a b → SameOf b c → SameOf a c
  | [], [], [], _, _ => trivial
  | a :: as, b :: bs, c :: cs, h, h' => ⟨Same.trans h.1 h'.1, SameOf.trans h.2 h'.2⟩

end

theorem same_setVar (c : Live F) {key : Text} (hkey : key ∈ localKeys) (v : Val F) : Same c (c.setVar key v) := by
  cases c with | mk k i e cs => exact ⟨rfl, rfl, leftAs_setVar e hkey v, SameOf.refl cs⟩

theorem same_putParam (c : Live F) {key : Text} (hkey : key ∈ paramKeys) (v : Val F) : Same c (c.putParam key v) := by
  cases c with | mk k i e cs => exact ⟨rfl, rfl, leftAs_putParam e hkey v, SameOf.refl cs⟩

theorem Written.trans {a b c : DMap F} (h : Written a b) (h' : Written b c) : Written a c := by
  induction h' with
  | none => exact h
  | more name suffix hs x _ ih => exact .more name suffix hs x ih

theorem written_setGlobal {nested : Bool} {name suffix : Text} (hs : suffix ∈ globalEnds) {x : F} {g g' : DMap F}
    (h : setGlobal nested (name ++ suffix) (.num x) g = .ok g') : Written g g' := by
  unfold setGlobal at h
  split at h
  · cases h
  · simp only [Res.ok.injEq] at h
    subst h
    exact .more name suffix hs x (.none g)

end

section

variable {F : Type u} [Trig F] {O : Type}

theorem written_setEdge {nested : Bool} {a : Source F O} {start stop : Point F} {g g' : DMap F} (h : Machine.setEdge nested a start stop g = .ok g') :
    Written g g' := by
  unfold Machine.setEdge at h
  split at h
  · simp only [Res.ok.injEq] at h
    subst h; exact .none g
  · obtain ⟨g1, h1, h2⟩ := res_bind_ok h
    exact (written_setGlobal (by simp [globalEnds]) h1).trans (written_setGlobal (by simp [globalEnds]) h2)

theorem written_setGear {nested : Bool} {a : Source F O} {size : GearSize F} {g g' : DMap F} (h : Machine.setGear nested a size g = .ok g') :
    Written g g' := by
  unfold Machine.setGear at h
  split at h
  · simp only [Res.ok.injEq] at h
    subst h; exact .none g
  · obtain ⟨g1, h1, h2⟩ := res_bind_ok h
    exact (written_setGlobal (by simp [globalEnds]) h1).trans (written_setGlobal (by simp [globalEnds]) h2)

/-- A rendering that leaves the component and the global variables as they were, except for its variables. -/
def Leaves (r : Rendering F) : Prop := ∀ c g cursor, Holds False (fun x => Same c x.2.1 ∧ Written g x.2.2) (r c g cursor)

theorem leaves_all {r : Rendering F} (hr : Leaves r) : ∀ (cs : List (Live F)) (g : DMap F) (cursor : Point F),
    Holds False (fun x => SameOf cs x.2.1 ∧ Written g x.2.2) (renderAllOf r cs g cursor)
  | [], g, cursor => ⟨trivial, .none g⟩
  | c :: cs, g, cursor => by
    rw [renderAllOf]
    refine (hr c g cursor).bind ?_
    rintro ⟨p, c', g'⟩ ⟨hc, hg⟩
    simp only at *
    split
    · exact id
    · refine (leaves_all hr cs g' _).bind ?_
      rintro ⟨ps, cs', g''⟩ ⟨h1, h2⟩
      exact ⟨⟨hc, h1⟩, hg.trans h2⟩

theorem holds_pass {α β : Type u} {Q : β → Prop} (r : Res α) {f : α → Res β} (h : ∀ a, Holds False Q (f a)) : Holds False Q (r >>= f) :=
  Holds.bind (Q := fun _ => True) (by cases r <;> first | trivial | exact id) fun a _ => h a

theorem leaves_copiesLoop {r : Rendering F} (hr : Leaves r) (width height : F) : ∀ (l : List (Nat × Nat)) (c : Live F) (g : DMap F),
    Holds False (fun x => Same c x.2.1 ∧ Written g x.2.2) (copiesLoop r width height l c g)
  | [], c, g => ⟨Same.refl c, .none g⟩
  | i :: l, c, g => by
    rw [copiesLoop]
    refine (hr _ g origin).bind ?_
    rintro ⟨p, c', g'⟩ ⟨hc, hg⟩
    refine holds_pass _ fun q => ?_
    refine (leaves_copiesLoop hr width height l c' g').bind ?_
    rintro ⟨ps, c'', g''⟩ ⟨h1, h2⟩
    exact ⟨(((same_putParam c (by simp [paramKeys]) _).trans (same_putParam _ (by simp [paramKeys]) _)).trans hc).trans h1, hg.trans h2⟩

theorem leaves_copiesOf {r : Rendering F} (hr : Leaves r) (toInt : F → Int) (c : Live F) (g : DMap F) (maxX maxY : F) :
    Holds False (fun x => Same c x.2.1 ∧ Written g x.2.2) (copiesOf toInt r c g maxX maxY) := by
  rw [copiesOf]
  refine (hr c g origin).bind ?_
  rintro ⟨p, c', g'⟩ ⟨hc, hg⟩
  refine holds_pass _ fun b => ?_
  refine (leaves_copiesLoop hr _ _ _ c' g').bind ?_
  rintro ⟨ps, c'', g''⟩ ⟨h1, h2⟩
  simp only
  split
  · trivial
  · exact holds_pass _ fun q => ⟨hc.trans h1, hg.trans h2⟩

theorem leftAs_setInter (e : Elem F) (a b : Point F) : LeftAs e (setInter e a b) := by
  unfold setInter
  refine ((((leftAs_setVar _ ?_ _).trans (leftAs_setVar _ ?_ _)).trans (leftAs_setVar _ ?_ _)).trans (leftAs_setVar _ ?_ _)).trans (leftAs_setVar _ ?_ _) <;>
    simp [localKeys]

theorem holds_lost' {α : Type u} {Q : α → Prop} {r : Res α} (h : Holds False Q r) : Holds False Q (lost r) := holds_lost id h

theorem leaves_interRow {d : Int} {r : Elem F → Rendering F} (hr : ∀ e, Leaves (r e)) (cursor : Point F) :
    ∀ (ps : List (Point F)) (s : (F × List (Path F)) × Elem F × Live F × DMap F),
    Holds False (fun t => LeftAs s.2.1 t.2.1 ∧ Same s.2.2.1 t.2.2.1 ∧ Written s.2.2.2 t.2.2.2) (interRow d r cursor ps s)
  | [], s => by rw [interRow.eq_2 _ _ _ _ _ (by simp)]; exact ⟨LeftAs.refl _, Same.refl _, .none _⟩
  | [_], s => by rw [interRow.eq_2 _ _ _ _ _ (by simp)]; exact ⟨LeftAs.refl _, Same.refl _, .none _⟩
  | a :: b :: rest, (st, e, c, g) => by
    rw [interRow]
    split
    · exact leaves_interRow hr cursor rest _
    · refine (holds_lost' (hr _ c g cursor)).bind ?_
      rintro ⟨p, c', g'⟩ ⟨hc, hg⟩
      refine (leaves_interRow hr cursor rest _).mono ?_
      rintro ⟨st', e', c'', g''⟩ ⟨h1, h2, h3⟩
      exact ⟨(leftAs_setInter e a b).trans h1, hc.trans h2, hg.trans h3⟩

theorem leaves_interRows {d : Int} {r : Elem F → Rendering F} (hr : ∀ e, Leaves (r e)) (outline : Path F) (cursor : Point F) (bottom spacing : F) :
    ∀ (fuel : Nat) (y : F) (s : (F × List (Path F)) × Elem F × Live F × DMap F),
    Holds False (fun t => LeftAs s.2.1 t.2.1 ∧ Same s.2.2.1 t.2.2.1 ∧ Written s.2.2.2 t.2.2.2) (interRows d outline r cursor bottom spacing fuel y s)
  | 0, y, s => id
  | fuel + 1, y, s => by
    rw [interRows]
    split
    · refine holds_pass _ fun ps => ?_
      refine (leaves_interRow hr cursor ps s).bind fun s' h' => ?_
      refine (leaves_interRows hr outline cursor bottom spacing fuel _ s').mono fun t ht => ?_
      exact ⟨h'.1.trans ht.1, h'.2.1.trans ht.2.1, h'.2.2.trans ht.2.2⟩
    · exact ⟨LeftAs.refl _, Same.refl _, .none _⟩

theorem leaves_aroundLoop {r : Rendering F} (hr : Leaves r) (num : Int) (center start : Point F) : ∀ (l : List Nat) (c : Live F) (g : DMap F),
    Holds False (fun x => Same c x.2.1 ∧ Written g x.2.2) (aroundLoop r num center start l c g)
  | [], c, g => ⟨Same.refl c, .none g⟩
  | i :: l, c, g => by
    rw [aroundLoop]
    refine (hr c g origin).bind ?_
    rintro ⟨p, c', g'⟩ ⟨hc, hg⟩
    refine holds_pass _ fun q => ?_
    refine (leaves_aroundLoop hr num center start l c' g').bind ?_
    rintro ⟨ps, c'', g''⟩ ⟨h1, h2⟩
    exact ⟨hc.trans h1, hg.trans h2⟩

theorem leftAs_around (e : Elem F) (num : Int) (v : Val F) :
    LeftAs e (if num.toNat = 0 then setVar e aroundLengthKey v else setVar (setVar e aroundLengthKey v) aroundIndexKey (indexVal 0)) := by
  have h := leftAs_setVar e (key := aroundLengthKey) (by simp [localKeys]) v
  split
  · exact h
  · exact h.trans (leftAs_setVar _ (by simp [localKeys]) _)

theorem leaves_render (m : Machine F O) : ∀ (n : Nat) (s : Spot F), Leaves (m.render n s)
  | 0, s => fun c g cursor => id
  | n + 1, s => by
    intro c g cursor
    have ih : ∀ s, Leaves (m.render n s) := leaves_render m n
    cases c with
    | mk k i e cs =>
      cases k with
      | part =>
        simp only [Machine.render, Live.kind, Machine.renderPartNode, Live.children, Live.elem, Live.id]
        refine (leaves_all (ih _) cs g cursor).bind ?_
        rintro ⟨ps, cs', g'⟩ ⟨h1, h2⟩
        simp only
        split
        · trivial
        · exact holds_pass _ fun p => holds_pass _ fun q => ⟨⟨rfl, rfl, LeftAs.refl e, h1⟩, h2⟩
      | draw =>
        simp only [Machine.render, Live.kind, Machine.renderDraw, Live.elem]
        exact holds_pass _ fun p => holds_pass _ fun q => ⟨Same.refl _, .none g⟩
      | copies =>
        simp only [Machine.render, Live.kind, Machine.renderCopies, Live.children, Live.elem, Live.id]
        split
        · next child =>
          refine (leaves_copiesOf (ih _) m.toInt child g _ _).bind ?_
          rintro ⟨p, c', g'⟩ ⟨hc, hg⟩
          exact holds_pass _ fun q => ⟨⟨rfl, rfl, LeftAs.refl e, hc, trivial⟩, hg⟩
        · trivial
      | group =>
        simp only [Machine.render, Live.kind, Machine.renderGroup, Live.children, Live.elem, Live.id]
        refine (leaves_all (ih _) cs g cursor).bind ?_
        rintro ⟨ps, cs', g'⟩ ⟨h1, h2⟩
        exact holds_pass _ fun p => holds_pass _ fun q => ⟨⟨rfl, rfl, LeftAs.refl e, h1⟩, h2⟩
      | repeatEdge =>
        simp only [Machine.render, Live.kind, Machine.renderRepeatEdge, Live.children, Live.elem, Live.id]
        split
        · next child left right =>
          refine holds_need _ fun stop => ?_
          refine (holds_of_ok fun g1 e => written_setEdge e).bind fun g1 hg1 => ?_
          refine (leaves_copiesOf (ih _) m.toInt child g1 _ _).bind ?_
          rintro ⟨p, child', g2⟩ ⟨hc, hg2⟩
          refine holds_pass _ fun b => ?_
          refine (ih _ _ g2 origin).bind ?_
          rintro ⟨pl, left', g3⟩ ⟨hl, hg3⟩
          refine (ih _ _ g3 origin).bind ?_
          rintro ⟨pr, right', g4⟩ ⟨hr, hg4⟩
          refine holds_pass _ fun p' => holds_pass _ fun pr' => holds_pass _ fun j => holds_pass _ fun t => holds_pass _ fun q => ?_
          exact ⟨⟨rfl, rfl, LeftAs.refl e, hc, (same_putParam left (by simp [paramKeys]) _).trans hl, (same_putParam right (by simp [paramKeys]) _).trans hr, trivial⟩,
            ((hg1.trans hg2).trans hg3).trans hg4⟩
        · trivial
      | basicEdge =>
        simp only [Machine.render, Live.kind, Machine.renderBasicEdge, Live.children, Live.elem, Live.id]
        refine holds_need _ fun stop => ?_
        refine (holds_of_ok fun g1 e => written_setEdge e).bind fun g1 hg1 => ?_
        refine (leaves_all (ih _) cs g1 cursor).bind ?_
        rintro ⟨ps, cs', g'⟩ ⟨h1, h2⟩
        exact holds_pass _ fun p => holds_pass _ fun t => holds_pass _ fun q => ⟨⟨rfl, rfl, leftAs_setVar e (by simp [localKeys]) _, h1⟩, hg1.trans h2⟩
      | xIntercept =>
        simp only [Machine.render, Live.kind, Machine.renderXIntercept, Live.children, Live.elem, Live.id]
        split
        · next child outline =>
          refine holds_ite (fun _ => trivial) fun _ => ?_
          refine (holds_lost' (ih _ outline g cursor)).bind ?_
          rintro ⟨o, outline', g1⟩ ⟨ho, hg1⟩
          refine holds_pass _ fun b => ?_
          refine (leaves_interRows (fun e => ih _) o cursor _ _ m.fuel _ _).bind ?_
          rintro ⟨st, e', child', g2⟩ ⟨h1, h2, h3⟩
          simp only at *
          split
          · trivial
          · exact holds_pass _ fun p => holds_pass _ fun q => ⟨⟨rfl, rfl, h1, h2, ho, trivial⟩, hg1.trans h3⟩
        · trivial
      | around =>
        simp only [Machine.render, Live.kind, Machine.renderAround, Live.children, Live.elem, Live.id]
        split
        · next child =>
          refine holds_ite (fun _ => trivial) fun _ => holds_ite (fun _ => trivial) fun _ => ?_
          refine (leaves_aroundLoop (ih _) _ _ _ _ child g).bind ?_
          rintro ⟨ps, child', g'⟩ ⟨h1, h2⟩
          exact holds_pass _ fun p => ⟨⟨rfl, rfl, leftAs_around e _ _, h1, trivial⟩, h2⟩
        · trivial
      | gear =>
        simp only [Machine.render, Live.kind, Machine.renderGear, Live.elem]
        refine (holds_of_ok fun g1 e => written_setGear e).bind fun g1 hg1 => ?_
        exact holds_pass _ fun q => ⟨Same.refl _, hg1⟩

/-- **C116.** Whatever is rendered, at whatever depth: the tree of components stays the same, with the same types and ids; the maps of the components
are changed only at the variables that the components set themselves and at the parameters that they set on their children, and the global variables only
at the names that edges and gears are told to set. -/
theorem C116_left (m : Machine F O) (n : Nat) (s : Spot F) (c : Live F) (g : DMap F) (cursor : Point F) (p : Path F) (c' : Live F) (g' : DMap F)
    (e : m.render n s c g cursor = .ok (p, c', g')) : Same c c' ∧ Written g g' := (leaves_render m n s c g cursor).ok e

/-- A rendering that changes nothing in the trees of `P`. -/
def Quiet (P : Live F → Prop) (r : Rendering F) : Prop := ∀ c g cursor, P c → Holds False (fun x => x.2.1 = c ∧ x.2.2 = g) (r c g cursor)

theorem quiet_all {P : Live F → Prop} {r : Rendering F} (hr : Quiet P r) : ∀ (cs : List (Live F)) (g : DMap F) (cursor : Point F), (∀ c ∈ cs, P c) →
    Holds False (fun x => x.2.1 = cs ∧ x.2.2 = g) (renderAllOf r cs g cursor)
  | [], g, cursor, _ => ⟨rfl, rfl⟩
  | c :: cs, g, cursor, h => by
    rw [renderAllOf]
    refine (hr c g cursor (h c (by simp))).bind ?_
    rintro ⟨p, c', g'⟩ ⟨hc, hg⟩
    simp only at *
    subst hc hg
    split
    · exact id
    · refine (quiet_all hr cs g' _ fun d hd => h d (by simp [hd])).bind ?_
      rintro ⟨ps, cs', g''⟩ ⟨h1, h2⟩
      simp only at *
      subst h1 h2
      exact ⟨rfl, rfl⟩

theorem each_children {P : Built → Nat → Elem F → Prop} : ∀ {cs : List (Live F)}, EachOf P cs → ∀ c ∈ cs, Each P c
  | [], _, c, h => by cases h
  | d :: cs, h, c, hc => by
    simp only [EachOf] at h
    rcases List.mem_cons.mp hc with rfl | hc
    · exact h.1
    · exact each_children h.2 c hc

theorem quiet_render (m : Machine F O) : ∀ (n : Nat) (s : Spot F), Quiet (Each fun k _ _ => k ∈ [Built.part, .draw, .group]) (m.render n s)
  | 0, s => fun c g cursor _ => id
  | n + 1, s => by
    intro c g cursor h
    have ih := quiet_render m n
    cases c with
    | mk k i e cs =>
      simp only [Each] at h
      have hcs := each_children h.2
      cases k with
      | part =>
        simp only [Machine.render, Live.kind, Machine.renderPartNode, Live.children, Live.elem, Live.id]
        refine (quiet_all (ih _) cs g cursor hcs).bind ?_
        rintro ⟨ps, cs', g'⟩ ⟨h1, h2⟩
        simp only at *
        subst h1 h2
        split
        · trivial
        · exact holds_pass _ fun p => holds_pass _ fun q => ⟨rfl, rfl⟩
      | draw =>
        simp only [Machine.render, Live.kind, Machine.renderDraw, Live.elem]
        exact holds_pass _ fun p => holds_pass _ fun q => ⟨rfl, rfl⟩
      | group =>
        simp only [Machine.render, Live.kind, Machine.renderGroup, Live.children, Live.elem, Live.id]
        refine (quiet_all (ih _) cs g cursor hcs).bind ?_
        rintro ⟨ps, cs', g'⟩ ⟨h1, h2⟩
        simp only at *
        subst h1 h2
        exact holds_pass _ fun p => holds_pass _ fun q => ⟨rfl, rfl⟩
      | copies => simp at h
      | repeatEdge => simp at h
      | basicEdge => simp at h
      | xIntercept => simp at h
      | around => simp at h
      | gear => simp at h

/-- **C116.** Rendering parts, drawings and groups, inside each other as deep as one likes, changes nothing at all. So they can be rendered again, with the same
result. -/
theorem C116_again (m : Machine F O) (n : Nat) (s : Spot F) (c : Live F) (h : Each (fun k _ _ => k ∈ [Built.part, .draw, .group]) c) (g : DMap F) (cursor : Point F)
    (p : Path F) (c' : Live F) (g' : DMap F) (e : m.render n s c g cursor = .ok (p, c', g')) :
    c' = c ∧ g' = g ∧ m.render n s c' g' cursor = .ok (p, c', g') := by
  obtain ⟨h1, h2⟩ := (quiet_render m n s c g cursor h).ok e
  simp only at h1 h2
  subst h1 h2
  exact ⟨rfl, rfl, e⟩

/-- C116: another type, another child or another entry is not the same. -/
example (e : Elem F) (c : Live F) (cs : List (Live F)) (x : F) (hx : Arith.zero ≠ x) : ¬ Same (.mk .draw [] e []) (.mk .gear [] e []) ∧
    ¬ Same (.mk .group [] e (c :: cs)) (.mk .group [] e cs) ∧
    ¬ Same (.mk .draw [] ⟨[], [("height".toList, .num x)], []⟩ []) (.mk .draw [] ⟨[], [("height".toList, .num Arith.zero)], []⟩ []) := by
  refine ⟨fun h => by simp [Same] at h, fun h => ?_, fun h => ?_⟩
  · have key : ∀ (as bs : List (Live F)), SameOf as bs → as.length = bs.length := by
      intro as
      induction as with
      | nil => intro bs h; cases bs with
        | nil => rfl
        | cons => simp [SameOf] at h
      | cons a as ih => intro bs h; cases bs with
        | nil => simp [SameOf] at h
        | cons b bs => simp only [SameOf] at h; simp [ih bs h.2]
    have := key _ _ h.2.2.2
    simp at this
  · have := h.2.2.1.1 "height".toList (by decide +kernel) (by decide +kernel) (by decide +kernel)
    rw [get_plain (by decide +kernel), get_plain (by decide +kernel)] at this
    simp [List.lookup] at this
    exact hx this

end

end Verif.Render
