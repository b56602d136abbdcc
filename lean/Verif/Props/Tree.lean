import Verif.Lemmas.Faithful
import Verif.Lemmas.Panic
import Verif.Props.DrawComponent
import Verif.Props.PathText
import Verif.Lemmas.Join

/-!
# Properties of whole trees of components
-/

set_option linter.unusedSectionVars false

namespace Verif.Path

open Verif Verif.Spec

universe u

variable {F : Type u} [Trig F]

theorem inked_repeatRender {toInt : F → Int} {render : Option (Nat × Nat) → Res (Path F)} (h : ∀ i p, render i = .ok p → Inked none p) {maxX maxY : F}
    {q : Path F} (e : repeatRender toInt render maxX maxY = .ok q) : Inked none q := by
  unfold repeatRender at e
  obtain ⟨p, hp, e⟩ := res_bind_ok e
  obtain ⟨b, _, e⟩ := res_bind_ok e
  obtain ⟨ps, hps, e⟩ := res_bind_ok e
  split at e
  · cases e
  · refine inked_simpleJoin ?_ e
    intro r hr
    obtain ⟨i, _, e⟩ := res_mapM_mem hps r hr
    obtain ⟨s, hs, e⟩ := res_bind_ok e
    exact inked_move (h _ _ hs) e

theorem inked_turned {d dx dy : F} {h : Text} {b : Bool} {p q : Path F} (hp : Inked none p)
    (e : (if b then (Path.rotate d h p >>= fun p => Res.ok (shift dx dy p)) else (Res.ok p >>= fun p => Res.ok (shift dx dy p))) = .ok q) :
    Inked none q := by
  split at e
  · obtain ⟨r, hr, e⟩ := res_bind_ok e
    simp only [Res.ok.injEq] at e
    subst e
    exact inked_shift _ _ (inked_rotate hp hr)
  · simp only [Res.ok_bind, Res.ok.injEq] at e
    subst e; exact inked_shift _ _ hp

theorem inked_repeatEdge {toInt : F → Int} {render : Option (Nat × Nat) → Res (Path F)} {left right : F → Res (Path F)}
    (h : ∀ i p, render i = .ok p → Inked none p) (hl : ∀ w p, left w = .ok p → Inked none p) (hr : ∀ w p, right w = .ok p → Inked none p)
    {start stop : Point F} {padLeft padRight : F} {handle : Text} {q : Path F}
    (e : Path.repeatEdge toInt render left right start stop padLeft padRight handle = .ok q) : Inked none q := by
  unfold Path.repeatEdge at e
  obtain ⟨p, hp, e⟩ := res_bind_ok e
  obtain ⟨b, _, e⟩ := res_bind_ok e
  obtain ⟨pl, hpl, e⟩ := res_bind_ok e
  obtain ⟨pr, hpr, e⟩ := res_bind_ok e
  obtain ⟨p', hp', e⟩ := res_bind_ok e
  obtain ⟨pr', hpr', e⟩ := res_bind_ok e
  obtain ⟨j, hj, e⟩ := res_bind_ok e
  obtain ⟨a, _, e⟩ := res_bind_ok e
  refine inked_turned (inked_simpleJoin ?_ hj) e
  intro x hx
  simp only [List.mem_cons, List.not_mem_nil, or_false] at hx
  rcases hx with rfl | rfl | rfl
  · exact hl _ _ hpl
  · exact inked_move (inked_repeatRender h hp) hp'
  · exact inked_move (hr _ _ hpr) hpr'

theorem inked_basicEdge {children : F → List (Point F → Res (Path F))} (h : ∀ w, ∀ c ∈ children w, ∀ cursor p, c cursor = .ok p → Inked none p)
    {cursor start stop : Point F} {handle : Text} {q : Path F} (e : Path.basicEdge children cursor start stop handle = .ok q) : Inked none q := by
  unfold Path.basicEdge at e
  obtain ⟨ps, hps, e⟩ := res_bind_ok e
  obtain ⟨j, hj, e⟩ := res_bind_ok e
  obtain ⟨a, _, e⟩ := res_bind_ok e
  exact inked_turned (inked_simpleJoin (inked_renderChildren (h _) _ _ hps) hj) e

theorem inked_interceptRow {n : Int} {render : Point F → Point F → F → Res (Path F)} (h : ∀ a b l p, render a b l = .ok p → Inked none p) :
    ∀ (ps : List (Point F)) (st st' : F × List (Path F)), (∀ p ∈ st.2, Inked none p) → interceptRow n render ps st = .ok st' → ∀ p ∈ st'.2, Inked none p
  | [], st, st', hs, e => by
    simp only [interceptRow, Res.ok.injEq] at e
    subst e; exact hs
  | [_], st, st', hs, e => by
    simp only [interceptRow, Res.ok.injEq] at e
    subst e; exact hs
  | a :: b :: rest, st, st', hs, e => by
    unfold interceptRow at e
    simp only at e
    split at e
    · exact inked_interceptRow h rest st st' hs e
    · split at e
      · next p hp =>
        refine inked_interceptRow h rest _ st' ?_ e
        intro x hx
        simp only [List.mem_append, List.mem_singleton] at hx
        rcases hx with hx | rfl
        · exact hs x hx
        · exact h _ _ _ _ hp
      · cases e
      · cases e

theorem inked_interceptRows {n : Int} {intercepts : F → Res (List (Point F))} {render : Point F → Point F → F → Res (Path F)}
    (h : ∀ a b l p, render a b l = .ok p → Inked none p) {bottom spacing : F} (fuel : Nat) :
    ∀ (y : F) (st : F × List (Path F)) (ps : List (Path F)), (∀ p ∈ st.2, Inked none p) →
      interceptRows n intercepts render bottom spacing fuel y st = some (.ok ps) → ∀ p ∈ ps, Inked none p := by
  induction fuel with
  | zero => intro y st ps _ e; cases e
  | succ fuel ih =>
    intro y st ps hs e
    unfold interceptRows at e
    split at e
    · split at e
      · next st' hst =>
        obtain ⟨l, _, hr⟩ := res_bind_ok hst
        exact ih _ _ _ (inked_interceptRow h _ _ _ hs hr) e
      · cases e
      · cases e
    · simp only [Option.some.injEq, Res.ok.injEq] at e
      subst e; exact hs

theorem inked_xIntercept {n : Int} {initial spacing : F} {outline : Res (Path F)} {render : Point F → Point F → F → Res (Path F)} {fuel : Nat}
    (h : ∀ a b l p, render a b l = .ok p → Inked none p) {q : Path F}
    (e : delivered (Path.xIntercept n initial spacing outline render fuel) = .ok q) : Inked none q := by
  unfold delivered at e
  split at e
  · next p hp =>
    simp only [Res.ok.injEq] at e
    subst e
    unfold Path.xIntercept at hp
    split at hp
    · cases hp
    · split at hp
      · cases hp
      · cases hp
      · split at hp
        · cases hp
        · cases hp
        · split at hp
          · cases hp
          · cases hp
          · cases hp
          · cases hp
          · next hrows =>
            split at hp
            · next hj =>
              simp only [Option.some.injEq, Res.ok.injEq] at hp
              subst hp
              exact inked_simpleJoin (inked_interceptRows h fuel _ _ _ (by simp) hrows) hj
            · cases hp
            · cases hp
  · cases e
  · cases e

theorem inked_around {n : Nat} {num : Int} {radius : F} {center : Point F} {render : F → Nat → Res (Path F)}
    (h : ∀ l i p, render l i = .ok p → Inked none p) {q : Path F} (e : Path.around n num radius center render = .ok q) : Inked none q := by
  unfold Path.around at e
  split at e
  · cases e
  · split at e
    · cases e
    · simp only at e
      split at e
      · next ps hps =>
        refine inked_simpleJoin ?_ e
        intro x hx
        obtain ⟨i, _, hi⟩ := res_mapM_mem hps x hx
        obtain ⟨p, hp, hi⟩ := res_bind_ok hi
        unfold aroundCopy at hi
        obtain ⟨r, hr, hi⟩ := res_bind_ok hi
        exact inked_rotate (inked_move (h _ _ _ hp) hr) hi
      · cases e
      · cases e

/-- A gear with at least one tooth. -/
def HasTeeth (g : GearSize F) : Prop := 1 ≤ g.teeth

theorem inked_lineTo {p : Path F} (q : Point F) (hne : p ≠ []) (h : Inked none p) : Inked none (lineTo p q) := by
  unfold lineTo
  rw [inked_append, inked_cons]
  refine ⟨h, fun _ => ?_, trivial⟩
  rw [penAfter, currentPosition]
  cases hl : p.getLast? with
  | none => exact absurd (List.getLast?_eq_none_iff.mp hl) hne
  | some t => rfl

theorem corners_ne_nil (g : GearSize F) (h : HasTeeth g) : g.corners ≠ [] := by
  intro e
  unfold GearSize.corners at e
  rw [List.flatMap_eq_nil_iff] at e
  have := e 0 (by simp only [List.mem_range]; unfold HasTeeth at h; omega)
  simp [GearSize.tooth] at this

theorem inked_outline (g : GearSize F) (h : HasTeeth g) : Inked none g.outline := by
  have lines : ∀ (l : List (Point F)) (p : Path F), p ≠ [] → Inked none p → Inked none (l.foldl lineTo p) ∧ l.foldl lineTo p ≠ [] := by
    intro l
    induction l with
    | nil => intro p hne h; exact ⟨h, hne⟩
    | cons q l ih => intro p hne h; exact ih _ (by simp [lineTo]) (inked_lineTo q hne h)
  unfold GearSize.outline
  simp only
  split
  · next e => exact absurd e (corners_ne_nil g h)
  · next c cs _ =>
    have := lines cs (moveTo [] c) (by simp [moveTo]) (by simp [moveTo, Inked])
    exact inked_lineTo _ this.2 this.1

theorem inked_drawRender (he : ExactEq F) {cursor : Point F} {cs : List (Command F)} {q : Path F} (h : drawRender cursor cs = .ok q) : Inked none q := by
  obtain ⟨h1, rest, e⟩ := C88_connected cursor cs q h
  subst e
  exact inked_connected_move he h1 rfl

mutual

theorem inked_render (he : ExactEq F) (toInt : F → Int) (fuel : Nat) : ∀ (c : Comp F), Everywhere (MapKeeps toInt fuel) HasTeeth c →
    ∀ (v : Vars F) (cursor : Point F) (p : Path F), c.render toInt fuel v cursor = .ok p → Inked none p
  | .part cs ts, h, v, cursor, p, e => by
    simp only [Comp.render] at e
    simp only [Everywhere] at h
    obtain ⟨ps, hps, e⟩ := res_bind_ok e
    split at e
    · cases e
    · obtain ⟨j, hj, e⟩ := res_bind_ok e
      obtain ⟨q, hq, e⟩ := res_bind_ok e
      simp only [Res.ok.injEq] at e
      subst e
      have := inked_renderChildren (inked_renders he toInt fuel cs h.1 v) cursor ps hps
      exact inked_collapseMoves (inked_trimWhitespace (inked_finish (h.2 v cursor) (inked_simpleJoin this hj) hq))
  | .draw commands ts, h, v, cursor, p, e => by
    simp only [Comp.render] at e
    simp only [Everywhere] at h
    obtain ⟨q, hq, e⟩ := res_bind_ok e
    exact inked_finish (h v cursor) (inked_drawRender he hq) e
  | .copies c maxX maxY ts, h, v, cursor, p, e => by
    simp only [Comp.render] at e
    simp only [Everywhere] at h
    obtain ⟨q, hq, e⟩ := res_bind_ok e
    exact inked_finish (h.2 v cursor) (inked_repeatRender (fun i p hp => inked_render he toInt fuel c h.1 _ _ p hp) hq) e
  | .group cs ts, h, v, cursor, p, e => by
    simp only [Comp.render] at e
    simp only [Everywhere] at h
    obtain ⟨ps, hps, e⟩ := res_bind_ok e
    obtain ⟨j, hj, e⟩ := res_bind_ok e
    have := inked_renderChildren (inked_renders he toInt fuel cs h.1 v) cursor ps hps
    exact inked_finish (h.2 v cursor) (inked_simpleJoin this hj) e
  | .repeatEdge c left right attrs ts, h, v, cursor, p, e => by
    simp only [Comp.render] at e
    simp only [Everywhere] at h
    obtain ⟨stop, _, e⟩ := need_ok e
    obtain ⟨q, hq, e⟩ := res_bind_ok e
    exact inked_finish (h.2.2.2 v cursor) (inked_repeatEdge (fun i p hp => inked_render he toInt fuel c h.1 _ _ p hp)
      (fun w p hp => inked_render he toInt fuel left h.2.1 _ _ p hp) (fun w p hp => inked_render he toInt fuel right h.2.2.1 _ _ p hp) hq) e
  | .basicEdge cs attrs ts, h, v, cursor, p, e => by
    simp only [Comp.render] at e
    simp only [Everywhere] at h
    obtain ⟨stop, _, e⟩ := need_ok e
    obtain ⟨q, hq, e⟩ := res_bind_ok e
    exact inked_finish (h.2 v cursor) (inked_basicEdge (fun w => inked_renders he toInt fuel cs h.1 _) hq) e
  | .xIntercept c outline initial spacing ts, h, v, cursor, p, e => by
    simp only [Comp.render] at e
    simp only [Everywhere] at h
    obtain ⟨q, hq, e⟩ := res_bind_ok e
    exact inked_finish (h.2.2 v cursor) (inked_xIntercept (fun a b l p hp => inked_render he toInt fuel c h.1 _ _ p hp) hq) e
  | .around c attrs, h, v, cursor, p, e => by
    simp only [Comp.render] at e
    simp only [Everywhere] at h
    exact inked_around (fun l i p hp => inked_render he toInt fuel c h _ _ p hp) e
  | .gear size ts, h, v, cursor, p, e => by
    simp only [Comp.render] at e
    simp only [Everywhere] at h
    exact inked_finish (h.2 v cursor) (inked_outline _ (h.1 v cursor)) e

theorem inked_renders (he : ExactEq F) (toInt : F → Int) (fuel : Nat) : ∀ (cs : List (Comp F)), EverywhereIn (MapKeeps toInt fuel) HasTeeth cs →
    ∀ (v : Vars F), ∀ r ∈ Comp.renders toInt fuel cs v, ∀ (cursor : Point F) (p : Path F), r cursor = .ok p → Inked none p
  | [], _, v, r, hr, _, _, _ => by simp [Comp.renders] at hr
  | c :: cs, h, v, r, hr, cursor, p, e => by
    simp only [EverywhereIn] at h
    rw [Comp.renders] at hr
    rcases List.mem_cons.mp hr with rfl | hr
    · exact inked_render he toInt fuel c h.1 v cursor p e
    · exact inked_renders he toInt fuel cs h.2 v r hr cursor p e

end

/-! ## C93 What a tree of components renders is what its text draws -/

/-- The names of the transforms that may leave gaps. -/
def roughNames : List Text := ["join".toList, "offset".toList, "slice".toList]

theorem make_gentle {toInt : F → Int} {m : TransformMap F} (h : m.name ∉ roughNames) {t : Transform F} (e : m.make toInt = some t) : t.gentle = true := by
  have hk : ∀ k, Kind.ofText m.name = some k → k.text = m.name := by
    intro k hk
    have := List.find?_some hk
    simpa using this
  unfold TransformMap.make at e
  cases hn : Kind.ofText m.name with
  | none => rw [hn] at e; cases e
  | some k =>
    have hk := hk k hn
    rw [hn] at e
    cases k <;> simp only [Option.some.injEq, Option.map_eq_some_iff] at e
    case join => exact absurd (hk ▸ (by decide +kernel : Kind.text .join ∈ roughNames)) h
    case offset => exact absurd (hk ▸ (by decide +kernel : Kind.text .offset ∈ roughNames)) h
    case slice => exact absurd (hk ▸ (by decide +kernel : Kind.text .slice ∈ roughNames)) h
    case matrix =>
      split at e
      · simp only [Option.some.injEq] at e
        subst e; rfl
      · cases e
    all_goals first | (subst e; rfl) | (obtain ⟨x, _, rfl⟩ := e; rfl)

theorem everywhere_mono {P Q : TransformMap F → Prop} {G : GearSize F → Prop} (h : ∀ m, P m → Q m) (c : Comp F) (hc : Everywhere P G c) :
    Everywhere Q G c := by
  refine Comp.rec (motive_1 := fun c => Everywhere P G c → Everywhere Q G c) (motive_2 := fun cs => EverywhereIn P G cs → EverywhereIn Q G cs)
    ?_ ?_ ?_ ?_ ?_ ?_ ?_ ?_ ?_ ?_ ?_ c hc
  · intro cs ts ih hc
    simp only [Everywhere] at hc ⊢
    exact ⟨ih hc.1, fun v c m hm => h m (hc.2 v c m hm)⟩
  · intro cs ts hc
    simp only [Everywhere] at hc ⊢
    exact fun v c m hm => h m (hc v c m hm)
  · intro c _ _ ts ih hc
    simp only [Everywhere] at hc ⊢
    exact ⟨ih hc.1, fun v c m hm => h m (hc.2 v c m hm)⟩
  · intro cs ts ih hc
    simp only [Everywhere] at hc ⊢
    exact ⟨ih hc.1, fun v c m hm => h m (hc.2 v c m hm)⟩
  · intro c l r _ ts ih1 ih2 ih3 hc
    simp only [Everywhere] at hc ⊢
    exact ⟨ih1 hc.1, ih2 hc.2.1, ih3 hc.2.2.1, fun v c m hm => h m (hc.2.2.2 v c m hm)⟩
  · intro cs _ ts ih hc
    simp only [Everywhere] at hc ⊢
    exact ⟨ih hc.1, fun v c m hm => h m (hc.2 v c m hm)⟩
  · intro c o _ _ ts ih1 ih2 hc
    simp only [Everywhere] at hc ⊢
    exact ⟨ih1 hc.1, ih2 hc.2.1, fun v c m hm => h m (hc.2.2 v c m hm)⟩
  · intro c _ ih hc
    simp only [Everywhere] at hc ⊢
    exact ih hc
  · intro _ ts hc
    simp only [Everywhere] at hc ⊢
    exact ⟨hc.1, fun v c m hm => h m (hc.2 v c m hm)⟩
  · intro hc; trivial
  · intro c cs ih1 ih2 hc
    simp only [EverywhereIn] at hc ⊢
    exact ⟨ih1 hc.1, ih2 hc.2⟩

theorem exactEq_xnum : ExactEq (XNum ℝ) := fun _ _ h => (eqb_iff.1 h).1

theorem nanApart_xnum : NaNApart (XNum ℝ) := by
  intro a b h
  cases a <;> first | exact nan_eqb b | cases h

/-- **C93.** Take any tree of components, at any depth, with any attributes and transforms, in which no transform is a join, an offset or a slice and every
gear has a tooth. If it renders a path, SVG draws exactly the strokes of that path: every line and every curve begins where the pen is. -/
theorem C93_faithful (toInt : XNum ℝ → Int) (fuel : Nat) (c : Comp (XNum ℝ)) (h : Everywhere (fun m => m.name ∉ roughNames) HasTeeth c)
    (v : Vars (XNum ℝ)) (cursor : Point (XNum ℝ)) (p : Path (XNum ℝ)) (e : c.render toInt fuel v cursor = .ok p) : ReadAsDrawn p :=
  (inked_render exactEq_xnum toInt fuel c (everywhere_mono (fun _ hm _ ht => keeps_gentle exactEq_xnum nanApart_xnum fuel _ (make_gentle hm ht)) c h)
    v cursor p e).faithful

theorem make_slice {toInt : F → Int} {m : TransformMap F} (h : m.name ∉ ["join".toList, "offset".toList]) {t : Transform F} (e : m.make toInt = some t) :
    t.gentle = true ∨ ∃ y, t = .slice y := by
  by_cases hs : m.name = "slice".toList
  · right
    have : Kind.ofText m.name = some .slice := by rw [hs]; decide +kernel
    unfold TransformMap.make at e
    rw [this] at e
    simp only [Option.map_eq_some_iff] at e
    obtain ⟨y, _, rfl⟩ := e
    exact ⟨y, rfl⟩
  · left
    refine make_gentle ?_ e
    simp only [roughNames, List.mem_cons, List.not_mem_nil, or_false, not_or] at h ⊢
    exact ⟨h.1, h.2, hs⟩

/-- **C93.** Without rounding and overflow slices may be there too. -/
theorem C93_real (toInt : ℝ → Int) (fuel : Nat) (c : Comp ℝ) (h : Everywhere (fun m => m.name ∉ ["join".toList, "offset".toList]) HasTeeth c)
    (v : Vars ℝ) (cursor : Point ℝ) (p : Path ℝ) (e : c.render toInt fuel v cursor = .ok p) : ReadAsDrawn p := by
  have he : ExactEq ℝ := fun a b h => by simpa using h
  have hn : NaNApart ℝ := fun a b h => by simp at h
  refine (inked_render he toInt fuel c (everywhere_mono (fun m hm t ht => ?_) c h) v cursor p e).faithful
  rcases make_slice hm ht with hg | ⟨y, rfl⟩
  · exact keeps_gentle he hn fuel t hg
  · exact keeps_slice he (fun a => by simp) fuel y

/-- **C93.** The text of a rendered tree, with any number of decimals, is read as the rounded strokes. -/
theorem C93_text (toInt : ℝ → Int) (fuel : Nat) (c : Comp ℝ) (h : Everywhere (fun m => m.name ∉ ["join".toList, "offset".toList]) HasTeeth c)
    (v : Vars ℝ) (cursor : Point ℝ) (p : Path ℝ) (e : c.render toInt fuel v cursor = .ok p) (n : Nat) :
    ∃ q, parsePath (printPath n p) = some q ∧ strokes q = (strokes p).map (Stroke.map (roundPt n)) := by
  obtain ⟨q, h1, h2⟩ := C17_drawn n p
  exact ⟨q, h1, by rw [h2, C93_real toInt fuel c h v cursor p e]⟩

/-- A gear without teeth. -/
def toothless : Comp ℝ := .gear (fun _ _ => ⟨0, 1, 20, 0, 0⟩) (fun _ _ => [])

/-- A gear without teeth is a line without a move before it; what is drawn depends on where the pen is. -/
theorem C93_toothless_false : ¬ ∀ (toInt : ℝ → Int) (fuel : Nat) (c : Comp ℝ) (v : Vars ℝ) (cursor : Point ℝ) (p : Path ℝ),
    Everywhere (fun _ => False) (fun _ => True) c → c.render toInt fuel v cursor = .ok p → ReadAsDrawn p := by
  intro h
  have := h (fun _ => 0) 0 toothless [] origin _ (by simp [toothless, Everywhere]) rfl (1, 1)
  have e : (GearSize.outline (⟨0, 1, 20, 0, 0⟩ : GearSize ℝ)) = [.line origin (polarToCartesian (GearSize.root ⟨0, 1, 20, 0, 0⟩) ((-. Trig.pi) /. Arith.lit 0 0))] := rfl
  simp only [e] at this
  simp [svgStrokes, strokes, strokeOf, pt, origin] at this

/-- Not vacuous: a part with a line that is turned around and mirrored, and a copy of it that is sliced. -/
example : Everywhere (fun m => m.name ∉ ["join".toList, "offset".toList]) HasTeeth
    (.part [.draw (fun _ _ => [withTo "line" ⟨1, 2, 0⟩]) (fun _ _ => [⟨"reverse".toList, fun _ => none, fun _ => none, fun _ => none, none⟩]),
      .gear (fun _ _ => ⟨10, 1, 20, 0, 0⟩) (fun _ _ => [⟨"slice".toList, fun _ => none, fun _ => some 1, fun _ => none, none⟩])]
      (fun _ _ => [⟨"mirror".toList, fun _ => none, fun _ => none, fun _ => none, none⟩]) : Comp ℝ) ∧
    ∃ p, (Comp.draw (fun _ _ => [withTo "line" ⟨1, 2, 0⟩]) (fun _ _ => []) : Comp ℝ).render (fun _ => 0) 0 [] ⟨0, 0, 0⟩ = .ok p ∧
      strokes p = [.line (0, 0) (1, 2)] := by
  constructor
  · simp only [Everywhere, EverywhereIn, List.mem_cons, List.not_mem_nil, or_false, forall_eq, HasTeeth]
    refine ⟨⟨fun _ _ => ?_, ⟨fun _ _ => ?_, fun _ _ => ?_⟩, trivial⟩, fun _ _ => ?_⟩ <;> decide +kernel
  · refine ⟨[.move origin ⟨0, 0, 0⟩, .line ⟨0, 0, 0⟩ ⟨1, 2, 0⟩], ?_, rfl⟩
    simp only [Comp.render, drawRender, execAll, Command.exec, withTo, show DrawOp.ofText "line".toList = some .line from ofText_text .line, need,
      if_pos trivial]
    rfl

/-! ## C94 Rendering does not crash -/

theorem sturdy_mono {P Q : TransformMap F → Prop} (h : ∀ m, P m → Q m) (c : Comp F) (hc : Sturdy P c) : Sturdy Q c := by
  refine Comp.rec (motive_1 := fun c => Sturdy P c → Sturdy Q c) (motive_2 := fun cs => SturdyIn P cs → SturdyIn Q cs)
    ?_ ?_ ?_ ?_ ?_ ?_ ?_ ?_ ?_ ?_ ?_ c hc
  · intro cs ts ih hc
    simp only [Sturdy] at hc ⊢
    exact ⟨ih hc.1, fun v c m hm => h m (hc.2 v c m hm)⟩
  · intro cs ts hc
    simp only [Sturdy] at hc ⊢
    exact fun v c m hm => h m (hc v c m hm)
  · intro c _ _ ts ih hc
    simp only [Sturdy] at hc ⊢
    exact ⟨ih hc.1, fun v c m hm => h m (hc.2 v c m hm)⟩
  · intro cs ts ih hc
    simp only [Sturdy] at hc ⊢
    exact ⟨hc.1, ih hc.2.1, fun v c m hm => h m (hc.2.2 v c m hm)⟩
  · intro c l r _ ts ih1 ih2 ih3 hc
    simp only [Sturdy] at hc ⊢
    exact ⟨ih1 hc.1, ih2 hc.2.1, ih3 hc.2.2.1, fun v c m hm => h m (hc.2.2.2 v c m hm)⟩
  · intro cs _ ts ih hc
    simp only [Sturdy] at hc ⊢
    exact ⟨hc.1, ih hc.2.1, fun v c m hm => h m (hc.2.2 v c m hm)⟩
  · intro c o _ _ ts ih1 ih2 hc
    simp only [Sturdy] at hc
  · intro c _ ih hc
    simp only [Sturdy] at hc ⊢
    exact ⟨ih hc.1, hc.2⟩
  · intro _ ts hc
    simp only [Sturdy] at hc ⊢
    exact fun v c m hm => h m (hc v c m hm)
  · intro hc; trivial
  · intro c cs ih1 ih2 hc
    simp only [SturdyIn] at hc ⊢
    exact ⟨ih1 hc.1, ih2 hc.2⟩

theorem fine_iff {α : Type u} {Q : α → Prop} {r : Res α} : Fine Q r ↔ r ≠ .panic ∧ ∀ a, r = .ok a → Q a := by
  cases r <;> simp [Fine]

/-- **C94.** Take any tree of components, at any depth and with any attributes, in which no group and no edge is empty, no number of copies around a
centre is negative, and there are no intercept components, joins, offsets, slices and cleanups. Rendering it does not panic, and a path that it renders is not
empty. -/
theorem C94_no_panic (toInt : F → Int) (fuel : Nat) (c : Comp F) (h : Sturdy (fun m => m.name ∉ "cleanup".toList :: roughNames) c)
    (v : Vars F) (cursor : Point F) : c.render toInt fuel v cursor ≠ .panic ∧ ∀ p, c.render toInt fuel v cursor = .ok p → p ≠ [] := by
  refine fine_iff.mp (fine_render toInt fuel c (sturdy_mono (fun m hm t ht => safe_plain fuel t ?_) c h) v cursor)
  simp only [List.mem_cons, not_or] at hm
  have hg := make_gentle hm.2 ht
  cases t <;> try exact hg
  exfalso
  apply hm.1
  unfold TransformMap.make at ht
  cases hn : Kind.ofText m.name with
  | none => rw [hn] at ht; cases ht
  | some k =>
    have hk : k.text = m.name := by
      have := List.find?_some hn
      simpa using this
    rw [hn] at ht
    cases k <;> simp only [Option.some.injEq, Option.map_eq_some_iff, reduceCtorEq, and_false, exists_false] at ht
    · rw [← hk]; rfl
    · split at ht <;> simp at ht

/-- **C94.** If all numbers are numbers, cleanups may be there too. -/
theorem C94_no_panic_real (toInt : ℝ → Int) (fuel : Nat) (c : Comp ℝ) (h : Sturdy (fun m => m.name ∉ roughNames) c)
    (v : Vars ℝ) (cursor : Point ℝ) : c.render toInt fuel v cursor ≠ .panic ∧ ∀ p, c.render toInt fuel v cursor = .ok p → p ≠ [] :=
  fine_iff.mp (fine_render toInt fuel c (sturdy_mono (fun _ hm t ht => safe_gentle (fun a => by simp) fuel t (make_gentle hm ht)) c h) v cursor)

/-- **C93.** A copy sees its place in the grid, an intercept its two ends and its length, a copy around a centre its number and the length of the side; all
other variables are seen as they were. -/
theorem C93_variables (v : Vars F) (x y i : Nat) (a b : Point F) (l : F) (name : Text) :
    (indexVars (some (x, y)) v).lookup "index_x".toList = some (.index x) ∧ (indexVars (some (x, y)) v).lookup "index_y".toList = some (.index y) ∧
    (name ≠ "index_x".toList → name ≠ "index_y".toList → (indexVars (some (x, y)) v).lookup name = v.lookup name) ∧
    (indexVars none v).lookup name = v.lookup name ∧
    (interceptVars a b l v).lookup "xintercept__from__x".toList = some (.number a.x) ∧ (interceptVars a b l v).lookup "xintercept__from__y".toList = some (.number a.y) ∧
    (interceptVars a b l v).lookup "xintercept__to__x".toList = some (.number b.x) ∧ (interceptVars a b l v).lookup "xintercept__to__y".toList = some (.number b.y) ∧
    (interceptVars a b l v).lookup "xintercept__length".toList = some (.number l) ∧
    (name.take 11 ≠ "xintercept_".toList → (interceptVars a b l v).lookup name = v.lookup name) ∧
    (aroundVars l i v).lookup "around__index".toList = some (.index i) ∧ (aroundVars l i v).lookup "around__length".toList = some (.number l) ∧
    (name.take 7 ≠ "around_".toList → (aroundVars l i v).lookup name = v.lookup name) := by
  refine ⟨rfl, rfl, ?_, rfl, rfl, rfl, rfl, rfl, rfl, ?_, rfl, rfl, ?_⟩
  · intro h1 h2
    simp only [indexVars, List.lookup_cons, beq_eq_false_iff_ne.mpr h1, beq_eq_false_iff_ne.mpr h2]
  · intro h
    have : ∀ k : Text, k.take 11 = "xintercept_".toList → (name == k) = false := fun k hk => beq_eq_false_iff_ne.mpr fun e => h (e ▸ hk)
    simp only [interceptVars, List.lookup_cons, this "xintercept__to__y".toList rfl, this "xintercept__to__x".toList rfl, this "xintercept__from__y".toList rfl,
      this "xintercept__from__x".toList rfl, this "xintercept__length".toList rfl]
  · intro h
    have : ∀ k : Text, k.take 7 = "around_".toList → (name == k) = false := fun k hk => beq_eq_false_iff_ne.mpr fun e => h (e ▸ hk)
    simp only [aroundVars, List.lookup_cons, this "around__index".toList rfl, this "around__length".toList rfl]

/-- A group without components makes the program crash. -/
theorem C94_empty_group (toInt : F → Int) (fuel : Nat) (ts : Found F (List (TransformMap F))) (v : Vars F) (cursor : Point F) :
    (Comp.group [] ts).render toInt fuel v cursor = .panic := by
  simp [Comp.render, Comp.renders, renderChildren, simpleJoin]

/-- So does an edge without components. -/
theorem C94_empty_edge (toInt : F → Int) (fuel : Nat) (attrs : Found F (EdgeAttrs F)) (ts : Found F (List (TransformMap F))) (v : Vars F)
    (cursor stop : Point F) (h : (attrs v cursor).stop = some stop) : (Comp.basicEdge [] attrs ts).render toInt fuel v cursor = .panic := by
  simp [Comp.render, h, need, Path.basicEdge, Comp.renders, renderChildren, simpleJoin]

/-- So does a negative number of copies around a centre, whatever the component is. -/
theorem C94_negative_around (toInt : F → Int) (fuel : Nat) (c : Comp F) (attrs : Found F (AroundAttrs F)) (v : Vars F) (cursor : Point F)
    (h : (attrs v cursor).num < 0) (hr : ((attrs v cursor).radius ==. Arith.zero) = false) : (Comp.around c attrs).render toInt fuel v cursor = .panic := by
  have hz : (attrs v cursor).num.toNat = 0 := by omega
  simp only [Comp.render, Path.around, hr, hz, List.range_zero, List.mapM_nil]
  rw [if_neg (show (attrs v cursor).num ≠ 0 by omega)]
  rfl

/-- So does an intercept component whose outline cannot be rendered: the error is lost. -/
theorem C94_lost_error (toInt : F → Int) (fuel : Nat) (c outline : Comp F) (initial spacing : Found F F) (ts : Found F (List (TransformMap F)))
    (v : Vars F) (cursor : Point F) (h : outline.render toInt fuel v cursor = .err) (hs : (spacing v cursor ==. Arith.zero) = false) :
    (Comp.xIntercept c outline initial spacing ts).render toInt fuel v cursor = .panic := by
  simp [Comp.render, Path.xIntercept, h, hs, delivered]

/-- So does a slice that leaves nothing: a drawing without commands, sliced at the height of the cursor. -/
theorem C94_sliced_away : (Comp.draw (fun _ _ => []) (fun _ _ => [⟨"slice".toList, fun _ => none, fun _ => some 0, fun _ => none, none⟩]) : Comp ℝ).render
    (fun _ => 0) 1 [] ⟨0, 0, 0⟩ = .panic := by
  have hk : Kind.ofText "slice".toList = some .slice := by decide +kernel
  have hc : ∀ a b : Point ℝ, pt a = (0, 0) → pt b = (0, 0) → sliceBelow 3 (0 : ℝ) (.move a b) = true := by
    intro a b ha hb
    simp only [pt, Prod.mk.injEq] at ha hb
    simp [sliceBelow, Segment.start, Segment.stop, ha, hb, precisionCompare, precisionEquals]
  have h1 : hSlice defaultPrecision defaultPrecision 1 (0 : ℝ) [.move origin ⟨0, 0, 0⟩] = .ok (some []) := by
    have hf := hc origin ⟨0, 0, 0⟩ (by simp [pt, origin]) (by simp [pt])
    simp only [hSlice, whitespaceBox, List.getLast?_singleton]
    simp only [List.mapM_cons, List.mapM_nil, knifeCut, intersect]
    simp [defaultPrecision, hf, cleanup, newPathWithoutMove, fixHeadMove, cleanupSegments, mergeMoves, newPath, headMove]
  simp only [Comp.render, drawRender, execAll, moveTo, currentPosition, List.nil_append, Res.ok_bind, finish, handleTransforms, makeAll,
    List.mapM_cons, List.mapM_nil, TransformMap.make, hk, Option.map_some, Option.bind_eq_bind, Option.bind_some, Option.pure_def, List.map_cons,
    List.map_nil, multiTransform, Transform.run, List.getLast?_nil]
  rw [h1]
  rfl

/-- Not vacuous. -/
example : Sturdy (fun m => m.name ∉ "cleanup".toList :: roughNames) (.group [.draw (fun _ _ => [withTo "line" ⟨1, 2, 0⟩]) (fun _ _ => []),
    .around (.gear (fun _ _ => ⟨10, 1, 20, 0, 0⟩) (fun _ _ => [])) (fun _ _ => ⟨3, 5, none⟩)] (fun _ _ => []) : Comp ℝ) := by
  simp [Sturdy, SturdyIn]

end Verif.Path
