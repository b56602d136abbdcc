import Verif.Lemmas.Render
import Verif.Spec.Render
import Verif.Props.PlanSet
import Verif.Props.SvgDoc

/-!
# Properties C114-C117: the rendering of documents
-/

set_option linter.unusedSectionVars false

namespace Verif.Render

open Verif Verif.Dyn Verif.Path Verif.PlanSet Verif.Svg Verif.Files Verif.Spec

universe u

section

variable {F : Type u}

theorem eachOf_mem {P : Built → Nat → Elem F → Prop} : ∀ {cs : List (Live F)}, EachOf P cs → ∀ c ∈ cs, Each P c
  | [], _, c, h => by cases h
  | d :: cs, h, c, hc => by
    simp only [EachOf] at h
    rcases List.mem_cons.mp hc with rfl | hc
    · exact h.1
    · exact eachOf_mem h.2 c hc

theorem depths_mem : ∀ {cs : List (Live F)}, ∀ c ∈ cs, c.depth ≤ depths cs
  | [], c, h => by cases h
  | d :: cs, c, hc => by
    simp only [depths]
    rcases List.mem_cons.mp hc with rfl | hc
    · omega
    · have := depths_mem c hc
      omega

theorem keep_of_each {safe : Prop} {P : Built → Nat → Elem F → Prop} : ∀ (n : Nat) (c : Live F), Each P c → (safe → c.depth ≤ n) → Keep safe P n c
  | 0, .mk k i e cs, _, hd => fun hs => by
    have := hd hs
    simp only [Live.depth] at this
    omega
  | n + 1, .mk k i e cs, h, hd => by
    simp only [Each] at h
    refine ⟨h.1, fun c hc => keep_of_each n c (eachOf_mem h.2 c hc) fun hs => ?_⟩
    have := hd hs
    have := depths_mem c hc
    simp only [Live.depth] at *
    omega

/-- The keys that the properties look at. -/
def watchedKeys : List Text := [transformsKey, teethKey, numEdgesKey, partTransformersKey]

theorem watched_plain : ∀ k ∈ watchedKeys, '.' ∉ k := by decide +kernel

theorem local_plain : ∀ k ∈ localKeys, '.' ∉ k := by decide +kernel

theorem watched_local : ∀ k ∈ watchedKeys, ∀ k' ∈ localKeys, k ≠ k' := by decide +kernel

theorem watched_params : ∀ k ∈ watchedKeys, k ≠ Dyn.paramsKey := by decide +kernel

theorem get_setVar {e : Elem F} {k key : Text} (hk : k ∈ watchedKeys) (hkey : key ∈ localKeys) (v : Val F) :
    Dyn.get (setVar e key v).original k = Dyn.get e.original k := by
  rw [get_plain (watched_plain k hk), get_plain (watched_plain k hk)]
  simp only [setVar, putWithDot_eq, dots_plain (local_plain key hkey), putParts, lookup_put]
  rw [if_neg (watched_local k hk key hkey)]

theorem get_putParam {e : Elem F} {k : Text} (hk : k ∈ watchedKeys) (key : Text) (v : Val F) :
    Dyn.get (putParam e key v).original k = Dyn.get e.original k := by
  rw [get_plain (watched_plain k hk), get_plain (watched_plain k hk)]
  simp only [putParam]
  split
  · simp only [putKey, lookup_put]
    rw [if_neg (watched_params k hk)]
  · rfl

theorem slice_get {m m' : DMap F} {k : Text} (h : Dyn.get m k = Dyn.get m' k) : slice m k = slice m' k := by simp only [slice, getDynMapSlice, h]

theorem names_get (w : World F) {e e' : Elem F} (h : Dyn.get e.original transformsKey = Dyn.get e'.original transformsKey) :
    transformNames w e = transformNames w e' := by simp only [transformNames, slice_get h]

theorem stable_of_watched {P : Built → Nat → Elem F → Prop} (h : ∀ {k l e e'}, (∀ x ∈ watchedKeys, Dyn.get e'.original x = Dyn.get e.original x) → P k l e → P k l e') :
    Stable P :=
  ⟨fun hk v hp => h (fun _ hx => get_setVar hx hk v) hp, fun _ v hp => h (fun _ hx => get_putParam hx _ v) hp⟩

theorem stable_tame (w : World F) (toInt : F → Int) (banned : List Text) : Stable (Tame w toInt banned) := by
  refine stable_of_watched fun {k l e e'} h hp => ?_
  refine ⟨?_, fun hk => ?_⟩
  · rw [names_get w (h transformsKey (by simp [watchedKeys]))]
    exact hp.1
  · obtain ⟨x, hx, hl⟩ := hp.2 hk
    exact ⟨x, by rw [h teethKey (by simp [watchedKeys]), hx], hl⟩

theorem stable_solid (w : World F) (toInt : F → Int) (banned : List Text) : Stable (Solid w toInt banned) := by
  refine stable_of_watched fun {k l e e'} h hp => ?_
  refine ⟨hp.1, hp.2.1, hp.2.2.1, fun hk => ?_, ?_⟩
  · obtain ⟨x, hx, hl⟩ := hp.2.2.2.1 hk
    exact ⟨x, by rw [h numEdgesKey (by simp [watchedKeys]), hx], hl⟩
  · rw [names_get w (h transformsKey (by simp [watchedKeys]))]
    exact hp.2.2.2.2

end

section

variable {F : Type u} [Trig F] {O : Type}

theorem int_of_atLeast (m : Machine F O) (s : Spot F) (g : DMap F) (e : Elem F) (cursor : Option (Point F)) (key : Text) (d : Int) {lo : Int}
    (h : AtLeast m.toInt lo e key) : lo ≤ m.int (m.attrs s g e cursor e.original) key d := by
  obtain ⟨x, hx, hl⟩ := h
  have : (m.attrs s g e cursor e.original : Source F O).find key = some (.num x) := by
    unfold Source.find Machine.attrs
    rw [attrLookup, if_neg (by simp)]
    simp only [hx]
  simp only [Machine.int, Source.number, this, Source.convert, toFloat64, found, Option.map_some, Option.getD_some]
  exact hl

/-- The rules for inked paths. -/
theorem care_inked (he : ExactEq F) : Care False (Inked (F := F) none) where
  nonempty := fun _ h => h.elim
  join := fun h _ => holds_of_ok fun _ e => inked_simpleJoin h e
  move := fun _ _ h => holds_of_ok fun _ e => inked_move h e
  rotate := fun _ _ h => holds_of_ok fun _ e => inked_rotate h e
  shift := fun _ _ h => inked_shift _ _ h
  collapse := fun h => inked_collapseMoves h
  draw := fun _ _ => holds_of_ok fun _ e => inked_drawRender he e

/-- The rules for paths that are not empty. -/
theorem care_nonempty : Care True (fun p : Path F => p ≠ []) where
  nonempty := fun h _ => h
  join := fun h hne => holds_of_fine (fine_simpleJoin (hne trivial) h)
  move := fun _ _ h => holds_of_fine (fine_move _ _ h)
  rotate := fun _ _ h => holds_of_fine (fine_rotate _ _ h)
  shift := fun _ _ h => shift_ne_nil _ _ h
  collapse := fun h => collapseMoves_ne_nil h
  draw := fun _ _ => holds_of_fine (fine_drawRender _ _)

theorem finish_tame {m : Machine F O} {banned : List Text} (hk : ∀ tm : TransformMap F, tm.name ∉ banned → MapKeeps m.toInt m.fuel tm) {e : Elem F}
    (h : ∀ t ∈ transformNames m.world e, t ∉ banned) (s : Spot F) (g : DMap F) (cursor : Option (Point F)) {p : Path F} (hp : Inked none p) :
    Holds False (Inked none) (m.finishAt s g e cursor p) := by
  refine holds_of_ok fun q e => inked_finish ?_ hp e
  intro tm htm
  obtain ⟨mp, hmp, rfl⟩ := List.mem_map.mp htm
  exact hk _ (h _ (List.mem_map.mpr ⟨mp, hmp, rfl⟩))

theorem finish_solid {m : Machine F O} {banned : List Text} (hk : ∀ tm : TransformMap F, tm.name ∉ banned → MapSafe m.toInt m.fuel tm) {e : Elem F}
    (h : ∀ t ∈ transformNames m.world e, t ∉ banned) (s : Spot F) (g : DMap F) (cursor : Option (Point F)) {p : Path F} (hp : p ≠ []) :
    Holds True (· ≠ []) (m.finishAt s g e cursor p) := by
  refine holds_of_fine (fine_finish ?_ hp)
  intro tm htm
  obtain ⟨mp, hmp, rfl⟩ := List.mem_map.mp htm
  exact hk _ (h _ (List.mem_map.mpr ⟨mp, hmp, rfl⟩))

theorem manner_tame {m : Machine F O} {banned : List Text} (hk : ∀ tm : TransformMap F, tm.name ∉ banned → MapKeeps m.toInt m.fuel tm) :
    Manner m False (Inked none) (Tame m.world m.toInt banned) where
  stable := stable_tame _ _ _
  finish := fun h s g cursor _ hp => finish_tame hk h.1 s g cursor hp
  gear := fun {l e} h s g cursor => inked_outline _ (by
    unfold HasTeeth Machine.gearSize
    exact int_of_atLeast m s g e cursor teethKey 10 (h.2 rfl))
  around := fun _ h => h.elim
  group := fun _ h => h.elim
  basicEdge := fun _ h => h.elim
  part := fun _ => id
  xIntercept := fun _ => id

theorem manner_solid {m : Machine F O} {banned : List Text} (hk : ∀ tm : TransformMap F, tm.name ∉ banned → MapSafe m.toInt m.fuel tm) :
    Manner m True (· ≠ []) (Solid m.world m.toInt banned) where
  stable := stable_solid _ _ _
  finish := fun h s g cursor _ hp => finish_solid hk h.2.2.2.2 s g cursor hp
  gear := fun _ s g cursor => outline_ne_nil _
  around := fun {l e} h _ s g cursor => int_of_atLeast m s g e cursor numEdgesKey 0 (h.2.2.2.1 rfl)
  group := fun h _ => h.2.2.1 (Or.inl rfl)
  basicEdge := fun h _ => h.2.2.1 (Or.inr rfl)
  part := fun h _ => h.1 rfl
  xIntercept := fun h _ => h.2.1 rfl

theorem makeTransformers_mem {m : Machine F O} : ∀ {mps : List (DMap F)} {ts : List (Machine.Transformer F)}, m.makeTransformers mps = some ts →
    ∀ t ∈ ts, ∃ mp ∈ mps, (t = .splitter mp ∧ (m.world.text mp typeKey).getD unknownName = splitterName) ∨ t = .lathe mp
  | [], ts, h, t, ht => by
    simp only [Machine.makeTransformers, Option.some.injEq] at h
    subst h; cases ht
  | mp :: mps, ts, h, t, ht => by
    unfold Machine.makeTransformers at h
    dsimp only at h
    split at h
    · next hs =>
      simp only [Option.map_eq_some_iff] at h
      obtain ⟨ts', h', rfl⟩ := h
      rcases List.mem_cons.mp ht with rfl | ht
      · exact ⟨mp, by simp, Or.inl ⟨rfl, hs⟩⟩
      · obtain ⟨mp', hm, e⟩ := makeTransformers_mem h' t ht
        exact ⟨mp', by simp [hm], e⟩
    · split at h
      · simp only [Option.map_eq_some_iff] at h
        obtain ⟨ts', h', rfl⟩ := h
        rcases List.mem_cons.mp ht with rfl | ht
        · exact ⟨mp, by simp, Or.inr rfl⟩
        · obtain ⟨mp', hm, e⟩ := makeTransformers_mem h' t ht
          exact ⟨mp', by simp [hm], e⟩
      · cases h

theorem tamePart_setVar {w : World F} {toInt : F → Int} {fuel : Nat} {banned kinds : List Text} {customs : List (Text × DMap F)} {e : Elem F} {key : Text}
    (hkey : key ∈ localKeys) (v : Val F) (h : TamePart w toInt fuel banned kinds customs e) : TamePart w toInt fuel banned kinds customs (setVar e key v) := by
  unfold TamePart Equipped at *
  rw [names_get w (get_setVar (e := e) (by simp [watchedKeys]) hkey v), slice_get (get_setVar (e := e) (k := partTransformersKey) (by simp [watchedKeys]) hkey v)]
  exact h

theorem rooted_of {safe : Prop} {C : Elem F → Prop} {P : Built → Nat → Elem F → Prop} {n : Nat} {c : Live F} (h : PartOf C P c)
    (hd : safe → c.depth ≤ n + 1) : Rooted safe C P n c := by
  cases c with
  | mk k i e cs =>
    refine ⟨h.1, h.2.1, fun d hd' => keep_of_each n d (eachOf_mem h.2.2 d hd') fun hs => ?_⟩
    have h1 := hd hs
    have h2 := depths_mem d hd'
    simp only [Live.depth] at h1
    omega

theorem inked_renderPart (he : ExactEq F) {m : Machine F O} {banned kinds : List Text} (hk : ∀ tm : TransformMap F, tm.name ∉ banned → MapKeeps m.toInt m.fuel tm)
    (hcut : splitterName ∈ kinds → Cutting m False (Inked none)) {customs : List (Text × DMap F)} {c : Live F}
    (hc : PartOf (TamePart m.world m.toInt m.fuel banned kinds customs) (Tame m.world m.toInt banned) c) (doc : Elem F) (g : DMap F)
    {parts : List (Rendered F)} {g' : DMap F} (e : m.renderPart doc customs c g = .ok (parts, g')) : ∀ r ∈ parts, Inked none r.path := by
  refine (holds_renderPart (C := TamePart m.world m.toInt m.fuel banned kinds customs) (care_inked he) (manner_tame hk)
    ⟨fun hkey v h => tamePart_setVar hkey v h, fun h s g cursor _ hp => finish_tame hk h.1 s g cursor hp⟩ doc customs c g (rooted_of hc nofun) ?_).ok e
  intro e h ts hts t ht
  refine ⟨id, ?_⟩
  obtain ⟨mp, hmp, ⟨rfl, hn⟩ | rfl⟩ := makeTransformers_mem hts t ht
  · refine ⟨hcut ?_, fun n hn => keep_of_each _ _ (h.2.2 mp hmp plugKey (by simp) n hn) nofun,
      fun n hn => keep_of_each _ _ (h.2.2 mp hmp socketKey (by simp) n hn) nofun⟩
    rw [← hn]
    exact h.2.1 mp hmp
  · exact fun n hn => keep_of_each _ _ (h.2.2 mp hmp repeatKey (by simp) n hn) nofun

theorem addPart_length {P : Type u} {s : Sheet F} {docs docs' : List (SvgDoc F P)} {p : RenderedPart F P} {res : AddResult} (h : addPart s docs p = some (docs', res)) :
    docs.length ≤ docs'.length := by
  have key : ∀ (ds ds' : List (SvgDoc F P)) (res : AddResult), addToDocs p ds = some (ds', res) → ds'.length = ds.length := by
    intro ds ds' res h
    rcases addToDocs_parts h with ⟨_, h⟩ | ⟨_, pre, post, x, h1, h2⟩
    · have := congrArg List.length h
      simpa using this
    · have h3 := congrArg List.length h1
      have h4 := congrArg List.length h2
      simp only [List.length_map, List.length_append, List.length_cons] at h3 h4
      omega
  unfold addPart at h
  cases ha : addToDocs p docs with
  | none => simp [ha] at h
  | some out =>
    obtain ⟨ds, r⟩ := out
    have hl := key _ _ _ ha
    rw [ha] at h
    cases r with
    | error => simp at h; rw [← h.1]; omega
    | added => simp at h; rw [← h.1]; omega
    | notAdded =>
      simp only at h
      split at h
      · cases h
      · simp at h; rw [← h.1]; omega
      · simp at h; rw [← h.1]; simp; omega
      · simp at h; rw [← h.1]; omega

theorem addRendered_length {P : Type u} {s : Sheet F} : ∀ {ps : List (RenderedPart F P)} {docs docs' : List (SvgDoc F P)} {res : InitResult},
    addRendered s docs ps = some (docs', res) → docs.length ≤ docs'.length
  | [], docs, docs', res, h => by
    simp only [addRendered, Option.some.injEq, Prod.mk.injEq] at h
    rw [h.1]
  | p :: ps, docs, docs', res, h => by
    rw [addRendered] at h
    cases ha : addPart s docs p with
    | none => rw [ha] at h; cases h
    | some out =>
      obtain ⟨ds, r⟩ := out
      have hl := addPart_length ha
      rw [ha] at h
      cases r with
      | error => simp at h; rw [← h.1]; exact hl
      | added => exact hl.trans (addRendered_length h)
      | notAdded => simp at h; rw [← h.1]; exact hl

/-- What the loop over the parts of a document leaves. -/
theorem plan_spec {m : Machine F O} {doc : Elem F} {customs : List (Text × DMap F)} : ∀ {cs : List (Live F)} {g : DMap F}
    {docs docs' : List (SvgDoc F (Drawing F))} {pages pages' : List (Page F)} {handled : List (RenderedPart F (Drawing F))},
    m.plan doc customs cs g docs pages = .ok (docs', pages') → PlanSet.Holds docs handled → pages.length = docs.length →
    ∃ all, RenderedTo m doc customs cs g all ∧ PlanSet.Holds docs' (handled ++ laidOut cs all) ∧ pages'.length = docs'.length ∧
      (∀ p ∈ laidOut cs all, badSize p = false)
  | [], g, docs, docs', pages, pages', handled, h, hh, hl => by
    simp only [Machine.plan, Res.ok.injEq, Prod.mk.injEq] at h
    obtain ⟨rfl, rfl⟩ := h
    exact ⟨[], rfl, by simpa [laidOut] using hh, hl, by simp [laidOut]⟩
  | c :: cs, g, docs, docs', pages, pages', handled, h, hh, hl => by
    rw [Machine.plan] at h
    obtain ⟨⟨parts, g'⟩, h1, h2⟩ := res_bind_ok h
    simp only at h2
    cases ha : addRendered (m.sheetOf doc g') docs (parts.map (Machine.toLayout c.id)) with
    | none => rw [ha] at h2; cases h2
    | some out =>
      obtain ⟨ds, r⟩ := out
      rw [ha] at h2
      cases r with
      | ok =>
        simp only at h2
        have hlen := addRendered_length ha
        obtain ⟨all, a1, a2, a3, a4⟩ := plan_spec h2 (addRendered_holds hh ha) (by
          simp only [List.length_append, List.length_replicate]; omega)
        refine ⟨parts :: all, ⟨parts, g', all, h1, a1, rfl⟩, by simpa [laidOut] using a2, a3, ?_⟩
        intro p hp
        simp only [laidOut, List.mem_append] at hp
        rcases hp with hp | hp
        · exact addRendered_good ha p hp
        · exact a4 p hp
      | renderError => cases h2
      | addError => cases h2
      | tooBig => cases h2

theorem renderedTo_mem {m : Machine F O} {doc : Elem F} {customs : List (Text × DMap F)} {Q : Rendered F → Prop} : ∀ {cs : List (Live F)} {g : DMap F}
    {all : List (List (Rendered F))}, RenderedTo m doc customs cs g all →
    (∀ c ∈ cs, ∀ g parts g', m.renderPart doc customs c g = .ok (parts, g') → ∀ r ∈ parts, Q r) → ∀ l ∈ all, ∀ r ∈ l, Q r
  | [], g, all, h, _ => by
    simp only [RenderedTo] at h
    subst h; simp
  | c :: cs, g, all, h, hQ => by
    obtain ⟨parts, g', rest, h1, h2, rfl⟩ := h
    intro l hl r hr
    rcases List.mem_cons.mp hl with rfl | hl
    · exact hQ c (by simp) _ _ _ h1 r hr
    · exact renderedTo_mem h2 (fun c hc => hQ c (by simp [hc])) l hl r hr

theorem laidOut_mem : ∀ {cs : List (Live F)} {all : List (List (Rendered F))} {p : RenderedPart F (Drawing F)}, p ∈ laidOut cs all →
    ∃ c ∈ cs, ∃ l ∈ all, ∃ r ∈ l, p = Machine.toLayout c.id r
  | [], all, p, h => by simp [laidOut] at h
  | c :: cs, [], p, h => by simp [laidOut] at h
  | c :: cs, l :: all, p, h => by
    simp only [laidOut, List.mem_append, List.mem_map] at h
    rcases h with ⟨r, hr, rfl⟩ | h
    · exact ⟨c, by simp, l, by simp, r, hr, rfl⟩
    · obtain ⟨c', hc, l', hl, r, hr, e⟩ := laidOut_mem h
      exact ⟨c', by simp [hc], l', by simp [hl], r, hr, e⟩

/-- **C117.** Whatever the arithmetic: if a document is laid out, then each of its parts has been rendered, one after the other; the sheets together have
exactly what the parts were rendered to, each as often as it was rendered and with the id of its part; each sheet has them in their
order; each has a size that is a positive number; and there is a page for every sheet. -/
theorem C117_sheets (m : Machine F O) (d : Doc F) {docs : List (SvgDoc F (Drawing F))} {pages : List (Page F)} (h : m.planSet d = .ok (docs, pages)) :
    ∃ all, RenderedTo m (Machine.docElem d) d.customs (d.parts.map (livePart m.world)) d.context all ∧ pages.length = docs.length ∧
      (docs.map (·.parts)).flatten.Perm (laidOut (d.parts.map (livePart m.world)) all) ∧
      (∀ s ∈ docs, s.parts.Sublist (laidOut (d.parts.map (livePart m.world)) all)) ∧
      ∀ s ∈ docs, ∀ p ∈ s.parts, (p.height <=. Arith.zero) = false ∧ (p.width <=. Arith.zero) = false ∧ Arith.isNaN p.width = false ∧
        Arith.isNaN p.height = false := by
  obtain ⟨all, h1, ⟨h2, h2'⟩, h3, h4⟩ := plan_spec (handled := []) h ⟨by simp [SvgDoc.parts, newSvgDoc], by simp [SvgDoc.parts, newSvgDoc]⟩ rfl
  simp only [List.nil_append] at h2 h2'
  have hs : ∀ s ∈ docs, s.parts.Sublist (laidOut (d.parts.map (livePart m.world)) all) := fun s hs => h2' _ (List.mem_map.2 ⟨s, hs, rfl⟩)
  refine ⟨all, h1, h3, h2, hs, fun s hs' p hp => ?_⟩
  have := h4 p ((hs s hs').subset hp)
  simpa [badSize, and_assoc] using this

/-! ## C114 What is on the sheets is read as it was drawn -/

theorem mapKeeps_xnum (toInt : XNum ℝ → Int) (fuel : Nat) (tm : TransformMap (XNum ℝ)) (h : tm.name ∉ roughNames) : MapKeeps toInt fuel tm :=
  fun _ ht => keeps_gentle exactEq_xnum nanApart_xnum fuel _ (make_gentle h ht)

theorem exactEq_real : ExactEq ℝ := fun a b h => by simpa using h

theorem mapKeeps_real (toInt : ℝ → Int) (fuel : Nat) (tm : TransformMap ℝ) (h : tm.name ∉ ["join".toList, "offset".toList]) : MapKeeps toInt fuel tm := by
  have hn : NaNApart ℝ := fun a b h => by simp at h
  intro t ht
  rcases make_slice h ht with hg | ⟨y, rfl⟩
  · exact keeps_gentle exactEq_real hn fuel t hg
  · exact keeps_slice exactEq_real (fun a => by simp) fuel y

theorem cutting_real (m : Machine ℝ O) : Cutting m False (Inked none) where
  slice := fun {p} y hp => holds_of_ok fun q e => by
    refine keeps_slice exactEq_real (fun a => by simp) m.fuel y p q hp ?_
    simp only [Machine.sliceAt] at e
    simp only [Transform.run]
    cases hh : hSlice defaultPrecision defaultPrecision m.fuel y p with
    | ok o =>
      rw [hh] at e
      cases o with
      | none => cases e
      | some r => exact e
    | err => rw [hh] at e; cases e
    | panic => rw [hh] at e; cases e
  mirror := fun a h hp => holds_of_ok fun q e => inked_mirror hp e

end

section

variable {O : Type}

/-- **C114.** Take any part of a document, with any maps and any components below it, in which no transform is a join, an offset or a slice, every gear has a
number of teeth of at least one, and whose part transformers are lathes with such components. Whatever the global variables are, everything
it is rendered to is read by SVG as it was drawn. -/
theorem C114_part (m : Machine (XNum ℝ) O) (doc : Elem (XNum ℝ)) (customs : List (Text × DMap (XNum ℝ))) (c : Live (XNum ℝ))
    (hc : PartOf (TamePart m.world m.toInt m.fuel roughNames [latheName] customs) (Tame m.world m.toInt roughNames) c) (g : DMap (XNum ℝ))
    {parts : List (Rendered (XNum ℝ))} {g' : DMap (XNum ℝ)} (e : m.renderPart doc customs c g = .ok (parts, g')) : ∀ r ∈ parts, ReadAsDrawn r.path :=
  fun r hr => (inked_renderPart exactEq_xnum (mapKeeps_xnum m.toInt m.fuel) (fun h => absurd h (by decide)) hc doc g e r hr).faithful

/-- **C114.** Without rounding and overflow there may be slices too, and part transformers that split. -/
theorem C114_part_real (m : Machine ℝ O) (doc : Elem ℝ) (customs : List (Text × DMap ℝ)) (c : Live ℝ)
    (hc : PartOf (TamePart m.world m.toInt m.fuel ["join".toList, "offset".toList] [splitterName, latheName] customs)
      (Tame m.world m.toInt ["join".toList, "offset".toList]) c) (g : DMap ℝ)
    {parts : List (Rendered ℝ)} {g' : DMap ℝ} (e : m.renderPart doc customs c g = .ok (parts, g')) : ∀ r ∈ parts, ReadAsDrawn r.path :=
  fun r hr => (inked_renderPart exactEq_real (mapKeeps_real m.toInt m.fuel) (fun _ => cutting_real m) hc doc g e r hr).faithful

/-- **C114.** Every drawing on the sheets of a document is read by SVG as it was drawn. -/
theorem C114_sheets (m : Machine (XNum ℝ) O) (d : Doc (XNum ℝ))
    (hd : ∀ n ∈ d.parts, PartOf (TamePart m.world m.toInt m.fuel roughNames [latheName] d.customs) (Tame m.world m.toInt roughNames) (livePart m.world n))
    {docs : List (SvgDoc (XNum ℝ) (Drawing (XNum ℝ)))} {pages : List (Page (XNum ℝ))} (h : m.planSet d = .ok (docs, pages)) :
    ∀ s ∈ docs, ∀ r ∈ s.renderables, ReadAsDrawn r.part.payload.path := by
  intro s hs r hr
  obtain ⟨all, h1, -, -, h4, -⟩ := C117_sheets m d h
  obtain ⟨c, _, l, hl, x, hx, e⟩ := laidOut_mem ((h4 s hs).subset (List.mem_map.mpr ⟨r, hr, rfl⟩))
  rw [e]
  refine renderedTo_mem (Q := fun r => ReadAsDrawn r.path) h1 ?_ l hl x hx
  intro c hc g parts g' e
  obtain ⟨n, hn, rfl⟩ := List.mem_map.mp hc
  exact C114_part m _ _ _ (hd n hn) g e

/-- **C114.** The same without rounding and overflow. -/
theorem C114_sheets_real (m : Machine ℝ O) (d : Doc ℝ)
    (hd : ∀ n ∈ d.parts, PartOf (TamePart m.world m.toInt m.fuel ["join".toList, "offset".toList] [splitterName, latheName] d.customs)
      (Tame m.world m.toInt ["join".toList, "offset".toList]) (livePart m.world n))
    {docs : List (SvgDoc ℝ (Drawing ℝ))} {pages : List (Page ℝ)} (h : m.planSet d = .ok (docs, pages)) :
    ∀ s ∈ docs, ∀ r ∈ s.renderables, ReadAsDrawn r.part.payload.path := by
  intro s hs r hr
  obtain ⟨all, h1, -, -, h4, -⟩ := C117_sheets m d h
  obtain ⟨c, _, l, hl, x, hx, e⟩ := laidOut_mem ((h4 s hs).subset (List.mem_map.mpr ⟨r, hr, rfl⟩))
  rw [e]
  refine renderedTo_mem (Q := fun r => ReadAsDrawn r.path) h1 ?_ l hl x hx
  intro c hc g parts g' e
  obtain ⟨n, hn, rfl⟩ := List.mem_map.mp hc
  exact C114_part_real m _ _ _ (hd n hn) g e

/-- A part with an empty drawing and a gear of ten teeth. -/
def cogPart (F : Type u) [Trig F] : Live F :=
  .mk .part [] ⟨[], [], []⟩ [.mk .draw [] ⟨[], [], []⟩ [], .mk .gear [] ⟨[], [(teethKey, .num (Arith.lit 10 0))], []⟩ []]

theorem get_nil {F : Type u} (k : Text) : Dyn.get ([] : DMap F) k = none := by
  unfold Dyn.get
  generalize dots k = ks
  cases ks with
  | nil => rfl
  | cons a ks => cases ks <;> rfl

theorem slice_nil {F : Type u} (k : Text) : slice ([] : DMap F) k = [] := by simp [slice, getDynMapSlice, get_nil]

theorem slice_teeth {F : Type u} (x : Val F) : slice [(teethKey, x)] transformsKey = [] := by
  have h1 : '.' ∉ transformsKey := by decide +kernel
  have h2 : (transformsKey == teethKey) = false := by decide +kernel
  simp [slice, getDynMapSlice, get_plain h1, List.lookup, h2]

/-- C114: the part with the gear is tame, whatever is banned. -/
example {F : Type u} [Trig F] (w : World F) (toInt : F → Int) (h : toInt (Arith.lit 10 0) = 10) (fuel : Nat) (banned kinds : List Text)
    (customs : List (Text × DMap F)) : PartOf (TamePart w toInt fuel banned kinds customs) (Tame w toInt banned) (cogPart F) := by
  have h1 : '.' ∉ teethKey := by decide +kernel
  simp [PartOf, cogPart, Live.kind, Live.elem, Live.children, EachOf, Each, Tame, TamePart, Equipped, AtLeast, transformNames, slice_nil, slice_teeth,
    get_plain h1, List.lookup, h]

end

/-! ## C115 Rendering does not panic -/

section

variable {F : Type u} [Trig F] {O : Type}

theorem depths_makeList {w : World F} {mk : DMap F → Out (Dyn.Node F)} {n : Nat} (h : ∀ mp nd, mk mp = .val nd → (live w nd).depth ≤ n) :
    ∀ {mps : List (DMap F)} {cs : List (Dyn.Node F)}, makeList mk mps = .val cs → depths (lives w cs) ≤ n
  | [], cs, e => by
    simp only [makeList, Out.val.injEq] at e
    subst e; simp [lives, depths]
  | mp :: mps, cs, e => by
    rw [makeList] at e
    cases h1 : mk mp with
    | val c =>
      rw [h1] at e
      simp only at e
      cases h2 : makeList mk mps with
      | val cs' =>
        rw [h2] at e
        simp only [Out.val.injEq] at e
        subst e
        have := h mp c h1
        have := depths_makeList h h2
        simp only [lives, depths]
        omega
      | err => rw [h2] at e; cases e
      | running => rw [h2] at e; cases e
    | err => rw [h1] at e; cases e
    | running => rw [h1] at e; cases e

theorem depth_create {w : World F} {mk : DMap F → Out (Dyn.Node F)} {n : Nat} (h : ∀ mp nd, mk mp = .val nd → (live w nd).depth ≤ n) (b : Built) {mp : DMap F}
    {nd : Dyn.Node F} (e : w.create mk b mp = .val nd) : (live w nd).depth ≤ n + 1 ∧ depths (lives w nd.children) ≤ n := by
  suffices h' : depths (lives w nd.children) ≤ n by
    refine ⟨?_, h'⟩
    cases nd with
    | mk i m cs =>
      simp only [live, Live.depth, Dyn.Node.children] at *
      omega
  unfold World.create at e
  cases b <;> simp only at e
  case draw | gear =>
    simp only [Out.val.injEq] at e
    subst e; simp [Dyn.Node.children, lives, depths]
  all_goals
    split at e
    · next cs hcs =>
      simp only [Out.val.injEq] at e
      subst e
      exact depths_makeList h hcs
    · cases e
    · cases e

theorem depth_make {w : World F} {customs : List (Text × DMap F)} : ∀ (n : Nat) (mp : DMap F) (nd : Dyn.Node F), w.make customs n mp = .val nd → (live w nd).depth ≤ n
  | 0, mp, nd, e => by cases e
  | n + 1, mp, nd, e => by
    rw [World.make] at e
    cases h1 : w.text mp typeKey with
    | none => rw [h1] at e; cases e
    | some t =>
      rw [h1] at e
      simp only at e
      cases h2 : Built.ofText t with
      | some b =>
        rw [h2] at e
        exact (depth_create (fun mp nd => depth_make n mp nd) b e).1
      | none =>
        rw [h2] at e
        simp only at e
        split at e
        · exact (depth_make n _ nd e).trans (Nat.le_succ n)
        · cases e

theorem makeList_mem {α : Type u} {mk : DMap F → Out α} : ∀ {mps : List (DMap F)} {cs : List α}, makeList mk mps = .val cs → ∀ c ∈ cs, ∃ mp ∈ mps, mk mp = .val c
  | [], cs, e => by
    simp only [makeList, Out.val.injEq] at e
    subst e; simp
  | mp :: mps, cs, e => by
    rw [makeList] at e
    cases h1 : mk mp with
    | val c =>
      rw [h1] at e
      simp only at e
      cases h2 : makeList mk mps with
      | val cs' =>
        rw [h2] at e
        simp only [Out.val.injEq] at e
        subst e
        intro x hx
        rcases List.mem_cons.mp hx with rfl | hx
        · exact ⟨mp, by simp, h1⟩
        · obtain ⟨mp', hm, e⟩ := makeList_mem h2 x hx
          exact ⟨mp', by simp [hm], e⟩
      | err => rw [h2] at e; cases e
      | running => rw [h2] at e; cases e
    | err => rw [h1] at e; cases e
    | running => rw [h1] at e; cases e

/-- A parsed document is not deeper than the bound for its components. -/
theorem depth_parse {w : World F} {m : Nat} : ∀ {files : Nat} {dm : DMap F} {d : Doc F}, w.parse m files dm = .val d → ∀ n ∈ d.parts, (livePart w n).depth ≤ m + 1
  | 0, dm, d, e => by cases e
  | files + 1, dm, d, e => by
    rw [World.parse] at e
    cases h1 : w.text dm filenameKey with
    | some f =>
      rw [h1] at e
      simp only at e
      split at e
      · cases e
      · exact depth_parse e
    | none =>
      rw [h1] at e
      simp only at e
      split at e
      · next customs params _ =>
        split at e
        · next ps hps =>
          simp only [Out.val.injEq] at e
          subst e
          intro n hn
          obtain ⟨mp, _, e⟩ := makeList_mem hps n hn
          have := (depth_create (w := w) (fun mp nd => depth_make m mp nd) .part e).2
          simp only [livePart, Live.depth]
          omega
        · cases e
        · cases e
      · cases e
      · cases e

theorem mapSafe_plain (toInt : F → Int) (fuel : Nat) (tm : TransformMap F) (h : tm.name ∉ "cleanup".toList :: roughNames) : MapSafe toInt fuel tm := by
  intro t ht
  refine safe_plain fuel t ?_
  simp only [List.mem_cons, not_or] at h
  have hg := make_gentle h.2 ht
  cases t <;> try exact hg
  exfalso
  apply h.1
  unfold TransformMap.make at ht
  cases hn : Kind.ofText tm.name with
  | none => rw [hn] at ht; cases ht
  | some k =>
    have hk : k.text = tm.name := by
      have := List.find?_some hn
      simpa using this
    rw [hn] at ht
    cases k <;> simp only [Option.some.injEq, Option.map_eq_some_iff, reduceCtorEq, and_false, exists_false] at ht
    · rw [← hk]; rfl
    · split at ht <;> simp at ht

theorem fine_renderPart {m : Machine F O} {banned : List Text} (hk : ∀ tm : TransformMap F, tm.name ∉ banned → MapSafe m.toInt m.fuel tm)
    {c : Live F} (hc : PartOf (PlainPart m.world banned) (Solid m.world m.toInt banned) c) (hd : c.depth ≤ m.fuel + 1) (doc : Elem F)
    (customs : List (Text × DMap F)) (g : DMap F) : Holds True (fun x => ∀ r ∈ x.1, r.path ≠ []) (m.renderPart doc customs c g) := by
  refine holds_renderPart (C := PlainPart m.world banned) care_nonempty (manner_solid hk) ⟨fun {e key} hkey v h => ?_, fun h s g cursor _ hp =>
    finish_solid hk h.1 s g cursor hp⟩ doc customs c g (rooted_of hc fun _ => hd) ?_
  · unfold PlainPart at *
    rw [names_get m.world (get_setVar (e := e) (by simp [watchedKeys]) hkey v), slice_get (get_setVar (e := e) (k := partTransformersKey) (by simp [watchedKeys]) hkey v)]
    exact h
  · intro e h ts hts t ht
    rw [h.2] at hts
    simp only [Machine.makeTransformers, Option.some.injEq] at hts
    subst hts; cases ht

/-- **C115.** Take any part of a document without part transformers, with any maps and any components below it down to the bound, among them no part and no
intercept, in which groups and edges have components, numbers of copies around a centre are not negative, and no transform is a join, an
offset, a slice or a cleanup. Rendering it does not panic, whatever the global variables are, and no path is empty. -/
theorem C115_part (m : Machine F O) (doc : Elem F) (customs : List (Text × DMap F)) (c : Live F)
    (hc : PartOf (PlainPart m.world ("cleanup".toList :: roughNames)) (Solid m.world m.toInt ("cleanup".toList :: roughNames)) c)
    (hd : c.depth ≤ m.fuel + 1) (g : DMap F) :
    m.renderPart doc customs c g ≠ .panic ∧ ∀ parts g', m.renderPart doc customs c g = .ok (parts, g') → ∀ r ∈ parts, r.path ≠ [] := by
  have h := fine_renderPart (mapSafe_plain m.toInt m.fuel) hc hd doc customs g
  constructor
  · intro e
    rw [e] at h
    exact h trivial
  · intro parts g' e
    exact h.ok e

end

section

variable {O : Type}

open Verif.PlanSet in
theorem addToDocs_any {P : Type u} (p : RenderedPart ℝ P) (hp : 0 < p.width ∧ 0 < p.height) : ∀ (docs : List (SvgDoc ℝ P)),
    (∀ d ∈ docs, ∃ s, 0 ≤ s.padding ∧ SheetOk s d) →
    ∃ docs' res, addToDocs p docs = some (docs', res) ∧ (∀ d ∈ docs', ∃ s, 0 ≤ s.padding ∧ SheetOk s d) ∧ res ≠ .error := by
  intro docs
  induction docs with
  | nil => intro _; exact ⟨[], _, rfl, by simp, by simp⟩
  | cons d ds ih =>
    intro h
    obtain ⟨s, hs, hd⟩ := h d (by simp)
    obtain ⟨d', res, h1, h2, h3, -⟩ := add_ok hs hd p hp
    obtain ⟨ds', res', i1, i2, i3⟩ := ih fun d hd => h d (by simp [hd])
    rw [addToDocs, h1]
    cases res with
    | error => simp at h3
    | added =>
      refine ⟨_, _, rfl, ?_, by simp⟩
      intro x hx
      rcases List.mem_cons.mp hx with rfl | hx
      · exact ⟨s, hs, h2⟩
      · exact h x (by simp [hx])
    | notAdded =>
      simp only [i1]
      refine ⟨_, _, rfl, ?_, i3⟩
      intro x hx
      rcases List.mem_cons.mp hx with rfl | hx
      · exact ⟨s, hs, h2⟩
      · exact i2 x hx

open Verif.PlanSet in
theorem addPart_any {P : Type u} {s : Sheet ℝ} (hs : 0 ≤ s.padding) (p : RenderedPart ℝ P) (docs : List (SvgDoc ℝ P))
    (h : ∀ d ∈ docs, ∃ s, 0 ≤ s.padding ∧ SheetOk s d) :
    ∃ docs' res, addPart s docs p = some (docs', res) ∧ ∀ d ∈ docs', ∃ s, 0 ≤ s.padding ∧ SheetOk s d := by
  by_cases hb : badSize p = true
  · exact ⟨docs, .error, addPart_bad hb docs, h⟩
  · obtain ⟨docs', res, h1, h2, h3⟩ := addToDocs_any p (badSize_iff.1 (by simpa using hb)) docs h
    unfold addPart
    rw [h1]
    cases res with
    | error => simp at h3
    | added => exact ⟨_, _, rfl, h2⟩
    | notAdded =>
      obtain ⟨d', res, h1, h2', h3, -⟩ := add_ok hs (newSvgDoc_ok s) p (badSize_iff.1 (by simpa using hb))
      simp only [h1]
      cases res with
      | error => exact ⟨_, _, rfl, h2⟩
      | notAdded => exact ⟨_, _, rfl, h2⟩
      | added =>
        refine ⟨_, _, rfl, ?_⟩
        intro x hx
        rcases List.mem_append.mp hx with hx | hx
        · exact h2 x hx
        · rw [List.mem_singleton.mp hx]
          exact ⟨s, hs, h2'⟩

open Verif.PlanSet in
theorem addRendered_any {P : Type u} {s : Sheet ℝ} (hs : 0 ≤ s.padding) : ∀ (ps : List (RenderedPart ℝ P)) (docs : List (SvgDoc ℝ P)),
    (∀ d ∈ docs, ∃ s, 0 ≤ s.padding ∧ SheetOk s d) →
    ∃ docs' res, addRendered s docs ps = some (docs', res) ∧ ∀ d ∈ docs', ∃ s, 0 ≤ s.padding ∧ SheetOk s d
  | [], docs, h => ⟨docs, _, rfl, h⟩
  | p :: ps, docs, h => by
    obtain ⟨docs', res, h1, h2⟩ := addPart_any hs p docs h
    rw [addRendered, h1]
    cases res with
    | error => exact ⟨_, _, rfl, h2⟩
    | notAdded => exact ⟨_, _, rfl, h2⟩
    | added => exact addRendered_any hs ps docs' h2

theorem plan_fine {m : Machine ℝ O} {doc : Elem ℝ} {customs : List (Text × DMap ℝ)} (hpad : ∀ g, 0 ≤ (m.sheetOf doc g).padding) : ∀ (cs : List (Live ℝ)) (g : DMap ℝ)
    (docs : List (SvgDoc ℝ (Drawing ℝ))) (pages : List (Page ℝ)), (∀ c ∈ cs, ∀ g, m.renderPart doc customs c g ≠ .panic) →
    (∀ d ∈ docs, ∃ s, 0 ≤ s.padding ∧ SheetOk s d) → m.plan doc customs cs g docs pages ≠ .panic
  | [], g, docs, pages, _, _ => by simp [Machine.plan]
  | c :: cs, g, docs, pages, hc, hd => by
    rw [Machine.plan]
    cases hr : m.renderPart doc customs c g with
    | panic => exact absurd hr (hc c (by simp) g)
    | err => simp [Res.err_bind]
    | ok x =>
      obtain ⟨parts, g'⟩ := x
      rw [Res.ok_bind]
      obtain ⟨docs', res, h1, h2⟩ := addRendered_any (hpad g') (parts.map (Machine.toLayout c.id)) docs hd
      simp only [h1]
      cases res with
      | ok => exact plan_fine hpad cs g' docs' _ (fun c hc' => hc c (by simp [hc'])) h2
      | renderError => simp
      | addError => simp
      | tooBig => simp

/-- **C115.** A document that has been parsed is laid out without a panic if its parts are as above (cleanups may be there if all numbers are numbers) and
the padding of its sheets is never negative. There is no bound on the number of parts, components, copies and variables. -/
theorem C115_document (m : Machine ℝ O) (files : Nat) (dm : DMap ℝ) (d : Doc ℝ) (hp : m.world.parse m.fuel files dm = .val d)
    (hd : ∀ n ∈ d.parts, PartOf (PlainPart m.world roughNames) (Solid m.world m.toInt roughNames) (livePart m.world n))
    (hpad : ∀ g, 0 ≤ (m.sheetOf (Machine.docElem d) g).padding) : m.planSet d ≠ .panic := by
  unfold Machine.planSet
  refine plan_fine hpad _ _ _ _ ?_ ?_
  · intro c hc g
    obtain ⟨n, hn, rfl⟩ := List.mem_map.mp hc
    have h := fine_renderPart (m := m) (fun tm h t ht => safe_gentle (fun a => by simp) m.fuel t (make_gentle h ht)) (hd n hn) (depth_parse hp n hn)
      (Machine.docElem d) d.customs g
    intro e
    rw [e] at h
    exact h trivial
  · intro x hx
    rw [List.mem_singleton.mp hx]
    exact ⟨_, hpad d.context, newSvgDoc_ok (m.sheetOf (Machine.docElem d) d.context)⟩

/-- C115: the part with the gear is solid, whatever is banned. -/
example {F : Type u} [Trig F] (w : World F) (toInt : F → Int) (banned : List Text) :
    PartOf (PlainPart w banned) (Solid w toInt banned) (cogPart F) ∧ (cogPart F).depth = 2 := by
  simp [PartOf, cogPart, Live.kind, Live.elem, Live.children, EachOf, Each, Solid, PlainPart, transformNames, slice_nil, slice_teeth, Live.depth, depths]

end

/-! ## C115 A part inside a group -/

section

variable {F : Type u} [Trig F] {O : Type}

theorem string_isSome (a : Source F O) {param t : Text} (h : Dyn.get a.mp param = some (.str t)) (ht : t ≠ param) : ∃ s, a.string param = some s := by
  have hf : ∃ v, a.find param = some v := by
    unfold Source.find
    rw [attrLookup, if_neg (by simp), h]
    simp only [if_pos ht]
    cases attrLookup a.chain a.mp t (0 + 1) with
    | none => exact ⟨_, rfl⟩
    | some v => exact ⟨v, rfl⟩
  obtain ⟨v, hv⟩ := hf
  simp only [Source.string, hv]
  split
  · split <;> exact ⟨_, rfl⟩
  · exact ⟨_, rfl⟩

/-- **C115.** Rendering does panic in general, and not only because of the recursion: take any part of a document whose first component is a group, with a part
as its first component, with a gear as its first component. If the gear has a name for its variables, then rendering the part panics, whatever else it has. -/
theorem C115_nested_false (m : Machine F O) (n : Nat) (doc : Elem F) (i₁ i₂ i₃ i₄ : Text) (e₁ e₂ e₃ e₄ : Elem F) (cs₁ cs₂ cs₃ cs₄ : List (Live F)) (name : Text)
    (h : Dyn.get e₄.original gearVariableKey = some (.str name)) (hn : name ≠ gearVariableKey) (g : DMap F) (cursor : Point F) :
    m.render (n + 4) ⟨doc, [], false⟩ (.mk .part i₁ e₁ (.mk .group i₂ e₂ (.mk .part i₃ e₃ (.mk .gear i₄ e₄ cs₄ :: cs₃) :: cs₂) :: cs₁)) g cursor = .panic := by
  have hs : ∀ s : Spot F, s.nested = true → ∀ g cursor, m.render (n + 1) s (.mk .gear i₄ e₄ cs₄) g cursor = .panic := by
    intro s hs g cursor
    simp only [Machine.render, Live.kind, Machine.renderGear, Live.elem]
    obtain ⟨t, ht⟩ := string_isSome (m.attrs s g e₄ (some cursor) e₄.original) h hn
    simp only [Machine.setGear, ht, setGlobal, hs, if_true, Res.panic_bind]
  rw [Machine.render]
  simp only [Live.kind, Machine.renderPartNode, Live.children, Live.elem, renderAllOf]
  rw [Machine.render]
  simp only [Live.kind, Machine.renderGroup, Live.children, Live.elem, renderAllOf]
  rw [Machine.render]
  simp only [Live.kind, Machine.renderPartNode, Live.children, Live.elem, renderAllOf]
  rw [hs _ (by rfl)]
  simp only [Res.panic_bind]

/-- C115: a gear with a name for its variables. -/
example : Dyn.get ([(gearVariableKey, .str "gear".toList)] : DMap ℝ) gearVariableKey = some (.str "gear".toList) ∧ "gear".toList ≠ gearVariableKey := by
  have h1 : '.' ∉ gearVariableKey := by decide +kernel
  refine ⟨?_, by decide +kernel⟩
  simp [get_plain h1, List.lookup]

end

/-! ## C117 The texts of the sheets -/

section

variable {O : Type}

theorem plan_pages {F : Type u} [Trig F] {m : Machine F O} {doc : Elem F} {customs : List (Text × DMap F)} {P : Page F → Prop} (hP : ∀ g, P (m.pageOf doc g)) :
    ∀ {cs : List (Live F)} {g : DMap F} {docs : List (SvgDoc F (Drawing F))} {pages : List (Page F)} {docs' : List (SvgDoc F (Drawing F))} {pages' : List (Page F)},
    m.plan doc customs cs g docs pages = .ok (docs', pages') → (∀ p ∈ pages, P p) → ∀ p ∈ pages', P p
  | [], g, docs, pages, docs', pages', h, hp => by
    simp only [Machine.plan, Res.ok.injEq, Prod.mk.injEq] at h
    rw [← h.2]; exact hp
  | c :: cs, g, docs, pages, docs', pages', h, hp => by
    rw [Machine.plan] at h
    obtain ⟨⟨parts, g'⟩, h1, h2⟩ := res_bind_ok h
    simp only at h2
    split at h2
    · cases h2
    · refine plan_pages hP h2 fun p hp' => ?_
      rcases List.mem_append.mp hp' with hp' | hp'
      · exact hp p hp'
      · rw [(List.mem_replicate.mp hp').2]; exact hP _
    · cases h2

/-- **C117.** The texts that are made of the map of a document are the texts of the sheets that the document is laid out on, one for every sheet and in their order; if the
texts of the parts on a sheet are without markup and their labels have places, then the text of the sheet is XML with the size of the sheet and its
parts, and it is whole. -/
theorem C117_text (m : Machine ℝ O) (files : Nat) (dm : DMap ℝ) {texts : List SheetText} (h : m.sheets files dm = .ok texts) :
    ∃ (d : Doc ℝ) (docs : List (SvgDoc ℝ (Drawing ℝ))) (pages : List (Page ℝ)), m.world.parse m.fuel files dm = .val d ∧ m.planSet d = .ok (docs, pages) ∧
      pages.length = docs.length ∧ texts.length = docs.length ∧ ∀ (k : Nat) (page : Page ℝ) (s : SvgDoc ℝ (Drawing ℝ)) (t : SheetText),
        pages[k]? = some page → docs[k]? = some s → texts[k]? = some t →
        (∃ g, page = m.pageOf (Machine.docElem d) g) ∧ ((∀ r ∈ s.renderables, Writable r) → t.2 = false ∧ Says t.1 [pageElement page s.renderables]) := by
  unfold Machine.sheets at h
  split at h
  · cases h
  · cases h
  · next d hd =>
    split at h
    · next docs pages hs =>
      simp only [Res.ok.injEq] at h
      subst h
      obtain ⟨_, -, h1, -⟩ := C117_sheets m d hs
      have h2 : ∀ p ∈ pages, ∃ g, p = m.pageOf (Machine.docElem d) g := plan_pages (fun g => ⟨g, rfl⟩) hs (by simp)
      refine ⟨d, docs, pages, hd, hs, h1, by simp [h1], ?_⟩
      intro k page s t hp hk ht
      have hpage := h2 page (List.mem_of_getElem? hp)
      refine ⟨hpage, fun hw => ?_⟩
      rw [List.getElem?_zipWith, hp, hk] at ht
      simp only [Option.some.injEq] at ht
      subst ht
      obtain ⟨g, rfl⟩ := hpage
      have hn := C99_new (m.sheetOf (Machine.docElem d) g).width (m.sheetOf (Machine.docElem d) g).height
        (mustUnits (((m.docAttrs (Machine.docElem d) g).string unitsKey).getD "in".toList) .inch)
      obtain ⟨h3, h4⟩ := C99_written (m.pageOf (Machine.docElem d) g) hn.1 hn.2 s.renderables hw
      unfold Machine.sheetText
      split
      · next e => rw [e] at h3; cases h3
      · next t' r e e' => rw [e'] at h4; exact ⟨rfl, h4⟩
    · cases h
    · cases h

end

end Verif.Render
