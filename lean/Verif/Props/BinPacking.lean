import Verif.Lemmas.BinPacking

/-!
# Properties C01-C09: bin packing

`K` is any ordered field (exact arithmetic). A history is a list of requests with sides that are not negative
(`Insert` does not check the sign of a size).
-/

set_option linter.unusedSectionVars false

namespace Verif.BinPacking

open Verif Verif.Spec

universe u v
variable {K : Type u} [Field K] [LinearOrder K] [IsStrictOrderedRing K] {O : Type v}

/-- A sample history over the rationals, used to show that hypotheses can be met: a 20 x 12 sheet and four objects, the last
one too big. -/
def sampleRequests : List (Request ℚ String) :=
  [⟨"a", 5, 4⟩, ⟨"b", 11, 13⟩, ⟨"c", 2, 2⟩, ⟨"d", 21, 13⟩]

/-- The answers for the sample history: "b" is turned, "d" is refused. -/
def sampleResults : List (Option (Box ℚ)) :=
  [some ⟨0, 0, 5, 4, false⟩, some ⟨5, 0, 13, 11, true⟩, some ⟨0, 4, 2, 2, false⟩, none]

theorem sample_run : ((newContainer 0 0 20 12).insertAll sampleRequests).map (·.2) = some sampleResults := by
  decide +kernel

/-- **C01.** In every history the boxes returned for two accepted objects have disjoint interiors. -/
theorem C01_no_overlap (x y W H : K) (reqs : List (Request K O)) (hr : ∀ r ∈ reqs, 0 ≤ r.w ∧ 0 ≤ r.h)
    {c : Container K O} {results : List (Option (Box K))}
    (hrun : (newContainer x y W H).insertAll reqs = some (c, results)) :
    (results.filterMap id).Pairwise (fun a b => (rectOf a).Disjoint (rectOf b)) := by
  obtain ⟨c', results', h1, _, h3, h4, h5, _⟩ := insertAll_spec reqs hr (newContainer x y W H) trivial
  rw [h1] at hrun
  obtain ⟨rfl, rfl⟩ := by simpa using hrun
  have hp := (h4.pairwise_iff (R := fun p q => (rectOf p.1).Disjoint (rectOf q.1)) (fun h => h.symm)).1 h3.placed_disjoint
  rw [← accepted_map_snd h5, List.pairwise_map]
  have hp' := (List.pairwise_append.1 hp).1
  rw [List.pairwise_map] at hp'
  exact hp'

example : (sampleResults.filterMap id).length = 3 ∧ ∀ r ∈ sampleRequests, 0 ≤ r.w ∧ 0 ≤ r.h := by
  decide +kernel

/-- **C02.** In every history the box returned for an accepted object lies inside the container. -/
theorem C02_inside (x y W H : K) (reqs : List (Request K O)) (hr : ∀ r ∈ reqs, 0 ≤ r.w ∧ 0 ≤ r.h)
    {c : Container K O} {results : List (Option (Box K))}
    (hrun : (newContainer x y W H).insertAll reqs = some (c, results)) :
    ∀ b, some b ∈ results → (rectOf b).Within ⟨x, y, W, H⟩ := by
  obtain ⟨c', results', h1, h2, h3, h4, h5, _⟩ := insertAll_spec reqs hr (newContainer x y W H) trivial
  rw [h1] at hrun
  obtain ⟨rfl, rfl⟩ := by simpa using hrun
  intro b hb
  have hb' : b ∈ (accepted reqs results').map (·.2) := by
    rw [accepted_map_snd h5]; simpa using hb
  obtain ⟨p, hp, rfl⟩ := List.mem_map.1 hb'
  have := h3.placed_within (p.2, p.1.obj) (h4.symm.subset (by
    refine List.mem_append.2 (Or.inl (List.mem_map.2 ⟨p, hp, rfl⟩))))
  rwa [h2] at this

example : (rectOf (⟨5, 0, 13, 11, true⟩ : Box ℚ)).Within ⟨0, 0, 20, 12⟩ := by
  simp [Rect.Within, rectOf]; norm_num

/-- **C01, C02.** Sides that are not negative are needed: an object of width -5 leaves a free bin that begins outside the container, and the
next object is put there. -/
theorem C02_negative_false : ¬ ∀ (reqs : List (Request ℚ String)) (c : Container ℚ String) (results : List (Option (Box ℚ))),
    (newContainer 0 0 10 10).insertAll reqs = some (c, results) → ∀ b, some b ∈ results → (rectOf b).Within ⟨0, 0, 10, 10⟩ := by
  intro h
  have h1 : ((newContainer 0 0 10 10).insertAll [⟨"a", -5, 2⟩, ⟨"b", 12, 3⟩] : Option (Container ℚ String × List (Option (Box ℚ)))).map
      (·.2) = some [some ⟨0, 0, -5, 2, false⟩, some ⟨-5, 0, 12, 3, false⟩] := by decide +kernel
  rw [Option.map_eq_some_iff] at h1
  obtain ⟨⟨c, rs⟩, h2, rfl⟩ := h1
  have := h _ _ _ h2 ⟨-5, 0, 12, 3, false⟩ (by simp)
  revert this
  simp [Rect.Within, rectOf]

/-- **C01.** With such an object, two others are put on top of each other. -/
theorem C01_negative_false : ¬ ∀ (reqs : List (Request ℚ String)) (c : Container ℚ String) (results : List (Option (Box ℚ))),
    (newContainer 0 0 10 10).insertAll reqs = some (c, results) →
    (results.filterMap id).Pairwise (fun a b => (rectOf a).Disjoint (rectOf b)) := by
  intro h
  have h1 : (((newContainer 0 0 10 10).insertAll [⟨"a", 4, 4⟩, ⟨"n", -5, 2⟩, ⟨"b", 12, 3⟩, ⟨"c", 8, 3⟩] :
      Option (Container ℚ String × List (Option (Box ℚ)))).map (fun r => (r.2[0]?, r.2[3]?))) =
      some (some (some ⟨0, 0, 4, 4, false⟩), some (some ⟨-1, 0, 8, 3, false⟩)) := by decide +kernel
  rw [Option.map_eq_some_iff] at h1
  obtain ⟨⟨c, rs⟩, h2, h3⟩ := h1
  have h4 := h _ _ _ h2
  simp only [Prod.mk.injEq] at h3
  match rs, h3 with
  | x :: y :: z :: w :: rest, ⟨e1, e2⟩ =>
    simp only [List.getElem?_cons_zero, List.getElem?_cons_succ, Option.some.injEq] at e1 e2
    subst e1 e2
    rw [List.filterMap_cons_some (by rfl), List.pairwise_cons] at h4
    exact h4.1 ⟨-1, 0, 8, 3, false⟩ (by simp) 1 1 ⟨by norm_num [Rect.Interior, rectOf], by norm_num [Rect.Interior, rectOf]⟩

/-- **C03.** (a) In every history an accepted object gets exactly its own size, upright or turned. -/
theorem C03_exact_size (x y W H : K) (reqs : List (Request K O)) (hr : ∀ r ∈ reqs, 0 ≤ r.w ∧ 0 ≤ r.h)
    {c : Container K O} {results : List (Option (Box K))}
    (hrun : (newContainer x y W H).insertAll reqs = some (c, results)) :
    List.Forall₂ (fun r res => ∀ b, res = some b →
      (b.width = r.w ∧ b.height = r.h) ∨ (b.width = r.h ∧ b.height = r.w)) reqs results := by
  obtain ⟨c', results', h1, h2, h3, h4, h5, _⟩ := insertAll_spec reqs hr (newContainer x y W H) trivial
  rw [h1] at hrun
  obtain ⟨rfl, rfl⟩ := by simpa using hrun
  exact h5

/-- **C03.** (b) The object is put in the corner of a free bin, and it is turned only if it does not fit upright there. -/
theorem C03_turned_only_if_needed {c : Container K O} (hc : Reachable c) {w h : K} (hw : 0 ≤ w) (hh : 0 ≤ h) (o : O)
    {c' : Container K O} {b : Box K} (hi : c.insert o w h = some (c', some b)) :
    ∃ f ∈ c.emptyBins, b.x = f.x ∧ b.y = f.y ∧
      ((b.width = w ∧ b.height = h ∧ w ≤ f.width ∧ h ≤ f.height) ∨
       (b.width = h ∧ b.height = w ∧ h ≤ f.width ∧ w ≤ f.height ∧ ¬ (w ≤ f.width ∧ h ≤ f.height))) := by
  rcases container_insert_spec hw hh o c hc.inv with ⟨c1, at_, h1, _, _, _, _, f, hf, h6, h7, h8⟩ | ⟨h1, _⟩
  · rw [h1] at hi
    obtain ⟨rfl, rfl⟩ := by simpa using hi
    refine ⟨f, hf, h6, h7, ?_⟩
    rcases h8 with h8 | h8
    · exact Or.inl ⟨h8.1, h8.2.1, h8.2.2.1, h8.2.2.2.1⟩
    · refine Or.inr ⟨h8.1, h8.2.1, h8.2.2.1, h8.2.2.2.1, ?_⟩
      rintro ⟨k1, k2⟩
      rcases h8.2.2.2.2.1 with h | h
      · exact absurd h (not_lt.2 k2)
      · exact absurd h (not_lt.2 k1)
  · rw [h1] at hi; simp at hi

theorem sample_reachable (x y W H : ℚ) : Reachable (newContainer x y W H : Container ℚ String) :=
  ⟨x, y, W, H, [], [], by simp, rfl⟩

example : ∃ c' b, (newContainer 0 0 20 12 : Container ℚ String).insert "b" 11 13 = some (c', some b) ∧ b.width = 13 := by
  refine ⟨⟨.split ⟨0, 0, 20, 12, false⟩ (.split ⟨0, 0, 13, 12, true⟩ (.full ⟨0, 0, 13, 11, true⟩ "b")
    (.free ⟨0, 11, 13, 1, true⟩)) (.free ⟨13, 0, 7, 12, true⟩), 20, 12, 0, 0⟩, ⟨0, 0, 13, 11, true⟩, ?_, rfl⟩
  simp [Container.insert, newContainer, newBin, splitDepth, Bin.insert, insertFree, degenerate, orient, tooSmall, splitBoxes]
  norm_num

/-- What C04 asks of a container: for every object with different sides, the returned flag says whether it was turned. -/
def FlagTruthful (c : Container K O) : Prop :=
  ∀ (o : O) (w h : K), 0 < w → 0 < h → w ≠ h → ∀ c' b, c.insert o w h = some (c', some b) →
    (b.rotated = true ↔ b.width = h ∧ b.height = w)

/-- **C04, negation.** The flag is not truthful. (a) An object that fits a fresh container exactly when turned is
reported as not turned (the flag of the bin that already existed is returned). -/
theorem C04_flag_false : ∃ c : Container ℚ String, Reachable c ∧ ¬ FlagTruthful c := by
  refine ⟨newContainer 0 0 5 10, sample_reachable _ _ _ _, fun hc => ?_⟩
  have := hc "a" 10 5 (by norm_num) (by norm_num) (by norm_num)
    ⟨.full ⟨0, 0, 5, 10, false⟩ "a", 5, 10, 0, 0⟩ ⟨0, 0, 5, 10, false⟩ (by
      simp [Container.insert, newContainer, newBin, splitDepth, Bin.insert, insertFree, degenerate, orient, tooSmall])
  simp at this

/-- **C04, negation.** (b) On a default 20 x 12 sheet: after a 5 x 20 object (turned), a 20 x 7 object fills the rest upright
but is reported as turned. -/
theorem C04_flag_false_sheet :
    ((newContainer 0 0 20 12 : Container ℚ String).insertAll [⟨"a", 5, 20⟩, ⟨"b", 20, 7⟩]).map (·.2)
      = some [some ⟨0, 0, 20, 5, true⟩, some ⟨0, 5, 20, 7, true⟩] := by
  decide +kernel

/-- **C04, partial.** The flag is truthful for every object for which no free bin has exactly the object's size (in either
orientation). Missing: exact fits, where the property is false (`C04_flag_false`). -/
theorem C04_flag_partial {c : Container K O} (hc : Reachable c) {w h : K} (hw : 0 ≤ w) (hh : 0 ≤ h) (hne : w ≠ h) (o : O)
    (hfree : ∀ f ∈ c.emptyBins, ¬ (f.width = w ∧ f.height = h) ∧ ¬ (f.width = h ∧ f.height = w))
    {c' : Container K O} {b : Box K} (hi : c.insert o w h = some (c', some b)) :
    b.rotated = true ↔ b.width = h ∧ b.height = w := by
  rcases container_insert_spec hw hh o c hc.inv with ⟨c1, at_, h1, _, _, _, _, f, hf, h6, h7, h8⟩ | ⟨h1, _⟩
  · rw [h1] at hi
    obtain ⟨rfl, rfl⟩ := by simpa using hi
    obtain ⟨k1, k2⟩ := hfree f hf
    rcases h8 with ⟨e1, e2, _, _, e3⟩ | ⟨e1, e2, _, _, _, e3⟩
    · have := e3 (fun h => k1 ⟨h.2, h.1⟩)
      simp [this, e1, hne]
    · have := e3 (fun h => k2 ⟨h.2, h.1⟩)
      simp [this, e1, e2]
  · rw [h1] at hi; simp at hi

example : ∀ f ∈ (newContainer 0 0 20 12 : Container ℚ String).emptyBins,
    ¬ (f.width = 11 ∧ f.height = 13) ∧ ¬ (f.width = 13 ∧ f.height = 11) := by
  decide +kernel

/-- **C05.** (a) A refused insert leaves the container exactly as it was. -/
theorem C05_refused_unchanged {c : Container K O} (hc : Reachable c) {w h : K} (hw : 0 ≤ w) (hh : 0 ≤ h) (o : O)
    {c' : Container K O} (hi : c.insert o w h = some (c', none)) : c' = c := by
  rcases container_insert_spec hw hh o c hc.inv with ⟨c1, at_, h1, _⟩ | ⟨h1, _⟩
  · rw [h1] at hi; simp at hi
  · rw [h1] at hi
    simpa using hi.symm

/-- **C05.** (b) An accepted insert keeps all the objects with their boxes and adds exactly the new one, in the returned
box. -/
theorem C05_accepted_adds_one {c : Container K O} (hc : Reachable c) {w h : K} (hw : 0 ≤ w) (hh : 0 ≤ h) (o : O)
    {c' : Container K O} {b : Box K} (hi : c.insert o w h = some (c', some b)) :
    c'.placed.Perm ((b, o) :: c.placed) := by
  rcases container_insert_spec hw hh o c hc.inv with ⟨c1, at_, h1, _, _, h4, _⟩ | ⟨h1, _⟩
  · rw [h1] at hi
    obtain ⟨rfl, rfl⟩ := by simpa using hi
    exact h4
  · rw [h1] at hi; simp at hi

/-- **C06.** (a) `Insert` always returns. -/
theorem C06_insert_returns {c : Container K O} (hc : Reachable c) {w h : K} (hw : 0 ≤ w) (hh : 0 ≤ h) (o : O) :
    ∃ c' res, c.insert o w h = some (c', res) := by
  rcases container_insert_spec hw hh o c hc.inv with ⟨c1, at_, h1, _⟩ | ⟨h1, _⟩
  · exact ⟨_, _, h1⟩
  · exact ⟨_, _, h1⟩

/-- **C06.** (b) The depth limit of the model plays no role: any larger limit gives the same result. -/
theorem C06_insert_depth {c : Container K O} (hc : Reachable c) {w h : K} (hw : 0 ≤ w) (hh : 0 ≤ h) (o : O) (n : Nat)
    (hn : 3 ≤ n) : c.root.insert n o w h = c.root.insert splitDepth o w h := by
  have key : ∀ (t : Bin K O), t.Inv → t.insert n o w h = t.insert 3 o w h := by
    intro t
    induction t with
    | free b =>
      intro _
      exact insertFree_depth hw hh o n hn b
    | full b o' => intro _; rfl
    | split b l r ihl ihr =>
      rintro ⟨hl, hr, _⟩
      simp only [Bin.insert, ihl hl, ihr hr]
  exact key _ hc.inv

/-- **C06.** (c) `Insert` refuses an object exactly when one of its sides is zero or no free bin is large enough in either
orientation. -/
theorem C06_refuses_iff_nothing_fits {c : Container K O} (hc : Reachable c) {w h : K} (hw : 0 ≤ w) (hh : 0 ≤ h) (o : O) :
    (∃ c', c.insert o w h = some (c', none)) ↔
      (w = 0 ∨ h = 0) ∨ ∀ f ∈ c.emptyBins, ¬ Fits (rectOf f) w h := by
  rcases container_insert_spec hw hh o c hc.inv with ⟨c1, at_, h1, _, _, _, h5, f, hf, h6, h7, h8⟩ | ⟨h1, h2⟩
  · constructor
    · rintro ⟨c', hc'⟩
      rw [h1] at hc'; simp at hc'
    · rintro (h | h)
      · exact absurd h h5
      · refine absurd ?_ (h f hf)
        rcases h8 with h8 | h8
        · exact Or.inl ⟨h8.2.2.1, h8.2.2.2.1⟩
        · exact Or.inr ⟨h8.2.2.1, h8.2.2.2.1⟩
  · exact ⟨fun _ => h2, fun _ => ⟨c, h1⟩⟩

/-- **C06.** (d) Every history of `Insert` calls returns. -/
theorem C06_history_returns (x y W H : K) (reqs : List (Request K O)) (hr : ∀ r ∈ reqs, 0 ≤ r.w ∧ 0 ≤ r.h) :
    ∃ c results, (newContainer x y W H).insertAll reqs = some (c, results) := by
  obtain ⟨c', results', h1, _⟩ := insertAll_spec reqs hr (newContainer x y W H) trivial
  exact ⟨c', results', h1⟩

/-- **C07.** In every history free area and accepted areas add up to the area of the container. -/
theorem C07_area (x y W H : K) (reqs : List (Request K O)) (hr : ∀ r ∈ reqs, 0 ≤ r.w ∧ 0 ≤ r.h)
    {c : Container K O} {results : List (Option (Box K))}
    (hrun : (newContainer x y W H).insertAll reqs = some (c, results)) :
    c.emptyArea + ((accepted reqs results).map fun p => p.1.w * p.1.h).sum = W * H := by
  obtain ⟨c', results', h1, h2, h3, h4, h5, h6⟩ := insertAll_spec reqs hr (newContainer x y W H) trivial
  rw [h1] at hrun
  obtain ⟨rfl, rfl⟩ := by simpa using hrun
  have ha := h3.area
  rw [h2] at ha
  have he : c'.emptyArea = c'.root.emptyArea := by
    have : ∀ (l : List (Box K)) (a : K), l.foldl (fun area b => area +. b.width *. b.height) a
        = a + (l.map fun b => (rectOf b).area).sum := by
      intro l
      induction l with
      | nil => simp
      | cons b l ih =>
        intro a
        rw [List.foldl_cons, ih, List.map_cons, List.sum_cons]
        simp only [Rect.area, rectOf, Arith.add_field, Arith.mul_field]; ring
    simp only [Container.emptyArea, this]
    simp [Bin.emptyArea, Container.emptyBins, Arith.zero]
  have hs : ((accepted reqs results').map fun p => p.1.w * p.1.h).sum =
      (c'.root.placed.map fun p => (rectOf p.1).area).sum := by
    rw [(h4.map _).sum_eq]
    simp only [newContainer, newBin, Bin.placed, List.append_nil, List.map_map]
    congr 1
    refine List.map_congr_left fun p hp => ?_
    rcases (h6 p hp).2.2 with ⟨e1, e2⟩ | ⟨e1, e2⟩
    · simp [rectOf, Rect.area, e1, e2]
    · simp [rectOf, Rect.area, e1, e2, mul_comm]
  rw [he, hs, ha]
  rfl

example : ((accepted sampleRequests sampleResults).map fun p => p.1.w * p.1.h).sum = 20 + 143 + 4 := by
  decide +kernel

/-- **C08.** With a zero or NaN side nothing is placed and nothing changes, for every container whatever its history and
whatever the arithmetic (`F` has no laws: this covers IEEE doubles). -/
theorem C08_degenerate_refused {F : Type u} [Arith F] (c : Container F O) (o : O) (w h : F)
    (hd : (w ==. Arith.zero) = true ∨ (h ==. Arith.zero) = true ∨ Arith.isNaN w = true ∨ Arith.isNaN h = true) :
    c.insert o w h = some (c, none) := by
  have hd' : degenerate w h = true := by
    simp only [degenerate, Bool.or_eq_true]; tauto
  have key : ∀ t : Bin F O, t.insert splitDepth o w h = some (t, none) := by
    intro t
    induction t with
    | free b => simp [Bin.insert, splitDepth, insertFree, hd']
    | full b o' => rfl
    | split b l r ihl ihr => simp [Bin.insert, ihl, ihr]
  simp [Container.insert, key]

/-- **C09.** Padded history: there are footprints for the accepted objects, at the returned positions and with the objects'
sizes (upright or turned), such that each keeps its padding to the container's sides and any two are apart by the sum of their
paddings. -/
theorem C09_padding (x y W H : K) (reqs : List (Request K O × K))
    (hr : ∀ r ∈ reqs, 0 ≤ r.1.w ∧ 0 ≤ r.1.h ∧ 0 ≤ r.2)
    {c : Container K O} {results : List (Option (Box K))}
    (hrun : (newContainer x y W H).insertAllPadded reqs = some (c, results)) :
    ∃ foot : List (Option (Rect K × K)),
      List.Forall₂ (fun p f => (p.2 = none ∧ f = none) ∨ ∃ b r, p.2 = some b ∧ f = some (r, p.1.2) ∧
          r.x = b.x ∧ r.y = b.y ∧ ((r.w = p.1.1.w ∧ r.h = p.1.1.h) ∨ (r.w = p.1.1.h ∧ r.h = p.1.1.w)))
        (reqs.zip results) foot ∧
      results.length = reqs.length ∧
      (∀ f, some f ∈ foot → (f.1.grow f.2).Within ⟨x, y, W, H⟩) ∧
      (foot.filterMap id).Pairwise (fun f g => f.1.Apart g.1 (f.2 + g.2)) := by
  obtain ⟨c', results', foot, h1, h2, h3, h4, h5, h6, h7⟩ :=
    insertAllPadded_spec reqs hr (newContainer x y W H) trivial
  rw [h1] at hrun
  obtain ⟨rfl, rfl⟩ := by simpa using hrun
  simp only [newContainer, newBin, Bin.placed, List.map_nil, List.append_nil] at h6
  refine ⟨foot, h4, h5, fun f hf => ?_, ?_⟩
  · have hm : f.1.grow f.2 ∈ c'.root.placed.map fun p => rectOf p.1 :=
      h6.symm.subset (List.mem_map.2 ⟨f, by simpa using hf, rfl⟩)
    obtain ⟨p, hp, hpe⟩ := List.mem_map.1 hm
    have := h3.placed_within p hp
    rw [h2, hpe] at this
    exact this
  · have hd := h3.placed_disjoint
    have hd' : (c'.root.placed.map fun p => rectOf p.1).Pairwise Rect.Disjoint := List.pairwise_map.2 hd
    rw [h6.pairwise_iff (fun h => h.symm), List.pairwise_map] at hd'
    refine hd'.imp_of_mem fun {f g} hf hg hfg => ?_
    have ha := hfg.apart (h7 f hf).1 (h7 f hf).2 (h7 g hg).1 (h7 g hg).2
    simp only [Rect.Apart, Rect.grow] at ha ⊢
    rcases ha with h | h | h | h
    · left; linarith
    · right; left; linarith
    · right; right; left; linarith
    · right; right; right; linarith

example : ((newContainer 0 0 20 12 : Container ℚ String).insertAllPadded
    [(⟨"a", 5, 4⟩, 1/10), (⟨"b", 11, 14⟩, 1/10), (⟨"c", 3, 3⟩, 0)]).map (·.2)
      = some [some ⟨1/10, 1/10, 5, 4, false⟩, some ⟨53/10, 1/10, 11, 14, true⟩, some ⟨0, 21/5, 3, 3, false⟩] := by
  decide +kernel

end Verif.BinPacking
