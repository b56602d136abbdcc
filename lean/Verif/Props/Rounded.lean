import Verif.Lemmas.Rounded

/-!
# Property C124: packing with rounding

C01-C03, C06 and C09 are about exact arithmetic. Here is what is left of them with rounding: any arithmetic that is the exact one up to `ε` in a range up to
`M` (`Rounds`). IEEE doubles are such an arithmetic (`C124_doubles`), with `ε = 2 ^ (-53) * M`.
-/

set_option linter.unusedSectionVars false

namespace Verif

open Verif.Spec

/-! ## Doubles -/

open Double in
/-- **C124.** (a) IEEE doubles are exact up to half a unit in the last place: for numbers up to `M` the error is at most `2 ^ (-53) * M`. -/
theorem C124_doubles {M : ℚ} (h0 : 0 ≤ M) (hM : M ≤ 2 ^ (1000 : ℤ)) : Rounds Double.Finite Double.val M (2 ^ (-53 : ℤ) * M) := by
  have hadd : ∀ a b : Double, (⟨a.num⟩ : Double) = a → a +. b = of (a.num +. b.num) := fun _ _ _ => rfl
  have hsub : ∀ a b : Double, a -. b = of (a.num -. b.num) := fun _ _ => rfl
  have hmul : ∀ a b : Double, a *. b = of (a.num *. b.num) := fun _ _ => rfl
  have fin_of : ∀ q : ℚ, Double.Finite ⟨.fin (rnd q)⟩ := fun q => ⟨rnd q, rfl, rnd_rnd q⟩
  have sub_eq : ∀ a b : Double, a.Finite → b.Finite → 0 ≤ b.val → b.val ≤ a.val → a.val ≤ M →
      a -. b = ⟨.fin (rnd (a.val - b.val))⟩ ∧ |rnd (a.val - b.val) - (a.val - b.val)| ≤ 2 ^ (-53 : ℤ) * M := by
    intro a b ha hb h1 h2 h3
    have hg := (grid_rnd ha.eq.2).sub (grid_rnd hb.eq.2)
    obtain ⟨k1, k2⟩ := of_grid hg hM (by rw [abs_of_nonneg (by linarith)]; linarith)
    refine ⟨?_, k2⟩
    rw [← k1, hsub, ha.eq.1, hb.eq.1]
    simp only [XNum.sub_fin]
    rfl
  have add_eq : ∀ a b : Double, a.Finite → b.Finite → |a.val + b.val| ≤ M →
      a +. b = ⟨.fin (rnd (a.val + b.val))⟩ ∧ |rnd (a.val + b.val) - (a.val + b.val)| ≤ 2 ^ (-53 : ℤ) * M := by
    intro a b ha hb h1
    have hg := (grid_rnd ha.eq.2).add (grid_rnd hb.eq.2)
    obtain ⟨k1, k2⟩ := of_grid hg hM h1
    refine ⟨?_, k2⟩
    rw [← k1, hadd a b rfl, ha.eq.1, hb.eq.1]
    simp only [XNum.add_fin]
    rfl
  have two : (Arith.two : Double) = ⟨.fin 2⟩ := by decide +kernel
  refine ⟨?_, ?_, ?_, ?_, ?_, ?_, ?_, ?_, ?_, ?_, ?_, ?_, ?_⟩
  · intro a b ha hb
    rw [ha.eq.1, hb.eq.1]
    show decide _ = true ↔ _
    exact decide_eq_true_iff
  · intro a b ha hb
    rw [ha.eq.1, hb.eq.1]
    show ((XNum.fin a.val : XNum ℚ) <=. XNum.fin b.val) = true ↔ _
    rw [XNum.le_fin]
    exact decide_eq_true_iff
  · intro a b ha hb
    rw [ha.eq.1, hb.eq.1]
    show decide _ = true ↔ _
    exact decide_eq_true_iff
  · intro a ha
    rw [ha.eq.1]
    rfl
  · have : (Arith.zero : Double) = ⟨.fin 0⟩ := by decide +kernel
    rw [this]
    exact ⟨⟨0, rfl, rnd_zero⟩, rfl⟩
  · intro a b ha hb h
    obtain ⟨k1, k2⟩ := add_eq a b ha hb h
    rw [k1]
    exact ⟨fin_of _, k2⟩
  · intro a b ha hb h1 h2 h3
    obtain ⟨k1, _⟩ := add_eq a b ha hb (by rw [abs_of_nonneg (by linarith)]; exact h3)
    rw [k1]
    exact zero_le_rnd (by linarith)
  · intro a b ha hb h1 h2 h3
    obtain ⟨k1, _⟩ := add_eq a b ha hb (by rw [abs_of_nonneg (by linarith)]; exact h3)
    rw [k1]
    exact rnd_pos (by linarith) ((grid_rnd ha.eq.2).add (grid_rnd hb.eq.2))
  · intro a b ha hb h1 h2 h3
    obtain ⟨k1, k2⟩ := sub_eq a b ha hb h1 h2 h3
    rw [k1]
    exact ⟨fin_of _, k2⟩
  · intro a b ha hb h1 h2 h3
    obtain ⟨k1, _⟩ := sub_eq a b ha hb h1 h2 h3
    rw [k1]
    exact rnd_le (by linarith) (by linarith) ha.eq.2
  · intro a b ha hb h1 h2 h3
    obtain ⟨k1, _⟩ := sub_eq a b ha hb h1 h2.le h3
    rw [k1]
    exact rnd_pos (by linarith) ((grid_rnd ha.eq.2).sub (grid_rnd hb.eq.2))
  · intro a b ha hb h1 h2 h3
    obtain ⟨k1, _⟩ := sub_eq a b ha hb h1 h2.ge h3
    rw [k1, h2, sub_self, rnd_zero]
    rfl
  · intro a ha h1 h2
    have hg : Grid (a.val * 2) := by
      rw [mul_two]
      exact (grid_rnd ha.eq.2).add (grid_rnd ha.eq.2)
    obtain ⟨k1, k2⟩ := of_grid hg hM (by rw [abs_of_nonneg (by linarith)]; exact h2)
    have : a *. Arith.two = ⟨.fin (rnd (a.val * 2))⟩ := by
      rw [← k1, hmul, two]
      conv_lhs => rw [ha.eq.1]
      rfl
    rw [this]
    exact ⟨fin_of _, zero_le_rnd (by linarith), k2⟩

namespace BinPacking

universe u v w
variable {F : Type u} [Arith F] {K : Type v} [Field K] [LinearOrder K] [IsStrictOrderedRing K] {O : Type w}
variable {fin : F → Prop} {val : F → K} {M ε : K}

/-- What is asked for: finite sizes that are not negative. -/
def Sizes (fin : F → Prop) (val : F → K) (reqs : List (Request F O)) : Prop := ∀ r ∈ reqs, fin r.w ∧ fin r.h ∧ 0 ≤ val r.w ∧ 0 ≤ val r.h

theorem history (hR : Rounds fin val M ε) (hε : 0 ≤ ε) {x y W H : F} {reqs : List (Request F O)}
    (hroom : Room fin val M (4 * reqs.length * ε) x y W H) (hr : Sizes fin val reqs) :
    ∃ c results, (newContainer x y W H).insertAll reqs = some (c, results) ∧ c.root.top = ⟨x, y, W, H, false⟩ ∧ c.root.Close fin val ε ∧
      c.root.depth ≤ 2 * reqs.length ∧ c.root.placed.Perm ((accepted reqs results).map (fun p => (p.2, p.1.obj))) ∧
      List.Forall₂ (fun r res => ∀ b, res = some b →
        (val b.width = val r.w ∧ val b.height = val r.h) ∨ (val b.width = val r.h ∧ val b.height = val r.w)) reqs results := by
  obtain ⟨c, results, h1, h2, h3, h4, h5, h6⟩ := insertAll_rounded hR hε hroom reqs hr (newContainer x y W H)
    ⟨hroom.fins.1, hroom.fins.2.1, hroom.fins.2.2.1, hroom.fins.2.2.2, hroom.width, hroom.height⟩ rfl
    (by simp only [newContainer, newBin, Bin.depth]; push_cast; linarith)
  refine ⟨c, results, h1, h2, h3, ?_, ?_, h6⟩
  · simpa [newContainer, newBin, Bin.depth] using h4
  · simpa [newContainer, newBin, Bin.placed] using h5

theorem returned {reqs : List (Request F O)} {results : List (Option (Box F))} {c : Container F O} {R : Request F O → Option (Box F) → Prop}
    (h5 : c.root.placed.Perm ((accepted reqs results).map (fun p => (p.2, p.1.obj)))) (h6 : List.Forall₂ R reqs results) :
    (c.root.placed.map (·.1)).Perm (results.filterMap id) := by
  rw [← accepted_snd h6]
  simpa [List.map_map, Function.comp_def] using h5.map (·.1)

/-- **C124.** (b) With rounding, too, every history of insertions ends, and the accepted objects get exactly their sizes. -/
theorem C124_exact_size (hR : Rounds fin val M ε) (hε : 0 ≤ ε) {x y W H : F} {reqs : List (Request F O)}
    (hroom : Room fin val M (4 * reqs.length * ε) x y W H) (hr : Sizes fin val reqs) :
    ∃ c results, (newContainer x y W H).insertAll reqs = some (c, results) ∧ List.Forall₂ (fun r res => ∀ b, res = some b →
      (val b.width = val r.w ∧ val b.height = val r.h) ∨ (val b.width = val r.h ∧ val b.height = val r.w)) reqs results := by
  obtain ⟨c, results, h1, _, _, _, _, h6⟩ := history hR hε hroom hr
  exact ⟨c, results, h1, h6⟩

/-- **C124.** (c) After `n` calls no returned box is more than `4 * n * ε` outside of the sheet. -/
theorem C124_inside (hR : Rounds fin val M ε) (hε : 0 ≤ ε) {x y W H : F} {reqs : List (Request F O)}
    (hroom : Room fin val M (4 * reqs.length * ε) x y W H) (hr : Sizes fin val reqs) {c : Container F O} {results : List (Option (Box F))}
    (hrun : (newContainer x y W H).insertAll reqs = some (c, results)) :
    ∀ b, some b ∈ results → (rectVal val b).Within (Rect.grow ⟨val x, val y, val W, val H⟩ (4 * reqs.length * ε)) := by
  obtain ⟨c', results', h1, h2, h3, h4, h5, h6⟩ := history hR hε hroom hr
  rw [h1] at hrun
  obtain ⟨rfl, rfl⟩ := by simpa using hrun
  intro b hb
  have hm : b ∈ c'.root.placed.map (·.1) := (returned h5 h6).symm.subset (by simpa using hb)
  have := (close_within hε h3 b (List.mem_append.2 (.inl hm))).1
  rw [h2] at this
  refine grow_mono ?_ this
  have : (c'.root.depth : K) ≤ 2 * reqs.length := by exact_mod_cast h4
  have := mul_le_mul_of_nonneg_right this hε
  linarith

/-- **C124.** (d) After `n` calls no two returned boxes overlap by more than `8 * n * ε`. -/
theorem C124_overlap (hR : Rounds fin val M ε) (hε : 0 ≤ ε) {x y W H : F} {reqs : List (Request F O)}
    (hroom : Room fin val M (4 * reqs.length * ε) x y W H) (hr : Sizes fin val reqs) {c : Container F O} {results : List (Option (Box F))}
    (hrun : (newContainer x y W H).insertAll reqs = some (c, results)) :
    (results.filterMap id).Pairwise fun a b => (rectVal val a).Apart (rectVal val b) (-(8 * reqs.length * ε)) := by
  obtain ⟨c', results', h1, h2, h3, h4, h5, h6⟩ := history hR hε hroom hr
  rw [h1] at hrun
  obtain ⟨rfl, rfl⟩ := by simpa using hrun
  have hp : (c'.root.placed.map (·.1)).Pairwise fun a b => (rectVal val a).Apart (rectVal val b) (-(4 * c'.root.depth * ε)) :=
    List.pairwise_map.2 (close_apart hε h3)
  rw [(returned h5 h6).pairwise_iff] at hp
  · refine hp.imp fun h => apart_mono ?_ h
    have : (c'.root.depth : K) ≤ 2 * reqs.length := by exact_mod_cast h4
    have := mul_le_mul_of_nonneg_right this hε
    linarith
  · intro a b h
    rcases h with h | h | h | h
    · exact .inr (.inl h)
    · exact .inl h
    · exact .inr (.inr (.inr h))
    · exact .inr (.inr (.inl h))

/-- **C124.** (e) With rounding, too, the next object is refused exactly if a side is zero or no free bin is large enough, and an accepted object
is put into the corner of a free bin, turned only if it does not fit upright; whether it is turned is noted, unless it fills the bin. -/
theorem C124_refused (hR : Rounds fin val M ε) (hε : 0 ≤ ε) {x y W H : F} {reqs : List (Request F O)}
    (hroom : Room fin val M (4 * reqs.length * ε) x y W H) (hr : Sizes fin val reqs) {c : Container F O} {results : List (Option (Box F))}
    (hrun : (newContainer x y W H).insertAll reqs = some (c, results)) (o : O) {w h : F} (fw : fin w) (fh : fin h) (hw : 0 ≤ val w) (hh : 0 ≤ val h) :
    ((∃ c', c.insert o w h = some (c', none)) ↔ ((val w = 0 ∨ val h = 0) ∨ ∀ f ∈ c.emptyBins, ¬Fits (rectVal val f) (val w) (val h))) ∧
      ∀ c' b, c.insert o w h = some (c', some b) → c'.placed.Perm ((b, o) :: c.placed) ∧ ∃ f ∈ c.emptyBins, b.x = f.x ∧ b.y = f.y ∧
        ((val b.width = val w ∧ val b.height = val h ∧ (val w ≤ val f.width ∧ val h ≤ val f.height) ∧
            (b.rotated = false ∨ (val f.width = val w ∧ val f.height = val h))) ∨
          (val b.width = val h ∧ val b.height = val w ∧ (val h ≤ val f.width ∧ val w ≤ val f.height ∧ ¬(val w ≤ val f.width ∧ val h ≤ val f.height)) ∧
            (b.rotated = true ∨ (val f.width = val h ∧ val f.height = val w)))) := by
  obtain ⟨c', results', h1, h2, h3, h4, h5, h6⟩ := history hR hε hroom hr
  rw [h1] at hrun
  obtain ⟨rfl, rfl⟩ := by simpa using hrun
  have hd : (c'.root.depth : K) ≤ 2 * reqs.length := by exact_mod_cast h4
  have hd' := mul_le_mul_of_nonneg_right hd hε
  have hrange := room_inRange hε h3 (M := M) (by linarith) h2 hroom
  rcases insert_rounded hR fw fh hw hh o 0 c'.root h3 hrange with ⟨t', at_, k1, k2, k3, k4, k5, k6, f, hf, k7⟩ | ⟨k1, k2⟩
  · have hi : c'.insert o w h = some ({ c' with root := t' }, some at_) := by
      have k1' : c'.root.insert splitDepth o w h = some (t', some at_) := k1
      simp [Container.insert, k1']
    rw [hi]
    refine ⟨⟨by simp, ?_⟩, ?_⟩
    · rintro (hc | hc)
      · exact absurd hc k6
      · obtain ⟨_, _, e⟩ := k7
        refine absurd ?_ (hc f hf)
        rcases e with ⟨_, _, ⟨e1, e2⟩, _⟩ | ⟨_, _, ⟨e1, e2, _⟩, _⟩
        · exact .inl ⟨e1, e2⟩
        · exact .inr ⟨e1, e2⟩
    · rintro c b hcb
      obtain ⟨rfl, rfl⟩ := by simpa using hcb
      exact ⟨k5, f, hf, k7⟩
  · have hi : c'.insert o w h = some (c', none) := by
      have k1' : c'.root.insert splitDepth o w h = some (c'.root, none) := k1
      simp [Container.insert, k1']
    rw [hi]
    exact ⟨⟨fun _ => k2, fun _ => ⟨c', rfl⟩⟩, by simp⟩

/-- **C124.** (f) The depth limit of the model plays no role with rounding either. -/
theorem C124_depth (hR : Rounds fin val M ε) (hε : 0 ≤ ε) {x y W H : F} {reqs : List (Request F O)}
    (hroom : Room fin val M (4 * reqs.length * ε) x y W H) (hr : Sizes fin val reqs) {c : Container F O} {results : List (Option (Box F))}
    (hrun : (newContainer x y W H).insertAll reqs = some (c, results)) (o : O) {w h : F} (fw : fin w) (fh : fin h) (hw : 0 ≤ val w) (hh : 0 ≤ val h)
    (n : Nat) (hn : 3 ≤ n) : c.root.insert n o w h = c.root.insert splitDepth o w h := by
  obtain ⟨c', results', h1, h2, h3, h4, h5, h6⟩ := history hR hε hroom hr
  rw [h1] at hrun
  obtain ⟨rfl, rfl⟩ := by simpa using hrun
  have hd : (c'.root.depth : K) ≤ 2 * reqs.length := by exact_mod_cast h4
  have hd' := mul_le_mul_of_nonneg_right hd hε
  have hrange := room_inRange hε h3 (M := M) (by linarith) h2 hroom
  obtain ⟨k, rfl⟩ : ∃ k, n = k + 3 := ⟨n - 3, by omega⟩
  have mono : ∀ m (b : Box F) (r : Bin F O × Option (Box F)), insertFree m b o w h = some r → insertFree (m + 1) b o w h = some r := by
    intro m
    induction m with
    | zero => intro b r h'; rw [insertFree] at h'; cases h'
    | succ m ih =>
      intro b r h'
      rw [insertFree] at h' ⊢
      by_cases e : degenerate w h = true
      · rw [if_pos e] at h' ⊢; exact h'
      · rw [if_neg e] at h' ⊢
        cases ho : orient b w h with
        | none => rw [ho] at h'; exact h'
        | some q =>
          obtain ⟨rot, a, b'⟩ := q
          rw [ho] at h'
          simp only at h' ⊢
          by_cases e2 : ((b.height ==. b') && (b.width ==. a)) = true
          · rw [if_pos e2] at h' ⊢; exact h'
          · rw [if_neg e2] at h' ⊢
            cases hl : insertFree m (splitBoxes b rot a b').1 o w h with
            | none => rw [hl] at h'; cases h'
            | some q =>
              rw [hl] at h'
              rw [ih _ _ hl]
              exact h'
  have more : ∀ k (b : Box F) (r : Bin F O × Option (Box F)), insertFree 3 b o w h = some r → insertFree (k + 3) b o w h = some r := by
    intro k
    induction k with
    | zero => intro b r h; exact h
    | succ k ih => intro b r h; exact mono _ _ _ (ih b r h)
  have key : ∀ t : Bin F O, t.Close fin val ε → (∀ b ∈ t.empties, InRange fin val M b) → t.insert (k + 3) o w h = t.insert 3 o w h := by
    intro t
    induction t with
    | free b =>
      intro _ hb
      have hb' := hb b (by simp [Bin.empties])
      show insertFree (k + 3) b o w h = insertFree 3 b o w h
      rcases insertFree_rounded hR fw fh hw hh o b hb' 0 with ⟨t, at_, e, _⟩ | ⟨e, _⟩
      · rw [show insertFree 3 b o w h = _ from e]
        exact more k b _ e
      · rw [show insertFree 3 b o w h = _ from e]
        exact more k b _ e
    | full b o' => intro _ _; rfl
    | split b l r ihl ihr =>
      intro ht hb
      rw [Bin.insert, Bin.insert, ihl ht.2.1 fun b h => hb b (List.mem_append.2 (.inl h)), ihr ht.2.2.1 fun b h => hb b (List.mem_append.2 (.inr h))]
  exact key c'.root h3 hrange

/-- **C124.** (g) Padded history: footprints at the returned positions with the objects' sizes (upright or turned) keep their padding to the sides of the
sheet up to `(4 * n + 3) * ε`, and any two are apart by the sum of their paddings up to `(8 * n + 6) * ε`. -/
theorem C124_padding (hR : Rounds fin val M ε) (hε : 0 ≤ ε) {x y W H : F} {reqs : List (Request F O × F)}
    (hroom : Room fin val M ((4 * reqs.length + 2) * ε) x y W H)
    (hr : ∀ r ∈ reqs, fin r.1.w ∧ fin r.1.h ∧ fin r.2 ∧ 0 ≤ val r.1.w ∧ 0 ≤ val r.1.h ∧ 0 ≤ val r.2 ∧
      val r.2 * 2 + val r.1.w + ε ≤ M ∧ val r.2 * 2 + val r.1.h + ε ≤ M) :
    ∃ c results, (newContainer x y W H).insertAllPadded reqs = some (c, results) ∧ ∃ foot : List (Option (Rect K × K)),
      List.Forall₂ (fun p f => (p.2 = none ∧ f = none) ∨ ∃ b r, p.2 = some b ∧ f = some (r, val p.1.2) ∧ r.x = val b.x ∧ r.y = val b.y ∧
          ((r.w = val p.1.1.w ∧ r.h = val p.1.1.h) ∨ (r.w = val p.1.1.h ∧ r.h = val p.1.1.w))) (reqs.zip results) foot ∧
      results.length = reqs.length ∧
      (∀ f, some f ∈ foot → (f.1.grow f.2).Within (Rect.grow ⟨val x, val y, val W, val H⟩ ((4 * reqs.length + 3) * ε))) ∧
      (foot.filterMap id).Pairwise fun f g => f.1.Apart g.1 (f.2 + g.2 - (8 * reqs.length + 6) * ε) := by
  obtain ⟨c, results, foot, bins, h1, h2, h3, h4, h5, h6, h7, h8⟩ := insertAllPadded_rounded hR hε (δ := 4 * reqs.length * ε)
    (by rw [show 4 * (reqs.length : K) * ε + 2 * ε = (4 * reqs.length + 2) * ε by ring]; exact hroom) reqs hr (newContainer x y W H)
    ⟨hroom.fins.1, hroom.fins.2.1, hroom.fins.2.2.1, hroom.fins.2.2.2, hroom.width, hroom.height⟩ rfl
    (by simp only [newContainer, newBin, Bin.depth]; push_cast; linarith)
  have hd : (c.root.depth : K) ≤ 2 * reqs.length := by
    have : c.root.depth ≤ 2 * reqs.length := by simpa [newContainer, newBin, Bin.depth] using h4
    exact_mod_cast this
  have hd' := mul_le_mul_of_nonneg_right hd hε
  have h8' : (c.root.placed.map fun p => rectVal val p.1).Perm bins := by simpa [newContainer, newBin, Bin.placed] using h8
  have hw : ∀ b ∈ bins, b.Within (Rect.grow ⟨val x, val y, val W, val H⟩ (4 * reqs.length * ε)) := by
    intro b hb
    obtain ⟨p, hp, rfl⟩ := List.mem_map.1 (h8'.symm.subset hb)
    have := (close_within hε h3 p.1 (List.mem_append.2 (.inl (List.mem_map.2 ⟨p, hp, rfl⟩)))).1
    rw [h2] at this
    exact grow_mono (by linarith) this
  have ha : bins.Pairwise fun a b => a.Apart b (-(8 * reqs.length * ε)) := by
    have hp : (c.root.placed.map fun p => rectVal val p.1).Pairwise fun a b => a.Apart b (-(4 * c.root.depth * ε)) :=
      List.pairwise_map.2 (close_apart hε h3)
    rw [h8'.pairwise_iff] at hp
    · exact hp.imp fun h => apart_mono (by linarith) h
    · intro a b h
      rcases h with h | h | h | h
      · exact .inr (.inl h)
      · exact .inl h
      · exact .inr (.inr (.inr h))
      · exact .inr (.inr (.inl h))
  refine ⟨c, results, h1, foot, h5, h6, fun f hf => ?_, pairwise_forall₂ ?_ h7 ha⟩
  · obtain ⟨b, hb, hfb⟩ : ∃ b ∈ bins, Foot ε f b := by
      have hf' : f ∈ foot.filterMap id := by simpa using hf
      clear h8 h8' hw ha h5 hf
      generalize foot.filterMap id = fs at h7 hf'
      induction h7 with
      | nil => simp at hf'
      | @cons a b l m hab _ ih =>
        rcases List.mem_cons.1 hf' with rfl | hf'
        · exact ⟨b, by simp, hab⟩
        · obtain ⟨b', e1, e2⟩ := ih hf'
          exact ⟨b', by simp [e1], e2⟩
    refine grow_mono ?_ (grow_within hfb (hw b hb))
    linarith
  · intro f b g b' hf hg h
    obtain ⟨f1, f2, f3, f4⟩ := hf
    obtain ⟨g1, g2, g3, g4⟩ := hg
    simp only [Rect.grow] at f1 f2 f3 f4 g1 g2 g3 g4
    rcases h with h | h | h | h
    · exact .inl (by linarith)
    · exact .inr (.inl (by linarith))
    · exact .inr (.inr (.inl (by linarith)))
    · exact .inr (.inr (.inr (by linarith)))

/-! ## Doubles -/

instance (a : Double) : Decidable a.Finite :=
  match h : a.num with
  | .fin q => decidable_of_iff (Double.rnd q = q) ⟨fun e => ⟨q, h, e⟩, fun ⟨r, hr, e⟩ => by rw [h] at hr; cases hr; exact e⟩
  | .pinf => isFalse fun ⟨r, hr, _⟩ => by rw [h] at hr; cases hr
  | .ninf => isFalse fun ⟨r, hr, _⟩ => by rw [h] at hr; cases hr
  | .nan => isFalse fun ⟨r, hr, _⟩ => by rw [h] at hr; cases hr

/-- **C124.** (h) In figures: at most a thousand calls with doubles on a sheet within 1000 units of the origin. Every call ends, the accepted objects get exactly
their sizes, none is more than a billionth of a unit outside of the sheet, and no two overlap by more than a billionth of a unit. -/
theorem C124_sheet {x y W H : Double} (hf : x.Finite ∧ y.Finite ∧ W.Finite ∧ H.Finite) (hW : 0 ≤ W.val) (hH : 0 ≤ H.val) (hx : |x.val| + W.val ≤ 1000)
    (hy : |y.val| + H.val ≤ 1000) {reqs : List (Request Double O)} (hn : reqs.length ≤ 1000) (hr : Sizes Double.Finite Double.val reqs) :
    ∃ c results, (newContainer x y W H).insertAll reqs = some (c, results) ∧
      List.Forall₂ (fun r res => ∀ b, res = some b →
        (b.width.val = r.w.val ∧ b.height.val = r.h.val) ∨ (b.width.val = r.h.val ∧ b.height.val = r.w.val)) reqs results ∧
      (∀ b, some b ∈ results → (rectVal Double.val b).Within (Rect.grow ⟨x.val, y.val, W.val, H.val⟩ (1 / 10 ^ 9))) ∧
      (results.filterMap id).Pairwise fun a b => (rectVal Double.val a).Apart (rectVal Double.val b) (-(1 / 10 ^ 9)) := by
  have hR := C124_doubles (M := 1024) (by norm_num) (by decide +kernel)
  have hε : (0 : ℚ) ≤ 2 ^ (-53 : ℤ) * 1024 := by norm_num
  have hn' : (reqs.length : ℚ) ≤ 1000 := by exact_mod_cast hn
  have h8 : (8 : ℚ) * reqs.length * (2 ^ (-53 : ℤ) * 1024) ≤ 1 / 10 ^ 9 := by
    have := mul_le_mul_of_nonneg_right hn' hε
    have e : (8 : ℚ) * 1000 * (2 ^ (-53 : ℤ) * 1024) ≤ 1 / 10 ^ 9 := by norm_num
    linarith
  have h4 : (4 : ℚ) * reqs.length * (2 ^ (-53 : ℤ) * 1024) ≤ 1 / 10 ^ 9 := by
    have := mul_nonneg (Nat.cast_nonneg (α := ℚ) reqs.length) hε
    linarith
  have hroom : Room Double.Finite Double.val 1024 (4 * reqs.length * (2 ^ (-53 : ℤ) * 1024)) x y W H :=
    ⟨hf, hW, hH, by norm_num at h4 ⊢; linarith, by norm_num at h4 ⊢; linarith⟩
  obtain ⟨c, results, h1, h6⟩ := C124_exact_size hR hε hroom hr
  exact ⟨c, results, h1, h6, fun b hb => grow_mono h4 (C124_inside hR hε hroom hr h1 b hb),
    (C124_overlap hR hε hroom hr h1).imp fun h => apart_mono (by linarith) h⟩

/-- The double of a decimal with one digit after the point. -/
def tenth (m : Int) : Double := Arith.lit m 1

/-- Three objects for the default sheet of 20 by 12. -/
def sampleDoubles : List (Request Double String) := [⟨"a", tenth 95, tenth 7⟩, ⟨"b", tenth 163, tenth 74⟩, ⟨"c", tenth 159, tenth 16⟩]

/-- The hypotheses of `C124_sheet` can be met. -/
example : ((tenth 0).Finite ∧ (tenth 0).Finite ∧ (tenth 200).Finite ∧ (tenth 120).Finite) ∧ 0 ≤ (tenth 200).val ∧ 0 ≤ (tenth 120).val ∧
    |(tenth 0).val| + (tenth 200).val ≤ 1000 ∧ |(tenth 0).val| + (tenth 120).val ≤ 1000 ∧ sampleDoubles.length ≤ 1000 ∧
    Sizes Double.Finite Double.val sampleDoubles := by
  refine ⟨by decide +kernel, by decide +kernel, by decide +kernel, by decide +kernel, by decide +kernel, by decide, ?_⟩
  intro r hr
  simp only [sampleDoubles, List.mem_cons, List.not_mem_nil, or_false] at hr
  rcases hr with rfl | rfl | rfl <;> decide +kernel

/-- The hypotheses of `C124_padding` can be met: the three objects with a padding of 0.3. -/
example : Room Double.Finite Double.val 1024 ((4 * (sampleDoubles.map fun r => (r, tenth 3)).length + 2) * (2 ^ (-53 : ℤ) * 1024)) (tenth 0) (tenth 0)
    (tenth 200) (tenth 120) ∧ ∀ r ∈ sampleDoubles.map fun r => (r, tenth 3), r.1.w.Finite ∧ r.1.h.Finite ∧ r.2.Finite ∧ 0 ≤ r.1.w.val ∧ 0 ≤ r.1.h.val ∧
      0 ≤ r.2.val ∧ r.2.val * 2 + r.1.w.val + 2 ^ (-53 : ℤ) * 1024 ≤ 1024 ∧ r.2.val * 2 + r.1.h.val + 2 ^ (-53 : ℤ) * 1024 ≤ 1024 := by
  refine ⟨⟨by decide +kernel, by decide +kernel, by decide +kernel, by decide +kernel, by decide +kernel⟩, ?_⟩
  intro r hr
  simp only [sampleDoubles, List.map_cons, List.map_nil, List.mem_cons, List.not_mem_nil, or_false] at hr
  rcases hr with rfl | rfl | rfl <;> decide +kernel

/-- **C124.** (i) With doubles two objects can overlap: three objects on the default sheet of 20 by 12, of 9.5 by 0.7, 16.3 by 7.4 and 15.9 by 1.6. The third one
is put at a height of 8.1, and the exact sum of 0.7 and 7.4 (as doubles) is a little more than that. So C01 is false of doubles, and (d) cannot be improved to no
overlap at all. -/
theorem C124_overlap_false :
    ((newContainer (tenth 0) (tenth 0) (tenth 200) (tenth 120)).insertAll sampleDoubles).map (·.2) =
      some [some ⟨tenth 0, tenth 0, tenth 95, tenth 7, false⟩, some ⟨tenth 0, tenth 7, tenth 163, tenth 74, false⟩,
        some ⟨tenth 0, tenth 81, tenth 159, tenth 16, false⟩] ∧
    ¬(rectVal Double.val ⟨tenth 0, tenth 7, tenth 163, tenth 74, false⟩).Disjoint (rectVal Double.val ⟨tenth 0, tenth 81, tenth 159, tenth 16, false⟩) := by
  refine ⟨by decide +kernel, fun h => h 1 (((tenth 7).val + (tenth 74).val + (tenth 81).val) / 2) ?_⟩
  unfold Rect.Interior rectVal
  decide +kernel

/-- **C124.** (j) With doubles an object can stick out of the sheet: an object of 18 by 1.1 and one of 11.4 by 10.9 on the default sheet. So C02 is false of
doubles. -/
theorem C124_inside_false :
    ((newContainer (tenth 0) (tenth 0) (tenth 200) (tenth 120)).insertAll [⟨"a", tenth 180, tenth 11⟩, ⟨"b", tenth 114, tenth 109⟩]).map (·.2) =
      some [some ⟨tenth 0, tenth 0, tenth 180, tenth 11, false⟩, some ⟨tenth 0, tenth 11, tenth 114, tenth 109, false⟩] ∧
    ¬(rectVal Double.val ⟨tenth 0, tenth 11, tenth 114, tenth 109, false⟩).Within ⟨0, 0, 20, 12⟩ := by
  refine ⟨by decide +kernel, ?_⟩
  unfold Rect.Within rectVal
  decide +kernel

end BinPacking

end Verif
