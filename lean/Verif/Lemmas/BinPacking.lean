import Verif.Spec.Packing
import Mathlib.Data.List.Perm.Basic
import Mathlib.Tactic.Tauto
import Mathlib.Algebra.BigOperators.Group.List.Basic

/-! # Helper lemmas for bin packing -/

set_option linter.unusedSectionVars false
set_option linter.unusedSimpArgs false

namespace Verif.BinPacking

open Verif Verif.Spec

universe u v
variable {K : Type u} [Field K] [LinearOrder K] [IsStrictOrderedRing K] {O : Type v}

/-- The box of the root of a tree. -/
def Bin.box : Bin K O → Box K
  | .free b => b
  | .full b _ => b
  | .split b _ _ => b

/-- The tree invariant: the children of a split bin partition it. -/
def Bin.Inv : Bin K O → Prop
  | .free _ => True
  | .full _ _ => True
  | .split b l r => l.Inv ∧ r.Inv ∧ (rectOf l.box).Within (rectOf b) ∧ (rectOf r.box).Within (rectOf b) ∧
      (rectOf l.box).Disjoint (rectOf r.box) ∧ (rectOf l.box).area + (rectOf r.box).area = (rectOf b).area

theorem _root_.Verif.Spec.Rect.Within.trans {a b c : Rect K} (h : a.Within b) (h' : b.Within c) : a.Within c := by
  obtain ⟨h1, h2, h3, h4⟩ := h
  obtain ⟨k1, k2, k3, k4⟩ := h'
  exact ⟨k1.trans h1, h2.trans k2, k3.trans h3, h4.trans k4⟩

theorem _root_.Verif.Spec.Rect.Within.refl (a : Rect K) : a.Within a := ⟨le_rfl, le_rfl, le_rfl, le_rfl⟩

theorem _root_.Verif.Spec.Rect.Within.interior {a b : Rect K} (h : a.Within b) {px py : K} (hp : a.Interior px py) :
    b.Interior px py := by
  obtain ⟨h1, h2, h3, h4⟩ := h
  obtain ⟨k1, k2, k3, k4⟩ := hp
  exact ⟨h1.trans_lt k1, k2.trans_le h2, h3.trans_lt k3, k4.trans_le h4⟩

theorem _root_.Verif.Spec.Rect.Disjoint.mono {a b c d : Rect K} (h : c.Disjoint d) (ha : a.Within c) (hb : b.Within d) :
    a.Disjoint b := fun px py hp => h px py ⟨ha.interior hp.1, hb.interior hp.2⟩

theorem _root_.Verif.Spec.Rect.Disjoint.symm {a b : Rect K} (h : a.Disjoint b) : b.Disjoint a :=
  fun px py hp => h px py ⟨hp.2, hp.1⟩

theorem Bin.Inv.placed_within {t : Bin K O} (h : t.Inv) : ∀ p ∈ t.placed, (rectOf p.1).Within (rectOf t.box) := by
  induction t with
  | free b => simp [Bin.placed]
  | full b o => simp [Bin.placed, Bin.box, Rect.Within.refl]
  | split b l r ihl ihr =>
    obtain ⟨hl, hr, wl, wr, _, _⟩ := h
    intro p hp
    rcases List.mem_append.1 hp with hp | hp
    · exact (ihl hl p hp).trans wl
    · exact (ihr hr p hp).trans wr

theorem Bin.Inv.placed_disjoint {t : Bin K O} (h : t.Inv) :
    t.placed.Pairwise (fun p q => (rectOf p.1).Disjoint (rectOf q.1)) := by
  induction t with
  | free b => simp [Bin.placed]
  | full b o => simp [Bin.placed]
  | split b l r ihl ihr =>
    obtain ⟨hl, hr, wl, wr, d, _⟩ := h
    refine List.pairwise_append.2 ⟨ihl hl, ihr hr, fun p hp q hq => ?_⟩
    exact d.mono (Bin.Inv.placed_within hl p hp) (Bin.Inv.placed_within hr q hq)

/-- Sum of areas of free bins. -/
def Bin.emptyArea (t : Bin K O) : K := (t.empties.map fun b => (rectOf b).area).sum

theorem Bin.Inv.area {t : Bin K O} (h : t.Inv) :
    t.emptyArea + (t.placed.map fun p => (rectOf p.1).area).sum = (rectOf t.box).area := by
  induction t with
  | free b => simp [Bin.placed, Bin.emptyArea, Bin.empties, Bin.box]
  | full b o => simp [Bin.placed, Bin.emptyArea, Bin.empties, Bin.box]
  | split b l r ihl ihr =>
    obtain ⟨hl, hr, wl, wr, _, ha⟩ := h
    have h1 := ihl hl
    have h2 := ihr hr
    simp only [Bin.placed, Bin.emptyArea, Bin.empties, Bin.box, List.map_append, List.sum_append] at *
    rw [← ha, ← h1, ← h2]
    ring

/-- How many sides of the bin differ from the size looked for. -/
def sidesOff (b : Box K) (W H : K) : Nat :=
  (if b.height = H then 0 else 1) + (if b.width = W then 0 else 1)

theorem sidesOff_le (b : Box K) (W H : K) : sidesOff b W H ≤ 2 := by
  unfold sidesOff; split <;> split <;> omega

theorem orient_some {b : Box K} {w h : K} {rot : Bool} {W H : K} (ho : orient b w h = some (rot, W, H)) :
    W ≤ b.width ∧ H ≤ b.height ∧
      ((rot = false ∧ W = w ∧ H = h) ∨ (rot = true ∧ W = h ∧ H = w ∧ (b.height < h ∨ b.width < w))) := by
  unfold orient tooSmall at ho
  simp only [Arith.lt_field, Bool.or_eq_true, decide_eq_true_eq] at ho
  split at ho
  · split at ho
    · simp at ho
    · simp only [Option.some.injEq, Prod.mk.injEq] at ho
      obtain ⟨rfl, rfl, rfl⟩ := ho
      rename_i h1 h2
      push Not at h2
      exact ⟨h2.2, h2.1, Or.inr ⟨rfl, rfl, rfl, h1⟩⟩
  · simp only [Option.some.injEq, Prod.mk.injEq] at ho
    obtain ⟨rfl, rfl, rfl⟩ := ho
    rename_i h1
    push Not at h1
    exact ⟨h1.2, h1.1, Or.inl ⟨rfl, rfl, rfl⟩⟩

theorem orient_none {b : Box K} {w h : K} : orient b w h = none ↔ ¬ Fits (rectOf b) w h := by
  unfold orient tooSmall Fits rectOf
  simp only [Arith.lt_field, Bool.or_eq_true, decide_eq_true_eq]
  split
  · split
    · simp only [true_iff]
      rename_i h1 h2
      rintro (⟨h3, h4⟩ | ⟨h3, h4⟩)
      · rcases h1 with h1 | h1
        · exact absurd h1 (not_lt.2 h4)
        · exact absurd h1 (not_lt.2 h3)
      · rcases h2 with h1 | h1
        · exact absurd h1 (not_lt.2 h4)
        · exact absurd h1 (not_lt.2 h3)
    · rename_i h1 h2
      push Not at h2
      simp only [reduceCtorEq, false_iff, not_not]
      exact Or.inr ⟨h2.2, h2.1⟩
  · rename_i h1
    push Not at h1
    simp only [reduceCtorEq, false_iff, not_not]
    exact Or.inl ⟨h1.2, h1.1⟩

theorem orient_split {b : Box K} {w h : K} {rot : Bool} {W H : K} (ho : orient b w h = some (rot, W, H)) (rot' : Bool) :
    orient (splitBoxes b rot' W H).1 w h = some (rot, W, H) := by
  obtain ⟨hW, hH, hc⟩ := orient_some ho
  unfold splitBoxes
  simp only [Arith.sub_field, Arith.lt_field, Arith.add_field, decide_eq_true_eq]
  rcases hc with ⟨rfl, rfl, rfl⟩ | ⟨rfl, rfl, rfl, hts⟩
  · split <;> simp [orient, tooSmall, hW, hH]
  · split
    · have : b.height < W ∨ W < H := by
        rcases hts with h | h
        · exact Or.inl h
        · exact Or.inr (lt_of_le_of_lt hW h)
      simp [orient, tooSmall, this, hH]
    · have : H < W ∨ b.width < H := by
        rcases hts with h | h
        · exact Or.inl (lt_of_le_of_lt hH h)
        · exact Or.inr h
      simp [orient, tooSmall, this, hW]

theorem sidesOff_split {b : Box K} {W H : K} (hW : W ≤ b.width) (hH : H ≤ b.height)
    (hne : ¬ (b.height = H ∧ b.width = W)) (rot' : Bool) :
    sidesOff (splitBoxes b rot' W H).1 W H < sidesOff b W H := by
  unfold splitBoxes sidesOff
  simp only [Arith.sub_field, Arith.lt_field, Arith.add_field, decide_eq_true_eq]
  by_cases hlt : b.height - H < b.width - W
  · have : b.width ≠ W := by
      intro h; rw [h] at hlt; linarith
    simp [hlt, this]
  · have : b.height ≠ H := by
      intro h
      apply hne ⟨h, ?_⟩
      rw [h] at hlt
      linarith
    simp [hlt, this]

/-- The geometry of a split. -/
theorem split_geometry {b : Box K} {W H : K} (hW0 : 0 ≤ W) (hH0 : 0 ≤ H) (hW : W ≤ b.width) (hH : H ≤ b.height)
    (rot' : Bool) :
    let s := splitBoxes b rot' W H
    (rectOf s.1).Within (rectOf b) ∧ (rectOf s.2).Within (rectOf b) ∧ (rectOf s.1).Disjoint (rectOf s.2) ∧
      (rectOf s.1).area + (rectOf s.2).area = (rectOf b).area := by
  unfold splitBoxes
  simp only [Arith.sub_field, Arith.lt_field, Arith.add_field, decide_eq_true_eq]
  split
  · refine ⟨⟨le_rfl, ?_, le_rfl, le_rfl⟩, ⟨?_, ?_, le_rfl, le_rfl⟩, ?_, ?_⟩
    · simp [rectOf, hW]
    · simp [rectOf, hW0]
    · simp [rectOf]
    · rintro px py ⟨⟨_, h1, _⟩, ⟨h2, _⟩⟩
      exact absurd h1 (not_lt.2 h2.le)
    · simp only [rectOf, Rect.area]; ring
  · refine ⟨⟨le_rfl, le_rfl, le_rfl, ?_⟩, ⟨le_rfl, le_rfl, ?_, ?_⟩, ?_, ?_⟩
    · simp [rectOf, hH]
    · simp [rectOf, hH0]
    · simp [rectOf]
    · rintro px py ⟨⟨_, _, _, h1⟩, ⟨_, _, h2, _⟩⟩
      exact absurd h1 (not_lt.2 h2.le)
    · simp only [rectOf, Rect.area]; ring

theorem degenerate_iff {w h : K} : degenerate w h = true ↔ w = 0 ∨ h = 0 := by
  simp [degenerate, Arith.zero]

/-- A free bin that fits the object takes it, within a recursion depth of the number of sides that have to be cut, plus one. -/
theorem insertFree_fits {w h : K} (hw : 0 ≤ w) (hh : 0 ≤ h) (hd : ¬ (w = 0 ∨ h = 0)) {rot : Bool} {W H : K} (o : O) :
    ∀ (fuel : Nat) (b : Box K), orient b w h = some (rot, W, H) → sidesOff b W H < fuel →
    ∃ t at_, insertFree fuel b o w h = some (t, some at_) ∧ t.box = b ∧ t.Inv ∧ t.placed = [(at_, o)] ∧
      at_.x = b.x ∧ at_.y = b.y ∧ at_.width = W ∧ at_.height = H ∧
      (at_ = b ∨ at_.rotated = rot) ∧ (¬ (b.height = H ∧ b.width = W) → at_.rotated = rot) := by
  intro fuel
  induction fuel with
  | zero => intro b _ h; exact absurd h (Nat.not_lt_zero _)
  | succ n ih =>
    intro b ho hs
    obtain ⟨hW, hH, hc⟩ := orient_some ho
    have hW0 : 0 ≤ W := by rcases hc with ⟨_, rfl, rfl⟩ | ⟨_, rfl, rfl, _⟩ <;> assumption
    have hH0 : 0 ≤ H := by rcases hc with ⟨_, rfl, rfl⟩ | ⟨_, rfl, rfl, _⟩ <;> assumption
    have hd' : degenerate w h = false := by
      rw [Bool.eq_false_iff]; intro hh; exact hd (degenerate_iff.1 hh)
    by_cases he : b.height = H ∧ b.width = W
    · refine ⟨.full b o, b, ?_, rfl, trivial, rfl, rfl, rfl, he.2, he.1, Or.inl rfl, fun h => absurd he h⟩
      simp [insertFree, hd', ho, he]
    · have hlt := sidesOff_split hW hH he rot
      obtain ⟨t, at_, h1, h2, h3, h4, h5, h6, h7, h8, h9, h10⟩ := ih (splitBoxes b rot W H).1 (orient_split ho rot)
        (by omega)
      obtain ⟨g1, g2, g3, g4⟩ := split_geometry hW0 hH0 hW hH rot
      refine ⟨.split b t (.free (splitBoxes b rot W H).2), at_, ?_, rfl, ?_, ?_, ?_, ?_, h7, h8, Or.inr ?_, fun _ => ?_⟩
      · have he' : ((b.height ==. H) && (b.width ==. W)) = false := by
          simpa using he
        simp only [insertFree, hd', ho, he', h1, Bool.false_eq_true, if_false]
      · simp only [Bin.Inv, h2]
        exact ⟨h3, trivial, g1, g2, g3, g4⟩
      · simp [Bin.placed, h4]
      · rw [h5]; unfold splitBoxes; split <;> rfl
      · rw [h6]; unfold splitBoxes; split <;> rfl
      all_goals
        rcases h9 with h9 | h9
        · rw [h9]; unfold splitBoxes; split <;> rfl
        · exact h9

theorem insertFree_not_fits {w h : K} (o : O) (n : Nat) (b : Box K) (hf : w = 0 ∨ h = 0 ∨ ¬ Fits (rectOf b) w h) :
    insertFree (n + 1) b o w h = some (.free b, none) := by
  unfold insertFree
  by_cases hd : degenerate w h = true
  · simp [hd]
  · rw [degenerate_iff] at hd
    have hd' : degenerate w h = false := by
      rw [Bool.eq_false_iff]; intro hh; exact hd (degenerate_iff.1 hh)
    have : orient b w h = none := orient_none.2 (by tauto)
    simp [hd', this]

theorem insertFree_depth {w h : K} (hw : 0 ≤ w) (hh : 0 ≤ h) (o : O) (n : Nat) (hn : 3 ≤ n) (b : Box K) :
    insertFree n b o w h = insertFree 3 b o w h := by
  have mono : ∀ (n : Nat) (b : Box K) out, insertFree n b o w h = some out → insertFree (n + 1) b o w h = some out := by
    intro n
    induction n with
    | zero => intro b out h; simp [insertFree] at h
    | succ n ih =>
      intro b out hout
      rw [insertFree] at hout ⊢
      by_cases hd : degenerate w h = true
      · simpa [hd] using hout
      · simp only [hd, Bool.false_eq_true, if_false] at hout ⊢
        cases ho : orient b w h with
        | none => simpa [ho] using hout
        | some p =>
          obtain ⟨rot, W, H⟩ := p
          simp only [ho] at hout ⊢
          by_cases he : ((b.height ==. H) && (b.width ==. W)) = true
          · rw [if_pos he] at hout ⊢; exact hout
          · rw [if_neg he] at hout ⊢
            cases hi : insertFree n (splitBoxes b rot W H).1 o w h with
            | none => simp [hi] at hout
            | some q => simpa [hi, ih _ _ hi] using hout
  have le : ∀ (m : Nat) out, insertFree 3 b o w h = some out → insertFree (3 + m) b o w h = some out := by
    intro m
    induction m with
    | zero => intro out h; exact h
    | succ m ih => intro out h; exact mono _ _ _ (ih out h)
  have hsome : ∃ out, insertFree 3 b o w h = some out := by
    by_cases hd : w = 0 ∨ h = 0
    · exact ⟨_, insertFree_not_fits o 2 b (by tauto)⟩
    · by_cases hf : Fits (rectOf b) w h
      · have hs : orient b w h ≠ none := fun h' => (orient_none.1 h') hf
        obtain ⟨⟨rot, W, H⟩, ho⟩ := Option.ne_none_iff_exists'.1 hs
        obtain ⟨t', at_, h1, _⟩ := insertFree_fits hw hh hd o 3 b ho (by have := sidesOff_le b W H; omega)
        exact ⟨_, h1⟩
      · exact ⟨_, insertFree_not_fits o 2 b (by tauto)⟩
  obtain ⟨out, hout⟩ := hsome
  obtain ⟨m, rfl⟩ : ∃ m, n = 3 + m := ⟨n - 3, by omega⟩
  rw [hout, le m out hout]

/-- What one call of `Bin.Insert` does, for sizes that are not negative. -/
theorem insert_spec (n : Nat) (hn : 3 ≤ n) {w h : K} (hw : 0 ≤ w) (hh : 0 ≤ h) (o : O) (t : Bin K O) (ht : t.Inv) :
    (∃ t' at_, t.insert n o w h = some (t', some at_) ∧ t'.box = t.box ∧ t'.Inv ∧
        t'.placed.Perm ((at_, o) :: t.placed) ∧ ¬ (w = 0 ∨ h = 0) ∧
        (∃ b ∈ t.empties, at_.x = b.x ∧ at_.y = b.y ∧
          ((at_.width = w ∧ at_.height = h ∧ w ≤ b.width ∧ h ≤ b.height ∧
              (¬ (b.height = h ∧ b.width = w) → at_.rotated = false)) ∨
           (at_.width = h ∧ at_.height = w ∧ h ≤ b.width ∧ w ≤ b.height ∧ (b.height < h ∨ b.width < w) ∧
              (¬ (b.height = w ∧ b.width = h) → at_.rotated = true))))) ∨
    (t.insert n o w h = some (t, none) ∧ ((w = 0 ∨ h = 0) ∨ ∀ b ∈ t.empties, ¬ Fits (rectOf b) w h)) := by
  induction t with
  | free b =>
    by_cases hd : w = 0 ∨ h = 0
    · right
      obtain ⟨m, rfl⟩ : ∃ m, n = m + 1 := ⟨n - 1, by omega⟩
      exact ⟨insertFree_not_fits o m b (by tauto), Or.inl hd⟩
    · by_cases hf : Fits (rectOf b) w h
      · left
        have hs : orient b w h ≠ none := by
          intro h'; exact (orient_none.1 h') hf
        obtain ⟨⟨rot, W, H⟩, ho⟩ := Option.ne_none_iff_exists'.1 hs
        obtain ⟨t', at_, h1, h2, h3, h4, h5, h6, h7, h8, h9, h10⟩ := insertFree_fits hw hh hd o n b ho
          (by have := sidesOff_le b W H; omega)
        refine ⟨t', at_, h1, h2, h3, ?_, hd, b, ?_, h5, h6, ?_⟩
        · rw [h4]; simp [Bin.placed]
        · simp [Bin.empties]
        · obtain ⟨hW, hH, hc⟩ := orient_some ho
          rcases hc with ⟨rfl, rfl, rfl⟩ | ⟨rfl, rfl, rfl, hts⟩
          · exact Or.inl ⟨h7, h8, hW, hH, h10⟩
          · exact Or.inr ⟨h7, h8, hW, hH, hts, h10⟩
      · right
        obtain ⟨m, rfl⟩ : ∃ m, n = m + 1 := ⟨n - 1, by omega⟩
        refine ⟨insertFree_not_fits o m b (by tauto), Or.inr ?_⟩
        simpa [Bin.empties] using hf
  | full b o' =>
    right
    exact ⟨rfl, Or.inr (by simp [Bin.empties])⟩
  | split b l r ihl ihr =>
    obtain ⟨hl, hr, wl, wr, hdj, ha⟩ := ht
    rcases ihl hl with ⟨l', at_, h1, h2, h3, h4, h5, b', hb', h6⟩ | ⟨h1, h2⟩
    · left
      refine ⟨.split b l' r, at_, ?_, rfl, ?_, ?_, h5, b', ?_, h6⟩
      · simp [Bin.insert, h1]
      · simp only [Bin.Inv, h2]; exact ⟨h3, hr, wl, wr, hdj, ha⟩
      · simpa [Bin.placed] using h4.append_right r.placed
      · simp [Bin.empties, hb']
    · rcases ihr hr with ⟨r', at_, k1, k2, k3, k4, k5, b', hb', k6⟩ | ⟨k1, k2⟩
      · left
        refine ⟨.split b l r', at_, ?_, rfl, ?_, ?_, k5, b', ?_, k6⟩
        · simp [Bin.insert, h1, k1]
        · simp only [Bin.Inv, k2]; exact ⟨hl, k3, wl, wr, hdj, ha⟩
        · refine (k4.append_left l.placed).trans ?_
          simp [Bin.placed]
        · simp [Bin.empties, hb']
      · right
        refine ⟨by simp [Bin.insert, h1, k1], ?_⟩
        rcases h2 with h2 | h2
        · exact Or.inl h2
        · rcases k2 with k2 | k2
          · exact Or.inl k2
          · refine Or.inr fun b' hb' => ?_
            rcases List.mem_append.1 hb' with hb' | hb'
            · exact h2 b' hb'
            · exact k2 b' hb'

/-- What one call of `Container.Insert` does. -/
theorem container_insert_spec {w h : K} (hw : 0 ≤ w) (hh : 0 ≤ h) (o : O) (c : Container K O) (ht : c.root.Inv) :
    (∃ c' at_, c.insert o w h = some (c', some at_) ∧ c'.root.box = c.root.box ∧ c'.root.Inv ∧
        c'.root.placed.Perm ((at_, o) :: c.root.placed) ∧ ¬ (w = 0 ∨ h = 0) ∧
        (∃ b ∈ c.emptyBins, at_.x = b.x ∧ at_.y = b.y ∧
          ((at_.width = w ∧ at_.height = h ∧ w ≤ b.width ∧ h ≤ b.height ∧
              (¬ (b.height = h ∧ b.width = w) → at_.rotated = false)) ∨
           (at_.width = h ∧ at_.height = w ∧ h ≤ b.width ∧ w ≤ b.height ∧ (b.height < h ∨ b.width < w) ∧
              (¬ (b.height = w ∧ b.width = h) → at_.rotated = true))))) ∨
    (c.insert o w h = some (c, none) ∧ ((w = 0 ∨ h = 0) ∨ ∀ b ∈ c.emptyBins, ¬ Fits (rectOf b) w h)) := by
  rcases insert_spec splitDepth (le_refl 3) hw hh o c.root ht with ⟨t', at_, h1, h2⟩ | ⟨h1, h2⟩
  · left
    exact ⟨{ c with root := t' }, at_, by simp [Container.insert, h1], h2⟩
  · right
    exact ⟨by simp [Container.insert, h1], h2⟩

/-- What a history of calls does. -/
theorem insertAll_spec (reqs : List (Request K O)) (hr : ∀ r ∈ reqs, 0 ≤ r.w ∧ 0 ≤ r.h) :
    ∀ (c : Container K O), c.root.Inv → ∃ c' results, c.insertAll reqs = some (c', results) ∧
      c'.root.box = c.root.box ∧ c'.root.Inv ∧
      c'.root.placed.Perm ((accepted reqs results).map (fun p => (p.2, p.1.obj)) ++ c.root.placed) ∧
      List.Forall₂ (fun r res => ∀ b, res = some b →
        (b.width = r.w ∧ b.height = r.h) ∨ (b.width = r.h ∧ b.height = r.w)) reqs results ∧
      (∀ p ∈ accepted reqs results, p.1 ∈ reqs ∧ ¬ (p.1.w = 0 ∨ p.1.h = 0) ∧
        ((p.2.width = p.1.w ∧ p.2.height = p.1.h) ∨ (p.2.width = p.1.h ∧ p.2.height = p.1.w))) := by
  induction reqs with
  | nil => intro c hc; exact ⟨c, [], rfl, rfl, hc, by simp [accepted], .nil, by simp [accepted]⟩
  | cons r rs ih =>
    intro c hc
    obtain ⟨hw, hh⟩ := hr r (by simp)
    have ih' := ih (fun r' h' => hr r' (by simp [h']))
    rcases container_insert_spec hw hh r.obj c hc with ⟨c1, at_, h1, h2, h3, h4, h5, b, hb, h6⟩ | ⟨h1, h2⟩
    · obtain ⟨c', results, k1, k2, k3, k4, k5, k6⟩ := ih' c1 h3
      refine ⟨c', some at_ :: results, by simp [Container.insertAll, h1, k1], k2.trans h2, k3, ?_, ?_, ?_⟩
      · refine k4.trans ((h4.append_left _).trans ?_)
        simp [accepted]
      · refine .cons ?_ k5
        rintro b' ⟨⟩
        rcases h6 with ⟨_, _, h6 | h6⟩
        · exact Or.inl ⟨h6.1, h6.2.1⟩
        · exact Or.inr ⟨h6.1, h6.2.1⟩
      · intro p hp
        simp only [accepted, List.mem_cons] at hp
        rcases hp with rfl | hp
        · refine ⟨by simp, h5, ?_⟩
          rcases h6 with ⟨_, _, h6 | h6⟩
          · exact Or.inl ⟨h6.1, h6.2.1⟩
          · exact Or.inr ⟨h6.1, h6.2.1⟩
        · obtain ⟨q1, q2⟩ := k6 p hp
          exact ⟨by simp [q1], q2⟩
    · obtain ⟨c', results, k1, k2, k3, k4, k5, k6⟩ := ih' c hc
      refine ⟨c', none :: results, by simp [Container.insertAll, h1, k1], k2, k3, ?_, ?_, ?_⟩
      · simpa [accepted] using k4
      · exact .cons (by simp) k5
      · intro p hp
        obtain ⟨q1, q2⟩ := k6 p (by simpa [accepted] using hp)
        exact ⟨by simp [q1], q2⟩

theorem newContainer_inv (x y W H : K) : (newContainer x y W H : Container K O).root.Inv := trivial

theorem Reachable.inv {c : Container K O} (h : Reachable c) : c.root.Inv := by
  obtain ⟨x, y, W, H, reqs, results, hr, hrun⟩ := h
  obtain ⟨c', results', h1, _, h3, _⟩ := insertAll_spec reqs hr (newContainer x y W H) trivial
  rw [h1] at hrun
  simp only [Option.some.injEq, Prod.mk.injEq] at hrun
  rw [← hrun.1]; exact h3

theorem accepted_map_snd {R : Request K O → Option (Box K) → Prop} {reqs : List (Request K O)}
    {results : List (Option (Box K))} (h : List.Forall₂ R reqs results) :
    (accepted reqs results).map (·.2) = results.filterMap id := by
  induction h with
  | nil => rfl
  | @cons r res rs ress _ _ ih => cases res <;> simp [accepted, ih]

/-- What a history of padded calls does. -/
theorem insertAllPadded_spec (reqs : List (Request K O × K)) (hr : ∀ r ∈ reqs, 0 ≤ r.1.w ∧ 0 ≤ r.1.h ∧ 0 ≤ r.2) :
    ∀ c : Container K O, c.root.Inv → ∃ c' results, ∃ foot : List (Option (Rect K × K)),
      c.insertAllPadded reqs = some (c', results) ∧ c'.root.box = c.root.box ∧ c'.root.Inv ∧
      List.Forall₂ (fun p f => (p.2 = none ∧ f = none) ∨ ∃ b r, p.2 = some b ∧ f = some (r, p.1.2) ∧
          r.x = b.x ∧ r.y = b.y ∧ ((r.w = p.1.1.w ∧ r.h = p.1.1.h) ∨ (r.w = p.1.1.h ∧ r.h = p.1.1.w)))
        (reqs.zip results) foot ∧
      results.length = reqs.length ∧
      (c'.root.placed.map fun p => rectOf p.1).Perm
        ((foot.filterMap id).map (fun f => f.1.grow f.2) ++ c.root.placed.map fun p => rectOf p.1) ∧
      (∀ f ∈ foot.filterMap id, 0 < (f.1.grow f.2).w ∧ 0 < (f.1.grow f.2).h) := by
  induction reqs with
  | nil => intro c hc; exact ⟨c, [], [], rfl, rfl, hc, .nil, rfl, by simp, by simp⟩
  | cons r rs ih =>
    intro c hc
    obtain ⟨r, pad⟩ := r
    obtain ⟨hw, hh, hp⟩ := hr (r, pad) (by simp)
    simp only at hw hh hp
    have ih' := ih (fun r' h' => hr r' (by simp [h']))
    have h2 : (Arith.two : K) = 2 := by simp [Arith.two]
    have hw' : 0 ≤ pad * 2 + r.w := by positivity
    have hh' : 0 ≤ pad * 2 + r.h := by positivity
    rcases container_insert_spec hw' hh' r.obj c hc with ⟨c1, at_, h1, e2, h3, h4, h5, b, hb, h6⟩ | ⟨h1, _⟩
    · obtain ⟨c', results, foot, k1, k2, k3, k4, k5, k6, k7⟩ := ih' c1 h3
      have hdim : (at_.width = pad * 2 + r.w ∧ at_.height = pad * 2 + r.h) ∨
          (at_.width = pad * 2 + r.h ∧ at_.height = pad * 2 + r.w) := by
        rcases h6 with ⟨_, _, h6 | h6⟩
        · exact Or.inl ⟨h6.1, h6.2.1⟩
        · exact Or.inr ⟨h6.1, h6.2.1⟩
      have hgrow : (Rect.mk (at_.x + pad) (at_.y + pad) (at_.width - pad * 2) (at_.height - pad * 2)).grow pad
          = rectOf at_ := by
        simp only [Rect.grow, rectOf, Rect.mk.injEq]
        refine ⟨by ring, by ring, by ring, by ring⟩
      refine ⟨c', some ⟨at_.x + pad, at_.y + pad, r.w, r.h, at_.rotated⟩ :: results,
        some (⟨at_.x + pad, at_.y + pad, at_.width - pad * 2, at_.height - pad * 2⟩, pad) :: foot,
        ?_, k2.trans e2, k3, ?_, by simp [k5], ?_, ?_⟩
      · simp [Container.insertAllPadded, Container.insertWithPadding, h2, h1, k1]
      · refine .cons (Or.inr ⟨_, _, rfl, rfl, rfl, rfl, ?_⟩) k4
        rcases hdim with ⟨e1, e2⟩ | ⟨e1, e2⟩
        · left; simp [e1, e2]
        · right; simp [e1, e2]
      · refine k6.trans ?_
        refine ((h4.map _).append_left _).trans ?_
        simp [hgrow]
      · intro f hf
        simp only [List.filterMap_cons, id, List.mem_cons] at hf
        rcases hf with rfl | hf
        · simp only [hgrow]
          have q1 : 0 < pad * 2 + r.w := lt_of_le_of_ne hw' (fun h => h5 (Or.inl h.symm))
          have q2 : 0 < pad * 2 + r.h := lt_of_le_of_ne hh' (fun h => h5 (Or.inr h.symm))
          rcases hdim with ⟨e1, e2⟩ | ⟨e1, e2⟩
          · simp only [rectOf, e1, e2]; exact ⟨q1, q2⟩
          · simp only [rectOf, e1, e2]; exact ⟨q2, q1⟩
        · exact k7 f hf
    · obtain ⟨c', results, foot, k1, k2, k3, k4, k5, k6, k7⟩ := ih' c hc
      refine ⟨c', none :: results, none :: foot, ?_, k2, k3, ?_, by simp [k5], ?_, ?_⟩
      · simp [Container.insertAllPadded, Container.insertWithPadding, h2, h1, k1]
      · exact .cons (Or.inl ⟨rfl, rfl⟩) k4
      · simpa using k6
      · intro f hf
        exact k7 f (by simpa using hf)

/-- Two rectangles of positive size without common interior point are apart horizontally or vertically. -/
theorem _root_.Verif.Spec.Rect.Disjoint.apart {r s : Rect K} (h : r.Disjoint s) (hrw : 0 < r.w) (hrh : 0 < r.h)
    (hsw : 0 < s.w) (hsh : 0 < s.h) : r.Apart s 0 := by
  by_contra hc
  simp only [Rect.Apart, add_zero, not_or, not_le] at hc
  obtain ⟨h1, h2, h3, h4⟩ := hc
  have hx : max r.x s.x < min (r.x + r.w) (s.x + s.w) :=
    max_lt (lt_min (by linarith) h2) (lt_min h1 (by linarith))
  have hy : max r.y s.y < min (r.y + r.h) (s.y + s.h) :=
    max_lt (lt_min (by linarith) h4) (lt_min h3 (by linarith))
  obtain ⟨px, hx1, hx2⟩ := exists_between hx
  obtain ⟨py, hy1, hy2⟩ := exists_between hy
  rw [max_lt_iff] at hx1 hy1
  rw [lt_min_iff] at hx2 hy2
  exact h px py ⟨⟨hx1.1, hx2.1, hy1.1, hy2.1⟩, ⟨hx1.2, hx2.2, hy1.2, hy2.2⟩⟩

end Verif.BinPacking
