import Verif.Spec.Rounded
import Verif.Lemmas.BinPacking

/-! # Helper lemmas for packing with rounding -/

set_option linter.unusedSectionVars false

namespace Verif.BinPacking

open Verif Verif.Spec

universe u v w
variable {F : Type u} [Arith F] {K : Type v} [Field K] [LinearOrder K] [IsStrictOrderedRing K] {O : Type w}

/-- The box of the root of a tree. -/
def Bin.top : Bin F O → Box F
  | .free b => b
  | .full b _ => b
  | .split b _ _ => b

def Bin.depth : Bin F O → Nat
  | .free _ => 0
  | .full _ _ => 0
  | .split _ l r => max l.depth r.depth + 1

/-- How the children of a split bin lie in it, up to rounding. -/
def Halves (val : F → K) (ε : K) (b l r : Box F) : Prop :=
  (l.x = b.x ∧ l.y = b.y ∧ r.y = b.y ∧ val l.height = val b.height ∧ val r.height = val b.height ∧ 0 ≤ val l.width ∧ val l.width ≤ val b.width ∧
    |val r.x - (val b.x + val l.width)| ≤ ε ∧ |val r.width - (val b.width - val l.width)| ≤ ε ∧ 0 ≤ val r.width ∧ val r.width ≤ val b.width) ∨
  (l.y = b.y ∧ l.x = b.x ∧ r.x = b.x ∧ val l.width = val b.width ∧ val r.width = val b.width ∧ 0 ≤ val l.height ∧ val l.height ≤ val b.height ∧
    |val r.y - (val b.y + val l.height)| ≤ ε ∧ |val r.height - (val b.height - val l.height)| ≤ ε ∧ 0 ≤ val r.height ∧ val r.height ≤ val b.height)

/-- A box of finite numbers with sides that are not negative. -/
structure Good (fin : F → Prop) (val : F → K) (b : Box F) : Prop where
  x : fin b.x
  y : fin b.y
  w : fin b.width
  h : fin b.height
  w0 : 0 ≤ val b.width
  h0 : 0 ≤ val b.height

/-- The tree invariant with rounding. -/
def Bin.Close (fin : F → Prop) (val : F → K) (ε : K) : Bin F O → Prop
  | .free b => Good fin val b
  | .full b _ => Good fin val b
  | .split b l r => Good fin val b ∧ l.Close fin val ε ∧ r.Close fin val ε ∧ Halves val ε b l.top r.top

variable {fin : F → Prop} {val : F → K} {M ε : K}

/-- All boxes of a tree: those of its objects and the free ones. -/
def Bin.boxes (t : Bin F O) : List (Box F) := t.placed.map (·.1) ++ t.empties

theorem mem_boxes {b : Box F} {l r : Bin F O} {p : Box F} : p ∈ (Bin.split b l r).boxes ↔ p ∈ l.boxes ∨ p ∈ r.boxes := by
  simp only [Bin.boxes, Bin.placed, Bin.empties, List.map_append, List.mem_append]
  tauto

theorem grow_within {r s q : Rect K} {d e : K} (h : r.Within (s.grow d)) (h' : s.Within (q.grow e)) : r.Within (q.grow (d + e)) := by
  obtain ⟨h1, h2, h3, h4⟩ := h
  obtain ⟨k1, k2, k3, k4⟩ := h'
  simp only [Rect.grow] at *
  refine ⟨?_, ?_, ?_, ?_⟩ <;> linarith

theorem Halves.left {b l r : Box F} (h : Halves val ε b l r) : (rectVal val l).Within (rectVal val b) := by
  rcases h with ⟨h1, h2, h3, h4, h5, h6, h7, h8, h9, h10, h11⟩ | ⟨h1, h2, h3, h4, h5, h6, h7, h8, h9, h10, h11⟩ <;>
  · simp only [Rect.Within, rectVal, h1, h2, h4]
    refine ⟨le_rfl, ?_, le_rfl, ?_⟩ <;> linarith

theorem Halves.right {b l r : Box F} (hε : 0 ≤ ε) (h : Halves val ε b l r) : (rectVal val r).Within ((rectVal val b).grow (2 * ε)) := by
  rcases h with ⟨h1, h2, h3, h4, h5, h6, h7, h8, h9, h10, h11⟩ | ⟨h1, h2, h3, h4, h5, h6, h7, h8, h9, h10, h11⟩ <;>
  · rw [abs_le] at h8 h9
    simp only [Rect.Within, rectVal, Rect.grow, h3, h5]
    refine ⟨?_, ?_, ?_, ?_⟩ <;> linarith [h8.1, h8.2, h9.1, h9.2]

theorem Halves.sizes {b l r : Box F} (h : Halves val ε b l r) :
    (val l.width ≤ val b.width ∧ val l.height ≤ val b.height) ∧ val r.width ≤ val b.width ∧ val r.height ≤ val b.height := by
  rcases h with ⟨h1, h2, h3, h4, h5, h6, h7, h8, h9, h10, h11⟩ | ⟨h1, h2, h3, h4, h5, h6, h7, h8, h9, h10, h11⟩
  · exact ⟨⟨h7, h4.le⟩, h11, h5.le⟩
  · exact ⟨⟨h4.le, h7⟩, h5.le, h11⟩

theorem within_grow {r s : Rect K} {d : K} (hd : 0 ≤ d) (h : r.Within s) : r.Within (s.grow d) := by
  obtain ⟨h1, h2, h3, h4⟩ := h
  simp only [Rect.Within, Rect.grow]
  refine ⟨?_, ?_, ?_, ?_⟩ <;> linarith

theorem grow_mono {r s : Rect K} {d e : K} (hd : d ≤ e) (h : r.Within (s.grow d)) : r.Within (s.grow e) := by
  obtain ⟨h1, h2, h3, h4⟩ := h
  simp only [Rect.Within, Rect.grow] at *
  refine ⟨?_, ?_, ?_, ?_⟩ <;> linarith

/-- Every box of the tree is inside of the root but for twice the depth, and not larger than it. -/
theorem close_within (hε : 0 ≤ ε) {t : Bin F O} (h : t.Close fin val ε) : ∀ p ∈ t.boxes,
    (rectVal val p).Within ((rectVal val t.top).grow (2 * t.depth * ε)) ∧ val p.width ≤ val t.top.width ∧ val p.height ≤ val t.top.height ∧
      Good fin val p := by
  induction t with
  | free b =>
    intro p hp
    have : p = b := by simpa [Bin.boxes, Bin.placed, Bin.empties] using hp
    subst this
    exact ⟨within_grow (by simp [Bin.depth]) (.refl _), le_rfl, le_rfl, h⟩
  | full b o =>
    intro p hp
    have : p = b := by simpa [Bin.boxes, Bin.placed, Bin.empties] using hp
    subst this
    exact ⟨within_grow (by simp [Bin.depth]) (.refl _), le_rfl, le_rfl, h⟩
  | split b l r ihl ihr =>
    obtain ⟨_, hl, hr, hh⟩ := h
    intro p hp
    have hd : (((Bin.split b l r).depth : Nat) : K) = max (l.depth : K) (r.depth : K) + 1 := by simp [Bin.depth]
    rcases mem_boxes.1 hp with hp | hp
    · obtain ⟨i1, i2, i3, i4⟩ := ihl hl p hp
      refine ⟨grow_mono ?_ (grow_within i1 (within_grow le_rfl hh.left)), i2.trans hh.sizes.1.1, i3.trans hh.sizes.1.2, i4⟩
      rw [hd, add_zero]
      have := le_max_left (l.depth : K) (r.depth : K)
      nlinarith
    · obtain ⟨i1, i2, i3, i4⟩ := ihr hr p hp
      refine ⟨grow_mono ?_ (grow_within i1 (hh.right hε)), i2.trans hh.sizes.2.1, i3.trans hh.sizes.2.2, i4⟩
      rw [hd]
      have := le_max_right (l.depth : K) (r.depth : K)
      nlinarith

theorem apart_mono {r s : Rect K} {d e : K} (hd : e ≤ d) (h : r.Apart s d) : r.Apart s e := by
  rcases h with h | h | h | h
  · exact .inl (by linarith)
  · exact .inr (.inl (by linarith))
  · exact .inr (.inr (.inl (by linarith)))
  · exact .inr (.inr (.inr (by linarith)))

/-- Two objects of the tree overlap by at most four times the depth. -/
theorem close_apart (hε : 0 ≤ ε) {t : Bin F O} (h : t.Close fin val ε) :
    t.placed.Pairwise fun p q => (rectVal val p.1).Apart (rectVal val q.1) (-(4 * t.depth * ε)) := by
  induction t with
  | free b => simp [Bin.placed]
  | full b o => simp [Bin.placed]
  | split b l r ihl ihr =>
    obtain ⟨_, hl, hr, hh⟩ := h
    have hd : (((Bin.split b l r).depth : Nat) : K) = max (l.depth : K) (r.depth : K) + 1 := by simp [Bin.depth]
    have ml := le_max_left (l.depth : K) (r.depth : K)
    have mr := le_max_right (l.depth : K) (r.depth : K)
    have cl : (0 : K) ≤ l.depth := Nat.cast_nonneg _
    have cr : (0 : K) ≤ r.depth := Nat.cast_nonneg _
    rw [hd]
    refine List.pairwise_append.2 ⟨(ihl hl).imp fun h => apart_mono ?_ h, (ihr hr).imp fun h => apart_mono ?_ h, fun p hp q hq => ?_⟩
    · nlinarith
    · nlinarith
    · obtain ⟨⟨p1, p2, p3, p4⟩, _⟩ := close_within hε hl p.1 (List.mem_append.2 (.inl (List.mem_map.2 ⟨p, hp, rfl⟩)))
      obtain ⟨⟨q1, q2, q3, q4⟩, _⟩ := close_within hε hr q.1 (List.mem_append.2 (.inl (List.mem_map.2 ⟨q, hq, rfl⟩)))
      simp only [Rect.grow, rectVal] at p1 p2 p3 p4 q1 q2 q3 q4
      have e1 : (l.depth : K) * ε ≤ max (l.depth : K) (r.depth : K) * ε := mul_le_mul_of_nonneg_right ml hε
      have e2 : (r.depth : K) * ε ≤ max (l.depth : K) (r.depth : K) * ε := mul_le_mul_of_nonneg_right mr hε
      rcases hh with ⟨h1, h2, h3, h4, h5, h6, h7, h8, h9, h10, h11⟩ | ⟨h1, h2, h3, h4, h5, h6, h7, h8, h9, h10, h11⟩
      · left
        rw [abs_le] at h8
        simp only [rectVal]
        rw [h1] at p2
        linarith [h8.1]
      · right; right; left
        rw [abs_le] at h8
        simp only [rectVal]
        rw [h1] at p4
        linarith [h8.1]

/-! ## Insertion -/

variable (hR : Rounds fin val M ε)

include hR in
theorem tooSmall_iff {b : Box F} (hb : Good fin val b) {w h : F} (hw : fin w) (hh : fin h) :
    tooSmall b w h = true ↔ val b.height < val h ∨ val b.width < val w := by
  simp [tooSmall, hR.lt _ _ hb.h hh, hR.lt _ _ hb.w hw]

include hR in
theorem degenerate_val {w h : F} (hw : fin w) (hh : fin h) : degenerate w h = true ↔ val w = 0 ∨ val h = 0 := by
  simp [degenerate, hR.eq _ _ hw hR.zero.1, hR.eq _ _ hh hR.zero.1, hR.zero.2, hR.nan _ hw, hR.nan _ hh]

include hR in
theorem orient_val {b : Box F} (hb : Good fin val b) {w h : F} (hw : fin w) (hh : fin h) {rot : Bool} {W H : F} (ho : orient b w h = some (rot, W, H)) :
    val W ≤ val b.width ∧ val H ≤ val b.height ∧
      ((rot = false ∧ W = w ∧ H = h) ∨ (rot = true ∧ W = h ∧ H = w ∧ (val b.height < val h ∨ val b.width < val w))) := by
  unfold orient at ho
  split at ho
  · rename_i h1
    rw [tooSmall_iff hR hb hw hh] at h1
    split at ho
    · cases ho
    · rename_i h2
      rw [tooSmall_iff hR hb hh hw] at h2
      push Not at h2
      simp only [Option.some.injEq, Prod.mk.injEq] at ho
      obtain ⟨rfl, rfl, rfl⟩ := ho
      exact ⟨h2.2, h2.1, Or.inr ⟨rfl, rfl, rfl, h1⟩⟩
  · rename_i h1
    rw [tooSmall_iff hR hb hw hh] at h1
    push Not at h1
    simp only [Option.some.injEq, Prod.mk.injEq] at ho
    obtain ⟨rfl, rfl, rfl⟩ := ho
    exact ⟨h1.2, h1.1, Or.inl ⟨rfl, rfl, rfl⟩⟩

include hR in
theorem orient_none_val {b : Box F} (hb : Good fin val b) {w h : F} (hw : fin w) (hh : fin h) :
    orient b w h = none ↔ ¬Fits (rectVal val b) (val w) (val h) := by
  have t1 := tooSmall_iff hR hb hw hh
  have t2 := tooSmall_iff hR hb hh hw
  unfold orient Fits rectVal
  by_cases h1 : tooSmall b w h = true
  · rw [if_pos h1]
    by_cases h2 : tooSmall b h w = true
    · rw [if_pos h2]
      rw [t1] at h1
      rw [t2] at h2
      refine ⟨fun _ => ?_, fun _ => rfl⟩
      rintro (⟨k1, k2⟩ | ⟨k1, k2⟩)
      · rcases h1 with h1 | h1
        · exact absurd k2 (not_le.2 h1)
        · exact absurd k1 (not_le.2 h1)
      · rcases h2 with h2 | h2
        · exact absurd k2 (not_le.2 h2)
        · exact absurd k1 (not_le.2 h2)
    · rw [if_neg h2]
      rw [t2] at h2
      push Not at h2
      exact ⟨nofun, fun h => absurd (Or.inr ⟨h2.2, h2.1⟩) h⟩
  · rw [if_neg h1]
    rw [t1] at h1
    push Not at h1
    exact ⟨nofun, fun h => absurd (Or.inl ⟨h1.2, h1.1⟩) h⟩

include hR in
/-- In a smaller bin that is still large enough the object is turned in the same way. -/
theorem orient_again {b b' : Box F} (hb : Good fin val b) (hb' : Good fin val b') {w h : F} (hw : fin w) (hh : fin h) {rot : Bool} {W H : F}
    (ho : orient b w h = some (rot, W, H)) (h1 : val b'.width ≤ val b.width)
    (h2 : val b'.height ≤ val b.height) (h3 : val W ≤ val b'.width) (h4 : val H ≤ val b'.height) : orient b' w h = some (rot, W, H) := by
  obtain ⟨_, _, ⟨rfl, rfl, rfl⟩ | ⟨rfl, rfl, rfl, hs⟩⟩ := orient_val hR hb hw hh ho
  · unfold orient
    rw [if_neg]
    rw [tooSmall_iff hR hb' hw hh]
    push Not
    exact ⟨h4, h3⟩
  · unfold orient
    rw [if_pos, if_neg]
    · rw [tooSmall_iff hR hb' hh hw]
      push Not
      exact ⟨h4, h3⟩
    · rw [tooSmall_iff hR hb' hw hh]
      rcases hs with hs | hs
      · exact .inl (lt_of_le_of_lt h2 hs)
      · exact .inr (lt_of_le_of_lt h1 hs)

/-- The sums with the sizes of the box are in the range in which rounding is bounded. -/
structure InRange (fin : F → Prop) (val : F → K) (M : K) (b : Box F) : Prop where
  good : Good fin val b
  w : val b.width ≤ M
  h : val b.height ≤ M
  x0 : -M ≤ val b.x
  x1 : val b.x + val b.width ≤ M
  y0 : -M ≤ val b.y
  y1 : val b.y + val b.height ≤ M

include hR in
theorem sub_nonneg_val {a b : F} (ha : fin a) (hb : fin b) (h0 : 0 ≤ val b) (h : val b ≤ val a) (hM : val a ≤ M) : 0 ≤ val (a -. b) := by
  rcases h.lt_or_eq with h | h
  · exact (hR.sub_pos _ _ ha hb h0 h hM).le
  · exact (hR.sub_self _ _ ha hb h0 h.symm hM).ge

/-- The right child of a vertical split. -/
def cutRight (b : Box F) (rot : Bool) (W : F) : Box F := ⟨b.x +. W, b.y, b.width -. W, b.height, rot⟩

/-- The lower child of a horizontal split. -/
def cutBelow (b : Box F) (rot : Bool) (H : F) : Box F := ⟨b.x, b.y +. H, b.width, b.height -. H, rot⟩

include hR in
theorem halves_vertical {b : Box F} (hb : InRange fin val M b) {W : F} (fW : fin W) (h0 : 0 ≤ val W) (hW : val W ≤ val b.width) (rot : Bool) :
    Good fin val ⟨b.x, b.y, W, b.height, rot⟩ ∧ Good fin val (cutRight b rot W) ∧
      Halves val ε b ⟨b.x, b.y, W, b.height, rot⟩ (cutRight b rot W) := by
  have ha := hR.add _ _ hb.good.x fW (abs_le.2 ⟨by linarith [hb.x0], by linarith [hb.x1]⟩)
  have hs := hR.sub _ _ hb.good.w fW h0 hW hb.w
  have hn := sub_nonneg_val hR hb.good.w fW h0 hW hb.w
  exact ⟨⟨hb.good.x, hb.good.y, fW, hb.good.h, h0, hb.good.h0⟩, ⟨ha.1, hb.good.y, hs.1, hb.good.h, hn, hb.good.h0⟩,
    .inl ⟨rfl, rfl, rfl, rfl, rfl, h0, hW, ha.2, hs.2, hn, hR.sub_le _ _ hb.good.w fW h0 hW hb.w⟩⟩

include hR in
theorem halves_horizontal {b : Box F} (hb : InRange fin val M b) {H : F} (fH : fin H) (h0 : 0 ≤ val H) (hH : val H ≤ val b.height) (rot : Bool) :
    Good fin val ⟨b.x, b.y, b.width, H, rot⟩ ∧ Good fin val (cutBelow b rot H) ∧
      Halves val ε b ⟨b.x, b.y, b.width, H, rot⟩ (cutBelow b rot H) := by
  have ha := hR.add _ _ hb.good.y fH (abs_le.2 ⟨by linarith [hb.y0], by linarith [hb.y1]⟩)
  have hs := hR.sub _ _ hb.good.h fH h0 hH hb.h
  have hn := sub_nonneg_val hR hb.good.h fH h0 hH hb.h
  exact ⟨⟨hb.good.x, hb.good.y, hb.good.w, fH, hb.good.w0, h0⟩, ⟨hb.good.x, ha.1, hb.good.w, hs.1, hb.good.w0, hn⟩,
    .inr ⟨rfl, rfl, rfl, rfl, rfl, h0, hH, ha.2, hs.2, hn, hR.sub_le _ _ hb.good.h fH h0 hH hb.h⟩⟩

/-- How an object lies in the free bin that takes it; whether it is turned is noted unless it fills the bin. -/
def LiesIn (val : F → K) (b : Box F) (w h : F) (at_ : Box F) : Prop :=
  at_.x = b.x ∧ at_.y = b.y ∧
    ((val at_.width = val w ∧ val at_.height = val h ∧ (val w ≤ val b.width ∧ val h ≤ val b.height) ∧
        (at_.rotated = false ∨ (val b.width = val w ∧ val b.height = val h))) ∨
      (val at_.width = val h ∧ val at_.height = val w ∧
        (val h ≤ val b.width ∧ val w ≤ val b.height ∧ ¬(val w ≤ val b.width ∧ val h ≤ val b.height)) ∧
        (at_.rotated = true ∨ (val b.width = val h ∧ val b.height = val w))))

/-- What an insertion into a free bin does. -/
def Taken (fin : F → Prop) (val : F → K) (ε : K) (t : Bin F O) (b : Box F) (o : O) (w h : F) (at_ : Box F) : Prop :=
  t.top = b ∧ t.Close fin val ε ∧ t.depth ≤ 2 ∧ t.placed = [(at_, o)] ∧ LiesIn val b w h at_

include hR in
/-- The last step: the bin has the size of the object. -/
theorem insertFree_exact {w h : F} (hd : degenerate w h = false) (o : O) (n : Nat) {b : Box F} (hb : Good fin val b) {rot : Bool} {W H : F} (fW : fin W)
    (fH : fin H) (ho : orient b w h = some (rot, W, H)) (e1 : val b.width = val W) (e2 : val b.height = val H) :
    insertFree (n + 1) b o w h = some (.full b o, some b) := by
  rw [insertFree, if_neg (by simp [hd]), ho]
  simp only
  rw [if_pos]
  rw [Bool.and_eq_true, hR.eq _ _ hb.h fH, hR.eq _ _ hb.w fW]
  exact ⟨e2, e1⟩

include hR in
theorem insertFree_step {w h : F} (hd : degenerate w h = false) (o : O) (n : Nat) {b : Box F} (hb : Good fin val b) {rot : Bool} {W H : F} (fW : fin W)
    (fH : fin H) (ho : orient b w h = some (rot, W, H)) (e : ¬(val b.width = val W ∧ val b.height = val H)) {bl br : Box F}
    (hs : splitBoxes b rot W H = (bl, br)) {l : Bin F O} {at_ : Option (Box F)} (hl : insertFree n bl o w h = some (l, at_)) :
    insertFree (n + 1) b o w h = some (.split b l (.free br), at_) := by
  rw [insertFree, if_neg (by simp [hd]), ho]
  simp only
  rw [if_neg, hs, hl]
  rw [Bool.and_eq_true, hR.eq _ _ hb.h fH, hR.eq _ _ hb.w fW]
  exact fun h => e ⟨h.2, h.1⟩

theorem splitBoxes_vertical {b : Box F} {rot : Bool} {W H : F} (h : ((b.height -. H) <. (b.width -. W)) = true) :
    splitBoxes b rot W H = (⟨b.x, b.y, W, b.height, rot⟩, cutRight b rot W) := by
  rw [splitBoxes, if_pos h, cutRight]

theorem splitBoxes_horizontal {b : Box F} {rot : Bool} {W H : F} (h : ¬((b.height -. H) <. (b.width -. W)) = true) :
    splitBoxes b rot W H = (⟨b.x, b.y, b.width, H, rot⟩, cutBelow b rot H) := by
  rw [splitBoxes, if_neg h, cutBelow]

include hR in
theorem insertFree_rounded {w h : F} (fw : fin w) (fh : fin h) (hw : 0 ≤ val w) (hh : 0 ≤ val h) (o : O) (b : Box F) (hb : InRange fin val M b) (n : Nat) :
    (∃ t at_, insertFree (n + 3) b o w h = some (t, some at_) ∧ Taken fin val ε t b o w h at_ ∧ ¬(val w = 0 ∨ val h = 0)) ∨
      (insertFree (n + 3) b o w h = some (.free b, none) ∧ ((val w = 0 ∨ val h = 0) ∨ ¬Fits (rectVal val b) (val w) (val h))) := by
  have hg := hb.good
  cases hd : degenerate w h with
  | true =>
    right
    rw [insertFree, if_pos hd]
    exact ⟨rfl, .inl ((degenerate_val hR fw fh).1 hd)⟩
  | false =>
    have hd' : ¬(val w = 0 ∨ val h = 0) := fun h => by rw [(degenerate_val hR fw fh).2 h] at hd; cases hd
    cases ho : orient b w h with
    | none =>
      right
      rw [insertFree, if_neg (by simp [hd]), ho]
      exact ⟨rfl, .inr ((orient_none_val hR hg fw fh).1 ho)⟩
    | some p =>
      obtain ⟨rot, W, H⟩ := p
      left
      obtain ⟨hW, hH, hor⟩ := orient_val hR hg fw fh ho
      have hW0 : 0 ≤ val W := by rcases hor with ⟨_, rfl, _⟩ | ⟨_, rfl, _⟩ <;> assumption
      have hH0 : 0 ≤ val H := by rcases hor with ⟨_, _, rfl⟩ | ⟨_, _, rfl, _⟩ <;> assumption
      have fW : fin W := by rcases hor with ⟨_, rfl, _⟩ | ⟨_, rfl, _⟩ <;> assumption
      have fH : fin H := by rcases hor with ⟨_, _, rfl⟩ | ⟨_, _, rfl, _⟩ <;> assumption
      have sz : ∀ c : Box F, c.x = b.x → c.y = b.y → val c.width = val W → val c.height = val H →
          (c.rotated = rot ∨ (val b.width = val W ∧ val b.height = val H)) → LiesIn val b w h c := by
        intro c ex ey e1 e2 e3
        refine ⟨ex, ey, ?_⟩
        rcases hor with ⟨rfl, rfl, rfl⟩ | ⟨rfl, rfl, rfl, hs⟩
        · exact .inl ⟨e1, e2, ⟨hW, hH⟩, e3⟩
        · refine .inr ⟨e1, e2, ⟨hW, hH, fun hc => ?_⟩, e3⟩
          rcases hs with hs | hs
          · exact absurd hc.2 (not_le.2 hs)
          · exact absurd hc.1 (not_le.2 hs)
      have gf : Good fin val ⟨b.x, b.y, W, H, rot⟩ := ⟨hg.x, hg.y, fW, fH, hW0, hH0⟩
      have hlf : orient ⟨b.x, b.y, W, H, rot⟩ w h = some (rot, W, H) := orient_again hR hg gf fw fh ho hW hH le_rfl le_rfl
      by_cases e : val b.width = val W ∧ val b.height = val H
      · exact ⟨_, b, insertFree_exact hR hd o (n + 2) hg fW fH ho e.1 e.2, ⟨rfl, hg, by simp [Bin.depth], rfl, sz b rfl rfl e.1 e.2 (.inr e)⟩, hd'⟩
      · by_cases hv : ((b.height -. H) <. (b.width -. W)) = true
        · have hs := splitBoxes_vertical (rot := rot) hv
          obtain ⟨gl, gr, hhv⟩ := halves_vertical hR hb fW hW0 hW rot
          have hlo : orient ⟨b.x, b.y, W, b.height, rot⟩ w h = some (rot, W, H) := orient_again hR hg gl fw fh ho hW le_rfl le_rfl hH
          by_cases e2 : val b.height = val H
          · have := insertFree_exact hR hd o (n + 1) gl fW fH hlo rfl e2
            have := insertFree_step hR hd o (n + 2) hg fW fH ho e hs this
            exact ⟨_, _, this, ⟨rfl, ⟨hg, gl, gr, hhv⟩, by simp [Bin.depth], rfl, sz _ rfl rfl rfl e2 (.inl rfl)⟩, hd'⟩
          · have hlt : val H < val b.height := lt_of_le_of_ne hH (Ne.symm e2)
            have hb' : InRange fin val M ⟨b.x, b.y, W, b.height, rot⟩ := ⟨gl, hW.trans hb.w, hb.h, hb.x0, by
              have := hb.x1
              show val b.x + val W ≤ M
              linarith, hb.y0, hb.y1⟩
            have hn : ¬((b.height -. H) <. (W -. W)) = true := by
              rw [hR.lt _ _ (hR.sub _ _ hg.h fH hH0 hH hb.h).1 (hR.sub _ _ fW fW hW0 le_rfl (hW.trans hb.w)).1, not_lt,
                hR.sub_self _ _ fW fW hW0 rfl (hW.trans hb.w)]
              exact (hR.sub_pos _ _ hg.h fH hH0 hlt hb.h).le
            have hs2 := splitBoxes_horizontal (b := ⟨b.x, b.y, W, b.height, rot⟩) (rot := rot) hn
            obtain ⟨gl2, gr2, hhh⟩ := halves_horizontal hR hb' fH hH0 hH rot
            have := insertFree_exact hR hd o n gf fW fH hlf rfl rfl
            have := insertFree_step hR hd o (n + 1) gl fW fH hlo (fun h => e2 h.2) hs2 this
            have := insertFree_step hR hd o (n + 2) hg fW fH ho e hs this
            exact ⟨_, _, this, ⟨rfl, ⟨hg, ⟨gl, gf, gr2, hhh⟩, gr, hhv⟩, by simp [Bin.depth], rfl, sz _ rfl rfl rfl rfl (.inl rfl)⟩, hd'⟩
        · have hs := splitBoxes_horizontal (rot := rot) hv
          obtain ⟨gl, gr, hhv⟩ := halves_horizontal hR hb fH hH0 hH rot
          have hlo : orient ⟨b.x, b.y, b.width, H, rot⟩ w h = some (rot, W, H) := orient_again hR hg gl fw fh ho le_rfl hH hW le_rfl
          by_cases e2 : val b.width = val W
          · have := insertFree_exact hR hd o (n + 1) gl fW fH hlo e2 rfl
            have := insertFree_step hR hd o (n + 2) hg fW fH ho e hs this
            exact ⟨_, _, this, ⟨rfl, ⟨hg, gl, gr, hhv⟩, by simp [Bin.depth], rfl, sz _ rfl rfl e2 rfl (.inl rfl)⟩, hd'⟩
          · have hlt : val W < val b.width := lt_of_le_of_ne hW (Ne.symm e2)
            have hb' : InRange fin val M ⟨b.x, b.y, b.width, H, rot⟩ := ⟨gl, hb.w, hH.trans hb.h, hb.x0, hb.x1, hb.y0, by
              have := hb.y1
              show val b.y + val H ≤ M
              linarith⟩
            have hn : ((H -. H) <. (b.width -. W)) = true := by
              rw [hR.lt _ _ (hR.sub _ _ fH fH hH0 le_rfl (hH.trans hb.h)).1 (hR.sub _ _ hg.w fW hW0 hW hb.w).1,
                hR.sub_self _ _ fH fH hH0 rfl (hH.trans hb.h)]
              exact hR.sub_pos _ _ hg.w fW hW0 hlt hb.w
            have hs2 := splitBoxes_vertical (b := ⟨b.x, b.y, b.width, H, rot⟩) (rot := rot) hn
            obtain ⟨gl2, gr2, hhh⟩ := halves_vertical hR hb' fW hW0 hW rot
            have := insertFree_exact hR hd o n gf fW fH hlf rfl rfl
            have := insertFree_step hR hd o (n + 1) gl fW fH hlo (fun h => e2 h.1) hs2 this
            have := insertFree_step hR hd o (n + 2) hg fW fH ho e hs this
            exact ⟨_, _, this, ⟨rfl, ⟨hg, ⟨gl, gf, gr2, hhh⟩, gr, hhv⟩, by simp [Bin.depth], rfl, sz _ rfl rfl rfl rfl (.inl rfl)⟩, hd'⟩

theorem Close.top_good {t : Bin F O} (h : t.Close fin val ε) : Good fin val t.top := by
  cases t with
  | free b => exact h
  | full b o => exact h
  | split b l r => exact h.1

include hR in
theorem insert_rounded {w h : F} (fw : fin w) (fh : fin h) (hw : 0 ≤ val w) (hh : 0 ≤ val h) (o : O) (n : Nat) (t : Bin F O) (ht : t.Close fin val ε)
    (hb : ∀ b ∈ t.empties, InRange fin val M b) :
    (∃ t' at_, t.insert (n + 3) o w h = some (t', some at_) ∧ t'.top = t.top ∧ t'.Close fin val ε ∧ t'.depth ≤ t.depth + 2 ∧
        t'.placed.Perm ((at_, o) :: t.placed) ∧ ¬(val w = 0 ∨ val h = 0) ∧ ∃ b ∈ t.empties, LiesIn val b w h at_) ∨
      (t.insert (n + 3) o w h = some (t, none) ∧ ((val w = 0 ∨ val h = 0) ∨ ∀ b ∈ t.empties, ¬Fits (rectVal val b) (val w) (val h))) := by
  induction t with
  | free b =>
    rcases insertFree_rounded hR fw fh hw hh o b (hb b (by simp [Bin.empties])) n with ⟨t', at_, h1, ⟨h2, h3, h4, h5, h6⟩, h7⟩ | ⟨h1, h2⟩
    · exact .inl ⟨t', at_, h1, h2, h3, by simpa [Bin.depth] using h4, by rw [h5]; simp [Bin.placed], h7, b, by simp [Bin.empties], h6⟩
    · refine .inr ⟨h1, h2.imp_right fun h => ?_⟩
      simpa [Bin.empties] using h
  | full b o' =>
    right
    exact ⟨rfl, .inr (by simp [Bin.empties])⟩
  | split b l r ihl ihr =>
    obtain ⟨hg, hl, hr, hh'⟩ := ht
    have hbl : ∀ b ∈ l.empties, InRange fin val M b := fun b h => hb b (List.mem_append.2 (.inl h))
    have hbr : ∀ b ∈ r.empties, InRange fin val M b := fun b h => hb b (List.mem_append.2 (.inr h))
    rcases ihl hl hbl with ⟨t', at_, h1, h2, h3, h4, h5, h6, f, hf, h7⟩ | ⟨h1, h2⟩
    · left
      refine ⟨.split b t' r, at_, by simp [Bin.insert, h1], rfl, ⟨hg, h3, hr, h2 ▸ hh'⟩, ?_, ?_, h6, f, List.mem_append.2 (.inl hf), h7⟩
      · simp only [Bin.depth]; omega
      · simp only [Bin.placed]
        exact (h5.append_right _)
    · rcases ihr hr hbr with ⟨t', at_, k1, k2, k3, k4, k5, k6, f, hf, k7⟩ | ⟨k1, k2⟩
      · left
        refine ⟨.split b l t', at_, by simp [Bin.insert, h1, k1], rfl, ⟨hg, hl, k3, k2 ▸ hh'⟩, ?_, ?_, k6, f, List.mem_append.2 (.inr hf), k7⟩
        · simp only [Bin.depth]; omega
        · simp only [Bin.placed]
          refine (k5.append_left _).trans ?_
          exact List.perm_middle
      · right
        refine ⟨by simp [Bin.insert, h1, k1], ?_⟩
        rcases h2 with h2 | h2
        · exact .inl h2
        · rcases k2 with k2 | k2
          · exact .inl k2
          · refine .inr fun c hc => ?_
            rcases List.mem_append.1 hc with hc | hc
            · exact h2 c hc
            · exact k2 c hc

/-- The free bins of a shallow tree are in range. -/
theorem room_inRange (hε : 0 ≤ ε) {t : Bin F O} (ht : t.Close fin val ε) {δ : K} (hd : 2 * t.depth * ε ≤ δ) {x y W H : F} {rot : Bool}
    (htop : t.top = ⟨x, y, W, H, rot⟩) (hroom : Room fin val M δ x y W H) : ∀ b ∈ t.empties, InRange fin val M b := by
  intro b hb
  obtain ⟨⟨h1, h2, h3, h4⟩, h5, h6, h7⟩ := close_within hε ht b (List.mem_append.2 (.inr hb))
  have hD : (0 : K) ≤ 2 * t.depth * ε := by positivity
  have rx := hroom.x
  have ry := hroom.y
  have ax := abs_nonneg (val x)
  have ay := abs_nonneg (val y)
  have nx := neg_abs_le (val x)
  have ny := neg_abs_le (val y)
  have lx := le_abs_self (val x)
  have ly := le_abs_self (val y)
  have w0 := hroom.width
  have h0 := hroom.height
  rw [htop] at h1 h2 h3 h4 h5 h6
  simp only [rectVal, Rect.grow] at h1 h2 h3 h4 h5 h6
  exact ⟨h7, by linarith, by linarith, by linarith, by linarith, by linarith, by linarith⟩

include hR in
/-- What a history of calls does. -/
theorem insertAll_rounded (hε : 0 ≤ ε) {x y W H : F} {rot : Bool} {δ : K} (hroom : Room fin val M δ x y W H) (reqs : List (Request F O))
    (hr : ∀ r ∈ reqs, fin r.w ∧ fin r.h ∧ 0 ≤ val r.w ∧ 0 ≤ val r.h) :
    ∀ (c : Container F O), c.root.Close fin val ε → c.root.top = ⟨x, y, W, H, rot⟩ → 2 * (c.root.depth + 2 * reqs.length) * ε ≤ δ →
      ∃ c' results, c.insertAll reqs = some (c', results) ∧ c'.root.top = c.root.top ∧ c'.root.Close fin val ε ∧
        c'.root.depth ≤ c.root.depth + 2 * reqs.length ∧
        c'.root.placed.Perm ((accepted reqs results).map (fun p => (p.2, p.1.obj)) ++ c.root.placed) ∧
        List.Forall₂ (fun r res => ∀ b, res = some b →
          (val b.width = val r.w ∧ val b.height = val r.h) ∨ (val b.width = val r.h ∧ val b.height = val r.w)) reqs results := by
  induction reqs with
  | nil => intro c hc _ _; exact ⟨c, [], rfl, rfl, hc, by simp, by simp [accepted], .nil⟩
  | cons r rs ih =>
    intro c hc htop hδ
    obtain ⟨fw, fh, hw, hh⟩ := hr r (by simp)
    have ih' := ih (fun r' h' => hr r' (by simp [h']))
    have hlen : ((r :: rs).length : K) = rs.length + 1 := by simp
    rw [hlen] at hδ
    have hn : (0 : K) ≤ rs.length := Nat.cast_nonneg _
    have hm : (0 : K) ≤ rs.length * ε := mul_nonneg hn hε
    have hrange := room_inRange hε hc (M := M) (δ := δ) (by linarith) htop hroom
    rcases insert_rounded hR fw fh hw hh r.obj 0 c.root hc hrange with ⟨t', at_, h1, h2, h3, h4, h5, h6, f, hf, h7⟩ | ⟨h1, h2⟩
    · have h4' : (t'.depth : K) ≤ c.root.depth + 2 := by exact_mod_cast h4
      have h4'' := mul_le_mul_of_nonneg_right h4' hε
      obtain ⟨c', results, k1, k2, k3, k4, k5, k6⟩ := ih' { c with root := t' } h3 (h2.trans htop) (by simp only; linarith)
      have hi : c.insert r.obj r.w r.h = some ({ c with root := t' }, some at_) := by
        have h1' : c.root.insert splitDepth r.obj r.w r.h = some (t', some at_) := h1
        simp [Container.insert, h1']
      refine ⟨c', some at_ :: results, by simp [Container.insertAll, hi, k1], k2.trans h2, k3, ?_, ?_, .cons ?_ k6⟩
      · simp only [List.length_cons]
        simp only at k4
        omega
      · refine k5.trans ((h5.append_left _).trans ?_)
        simp [accepted]
      · rintro b ⟨⟩
        rcases h7.2.2 with h | h
        · exact .inl ⟨h.1, h.2.1⟩
        · exact .inr ⟨h.1, h.2.1⟩
    · have hi : c.insert r.obj r.w r.h = some (c, none) := by
        have h1' : c.root.insert splitDepth r.obj r.w r.h = some (c.root, none) := h1
        simp [Container.insert, h1']
      obtain ⟨c', results, k1, k2, k3, k4, k5, k6⟩ := ih' c hc htop (by linarith)
      refine ⟨c', none :: results, by simp [Container.insertAll, hi, k1], k2, k3, ?_, by simpa [accepted] using k5, .cons nofun k6⟩
      simp only [List.length_cons]
      omega

theorem accepted_snd {R : Request F O → Option (Box F) → Prop} {reqs : List (Request F O)} {results : List (Option (Box F))}
    (h : List.Forall₂ R reqs results) : (accepted reqs results).map (·.2) = results.filterMap id := by
  induction h with
  | nil => rfl
  | @cons r res rs ress _ _ ih => cases res <;> simp [accepted, ih]

/-- A pairwise relation is carried over to related lists. -/
theorem pairwise_forall₂ {α : Type u} {β : Type v} {R : α → β → Prop} {S : α → α → Prop} {T : β → β → Prop}
    (h : ∀ a b a' b', R a b → R a' b' → T b b' → S a a') {l : List α} {m : List β} (hl : List.Forall₂ R l m) (hm : m.Pairwise T) : l.Pairwise S := by
  induction hl with
  | nil => exact .nil
  | @cons a b l m hab hlm ih =>
    rw [List.pairwise_cons] at hm ⊢
    refine ⟨fun a' ha' => ?_, ih hm.2⟩
    obtain ⟨b', hb', hr⟩ : ∃ b' ∈ m, R a' b' := by
      clear ih hm
      induction hlm with
      | nil => simp at ha'
      | @cons c d l m hcd _ ih =>
        rcases List.mem_cons.1 ha' with rfl | ha'
        · exact ⟨d, by simp, hcd⟩
        · obtain ⟨b', h1, h2⟩ := ih ha'
          exact ⟨b', by simp [h1], h2⟩
    exact h _ _ _ _ hab hr (hm.1 b' hb')

/-- How a footprint with its padding belongs to a bin. -/
def Foot (ε : K) (f : Rect K × K) (b : Rect K) : Prop := (f.1.grow f.2).Within (b.grow (3 * ε))

include hR in
/-- The footprint in the bin that a padded call takes. -/
theorem foot_rounded (hε : 0 ≤ ε) {p w h : F} (fp : fin p) (fw : fin w) (fh : fin h) (p0 : 0 ≤ val p) (w0 : 0 ≤ val w) (h0 : 0 ≤ val h)
    (hw : val p * 2 + val w + ε ≤ M) (hh : val p * 2 + val h + ε ≤ M) :
    (fin (p *. Arith.two +. w) ∧ 0 ≤ val (p *. Arith.two +. w) ∧ |val (p *. Arith.two +. w) - (val p * 2 + val w)| ≤ 2 * ε) ∧
      fin (p *. Arith.two +. h) ∧ 0 ≤ val (p *. Arith.two +. h) ∧ |val (p *. Arith.two +. h) - (val p * 2 + val h)| ≤ 2 * ε := by
  obtain ⟨t1, t2, t3⟩ := hR.twice p fp p0 (by linarith)
  rw [abs_le] at t3
  have key : ∀ a : F, fin a → 0 ≤ val a → val p * 2 + val a + ε ≤ M →
      fin (p *. Arith.two +. a) ∧ 0 ≤ val (p *. Arith.two +. a) ∧ |val (p *. Arith.two +. a) - (val p * 2 + val a)| ≤ 2 * ε := by
    intro a fa a0 ha
    obtain ⟨k1, k2⟩ := hR.add (p *. Arith.two) a t1 fa (abs_le.2 ⟨by linarith, by linarith [t3.2]⟩)
    refine ⟨k1, hR.add_nonneg _ _ t1 fa t2 a0 (by linarith [t3.2]), ?_⟩
    rw [abs_le] at k2 ⊢
    constructor <;> linarith [k2.1, k2.2, t3.1, t3.2]
  exact ⟨key w fw w0 hw, key h fh h0 hh⟩

/-- A free bin has exactly this size, upright or turned. -/
def Filling (val : F → K) (c : Container F O) (w h : F) : Prop :=
  ∃ f ∈ c.emptyBins, (val f.width = val w ∧ val f.height = val h) ∨ (val f.width = val h ∧ val f.height = val w)

include hR in
/-- What a padded call does. -/
theorem insertPadded_rounded (hε : 0 ≤ ε) {x y W H : F} {rot : Bool} {δ : K} (hroom : Room fin val M (δ + 2 * ε) x y W H) (o : O) {w h pad : F}
    (fw : fin w) (fh : fin h) (fp : fin pad) (hw : 0 ≤ val w) (hh : 0 ≤ val h) (hp : 0 ≤ val pad) (hMw : val pad * 2 + val w + ε ≤ M)
    (hMh : val pad * 2 + val h + ε ≤ M) (c : Container F O) (hc : c.root.Close fin val ε) (htop : c.root.top = ⟨x, y, W, H, rot⟩)
    (hδ : 2 * (c.root.depth + 2) * ε ≤ δ) :
    (∃ t' bin foot at_, c.insertWithPadding o w h pad = some ({ c with root := t' }, some bin) ∧ t'.top = c.root.top ∧ t'.Close fin val ε ∧
        t'.depth ≤ c.root.depth + 2 ∧ (t'.placed.map fun p => rectVal val p.1).Perm (at_ :: c.root.placed.map fun p => rectVal val p.1) ∧
        Foot ε (foot, val pad) at_ ∧ foot.x = val bin.x ∧ foot.y = val bin.y ∧
        ((foot.w = val w ∧ foot.h = val h ∧ (bin.rotated = false ∨ Filling val c (pad *. Arith.two +. w) (pad *. Arith.two +. h))) ∨
          (foot.w = val h ∧ foot.h = val w ∧ (bin.rotated = true ∨ Filling val c (pad *. Arith.two +. w) (pad *. Arith.two +. h)))) ∧
        bin.width = w ∧ bin.height = h ∧ (fin bin.x ∧ fin bin.y) ∧
        ∃ f ∈ c.emptyBins, Fits (rectVal val f) (val (pad *. Arith.two +. w)) (val (pad *. Arith.two +. h))) ∨
      (c.insertWithPadding o w h pad = some (c, none) ∧
        ((val (pad *. Arith.two +. w) = 0 ∨ val (pad *. Arith.two +. h) = 0) ∨
          ∀ f ∈ c.emptyBins, ¬Fits (rectVal val f) (val (pad *. Arith.two +. w)) (val (pad *. Arith.two +. h)))) := by
  have hrange := room_inRange hε hc (M := M) (δ := δ + 2 * ε) (by linarith) htop hroom
  obtain ⟨⟨pw1, pw2, pw3⟩, ph1, ph2, ph3⟩ := foot_rounded hR hε fp fw fh hp hw hh hMw hMh
  rcases insert_rounded hR pw1 ph1 pw2 ph2 o 0 c.root hc hrange with ⟨t', at_, h1, h2, h3, h4, h5, h6, f, hf, h7⟩ | ⟨h1, h2⟩
  · left
    have h4' : (t'.depth : K) ≤ c.root.depth + 2 := by exact_mod_cast h4
    have h4'' := mul_le_mul_of_nonneg_right h4' hε
    have hi : c.insert o (pad *. Arith.two +. w) (pad *. Arith.two +. h) = some ({ c with root := t' }, some at_) := by
      have h1' : c.root.insert splitDepth o (pad *. Arith.two +. w) (pad *. Arith.two +. h) = some (t', some at_) := h1
      simp [Container.insert, h1']
    obtain ⟨⟨q1, q2, q3, q4⟩, q5, q6, q7⟩ := close_within hε h3 at_
      (List.mem_append.2 (.inl (List.mem_map.2 ⟨(at_, o), h5.symm.subset (by simp), rfl⟩)))
    rw [h2, htop] at q1 q2 q3 q4 q5 q6
    simp only [rectVal, Rect.grow] at q1 q2 q3 q4 q5 q6
    have rx := hroom.x
    have ry := hroom.y
    have nx := neg_abs_le (val x)
    have ny := neg_abs_le (val y)
    have lx := le_abs_self (val x)
    have ly := le_abs_self (val y)
    have w0 := hroom.width
    have h0 := hroom.height
    rw [abs_le] at pw3 ph3
    obtain ⟨l1, l2, l3⟩ := h7
    have hdim : val pad ≤ val at_.width + 2 * ε ∧ val pad ≤ val at_.height + 2 * ε := by
      rcases l3 with ⟨e1, e2, _⟩ | ⟨e1, e2, _⟩ <;> rw [e1, e2] <;> constructor <;> linarith [pw3.1, ph3.1]
    obtain ⟨ax, ax'⟩ := hR.add at_.x pad q7.x fp (abs_le.2 ⟨by linarith, by linarith [hdim.1]⟩)
    obtain ⟨ay, ay'⟩ := hR.add at_.y pad q7.y fp (abs_le.2 ⟨by linarith, by linarith [hdim.2]⟩)
    rw [abs_le] at ax' ay'
    obtain ⟨rw_, rh_, hs, hsz⟩ : ∃ rw_ rh_ : K, ((rw_ = val w ∧ rh_ = val h ∧ (at_.rotated = false ∨ Filling val c (pad *. Arith.two +. w) (pad *. Arith.two +. h))) ∨
          (rw_ = val h ∧ rh_ = val w ∧ (at_.rotated = true ∨ Filling val c (pad *. Arith.two +. w) (pad *. Arith.two +. h)))) ∧
        val pad * 2 + rw_ - 2 * ε ≤ val at_.width ∧ val pad * 2 + rh_ - 2 * ε ≤ val at_.height := by
      rcases l3 with ⟨e1, e2, _, e4⟩ | ⟨e1, e2, _, e4⟩
      · exact ⟨val w, val h, .inl ⟨rfl, rfl, e4.imp_right fun e => ⟨f, hf, .inl e⟩⟩, by rw [e1]; linarith [pw3.1], by rw [e2]; linarith [ph3.1]⟩
      · exact ⟨val h, val w, .inr ⟨rfl, rfl, e4.imp_right fun e => ⟨f, hf, .inr e⟩⟩, by rw [e1]; linarith [ph3.1], by rw [e2]; linarith [pw3.1]⟩
    refine ⟨t', ⟨at_.x +. pad, at_.y +. pad, w, h, at_.rotated⟩, ⟨val (at_.x +. pad), val (at_.y +. pad), rw_, rh_⟩, rectVal val at_, ?_, h2, h3, h4,
      by simpa using h5.map fun p => rectVal val p.1, ?_, rfl, rfl, hs, rfl, rfl, ⟨ax, ay⟩, f, hf, ?_⟩
    · simp [Container.insertWithPadding, hi]
    · simp only [Foot, Rect.Within, Rect.grow, rectVal]
      refine ⟨?_, ?_, ?_, ?_⟩ <;> linarith [ax'.1, ax'.2, ay'.1, ay'.2, hsz.1, hsz.2]
    · rcases l3 with ⟨_, _, ⟨e1, e2⟩, _⟩ | ⟨_, _, ⟨e1, e2, _⟩, _⟩
      · exact .inl ⟨e1, e2⟩
      · exact .inr ⟨e1, e2⟩
  · right
    have hi : c.insert o (pad *. Arith.two +. w) (pad *. Arith.two +. h) = some (c, none) := by
      have h1' : c.root.insert splitDepth o (pad *. Arith.two +. w) (pad *. Arith.two +. h) = some (c.root, none) := h1
      simp [Container.insert, h1']
    exact ⟨by simp [Container.insertWithPadding, hi], h2⟩

include hR in
/-- What a history of padded calls does. -/
theorem insertAllPadded_rounded (hε : 0 ≤ ε) {x y W H : F} {rot : Bool} {δ : K} (hroom : Room fin val M (δ + 2 * ε) x y W H)
    (reqs : List (Request F O × F)) (hr : ∀ r ∈ reqs, fin r.1.w ∧ fin r.1.h ∧ fin r.2 ∧ 0 ≤ val r.1.w ∧ 0 ≤ val r.1.h ∧ 0 ≤ val r.2 ∧
      val r.2 * 2 + val r.1.w + ε ≤ M ∧ val r.2 * 2 + val r.1.h + ε ≤ M) :
    ∀ (c : Container F O), c.root.Close fin val ε → c.root.top = ⟨x, y, W, H, rot⟩ → 2 * (c.root.depth + 2 * reqs.length) * ε ≤ δ →
      ∃ c' results, ∃ foot : List (Option (Rect K × K)), ∃ bins : List (Rect K),
        c.insertAllPadded reqs = some (c', results) ∧ c'.root.top = c.root.top ∧ c'.root.Close fin val ε ∧
        c'.root.depth ≤ c.root.depth + 2 * reqs.length ∧
        List.Forall₂ (fun p f => (p.2 = none ∧ f = none) ∨ ∃ b r, p.2 = some b ∧ f = some (r, val p.1.2) ∧ r.x = val b.x ∧ r.y = val b.y ∧
            ((r.w = val p.1.1.w ∧ r.h = val p.1.1.h) ∨ (r.w = val p.1.1.h ∧ r.h = val p.1.1.w))) (reqs.zip results) foot ∧
        results.length = reqs.length ∧
        List.Forall₂ (Foot ε) (foot.filterMap id) bins ∧
        (c'.root.placed.map fun p => rectVal val p.1).Perm (bins ++ c.root.placed.map fun p => rectVal val p.1) := by
  induction reqs with
  | nil => intro c hc _ _; exact ⟨c, [], [], [], rfl, rfl, hc, by simp, .nil, rfl, .nil, by simp⟩
  | cons r rs ih =>
    intro c hc htop hδ
    obtain ⟨r, pad⟩ := r
    obtain ⟨fw, fh, fp, hw, hh, hp, hMw, hMh⟩ := hr (r, pad) (by simp)
    simp only at fw fh fp hw hh hp hMw hMh
    have ih' := ih (fun r' h' => hr r' (by simp [h']))
    have hlen : (((r, pad) :: rs).length : K) = rs.length + 1 := by simp
    rw [hlen] at hδ
    have hn : (0 : K) ≤ rs.length := Nat.cast_nonneg _
    have hm : (0 : K) ≤ rs.length * ε := mul_nonneg hn hε
    rcases insertPadded_rounded hR hε hroom r.obj fw fh fp hw hh hp hMw hMh c hc htop (by linarith) with
      ⟨t', bin, f, at_, h1, h2, h3, h4, h5, h6, h7, h8, h9, _⟩ | ⟨h1, h2⟩
    · have h4' : (t'.depth : K) ≤ c.root.depth + 2 := by exact_mod_cast h4
      have h4'' := mul_le_mul_of_nonneg_right h4' hε
      obtain ⟨c', results, foot, bins, k1, k2, k3, k4, k5, k6, k7, k8⟩ := ih' { c with root := t' } h3 (h2.trans htop) (by simp only; linarith)
      refine ⟨c', some bin :: results, some (f, val pad) :: foot, at_ :: bins, ?_, k2.trans h2, k3, ?_,
        .cons (.inr ⟨_, _, rfl, rfl, h7, h8, h9.imp (fun h => ⟨h.1, h.2.1⟩) fun h => ⟨h.1, h.2.1⟩⟩) k5, by simp [k6], .cons h6 k7, ?_⟩
      · have hcall : ({ c with root := t' } : Container F O).insertAllPadded rs = some (c', results) := k1
        simp [Container.insertAllPadded, h1, hcall]
      · simp only [List.length_cons]
        simp only at k4
        omega
      · refine k8.trans ((h5.append_left _).trans ?_)
        simp
    · obtain ⟨c', results, foot, bins, k1, k2, k3, k4, k5, k6, k7, k8⟩ := ih' c hc htop (by linarith)
      refine ⟨c', none :: results, none :: foot, bins, ?_, k2, k3, ?_, .cons (.inl ⟨rfl, rfl⟩) k5, by simp [k6], by simpa using k7, k8⟩
      · simp [Container.insertAllPadded, h1, k1]
      · simp only [List.length_cons]
        omega

end Verif.BinPacking
