import Verif.Lemmas.NearBox
import Verif.Props.Transform

/-!
# Property C130: boxes and places of straight drawings with the rounding of doubles
-/

namespace Verif.Path

open Verif Verif.Spec Verif.Double

section

variable [MathLib]

/-- **C130.** (a) The box of a straight drawing is exact with doubles: nothing is rounded. -/
theorem C130_box {B : ℚ} {p : Path Double} (hne : strokes p ≠ []) (hs : StraightUpTo B p) :
    PtUpTo B (pt (trimmedBox p).1) ∧ PtUpTo B (pt (trimmedBox p).2) ∧
      BoxOf (Drawn (valPath p)) (valPt (pt (trimmedBox p).1)) (valPt (pt (trimmedBox p).2)) := by
  obtain ⟨tl, br, ⟨h1, h2, rfl, rfl⟩, h3⟩ := trimmedBox_upTo hne hs
  exact ⟨h1, h2, h3⟩

omit [MathLib] in
theorem finite_neg {a : Double} (h : a.Finite) : (-. a).Finite ∧ (-. a).val = -a.val := by
  have e : -. a = ⟨.fin (-a.val)⟩ := by
    conv_lhs => rw [h.eq.1]
    rfl
  rw [e]
  exact ⟨⟨-a.val, rfl, by rw [rnd_neg, h.eq.2]⟩, rfl⟩

omit [MathLib] in
theorem straight_strokes {B : ℚ} {p : Path Double} (hs : StraightUpTo B p) : ∀ s ∈ strokes p, StrokeUpTo B s := by
  intro s h
  obtain ⟨a, b, rfl, ha, hb⟩ := hs s h
  exact ⟨ha, hb⟩

omit [MathLib] in
theorem forall₂_left {α β : Type*} {R : α → β → Prop} {l : List α} {k : List β} (h : List.Forall₂ R l k) {a : α} (ha : a ∈ l) : ∃ b ∈ k, R a b := by
  induction h with
  | nil => cases ha
  | cons h1 _ ih =>
    rcases List.mem_cons.1 ha with rfl | ha
    · exact ⟨_, List.mem_cons_self, h1⟩
    · obtain ⟨b, hb, hr⟩ := ih ha
      exact ⟨b, List.mem_cons_of_mem _ hb, hr⟩

omit [MathLib] in
theorem forall₂_right {α β : Type*} {R : α → β → Prop} {l : List α} {k : List β} (h : List.Forall₂ R l k) {b : β} (hb : b ∈ k) : ∃ a ∈ l, R a b := by
  induction h with
  | nil => cases hb
  | cons h1 _ ih =>
    rcases List.mem_cons.1 hb with rfl | hb
    · exact ⟨_, List.mem_cons_self, h1⟩
    · obtain ⟨a, ha, hr⟩ := ih hb
      exact ⟨a, List.mem_cons_of_mem _ ha, hr⟩

omit [MathLib] in
theorem nearly_forth {B e : ℚ} {f : Pt ℚ → Pt ℚ} {p q : Path Double} (h : DrawsNearly B e f p q) {x : Pt ℚ} (hx : Drawn (valPath p) x) :
    ∃ y, Drawn (valPath q) y ∧ NearPt e y (f x) := by
  obtain ⟨s, hs, t, h0, h1, rfl⟩ := hx
  rw [strokes_valPath] at hs
  obtain ⟨s, hs1, rfl⟩ := List.mem_map.1 hs
  obtain ⟨s', hs', _, hr⟩ := forall₂_left h hs1
  refine ⟨_, ⟨s'.map valPt, ?_, t, h0, h1, rfl⟩, hr t h0 h1⟩
  rw [strokes_valPath]
  exact List.mem_map_of_mem hs'

omit [MathLib] in
theorem nearly_back {B e : ℚ} {f : Pt ℚ → Pt ℚ} {p q : Path Double} (h : DrawsNearly B e f p q) {y : Pt ℚ} (hy : Drawn (valPath q) y) :
    ∃ x, Drawn (valPath p) x ∧ NearPt e y (f x) := by
  obtain ⟨s, hs, t, h0, h1, rfl⟩ := hy
  rw [strokes_valPath] at hs
  obtain ⟨s, hs1, rfl⟩ := List.mem_map.1 hs
  obtain ⟨s', hs', _, hr⟩ := forall₂_right h hs1
  refine ⟨_, ⟨s'.map valPt, ?_, t, h0, h1, rfl⟩, hr t h0 h1⟩
  rw [strokes_valPath]
  exact List.mem_map_of_mem hs'

omit [MathLib] in
/-- Drawings that are nearly moved have boxes that are. -/
theorem box_near {B e dx dy : ℚ} {p q : Path Double} (h : DrawsNearly B e (fun q => (q.1 + dx, q.2 + dy)) p q) {tl br tl' br' : Pt ℚ}
    (hp : BoxOf (Drawn (valPath p)) tl br) (hq : BoxOf (Drawn (valPath q)) tl' br') :
    NearPt e tl' (tl.1 + dx, tl.2 + dy) ∧ NearPt e br' (br.1 + dx, br.2 + dy) := by
  have forth : ∀ x, Drawn (valPath p) x → ∃ y, Drawn (valPath q) y ∧ |y.1 - (x.1 + dx)| ≤ e ∧ |y.2 - (x.2 + dy)| ≤ e :=
    fun x hx => nearly_forth h hx
  have back : ∀ y, Drawn (valPath q) y → ∃ x, Drawn (valPath p) x ∧ |y.1 - (x.1 + dx)| ≤ e ∧ |y.2 - (x.2 + dy)| ≤ e :=
    fun x hx => nearly_back h hx
  refine ⟨⟨?_, ?_⟩, ⟨?_, ?_⟩⟩
  · obtain ⟨x, hx, ex⟩ := hp.left
    obtain ⟨y, hy, ey⟩ := hq.left
    obtain ⟨y', hy', n1, _⟩ := forth x hx
    obtain ⟨x', hx', n2, _⟩ := back y hy
    have i1 := (hq.inside _ hy').1
    have i2 := (hp.inside _ hx').1
    rw [abs_le] at n1 n2 ⊢
    constructor <;> simp only [] <;> linarith
  · obtain ⟨x, hx, ex⟩ := hp.top
    obtain ⟨y, hy, ey⟩ := hq.top
    obtain ⟨y', hy', _, n1⟩ := forth x hx
    obtain ⟨x', hx', _, n2⟩ := back y hy
    have i1 := (hq.inside _ hy').2.2.1
    have i2 := (hp.inside _ hx').2.2.1
    rw [abs_le] at n1 n2 ⊢
    constructor <;> simp only [] <;> linarith
  · obtain ⟨x, hx, ex⟩ := hp.right
    obtain ⟨y, hy, ey⟩ := hq.right
    obtain ⟨y', hy', n1, _⟩ := forth x hx
    obtain ⟨x', hx', n2, _⟩ := back y hy
    have i1 := (hq.inside _ hy').2.1
    have i2 := (hp.inside _ hx').2.1
    rw [abs_le] at n1 n2 ⊢
    constructor <;> simp only [] <;> linarith
  · obtain ⟨x, hx, ex⟩ := hp.bottom
    obtain ⟨y, hy, ey⟩ := hq.bottom
    obtain ⟨y', hy', _, n1⟩ := forth x hx
    obtain ⟨x', hx', _, n2⟩ := back y hy
    have i1 := (hq.inside _ hy').2.2.2
    have i2 := (hp.inside _ hx').2.2.2
    rw [abs_le] at n1 n2 ⊢
    constructor <;> simp only [] <;> linarith

omit [MathLib] in
/-- A drawing of straight strokes is moved to one. -/
theorem straight_shift {B B' e : ℚ} {f : Pt ℚ → Pt ℚ} {p : Path Double} (hs : StraightUpTo B p) (dx dy : Double)
    (h : DrawsNearly B' e f p (shift dx dy p)) : StraightUpTo B' (shift dx dy p) := by
  intro s' hs'
  obtain ⟨s, hs1, hu, _⟩ := forall₂_right h hs'
  have e : strokes (shift dx dy p) = (strokes p).map (Stroke.map fun q => pt (newPoint (q.1 +. dx) (q.2 +. dy))) :=
    strokes_mapPath _ _ (fun q => rfl) p
  rw [e] at hs'
  obtain ⟨t, ht, rfl⟩ := List.mem_map.1 hs'
  obtain ⟨a, b, rfl, _, _⟩ := hs t ht
  exact ⟨_, _, rfl, hu.1, hu.2⟩

omit [MathLib] in
theorem strokes_shift_ne {dx dy : Double} {p : Path Double} (hne : strokes p ≠ []) : strokes (shift dx dy p) ≠ [] := by
  have e : strokes (shift dx dy p) = (strokes p).map (Stroke.map fun q => pt (newPoint (q.1 +. dx) (q.2 +. dy))) :=
    strokes_mapPath _ _ (fun q => rfl) p
  rw [e]
  simpa using hne

omit [MathLib] in
/-- One coordinate of a moved point. -/
theorem moved_val {B : ℚ} (hB : B ≤ 10 ^ 100) {m x : Double} (hm : m.Finite) (hx : x.Finite) (hm' : |m.val| ≤ B) (hx' : |x.val| ≤ B) :
    (x +. (-. m)).Finite ∧ (x +. (-. m)).val = rnd (x.val - m.val) := by
  obtain ⟨fn, vn⟩ := finite_neg hm
  have e2 : |x.val + -m.val| ≤ 2 * B := by
    rw [abs_le] at hm' hx' ⊢
    constructor <;> linarith
  have hn := near_of (r := x.val + -m.val) (q := x.val + -m.val) (e := 0) e2 (by simp) (by linarith [show (2 * 10 ^ 100 : ℚ) ≤ 10 ^ 200 by norm_num])
  rw [add_eq_of hx fn, vn]
  refine ⟨hn.fin, ?_⟩
  rw [← sub_eq_add_neg] at hn ⊢
  obtain ⟨q, h1, h2⟩ := hn.fin
  unfold of at h1 ⊢
  simp only [] at h1 ⊢
  split at h1
  · cases h1
  · split at h1
    · cases h1
    · rename_i h3 h4
      rw [if_neg h3, if_neg h4]
      rfl

omit [MathLib] in
theorem moved_nonneg {B : ℚ} (hB : B ≤ 10 ^ 100) {m x : Double} (hm : m.Finite) (hx : x.Finite) (hm' : |m.val| ≤ B) (hx' : |x.val| ≤ B)
    (hle : m.val ≤ x.val) : 0 ≤ (x +. (-. m)).val ∧ (x.val = m.val → (x +. (-. m)).val = 0) := by
  rw [(moved_val hB hm hx hm' hx').2]
  refine ⟨zero_le_rnd (by linarith), fun e => ?_⟩
  rw [e, sub_self, rnd_zero]

/-- **C130.** (b) A drawing whose whitespace has been trimmed begins exactly at zero, to the right and downwards, and is the moved drawing up to three half
units in the last place of `B`. -/
theorem C130_trim {B : ℚ} (h1 : 1 ≤ B) (hB : B ≤ 10 ^ 100) {p : Path Double} (hne : strokes p ≠ []) (hs : StraightUpTo B p) :
    valPt (pt (trimmedBox (trimWhitespace p)).1) = (0, 0) ∧ (∃ br, BoxOf (Drawn (valPath (trimWhitespace p))) (0, 0) br) ∧
      ∃ tl br, BoxOf (Drawn (valPath p)) tl br ∧ DrawsNearly (3 * B) (3 * (eps * B)) (fun q => (q.1 - tl.1, q.2 - tl.2)) p (trimWhitespace p) := by
  obtain ⟨b1, b2, hbox⟩ := C130_box hne hs
  have g1 : (trimmedBox p).1.x.Finite := b1.1
  have g2 : (trimmedBox p).1.y.Finite := b1.2.1
  have g3 : |(trimmedBox p).1.x.val| ≤ B := b1.2.2.1
  have g4 : |(trimmedBox p).1.y.val| ≤ B := b1.2.2.2
  obtain ⟨fx, vx⟩ := finite_neg g1
  obtain ⟨fy, vy⟩ := finite_neg g2
  have hd := C127_shift h1 hB (-. (trimmedBox p).1.x) (-. (trimmedBox p).1.y) fx fy
    (by rw [vx, abs_neg]; exact b1.2.2.1) (by rw [vy, abs_neg]; exact b1.2.2.2) p (straight_strokes hs)
  have hs' := straight_shift hs _ _ hd
  have hne' := strokes_shift_ne (dx := -. (trimmedBox p).1.x) (dy := -. (trimmedBox p).1.y) hne
  obtain ⟨c1, c2, hbox'⟩ := C130_box hne' hs'
  -- the strokes of the moved drawing
  have hstr : ∀ s', s' ∈ strokes (trimWhitespace p) ↔ ∃ s ∈ strokes p, s.map (fun q => pt (newPoint (q.1 +. (-. (trimmedBox p).1.x)) (q.2 +. (-. (trimmedBox p).1.y)))) = s' := by
    intro s'
    have e : strokes (trimWhitespace p) = (strokes p).map (Stroke.map fun q => pt (newPoint (q.1 +. (-. (trimmedBox p).1.x)) (q.2 +. (-. (trimmedBox p).1.y)))) :=
      strokes_mapPath _ _ (fun q => rfl) p
    rw [e, List.mem_map]
  have hval : ∀ q, PtUpTo B q → valPt (pt (newPoint (q.1 +. (-. (trimmedBox p).1.x)) (q.2 +. (-. (trimmedBox p).1.y)))) =
      ((q.1 +. (-. (trimmedBox p).1.x)).val, (q.2 +. (-. (trimmedBox p).1.y)).val) := by
    intro q hq
    have k1 := (moved_val hB g1 hq.1 g3 hq.2.2.1).1
    have k2 := (moved_val hB g2 hq.2.1 g4 hq.2.2.2).1
    exact (newPoint_upTo (B := max |(q.1 +. (-. (trimmedBox p).1.x)).val| |(q.2 +. (-. (trimmedBox p).1.y)).val|)
      ⟨k1, k2, le_max_left _ _, le_max_right _ _⟩).2
  -- the ends of strokes
  have ends : ∀ a b, Stroke.line a b ∈ strokes p → Drawn (valPath p) (valPt a) ∧ Drawn (valPath p) (valPt b) := by
    intro a b hab
    have hm : Stroke.line (valPt a) (valPt b) ∈ strokes (valPath p) := by
      rw [strokes_valPath]
      exact List.mem_map_of_mem hab
    exact ⟨⟨_, hm, 0, le_rfl, zero_le_one, by simp [Stroke.at]⟩, ⟨_, hm, 1, zero_le_one, le_rfl, by simp [Stroke.at]⟩⟩
  have nonneg : ∀ y, Drawn (valPath (trimWhitespace p)) y → 0 ≤ y.1 ∧ 0 ≤ y.2 := by
    rintro y ⟨s', hs1, t, h0, h1', rfl⟩
    rw [strokes_valPath] at hs1
    obtain ⟨s2, hs2, rfl⟩ := List.mem_map.1 hs1
    obtain ⟨s, hs3, rfl⟩ := (hstr _).1 hs2
    obtain ⟨a, b, rfl, ha, hb⟩ := hs s hs3
    obtain ⟨da, db⟩ := ends a b hs3
    have ia := hbox.inside _ da
    have ib := hbox.inside _ db
    simp only [Stroke.map, Stroke.at, hval a ha, hval b hb]
    have pa1 := (moved_nonneg hB g1 ha.1 g3 ha.2.2.1 ia.1).1
    have pb1 := (moved_nonneg hB g1 hb.1 g3 hb.2.2.1 ib.1).1
    have pa2 := (moved_nonneg hB g2 ha.2.1 g4 ha.2.2.2 ia.2.2.1).1
    have pb2 := (moved_nonneg hB g2 hb.2.1 g4 hb.2.2.2 ib.2.2.1).1
    have ht : 0 ≤ 1 - t := by linarith
    exact ⟨add_nonneg (mul_nonneg ht pa1) (mul_nonneg h0 pb1), add_nonneg (mul_nonneg ht pa2) (mul_nonneg h0 pb2)⟩
  -- an end on the left side, an end on the upper side
  have endx : ∃ y, Drawn (valPath (trimWhitespace p)) y ∧ y.1 = 0 := by
    obtain ⟨x, ⟨s1, hs1, t, h0, h1', rfl⟩, ex⟩ := hbox.left
    rw [strokes_valPath] at hs1
    obtain ⟨s, hs3, rfl⟩ := List.mem_map.1 hs1
    obtain ⟨a, b, rfl, ha, hb⟩ := hs s hs3
    obtain ⟨da, db⟩ := ends a b hs3
    have ia := (hbox.inside _ da).1
    have ib := (hbox.inside _ db).1
    have hm : Stroke.map valPt (Stroke.map (fun q => pt (newPoint (q.1 +. (-. (trimmedBox p).1.x)) (q.2 +. (-. (trimmedBox p).1.y)))) (.line a b)) ∈
        strokes (valPath (trimWhitespace p)) := by
      rw [strokes_valPath]
      exact List.mem_map_of_mem ((hstr _).2 ⟨_, hs3, rfl⟩)
    have hor : (valPt a).1 = (valPt (pt (trimmedBox p).1)).1 ∨ (valPt b).1 = (valPt (pt (trimmedBox p).1)).1 := by
      simp only [Stroke.map, Stroke.at] at ex
      by_contra hc
      rw [not_or] at hc
      have la := lt_of_le_of_ne ia (Ne.symm hc.1)
      have lb := lt_of_le_of_ne ib (Ne.symm hc.2)
      rcases h0.lt_or_eq with h0' | rfl
      · nlinarith
      · simp at ex
        linarith
    rcases hor with e | e
    · refine ⟨_, ⟨_, hm, 0, le_rfl, zero_le_one, rfl⟩, ?_⟩
      simp only [Stroke.map, Stroke.at, hval a ha]
      rw [(moved_nonneg hB g1 ha.1 g3 ha.2.2.1 ia).2 e]
      simp
    · refine ⟨_, ⟨_, hm, 1, zero_le_one, le_rfl, rfl⟩, ?_⟩
      simp only [Stroke.map, Stroke.at, hval b hb]
      rw [(moved_nonneg hB g1 hb.1 g3 hb.2.2.1 ib).2 e]
      simp
  have endy : ∃ y, Drawn (valPath (trimWhitespace p)) y ∧ y.2 = 0 := by
    obtain ⟨x, ⟨s1, hs1, t, h0, h1', rfl⟩, ex⟩ := hbox.top
    rw [strokes_valPath] at hs1
    obtain ⟨s, hs3, rfl⟩ := List.mem_map.1 hs1
    obtain ⟨a, b, rfl, ha, hb⟩ := hs s hs3
    obtain ⟨da, db⟩ := ends a b hs3
    have ia := (hbox.inside _ da).2.2.1
    have ib := (hbox.inside _ db).2.2.1
    have hm : Stroke.map valPt (Stroke.map (fun q => pt (newPoint (q.1 +. (-. (trimmedBox p).1.x)) (q.2 +. (-. (trimmedBox p).1.y)))) (.line a b)) ∈
        strokes (valPath (trimWhitespace p)) := by
      rw [strokes_valPath]
      exact List.mem_map_of_mem ((hstr _).2 ⟨_, hs3, rfl⟩)
    have hor : (valPt a).2 = (valPt (pt (trimmedBox p).1)).2 ∨ (valPt b).2 = (valPt (pt (trimmedBox p).1)).2 := by
      simp only [Stroke.map, Stroke.at] at ex
      by_contra hc
      rw [not_or] at hc
      have la := lt_of_le_of_ne ia (Ne.symm hc.1)
      have lb := lt_of_le_of_ne ib (Ne.symm hc.2)
      rcases h0.lt_or_eq with h0' | rfl
      · nlinarith
      · simp at ex
        linarith
    rcases hor with e | e
    · refine ⟨_, ⟨_, hm, 0, le_rfl, zero_le_one, rfl⟩, ?_⟩
      simp only [Stroke.map, Stroke.at, hval a ha]
      rw [(moved_nonneg hB g2 ha.2.1 g4 ha.2.2.2 ia).2 e]
      simp
    · refine ⟨_, ⟨_, hm, 1, zero_le_one, le_rfl, rfl⟩, ?_⟩
      simp only [Stroke.map, Stroke.at, hval b hb]
      rw [(moved_nonneg hB g2 hb.2.1 g4 hb.2.2.2 ib).2 e]
      simp
  have hzero : valPt (pt (trimmedBox (trimWhitespace p)).1) = (0, 0) := by
    refine Prod.ext (le_antisymm ?_ ?_) (le_antisymm ?_ ?_)
    · obtain ⟨y, hy, ey⟩ := endx
      have := (hbox'.inside y hy).1
      rw [ey] at this
      exact this
    · obtain ⟨y, hy, ey⟩ := hbox'.left
      rw [show (valPt (pt (trimmedBox (trimWhitespace p)).1)).1 = y.1 from ey.symm]
      exact (nonneg y hy).1
    · obtain ⟨y, hy, ey⟩ := endy
      have := (hbox'.inside y hy).2.2.1
      rw [ey] at this
      exact this
    · obtain ⟨y, hy, ey⟩ := hbox'.top
      rw [show (valPt (pt (trimmedBox (trimWhitespace p)).1)).2 = y.2 from ey.symm]
      exact (nonneg y hy).2
  refine ⟨hzero, ⟨valPt (pt (trimmedBox (trimWhitespace p)).2), ?_⟩, _, _, hbox, ?_⟩
  · rw [← hzero]
    exact hbox'
  · have e : (fun q : Pt ℚ => (q.1 - (valPt (pt (trimmedBox p).1)).1, q.2 - (valPt (pt (trimmedBox p).1)).2)) =
        (fun q : Pt ℚ => (q.1 + (-. (trimmedBox p).1.x).val, q.2 + (-. (trimmedBox p).1.y).val)) := by
      funext q
      rw [vx, vy]
      exact Prod.ext (sub_eq_add_neg _ _) (sub_eq_add_neg _ _)
    rw [e]
    exact hd

/-- The middle between two coordinates. -/
theorem middle_near {B : ℚ} (h1 : 1 ≤ B) (hB : B ≤ 10 ^ 100) {a b : Double} (ha : a.Finite) (hb : b.Finite) (hA : |a.val| ≤ B) (hB' : |b.val| ≤ B) :
    Near (a +. ((b -. a) /. Arith.two)) ((a.val + b.val) / 2) (2 * B) (5 * (eps * B)) := by
  have two : Near (Arith.two : Double) 2 2 0 := by
    have := near_lit 2 (by norm_num)
    simpa using this
  have v2 : (Arith.two : Double).val = 2 := sub_eq_zero.1 (abs_nonpos_iff.1 two.err)
  have hs : (1 : ℚ) / 10 ^ 40 ≤ eps / 100 := by norm_num
  have hE : eps * 1 ≤ eps * B := mul_le_mul_of_nonneg_left h1 (by norm_num)
  have h0 : eps * B ≤ B / 1000 := by
    unfold eps
    linarith
  have n1 : Near (b -. a) (b.val - a.val) (2 * B + B / 100) (2 * (eps * B) + eps * B / 100) := by
    refine ((Near.self hb hB').sub (Near.self ha hA) ?_).mono ?_ ?_
    · exact (add_le_add hB hB).trans (by norm_num)
    · generalize eps * B = E at *
      have : (B + B) * (1 + eps) + 1 / 10 ^ 40 ≤ 2 * B + B / 100 := by
        unfold eps
        have : (1 : ℚ) / 10 ^ 40 ≤ 1 / 1000 := by norm_num
        linarith
      exact this
    · rw [show eps * (B + B) = 2 * (eps * B) by ring]
      linarith
  have n2 : Near ((b -. a) /. Arith.two) ((b.val - a.val) / 2) (B + B / 50) (2 * (eps * B) + eps * B / 10) := by
    have := n1.div two.fin (d := 2) (by norm_num) (by rw [v2]; norm_num) (by linarith [show (10 ^ 100 : ℚ) * 2 ≤ 10 ^ 200 by norm_num])
    rw [v2] at this
    refine this.mono ?_ ?_
    · unfold eps
      have : (1 : ℚ) / 10 ^ 40 ≤ 1 / 1000 := by norm_num
      linarith
    · rw [show eps * ((2 * B + B / 100) / 2) = eps * B + eps * B / 200 by ring]
      linarith
  have n3 := (Near.self ha hA).add n2 (by linarith [show (10 ^ 100 : ℚ) * 3 ≤ 10 ^ 200 by norm_num])
  rw [show a.val + (b.val - a.val) / 2 = (a.val + b.val) / 2 by ring] at n3
  have he : 0 + (2 * (eps * B) + eps * B / 10) + (eps * (B + (B + B / 50)) + 1 / 10 ^ 40) ≤ 5 * (eps * B) := by
    rw [show eps * (B + (B + B / 50)) = 2 * (eps * B) + eps * B / 50 by ring]
    linarith
  have n4 := n3.err.trans he
  refine ⟨n3.fin, ?_, n4⟩
  rw [abs_le] at hA hB' n4 ⊢
  constructor <;> linarith

omit [MathLib] in
theorem strokes_head_trimD (p : Path Double) (hne : strokes p ≠ []) :
    ∃ s t, (trimMove p).head? = some s ∧ strokeOf s = some t ∧ (strokes p).head? = some t := by
  have e := trimMove_strokes p
  match h : trimMove p with
  | [] => rw [h] at e; exact absurd e.symm hne
  | s :: rest =>
    have hm := trimMove_head p s (by rw [h]; rfl)
    cases hst : strokeOf s with
    | none => rw [strokeOf_eq_none.mp hst] at hm; cases hm
    | some t => exact ⟨s, t, rfl, hst, by rw [← e, h, strokes_cons, hst]; rfl⟩

omit [MathLib] in
theorem strokes_last_trimD (p : Path Double) (hne : strokes p ≠ []) :
    ∃ s t, (trimMove p).getLast? = some s ∧ strokeOf s = some t ∧ (strokes p).getLast? = some t := by
  have e := trimMove_strokes p
  rcases List.eq_nil_or_concat (trimMove p) with h | ⟨l, s, h⟩
  · rw [h] at e; exact absurd e.symm hne
  · have hl : (trimMove p).getLast? = some s := by rw [h]; simp
    have hm := trimMove_last p s hl
    cases hst : strokeOf s with
    | none => rw [strokeOf_eq_none.mp hst] at hm; cases hm
    | some t =>
      refine ⟨s, t, hl, hst, ?_⟩
      rw [← e, h]
      simp [strokes, List.filterMap_append, hst]

/-- **C130.** (c) Each of the eleven handles is found up to five half units in the last place of `B`. -/
theorem C130_handles {B : ℚ} (h1 : 1 ≤ B) (hB : B ≤ 10 ^ 100) {p : Path Double} (hne : strokes p ≠ []) (hs : StraightUpTo B p) (a : Attr)
    (ha : a ∈ handles) :
    ∃ q r, pointAttribute a.text p = .ok q ∧ PtUpTo (2 * B) (pt q) ∧ IsAnchor (valPath p) a r ∧ NearPt (5 * (eps * B)) (valPt (pt q)) r := by
  obtain ⟨b1, b2, hbox⟩ := C130_box hne hs
  have g1 : (trimmedBox p).1.x.Finite := b1.1
  have g2 : (trimmedBox p).1.y.Finite := b1.2.1
  have g3 : |(trimmedBox p).1.x.val| ≤ B := b1.2.2.1
  have g4 : |(trimmedBox p).1.y.val| ≤ B := b1.2.2.2
  have k1 : (trimmedBox p).2.x.Finite := b2.1
  have k2 : (trimmedBox p).2.y.Finite := b2.2.1
  have k3 : |(trimmedBox p).2.x.val| ≤ B := b2.2.2.1
  have k4 : |(trimmedBox p).2.y.val| ≤ B := b2.2.2.2
  have hE : 0 ≤ 5 * (eps * B) := by
    have : 0 ≤ eps * B := mul_nonneg (by norm_num) (by linarith)
    linarith
  have mx := middle_near h1 hB g1 k1 g3 k3
  have my := middle_near h1 hB g2 k2 g4 k4
  have up : ∀ {x : Double}, x.Finite → |x.val| ≤ B → Near x x.val (2 * B) (5 * (eps * B)) :=
    fun h h' => (Near.self h h').mono (by linarith) hE
  have fresh : ∀ {x y : Double} {u v : ℚ}, Near x u (2 * B) (5 * (eps * B)) → Near y v (2 * B) (5 * (eps * B)) →
      PtUpTo (2 * B) (pt (newPoint x y)) ∧ NearPt (5 * (eps * B)) (valPt (pt (newPoint x y))) (u, v) := by
    intro x y u v hx hy
    obtain ⟨n1, n2⟩ := newPoint_near hx hy
    exact ⟨⟨n1.fin, n2.fin, n1.mag, n2.mag⟩, n1.err, n2.err⟩
  have same : ∀ {q : Pt Double}, PtUpTo B q → PtUpTo (2 * B) q ∧ NearPt (5 * (eps * B)) (valPt q) (valPt q) := by
    intro q hq
    refine ⟨⟨hq.1, hq.2.1, hq.2.2.1.trans (by linarith), hq.2.2.2.trans (by linarith)⟩, ?_, ?_⟩ <;> simpa using hE
  obtain ⟨s, t, e1, e2, e3⟩ := strokes_head_trimD p hne
  obtain ⟨s', t', e1', e2', e3'⟩ := strokes_last_trimD p hne
  rw [pointAttribute_text]
  simp only [handles, List.mem_cons, List.not_mem_nil, or_false] at ha
  rcases ha with rfl | rfl | rfl | rfl | rfl | rfl | rfl | rfl | rfl | rfl | rfl
  · exact ⟨_, _, rfl, (same b1).1, ⟨_, _, hbox, rfl⟩, (same b1).2⟩
  · exact ⟨_, _, rfl, (fresh (up k1 k3) (up g2 g4)).1, ⟨_, _, hbox, rfl⟩, (fresh (up k1 k3) (up g2 g4)).2⟩
  · exact ⟨_, _, rfl, (fresh mx (up g2 g4)).1, ⟨_, _, hbox, rfl⟩, (fresh mx (up g2 g4)).2⟩
  · exact ⟨_, _, rfl, (fresh (up g1 g3) (up k2 k4)).1, ⟨_, _, hbox, rfl⟩, (fresh (up g1 g3) (up k2 k4)).2⟩
  · exact ⟨_, _, rfl, (same b2).1, ⟨_, _, hbox, rfl⟩, (same b2).2⟩
  · exact ⟨_, _, rfl, (fresh mx (up k2 k4)).1, ⟨_, _, hbox, rfl⟩, (fresh mx (up k2 k4)).2⟩
  · exact ⟨_, _, rfl, (fresh (up g1 g3) my).1, ⟨_, _, hbox, rfl⟩, (fresh (up g1 g3) my).2⟩
  · exact ⟨_, _, rfl, (fresh (up k1 k3) my).1, ⟨_, _, hbox, rfl⟩, (fresh (up k1 k3) my).2⟩
  · exact ⟨_, _, rfl, (fresh mx my).1, ⟨_, _, hbox, rfl⟩, (fresh mx my).2⟩
  · obtain ⟨x, y, rfl, hx, hy⟩ := hs t (List.mem_of_mem_head? e3)
    have hst : pt s.start = x := by
      cases s <;> simp only [strokeOf, Option.some.injEq, reduceCtorEq] at e2
      cases e2
      rfl
    refine ⟨s.start, valPt x, by simp only [namedValue, e1], by rw [hst]; exact (same hx).1, ⟨.line (valPt x) (valPt y), ?_, ?_⟩, by rw [hst]; exact (same hx).2⟩
    · rw [strokes_valPath, List.head?_map, e3]
      rfl
    · simp [Stroke.at]
  · obtain ⟨x, y, rfl, hx, hy⟩ := hs t' (List.mem_of_mem_getLast? e3')
    have hst : pt s'.stop = y := by
      cases s' <;> simp only [strokeOf, Option.some.injEq, reduceCtorEq] at e2'
      cases e2'
      rfl
    refine ⟨s'.stop, valPt y, by simp only [namedValue, e1'], by rw [hst]; exact (same hy).1, ⟨.line (valPt x) (valPt y), ?_, ?_⟩, by rw [hst]; exact (same hy).2⟩
    · rw [strokes_valPath, List.getLast?_map, e3']
      rfl
    · simp [Stroke.at]

omit [MathLib] in
/-- The handles of a drawing that is nearly moved. -/
theorem anchor_near {B e dx dy : ℚ} {p q : Path Double} (h : DrawsNearly B e (fun q => (q.1 + dx, q.2 + dy)) p q) {a : Attr} {r : Pt ℚ}
    (hr : IsAnchor (valPath p) a r) (hq : ∃ tl br, BoxOf (Drawn (valPath q)) tl br) :
    ∃ r', IsAnchor (valPath q) a r' ∧ NearPt e r' (r.1 + dx, r.2 + dy) := by
  obtain ⟨tl', br', hq⟩ := hq
  have key : ∀ {tl br : Pt ℚ}, BoxOf (Drawn (valPath p)) tl br → (|tl'.1 - (tl.1 + dx)| ≤ e ∧ |tl'.2 - (tl.2 + dy)| ≤ e) ∧
      (|br'.1 - (br.1 + dx)| ≤ e ∧ |br'.2 - (br.2 + dy)| ≤ e) ∧ |(tl'.1 + br'.1) / 2 - ((tl.1 + br.1) / 2 + dx)| ≤ e ∧
      |(tl'.2 + br'.2) / 2 - ((tl.2 + br.2) / 2 + dy)| ≤ e := by
    intro tl br hb
    obtain ⟨⟨n1, n2⟩, ⟨n3, n4⟩⟩ := box_near h hb hq
    simp only [] at n1 n2 n3 n4
    refine ⟨⟨n1, n2⟩, ⟨n3, n4⟩, ?_, ?_⟩
    · rw [abs_le] at n1 n3 ⊢
      constructor <;> linarith
    · rw [abs_le] at n2 n4 ⊢
      constructor <;> linarith
  cases a <;> simp only [IsAnchor] at hr ⊢
  all_goals first
    | exact hr.elim
    | (obtain ⟨tl, br, hb, rfl⟩ := hr
       obtain ⟨⟨n1, n2⟩, ⟨n3, n4⟩, n5, n6⟩ := key hb
       refine ⟨_, ⟨tl', br', hq, rfl⟩, ?_, ?_⟩ <;> assumption)
    | skip
  · obtain ⟨s, hs, rfl⟩ := hr
    rw [strokes_valPath, List.head?_map] at hs
    obtain ⟨s0, hs0, rfl⟩ := Option.map_eq_some_iff.1 hs
    cases hf : strokes p with
    | nil => rw [hf] at hs0; cases hs0
    | cons x l =>
      rw [hf] at hs0
      cases hs0
      unfold DrawsNearly StrokesNearly at h
      rw [hf] at h
      cases hg : strokes q with
      | nil => rw [hg] at h; cases h
      | cons y k =>
        rw [hg] at h
        cases h with
        | cons h1 _ =>
          refine ⟨_, ⟨y.map valPt, by rw [strokes_valPath, hg]; rfl, rfl⟩, h1.2 0 le_rfl zero_le_one⟩
  · obtain ⟨s, hs, rfl⟩ := hr
    rw [strokes_valPath, List.getLast?_map] at hs
    obtain ⟨s0, hs0, rfl⟩ := Option.map_eq_some_iff.1 hs
    have h' := List.rel_reverse h
    rw [← List.head?_reverse] at hs0
    cases hf : (strokes p).reverse with
    | nil => rw [hf] at hs0; cases hs0
    | cons x l =>
      rw [hf] at hs0
      cases hs0
      rw [hf] at h'
      cases hg : (strokes q).reverse with
      | nil => rw [hg] at h'; cases h'
      | cons y k =>
        rw [hg] at h'
        cases h' with
        | cons h1 _ =>
          refine ⟨_, ⟨y.map valPt, ?_, rfl⟩, h1.2 1 zero_le_one le_rfl⟩
          rw [strokes_valPath, List.getLast?_map, ← List.head?_reverse, hg]
          rfl

/-- **C130.** (d) Moving a drawing by a handle to a target puts the handle there up to 25 half units in the last place of `B`, and the drawing is only
moved, up to twelve. -/
theorem C130_move {B : ℚ} (h1 : 1 ≤ B) (hB : B ≤ 10 ^ 99) {p : Path Double} (hne : strokes p ≠ []) (hs : StraightUpTo B p) (a : Attr)
    (ha : a ∈ handles) (target : Point Double) (ht : PtUpTo B (pt target)) :
    ∃ q r, move target a.text p = .ok q ∧ IsAnchor (valPath q) a r ∧ NearPt (25 * (eps * B)) r (valPt (pt target)) ∧
      ∃ dx dy, DrawsNearly (12 * B) (12 * (eps * B)) (fun q => (q.1 + dx, q.2 + dy)) p q := by
  have hB2 : B ≤ 10 ^ 100 := hB.trans (by norm_num)
  obtain ⟨h, r, e1, hh, hr, n1, n2⟩ := C130_handles h1 hB2 hne hs a ha
  have hE : eps * 1 ≤ eps * B := mul_le_mul_of_nonneg_left h1 (by norm_num)
  have hsm : (1 : ℚ) / 10 ^ 40 ≤ eps / 100 := by norm_num
  have key : ∀ {t c : Double} {u : ℚ}, t.Finite → |t.val| ≤ B → c.Finite → |c.val| ≤ 2 * B → |c.val - u| ≤ 5 * (eps * B) →
      Near (t -. c) (t.val - u) (4 * B) (9 * (eps * B)) := by
    intro t c u f1 m1 f2 m2 e
    refine ((Near.self f1 m1).sub (⟨f2, m2, e⟩ : Near c u (2 * B) (5 * (eps * B))) ?_).mono ?_ ?_
    · linarith [show (10 ^ 99 : ℚ) * 3 ≤ 10 ^ 200 by norm_num]
    · unfold eps
      have : (1 : ℚ) / 10 ^ 40 ≤ 1 / 1000 := by norm_num
      linarith
    · rw [show eps * (B + 2 * B) = 3 * (eps * B) by ring]
      linarith
  have kx := key ht.1 ht.2.2.1 hh.1 hh.2.2.1 n1
  have ky := key ht.2.1 ht.2.2.2 hh.2.1 hh.2.2.2 n2
  have hs4 : ∀ s ∈ strokes p, StrokeUpTo (4 * B) s := by
    intro s h
    obtain ⟨x, y, rfl, hx, hy⟩ := hs s h
    exact ⟨⟨hx.1, hx.2.1, hx.2.2.1.trans (by linarith), hx.2.2.2.trans (by linarith)⟩,
      ⟨hy.1, hy.2.1, hy.2.2.1.trans (by linarith), hy.2.2.2.trans (by linarith)⟩⟩
  have hd := C127_shift (B := 4 * B) (by linarith) (by linarith [show (10 ^ 99 : ℚ) * 4 ≤ 10 ^ 100 by norm_num]) (target.x -. h.x) (target.y -. h.y)
    kx.fin ky.fin kx.mag ky.mag p hs4
  have hbox := (C130_box (strokes_shift_ne hne) (straight_shift hs _ _ hd)).2.2
  obtain ⟨r', hr', m1, m2⟩ := anchor_near hd hr ⟨_, _, hbox⟩
  refine ⟨_, r', ?_, hr', ?_, (target.x -. h.x).val, (target.y -. h.y).val, ?_⟩
  · simp only [move, handleOf_text, e1]
  · have x1 := kx.err
    have y1 := ky.err
    simp only [] at m1 m2
    rw [show 3 * (eps * (4 * B)) = 12 * (eps * B) by ring] at m1 m2
    have hE0 : 0 ≤ eps * B := mul_nonneg (by norm_num) (by linarith)
    constructor
    · show |r'.1 - target.x.val| ≤ _
      have x1' : |(target.x -. h.x).val - (target.x.val - r.1)| ≤ 9 * (eps * B) := x1
      rw [abs_le] at m1 x1' ⊢
      constructor <;> linarith
    · show |r'.2 - target.y.val| ≤ _
      have y1' : |(target.y -. h.y).val - (target.y.val - r.2)| ≤ 9 * (eps * B) := y1
      rw [abs_le] at m2 y1' ⊢
      constructor <;> linarith
  · rw [show 12 * B = 3 * (4 * B) by ring, show 12 * (eps * B) = 3 * (eps * (4 * B)) by ring]
    exact hd

end

/-- A path from (0.1, 0.2) to (0.3, 0.9) and back to (0.1, 0.9). -/
def straightTenths : Path Double :=
  [.move ⟨Arith.zero, Arith.zero, Arith.zero⟩ ⟨Arith.lit 1 1, Arith.lit 2 1, Arith.zero⟩,
   .line ⟨Arith.lit 1 1, Arith.lit 2 1, Arith.zero⟩ ⟨Arith.lit 3 1, Arith.lit 9 1, Arith.zero⟩,
   .line ⟨Arith.lit 3 1, Arith.lit 9 1, Arith.zero⟩ ⟨Arith.lit 1 1, Arith.lit 9 1, Arith.zero⟩]

/-- The premises hold of it, with any functions of package `math`. -/
example : strokes straightTenths ≠ [] ∧ StraightUpTo 1 straightTenths := by
  have h : PtUpTo 1 ((Arith.lit 1 1, Arith.lit 2 1) : Pt Double) ∧ PtUpTo 1 ((Arith.lit 3 1, Arith.lit 9 1) : Pt Double)
      ∧ PtUpTo 1 ((Arith.lit 1 1, Arith.lit 9 1) : Pt Double) := by
    decide +kernel
  refine ⟨by simp [straightTenths, strokes, strokeOf], ?_⟩
  intro s hs
  simp only [straightTenths, strokes, strokeOf, List.filterMap_cons, List.filterMap_nil, List.mem_cons, List.not_mem_nil, or_false] at hs
  rcases hs with rfl | rfl
  · exact ⟨_, _, rfl, h.1, h.2.1⟩
  · exact ⟨_, _, rfl, h.2.1, h.2.2⟩

/-- Functions of package `math` that are the wrong ones: here nothing depends on them. -/
def noMath : MathLib := ⟨id, id, id, id, id, fun x _ => x, fun x _ => x, Arith.zero⟩

/-- The drawing is really moved with rounding: its height is not the one it had. -/
example : (let _ := noMath
    ((trimmedBox (trimWhitespace straightTenths)).1.x.val = 0 ∧
     (trimmedBox (trimWhitespace straightTenths)).2.y.val ≠ (trimmedBox straightTenths).2.y.val - (trimmedBox straightTenths).1.y.val ∧
     ∃ q, move (⟨Arith.lit 1 0, Arith.lit 1 0, Arith.zero⟩ : Point Double) Attr.middleMiddle.text straightTenths = .ok q)) := by
  refine ⟨by decide +kernel, by decide +kernel, _, rfl⟩

end Verif.Path
