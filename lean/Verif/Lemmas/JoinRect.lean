import Verif.Lemmas.JoinLines
import Verif.Lemmas.Faithful

/-!
# Joining the four sides of a rectangle

The sides of a rectangle that have been moved outwards or inwards are joined at the four corners.
-/

namespace Verif.Path

open Verif Verif.Spec Verif.XNum

set_option linter.unusedSectionVars false

/-- Four lines of a rectangle after an offset: `y0` has become `T`, `x1` has become `R`, `y1` has become `B` and `x0` has become `L`.
The displacements are between `t` and `g`, the sides are longer than `2 g`. -/
structure Frame (t g x0 x1 y0 y1 T R B L : ℝ) : Prop where
  pos : 0 < t
  top : t < |T - y0| ∧ |T - y0| ≤ g
  right : t < |R - x1| ∧ |R - x1| ≤ g
  bottom : t < |B - y1| ∧ |B - y1| ≤ g
  left : t < |L - x0| ∧ |L - x0| ≤ g
  width : 2 * g < |x1 - x0|
  height : 2 * g < |y1 - y0|

theorem Frame.flipX {t g x0 x1 y0 y1 T R B L : ℝ} (h : Frame t g x0 x1 y0 y1 T R B L) : Frame t g x1 x0 y0 y1 T L B R :=
  ⟨h.pos, h.top, h.left, h.bottom, h.right, by rw [abs_sub_comm]; exact h.width, h.height⟩

theorem Frame.flipY {t g x0 x1 y0 y1 T R B L : ℝ} (h : Frame t g x0 x1 y0 y1 T R B L) : Frame t g x0 x1 y1 y0 B R T L :=
  ⟨h.pos, h.bottom, h.right, h.top, h.left, h.width, by rw [abs_sub_comm]; exact h.height⟩

theorem Frame.transpose {t g x0 x1 y0 y1 T R B L : ℝ} (h : Frame t g x0 x1 y0 y1 T R B L) : Frame t g y1 y0 x1 x0 R T L B :=
  ⟨h.pos, h.right, h.top, h.left, h.bottom, by rw [abs_sub_comm]; exact h.height, by rw [abs_sub_comm]; exact h.width⟩

theorem lengthOf_turned (sw : Bool) (x y x' y' : ℝ) : lengthOf (turned sw x y) (turned sw x' y') = Real.sqrt ((x' - x) ^ 2 + (y' - y) ^ 2) := by
  cases sw <;> simp [turned, lengthOf, add_comm]

theorem sqrt_lt_of {a b c d : ℝ} (h : a ^ 2 + b ^ 2 < c ^ 2 + d ^ 2) : Real.sqrt (a ^ 2 + b ^ 2) < Real.sqrt (c ^ 2 + d ^ 2) :=
  Real.sqrt_lt_sqrt (by positivity) h

/-- The rectangle drawn from the corner `(L, T)`. -/
def cycle (sw : Bool) (L T R B : ℝ) : List (Stroke ℝ) :=
  [.line (turned sw L T) (turned sw R T), .line (turned sw R T) (turned sw R B), .line (turned sw R B) (turned sw L B),
    .line (turned sw L B) (turned sw L T)]

/-- The rectangle before it is closed. -/
def openCycle (sw : Bool) (x0 y0 L T R B : ℝ) : List (Stroke ℝ) :=
  [.line (turned sw x0 T) (turned sw R T), .line (turned sw R T) (turned sw R B), .line (turned sw R B) (turned sw L B),
    .line (turned sw L B) (turned sw L y0)]

/-- The same two numbers, in either order. -/
def SamePair (u v a b : ℝ) : Prop := (a = u ∧ b = v) ∨ (a = v ∧ b = u)

theorem SamePair.swap {u v a b : ℝ} (h : SamePair u v a b) : SamePair u v b a := h.elim (fun h => .inr ⟨h.2, h.1⟩) (fun h => .inl ⟨h.2, h.1⟩)

/-- The corners are those of the rectangle from `u` to `v` and from `u'` to `v'`. -/
def InBounds (u v u' v' : ℝ) (sw : Bool) (L T R B : ℝ) : Prop :=
  if sw then SamePair u v T B ∧ SamePair u' v' L R else SamePair u v L R ∧ SamePair u' v' T B

theorem InBounds.flipX {u v u' v' : ℝ} {sw : Bool} {L T R B : ℝ} (h : InBounds u v u' v' sw L T R B) : InBounds u v u' v' sw R T L B := by
  cases sw
  · exact ⟨h.1.swap, h.2⟩
  · exact ⟨h.1, h.2.swap⟩

theorem InBounds.flipY {u v u' v' : ℝ} {sw : Bool} {L T R B : ℝ} (h : InBounds u v u' v' sw L T R B) : InBounds u v u' v' sw L B R T := by
  cases sw
  · exact ⟨h.1, h.2.swap⟩
  · exact ⟨h.1.swap, h.2⟩

theorem InBounds.transpose {u v u' v' : ℝ} {sw : Bool} {L T R B : ℝ} (h : InBounds u v u' v' sw L T R B) : InBounds u v u' v' (!sw) B R T L := by
  cases sw
  · exact ⟨h.1.swap, h.2.swap⟩
  · exact ⟨h.1.swap, h.2.swap⟩

theorem turned_not (sw : Bool) (x y : ℝ) : turned (!sw) x y = turned sw y x := by cases sw <;> rfl

theorem Frame.far {t g x0 x1 y0 y1 T R B L : ℝ} (h : Frame t g x0 x1 y0 y1 T R B L) : t < g ∧ g < |T - y1| ∧ g < |B - y0| ∧ g < |R - x0| ∧ g < |L - x1| := by
  have key : ∀ {a b c : ℝ}, 2 * g < |a - b| → |c - a| ≤ g → g < |c - b| := by
    intro a b c h1 h2
    have := abs_sub_le a c b
    rw [abs_sub_comm a c] at this
    linarith
  refine ⟨lt_of_lt_of_le h.top.1 h.top.2, key (by rw [abs_sub_comm]; exact h.height) h.top.2, key h.height h.bottom.2, key h.width h.right.2,
    key (by rw [abs_sub_comm]; exact h.width) h.left.2⟩

theorem sq_le_of {a g : ℝ} (h : |a| ≤ g) : a ^ 2 ≤ g ^ 2 := by
  rw [← sq_abs a]
  exact pow_le_pow_left₀ (abs_nonneg a) h 2

theorem lt_sq_of {a g : ℝ} (hg : 0 ≤ g) (h : g < |a|) : g ^ 2 < a ^ 2 := by
  rw [← sq_abs a]
  exact pow_lt_pow_left₀ h hg (by norm_num)

theorem run_cons {r : Path ℝ} {s : Stroke ℝ} {l : List (Stroke ℝ)} (hm : ∀ x ∈ r, x.isMove = false) (h : strokes r = s :: l) :
    ∃ seg rest, r = seg :: rest ∧ strokeOf seg = some s ∧ strokes rest = l := by
  cases r with
  | nil => cases h
  | cons seg rest =>
    have := hm seg (by simp)
    cases hs : strokeOf seg with
    | none => rw [strokeOf_eq_none] at hs; rw [hs] at this; cases this
    | some t =>
      rw [strokes_cons, hs] at h
      have h : t :: strokes rest = s :: l := h
      cases h
      exact ⟨seg, rest, rfl, hs, rfl⟩

theorem run_nil {r : Path ℝ} (hm : ∀ x ∈ r, x.isMove = false) (h : strokes r = []) : r = [] := by
  cases r with
  | nil => rfl
  | cons seg rest =>
    have := hm seg (by simp)
    cases hs : strokeOf seg with
    | none => rw [strokeOf_eq_none] at hs; rw [hs] at this; cases this
    | some t => rw [strokes_cons, hs] at h; cases h

/-- What joining leads to. -/
def JoinedTo (t g u v u' v' : ℝ) (p : Option (Path (XNum ℝ))) : Prop :=
  ∃ (r : Path ℝ) (sw : Bool) (x0 x1 y0 y1 T R B L : ℝ), p = some (finPath r) ∧ Frame t g x0 x1 y0 y1 T R B L ∧ InBounds u v u' v' sw L T R B ∧
    strokes r = openCycle sw x0 y0 L T R B ∧ (∀ s ∈ r, s.isMove = false) ∧ Chained r

section Steps

variable {t g : ℝ} {n so : Int} (hn : 1 / 10 ^ n.toNat ≤ t) (hs : 1 / 10 ^ so.toNat ≤ t) {u v u' v' : ℝ}
include hn hs

theorem last_take (fuel : Nat) {sw : Bool} {x0 x1 y0 y1 T R B L : ℝ} (h : Frame t g x0 x1 y0 y1 T R B L) (hb : InBounds u v u' v' sw L T R B) {p1 p2 : Path ℝ}
    (hj : Joining [.line (turned sw x0 T) (turned sw R T), .line (turned sw R T) (turned sw R B), .line (turned sw R B) (turned sw x0 B)]
      [.line (turned sw L y1) (turned sw L y0)] p1 p2) (hle : (y1 - B) ^ 2 ≤ (y0 - T) ^ 2) :
    JoinedTo t g u v u' v' (joinLoop n so (fuel + 2) (finPath p1) (finPath p2)) := by
  obtain ⟨f1, f2, f3, f4, f5⟩ := h.far
  have hg : 0 ≤ g := by linarith [h.pos]
  have c1 := sq_le_of h.bottom.2
  have c2 := lt_sq_of hg f2
  have c3 := lt_sq_of hg f3
  obtain ⟨q1, q2, e1, j1⟩ := join_take n so (fuel + 1) hj (g := .line (turned sw L y1) (turned sw L y0)) (u := [.line (turned sw x0 T) (turned sw R T), .line (turned sw R T) (turned sw R B)])
    (v := []) (x := turned sw L B) rfl rfl rfl rfl
    (by simp only [Stroke.first]; rw [lengthOf_turned, lengthOf_turned]; exact Real.sqrt_le_sqrt (by linarith))
    (by simp only [Stroke.first, Stroke.last]; rw [lengthOf_turned, lengthOf_turned]; exact Real.sqrt_le_sqrt (by linarith))
    (by simp only [Stroke.last]; rw [lengthOf_turned, lengthOf_turned]; exact Real.sqrt_le_sqrt (by linarith))
    (corner_join n so sw (by linarith) (by rw [abs_sub_comm]; have := h.height; linarith [abs_sub_comm y1 y0])
      (by rw [abs_sub_comm]; linarith [h.left.1]) (by rw [abs_sub_comm]; linarith [h.left.1]))
  obtain ⟨r, e2, s1, s2, s3⟩ := join_done n so fuel j1
  exact ⟨r, sw, x0, x1, y0, y1, T, R, B, L, e1.trans e2, h, hb, s1, s2, s3⟩

theorem step_last (fuel : Nat) {sw : Bool} {x0 x1 y0 y1 T R B L : ℝ} (h : Frame t g x0 x1 y0 y1 T R B L) (hb : InBounds u v u' v' sw L T R B) {p1 p2 : Path ℝ}
    (hj : Joining [.line (turned sw x0 T) (turned sw R T), .line (turned sw R T) (turned sw R B), .line (turned sw R B) (turned sw x0 B)]
      [.line (turned sw L y1) (turned sw L y0)] p1 p2) :
    JoinedTo t g u v u' v' (joinLoop n so (fuel + 3) (finPath p1) (finPath p2)) := by
  by_cases hle : (y1 - B) ^ 2 ≤ (y0 - T) ^ 2
  · exact last_take hn hs (fuel + 1) h hb hj hle
  · rw [not_le] at hle
    obtain ⟨f1, f2, f3, f4, f5⟩ := h.far
    have hg : 0 ≤ g := by linarith [h.pos]
    have c1 := sq_le_of h.top.2
    have c2 := lt_sq_of hg f2
    have c3 := lt_sq_of hg f3
    obtain ⟨q1, q2, e1, j1⟩ := join_swap n so (fuel + 2) hj (g := .line (turned sw L y1) (turned sw L y0))
      (s1 := .line (turned sw R B) (turned sw x0 B)) rfl rfl rfl rfl
      (by simp only [Stroke.first, Stroke.last]; rw [lengthOf_turned, lengthOf_turned]; exact sqrt_lt_of (by linarith))
      (by simp only [Stroke.first, Stroke.last]; rw [lengthOf_turned, lengthOf_turned]; exact sqrt_lt_of (by linarith))
      (by simp only [Stroke.first, Stroke.last]; rw [lengthOf_turned, lengthOf_turned]; exact sqrt_lt_of (by linarith))
    rw [e1]
    exact last_take hn hs fuel h.flipY hb.flipY j1 hle.le

theorem middle_take (fuel : Nat) {sw : Bool} {x0 x1 y0 y1 T R B L : ℝ} (h : Frame t g x0 x1 y0 y1 T R B L) (hb : InBounds u v u' v' sw L T R B) {p1 p2 : Path ℝ}
    (hj : Joining [.line (turned sw x0 T) (turned sw R T), .line (turned sw R T) (turned sw R y1)]
      [.line (turned sw x1 B) (turned sw x0 B), .line (turned sw L y1) (turned sw L y0)] p1 p2)
    (hle : (x1 - R) ^ 2 + (B - y1) ^ 2 ≤ (L - x0) ^ 2 + (y0 - T) ^ 2) :
    JoinedTo t g u v u' v' (joinLoop n so (fuel + 4) (finPath p1) (finPath p2)) := by
  obtain ⟨f1, f2, f3, f4, f5⟩ := h.far
  have hg : 0 ≤ g := by linarith [h.pos]
  have c1 := sq_le_of h.bottom.2
  have c2 := sq_le_of h.right.2
  have c3 := lt_sq_of (by linarith) h.width
  have c4 := lt_sq_of (by linarith) h.height
  have hc := corner_join n so (!sw) (xa := T) (xb := y1) (T := R) (R := B) (yc := x1) (ye := x0) (by linarith) (by linarith [h.width])
      (by rw [abs_sub_comm]; linarith [h.bottom.1]) (by rw [abs_sub_comm]; linarith [h.bottom.1])
  simp only [turned_not] at hc
  obtain ⟨q1, q2, e1, j1⟩ := join_take n so (fuel + 3) hj (g := .line (turned sw L y1) (turned sw L y0)) (u := [.line (turned sw x0 T) (turned sw R T)])
    (v := [.line (turned sw L y1) (turned sw L y0)]) (x := turned sw R B) rfl rfl rfl rfl
    (by simp only [Stroke.first]; rw [lengthOf_turned, lengthOf_turned]; exact Real.sqrt_le_sqrt (by nlinarith [sq_nonneg (B - T)]))
    (by simp only [Stroke.first, Stroke.last]; rw [lengthOf_turned, lengthOf_turned]; exact Real.sqrt_le_sqrt (by linarith))
    (by simp only [Stroke.last]; rw [lengthOf_turned, lengthOf_turned]; exact Real.sqrt_le_sqrt (by nlinarith [sq_nonneg (L - R)]))
    hc
  rw [e1]
  exact step_last hn hs fuel h hb j1

theorem step_middle (fuel : Nat) {sw : Bool} {x0 x1 y0 y1 T R B L : ℝ} (h : Frame t g x0 x1 y0 y1 T R B L) (hb : InBounds u v u' v' sw L T R B) {p1 p2 : Path ℝ}
    (hj : Joining [.line (turned sw x0 T) (turned sw R T), .line (turned sw R T) (turned sw R y1)]
      [.line (turned sw x1 B) (turned sw x0 B), .line (turned sw L y1) (turned sw L y0)] p1 p2) :
    JoinedTo t g u v u' v' (joinLoop n so (fuel + 5) (finPath p1) (finPath p2)) := by
  by_cases hle : (x1 - R) ^ 2 + (B - y1) ^ 2 ≤ (L - x0) ^ 2 + (y0 - T) ^ 2
  · exact middle_take hn hs (fuel + 1) h hb hj hle
  · rw [not_le] at hle
    have c1 := sq_le_of h.top.2
    have c2 := sq_le_of h.left.2
    have hg : 0 ≤ g := by linarith [h.pos, h.top.1, h.top.2]
    have c3 := lt_sq_of (by linarith) h.width
    have c4 := lt_sq_of (by linarith) h.height
    obtain ⟨q1, q2, e1, j1⟩ := join_swap n so (fuel + 4) hj (g := .line (turned sw L y1) (turned sw L y0))
      (s1 := .line (turned sw R T) (turned sw R y1)) rfl rfl rfl rfl
      (by simp only [Stroke.first, Stroke.last]; rw [lengthOf_turned, lengthOf_turned]; exact sqrt_lt_of (by nlinarith [sq_nonneg (B - T)]))
      (by simp only [Stroke.first, Stroke.last]; rw [lengthOf_turned, lengthOf_turned]; exact sqrt_lt_of (by linarith))
      (by simp only [Stroke.first, Stroke.last]; rw [lengthOf_turned, lengthOf_turned]; exact sqrt_lt_of (by nlinarith [sq_nonneg (L - R)]))
    rw [e1]
    refine middle_take hn hs fuel h.transpose hb.transpose ?_ (by linarith)
    simp only [turned_not]
    exact j1

theorem first_take (fuel : Nat) {sw : Bool} {x0 x1 y0 y1 T R B L : ℝ} (h : Frame t g x0 x1 y0 y1 T R B L) (hb : InBounds u v u' v' sw L T R B) {p1 p2 : Path ℝ}
    (hj : Joining [.line (turned sw x0 T) (turned sw x1 T)]
      [.line (turned sw R y0) (turned sw R y1), .line (turned sw x1 B) (turned sw x0 B), .line (turned sw L y1) (turned sw L y0)] p1 p2)
    (hle : (R - x1) ^ 2 ≤ (L - x0) ^ 2) :
    JoinedTo t g u v u' v' (joinLoop n so (fuel + 6) (finPath p1) (finPath p2)) := by
  obtain ⟨f1, f2, f3, f4, f5⟩ := h.far
  have hg : 0 ≤ g := by linarith [h.pos]
  have c1 := sq_le_of h.right.2
  have c2 := lt_sq_of hg f4
  have c3 := lt_sq_of hg f5
  obtain ⟨q1, q2, e1, j1⟩ := join_take n so (fuel + 5) hj (g := .line (turned sw L y1) (turned sw L y0)) (u := [])
    (v := [.line (turned sw x1 B) (turned sw x0 B), .line (turned sw L y1) (turned sw L y0)]) (x := turned sw R T) rfl rfl rfl rfl
    (by simp only [Stroke.first]; rw [lengthOf_turned, lengthOf_turned]; exact Real.sqrt_le_sqrt (by linarith))
    (by simp only [Stroke.first, Stroke.last]; rw [lengthOf_turned, lengthOf_turned]; exact Real.sqrt_le_sqrt (by linarith))
    (by simp only [Stroke.last]; rw [lengthOf_turned, lengthOf_turned]; exact Real.sqrt_le_sqrt (by linarith))
    (corner_join n so sw (by rw [abs_sub_comm]; linarith [h.width]) (by rw [abs_sub_comm]; linarith [h.height])
      (by rw [abs_sub_comm]; linarith [h.right.1]) (by rw [abs_sub_comm]; linarith [h.right.1]))
  rw [e1]
  exact step_middle hn hs fuel h hb j1

theorem step_first (fuel : Nat) {sw : Bool} {x0 x1 y0 y1 T R B L : ℝ} (h : Frame t g x0 x1 y0 y1 T R B L) (hb : InBounds u v u' v' sw L T R B) {p1 p2 : Path ℝ}
    (hj : Joining [.line (turned sw x0 T) (turned sw x1 T)]
      [.line (turned sw R y0) (turned sw R y1), .line (turned sw x1 B) (turned sw x0 B), .line (turned sw L y1) (turned sw L y0)] p1 p2) :
    JoinedTo t g u v u' v' (joinLoop n so (fuel + 7) (finPath p1) (finPath p2)) := by
  by_cases hle : (R - x1) ^ 2 ≤ (L - x0) ^ 2
  · exact first_take hn hs (fuel + 1) h hb hj hle
  · rw [not_le] at hle
    obtain ⟨f1, f2, f3, f4, f5⟩ := h.far
    have hg : 0 ≤ g := by linarith [h.pos]
    have c1 := sq_le_of h.left.2
    have c2 := lt_sq_of hg f4
    have c3 := lt_sq_of hg f5
    obtain ⟨q1, q2, e1, j1⟩ := join_swap n so (fuel + 6) hj (g := .line (turned sw L y1) (turned sw L y0))
      (s1 := .line (turned sw x0 T) (turned sw x1 T)) rfl rfl rfl rfl
      (by simp only [Stroke.first, Stroke.last]; rw [lengthOf_turned, lengthOf_turned]; exact sqrt_lt_of (by linarith))
      (by simp only [Stroke.first, Stroke.last]; rw [lengthOf_turned, lengthOf_turned]; exact sqrt_lt_of (by linarith))
      (by simp only [Stroke.first, Stroke.last]; rw [lengthOf_turned, lengthOf_turned]; exact sqrt_lt_of (by linarith))
    rw [e1]
    exact first_take hn hs fuel h.flipX hb.flipX j1 hle.le

/-- The four sides are joined to an open rectangle. -/
theorem joinLoop_rect (fuel : Nat) {sw : Bool} {x0 x1 y0 y1 T R B L : ℝ} (h : Frame t g x0 x1 y0 y1 T R B L) (hb : InBounds u v u' v' sw L T R B) {p : Path ℝ}
    (hc : Chained p) (hp : strokes p = [.line (turned sw x0 T) (turned sw x1 T), .line (turned sw R y0) (turned sw R y1),
      .line (turned sw x1 B) (turned sw x0 B), .line (turned sw L y1) (turned sw L y0)]) :
    JoinedTo t g u v u' v' (joinLoop n so (fuel + 8) [] (finPath p)) := by
  obtain ⟨p1, p2, e, j⟩ := join_first n so (fuel + 7) hc hp
  rw [e]
  exact step_first hn hs fuel h hb j

/-- Closing the open rectangle. -/
theorem close_rect {sw : Bool} {x0 x1 y0 y1 T R B L : ℝ} (h : Frame t g x0 x1 y0 y1 T R B L) {r : Path ℝ} (hr : strokes r = openCycle sw x0 y0 L T R B)
    (hm : ∀ s ∈ r, s.isMove = false) : ∃ q : Path ℝ, closePath so (finPath r) = finPath q ∧ strokes q = cycle sw L T R B ∧
      Inked (some (turned sw L T)) q := by
  obtain ⟨s1, r1, e1, k1, hr⟩ := run_cons hm hr
  obtain ⟨s2, r2, rfl, k2, hr⟩ := run_cons (fun s hs => hm s (by rw [e1]; simp [hs])) hr
  obtain ⟨s3, r3, rfl, k3, hr⟩ := run_cons (fun s hs => hm s (by rw [e1]; simp [hs])) hr
  obtain ⟨s4, r4, rfl, k4, hr⟩ := run_cons (fun s hs => hm s (by rw [e1]; simp [hs])) hr
  obtain rfl := run_nil (fun s hs => hm s (by rw [e1]; simp [hs])) hr
  subst e1
  obtain ⟨C, E, rfl, a1, a2⟩ := strokeOf_line k1
  obtain ⟨A, B', rfl, a3, a4⟩ := strokeOf_line k4
  obtain ⟨P2, Q2, rfl, d1, d2⟩ := strokeOf_line k2
  obtain ⟨P3, Q3, rfl, d3, d4⟩ := strokeOf_line k3
  obtain ⟨f1, f2, f3, f4, f5⟩ := h.far
  have hc := corner_join n so (!sw) (xa := B) (xb := y0) (T := L) (R := T) (yc := x0) (ye := R) (by linarith) (by rw [abs_sub_comm]; linarith)
      (by rw [abs_sub_comm]; linarith [h.top.1]) (by rw [abs_sub_comm]; linarith [h.top.1]) A B' C E
  simp only [turned_not] at hc
  obtain ⟨-, A', X, Y, b1, b2, b3, b4⟩ := hc a3 a4 a1 a2
  refine ⟨[.line Y E, .line P2 Q2, .line P3 Q3, .line A' X], ?_, ?_, ?_⟩
  · have := closePath_two so (finSeg (.line C E)) (finSeg (.line A B')) [finSeg (.line P2 Q2), finSeg (.line P3 Q3)]
    rw [b4] at this
    exact this
  · simp only [strokes, List.filterMap_cons, d1, d2, d3, d4, strokeOf, b1, b2, b3, a2, List.filterMap_nil, cycle]
  · simp [Inked, d1, d2, d3, d4, b1, b3, a2]

end Steps

/-! ## The transform -/

/-- Two points are further apart than the precision. -/
def FarApart (t : ℝ) (p q : Pt ℝ) : Prop := t < |p.1 - q.1| ∨ t < |p.2 - q.2|

theorem farApart_x {t : ℝ} (sw : Bool) {x y x' y' : ℝ} (h : t < |x - x'|) : FarApart t (turned sw x y) (turned sw x' y') := by
  cases sw
  · exact .inl h
  · exact .inr h

theorem farApart_y {t : ℝ} (sw : Bool) {x y x' y' : ℝ} (h : t < |y - y'|) : FarApart t (turned sw x y) (turned sw x' y') := by
  cases sw
  · exact .inr h
  · exact .inl h

theorem FarApart.print {t : ℝ} {n : Nat} (hn : 1 / 10 ^ n ≤ t) {p q : Point ℝ} (h : FarApart t (pt p) (pt q)) : PrintApart n p q := by
  intro he
  have e := (stringPrecision_injective (K := ℝ) n p q).1 he
  have e1 := Decimal.fmt_close (K := ℝ) e.1
  have e2 := Decimal.fmt_close (K := ℝ) e.2
  rcases h with h | h <;> simp only [pt] at h <;> linarith

theorem FarApart.notAtZero {t : ℝ} {n : Nat} (hn : 1 / 10 ^ n ≤ t) {p q : Point ℝ} (h : FarApart t (pt p) (pt q)) : NotAtZero n p q := by
  unfold NotAtZero
  rw [distance_fin, show (Arith.zero : XNum ℝ) = fin 0 by simp [Arith.zero]]
  refine apart_precisionEquals (n := (n : Int)) (y := 0) ?_
  rw [Int.toNat_natCast, sub_zero, lengthOf, abs_of_nonneg (Real.sqrt_nonneg _)]
  rcases h with h | h
  · refine lt_of_le_of_lt hn (lt_of_lt_of_le h ?_)
    rw [abs_sub_comm]
    exact Real.abs_le_sqrt (by nlinarith [sq_nonneg ((pt q).2 - (pt p).2)])
  · refine lt_of_le_of_lt hn (lt_of_lt_of_le h ?_)
    rw [abs_sub_comm]
    exact Real.abs_le_sqrt (by nlinarith [sq_nonneg ((pt q).1 - (pt p).1)])

theorem chained_sep {l : List (Point ℝ × Point ℝ × Point ℝ)} (h : MovesMeet l) : Chained (sepLines l) := by
  rw [chained_iff]
  induction l with
  | nil => exact .nil
  | cons x l ih =>
    rw [sepLines_cons]
    cases l with
    | nil => simp [sepLines, Segment.stop, Segment.start, meets_iff]
    | cons y l =>
      obtain ⟨h1, h2⟩ := List.isChain_cons_cons.1 h
      have := ih h2
      rw [sepLines_cons] at this ⊢
      simp only [List.isChain_cons_cons] at this ⊢
      exact ⟨meets_iff.2 rfl, meets_iff.2 h1, this⟩

theorem strokes_sep (l : List (Point ℝ × Point ℝ × Point ℝ)) : strokes (sepLines l) = (l.map Prod.snd).map fun x => .line (pt x.1) (pt x.2) := by
  induction l with
  | nil => rfl
  | cons x l ih => rw [sepLines_cons]; simp [strokes_cons, strokeOf, ih]

/-- The four sides, each drawn for itself, are joined to a closed rectangle. -/
theorem join_rect {t g : ℝ} {n : Nat} {so : Int} (hn : 1 / 10 ^ n ≤ t) (hs : 1 / 10 ^ so.toNat ≤ t) {u v u' v' : ℝ} {sw : Bool}
    {x0 x1 y0 y1 T R B L : ℝ} (h : Frame t g x0 x1 y0 y1 T R B L) (hw : 2 * g + t < |x1 - x0|) (hh : 2 * g + t < |y1 - y0|)
    (hb : InBounds u v u' v' sw L T R B) {l : List (Point ℝ × Point ℝ × Point ℝ)} {A1 B1 A2 B2 A3 B3 A4 B4 : Point ℝ}
    (hl : l.map Prod.snd = [(A1, B1), (A2, B2), (A3, B3), (A4, B4)])
    (a1 : pt A1 = turned sw x0 T) (b1 : pt B1 = turned sw x1 T) (a2 : pt A2 = turned sw R y0) (b2 : pt B2 = turned sw R y1)
    (a3 : pt A3 = turned sw x1 B) (b3 : pt B3 = turned sw x0 B) (a4 : pt A4 = turned sw L y1) (b4 : pt B4 = turned sw L y0) :
    ∃ (r : Path ℝ) (sw' : Bool) (T' R' B' L' : ℝ), join n so true (finPath (sepLines l)) = .ok (finPath r) ∧ InBounds u v u' v' sw' L' T' R' B' ∧
      strokes r = cycle sw' L' T' R' B' ∧ Inked none r := by
  obtain ⟨f1, f2, f3, f4, f5⟩ := h.far
  have hTB : t < |T - B| := by
    have e1 := abs_sub_le y1 B y0
    have e2 := abs_sub_le B T y0
    rw [abs_sub_comm y1 B] at e1
    rw [abs_sub_comm B T] at e2
    linarith [h.top.2, h.bottom.2]
  have hRL : t < |R - L| := by
    have e1 := abs_sub_le x1 R x0
    have e2 := abs_sub_le R L x0
    rw [abs_sub_comm x1 R] at e1
    linarith [h.right.2, h.left.2]
  have hx1R : t < |x1 - R| := by rw [abs_sub_comm]; exact h.right.1
  have hx1L : t < |x1 - L| := by rw [abs_sub_comm]; linarith
  have hy1B : t < |y1 - B| := by rw [abs_sub_comm]; exact h.bottom.1
  have hx0L : t < |x0 - L| := by rw [abs_sub_comm]; exact h.left.1
  have hc : (l.map Prod.snd).IsChain (fun x y => PrintApart n x.2 y.1) := by
    rw [hl]
    simp only [List.isChain_cons_cons, List.isChain_singleton, and_true]
    refine ⟨FarApart.print hn ?_, FarApart.print hn ?_, FarApart.print hn ?_⟩
    · rw [b1, a2]; exact farApart_x sw hx1R
    · rw [b2, a3]; exact farApart_y sw hy1B
    · rw [b3, a4]; exact farApart_x sw hx0L
  have hz : (l.map Prod.snd).Pairwise (fun u v => NotAtZero n u.2 v.1 ∧ NotAtZero n u.2 v.2) := by
    rw [hl]
    simp only [List.pairwise_cons, List.mem_cons, List.not_mem_nil, or_false, forall_eq_or_imp, forall_eq, IsEmpty.forall_iff, implies_true,
      List.Pairwise.nil, and_true]
    refine ⟨⟨⟨?_, ?_⟩, ⟨?_, ?_⟩, ?_, ?_⟩, ⟨⟨?_, ?_⟩, ?_, ?_⟩, ?_, ?_⟩ <;> refine FarApart.notAtZero hn ?_
    · rw [b1, a2]; exact farApart_x sw hx1R
    · rw [b1, b2]; exact farApart_x sw hx1R
    · rw [b1, a3]; exact farApart_y sw hTB
    · rw [b1, b3]; exact farApart_y sw hTB
    · rw [b1, a4]; exact farApart_x sw hx1L
    · rw [b1, b4]; exact farApart_x sw hx1L
    · rw [b2, a3]; exact farApart_y sw hy1B
    · rw [b2, b3]; exact farApart_y sw hy1B
    · rw [b2, a4]; exact farApart_x sw hRL
    · rw [b2, b4]; exact farApart_x sw hRL
    · rw [b3, a4]; exact farApart_x sw hx0L
    · rw [b3, b4]; exact farApart_x sw hx0L
  obtain ⟨l1, e1, k1, -⟩ := dedup_sep n l (by rintro rfl; cases hl) hc
  obtain ⟨l2, e2, k2, m2⟩ : ∃ l2, reorder n (finPath (sepLines l1)) = .ok (finPath (sepLines l2)) ∧ l2.map Prod.snd = l1.map Prod.snd ∧ MovesMeet l2 := by
    match l1, k1 with
    | [], k1 => rw [hl] at k1; cases k1
    | [x], k1 => rw [hl] at k1; simp at k1
    | x :: y :: l1, k1 => exact reorder_sep n x y l1 (by rw [k1]; exact hc) (by rw [k1]; exact hz)
  have hst : strokes (sepLines l2) = [.line (turned sw x0 T) (turned sw x1 T), .line (turned sw R y0) (turned sw R y1),
      .line (turned sw x1 B) (turned sw x0 B), .line (turned sw L y1) (turned sw L y0)] := by
    rw [strokes_sep, k2, k1, hl]
    simp only [List.map_cons, List.map_nil, a1, b1, a2, b2, a3, b3, a4, b4]
  have hlen : (finPath (sepLines l2)).length = 8 := by
    have : l2.length = 4 := by rw [← List.length_map (f := Prod.snd), k2, k1, hl]; rfl
    match l2, this with
    | [_, _, _, _], _ => rfl
  obtain ⟨r, sw', x0', x1', y0', y1', T', R', B', L', e3, h', hb', hr, hm, -⟩ :=
    joinLoop_rect (n := (n : Int)) (by simpa using hn) hs 10 h hb (chained_sep m2) hst
  obtain ⟨q, e4, hq, hi⟩ := close_rect (n := (n : Int)) (by simpa using hn) hs h' hr hm
  refine ⟨newPath q, sw', T', R', B', L', ?_, hb', by rw [strokes_newPath, hq], inked_newPath hi⟩
  simp only [join, e1, e2, bind, Res.bind, hlen]
  rw [e3]
  simp only [if_true, e4, newPath_fin]
  rfl

end Verif.Path
