import Verif.Spec.Functions
import Verif.Props.Params
import Verif.Props.Affine
import Verif.Props.Files

/-!
# Properties of the functions in expressions (C129)
-/

namespace Verif.Dyn

open Verif Verif.Path

universe u

set_option linter.unusedSectionVars false

variable {F : Type u}

theorem args_iff (v : Val F) (l : List (Val F)) : Args v l ↔ spread v = l := by
  constructor
  · intro h
    cases h with
    | nothing => rfl
    | several => rfl
    | one _ h0 h1 => cases v <;> first | rfl | exact absurd rfl h0 | exact absurd rfl (h1 _)
  · rintro rfl
    cases v with
    | null => exact .nothing
    | list l => exact .several l
    | _ => exact .one _ (by simp) (by simp)

theorem flat_iff (l k : List (Val F)) : Flat l k ↔ flattenArgs l = k := by
  constructor
  · intro h
    induction h with
    | nil => rfl
    | list k l l' _ ih => rw [← ih]; rfl
    | other v l l' hv _ ih => rw [← ih]; cases v <;> first | rfl | exact absurd rfl (hv _)
  · rintro rfl
    induction l with
    | nil => exact .nil
    | cons v l ih =>
      cases v with
      | list k => exact .list k l _ ih
      | _ => exact .other _ l _ (by simp) ih

theorem toNumbers_val {number : Val F → Out F} : ∀ {l : List (Option (Val F))} {xs : List F},
    toNumbers number l = .val xs ↔ ∃ vs, l = vs.map some ∧ List.Forall₂ (fun v x => number v = .val x) vs xs
  | [], xs => by
    constructor
    · intro h
      cases h
      exact ⟨[], rfl, .nil⟩
    · rintro ⟨vs, h, h2⟩
      cases vs with
      | nil => cases h2; rfl
      | cons => simp at h
  | none :: l, xs => by
    constructor
    · intro h; cases h
    · rintro ⟨vs, h, h2⟩
      cases vs <;> simp at h
  | some v :: l, xs => by
    rw [toNumbers]
    constructor
    · intro h
      cases hv : number v with
      | err => rw [hv] at h; cases h
      | running => rw [hv] at h; cases h
      | val x =>
        rw [hv] at h
        cases hl : toNumbers number l with
        | err => rw [hl] at h; cases h
        | running => rw [hl] at h; cases h
        | val ys =>
          rw [hl] at h
          cases h
          obtain ⟨vs, rfl, h2⟩ := toNumbers_val.1 hl
          exact ⟨v :: vs, rfl, .cons hv h2⟩
    · rintro ⟨vs, h, h2⟩
      cases vs with
      | nil => simp at h
      | cons w vs =>
        simp only [List.map_cons, List.cons.injEq, Option.some.injEq] at h
        obtain ⟨rfl, rfl⟩ := h
        cases h2 with
        | cons h3 h4 =>
          rw [h3, toNumbers_val.2 ⟨vs, rfl, h4⟩]

theorem callFn_iff [Trig F] {number : Val F → Out F} {f : Fn} {v w : Val F} :
    callFn number f v = .val w ↔ ∃ vs xs y, f.demand (spread v) = some (vs.map some) ∧ List.Forall₂ (fun v x => number v = .val x) vs xs ∧
      f.result xs = some y ∧ w = .num y := by
  constructor
  · intro h
    unfold callFn at h
    cases hd : f.demand (spread v) with
    | none => rw [hd] at h; cases h
    | some l =>
      rw [hd] at h
      simp only [] at h
      cases hn : toNumbers number l with
      | err => rw [hn] at h; cases h
      | running => rw [hn] at h; cases h
      | val xs =>
        rw [hn] at h
        simp only [] at h
        obtain ⟨vs, rfl, h2⟩ := toNumbers_val.1 hn
        cases hr : f.result xs with
        | none => rw [hr] at h; cases h
        | some y =>
          rw [hr] at h
          cases h
          exact ⟨vs, xs, y, rfl, h2, hr, rfl⟩
  · rintro ⟨vs, xs, y, h1, h2, h3, rfl⟩
    unfold callFn
    rw [h1]
    simp only []
    rw [toNumbers_val.2 ⟨vs, rfl, h2⟩]
    simp only []
    rw [h3]

theorem pair_iff {number : Val F → Out F} {v : Val F} {a b c d : F} :
    (∃ vs, pairArgs (spread v) = vs.map some ∧ List.Forall₂ (fun v x => number v = .val x) vs [a, b, c, d]) ↔ GivesPoints number v a b c d := by
  have four : ∀ vs : List (Val F), List.Forall₂ (fun v x => number v = .val x) vs [a, b, c, d] ↔
      ∃ s t u w, vs = [s, t, u, w] ∧ number s = .val a ∧ number t = .val b ∧ number u = .val c ∧ number w = .val d := by
    intro vs
    constructor
    · intro h
      cases h with
      | cons h1 h => cases h with
        | cons h2 h => cases h with
          | cons h3 h => cases h with
            | cons h4 h => cases h; exact ⟨_, _, _, _, rfl, h1, h2, h3, h4⟩
    · rintro ⟨s, t, u, w, rfl, h1, h2, h3, h4⟩
      exact .cons h1 (.cons h2 (.cons h3 (.cons h4 .nil)))
  have hget : ∀ (m : DMap F) (k : Text), '.' ∉ k → (get m k).getD (.str []) = coordinate m k := by
    intro m k hk
    rw [get_plain hk, coordinate]
  constructor
  · rintro ⟨vs, hp, h⟩
    obtain ⟨s, t, u, w, rfl, h1, h2, h3, h4⟩ := (four vs).1 h
    refine ⟨_, _, (args_iff _ _).2 rfl, (flat_iff _ _).2 rfl, ?_⟩
    unfold pairArgs at hp
    split at hp
    · rename_i p q e
      rw [e]
      cases p with
      | map m =>
        cases q with
        | map n =>
          simp only [coordArgs, List.cons_append, List.nil_append, List.map_cons, List.map_nil, List.cons.injEq, Option.some.injEq, and_true] at hp
          obtain ⟨rfl, rfl, rfl, rfl⟩ := hp
          rw [hget _ _ (by decide)] at h1 h2 h3 h4
          exact .maps m n h1 h2 h3 h4
        | _ => simp [coordArgs] at hp
      | _ => simp [coordArgs] at hp
    · have := List.map_injective_iff.2 (Option.some_injective _) hp
      rw [this]
      exact .numbers s t u w h1 h2 h3 h4
  · rintro ⟨l, k, hl, hk, h⟩
    obtain rfl := (args_iff _ _).1 hl
    have hk := (flat_iff _ _).1 hk
    cases h with
    | numbers s t u w h1 h2 h3 h4 =>
      exact ⟨[s, t, u, w], by simp [pairArgs, hk], (four _).2 ⟨_, _, _, _, rfl, h1, h2, h3, h4⟩⟩
    | maps m n h1 h2 h3 h4 =>
      refine ⟨_, ?_, (four _).2 ⟨_, _, _, _, rfl, h1, h2, h3, h4⟩⟩
      simp [pairArgs, hk, coordArgs, hget]

/-! ## C129 Functions -/

/-- **C129.** The text of a call of a function has the value that the function makes out of what is between the parentheses. -/
theorem C129_call [Trig F] {O : Type} (lib : Lib F O) (look : Text → Option (Val F)) (f : Fn) (s t : Text) (e : Expr F O)
    (hs : lib.parse s = some (.call f e)) (ht : lib.parse t = some e) (fuel : Nat) (v : Val F) (h : evalExpression lib look (fuel + 1) t = .val v) :
    evalExpression lib look (fuel + 1) s = callFn (argument lib look fuel) f v := by
  have hr : ¬ (0 > maxRecursion) := by simp [maxRecursion]
  unfold evalExpression at h ⊢
  rw [evalText_succ, if_neg hr, ht] at h
  rw [evalText_succ, if_neg hr, hs]
  simp only [] at h ⊢
  rw [evalExpr]
  cases he : evalExpr lib (nameValue lib look fuel) (argument lib look fuel) 0 e with
  | mk out rec1 =>
    rw [he] at h
    simp only at h
    subst h
    rfl

section Real

variable {number : Val ℝ → Out ℝ} {v w : Val ℝ}

/-- **C129.** `distance` has a value for two points only: given as four numbers, as lists with together four numbers, or as two maps. It is their
distance. -/
theorem C129_distance : callFn number .distance v = .val w ↔
    ∃ a b c d, GivesPoints number v a b c d ∧ w = .num (Real.sqrt ((a - c) ^ 2 + (b - d) ^ 2)) := by
  have hd : ∀ a b c d : ℝ, Path.distance (newPoint a b) (newPoint c d) = Real.sqrt ((a - c) ^ 2 + (b - d) ^ 2) := by
    intro a b c d
    rw [pow_two, pow_two, newPoint_eq, newPoint_eq]
    rfl
  rw [callFn_iff]
  constructor
  · rintro ⟨vs, xs, y, h1, h2, h3, rfl⟩
    match xs, h3 with
    | [a, b, c, d], h3 =>
      simp only [Fn.result, Option.some.injEq] at h3
      refine ⟨a, b, c, d, pair_iff.1 ⟨vs, ?_, h2⟩, by rw [← h3, hd]⟩
      simpa [Fn.demand] using h1
  · rintro ⟨a, b, c, d, h, rfl⟩
    obtain ⟨vs, h1, h2⟩ := pair_iff.2 h
    exact ⟨vs, [a, b, c, d], _, by simp [Fn.demand, h1], h2, rfl, by rw [hd]⟩

/-- **C129.** `angle` has a value for two points only, the same way. It is more than -180 and at most 180, and going from the first point in this
direction leads to the second. -/
theorem C129_angle : callFn number .angle v = .val w →
    ∃ a b c d t, GivesPoints number v a b c d ∧ w = .num t ∧ -180 < t ∧ t ≤ 180 ∧
      c = a + Real.sqrt ((a - c) ^ 2 + (b - d) ^ 2) * Real.cos (t * Real.pi / 180) ∧
      d = b + Real.sqrt ((a - c) ^ 2 + (b - d) ^ 2) * Real.sin (t * Real.pi / 180) := by
  rw [callFn_iff]
  rintro ⟨vs, xs, y, h1, h2, h3, rfl⟩
  match xs, h3 with
  | [a, b, c, d], h3 =>
    simp only [Fn.result, Option.some.injEq] at h3
    have hy : y = 180 / Real.pi * Complex.arg ⟨c - a, d - b⟩ := by
      rw [← h3, newPoint_eq, newPoint_eq]
      show (((180 : ℤ) : ℝ) / 10 ^ 0) / Real.pi * _ = _
      norm_num
    have hpi := Real.pi_pos
    have harg : y * Real.pi / 180 = Complex.arg ⟨c - a, d - b⟩ := by
      rw [hy]
      field_simp
    have hn : Real.sqrt ((a - c) ^ 2 + (b - d) ^ 2) = ‖(⟨c - a, d - b⟩ : ℂ)‖ := by
      rw [Complex.norm_eq_sqrt_sq_add_sq]
      congr 1
      ring
    refine ⟨a, b, c, d, y, pair_iff.1 ⟨vs, by simpa [Fn.demand] using h1, h2⟩, rfl, ?_, ?_, ?_, ?_⟩
    · have := Complex.neg_pi_lt_arg ⟨c - a, d - b⟩
      rw [← harg] at this
      nlinarith
    · have := Complex.arg_le_pi ⟨c - a, d - b⟩
      rw [← harg] at this
      nlinarith
    · rw [harg, hn, Complex.norm_mul_cos_arg]
      simp
    · rw [harg, hn, Complex.norm_mul_sin_arg]
      simp

/-- **C129.** Conversely `angle` has a value for all two points. -/
theorem C129_angle_exists {a b c d : ℝ} (h : GivesPoints number v a b c d) : ∃ t, callFn number .angle v = .val (.num t) := by
  obtain ⟨vs, h1, h2⟩ := pair_iff.2 h
  exact ⟨_, callFn_iff.2 ⟨vs, [a, b, c, d], _, by simp [Fn.demand, h1], h2, rfl, rfl⟩⟩

/-- **C129.** The two ways of giving points can be exchanged: a distance does not depend on how and in which order they are given, and it is zero for
equal points only. -/
theorem C129_distance_metric {v' : Val ℝ} {a b c d x : ℝ} (h : GivesPoints number v a b c d) (h' : GivesPoints number v' c d a b)
    (hx : callFn number .distance v = .val (.num x)) :
    callFn number .distance v' = .val (.num x) ∧ 0 ≤ x ∧ (x = 0 ↔ a = c ∧ b = d) := by
  have e := C129_distance.2 ⟨a, b, c, d, h, rfl⟩
  rw [hx] at e
  simp only [Out.val.injEq, Val.num.injEq] at e
  subst e
  refine ⟨C129_distance.2 ⟨c, d, a, b, h', ?_⟩, Real.sqrt_nonneg _, ?_⟩
  · congr 2
    ring
  · rw [Real.sqrt_eq_zero (by positivity)]
    constructor
    · intro h0
      constructor <;> nlinarith [sq_nonneg (a - c), sq_nonneg (b - d)]
    · rintro ⟨rfl, rfl⟩
      simp

/-- **C129.** The units: one number, and the factor is 25.4. -/
theorem C129_units : (callFn number .mmToInch v = .val w ↔ ∃ u x, Args v [u] ∧ number u = .val x ∧ w = .num (x / 25.4)) ∧
    (callFn number .inchToMM v = .val w ↔ ∃ u x, Args v [u] ∧ number u = .val x ∧ w = .num (x * 25.4)) := by
  have one : ∀ vs : List (Val ℝ), ∀ x, List.Forall₂ (fun v x => number v = .val x) vs [x] ↔ ∃ s, vs = [s] ∧ number s = .val x := by
    intro vs x
    constructor
    · intro h
      cases h with
      | cons h1 h => cases h; exact ⟨_, rfl, h1⟩
    · rintro ⟨s, rfl, h1⟩
      exact .cons h1 .nil
  have inj : ∀ {l k : List (Val ℝ)}, l.map some = k.map some → l = k := fun h => List.map_injective_iff.2 (Option.some_injective _) h
  constructor
  · rw [callFn_iff]
    constructor
    · rintro ⟨vs, xs, y, h1, h2, h3, rfl⟩
      match xs, h3 with
      | [x], h3 =>
        obtain ⟨s, rfl, h4⟩ := (one _ _).1 h2
        simp only [Fn.result, Option.some.injEq] at h3
        refine ⟨s, x, (args_iff _ _).2 (inj (by simpa [Fn.demand] using h1)), h4, ?_⟩
        rw [← h3, (Files.C54_factor x).2]
        norm_num
    · rintro ⟨u, x, h1, h2, rfl⟩
      refine ⟨[u], [x], Files.mmToInch x, ?_, (one _ _).2 ⟨u, rfl, h2⟩, rfl, ?_⟩
      · simp [Fn.demand, (args_iff _ _).1 h1]
      · rw [(Files.C54_factor x).2]
        norm_num
  · rw [callFn_iff]
    constructor
    · rintro ⟨vs, xs, y, h1, h2, h3, rfl⟩
      match xs, h3 with
      | [x], h3 =>
        obtain ⟨s, rfl, h4⟩ := (one _ _).1 h2
        simp only [Fn.result, Option.some.injEq] at h3
        refine ⟨s, x, (args_iff _ _).2 (inj (by simpa [Fn.demand] using h1)), h4, ?_⟩
        rw [← h3, (Files.C54_factor x).1]
        norm_num
    · rintro ⟨u, x, h1, h2, rfl⟩
      refine ⟨[u], [x], Files.inchToMM x, ?_, (one _ _).2 ⟨u, rfl, h2⟩, rfl, ?_⟩
      · simp [Fn.demand, (args_iff _ _).1 h1]
      · rw [(Files.C54_factor x).1]
        norm_num

end Real

/-- **C129.** `sqrt` takes the first argument and ignores the others. The result for a number that is not negative is its square root; for a negative
number it is not a number. -/
theorem C129_sqrt {number : Val (XNum ℝ) → Out (XNum ℝ)} {v w : Val (XNum ℝ)} : callFn number .sqrt v = .val w ↔
    ∃ u l x, Args v (u :: l) ∧ number u = .val x ∧ w = .num (Trig.sqrt x) := by
  rw [callFn_iff]
  constructor
  · rintro ⟨vs, xs, y, h1, h2, h3, rfl⟩
    cases hs : spread v with
    | nil => rw [hs] at h1; cases h1
    | cons u l =>
      rw [hs] at h1
      simp only [Fn.demand, Option.some.injEq] at h1
      match xs, h3 with
      | [x], h3 =>
        cases h2 with
        | cons h4 h5 =>
          cases h5
          simp only [List.map_cons, List.map_nil, List.cons.injEq, Option.some.injEq, and_true] at h1
          subst h1
          simp only [Fn.result, Option.some.injEq] at h3
          exact ⟨_, l, x, (args_iff _ _).2 hs, h4, by rw [h3]⟩
  · rintro ⟨u, l, x, h1, h2, rfl⟩
    exact ⟨[u], [x], _, by simp [Fn.demand, (args_iff _ _).1 h1], .cons h2 .nil, rfl, rfl⟩

/-- **C129.** What the square root is. -/
theorem C129_sqrt_value (x : ℝ) : (0 ≤ x → ∃ y : ℝ, 0 ≤ y ∧ y * y = x ∧ Trig.sqrt (XNum.fin x) = .fin y) ∧
    (x < 0 → Trig.sqrt (XNum.fin x) = (.nan : XNum ℝ)) := by
  constructor
  · intro h
    refine ⟨Real.sqrt x, Real.sqrt_nonneg x, Real.mul_self_sqrt h, ?_⟩
    rw [XNum.sqrt_fin, if_neg (not_lt.2 h)]
  · intro h
    rw [XNum.sqrt_fin, if_pos h]

/-- **C129.** Without an argument `sqrt` stops the program: neither value nor error. No other function does so. -/
theorem C129_sqrt_panics_false [Trig F] (number : Val F → Out F) (v : Val F) (f : Fn) (hn : ∀ u, number u ≠ .running) :
    callFn number f v = .running ↔ f = .sqrt ∧ Args v [] := by
  have hd : f.demand (spread v) = none ↔ f = .sqrt ∧ Args v [] := by
    rw [args_iff]
    cases f <;> cases spread v <;> simp [Fn.demand]
  have ht : ∀ l : List (Option (Val F)), toNumbers number l ≠ .running := by
    intro l
    induction l with
    | nil => simp [toNumbers]
    | cons a l ih =>
      cases a with
      | none => simp [toNumbers]
      | some u =>
        rw [toNumbers]
        cases hu : number u with
        | err => simp
        | running => exact absurd hu (hn u)
        | val x =>
          cases hl : toNumbers number l with
          | err => simp
          | running => exact absurd hl ih
          | val xs => simp
  rw [← hd, callFn]
  cases f.demand (spread v) with
  | none => simp
  | some l =>
    simp only [reduceCtorEq, iff_false]
    cases hl : toNumbers number l with
    | err => simp
    | running => exact absurd hl (ht l)
    | val xs =>
      simp only []
      split <;> simp

/-- **C129.** The text of `sqrt()` is one for which neither a value nor an error is returned. -/
theorem C129_sqrt_empty_false [Trig F] {O : Type} (lib : Lib F O) (look : Text → Option (Val F)) (s : Text)
    (hs : lib.parse s = some (.call .sqrt .empty)) (fuel : Nat) : evalExpression lib look fuel s = .running := by
  cases fuel with
  | zero => rfl
  | succ fuel =>
    have hr : ¬ (0 > maxRecursion) := by simp [maxRecursion]
    unfold evalExpression
    rw [evalText_succ, if_neg hr, hs]
    rfl

/-- **C129.** What was converted to the other unit and back is the number from before. -/
theorem C129_back {O : Type} (lib : Lib ℝ O) (look : Text → Option (Val ℝ)) (f g : Fn)
    (hfg : f = .mmToInch ∧ g = .inchToMM ∨ f = .inchToMM ∧ g = .mmToInch) (s r t : Text) (e : Expr ℝ O)
    (hs : lib.parse s = some (.call f (.call g e))) (hr : lib.parse r = some (.call g e)) (ht : lib.parse t = some e) (fuel : Nat) (x : ℝ)
    (h : evalExpression lib look (fuel + 1) t = .val (.num x)) : evalExpression lib look (fuel + 1) s = .val (.num x) := by
  have hn : ∀ y : ℝ, argument lib look fuel (.num y) = .val y := by
    intro y
    rw [argument_notText lib look (by intro s; simp)]
    rfl
  have h1 := C129_call lib look g r t e hr ht fuel _ h
  have ha : ∀ y : ℝ, Args (Val.num y) [.num y] := fun y => .one _ (by simp) (by simp)
  rcases hfg with ⟨rfl, rfl⟩ | ⟨rfl, rfl⟩
  · rw [C129_units.2.2 ⟨_, x, ha x, hn x, rfl⟩] at h1
    rw [C129_call lib look _ s r _ hs hr fuel _ h1, C129_units.1.2 ⟨_, _, ha _, hn _, rfl⟩]
    congr 2
    field_simp
  · rw [C129_units.1.2 ⟨_, x, ha x, hn x, rfl⟩] at h1
    rw [C129_call lib look _ s r _ hs hr fuel _ h1, C129_units.2.2 ⟨_, _, ha _, hn _, rfl⟩]
    congr 2
    field_simp

/-- Not vacuous: the distance of the points (0, 0) and (3, 4) is 5, whichever way they are given. -/
example (number : Val ℝ → Out ℝ) (hn : ∀ x, number (.num x) = .val x) (l : List (Val ℝ))
    (hl : l ∈ [[.num 0, .num 0, .num 3, .num 4], [.list [.num 0, .num 0], .num 3, .num 4], [.list [.num 0, .num 0], .list [.num 3, .num 4]],
      [.map [(['x'], .num 0), (['y'], .num 0)], .map [(['y'], .num 4), (['x'], .num 3)]]]) : callFn number .distance (.list l) = .val (.num 5) := by
  refine C129_distance.2 ⟨0, 0, 3, 4, ?_, ?_⟩
  · simp only [List.mem_cons, List.not_mem_nil, or_false] at hl
    rcases hl with rfl | rfl | rfl | rfl
    · exact ⟨_, _, .several _, (flat_iff _ _).2 rfl, .numbers _ _ _ _ (hn 0) (hn 0) (hn 3) (hn 4)⟩
    · exact ⟨_, _, .several _, (flat_iff _ _).2 rfl, .numbers _ _ _ _ (hn 0) (hn 0) (hn 3) (hn 4)⟩
    · exact ⟨_, _, .several _, (flat_iff _ _).2 rfl, .numbers _ _ _ _ (hn 0) (hn 0) (hn 3) (hn 4)⟩
    · exact ⟨_, _, .several _, (flat_iff _ _).2 rfl, .maps _ _ (hn 0) (hn 0) (hn 3) (hn 4)⟩
  · congr 1
    rw [show ((0 : ℝ) - 3) ^ 2 + (0 - 4) ^ 2 = 5 ^ 2 by norm_num, Real.sqrt_sq (by norm_num)]

end Verif.Dyn
