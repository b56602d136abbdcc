import Verif.Spec.Params
import Verif.Lemmas.Dynmap
import Verif.Num
import Mathlib.Logic.Relation

/-!
# Properties of parameters and expressions (C46, C47)
-/

set_option linter.unusedSectionVars false
set_option linter.unusedSimpArgs false

namespace Verif.Dyn

universe u

variable {F : Type u}

/-! ## C46 Parameter lookup -/

/-- **C46.** On one element the parameters come first, then the map of the element, then (for the document) the context. -/
theorem C46_order (c : Chain F) (param : Text) :
    (∀ v, get c.elem.allParams param = some v → IsLeaf v → c.define param = some v) ∧
    (∀ v, get c.elem.allParams param = none → get c.elem.original param = some v → IsLeaf v → c.define param = some v) ∧
    (∀ v, get c.elem.allParams param = none → get c.elem.original param = none → get c.context param = some v → IsLeaf v →
      c.define param = some v) ∧
    (get c.elem.allParams param = none → get c.elem.original param = none → get c.context param = none → c.define param = none) := by
  have leaf : ∀ v : Val F, IsLeaf v → (match some v with
    | some (.map m) => if (get m valueKey).isSome then get m valueKey else some v
    | _ => some v) = some v := by
    intro v hv
    cases v <;> first | rfl | exact absurd rfl (hv _)
  unfold Chain.define
  refine ⟨?_, ?_, ?_, ?_⟩
  · intro v h hv
    simp only [h, Option.or_some, Option.some_or]
    exact leaf v hv
  · intro v h1 h hv
    simp only [h1, h, Option.none_or, Option.some_or]
    exact leaf v hv
  · intro v h1 h2 h hv
    simp only [h1, h2, h, Option.none_or]
    exact leaf v hv
  · intro h1 h2 h3
    simp only [h1, h2, h3, Option.none_or]

/-- **C46.** A parameter with a description stands for its value. -/
theorem C46_described (c : Chain F) (param : Text) (m : DMap F) (v : Val F) (h : get c.elem.allParams param = some (.map m))
    (hv : get m "value".toList = some v) : c.define param = some v := by
  have hv : get m valueKey = some v := hv
  simp [Chain.define, h, hv]

theorem localLookup_none {c : Chain F} {param : Text} (h : c.define param = none) : localLookup c param 0 = none := by
  rw [localLookup, if_neg (by simp [maxRecursion]), h]
  rfl

theorem localLookup_value {c : Chain F} {param : Text} {v : Val F} (h : c.define param = some v) (hv : NotText v) {r : Nat}
    (hr : r ≤ maxRecursion) : localLookup c param r = some v := by
  rw [localLookup, if_neg (by omega), h]
  cases v <;> first | rfl | exact absurd rfl (hv _)

theorem localLookup_step {c : Chain F} {param s : Text} (h : c.define param = some (.str s)) {r : Nat}
    (hr : r ≤ maxRecursion) : localLookup c param r = localLookup c s (r + 1) := by
  conv_lhs => rw [localLookup, if_neg (by omega), h]

theorem localLookup_deep (c : Chain F) (param : Text) {r : Nat} (hr : maxRecursion < r) : localLookup c param r = none := by
  rw [localLookup, if_pos (by omega)]

theorem localLookup_unknown {c : Chain F} {param : Text} (h : c.define param = none) {r : Nat} (hr : r ≤ maxRecursion) (h0 : 0 < r) :
    localLookup c param r = some (.str param) := by
  rw [localLookup, if_neg (by omega), h]
  simp [h0]

/-- **C46.** A value that is not a text, defined on the element itself, wins over all ancestors. -/
theorem C46_own (c : Chain F) (param : Text) (v : Val F) (h : c.define param = some v) (hv : NotText v) : c.lookup param = some v := by
  have e := localLookup_value h hv (r := 0) (by simp [maxRecursion])
  cases c with
  | document el ctx => exact e
  | component el parent =>
    rw [Chain.lookup, e]
    cases v <;> first | rfl | exact absurd rfl (hv _)

/-- **C46.** A name that the element does not define is looked up on its parent. -/
theorem C46_inherit (e : Elem F) (parent : Chain F) (param : Text) (h : (Chain.component e parent).define param = none) :
    (Chain.component e parent).lookup param = parent.lookup param := by
  rw [Chain.lookup, localLookup_none h]

theorem get_nil (param : Text) : get ([] : DMap F) param = none := by
  rw [get_eq]
  cases h : dots param with
  | nil => exact absurd h (dots_ne_nil _)
  | cons k ks => simp [follow_map_cons]

/-- **C46.** A name that nobody defines is reported as missing. -/
theorem C46_missing (c : Chain F) (param : Text) (h : c.Undefined param) : c.lookup param = none := by
  induction c with
  | document e ctx =>
    rw [Chain.lookup]
    exact localLookup_none ((C46_order (.document e ctx) param).2.2.2 h.1 h.2.1 h.2.2)
  | component e parent ih =>
    rw [C46_inherit e parent param ((C46_order (.component e parent) param).2.2.2 h.1 h.2.1 (get_nil _)), ih h.2.2]

theorem define_undefined {c : Chain F} {param : Text} (h : c.Undefined param) : c.define param = none := by
  cases c with
  | document e ctx => exact (C46_order (.document e ctx) param).2.2.2 h.1 h.2.1 h.2.2
  | component e parent => exact (C46_order (.component e parent) param).2.2.2 h.1 h.2.1 (get_nil _)

/-- **C46.** A text that is nobody's name, defined on the element itself, wins over all ancestors. -/
theorem C46_own_text (c : Chain F) (param s : Text) (h : c.define param = some (.str s)) (hs : c.Undefined s) :
    c.lookup param = some (.str s) := by
  have e : localLookup c param 0 = some (.str s) := by
    rw [localLookup_step h (by simp [maxRecursion]), localLookup_unknown (define_undefined hs) (by simp [maxRecursion]) (by omega)]
  cases c with
  | document el ctx => exact e
  | component el parent =>
    rw [Chain.lookup, e]
    simp only []
    rw [C46_missing parent s hs.2.2]

/-- **C46.** A text that the element defines, and that is the name of something on an ancestor, stands for that. -/
theorem C46_ancestor_text (e : Elem F) (parent : Chain F) (param s : Text) (h : (Chain.component e parent).define param = some (.str s))
    (hs : (Chain.component e parent).define s = none) (v : Val F) (hv : parent.lookup s = some v) :
    (Chain.component e parent).lookup param = some v := by
  have e' : localLookup (Chain.component e parent) param 0 = some (.str s) := by
    rw [localLookup_step h (by simp [maxRecursion]), localLookup_unknown hs (by simp [maxRecursion]) (by omega)]
  rw [Chain.lookup, e']
  simp only [hv]

/-- **C46.** References on the element itself are followed up to twenty times. -/
theorem C46_references (c : Chain F) (s : Nat → Text) (k : Nat) (hk : k ≤ maxRecursion)
    (hs : ∀ i, i < k → c.define (s i) = some (.str (s (i + 1)))) (v : Val F) (h : c.define (s k) = some v) (hv : NotText v) :
    c.lookup (s 0) = some v := by
  have e : ∀ i, i ≤ k → localLookup c (s 0) 0 = localLookup c (s i) i := by
    intro i hi
    induction i with
    | zero => rfl
    | succ i ih => rw [ih (by omega), localLookup_step (hs i (by omega)) (by omega)]
  have e' : localLookup c (s 0) 0 = some v := by rw [e k le_rfl, localLookup_value h hv hk]
  cases c with
  | document el ctx => exact e'
  | component el parent =>
    rw [Chain.lookup, e']
    cases v <;> first | rfl | exact absurd rfl (hv _)

/-- **C46.** References that go on for more than twenty steps, for instance round a cycle, count as no definition: the lookup ends and goes on
with the parent, or reports that the name is missing. -/
theorem C46_cycle (c : Chain F) (s : Nat → Text) (hs : ∀ i, i ≤ maxRecursion → c.define (s i) = some (.str (s (i + 1)))) :
    c.lookup (s 0) = match c with
      | .document _ _ => none
      | .component _ parent => parent.lookup (s 0) := by
  have e : ∀ i, i ≤ maxRecursion + 1 → localLookup c (s 0) 0 = localLookup c (s i) i := by
    intro i hi
    induction i with
    | zero => rfl
    | succ i ih => rw [ih (by omega), localLookup_step (hs i (by omega)) (by omega)]
  have e' : localLookup c (s 0) 0 = none := by rw [e _ le_rfl, localLookup_deep _ _ (by omega)]
  cases c with
  | document el ctx => exact e'
  | component el parent => rw [Chain.lookup, e']

/-- **C46.** An attribute: a value of the local map that is not a text wins over everything. -/
theorem C46_attr_local (c : Chain F) (mp : DMap F) (param : Text) (v : Val F) (h : get mp param = some v) (hv : NotText v) :
    attrLookup c mp param 0 = some v := by
  rw [attrLookup, if_neg (by simp [recursionMax]), h]
  cases v <;> first | rfl | exact absurd rfl (hv _)

/-- **C46.** An attribute that the local map does not have, or has with its own name, comes from the element and its ancestors; defaults are
used only when those have nothing. -/
theorem C46_attr_inherit (c : Chain F) (mp : DMap F) (param : Text) (h : get mp param = none ∨ get mp param = some (.str param)) (v : Val F)
    (hv : c.lookup param = some v) : attrLookup c mp param 0 = some v := by
  rw [attrLookup, if_neg (by simp [recursionMax])]
  rcases h with h | h
  · simp only [h, hv]
  · simp only [h, hv, ne_eq, not_true_eq_false, if_false]

/-- **C46.** The nearest default is used. -/
theorem C46_attr_default (c : Chain F) (mp : DMap F) (param : Text) (h : get mp param = none ∨ get mp param = some (.str param))
    (hc : c.lookup param = none) (v : Val F) (hd : get c.elem.defaults param = some v) (hv : NotText v) :
    attrLookup c mp param 0 = some v := by
  have e : attrDefault c mp c param 0 = some v := by
    rw [attrDefault.eq_def, hd]
    cases v <;> first | rfl | exact absurd rfl (hv _)
  rw [attrLookup, if_neg (by simp [recursionMax])]
  rcases h with h | h
  · simp only [h, hc, e]
  · simp only [h, hc, ne_eq, not_true_eq_false, if_false, e]

/-- The first element of the chain that has a default of a name, itself or an ancestor at most `n` levels up. -/
def defaultAt (param : Text) : Chain F → Option (Val F)
  | .document e _ => get e.defaults param
  | .component e parent => (get e.defaults param).or (defaultAt param parent)

/-- **C46.** The defaults of the ancestors are used from the inside to the outside. -/
theorem C46_attr_default_ancestor (c : Chain F) (mp : DMap F) (param : Text) (h : get mp param = none ∨ get mp param = some (.str param))
    (hc : c.lookup param = none) (v : Val F) (hd : defaultAt param c = some v) (hv : NotText v) : attrLookup c mp param 0 = some v := by
  have main : ∀ (e : Chain F) (r : Nat), defaultAt param e = some v → attrDefault c mp e param r = some v := by
    intro e
    induction e with
    | document e ctx =>
      intro r hd
      rw [defaultAt] at hd
      rw [attrDefault.eq_def, show get (Chain.document e ctx).elem.defaults param = some v from hd]
      cases v <;> first | rfl | exact absurd rfl (hv _)
    | component e parent ih =>
      intro r hd
      rw [defaultAt] at hd
      rw [attrDefault.eq_def, show (Chain.component e parent).elem = e from rfl]
      cases hg : get e.defaults param with
      | none =>
        rw [hg, Option.none_or] at hd
        exact ih _ hd
      | some w =>
        rw [hg, Option.some_or] at hd
        cases hd
        cases v <;> first | rfl | exact absurd rfl (hv _)
  have e := main c 0 hd
  rw [attrLookup, if_neg (by simp [recursionMax])]
  rcases h with h | h
  · simp only [h, hc, e]
  · simp only [h, hc, ne_eq, not_true_eq_false, if_false, e]

/-- **C46.** A text that happens to be the name of something is replaced by it: a text is not always returned as it was defined. -/
theorem C46_own_text_false : ∃ (c : Chain Nat) (param s : Text), c.define param = some (.str s) ∧ c.lookup param ≠ some (.str s) := by
  refine ⟨.component ⟨[], [(['l'], .str ['w'])], []⟩ (.document ⟨[], [(['w'], .num 3)], []⟩ []), ['l'], ['w'], rfl, ?_⟩
  have e : (Chain.component ⟨[], [(['l'], .str ['w'])], []⟩ (.document ⟨[], [(['w'], .num 3)], []⟩ []) : Chain Nat).lookup ['l'] =
      some (.num 3) := by
    rw [Chain.lookup, localLookup_step (s := ['w']) rfl (by simp [maxRecursion]), localLookup_unknown rfl (by simp [maxRecursion]) (by omega)]
    simp only []
    rw [C46_own (F := Nat) _ _ (.num 3) rfl (by intro s h; cases h)]
  rw [e]
  simp

/-- Not vacuous: a cyclic definition on a component, and the definition of the document behind it. -/
example : (Chain.component ⟨[], [(['w'], .str ['w'])], []⟩ (.document ⟨[], [(['w'], .num 3)], []⟩ []) : Chain Nat).lookup ['w'] =
    some (.num 3) := by
  rw [C46_cycle _ (fun _ => ['w']) (fun i _ => rfl)]
  exact C46_own _ _ _ rfl (by intro s h; cases h)

/-! ## C47 Expressions -/

variable {O : Type} [Trig F] (lib : Lib F O) (look : Text → Option (Val F))

/-- The value of a name, as in the model. -/
def nameValue (fuel : Nat) (rec : Nat) (x : Text) : Out (Val F) × Nat :=
  match look x with
  | none => (.err, rec)
  | some v =>
    match toBool v with
    | some b => (.val (.bool b), rec)
    | none =>
      match toFloat64 v with
      | some y => (.val (.num y), rec)
      | none =>
        match v with
        | .str t => evalText lib look fuel (rec + 1) t
        | v => (.val v, rec)

/-- The number of a value, as in the model. -/
def argument (fuel : Nat) (v : Val F) : Out F :=
  match v with
  | .str t =>
    match (evalText lib look fuel 0 (t.filter fun c => decide (c ≠ '$'))).1 with
    | .val w =>
      match toFloat64 w with
      | some x => .val x
      | none => .err
    | .err => .err
    | .running => .running
  | v =>
    match toFloat64 v with
    | some x => .val x
    | none => .err

theorem evalText_succ (fuel rec : Nat) (s : Text) : evalText lib look (fuel + 1) rec s =
    if rec > maxRecursion then (.err, rec)
    else
      match lib.parse s with
      | none => (.err, rec)
      | some e => evalExpr lib (nameValue lib look fuel) (argument lib look fuel) rec e := rfl

theorem argument_notText {v : Val F} (hv : NotText v) (fuel : Nat) : argument lib look fuel v = match toFloat64 v with
      | some x => .val x
      | none => .err := by
  cases v <;> first | rfl | exact absurd rfl (hv _)

theorem named_notText (v : Val F) (fuel rec : Nat) : NotText v → (match v with
        | .str t => evalText lib look fuel (rec + 1) t
        | v => (.val v, rec)) = (Out.val v, rec) := by
  intro hv
  cases v <;> first | rfl | exact absurd rfl (hv _)

theorem notText_or (v : Val F) : NotText v ∨ ∃ s, v = .str s := by
  cases v with
  | str s => exact .inr ⟨s, rfl⟩
  | _ => exact .inl (by intro s h; cases h)

theorem callFn_val {number : Val F → Out F} {f : Fn} {v w : Val F} (h : callFn number f v = .val w) :
    ∃ l xs y, f.demand (spread v) = some l ∧ toNumbers number l = .val xs ∧ f.result xs = some y ∧ w = .num y := by
  unfold callFn at h
  cases hd : f.demand (spread v) with
  | none =>
    rw [hd] at h
    simp at h
  | some l =>
    rw [hd] at h
    simp only [] at h
    cases hn : toNumbers number l with
    | err =>
      rw [hn] at h
      simp at h
    | running =>
      rw [hn] at h
      simp at h
    | val xs =>
      rw [hn] at h
      simp only [] at h
      cases hr : f.result xs with
      | none =>
        rw [hr] at h
        simp at h
      | some y =>
        rw [hr] at h
        exact ⟨l, xs, y, rfl, hn, hr, (Out.val.inj h).symm⟩

theorem toNumbers_cons {number : Val F → Out F} {v : Val F} {l : List (Option (Val F))} {xs : List F}
    (h : toNumbers number (some v :: l) = .val xs) : ∃ x ys, xs = x :: ys ∧ number v = .val x ∧ toNumbers number l = .val ys := by
  rw [toNumbers] at h
  cases hn : number v with
  | err =>
    rw [hn] at h
    simp at h
  | running =>
    rw [hn] at h
    simp at h
  | val x =>
    rw [hn] at h
    simp only [] at h
    cases hl : toNumbers number l with
    | err =>
      rw [hl] at h
      simp at h
    | running =>
      rw [hl] at h
      simp at h
    | val ys =>
      rw [hl] at h
      exact ⟨x, ys, (Out.val.inj h).symm, rfl, rfl⟩

theorem toNumbers_sound (fuel : Nat) (ih : ∀ (rec : Nat) (s : Text) (v : Val F) (rec' : Nat), evalText lib look fuel rec s = (.val v, rec') →
    ∃ n, Means lib look (· ≤ maxRecursion) s v n ∧ rec' = rec + n ∧ rec' ≤ maxRecursion) : ∀ (l : List (Option (Val F))) (xs : List F),
    toNumbers (argument lib look fuel) l = .val xs → MeansL lib look (· ≤ maxRecursion) l xs
  | [], xs, h => by
    rw [toNumbers] at h
    cases h
    exact .nil
  | none :: l, xs, h => by
    rw [toNumbers] at h
    cases h
  | some w :: l, xs, h => by
    obtain ⟨x, ys, rfl, hn, hl⟩ := toNumbers_cons h
    have hys := toNumbers_sound fuel ih l ys hl
    rcases notText_or w with hw | ⟨t, rfl⟩
    · rw [argument_notText lib look hw] at hn
      cases hf : toFloat64 w with
      | none =>
        rw [hf] at hn
        simp at hn
      | some x' =>
        rw [hf] at hn
        simp only [Out.val.injEq] at hn
        subst hn
        exact .value w x' l ys hw hf hys
    · rw [argument] at hn
      cases he : evalText lib look fuel 0 (t.filter fun c => decide (c ≠ '$')) with
      | mk out rec3 =>
        rw [he] at hn
        cases out with
        | err => simp at hn
        | running => simp at hn
        | val u =>
          simp only [] at hn
          obtain ⟨k, m2, e2, b2⟩ := ih _ _ _ _ he
          cases hf : toFloat64 u with
          | none =>
            rw [hf] at hn
            simp at hn
          | some x' =>
            rw [hf] at hn
            simp only [Out.val.injEq] at hn
            subst hn
            exact .text t u x' k l ys m2 (by omega) hf hys

/-- The values that are found are right, and the counter has counted the references. -/
theorem evalText_sound (fuel : Nat) : ∀ (rec : Nat) (s : Text) (v : Val F) (rec' : Nat), evalText lib look fuel rec s = (.val v, rec') →
    ∃ n, Means lib look (· ≤ maxRecursion) s v n ∧ rec' = rec + n ∧ rec' ≤ maxRecursion := by
  induction fuel with
  | zero =>
    intro rec s v rec' h
    simp [evalText] at h
  | succ fuel ih =>
    intro rec s v rec' h
    rw [evalText_succ] at h
    split at h
    · simp at h
    · rename_i hr
      cases hp : lib.parse s with
      | none =>
        rw [hp] at h
        simp at h
      | some e =>
        rw [hp] at h
        simp only [] at h
        have main : ∀ (e : Expr F O) (rec : Nat), rec ≤ maxRecursion → ∀ (v : Val F) (rec' : Nat),
            evalExpr lib (nameValue lib look fuel) (argument lib look fuel) rec e = (.val v, rec') →
            ∃ n, MeansE lib look (· ≤ maxRecursion) e v n ∧ rec' = rec + n ∧ rec' ≤ maxRecursion := by
          intro e
          induction e with
          | empty =>
            intro rec hr v rec' h
            simp only [evalExpr, Prod.mk.injEq, Out.val.injEq] at h
            exact ⟨0, h.1 ▸ .empty, by omega, by omega⟩
          | num x =>
            intro rec hr v rec' h
            simp only [evalExpr, Prod.mk.injEq, Out.val.injEq] at h
            exact ⟨0, h.1 ▸ .num x, by omega, by omega⟩
          | text s =>
            intro rec hr v rec' h
            simp only [evalExpr, Prod.mk.injEq, Out.val.injEq] at h
            exact ⟨0, h.1 ▸ .text s, by omega, by omega⟩
          | var x =>
            intro rec hr v rec' h
            rw [evalExpr, nameValue] at h
            cases hl : look x with
            | none =>
              rw [hl] at h
              simp at h
            | some w =>
              rw [hl] at h
              simp only [] at h
              cases hb : toBool w with
              | some b =>
                rw [hb] at h
                simp only [Prod.mk.injEq, Out.val.injEq] at h
                exact ⟨0, h.1 ▸ .bool x w b hl hb, by omega, by omega⟩
              | none =>
                rw [hb] at h
                simp only [] at h
                cases hf : toFloat64 w with
                | some y =>
                  rw [hf] at h
                  simp only [Prod.mk.injEq, Out.val.injEq] at h
                  exact ⟨0, h.1 ▸ .number x w y hl hb hf, by omega, by omega⟩
                | none =>
                  rw [hf] at h
                  simp only [] at h
                  rcases notText_or w with hw | ⟨t, rfl⟩
                  · rw [named_notText lib look w fuel rec hw] at h
                    simp only [Prod.mk.injEq, Out.val.injEq] at h
                    exact ⟨0, h.1 ▸ .other x w hl hb hf hw, by omega, by omega⟩
                  · simp only [] at h
                    obtain ⟨n, h1, h2, h3⟩ := ih _ _ _ _ h
                    exact ⟨n + 1, .ref x t v n ⟨hl, hb, hf⟩ h1, by omega, h3⟩
          | op o l r ihl ihr =>
            intro rec hr v rec' h
            rw [evalExpr] at h
            cases h1 : evalExpr lib (nameValue lib look fuel) (argument lib look fuel) rec l with
            | mk out rec1 =>
              rw [h1] at h
              cases out with
              | err => simp at h
              | running => simp at h
              | val a =>
                simp only [] at h
                obtain ⟨n, m1, e1, b1⟩ := ihl rec hr a rec1 h1
                cases hs : (lib.shortcut o).bind (· a) with
                | some w =>
                  rw [hs] at h
                  simp only [Prod.mk.injEq, Out.val.injEq] at h
                  exact ⟨n, h.1 ▸ .short o l r a w n m1 hs, by omega, by omega⟩
                | none =>
                rw [hs] at h
                simp only [] at h
                cases h2 : evalExpr lib (nameValue lib look fuel) (argument lib look fuel) rec1 r with
                | mk out rec2 =>
                  rw [h2] at h
                  cases out with
                  | err => simp at h
                  | running => simp at h
                  | val b =>
                    simp only [] at h
                    obtain ⟨k, m2, e2, b2⟩ := ihr rec1 b1 b rec2 h2
                    cases ho : lib.op o a b with
                    | none =>
                      rw [ho] at h
                      simp at h
                    | some w =>
                      rw [ho] at h
                      simp only [Prod.mk.injEq, Out.val.injEq] at h
                      exact ⟨n + k, h.1 ▸ .op o l r a b w n k m1 hs m2 ho, by omega, by omega⟩
          | call f a iha =>
            intro rec hr v rec' h
            rw [evalExpr] at h
            cases h1 : evalExpr lib (nameValue lib look fuel) (argument lib look fuel) rec a with
            | mk out rec1 =>
              rw [h1] at h
              cases out with
              | err => simp at h
              | running => simp at h
              | val w =>
                simp only [] at h
                obtain ⟨n, m1, e1, b1⟩ := iha rec hr w rec1 h1
                simp only [Prod.mk.injEq] at h
                obtain ⟨l, xs, y, h2, h3, h4, rfl⟩ := callFn_val h.1
                exact ⟨n, .call f a w l xs y n m1 h2 (toNumbers_sound lib look fuel ih l xs h3) h4, by omega, by omega⟩
        obtain ⟨n, h1, h2, h3⟩ := main e rec (by omega) v rec' h
        exact ⟨n, .parsed s e v n hp h1, h2, h3⟩

theorem Means_mono {ok ok' : Nat → Prop} (h : ∀ k, ok k → ok' k) {s : Text} {v : Val F} {n : Nat} (m : Means lib look ok s v n) :
    Means lib look ok' s v n := by
  refine Means.rec (lib := lib) (look := look) (ok := ok) (motive_1 := fun e v n _ => MeansE lib look ok' e v n)
    (motive_2 := fun l xs _ => MeansL lib look ok' l xs) (motive_3 := fun s v n _ => Means lib look ok' s v n)
    ?_ ?_ ?_ ?_ ?_ ?_ ?_ ?_ ?_ ?_ ?_ ?_ ?_ ?_ m
  · exact .empty
  · exact fun x => .num x
  · exact fun x => .text x
  · exact fun x v b h1 h2 => .bool x v b h1 h2
  · exact fun x v y h1 h2 h3 => .number x v y h1 h2 h3
  · exact fun x v h1 h2 h3 h4 => .other x v h1 h2 h3 h4
  · exact fun x t v n h1 _ h2 => .ref x t v n h1 h2
  · exact fun o l r a v n _ h1 h2 => .short o l r a v n h2 h1
  · exact fun o l r a b v n k _ h1 _ h2 h3 h4 => .op o l r a b v n k h3 h1 h4 h2
  · exact fun f e v l xs y n _ h1 _ h2 h3 h4 => .call f e v l xs y n h3 h1 h4 h2
  · exact .nil
  · exact fun v x l xs h1 h2 _ h3 => .value v x l xs h1 h2 h3
  · exact fun s w x k l xs _ h1 h2 _ h3 h4 => .text s w x k l xs h3 (h k h1) h2 h4
  · exact fun s e v n h1 _ h2 => .parsed s e v n h1 h2

/-- With enough fuel the value is found when no more than twenty references are followed, and otherwise there is an error. -/
theorem evalText_complete {s : Text} {v : Val F} {n : Nat} (m : Means lib look (· ≤ maxRecursion) s v n) :
    ∃ f0, ∀ fuel, f0 ≤ fuel → ∀ rec, (rec + n ≤ maxRecursion → evalText lib look fuel rec s = (.val v, rec + n)) ∧
      (maxRecursion < rec + n → (evalText lib look fuel rec s).1 = .err) := by
  refine Means.rec (lib := lib) (look := look) (ok := (· ≤ maxRecursion))
    (motive_1 := fun e v n _ => ∃ f0, ∀ fuel, f0 ≤ fuel → ∀ rec, rec ≤ maxRecursion →
      (rec + n ≤ maxRecursion → evalExpr lib (nameValue lib look fuel) (argument lib look fuel) rec e = (.val v, rec + n)) ∧
      (maxRecursion < rec + n → (evalExpr lib (nameValue lib look fuel) (argument lib look fuel) rec e).1 = .err))
    (motive_2 := fun l xs _ => ∃ f0, ∀ fuel, f0 ≤ fuel → toNumbers (argument lib look fuel) l = .val xs)
    (motive_3 := fun s v n _ => ∃ f0, ∀ fuel, f0 ≤ fuel → ∀ rec,
      (rec + n ≤ maxRecursion → evalText lib look fuel rec s = (.val v, rec + n)) ∧
      (maxRecursion < rec + n → (evalText lib look fuel rec s).1 = .err)) ?_ ?_ ?_ ?_ ?_ ?_ ?_ ?_ ?_ ?_ ?_ ?_ ?_ ?_ m
  · exact ⟨0, fun fuel _ rec hr => ⟨fun _ => rfl, fun h => by omega⟩⟩
  · exact fun x => ⟨0, fun fuel _ rec hr => ⟨fun _ => rfl, fun h => by omega⟩⟩
  · exact fun x => ⟨0, fun fuel _ rec hr => ⟨fun _ => rfl, fun h => by omega⟩⟩
  · refine fun x v b h1 h2 => ⟨0, fun fuel _ rec hr => ⟨fun _ => ?_, fun h => by omega⟩⟩
    simp [evalExpr, nameValue, h1, h2]
  · refine fun x v y h1 h2 h3 => ⟨0, fun fuel _ rec hr => ⟨fun _ => ?_, fun h => by omega⟩⟩
    simp [evalExpr, nameValue, h1, h2, h3]
  · refine fun x v h1 h2 h3 h4 => ⟨0, fun fuel _ rec hr => ⟨fun _ => ?_, fun h => by omega⟩⟩
    simp only [evalExpr, nameValue, h1, h2, h3]
    exact named_notText lib look v fuel rec h4
  · rintro x t v n ⟨h1, h2, h3⟩ _ ⟨f0, ih⟩
    refine ⟨f0, fun fuel hf rec hr => ?_⟩
    have e : evalExpr lib (nameValue lib look fuel) (argument lib look fuel) rec (.var x) = evalText lib look fuel (rec + 1) t := by
      simp only [evalExpr, nameValue, h1, h2, h3]
    rw [e]
    obtain ⟨i1, i2⟩ := ih fuel hf (rec + 1)
    exact ⟨fun h => by rw [i1 (by omega)]; congr 1; omega, fun h => i2 (by omega)⟩
  · rintro o l r a v n _ h1 ⟨f0, ih⟩
    refine ⟨f0, fun fuel hf rec hr => ?_⟩
    obtain ⟨i1, i2⟩ := ih fuel hf rec hr
    refine ⟨fun h => ?_, fun h => ?_⟩
    · rw [evalExpr, i1 h]
      simp only [h1]
    · specialize i2 h
      rw [evalExpr]
      generalize evalExpr lib (nameValue lib look fuel) (argument lib look fuel) rec l = z at i2
      obtain ⟨z, z'⟩ := z
      simp only at i2
      subst i2
      rfl
  · rintro o l r a b v n k _ hs _ ho ⟨f1, ih1⟩ ⟨f2, ih2⟩
    refine ⟨max f1 f2, fun fuel hf rec hr => ?_⟩
    obtain ⟨i1, i2⟩ := ih1 fuel (by omega) rec hr
    rcases Nat.lt_or_ge maxRecursion (rec + n) with hn | hn
    · refine ⟨fun h => by omega, fun _ => ?_⟩
      specialize i2 hn
      rw [evalExpr]
      generalize evalExpr lib (nameValue lib look fuel) (argument lib look fuel) rec l = z at i2
      obtain ⟨z, z'⟩ := z
      simp only at i2
      subst i2
      rfl
    · obtain ⟨j1, j2⟩ := ih2 fuel (by omega) (rec + n) hn
      refine ⟨fun h => ?_, fun h => ?_⟩
      · rw [evalExpr, i1 hn]
        simp only [hs]
        rw [j1 (by omega)]
        simp only [ho]
        congr 1
        omega
      · specialize j2 (by omega)
        rw [evalExpr, i1 hn]
        simp only [hs]
        generalize evalExpr lib (nameValue lib look fuel) (argument lib look fuel) (rec + n) r = z at j2
        obtain ⟨z, z'⟩ := z
        simp only at j2
        subst j2
        rfl
  · rintro f e v l xs y n _ h1 _ h2 ⟨f0, ih⟩ ⟨f1, ih1⟩
    refine ⟨max f0 f1, fun fuel hf rec hr => ?_⟩
    obtain ⟨i1, i2⟩ := ih fuel (by omega) rec hr
    refine ⟨fun h => ?_, fun h => ?_⟩
    · rw [evalExpr, i1 h]
      simp only [callFn, h1, ih1 fuel (by omega), h2]
    · specialize i2 h
      rw [evalExpr]
      generalize evalExpr lib (nameValue lib look fuel) (argument lib look fuel) rec e = z at i2
      obtain ⟨z, z'⟩ := z
      simp only at i2
      subst i2
      rfl
  · exact ⟨0, fun _ _ => rfl⟩
  · rintro v x l xs h1 h2 _ ⟨f0, ih⟩
    refine ⟨f0, fun fuel hf => ?_⟩
    simp only [toNumbers, argument_notText lib look h1, h2, ih fuel hf]
  · rintro s w x k l xs _ hk h2 _ ⟨f0, ih⟩ ⟨f1, ih1⟩
    refine ⟨max f0 f1, fun fuel hf => ?_⟩
    rw [toNumbers, argument, (ih fuel (by omega) 0).1 (by simpa using hk)]
    simp only [h2, ih1 fuel (by omega)]
  · rintro s e v n hp _ ⟨f0, ih⟩
    refine ⟨f0 + 1, fun fuel hf rec => ?_⟩
    obtain ⟨g, rfl⟩ : ∃ g, fuel = g + 1 := ⟨fuel - 1, by omega⟩
    rw [evalText_succ]
    split
    · exact ⟨fun h => by omega, fun _ => rfl⟩
    · rw [hp]
      exact ih g (by omega) rec (by omega)

/-! ### Without function calls -/

/-- The counter never goes back. -/
theorem evalText_counter (fuel : Nat) : ∀ (rec : Nat) (s : Text), rec ≤ (evalText lib look fuel rec s).2 := by
  induction fuel with
  | zero =>
    intro rec s
    exact le_rfl
  | succ fuel ih =>
    intro rec s
    rw [evalText_succ]
    split
    · exact le_rfl
    · cases lib.parse s with
      | none => exact le_rfl
      | some e => exact evalExpr_counter _ ih _ _
where
  evalExpr_counter (fuel : Nat) (ih : ∀ (rec : Nat) (s : Text), rec ≤ (evalText lib look fuel rec s).2) : ∀ (e : Expr F O) (rec : Nat),
      rec ≤ (evalExpr lib (nameValue lib look fuel) (argument lib look fuel) rec e).2 := by
    intro e
    induction e with
    | empty => exact fun rec => le_rfl
    | num x => exact fun rec => le_rfl
    | text s => exact fun rec => le_rfl
    | var x =>
      intro rec
      rw [evalExpr, nameValue]
      split
      · exact le_rfl
      · split
        · exact le_rfl
        · split
          · exact le_rfl
          · split
            · exact le_trans (Nat.le_succ _) (ih _ _)
            · exact le_rfl
    | op o l r ihl ihr =>
      intro rec
      have h1 := ihl rec
      rw [evalExpr]
      split
      · rename_i a rec1 e1
        rw [e1] at h1
        split
        · exact h1
        · have h2 := ihr rec1
          split
          · rename_i b rec2 e2
            rw [e2] at h2
            split <;> exact le_trans h1 h2
          · rename_i e2
            rw [e2] at h2
            exact le_trans h1 h2
      · rename_i e1
        rw [e1] at h1
        exact h1
    | call f a iha =>
      intro rec
      have h1 := iha rec
      rw [evalExpr]
      split
      · rename_i v rec1 e1
        rw [e1] at h1
        exact h1
      · rename_i e1
        rw [e1] at h1
        exact h1

/-- Without function calls every evaluation ends when the fuel covers the references that are left. -/
theorem evalText_ends (hc : ∀ s e, lib.parse s = some e → e.NoCalls) (fuel : Nat) : ∀ (rec : Nat) (s : Text), 1 ≤ fuel →
    maxRecursion + 2 ≤ fuel + rec → (evalText lib look fuel rec s).1 ≠ .running := by
  induction fuel with
  | zero =>
    intro rec s h
    omega
  | succ fuel ih =>
    intro rec s _ h
    rw [evalText_succ]
    split
    · simp
    · rename_i hr
      cases hp : lib.parse s with
      | none => simp
      | some e =>
        simp only []
        have main : ∀ (e : Expr F O), e.NoCalls → ∀ rec, maxRecursion + 2 ≤ fuel + 1 + rec → 1 ≤ fuel →
            (evalExpr lib (nameValue lib look fuel) (argument lib look fuel) rec e).1 ≠ .running := by
          intro e
          induction e with
          | empty => exact fun _ _ _ _ => by simp [evalExpr]
          | num x => exact fun _ _ _ _ => by simp [evalExpr]
          | text x => exact fun _ _ _ _ => by simp [evalExpr]
          | var x =>
            intro _ rec hr h1
            rw [evalExpr, nameValue]
            split
            · simp
            · split
              · simp
              · split
                · simp
                · split
                  · exact ih _ _ h1 (by omega)
                  · simp
          | op o l r ihl ihr =>
            intro hn rec hr h1
            have i1 := ihl hn.1 rec hr h1
            have c1 := evalText_counter.evalExpr_counter lib look fuel (evalText_counter lib look fuel) l rec
            rw [evalExpr]
            split
            · rename_i a rec1 e1
              rw [e1] at c1
              split
              · simp
              · have i2 := ihr hn.2 rec1 (by simp only at c1; omega) h1
                split
                · split <;> simp
                · rename_i e2
                  rw [e2] at i2
                  exact i2
            · rename_i e1
              rw [e1] at i1
              exact i1
          | call f a iha => exact fun hn => absurd hn (by simp [Expr.NoCalls])
        exact main e (hc s e hp) rec (by omega) (by omega)

/-! ### With functions of numbers and points -/

theorem textless_notText {v : Val F} (h : Textless v) : NotText v := by
  rintro s rfl
  cases h

/-- The values that a function wants from arguments without texts are without texts too, but for the empty text in the place of a missing coordinate. -/
theorem demand_textless {f : Fn} {v : Val F} (h : Textless v) :
    ∃ l, f.demand (spread v) = some l ∧ ∀ w, some w ∈ l → Textless w ∨ w = .str [] := by
  have hs : spread v ≠ [] ∧ ∀ w ∈ spread v, Textless w := by
    cases h with
    | bool b => simpa [spread] using Textless.bool b
    | num x => simpa [spread] using Textless.num x
    | list l h0 h1 => exact ⟨h0, h1⟩
    | map m h1 => simpa [spread] using Textless.map m h1
  have hall : ∀ (l : List (Val F)), (∀ w ∈ l, Textless w) → ∀ w, some w ∈ l.map some → Textless w ∨ w = .str [] := by
    intro l hl w hw
    obtain ⟨u, hu, e⟩ := List.mem_map.mp hw
    cases e
    exact .inl (hl _ hu)
  have hc : ∀ u : Val F, Textless u → ∀ w, some w ∈ coordArgs u → Textless w ∨ w = .str [] := by
    intro u hu w hw
    have key : ∀ (m : DMap F) (k : Text), '.' ∉ k → (∀ e ∈ m, Textless e.2) → Textless ((get m k).getD (.str [])) ∨ (get m k).getD (.str []) = .str [] := by
      intro m k hk hm
      rw [get_plain hk]
      cases hl : m.lookup k with
      | none => exact .inr rfl
      | some x => exact .inl (hm _ (lookup_mem hl))
    cases hu with
    | map m hm =>
      simp only [coordArgs, List.mem_cons, Option.some.injEq, List.not_mem_nil, or_false] at hw
      rcases hw with rfl | rfl
      · exact key m _ (by decide) hm
      · exact key m _ (by decide) hm
    | _ => simp [coordArgs] at hw
  have hp : ∀ w, some w ∈ pairArgs (spread v) → Textless w ∨ w = .str [] := by
    have hf : ∀ w ∈ flattenArgs (spread v), Textless w := by
      intro w hw
      obtain ⟨u, hu, hw⟩ := List.mem_flatMap.mp hw
      have := hs.2 u hu
      cases this with
      | list l _ h1 => exact h1 w hw
      | bool b => simp at hw; subst hw; exact .bool b
      | num x => simp at hw; subst hw; exact .num x
      | map m h1 => simp at hw; subst hw; exact .map m h1
    intro w hw
    unfold pairArgs at hw
    split at hw
    · rename_i p q e
      rw [e] at hf
      rcases List.mem_append.mp hw with hw | hw
      · exact hc p (hf p (by simp)) w hw
      · exact hc q (hf q (by simp)) w hw
    · exact hall _ hf w hw
  cases f with
  | sqrt =>
    cases e : spread v with
    | nil => exact absurd e hs.1
    | cons a l =>
      refine ⟨[some a], rfl, fun w hw => ?_⟩
      simp only [List.mem_cons, Option.some.injEq, List.not_mem_nil, or_false] at hw
      subst hw
      exact .inl (hs.2 _ (by simp [e]))
  | distance => exact ⟨_, rfl, hp⟩
  | angle => exact ⟨_, rfl, hp⟩
  | mmToInch => exact ⟨_, rfl, hall _ hs.2⟩
  | inchToMM => exact ⟨_, rfl, hall _ hs.2⟩

theorem toNumbers_ends (h0 : lib.parse [] = none) (fuel : Nat) (hf : 1 ≤ fuel) : ∀ l : List (Option (Val F)),
    (∀ w, some w ∈ l → Textless w ∨ w = .str []) → toNumbers (argument lib look fuel) l ≠ .running
  | [], _ => by simp [toNumbers]
  | none :: l, _ => by simp [toNumbers]
  | some w :: l, h => by
    have ih := toNumbers_ends h0 fuel hf l (fun u hu => h u (List.mem_cons_of_mem _ hu))
    have ha : argument lib look fuel w ≠ .running := by
      rcases h w (by simp) with hw | rfl
      · rw [argument_notText lib look (textless_notText hw)]
        split <;> simp
      · obtain ⟨g, rfl⟩ : ∃ g, fuel = g + 1 := ⟨fuel - 1, by omega⟩
        have e : (([] : Text).filter fun c => decide (c ≠ '$')) = [] := rfl
        simp [argument, evalText_succ, h0, maxRecursion]
    rw [toNumbers]
    cases hw : argument lib look fuel w with
    | err => simp
    | running => exact absurd hw ha
    | val x =>
      cases hl : toNumbers (argument lib look fuel) l with
      | err => simp
      | running => exact absurd hl ih
      | val xs => simp

/-- Evaluations without texts end, with a value without texts. -/
theorem evalText_textless (hp : ∀ s e, lib.parse s = some e → e.NoTexts) (h0 : lib.parse [] = none)
    (hl : ∀ x v, look x = some v → Textless v ∨ ∃ s, v = .str s) (ho : ∀ o a b v, Textless a → Textless b → lib.op o a b = some v → Textless v)
    (hs : ∀ o a v, Textless a → (lib.shortcut o).bind (· a) = some v → Textless v) (fuel : Nat) : ∀ (rec : Nat) (s : Text), 1 ≤ fuel →
    maxRecursion + 2 ≤ fuel + rec → (evalText lib look fuel rec s).1 ≠ .running ∧ ∀ v, (evalText lib look fuel rec s).1 = .val v → Textless v := by
  induction fuel with
  | zero =>
    intro rec s h
    omega
  | succ fuel ih =>
    intro rec s _ h
    rw [evalText_succ]
    split
    · simp
    · rename_i hr
      cases hpe : lib.parse s with
      | none => simp
      | some e =>
        simp only []
        have main : ∀ (e : Expr F O), e.NoTexts → ∀ rec, maxRecursion + 2 ≤ fuel + 1 + rec → 1 ≤ fuel →
            (evalExpr lib (nameValue lib look fuel) (argument lib look fuel) rec e).1 ≠ .running ∧
            ∀ v, (evalExpr lib (nameValue lib look fuel) (argument lib look fuel) rec e).1 = .val v → Textless v := by
          intro e
          induction e with
          | empty => exact fun hn => absurd hn (by simp [Expr.NoTexts])
          | text x => exact fun hn => absurd hn (by simp [Expr.NoTexts])
          | num x =>
            intro _ rec _ _
            simp only [evalExpr, ne_eq, reduceCtorEq, not_false_eq_true, Out.val.injEq, true_and]
            rintro v rfl
            exact .num x
          | var x =>
            intro _ rec hr h1
            rw [evalExpr, nameValue]
            cases hx : look x with
            | none => simp
            | some v =>
              simp only []
              cases hb : toBool v with
              | some b =>
                simp only [ne_eq, reduceCtorEq, not_false_eq_true, Out.val.injEq, true_and]
                rintro w rfl
                exact .bool b
              | none =>
                simp only []
                cases hf : toFloat64 v with
                | some y =>
                  simp only [ne_eq, reduceCtorEq, not_false_eq_true, Out.val.injEq, true_and]
                  rintro w rfl
                  exact .num y
                | none =>
                  simp only []
                  rcases hl x v hx with hv | ⟨t, rfl⟩
                  · rw [named_notText lib look v fuel rec (textless_notText hv)]
                    simp only [ne_eq, reduceCtorEq, not_false_eq_true, Out.val.injEq, true_and]
                    rintro w rfl
                    exact hv
                  · exact ih _ _ h1 (by omega)
          | op o l r ihl ihr =>
            intro hn rec hr h1
            have i1 := ihl hn.1 rec hr h1
            have c1 := evalText_counter.evalExpr_counter lib look fuel (evalText_counter lib look fuel) l rec
            rw [evalExpr]
            cases e1 : evalExpr lib (nameValue lib look fuel) (argument lib look fuel) rec l with
            | mk out rec1 =>
              rw [e1] at c1 i1
              cases out with
              | err => simp
              | running => exact absurd rfl i1.1
              | val a =>
                have ha := i1.2 a rfl
                simp only []
                cases hsh : (lib.shortcut o).bind (· a) with
                | some w =>
                  simp only [ne_eq, reduceCtorEq, not_false_eq_true, Out.val.injEq, true_and]
                  rintro v rfl
                  exact hs o a _ ha hsh
                | none =>
                  simp only []
                  have i2 := ihr hn.2 rec1 (by simp only at c1; omega) h1
                  cases e2 : evalExpr lib (nameValue lib look fuel) (argument lib look fuel) rec1 r with
                  | mk out rec2 =>
                    rw [e2] at i2
                    cases out with
                    | err => simp
                    | running => exact absurd rfl i2.1
                    | val b =>
                      simp only []
                      cases hop : lib.op o a b with
                      | none => simp
                      | some w =>
                        simp only [ne_eq, reduceCtorEq, not_false_eq_true, Out.val.injEq, true_and]
                        rintro v rfl
                        exact ho o a b _ ha (i2.2 b rfl) hop
          | call f a iha =>
            intro hn rec hr h1
            have i1 := iha hn rec hr h1
            rw [evalExpr]
            cases e1 : evalExpr lib (nameValue lib look fuel) (argument lib look fuel) rec a with
            | mk out rec1 =>
              rw [e1] at i1
              cases out with
              | err => simp
              | running => exact absurd rfl i1.1
              | val w =>
                simp only []
                constructor
                · obtain ⟨l, hd, hw⟩ := demand_textless (f := f) (i1.2 w rfl)
                  have := toNumbers_ends lib look h0 fuel h1 l hw
                  rw [callFn, hd]
                  simp only []
                  cases hn : toNumbers (argument lib look fuel) l with
                  | err => simp
                  | running => exact absurd hn this
                  | val xs =>
                    simp only []
                    split <;> simp
                · intro v hv
                  obtain ⟨_, _, y, _, _, _, rfl⟩ := callFn_val hv
                  exact .num y
        exact main e (hp s e hpe) rec (by omega) (by omega)

/-- **C47.** With functions an evaluation ends too, if no text is quoted, the parameters are truth values, numbers, expressions, or lists and maps
without texts, the operators make no texts, and the empty text is no expression: twenty-two nested evaluations are never exceeded. -/
theorem C47_ends_functions_partial (hp : ∀ s e, lib.parse s = some e → e.NoTexts) (h0 : lib.parse [] = none)
    (hl : ∀ x v, look x = some v → Textless v ∨ ∃ s, v = .str s) (ho : ∀ o a b v, Textless a → Textless b → lib.op o a b = some v → Textless v)
    (hs : ∀ o a v, Textless a → (lib.shortcut o).bind (· a) = some v → Textless v) (fuel : Nat) (hf : 22 ≤ fuel) (s : Text) :
    evalExpression lib look fuel s ≠ .running :=
  (evalText_textless lib look hp h0 hl ho hs fuel 0 s (by omega) (by simp only [maxRecursion]; omega)).1

/-- **C47.** Whenever an evaluation gives a value, it is the value obtained by substitution, whatever the definitions, the operators and the
functions are. -/
theorem C47_sound (fuel : Nat) (s : Text) (v : Val F) (h : evalExpression lib look fuel s = .val v) :
    ∃ n, Means lib look (fun _ => True) s v n := by
  cases e : evalText lib look fuel 0 s with
  | mk out rec' =>
    rw [evalExpression, e] at h
    simp only at h
    subst h
    obtain ⟨n, h1, _⟩ := evalText_sound lib look fuel 0 s v rec' e
    exact ⟨n, Means_mono lib look (fun _ _ => trivial) h1⟩

/-- **C47.** If the value by substitution takes at most twenty references, in the evaluation itself and in that of each text argument of a function,
then the evaluation gives it. -/
theorem C47_value_partial (s : Text) (v : Val F) (n : Nat) (m : Means lib look (· ≤ maxRecursion) s v n) (hn : n ≤ maxRecursion) :
    ∃ f0, ∀ fuel, f0 ≤ fuel → evalExpression lib look fuel s = .val v := by
  obtain ⟨f0, h⟩ := evalText_complete lib look m
  refine ⟨f0, fun fuel hf => ?_⟩
  rw [evalExpression, (h fuel hf 0).1 (by omega)]

/-- **C47.** If it takes more than twenty references, the evaluation gives an error. -/
theorem C47_budget (s : Text) (v : Val F) (n : Nat) (m : Means lib look (· ≤ maxRecursion) s v n) (hn : maxRecursion < n) :
    ∃ f0, ∀ fuel, f0 ≤ fuel → evalExpression lib look fuel s = .err := by
  obtain ⟨f0, h⟩ := evalText_complete lib look m
  exact ⟨f0, fun fuel hf => (h fuel hf 0).2 (by omega)⟩

/-- The full statement about values: every value by substitution is found. -/
def C47_statement : Prop :=
  ∀ (F : Type) (_ : Trig F) (O : Type) (lib : Lib F O) (look : Text → Option (Val F)) (s : Text) (v : Val F) (n : Nat),
    Means lib look (fun _ => True) s v n → ∃ f0, ∀ fuel, f0 ≤ fuel → evalExpression lib look fuel s = .val v

/-- **C47.** Without function calls an evaluation ends: twenty-two nested evaluations are never exceeded. -/
theorem C47_ends_partial (hc : ∀ s e, lib.parse s = some e → e.NoCalls) (fuel : Nat) (hf : 22 ≤ fuel) (s : Text) :
    evalExpression lib look fuel s ≠ .running :=
  evalText_ends lib look hc fuel 0 s (by omega) (by simp only [maxRecursion]; omega)

/-- What a text needs has a value that takes fewer references. -/
theorem Means_needs {ok : Nat → Prop} {s : Text} {v : Val F} {n : Nat} (m : Means lib look ok s v n) {t : Text} (h : Needs lib look s t) :
    ∃ w k, Means lib look ok t w k ∧ k < n := by
  obtain ⟨e, hp, x, hx, hr⟩ := h
  obtain ⟨_, e', _, _, hp', me⟩ := m
  rw [hp] at hp'
  cases hp'
  clear hp
  induction e generalizing v n with
  | empty => simp [Expr.needed] at hx
  | num => simp [Expr.needed] at hx
  | text => simp [Expr.needed] at hx
  | var y =>
    obtain rfl : x = y := by simpa [Expr.needed] using hx
    obtain ⟨h1, h2, h3⟩ := hr
    cases me with
    | bool _ v b hl hb =>
      rw [h1] at hl
      cases hl
      rw [h2] at hb
      cases hb
    | number _ v y hl hb hf =>
      rw [h1] at hl
      cases hl
      rw [h3] at hf
      cases hf
    | other _ _ hl hb hf ht =>
      rw [h1] at hl
      cases hl
      exact absurd rfl (ht _)
    | ref _ t' _ n hr' m' =>
      have := hr'.1
      rw [h1] at this
      cases this
      exact ⟨v, n, m', by omega⟩
  | op o l r ihl ihr =>
    cases me with
    | short _ _ _ a _ _ m1 hs =>
      have : (lib.shortcut o).isSome := by
        cases h : lib.shortcut o with
        | none => simp [h] at hs
        | some _ => rfl
      rw [Expr.needed, if_pos this] at hx
      exact ihl hx m1
    | op _ _ _ a b _ n k m1 hs m2 ho =>
      have hx' : x ∈ l.needed lib ∨ x ∈ r.needed lib := by
        rw [Expr.needed] at hx
        split at hx
        · exact .inl hx
        · exact List.mem_append.mp hx
      rcases hx' with hx | hx
      · obtain ⟨w, j, hm, hj⟩ := ihl hx m1
        exact ⟨w, j, hm, by omega⟩
      · obtain ⟨w, j, hm, hj⟩ := ihr hx m2
        exact ⟨w, j, hm, by omega⟩
  | call f a iha =>
    cases me with
    | call _ _ w l xs y _ m1 _ _ _ => exact iha hx m1

/-- A cyclic definition has no value. -/
theorem cycle_no_value {ok : Nat → Prop} {s : Text} (h : Relation.TransGen (Needs lib look) s s) (v : Val F) (n : Nat) :
    ¬ Means lib look ok s v n := by
  have step : ∀ {s t : Text}, Relation.TransGen (Needs lib look) s t → ∀ {v : Val F} {n : Nat}, Means lib look ok s v n →
      ∃ w k, Means lib look ok t w k ∧ k < n := by
    intro s t h
    induction h with
    | single h => exact fun m => Means_needs lib look m h
    | tail _ h ih =>
      intro v n m
      obtain ⟨w, k, m1, hk⟩ := ih m
      obtain ⟨w', k', m2, hk'⟩ := Means_needs lib look m1 h
      exact ⟨w', k', m2, by omega⟩
  induction n using Nat.strong_induction_on generalizing v with
  | _ n ih =>
    intro m
    obtain ⟨w, k, m1, hk⟩ := step h m
    exact ih k hk w m1

/-- **C47.** A cyclic definition never gives a value. -/
theorem C47_cycle_no_value (s : Text) (h : Relation.TransGen (Needs lib look) s s) (fuel : Nat) (v : Val F) :
    evalExpression lib look fuel s ≠ .val v := by
  intro e
  obtain ⟨n, m⟩ := C47_sound lib look fuel s v e
  exact cycle_no_value lib look h v n m

/-- **C47.** Without function calls a cyclic definition gives an error. -/
theorem C47_cycle_partial (hc : ∀ s e, lib.parse s = some e → e.NoCalls) (s : Text) (h : Relation.TransGen (Needs lib look) s s)
    (fuel : Nat) (hf : 22 ≤ fuel) : evalExpression lib look fuel s = .err := by
  have h1 := C47_ends_partial lib look hc fuel hf s
  have h2 := C47_cycle_no_value lib look s h fuel
  cases e : evalExpression lib look fuel s with
  | val v => exact absurd e (h2 v)
  | err => rfl
  | running => exact absurd e h1

/-- **C47.** The full statement fails: the text argument of a function starts a new evaluation with the counter at zero, so a definition
`x = sqrt('x')` is evaluated for ever. -/
theorem C47_diverges_false (f : Fn) (x s : Text) (hx : x.filter (fun c => decide (c ≠ '$')) = x) (h1 : lib.parse x = some (.var x))
    (h2 : Refers look x s) (h3 : lib.parse s = some (.call f (.text x))) (fuel : Nat) : evalExpression lib look fuel x = .running := by
  have main : ∀ fuel, (evalText lib look fuel 0 x).1 = .running ∧ (evalText lib look fuel 1 s).1 = .running := by
    intro fuel
    induction fuel with
    | zero => exact ⟨rfl, rfl⟩
    | succ fuel ih =>
      constructor
      · rw [evalText_succ, if_neg (by simp [maxRecursion]), h1]
        simp only [evalExpr, nameValue, h2.1, h2.2.1, h2.2.2]
        exact ih.2
      · rw [evalText_succ, if_neg (by simp [maxRecursion]), h3]
        have ha : argument lib look fuel (.str x) = .running := by simp only [argument, hx, ih.1]
        have hd : f.demand (spread (.str x : Val F)) = some [some (.str x)] := by cases f <;> rfl
        simp only [evalExpr, callFn, hd, toNumbers, ha]
  exact (main fuel).1

/-! ### Examples -/

/-- A sum of `n + 1` times the name `a`. -/
def sums : Nat → Expr ℝ Unit
  | 0 => .var ['a']
  | n + 1 => .op () (sums n) (.var ['a'])

/-- A small language: `w` stands for the number 1, `s` for a sum of `a`s, `z` for the call of a function on the text `z`, and every other text for
the name that it is. -/
def tinyLib (n : Nat) : Lib ℝ Unit where
  parse s :=
    if s = ['w'] then some (.num 1)
    else if s = ['s'] then some (sums n)
    else if s = ['q'] then some (.call .sqrt (.text ['z']))
    else some (.var s)
  shortcut _ := none
  op _ a b :=
    match a, b with
    | .num a, .num b => some (.num (a + b))
    | _, _ => none

/-- Definitions for it: `a` is the expression `w`, and `z` is the expression `q`; `c` is the expression `d` and the other way round. -/
def tinyLook (x : Text) : Option (Val ℝ) :=
  if x = ['a'] then some (.str ['w'])
  else if x = ['z'] then some (.str ['q'])
  else if x = ['c'] then some (.str ['d'])
  else if x = ['d'] then some (.str ['c'])
  else none

theorem refers_of {look : Text → Option (Val ℝ)} {x t : Text} (h : look x = some (.str t)) (h1 : lower t ∉ trueTexts) (h2 : lower t ∉ falseTexts)
    (h3 : Decimal.parseDecimal (Path.trimSpace t) = none) : Refers look x t := by
  refine ⟨h, ?_, ?_⟩
  · simp [toBool, h1, h2]
  · simp [toFloat64, Path.toFloat, h3]

theorem sums_means (n : Nat) (ok : Nat → Prop) (k : Nat) : MeansE (tinyLib n) tinyLook ok (sums k) (.num (k + 1)) (k + 1) := by
  have one : MeansE (tinyLib n) tinyLook ok (.var ['a']) (.num 1) 1 := by
    refine .ref _ ['w'] _ 0 (refers_of rfl (by decide) (by decide) (by decide)) (.parsed _ (.num 1) _ _ rfl (.num 1))
  induction k with
  | zero => simpa [sums] using one
  | succ k ih =>
    refine .op () (sums k) (.var ['a']) (.num ((k : ℝ) + 1)) (.num 1) _ (k + 1) 1 ih rfl one ?_
    simp [tinyLib]

/-- Not vacuous: twenty references are followed. -/
example : ∃ f0, ∀ fuel, f0 ≤ fuel → evalExpression (tinyLib 19) tinyLook fuel ['s'] = .val (.num (((19 : ℕ) : ℝ) + 1)) :=
  C47_value_partial _ _ _ _ 20 (.parsed _ (sums 19) _ _ rfl (sums_means 19 _ 19)) (by simp [maxRecursion])

/-- A small language with a function: `q` stands for the square root of `p`, `p` for a name. -/
def rootLib : Lib ℝ Unit where
  parse s :=
    if s = ['q'] then some (.call .sqrt (.var ['p']))
    else if s = ['w'] then some (.num 1)
    else none
  shortcut _ := none
  op _ _ _ := none

/-- Not vacuous: an evaluation with a function ends. -/
example (fuel : Nat) (hf : 22 ≤ fuel) : evalExpression rootLib (fun x => if x = ['p'] then some (.str ['w']) else none) fuel ['q'] ≠ .running := by
  refine C47_ends_functions_partial rootLib _ ?_ rfl ?_ ?_ ?_ fuel hf _
  · intro s e h
    simp only [rootLib] at h
    split at h
    · cases h
      simp [Expr.NoTexts]
    · split at h
      · cases h
        simp [Expr.NoTexts]
      · cases h
  · intro x v h
    split at h
    · cases h
      exact .inr ⟨_, rfl⟩
    · cases h
  · intro o a b v _ _ h
    cases h
  · intro o a v _ h
    cases h

/-- **C47.** The full statement about values is false: a sum of twenty-one names that each stand for an expression has a value, but the counter of
references is never turned back and the evaluation gives an error. -/
theorem C47_budget_false : ¬ C47_statement := by
  intro h
  have m : ∀ ok, Means (tinyLib 20) tinyLook ok ['s'] (.num (((20 : ℕ) : ℝ) + 1)) 21 :=
    fun ok => .parsed _ (sums 20) _ _ rfl (sums_means 20 _ 20)
  obtain ⟨f0, h0⟩ := h ℝ inferInstance Unit (tinyLib 20) tinyLook ['s'] _ _ (m _)
  obtain ⟨f1, h1⟩ := C47_budget (tinyLib 20) tinyLook ['s'] _ 21 (m _) (by simp [maxRecursion])
  have e0 := h0 (max f0 f1) (by omega)
  rw [h1 (max f0 f1) (by omega)] at e0
  cases e0

/-- Not vacuous: `z = sqrt('z')`. -/
example (fuel : Nat) : evalExpression (tinyLib 0) tinyLook fuel ['z'] = .running :=
  C47_diverges_false (tinyLib 0) tinyLook .sqrt ['z'] ['q'] (by decide) rfl (refers_of rfl (by decide) (by decide) (by decide)) rfl fuel

/-- Not vacuous: a cycle of two definitions. -/
example (fuel : Nat) (v : Val ℝ) : evalExpression (tinyLib 0) tinyLook fuel ['c'] ≠ .val v := by
  refine C47_cycle_no_value _ _ _ (.tail (.single (b := ['d']) ?_) ?_) fuel v
  · exact ⟨.var ['c'], rfl, ['c'], by simp [Expr.needed], refers_of rfl (by decide) (by decide) (by decide)⟩
  · exact ⟨.var ['d'], rfl, ['d'], by simp [Expr.needed], refers_of rfl (by decide) (by decide) (by decide)⟩

/-- A language without function calls. -/
example : ∃ lib : Lib ℝ Unit, (∀ s e, lib.parse s = some e → e.NoCalls) ∧ Relation.TransGen (Needs lib tinyLook) ['c'] ['c'] := by
  refine ⟨⟨fun s => some (.var s), fun _ => none, fun _ _ _ => none⟩, ?_, .tail (.single (b := ['d']) ?_) ?_⟩
  · intro s e h
    cases h
    trivial
  · exact ⟨.var ['c'], rfl, ['c'], by simp [Expr.needed], refers_of rfl (by decide) (by decide) (by decide)⟩
  · exact ⟨.var ['d'], rfl, ['d'], by simp [Expr.needed], refers_of rfl (by decide) (by decide) (by decide)⟩

end Verif.Dyn
