import Verif.Spec.Formula
import Verif.Props.Tiles

/-!
# Evaluation with more names
-/

set_option linter.unusedSectionVars false

namespace Verif.Dyn

universe u

variable {F : Type u} {O : Type} [Trig F] (lib : Lib F O) {look look' : Text → Option (Val F)}

theorem toNumbers_more {number number' : Val F → Out F} (h : ∀ v x, number v = .val x → number' v = .val x) : ∀ (l : List (Option (Val F))) (xs : List F),
    toNumbers number l = .val xs → toNumbers number' l = .val xs
  | [], xs, e => e
  | none :: l, xs, e => by cases e
  | some v :: l, xs, e => by
    obtain ⟨x, ys, rfl, h1, h2⟩ := toNumbers_cons e
    rw [toNumbers, h v x h1, toNumbers_more h l ys h2]

theorem callFn_more {number number' : Val F → Out F} (h : ∀ v x, number v = .val x → number' v = .val x) {f : Fn} {v w : Val F} (e : callFn number f v = .val w) :
    callFn number' f v = .val w := by
  obtain ⟨l, xs, y, h1, h2, h3, rfl⟩ := callFn_val e
  unfold callFn
  simp only [h1, toNumbers_more h l xs h2, h3]

theorem evalExpr_more {getVar getVar' : Nat → Text → Out (Val F) × Nat} {number number' : Val F → Out F}
    (hg : ∀ rec x v r, getVar rec x = (.val v, r) → getVar' rec x = (.val v, r)) (hn : ∀ v x, number v = .val x → number' v = .val x) :
    ∀ (e : Expr F O) (rec : Nat) (v : Val F) (r : Nat), evalExpr lib getVar number rec e = (.val v, r) → evalExpr lib getVar' number' rec e = (.val v, r)
  | .empty, _, _, _, h => h
  | .num _, _, _, _, h => h
  | .text _, _, _, _, h => h
  | .var x, rec, v, r, h => hg rec x v r h
  | .op o l k, rec, v, r, h => by
    rw [evalExpr] at h
    rw [evalExpr]
    cases h1 : evalExpr lib getVar number rec l with
    | mk out rec1 =>
      rw [h1] at h
      cases out with
      | err => simp at h
      | running => simp at h
      | val a =>
        rw [evalExpr_more hg hn l rec a rec1 h1]
        simp only at h ⊢
        cases hs : (lib.shortcut o).bind (· a) with
        | some w =>
          rw [hs] at h
          exact h
        | none =>
          rw [hs] at h
          simp only at h ⊢
          cases h2 : evalExpr lib getVar number rec1 k with
          | mk out rec2 =>
            rw [h2] at h
            cases out with
            | err => simp at h
            | running => simp at h
            | val b =>
              rw [evalExpr_more hg hn k rec1 b rec2 h2]
              exact h
  | .call f a, rec, v, r, h => by
    rw [evalExpr] at h
    rw [evalExpr]
    cases h1 : evalExpr lib getVar number rec a with
    | mk out rec1 =>
      rw [h1] at h
      cases out with
      | err => simp at h
      | running => simp at h
      | val w =>
        rw [evalExpr_more hg hn a rec w rec1 h1]
        simp only [Prod.mk.injEq] at h ⊢
        exact ⟨callFn_more hn h.1, h.2⟩

/-- With more names a value stays the same. -/
theorem evalText_more (hl : ∀ x v, look x = some v → look' x = some v) : ∀ (fuel rec : Nat) (s : Text) (v : Val F) (r : Nat),
    evalText lib look fuel rec s = (.val v, r) → evalText lib look' fuel rec s = (.val v, r)
  | 0, _, _, _, _, h => by simp [evalText] at h
  | fuel + 1, rec, s, v, r, h => by
    rw [evalText_succ] at h ⊢
    split at h
    · simp at h
    · rename_i hr
      rw [if_neg hr]
      cases hp : lib.parse s with
      | none =>
        rw [hp] at h
        simp at h
      | some e =>
        rw [hp] at h
        simp only at h ⊢
        refine evalExpr_more lib ?_ ?_ e rec v r h
        · intro rec x v r h
          unfold nameValue at h ⊢
          cases h1 : look x with
          | none =>
            rw [h1] at h
            simp at h
          | some w =>
            rw [h1] at h
            rw [hl x w h1]
            simp only at h ⊢
            cases h2 : toBool w with
            | some b =>
              rw [h2] at h
              exact h
            | none =>
              rw [h2] at h
              simp only at h ⊢
              cases h3 : toFloat64 w with
              | some y =>
                rw [h3] at h
                exact h
              | none =>
                rw [h3] at h
                simp only at h ⊢
                cases w with
                | str t => exact evalText_more hl fuel (rec + 1) t v r h
                | _ => exact h
        · intro v x h
          unfold argument at h ⊢
          cases v with
          | str t =>
            simp only at h ⊢
            cases h1 : evalText lib look fuel 0 (t.filter fun c => decide (c ≠ '$')) with
            | mk out r1 =>
              rw [h1] at h
              cases out with
              | err => simp at h
              | running => simp at h
              | val w =>
                rw [evalText_more hl fuel 0 _ w r1 h1]
                exact h
          | _ => exact h

theorem evalExpression_more (hl : ∀ x v, look x = some v → look' x = some v) {fuel : Nat} {s : Text} {v : Val F} (h : evalExpression lib look fuel s = .val v) :
    evalExpression lib look' fuel s = .val v := by
  unfold evalExpression at h ⊢
  cases h1 : evalText lib look fuel 0 s with
  | mk out r =>
    rw [h1] at h
    simp only at h
    subst h
    rw [evalText_more lib hl fuel 0 s v r h1]

end Verif.Dyn

/-! # Documents with parameters -/

namespace Verif.Render

open Verif Verif.Dyn Verif.Path Verif.PlanSet Verif.Svg Verif.Files Verif.Xml Verif.Spec

variable {O : Type}

/-! ## Names -/

theorem dots_first (t : Text) : ∃ ks, dots t = firstOf t :: ks := by
  have key : ∀ (t acc : Text), ∃ ks, Path.splitOn '.' t acc = (acc.reverse ++ firstOf t) :: ks := by
    intro t
    induction t with
    | nil => intro acc; exact ⟨[], by simp [Path.splitOn, firstOf]⟩
    | cons c t ih =>
      intro acc
      by_cases h : c = '.'
      · exact ⟨_, by rw [Path.splitOn, if_pos h]; simp [firstOf, h]; rfl⟩
      · obtain ⟨ks, e⟩ := ih (c :: acc)
        refine ⟨ks, ?_⟩
        rw [Path.splitOn, if_neg h, e]
        simp [firstOf, h]
  exact key t []

theorem first_plain {t : Text} (h : '.' ∉ t) : firstOf t = t := by
  unfold firstOf
  rw [List.takeWhile_eq_self_iff]
  intro c hc
  simp only [decide_eq_true_eq]
  rintro rfl
  exact h hc

theorem not_word {ws : List Text} (hw : ∀ w ∈ ws, '.' ∉ w) {t : Text} (h : firstOf t ∉ ws) : t ∉ ws := fun ht => h (by rwa [first_plain (hw t ht)])

theorem get_words {mp : DMap (XNum ℝ)} {ws : List Text} (hm : ∀ k, k ∉ ws → mp.lookup k = none) (hw : ∀ w ∈ ws, '.' ∉ w) {t : Text} (h : firstOf t ∉ ws) :
    Dyn.get mp t = none := by
  obtain ⟨ks, e⟩ := dots_first t
  exact get_absent e (hm t (not_word hw h)) (hm _ h)

theorem plain_docWords : ∀ w ∈ docWords, '.' ∉ w := by decide +kernel

theorem plain_cmdWords : ∀ w ∈ cmdWords, '.' ∉ w := by decide +kernel

theorem mem_of_lookup {ps : DMap (XNum ℝ)} {t : Text} {v : Val (XNum ℝ)} (h : ps.lookup t = some v) : (t, v) ∈ ps := by
  induction ps with
  | nil => cases h
  | cons e ps ih =>
    obtain ⟨k, w⟩ := e
    rw [List.lookup_cons] at h
    split at h
    · rename_i hk
      rw [eq_of_beq hk]
      cases h
      exact List.mem_cons_self
    · exact List.mem_cons_of_mem _ (ih h)

theorem allParams_given (ps : DMap (XNum ℝ)) : (⟨ps, [], []⟩ : Elem (XNum ℝ)).allParams = ps := by
  cases ps <;> rfl

variable {lib : Lib (XNum ℝ) O} {ps : DMap (XNum ℝ)}

theorem FineParams.get (h : FineParams lib ps) (t : Text) : Dyn.get ps t = ps.lookup t := by
  unfold Dyn.get
  cases hl : ps.lookup t with
  | some v => rfl
  | none =>
    simp only
    split
    · rfl
    · rename_i hd
      obtain ⟨ks, e⟩ := dots_first t
      rw [e] at hd ⊢
      cases ks with
      | nil => simp at hd
      | cons k ks =>
        rw [getParts]
        · cases hk : ps.lookup (firstOf t) with
          | none => rfl
          | some v =>
            rcases h.values _ (mem_of_lookup hk) with ⟨x, hx⟩ | ⟨s, hs, -⟩
            · simp only at hx
              subst hx
              rfl
            · simp only at hs
              subst hs
              rfl
        · simp

theorem FineParams.define (h : FineParams lib ps) (t : Text) : (Chain.document ⟨ps, [], []⟩ [] : Chain (XNum ℝ)).define t = ps.lookup t := by
  unfold Chain.define
  simp only [Chain.elem, allParams_given, Chain.context, h.get, Render.get_nil, Option.or_none]
  cases hl : ps.lookup t with
  | none => rfl
  | some v =>
    rcases h.values _ (mem_of_lookup hl) with ⟨x, hx⟩ | ⟨s, hs, -⟩
    · simp only at hx
      subst hx
      rfl
    · simp only at hs
      subst hs
      rfl

/-- A value of a parameter. -/
def Worthy (v : Val (XNum ℝ)) : Prop := (∃ x, v = .num x) ∨ ∃ t, v = .str t ∧ '$' ∉ t ∧ Free t ∧ toFloat64 (.str t : Val (XNum ℝ)) = none

theorem local_worthy (h : FineParams lib ps) (t : Text) (r : Nat) (hr : 0 < r → Worthy (.str t)) (v : Val (XNum ℝ))
    (e : localLookup (Chain.document ⟨ps, [], []⟩ [] : Chain (XNum ℝ)) t r = some v) : Worthy v := by
  rw [localLookup] at e
  split at e
  · cases e
  · rw [h.define] at e
    cases hl : ps.lookup t with
    | none =>
      rw [hl] at e
      simp only at e
      split at e
      · rename_i h0
        cases e
        exact hr h0
      · cases e
    | some w =>
      rw [hl] at e
      have hw := h.values _ (mem_of_lookup hl)
      cases w with
      | str s => exact local_worthy h s (r + 1) (fun _ => hw) v e
      | _ =>
        simp only [Option.some.injEq] at e
        subst e
        exact hw
termination_by maxRecursion + 1 - r
decreasing_by omega

theorem look_worthy (h : FineParams lib ps) {t : Text} {v : Val (XNum ℝ)} (e : paramLook ps t = some v) :
    '.' ∉ t ∧ t ∉ docWords ∧ lib.parse t = some (.var t) ∧ Worthy v := by
  refine (?_ : _ ∧ _ ∧ _).elim fun a b => ⟨a, b.1, b.2, local_worthy h t 0 (by omega) v e⟩
  unfold paramLook at e
  rw [Chain.lookup, localLookup, h.define] at e
  cases hl : ps.lookup t with
  | none =>
    rw [hl] at e
    simp at e
  | some w => exact h.names _ (mem_of_lookup hl)

/-! ## Elements -/

/-- The elements have nothing but their words, and the document has the parameters. -/
inductive Calm (ps : DMap (XNum ℝ)) : Chain (XNum ℝ) → Prop
  | document (e : Elem (XNum ℝ)) (hp : e.allParams = ps) (hk : ∀ k, k ∉ docWords → e.original.lookup k = none) (hd : e.defaults = []) : Calm ps (.document e [])
  | component (e : Elem (XNum ℝ)) (c : Chain (XNum ℝ)) (hp : e.allParams = []) (hk : ∀ k, k ∉ docWords → e.original.lookup k = none) (hd : e.defaults = []) (hc : Calm ps c) :
    Calm ps (.component e c)

theorem local_document (h : FineParams lib ps) (e : Elem (XNum ℝ)) (hp : e.allParams = ps) (hk : ∀ k, k ∉ docWords → e.original.lookup k = none) (t : Text) (ht : Free t)
    (r : Nat) : localLookup (.document e []) t r = localLookup (Chain.document ⟨ps, [], []⟩ [] : Chain (XNum ℝ)) t r := by
  have hd : (Chain.document e []).define t = ps.lookup t := by
    rw [← h.define]
    unfold Chain.define
    simp only [Chain.elem, allParams_given, hp, Chain.context, Render.get_nil, get_words hk plain_docWords ht]
  rw [localLookup, localLookup, hd, h.define]
  split
  · rfl
  · cases hl : ps.lookup t with
    | none => rfl
    | some w =>
      cases w with
      | str s =>
        rcases h.values _ (mem_of_lookup hl) with ⟨x, hx⟩ | ⟨s', hs, -, hf, -⟩
        · cases hx
        · cases hs
          exact local_document h e hp hk s hf (r + 1)
      | _ => rfl
termination_by maxRecursion + 1 - r
decreasing_by omega

theorem Calm.lookup (h : FineParams lib ps) {c : Chain (XNum ℝ)} (hc : Calm ps c) {t : Text} (ht : Free t) : c.lookup t = paramLook ps t := by
  induction hc with
  | document e hp hk hd =>
    unfold paramLook
    rw [Chain.lookup, Chain.lookup, local_document h e hp hk t ht]
  | component e c hp hk hd _ ih =>
    rw [Chain.lookup, define_absent (c := .component e c) (by simp only [Chain.elem, hp]; exact Render.get_nil _) (get_words hk plain_docWords ht) (Render.get_nil t)]
    exact ih

theorem Calm.more (h : FineParams lib ps) {c : Chain (XNum ℝ)} (hc : Calm ps c) (x : Text) (v : Val (XNum ℝ)) (e : paramLook ps x = some v) : c.lookup x = some v := by
  obtain ⟨h1, h2, -⟩ := look_worthy h e
  rw [hc.lookup h (by unfold Free; rwa [first_plain h1]), e]

theorem Calm.default {c : Chain (XNum ℝ)} (hc : Calm ps c) (c' : Chain (XNum ℝ)) (mp : DMap (XNum ℝ)) (t : Text) (r : Nat) : attrDefault c' mp c t r = none := by
  induction hc generalizing r with
  | document e hp hk hd =>
    rw [attrDefault]
    simp only [Chain.elem, hd, Render.get_nil]
  | component e c hp hk hd _ ih =>
    rw [attrDefault]
    simp only [Chain.elem, hd, Render.get_nil]
    exact ih _

theorem Calm.find (h : FineParams lib ps) {a : Source (XNum ℝ) O} (hc : Calm ps a.chain) {key t : Text} (hk : Dyn.get a.mp key = some (.str t)) (ht : Free t)
    (hn : Dyn.get a.mp t = none ∨ t = key ∧ (paramLook ps key).isSome) : a.find key = some ((paramLook ps t).getD (.str t)) := by
  unfold Source.find
  rw [attrLookup]
  simp only [show ¬ 0 > recursionMax from by decide, if_false, hk]
  rcases hn with hn | ⟨rfl, hn⟩
  · have hne : t ≠ key := by
      rintro rfl
      rw [hk] at hn
      cases hn
    rw [if_pos hne, attrLookup]
    simp only [show ¬ 0 + 1 > recursionMax from by decide, if_false, hn, hc.lookup h ht, hc.default]
    cases paramLook ps t <;> rfl
  · rw [if_neg (by simp), hc.lookup h ht]
    obtain ⟨v, hv⟩ := Option.isSome_iff_exists.mp hn
    rw [hv]
    rfl

/-! ## Numbers -/

/-- The number is read as it should be wherever it is written. -/
def Ready (lib : Lib (XNum ℝ) O) (ps : DMap (XNum ℝ)) (fuel : Nat) (s : Slot) : Prop :=
  ∀ a : Source (XNum ℝ) O, a.lib = lib → Calm ps a.chain → a.convert fuel s.shown = .val (.fin s.worth) ∧
    ∀ key, Dyn.get a.mp key = some s.shown → (∀ t, s.shown = .str t → Dyn.get a.mp t = none ∨ t = key ∧ (paramLook ps key).isSome) →
      a.number fuel key = .val (.fin s.worth)

theorem convert_text (h : FineParams lib ps) {t : Text} {x : XNum ℝ} {n : Nat} (hd : '$' ∉ t) (hm : Means lib (paramLook ps) (· ≤ maxRecursion) t (.num x) n)
    (hn : n ≤ maxRecursion) : ∃ f0, ∀ fuel, f0 ≤ fuel → ∀ a : Source (XNum ℝ) O, a.lib = lib → Calm ps a.chain → a.convert fuel (.str t) = .val x := by
  obtain ⟨f0, hf⟩ := C47_value_partial lib (paramLook ps) t _ n hm hn
  refine ⟨f0, fun fuel hle a hl hc => ?_⟩
  have e : (t.filter fun c => decide (c ≠ '$')) = t := by
    rw [List.filter_eq_self]
    intro c hc
    simp only [decide_eq_true_eq]
    rintro rfl
    exact hd hc
  unfold Source.convert
  simp only
  rw [e, hl, evalExpression_more lib (hc.more h) (hf fuel hle)]
  rfl

theorem ready (h : FineParams lib ps) {s : Slot} (hs : Stands lib ps s) : ∃ f0, ∀ fuel, f0 ≤ fuel → Ready lib ps fuel s := by
  cases s with
  | plain x =>
    refine ⟨0, fun fuel _ a hl hc => ⟨rfl, fun key hk _ => ?_⟩⟩
    exact C91_number a fuel key (.fin x) hk
  | text t x =>
    obtain ⟨hd, ht, n, hn, hm⟩ := hs
    obtain ⟨f1, h1⟩ := convert_text h hd hm hn
    cases hl : paramLook ps t with
    | none =>
      refine ⟨f1, fun fuel hle a hlib hc => ⟨h1 fuel hle a hlib hc, fun key hk hk' => ?_⟩⟩
      unfold Source.number
      rw [hc.find h hk ht (hk' t rfl), hl]
      exact h1 fuel hle a hlib hc
    | some v =>
      obtain ⟨-, -, hp, hw⟩ := look_worthy h hl
      suffices ∃ f2, ∀ fuel, f2 ≤ fuel → ∀ a : Source (XNum ℝ) O, a.lib = lib → Calm ps a.chain → a.convert fuel v = .val (.fin x) by
        obtain ⟨f2, h2⟩ := this
        refine ⟨max f1 f2, fun fuel hle a hlib hc => ⟨h1 fuel (by omega) a hlib hc, fun key hk hk' => ?_⟩⟩
        unfold Source.number
        rw [hc.find h hk ht (hk' t rfl), hl]
        exact h2 fuel (by omega) a hlib hc
      obtain ⟨_, e, _, _, hp', hm'⟩ := hm
      rw [hp] at hp'
      cases hp'
      have num : ∀ y, v = .num y → toFloat64 v = some (XNum.fin x) → ∃ f2, ∀ fuel, f2 ≤ fuel → ∀ a : Source (XNum ℝ) O, a.lib = lib → Calm ps a.chain →
          a.convert fuel v = .val (.fin x) := by
        rintro y rfl hy
        exact ⟨0, fun fuel _ a _ _ => by simp only [Source.convert, hy]⟩
      rcases hw with ⟨y, rfl⟩ | ⟨t', rfl, hd', -, hno⟩
      · refine num y rfl ?_
        cases hm' with
        | number _ v _ e1 e2 e3 =>
          rw [hl] at e1
          cases e1
          exact e3
        | other _ v e1 e2 e3 e4 =>
          cases e3
        | ref _ t' _ n e1 e2 =>
          have := e1.1
          rw [hl] at this
          cases this
      · cases hm' with
        | number _ v _ e1 e2 e3 =>
          rw [hl] at e1
          cases e1
          rw [hno] at e3
          cases e3
        | other _ v e1 e2 e3 e4 => cases e3
        | ref _ t'' _ n e1 e2 =>
          have := e1.1
          rw [hl] at this
          cases this
          exact convert_text h hd' e2 (by omega)

theorem ready_all (h : FineParams lib ps) : ∀ l : List Slot, (∀ s ∈ l, Stands lib ps s) → ∃ f0, ∀ fuel, f0 ≤ fuel → ∀ s ∈ l, Ready lib ps fuel s
  | [], _ => ⟨0, by simp⟩
  | s :: l, hl => by
    obtain ⟨f1, h1⟩ := ready h (hl s (by simp))
    obtain ⟨f2, h2⟩ := ready_all h l fun s hs => hl s (by simp [hs])
    refine ⟨max f1 f2, fun fuel hf s' hs => ?_⟩
    rcases List.mem_cons.mp hs with rfl | hs
    · exact h1 fuel (by omega)
    · exact h2 fuel (by omega) s' hs

end Verif.Render
