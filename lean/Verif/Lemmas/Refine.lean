import Verif.Props.Leaving
import Verif.Lemmas.Document
import Verif.Props.Custom
import Verif.Spec.Refine

/-!
# Lemmas: renderings as functions of what they are given
-/

set_option linter.unusedSectionVars false

namespace Verif.Render

open Verif Verif.Dyn Verif.Path Verif.PlanSet Verif.Svg Verif.Files Verif.Spec

universe u w

section Maps

variable {F : Type u}

theorem put_swap {k k' : Text} (hk : k ≠ k') (v w : Val F) : ∀ {m : DMap F}, k ∈ m.map (·.1) → put k v (put k' w m) = put k' w (put k v m)
  | [], h => by simp at h
  | (a, b) :: m, h => by
    by_cases h1 : a = k
    · subst h1
      simp [put, hk]
    · by_cases h2 : a = k'
      · subst h2
        simp [put, h1, fun e : a = k => h1 e]
      · have : k ∈ m.map (·.1) := by
          simp only [List.map_cons, List.mem_cons] at h
          rcases h with h | h
          · exact absurd h.symm h1
          · exact h
        simp [put, h1, h2, put_swap hk v w this]

theorem put_putAll {k : Text} (v : Val F) : ∀ {l m : DMap F}, k ∉ l.map (·.1) → k ∈ m.map (·.1) → put k v (putAll m l) = putAll (put k v m) l
  | [], m, _, _ => rfl
  | (a, b) :: l, m, hl, hm => by
    simp only [List.map_cons, List.mem_cons, not_or] at hl
    have h1 : k ∈ (put a b m).map (·.1) := (put_keys a b m k).mpr (.inr hm)
    have := put_putAll v hl.2 h1
    simp only [putAll, List.foldl_cons, putKey] at this ⊢
    rw [this, put_swap hl.1 v b hm]

/-- Setting the same keys again. -/
theorem putAll_putAll : ∀ {l l' m : DMap F}, l.map (·.1) = l'.map (·.1) → (l.map (·.1)).Nodup → putAll (putAll m l) l' = putAll m l'
  | [], [], m, _, _ => rfl
  | [], _ :: _, m, h, _ => by simp at h
  | _ :: _, [], m, h, _ => by simp at h
  | (a, b) :: l, (a', b') :: l', m, h, hn => by
    simp only [List.map_cons, List.cons.injEq] at h
    obtain ⟨rfl, h⟩ := h
    simp only [List.map_cons, List.nodup_cons] at hn
    have h1 : a ∈ (put a b m).map (·.1) := (put_keys a b m a).mpr (.inl rfl)
    have e1 := put_putAll b' hn.1 h1
    have e2 := putAll_putAll (m := put a b' m) h hn.2
    simp only [putAll, List.foldl_cons, putKey] at e1 e2 ⊢
    rw [e1, put_put, e2]

theorem setVar_plain (e : Elem F) {k : Text} (h : '.' ∉ k) (v : Val F) : setVar e k v = { e with original := putAll e.original [(k, v)] } := by
  simp only [setVar, putWithDot_eq, dots_plain h, putParts, putAll, List.foldl_cons, List.foldl_nil, putKey]

theorem params_putParam (e : Elem F) (k : Text) (v : Val F) : (putParam e k v).allParams = putKey e.allParams k v := by
  simp only [Elem.allParams, putParam, putKey, put_ne_nil, Bool.false_eq_true, if_false]

/-- Setting several parameters. -/
def putParams (e : Elem F) (l : DMap F) : Elem F := l.foldl (fun e kv => putParam e kv.1 kv.2) e

theorem getDynMap_put (m : DMap F) (w : DMap F) : getDynMap (put paramsKey (.map w) m) paramsKey = some w := by
  rw [getDynMap, get_plain params_plain, lookup_put, if_pos rfl]
  rfl

theorem putParams_eq : ∀ (l : DMap F) (e : Elem F), l ≠ [] → putParams e l =
    ⟨putAll e.allParams l, match getDynMap e.original paramsKey with
      | some _ => putKey e.original paramsKey (.map (putAll e.allParams l))
      | none => e.original, e.defaults⟩
  | [], e, h => absurd rfl h
  | [(k, v)], e, _ => rfl
  | (k, v) :: x :: l, e, _ => by
    have := putParams_eq (x :: l) (putParam e k v) (by simp)
    simp only [putParams, List.foldl_cons] at this ⊢
    rw [this, params_putParam]
    simp only [putParam, putAll, List.foldl_cons]
    cases h : getDynMap e.original paramsKey with
    | none => simp [h]
    | some w => simp only [putKey, getDynMap_put, put_put]

/-- Setting the same parameters again. -/
theorem putParams_again (e : Elem F) {l l' : DMap F} (hl : l ≠ []) (h : l.map (·.1) = l'.map (·.1)) (hn : (l.map (·.1)).Nodup) :
    putParams (putParams e l) l' = putParams e l' := by
  have hl' : l' ≠ [] := fun e => by subst e; simp at h; exact hl h
  have key : (putParams e l).allParams = putAll e.allParams l := by
    rw [putParams_eq l e hl]
    have : (putAll e.allParams l).isEmpty = false := by
      cases l with
      | nil => exact absurd rfl hl
      | cons x l =>
        clear * -
        simp only [putAll, List.foldl_cons]
        have : ∀ (l m : DMap F), m.isEmpty = false → (l.foldl (fun m e => putKey m e.1 e.2) m).isEmpty = false := by
          intro l
          induction l with
          | nil => intro m h; exact h
          | cons y l ih => intro m _; exact ih _ (put_ne_nil _ _ _)
        exact this l _ (put_ne_nil _ _ _)
    rw [Elem.allParams]
    simp only [this, Bool.false_eq_true, if_false]
  rw [putParams_eq l' _ hl', key, putAll_putAll h hn, putParams_eq l' e hl', putParams_eq l e hl]
  cases h : getDynMap e.original paramsKey with
  | none => simp [h]
  | some w => simp only [putKey, getDynMap_put, put_put]

end Maps

section Stillness

variable {F : Type u} [Trig F] {O : Type}

/-- A rendering of a component that changes nothing. -/
def Still (r : Rendering F) (c : Live F) : Prop := ∀ g cursor, r c g cursor = pathOf (r c g cursor) >>= fun q => .ok (q, c, g)

theorem still_plain (m : Machine F O) (n : Nat) (s : Spot F) {c : Live F} (h : Plain c) : Still (m.render n s) c := by
  intro g cursor
  have := quiet_render m n s c g cursor h
  revert this
  cases m.render n s c g cursor with
  | ok x =>
    rintro ⟨h1, h2⟩
    obtain ⟨p, c', g'⟩ := x
    simp only at h1 h2
    subst h1 h2
    rfl
  | err => intro _; rfl
  | panic => intro _; rfl

theorem still_all {r : Rendering F} : ∀ {cs : List (Live F)}, (∀ c ∈ cs, Still r c) → ∀ (g : DMap F) (cursor : Point F),
    renderAllOf r cs g cursor = renderChildren (cs.map fun c cursor => pathOf (r c g cursor)) cursor >>= fun ps => .ok (ps, cs, g)
  | [], _, g, cursor => rfl
  | c :: cs, h, g, cursor => by
    rw [renderAllOf, h c (by simp) g cursor, bind_assoc, List.map_cons, renderChildren, bind_assoc]
    congr 1
    funext p
    rw [Res.ok_bind]
    simp only
    cases p.getLast? with
    | none => rfl
    | some s =>
      simp only
      rw [still_all (fun d hd => h d (by simp [hd])) g s.stop, bind_assoc, bind_assoc]
      rfl

theorem putParam_mk (k : Built) (i : Text) (e : Elem F) (cs : List (Live F)) (key : Text) (v : Val F) :
    (Live.mk k i e cs).putParam key v = .mk k i (putParam e key v) cs := rfl

theorem indexed_again (c : Live F) (o : Option (Nat × Nat)) (i : Nat × Nat) :
    ((indexed c o).putParam indexXKey (indexVal i.1)).putParam indexYKey (indexVal i.2) = indexed c (some i) := by
  cases o with
  | none => rfl
  | some j =>
    cases c with
    | mk k t e cs =>
      have := putParams_again e (l := [(indexXKey, indexVal j.1), (indexYKey, indexVal j.2)])
        (l' := [(indexXKey, indexVal i.1), (indexYKey, indexVal i.2)]) (by simp) rfl
        (show [indexXKey, indexYKey].Nodup by decide +kernel)
      exact congrArg (fun e => Live.mk k t e cs) this

theorem plain_putParam {c : Live F} (h : Plain c) (key : Text) (v : Val F) : Plain (c.putParam key v) := by
  cases c with | mk k t e cs => exact h

theorem plain_setVar {c : Live F} (h : Plain c) (key : Text) (v : Val F) : Plain (c.setVar key v) := by
  cases c with | mk k t e cs => exact h

theorem plain_indexed {c : Live F} (h : Plain c) (o : Option (Nat × Nat)) : Plain (indexed c o) := by
  cases o with
  | none => exact h
  | some i => exact plain_putParam (plain_putParam h _ _) _ _

theorem still_copiesLoop {r : Rendering F} {c : Live F} (h : ∀ o, Still r (indexed c o)) (width height : F) (g : DMap F) :
    ∀ (l : List (Nat × Nat)) (o : Option (Nat × Nat)), ∃ o', copiesLoop r width height l (indexed c o) g =
      (l.mapM fun i => do
        let q ← pathOf (r (indexed c (some i)) g origin)
        move (newPoint (Arith.lit i.1 0 *. width) (Arith.lit i.2 0 *. height)) Attr.startPosition.text q) >>= fun qs => .ok (qs, indexed c o', g)
  | [], o => ⟨o, rfl⟩
  | i :: l, o => by
    obtain ⟨o', ho⟩ := still_copiesLoop h width height g l (some i)
    refine ⟨o', ?_⟩
    rw [copiesLoop, indexed_again, h (some i) g origin, List.mapM_cons]
    simp only [bind_assoc, Res.ok_bind, Res.pure_eq, ho]

theorem still_copiesOf {r : Rendering F} {c : Live F} (h : ∀ o, Still r (indexed c o)) (toInt : F → Int) (g : DMap F) (maxX maxY : F) :
    ∃ o, copiesOf toInt r c g maxX maxY = repeatRender toInt (fun o => pathOf (r (indexed c o) g origin)) maxX maxY >>= fun p => .ok (p, indexed c o, g) := by
  have h0 : r c g origin = pathOf (r (indexed c none) g origin) >>= fun q => .ok (q, c, g) := h none g origin
  unfold copiesOf repeatRender
  rw [h0]
  beta_reduce
  cases h1 : pathOf (r (indexed c none) g origin) with
  | err => exact ⟨none, rfl⟩
  | panic => exact ⟨none, rfl⟩
  | ok p =>
    simp only [Res.ok_bind]
    cases h2 : whitespaceBox p with
    | err => exact ⟨none, rfl⟩
    | panic => exact ⟨none, rfl⟩
    | ok b =>
      simp only [Res.ok_bind]
      obtain ⟨o, ho⟩ := still_copiesLoop h (b.2.x -. b.1.x) (b.2.y -. b.1.y) g
        (grid (iterations toInt maxX (b.2.x -. b.1.x)) (iterations toInt maxY (b.2.y -. b.1.y))) none
      refine ⟨o, ?_⟩
      have ho' := ho
      rw [show indexed c none = c from rfl] at ho'
      rw [ho', bind_assoc, bind_assoc]
      congr 1
      funext ps
      rw [Res.ok_bind]
      simp only
      split
      · rfl
      · rfl

/-- The element with the variables of an intercept, if there has been one. -/
def inter (e : Elem F) : Option (Point F × Point F) → Elem F
  | none => e
  | some (a, b) => between e a b (b.x -. a.x)

theorem setInter_eq (e : Elem F) (a b : Point F) : setInter e a b = between e a b (b.x -. a.x) := by
  unfold setInter
  rw [setVar_plain _ (by decide +kernel), setVar_plain _ (by decide +kernel), setVar_plain _ (by decide +kernel), setVar_plain _ (by decide +kernel),
    setVar_plain _ (by decide +kernel)]
  rfl

theorem setInter_again (e : Elem F) (o : Option (Point F × Point F)) (a b : Point F) : setInter (inter e o) a b = inter e (some (a, b)) := by
  cases o with
  | none => exact setInter_eq e a b
  | some c =>
    rw [setInter_eq]
    simp only [inter, between]
    rw [putAll_putAll]
    · rfl
    · show ["xintercept__length".toList, "xintercept__from__x".toList, "xintercept__from__y".toList, "xintercept__to__x".toList,
        "xintercept__to__y".toList].Nodup
      decide +kernel

theorem lost_ok {α : Type u} (a : α) : lost (.ok a : Res α) = .ok a := rfl

theorem still_interRow {d : Int} {e : Elem F} {r : Elem F → Rendering F} {c : Live F} (h : ∀ e, Still (r e) c) (cursor : Point F) (g : DMap F) :
    ∀ (ps : List (Point F)) (st : F × List (Path F)) (o : Option (Point F × Point F)), ∃ o',
      interRow d r cursor ps (st, inter e o, c, g) =
        lost (interceptRow d (fun a b l => pathOf (r (between e a b l) c g cursor)) ps st) >>= fun st => .ok (st, inter e o', c, g)
  | [], st, o => ⟨o, by rw [interRow.eq_2 _ _ _ _ _ (by simp), interceptRow.eq_2 _ _ _ _ (by simp)]; rfl⟩
  | [x], st, o => ⟨o, by rw [interRow.eq_2 _ _ _ _ _ (by simp), interceptRow.eq_2 _ _ _ _ (by simp)]; rfl⟩
  | a :: b :: rest, st, o => by
    rw [interRow, interceptRow]
    simp only
    by_cases hl : (precisionEquals (b.x -. a.x) Arith.zero d) = true
    · rw [if_pos hl, if_pos hl]
      exact still_interRow h cursor g rest st o
    · rw [if_neg hl, if_neg hl, setInter_again, h _ g cursor]
      cases h1 : pathOf (r (inter e (some (a, b))) c g cursor) with
      | err =>
        refine ⟨o, ?_⟩
        simp only [inter] at h1
        rw [h1]
        rfl
      | panic =>
        refine ⟨o, ?_⟩
        simp only [inter] at h1
        rw [h1]
        rfl
      | ok p =>
        obtain ⟨o', ho⟩ := still_interRow h cursor g rest ((measure p).2, st.2 ++ [p]) (some (a, b))
        refine ⟨o', ?_⟩
        rw [Res.ok_bind]
        simp only [lost_ok, Res.ok_bind]
        rw [ho]
        simp only [inter] at h1
        rw [h1]

/-- What the code makes of a loop that does not end and of errors that are lost. -/
def losing {α : Type u} : Option (Res α) → Res α
  | some (.ok a) => .ok a
  | _ => .panic

theorem lost_eq {α : Type u} (r : Res α) : lost r = losing (some r) := by cases r <;> rfl

theorem still_interRows {d : Int} {e : Elem F} {r : Elem F → Rendering F} {c : Live F} (h : ∀ e, Still (r e) c) (outline : Path F) (cursor : Point F)
    (bottom spacing : F) (g : DMap F) : ∀ (fuel : Nat) (y : F) (st : F × List (Path F)) (o : Option (Point F × Point F)), ∃ o' height,
      interRows d outline r cursor bottom spacing fuel y (st, inter e o, c, g) =
        losing (interceptRows d (horizontalIntercepts d outline) (fun a b l => pathOf (r (between e a b l) c g cursor)) bottom spacing fuel y st) >>=
          fun ps => .ok ((height, ps), inter e o', c, g)
  | 0, y, st, o => ⟨o, Arith.zero, rfl⟩
  | fuel + 1, y, st, o => by
    rw [interRows, interceptRows]
    by_cases hy : (y <=. bottom) = true
    · rw [if_pos hy, if_pos hy]
      cases h1 : horizontalIntercepts d outline y with
      | err => exact ⟨o, Arith.zero, rfl⟩
      | panic => exact ⟨o, Arith.zero, rfl⟩
      | ok ps =>
        obtain ⟨o1, ho1⟩ := still_interRow (d := d) (e := e) h cursor g ps st o
        simp only [lost, Res.ok_bind]
        rw [ho1]
        cases h2 : interceptRow d (fun a b l => pathOf (r (between e a b l) c g cursor)) ps st with
        | err => exact ⟨o, Arith.zero, rfl⟩
        | panic => exact ⟨o, Arith.zero, rfl⟩
        | ok st' =>
          simp only [lost, Res.ok_bind]
          exact still_interRows h outline cursor bottom spacing g fuel _ st' o1
    · rw [if_neg hy, if_neg hy]
      exact ⟨o, st.1, rfl⟩

theorem still_aroundLoop {r : Rendering F} {c : Live F} (h : Still r c) (num : Int) (center start : Point F) (g : DMap F) : ∀ l : List Nat,
    aroundLoop r num center start l c g =
      (l.mapM fun i => pathOf (r c g origin) >>= fun p => aroundCopy 3 num center start p i) >>= fun ps => .ok (ps, c, g)
  | [] => rfl
  | i :: l => by
    have h1 := h g origin
    have ih := still_aroundLoop h num center start g l
    rw [aroundLoop, List.mapM_cons]
    generalize pathOf (r c g origin) = x at h1 ih ⊢
    rw [h1]
    simp only [bind_assoc, Res.ok_bind, Res.pure_eq, ih]

end Stillness

section Anything

variable {F : Type u} [Trig F] {O : Type}

theorem any_all {r : Rendering F} (hr : Leaves r) : ∀ {cs : List (Live F)} {g0 g : DMap F} {cursor : Point F} {ps : List (Path F)} {cs' : List (Live F)} {g' : DMap F},
    Written g0 g → renderAllOf r cs g cursor = .ok (ps, cs', g') → ∃ fs : List (Point F → Res (Path F)), renderChildren fs cursor = .ok ps ∧
      FromEach r cs g0 fs
  | [], g0, g, cursor, ps, cs', g', hg, h => by
    simp only [renderAllOf, Res.ok.injEq, Prod.mk.injEq] at h
    obtain ⟨rfl, -⟩ := h
    exact ⟨[], rfl, .nil⟩
  | c :: cs, g0, g, cursor, ps, cs', g', hg, h => by
    rw [renderAllOf] at h
    obtain ⟨⟨p, c1, g1⟩, h1, h⟩ := res_bind_ok h
    simp only at h
    cases hl : p.getLast? with
    | none => rw [hl] at h; cases h
    | some s =>
      rw [hl] at h
      simp only at h
      obtain ⟨⟨ps1, cs1, g2⟩, h2, h⟩ := res_bind_ok h
      simp only [Res.ok.injEq, Prod.mk.injEq] at h
      obtain ⟨rfl, -⟩ := h
      obtain ⟨fs, hf, hfs⟩ := any_all hr (hg.trans ((hr c g cursor).ok h1).2) h2
      refine ⟨(fun cursor => pathOf (r c g cursor)) :: fs, ?_, .cons ?_ hfs⟩
      · rw [renderChildren]
        beta_reduce
        rw [h1]
        simp only [pathOf, Res.ok_bind, hl, hf]
      · intro cur q hq
        beta_reduce at hq
        cases hx : r c g cur with
        | ok x =>
          rw [hx] at hq
          simp only [pathOf, Res.ok.injEq] at hq
          exact ⟨g, x.2, hg, by rw [hx, ← hq]⟩
        | err => rw [hx] at hq; cases hq
        | panic => rw [hx] at hq; cases hq

theorem same_indexed (c : Live F) (o : Option (Nat × Nat)) : Same c (indexed c o) := by
  cases o with
  | none => exact Same.refl c
  | some i => exact (same_putParam c (by simp [paramKeys, indexXKey]) _).trans (same_putParam _ (by simp [paramKeys, indexYKey]) _)

theorem mapM_agree {α : Type w} {β : Type u} {f g : α → Res β} : ∀ {l : List α}, (∀ x ∈ l, f x = g x) → l.mapM f = l.mapM g
  | [], _ => rfl
  | x :: l, h => by
    rw [List.mapM_cons, List.mapM_cons, h x (by simp), mapM_agree fun y hy => h y (by simp [hy])]

theorem any_copiesLoop {r : Rendering F} (hr : Leaves r) (c0 : Live F) (g0 : DMap F) (width height : F) :
    ∀ {l : List (Nat × Nat)}, l.Nodup → ∀ {c : Live F} {g : DMap F} {qs : List (Path F)} {c' : Live F} {g' : DMap F}, Same c0 c → Written g0 g →
    copiesLoop r width height l c g = .ok (qs, c', g') → ∃ f : Nat × Nat → Res (Path F),
      (l.mapM fun i => do
        let q ← f i
        move (newPoint (Arith.lit i.1 0 *. width) (Arith.lit i.2 0 *. height)) Attr.startPosition.text q) = .ok qs ∧
      ∀ i q, f i = .ok q → ∃ c1 g1 x, Same c0 c1 ∧ Written g0 g1 ∧ r (indexed c1 (some i)) g1 origin = .ok (q, x)
  | [], _, c, g, qs, c', g', _, _, h => by
    simp only [copiesLoop, Res.ok.injEq, Prod.mk.injEq] at h
    obtain ⟨rfl, -⟩ := h
    exact ⟨fun _ => .err, rfl, fun _ _ h => by cases h⟩
  | i :: l, hn, c, g, qs, c', g', hc, hg, h => by
    rw [copiesLoop] at h
    obtain ⟨⟨q, c1, g1⟩, h1, h⟩ := res_bind_ok h
    simp only at h
    obtain ⟨q1, h2, h⟩ := res_bind_ok h
    obtain ⟨⟨qs1, c2, g2⟩, h3, h⟩ := res_bind_ok h
    simp only [Res.ok.injEq, Prod.mk.injEq] at h
    obtain ⟨rfl, -⟩ := h
    have hl := (hr _ g origin).ok h1
    rw [List.nodup_cons] at hn
    obtain ⟨f, hf, hf'⟩ := any_copiesLoop hr c0 g0 width height hn.2 ((hc.trans (same_indexed c (some i))).trans hl.1) (hg.trans hl.2) h3
    refine ⟨fun j => if j = i then .ok q else f j, ?_, ?_⟩
    · rw [List.mapM_cons]
      beta_reduce
      rw [if_pos rfl, Res.ok_bind, h2, Res.ok_bind]
      have : (l.mapM fun j => do
          let q ← (if j = i then Res.ok q else f j : Res (Path F))
          move (newPoint (Arith.lit j.1 0 *. width) (Arith.lit j.2 0 *. height)) Attr.startPosition.text q) = .ok qs1 := by
        rw [← hf]
        refine mapM_agree fun j hj => ?_
        rw [if_neg fun e : j = i => hn.1 (e ▸ hj)]
      rw [this]
      rfl
    · intro j q' hq
      beta_reduce at hq
      by_cases hj : j = i
      · rw [if_pos hj, Res.ok.injEq] at hq
        subst hj hq
        exact ⟨c, g, _, hc, hg, h1⟩
      · rw [if_neg hj] at hq
        exact hf' j q' hq

theorem any_aroundLoop {r : Rendering F} (hr : Leaves r) (c0 : Live F) (g0 : DMap F) (num : Int) (center start : Point F) :
    ∀ {l : List Nat} {c : Live F} {g : DMap F} {ps : List (Path F)} {c' : Live F} {g' : DMap F}, Same c0 c → Written g0 g →
    aroundLoop r num center start l c g = .ok (ps, c', g') → ∃ qs : List (Path F), qs.length = l.length ∧
      ((qs.zip l).mapM fun x => aroundCopy 3 num center start x.1 x.2) = .ok ps ∧
      ∀ q ∈ qs, ∃ c1 g1 x, Same c0 c1 ∧ Written g0 g1 ∧ r c1 g1 origin = .ok (q, x)
  | [], c, g, ps, c', g', _, _, h => by
    simp only [aroundLoop, Res.ok.injEq, Prod.mk.injEq] at h
    obtain ⟨rfl, -⟩ := h
    exact ⟨[], rfl, rfl, fun _ h => by cases h⟩
  | i :: l, c, g, ps, c', g', hc, hg, h => by
    rw [aroundLoop] at h
    obtain ⟨⟨q, c1, g1⟩, h1, h⟩ := res_bind_ok h
    simp only at h
    obtain ⟨q1, h2, h⟩ := res_bind_ok h
    obtain ⟨⟨qs1, c2, g2⟩, h3, h⟩ := res_bind_ok h
    simp only [Res.ok.injEq, Prod.mk.injEq] at h
    obtain ⟨rfl, -⟩ := h
    have hl := (hr _ g origin).ok h1
    obtain ⟨qs, h4, h5, h6⟩ := any_aroundLoop hr c0 g0 num center start (hc.trans hl.1) (hg.trans hl.2) h3
    refine ⟨q :: qs, by simp [h4], ?_, ?_⟩
    · rw [List.zip_cons_cons, List.mapM_cons]
      simp only [h2, Res.ok_bind, h5]
      rfl
    · intro x hx
      rcases List.mem_cons.mp hx with rfl | hx
      · exact ⟨c, g, _, hc, hg, h1⟩
      · exact h6 x hx

theorem grid_nodup (a b : Nat) : (grid a b).Nodup := by
  unfold grid
  rw [List.nodup_flatMap]
  refine ⟨fun x _ => (List.nodup_range).map fun _ _ h => by simpa using h, ?_⟩
  refine List.nodup_range.imp ?_
  intro x y hxy
  simp only [Function.onFun, List.disjoint_left, List.mem_map, not_exists, not_and]
  rintro z ⟨w, -, rfl⟩ v _ e
  simp only [Prod.mk.injEq] at e
  exact hxy e.1.symm

theorem any_copiesOf {r : Rendering F} (hr : Leaves r) {toInt : F → Int} {c : Live F} {g0 g : DMap F} {maxX maxY : F} {p : Path F} {c' : Live F} {g' : DMap F}
    (hg : Written g0 g) (h : copiesOf toInt r c g maxX maxY = .ok (p, c', g')) :
    ∃ render, repeatRender toInt render maxX maxY = .ok p ∧ FromIndexed r c g0 render := by
  unfold copiesOf at h
  obtain ⟨⟨q, c1, g1⟩, h1, h⟩ := res_bind_ok h
  simp only at h
  obtain ⟨b, h2, h⟩ := res_bind_ok h
  obtain ⟨⟨qs, c2, g2⟩, h3, h⟩ := res_bind_ok h
  simp only at h
  have hl := (hr _ g origin).ok h1
  obtain ⟨f, hf, hf'⟩ := any_copiesLoop hr c g0 _ _ (grid_nodup _ _) hl.1 (hg.trans hl.2) h3
  refine ⟨fun o => match o with | none => .ok q | some i => f i, ?_, ?_⟩
  · unfold repeatRender
    simp only [Res.ok_bind, h2, hf]
    split at h
    · cases h
    · next hne =>
      rw [if_neg hne]
      obtain ⟨j, h4, h⟩ := res_bind_ok h
      simp only [Res.ok.injEq, Prod.mk.injEq] at h
      rw [h4, h.1]
  · intro o q' hq
    cases o with
    | none =>
      simp only [Res.ok.injEq] at hq
      subst hq
      exact ⟨c, g, _, Same.refl c, hg, h1⟩
    | some i => exact hf' i q' hq

end Anything

end Verif.Render
