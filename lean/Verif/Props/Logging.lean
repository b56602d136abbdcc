import Verif.Spec.Logging

/-!
# Properties of the loggers (C53)
-/

set_option linter.unusedSectionVars false
set_option linter.unusedSimpArgs false

namespace Verif.Log

open Verif.Dyn

universe u

variable {F : Type u}

/-- The parent pointers in the heap. -/
def heapParents (h : Heap F) : List (Option Nat) := h.map Logger.parent

theorem step_parents (h : Heap F) (op : Op F) (hv : Valid h.length [op]) :
    heapParents (step h op) = heapParents h ++ parents [op] := by
  cases op with
  | new => simp [step, heapParents, parents, newLog]
  | child i =>
    have hi : i < h.length := hv.1
    simp [step, heapParents, parents, newChild, List.getElem?_eq_getElem hi]
  | setStatic i f =>
    simp only [step, heapParents, parents, List.filterMap_cons, List.filterMap_nil, List.append_nil]
    apply List.ext_getElem? ; intro j
    by_cases hj : i = j <;> simp [List.getElem?_modify, hj] <;> cases h[j]? <;> simp
  | setStdOut i f =>
    simp only [step, heapParents, parents, List.filterMap_cons, List.filterMap_nil, List.append_nil]
    apply List.ext_getElem? ; intro j
    by_cases hj : i = j <;> simp [List.getElem?_modify, hj] <;> cases h[j]? <;> simp
  | log i lv f t =>
    have hi : i < h.length := hv.1
    simp only [step, logf, List.getElem?_eq_getElem hi, heapParents, parents, List.filterMap_cons, List.filterMap_nil, List.append_nil]
    have h1 : (h.set i (addMsg h[i] (message h[i] lv f t))).map Logger.parent = h.map Logger.parent := by
      rw [List.map_set]
      apply List.ext_getElem? ; intro j
      by_cases hj : i = j
      · subst hj; simp [List.getElem?_set, hi, addMsg]
      · simp [List.getElem?_set, hj]
    cases hp : h[i].parent with
    | none => exact h1
    | some p =>
      simp only
      cases hq : (h.set i (addMsg h[i] (message h[i] lv f t)))[p]? with
      | none => exact h1
      | some q =>
        simp only
        rw [List.map_set, ← h1]
        apply List.ext_getElem? ; intro j
        by_cases hj : p = j
        · subst hj
          have : p < h.length := by
            have := (List.getElem?_eq_some_iff.1 hq).1
            simpa using this
          simp only [List.getElem?_set, List.length_map, List.length_set, this, if_true, List.getElem?_map, hq]
          simp [logFromChild, addMsg]
        · simp [List.getElem?_set, hj]

theorem valid_cons {n : Nat} {op : Op F} {ops : List (Op F)} (hv : Valid n (op :: ops)) :
    Valid n [op] ∧ Valid (n + (parents [op]).length) ops := by
  cases op <;> simp_all [Valid, parents]

theorem run_parents (ops : List (Op F)) : ∀ h : Heap F, Valid h.length ops → heapParents (run ops h) = heapParents h ++ parents ops := by
  induction ops with
  | nil => intro h _; simp [run, parents]
  | cons op ops ih =>
    intro h hv
    obtain ⟨h1, h2⟩ := valid_cons hv
    have hs := step_parents h op h1
    have hl : (step h op).length = h.length + (parents [op]).length := by
      have := congrArg List.length hs
      simpa [heapParents] using this
    have := ih (step h op) (by rw [hl]; exact h2)
    show heapParents (run ops (step h op)) = _
    rw [this, hs, List.append_assoc]
    congr 1
    unfold parents
    rw [← List.filterMap_append]; rfl

/-- Every parent has been made before its children. -/
def Older (ps : List (Option Nat)) : Prop := ∀ j p : Nat, ps[j]? = some (some p) → p < j

theorem parents_older (ops : List (Op F)) : ∀ n (ps : List (Option Nat)), ps.length = n → Older ps → Valid n ops → Older (ps ++ parents ops) := by
  induction ops with
  | nil => intro n ps _ ho _; simpa [parents] using ho
  | cons op ops ih =>
    intro n ps hn ho hv
    obtain ⟨h1, h2⟩ := valid_cons hv
    have hsplit : parents (op :: ops) = parents [op] ++ parents ops := by
      unfold parents; rw [← List.filterMap_append]; rfl
    rw [hsplit, ← List.append_assoc]
    refine ih (n + (parents [op]).length) _ (by simp [hn]) ?_ h2
    intro j p hj
    by_cases hlt : j < ps.length
    · rw [List.getElem?_append_left hlt] at hj; exact ho j p hj
    · rw [List.getElem?_append_right (by omega)] at hj
      cases op with
      | new => 
        rcases hk : j - ps.length with _ | k <;> simp [parents, hk] at hj
      | child i =>
        rcases hk : j - ps.length with _ | k <;> simp [parents, hk] at hj
        subst hj
        have : i < n := h1.1
        omega
      | _ => simp [parents] at hj

theorem recorded_set (h : Heap F) (k : Nat) (l : Logger F) (i : Nat) (hk : k < h.length) :
    recorded (h.set k l) i = if k = i then l.messages.map (fun m => (m.level, m.text)) else recorded h i := by
  unfold recorded
  by_cases hki : k = i
  · subst hki; simp [List.getElem?_set, hk]
  · simp [List.getElem?_set, hki]

theorem recorded_of (h : Heap F) (i : Nat) (l : Logger F) (hi : h[i]? = some l) :
    recorded h i = l.messages.map (fun m => (m.level, m.text)) := by simp [recorded, hi]

theorem logf_recorded (h : Heap F) (ho : Older (heapParents h)) (i : Nat) (hi : i < h.length) (lv : Level) (f : DMap F) (t : Text) (k : Nat) :
    recorded (logf h i lv f t) k =
      recorded h k ++ if i = k ∨ (heapParents h)[i]? = some (some k) then [(lv, t)] else [] := by
  have hget : h[i]? = some h[i] := List.getElem?_eq_getElem hi
  unfold logf
  simp only [hget]
  have hpar : (heapParents h)[i]? = some h[i].parent := by simp [heapParents, hi]
  rw [hpar]
  cases hp : h[i].parent with
  | none =>
    simp only [recorded_set _ _ _ _ hi]
    by_cases hik : i = k
    · subst hik
      simp [recorded_of h i _ hget, addMsg, message]
    · simp [hik]
  | some p =>
    have hpi : p < i := ho i p (by rw [hpar, hp])
    have hpl : p < h.length := by omega
    have hne : i ≠ p := by omega
    have hg : (h.set i (addMsg h[i] (message h[i] lv f t)))[p]? = some h[p] := by
      simp [List.getElem?_set, hne, hpl]
    simp only [hg]
    rw [recorded_set _ _ _ _ (by simpa using hpl), recorded_set _ _ _ _ hi]
    by_cases hpk : p = k
    · subst hpk
      simp [recorded_of h p _ (List.getElem?_eq_getElem hpl), logFromChild, addMsg, message]
    · by_cases hik : i = k
      · subst hik
        simp [hpk, recorded_of h i _ hget, addMsg, message]
      · simp [hpk, hik]

theorem step_recorded (h : Heap F) (ho : Older (heapParents h)) (op : Op F) (hv : Valid h.length [op]) (k : Nat) :
    recorded (step h op) k =
      recorded h k ++ loggedTo (fun j => decide (j = k ∨ (heapParents h)[j]? = some (some k))) [op] := by
  cases op with
  | new =>
    simp only [step, recorded, loggedTo, List.filterMap_cons, List.filterMap_nil, List.append_nil]
    by_cases hk : k < h.length
    · rw [List.getElem?_append_left hk]
    · rw [List.getElem?_append_right (by omega), List.getElem?_eq_none (l := h) (by omega)]
      rcases k - h.length with _ | m <;> simp [newLog]
  | child i =>
    have hi : i < h.length := hv.1
    simp only [step, recorded, loggedTo, List.filterMap_cons, List.filterMap_nil, List.append_nil, List.getElem?_eq_getElem hi]
    by_cases hk : k < h.length
    · rw [List.getElem?_append_left hk]
    · rw [List.getElem?_append_right (by omega), List.getElem?_eq_none (l := h) (by omega)]
      rcases k - h.length with _ | m <;> simp [newChild]
  | setStatic i f =>
    simp only [step, recorded, loggedTo, List.filterMap_cons, List.filterMap_nil, List.append_nil]
    by_cases hj : i = k <;> simp [List.getElem?_modify, hj] <;> cases h[k]? <;> simp
  | setStdOut i f =>
    simp only [step, recorded, loggedTo, List.filterMap_cons, List.filterMap_nil, List.append_nil]
    by_cases hj : i = k <;> simp [List.getElem?_modify, hj] <;> cases h[k]? <;> simp
  | log i lv f t =>
    rw [step, logf_recorded h ho i hv.1 lv f t k]
    simp only [loggedTo, List.filterMap_cons, List.filterMap_nil, decide_eq_true_eq]
    split <;> simp_all

theorem run_recorded (ops : List (Op F)) : ∀ h : Heap F, Older (heapParents h) → Valid h.length ops → ∀ k,
    recorded (run ops h) k =
      recorded h k ++ loggedTo (fun j => decide (j = k ∨ (heapParents h ++ parents ops)[j]? = some (some k))) ops := by
  induction ops with
  | nil => intro h _ _ k; simp [run, loggedTo]
  | cons op ops ih =>
    intro h ho hv k
    obtain ⟨h1, h2⟩ := valid_cons hv
    have hs := step_parents h op h1
    have hl : (step h op).length = h.length + (parents [op]).length := by
      have := congrArg List.length hs
      simpa [heapParents] using this
    have hsplit : parents (op :: ops) = parents [op] ++ parents ops := by
      unfold parents; rw [← List.filterMap_append]; rfl
    have ho' : Older (heapParents (step h op)) := by
      rw [hs]
      exact parents_older [op] h.length _ (by simp [heapParents]) ho h1
    have := ih (step h op) ho' (by rw [hl]; exact h2) k
    show recorded (run ops (step h op)) k = _
    rw [this, step_recorded h ho op h1 k, hs, hsplit, List.append_assoc, List.append_assoc]
    congr 1
    unfold loggedTo
    rw [show op :: ops = [op] ++ ops from rfl, List.filterMap_append]
    congr 1
    apply List.filterMap_congr
    intro o hmem
    rw [List.mem_singleton] at hmem
    subst hmem
    cases o with
    | log j lv f t =>
      have hj : j < h.length := h1.1
      have : (heapParents h ++ (parents [Op.log j lv f t] ++ parents ops))[j]? = (heapParents h)[j]? :=
        List.getElem?_append_left (by simpa [heapParents] using hj)
      simp only [this]
    | _ => rfl

/-- **C53.** A logger has recorded, in order, exactly the messages logged to it and to its immediate children. -/
theorem C53_recorded (ops : List (Op F)) (hv : Valid 0 ops) (i : Nat) :
    recorded (run ops []) i = loggedTo (fun j => decide (j = i ∨ (parents ops)[j]? = some (some i))) ops := by
  have := run_recorded ops [] (by intro j p h; simp [heapParents] at h) hv i
  simpa [heapParents, recorded] using this

/-- The error flag is on exactly when an error has been recorded. -/
def Flagged (h : Heap F) : Prop := ∀ i, hasErrors h i = (recorded h i).any fun m => decide (m.1 = .error)

theorem flagged_iff (h : Heap F) :
    Flagged h ↔ ∀ l ∈ h, l.hasErrors = l.messages.any fun m => decide (m.level = .error) := by
  constructor
  · intro hf l hl
    obtain ⟨i, hi, rfl⟩ := List.mem_iff_getElem.1 hl
    have := hf i
    simp [hasErrors, recorded, hi, List.any_map] at this
    rw [this]; rfl
  · intro hf i
    unfold hasErrors recorded
    cases hi : h[i]? with
    | none => rfl
    | some l =>
      have := hf l (List.mem_of_getElem? hi)
      simp only [Option.map_some, Option.getD_some, this, List.any_map]
      rfl

theorem addMsg_flagged (l : Logger F) (m : Msg F) (h : l.hasErrors = l.messages.any fun m => decide (m.level = .error)) :
    (addMsg l m).hasErrors = (addMsg l m).messages.any fun m => decide (m.level = .error) := by
  by_cases hm : m.level = .error <;> simp [addMsg, hm, h]

theorem step_flagged (h : Heap F) (op : Op F) (hf : Flagged h) : Flagged (step h op) := by
  rw [flagged_iff] at hf ⊢
  cases op with
  | new =>
    intro l hl
    rcases List.mem_append.1 hl with hl | hl
    · exact hf l hl
    · rw [List.mem_singleton] at hl; subst hl; rfl
  | child i =>
    simp only [step]
    cases h[i]? with
    | none => exact hf
    | some q =>
      intro l hl
      rcases List.mem_append.1 hl with hl | hl
      · exact hf l hl
      · rw [List.mem_singleton] at hl; subst hl; rfl
  | setStatic i f =>
    intro l hl
    obtain ⟨j, hj, rfl⟩ := List.mem_iff_getElem.1 hl
    have hj' : j < h.length := by simpa [step] using hj
    simp only [step, List.getElem_modify]
    split
    · exact hf h[j] (List.getElem_mem _)
    · exact hf _ (List.getElem_mem _)
  | setStdOut i f =>
    intro l hl
    obtain ⟨j, hj, rfl⟩ := List.mem_iff_getElem.1 hl
    have hj' : j < h.length := by simpa [step] using hj
    simp only [step, List.getElem_modify]
    split
    · exact hf h[j] (List.getElem_mem _)
    · exact hf _ (List.getElem_mem _)
  | log i lv f t =>
    simp only [step, logf]
    cases hi : h[i]? with
    | none => exact hf
    | some q =>
      have h1 : ∀ l ∈ h.set i (addMsg q (message q lv f t)), l.hasErrors = l.messages.any fun m => decide (m.level = .error) := by
        intro l hl
        rcases List.mem_or_eq_of_mem_set hl with hl | rfl
        · exact hf l hl
        · exact addMsg_flagged _ _ (hf q (List.mem_of_getElem? hi))
      simp only
      cases q.parent with
      | none => exact h1
      | some p =>
        simp only
        cases hq : (h.set i (addMsg q (message q lv f t)))[p]? with
        | none => exact h1
        | some r =>
          intro l hl
          rcases List.mem_or_eq_of_mem_set hl with hl | rfl
          · exact h1 l hl
          · exact addMsg_flagged _ _ (h1 r (List.mem_of_getElem? hq))

theorem run_flagged (ops : List (Op F)) : ∀ h : Heap F, Flagged h → Flagged (run ops h) := by
  induction ops with
  | nil => intro h hf; exact hf
  | cons op ops ih => intro h hf; exact ih _ (step_flagged h op hf)

/-- **C53.** A logger reports errors exactly when an error was logged to it or to an immediate child. -/
theorem C53_errors (ops : List (Op F)) (hv : Valid 0 ops) (i : Nat) :
    hasErrors (run ops []) i = true ↔
      ∃ text, (Level.error, text) ∈ loggedTo (fun j => decide (j = i ∨ (parents ops)[j]? = some (some i))) ops := by
  rw [run_flagged ops [] (by intro i; simp [hasErrors, recorded]) i, C53_recorded ops hv i, List.any_eq_true]
  constructor
  · rintro ⟨⟨lv, t⟩, hm, hl⟩
    simp only [decide_eq_true_eq] at hl
    subst hl
    exact ⟨t, hm⟩
  · rintro ⟨t, hm⟩
    exact ⟨_, hm, by simp⟩

/-- The full statement of C53: a message reaches all ancestors, and `HasErrors` tells of the errors of all descendants. -/
def C53_statement (ops : List (Op F)) : Prop :=
  ∀ i, (∀ j level text, (level, text) ∈ loggedTo (fun k => decide (k = j)) ops → (j = i ∨ Ancestor (parents ops) i j) →
      (level, text) ∈ recorded (run ops []) i) ∧
    (hasErrors (run ops []) i = true ↔
      ∃ j text, (j = i ∨ Ancestor (parents ops) i j) ∧ (Level.error, text) ∈ loggedTo (fun k => decide (k = j)) ops)

theorem loggedTo_mem {who : Nat → Bool} {ops : List (Op F)} {level : Level} {text : Text} :
    (level, text) ∈ loggedTo who ops ↔ ∃ j, who j = true ∧ (level, text) ∈ loggedTo (fun k => decide (k = j)) ops := by
  unfold loggedTo
  simp only [List.mem_filterMap]
  constructor
  · rintro ⟨op, hop, h⟩
    cases op with
    | log j lv f t =>
      simp only at h
      split at h
      · rename_i ht
        exact ⟨j, ht, .log j lv f t, hop, by simpa using h⟩
      · cases h
    | _ => cases h
  · rintro ⟨j, ht, op, hop, h⟩
    refine ⟨op, hop, ?_⟩
    cases op with
    | log k lv f t =>
      simp only [decide_eq_true_eq] at h ⊢
      split at h
      · rename_i hk; subst hk; simpa [ht] using h
      · cases h
    | _ => cases h

/-- **C53.** In a tree of two levels (every parent is a root), as in main.go, a message reaches all ancestors, and `HasErrors` tells of
the errors of all descendants. -/
theorem C53_two_levels_partial (ops : List (Op F)) (hv : Valid 0 ops)
    (h2 : ∀ i j : Nat, (parents ops)[j]? = some (some i) → (parents ops)[i]? = some none) : C53_statement ops := by
  have anc : ∀ i j, Ancestor (parents ops) i j ↔ (parents ops)[j]? = some (some i) := by
    intro i j
    constructor
    · intro h
      cases h with
      | parent h => exact h
      | step h hk =>
        rename_i m
        exfalso
        have hr := h2 _ _ hk
        cases h with
        | parent h => rw [h] at hr; cases hr
        | step _ h => rw [h] at hr; cases hr
    · exact .parent
  intro i
  refine ⟨?_, ?_⟩
  · intro j level text hm hij
    rw [C53_recorded ops hv i, loggedTo_mem]
    exact ⟨j, by simpa [anc] using hij, hm⟩
  · rw [C53_errors ops hv i]
    constructor
    · rintro ⟨t, hm⟩
      obtain ⟨j, hj, hm⟩ := loggedTo_mem.1 hm
      exact ⟨j, t, by simpa [anc] using hj, hm⟩
    · rintro ⟨j, t, hj, hm⟩
      exact ⟨t, loggedTo_mem.2 ⟨j, by simpa [anc] using hj, hm⟩⟩

/-- A program that makes a logger, its child and its grandchild, and logs an error to the grandchild. -/
def threeLevels : List (Op F) := [.new, .child 0, .child 1, .log 2 .error [] ['x']]

/-- **C53** fails for three levels: the error of the grandchild is not recorded by the first logger, which reports no errors. -/
theorem C53_ancestors_false :
    Valid 0 (threeLevels (F := F)) ∧ Ancestor (parents (threeLevels (F := F))) 0 2 ∧
    recorded (run (threeLevels (F := F)) []) 0 = [] ∧ hasErrors (run (threeLevels (F := F)) []) 0 = false ∧
    hasErrors (run (threeLevels (F := F)) []) 2 = true ∧ ¬ C53_statement (threeLevels (F := F)) := by
  have hanc : Ancestor (parents (threeLevels (F := F))) 0 2 := .step (.parent (j := 1) rfl) rfl
  have hrec : recorded (run (threeLevels (F := F)) []) 0 = [] := rfl
  refine ⟨⟨by decide, by decide, by decide, trivial⟩, hanc, hrec, rfl, rfl, ?_⟩
  intro h
  have := (h 0).1 2 .error ['x'] (by simp [loggedTo, threeLevels]) (.inr hanc)
  rw [hrec] at this
  cases this

/-- **C53.** A fatal message does not count as an error. -/
theorem C53_fatal_false :
    hasErrors (run ([.new, .log 0 .fatal [] ['x']] : List (Op F)) []) 0 = false := rfl

/-- **C53.** The logged message carries the fields of the call; a static field of the logger is added unless the call has one of that name. -/
theorem C53_fields (h : Heap F) (i : Nat) (l : Logger F) (hi : h[i]? = some l) (hp : l.parent = none) (level : Level) (fields : DMap F) (text : Text) :
    ∃ l', (logf h i level fields text)[i]? = some l' ∧ l'.messages = l.messages ++ [message l level fields text] ∧
      (message l level fields text).level = level ∧ (message l level fields text).text = text ∧
      (l.staticFields = [] → (message l level fields text).fields = fields) ∧
      (fields = [] → (message l level fields text).fields = if l.staticFields = [] then [] else clone l.staticFields) := by
  have hlt : i < h.length := (List.getElem?_eq_some_iff.1 hi).1
  refine ⟨addMsg l (message l level fields text), ?_, rfl, rfl, rfl, ?_, ?_⟩
  · simp only [logf, hi, hp]
    simp [hlt]
  · intro hs; simp [message, withStatic, hs]
  · intro hs
    subst hs
    cases hsf : l.staticFields with
    | nil => simp [message, withStatic, hsf]
    | cons a b => simp [message, withStatic, hsf, merge]

/-- **C53.** A child prints what its parent prints, and starts without messages, errors and static fields. -/
theorem C53_child (h : Heap F) (i : Nat) (l : Logger F) (hi : h[i]? = some l) :
    ∃ c, step h (.child i) = h ++ [c] ∧ c.parent = some i ∧ c.messages = [] ∧ c.hasErrors = false ∧ c.staticFields = [] ∧
      ∀ level, printed c level = printed l level := by
  refine ⟨newChild i l, ?_, rfl, rfl, rfl, rfl, fun _ => rfl⟩
  simp [step, hi]

/-- **C53.** A message of a child is recorded by the parent with the static fields of both; a field of the message wins over a static field of the
child, and that over a static field of the parent. -/
theorem C53_parent_fields (h : Heap F) (i p : Nat) (l q : Logger F) (hi : h[i]? = some l) (hp : l.parent = some p) (hq : h[p]? = some q) (hne : p ≠ i)
    (level : Level) (fields : DMap F) (text : Text) :
    ∃ q', (logf h i level fields text)[p]? = some q' ∧ ∃ m, q'.messages = q.messages ++ [m] ∧ m.level = level ∧ m.text = text ∧
      (q.staticFields = [] → l.staticFields = [] → m.fields = fields) ∧
      (q.staticFields ≠ [] → l.staticFields = [] → m.fields = merge (clone q.staticFields) fields) ∧
      (q.staticFields = [] → l.staticFields ≠ [] → m.fields = merge (clone l.staticFields) fields) ∧
      (q.staticFields ≠ [] → l.staticFields ≠ [] → m.fields = merge (clone q.staticFields) (merge (clone l.staticFields) fields)) := by
  have hlt : p < h.length := (List.getElem?_eq_some_iff.1 hq).1
  refine ⟨logFromChild q (message l level fields text), ?_, ⟨withStatic q (message l level fields text).fields, level, text⟩, rfl, rfl, rfl, ?_, ?_, ?_, ?_⟩
  · have : (h.set i (addMsg l (message l level fields text)))[p]? = some q := by
      rw [List.getElem?_set_ne (Ne.symm hne), hq]
    simp only [logf, hi, hp, this]
    simp [hlt]
  all_goals
    intro h1 h2
    simp [message, withStatic, h1, h2]

/-- A parent with two children: it has the messages of both in order, and reports the error of the second. -/
example : recorded (run ([.new, .child 0, .child 0, .log 1 .info [] ['a'], .log 0 .debug [] ['b'], .log 2 .error [] ['c']] : List (Op F)) []) 0 =
      [(.info, ['a']), (.debug, ['b']), (.error, ['c'])] ∧
    hasErrors (run ([.new, .child 0, .child 0, .log 1 .info [] ['a'], .log 0 .debug [] ['b'], .log 2 .error [] ['c']] : List (Op F)) []) 0 = true ∧
    hasErrors (run ([.new, .child 0, .child 0, .log 1 .info [] ['a'], .log 0 .debug [] ['b'], .log 2 .error [] ['c']] : List (Op F)) []) 1 = false :=
  ⟨rfl, rfl, rfl⟩

end Verif.Log
