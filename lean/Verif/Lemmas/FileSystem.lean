import Verif.Spec.FileSystem
import Verif.Props.Files

/-!
# Lemmas about the file system
-/

namespace Verif.Files

open Verif.Dyn Verif.Path

/-! ## Paths -/

theorem step_skip {c : Text} (h : c = [] ∨ c = ['.']) (r : Bool) (st : List Text) : cleanStep r st c = st := by
  rw [cleanStep.eq_def, if_pos h]

theorem step_name {c : Text} (h : ¬ (c = [] ∨ c = ['.'])) (h2 : c ≠ ['.', '.']) (r : Bool) (st : List Text) : cleanStep r st c = c :: st := by
  rw [cleanStep.eq_def, if_neg h, if_neg h2]

theorem step_up_nil (r : Bool) : cleanStep r [] ['.', '.'] = if r then [] else [['.', '.']] := by
  simp [cleanStep]

theorem step_up_up (r : Bool) (rest : List Text) : cleanStep r (['.', '.'] :: rest) ['.', '.'] = ['.', '.'] :: ['.', '.'] :: rest := by
  simp [cleanStep]

theorem step_up_pop (r : Bool) {top : Text} (h : top ≠ ['.', '.']) (rest : List Text) : cleanStep r (top :: rest) ['.', '.'] = rest := by
  simp [cleanStep, h]

theorem foldl_cleanStep_reverse (rooted : Bool) (st : List Text) (h : rooted = true → st = []) (raw : List Text) (stack : List Text)
    (hs : ∀ c ∈ stack, c ≠ [] ∧ c ≠ ['.']) :
    (raw.foldl (cleanStep rooted) stack).reverse.foldl (cleanStep true) st = raw.foldl (cleanStep true) (stack.reverse.foldl (cleanStep true) st) := by
  induction raw generalizing stack with
  | nil => rfl
  | cons c raw ih =>
    have hsnoc : ∀ (l : List Text) (x : Text), (x :: l).reverse.foldl (cleanStep true) st = cleanStep true (l.reverse.foldl (cleanStep true) st) x := by
      intro l x
      rw [List.reverse_cons, List.foldl_append, List.foldl_cons, List.foldl_nil]
    have hstep : (cleanStep rooted stack c).reverse.foldl (cleanStep true) st = cleanStep true (stack.reverse.foldl (cleanStep true) st) c ∧
        ∀ x ∈ cleanStep rooted stack c, x ≠ [] ∧ x ≠ ['.'] := by
      by_cases h1 : c = [] ∨ c = ['.']
      · rw [step_skip h1, step_skip h1]
        exact ⟨rfl, hs⟩
      by_cases h2 : c = ['.', '.']
      · subst h2
        cases stack with
        | nil =>
          rw [step_up_nil]
          cases rooted with
          | true => rw [h rfl]; simp [step_up_nil]
          | false => simp
        | cons top rest =>
          by_cases h3 : top = ['.', '.']
          · subst h3
            rw [step_up_up, hsnoc]
            refine ⟨rfl, ?_⟩
            intro x hx
            rcases List.mem_cons.mp hx with rfl | hx
            · exact ⟨by decide, by decide⟩
            · exact hs x hx
          · have ht := hs top (by simp)
            rw [step_up_pop _ h3, hsnoc, step_name (by simp [ht]) h3, step_up_pop _ h3]
            exact ⟨rfl, fun x hx => hs x (by simp [hx])⟩
      · rw [step_name h1 h2, hsnoc]
        refine ⟨rfl, ?_⟩
        intro x hx
        rcases List.mem_cons.mp hx with rfl | hx
        · exact ⟨fun hc => h1 (.inl hc), fun hc => h1 (.inr hc)⟩
        · exact hs x hx
    rw [List.foldl_cons, List.foldl_cons, ih _ hstep.2, hstep.1]

theorem splitOn_slashes (l : List Text) (hl : l ≠ []) (h : ∀ c ∈ l, '/' ∉ c) : splitOn '/' (slashes l) [] = l := by
  induction l with
  | nil => exact absurd rfl hl
  | cons a l ih =>
    cases l with
    | nil => simp [slashes, splitOn_plain (h a (by simp))]
    | cons b l =>
      rw [slashes, splitOn_sep (h a (by simp)), ih (by simp) fun c hc => h c (by simp [hc])]
      rfl

theorem cleanStep_no_slash {rooted : Bool} {stack : List Text} {c : Text} (hs : ∀ x ∈ stack, '/' ∉ x ∧ x ≠ []) (hc : '/' ∉ c) :
    ∀ x ∈ cleanStep rooted stack c, '/' ∉ x ∧ x ≠ [] := by
  unfold cleanStep
  split
  · exact hs
  · rename_i h1
    split
    · split
      · split
        · simp
        · simp
      · split
        · intro x hx
          rcases List.mem_cons.mp hx with rfl | hx
          · exact ⟨by decide, by decide⟩
          · exact hs x hx
        · exact fun x hx => hs x (by simp [hx])
    · intro x hx
      rcases List.mem_cons.mp hx with rfl | hx
      · exact ⟨hc, fun e => h1 (.inl e)⟩
      · exact hs x hx

theorem foldl_cleanStep_no_slash {rooted : Bool} (raw : List Text) (hr : ∀ c ∈ raw, '/' ∉ c) (stack : List Text) (hs : ∀ x ∈ stack, '/' ∉ x ∧ x ≠ []) :
    ∀ x ∈ raw.foldl (cleanStep rooted) stack, '/' ∉ x ∧ x ≠ [] := by
  induction raw generalizing stack with
  | nil => exact hs
  | cons c raw ih => exact ih (fun x hx => hr x (by simp [hx])) _ (cleanStep_no_slash hs (hr c (by simp)))

theorem slashes_head {l : List Text} (h : ∀ c ∈ l, '/' ∉ c ∧ c ≠ []) : (slashes l).head? ≠ some '/' := by
  cases l with
  | nil => simp [slashes]
  | cons a l =>
    obtain ⟨h1, h2⟩ := h a (by simp)
    cases a with
    | nil => exact absurd rfl h2
    | cons x a =>
      have hx : x ≠ '/' := fun e => h1 (by simp [e])
      cases l with
      | nil => simpa [slashes] using hx
      | cons b l => simpa [slashes] using hx

theorem slashes_eq_nil {l : List Text} (h : ∀ c ∈ l, '/' ∉ c ∧ c ≠ []) (e : slashes l = []) : l = [] := by
  cases l with
  | nil => rfl
  | cons a l =>
    have h2 := (h a (by simp)).2
    cases l with
    | nil => simp [slashes] at e; exact absurd e h2
    | cons b l => simp [slashes] at e

/-- Cleaning a path does not change its place. -/
theorem resolve_clean (cwd : List Text) (s : Text) : resolve cwd (clean s) = resolve cwd s := by
  have hraw : ∀ c ∈ splitOn '/' s [], '/' ∉ c := splitOn_no_sep _ _ _ (by simp)
  have hst := fun r : Bool => foldl_cleanStep_no_slash (rooted := r) _ hraw [] (by simp)
  unfold clean
  by_cases hr : s.head? = some '/'
  · simp only [hr, decide_true, if_true, reduceCtorEq, if_false]
    unfold resolve
    simp only [hr, if_true, List.head?_cons]
    congr 1
    have key := foldl_cleanStep_reverse true [] (fun _ => rfl) (splitOn '/' s []) [] (by simp)
    simp only [List.reverse_nil, List.foldl_nil] at key
    conv_rhs => rw [← key]
    have hst := hst true
    generalize (splitOn '/' s []).foldl (cleanStep true) [] = st at hst ⊢
    have e : splitOn '/' ('/' :: slashes st.reverse) [] = [] :: splitOn '/' (slashes st.reverse) [] := by simp [splitOn]
    rw [e, List.foldl_cons, show cleanStep true [] [] = [] by simp [cleanStep]]
    by_cases h0 : st.reverse = []
    · rw [h0]; simp [slashes, splitOn, cleanStep]
    · rw [splitOn_slashes _ h0 fun c hc => (hst c (List.mem_reverse.mp hc)).1]
  · simp only [hr, decide_false, Bool.false_eq_true, if_false]
    have key := foldl_cleanStep_reverse false cwd.reverse (fun h => by cases h) (splitOn '/' s []) [] (by simp)
    simp only [List.reverse_nil, List.foldl_nil] at key
    have hst' : ∀ c ∈ ((splitOn '/' s []).foldl (cleanStep false) []).reverse, '/' ∉ c ∧ c ≠ [] := fun c hc => hst false c (List.mem_reverse.mp hc)
    conv_rhs => rw [resolve, if_neg hr, ← key]
    generalize ((splitOn '/' s []).foldl (cleanStep false) []).reverse = st at hst' ⊢
    split
    · rename_i h0
      rw [slashes_eq_nil hst' h0]
      simp [resolve, splitOn, cleanStep]
    · rename_i h0
      have h1 : st ≠ [] := by rintro rfl; exact h0 rfl
      rw [resolve, if_neg (slashes_head hst'), splitOn_slashes _ h1 fun c hc => (hst' c hc).1]

theorem Name.step {n : Text} (h : Name n) (st : List Text) (r : Bool) : cleanStep r st n = n :: st := by
  simp [cleanStep, h.1, h.2.2.1, h.2.2.2]

/-- Joining a name goes one step down. -/
theorem resolve_join (cwd : List Text) {d n : Text} (hd : d ≠ []) (h : Name n) : resolve cwd (join d n) = resolve cwd d ++ [n] := by
  rw [join, if_neg hd, resolve_clean]
  have hh : (d ++ '/' :: n).head? = d.head? := by
    cases d with
    | nil => exact absurd rfl hd
    | cons x d => rfl
  rw [resolve, hh, splitOn_append_sep '/' d n h.2.1, List.foldl_append, List.foldl_cons, List.foldl_nil, h.step]
  simp [resolve]

theorem join_ne_nil {d : Text} (hd : d ≠ []) (n : Text) : join d n ≠ [] := by
  rw [join, if_neg hd]
  exact clean_ne_nil _

/-! ## Nodes -/

theorem node_induction {P : Node → Prop} (file : ∀ c, P (.file c)) (locked : P .locked) (dir : ∀ es, (∀ e ∈ es, P e.2) → P (.dir es)) :
    ∀ n, P n := by
  intro n
  induction n using Node.rec (motive_2 := fun es => ∀ e ∈ es, P e.2) (motive_3 := fun e => P e.2) with
  | file c => exact file c
  | dir es ih => exact dir es ih
  | locked => exact locked
  | nil => rename_i h; cases h
  | cons e es ih1 ih2 => 
    rename_i h
    rcases List.mem_cons.mp h with rfl | h
    · exact ih1
    · exact ih2 _ h
  | mk n m ih => exact ih

theorem lookup_setEntry (n : Text) (v : Node) (es : List (Text × Node)) (k : Text) :
    (setEntry n v es).lookup k = if k = n then some v else es.lookup k := by
  induction es with
  | nil =>
    rw [setEntry, List.lookup_cons]
    by_cases h : k = n
    · simp [h]
    · simp [h, beq_false_of_ne h]
  | cons e es ih =>
    rw [setEntry]
    by_cases he : e.1 = n
    · rw [if_pos he, List.lookup_cons, List.lookup_cons]
      by_cases h : k = n
      · simp [h]
      · simp [h, he, beq_false_of_ne h]
    · rw [if_neg he, List.lookup_cons, List.lookup_cons, ih]
      by_cases hk : k = e.1
      · subst hk; simp [he]
      · simp [beq_false_of_ne hk]

theorem at_append (n : Node) (p q : List Text) : n.at (p ++ q) = (n.at p).bind fun m => m.at q := by
  induction p generalizing n with
  | nil => simp [Node.at]
  | cons c p ih =>
    cases n with
    | file => simp [Node.at]
    | locked => simp [Node.at]
    | dir es =>
      simp only [List.cons_append, Node.at]
      cases es.lookup c with
      | none => rfl
      | some m => exact ih m

/-! ## Walking -/

/-- Is it a directory? -/
def Node.isDirNode : Node → Bool
  | .file _ => false
  | _ => true

mutual

/-- The places of a walk. -/
def Node.places : Node → List (List Text × Bool) × Bool
  | .file _ => ([([], false)], true)
  | .locked => ([], false)
  | .dir es =>
    let w := joinWalks ((sortNames (placesEntries es)).map (·.2))
    (([], true) :: w.1, w.2)

/-- The places below the entries of a directory. -/
def placesEntries : List (Text × Node) → List (Text × (List (List Text × Bool) × Bool))
  | [] => []
  | (n, m) :: es => (n, (m.places.1.map fun q => (n :: q.1, q.2), m.places.2)) :: placesEntries es

end

theorem placesEntries_eq (es : List (Text × Node)) :
    placesEntries es = es.map fun e => (e.1, (e.2.places.1.map fun q => (e.1 :: q.1, q.2), e.2.places.2)) := by
  induction es with
  | nil => rfl
  | cons e es ih => rw [placesEntries, ih]; rfl

theorem walkEntries_eq (path : Text) (es : List (Text × Node)) : walkEntries path es = es.map fun e => (e.1, e.2.walk (join path e.1)) := by
  induction es with
  | nil => rfl
  | cons e es ih => rw [walkEntries, ih]; rfl

theorem joinWalks_map {α β : Type} (f : α → β) (l : List (List α × Bool)) :
    joinWalks (l.map fun w => (w.1.map f, w.2)) = ((joinWalks l).1.map f, (joinWalks l).2) := by
  induction l with
  | nil => rfl
  | cons w l ih =>
    obtain ⟨x, b⟩ := w
    cases b with
    | false => rfl
    | true => simp only [List.map_cons, joinWalks, ih, List.map_append]

theorem joinWalks_ok {α : Type} (l : List (List α × Bool)) : (joinWalks l).2 = l.all (·.2) := by
  induction l with
  | nil => rfl
  | cons w l ih =>
    obtain ⟨x, b⟩ := w
    cases b with
    | false => rfl
    | true => simp [joinWalks, ih]

theorem joinWalks_flatten {α : Type} (l : List (List α × Bool)) (h : (joinWalks l).2 = true) : (joinWalks l).1 = (l.map (·.1)).flatten := by
  induction l with
  | nil => rfl
  | cons w l ih =>
    obtain ⟨x, b⟩ := w
    cases b with
    | false => cases h
    | true =>
      rw [joinWalks] at h ⊢
      simp [ih h]

theorem joinWalks_prefix {α : Type} (l : List (List α × Bool)) : (joinWalks l).1 <+: (l.map (·.1)).flatten := by
  induction l with
  | nil => exact List.prefix_rfl
  | cons w l ih =>
    obtain ⟨x, b⟩ := w
    cases b with
    | false => simp [joinWalks]
    | true =>
      rw [joinWalks]
      simpa [List.prefix_append_right_inj] using ih

theorem nameLe_iff {α : Type} (a b : Text × α) : nameLe a b = true ↔ ¬ b.1 < a.1 := by
  simp only [nameLe, decide_eq_true_eq]
  exact Iff.rfl

theorem insertName_perm {α : Type} (a : Text × α) (l : List (Text × α)) : (insertName a l).Perm (a :: l) := by
  induction l with
  | nil => exact List.Perm.refl _
  | cons b l ih =>
    rw [insertName]
    split
    · exact List.Perm.refl _
    · exact (ih.cons b).trans (List.Perm.swap a b l)

theorem sortNames_perm {α : Type} (l : List (Text × α)) : (sortNames l).Perm l := by
  induction l with
  | nil => exact List.Perm.refl _
  | cons a l ih => exact (insertName_perm a _).trans (ih.cons a)

theorem mem_sortNames {α : Type} {l : List (Text × α)} {a : Text × α} : a ∈ sortNames l ↔ a ∈ l := (sortNames_perm l).mem_iff

theorem nameLe_trans {α : Type} {a b c : Text × α} (h1 : nameLe a b = true) (h2 : nameLe b c = true) : nameLe a c = true := by
  rw [nameLe_iff] at *
  exact not_lt.mpr (le_trans (not_lt.mp h1) (not_lt.mp h2))

theorem insertName_sorted {α : Type} (a : Text × α) (l : List (Text × α)) (h : l.Pairwise fun a b => nameLe a b = true) :
    (insertName a l).Pairwise fun a b => nameLe a b = true := by
  induction l with
  | nil => simp [insertName]
  | cons b l ih =>
    rw [insertName]
    rw [List.pairwise_cons] at h
    split
    · rename_i hab
      refine List.pairwise_cons.mpr ⟨?_, List.pairwise_cons.mpr h⟩
      intro x hx
      rcases List.mem_cons.mp hx with rfl | hx
      · exact hab
      · exact nameLe_trans hab (h.1 x hx)
    · rename_i hab
      refine List.pairwise_cons.mpr ⟨?_, ih h.2⟩
      intro x hx
      rcases List.mem_cons.mp ((insertName_perm a l).mem_iff.mp hx) with rfl | hx
      · rw [nameLe_iff] at hab ⊢
        exact not_lt.mpr (le_of_lt (not_not.mp hab))
      · exact h.1 x hx

theorem sortNames_sorted {α : Type} (l : List (Text × α)) : (sortNames l).Pairwise fun a b => nameLe a b = true := by
  induction l with
  | nil => exact List.Pairwise.nil
  | cons a l ih => exact insertName_sorted a _ ih

theorem insert_map {α β : Type} (f : α → β) (l : List (Text × α)) :
    sortNames (l.map fun e => (e.1, f e.2)) = (sortNames l).map fun e => (e.1, f e.2) := by
  have hi : ∀ (a : Text × α) (l : List (Text × α)), insertName (a.1, f a.2) (l.map fun e => (e.1, f e.2)) = (insertName a l).map fun e => (e.1, f e.2) := by
    intro a l
    induction l with
    | nil => rfl
    | cons b l ih =>
      rw [List.map_cons, insertName, insertName, ih]
      have : nameLe (a.1, f a.2) (b.1, f b.2) = nameLe a b := rfl
      rw [this]
      split <;> rfl
  induction l with
  | nil => rfl
  | cons a l ih => rw [List.map_cons, sortNames, sortNames, ih, hi]

/-- A walk visits the places below, each under the name of the directory and the names on the way. -/
theorem walk_places (n : Node) : ∀ path, n.walk path = (n.places.1.map fun q => (q.1.foldl join path, q.2), n.places.2) := by
  induction n using node_induction with
  | file c => intro path; simp [Node.walk, Node.places]
  | locked => intro path; simp [Node.walk, Node.places]
  | dir es ih =>
    intro path
    rw [Node.walk, Node.places, walkEntries_eq, placesEntries_eq]
    have e : (es.map fun e => (e.1, e.2.walk (join path e.1))) = (es.map fun e => (e.1, (e.2.places.1.map fun q => (e.1 :: q.1, q.2), e.2.places.2))).map
        fun e => (e.1, (e.2.1.map fun q => (q.1.foldl join path, q.2), e.2.2)) := by
      rw [List.map_map]
      refine List.map_congr_left fun e he => ?_
      simp only [Function.comp, ih e he, List.map_map]
      rfl
    rw [e, insert_map (fun w : List (List Text × Bool) × Bool => (w.1.map fun q => (q.1.foldl join path, q.2), w.2)), List.map_map]
    generalize sortNames (es.map fun e => (e.1, (e.2.places.1.map fun q => (e.1 :: q.1, q.2), e.2.places.2))) = l
    have := joinWalks_map (fun q : List Text × Bool => (q.1.foldl join path, q.2)) (l.map (·.2))
    rw [List.map_map] at this
    simp only [Function.comp_def] at this ⊢
    rw [this]
    simp

theorem lookup_of_mem {es : List (Text × Node)} (h : (es.map (·.1)).Nodup) {e : Text × Node} (he : e ∈ es) : es.lookup e.1 = some e.2 := by
  induction es with
  | nil => cases he
  | cons x es ih =>
    rw [List.map_cons, List.nodup_cons] at h
    rw [List.lookup_cons]
    rcases List.mem_cons.mp he with rfl | he
    · simp
    · have : e.1 ≠ x.1 := fun hc => h.1 (by rw [← hc]; exact List.mem_map_of_mem he)
      rw [beq_false_of_ne this]
      exact ih h.2 he

theorem mem_of_lookup_node {es : List (Text × Node)} {n : Text} {m : Node} (h : es.lookup n = some m) : (n, m) ∈ es := by
  induction es with
  | nil => simp at h
  | cons x es ih =>
    rw [List.lookup_cons] at h
    split at h
    · rename_i hb
      obtain ⟨a, b⟩ := x
      simp only [beq_iff_eq] at hb
      simp only [Option.some.injEq] at h
      simp [hb, h]
    · exact List.mem_cons_of_mem _ (ih h)

theorem WellNamed.child {es : List (Text × Node)} (h : WellNamed (.dir es)) {e : Text × Node} (he : e ∈ es) : WellNamed e.2 := by
  intro p es' hp
  have h0 := h [] es rfl
  refine h (e.1 :: p) es' ?_
  rw [Node.at, lookup_of_mem h0.1 he]
  exact hp

/-- A walk fails where there is a locked directory. -/
theorem places_ok (n : Node) : WellNamed n → (n.places.2 = false ↔ ∃ q, n.at q = some .locked) := by
  induction n using node_induction with
  | file c =>
    intro _
    simp only [Node.places, Bool.true_eq_false, false_iff]
    rintro ⟨q, hq⟩
    cases q <;> simp [Node.at] at hq
  | locked =>
    intro _
    simp only [Node.places, true_iff]
    exact ⟨[], rfl⟩
  | dir es ih =>
    intro hw
    have h0 := hw [] es rfl
    rw [Node.places]
    simp only [joinWalks_ok]
    rw [placesEntries_eq, Bool.eq_false_iff, ne_eq, List.all_eq_true]
    push_neg
    constructor
    · rintro ⟨w, hw', hf⟩
      obtain ⟨x, hx, rfl⟩ := List.mem_map.mp hw'
      rw [mem_sortNames] at hx
      obtain ⟨e, he, rfl⟩ := List.mem_map.mp hx
      obtain ⟨q, hq⟩ := (ih e he (hw.child he)).mp (by simpa using hf)
      exact ⟨e.1 :: q, by rw [Node.at, lookup_of_mem h0.1 he]; exact hq⟩
    · rintro ⟨q, hq⟩
      cases q with
      | nil => simp [Node.at] at hq
      | cons c q =>
        rw [Node.at] at hq
        cases hl : es.lookup c with
        | none => rw [hl] at hq; cases hq
        | some m =>
          rw [hl] at hq
          have he := mem_of_lookup_node hl
          have := (ih _ he (hw.child he)).mpr ⟨q, hq⟩
          refine ⟨_, List.mem_map_of_mem (mem_sortNames.mpr (List.mem_map_of_mem he)), ?_⟩
          simpa using this

/-- A walk without errors visits everything. -/
theorem mem_places (n : Node) : WellNamed n → n.places.2 = true → ∀ q b, (q, b) ∈ n.places.1 ↔ ∃ m, n.at q = some m ∧ m.isDirNode = b := by
  induction n using node_induction with
  | file c =>
    intro _ _ q b
    rw [Node.places]
    cases q with
    | nil => simp [Node.at, Node.isDirNode, eq_comm]
    | cons c q => simp [Node.at]
  | locked => intro _ h; cases h
  | dir es ih =>
    intro hw hok q b
    have h0 := hw [] es rfl
    have hok' := hok
    rw [Node.places] at hok ⊢
    simp only at hok ⊢
    rw [joinWalks_flatten _ hok]
    rw [joinWalks_ok, List.all_eq_true, placesEntries_eq] at hok
    have hall : ∀ e ∈ es, e.2.places.2 = true := by
      intro e he
      exact hok (e.2.places.1.map fun q => (e.1 :: q.1, q.2), e.2.places.2)
        (List.mem_map.mpr ⟨_, mem_sortNames.mpr (List.mem_map_of_mem he), rfl⟩)
    rw [List.mem_cons, List.mem_flatten, placesEntries_eq]
    constructor
    · rintro (h | ⟨l, hl, hq⟩)
      · cases h; exact ⟨.dir es, rfl, rfl⟩
      · obtain ⟨w, hw', rfl⟩ := List.mem_map.mp hl
        obtain ⟨x, hx, rfl⟩ := List.mem_map.mp hw'
        obtain ⟨e, he, rfl⟩ := List.mem_map.mp (mem_sortNames.mp hx)
        obtain ⟨⟨q', b'⟩, hq', hh⟩ := List.mem_map.mp hq
        cases hh
        obtain ⟨m, hm, hb⟩ := (ih e he (hw.child he) (hall e he) q' _).mp hq'
        exact ⟨m, by rw [Node.at, lookup_of_mem h0.1 he]; exact hm, hb⟩
    · rintro ⟨m, hm, hb⟩
      cases q with
      | nil =>
        simp only [Node.at, Option.some.injEq] at hm
        subst hm
        left
        rw [← hb]; rfl
      | cons c q =>
        right
        rw [Node.at] at hm
        cases hl : es.lookup c with
        | none => rw [hl] at hm; cases hm
        | some m' =>
          rw [hl] at hm
          have he := mem_of_lookup_node hl
          have := (ih _ he (hw.child he) (hall _ he) q b).mpr ⟨m, hm, hb⟩
          exact ⟨_, List.mem_map_of_mem (List.mem_map_of_mem (mem_sortNames.mpr (List.mem_map_of_mem he))),
            List.mem_map.mpr ⟨(q, b), this, rfl⟩⟩

/-- A walk goes in the order of names. -/
theorem places_sorted (n : Node) : WellNamed n → (n.places.1.map (·.1)).Pairwise (· < ·) := by
  induction n using node_induction with
  | file c => intro _; simp [Node.places]
  | locked => intro _; simp [Node.places]
  | dir es ih =>
    intro hw
    have h0 := hw [] es rfl
    rw [Node.places, List.map_cons, List.pairwise_cons, placesEntries_eq]
    generalize hl : sortNames (es.map fun e => (e.1, (e.2.places.1.map fun q => (e.1 :: q.1, q.2), e.2.places.2))) = l
    have hmem : ∀ x ∈ l, ∃ e ∈ es, x = (e.1, (e.2.places.1.map fun q => (e.1 :: q.1, q.2), e.2.places.2)) := by
      intro x hx
      rw [← hl, mem_sortNames, List.mem_map] at hx
      obtain ⟨e, he, h⟩ := hx
      exact ⟨e, he, h.symm⟩
    have hpre := joinWalks_prefix (l.map (·.2))
    have hflat : ∀ q ∈ ((l.map (·.2)).map (·.1)).flatten, ∃ c r, q.1 = c :: r := by
      intro q hq
      obtain ⟨w, hw', hq⟩ := List.mem_flatten.mp hq
      obtain ⟨y, hy, rfl⟩ := List.mem_map.mp hw'
      obtain ⟨x, hx, rfl⟩ := List.mem_map.mp hy
      obtain ⟨e, he, rfl⟩ := hmem x hx
      obtain ⟨r, hr, rfl⟩ := List.mem_map.mp hq
      exact ⟨_, _, rfl⟩
    have hpair : ((((l.map (·.2)).map (·.1)).flatten).map (·.1)).Pairwise (· < ·) := by
      rw [List.map_flatten, List.pairwise_flatten]
      constructor
      · intro y hy
        simp only [List.map_map, List.mem_map] at hy
        obtain ⟨x, hx, rfl⟩ := hy
        obtain ⟨e, he, rfl⟩ := hmem x hx
        have := ih e he (hw.child he)
        simp only [Function.comp_def, List.map_map]
        rw [List.pairwise_map] at this ⊢
        exact this.imp fun h => List.cons_lt_cons_iff.mpr (.inr ⟨rfl, h⟩)
      · have hs : l.Pairwise fun a b => nameLe a b = true := by
          rw [← hl]
          exact sortNames_sorted _
        have hn : (l.map (·.1)).Nodup := by
          have hp : l.Perm (es.map fun e => (e.1, (e.2.places.1.map fun q => (e.1 :: q.1, q.2), e.2.places.2))) := by
            rw [← hl]; exact sortNames_perm _
          rw [(hp.map (·.1)).nodup_iff, List.map_map]
          exact h0.1
        rw [List.map_map, List.map_map, List.pairwise_map]
        rw [List.Nodup, List.pairwise_map] at hn
        refine (hs.and hn).imp_of_mem ?_
        rintro x y hx hy ⟨hle, hne⟩ p hp q hq
        obtain ⟨e, he, rfl⟩ := hmem x hx
        obtain ⟨e', he', rfl⟩ := hmem y hy
        simp only [Function.comp_def, List.map_map, List.mem_map] at hp hq
        obtain ⟨p', -, rfl⟩ := hp
        obtain ⟨q', -, rfl⟩ := hq
        rw [nameLe_iff] at hle
        exact List.cons_lt_cons_iff.mpr (.inl (lt_of_le_of_ne (not_lt.mp hle) hne))
    constructor
    · intro p hp
      obtain ⟨q, hq, rfl⟩ := List.mem_map.mp hp
      obtain ⟨c, r, e⟩ := hflat q (hpre.subset hq)
      rw [e]
      exact List.nil_lt_cons _ _
    · exact hpair.sublist (hpre.sublist.map _)

theorem wellNamed_file (c : Text) : WellNamed (.file c) := by
  intro p es h
  cases p <;> simp [Node.at] at h

theorem wellNamed_locked : WellNamed .locked := by
  intro p es h
  cases p <;> simp [Node.at] at h

theorem wellNamed_dir {es : List (Text × Node)} (h1 : (es.map (·.1)).Nodup) (h2 : ∀ e ∈ es, Name e.1) (h3 : ∀ e ∈ es, WellNamed e.2) :
    WellNamed (.dir es) := by
  intro p es' h
  cases p with
  | nil =>
    simp only [Node.at, Option.some.injEq, Node.dir.injEq] at h
    subst h
    exact ⟨h1, h2⟩
  | cons c p =>
    rw [Node.at] at h
    cases hl : es.lookup c with
    | none => rw [hl] at h; cases h
    | some m =>
      rw [hl] at h
      exact h3 _ (mem_of_lookup_node hl) p es' h

theorem mem_setEntry {n : Text} {v : Node} {es : List (Text × Node)} {e : Text × Node} (h : e ∈ setEntry n v es) : e = (n, v) ∨ e ∈ es := by
  induction es with
  | nil => simpa [setEntry] using h
  | cons x es ih =>
    rw [setEntry] at h
    split at h
    · rcases List.mem_cons.mp h with h | h
      · exact .inl h
      · exact .inr (List.mem_cons_of_mem _ h)
    · rcases List.mem_cons.mp h with h | h
      · exact .inr (by simp [h])
      · exact (ih h).imp id (List.mem_cons_of_mem _)

theorem nodup_setEntry (n : Text) (v : Node) {es : List (Text × Node)} (h : (es.map (·.1)).Nodup) : ((setEntry n v es).map (·.1)).Nodup := by
  induction es with
  | nil => simp [setEntry]
  | cons x es ih =>
    rw [List.map_cons, List.nodup_cons] at h
    rw [setEntry]
    split
    · rename_i hx
      rw [List.map_cons, List.nodup_cons]
      exact ⟨by rw [← hx]; exact h.1, h.2⟩
    · rename_i hx
      rw [List.map_cons, List.nodup_cons]
      refine ⟨?_, ih h.2⟩
      intro hc
      obtain ⟨e, he, hh⟩ := List.mem_map.mp hc
      rcases mem_setEntry he with rfl | he
      · exact hx hh.symm
      · exact h.1 (by rw [← hh]; exact List.mem_map_of_mem he)

theorem wellNamed_setEntry {es : List (Text × Node)} (h : WellNamed (.dir es)) {n : Text} (hn : Name n) {v : Node} (hv : WellNamed v) :
    WellNamed (.dir (setEntry n v es)) := by
  have h0 := h [] es rfl
  refine wellNamed_dir (nodup_setEntry n v h0.1) ?_ ?_
  · intro e he
    rcases mem_setEntry he with rfl | he
    · exact hn
    · exact h0.2 e he
  · intro e he
    rcases mem_setEntry he with rfl | he
    · exact hv
    · exact h.child he

theorem put_dir (es : List (Text × Node)) (v : Node) (c : Text) (p : List Text) :
    (Node.dir es).put v (c :: p) = match p with
      | [] => some (.dir (setEntry c v es))
      | _ :: _ =>
        match es.lookup c with
        | none => none
        | some m => (m.put v p).map fun m' => .dir (setEntry c m' es) := by
  cases p with
  | nil => simp only [Node.put]
  | cons x p =>
    simp only [Node.put]
    cases es.lookup c <;> rfl

theorem wellNamed_put {v : Node} (hv : WellNamed v) {n n' : Node} {p : List Text} (h : WellNamed n) (hp : ∀ x ∈ p, Name x) (he : n.put v p = some n') :
    WellNamed n' := by
  induction p generalizing n n' with
  | nil => cases n <;> simp [Node.put] at he
  | cons c p ih =>
    cases n with
    | file => simp [Node.put] at he
    | locked => simp [Node.put] at he
    | dir es =>
      rw [put_dir] at he
      cases p with
      | nil =>
        simp only [Option.some.injEq] at he
        subst he
        exact wellNamed_setEntry h (hp c (by simp)) hv
      | cons c' p =>
        simp only at he
        cases hl : es.lookup c with
        | none => rw [hl] at he; cases he
        | some m =>
          rw [hl] at he
          obtain ⟨m', hm', rfl⟩ := Option.map_eq_some_iff.mp he
          exact wellNamed_setEntry h (hp c (by simp)) (ih (h.child (mem_of_lookup_node hl)) (fun x hx => hp x (by simp [hx])) hm')

theorem wellNamed_mkdirs {n n' : Node} {p : List Text} (h : WellNamed n) (hp : ∀ x ∈ p, Name x) (he : n.mkdirs p = some n') : WellNamed n' := by
  induction p generalizing n n' with
  | nil =>
    cases n with
    | file => simp [Node.mkdirs] at he
    | locked => simp [Node.mkdirs] at he; rw [← he]; exact h
    | dir es => simp [Node.mkdirs] at he; rw [← he]; exact h
  | cons c p ih =>
    cases n with
    | file => simp [Node.mkdirs] at he
    | locked => simp [Node.mkdirs] at he
    | dir es =>
      rw [Node.mkdirs] at he
      obtain ⟨m', hm', rfl⟩ := Option.map_eq_some_iff.mp he
      refine wellNamed_setEntry h (hp c (by simp)) (ih ?_ (fun x hx => hp x (by simp [hx])) hm')
      cases hl : es.lookup c with
      | none => exact wellNamed_dir (by simp) (by simp) (by simp)
      | some m => exact h.child (mem_of_lookup_node hl)

theorem lookup_filter_ne (es : List (Text × Node)) (c k : Text) :
    (es.filter fun e => decide (e.1 ≠ c)).lookup k = if k = c then none else es.lookup k := by
  induction es with
  | nil => simp
  | cons e es ih =>
    rw [List.filter_cons]
    by_cases he : e.1 = c
    · rw [if_neg (by simp [he]), ih, List.lookup_cons]
      by_cases hk : k = c
      · simp [hk]
      · rw [if_neg hk, if_neg hk, he, beq_false_of_ne hk]
    · rw [if_pos (by simp [he]), List.lookup_cons, List.lookup_cons, ih]
      by_cases hk : k = e.1
      · subst hk; simp [he]
      · simp [beq_false_of_ne hk]

theorem wellNamed_cut {n n' : Node} {p : List Text} (h : WellNamed n) (he : n.cut p = some n') : WellNamed n' := by
  induction p generalizing n n' with
  | nil => cases n <;> simp [Node.cut] at he
  | cons c p ih =>
    cases n with
    | file => simp [Node.cut] at he
    | locked => simp [Node.cut] at he
    | dir es =>
      have h0 := h [] es rfl
      rw [Node.cut] at he
      cases hl : es.lookup c with
      | none => rw [hl] at he; cases he
      | some m =>
        rw [hl] at he
        cases p with
        | nil =>
          simp only [Option.some.injEq] at he
          subst he
          exact wellNamed_dir (h0.1.sublist (List.filter_sublist.map _)) (fun e he => h0.2 e (List.mem_of_mem_filter he))
            fun e he => h.child (List.mem_of_mem_filter he)
        | cons c' p =>
          simp only at he
          obtain ⟨m', hm', rfl⟩ := Option.map_eq_some_iff.mp he
          have hm := mem_of_lookup_node hl
          exact wellNamed_setEntry h (h0.2 _ hm) (ih (h.child hm) hm')

/-- A file is put where it is put, and nowhere else. -/
theorem at_put {c : Text} {n n' : Node} {p : List Text} (he : n.put (.file c) p = some n') (hnd : ∀ es, n.at p ≠ some (.dir es)) (q : List Text)
    (d : Text) : n'.at q = some (.file d) ↔ if q = p then d = c else n.at q = some (.file d) := by
  induction p generalizing n n' q with
  | nil => cases n <;> simp [Node.put] at he
  | cons x p ih =>
    cases n with
    | file => simp [Node.put] at he
    | locked => simp [Node.put] at he
    | dir es =>
      rw [put_dir] at he
      rw [Node.at] at hnd
      cases p with
      | nil =>
        simp only [Option.some.injEq] at he
        subst he
        cases q with
        | nil => simp [Node.at]
        | cons y q =>
          rw [Node.at, lookup_setEntry]
          by_cases hy : y = x
          · subst hy
            rw [if_pos rfl]
            cases q with
            | nil => simp [Node.at, eq_comm]
            | cons z q =>
              simp only [Node.at, reduceCtorEq, List.cons.injEq, true_and, if_false, false_iff]
              cases hl : es.lookup y with
              | none => simp
              | some m =>
                rw [hl] at hnd
                cases m with
                | dir es' => exact absurd rfl (hnd es')
                | file => simp [Node.at]
                | locked => simp [Node.at]
          · rw [if_neg hy, if_neg (by simp [hy]), Node.at]
      | cons x' p =>
        simp only at he
        cases hl : es.lookup x with
        | none => rw [hl] at he; cases he
        | some m =>
          rw [hl] at he hnd
          obtain ⟨m', hm', rfl⟩ := Option.map_eq_some_iff.mp he
          cases q with
          | nil => simp [Node.at]
          | cons y q =>
            rw [Node.at, lookup_setEntry, Node.at]
            by_cases hy : y = x
            · subst hy
              rw [if_pos rfl, hl]
              simp only [List.cons.injEq, true_and]
              exact ih hm' hnd q
            · rw [if_neg hy, if_neg (by simp [hy])]

/-- A file that is removed is not there, and all others are. -/
theorem at_cut {n n' : Node} {p : List Text} (he : n.cut p = some n') {c : Text} (hf : n.at p = some (.file c)) (q : List Text) (d : Text) :
    n'.at q = some (.file d) ↔ q ≠ p ∧ n.at q = some (.file d) := by
  induction p generalizing n n' q with
  | nil => cases n <;> simp [Node.cut] at he
  | cons x p ih =>
    cases n with
    | file => simp [Node.cut] at he
    | locked => simp [Node.cut] at he
    | dir es =>
      rw [Node.cut] at he
      rw [Node.at] at hf
      cases hl : es.lookup x with
      | none => rw [hl] at he; cases he
      | some m =>
        rw [hl] at he hf
        cases p with
        | nil =>
          simp only [Option.some.injEq] at he
          subst he
          simp only [Node.at, Option.some.injEq] at hf
          subst hf
          cases q with
          | nil => simp [Node.at]
          | cons y q =>
            rw [Node.at, lookup_filter_ne, Node.at]
            by_cases hy : y = x
            · subst hy
              rw [if_pos rfl, hl]
              cases q with
              | nil => simp
              | cons z q => simp [Node.at]
            · rw [if_neg hy]
              simp [hy]
        | cons x' p =>
          simp only at he
          obtain ⟨m', hm', rfl⟩ := Option.map_eq_some_iff.mp he
          cases q with
          | nil => simp [Node.at]
          | cons y q =>
            rw [Node.at, lookup_setEntry, Node.at]
            by_cases hy : y = x
            · subst hy
              rw [if_pos rfl, hl]
              simp only [ne_eq, List.cons.injEq, true_and]
              exact ih hm' hf q
            · rw [if_neg hy]
              simp [hy]

/-- Making directories changes no file. -/
theorem at_mkdirs {n n' : Node} {p : List Text} (he : n.mkdirs p = some n') (q : List Text) (d : Text) :
    n'.at q = some (.file d) ↔ n.at q = some (.file d) := by
  induction p generalizing n n' q with
  | nil =>
    cases n with
    | file => simp [Node.mkdirs] at he
    | locked => simp [Node.mkdirs] at he; rw [← he]
    | dir es => simp [Node.mkdirs] at he; rw [← he]
  | cons x p ih =>
    cases n with
    | file => simp [Node.mkdirs] at he
    | locked => simp [Node.mkdirs] at he
    | dir es =>
      rw [Node.mkdirs] at he
      obtain ⟨m', hm', rfl⟩ := Option.map_eq_some_iff.mp he
      cases q with
      | nil => simp [Node.at]
      | cons y q =>
        rw [Node.at, lookup_setEntry, Node.at]
        by_cases hy : y = x
        · subst hy
          rw [if_pos rfl]
          have := ih hm' q
          cases hl : es.lookup y with
          | none =>
            rw [hl] at this
            rw [this]
            simp only [reduceCtorEq, iff_false, Option.getD_none]
            cases q <;> simp [Node.at]
          | some m => rw [hl] at this; exact this
        · rw [if_neg hy]

theorem cut_of_file {n : Node} {p : List Text} (hp : p ≠ []) {c : Text} (h : n.at p = some (.file c)) : ∃ n', n.cut p = some n' := by
  induction p generalizing n with
  | nil => exact absurd rfl hp
  | cons x p ih =>
    cases n with
    | file => simp [Node.at] at h
    | locked => simp [Node.at] at h
    | dir es =>
      rw [Node.at] at h
      rw [Node.cut]
      cases hl : es.lookup x with
      | none => rw [hl] at h; cases h
      | some m =>
        rw [hl] at h
        cases p with
        | nil => exact ⟨_, rfl⟩
        | cons y p =>
          obtain ⟨m', hm'⟩ := ih (by simp) h
          exact ⟨.dir (setEntry x m' es), by simp [hm']⟩

theorem put_in_dir (v : Node) {n : Node} {p : List Text} {es : List (Text × Node)} (h : n.at p = some (.dir es)) (x : Text) :
    ∃ n', n.put v (p ++ [x]) = some n' := by
  induction p generalizing n with
  | nil =>
    simp only [Node.at, Option.some.injEq] at h
    subst h
    exact ⟨_, rfl⟩
  | cons y p ih =>
    cases n with
    | file => simp [Node.at] at h
    | locked => simp [Node.at] at h
    | dir es =>
      rw [Node.at] at h
      cases hl : es.lookup y with
      | none => rw [hl] at h; cases h
      | some m =>
        rw [hl] at h
        obtain ⟨m', hm'⟩ := ih h
        refine ⟨.dir (setEntry y m' es), ?_⟩
        rw [List.cons_append, put_dir]
        cases hp : p ++ [x] with
        | nil => simp at hp
        | cons z q => rw [hp] at hm'; simp [hl, hm']

/-- What is no file stays what it is when a file is put elsewhere. -/
theorem dir_put {c : Text} {n n' : Node} {p : List Text} (he : n.put (.file c) p = some n') (hnd : ∀ es, n.at p ≠ some (.dir es)) (q : List Text) :
    ((∃ es, n.at q = some (.dir es)) ↔ ∃ es, n'.at q = some (.dir es)) := by
  induction p generalizing n n' q with
  | nil => cases n <;> simp [Node.put] at he
  | cons x p ih =>
    cases n with
    | file => simp [Node.put] at he
    | locked => simp [Node.put] at he
    | dir es =>
      rw [put_dir] at he
      rw [Node.at] at hnd
      cases p with
      | nil =>
        simp only [Option.some.injEq] at he
        subst he
        cases q with
        | nil => simp [Node.at]
        | cons y q =>
          rw [Node.at, Node.at, lookup_setEntry]
          by_cases hy : y = x
          · subst hy
            rw [if_pos rfl]
            have h1 : ¬ ∃ es', (Node.file c).at q = some (.dir es') := by
              cases q <;> simp [Node.at]
            have h2 : ¬ ∃ es', (match es.lookup y with | none => none | some m => m.at q) = some (Node.dir es') := by
              cases hl : es.lookup y with
              | none => simp
              | some m =>
                rw [hl] at hnd
                cases m with
                | dir es' => exact absurd rfl (hnd es')
                | file => cases q <;> simp [Node.at]
                | locked => cases q <;> simp [Node.at]
            exact ⟨fun h => absurd h h2, fun h => absurd h h1⟩
          · rw [if_neg hy]
      | cons x' p =>
        simp only at he
        cases hl : es.lookup x with
        | none => rw [hl] at he; cases he
        | some m =>
          rw [hl] at he hnd
          obtain ⟨m', hm', rfl⟩ := Option.map_eq_some_iff.mp he
          cases q with
          | nil => simp [Node.at]
          | cons y q =>
            rw [Node.at, Node.at, lookup_setEntry]
            by_cases hy : y = x
            · subst hy
              rw [if_pos rfl, hl]
              exact ih hm' hnd q
            · rw [if_neg hy]

/-- See `dir_put`. -/
theorem locked_put {c : Text} {n n' : Node} {p : List Text} (he : n.put (.file c) p = some n') (hnd : ∀ es, n.at p ≠ some (.dir es))
    (hnl : n.at p ≠ some .locked) (q : List Text) : (n.at q = some .locked ↔ n'.at q = some .locked) := by
  induction p generalizing n n' q with
  | nil => cases n <;> simp [Node.put] at he
  | cons x p ih =>
    cases n with
    | file => simp [Node.put] at he
    | locked => simp [Node.put] at he
    | dir es =>
      rw [put_dir] at he
      rw [Node.at] at hnd hnl
      cases p with
      | nil =>
        simp only [Option.some.injEq] at he
        subst he
        cases q with
        | nil => simp [Node.at]
        | cons y q =>
          rw [Node.at, Node.at, lookup_setEntry]
          by_cases hy : y = x
          · subst hy
            rw [if_pos rfl]
            have h1 : (Node.file c).at q ≠ some .locked := by
              cases q <;> simp [Node.at]
            have h2 : (match es.lookup y with | none => none | some m => m.at q) ≠ some Node.locked := by
              cases hl : es.lookup y with
              | none => simp
              | some m =>
                rw [hl] at hnd hnl
                cases m with
                | dir es' => exact absurd rfl (hnd es')
                | file => cases q <;> simp [Node.at]
                | locked => exact absurd rfl hnl
            exact ⟨fun h => absurd h h2, fun h => absurd h h1⟩
          · rw [if_neg hy]
      | cons x' p =>
        simp only at he
        cases hl : es.lookup x with
        | none => rw [hl] at he; cases he
        | some m =>
          rw [hl] at he hnd hnl
          obtain ⟨m', hm', rfl⟩ := Option.map_eq_some_iff.mp he
          cases q with
          | nil => simp [Node.at]
          | cons y q =>
            rw [Node.at, Node.at, lookup_setEntry]
            by_cases hy : y = x
            · subst hy
              rw [if_pos rfl, hl]
              exact ih hm' hnd hnl q
            · rw [if_neg hy]

/-- After making directories there is one. -/
theorem mkdirs_dir {n n' : Node} {p : List Text} (he : n.mkdirs p = some n') : (∃ es, n'.at p = some (.dir es)) ∨ n.at p = some .locked := by
  induction p generalizing n n' with
  | nil =>
    cases n with
    | file => simp [Node.mkdirs] at he
    | locked => exact .inr rfl
    | dir es => simp [Node.mkdirs] at he; rw [← he]; exact .inl ⟨es, rfl⟩
  | cons x p ih =>
    cases n with
    | file => simp [Node.mkdirs] at he
    | locked => simp [Node.mkdirs] at he
    | dir es =>
      rw [Node.mkdirs] at he
      obtain ⟨m', hm', rfl⟩ := Option.map_eq_some_iff.mp he
      rw [Node.at, Node.at, lookup_setEntry, if_pos rfl]
      have := ih hm'
      cases hl : es.lookup x with
      | none =>
        rw [hl] at this
        rcases this with h | h
        · exact .inl h
        · exfalso
          cases p <;> simp [Node.at] at h
      | some m => rw [hl] at this; exact this

end Verif.Files
