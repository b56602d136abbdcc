import Verif.Spec.Lookup
import Verif.Lemmas.Document
import Verif.Props.Xml

/-!
# Properties of finding elements by their ids (C122) and of comparing elements of SVG files (C123)
-/

set_option linter.unusedSectionVars false

namespace Verif.Dyn

universe u

variable {F : Type u}

/-! ## C122 -/

theorem trimAt_head (s : Text) : (trimAt s).head? ≠ some '@' ∧ (trimAt s).getLast? ≠ some '@' := by
  unfold trimAt
  have hd : ∀ t : Text, (t.dropWhile fun c => decide (c = '@')).head? ≠ some '@' := by
    intro t h
    induction t with
    | nil => simp at h
    | cons c t ih =>
      rw [List.dropWhile_cons] at h
      split at h
      · exact ih h
      · simp_all
  refine ⟨?_, ?_⟩
  · rw [List.head?_reverse]
    intro h
    obtain ⟨pre, e⟩ : (((s.dropWhile fun c => decide (c = '@')).reverse.dropWhile fun c => decide (c = '@'))) <:+
        (s.dropWhile fun c => decide (c = '@')).reverse := List.dropWhile_suffix _
    have hne : ((s.dropWhile fun c => decide (c = '@')).reverse.dropWhile fun c => decide (c = '@')) ≠ [] := by
      intro hn; rw [hn] at h; simp at h
    have : (s.dropWhile fun c => decide (c = '@')).reverse.getLast? = some '@' := by
      rw [← e, List.getLast?_append_of_ne_nil _ hne, h]
    rw [List.getLast?_reverse] at this
    exact hd s this
  · rw [List.getLast?_reverse]
    exact hd _

theorem dropWhile_bald {t : Text} (h : t.head? ≠ some '@') : t.dropWhile (fun c => decide (c = '@')) = t := by
  cases t with
  | nil => rfl
  | cons c t =>
    rw [List.dropWhile_cons, if_neg]
    simpa using h

theorem trimAt_bald {id : Text} (h : Bald id) : trimAt id = id := by
  unfold trimAt
  rw [dropWhile_bald h.1, dropWhile_bald (by rw [List.head?_reverse]; exact h.2), List.reverse_reverse]

theorem lookup_folded (l : List (Node F)) (acc : List (Text × DMap F)) (t : Text) :
    (l.foldl (fun a x => assign x.id x.map a) acc).lookup t = ((l.reverse.find? fun x => decide (x.id = t)).map Node.map).or (acc.lookup t) := by
  induction l generalizing acc with
  | nil => simp
  | cons c l ih =>
    rw [List.foldl_cons, ih, lookup_assign, List.reverse_cons, List.find?_append]
    cases h : l.reverse.find? fun x => decide (x.id = t) with
    | some x => simp
    | none =>
      by_cases hc : c.id = t
      · simp [hc]
      · rw [if_neg (Ne.symm hc)]
        simp [hc]

theorem findElement_eq (d : Doc F) (id : Text) :
    d.findElement id = ((Node.alls d.parts).reverse.find? fun x => decide (x.id = trimAt id)).map Node.map := by
  unfold Doc.findElement Doc.elements
  rw [populates_eq, lookup_folded]
  simp

/-- **C122.** What is found is a component of the document with this id. -/
theorem C122_sound (d : Doc F) (id : Text) (m : DMap F) (h : d.findElement id = some m) : ∃ n ∈ Node.alls d.parts, n.id = trimAt id ∧ n.map = m := by
  rw [findElement_eq, Option.map_eq_some_iff] at h
  obtain ⟨n, hn, rfl⟩ := h
  refine ⟨n, ?_, by simpa using List.find?_some hn, rfl⟩
  simpa using List.mem_of_find?_eq_some hn

/-- **C122.** Something is found exactly if a component, however deep inside, has the id. -/
theorem C122_found (d : Doc F) (id : Text) (hb : Bald id) : (∃ m, d.findElement id = some m) ↔ ∃ n ∈ Node.alls d.parts, n.id = id := by
  constructor
  · rintro ⟨m, h⟩
    obtain ⟨n, h1, h2, _⟩ := C122_sound d id m h
    exact ⟨n, h1, by rw [h2, trimAt_bald hb]⟩
  · rintro ⟨n, h1, h2⟩
    rw [findElement_eq, trimAt_bald hb]
    cases h : (Node.alls d.parts).reverse.find? fun x => decide (x.id = id) with
    | some x => exact ⟨x.map, rfl⟩
    | none =>
      rw [List.find?_eq_none] at h
      exact absurd h2 (by simpa using h n (by simpa using h1))

/-- **C122.** Signs `@` around the id make no difference. -/
theorem C122_signs (d : Doc F) (id : Text) (hb : Bald id) (i j : Nat) :
    d.findElement (List.replicate i '@' ++ id ++ List.replicate j '@') = d.findElement id ∧
      d.findPart (List.replicate i '@' ++ id ++ List.replicate j '@') = d.findPart id := by
  have dw : ∀ (k : Nat) (t : Text), (List.replicate k '@' ++ t).dropWhile (fun c => decide (c = '@')) = t.dropWhile fun c => decide (c = '@') := by
    intro k t
    induction k with
    | zero => rfl
    | succ k ih => rw [List.replicate_succ, List.cons_append, List.dropWhile_cons, if_pos (by decide), ih]
  have e : trimAt (List.replicate i '@' ++ id ++ List.replicate j '@') = trimAt id := by
    unfold trimAt
    rw [List.append_assoc, dw]
    cases id with
    | nil =>
      have := dw j []
      rw [List.append_nil] at this
      rw [List.nil_append, this]
    | cons c t =>
      rw [List.cons_append, List.dropWhile_cons, if_neg (by simpa using hb.1), List.dropWhile_cons, if_neg (by simpa using hb.1), ← List.cons_append,
        List.reverse_append, List.reverse_replicate, dw]
  unfold Doc.findElement Doc.findPart
  rw [e]
  exact ⟨rfl, rfl⟩

/-- **C122.** If no two components have the same id, each is found under its own id. -/
theorem C122_unique (d : Doc F) (hu : ((Node.alls d.parts).map Node.id).Nodup) (n : Node F) (hn : n ∈ Node.alls d.parts) (hb : Bald n.id) :
    d.findElement n.id = some n.map := by
  obtain ⟨m, hm⟩ := (C122_found d n.id hb).2 ⟨n, hn, rfl⟩
  obtain ⟨n', h1, h2, h3⟩ := C122_sound d n.id m hm
  rw [trimAt_bald hb] at h2
  rw [hm, ← h3, List.inj_on_of_nodup_map hu h1 hn h2]

/-- **C122.** The same for parts. -/
theorem C122_part (d : Doc F) (hu : (d.parts.map Node.id).Nodup) (n : Node F) (hn : n ∈ d.parts) (hb : Bald n.id) : d.findPart n.id = some n := by
  unfold Doc.findPart
  rw [trimAt_bald hb]
  cases h : d.parts.find? fun p => decide (p.id = n.id) with
  | none =>
    rw [List.find?_eq_none] at h
    simpa using h n hn
  | some x =>
    have h1 := List.mem_of_find?_eq_some h
    have h2 : x.id = n.id := by simpa using List.find?_some h
    rw [List.inj_on_of_nodup_map hu h1 hn h2]

/-- **C122.** From every component of a document the same elements are found as from the document, and nothing panics. -/
theorem C122_climb (d : Doc F) (p : Place F) (h : p.Below d) (id : Text) :
    p.find id = match d.findElement id with | some m => .ok m | none => .err := by
  induction h with
  | top => rfl
  | down n _ ih => rw [Place.find]; exact ih

/-- **C122.** An element that is not a component is found under exactly its own id, with its signs; and looking from a component without a parent panics, however far up
that component is. -/
theorem C122_other (i id : Text) (m : DMap F) (ns : List (Node F)) (n : Node F) :
    (∀ m', (Place.other i m).find id = .ok m' ↔ id = i ∧ m' = m) ∧ ((Place.other i m).find id = .err ↔ id ≠ i) ∧
      (ns.foldr Place.component (.loose n)).find id = .panic := by
  refine ⟨fun m' => ?_, ?_, ?_⟩
  · rw [Place.find]
    split
    · next h => simp [h, eq_comm]
    · next h => simp [Ne.symm h]
  · rw [Place.find]
    split
    · next h => simp [h]
    · next h => simp [Ne.symm h]
  · induction ns with
    | nil => rfl
    | cons n' ns ih => rw [List.foldr_cons, Place.find]; exact ih

/-- **C122.** Of components with the same id the last one is the element with this id, but the first part is the part with this id. -/
theorem C122_same_false (d : Doc F) (i : Text) (hb : Bald i) (a b : DMap F) (hd : d.parts = [.mk i a [], .mk i b []]) :
    d.findElement i = some b ∧ d.findPart i = some (.mk i a []) := by
  constructor
  · rw [findElement_eq, hd, trimAt_bald hb]
    simp [Node.alls, Node.all, Node.id, Node.map]
  · unfold Doc.findPart
    rw [hd, trimAt_bald hb]
    simp [Node.id]

/-- **C122.** A component whose id begins or ends with `@` is never found. -/
theorem C122_sign_false (d : Doc F) (n : Node F) (hb : ¬Bald n.id) (id : Text) :
    (∀ m, d.findElement id = some m → ∃ n' ∈ Node.alls d.parts, n'.map = m ∧ n'.id ≠ n.id) ∧ ∀ p, d.findPart id = some p → p.id ≠ n.id := by
  have hne : trimAt id ≠ n.id := by
    intro e
    exact hb (e ▸ trimAt_head id)
  constructor
  · intro m h
    obtain ⟨n', h1, h2, h3⟩ := C122_sound d id m h
    exact ⟨n', h1, h3, by rw [h2]; exact hne⟩
  · intro p h e
    have h2 : p.id = trimAt id := by simpa using List.find?_some h
    exact hne (by rw [← h2, e])

/-- C122 is about something: a part with a component inside, found by its id with a sign before it, from the document and from the component. -/
example : ∃ (d : Doc F) (n : Node F), ((Node.alls d.parts).map Node.id).Nodup ∧ n ∈ Node.alls d.parts ∧ n ∉ d.parts ∧ Bald n.id ∧
    d.findElement ['@', 'b'] = some n.map ∧ (Place.component n (.document d)).find ['@', 'b'] = .ok n.map ∧ d.findElement ['c'] = none ∧
      (Place.loose n).find ['b'] = .panic := by
  let n : Node F := .mk ['b'] [(['w'], .null)] []
  let d : Doc F := ⟨[], [], [], [], [], [.mk ['a'] [] [n]]⟩
  have hu : ((Node.alls d.parts).map Node.id).Nodup := by
    simp [d, n, Node.alls, Node.all, Node.id]
  have hn : n ∈ Node.alls d.parts := by
    simp [d, n, Node.alls, Node.all]
  have hb : Bald n.id := by
    constructor <;> simp [n, Node.id]
  have hf : d.findElement ['@', 'b'] = some n.map := by
    have := (C122_signs d ['b'] hb 1 0).1
    exact this.trans (C122_unique d hu n hn hb)
  refine ⟨d, n, hu, hn, by simp [d, n], hb, hf, ?_, ?_, rfl⟩
  · rw [C122_climb d _ (.down n .top), hf]
  · rw [findElement_eq]
    simp [d, n, Node.alls, Node.all, Node.id, trimAt]

end Verif.Dyn

namespace Verif.Xml

open Verif.Dyn

universe u

variable {F : Type u}

/-! ## C123 -/

theorem get_texts {as : DMap F} (h : ∀ a ∈ as, ∃ s, a.2 = Val.str s) (k : Text) : Dyn.get as k = as.lookup k := by
  unfold Dyn.get
  cases hl : as.lookup k with
  | some v => rfl
  | none =>
    simp only
    split
    · rfl
    · rename_i hk
      match hd : dots k, hk with
      | [], _ => rfl
      | [_], hk => simp at hk
      | a :: b :: ks, _ =>
        rw [getParts]
        cases ha : as.lookup a with
        | none => rfl
        | some v =>
          obtain ⟨s, hs⟩ := h (a, v) (lookup_mem ha)
          simp only at hs
          subst hs
          rfl
        simp

theorem sameText_iff {v : Val F} (hv : ∃ s, v = .str s) {o : Option (Val F)} : sameText v o = true ↔ o = some v := by
  obtain ⟨s, rfl⟩ := hv
  cases o with
  | none => simp [sameText]
  | some w => cases w <;> simp [sameText, eq_comm]

theorem attrs_same {as bs : DMap F} (ha : (as.map Prod.fst).Nodup) (hs : ∀ a ∈ as, ∃ s, a.2 = Val.str s) (hb : (bs.map Prod.fst).Nodup)
    (ht : ∀ a ∈ bs, ∃ s, a.2 = Val.str s) :
    (as.length = bs.length ∧ (as.all fun a => sameText a.2 (Dyn.get bs a.1)) = true) ↔ as.Perm bs := by
  constructor
  · rintro ⟨hl, h⟩
    refine (List.subperm_of_subset (List.Nodup.of_map _ ha) fun a h' => ?_).perm_of_length_le (by omega)
    rw [List.all_eq_true] at h
    have := h a h'
    rw [sameText_iff (hs a h'), get_texts ht] at this
    exact lookup_mem this
  · intro h
    refine ⟨h.length_eq, ?_⟩
    rw [List.all_eq_true]
    intro a h'
    rw [sameText_iff (hs a h'), get_texts ht]
    exact lookup_of_mem hb (h.subset h')

mutual

theorem compare_same : ∀ (e o : Element F), e.Proper → o.Proper → (e.compare o = true ↔ e.Same o)
  | .mk n as cs t, .mk n' as' cs' t', he, ho => by
    rw [Element.Proper] at he ho
    rw [Element.compare, Element.Same, ← attrs_same he.1 he.2.1 ho.1 ho.2.1, ← compareAll_same cs cs' he.2.2 ho.2.2]
    split
    · rename_i h
      constructor
      · intro h; cases h
      · rintro ⟨h1, h2, ⟨h3, _⟩, h4, _⟩
        rcases h with h | h | h | h <;> exact absurd ‹_› h
    · rename_i h
      simp only [not_or, not_not] at h
      rw [Bool.and_eq_true]
      tauto

theorem compareAll_same : ∀ (cs ds : List (Element F)), ProperAll cs → ProperAll ds → ((cs.length = ds.length ∧ compareAll cs ds = true) ↔ SameAll cs ds)
  | [], [], _, _ => by simp [compareAll, SameAll]
  | [], _ :: _, _, _ => by simp [SameAll]
  | _ :: _, [], _, _ => by simp [SameAll]
  | c :: cs, d :: ds, hc, hd => by
    rw [ProperAll] at hc hd
    rw [compareAll, SameAll, Bool.and_eq_true, compare_same c d hc.1 hd.1, ← compareAll_same cs ds hc.2 hd.2]
    simp only [List.length_cons, Nat.add_right_cancel_iff]
    tauto

end

mutual

theorem same_refl : ∀ e : Element F, e.Same e
  | .mk n as cs t => by rw [Element.Same]; exact ⟨rfl, rfl, .refl _, sameAll_refl cs⟩

theorem sameAll_refl : ∀ cs : List (Element F), SameAll cs cs
  | [] => trivial
  | c :: cs => by rw [SameAll]; exact ⟨same_refl c, sameAll_refl cs⟩

end

mutual

theorem same_symm : ∀ e o : Element F, e.Same o → o.Same e
  | .mk n as cs t, .mk n' as' cs' t', h => by
    rw [Element.Same] at h ⊢
    exact ⟨h.1.symm, h.2.1.symm, h.2.2.1.symm, sameAll_symm cs cs' h.2.2.2⟩

theorem sameAll_symm : ∀ cs ds : List (Element F), SameAll cs ds → SameAll ds cs
  | [], [], _ => trivial
  | [], _ :: _, h => by cases h
  | _ :: _, [], h => by cases h
  | c :: cs, d :: ds, h => by rw [SameAll] at h ⊢; exact ⟨same_symm c d h.1, sameAll_symm cs ds h.2⟩

end

mutual

theorem same_trans : ∀ e o q : Element F, e.Same o → o.Same q → e.Same q
  | .mk n as cs t, .mk n' as' cs' t', .mk n'' as'' cs'' t'', h, h' => by
    rw [Element.Same] at h h' ⊢
    exact ⟨h.1.trans h'.1, h.2.1.trans h'.2.1, h.2.2.1.trans h'.2.2.1, sameAll_trans cs cs' cs'' h.2.2.2 h'.2.2.2⟩

theorem sameAll_trans : ∀ cs ds es : List (Element F), SameAll cs ds → SameAll ds es → SameAll cs es
  | [], [], [], _, _ => trivial
  | [], [], _ :: _, _, h => by cases h
  | [], _ :: _, _, h, _ => by cases h
  | _ :: _, [], _, h, _ => by cases h
  | _ :: _, _ :: _, [], _, h => by cases h
  | c :: cs, d :: ds, e :: es, h, h' => by
    rw [SameAll] at h h' ⊢
    exact ⟨same_trans c d e h.1 h'.1, sameAll_trans cs ds es h.2 h'.2⟩

end

/-- **C123.** Two elements whose attributes are texts compare as equal exactly if they have the same name and text, the same attributes in any order, and the
same children in the same order, all the way down. -/
theorem C123_same (e o : Element F) (he : e.Proper) (ho : o.Proper) : e.compare o = true ↔ e.Same o := compare_same e o he ho

/-- **C123.** So the comparison is an equivalence. -/
theorem C123_equivalence (e o q : Element F) (he : e.Proper) (ho : o.Proper) (hq : q.Proper) :
    e.compare e = true ∧ e.compare o = o.compare e ∧ (e.compare o = true → o.compare q = true → e.compare q = true) := by
  refine ⟨(C123_same e e he he).2 (same_refl e), ?_, fun h h' => ?_⟩
  · rw [Bool.eq_iff_iff, C123_same e o he ho, C123_same o e ho he]
    exact ⟨same_symm e o, same_symm o e⟩
  · rw [C123_same _ _ he ho] at h
    rw [C123_same _ _ ho hq] at h'
    exact (C123_same _ _ he hq).2 (same_trans _ _ _ h h')

theorem put_proper {as : DMap F} (hn : (as.map Prod.fst).Nodup) (hs : ∀ a ∈ as, ∃ s, a.2 = Val.str s) (k s : Text) :
    ((putKey as k (.str s)).map Prod.fst).Nodup ∧ ∀ a ∈ putKey as k (.str s), ∃ s, a.2 = Val.str s := by
  unfold putKey
  have key : ∀ (m : DMap F), ∀ x ∈ (put k (.str s) m).map Prod.fst, x = k ∨ x ∈ m.map Prod.fst := by
    intro m
    induction m with
    | nil => simp [put]
    | cons e m ih =>
      intro x hx
      rw [put] at hx
      split at hx
      · rename_i h
        simp only [List.map_cons, List.mem_cons] at hx ⊢
        rcases hx with hx | hx
        · exact .inl hx
        · exact .inr (.inr hx)
      · simp only [List.map_cons, List.mem_cons] at hx ⊢
        rcases hx with hx | hx
        · exact .inr (.inl hx)
        · rcases ih x hx with h | h
          · exact .inl h
          · exact .inr (.inr h)
  induction as with
  | nil => simp [put]
  | cons e as ih =>
    simp only [List.map_cons, List.nodup_cons] at hn
    obtain ⟨i1, i2⟩ := ih hn.2 fun a h => hs a (.tail _ h)
    rw [put]
    split
    · rename_i h
      refine ⟨by simp only [List.map_cons, List.nodup_cons]; exact ⟨h ▸ hn.1, hn.2⟩, ?_⟩
      intro a ha
      rcases List.mem_cons.1 ha with ha | ha
      · exact ⟨s, by rw [ha]⟩
      · exact hs a (.tail _ ha)
    · rename_i h
      refine ⟨?_, ?_⟩
      · simp only [List.map_cons, List.nodup_cons]
        refine ⟨fun hx => ?_, i1⟩
        rcases key as _ hx with hx | hx
        · exact h hx
        · exact hn.1 hx
      · intro a ha
        rcases List.mem_cons.1 ha with ha | ha
        · exact hs a (by rw [ha]; exact .head _)
        · exact i2 a ha

theorem newElement_proper (n : Text) (attrs : List (Text × Text)) : (newElement n attrs : Element F).Proper := by
  rw [newElement, Element.Proper]
  have : ∀ (l : List (Text × Text)) (m : DMap F), (m.map Prod.fst).Nodup → (∀ a ∈ m, ∃ s, a.2 = Val.str s) →
      ((l.foldl (fun m a => putKey m a.1 (.str a.2)) m).map Prod.fst).Nodup ∧ ∀ a ∈ l.foldl (fun m a => putKey m a.1 (.str a.2)) m, ∃ s, a.2 = Val.str s := by
    intro l
    induction l with
    | nil => exact fun m h h' => ⟨h, h'⟩
    | cons a l ih =>
      intro m h h'
      rw [List.foldl_cons]
      obtain ⟨h1, h2⟩ := put_proper h h' a.1 a.2
      exact ih _ h1 h2
  obtain ⟨h1, h2⟩ := this attrs [] (by simp) (by simp)
  exact ⟨h1, h2, trivial⟩

theorem properAll_append {cs : List (Element F)} {c : Element F} (h : ProperAll cs) (hc : c.Proper) : ProperAll (cs ++ [c]) := by
  induction cs with
  | nil => exact ⟨hc, trivial⟩
  | cons d cs ih =>
    rw [ProperAll] at h
    rw [List.cons_append, ProperAll]
    exact ⟨h.1, ih h.2⟩

theorem decode_proper (fuel : Nat) : ∀ (e : Element F) (toks : List Tok) (o : Element F) (rest : List Tok), e.Proper → decode fuel e toks = some (.ok (o, rest)) →
    o.Proper := by
  induction fuel with
  | zero => intro e toks o rest _ h; simp [decode] at h
  | succ fuel ih =>
    intro e toks o rest he h
    obtain ⟨name, attributes, children, content⟩ := e
    have he' := he
    rw [Element.Proper] at he'
    cases toks with
    | nil =>
      simp only [decode, Option.some.injEq, Res.ok.injEq, Prod.mk.injEq] at h
      rw [← h.1]; exact he
    | cons t r =>
      cases t with
      | bad => simp [decode] at h
      | other => rw [decode] at h; exact ih _ _ _ _ he h
      | chars t =>
        rw [decode] at h
        exact ih _ _ _ _ (by rw [Element.Proper]; exact he') h
      | stop n =>
        rw [decode] at h
        split at h
        · simp only [Option.some.injEq, Res.ok.injEq, Prod.mk.injEq] at h
          rw [← h.1]; exact he
        · exact ih _ _ _ _ he h
      | start n as =>
        rw [decode] at h
        cases hd : decode fuel (newElement n as) r with
        | none => rw [hd] at h; cases h
        | some q =>
          rw [hd] at h
          cases q with
          | err => cases h
          | panic => cases h
          | ok q =>
            refine ih _ _ _ _ ?_ h
            rw [Element.Proper]
            exact ⟨he'.1, he'.2.1, properAll_append he'.2.2 (ih _ _ _ _ (newElement_proper n as) hd)⟩

/-- **C123.** What is decoded from a file has such attributes, whatever is in the file. -/
theorem C123_parsed (toks : List Tok) (e : Element F) (h : parse toks = .ok e) : e.Proper := by
  unfold parse at h
  cases hd : decodeFirst toks (F := F) with
  | err => rw [hd] at h; cases h
  | panic => rw [hd] at h; cases h
  | ok p =>
    obtain ⟨e0, rest⟩ := p
    rw [hd] at h
    have h0 : e0.Proper := by
      clear h
      induction toks with
      | nil =>
        simp only [decodeFirst, Res.ok.injEq, Prod.mk.injEq] at hd
        rw [← hd.1]
        exact ⟨List.nodup_nil, by simp, trivial⟩
      | cons t toks ih =>
        cases t with
        | bad => cases hd
        | start n as =>
          simp only [decodeFirst, Res.ok.injEq, Prod.mk.injEq] at hd
          rw [← hd.1]
          exact newElement_proper n as
        | chars t => exact ih hd
        | stop n => exact ih hd
        | other => exact ih hd
    simp only at h
    cases hq : decode (rest.length + 1) e0 rest with
    | none => rw [hq] at h; cases h
    | some q =>
      rw [hq] at h
      cases q with
      | err => cases h
      | panic => cases h
      | ok q =>
        simp only [Res.ok.injEq] at h
        rw [← h]
        exact decode_proper _ _ _ _ _ h0 hq

/-- **C123.** The order in which the attributes are written does not matter. -/
theorem C123_order (n t : Text) (as bs : List (Text × Text)) (cs : List (Element F)) (h : as.Perm bs) (hn : (as.map Prod.fst).Nodup) (hc : ProperAll cs) :
    (Element.mk n (attributesOf as) cs t).compare (.mk n (attributesOf bs) cs t) = true := by
  have fst : ∀ l : List (Text × Text), (attributesOf l : DMap F).map Prod.fst = l.map Prod.fst := by
    intro l; simp [attributesOf]
  have txt : ∀ l : List (Text × Text), ∀ a ∈ (attributesOf l : DMap F), ∃ s, a.2 = Val.str s := by
    intro l a ha
    simp only [attributesOf, List.mem_map] at ha
    obtain ⟨b, _, rfl⟩ := ha
    exact ⟨b.2, rfl⟩
  have hm : (bs.map Prod.fst).Nodup := (h.map Prod.fst).nodup_iff.1 hn
  rw [C123_same _ _ (by rw [Element.Proper, fst]; exact ⟨hn, txt as, hc⟩) (by rw [Element.Proper, fst]; exact ⟨hm, txt bs, hc⟩), Element.Same]
  exact ⟨rfl, rfl, h.map _, sameAll_refl cs⟩

/-- C123 is about something: an element with two attributes, read with them in either order, and with another value of one. -/
example : ∃ e o q : Element F, parse [.start ['g'] [(['x'], ['1']), (['y'], ['2'])], .stop ['g']] = .ok e ∧
    parse [.start ['g'] [(['y'], ['2']), (['x'], ['1'])], .stop ['g']] = .ok o ∧
    parse [.start ['g'] [(['x'], ['1']), (['y'], ['3'])], .stop ['g']] = .ok q ∧ e.compare o = true ∧ e.compare q = false ∧ e ≠ o :=
  ⟨_, _, _, rfl, rfl, rfl, rfl, rfl, by intro h; injection h with _ h; injection h with h; injection h with h; cases h⟩

end Verif.Xml
