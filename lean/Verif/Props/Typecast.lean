import Verif.Lemmas.UrlValues
import Verif.Props.Dynmap

/-!
# C102-C104: integers in texts, lists in texts, maps in URLs
-/

namespace Verif.Dyn

open Verif.Path

universe u

variable {F : Type u}

/-! ## C102 Integers in texts -/

theorem natural_no_sign {t : Text} {k : Nat} (h : Natural t k) : ∃ c r, t = c :: r ∧ c ≠ '-' ∧ c ≠ '+' := by
  have hd : ∀ {c : Char} {d : Nat}, IsDigit c d → c ≠ '-' ∧ c ≠ '+' := by
    intro c d h
    have := digitOf_of_isDigit h
    constructor
    · rintro rfl; revert this; simp [digitOf]
    · rintro rfl; revert this; simp [digitOf]
  cases h with
  | zero => exact ⟨'0', [], rfl, by decide, by decide⟩
  | decimal hg _ =>
    obtain ⟨c, r, d, dr, e1, e2, e3, -⟩ := underscored_head hg
    exact ⟨c, r, e1, hd e3⟩
  | based hp hg =>
    rcases (prefixes_iff _ _).mp hp with ⟨rfl, rfl⟩ | ⟨c2, x2, h2, rfl⟩
    · exact ⟨'0', _, rfl, by decide, by decide⟩
    · exact ⟨'0', _, rfl, by decide, by decide⟩
  | split hp hg =>
    rcases (prefixes_iff _ _).mp hp with ⟨rfl, rfl⟩ | ⟨c2, x2, h2, rfl⟩
    · exact ⟨'0', _, rfl, by decide, by decide⟩
    · exact ⟨'0', _, rfl, by decide, by decide⟩

/-- **C102.** A text is read as the integer `n` exactly when, without the spaces around it, it is a literal of Go for `n` and `n` has 64 bits. -/
theorem C102_reads (toInt : F → Int) (s : Text) (n : Int) : toInt64 toInt (.str s) = some n ↔ Integer (trimSpace s) n := by
  rw [toInt64]
  generalize trimSpace s = s
  unfold Integer
  rw [parseInt.eq_def]
  have pos : ∀ t : Text, ((parseUint t).bind fun k => if 2 ^ 63 ≤ k then none else some (k : Int)) = some n ↔
      (-2 ^ 63 ≤ n ∧ n < 2 ^ 63) ∧ ∃ k, Natural t k ∧ n = k := by
    intro t
    rw [Option.bind_eq_some_iff]
    constructor
    · rintro ⟨k, h1, h2⟩
      split at h2
      · cases h2
      · rw [Option.some.injEq] at h2
        have := (parseUint_iff t k).mp h1
        exact ⟨by omega, k, this.2, h2.symm⟩
    · rintro ⟨h1, k, h2, h3⟩
      refine ⟨k, (parseUint_iff t k).mpr ⟨by omega, h2⟩, ?_⟩
      rw [if_neg (by omega), h3]
  have neg : ∀ t : Text, ((parseUint t).bind fun k => if 2 ^ 63 < k then none else some (-(k : Int))) = some n ↔
      (-2 ^ 63 ≤ n ∧ n < 2 ^ 63) ∧ ∃ k, Natural t k ∧ n = -(k : Int) := by
    intro t
    rw [Option.bind_eq_some_iff]
    constructor
    · rintro ⟨k, h1, h2⟩
      split at h2
      · cases h2
      · rw [Option.some.injEq] at h2
        have := (parseUint_iff t k).mp h1
        exact ⟨by omega, k, this.2, h2.symm⟩
    · rintro ⟨h1, k, h2, h3⟩
      refine ⟨k, (parseUint_iff t k).mpr ⟨by omega, h2⟩, ?_⟩
      rw [if_neg (by omega), h3]
  split
  · rename_i t
    rw [neg]
    refine and_congr_right fun _ => ⟨fun ⟨k, h1, h2⟩ => ⟨t, k, h1, .inr (.inr ⟨rfl, h2⟩)⟩, ?_⟩
    rintro ⟨t', k, h1, ⟨e, h2⟩ | ⟨e, h2⟩ | ⟨e, h2⟩⟩
    · obtain ⟨c, r, e', h3, -⟩ := natural_no_sign h1
      rw [e'] at e
      injection e with e _
      exact absurd e.symm h3
    · injection e with e _
      exact absurd e (by decide)
    · injection e with _ e
      exact ⟨k, by rw [e]; exact h1, h2⟩
  · rename_i t
    rw [pos]
    refine and_congr_right fun _ => ⟨fun ⟨k, h1, h2⟩ => ⟨t, k, h1, .inr (.inl ⟨rfl, h2⟩)⟩, ?_⟩
    rintro ⟨t', k, h1, ⟨e, h2⟩ | ⟨e, h2⟩ | ⟨e, h2⟩⟩
    · obtain ⟨c, r, e', -, h3⟩ := natural_no_sign h1
      rw [e'] at e
      injection e with e _
      exact absurd e.symm h3
    · injection e with _ e
      exact ⟨k, by rw [e]; exact h1, h2⟩
    · injection e with e _
      exact absurd e (by decide)
  · rename_i hm hp
    rw [pos]
    refine and_congr_right fun _ => ⟨fun ⟨k, h1, h2⟩ => ⟨s, k, h1, .inl ⟨rfl, h2⟩⟩, ?_⟩
    rintro ⟨t', k, h1, ⟨e, h2⟩ | ⟨e, h2⟩ | ⟨e, h2⟩⟩
    · exact ⟨k, by rw [e]; exact h1, h2⟩
    · exact absurd e (hp t')
    · exact absurd e (hm t')

theorem toDigits_digits (n : Nat) (h0 : n ≠ 0) : Nat.toDigits 10 n = ((Nat.digits 10 n).map Nat.digitChar).reverse := by
  induction n using Nat.strong_induction_on with
  | _ n ih =>
    by_cases hn : n < 10
    · rw [Nat.toDigits_of_lt_base hn, Nat.digits_of_lt 10 n h0 hn]
      rfl
    · rw [Nat.toDigits_of_base_le (by norm_num) (by omega), Nat.digits_eq_cons_digits_div (by norm_num) h0, ih (n / 10) (by omega) (by omega)]
      simp

/-- The decimal text of a natural number is one. -/
theorem natural_decimal (n : Nat) : Natural (decimalNat n) n := by
  have e : decimalNat n = Nat.toDigits 10 n := by simp [decimalNat, Nat.repr]
  rw [e]
  by_cases h0 : n = 0
  · subst h0
    exact .zero
  have h10 : Nat.toDigits 10 n = ((Nat.digits 10 n).map Nat.digitChar).reverse := toDigits_digits n h0
  have hg : Groups 10 [Nat.toDigits 10 n] (Nat.digits 10 n).reverse := by
    refine ⟨by simp, ?_, ?_, ?_⟩
    · simp only [List.mem_singleton, forall_eq]
      rw [h10]
      simpa using Nat.digits_ne_nil_iff_ne_zero.mpr h0
    · simp only [List.flatten_cons, List.flatten_nil, List.append_nil]
      rw [h10, ← List.map_reverse, List.forall₂_map_left_iff, List.forall₂_same]
      intro d hd
      have : d < 10 := Nat.digits_lt_base (by norm_num) (List.mem_reverse.mp hd)
      left
      interval_cases d <;> rfl
    · intro d hd
      exact Nat.digits_lt_base (by norm_num) (List.mem_reverse.mp hd)
  have := Natural.decimal hg (by
    rw [List.head?_reverse]
    intro hc
    have hne : Nat.digits 10 n ≠ [] := Nat.digits_ne_nil_iff_ne_zero.mpr h0
    rw [List.getLast?_eq_some_getLast hne, Option.some.injEq] at hc
    exact Nat.getLast_digit_ne_zero 10 h0 hc)
  rw [underscored_single, numberOf, List.reverse_reverse, Nat.ofDigits_digits] at this
  exact this

theorem trimSpace_mid (a t b : Text) (ha : ∀ c ∈ a, isSpace c = true) (hb : ∀ c ∈ b, isSpace c = true)
    (h1 : ∀ c, t.head? = some c → isSpace c = false) (h2 : ∀ c, t.getLast? = some c → isSpace c = false) (ht : t ≠ []) :
    trimSpace (a ++ t ++ b) = t := by
  have drop : ∀ (a t : Text), (∀ c ∈ a, isSpace c = true) → (∀ c, t.head? = some c → isSpace c = false) → (a ++ t).dropWhile isSpace = t := by
    intro a t ha ht
    induction a with
    | nil =>
      cases t with
      | nil => rfl
      | cons c t => simp [ht c rfl]
    | cons c a ih =>
      rw [List.cons_append, List.dropWhile_cons, if_pos (ha c (by simp))]
      exact ih fun c hc => ha c (by simp [hc])
  unfold trimSpace
  rw [List.append_assoc, drop a (t ++ b) ha, List.reverse_append, drop b.reverse t.reverse, List.reverse_reverse]
  · intro c hc
    exact hb c (List.mem_reverse.mp hc)
  · intro c hc
    rw [List.head?_reverse] at hc
    exact h2 c hc
  · intro c hc
    cases t with
    | nil => exact absurd rfl ht
    | cons d t => exact h1 c (by simpa using hc)

/-- **C102.** Every integer of 64 bits is read back from its decimal text, with any spaces around it. -/
theorem C102_written (toInt : F → Int) (n : Int) (h : -2 ^ 63 ≤ n ∧ n < 2 ^ 63) (a b : Text) (ha : ∀ c ∈ a, isSpace c = true)
    (hb : ∀ c ∈ b, isSpace c = true) : toInt64 toInt (.str (a ++ decimalInt n ++ b)) = some n := by
  have hd := natural_decimal n.natAbs
  obtain ⟨c, r, e, hc1, hc2⟩ := natural_no_sign hd
  have hdig : ∀ c ∈ decimalNat n.natAbs, isSpace c = false := by
    intro c hc
    have e : decimalNat n.natAbs = Nat.toDigits 10 n.natAbs := by simp [decimalNat, Nat.repr]
    rw [e] at hc
    have := Nat.isDigit_of_mem_toDigits (by norm_num) (by norm_num) hc
    unfold Char.isDigit at this
    simp only [ge_iff_le, Bool.and_eq_true, decide_eq_true_eq] at this
    have h1 : 48 ≤ c.toNat := this.1
    have h2 : c.toNat ≤ 57 := this.2
    unfold isSpace
    simp only [Bool.or_eq_false_iff, Bool.and_eq_false_iff, decide_eq_false_iff_not]
    omega
  have hne : decimalInt n ≠ [] := by
    unfold decimalInt
    split <;> simp [e]
  have hall : ∀ c ∈ decimalInt n, isSpace c = false := by
    unfold decimalInt
    split
    · intro c hc
      rcases List.mem_cons.mp hc with rfl | hc
      · decide
      · exact hdig c hc
    · exact hdig
  rw [C102_reads, trimSpace_mid a _ b ha hb (fun c hc => hall c (List.mem_of_head? hc)) (fun c hc => hall c (List.mem_of_getLast? hc)) hne]
  refine ⟨h, _, _, hd, ?_⟩
  unfold decimalInt
  split
  · exact .inr (.inr ⟨rfl, by omega⟩)
  · exact .inl ⟨rfl, by omega⟩

/-- **C102.** What is not: a decimal text with a leading zero is not read as this number. -/
theorem C102_zero_false : ¬ ∀ (toInt : Nat → Int) (n : Nat), n < 1000 → toInt64 toInt (.str ('0' :: decimalNat n)) = some (n : Int) := by
  intro h
  have := h (fun _ => 0) 10 (by norm_num)
  revert this
  decide

/-- Not vacuous. -/
example (toInt : F → Int) : toInt64 toInt (.str " 0x_ff ".toList) = some 255 := by
  rw [toInt64]
  decide +kernel

/-! ## C103 Lists in texts -/

/-- **C103.** The pieces of a text have no delimiter in them, and with the delimiter between them they are the text. -/
theorem C103_pieces (delim s : Text) (hd : delim ≠ []) :
    interleaved delim (splitText delim s) = s ∧ splitText delim s ≠ [] ∧ ∀ p ∈ splitText delim s, ¬ delim <:+: p := by
  rw [splitText, if_neg hd]
  refine ⟨?_, splitAtText_ne_nil _ _ _, splitAtText_free delim s [] hd ?_⟩
  · rw [← glued_eq, glued_splitAtText]
    rfl
  · intro t u e hu
    simp only [List.reverse_nil] at e
    exact absurd (List.append_eq_nil_iff.mp e.symm).2 hu

/-- **C103.** Texts without the delimiter come back when they are joined with it and split again. -/
theorem C103_back (d : Char) (l : List Text) (hl : l ≠ []) (h : ∀ p ∈ l, d ∉ p) : splitText [d] (interleaved [d] l) = l := by
  rw [splitText, if_neg (by simp)]
  induction l with
  | nil => exact absurd rfl hl
  | cons p l ih =>
    cases l with
    | nil =>
      rw [interleaved]
      have := splitAtText_char d p (h p (by simp)) [] [] (.inl rfl)
      simpa using this
    | cons q l =>
      rw [interleaved, List.append_assoc, List.singleton_append, splitAtText_char d p (h p (by simp)) _ [] (.inr ⟨_, rfl⟩)]
      simp only [List.reverse_nil, List.nil_append]
      rw [ih (by simp) fun x hx => h x (by simp [hx])]

/-- **C103.** Integers written in a text with a delimiter are read as the same list. -/
theorem C103_integers (toInt : F → Int) (m : DMap F) (key : Text) (d : Char) (hd : d ∉ "-0123456789".toList) (l : List Int) (hl : l ≠ [])
    (h : ∀ n ∈ l, -2 ^ 63 ≤ n ∧ n < 2 ^ 63) (hg : get m key = some (.str (interleaved [d] (l.map decimalInt)))) :
    getIntSliceSplit toInt m key [d] = some l := by
  rw [getIntSliceSplit, hg]
  simp only []
  rw [C103_back d _ (by simpa using hl)]
  · clear hg hl
    induction l with
    | nil => rfl
    | cons n l ih =>
      have h1 := C102_written toInt n (h n (by simp)) [] [] (by simp) (by simp)
      rw [toInt64, List.nil_append, List.append_nil] at h1
      rw [List.map_cons, List.mapM_cons, h1, ih fun x hx => h x (by simp [hx])]
      rfl
  · intro p hp
    obtain ⟨n, -, rfl⟩ := List.mem_map.mp hp
    have hdig : ∀ c ∈ decimalNat n.natAbs, c ∈ "-0123456789".toList := by
      intro c hc
      have e : decimalNat n.natAbs = Nat.toDigits 10 n.natAbs := by simp [decimalNat, Nat.repr]
      rw [e] at hc
      have := Nat.isDigit_of_mem_toDigits (by norm_num) (by norm_num) hc
      unfold Char.isDigit at this
      simp only [ge_iff_le, Bool.and_eq_true, decide_eq_true_eq] at this
      have h1 : 48 ≤ c.toNat := this.1
      have h2 : c.toNat ≤ 57 := this.2
      rw [← Char.ofNat_toNat c]
      generalize c.toNat = k at h1 h2
      interval_cases k <;> decide
    intro hc
    refine hd ?_
    unfold decimalInt at hc
    split at hc
    · rcases List.mem_cons.mp hc with rfl | hc
      · decide
      · exact hdig _ hc
    · exact hdig _ hc

/-- Not vacuous. -/
example (toInt : F → Int) : getIntSliceSplit toInt ([("sizes".toList, .str "3,-14,15".toList)] : DMap F) "sizes".toList [','] = some [3, -14, 15] :=
  C103_integers toInt _ _ ',' (by decide) [3, -14, 15] (by simp) (by simp) (by
    rw [show interleaved [','] ([3, -14, 15].map decimalInt) = "3,-14,15".toList by decide +kernel]
    simp [get, List.lookup])

/-! ## C104 Maps in URLs -/

theorem perm_map {α β : Type*} (f : α → β) {l : List β} {k : List β} (h : l.Perm k) :
    ∀ k' : List α, k = k'.map f → ∃ l' : List α, l = l'.map f ∧ l'.Perm k' := by
  induction h with
  | nil =>
    intro k' hk
    exact ⟨[], rfl, by rw [List.map_eq_nil_iff.mp hk.symm]⟩
  | cons x _ ih =>
    intro k' hk
    cases k' with
    | nil => cases hk
    | cons y k' =>
      rw [List.map_cons] at hk
      injection hk with h1 h2
      obtain ⟨l', e, hp⟩ := ih k' h2
      exact ⟨y :: l', by rw [List.map_cons, e, h1], hp.cons y⟩
  | swap x y l =>
    intro k' hk
    match k', hk with
    | a :: b :: k', hk =>
      simp only [List.map_cons, List.cons.injEq] at hk
      exact ⟨b :: a :: k', by simp [hk], List.Perm.swap _ _ _⟩
  | trans _ _ ih1 ih2 =>
    intro k' hk
    obtain ⟨l2, e2, p2⟩ := ih2 k' hk
    obtain ⟨l1, e1, p1⟩ := ih1 l2 e2
    exact ⟨l1, e1, p1.trans p2⟩

/-- **C104.** A map without lists comes back from its URL values, whatever their order, with texts for the values. -/
theorem C104_back (printed : Val F → Text) (m : DMap F) (ht : Tidy m) (hd : NoDots m) (hb : NoBrackets m) (hne : NoEmpty m) (hl : NoLists m)
    (vals : UrlValues) (hp : vals.Perm (marshalUrl printed m)) (p : List Text) :
    see (unmarshalUrlValues [] vals : DMap F) p = (see m p).asText (shownText printed) := by
  rw [marshalUrl_eq printed ht hd hb hl] at hp
  obtain ⟨l0, hl0, hp0⟩ := perm_map (fun e : List Text × Val F => (rails e.1, [shownText printed e.2])) hp (leaves m) rfl
  have hm0 : ∀ e, e ∈ l0 ↔ e ∈ leaves m := fun e => hp0.mem_iff
  let l' : List (List Text × Val F) := l0.map fun e => (e.1, .str (shownText printed e.2))
  have hmem : ∀ e, e ∈ l' ↔ ∃ v, (e.1, v) ∈ leaves m ∧ e.2 = .str (shownText printed v) := by
    rintro ⟨q, w⟩
    simp only [l', List.mem_map]
    constructor
    · rintro ⟨e', he', h⟩
      simp only [Prod.mk.injEq] at h
      obtain ⟨rfl, rfl⟩ := h
      exact ⟨e'.2, (hm0 _).mp he', rfl⟩
    · rintro ⟨v, hv, h⟩
      exact ⟨(q, v), (hm0 _).mpr hv, by rw [h]⟩
  have hpw : l'.Pairwise fun a b => ¬ a.1 <+: b.1 ∧ ¬ b.1 <+: a.1 := by
    have hnd : l'.Pairwise fun a b => a.1 ≠ b.1 := by
      have := (hp0.map (·.1)).nodup_iff.mpr (leaves_nodup ht)
      rw [List.Nodup, List.pairwise_map] at this
      exact List.pairwise_map.mpr this
    refine hnd.imp_of_mem ?_
    rintro ⟨a, a'⟩ ⟨b, b'⟩ ha hb' hab
    obtain ⟨v, hv, -⟩ := (hmem _).mp ha
    obtain ⟨w, hw, -⟩ := (hmem _).mp hb'
    exact ⟨fun hc => hab (leaves_apart ht (a := (a, v)) (b := (b, w)) hv hw hc), fun hc => hab (leaves_apart ht (a := (b, w)) (b := (a, v)) hw hv hc).symm⟩
  obtain ⟨m', hm', hh⟩ := unflattenLoop_holds l' [] [] holds_nil
    (fun e he => by obtain ⟨v, hv, -⟩ := (hmem _).mp he; exact leaves_ne_nil m (e.1, v) hv)
    (fun e he => by obtain ⟨v, hv, -⟩ := (hmem _).mp he; exact leaves_no_dots ht hd (e.1, v) hv)
    (fun e he => by obtain ⟨v, hv, h⟩ := (hmem _).mp he; rw [h]; exact fun m h => by cases h) hpw
    (fun e _ e' he' => by simp at he')
  have hun : (unmarshalUrlValues [] vals : DMap F) = m' := by
    rw [← foldl_of_unflattenLoop _ _ _ hm', unmarshalUrlValues, hl0, List.foldl_map, List.map_map, List.foldl_map]
    refine List.foldl_ext _ _ _ fun acc e he => ?_
    simp only [Function.comp, urlValue]
    rw [urlKey_rails (leaves_no_brackets ht hb e ((hm0 e).mp he))]
  rw [hun]
  rw [List.append_nil] at hh
  obtain ⟨s1, s2, s3⟩ := see_of_leaves ht hne p
  by_cases h1 : ∃ v, (p, v) ∈ leaves m
  · obtain ⟨v, hv⟩ := h1
    rw [s1 v hv]
    exact hh.leaf (p, .str (shownText printed v)) (List.mem_reverse.mpr ((hmem _).mpr ⟨v, hv, rfl⟩))
  · have hpre : (∃ e ∈ l'.reverse, p <+: e.1 ∧ p ≠ e.1) ↔ ∃ e ∈ leaves m, p <+: e.1 ∧ p ≠ e.1 := by
      constructor
      · rintro ⟨e, he, h⟩
        obtain ⟨v, hv, -⟩ := (hmem e).mp (List.mem_reverse.mp he)
        exact ⟨(e.1, v), hv, h⟩
      · rintro ⟨e, he, h⟩
        exact ⟨(e.1, .str (shownText printed e.2)), List.mem_reverse.mpr ((hmem _).mpr ⟨e.2, he, rfl⟩), h⟩
    by_cases h2 : p = [] ∨ ∃ e ∈ leaves m, p <+: e.1 ∧ p ≠ e.1
    · rw [s2 h2]
      exact hh.map p (by rw [hpre]; exact h2)
    · rw [s3 (fun v hv => h1 ⟨v, hv⟩) h2]
      refine hh.nothing p ?_ (by rw [hpre]; exact h2)
      rintro ⟨q, w⟩ he rfl
      obtain ⟨v, hv, -⟩ := (hmem _).mp (List.mem_reverse.mp he)
      exact h1 ⟨v, hv⟩

/-- Not vacuous: the values of a nested map. -/
example (printed : Val Nat → Text) : marshalUrl printed sample = [("a[b]".toList, [printed (.num 1)]), ("c".toList, [['x']])] := by
  rw [marshalUrl_eq printed sample_ok.1 sample_ok.2.1 _ sample_ok.2.2.2]
  · simp [sample, leaves, rails, brackets, shownText]
  · intro p m h e he
    rcases sample_paths p _ h with ⟨-, e'⟩ | ⟨-, e'⟩ | ⟨e', -⟩
    · cases e'
      simp only [sample, List.mem_cons, List.not_mem_nil, or_false] at he
      rcases he with rfl | rfl <;> simp
    · cases e'
      simp only [List.mem_cons, List.not_mem_nil, or_false] at he
      subst he
      simp
    · exact absurd rfl (e' m)

/-- **C104.** What is not: a list does not come back, it has its own printed text as one member more. -/
theorem C104_list_false : ¬ ∀ (printed : Val Nat → Text) (l : List Text),
    see (unmarshalUrlValues [] (marshalUrl printed [(['a'], .list (l.map .str))]) : DMap Nat) [['a']] = .leaf (.list (l.map .str)) := by
  intro h
  have := h (fun _ => ['p']) [['x'], ['y']]
  simp [marshalUrl, urlEncode, urlEncodeList, addValue, shownText, unmarshalUrlValues, urlKey, urlValue, putWithDot, dots, splitOn, putKey, put, see,
    follow, seen] at this

theorem urlEncodeList_leaves (printed : Val F → Text) (k : Text) (l : List (Val F)) (hl : ∀ v ∈ l, IsLeaf v ∧ ∀ l', v ≠ .list l') (ts : List Text) (h : ts ≠ []) :
    urlEncodeList printed [(k, ts)] k l = [(k, ts ++ l.map (shownText printed))] := by
  induction l generalizing ts with
  | nil =>
    rw [urlEncodeList.eq_def]
    simp
  | cons v l ih =>
    rw [urlEncodeList.eq_def]
    simp only
    rw [urlEncode_leaf printed _ k (hl v (by simp)).1 (hl v (by simp)).2, addValue, if_pos rfl, ih (fun w hw => hl w (by simp [hw])) _ (by simp)]
    simp

/-- **C104.** What comes of a list of numbers, texts and truth values, under a plain key: their texts in order, and after them the printed text of the list. -/
theorem C104_list (printed : Val F → Text) (k : Text) (hd : '.' ∉ k) (hb : '[' ∉ k ∧ ']' ∉ k) (l : List (Val F)) (hn : l ≠ [])
    (hl : ∀ v ∈ l, IsLeaf v ∧ ∀ l', v ≠ .list l') :
    see (unmarshalUrlValues [] (marshalUrl printed [(k, .list l)]) : DMap F) [k]
      = .leaf (.list ((l.map (shownText printed) ++ [printed (.list l)]).map .str)) := by
  have e : marshalUrl printed [(k, .list l)] = [(k, l.map (shownText printed) ++ [printed (.list l)])] := by
    cases l with
    | nil => exact absurd rfl hn
    | cons v l =>
      rw [marshalUrl, List.foldl_cons, List.foldl_nil, urlEncode.eq_def]
      simp only
      rw [urlEncodeList.eq_def]
      simp only
      rw [urlEncode_leaf printed _ k (hl v (by simp)).1 (hl v (by simp)).2, addValue, urlEncodeList_leaves printed k l (fun w hw => hl w (by simp [hw])) _ (by simp), addValue,
        if_pos rfl]
      simp
  have hk : urlKey k = k := by
    have h1 : k.map (fun c => if c = '[' then '.' else c) = k := by
      conv_rhs => rw [← List.map_id k]
      refine List.map_congr_left fun c hc => ?_
      have : c ≠ '[' := by
        rintro rfl
        exact hb.1 hc
      rw [if_neg this]
      rfl
    rw [urlKey, h1, List.filter_eq_self.2]
    intro c hc
    simp only [decide_eq_true_eq]
    rintro rfl
    exact hb.2 hc
  have hv : (urlValue (l.map (shownText printed) ++ [printed (.list l)]) : Val F) = .list ((l.map (shownText printed) ++ [printed (.list l)]).map .str) := by
    cases l with
    | nil => exact absurd rfl hn
    | cons v l => cases l <;> rfl
  rw [e]
  simp only [unmarshalUrlValues, List.foldl_cons, List.foldl_nil, hk, hv, putWithDot_eq, dots_plain hd, putParts]
  simp [see, follow, put, seen]

/-- **C69.** The dotted put of lists: adding under a dotted key, where no value is in the way and no literal key hides it, appends in order; a missing list is started. -/
theorem C69_add_dotted (m : DMap F) (key : Text) (l vs : List (Val F)) (hl : m.lookup key = none) (hp : (putWithDot m key (.list [])).2 = true)
    (h : get m key = some (.list l) ∨ get m key = none ∧ l = []) : get (addToSliceWithDot m key vs) key = some (.list (l ++ vs)) := by
  have ok : ∀ (m : DMap F) (v w : Val F), (putWithDot m key v).2 = true → (putWithDot m key w).2 = true := by
    intro m v w hv
    rw [← Bool.not_eq_false] at hv ⊢
    rwa [(C42_failed_put m key w).1, ← (C42_failed_put m key v).1]
  rcases h with h | ⟨h, rfl⟩
  · simp only [addToSliceWithDot, putIfAbsentWithDot, h]
    exact C41_get_dotted m key _ (ok m _ _ hp) hl
  · simp only [addToSliceWithDot, putIfAbsentWithDot, h, C41_get_dotted m key (.list []) hp hl]
    by_cases hk : (dots key).length = 1
    · simp only [putWithDot, if_pos hk, List.nil_append]
      exact C41_put_get _ key _
    · refine C41_get_dotted _ key _ ?_ ?_
      · rw [← Bool.not_eq_false, (C42_failed_put _ key _).1]
        rintro ⟨q, w, h1, h2, h3⟩
        rw [(C41_put_dotted m key _ hp).2.1 q h1 h2] at h3
        cases h3
      · exact lookup_putWithDot m key _ hp hl hk

/-- Not vacuous: a list two maps deep is started and added to. -/
example : get (addToSliceWithDot (addToSliceWithDot ([] : DMap Nat) "a.b".toList [.num 1]) "a.b".toList [.num 2, .num 3]) "a.b".toList
    = some (.list [.num 1, .num 2, .num 3]) := rfl

end Verif.Dyn
