import Verif.Model.Typecast
import Verif.Spec.Typecast
import Verif.Lemmas.Dynmap
import Mathlib.Data.Nat.Digits.Lemmas

/-!
# Lemmas about conversions
-/

namespace Verif.Dyn

open Verif.Path

universe u

variable {F : Type u}

/-! ## Digits -/

theorem isDigit_lt {c : Char} {d : Nat} (h : IsDigit c d) : d < 16 := by
  rcases h with h | h <;> (obtain ⟨h, -⟩ := List.getElem?_eq_some_iff.mp h; simpa using h)

theorem digitOf_of_isDigit {c : Char} {d : Nat} (h : IsDigit c d) : digitOf c = some d := by
  have hd := isDigit_lt h
  unfold IsDigit at h
  interval_cases d <;> (rcases h with h | h <;> (simp at h; subst h; decide))

theorem char_eq_ofNat {c : Char} {n : Nat} (h : c.toNat = n) : c = Char.ofNat n := by
  rw [← h, Char.ofNat_toNat]

theorem isDigit_of_digitOf {c : Char} {d : Nat} (h : digitOf c = some d) (hd : d < 16) : IsDigit c d := by
  unfold digitOf at h
  simp only [Bool.and_eq_true, decide_eq_true_eq] at h
  have e : ∀ a b : Char, a ≤ b ↔ a.toNat ≤ b.toNat := fun a b => Iff.rfl
  split at h
  · rename_i hc
    rw [e, e] at hc
    simp only [Option.some.injEq] at h
    have h0 : ('0' : Char).toNat = 48 := rfl
    have h9 : ('9' : Char).toNat = 57 := rfl
    rw [h0, h9] at hc
    rw [h0] at h
    have hc' : c.toNat = 48 + d := by omega
    have hd' : d < 10 := by omega
    rw [char_eq_ofNat hc']
    interval_cases d <;> (left; decide)
  · split at h
    · rename_i hc
      rw [e, e] at hc
      simp only [Option.some.injEq] at h
      have h0 : ('a' : Char).toNat = 97 := rfl
      rw [h0] at hc h
      have hc' : c.toNat = 97 + d - 10 := by omega
      have hd' : 10 ≤ d := by omega
      rw [char_eq_ofNat hc']
      interval_cases d <;> (left; decide)
    · split at h
      · rename_i hc
        rw [e, e] at hc
        simp only [Option.some.injEq] at h
        have h0 : ('A' : Char).toNat = 65 := rfl
        rw [h0] at hc h
        have hc' : c.toNat = 65 + d - 10 := by omega
        have hd' : 10 ≤ d := by omega
        rw [char_eq_ofNat hc']
        interval_cases d <;> (right; decide)
      · cases h

theorem isDigit_ne_under {c : Char} {d : Nat} (h : IsDigit c d) : c ≠ '_' := by
  have hd := isDigit_lt h
  unfold IsDigit at h
  interval_cases d <;> (rcases h with h | h <;> (simp at h; subst h; decide))

theorem isDigit_zero {c : Char} (h : IsDigit c 0) : c = '0' := by
  unfold IsDigit at h
  have : '0' = c := by simpa using h
  exact this.symm

theorem isDigit_unique {c : Char} {d e : Nat} (h : IsDigit c d) (h' : IsDigit c e) : d = e := by
  have := digitOf_of_isDigit h
  rw [digitOf_of_isDigit h'] at this
  exact (Option.some.inj this).symm

/-- What the loop of `underscoreOK` takes for a digit. -/
def digitFor (hex : Bool) (c : Char) : Bool :=
  (decide ('0' ≤ c) && decide (c ≤ '9')) || (hex && ((decide ('a' ≤ c) && decide (c ≤ 'f')) || (decide ('A' ≤ c) && decide (c ≤ 'F'))))

theorem digitFor_of_isDigit {c : Char} {d : Nat} (h : IsDigit c d) (hex : Bool) (hd : d < if hex then 16 else 10) : digitFor hex c = true := by
  unfold IsDigit at h
  cases hex
  · simp only [Bool.false_eq_true, if_false] at hd
    interval_cases d <;> (simp at h; subst h; decide)
  · simp only [if_true] at hd
    interval_cases d <;> (rcases h with h | h <;> (simp at h; subst h; decide))

theorem numberOf_append (base : Nat) (ds : List Nat) (d : Nat) : numberOf base (ds ++ [d]) = numberOf base ds * base + d := by
  simp [numberOf, Nat.ofDigits_cons]
  ring

/-- The characters that are no underscores. -/
def plain (s : Text) : Text := s.filter fun c => decide (c ≠ '_')

theorem digitsValue_iff (base : Nat) (hb : base ≤ 16) (s : Text) (n v : Nat) :
    digitsValue base s n = some v ↔
      ∃ ds, List.Forall₂ IsDigit (plain s) ds ∧ (∀ d ∈ ds, d < base) ∧ v = ds.foldl (fun a d => a * base + d) n := by
  induction s generalizing n with
  | nil =>
    simp only [digitsValue, Option.some.injEq, plain, List.filter_nil]
    constructor
    · rintro rfl
      exact ⟨[], .nil, by simp, rfl⟩
    · rintro ⟨ds, h, -, h2⟩
      cases h
      exact h2.symm
  | cons c s ih =>
    rw [digitsValue]
    by_cases hc : c = '_'
    · simp only [hc, if_true]
      rw [ih]
      simp [plain]
    · rw [if_neg hc]
      have hp : plain (c :: s) = c :: plain s := by simp [plain, hc]
      rw [hp]
      constructor
      · intro h
        split at h
        · cases h
        · rename_i d hd
          split at h
          · cases h
          · rename_i hlt
            obtain ⟨ds, h1, h2, h3⟩ := (ih _).mp h
            refine ⟨d :: ds, .cons (isDigit_of_digitOf hd (by omega)) h1, ?_, ?_⟩
            · intro e he
              rcases List.mem_cons.mp he with rfl | he
              · omega
              · exact h2 e he
            · rw [h3, List.foldl_cons]
      · rintro ⟨ds, h1, h2, h3⟩
        cases h1 with
        | cons hd h1 =>
          rename_i d ds
          rw [digitOf_of_isDigit hd]
          have hlt : d < base := h2 d (by simp)
          simp only []
          rw [if_neg (by omega)]
          exact (ih _).mpr ⟨ds, h1, fun e he => h2 e (by simp [he]), by rw [h3, List.foldl_cons]⟩

theorem foldl_numberOf (base : Nat) (ds : List Nat) : ds.foldl (fun a d => a * base + d) 0 = numberOf base ds := by
  induction ds using List.reverseRecOn with
  | nil => rfl
  | append_singleton ds d ih => rw [List.foldl_append, ih, numberOf_append]; rfl

/-! ## Underscores -/

theorem underscored_single (g : Text) : underscored [g] = g := by simp [underscored]

theorem underscored_cons (g g' : Text) (gs : List Text) : underscored (g :: g' :: gs) = g ++ '_' :: underscored (g' :: gs) := by
  simp [underscored, List.intersperse]

theorem underscored_cons_cons (c : Char) (g : Text) (gs : List Text) : underscored ((c :: g) :: gs) = c :: underscored (g :: gs) := by
  cases gs with
  | nil => simp [underscored_single]
  | cons g' gs => simp [underscored_cons]

theorem plain_digits {s : Text} (h : ∀ c ∈ s, c ≠ '_') : plain s = s := by
  unfold plain
  rw [List.filter_eq_self]
  intro c hc
  simpa using h c hc

theorem plain_underscored {gs : List Text} (h : ∀ c ∈ gs.flatten, c ≠ '_') : plain (underscored gs) = gs.flatten := by
  induction gs with
  | nil => rfl
  | cons g gs ih =>
    simp only [List.flatten_cons, List.mem_append] at h
    cases gs with
    | nil => rw [underscored_single, plain_digits fun c hc => h c (.inl hc)]; simp
    | cons g' gs =>
      have := ih fun c hc => h c (.inr hc)
      rw [underscored_cons]
      have e : plain (g ++ '_' :: underscored (g' :: gs)) = plain g ++ plain (underscored (g' :: gs)) := by
        simp [plain]
      rw [e, plain_digits fun c hc => h c (.inl hc), this]
      rfl

/-- All characters are digits or underscores. -/
def AllDigits (hex : Bool) (s : Text) : Prop := ∀ c ∈ s, c = '_' ∨ (c ≠ '_' ∧ digitFor hex c = true)

/-- Groups without looking at the digits. -/
def Grouped (gs : List Text) : Prop := gs ≠ [] ∧ (∀ g ∈ gs, g ≠ []) ∧ ∀ c ∈ gs.flatten, c ≠ '_'

theorem loop_digit {hex : Bool} {last : SeenLast} {c : Char} {s : Text} (h : digitFor hex c = true) :
    underscoreLoop hex last (c :: s) = underscoreLoop hex .digit s := by
  rw [underscoreLoop]
  exact if_pos h

theorem loop_under {hex : Bool} {last : SeenLast} {s : Text} :
    underscoreLoop hex last ('_' :: s) = if last = .digit then underscoreLoop hex .under s else false := by
  rw [underscoreLoop, if_neg (by cases hex <;> decide), if_pos rfl]

theorem loop_sound {hex : Bool} (s : Text) (ha : AllDigits hex s) :
    (underscoreLoop hex .digit s = true → s = [] ∨ (∃ gs, Grouped gs ∧ s = underscored gs) ∨ ∃ gs, Grouped gs ∧ s = '_' :: underscored gs) ∧
    (∀ last, last = .under ∨ last = .start → s ≠ [] → underscoreLoop hex last s = true → ∃ gs, Grouped gs ∧ s = underscored gs) := by
  induction s with
  | nil => exact ⟨fun _ => .inl rfl, fun _ _ h => absurd rfl h⟩
  | cons c s ih =>
    obtain ⟨ih1, ih2⟩ := ih fun c hc => ha c (by simp [hc])
    have key : (c ≠ '_' ∧ digitFor hex c = true) → underscoreLoop hex .digit s = true → ∃ gs, Grouped gs ∧ c :: s = underscored gs := by
      intro hc h
      rcases ih1 h with h | ⟨gs, hg, h⟩ | ⟨gs, hg, h⟩
      · subst h
        exact ⟨[[c]], ⟨by simp, by simp, by simpa using hc.1⟩, by rw [underscored_single]⟩
      · obtain ⟨g1, g2, g3⟩ := hg
        cases gs with
        | nil => exact absurd rfl g1
        | cons g gs =>
          refine ⟨(c :: g) :: gs, ⟨by simp, ?_, ?_⟩, by rw [underscored_cons_cons, h]⟩
          · intro g' hg'
            rcases List.mem_cons.mp hg' with rfl | hg'
            · simp
            · exact g2 g' (by simp [hg'])
          · intro e he
            rw [List.flatten_cons, List.cons_append, List.mem_cons] at he
            rcases he with rfl | he
            · exact hc.1
            · exact g3 e (by rw [List.flatten_cons]; exact he)
      · obtain ⟨g1, g2, g3⟩ := hg
        cases gs with
        | nil => exact absurd rfl g1
        | cons g gs =>
          refine ⟨[c] :: g :: gs, ⟨by simp, ?_, ?_⟩, by rw [underscored_cons, h]; rfl⟩
          · intro g' hg'
            rcases List.mem_cons.mp hg' with rfl | hg'
            · simp
            · exact g2 g' hg'
          · intro e he
            rw [List.flatten_cons, List.mem_append] at he
            rcases he with he | he
            · simp only [List.mem_singleton] at he
              rw [he]
              exact hc.1
            · exact g3 e he
    constructor
    · intro h
      rcases ha c (by simp) with rfl | hc
      · rw [loop_under, if_pos rfl] at h
        by_cases hs : s = []
        · subst hs
          simp [underscoreLoop] at h
        · obtain ⟨gs, hg, e⟩ := ih2 .under (.inl rfl) hs h
          exact .inr (.inr ⟨gs, hg, by rw [e]⟩)
      · rw [loop_digit hc.2] at h
        exact .inr (.inl (key hc h))
    · intro last hl _ h
      rcases ha c (by simp) with rfl | hc
      · rw [loop_under, if_neg (by rcases hl with rfl | rfl <;> decide)] at h
        cases h
      · rw [loop_digit hc.2] at h
        exact key hc h

theorem loop_complete {hex : Bool} (gs : List Text) (hg : Grouped gs) (ha : ∀ c ∈ gs.flatten, digitFor hex c = true) (last : SeenLast) :
    underscoreLoop hex last (underscored gs) = true := by
  have run : ∀ (g : Text) (last : SeenLast) (s : Text), g ≠ [] → (∀ c ∈ g, digitFor hex c = true) →
      underscoreLoop hex last (g ++ s) = underscoreLoop hex .digit s := by
    intro g
    induction g with
    | nil => intro _ _ h; exact absurd rfl h
    | cons c g ih =>
      intro last s _ h
      rw [List.cons_append, loop_digit (h c (by simp))]
      by_cases hgn : g = []
      · subst hgn; rfl
      · exact ih .digit s hgn fun c hc => h c (by simp [hc])
  induction gs generalizing last with
  | nil => exact absurd rfl hg.1
  | cons g gs ih =>
    obtain ⟨g1, g2, g3⟩ := hg
    have hgn := g2 g (by simp)
    have hgd : ∀ c ∈ g, digitFor hex c = true := fun c hc => ha c (by simp [hc])
    cases gs with
    | nil =>
      rw [underscored_single]
      have := run g last [] hgn hgd
      rw [List.append_nil] at this
      rw [this]
      rfl
    | cons g' gs =>
      rw [underscored_cons, run g last _ hgn hgd, loop_under, if_pos rfl]
      exact ih ⟨by simp, fun x hx => g2 x (by simp [hx]), fun c hc => g3 c (by rw [List.flatten_cons]; exact List.mem_append_right _ hc)⟩
        (fun c hc => ha c (by rw [List.flatten_cons]; exact List.mem_append_right _ hc)) .under

theorem underscored_ne_nil {gs : List Text} (hg : Grouped gs) : underscored gs ≠ [] := by
  obtain ⟨g1, g2, g3⟩ := hg
  cases gs with
  | nil => exact absurd rfl g1
  | cons g gs =>
    cases g with
    | nil => exact absurd rfl (g2 _ (by simp))
    | cons c g => rw [underscored_cons_cons]; simp

/-! ## Numbers -/

theorem grouped_of_groups {base : Nat} {gs : List Text} {ds : List Nat} (h : Groups base gs ds) : Grouped gs := by
  obtain ⟨h1, h2, h3, -⟩ := h
  refine ⟨h1, h2, fun c hc => ?_⟩
  obtain ⟨i, hi, rfl⟩ := List.mem_iff_getElem.mp hc
  exact isDigit_ne_under (List.Forall₂.get h3 hi (by rw [← h3.length_eq]; exact hi))

theorem digitFor_of_groups {base : Nat} {s : Text} {ds : List Nat} (h3 : List.Forall₂ IsDigit s ds) (h4 : ∀ d ∈ ds, d < base) (hex : Bool)
    (hb : base ≤ if hex then 16 else 10) : ∀ c ∈ s, digitFor hex c = true := by
  intro c hc
  obtain ⟨i, hi, rfl⟩ := List.mem_iff_getElem.mp hc
  have hi' : i < ds.length := by rw [← h3.length_eq]; exact hi
  exact digitFor_of_isDigit (List.Forall₂.get h3 hi hi') hex ((h4 _ (List.getElem_mem hi')).trans_le hb)

/-- The text after the base, with the underscores allowed after a digit or at the beginning. -/
theorem body_iff (base : Nat) (hex : Bool) (hb : base ≤ if hex then 16 else 10) (first : Bool) (s : Text) (hs : s ≠ []) (n : Nat) :
    (digitsValue base s 0 = some n ∧ ('_' ∈ s → underscoreLoop hex (if first then .start else .digit) s = true)) ↔
      ∃ gs ds, Groups base gs ds ∧ n = numberOf base ds ∧ (s = underscored gs ∨ (first = false ∧ s = '_' :: underscored gs)) := by
  have hb16 : base ≤ 16 := hb.trans (by cases hex <;> simp)
  constructor
  · rintro ⟨h1, h2⟩
    obtain ⟨ds, d1, d2, d3⟩ := (digitsValue_iff base hb16 s 0 n).mp h1
    rw [foldl_numberOf] at d3
    have hfin : ∀ gs, Grouped gs → plain s = gs.flatten → Groups base gs ds := by
      intro gs hg e
      exact ⟨hg.1, hg.2.1, e ▸ d1, d2⟩
    by_cases hu : '_' ∈ s
    · have hall : AllDigits hex s := by
        intro c hc
        by_cases hcu : c = '_'
        · exact .inl hcu
        · exact .inr ⟨hcu, digitFor_of_groups d1 d2 hex hb c (by simp [plain, hc, hcu])⟩
      obtain ⟨s1, s2⟩ := loop_sound s hall
      cases first
      · rcases s1 (h2 hu) with h | ⟨gs, hg, e⟩ | ⟨gs, hg, e⟩
        · exact absurd h hs
        · exact ⟨gs, ds, hfin gs hg (by rw [e, plain_underscored hg.2.2]), d3, .inl e⟩
        · refine ⟨gs, ds, hfin gs hg ?_, d3, .inr ⟨rfl, e⟩⟩
          rw [e, ← plain_underscored hg.2.2]
          simp [plain]
      · obtain ⟨gs, hg, e⟩ := s2 .start (.inr rfl) hs (h2 hu)
        exact ⟨gs, ds, hfin gs hg (by rw [e, plain_underscored hg.2.2]), d3, .inl e⟩
    · refine ⟨[s], ds, hfin [s] ⟨by simp, by simpa using hs, ?_⟩ ?_, d3, .inl (underscored_single s).symm⟩
      · intro c hc
        simp only [List.flatten_cons, List.flatten_nil, List.append_nil] at hc
        rintro rfl
        exact hu hc
      · simp only [List.flatten_cons, List.flatten_nil, List.append_nil]
        exact plain_digits fun c hc => by rintro rfl; exact hu hc
  · rintro ⟨gs, ds, hg, hn, hs⟩
    have hgr := grouped_of_groups hg
    have hd := digitFor_of_groups hg.2.2.1 hg.2.2.2 hex hb
    have hp : plain s = gs.flatten := by
      rcases hs with rfl | ⟨-, rfl⟩
      · exact plain_underscored hgr.2.2
      · rw [← plain_underscored hgr.2.2]
        simp [plain]
    refine ⟨(digitsValue_iff base hb16 s 0 n).mpr ⟨ds, by rw [hp]; exact hg.2.2.1, hg.2.2.2, by rw [foldl_numberOf, hn]⟩, fun _ => ?_⟩
    rcases hs with rfl | ⟨rfl, rfl⟩
    · exact loop_complete gs hgr hd _
    · rw [loop_under]
      simp only [Bool.false_eq_true, if_false, if_true]
      exact loop_complete gs hgr hd _

/-- The letters of the bases. -/
def baseLetters : List (Char × Nat × Bool) :=
  [('b', 2, false), ('B', 2, false), ('o', 8, false), ('O', 8, false), ('x', 16, true), ('X', 16, true)]

theorem detectBase_letter {c : Char} {b : Nat} {hex : Bool} (h : (c, b, hex) ∈ baseLetters) (d : Char) (s : Text) :
    detectBase ('0' :: c :: d :: s) = (b, d :: s) ∧ underscoreOk ('0' :: c :: d :: s) = underscoreLoop hex .digit (d :: s) ∧
      b ≤ (if hex then 16 else 10) := by
  simp only [baseLetters, List.mem_cons, Prod.mk.injEq, List.not_mem_nil, or_false] at h
  rcases h with ⟨rfl, rfl, rfl⟩ | ⟨rfl, rfl, rfl⟩ | ⟨rfl, rfl, rfl⟩ | ⟨rfl, rfl, rfl⟩ | ⟨rfl, rfl, rfl⟩ | ⟨rfl, rfl, rfl⟩ <;>
    exact ⟨rfl, rfl, by decide⟩

theorem detectBase_octal {s : Text} (h : ∀ c r b x, s = c :: r → (c, b, x) ∉ baseLetters) :
    detectBase ('0' :: s) = (8, s) ∧ underscoreOk ('0' :: s) = underscoreLoop false .digit s := by
  have hb : ∀ r, s ≠ 'b' :: r := fun r e => h _ _ 2 false e (by simp [baseLetters])
  have hB : ∀ r, s ≠ 'B' :: r := fun r e => h _ _ 2 false e (by simp [baseLetters])
  have ho : ∀ r, s ≠ 'o' :: r := fun r e => h _ _ 8 false e (by simp [baseLetters])
  have hO : ∀ r, s ≠ 'O' :: r := fun r e => h _ _ 8 false e (by simp [baseLetters])
  have hx : ∀ r, s ≠ 'x' :: r := fun r e => h _ _ 16 true e (by simp [baseLetters])
  have hX : ∀ r, s ≠ 'X' :: r := fun r e => h _ _ 16 true e (by simp [baseLetters])
  constructor
  · rw [detectBase.eq_def]
    split
    · rename_i heq; injection heq with _ e2; exact absurd e2 (hb _)
    · rename_i heq; injection heq with _ e2; exact absurd e2 (hB _)
    · rename_i heq; injection heq with _ e2; exact absurd e2 (ho _)
    · rename_i heq; injection heq with _ e2; exact absurd e2 (hO _)
    · rename_i heq; injection heq with _ e2; exact absurd e2 (hx _)
    · rename_i heq; injection heq with _ e2; exact absurd e2 (hX _)
    · rename_i heq; injection heq with _ e2; rw [e2]
    · rename_i heq; exact absurd rfl (heq s)
  · rw [underscoreOk.eq_def]
    split
    · rename_i heq; injection heq with _ e2; exact absurd e2 (hb _)
    · rename_i heq; injection heq with _ e2; exact absurd e2 (hB _)
    · rename_i heq; injection heq with _ e2; exact absurd e2 (ho _)
    · rename_i heq; injection heq with _ e2; exact absurd e2 (hO _)
    · rename_i heq; injection heq with _ e2; exact absurd e2 (hx _)
    · rename_i heq; injection heq with _ e2; exact absurd e2 (hX _)
    · exact loop_digit (hex := false) (c := '0') (by decide)

theorem detectBase_decimal {s : Text} (h : ∀ r, s ≠ '0' :: r) :
    detectBase s = (10, s) ∧ underscoreOk s = underscoreLoop false .start s := by
  constructor
  · rw [detectBase.eq_def]
    split <;> first | rfl | exact absurd rfl (h _)
  · rw [underscoreOk.eq_def]
    split <;> first | rfl | exact absurd rfl (h _)

theorem parseUint_eq {s : Text} (hs : s ≠ []) (n : Nat) :
    parseUint s = some n ↔ n < 2 ^ 64 ∧ digitsValue (detectBase s).1 (detectBase s).2 0 = some n ∧
      ('_' ∈ (detectBase s).2 → underscoreOk s = true) := by
  unfold parseUint
  rw [if_neg hs]
  split
  · rename_i h
    simp [h]
  · rename_i k h
    rw [h]
    split
    · rename_i hk
      simp only [reduceCtorEq, Option.some.injEq, false_iff]
      rintro ⟨h1, rfl, -⟩
      omega
    · rename_i hk
      split
      · rename_i hu
        simp only [Bool.and_eq_true, decide_eq_true_eq, Bool.not_eq_true'] at hu
        simp only [reduceCtorEq, false_iff]
        rintro ⟨-, -, h3⟩
        rw [h3 hu.1] at hu
        exact absurd hu.2 (by decide)
      · rename_i hu
        simp only [Bool.and_eq_true, decide_eq_true_eq, Bool.not_eq_true', not_and, Bool.not_eq_false] at hu
        simp only [Option.some.injEq]
        constructor
        · rintro rfl
          exact ⟨by omega, rfl, hu⟩
        · exact fun h => h.2.1

theorem prefixes_iff (pre : Text) (b : Nat) :
    (pre, b) ∈ basePrefixes ↔ (pre = ['0'] ∧ b = 8) ∨ ∃ c x, (c, b, x) ∈ baseLetters ∧ pre = ['0', c] := by
  have e : basePrefixes = [(['0', 'b'], 2), (['0', 'B'], 2), (['0', 'o'], 8), (['0', 'O'], 8), (['0', 'x'], 16), (['0', 'X'], 16), (['0'], 8)] := rfl
  rw [e]
  simp only [baseLetters, List.mem_cons, Prod.mk.injEq, List.not_mem_nil, or_false]
  constructor
  · rintro (⟨rfl, rfl⟩ | ⟨rfl, rfl⟩ | ⟨rfl, rfl⟩ | ⟨rfl, rfl⟩ | ⟨rfl, rfl⟩ | ⟨rfl, rfl⟩ | ⟨rfl, rfl⟩) <;> simp
  · rintro (⟨rfl, rfl⟩ | ⟨c, x, h, rfl⟩)
    · simp
    · rcases h with ⟨rfl, rfl, rfl⟩ | ⟨rfl, rfl, rfl⟩ | ⟨rfl, rfl, rfl⟩ | ⟨rfl, rfl, rfl⟩ | ⟨rfl, rfl, rfl⟩ | ⟨rfl, rfl, rfl⟩ <;> simp

theorem letters_no_digit {c : Char} {b : Nat} {x : Bool} (h : (c, b, x) ∈ baseLetters) {d : Nat} (hd : d < 10) : ¬ IsDigit c d ∧ c ≠ '_' := by
  simp only [baseLetters, List.mem_cons, Prod.mk.injEq, List.not_mem_nil, or_false] at h
  have hc : c = 'b' ∨ c = 'B' ∨ c = 'o' ∨ c = 'O' ∨ c = 'x' ∨ c = 'X' := by tauto
  constructor
  · intro hi
    have := digitFor_of_isDigit hi false (by simpa using hd)
    rcases hc with rfl | rfl | rfl | rfl | rfl | rfl <;> revert this <;> decide
  · rcases hc with rfl | rfl | rfl | rfl | rfl | rfl <;> decide

/-- The first character of a text in groups is its first digit. -/
theorem underscored_head {base : Nat} {gs : List Text} {ds : List Nat} (h : Groups base gs ds) :
    ∃ c r d dr, underscored gs = c :: r ∧ ds = d :: dr ∧ IsDigit c d ∧ d < base := by
  obtain ⟨h1, h2, h3, h4⟩ := h
  cases gs with
  | nil => exact absurd rfl h1
  | cons g gs =>
    cases g with
    | nil => exact absurd rfl (h2 _ (by simp))
    | cons c g =>
      rw [List.flatten_cons, List.cons_append] at h3
      cases h3 with
      | cons hd h3 => exact ⟨c, _, _, _, underscored_cons_cons c g gs, rfl, hd, h4 _ (by simp)⟩

theorem isDigit_char_zero : IsDigit '0' 0 := .inl rfl

/-- What `ParseUint` reads. -/
theorem parseUint_iff (s : Text) (n : Nat) : parseUint s = some n ↔ n < 2 ^ 64 ∧ Natural s n := by
  by_cases hs : s = []
  · subst hs
    simp only [parseUint, if_true, reduceCtorEq, false_iff, not_and]
    intro _ h
    generalize ht : ([] : Text) = t at h
    cases h with
    | zero => cases ht
    | decimal hg _ => exact underscored_ne_nil (grouped_of_groups hg) ht.symm
    | based hp hg => exact underscored_ne_nil (grouped_of_groups hg) (List.append_eq_nil_iff.mp ht.symm).2
    | split hp hg => simp at ht
  rw [parseUint_eq hs]
  refine and_congr_right fun _ => ?_
  by_cases h0 : ∃ r, s = '0' :: r
  · obtain ⟨r, rfl⟩ := h0
    by_cases hl : ∃ c r' b x, r = c :: r' ∧ (c, b, x) ∈ baseLetters
    · obtain ⟨c, r', b, x, rfl, hl⟩ := hl
      cases r' with
      | nil =>
        -- only the prefix
        have hb : digitsValue (detectBase ['0', c]).1 (detectBase ['0', c]).2 0 = none := by
          simp only [baseLetters, List.mem_cons, Prod.mk.injEq, List.not_mem_nil, or_false] at hl
          rcases hl with ⟨rfl, rfl, rfl⟩ | ⟨rfl, rfl, rfl⟩ | ⟨rfl, rfl, rfl⟩ | ⟨rfl, rfl, rfl⟩ | ⟨rfl, rfl, rfl⟩ | ⟨rfl, rfl, rfl⟩ <;> decide
        rw [hb]
        simp only [reduceCtorEq, false_and, false_iff]
        intro h
        generalize ht : ['0', c] = t at h
        cases h with
        | zero => cases ht
        | decimal hg hd =>
          obtain ⟨c', r, d, dr, e1, e2, e3, -⟩ := underscored_head hg
          rw [e1] at ht
          injection ht with ht1 ht2
          subst ht1
          exact hd (by rw [e2, isDigit_unique e3 isDigit_char_zero]; rfl)
        | based hp hg =>
          obtain ⟨c', r, d, dr, e1, e2, e3, e4⟩ := underscored_head hg
          rw [e1] at ht
          rcases (prefixes_iff _ _).mp hp with ⟨rfl, rfl⟩ | ⟨c2, x2, h2, rfl⟩
          · injection ht with _ ht
            injection ht with ht _
            subst ht
            exact (letters_no_digit hl (by omega)).1 e3
          · have := congrArg List.length ht
            simp at this
        | split hp hg =>
          have hne := underscored_ne_nil (grouped_of_groups hg)
          rcases (prefixes_iff _ _).mp hp with ⟨rfl, rfl⟩ | ⟨c2, x2, h2, rfl⟩
          · injection ht with _ ht
            injection ht with _ ht
            exact hne ht.symm
          · have := congrArg List.length ht
            simp at this
      | cons d r' =>
        obtain ⟨e1, e2, e3⟩ := detectBase_letter hl d r'
        rw [e1, e2]
        have hb := body_iff b x e3 false (d :: r') (by simp) n
        simp only [Bool.false_eq_true, if_false, true_and] at hb
        rw [hb]
        constructor
        · rintro ⟨gs, ds, hg, rfl, h | h⟩
          · rw [h]
            exact .based (pre := ['0', c]) ((prefixes_iff _ _).mpr (.inr ⟨c, x, hl, rfl⟩)) hg
          · rw [h]
            exact .split (pre := ['0', c]) ((prefixes_iff _ _).mpr (.inr ⟨c, x, hl, rfl⟩)) hg
        · intro h
          have huniq : ∀ {c2 b2 x2}, (c2, b2, x2) ∈ baseLetters → c = c2 → b2 = b := by
            intro c2 b2 x2 h2 hc
            subst hc
            simp only [baseLetters, List.mem_cons, Prod.mk.injEq, List.not_mem_nil, or_false] at hl h2
            rcases hl with ⟨rfl, rfl, rfl⟩ | ⟨rfl, rfl, rfl⟩ | ⟨rfl, rfl, rfl⟩ | ⟨rfl, rfl, rfl⟩ | ⟨rfl, rfl, rfl⟩ | ⟨rfl, rfl, rfl⟩ <;>
              (simp at h2; exact h2.1)
          generalize ht : '0' :: c :: d :: r' = t at h
          cases h with
          | zero => simp at ht
          | decimal hg hd =>
            obtain ⟨c', r, d, dr, e1, e2, e3, -⟩ := underscored_head hg
            rw [e1] at ht
            injection ht with ht1 ht2
            subst ht1
            exact absurd (by rw [e2, isDigit_unique e3 isDigit_char_zero]; rfl) hd
          | based hp hg =>
            obtain ⟨c', r, d', dr, e1, e2, e3, e4⟩ := underscored_head hg
            rcases (prefixes_iff _ _).mp hp with ⟨rfl, rfl⟩ | ⟨c2, x2, h2, rfl⟩
            · rw [e1] at ht
              injection ht with _ ht
              injection ht with ht _
              subst ht
              exact absurd e3 (letters_no_digit hl (by omega)).1
            · injection ht with _ ht
              injection ht with ht1 ht2
              obtain rfl := huniq h2 ht1
              exact ⟨_, _, hg, rfl, .inl ht2⟩
          | split hp hg =>
            rcases (prefixes_iff _ _).mp hp with ⟨rfl, rfl⟩ | ⟨c2, x2, h2, rfl⟩
            · injection ht with _ ht
              injection ht with ht _
              exact absurd ht (letters_no_digit hl (d := 0) (by omega)).2
            · injection ht with _ ht
              injection ht with ht1 ht2
              obtain rfl := huniq h2 ht1
              exact ⟨_, _, hg, rfl, .inr ht2⟩
    · obtain ⟨e1, e2⟩ := detectBase_octal (s := r) fun c r' b x he hm => hl ⟨c, r', b, x, he, hm⟩
      rw [e1, e2]
      by_cases hr : r = []
      · subst hr
        simp only [digitsValue, Option.some.injEq, List.not_mem_nil, false_implies, and_true]
        constructor
        · rintro rfl
          exact .zero
        · intro h
          generalize ht : ['0'] = t at h
          cases h with
          | zero => rfl
          | decimal hg hd =>
            obtain ⟨c', r, d, dr, e1, e2, e3, -⟩ := underscored_head hg
            rw [e1] at ht
            injection ht with ht1 ht2
            subst ht1
            exact absurd (by rw [e2, isDigit_unique e3 isDigit_char_zero]; rfl) hd
          | based hp hg =>
            have hne := underscored_ne_nil (grouped_of_groups hg)
            rcases (prefixes_iff _ _).mp hp with ⟨rfl, rfl⟩ | ⟨c2, x2, h2, rfl⟩
            · injection ht with _ ht
              exact absurd ht.symm hne
            · simp at ht
          | split hp hg =>
            rcases (prefixes_iff _ _).mp hp with ⟨rfl, rfl⟩ | ⟨c2, x2, h2, rfl⟩ <;> simp at ht
      · have hb := body_iff 8 false (by decide) false r hr n
        simp only [Bool.false_eq_true, if_false, true_and] at hb
        rw [hb]
        constructor
        · rintro ⟨gs, ds, hg, rfl, h | h⟩
          · rw [h]
            exact .based (pre := ['0']) ((prefixes_iff _ _).mpr (.inl ⟨rfl, rfl⟩)) hg
          · rw [h]
            exact .split (pre := ['0']) ((prefixes_iff _ _).mpr (.inl ⟨rfl, rfl⟩)) hg
        · intro h
          generalize ht : '0' :: r = t at h
          cases h with
          | zero =>
            injection ht with _ ht
            exact absurd ht hr
          | decimal hg hd =>
            obtain ⟨c', r, d, dr, e1, e2, e3, -⟩ := underscored_head hg
            rw [e1] at ht
            injection ht with ht1 ht2
            subst ht1
            exact absurd (by rw [e2, isDigit_unique e3 isDigit_char_zero]; rfl) hd
          | based hp hg =>
            rcases (prefixes_iff _ _).mp hp with ⟨rfl, rfl⟩ | ⟨c2, x2, h2, rfl⟩
            · injection ht with _ ht
              exact ⟨_, _, hg, rfl, .inl ht⟩
            · injection ht with _ ht
              exact absurd ⟨_, _, _, _, ht, h2⟩ hl
          | split hp hg =>
            rcases (prefixes_iff _ _).mp hp with ⟨rfl, rfl⟩ | ⟨c2, x2, h2, rfl⟩
            · injection ht with _ ht
              exact ⟨_, _, hg, rfl, .inr ht⟩
            · injection ht with _ ht
              exact absurd ⟨_, _, _, _, ht, h2⟩ hl
  · obtain ⟨e1, e2⟩ := detectBase_decimal (s := s) fun r he => h0 ⟨r, he⟩
    rw [e1, e2]
    have hb := body_iff 10 false (by decide) true s hs n
    simp only [if_true, Bool.true_eq_false, false_and, or_false] at hb
    rw [hb]
    constructor
    · rintro ⟨gs, ds, hg, rfl, rfl⟩
      refine .decimal hg fun hd => ?_
      obtain ⟨c', r, d, dr, e1, e2, e3, -⟩ := underscored_head hg
      rw [e2] at hd
      simp only [List.head?_cons, Option.some.injEq] at hd
      subst hd
      exact h0 ⟨r, by rw [e1, isDigit_zero e3]⟩
    · intro h
      have hz : ∀ (pre : Text) (b : Nat) (r : Text), (pre, b) ∈ basePrefixes → s ≠ pre ++ r := by
        intro pre b r hp he
        rcases (prefixes_iff _ _).mp hp with ⟨rfl, rfl⟩ | ⟨c2, x2, h2, rfl⟩
        · exact h0 ⟨_, he⟩
        · exact h0 ⟨_, he⟩
      generalize ht : s = t at h
      cases h with
      | zero => exact absurd ⟨[], ht⟩ h0
      | decimal hg hd => exact ⟨_, _, hg, rfl, rfl⟩
      | based hp hg => exact absurd ht (hz _ _ _ hp)
      | split hp hg => exact absurd ht (hz _ _ _ hp)

end Verif.Dyn
