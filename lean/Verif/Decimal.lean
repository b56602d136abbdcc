import Verif.Num
import Mathlib.Algebra.Order.Floor.Ring
import Mathlib.Data.Rat.Floor
import Mathlib.Tactic.IntervalCases

/-!
# Decimal text

Model of the parts of Go's `fmt`/`strconv` that the code relies on: `%d`, `%.nf` (round half to even on the exact value) and
`strconv.ParseFloat` for decimal notation. Texts are lists of characters.
-/

namespace Verif

universe u

/-- A text. -/
abbrev Text := List Char

namespace Decimal

/-- The character of a digit `0..9`. -/
def digitChar (d : Nat) : Char := Char.ofNat (48 + d)

/-- The value of a digit character. -/
def digitVal (c : Char) : Option Nat :=
  if 48 ≤ c.toNat ∧ c.toNat ≤ 57 then some (c.toNat - 48) else none

/-- `%d` for a natural number; `fuel` bounds the number of digits. -/
def natTextAux : Nat → Nat → Text
  | 0, _ => []
  | fuel + 1, q => if q < 10 then [digitChar q] else natTextAux fuel (q / 10) ++ [digitChar (q % 10)]

/-- `%d` for a natural number. -/
def natText (q : Nat) : Text := natTextAux (q + 1) q

/-- The last `n` decimal digits of `q`, with leading zeros (`%0nd` of `q % 10^n`). -/
def padDigits : Nat → Nat → Text
  | 0, _ => []
  | n + 1, q => padDigits n (q / 10) ++ [digitChar (q % 10)]

/-- The text of `q * 10^(-n)` with exactly `n` decimals. -/
def fixedText (n q : Nat) : Text :=
  natText (q / 10 ^ n) ++ (if n = 0 then [] else '.' :: padDigits n q)

/-- `%.nf` for a number with the given sign and the magnitude `q * 10^(-n)`. Go writes the sign of a negative number even when
it rounds to zero (`-0.000`). -/
def signedText (neg : Bool) (n q : Nat) : Text :=
  (if neg then ['-'] else []) ++ fixedText n q

/-- Rounding of a number `y ≥ 0` to a natural number, ties to even (`strconv`'s rounding of the exact value). -/
def roundHalfEven {K : Type u} [Field K] [LinearOrder K] [FloorRing K] (y : K) : Nat :=
  let f := ⌊y⌋.toNat
  if 2 * (y - f) < 1 then f
  else if 1 < 2 * (y - f) then f + 1
  else if f % 2 = 0 then f else f + 1

/-- `%.nf`. -/
def fmt {K : Type u} [Field K] [LinearOrder K] [FloorRing K] (n : Nat) (x : K) : Text :=
  signedText (decide (x < 0)) n (roundHalfEven (|x| * 10 ^ n))

/-- Reads digits: value so far, number of digits so far, rest. -/
def takeDigits : Text → Nat → Nat → Nat × Nat × Text
  | [], v, k => (v, k, [])
  | c :: cs, v, k =>
    match digitVal c with
    | some d => takeDigits cs (v * 10 + d) (k + 1)
    | none => (v, k, c :: cs)

/-- An optional sign. -/
def takeSign : Text → Bool × Text
  | '-' :: cs => (true, cs)
  | '+' :: cs => (false, cs)
  | cs => (false, cs)

/-- The fraction after the digits before the point (`d` is value, number of digits, rest): value, number of digits, number of
decimals, rest. -/
def takeFraction (d : Nat × Nat × Text) : Nat × Nat × Nat × Text :=
  match d.2.2 with
  | '.' :: s =>
    let f := takeDigits s d.1 d.2.1
    (f.1, f.2.1, f.2.1 - d.2.1, f.2.2)
  | s => (d.1, d.2.1, 0, s)

/-- The optional exponent, which must end the text. -/
def takeExponent : Text → Option Int
  | [] => some 0
  | c :: s =>
    if c = 'e' ∨ c = 'E' then
      let sg := takeSign s
      let d := takeDigits sg.2 0 0
      if d.2.1 = 0 ∨ d.2.2 ≠ [] then none
      else some (if sg.1 then -(d.1 : Int) else (d.1 : Int))
    else none

/-- `strconv.ParseFloat` for decimal notation: sign, digits with an optional point (at least one digit), optional exponent. The
result `(neg, m, e)` stands for `± m * 10^e`. -/
def parseDecimal (s : Text) : Option (Bool × Nat × Int) :=
  let sg := takeSign s
  let f := takeFraction (takeDigits sg.2 0 0)
  if f.2.1 = 0 then none
  else (takeExponent f.2.2.2).map fun e => (sg.1, f.1, e - f.2.2.1)

/-- `± m * 10^e` in a field. -/
def value {K : Type u} [Field K] (d : Bool × Nat × Int) : K :=
  (if d.1 then -1 else 1) * (d.2.1 : K) * 10 ^ d.2.2

/-! ### Facts -/

theorem digitVal_digitChar {d : Nat} (h : d < 10) : digitVal (digitChar d) = some d := by
  interval_cases d <;> decide

/-- Texts that do not start with a digit. -/
def NoDigitHead (s : Text) : Prop := ∀ c, s.head? = some c → digitVal c = none

theorem noDigitHead_nil : NoDigitHead [] := by intro c h; simp at h

theorem noDigitHead_cons {c : Char} {s : Text} (h : digitVal c = none) : NoDigitHead (c :: s) := by
  intro d hd; simp at hd; exact hd ▸ h

theorem takeDigits_noDigit {s : Text} (h : NoDigitHead s) (v k : Nat) : takeDigits s v k = (v, k, s) := by
  cases s with
  | nil => rfl
  | cons c cs => simp [takeDigits, h c rfl]

theorem takeDigits_padDigits (n : Nat) : ∀ (q v k : Nat) (s : Text),
    takeDigits (padDigits n q ++ s) v k = takeDigits s (v * 10 ^ n + q % 10 ^ n) (k + n) := by
  induction n with
  | zero => intro q v k s; simp [padDigits, Nat.mod_one]
  | succ n ih =>
    intro q v k s
    have hd : q % 10 < 10 := Nat.mod_lt _ (by norm_num)
    simp only [padDigits, List.append_assoc, ih]
    simp only [List.cons_append, List.nil_append, takeDigits, digitVal_digitChar hd]
    congr 1
    have h1 : q % 10 ^ (n + 1) = 10 * (q / 10 % 10 ^ n) + q % 10 := by
      rw [pow_succ, mul_comm, Nat.mod_mul]; ring
    rw [h1]; ring

/-- Number of digits of `natText`. -/
def natLen : Nat → Nat → Nat
  | 0, _ => 0
  | fuel + 1, q => if q < 10 then 1 else natLen fuel (q / 10) + 1

theorem natTextAux_eq_pad (fuel : Nat) : ∀ q, q < fuel →
    natTextAux fuel q = padDigits (natLen fuel q) q ∧ q < 10 ^ natLen fuel q ∧ 0 < natLen fuel q := by
  induction fuel with
  | zero => intro q h; omega
  | succ fuel ih =>
    intro q h
    by_cases hq : q < 10
    · simp [natTextAux, natLen, hq, padDigits, Nat.mod_eq_of_lt hq]
    · have hlt : q / 10 < fuel := by omega
      obtain ⟨h1, h2, h3⟩ := ih _ hlt
      simp only [natTextAux, natLen, hq, if_false, padDigits, h1]
      refine ⟨trivial, ?_, by omega⟩
      rw [pow_succ]; omega

/-- The number of digits of `%d`. -/
def numLen (q : Nat) : Nat := natLen (q + 1) q

theorem natText_eq_pad (q : Nat) : natText q = padDigits (numLen q) q ∧ q < 10 ^ numLen q ∧ 0 < numLen q :=
  natTextAux_eq_pad _ _ (Nat.lt_succ_self q)

theorem takeDigits_natText (q v k : Nat) (s : Text) :
    takeDigits (natText q ++ s) v k = takeDigits s (v * 10 ^ numLen q + q) (k + numLen q) := by
  obtain ⟨h1, h2, -⟩ := natText_eq_pad q
  rw [h1, takeDigits_padDigits, Nat.mod_eq_of_lt h2]

/-- `natText` is injective: different numbers are printed differently. -/
theorem natText_injective : Function.Injective natText := by
  intro a b h
  have ha := takeDigits_natText a 0 0 []
  have hb := takeDigits_natText b 0 0 []
  rw [h, hb] at ha
  simp [takeDigits] at ha
  exact ha.1.symm

theorem padDigits_ne_nil_head (n q : Nat) (h : 0 < n) : ∃ d cs, padDigits n q = digitChar d :: cs ∧ d < 10 := by
  induction n generalizing q with
  | zero => omega
  | succ n ih =>
    cases n with
    | zero => exact ⟨q % 10, [], by simp [padDigits], Nat.mod_lt _ (by norm_num)⟩
    | succ n =>
      obtain ⟨d, cs, h1, h2⟩ := ih (q / 10) (by omega)
      refine ⟨d, cs ++ [digitChar (q % 10)], ?_, h2⟩
      rw [padDigits, h1]; rfl

theorem natText_head (q : Nat) : ∃ d cs, natText q = digitChar d :: cs ∧ d < 10 := by
  obtain ⟨h1, -, h3⟩ := natText_eq_pad q
  rw [h1]; exact padDigits_ne_nil_head _ _ h3

theorem takeSign_digit {d : Nat} (h : d < 10) (cs : Text) :
    takeSign (digitChar d :: cs) = (false, digitChar d :: cs) := by
  interval_cases d <;> rfl

theorem takeSign_natText (q : Nat) (s : Text) : takeSign (natText q ++ s) = (false, natText q ++ s) := by
  obtain ⟨d, cs, h1, h2⟩ := natText_head q
  rw [h1]; exact takeSign_digit h2 _

/-- Parsing what was printed gives the printed decimal back. -/
theorem parseDecimal_signedText (neg : Bool) (n q : Nat) :
    parseDecimal (signedText neg n q) = some (neg, q, -(n : Int)) := by
  have hs : takeSign (signedText neg n q) = (neg, fixedText n q) := by
    cases neg
    · simp only [signedText, fixedText]; exact takeSign_natText _ _
    · rfl
  have h0 : ¬ numLen (q / 10 ^ n) = 0 := by have := (natText_eq_pad (q / 10 ^ n)).2.2; omega
  have hq : q / 10 ^ n * 10 ^ n + q % 10 ^ n = q := Nat.div_add_mod' q (10 ^ n)
  have hd : takeFraction (takeDigits (fixedText n q) 0 0) =
      (q, numLen (q / 10 ^ n) + n, n, []) := by
    unfold fixedText
    rw [takeDigits_natText]
    by_cases hn : n = 0
    · subst hn
      simp [takeDigits, takeFraction]
    · simp only [hn, if_false]
      rw [takeDigits_noDigit (noDigitHead_cons (by decide))]
      have := takeDigits_padDigits n q (0 * 10 ^ numLen (q / 10 ^ n) + q / 10 ^ n) (0 + numLen (q / 10 ^ n)) []
      rw [List.append_nil] at this
      simp only [takeFraction, this, takeDigits]
      simp [hq]
  unfold parseDecimal
  simp only [hs, hd]
  simp [takeExponent, h0]

theorem signedText_injective {neg neg' : Bool} {n n' q q' : Nat} (h : signedText neg n q = signedText neg' n' q') :
    neg = neg' ∧ n = n' ∧ q = q' := by
  have h1 := parseDecimal_signedText neg n q
  rw [h, parseDecimal_signedText] at h1
  simp at h1
  obtain ⟨a, b, c⟩ := h1
  exact ⟨a.symm, c.symm, b.symm⟩

set_option linter.unusedSectionVars false

section Round

variable {K : Type u} [Field K] [LinearOrder K] [IsStrictOrderedRing K] [FloorRing K]

/-- The rounded value is within one half. -/
theorem roundHalfEven_close {y : K} (hy : 0 ≤ y) : |(roundHalfEven y : K) - y| ≤ 1 / 2 := by
  have hf : (0 : Int) ≤ ⌊y⌋ := Int.floor_nonneg.2 hy
  have hc : ((⌊y⌋.toNat : Nat) : K) = (⌊y⌋ : K) := by
    have : ((⌊y⌋.toNat : Nat) : Int) = ⌊y⌋ := Int.toNat_of_nonneg hf
    exact_mod_cast congrArg (Int.cast : Int → K) this
  have h1 := Int.floor_le y
  have h2 := Int.lt_floor_add_one y
  unfold roundHalfEven
  simp only [hc]
  rw [abs_le]
  split_ifs <;> push_cast [hc] <;> constructor <;> linarith

theorem fmt_eq_iff {n : Nat} {x y : K} : fmt n x = fmt n y ↔
    ((x < 0 ↔ y < 0) ∧ roundHalfEven (|x| * 10 ^ n) = roundHalfEven (|y| * 10 ^ n)) := by
  constructor
  · intro h
    obtain ⟨a, -, c⟩ := signedText_injective h
    exact ⟨by simpa using a, c⟩
  · rintro ⟨a, c⟩
    simp [fmt, a, c]

/-- Two numbers that print the same with `n` decimals differ by at most one unit of the last decimal. -/
theorem fmt_close {n : Nat} {x y : K} (h : fmt n x = fmt n y) : |x - y| ≤ 1 / 10 ^ n := by
  obtain ⟨hs, hr⟩ := fmt_eq_iff.1 h
  have hp : (0 : K) < 10 ^ n := by positivity
  have hx := roundHalfEven_close (y := |x| * 10 ^ n) (by positivity)
  have hy := roundHalfEven_close (y := |y| * 10 ^ n) (by positivity)
  rw [hr] at hx
  have h3 : |(|x| - |y|)| * 10 ^ n ≤ 1 := by
    have : (|x| - |y|) * 10 ^ n = (|x| * 10 ^ n - roundHalfEven (|y| * 10 ^ n)) + (roundHalfEven (|y| * 10 ^ n) - |y| * 10 ^ n) := by ring
    rw [← abs_of_pos hp, ← abs_mul, this]
    calc _ ≤ _ := abs_add_le _ _
      _ ≤ 1 / 2 + 1 / 2 := add_le_add (by rw [abs_sub_comm]; exact hx) hy
      _ = 1 := by norm_num
  have h4 : |x - y| = |(|x| - |y|)| := by
    by_cases hx0 : x < 0
    · have hy0 := hs.1 hx0
      rw [abs_of_neg hx0, abs_of_neg hy0, ← abs_neg]; congr 1; ring
    · have hy0 : ¬ y < 0 := fun h => hx0 (hs.2 h)
      rw [abs_of_nonneg (not_lt.1 hx0), abs_of_nonneg (not_lt.1 hy0)]
  rw [h4, le_div_iff₀ hp]; exact h3

/-- The number that `%.nf` denotes: `x` rounded to `n` decimals. -/
def rounded (n : Nat) (x : K) : K :=
  (if x < 0 then -1 else 1) * (roundHalfEven (|x| * 10 ^ n) : K) / 10 ^ n

theorem rounded_close (n : Nat) (x : K) : |rounded n x - x| ≤ 1 / 2 / 10 ^ n := by
  have hp : (0 : K) < 10 ^ n := by positivity
  have hx := roundHalfEven_close (y := |x| * 10 ^ n) (by positivity)
  have : rounded n x - x = (if x < 0 then -1 else 1) * ((roundHalfEven (|x| * 10 ^ n) : K) - |x| * 10 ^ n) / 10 ^ n := by
    unfold rounded
    split_ifs with h
    · rw [abs_of_neg h]; field_simp; ring
    · rw [abs_of_nonneg (not_lt.1 h)]; field_simp
  rw [this, abs_div, abs_mul, abs_of_pos hp]
  have h1 : |(if x < 0 then (-1 : K) else 1)| = 1 := by split_ifs <;> simp
  rw [h1, one_mul]
  gcongr

theorem roundHalfEven_nat (m : Nat) : roundHalfEven (m : K) = m := by
  simp [roundHalfEven]

@[simp] theorem rounded_zero (n : Nat) : rounded n (0 : K) = 0 := by
  have h := roundHalfEven_nat (K := K) 0
  rw [Nat.cast_zero] at h
  simp [rounded, h]

/-- Rounding a rounded number changes nothing. -/
theorem rounded_idem (n : Nat) (x : K) : rounded n (rounded n x) = rounded n x := by
  have hp : (0 : K) < 10 ^ n := by positivity
  generalize hm : roundHalfEven (|x| * 10 ^ n) = m
  have hx : rounded n x = (if x < 0 then -1 else 1) * (m : K) / 10 ^ n := by rw [rounded, hm]
  rw [hx]
  rcases Nat.eq_zero_or_pos m with rfl | h
  · simp
  · have h' : (0 : K) < m := by exact_mod_cast h
    have hq : 0 < (m : K) / 10 ^ n := div_pos h' hp
    split_ifs with hs
    · have e : (-1 * (m : K) / 10 ^ n) = -((m : K) / 10 ^ n) := by ring
      rw [e, rounded, abs_neg, abs_of_pos hq, div_mul_cancel₀ _ hp.ne', roundHalfEven_nat, if_pos (by linarith)]
      ring
    · rw [one_mul, rounded, abs_of_pos hq, div_mul_cancel₀ _ hp.ne', roundHalfEven_nat, if_neg (by linarith)]
      ring

/-- Parsing what `%.nf` printed gives the rounded number. -/
theorem value_parse_fmt (n : Nat) (x : K) :
    (parseDecimal (fmt n x)).map (value (K := K)) = some (rounded n x) := by
  unfold fmt
  rw [parseDecimal_signedText]
  simp only [Option.map_some, value, rounded, Option.some.injEq, zpow_neg, zpow_natCast, decide_eq_true_eq]
  rw [div_eq_mul_inv]

end Round

example : fmt (K := ℚ) 3 (-1 / 3) = "-0.333".toList := by decide +kernel
example : fmt (K := ℚ) 3 (-1 / 30000) = "-0.000".toList := by decide +kernel
example : fmt (K := ℚ) 2 (1 / 8) = "0.12".toList := by decide +kernel
example : fmt (K := ℚ) 0 (2469 / 2) = "1234".toList := by decide +kernel
example : (parseDecimal "-12.50e2".toList).map (value (K := ℚ)) = some (-1250) := by decide +kernel
example : parseDecimal "1.2.3".toList = none := by decide +kernel

end Decimal
end Verif
