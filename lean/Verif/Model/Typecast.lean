import Verif.Model.Params

/-!
# Model of the conversions and the typed lookups (`dynmap/typecast.go`, `dynmap/dynmap.go`) and of maps as URL values

`strconv.ParseInt` is written out. The conversion of a number to an integer (`int64(v)` of Go) and the printing of values that are not texts
(`fmt.Sprint`) are parameters. Go's `int` has 64 bits. `url.Values.Encode` and `url.ParseQuery` are inverse to each other (trusted), so the
text of a URL is not modelled, only the values. Times are not values of the model.
-/

namespace Verif.Dyn

open Verif.Path

universe u

variable {F : Type u}

/-! ## Integers -/

/-- The value of a digit or a letter in `strconv.ParseUint`. -/
def digitOf (c : Char) : Option Nat :=
  if decide ('0' ≤ c) && decide (c ≤ '9') then some (c.toNat - '0'.toNat)
  else if decide ('a' ≤ c) && decide (c ≤ 'z') then some (c.toNat - 'a'.toNat + 10)
  else if decide ('A' ≤ c) && decide (c ≤ 'Z') then some (c.toNat - 'A'.toNat + 10)
  else none

/-- `strconv.ParseUint` with base 0: the base that the beginning of the text tells, and the rest. -/
def detectBase : Text → Nat × Text
  | '0' :: 'b' :: c :: s => (2, c :: s)
  | '0' :: 'B' :: c :: s => (2, c :: s)
  | '0' :: 'o' :: c :: s => (8, c :: s)
  | '0' :: 'O' :: c :: s => (8, c :: s)
  | '0' :: 'x' :: c :: s => (16, c :: s)
  | '0' :: 'X' :: c :: s => (16, c :: s)
  | '0' :: s => (8, s)
  | s => (10, s)

/-- `strconv.ParseUint`: the digits, underscores left out. -/
def digitsValue (base : Nat) : Text → Nat → Option Nat
  | [], n => some n
  | c :: s, n =>
    if c = '_' then digitsValue base s n
    else
      match digitOf c with
      | none => none
      | some d => if base ≤ d then none else digitsValue base s (n * base + d)

/-- The kinds of characters seen last by `strconv.underscoreOK`: the beginning, a digit, an underscore, something else. -/
inductive SeenLast where
  | start
  | digit
  | under
  | other
deriving DecidableEq

/-- `strconv.underscoreOK`: the loop over the digits. -/
def underscoreLoop (hex : Bool) (last : SeenLast) : Text → Bool
  | [] => decide (last ≠ .under)
  | c :: s =>
    if (decide ('0' ≤ c) && decide (c ≤ '9')) || (hex && ((decide ('a' ≤ c) && decide (c ≤ 'f')) || (decide ('A' ≤ c) && decide (c ≤ 'F')))) then
      underscoreLoop hex .digit s
    else if c = '_' then (if last = .digit then underscoreLoop hex .under s else false)
    else if last = .under then false
    else underscoreLoop hex .other s

/-- `strconv.underscoreOK` of a text without sign: a base prefix counts as a digit. -/
def underscoreOk : Text → Bool
  | '0' :: 'b' :: s => underscoreLoop false .digit s
  | '0' :: 'B' :: s => underscoreLoop false .digit s
  | '0' :: 'o' :: s => underscoreLoop false .digit s
  | '0' :: 'O' :: s => underscoreLoop false .digit s
  | '0' :: 'x' :: s => underscoreLoop true .digit s
  | '0' :: 'X' :: s => underscoreLoop true .digit s
  | s => underscoreLoop false .start s

/-- `strconv.ParseUint(s, 0, 64)`. Where Go tells a wrong text from one out of range, this only says that there is an error. -/
def parseUint (s : Text) : Option Nat :=
  if s = [] then none
  else
    match digitsValue (detectBase s).1 (detectBase s).2 0 with
    | none => none
    | some n => if 2 ^ 64 ≤ n then none else if '_' ∈ (detectBase s).2 && !underscoreOk s then none else some n

/-- `strconv.ParseInt(s, 0, 64)`. -/
def parseInt : Text → Option Int
  | '-' :: s => (parseUint s).bind fun n => if 2 ^ 63 < n then none else some (-(n : Int))
  | '+' :: s => (parseUint s).bind fun n => if 2 ^ 63 ≤ n then none else some (n : Int)
  | s => (parseUint s).bind fun n => if 2 ^ 63 ≤ n then none else some (n : Int)

/-- dynmap/typecast.go:86-122 (`ToInt64`), dynmap/typecast.go:56-59 (`ToInt`). -/
def toInt64 (toInt : F → Int) : Val F → Option Int
  | .str s => parseInt (trimSpace s)
  | .num x => some (toInt x)
  | _ => none

/-- dynmap/dynmap.go:267-277, 295-301 (`GetInt64`, `GetInt`). -/
def getInt (toInt : F → Int) (m : DMap F) (key : Text) : Option Int := (get m key).bind (toInt64 toInt)

/-- dynmap/dynmap.go:279-293 (`MustInt64`, `MustInt`). -/
def mustInt (toInt : F → Int) (m : DMap F) (key : Text) (d : Int) : Int := (getInt toInt m key).getD d

/-- dynmap/dynmap.go:303-321 (`GetFloat64`, `MustFloat64`). -/
def getFloat [Num F] (m : DMap F) (key : Text) : Option F := (get m key).bind toFloat64

/-- dynmap/dynmap.go:392-412 (`GetBool`, `MustBool`). -/
def getBool (m : DMap F) (key : Text) : Option Bool := (get m key).bind toBool

/-- dynmap/dynmap.go:323-335, 667-670 (`Contains`, `ContainsAll`, `Exists`). -/
def containsAll (m : DMap F) (keys : List Text) : Bool := keys.all fun k => (get m k).isSome

/-! ## Lists -/

/-- Whether a text begins with another, and what comes after it. -/
def afterPrefix : Text → Text → Option Text
  | [], s => some s
  | _ :: _, [] => none
  | d :: ds, c :: s => if c = d then afterPrefix ds s else none

theorem afterPrefix_length {d s r : Text} (h : afterPrefix d s = some r) : r.length + d.length = s.length := by
  induction d generalizing s with
  | nil => simp only [afterPrefix, Option.some.injEq] at h; simp [h]
  | cons c d ih =>
    cases s with
    | nil => simp [afterPrefix] at h
    | cons e s =>
      rw [afterPrefix] at h
      split at h
      · have := ih h; simp only [List.length_cons]; omega
      · cases h

/-- `strings.Split(s, delim)` with a delimiter that is not empty: `acc` is the piece being read, backwards. -/
def splitAtText (delim : Text) (s acc : Text) : List Text :=
  match s with
  | [] => [acc.reverse]
  | c :: rest =>
    match _h : afterPrefix delim (c :: rest) with
    | some r => if delim = [] then splitAtText delim rest (c :: acc) else acc.reverse :: splitAtText delim r []
    | none => splitAtText delim rest (c :: acc)
termination_by s.length
decreasing_by
  · simp
  · have := afterPrefix_length _h
    rename_i hd
    have : 0 < delim.length := List.length_pos_iff.mpr hd
    simp only [List.length_cons] at *
    omega
  · simp

/-- `strings.Split(s, delim)`: with an empty delimiter, the single characters. -/
def splitText (delim s : Text) : List Text := if delim = [] then s.map fun c => [c] else splitAtText delim s []

/-- dynmap/typecast.go:124-133 (`ToString`). -/
def shownText (printed : Val F → Text) : Val F → Text
  | .str s => s
  | v => printed v

/-- dynmap/dynmap.go:456-476 (`GetIntSlice`). -/
def getIntSlice (toInt : F → Int) (m : DMap F) (key : Text) : Option (List Int) :=
  match get m key with
  | some (.list l) => l.mapM (toInt64 toInt)
  | _ => none

/-- dynmap/dynmap.go:480-499 (`GetIntSliceSplit`). -/
def getIntSliceSplit (toInt : F → Int) (m : DMap F) (key delim : Text) : Option (List Int) :=
  match get m key with
  | some (.str s) => (splitText delim s).mapM fun t => parseInt (trimSpace t)
  | _ => getIntSlice toInt m key

/-- dynmap/dynmap.go:518-535 (`GetStringSlice`). -/
def getStringSlice (printed : Val F → Text) (m : DMap F) (key : Text) : Option (List Text) :=
  match get m key with
  | some (.list l) => some (l.map (shownText printed))
  | _ => none

/-- dynmap/dynmap.go:539-550 (`GetStringSliceSplit`). -/
def getStringSliceSplit (printed : Val F → Text) (m : DMap F) (key delim : Text) : Option (List Text) :=
  match get m key with
  | some (.str s) => some (splitText delim s)
  | _ => getStringSlice printed m key

/-- dynmap/dynmap.go:606-613 (`PutIfAbsentWithDot`). -/
def putIfAbsentWithDot (m : DMap F) (key : Text) (v : Val F) : DMap F :=
  match get m key with
  | some _ => m
  | none => (putWithDot m key v).1

/-- dynmap/dynmap.go:565-574 (`AddToSliceWithDot`). -/
def addToSliceWithDot (m : DMap F) (key : Text) (vs : List (Val F)) : DMap F :=
  let m' := putIfAbsentWithDot m key (.list [])
  match get m' key with
  | some (.list l) => (putWithDot m' key (.list (l ++ vs))).1
  | _ => m'

/-! ## URL values -/

/-- `url.Values`: a Go map from keys to lists of texts. -/
abbrev UrlValues := List (Text × List Text)

/-- `Values.Add`. -/
def addValue (vals : UrlValues) (key v : Text) : UrlValues :=
  match vals with
  | [] => [(key, [v])]
  | (k, l) :: rest => if k = key then (k, l ++ [v]) :: rest else (k, l) :: addValue rest key v

mutual

/-- dynmap/dynmap.go:216-239 (`urlEncode`). -/
def urlEncode (printed : Val F → Text) (vals : UrlValues) (key : Text) : Val F → UrlValues
  | .map m => urlEncodeMap printed vals key m
  | .list l => addValue (urlEncodeList printed vals key l) key (printed (.list l))
  | v => addValue vals key (shownText printed v)
termination_by v => sizeOf v

/-- dynmap/dynmap.go:223-226: the entries of a map, `key[key2]`. -/
def urlEncodeMap (printed : Val F → Text) (vals : UrlValues) (key : Text) : DMap F → UrlValues
  | [] => vals
  | (k, v) :: rest => urlEncodeMap printed (urlEncode printed vals (key ++ '[' :: k ++ [']']) v) key rest
termination_by m => sizeOf m

/-- dynmap/dynmap.go:231-234: the members of a slice. -/
def urlEncodeList (printed : Val F → Text) (vals : UrlValues) (key : Text) : List (Val F) → UrlValues
  | [] => vals
  | v :: rest => urlEncodeList printed (urlEncode printed vals key v) key rest
termination_by l => sizeOf l

end

/-- dynmap/dynmap.go:173-184 (`MarshalUrl`), before `Encode`. -/
def marshalUrl (printed : Val F → Text) (m : DMap F) : UrlValues := m.foldl (fun vals e => urlEncode printed vals e.1 e.2) []

/-- dynmap/dynmap.go:203-204: `[` becomes a dot and `]` vanishes. -/
def urlKey (k : Text) : Text := (k.map fun c => if c = '[' then '.' else c).filter fun c => decide (c ≠ ']')

/-- dynmap/dynmap.go:206-210: one text is a text, several are a list. -/
def urlValue : List Text → Val F
  | [v] => .str v
  | l => .list (l.map .str)

/-- dynmap/dynmap.go:200-213 (`UnmarshalUrlValues`). Errors of `PutWithDot` are dropped. -/
def unmarshalUrlValues (m : DMap F) (values : UrlValues) : DMap F :=
  values.foldl (fun m e => (putWithDot m (urlKey e.1) (urlValue e.2)).1) m

end Verif.Dyn
