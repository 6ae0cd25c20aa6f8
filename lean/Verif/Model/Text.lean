import Mathlib.Data.Rat.Defs
import Mathlib.Data.List.Defs

/-!
# Model of `fmpq_poly_extra/set_str_pretty.c`

A C string is the list of its characters without the terminating NUL, so `*x == '\0'` is "the list
is empty".  Characters are ASCII in the "C" locale (`isdigit`, `isalpha`, `isalnum` on other bytes
are not modelled).  `R` is FLINT's `fmpq_set_str` in base 10: `none` is a nonzero return value.
`long` and `slong` have 64 bits.
-/

namespace EAntic.Text

/-- `while (*x == ' ') x++;` -/
def skipBlanks (x : List Char) : List Char := x.dropWhile (· == ' ')

/-- the loop `set_str_pretty.c:39-48`; `none` is `return -1` -/
def signLoop : ℤ → List Char → Option (ℤ × List Char)
  | _, [] => none
  | s, c :: l =>
    if c = '-' then signLoop (-s) l
    else if c ≠ ' ' ∧ c ≠ '+' then some (s, c :: l)
    else signLoop s l

/-- `LONG_MAX` -/
def longMax : ℕ := 2 ^ 63 - 1

/-- lines 117-133: exponent; `strtol` sets `errno` beyond `LONG_MAX` -/
def parseDigits (x : List Char) : Option ℕ :=
  match x with
  | [] => none
  | c :: _ =>
    if c.isDigit = false then none
    else
      let n := Nat.ofDigitChars 10 (x.takeWhile Char.isDigit) 0
      let y := x.dropWhile Char.isDigit
      if longMax < n then none
      else if skipBlanks y ≠ [] then none
      else some n

/-- does the string begin with a digit? (`isdigit(*x)`) -/
def startsDigit : List Char → Bool
  | [] => false
  | c :: _ => c.isDigit

/-- lines 98-133: caret and exponent -/
def parseExp (x : List Char) : Option ℕ :=
  if startsDigit x then parseDigits x
  else
    match skipBlanks x with
    | [] => some 1
    | c :: r => if c ≠ '^' then none else parseDigits (skipBlanks r)

/-- lines 92-96: variable -/
def parseVar (var x : List Char) : Option ℕ :=
  if var.isPrefixOf x then parseExp (x.drop var.length) else none

/-- lines 72-96: end of the string, multiplication sign, variable, exponent -/
def parsePower (var x : List Char) : Option ℕ :=
  match x with
  | [] => some 0
  | c :: r =>
    if c = '*' then
      if skipBlanks r = [] then none else parseVar var (skipBlanks r)
    else parseVar var x

/-- lines 51-68: the coefficient and the rest of the string -/
def parseCoeff (R : List Char → Option ℚ) (x : List Char) : Option (ℚ × List Char) :=
  if startsDigit x then
    let isNum := fun c : Char => c.isDigit || c == '/'
    match R (x.takeWhile isNum) with
    | none => none
    | some q => some (q, x.dropWhile isNum)
  else some (1, x)

/-- `_monomial_set_str(coeff, pow, var, w)` (`set_str_pretty.c:24-134`) -/
def monomialSetStr (R : List Char → Option ℚ) (var w : List Char) : Option (ℚ × ℕ) :=
  let x := skipBlanks w
  if x = [] then none
  else
    match signLoop 1 x with
    | none => none
    | some (sign, x) =>
      match parseCoeff R x with
      | none => none
      | some (q, x) =>
        let q := if sign = -1 then -q else q
        match parsePower var (skipBlanks x) with
        | none => none
        | some n => some (q, n)

/-- `str_is_varname` (`set_str_pretty.c:136-152`) -/
def strIsVarname (var : List Char) : Bool :=
  match var with
  | [] => false
  | c :: l => (c.isAlpha || c == '_') && l.all fun d => d.isAlphanum || d == '_'

/-- `p + c x^n` on coefficient lists, constant coefficient first: `set_str_pretty.c:193-195`,
`fmpq_poly_set_coeff_fmpq`, `fmpq_poly_add`.  The list may end with zeros; FLINT stores the
canonical form of the same polynomial. -/
def addMono : List ℚ → ℚ → ℕ → List ℚ
  | [], c, 0 => [c]
  | a :: l, c, 0 => (a + c) :: l
  | [], c, n + 1 => 0 :: addMono [] c n
  | a :: l, c, n + 1 => a :: addMono l c n

/-- a character of the sign part, line 177 -/
def isSignChar (c : Char) : Bool := c == '+' || c == ' ' || c == '-'
/-- a character of the rest of the term, line 180 -/
def isBodyChar (c : Char) : Bool := c != '+' && c != '-'

/-- the start of the next term: lines 171, 177, 180 and 197 -/
def restOf (start : List Char) : List Char :=
  ((skipBlanks start).dropWhile isSignChar).dropWhile isBodyChar

theorem restOf_lt {start : List Char} (h : start ≠ []) :
    (restOf start).length < start.length := by
  unfold restOf
  have h1 : ((skipBlanks start).dropWhile isSignChar).length ≤ (skipBlanks start).length :=
    (List.dropWhile_suffix _).length_le
  have h2 : (skipBlanks start).length ≤ start.length := (List.dropWhile_suffix _).length_le
  have h3 : (((skipBlanks start).dropWhile isSignChar).dropWhile isBodyChar).length ≤
      ((skipBlanks start).dropWhile isSignChar).length := (List.dropWhile_suffix _).length_le
  rcases hx : skipBlanks start with _ | ⟨c, r⟩
  · simpa using List.length_pos_iff.2 h
  · rw [hx] at h1 h2 h3
    by_cases hc : isSignChar c = true
    · rw [List.dropWhile_cons_of_pos hc] at h1 h3 ⊢
      have : (r.dropWhile isSignChar).length ≤ r.length := (List.dropWhile_suffix _).length_le
      simp only [List.length_cons] at h2
      omega
    · rw [List.dropWhile_cons_of_neg hc] at h1 h3 ⊢
      have hb : isBodyChar c = true := by
        simp only [isSignChar, isBodyChar, Bool.or_eq_true, beq_iff_eq, Bool.and_eq_true,
          bne_iff_ne, not_or] at hc ⊢
        exact ⟨hc.1.1, hc.2⟩
      rw [List.dropWhile_cons_of_pos hb]
      have : (r.dropWhile isBodyChar).length ≤ r.length := (List.dropWhile_suffix _).length_le
      simp only [List.length_cons] at h2
      omega

/-- the loop `set_str_pretty.c:169-198` -/
def readTerms (R : List Char → Option ℚ) (var : List Char) (p : List ℚ) (start : List Char) :
    Option (List ℚ) :=
  if h : start = [] then some p
  else
    let x := skipBlanks start
    let z := x.takeWhile isSignChar ++ (x.dropWhile isSignChar).takeWhile isBodyChar
    match monomialSetStr R var z with
    | none => none
    | some (c, n) => readTerms R var (addMono p c n) (restOf start)
termination_by start.length
decreasing_by exact restOf_lt h

/-- `fmpq_poly_set_str_pretty(p, s, var)` (`set_str_pretty.c:154-204`).  On failure the contents of
`p` are unspecified. -/
def setStrPretty (R : List Char → Option ℚ) (s var : List Char) : Option (List ℚ) :=
  if strIsVarname var then readTerms R var [] s else none

end EAntic.Text
