import Mathlib.Algebra.Polynomial.Basic
import Mathlib.Data.Rat.Defs
import Mathlib.Algebra.Polynomial.Eval.Defs
import Mathlib.Algebra.BigOperators.Group.List.Basic

/-!
# Specification: the text form of a rational polynomial

A text is a sequence of terms; a term is, in this order: signs and blanks, a numeral, blanks, an
optional `*`, the variable, an exponent, blanks.  What a numeral `n` stands for is given by a
function `R`, the reader of rational numbers (`fmpq_set_str` of FLINT).
-/

namespace EAntic.Text
open Polynomial

/-- `n` blanks -/
def blank (n : ℕ) : List Char := List.replicate n ' '

/-- the exponent of the variable, with the blanks that follow it -/
inductive Exponent where
  /-- no exponent: `x` -/
  | one (blanks : ℕ)
  /-- `x^12`, with blanks before and after the caret -/
  | caret (before after : ℕ) (digits : List Char) (blanks : ℕ)
  /-- `x12`, read as `x^12` -/
  | bare (digits : List Char) (blanks : ℕ)

/-- a power of the variable, optionally preceded by `*` and blanks -/
structure Power where
  star : Option ℕ
  exponent : Exponent

/-- a term -/
structure Term where
  signs : List Char
  coeff : Option (List Char)
  blanks : ℕ
  power : Option Power

/-- A decimal numeral that fits a `long`. -/
def IsExp (d : List Char) : Prop :=
  d ≠ [] ∧ (∀ c ∈ d, c.isDigit = true) ∧ Nat.ofDigitChars 10 d 0 ≤ 2 ^ 63 - 1

namespace Exponent

/-- as it is written -/
def text : Exponent → List Char
  | one b => blank b
  | caret b1 b2 d b => blank b1 ++ ('^' :: blank b2) ++ d ++ blank b
  | bare d b => d ++ blank b

/-- its value -/
def value : Exponent → ℕ
  | one _ => 1
  | caret _ _ d _ => Nat.ofDigitChars 10 d 0
  | bare d _ => Nat.ofDigitChars 10 d 0

/-- well formed -/
def Wf : Exponent → Prop
  | one _ => True
  | caret _ _ d _ => IsExp d
  | bare d _ => IsExp d

end Exponent

/-- as it is written -/
def Power.text (var : List Char) (p : Power) : List Char :=
  (match p.star with | none => [] | some b => '*' :: blank b) ++ var ++ p.exponent.text

/-- A numeral as the code delimits it: a digit followed by digits and slashes. -/
def IsNumeral (n : List Char) : Prop :=
  ∃ c l, n = c :: l ∧ c.isDigit = true ∧ ∀ d ∈ l, d.isDigit = true ∨ d = '/'

/-- the power of a term, absent for constants -/
def powerText (var : List Char) : Option Power → List Char
  | none => []
  | some p => p.text var

/-- its exponent -/
def powerExp : Option Power → ℕ
  | none => 0
  | some p => p.exponent.value

namespace Term

/-- as it is written -/
def text (var : List Char) (t : Term) : List Char :=
  t.signs ++ t.coeff.getD [] ++ blank t.blanks ++ powerText var t.power

/-- Well formed: the signs are signs and blanks, a numeral or the variable is present. -/
structure Wf (t : Term) : Prop where
  signs : ∀ c ∈ t.signs, c = '+' ∨ c = '-' ∨ c = ' '
  coeff : ∀ n, t.coeff = some n → IsNumeral n
  nocoeff : t.coeff = none → t.power ≠ none ∧ t.blanks = 0
  exponent : ∀ p, t.power = some p → p.exponent.Wf

/-- `-1` for an odd number of minus signs -/
def sign (t : Term) : ℚ := (-1) ^ t.signs.count '-'

/-- the exponent of the variable -/
def exp (t : Term) : ℕ := powerExp t.power

/-- `t` stands for `c x^n`. -/
def Denotes (R : List Char → Option ℚ) (t : Term) (c : ℚ) (n : ℕ) : Prop :=
  n = t.exp ∧ ((t.coeff = none ∧ c = t.sign) ∨
    ∃ m q, t.coeff = some m ∧ R m = some q ∧ c = t.sign * q)

end Term

/-- `s` is a text for the polynomial `P`: it is a sequence of well formed terms, each but the first
beginning with a sign, and `P` is the sum of what the terms stand for. -/
def Reads (R : List Char → Option ℚ) (var s : List Char) (P : ℚ[X]) : Prop :=
  ∃ l : List (Term × ℚ × ℕ),
    (∀ x ∈ l, x.1.Wf ∧ x.1.Denotes R x.2.1 x.2.2) ∧
    (∀ x ∈ l.tail, ∃ c r, x.1.signs = c :: r ∧ (c = '+' ∨ c = '-')) ∧
    s = l.flatMap (fun x => x.1.text var) ∧
    P = (l.map fun x => C x.2.1 * X ^ x.2.2).sum

/-- the polynomial given by a list of coefficients -/
noncomputable def polyOf : List ℚ → ℚ[X]
  | [] => 0
  | a :: l => C a + X * polyOf l

/-- A variable name: a letter or underscore followed by letters, digits and underscores. -/
def IsVarname (var : List Char) : Prop :=
  ∃ c l, var = c :: l ∧ (c.isAlpha = true ∨ c = '_') ∧ ∀ d ∈ l, d.isAlphanum = true ∨ d = '_'

end EAntic.Text
