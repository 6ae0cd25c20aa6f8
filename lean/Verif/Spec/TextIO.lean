import Mathlib.Algebra.Algebra.Rat
import Verif.Spec.Text
import Verif.Spec.Cxx
import Verif.Model.TextIO

/-!
# Specification: texts of elements
-/

namespace EAntic
open Polynomial

/-- `s` is a text of the number `a` in a field with generator `α` that is called `var`: a text of a
polynomial whose value at `α` is `a`. -/
def Text.IsTextOf (R : List Char → Option ℚ) (var : List Char) (α a : ℝ) (s : List Char) : Prop :=
  ∃ P : ℚ[X], Text.Reads R var s P ∧ aeval α P = a

/-- What is assumed of the text functions of FLINT and Arb, and of the names of the generators:
`fmpq_set_str` reads what `_fmpq_get_str` printed; the text of a double is not empty, contains no
parenthesis and no white space at its end. -/
structure TextLib.Ok (T : TextLib) : Prop where
  readRat : ∀ q : ℚ, 0 ≤ q → T.readRat (Text.absStr q) = some q
  dbl : ∀ q, ∀ c ∈ T.dbl q, c ≠ ')'
  dbl_last : ∀ q, ∃ l c, T.dbl q = l ++ [c] ∧ Cxx.isSpace c = false
  gen : ∀ k, Text.IsVarname (T.gen k)

namespace Cxx

/-- `l / d` is the polynomial of least degree with value `a` at `α`, in lowest terms -/
def LeastPoly (α a : ℝ) (l : List ℤ) (d : ℤ) : Prop :=
  HasCoords α a l d ∧ (∀ l' d', HasCoords α a l' d' → l.length ≤ l'.length) ∧
    ∀ g : ℤ, g ∣ d → (∀ n ∈ l, g ∣ n) → IsUnit g

/-- what `to_string` prints of the algebraic form -/
structure AlgText (T : TextLib) (α : ℕ → ℝ) (i : ℕ) (a : ℝ) (s : List Char) : Prop where
  text : Text.IsTextOf T.readRat (T.gen i) (α i) a s
  /-- also without the blanks around the signs -/
  squeezed : Text.IsTextOf T.readRat (T.gen i) (α i) a (s.filter fun c => !isSpace c)
  safe : ∀ c ∈ s, c ≠ '(' ∧ c ≠ ')' ∧ c ≠ '~'
  int : IsInt a → ∀ c ∈ s, isSpace c = false
  ne : s ≠ []
  /-- it is what `fmpq_poly_get_str_pretty` prints of the polynomial of least degree -/
  least : ∃ l d, LeastPoly (α i) a l d ∧ s = Text.pretty (T.gen i) l d

/-- the text of a double -/
def dblText (T : TextLib) : Dbl → List Char
  | .inf => ['i', 'n', 'f']
  | .ninf => ['-', 'i', 'n', 'f']
  | .fin q => T.dbl q

/-- exactly one of the flags is set -/
def exactlyOne (a b c : Bool) : Bool := (a && !b && !c) || (!a && b && !c) || (!a && !b && c)

/-- What `to_string(flags)` returns for the number `a` of field `i`: its algebraic form, then the
double it is cast to or else an enclosure, separated by a tilde; in parentheses unless exactly one flag is
set. -/
def StringOf (T : TextLib) (α : ℕ → ℝ) (i : ℕ) (a : ℝ) (alg d arb : Bool) (s : List Char) : Prop :=
  ∃ t u, (if alg then AlgText T α i a t else t = []) ∧
    (if d then ∃ D, CastsTo a D ∧ u = dblText T D
      else if arb then ∃ B : Ball, a ∈ B ∧ u = T.ball B else u = []) ∧
    s = if exactlyOne alg d arb then t ++ (if alg && (d || arb) then [' ', '~', ' '] else []) ++ u
      else ['('] ++ (t ++ (if alg && (d || arb) then [' ', '~', ' '] else []) ++ u) ++ [')']

/-- What `operator<<` writes: the algebraic form, for numbers that are not integers followed by the
double they are cast to. -/
def IsPrinted (T : TextLib) (α : ℕ → ℝ) (i : ℕ) (a : ℝ) (s : List Char) : Prop :=
  IsInt a ∧ StringOf T α i a true false false s ∨ ¬ IsInt a ∧ StringOf T α i a true true false s

end Cxx

/-- white space or nothing -/
def Cxx.Delimits : List Char → Prop
  | [] => True
  | c :: _ => Cxx.isSpace c = true

end EAntic
