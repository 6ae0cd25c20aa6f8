import Verif.Model.Py

/-!
# Model of the Python layer: numbers

What happens to numbers of Python, gmpy2 and SageMath that are operands of elements, or that elements are
made from (`cppyy_eantic.py`).  Of cppyy: a C++ function that is given an `int` of Python that does not fit the
type of its argument raises an exception, and so does a call for which there is no overload.
-/

namespace EAntic.Py
open Cxx

/-- A Python object: an `int`, a number of C++ (`mpz_class`, `mpq_class`), an element (in the variable `x`), a
number of gmpy2 (`mpz`, `mpq`), a number of SageMath (`Integer` has a method `__mpz__`, `Rational` a method
`__mpq__`; those of gmpy2 have neither), something else. -/
inductive Atom where
  | int (z : ℤ)
  | mpzClass (z : ℤ)
  | mpqClass (q : ℚ)
  | elem (x : ℕ)
  | gmpyMpz (z : ℤ)
  | gmpyMpq (q : ℚ)
  | sageInteger (z : ℤ)
  | sageRational (q : ℚ)
  | other
  deriving DecidableEq

/-- A Python object, or a list or tuple of them.  (A list in a list is `other`: both are rejected as
coefficients.) -/
inductive Obj where
  | atom (a : Atom)
  | list (l : List Atom)

/-- what `for_eantic` returns: an object, or a `std::vector<mpq_class>` -/
inductive Converted where
  | atom (a : Atom)
  | vec (l : List ℚ)

/-! ## Texts of numbers in GMP -/

/-- the value of a digit in a base up to 36 -/
def digitVal (c : Char) : Option ℕ :=
  if c.isDigit then some (c.toNat - '0'.toNat)
  else if c.isLower then some (10 + (c.toNat - 'a'.toNat))
  else if c.isUpper then some (10 + (c.toNat - 'A'.toNat))
  else none

/-- the number with the given digits in base `b`, after `n` -/
def digitsFrom (b : ℕ) : List Char → ℕ → Option ℕ
  | [], n => some n
  | c :: s, n =>
    match digitVal c with
    | some d => if d < b then digitsFrom b s (b * n + d) else none
    | none => none

/-- `mpz_set_str` in base `b` without a sign: no digits are an error -/
def readDigits (b : ℕ) (s : List Char) : Option ℕ :=
  if s.isEmpty then none else digitsFrom b s 0

/-- `mpz_set_str(_, s, 0)` without a sign: the base is given by the first characters.  (GMP skips white
space, which does not occur here.) -/
def gmpNat : List Char → Option ℕ
  | '0' :: 'x' :: s | '0' :: 'X' :: s => readDigits 16 s
  | '0' :: 'b' :: s | '0' :: 'B' :: s => readDigits 2 s
  | '0' :: c :: s => readDigits 8 (c :: s)
  | s => readDigits 10 s

/-- `mpz_class(std::string)` (base 0); `none`: `std::invalid_argument` -/
def gmpInt : List Char → Option ℤ
  | '-' :: s => (gmpNat s).map fun n : ℕ => -(n : ℤ)
  | s => (gmpNat s).map fun n : ℕ => (n : ℤ)

/-- `mpq_class(std::string)` (base 0): the numerator, and the denominator after a `/`.  (GMP takes a zero
denominator and does not cancel, which makes no difference for the texts that occur here.) -/
def gmpRat (s : List Char) : Option ℚ :=
  match s.dropWhile (· != '/') with
  | [] => (gmpInt s).map fun z : ℤ => (z : ℚ)
  | _ :: t =>
    match gmpInt (s.takeWhile (· != '/')), gmpInt t with
    | some n, some d => if d = 0 then none else some ((n : ℚ) / d)
    | _, _ => none

/-! ## Conversion -/

/-- What is not in the hands of the code: whether gmpy2 is installed, and the type of the overload that cppyy
selects for an `int` of Python, if it finds one. -/
structure PyEnv where
  gmpy : Bool
  pick : ℤ → Option IntTy

variable (P : PyEnv)

/-- `for_eantic(x)` (`cppyy_eantic.py:158-194`) for objects that are not lists.  The methods of SageMath import
gmpy2. -/
def forAtom (x : Atom) : Except String Atom :=
  match x with
  | .int _ | .elem _ | .mpzClass _ | .mpqClass _ => pure x
  | _ => do
    let x ← (match x with
      | .sageRational q => if P.gmpy then pure (.gmpyMpq q) else throw "ModuleNotFoundError"
      | x => pure x : Except String Atom)
    let x ← (match x with
      | .sageInteger z => if P.gmpy then pure (.gmpyMpz z) else throw "ModuleNotFoundError"
      | x => pure x : Except String Atom)
    if P.gmpy then
      let x ← (match x with
        | .gmpyMpz z =>
          match gmpInt (pyStr z) with
          | some z => pure (.mpzClass z)
          | none => throw "std::invalid_argument"
        | x => pure x : Except String Atom)
      match x with
      | .gmpyMpq q =>
        match gmpRat (pyStr q) with
        | some q => pure (.mpqClass q)
        | none => throw "std::invalid_argument"
      | x => pure x
    else pure x

/-- `cppyy.gbl.mpq_class(v)` (`cppyy_eantic.py:174`), after the test that `v` is a number
(`cppyy_eantic.py:172-173`) -/
def toCoeff : Atom → Except String ℚ
  | .int z => if (P.pick z).isSome then pure (z : ℚ) else throw "TypeError"
  | .mpzClass z => pure (z : ℚ)
  | .mpqClass q => pure q
  | _ => throw "Coefficients must be convertible to mpq"

/-- `[f(v) for v in l]` -/
def listOf {β γ : Type} (f : β → Except String γ) : List β → Except String (List γ)
  | [] => pure []
  | v :: l => do
    let b ← f v
    let m ← listOf f l
    pure (b :: m)

/-- `for_eantic(x)` (`cppyy_eantic.py:158-194`) -/
def forEantic : Obj → Except String Converted
  | .atom a => do
    let a ← forAtom P a
    pure (.atom a)
  | .list l => do
    let l ← listOf (forAtom P) l
    let l ← listOf (toCoeff P) l
    pure (.vec l)

/-! ## Calls -/

variable (L : Lib)

/-- The number that a template instantiated with the type of a Python object is called with: `int` of Python
is `int` of C++ (`cppyy_eantic.py:83`, `:86`; `cppyy.hpp:29-36`). -/
def templateArg (b : Widths) : Atom → Except String Num
  | .int z => if InS b.int z then pure (.int .int z) else throw "TypeError"
  | .mpzClass z => pure (.mpz z)
  | .mpqClass q => pure (.mpq q)
  | _ => throw "TypeError"

/-- `implementation[type(lhs), type(rhs)](lhs, rhs)` (`cppyy_eantic.py:83`) as a call of C++; the result is
the new variable `r`.  There is no operator for vectors. -/
def operatorCall (f : BinK) (r : ℕ) : Converted → Converted → Except String Cmd
  | .atom (.elem x), .atom (.elem y) => pure (.binary f r x y)
  | .atom (.elem x), .atom a => do
    let n ← templateArg L.bits a
    pure (.binaryNum f r x n)
  | .atom a, .atom (.elem y) => do
    let n ← templateArg L.bits a
    pure (.numBinary f r n y)
  | _, _ => throw "TypeError"

/-- `binary` and `rbinary` (`cppyy_eantic.py:81-86`) -/
def operatorOf (f : BinK) (r : ℕ) (lhs rhs : Obj) : Except String Cmd := do
  let lhs ← forEantic P lhs
  let rhs ← forEantic P rhs
  operatorCall L f r lhs rhs

/-- the constructor of `renf_elem_class` for the field `K`, or without one, and a converted object
(`cppyy_eantic.py:220-223`) -/
def constructorCall (r : ℕ) : Option ℕ → Converted → Except String Cmd
  | K, .atom (.int z) =>
    match P.pick z with
    | some t => pure (.constructInt r (K.getD 0) t z)
    | none => throw "TypeError"
  | K, .atom (.mpzClass z) => pure (.constructZ r (K.getD 0) z)
  | K, .atom (.mpqClass q) => pure (.constructQ r (K.getD 0) q)
  | some k, .atom (.elem y) => pure (.constructFrom r k y)
  | none, .atom (.elem y) => pure (.copyCtor r y)
  | some k, .vec l => pure (.constructVec r k (Text.common l).1 (Text.common l).2)
  | _, _ => throw "TypeError"

/-- a statement of a Python program, `r` being a new variable: `r = lhs op rhs`, `r = -x`, `r = x ** n`,
`r = renf_elem(K, v)` or `renf_elem(v)`, `r = renf_elem(K)` or `renf_elem()` -/
inductive PyCmd where
  | operator (f : BinK) (r : ℕ) (lhs rhs : Obj)
  | neg (r x : ℕ)
  | pow (r x : ℕ) (n : ℤ)
  | make (r : ℕ) (K : Option ℕ) (v : Obj)
  | zero (r : ℕ) (K : Option ℕ)

/-- The call of C++ that a statement makes, or the exception before it: `enable_arithmetic`
(`cppyy_eantic.py:72-92`), `make_renf_elem_class` (`cppyy_eantic.py:200-223`) -/
def PyCmd.cmd : PyCmd → Except String Cmd
  | .operator f r lhs rhs => operatorOf P L f r lhs rhs
  | .neg r x => pure (.neg r x)
  | .pow r x n => if InS 32 n then pure (.pow r x n) else throw "TypeError"
  | .make r K v => do
    let v ← forEantic P v
    constructorCall P r K v
  | .zero r K => pure (.construct r (K.getD 0))

/-- a statement is executed -/
def PyCmd.run (c : PyCmd) : W Val :=
  match c.cmd P L with
  | .ok c => exec L c
  | .error s => W.throw s

/-- a statement of a Python program: one of those above, or a method or relation of `renf_elem_class` that
cppyy hands over as it is, or the end of the life of a variable -/
inductive PyStmt where
  | py (c : PyCmd)
  | cxx (c : Cmd)

/-- a statement is executed -/
def PyStmt.run : PyStmt → W Val
  | .py c => c.run P L
  | .cxx c => exec L c

/-- A Python program with every statement in a `try` block of its own (exceptions of C++ are exceptions of
Python). -/
def runCatching : List PyStmt → W (List (Except String Val))
  | [] => pure []
  | c :: cs => do
    let a ← attempt (c.run P L)
    let l ← runCatching cs
    pure (a :: l)

end EAntic.Py
