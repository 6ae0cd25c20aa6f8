import Verif.Model.Make

/-!
# Model of the Python layer (`pyeantic`)

The conversions between e-antic and SageMath or realalg.  Of SageMath the values are modelled that the
code handles: a number field is a polynomial, a name and a root, an element is the list of its
coefficients.  cppyy calls the C++ functions of `Model/Cxx.lean`; that it finds the overload is not modelled, and how it
converts Python integers is in `Model/PyNum.lean`.
-/

namespace EAntic.Py
open Cxx

/-! ## Elements -/

section
variable (L : Lib)

/-- `RealEmbeddedNumberFieldElement.__init__` (`real_embedded_number_field.py:127-138`): `l` is
`value.polynomial().list()`, the coefficients in ascending order. -/
def fromSage (x : Reg) (k : ℕ) (l : List ℚ) : W Unit :=
  constructVec L x k (Text.common l).1 (Text.common l).2

/-- `CoercionNumberFieldRenf._call_` (`real_embedded_number_field.py:772-775`); `deg` is
`number_field.degree()`. -/
def toSage (x : Reg) (deg : ℕ) : W (List ℚ) := do
  let c ← numVector L x
  let d ← den L x
  let l := c.map fun z : ℤ => (z : ℚ) / d
  pure (l ++ List.replicate (deg - l.length) 0)

/-- `rich_to_bool(op, c)` of SageMath: whether `c`, the result of a comparison, satisfies `op` -/
def richToBool : Rel → ℤ → Bool
  | .eq, c => c == 0
  | .ne, c => c != 0
  | .lt, c => c < 0
  | .gt, c => 0 < c
  | .le, c => c ≤ 0
  | .ge, c => 0 ≤ c

/-- `_richcmp_` (`real_embedded_number_field.py:241-247`) -/
def richcmp (x y : Reg) (op : Rel) : W Bool := do
  if ← lt L x y then pure (richToBool op (-1))
  else if ← eq L x y then pure (richToBool op 0)
  else pure (richToBool op 1)

/-- `_rational_` (`real_embedded_number_field.py:273-275`) with `rational` (`cppyy.hpp:42-44`) -/
def rational (x : Reg) : W ℚ := do
  if ← isRational L x then toMpq L x else W.throw "not a rational number"

/-- `_integer_` (`real_embedded_number_field.py:301-303`); `QQ(self)` calls `_rational_`. -/
def integer (x : Reg) : W ℤ := do
  if ← isInteger L x then
    let q ← rational L x
    pure q.num
  else W.throw "not an integer"

/-- `value.polynomial().list()` of an element with coefficients `l`: without zeros at the end -/
def polyList (l : List ℚ) : List ℚ := l.rdropWhile (· == 0)

/-- pickling `x` and loading it as `y`: `__getstate__`, `__setstate__`
(`real_embedded_number_field.py:317`, `:331-332`) -/
def reload (x y : Reg) (k deg : ℕ) : W Unit := do
  let s ← toSage L x deg
  fromSage L y k (polyList s)

end

/-! ## Regular expressions

Only what the two patterns need: sequences of repeated classes of characters. -/

/-- a class of characters with bounds on the number of repetitions, and whether it is a group -/
structure Piece where
  cls : Char → Bool
  min : ℕ
  max : Option ℕ
  group : Bool

/-- a character that stands for itself -/
def Piece.char (c : Char) : Piece := ⟨(· == c), 1, some 1, false⟩

/-- the first `some` among `f n, f (n - 1), …, f lo` -/
def downTo {β : Type} (lo : ℕ) (f : ℕ → Option β) : ℕ → Option β
  | 0 => if lo = 0 then f 0 else none
  | n + 1 => if n + 1 < lo then none else
    match f (n + 1) with
    | some r => some r
    | none => downTo lo f n

/-- how many characters a piece can take at most -/
def Piece.most (p : Piece) (s : List Char) : ℕ :=
  let n := (s.takeWhile p.cls).length
  match p.max with
  | none => n
  | some m => Nat.min m n

/-- `re.match`: pieces take as much as they can and give back if the rest does not match.  `dollar`: the
pattern ends with `$`, which matches at the end and before a line feed at the end. -/
def reMatch (dollar : Bool) : List Piece → List Char → Option (List (List Char))
  | [], s => if dollar && s != [] && s != ['\n'] then none else some []
  | p :: ps, s => downTo p.min (fun n =>
      (reMatch dollar ps (s.drop n)).map fun g => if p.group then s.take n :: g else g) (p.most s)

/-- `^NumberField\(([^,]+), ([^)]+)\)$` (`real_embedded_number_field.py:457`) -/
def fieldPattern : List Piece :=
  "NumberField(".toList.map Piece.char ++ [⟨(· != ','), 1, none, true⟩] ++
    ", ".toList.map Piece.char ++ [⟨(· != ')'), 1, none, true⟩] ++ [Piece.char ')']

/-- `^\d*\*?([^\^ *]+)[\^ +-]` (`real_embedded_number_field.py:461`); of the digits only those of
ASCII -/
def varPattern : List Piece :=
  [⟨Char.isDigit, 0, none, false⟩, ⟨(· == '*'), 0, some 1, false⟩,
   ⟨fun c => c != '^' && c != ' ' && c != '*', 1, none, true⟩,
   ⟨fun c => c == '^' || c == ' ' || c == '+' || c == '-', 1, some 1, false⟩]

/-! ## Fields -/

/-- What is used of SageMath: `read var s` is `QQ[var](s)`, `roots p` is `p.roots(AA)`, `ball prec a` is
`RealBallField(prec)(a)`, `text` is `str` of a ball. `AA` are the real algebraic numbers. -/
structure Sage (AA : Type) where
  read : List Char → List Char → Res (List ℚ)
  roots : List ℚ → List AA
  ball : ℤ → AA → Ball
  text : ℤ → Ball → List Char

/-- a number field with an embedding: defining polynomial, name of the generator, its image -/
structure NumberField (AA : Type) where
  poly : List ℚ
  name : List Char
  root : AA

variable {AA : Type} (S : Sage AA) (B : BallText)

/-- `repr` of a `renf_class`: `to_string` (`renf_class.cpp:221-227`, `renf/get_str.c:19-33`) -/
def fieldRepr (k : NamedField) : List Char :=
  "NumberField(".toList ++ Text.pretty k.name k.field.nf.pol k.den ++ ", ".toList ++
    B.text k.field.emb 64 ++ ")".toList

/-- The loop `real_embedded_number_field.py:466-471` and the test that follows: the root whose ball
overlaps with the ball read from `s`, at the first precision at which there is exactly one. -/
def findRoot (s : List Char) (as : List AA) : List ℤ → Res AA
  | [] => .throw "cannot distinguish roots with limited ball field precision"
  | prec :: ps =>
    match B.read s prec with
    | none => .throw "unable to convert to a RealBall"
    | some root =>
      match as.filter fun a => (S.ball prec a).overlaps root with
      | [a] => .ok a
      | _ => findRoot s as ps

/-- `_normalize_embedding` for a `renf_class` (`real_embedded_number_field.py:452-474`), given the printed
field.  The failures of `assert` and the exceptions of SageMath are exceptions. -/
def normalize (s : List Char) : Res (NumberField AA) :=
  match reMatch true fieldPattern s with
  | some [minpoly, root] =>
    match reMatch false varPattern minpoly with
    | some [var] => do
      let p ← S.read var minpoly
      let a ← findRoot S B root (S.roots p) [53, 64, 128, 256]
      .ok ⟨p, var, a⟩
    | _ => .throw "renf_class printed leading coefficient in an unexpected way"
  | _ => .throw "renf_class printed in an unexpected way"

/-- `repr` of a polynomial of SageMath with rational coefficients: blanks around the signs in every
degree -/
def sageRepr (var : List Char) (l : List ℚ) : List Char :=
  match Text.descTerms (Text.canonical l).2 0 (Text.canonical l).1 with
  | [] => ['0']
  | t :: ts => Text.render var true true (t :: ts)

/-- `RealEmbeddedNumberField.__init__` (`real_embedded_number_field.py:551-557`) and
`unwrap_intrusive_ptr` around `renf_class::make` (`cppyy_eantic.py:153`): the field that `make` is asked
for, the precision is the default 64 of `renf_class.hpp` -/
def initField (E : MakeEnv) (n : ℕ) (K : NumberField AA) : Res NamedField :=
  makeFun E n (sageRepr K.name K.poly) K.name
    (fun prec => .ok (S.text prec (S.ball prec K.root))) 64

/-! ## realalg -/

/-- `' + %s * %s^%s' % (c, var, i)` for the coefficients from the `i`-th one on, except for zeros
(`realalg_conversion.py:42-45`); `str` of a coefficient is given -/
def polyTail (str : ℚ → List Char) (var : List Char) : ℕ → List ℚ → List Char
  | _, [] => []
  | i, c :: l =>
    (if c = 0 then [] else
      " + ".toList ++ str c ++ " * ".toList ++ var ++ '^' :: Nat.toDigits 10 i) ++
      polyTail str var (i + 1) l

/-- `poly_string(coeffs, var)` (`realalg_conversion.py:40-46`); no coefficients are an `IndexError`. -/
def polyString (str : ℚ → List Char) (coeffs : List ℚ) (var : List Char) : Res (List Char) :=
  match coeffs with
  | [] => .throw "list index out of range"
  | c :: l => .ok (str c ++ polyTail str var 1 l)

/-- `str` of a Python integer or `fractions.Fraction` -/
def pyStr (q : ℚ) : List Char := (if q < 0 then ['-'] else []) ++ Text.absStr q

/-- The result `x` of an operation as a Python `float`; beyond the largest number an `OverflowError`. -/
def toFloat (fl : ℚ → Dbl) (x : ℚ) : Res ℚ :=
  match fl x with
  | .fin q => .ok q
  | _ => .throw "OverflowError"

/-- The centre and the radius that `realalg_interval_to_arb` prints (`realalg_conversion.py:48-54`) for the
interval of the integers `lower`, `upper` over `10 ^ prec`.  `fl` rounds to a double, `dec` is the number
that `str` of a double shows.  `10.0 ** n` is taken to be `fl (10 ^ n)`.  (In Python a division of floats that
overflows gives an infinity instead of an exception; with `prec ≥ 1` no division here overflows.) -/
def intervalToArb (fl : ℚ → Dbl) (dec : ℚ → ℚ) (lower upper : ℤ) (prec : ℕ) : Res (ℚ × ℚ) := do
  let s ← toFloat fl ((lower + upper : ℤ) : ℚ)
  let h ← toFloat fl (s / 2)
  let t ← toFloat fl (10 ^ (prec : ℤ))
  let center ← toFloat fl (h / t)
  let w ← toFloat fl ((upper - lower : ℤ) : ℚ)
  let t ← toFloat fl (10 ^ ((prec : ℤ) - 1))
  let rad ← toFloat fl (w / t)
  return (dec center, dec rad)

/-- `realalg_nf_to_eantic(K, name)` (`realalg_conversion.py:72-74`): `coeffs` is `K.coefficients`, the
interval is `K.intervals(15)[1]`, `text c r` is the text with `str` of the centre and of the radius (line 54); `renf` calls
`renf_class::make` with the default precision 64 (`cppyy_eantic.py:153`). -/
def realalgField (E : MakeEnv) (n : ℕ) (text : ℚ → ℚ → List Char) (fl : ℚ → Dbl) (dec : ℚ → ℚ) (coeffs : List ℚ)
    (name : List Char) (lower upper : ℤ) (prec : ℕ) : Res NamedField :=
  (polyString pyStr coeffs name).bind fun p =>
    (intervalToArb fl dec lower upper prec).bind fun b => makeStr E n p name (text b.1 b.2) 64

/-- `realalg_nf_elem_to_eantic(K, elem)` for a `RealAlgebraic` (`realalg_conversion.py:91-92`, `:96`);
integers and strings are handed on to the constructors of `renf_elem_class`. -/
def realalgElem (L : Lib) (T : TextLib) (x : Reg) (k : ℕ) (coeffs : List ℚ) : W Unit :=
  match polyString pyStr coeffs (T.gen k) with
  | .ok s => constructStr L T x k s
  | _ => W.throw "list index out of range"

end EAntic.Py
