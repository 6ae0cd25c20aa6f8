import Verif.Model.Text
import Verif.Model.Cxx

/-!
# Model of printing and reading elements

`nf_elem_get_str_pretty`, `renf_elem/get_str_pretty.c`, and of the C++ layer `to_string`, the
constructor from a string, `operator<<` and `operator>>`.
-/

namespace EAntic

namespace Text

/-- FLINT's text of a nonnegative rational, or of the absolute value of a negative one:
`_fmpq_get_str` without sign -/
def absStr (q : ℚ) : List Char :=
  Nat.toDigits 10 q.num.natAbs ++ (if q.den = 1 then [] else '/' :: Nat.toDigits 10 q.den)

/-- the nonzero coefficients with their exponents, highest exponent first -/
def descTerms (den : ℤ) : ℕ → List ℤ → List (ℚ × ℕ)
  | _, [] => []
  | i, a :: l => descTerms den (i + 1) l ++ (if a = 0 then [] else [((a : ℚ) / den, i)])

/-- the sign in front of a term: `+` is omitted at the beginning, further signs are between blanks if
`sp` -/
def signText (sp first : Bool) (q : ℚ) : List Char :=
  if first then (if q < 0 then ['-'] else [])
  else if sp then (if q < 0 then [' ', '-', ' '] else [' ', '+', ' '])
  else (if q < 0 then ['-'] else ['+'])

/-- one term without its sign: a coefficient 1 in front of the variable and an exponent 1 are
omitted -/
def bodyText (var : List Char) (q : ℚ) (i : ℕ) : List Char :=
  if i = 0 then absStr q
  else (if |q| = 1 then [] else absStr q ++ ['*']) ++ var ++
    (if i = 1 then [] else '^' :: Nat.toDigits 10 i)

/-- all terms -/
def render (var : List Char) (sp : Bool) : Bool → List (ℚ × ℕ) → List Char
  | _, [] => []
  | first, (q, i) :: l => signText sp first q ++ bodyText var q i ++ render var sp false l

/-- FLINT `_fmpq_poly_get_str_pretty(num, den, len, var)`, the format as the tests and the manual show
it: `x+2` in degree one (`pyeantic/src/pyeantic/cppyy_eantic.py:9-10`), with blanks around the signs in
higher degree, for example `2*abc^4 - 5*abc + 1` (`test/renfxx/t-stream.cpp:57`); `0` for the zero
polynomial.  The last entry of `num` is not zero. -/
def pretty (var : List Char) (num : List ℤ) (den : ℤ) : List Char :=
  match descTerms den 0 num with
  | [] => ['0']
  | t :: ts => render var (decide (2 < num.length)) true (t :: ts)

/-- numerators over a common denominator -/
def common (l : List ℚ) : List ℤ × ℤ :=
  let d := l.foldr (fun q d => Nat.lcm q.den d) 1
  (l.map fun q => (q * (d : ℚ)).num, d)

end Text

/-- Text of numbers: `fmpq_set_str` (`none`: failure), `arb_get_str(x, 8, ARB_STR_NO_RADIUS)` of an
exact double, `arb_get_str(x, 10, 0)`, and the names of the generators. -/
structure TextLib where
  readRat : List Char → Option ℚ
  dbl : ℚ → List Char
  ball : Ball → List Char
  gen : ℕ → List Char

namespace Env
open M

variable {K : Nf} (E : Env K)

/-- `renf_elem/get_str_pretty.c:28-104` with the three flags `EANTIC_STR_ALG`, `EANTIC_STR_D`,
`EANTIC_STR_ARB` -/
def getStrPretty (T : TextLib) (a : Reg) (var : List Char) (alg d arb : Bool)
    (ndebug : Bool := false) : M (List Char) := do
  let t ← if alg then do
      let x ← read a
      let s := Text.pretty var (Cxx.normalise x.elem.num) x.elem.den
      pure (if d || arb then s ++ [' ', '~', ' '] else s)
    else pure []
  let u ← if d then do
      let v ← E.getD a .near ndebug
      pure (match v with
        | .inf => ['i', 'n', 'f']
        | .ninf => ['-', 'i', 'n', 'f']
        | .fin q => T.dbl q)
    else if arb then do
      let x ← read a
      pure (T.ball x.emb)
    else pure []
  pure (t ++ u)

end Env

namespace Cxx

variable (L : Lib) (T : TextLib)

/-- `renf_elem_class::to_string(flags)` (`renf_elem_class.cpp:857-871`): parentheses unless exactly
one flag is given -/
def toString (x : Reg) (alg d arb : Bool) : W (List Char) := do
  W.assert L (!(d && arb))
  let s ← call1 L x fun i r => (L.E i).getStrPretty T r (T.gen i) alg d arb L.ndebug
  if (alg && !d && !arb) || (!alg && d && !arb) || (!alg && !d && arb) then pure s
  else pure (['('] ++ s ++ [')'])

/-- `operator<<` (`renf_class.cpp:235-242`): the characters that are written -/
def print (x : Reg) : W (List Char) := do
  if ← isInteger L x then toString L T x true false false
  else toString L T x true true false

/-- `renf_elem_class(k, string)` (`renf_elem_class.cpp:401-437`) -/
def constructStr (x : Reg) (k : ℕ) (s : List Char) : W Unit :=
  match Text.setStrPretty T.readRat (s.takeWhile (· != '~')) (T.gen k) with
  | none => W.throw "renf_elem_class fmpq_poly_set_str_pretty"
  | some p => constructWith L x k fun r => (L.E k).setPoly r (Text.common p).1 (Text.common p).2

/-- `std::istream`: the characters ahead and the end-of-file flag -/
structure Stream where
  chars : List Char
  eof : Bool
  deriving DecidableEq, Repr

/-- `isspace` in the "C" locale -/
def isSpace (c : Char) : Bool :=
  c == ' ' || c == '\t' || c == '\n' || c == '\x0b' || c == '\x0c' || c == '\r'

/-- The loop `renf_class.cpp:256-263` after the opening parenthesis and the removal of the closing
one.  `is >> c` skips white space; if nothing follows, `c` is indeterminate. -/
def readParen (s : List Char) : Res (List Char × List Char) :=
  match s with
  | [] => .throw "invalid stream"
  | c :: r =>
    if c = ')' then .ok ([], r)
    else
      match h : (c :: r).dropWhile isSpace with
      | [] => .ub
      | d :: r' =>
        match readParen r' with
        | .ok (t, q) => .ok (d :: t, q)
        | .throw e => .throw e
        | .ub => .ub
        | .abort => .abort
        | .running => .running
termination_by s.length
decreasing_by
  have : ((c :: r).dropWhile isSpace).length ≤ (c :: r).length :=
    (List.dropWhile_suffix _).length_le
  rw [h] at this
  simp only [List.length_cons] at this ⊢
  omega

/-- The loop `renf_class.cpp:269-273`: up to white space or the end of the file; the flag is set by
looking beyond the end. -/
def readBare : List Char → List Char × Stream
  | [] => ([], ⟨[], true⟩)
  | c :: r => if isSpace c then ([], ⟨c :: r, false⟩) else (c :: (readBare r).1, (readBare r).2)

/-- the part of the stream that `operator>>` uses (`renf_class.cpp:248-274`) -/
def readToken (st : Stream) : Res (List Char × Stream) :=
  if st.eof then .throw "empty stream"
  else
    match st.chars with
    | [] => .ok ([], ⟨[], true⟩)
    | c :: r =>
      if c = '(' then
        match readParen r with
        | .ok (t, q) => .ok (t, ⟨q, false⟩)
        | .throw e => .throw e
        | .ub => .ub
        | .abort => .abort
        | .running => .running
      else .ok (readBare (c :: r))

/-- `operator>>` (`renf_class.cpp:244-279`).  `pword` is the field set by `set_pword`; without it a
null pointer is dereferenced. -/
def extract (x : Reg) (pword : Option ℕ) (st : Stream) : W Stream := fun w =>
  match readToken st with
  | .ok (s, st') => (do
      let k ← W.deref pword
      constructStr L T (.tmp 0) k s
      moveAssign x (.tmp 0)
      destroy (.tmp 0)
      pure st' : W Stream) w
  | .throw e => .throw e w
  | .ub => .ub
  | .abort => .abort
  | .running => .running

end Cxx
end EAntic
