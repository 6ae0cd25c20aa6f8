import Verif.Model.Init
import Verif.Model.Archive
import Mathlib.Data.List.DropRight
import Verif.Model.GetD

/-!
# Model of the construction of fields from text (`srcxx/renf_class.cpp`)

The registry, in which `make` looks up an equal field, is in `Model/Registry.lean`; here a field is
the record that `renf_class::make(nf, gen)` is called with.
-/

namespace EAntic

/-- Numerators and denominator in the form FLINT stores a rational polynomial in
(`fmpq_poly_canonicalise`): no zeros at the end, least common denominator. -/
def Text.canonical (l : List ℚ) : List ℤ × ℤ := Text.common (l.rdropWhile (· == 0))

/-- Text of balls: `read s prec` is `arb_set_str(x, s, prec)` (`none`: it returns nonzero), `text b n`
is `arb_get_str(b, n, 0)`. -/
structure BallText where
  read : List Char → ℤ → Option Ball
  text : Ball → ℕ → List Char

/-- the arguments of `renf_class::make(nf, gen)`: the field, the denominator of the defining
polynomial and the name -/
structure NamedField where
  field : Field
  den : ℤ
  name : List Char
  deriving DecidableEq

/-- `arf_bits(arb_midref(b))`: bits of the midpoint, 0 for special values -/
def midBits : Ball → ℕ
  | .whole => 0
  | .fin m _ => (arfBits m).toNat

/-- `renf_class::construction()` (`renf_class.cpp:191-201`) -/
def constructionOf (B : BallText) (k : NamedField) : Cxx.Construction where
  minpoly := Text.pretty k.name k.field.nf.pol k.den
  name := k.name
  emb := B.text k.field.emb (midBits k.field.emb)
  prec := k.field.prec

/-- What `make` depends on: ball arithmetic, root isolation, text of rationals and balls, whether
`NDEBUG` is set, and bounds on the iterations of root isolation and refinement. -/
structure MakeEnv where
  A : ArbOps
  F : Scale2
  R : List Char → Option ℚ
  B : BallText
  nd : Bool
  n₁ : ℕ
  n₂ : ℕ

/-- The body of the loop in `renf_class::make(minpoly, gen, emb, prec)` (`renf_class.cpp:125-164`).
`emb` is the callback; it may throw.  A precision below 2 is outside Arb's contract, so is signed
overflow of `prec *= 2`. -/
def makeStep (E : MakeEnv) (minpoly gen : List Char) (emb : ℤ → Res (List Char)) (prec : ℤ) :
    Res (ℤ ⊕ NamedField) :=
  match Text.setStrPretty E.R minpoly gen with
  | none => .throw "renf_class: can not read polynomial from string"
  | some l =>
    (emb prec).bind fun s =>
    if guardPrec prec = false then .ub
    else
      match E.B.read s prec with
      | none => .throw "renf_class: can not read ball from string"
      | some e =>
        (checkUnique E.A E.F E.n₁ (Text.canonical l).1 e prec).bind fun c =>
        if c = false then
          if prec * 2 < 2 ^ 63 then .ok (.inl (prec * 2)) else .ub
        else
          (renfInit E.A E.F E.nd E.n₁ E.n₂ (Text.canonical l).1 e prec).bind fun f =>
          .ok (.inr ⟨f, (Text.canonical l).2, gen⟩)

/-- `renf_class::make(minpoly, gen, emb, prec)` with a callback (`renf_class.cpp:124-165`); `n`
bounds the number of iterations -/
def makeFun (E : MakeEnv) (n : ℕ) (minpoly gen : List Char) (emb : ℤ → Res (List Char)) (prec : ℤ) :
    Res NamedField :=
  loop (makeStep E minpoly gen emb) n prec

/-- the callback in `renf_class.cpp:116-121` -/
def fixedEmb (emb : List Char) (prec : ℤ) (p : ℤ) : Res (List Char) :=
  if p ≠ prec then .throw "the given polynomial does not have a unique such root" else .ok emb

/-- `renf_class::make(minpoly, gen, emb, prec)` with a text (`renf_class.cpp:114-122`) -/
def makeStr (E : MakeEnv) (n : ℕ) (minpoly gen emb : List Char) (prec : ℤ) : Res NamedField :=
  makeFun E n minpoly gen (fixedEmb emb prec) prec

/-! ### Reading integer polynomials -/

/-- FLINT `fmpz_poly_set_coeff_fmpz(p, i, c)`: the polynomial is lengthened with zeros or, if its
leading coefficient becomes zero, shortened. -/
def setCoeffZ (p : List ℤ) (i : ℕ) (c : ℤ) : List ℤ :=
  ((p ++ List.replicate (i + 1 - p.length) 0).set i c).rdropWhile (· == 0)

/-- the loop `fmpz_poly_extra/set_str_pretty.c:36-39` -/
def setCoeffs (l : List ℤ) : ℕ → List ℤ → List ℤ
  | 0, p => p
  | i + 1, p => setCoeffs l i (setCoeffZ p i (l.getD i 0))

/-- `fmpz_poly_set_str_pretty(p, s, var)` (`fmpz_poly_extra/set_str_pretty.c:17-43`): `none` is a
nonzero return value, after which `p` is as before. -/
def setStrPrettyZ (R : List Char → Option ℚ) (p : List ℤ) (s var : List Char) : Option (List ℤ) :=
  match Text.setStrPretty R s var with
  | none => none
  | some l =>
    if (Text.canonical l).2 ≠ 1 then none
    else some (setCoeffs (Text.canonical l).1 (Text.canonical l).1.length p)

end EAntic
