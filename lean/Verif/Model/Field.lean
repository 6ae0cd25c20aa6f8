import Verif.Model.Nf
import Verif.Model.Ball

/-!
# Real embedded number fields (`renf_t`) and ball evaluation of polynomials
-/

namespace EAntic

/-- `renf_t` (`e-antic/renf.h`): the number field, the ball enclosing the generator, the default
precision and the immutability flag.  The stored derivative `der` is always the derivative of the
defining polynomial (`renf/init.c:32-35`, `renf/init_set.c:23-24`) and is recomputed here. -/
structure Field where
  nf : Nf
  emb : Ball
  prec : ℤ
  immutable : Bool := false
  deriving Repr, DecidableEq

/-- `fmpz_poly_extra/evaluate.c:17-27` (`_fmpz_poly_evaluate_arb`): Horner's scheme from the
leading coefficient. -/
def evalArb (A : ArbOps) (pol : List ℤ) (a : Ball) (prec : ℤ) : Ball :=
  pol.foldr (fun c res => A.addFmpz (A.mul res a prec) c prec) (Ball.exact 0)

/-- `fmpq_poly_extra/evaluate.c:42-46` (`_fmpq_poly_evaluate_arb`). -/
def evalArbQ (A : ArbOps) (num : List ℤ) (den : ℤ) (a : Ball) (prec : ℤ) : Ball :=
  A.divFmpz (evalArb A num a prec) den prec

/-- `_fmpz_poly_derivative`: coefficients of the derivative. -/
def derivList : List ℤ → List ℤ
  | [] => []
  | _ :: p => go 1 p
where
  go : ℤ → List ℤ → List ℤ
  | _, [] => []
  | k, a :: p => (k * a) :: go (k + 1) p

/-- `arb_get_abs_ubound_arf(abs, x, prec)`. -/
def absUbound (x : Ball) (prec : ℤ) : Option ℚ :=
  match x with
  | .fin m r => some (arfRound .up prec (|m| + r))
  | .whole => none

/-- `fmpz_poly_extra/relative_condition_number_2exp.c:28-42`: the directed rounding evaluation of
the polynomial with absolute coefficients.  The leading coefficient is processed first; a negative
one is rounded *towards* zero. -/
def condSum (prec : ℤ) (abs : ℚ) : List ℤ → ℚ
  | [] => 0
  | [c] => if 0 < c then arfRound .up prec c else -arfRound .down prec c
  | c :: p =>
    let res := arfRound .up prec (condSum prec abs p * abs)
    if 0 < c then arfRound .up prec (res + c)
    else if c < 0 then arfRound .up prec (res - c)
    else res

/-- `fmpz_poly_extra/relative_condition_number_2exp.c:43-54`: the exponent of the sum.  `none`: the
code reports failure and leaves `cond` unset.  `arf_abs_bound_lt_2exp_fmpz` returns 0 on 0. -/
def condExp (res : ℚ) : Option ℤ :=
  let e := if res = 0 then 0 else bexp res
  if -2 ^ 63 ≤ e ∧ e < 2 ^ 63 then some e else none

/-- `fmpz_poly_extra/relative_condition_number_2exp.c:16-55`: the exponent written to `cond`.
`none`: the code reports failure (exponent outside `slong`) and leaves `cond` unset, or has read
outside of the polynomial (an empty one).  On an infinite ball the sum is infinite or NaN as soon as
it is multiplied by the ball; there `arf_abs_bound_lt_2exp_fmpz` returns 0, as on 0. -/
def condNumber (p : List ℤ) (x : Ball) (prec : ℤ) : Option ℤ :=
  match p, absUbound x prec with
  | [], _ => none
  | p, none => condExp (if p.length = 1 then condSum prec 0 p else 0)
  | p, some abs => condExp (condSum prec abs p)

end EAntic
