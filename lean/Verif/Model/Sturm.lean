import Verif.Model.Descartes
import Verif.Model.Field
import Verif.Model.Nf
import Verif.Model.Res
import Verif.Spec.Poly

/-!
# Model of `src/fmpz_poly_extra/num_real_roots_0_1_sturm.c` and `evaluate_at_one.c`
-/

namespace EAntic
open Polynomial

/-- FLINT `fmpz_poly_pseudo_rem(R, &d, A, B)`: the remainder and the exponent.  The contract is
FLINT's: `lead(B)^d A = Q B + R` with `len(R) < len(B)`; `B` is nonzero and has no leading zeros, and
neither does `R`. -/
structure PseudoRem where
  rem : List ℤ → List ℤ → List ℤ × ℕ
  eqn : ∀ A B : List ℤ, B.getLastD 0 ≠ 0 → ∃ Q : ℝ[X],
    C ((B.getLastD 0 : ℤ) : ℝ) ^ (rem A B).2 * toPoly A = Q * toPoly B + toPoly (rem A B).1
  length_lt : ∀ A B : List ℤ, B.getLastD 0 ≠ 0 → (rem A B).1.length < B.length
  normal : ∀ A B : List ℤ, B.getLastD 0 ≠ 0 → (rem A B).1 ≠ [] → (rem A B).1.getLastD 0 ≠ 0

/-- `fmpz_poly_evaluate_at_one` (`evaluate_at_one.c:18-21`): `_fmpz_vec_sum`. -/
def evaluateAtOne (p : List ℤ) : ℤ := p.sum

/-- The variables of the loop `num_real_roots_0_1_sturm.c:44-80`. -/
structure SturmState where
  p0 : List ℤ
  p1 : List ℤ
  s0a : ℤ
  s0b : ℤ
  t : ℤ
  deriving DecidableEq

/-- "sign change at 0" (`num_real_roots_0_1_sturm.c:46-57`): new `s0a` and `t`. -/
def signChangeAt0 (s s0a t : ℤ) : ℤ × ℤ :=
  if s0a = 0 then (s, t + 1) else if s ≠ s0a then (s, t + 1) else (s0a, t)

/-- "sign change at 1" (`num_real_roots_0_1_sturm.c:59-68`): new `s0b` and `t`. -/
def signChangeAt1 (s s0b t : ℤ) : ℤ × ℤ :=
  if s0b = 0 then (s, t) else if s ≠ s0b then (s, t - 1) else (s0b, t)

/-- `num_real_roots_0_1_sturm.c:70-79`: the next polynomial of the sequence after `p0`, `p1`. -/
def sturmNext (R : PseudoRem) (p0 p1 : List ℤ) : List ℤ :=
  let (r, d) := R.rem p0 p1
  let r := if d % 2 = 0 ∨ sgn (p1.getLastD 0) = 1 then r.map (- ·) else r
  let c := NfElem.content r
  if c ≠ 1 then r.map (· / (c : ℤ)) else r

/-- One iteration of `num_real_roots_0_1_sturm.c:44-80`.  `t` is an `int` in the code; it stays between
minus the degree and the degree. -/
def sturmStep (R : PseudoRem) (s : SturmState) : Res (SturmState ⊕ ℤ) :=
  if s.p1 = [] then .ok (.inr s.t)
  else
    let (s0a, t) := signChangeAt0 (sgn (s.p1.headD 0)) s.s0a s.t
    let (s0b, t) := signChangeAt1 (sgn (evaluateAtOne s.p1)) s.s0b t
    .ok (.inl ⟨s.p1, sturmNext R s.p0 s.p1, s0a, s0b, t⟩)

/-- `fmpz_poly_num_real_roots_0_1_sturm(pol)` (`num_real_roots_0_1_sturm.c:18-87`). -/
def numRealRoots01Sturm (R : PseudoRem) (fuel : ℕ) (pol : List ℤ) : Res ℤ :=
  if pol = [] then .abort
  else
    loop (sturmStep R) fuel
      ⟨pol, derivList pol, sgn (pol.headD 0), sgn (evaluateAtOne pol), 0⟩

end EAntic
