import Verif.Model.Res
import Verif.Model.Descartes
import Verif.Spec.Poly
import Mathlib.Algebra.Polynomial.Eval.Defs

/-!
# Model of `src/fmpz_poly_extra/isolate_real_roots.c`

and of the counting functions built on it.
-/

namespace EAntic
open Polynomial

/-- FLINT `_fmpz_poly_taylor_shift(p, c, len)`: the coefficients of `p(x + c)` (exact). -/
def taylorShift (c : ℤ) : List ℤ → List ℤ
  | [] => []
  | a :: p => addMul c a (taylorShift c p)
where
  /-- coefficients of `a + (x + c) q` -/
  addMul (c : ℤ) (a : ℤ) : List ℤ → List ℤ
  | [] => [a]
  | b :: q => (a + c * b) :: addMul c b q

/-- Contract of FLINT's `_fmpz_poly_scale_2exp(p, len, k)`: in place, `p` becomes a power of two
times `p(2^k x)`; the power (FLINT removes the common powers of two) is left open. -/
structure Scale2 where
  /-- the function -/
  scale : List ℤ → ℤ → List ℤ
  length_scale : ∀ p k, (scale p k).length = p.length
  toPoly_scale : ∀ p k, ∃ m : ℤ,
    toPoly (scale p k) = C ((2 : ℝ) ^ m) * (toPoly p).comp (C ((2 : ℝ) ^ k) * X)

/-- FLINT `fmpz_val2` on a positive integer: the exponent of 2 (0 for 0). -/
def val2 (n : ℕ) : ℕ := if h : n ≠ 0 ∧ n % 2 = 0 then val2 (n / 2) + 1 else 0
termination_by n
decreasing_by omega

/-- Local state of `_fmpz_poly_isolate_real_roots_0_1_vca` together with the output arrays. -/
structure VcaState where
  c : ℕ
  k : ℕ
  /-- current polynomial `(p, len)` -/
  p : List ℤ
  /-- `exact_roots[0 .. n_exact]` -/
  exact : List ℚ
  /-- `(c_array[i], k_array[i])` -/
  ivs : List (ℤ × ℤ)

/-- `isolate_real_roots.c:53-66`: strip zero constant coefficients; number stripped and rest. -/
def stripZeros : List ℤ → ℕ × List ℤ
  | [] => (0, [])
  | a :: p => if a = 0 then ((stripZeros p).1 + 1, (stripZeros p).2) else (0, a :: p)

/-- `isolate_real_roots.c:96-116`: go to the next node or return -/
def vcaNext (F : Scale2) (st : VcaState) (p : List ℤ) (exact : List ℚ) (ivs : List (ℤ × ℤ)) :
    Res (VcaState ⊕ (List ℚ × List (ℤ × ℤ))) :=
  let c := st.c + 1
  let i := val2 c
  if st.k = i then .ok (.inr (exact, ivs))
  else
    let p := taylorShift 1 p
    if i = 0 then .ok (.inl { c, k := st.k, p, exact, ivs })
    else if i ≤ st.k then
      .ok (.inl { c := c / 2 ^ i, k := st.k - i, p := F.scale p i, exact, ivs })
    else .abort

/-- `isolate_real_roots.c:50-118`: one iteration of the `while (1)` loop.  Reading `p[-1]` when the
vector has become empty is `Res.ub`; the two `assert`s are kept (`k >= 0` holds by typing).
Only the variant with non-NULL arrays is modelled; the NULL variants update the same counters. -/
def vcaStep (F : Scale2) (st : VcaState) : Res (VcaState ⊕ (List ℚ × List (ℤ × ℤ))) :=
  let z := stripZeros st.p
  let p := z.2
  let exact := st.exact ++ List.replicate z.1 ((st.c : ℚ) / 2 ^ st.k)
  if p = [] then .ub
  else
    match descartesBound01 p 2 with
    | none | some 2 =>
      .ok (.inl { c := 2 * st.c, k := st.k + 1, p := F.scale p (-1), exact, ivs := st.ivs })
    | some 1 => vcaNext F st p exact (st.ivs ++ [((st.c : ℤ), -(st.k : ℤ))])
    | some 0 => vcaNext F st p exact st.ivs
    | some _ => .abort

/-- `_fmpz_poly_isolate_real_roots_0_1_vca(…, pol, len)` (`isolate_real_roots.c:29-119`). -/
def isolate01 (F : Scale2) (fuel : ℕ) (pol : List ℤ) : Res (List ℚ × List (ℤ × ℤ)) :=
  loop (vcaStep F) fuel { c := 0, k := 0, p := pol, exact := [], ivs := [] }

/-- `fmpz_poly_num_real_roots_0_1_vca` (`num_real_roots_0_1_vca.c:16-24`), also
`fmpz_poly_num_real_roots_0_1` (`num_real_roots_0_1.c`). -/
def numRealRoots01Vca (F : Scale2) (fuel : ℕ) (pol : List ℤ) : Res ℕ :=
  (isolate01 F fuel pol).bind fun r => .ok (r.1.length + r.2.length)

end EAntic
