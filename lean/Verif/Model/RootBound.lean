import Verif.Model.Vca
import Mathlib.Data.Nat.Log

/-!
# Model of `src/fmpz_poly_extra/positive_root_upper_bound_2exp.c`,
`isolate_real_roots.c:121-224`, `descartes_bound.c` and `num_real_roots_vca.c`
-/

namespace EAntic

/-- `fmpz_clog_ui(|a|, 2)` (FLINT, precondition `|a| ≥ 1`): the ceiling of `log₂ |a|`. -/
def clog2 (a : ℤ) : ℤ := Nat.clog 2 a.natAbs

/-- `fmpz_flog_ui(|a|, 2)` (FLINT): the floor of `log₂ |a|`.  FLINT's precondition is `|a| ≥ 1`;
libeantic also calls it on 0, the value returned then is the parameter `flog0`. -/
def flog2 (flog0 : ℤ) (a : ℤ) : ℤ := if a = 0 then flog0 else Nat.log 2 a.natAbs

/-- `positive_root_upper_bound_2exp.c:57-67`: the candidate exponent for charging the coefficient
`i` to the coefficient `j > i`.  C division truncates towards zero (`Int.tdiv`); `slong` overflow
is not modelled. -/
def chargeExp (flog0 : ℤ) (pol : List ℤ) (coeffs : List ℤ) (i j : ℕ) : ℤ :=
  Int.tdiv (coeffs.getD j 0 + clog2 (pol.getD i 0) - flog2 flog0 (pol.getD j 0) + (j : ℤ) - (i : ℤ) - 1)
    ((j : ℤ) - (i : ℤ))

/-- `positive_root_upper_bound_2exp.c:50-76`: the inner loop over `j`.  `best` is `(jmin, bmin)`,
`none` while `bmin = WORD_MAX`; `b0 = none` is `WORD_MIN`. -/
def innerLoop (f : ℕ → ℤ) (b0 : Option ℤ) : List ℕ → Option (ℕ × ℤ) → Option (ℕ × ℤ)
  | [], best => best
  | j :: js, best =>
    let b := f j
    let better := match best with
      | none => true
      | some (_, bmin) => decide (b < bmin)
    if better then
      let stop := match b0 with
        | none => false
        | some x => decide (b < x)
      if stop then some (j, b) else innerLoop f b0 js (some (j, b))
    else innerLoop f b0 js best

/-- State of the outer loop: the charge counters `coeffs[]`, the bound `b0` and (ghost) the list of
charges `(i, jmin)` made so far. -/
structure BoundState where
  coeffs : List ℤ
  b0 : Option ℤ
  charges : List (ℕ × ℕ)

/-- `FLINT_MAX(b0, bmin)` with `WORD_MIN` as `none`. -/
def maxBound (b0 : Option ℤ) (b : ℤ) : Option ℤ :=
  match b0 with
  | none => some b
  | some x => some (max x b)

/-- `positive_root_upper_bound_2exp.c:46-82`: one iteration of the outer loop. -/
def boundStep (flog0 : ℤ) (pol : List ℤ) (st : BoundState) (i : ℕ) : BoundState :=
  if sgn (pol.getD i 0) = 0 ∨ sgn (pol.getD i 0) = sgn (pol.getLastD 0) then st
  else
    match innerLoop (chargeExp flog0 pol st.coeffs i) st.b0
        (List.range' (i + 1) (pol.length - 1 - i)) none with
    | none => st   -- `assert(jmin >= 0)`; unreachable since `i + 1 < len`
    | some (j, b) =>
      { coeffs := st.coeffs.modify j (· + 1), b0 := maxBound st.b0 b,
        charges := (i, j) :: st.charges }

/-- the outer loop for `i = len - 2, …, 0` -/
def boundLoop (flog0 : ℤ) (pol : List ℤ) : BoundState :=
  ((List.range (pol.length - 1)).reverse).foldl (boundStep flog0 pol)
    { coeffs := List.replicate pol.length 1, b0 := none, charges := [] }

/-- `_fmpz_poly_positive_root_upper_bound_2exp` and `…_local_max`
(`positive_root_upper_bound_2exp.c:31-93`); `none` is `WORD_MIN`. -/
def rootUpperBound (flog0 : ℤ) (pol : List ℤ) : Option ℤ := (boundLoop flog0 pol).b0

/-- Does every charge made by the loop go to a coefficient with the sign of the leading one? -/
def chargesOk (flog0 : ℤ) (pol : List ℤ) : Bool :=
  (boundLoop flog0 pol).charges.all fun ij => sgn (pol.getD ij.2 0) == sgn (pol.getLastD 0)

/-- `fmpz_poly_positive_root_upper_bound_2exp` (`positive_root_upper_bound_2exp.c:95-107`). -/
def polyRootUpperBound (flog0 : ℤ) (pol : List ℤ) : Option ℤ :=
  if pol = [] then some 0 else rootUpperBound flog0 (stripZeros pol).2

/-- negate the odd coefficients: `isolate_real_roots.c:143`, `descartes_bound.c:53-54` -/
def negOdd : List ℤ → List ℤ
  | [] => []
  | [a] => [a]
  | a :: b :: p => a :: (-b) :: negOdd p

/-- Multiplication of a rational by `2^k` (`fmpq_mul_2exp` / `fmpq_div_2exp`). -/
def mul2exp (q : ℚ) (k : ℤ) : ℚ := q * (2 : ℚ) ^ k

/-- The positive phase shared by both halves of `fmpz_poly_isolate_real_roots`: bound, scaling,
isolation in `[0,1)`, and scaling back of the exact roots and interval exponents. -/
def isolatePos (F : Scale2) (flog0 : ℤ) (fuel : ℕ) (p : List ℤ) : Res (List ℚ × List (ℤ × ℤ)) :=
  match rootUpperBound flog0 p with
  | none => .ok ([], [])
  | some k => (isolate01 F fuel (F.scale p k)).bind fun r =>
    .ok (r.1.map (mul2exp · k), r.2.map fun I => (I.1, I.2 + k))

/-- `fmpz_poly_isolate_real_roots` (`isolate_real_roots.c:121-224`).  For the negative roots the C
code first turns `(c, k)` into `(-(c+1), k)` and the exact roots into their opposites and then
scales by `2^k`; the two in-place loops with swaps reverse the arrays. -/
def isolateRealRoots (F : Scale2) (flog0 : ℤ) (fuel : ℕ) (pol : List ℤ) :
    Res (List ℚ × List (ℤ × ℤ)) :=
  if pol = [] then .abort
  else
    let z := stripZeros pol
    (isolatePos F flog0 fuel (negOdd z.2)).bind fun neg =>
    (isolatePos F flog0 fuel z.2).bind fun pos =>
    .ok ((neg.1.map fun e => -e).reverse ++ List.replicate z.1 0 ++ pos.1,
      (neg.2.map fun I => (-(I.1 + 1), I.2)).reverse ++ pos.2)

/-- `fmpz_poly_num_real_roots_vca` (`num_real_roots_vca.c:16-21`). -/
def numRealRootsVca (F : Scale2) (flog0 : ℤ) (fuel : ℕ) (pol : List ℤ) : Res ℕ :=
  (isolateRealRoots F flog0 fuel pol).bind fun r => .ok (r.1.length + r.2.length)

/-- one half of `fmpz_poly_num_real_roots_upper_bound` (`descartes_bound.c:44-49`, `:56-61`);
adding `WORD_MAX` to the counter would be a signed overflow. -/
def upperBoundPos (F : Scale2) (flog0 : ℤ) (p : List ℤ) : Res ℕ :=
  match rootUpperBound flog0 p with
  | none => .ok 0
  | some k =>
    match descartesBound01 (F.scale p k) p.length with
    | none => .ub
    | some n => .ok n

/-- `fmpz_poly_num_real_roots_upper_bound` (`descartes_bound.c:21-65`). -/
def numRealRootsUpperBound (F : Scale2) (flog0 : ℤ) (pol : List ℤ) : Res ℕ :=
  if pol = [] then .abort
  else
    let z := stripZeros pol
    (upperBoundPos F flog0 z.2).bind fun pos =>
    (upperBoundPos F flog0 (negOdd z.2)).bind fun neg =>
    .ok (z.1 + pos + neg)

end EAntic
