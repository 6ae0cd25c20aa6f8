import Verif.Model.Refine
import Verif.Model.Scale01
import Verif.Model.RootBound

/-!
# Construction and comparison of fields
-/

namespace EAntic

/-- `check_unique_real_root.c:21-27` (`arb_sgn2`) -/
def arbSgn2 (b : Ball) : ℤ :=
  if b.isPositive then 1 else if b.isNegative then -1 else 0

/-- `fmpq_poly_check_unique_real_root(pol, a, prec)` (`check_unique_real_root.c:29-115`) on the
numerators of `pol` (nothing else is read).  On an infinite ball the end points are infinite, both
evaluations are indeterminate and the answer is 0.  A precision below 2 is outside Arb's contract.
`fuel` bounds the iterations of the root isolation. -/
def checkUnique (A : ArbOps) (F : Scale2) (fuel : ℕ) (pol : List ℤ) (a : Ball) (prec : ℤ) :
    Res Bool :=
  if pol.length < 2 then .ok false
  else if pol.length = 2 then
    .ok (a.containsQ (-((pol.getD 0 0 : ℚ) / (pol.getD 1 0 : ℚ))))
  else if guardPrec prec = false then .ub
  else
    match a.interval prec with
    | none => .ok false
    | some (l, r) =>
      let lsign := arbSgn2 (evalArb A pol (Ball.exact l) (2 * prec))
      let rsign := arbSgn2 (evalArb A pol (Ball.exact r) (2 * prec))
      if lsign * rsign = -1 then
        if (evalArb A (derivList pol) a prec).containsZero = false then .ok true
        else
          (scale01 pol l r).bind fun pol2 =>
          (numRealRoots01Vca F fuel pol2).bind fun n => .ok (decide (n = 1))
      else .ok false

/-- `renf_init(nf, pol, emb, prec)` (`renf/init.c:19-41`).  `n₁`, `n₂` bound the iterations of the
root isolation and of the refinement. -/
def renfInit (A : ArbOps) (F : Scale2) (nd : Bool) (n₁ n₂ : ℕ) (pol : List ℤ) (emb : Ball)
    (prec : ℤ) : Res Field :=
  (checkUnique A F n₁ pol emb prec).bind fun c =>
  if c = false then .abort
  else
    let f : Field := ⟨⟨pol⟩, emb, prec, false⟩
    if f.nf.isLinear then .ok f else refineEmbedding A nd n₂ f prec

/-- numerators of the polynomial `x^n - d` over the denominator of `d`
(`init_nth_root.c:28-33`), for `n ≥ 1` -/
def nthRootPol (d : ℚ) (n : ℕ) : List ℤ :=
  -d.num :: (List.replicate (n - 1) 0 ++ [(d.den : ℤ)])

/-- `renf_init_nth_root_fmpq(nf, d, n, prec)` (`init_nth_root.c:19-44`).  `n = 0` is outside the
domain of `arb_root_ui`. -/
def renfInitNthRoot (A : ArbOps) (F : Scale2) (nd : Bool) (n₁ n₂ : ℕ) (d : ℚ) (n : ℕ) (prec : ℤ) :
    Res Field :=
  if d.num < 0 then .abort
  else if n = 0 ∨ guardPrec prec = false then .ub
  else renfInit A F nd n₁ n₂ (nthRootPol d n) (A.rootUi (A.setFmpq d prec) n prec) prec

/-- `set_embeddings_fmpz_poly.c:52-56`: the ball for the interval `(c 2^k, (c+1) 2^k)`; the midpoint
is rounded to `prec` bits and the rounding error is lost when the radius is set. -/
def embeddingBall (prec : ℤ) (I : ℤ × ℤ) : Ball :=
  .fin (arfRound .down prec ((I.1 * 2 + 1 : ℤ) : ℚ) * 2 ^ (I.2 - 1)) (2 ^ (I.2 - 1))

/-- the loop `set_embeddings_fmpz_poly.c:50-60` -/
def initAll (A : ArbOps) (F : Scale2) (nd : Bool) (n₁ n₂ : ℕ) (pol : List ℤ) (prec : ℤ) :
    List (ℤ × ℤ) → Res (List Field)
  | [] => .ok []
  | I :: Is =>
    (renfInit A F nd n₁ n₂ pol (embeddingBall prec I) prec).bind fun f =>
    (initAll A F nd n₁ n₂ pol prec Is).bind fun fs => .ok (f :: fs)

/-- `renf_set_embeddings_fmpz_poly(nf, pol, lim, prec)` (`set_embeddings_fmpz_poly.c:22-68`): the
initialised fields and the number of real embeddings. -/
def setEmbeddings (A : ArbOps) (F : Scale2) (flog0 : ℤ) (nd : Bool) (n₁ n₂ : ℕ) (pol : List ℤ)
    (lim : ℕ) (prec : ℤ) : Res (List Field × ℕ) :=
  (numRealRootsUpperBound F flog0 pol).bind fun _ =>
  (isolateRealRoots F flog0 n₁ pol).bind fun r =>
  if r.1 ≠ [] then .abort
  else
    (initAll A F nd n₁ n₂ pol prec (r.2.take lim)).bind fun fs => .ok (fs, r.2.length)

/-- `renf_equal` (`renf/equal.c:17-26`).  The defining polynomials are compared as rational
polynomials; their denominators, which nothing else reads, are the extra arguments. -/
def renfEqual (f : Field) (den : ℤ) (f' : Field) (den' : ℤ) : Bool :=
  decide (f.nf.pol = f'.nf.pol) && decide (den = den') && f.emb.overlaps f'.emb

/-- `renf_init_set` (`renf/init_set.c:16-27`) -/
def renfInitSet (src : Field) : Field := { src with immutable := false }

/-- `renf_set_immutable` (`renf/set_immutable.c`): the previous flag, and the new field -/
def setImmutable (f : Field) (flag : Bool) : Bool × Field := (f.immutable, { f with immutable := flag })

end EAntic
