import Verif.Model.Init
import Verif.Model.PolyExtra
import Verif.Model.Elem

/-!
# Models of `randtest_irreducible.c` and of the two `randtest.c`

The random state is what it answers: `Draw` for one call of `fmpz_poly_randtest_irreducible`, `pick n`
for `n_randint(state, n)`.
-/

namespace EAntic

/-- What the random state gives in one call of `fmpz_poly_randtest_irreducible`: the prime of
`fmpz_randprime` (`randtest_irreducible.c:30`), the coefficients of the polynomial of
`fmpz_mod_poly_randtest_irreducible` lifted to `{0, …, c-1}` (`:34-36` or `:39-41`), and the answers of
`n_randint(state, 3)` in the loop (`:48`). -/
structure Draw where
  c : ℕ
  q : List ℕ
  coin : ℕ → ℕ

/-- `fmpz_poly_randtest_irreducible` (`randtest_irreducible.c:19-63`); the loop `:46-53` visits every
coefficient.  FLINT does not normalise the length afterwards. -/
def randIrreducible (d : Draw) : List ℤ :=
  d.q.mapIdx fun (i a : ℕ) => if d.coin i = 0 then (a : ℤ) - d.c else a

/-- the loop `renf/randtest.c:57-59`: draw until there is a real root -/
def drawLoop (N : List ℤ → ℕ) (draws : ℕ → Draw) : ℕ → ℕ → Res (List ℤ)
  | 0, _ => .running
  | n + 1, i =>
    if hasRealRoot N (randIrreducible (draws i)) then .ok (randIrreducible (draws i))
    else drawLoop N draws n (i + 1)

/-- `fmpz_bits` -/
def fmpzBits (c : ℤ) : ℤ := Nat.size c.natAbs

/-- `arb_from_interval(x, c, k, prec)` (`renf/randtest.c:22-38`).  After the test `arb_add_si` is
exact, so that `embeddingBall`, which drops its rounding error, is the same. -/
def arbFromInterval (I : ℤ × ℤ) (prec : ℤ) : Res Ball :=
  if prec ≤ 0 ∨ prec < fmpzBits I.1 + 2 then .abort else .ok (embeddingBall prec I)

/-- `renf_randtest(nf, state, len, prec, bits)` (`renf/randtest.c:40-94`); `n₀` bounds the number of
draws, `N` is FLINT's `_fmpz_poly_num_real_roots`.  Of the exact roots only the number is stored
(`:66`). -/
def renfRandtest (A : ArbOps) (F : Scale2) (flog0 : ℤ) (N : List ℤ → ℕ) (nd : Bool) (n₀ n₁ n₂ : ℕ)
    (draws : ℕ → Draw) (pick : ℕ → ℕ) (len prec : ℤ) : Res Field :=
  if len ≤ 1 then .abort
  else
    (drawLoop N draws n₀ 0).bind fun p =>
    (isolateRealRoots F flog0 n₁ p).bind fun r =>
    if r.2.length = 0 then .abort
    else
      let I := r.2.getD (pick r.2.length) (0, 0)
      (arbFromInterval I (fmpzBits I.1 + max I.2 0 + 2)).bind fun emb =>
      renfInit A F nd n₁ n₂ p emb prec

/-- `renf_degree` (`renf/degree.c:16-19`) -/
def renfDegree (f : Field) : ℤ := (f.nf.pol.length : ℤ) - 1

namespace Env
variable {K : Nf} (E : Env K)
open M

/-- `renf_elem_randtest` (`renf_elem/randtest.c:17-22`); `e` is the answer of `nf_elem_randtest`. -/
def randtest (a : Reg) (e : NfElem) : M Unit := do
  let x ← read a
  write a ⟨e, x.emb⟩
  let f ← field
  E.setEvaluation a f.prec

end Env

end EAntic
