import Verif.Model.ArraysMore
import Verif.Model.Convert
import Verif.Model.Rand
import Verif.Model.Sturm

/-!
# The remaining loops over arrays, index by index

`num_real_roots_0_1_sturm.c`, `get_cfrac.c` and `renf/randtest.c`.
-/

namespace EAntic.Arrays

/-- the value of an `int` expression; signed overflow is undefined -/
def cint (x : ℤ) : Res ℤ := if -2 ^ 31 ≤ x ∧ x < 2 ^ 31 then .ok x else .ub

/-! ## Sturm -/

/-- `num_real_roots_0_1_sturm.c:70-79`: the next polynomial of the sequence after `p0`, `p1`.  The
leading coefficient is read only if the exponent is odd. -/
def sturmNext (R : PseudoRem) (p0 p1 : List ℤ) : Res (List ℤ) := do
  let (r, d) := R.rem p0 p1
  let flip ← (if d % 2 = 0 then pure true else do
    let l ← rd p1 ((p1.length : ℤ) - 1)
    pure (decide (sgn l = 1)))
  let r := if flip then r.map (- ·) else r
  let c := NfElem.content r
  if c ≠ 1 then
    forUp 0 r.length (fun i p => do
      let x ← rd p i
      wr p i (x / (c : ℤ))) r
  else pure r

/-- One iteration of `num_real_roots_0_1_sturm.c:44-80`; `t` is an `int`. -/
def sturmStep (R : PseudoRem) (s : SturmState) : Res (SturmState ⊕ ℤ) :=
  if s.p1 = [] then .ok (.inr s.t)
  else do
    let x ← rd s.p1 0
    let (s0a, t) := signChangeAt0 (sgn x) s.s0a s.t
    let t ← cint t
    let w ← window s.p1 0 s.p1.length
    let (s0b, t) := signChangeAt1 (sgn (evaluateAtOne w)) s.s0b t
    let t ← cint t
    let r ← sturmNext R s.p0 s.p1
    return .inl ⟨s.p1, r, s0a, s0b, t⟩

/-- `fmpz_poly_num_real_roots_0_1_sturm(pol)` (`num_real_roots_0_1_sturm.c:18-87`). -/
def sturm01 (R : PseudoRem) (fuel : ℕ) (pol : List ℤ) : Res ℤ :=
  if pol = [] then .abort
  else do
    let x ← rd pol 0
    let w ← window pol 0 pol.length
    loop (sturmStep R) fuel ⟨pol, derivList pol, sgn x, sgn (evaluateAtOne w), 0⟩

/-! ## Continued fractions -/

section
variable {K : Nf} (E : Env K)

/-- a call that does not touch fields and elements -/
def lift {β : Type} (r : Res β) : M β := fun s => r.bind fun b => .ok (b, s)

/-- `get_cfrac.c:23-31`: the loop over `i` (the first number counts the iterations that are left), on
the array `c`.  `renf_elem_floor` writes `c[i]`, `renf_elem_sub_fmpz` reads it. -/
def cfracFrom (rem : Reg) (n : ℤ) : ℕ → ℤ → List ℤ → M (ℤ × List ℤ)
  | 0, _, c => pure (n, c)
  | m + 1, i, c => do
    let z ← E.floor rem
    let c ← lift (wr c i z)
    let z ← lift (rd c i)
    E.subZ rem rem z
    if ← E.isZero rem then pure (i + 1, c)
    else
      E.inv rem rem
      cfracFrom rem n m (i + 1) c

/-- `renf_elem_get_cfrac(c, rem, a, n, nf)` (`renf_elem/get_cfrac.c:16-32`): the value returned and the
array -/
def getCfrac (c : List ℤ) (rem a : Reg) (n : ℤ) : M (ℤ × List ℤ) := do
  E.set rem a
  if ← E.isZero rem then pure (0, c)
  else cfracFrom E rem n n.toNat 0 c

end

/-! ## Random fields -/

/-- `renf_randtest` (`renf/randtest.c:40-94`) with the arrays `c_array` and `k_array`; `kmem` is what
`flint_malloc` returns, with any contents. -/
def renfRandtest (A : ArbOps) (F : Scale2) (flog0 : ℤ) (junk kmem : ℕ → List ℤ) (N : List ℤ → ℕ) (nd : Bool)
    (n₀ n₁ n₂ : ℕ) (draws : ℕ → Draw) (pick : ℕ → ℕ) (len prec : ℤ) : Res Field := do
  if len ≤ 1 then .abort
  let p ← drawLoop N draws n₀ 0
  let c := vecInit p.length
  let k := kmem p.length
  let out ← isolate F flog0 junk n₁ ⟨none, 0, some c, some k, 0⟩ p
  if out.nIv = 0 then .abort
  let i := pick out.nIv.toNat
  let ci ← rd (out.cArr.getD []) i
  let ki ← rd (out.kArr.getD []) i
  let emb ← arbFromInterval (ci, ki) (fmpzBits ci + max ki 0 + 2)
  renfInit A F nd n₁ n₂ p emb prec

end EAntic.Arrays
