import Verif.Model.Query
import Verif.Spec.Store

/-!
# Specification: ball arithmetic that converges, and refinements that succeed

`ArbOps` only says that results enclose.  For termination one needs more: the results get small
when the operands are small and the precision is large.
-/

namespace EAntic

/-- The ball is finite, contains `x` and has radius at most `ε`. -/
def Ball.Within (b : Ball) (x ε : ℝ) : Prop := x ∈ b ∧ ∃ m r : ℚ, b = .fin m r ∧ (r : ℝ) ≤ ε

/-- The four operations by which elements are evaluated are continuous: small enclosures of the
operands and a large precision give a small enclosure of the result.  Nothing is said about the
speed. -/
structure ArbOps.Convergent (A : ArbOps) : Prop where
  mul : ∀ x y ε : ℝ, 0 < ε → ∃ δ > 0, ∃ P : ℤ, ∀ a b p, P ≤ p →
    Ball.Within a x δ → Ball.Within b y δ → (A.mul a b p).Within (x * y) ε
  addFmpz : ∀ (x : ℝ) (z : ℤ) (ε : ℝ), 0 < ε → ∃ δ > 0, ∃ P : ℤ, ∀ a p, P ≤ p →
    Ball.Within a x δ → (A.addFmpz a z p).Within (x + z) ε
  mulFmpz : ∀ (x : ℝ) (z : ℤ) (ε : ℝ), 0 < ε → ∃ δ > 0, ∃ P : ℤ, ∀ a p, P ≤ p →
    Ball.Within a x δ → (A.mulFmpz a z p).Within (x * z) ε
  divFmpz : ∀ (x : ℝ) (z : ℤ) (ε : ℝ), z ≠ 0 → 0 < ε → ∃ δ > 0, ∃ P : ℤ, ∀ a p, P ≤ p →
    Ball.Within a x δ → (A.divFmpz a z p).Within (x / z) ε

/-- Division is continuous, away from the divisor zero. -/
def ArbOps.DivConvergent (A : ArbOps) : Prop :=
  ∀ x y ε : ℝ, y ≠ 0 → 0 < ε → ∃ δ > 0, ∃ P : ℤ, ∀ a b p, P ≤ p →
    Ball.Within a x δ → Ball.Within b y δ → (A.div a b p).Within (x / y) ε

/-- The enclosure of the positive `n`-th root of a positive rational becomes small when the precision
is large. -/
def ArbOps.RootConvergent (A : ArbOps) : Prop :=
  ∀ (d : ℚ) (n : ℕ) (ε : ℝ), 0 < d → 0 < n → 0 < ε → ∃ P : ℤ, ∀ p, P ≤ p →
    ∃ m r : ℚ, A.rootUi (A.setFmpq d p) n p = .fin m r ∧ (r : ℝ) ≤ ε

/-- `renf_refine_embedding` succeeds for every requested number of bits up to `P`: it returns, and
the generator is known with that relative accuracy (up to the factor 8 that comes from counting
bits).  `C16` shows the accuracy for the real function whenever it returns. -/
def Refines (R : Field → ℤ → Res Field) (α : ℝ) (I : Field → Prop) (P : ℤ) : Prop :=
  ∀ f p, I f → 3 ≤ p → p ≤ P → ∃ f', R f p = .ok f' ∧ f'.emb.Within α (|α| * 2 ^ (3 - p))

/-- The precision with which the queries first evaluate the element `e` is legal for Arb: either `e`
is rational and is not evaluated, or its condition number is computed and does not push the
precision below 2. -/
def EvalOk (K : Nf) (f : Field) (e : NfElem) : Prop :=
  e.isRational K = true ∨
    ∃ c, condNumber e.num f.emb (max f.prec 16) = some c ∧
      2 ≤ max f.prec f.emb.relAccuracyBits + c

/-- The ball is finite and the binary exponent of its numbers is far from the bounds of a machine
word. -/
def Ball.Moderate (b : Ball) : Prop := ∃ m r : ℚ, b = .fin m r ∧ bexp (|m| + |r|) < 2 ^ 62

/-- The enclosure with which rounding the element at `b` starts is moderate: the stored one, or, if
that one is infinite, the one computed first.  (Otherwise `renf_elem_floor` may call `abort`.)
Rational elements need none. -/
def StartOk {K : Nf} (E : Env K) (s : Mem) (b : Reg) : Prop :=
  (s.heap b).elem.isRational K = true ∨ (s.heap b).emb.Moderate ∨
    ((s.heap b).emb = .whole ∧ ∀ c, condNumber (s.heap b).elem.num s.fld.emb (max s.fld.prec 16) =
      some c → (E.evalBall s.fld (s.heap b).elem
        (max s.fld.prec s.fld.emb.relAccuracyBits + c)).Moderate)

end EAntic
