import Verif.Spec.Ends
import Verif.Model.Refine

/-!
# Specification: fields near a root, and numbers of moderate size
-/

namespace EAntic
open Polynomial

/-- the field encloses `α` in a ball of radius at most `δ` -/
def Field.Near (K : Nf) (α δ : ℝ) (f : Field) : Prop :=
  f.nf = K ∧ ∃ m r : ℚ, f.emb = .fin m r ∧ α ∈ Ball.fin m r ∧ (r : ℝ) ≤ δ

/-- The size of the coefficients does not exceed the size of an address space:
`log₂ (∑ |aᵢ| (2|α|+2)^i)`, times the number of coefficients, is at most `2^62`. -/
def Nf.Sane (K : Nf) (α : ℝ) : Prop :=
  ∃ k : ℤ, (toPoly (K.pol.map (|·|))).eval (2 * (|α| + 1)) ≤ 2 ^ k ∧
    (k + 1) * (K.pol.length : ℤ) ≤ 2 ^ 62

/-- A field near a root with which calls may start: its precision is at least `p`, and it may be
refined (an immutable field may not, in a build with assertions). -/
def Start (K : Nf) (α δ : ℝ) (p : ℤ) (ndebug : Bool) (f : Field) : Prop :=
  f.Near K α δ ∧ p ≤ f.prec ∧ (f.immutable = true → ndebug = true)

/-- A number `x` that is rational, or `(∑ cᵢ αⁱ) / d` with `2^(2-p) ≤ ∑ |cᵢ| |α|^i` and
`∑ |cᵢ| (2|α|+2)^i` below `2^(2^63 - 2)`, where `p` is the precision of the field.  (The first holds if
`|α| ≥ 1`, see `sizeable_of_one_le`, and if `|α|^(n-1)` is at least `2^(2-p)` in degree `n`, so for all numbers
once the precision is high enough, see `C44_high_precision`; the second if the coefficients fit into the
address space.) -/
def Sizeable (K : Nf) (α : ℝ) (p : ℤ) (x : ℝ) : Prop :=
  ∀ e : NfElem, e.Wf K → e.val α = x → e.isRational K = true ∨
    2 ^ (2 - p) ≤ (toPoly (e.num.map (|·|))).eval |α| ∧
      ∃ k : ℤ, (toPoly (e.num.map (|·|))).eval (2 * (|α| + 1)) ≤ 2 ^ k ∧ k + 1 < 2 ^ 63

/-- `renf_refine_embedding`, cut off after `k` rounds, with overflow of the working precision
reported as an exception -/
def refineAt (A : ArbOps) (ndebug : Bool) (k : ℕ) (f : Field) (p : ℤ) : Res Field :=
  (refineEmbedding A ndebug k f p).reportOverflow

end EAntic
