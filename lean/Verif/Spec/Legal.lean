import Verif.Spec.Near
import Verif.Spec.Ops

/-!
# Specification: programs that keep to the documented preconditions

In terms of exact real numbers only.
-/

namespace EAntic

/-- The precondition of one call when the elements hold the numbers `v` and the field has precision `p`: no division by zero,
precisions that Arb allows, and numbers of moderate size where a condition number is computed. -/
def LegalCall (K : Nf) (α : ℝ) (p : ℤ) (v : ℕ → ℝ) : Op → Prop
  | .setPoly _ _ d => 0 < d
  | .div _ _ c => v c ≠ 0
  | .inv _ b => v b ≠ 0
  | .divZ _ _ c => c ≠ 0
  | .divQ _ _ c => c ≠ 0
  | .qDiv _ _ c => v c ≠ 0
  | .setEvaluation _ q => 2 ≤ q
  | .checkEmbedding _ q => 2 ≤ q
  | .sgn a => Sizeable K α p (v a)
  | .cmp a b => Sizeable K α p (v a) ∧ Sizeable K α p (v b) ∧ Sizeable K α p (v a - v b)
  | .cmpQ a c => Sizeable K α p (v a) ∧ Sizeable K α p (v a - c)
  | .floor a => Sizeable K α p (v a)
  | .ceil a => Sizeable K α p (v a)
  | .fdiv b c => v c ≠ 0 ∧ Sizeable K α p (v b) ∧ Sizeable K α p (v c) ∧ Sizeable K α p (v b / v c) ∧
      ∀ z : ℤ, |(z : ℝ) - v b / v c| < 1 → Sizeable K α p (v c * z) ∧ Sizeable K α p (v c * z - v b)
  | .getArb a q => Sizeable K α p (v a) ∧ 0 ≤ q ∧ q + 2 < 2 ^ 63 - 1
  | .getD a _ => ∀ x : ℝ, |x| = |v a| → Sizeable K α p x ∧ Sizeable K α p (x - (uintMax : ℚ)) ∧
      Sizeable K α p (x - (dblMax : ℚ))
  | .getCfrac _ a n => v a ≠ 0 → ∀ i ≤ n, Sizeable K α p (cfRem (v a) i)
  | _ => True

/-- Every call of the program is legal in the state in which it is made. -/
def LegalProgram (K : Nf) (α : ℝ) (p : ℤ) : (ℕ → ℝ) → List Op → Prop
  | _, [] => True
  | v, op :: ops => LegalCall K α p v op ∧ ∀ ans w, Step K α v op ans w → LegalProgram K α p w ops

/-- The calls that round a number to an integer.  They `abort` if the binary exponent of the
enclosure does not fit into a machine word. -/
def Op.rounds : Op → Bool
  | .floor _ => true
  | .ceil _ => true
  | .fdiv _ _ => true
  | .getCfrac _ _ _ => true
  | _ => false

end EAntic
