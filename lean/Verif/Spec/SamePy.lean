import Verif.Spec.PyProg
import Verif.Spec.Same

/-!
# Specification of Python programs whose answers do not depend on the precision
-/

namespace EAntic.Py
open Cxx

/-- The outcome of the statement is determined by the values of the operands. -/
def PyStmt.Exact (L : Lib) (S : ℕ → Slot) : PyStmt → Prop
  | .py _ => True
  | .cxx c => Cxx.Exact L S c

/-- All statements of a program are of this kind. -/
def PyAllExact (P : PyEnv) (L : Lib) (α : ℕ → ℝ) : (ℕ → Slot) → List PyStmt → Prop
  | _, [] => True
  | S, c :: cs => c.Exact L S ∧ ∀ r S', c.Step P L α S r S' → PyAllExact P L α S' cs

end EAntic.Py
