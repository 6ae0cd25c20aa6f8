import Verif.Spec.CxxEnds
import Verif.Spec.PyProg

/-!
# Specification: programs that catch exceptions, with numbers of moderate size
-/

namespace EAntic

/-- Every call of a program that catches exceptions is one it may make and its numbers are of moderate size. -/
def Cxx.TryAllowedSized (L : Lib) (α : ℕ → ℝ) (p : ℕ → ℤ) : (ℕ → Slot) → List Cmd → Prop
  | _, [] => True
  | S, c :: cs => Valid L α S c ∧ SizeOk L.K α p S c ∧ ∀ r S', TryStep L α S c r S' → TryAllowedSized L α p S' cs

namespace Py
open Cxx

/-- The numbers in a statement that evaluates numerically are of moderate size. -/
def PyStmt.SizeOk (K : ℕ → Nf) (α : ℕ → ℝ) (p : ℕ → ℤ) (S : ℕ → Slot) : PyStmt → Prop
  | .py _ => True
  | .cxx c => Cxx.SizeOk K α p S c

/-- The statements that round a number to an integer. -/
def PyStmt.rounds : PyStmt → Prop
  | .py _ => False
  | .cxx c => c.rounds

/-- Every statement of a program is one it may make and its numbers are of moderate size. -/
def PyAllowedSized (P : PyEnv) (L : Lib) (α : ℕ → ℝ) (p : ℕ → ℤ) : (ℕ → Slot) → List PyStmt → Prop
  | _, [] => True
  | S, c :: cs => c.Valid L α S ∧ c.SizeOk L.K α p S ∧ ∀ r S', c.Step P L α S r S' → PyAllowedSized P L α p S' cs

end Py

end EAntic
