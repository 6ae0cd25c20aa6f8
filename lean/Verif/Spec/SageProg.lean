import Verif.Model.SageProg
import Verif.Spec.PyNum
import Verif.Spec.TextProg

/-!
# Specification: programs of SageMath
-/

namespace EAntic.Py
open Cxx

variable (L : Lib) (T : TextLib) {γ : Type} (h : Dbl → γ) (α : ℕ → ℝ)

/-- The operations a program may make: operands have the same parent, divisors are not zero, an element of
the number field has at most as many coefficients as the degree, and for printing the degree is a machine
integer. -/
def SageCmd.Valid (S : ℕ → Slot) : SageCmd → Prop
  | .make r k l => S r = .absent ∧ l.length ≤ (L.K k).degree
  | .arith f r x y => S r = .absent ∧ ∃ i a b, S x = .elem i a ∧ S y = .elem i b ∧ (f = .div → b ≠ 0)
  | .neg r x => S r = .absent ∧ ∃ i a, S x = .elem i a
  | .cmp _ x y => ∃ i a b, S x = .elem i a ∧ S y = .elem i b
  | .repr x => ∃ i a, S x = .elem i a ∧ (L.K i).degree < 2 ^ 63
  | .rational x | .integer x | .hash x | .del x => ∃ i a, S x = .elem i a
  | .vector x k => ∃ a, S x = .elem k a
  | .pickle x r k => S r = .absent ∧ ∃ a, S x = .elem k a

/-- What an operation does, in exact arithmetic: the answer and the elements afterwards. -/
def SageCmd.Step (S : ℕ → Slot) (c : SageCmd) (res : Except String (SageVal γ)) (S' : ℕ → Slot) : Prop :=
  match c with
  | .make r k l => res = .ok .unit ∧ S' = Function.update S r (.elem k (value (α k) l))
  | .arith f r x y => ∃ i a b, S x = .elem i a ∧ S y = .elem i b ∧ res = .ok .unit ∧
      S' = Function.update S r (.elem i (f.real a b))
  | .neg r x => ∃ i a, S x = .elem i a ∧ res = .ok .unit ∧ S' = Function.update S r (.elem i (-a))
  | .cmp op x y => S' = S ∧ ∃ i a b ans, S x = .elem i a ∧ S y = .elem i b ∧ res = .ok (.bool ans) ∧
      (ans = true ↔ op.Holds a b)
  | .rational x => S' = S ∧ ∃ i a, S x = .elem i a ∧
      ((∃ q : ℚ, a = q ∧ res = .ok (.rat q)) ∨ ¬ IsRat a ∧ res = .error "not a rational number")
  | .integer x => S' = S ∧ ∃ i a, S x = .elem i a ∧
      ((∃ z : ℤ, a = z ∧ res = .ok (.int z)) ∨ ¬ IsInt a ∧ res = .error "not an integer")
  | .vector x k => S' = S ∧ ∃ a l, S x = .elem k a ∧ res = .ok (.list l) ∧ l.length = (L.K k).degree ∧
      value (α k) l = a
  | .pickle x r k => ∃ a, S x = .elem k a ∧ res = .ok .unit ∧ S' = Function.update S r (.elem k a)
  | .repr x => S' = S ∧ ∃ i a s, S x = .elem i a ∧ IsPrinted T α i a s ∧ res = .ok (.text s)
  | .hash x => S' = S ∧ ∃ i a d, S x = .elem i a ∧ CastsTo a d ∧ res = .ok (.hash (h d))
  | .del x => res = .ok .unit ∧ S' = Function.update S x .absent

/-- A program on exact real numbers. -/
def SageSteps : (ℕ → Slot) → List SageCmd → List (Except String (SageVal γ)) → (ℕ → Slot) → Prop
  | S, [], [], S' => S' = S
  | S, c :: cs, r :: rs, S' => ∃ S₁, c.Step L T h α S r S₁ ∧ SageSteps S₁ cs rs S'
  | _, _, _, _ => False

/-- Every operation of a program is one it may make. -/
def SageAllowed : (ℕ → Slot) → List SageCmd → Prop
  | _, [] => True
  | S, c :: cs => c.Valid L S ∧ ∀ r S', c.Step L T h α S r S' → SageAllowed S' cs

/-- The operations that evaluate numbers. -/
def SageCmd.evaluates : SageCmd → Prop
  | .cmp _ _ _ | .repr _ | .hash _ => True
  | _ => False

/-- The numbers that are evaluated are of moderate size. -/
def SageCmd.SizeOk (K : ℕ → Nf) (p : ℕ → ℤ) (S : ℕ → Slot) : SageCmd → Prop
  | .cmp _ x y => ∀ i a b, S x = .elem i a → S y = .elem i b → CmpSize (K i) (α i) (p i) a b
  | .repr x => SizeOkT K α p S (.print x)
  | .hash x => SizeOkT K α p S (.hash x)
  | _ => True

/-- Every operation of a program is one it may make, and the numbers that are evaluated are of moderate size. -/
def SageAllowedSized (p : ℕ → ℤ) : (ℕ → Slot) → List SageCmd → Prop
  | _, [] => True
  | S, c :: cs => c.Valid L S ∧ c.SizeOk α L.K p S ∧ ∀ r S', c.Step L T h α S r S' → SageAllowedSized p S' cs

end EAntic.Py
