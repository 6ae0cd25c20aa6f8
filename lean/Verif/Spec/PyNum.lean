import Verif.Model.PyNum
import Verif.Spec.Py

/-!
# Numbers of Python, gmpy2 and SageMath: what they stand for
-/

namespace EAntic.Py
open Cxx

/-- the object stands for the real number `a`; `S` is what the variables hold -/
def Atom.Is (S : ℕ → Slot) : Atom → ℝ → Prop
  | .int z, a | .mpzClass z, a | .gmpyMpz z, a | .sageInteger z, a => a = z
  | .mpqClass q, a | .gmpyMpq q, a | .sageRational q, a => a = q
  | .elem x, a => ∃ i, S x = .elem i a
  | .other, _ => False

/-- the object is an element -/
def Atom.IsElem : Atom → Prop
  | .elem _ => True
  | _ => False

/-- the object is an `int` of Python that is no `int` of C++ -/
def Atom.Big (b : Widths) : Atom → Prop
  | .int z => ¬ InS b.int z
  | _ => False

/-- Elements of different fields, and the operation on them is not supported (see C33). -/
def Apart (L : Lib) (S : ℕ → Slot) : Atom → Atom → Prop
  | .elem x, .elem y => ∃ i a j b, S x = .elem i a ∧ S y = .elem j b ∧ ¬ Supported L.strict i a j b
  | _, _ => False

/-- The field of the result: that of the element, if the other operand is a number, with the exception of C58;
that of C33 for two elements. -/
def ResultIn (S : ℕ → Slot) (f : BinK) : Atom → Atom → ℕ → Prop
  | .elem x, .elem y, k => ∃ i a j b, S x = .elem i a ∧ S y = .elem j b ∧ ResultField i j b k
  | .elem x, _, k => ∃ a, S x = .elem k a
  | _, .elem y, k => ∃ j b, S y = .elem j b ∧ (f = .add ∨ f = .mul ∨ ¬ IsRat b → k = j) ∧
      (f = .sub ∨ f = .div → IsRat b → k = 0)
  | _, _, _ => False

/-- the overloads that cppyy selects have the number -/
def PyEnv.Ok (P : PyEnv) (b : Widths) : Prop := ∀ z t, P.pick z = some t → t.Has b z

/-- the objects stand for the rational numbers -/
def Numbers : List Atom → List ℚ → Prop := List.Forall₂ fun a q => a.Is (fun _ => .absent) (q : ℚ)

end EAntic.Py
