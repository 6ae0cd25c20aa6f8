import Verif.Spec.Cxx

/-!
# Specification of programs whose answers do not depend on the precision

`Exact` singles out the calls whose answer is a function of the exact values of the operands.  The
others are those of C09 and C48: in fields of degree three and more,
`floor` and `ceil` of zero, and `floordiv` of zero by a rational element of another field.
-/

namespace EAntic.Cxx

/-- The answer of the call is determined by the values of the operands. -/
def Exact (L : Lib) (S : ℕ → Slot) : Cmd → Prop
  | .floor x | .ceil x => ∀ i a, S x = .elem i a → a ≠ 0 ∨ (L.K i).degree ≤ 2
  | .floordiv x y => ∀ i a j b, S x = .elem i a → S y = .elem j b →
      i = j ∨ a ≠ 0 ∨ ¬ IsRat b ∨ (L.K i).degree ≤ 2
  | _ => True

/-- All calls of a program are of this kind. -/
def AllExact (L : Lib) (α : ℕ → ℝ) : (ℕ → Slot) → List Cmd → Prop
  | _, [] => True
  | S, c :: cs => Exact L S c ∧ ∀ r S', TryStep L α S c r S' → AllExact L α S' cs

/-- Two runs of a call had the same outcome: they returned the same, or both threw. -/
def SameAnswer : Except String Val → Except String Val → Prop
  | .ok a, .ok b => a = b
  | .error _, .error _ => True
  | _, _ => False

/-- The same library on the same machine, for the same fields, but with another precision of the
fields, other enclosures of the generators and of the intermediate results, other arithmetic in Arb
and FLINT and other build options. -/
structure SameFields (L L' : Lib) : Prop where
  fields : L.K = L'.K
  strict : L.strict = L'.strict
  bits : L.bits = L'.bits

end EAntic.Cxx
