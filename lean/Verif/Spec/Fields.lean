import Verif.Model.Fields
import Verif.Spec.Ops

/-!
# What programs may do with fields, and when enclosures tell roots apart
-/

namespace EAntic

/-- the elements a call assigns to -/
def Op.assigns : Op → ℕ → Prop
  | .zero a, n | .one a, n | .set a _, n | .setZ a _, n | .setQ a _, n | .setPoly a _ _, n | .gen a, n
  | .neg a _, n | .add a _ _, n | .sub a _ _, n | .mul a _ _, n | .div a _ _, n | .inv a _, n
  | .pow a _ _, n | .addZ a _ _, n | .subZ a _ _, n | .mulZ a _ _, n | .divZ a _ _, n
  | .addQ a _ _, n | .subQ a _ _, n | .qSub a _ _, n | .mulQ a _ _, n | .divQ a _ _, n
  | .qDiv a _ _, n | .getCfrac a _ _, n => n = a
  | .swap a b, n => n = a ∨ n = b
  | _, _ => False

namespace Fields

/-- The enclosure of the field is so small that it cannot overlap with an equally small enclosure of
another root. -/
def Clear (K : Nf) (α : ℝ) (f : Field) : Prop :=
  (∀ β, K.IsRoot β → β = α) ∨ ∃ m r : ℚ, f.emb = .fin m r ∧ ∀ β, K.IsRoot β → β ≠ α → 4 * (r : ℝ) < |β - α|

/-- `k` is a field embedded at the root `α`, and stays so: some property of fields that says so is
preserved by refinement (C14). -/
def EmbeddedAt (k : NamedField) (E : Env k.field.nf) (α : ℝ) : Prop :=
  ∃ I, FieldInv E α I ∧ I (renfInitSet k.field)

/-- moreover its enclosures stay clear of the other roots -/
def ClearlyAt (k : NamedField) (E : Env k.field.nf) (α : ℝ) : Prop :=
  ∃ I, FieldInv E α I ∧ I (renfInitSet k.field) ∧ ∀ f, I f → Clear k.field.nf α f

/-- What a program may do: make fields at roots of irreducible polynomials, and not assign to the
constants `zero()`, `one()`, `gen()`, which are `const`. -/
def Legal : Fields.Op → Prop
  | .make k E => ∃ α, EmbeddedAt k E α
  | .work _ op => ∀ n < 3, ¬ op.assigns n
  | _ => True

/-- the same, with enclosures that tell the roots apart -/
def ClearlyLegal : Fields.Op → Prop
  | .make k E => ∃ α, ClearlyAt k E α
  | .work _ op => ∀ n < 3, ¬ op.assigns n
  | _ => True

/-- The object is a field with this name, polynomial and denominator, embedded at `α`. -/
def Class.Is (c : Class) (k : NamedField) (α : ℝ) : Prop :=
  c.name = k.name ∧ c.K = k.field.nf ∧ c.mem.fld.nf = k.field.nf ∧ c.den = k.den ∧ c.K.IsRoot α ∧
    α ∈ c.mem.fld.emb

end Fields

end EAntic
