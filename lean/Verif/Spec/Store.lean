import Verif.Model.Elem

/-!
# Specification: what the memory of the library means

A memory with one field and many elements represents the function `v` that sends every pointer to
the real number it denotes, if

* the field is in order: it is the field `K` of a real root `α` of the defining polynomial, its
  enclosure contains `α`, its precision is at least 2 (this is the predicate `I`),
* every element is stored in canonical form and denotes `v r` when the generator is `α`,
* the ball stored with every element contains that number.
-/

namespace EAntic

/-- What the element layer needs to know about fields: `I` holds of the fields that occur, and is
preserved by refinement. -/
structure FieldInv {K : Nf} (E : Env K) (α : ℝ) (I : Field → Prop) : Prop where
  ok : K.Ok
  root : K.IsRoot α
  nf : ∀ {f}, I f → f.nf = K
  enc : ∀ {f}, I f → α ∈ f.emb
  prec : ∀ {f}, I f → 2 ≤ f.prec
  refine : ∀ {f p f'}, I f → E.refine f p = .ok f' → I f'

/-- The memory `s` represents the store `v`. -/
structure Rep (K : Nf) (α : ℝ) (I : Field → Prop) (v : Reg → ℝ) (s : Mem) : Prop where
  inv : I s.fld
  wf : ∀ r, (s.heap r).elem.Wf K
  val : ∀ r, (s.heap r).elem.val α = v r
  enc : ∀ r, v r ∈ (s.heap r).emb

/-- The sign of a real number as a C integer. -/
noncomputable def sgnR (x : ℝ) : ℤ := if 0 < x then 1 else if x < 0 then -1 else 0

/-- The first entry of the coefficient array of the element is not left over from an earlier value
when the element is zero. -/
def Clean (s : Mem) (r : Reg) : Prop :=
  (s.heap r).elem.num = [] → (s.heap r).elem.stale = 0

/-- The store after `r` has been assigned the number `x`. -/
def upd (v : Reg → ℝ) (r : Reg) (x : ℝ) : Reg → ℝ := fun r' => if r' = r then x else v r'

end EAntic
