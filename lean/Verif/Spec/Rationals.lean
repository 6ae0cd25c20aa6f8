import Verif.Spec.Threads

/-!
# What a program does with rational numbers

All functions of the element layer that the C++ and Python interfaces call on elements: everything
except an explicit refinement of the field and the conversion to a ball of Arb.
-/

namespace EAntic

/-- not `renf_refine_embedding` and not `renf_elem_get_arb` -/
def Op.Plain : Op → Prop
  | .refine _ | .getArb _ _ => False
  | _ => True

/-- Elements that a call assigns to; a query assigns to none. -/
def Op.assignsTo : Op → List ℕ
  | .sgn _ | .cmp _ _ | .cmpQ _ _ | .floor _ | .ceil _ | .fdiv _ _ | .getD _ _ => []
  | op => op.changes

/-- some call of the program assigns to the element `a` -/
def Assigns (ops : List Op) (a : ℕ) : Prop := ∃ op ∈ ops, a ∈ op.assignsTo

end EAntic
