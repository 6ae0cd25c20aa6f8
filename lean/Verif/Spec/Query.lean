import Verif.Model.Ops

/-!
# Specification: the first memory of a program, and calls that are queries
-/

namespace EAntic

/-- Memory of a program that has created a field and has not yet used its elements
(`renf_elem/init.c`). -/
def freshMem (f : Field) : Mem := ⟨f, fun _ => ⟨NfElem.init f.nf, Ball.exact 0⟩⟩

/-- the calls that are queries -/
def Op.isQuery : Op → Bool
  | .isZero _ | .isOne _ | .isInteger _ | .isRational _ | .equal _ _ | .equalQ _ _ | .sgn _
  | .cmp _ _ | .cmpQ _ _ | .floor _ | .ceil _ | .fdiv _ _ | .getArb _ _ | .getD _ _
  | .refine _ | .setEvaluation _ _ | .checkEmbedding _ _ => true
  | _ => false

end EAntic
