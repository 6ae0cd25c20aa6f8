import Lean.Elab.Tactic.ElabTerm

/-!
# Decisions with parameters

`decide +kernel` refuses propositions with local hypotheses or variables.  `kdecide` builds the same proof term,
`of_decide_eq_true rfl`, and leaves all checking to the kernel.
-/

namespace EAntic

open Lean Meta Elab Tactic in
/-- `decide +kernel` for goals that mention local variables -/
elab "kdecide" : tactic => do
  let g ← getMainGoal
  g.withContext do
    let p ← instantiateMVars (← g.getType)
    let inst ← synthInstance (mkApp (mkConst ``Decidable) p)
    let rfl := mkApp2 (mkConst ``Eq.refl [Level.one]) (mkConst ``Bool) (mkConst ``Bool.true)
    g.assign (mkApp3 (mkConst ``of_decide_eq_true) p inst rfl)

end EAntic
