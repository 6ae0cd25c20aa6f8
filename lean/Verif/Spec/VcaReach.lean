import Verif.Model.Vca

/-!
# The states of the loop that isolates roots in the unit interval
-/

namespace EAntic

/-- States reached by the `while (1)` loop of `_fmpz_poly_isolate_real_roots_0_1_vca`. -/
inductive VcaReach (F : Scale2) (pol : List ℤ) : VcaState → Prop
  | start : VcaReach F pol { c := 0, k := 0, p := pol, exact := [], ivs := [] }
  | step {st st' : VcaState} : VcaReach F pol st → vcaStep F st = .ok (.inl st') →
      VcaReach F pol st'

end EAntic
