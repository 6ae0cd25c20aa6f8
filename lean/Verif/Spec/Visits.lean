import Verif.Model.Refine

/-!
# Specification: the enclosures computed during a refinement
-/

namespace EAntic

/-- The loop that refines to `prec` bits computes the enclosure `b` at some point after it was in the
state `s` (an enclosure and a working precision). -/
inductive Visits (A : ArbOps) (pol : List ℤ) (prec : ℤ) : Ball × ℤ → Ball → Prop
  | newton {s : Ball × ℤ} {b : Ball} : s.1.relAccuracyBits < prec →
      newtonStep A pol s.1 s.2 = .ok (some b) → Visits A pol prec s b
  | bisection {s : Ball × ℤ} {b : Ball} : s.1.relAccuracyBits < prec →
      newtonStep A pol s.1 s.2 = .ok none → bisectionStep A pol s.1 s.2 = some b →
      Visits A pol prec s b
  | next {s t : Ball × ℤ} {b : Ball} : refineStep A pol prec s = .ok (.inl t) →
      Visits A pol prec t b → Visits A pol prec s b

end EAntic
