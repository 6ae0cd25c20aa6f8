import Verif.Spec.CxxEnds
import Verif.Model.TextProg

/-!
# Specification: two builds of the library

The library compiled with and without assertions.
-/

namespace EAntic.Cxx

/-- The library over fields `K`, compiled with assertions (`ndebug = false`) or without
(`ndebug = true`); all loops are cut off after `k` rounds. -/
def build (K : ℕ → Nf) (A : ℕ → ArbOps) (N : ∀ i, NfOps (K i)) (strict : Bool) (bits : Widths)
    (ndebug : Bool) (k : ℕ) : Lib :=
  libs K A N (fun i k => refineEmbedding (A i) ndebug k) strict ndebug bits k

end EAntic.Cxx
