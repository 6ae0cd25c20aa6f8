import Verif.Model.Rand
import Mathlib.Algebra.Field.ZMod

/-! # Specification: what FLINT's random generators promise -/

namespace EAntic
open Polynomial

/-- the polynomial with the given residues as coefficients -/
noncomputable def toPolyMod (c : ℕ) : List ℕ → (ZMod c)[X]
  | [] => 0
  | a :: p => C (a : ZMod c) + X * toPolyMod c p

/-- FLINT manual, `fmpz_randprime` with `proved = 0`: a prime with exactly `bits` bits;
`fmpz_mod_poly_randtest_irreducible`: an irreducible polynomial of length at most `len`.  FLINT's test
accepts nonzero constants as irreducible. -/
structure Draw.Ok (d : Draw) (len : ℤ) (bits : ℕ) : Prop where
  prime : d.c.Prime
  lower : 2 ^ bits ≤ 2 * d.c
  upper : d.c < 2 ^ bits
  len_pos : 0 < d.q.length
  len_le : d.q.length ≤ len
  reduced : ∀ a ∈ d.q, a < d.c
  lead : d.q.getLastD 0 ≠ 0
  irr : 2 ≤ d.q.length → Irreducible (toPolyMod d.c d.q)

end EAntic
