import Mathlib.Algebra.Polynomial.FieldDivision
import Mathlib.Data.Real.Basic
import Mathlib.Data.Set.Card

/-!
# Sturm's sequence of a real polynomial

Used in the statements of C26 about `fmpz_poly_num_real_roots_0_1_sturm`.
-/

namespace EAntic
open Polynomial

/-- The negated remainder sequence `p, q, -(p mod q), …` up to the last nonzero term. -/
noncomputable def sturmSeq (p q : ℝ[X]) : List ℝ[X] :=
  open Classical in
  if q = 0 then [p] else p :: sturmSeq q (-(p % q))
termination_by if q = 0 then 0 else q.natDegree + 1
decreasing_by
  rename_i hq
  rw [if_neg hq]
  split_ifs with h
  · omega
  · have h1 : (-(p % q)).degree < q.degree := by rw [degree_neg]; exact EuclideanDomain.mod_lt p hq
    have := natDegree_lt_natDegree h h1
    omega

open Classical in
/-- The number of members of the sequence of `p`, other than `p` itself, that vanish at 0. -/
noncomputable def zerosAt0 (p : ℝ[X]) : ℕ :=
  (sturmSeq p (derivative p)).tail.countP fun q => q.eval 0 = 0

/-- The number of different roots in a set. -/
noncomputable def distinctRoots (p : ℝ[X]) (S : Set ℝ) : ℕ := {x | x ∈ S ∧ p.eval x = 0}.ncard

/-- `x` is a multiple root. -/
def MultipleRoot (p : ℝ[X]) (x : ℝ) : Prop := p.eval x = 0 ∧ (derivative p).eval x = 0

end EAntic
