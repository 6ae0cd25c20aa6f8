import Mathlib.Algebra.Polynomial.Derivative
import Mathlib.Algebra.Polynomial.Roots
import Mathlib.Algebra.Polynomial.RuleOfSigns
import Mathlib.Data.Real.Basic

/-!
# Specification vocabulary for integer polynomials

`toPoly p` is the real polynomial with coefficient vector `p` (constant
coefficient first).  All specifications of root finding are stated with it and
with Mathlib's `Polynomial.roots`.
-/

namespace EAntic

open Polynomial

/-- The real polynomial `p₀ + p₁ X + p₂ X² + …` of a coefficient vector (low degree first). -/
noncomputable def toPoly : List ℤ → ℝ[X]
  | [] => 0
  | a :: p => C (a : ℝ) + X * toPoly p

open Classical in
/-- Number of real roots of `P` in `s`, counted with multiplicity. -/
noncomputable def rootCount (P : ℝ[X]) (s : Set ℝ) : ℕ :=
  P.roots.countP (· ∈ s)

/-- The pair `(c, k)` stands for the open interval `(c 2^k, (c+1) 2^k)`
(documentation of `fmpz_poly_isolate_real_roots` in `e-antic/fmpz_poly_extra.h`). -/
def ivl (I : ℤ × ℤ) : Set ℝ := Set.Ioo ((I.1 : ℝ) * 2 ^ I.2) (((I.1 : ℝ) + 1) * 2 ^ I.2)

/-- What it means for lists of exact roots and of dyadic intervals to isolate the roots of `P`
that lie in `S`:  both lists are sorted, the intervals are pairwise disjoint, every exact root is a
root in `S` and lies in no interval, every interval lies in `S` and contains exactly one root (which
is simple), every root in `S` is listed or lies in an interval, and the number of entries is the
number of roots in `S` counted with multiplicity. -/
structure Isolates (P : ℝ[X]) (S : Set ℝ) (exact : List ℚ) (ivs : List (ℤ × ℤ)) : Prop where
  exact_sorted : exact.Pairwise (· ≤ ·)
  ivs_sorted : ivs.Pairwise fun I J => ((I.1 : ℝ) + 1) * 2 ^ I.2 ≤ (J.1 : ℝ) * 2 ^ J.2
  exact_root : ∀ e ∈ exact, P.IsRoot (e : ℝ) ∧ (e : ℝ) ∈ S
  exact_not_mem : ∀ e ∈ exact, ∀ I ∈ ivs, (e : ℝ) ∉ ivl I
  ivl_subset : ∀ I ∈ ivs, ivl I ⊆ S
  ivl_count : ∀ I ∈ ivs, rootCount P (ivl I) = 1
  cover : ∀ x ∈ S, P.IsRoot x → (∃ e ∈ exact, (e : ℝ) = x) ∨ ∃ I ∈ ivs, x ∈ ivl I
  count : rootCount P S = exact.length + ivs.length

/-- All roots of `P` in `S` are simple. -/
def SimpleRoots (P : ℝ[X]) (S : Set ℝ) : Prop :=
  ∀ x ∈ S, P.IsRoot x → P.derivative.eval x ≠ 0

end EAntic
