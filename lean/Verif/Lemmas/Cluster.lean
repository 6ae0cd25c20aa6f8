import Verif.Lemmas.Nf
import Mathlib.RingTheory.Polynomial.Eisenstein.Criterion
import Mathlib.RingTheory.Polynomial.GaussLemma
import Mathlib.Algebra.Polynomial.AlgebraMap
import Mathlib.Tactic.ComputeDegree
import Mathlib.RingTheory.Int.Basic
import Mathlib.Tactic.NormNum.Prime

/-! # Irreducible polynomials with close roots -/

namespace EAntic
open Polynomial

/-- `a y³ - 3 b y + 3` is irreducible if 3 does not divide `a` (Eisenstein). -/
theorem cluster_irr (a b : ℤ) (ha : ¬ (3 : ℤ) ∣ a) :
    Irreducible (C a * X ^ 3 + C (3 * b) * X + C 3 : ℤ[X]) ∧
      (C a * X ^ 3 + C (3 * b) * X + C 3 : ℤ[X]).IsPrimitive := by
  have ha0 : a ≠ 0 := by rintro rfl; simp at ha
  have hdeg : (C a * X ^ 3 + C (3 * b) * X + C 3 : ℤ[X]).natDegree = 3 := by
    compute_degree!
  have hlead : (C a * X ^ 3 + C (3 * b) * X + C 3 : ℤ[X]).leadingCoeff = a := by
    rw [leadingCoeff, hdeg]; simp only [coeff_add, coeff_C_mul, coeff_X_pow, coeff_X, coeff_C]; norm_num
  have h0 : (C a * X ^ 3 + C (3 * b) * X + C 3 : ℤ[X]).coeff 0 = 3 := by simp
  have hprim : (C a * X ^ 3 + C (3 * b) * X + C 3 : ℤ[X]).IsPrimitive := by
    intro r hr
    rw [C_dvd_iff_dvd_coeff] at hr
    have h1 := hr 0
    rw [h0] at h1
    have h2 := hr 3
    rw [show (C a * X ^ 3 + C (3 * b) * X + C 3 : ℤ[X]).coeff 3 = a by simp only [coeff_add, coeff_C_mul, coeff_X_pow, coeff_X, coeff_C]; norm_num] at h2
    have hp : Prime (3 : ℤ) := by norm_num
    rcases (hp.irreducible.dvd_iff).1 h1 with h | h
    · exact h
    · exact absurd ((h.dvd).trans h2) ha
  refine ⟨irreducible_of_eisenstein_criterion (P := Ideal.span {3}) ?_ ?_ ?_ ?_ ?_ hprim, hprim⟩
  · rw [Ideal.span_singleton_prime (by norm_num)]; norm_num
  · rw [hlead, Ideal.mem_span_singleton]; exact ha
  · intro n hn
    rw [Ideal.mem_span_singleton]
    have hn' : n < 3 := by
      rw [degree_eq_natDegree (by intro h; rw [h] at hlead; simp at hlead; exact ha0 hlead.symm), hdeg] at hn
      exact_mod_cast hn
    interval_cases n
    · rw [h0]
    · simp only [coeff_add, coeff_C_mul, coeff_X_pow, coeff_X, coeff_C]; norm_num
    · simp only [coeff_add, coeff_C_mul, coeff_X_pow, coeff_X, coeff_C]; norm_num
  · rw [← natDegree_pos_iff_degree_pos, hdeg]; norm_num
  · rw [h0, Ideal.span_singleton_pow, Ideal.mem_span_singleton]; norm_num

/-- the polynomial shifted by 1 -/
theorem cluster_shift (a b : ℤ) (ha : ¬ (3 : ℤ) ∣ a) :
    Irreducible (toPolyQ [-a - 3 * b + 3, 3 * a + 3 * b, -3 * a, a]) := by
  obtain ⟨h1, h2⟩ := cluster_irr a b ha
  have h3 := (IsPrimitive.Int.irreducible_iff_irreducible_map_cast h2).1 h1
  have h4 := (MulEquiv.irreducible_iff (algEquivAevalXAddC (-1 : ℚ)).toMulEquiv).2 h3
  convert h4 using 1
  have hC : (C 3 : ℚ[X]) = 3 := map_ofNat C 3
  have hm : map (Int.castRingHom ℚ) (C a * X ^ 3 + C (3 * b) * X + C 3) =
      C (a : ℚ) * X ^ 3 + C (3 * b : ℚ) * X + C 3 := by simp [hC]
  rw [hm]
  show _ = aeval (X + C (-1 : ℚ)) _
  simp only [map_add, map_mul, map_pow, aeval_X, aeval_C, toPolyQ, algebraMap_eq]
  push_cast
  simp only [map_add, map_sub, map_neg, map_mul, hC, map_one]
  ring

end EAntic
