import Verif.Lemmas.PolyExtra
import Verif.Lemmas.AddFmpq

/-!
# Properties C29, C30, C41: polynomial utilities

Specification vocabulary: `toPoly` (`Verif/Spec/Poly.lean`), `QPoly.toPolyQ`, `QPoly.Canonical`
(`Verif/Spec/QPoly.lean`), Mathlib's `Squarefree`, `aeval`, `IsRoot`.
-/

namespace EAntic
open Polynomial

/-! ## C29: squarefree part -/

/-- C29.  For a nonzero polynomial, `fmpz_poly_squarefree_part` returns a polynomial that is
squarefree in `ℤ[x]`, has a positive leading coefficient and the same complex roots.  `O` is any
implementation of FLINT's gcd and exact division of integer polynomials. -/
theorem C29_squarefree_part (O : PolyOps) (p : ℤ[X]) (hp : p ≠ 0) :
    Squarefree (squarefreePart O p) ∧ 0 < (squarefreePart O p).leadingCoeff ∧
      ∀ z : ℂ, aeval z (squarefreePart O p) = 0 ↔ aeval z p = 0 :=
  squarefreePart_spec O hp

/-- C29, squarefree over the complex numbers: every complex root of the result is simple. -/
theorem C29_simple_roots (O : PolyOps) (p : ℤ[X]) (hp : p ≠ 0) (z : ℂ)
    (hz : aeval z (squarefreePart O p) = 0) :
    aeval z (derivative (squarefreePart O p)) ≠ 0 :=
  squarefreePart_simple O hp z hz

/-- C29, the result is a divisor of the polynomial and its coefficients have no common factor. -/
theorem C29_primitive_divisor (O : PolyOps) (p : ℤ[X]) (hp : p ≠ 0) :
    squarefreePart O p ∣ p ∧ ∀ c : ℤ, (∀ n, c ∣ (squarefreePart O p).coeff n) → c = 1 ∨ c = -1 := by
  obtain ⟨h1, h2⟩ := squarefreePart_primitive O hp
  exact ⟨h2, fun c hc => Int.isUnit_iff.1 (h1 c ((C_dvd_iff_dvd_coeff c _).2 hc))⟩

/-- C29, the result does not depend on how FLINT computes the gcd and the quotient. -/
theorem C29_unique (O O' : PolyOps) (p : ℤ[X]) : squarefreePart O p = squarefreePart O' p :=
  squarefreePart_unique O O' p

/-- C29, the zero polynomial is mapped to itself. -/
theorem C29_zero (O : PolyOps) : squarefreePart O 0 = 0 := if_pos rfl

/-- non-vacuity: there is a gcd and an exact division with the required properties -/
noncomputable example : PolyOps := PolyOps.std

/-- `-2 x²` has the squarefree part `x` -/
example : squarefreePart PolyOps.std (C (-2) * X ^ 2) = X := by
  have hp : (C (-2) * X ^ 2 : ℤ[X]) ≠ 0 := by simp
  obtain ⟨h1, h2, h3⟩ := C29_squarefree_part PolyOps.std _ hp
  obtain ⟨h4, h5⟩ := C29_primitive_divisor PolyOps.std _ hp
  set r := squarefreePart PolyOps.std (C (-2) * X ^ 2) with hr
  have hX : (X : ℤ[X]) ∣ r := by
    rw [X_dvd_iff]
    have := (h3 0).2 (by simp)
    rw [aeval_def, eval₂_at_zero] at this
    simpa using this
  obtain ⟨q, hq⟩ := hX
  have hq2 : q ∣ C (-2) * X := by
    obtain ⟨k, hk⟩ := h4
    refine ⟨k, mul_left_cancel₀ (X_ne_zero (R := ℤ)) ?_⟩
    rw [← mul_assoc X q k, ← hq, ← hk]; ring
  have hX' : ¬ (X : ℤ[X]) ∣ q := fun ⟨k, hk⟩ => not_isUnit_X (h1 X ⟨k, by rw [hq, hk, mul_assoc]⟩)
  obtain ⟨k, hk⟩ := hq2
  have hXk : (X : ℤ[X]) ∣ k := by
    rcases prime_X.dvd_or_dvd (⟨C (-2), by rw [← hk]; ring⟩ : (X : ℤ[X]) ∣ q * k) with h | h
    · exact absurd h hX'
    · exact h
  obtain ⟨j, rfl⟩ := hXk
  have hqj : C (-2) = q * j := mul_right_cancel₀ (X_ne_zero (R := ℤ)) (by rw [hk]; ring)
  have hdeg : q.natDegree = 0 := by
    have hq0 : q ≠ 0 := by rintro rfl; simp at hX'
    have hj0 : j ≠ 0 := by rintro rfl; simp at hqj
    have := congrArg natDegree hqj
    rw [natDegree_C, natDegree_mul hq0 hj0] at this
    omega
  rw [eq_C_of_natDegree_eq_zero hdeg] at hq
  have hc := h5 (q.coeff 0) fun n => by rw [hq, coeff_mul_C]; exact dvd_mul_left _ _
  rw [hq] at h2 ⊢
  rcases hc with h | h <;> rw [h] at h2 ⊢
  · simp
  · simp at h2

/-! ## C30: existence of a real root -/

/-- C30.  `_fmpz_poly_has_real_root` on a normalised coefficient vector returns true exactly when
there is a real root; the zero polynomial (empty vector) included.  `N` is FLINT's
`_fmpz_poly_num_real_roots`, of which only "zero exactly if there are no real roots" is used. -/
theorem C30_has_real_root (N : List ℤ → ℕ)
    (hN : ∀ p : List ℤ, toPoly p ≠ 0 → (N p = 0 ↔ ¬ ∃ x, (toPoly p).IsRoot x))
    (p : List ℤ) (hl : ∀ h : p ≠ [], p.getLast h ≠ 0) :
    hasRealRoot N p = true ↔ ∃ x, (toPoly p).IsRoot x :=
  hasRealRoot_iff N hN p hl

open Classical in
/-- non-vacuity: a root counter exists; a cubic and the quartics `x⁴ - 3x² + 1`, `x⁴ + 1` are
decided by different branches -/
example : (∃ N : List ℤ → ℕ, ∀ p : List ℤ, toPoly p ≠ 0 →
      (N p = 0 ↔ ¬ ∃ x, (toPoly p).IsRoot x)) ∧
    (∀ N, hasRealRoot N [5, 0, 0, 1] = true) ∧
    (∀ N, hasRealRoot N [1, 0, -3, 0, 1] = decide (N [1, 0, -3, 0, 1] ≠ 0)) ∧
    (∀ N, hasRealRoot N [-1, 0, -3, 0, 1] = true) := by
  refine ⟨⟨fun p => (toPoly p).roots.toFinset.card, fun p hp => ?_⟩, fun N => rfl, fun N => rfl,
    fun N => rfl⟩
  rw [Finset.card_eq_zero, Finset.eq_empty_iff_forall_notMem]
  simp only [Multiset.mem_toFinset, mem_roots hp, not_exists]

/-! ## C41: adding a rational constant -/

/-- C41.  `fmpq_poly_add_fmpq(res, poly, c)` on a canonical polynomial stores `poly + c` in `res`,
in canonical form; every other polynomial, in particular `poly` unless it is `res`, is unchanged. -/
theorem C41_add_fmpq (m : ℕ → QPoly) (res poly : ℕ) (c : ℚ) (h : (m poly).Canonical) :
    (QPoly.addFmpq m res poly c res).toPolyQ = (m poly).toPolyQ + C c ∧
      (QPoly.addFmpq m res poly c res).Canonical ∧
      ∀ i, i ≠ res → QPoly.addFmpq m res poly c i = m i :=
  QPoly.addFmpq_spec m res poly c h

/-- C41: a canonical form is unique, so the result is determined by the two values. -/
theorem C41_canonical_unique {p q : QPoly} (hp : p.Canonical) (hq : q.Canonical)
    (h : p.toPolyQ = q.toPolyQ) : p = q :=
  QPoly.canonical_unique hp hq h

/-- non-vacuity: `(1 + 3x)/6` is canonical; equal, coprime and overlapping denominators, a constant
that cancels, in place and out of place -/
example : (⟨[1, 3], 6⟩ : QPoly).Canonical ∧
    QPoly.addFmpq (fun _ => ⟨[1, 3], 6⟩) 0 0 (5 / 6) 0 = ⟨[2, 1], 2⟩ ∧
    QPoly.addFmpq (fun _ => ⟨[1, 3], 6⟩) 0 1 (2 / 5) 0 = ⟨[17, 15], 30⟩ ∧
    QPoly.addFmpq (fun _ => ⟨[1, 3], 6⟩) 0 0 (1 / 3) 0 = ⟨[1, 1], 2⟩ ∧
    QPoly.addFmpq (fun _ => ⟨[1], 2⟩) 0 0 (-1 / 2) 0 = ⟨[], 1⟩ := by
  refine ⟨⟨by decide, ?_, by decide⟩, by decide +kernel, by decide +kernel, by decide +kernel,
    by decide +kernel⟩
  intro g _ h2
  exact isUnit_of_dvd_one (h2 1 (by decide))

end EAntic
