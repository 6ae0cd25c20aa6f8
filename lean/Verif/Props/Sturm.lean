import Verif.Lemmas.SturmInst
import Verif.Lemmas.SturmMult
import Mathlib.Tactic.NormNum
import Mathlib.Tactic.LinearCombination

/-!
# Property C26 for `fmpz_poly_num_real_roots_0_1_sturm`

`R : PseudoRem` is any function meeting the contract of FLINT's `fmpz_poly_pseudo_rem`.
`sturmSeq` and `zerosAt0` are in `Verif/Spec/Sturm.lean`.
-/

namespace EAntic
open Polynomial

/-- C26 for `fmpz_poly_num_real_roots_0_1_sturm`, what the function computes: for every squarefree
polynomial it terminates and returns the number of roots in the closed interval `[0,1]` plus the
number of members of Sturm's sequence, after the first, that vanish at 0. -/
theorem C26_num_real_roots_0_1_sturm_value_partial (R : PseudoRem) (p : List ℤ)
    (hl : p.getLastD 0 ≠ 0) (hs : Squarefree (toPoly p)) (fuel : ℕ) (hf : p.length ≤ fuel) :
    numRealRoots01Sturm R fuel p
      = .ok ((rootCount (toPoly p) (Set.Icc 0 1) + zerosAt0 (toPoly p) : ℕ) : ℤ) :=
  sturm01_value R p hl hs hf

/-- C26 for `fmpz_poly_num_real_roots_0_1_sturm`: the answer is the number of roots in `[0,1)` if and
only if 1 is not a root and no member of the sequence after the first vanishes at 0.  Missing: all
other squarefree polynomials, for which the answer is too large. -/
theorem C26_num_real_roots_0_1_sturm_partial (R : PseudoRem) (p : List ℤ) (hl : p.getLastD 0 ≠ 0)
    (hs : Squarefree (toPoly p)) (fuel : ℕ) (hf : p.length ≤ fuel) :
    numRealRoots01Sturm R fuel p = .ok (rootCount (toPoly p) (Set.Ico 0 1) : ℤ) ↔
      (toPoly p).eval 1 ≠ 0 ∧
        ∀ q ∈ (sturmSeq (toPoly p) (derivative (toPoly p))).tail, q.eval 0 ≠ 0 := by
  have hsep : (toPoly p).Separable := PerfectField.separable_iff_squarefree.2 hs
  rw [sturm01_value R p hl hs hf]
  have e : rootCount (toPoly p) (Set.Icc 0 1)
      = rootCount (toPoly p) (Set.Ico 0 1) + rootCount (toPoly p) {1} := by
    have : Set.Icc (0 : ℝ) 1 = Set.Ico 0 1 ∪ {1} := (Set.Ico_union_right zero_le_one).symm
    rw [this, rootCount_union]
    rw [Set.disjoint_left]
    intro z hz hz'
    rw [Set.mem_singleton_iff] at hz'
    exact absurd hz.2 (by rw [hz']; exact lt_irrefl _)
  have e1 : (rootCount (toPoly p) {1} = 0) ↔ (toPoly p).eval 1 ≠ 0 := by
    rw [rootCount_singleton hsep 1]
    split_ifs with h <;> simp [h]
  have e2 : zerosAt0 (toPoly p) = 0 ↔
      ∀ q ∈ (sturmSeq (toPoly p) (derivative (toPoly p))).tail, q.eval 0 ≠ 0 := by
    unfold zerosAt0
    rw [List.countP_eq_zero]
    simp
  rw [← e1, ← e2, e]
  simp only [Res.ok.injEq]
  omega

/-- C26 is FALSE for `fmpz_poly_num_real_roots_0_1_sturm`: it reports one root of `x² + 1`, which has
none anywhere, because its derivative vanishes at 0. -/
theorem C26_num_real_roots_0_1_sturm_counterexample (R : PseudoRem) :
    Squarefree (toPoly [1, 0, 1]) ∧ rootCount (toPoly [1, 0, 1]) Set.univ = 0 ∧
      ∃ n : ℤ, 0 < n ∧ ∀ fuel, 3 ≤ fuel → numRealRoots01Sturm R fuel [1, 0, 1] = .ok n := by
  have hsq : Squarefree (toPoly [1, 0, 1]) := by
    refine Separable.squarefree ⟨1, -(C (1 / 2)) * X, ?_⟩
    refine Polynomial.funext fun x => ?_
    simp [toPoly]
    ring
  have hz : 0 < zerosAt0 (toPoly [1, 0, 1]) := by
    unfold zerosAt0
    have hd : derivative (toPoly [1, 0, 1]) = C 2 * X := by
      simp [toPoly]; rw [show (C 2 : ℝ[X]) = 2 from rfl]; ring
    rw [sturmSeq_of_ne _ (by rw [hd]; simp), List.tail_cons, sturmSeq_eq, hd]
    rw [List.countP_cons]
    simp
  refine ⟨hsq, (rootCount_eq_zero_iff (toPoly_ne_of_lead (by decide)) _).2 fun x _ h => ?_,
    _, ?_, fun fuel hf => sturm01_value R [1, 0, 1] (by decide) hsq hf⟩
  · simp [toPoly] at h
    nlinarith [mul_self_nonneg x]
  · exact_mod_cast Nat.add_pos_right _ hz

/-- C26, the other end: the root 1 of `x - 1` is counted although it is not in `[0,1)`. -/
theorem C26_num_real_roots_0_1_sturm_right_end (R : PseudoRem) (fuel : ℕ) (hf : 2 ≤ fuel) :
    numRealRoots01Sturm R fuel [-1, 1] ≠ .ok (rootCount (toPoly [-1, 1]) (Set.Ico 0 1) : ℤ) := by
  have hsq : Squarefree (toPoly [-1, 1]) := by
    refine Separable.squarefree ⟨0, 1, ?_⟩
    simp [toPoly]
  intro h
  have := ((C26_num_real_roots_0_1_sturm_partial R [-1, 1] (by decide) hsq fuel hf).1 h).1
  simp [toPoly] at this

/-- C26 for `fmpz_poly_num_real_roots_0_1_sturm` and polynomials with multiple roots: if neither 0 nor
1 is a multiple root then the function terminates and returns the number of different roots in `[0,1]`
plus the number of members of Sturm's sequence, after the first, that vanish at 0. -/
theorem C26_num_real_roots_0_1_sturm_multiple_value_partial (R : PseudoRem) (p : List ℤ)
    (hl : p.getLastD 0 ≠ 0) (h0 : ¬ MultipleRoot (toPoly p) 0) (h1 : ¬ MultipleRoot (toPoly p) 1)
    (fuel : ℕ) (hf : p.length ≤ fuel) :
    numRealRoots01Sturm R fuel p
      = .ok ((distinctRoots (toPoly p) (Set.Icc 0 1) + zerosAt0 (toPoly p) : ℕ) : ℤ) :=
  sturm01_value' R p hl (not_and_or.1 h0) (not_and_or.1 h1) hf

/-- C26: it is the number of different roots in `[0,1)` if and only if 1 is not a root and no member of
the sequence after the first vanishes at 0. -/
theorem C26_num_real_roots_0_1_sturm_multiple_partial (R : PseudoRem) (p : List ℤ)
    (hl : p.getLastD 0 ≠ 0) (h0 : ¬ MultipleRoot (toPoly p) 0) (h1 : ¬ MultipleRoot (toPoly p) 1)
    (fuel : ℕ) (hf : p.length ≤ fuel) :
    numRealRoots01Sturm R fuel p = .ok (distinctRoots (toPoly p) (Set.Ico 0 1) : ℤ) ↔
      (toPoly p).eval 1 ≠ 0 ∧
        ∀ q ∈ (sturmSeq (toPoly p) (derivative (toPoly p))).tail, q.eval 0 ≠ 0 := by
  have hp0 := toPoly_ne_of_lead hl
  rw [C26_num_real_roots_0_1_sturm_multiple_value_partial R p hl h0 h1 fuel hf]
  have hfin : ∀ S : Set ℝ, {x | x ∈ S ∧ (toPoly p).eval x = 0}.Finite := fun S =>
    (toPoly p).roots.toFinset.finite_toSet.subset fun x hx => by simpa [hp0] using hx.2
  have e2 : zerosAt0 (toPoly p) = 0 ↔
      ∀ q ∈ (sturmSeq (toPoly p) (derivative (toPoly p))).tail, q.eval 0 ≠ 0 := by
    unfold zerosAt0
    rw [List.countP_eq_zero]
    simp
  have e : distinctRoots (toPoly p) (Set.Icc 0 1)
      = distinctRoots (toPoly p) (Set.Ico 0 1) + distinctRoots (toPoly p) {1} := by
    unfold distinctRoots
    rw [← Set.ncard_union_eq _ (hfin _) (hfin _)]
    · congr 1
      rw [← Set.Ico_union_right (zero_le_one' ℝ)]
      ext x
      simp only [Set.mem_union, Set.mem_ofPred_eq, or_and_right]
    · rw [Set.disjoint_left]
      rintro z ⟨hz, -⟩ ⟨hz', -⟩
      rw [Set.mem_singleton_iff] at hz'
      exact absurd hz.2 (by rw [hz']; exact lt_irrefl _)
  have e1 : distinctRoots (toPoly p) {1} = 0 ↔ (toPoly p).eval 1 ≠ 0 := by
    unfold distinctRoots
    rw [Set.ncard_eq_zero (hfin _)]
    constructor
    · intro h h'
      have : (1 : ℝ) ∈ ({x | x ∈ ({1} : Set ℝ) ∧ (toPoly p).eval x = 0} : Set ℝ) := ⟨rfl, h'⟩
      rw [h] at this
      exact this
    · intro h
      ext x
      simp only [Set.mem_singleton_iff, Set.mem_ofPred_eq, Set.mem_empty_iff_false, iff_false]
      rintro ⟨rfl, h'⟩
      exact h h'
  rw [← e1, ← e2, e]
  simp only [Res.ok.injEq]
  omega

/-- C26 is FALSE if 0 or 1 is a multiple root, also for different roots and the closed interval: two
roots are reported for `(x-1)²(x-2)` and for `x²(x+1)`, which have only one in `[0,1]`. -/
theorem C26_num_real_roots_0_1_sturm_multiple_counterexample (R : PseudoRem) (fuel : ℕ) (hf : 4 ≤ fuel) :
    numRealRoots01Sturm R fuel [-2, 5, -4, 1] = .ok 2 ∧
    (∀ x ∈ Set.Icc (0 : ℝ) 1, (toPoly [-2, 5, -4, 1]).eval x = 0 → x = 1) ∧
    numRealRoots01Sturm R fuel [0, 0, 1, 1] = .ok 2 ∧
    ∀ x ∈ Set.Icc (0 : ℝ) 1, (toPoly [0, 0, 1, 1]).eval x = 0 → x = 0 := by
  refine ⟨?_, ?_, ?_, ?_⟩
  · rw [sturm01_indep R premSimple _ (by decide) hf (le_refl 4)]
    decide +kernel
  · rintro x ⟨-, hx⟩ h
    simp [toPoly] at h
    have : (x - 1) ^ 2 * (x - 2) = 0 := by linear_combination h
    rcases mul_eq_zero.1 this with h | h
    · have := pow_eq_zero_iff (two_ne_zero) |>.1 h
      linarith
    · linarith
  · rw [sturm01_indep R premSimple _ (by decide) hf (le_refl 4)]
    decide +kernel
  · rintro x ⟨hx, -⟩ h
    simp [toPoly] at h
    rcases h with h | h
    · exact h
    · linarith

/-- non-vacuity: `(2x-1)²(x+1)` has a multiple root, but not at 0 or 1; its only root in `[0,1)` is
`1/2`, and 1 is returned -/
example : ¬ MultipleRoot (toPoly [1, -3, 0, 4]) 0 ∧ ¬ MultipleRoot (toPoly [1, -3, 0, 4]) 1 ∧
    MultipleRoot (toPoly [1, -3, 0, 4]) (1 / 2) ∧
    numRealRoots01Sturm premSimple 4 [1, -3, 0, 4] = .ok 1 := by
  refine ⟨fun h => ?_, fun h => ?_, ⟨?_, ?_⟩, by decide +kernel⟩
  · have := h.1; simp [toPoly] at this
  · have := h.1; simp [toPoly] at this; norm_num at this
  · simp [toPoly]; norm_num
  · simp [toPoly]; norm_num

/-- the zero polynomial: `abort()` -/
theorem C26_num_real_roots_0_1_sturm_zero (R : PseudoRem) (fuel : ℕ) :
    numRealRoots01Sturm R fuel [] = .abort := by
  unfold numRealRoots01Sturm; rw [if_pos rfl]

/-- non-vacuity: `8x² - 8x + 1` is squarefree and has two roots in `[0,1)`; the model returns 2, and
returns 1 for `x² + 1` -/
example : Squarefree (toPoly [1, -8, 8]) ∧ numRealRoots01Sturm premSimple 3 [1, -8, 8] = .ok 2 ∧
    numRealRoots01Sturm premSimple 3 [1, 0, 1] = .ok 1 := by
  refine ⟨Separable.squarefree ⟨-1, C (1 / 2) * X - C (1 / 4), ?_⟩, by decide +kernel,
    by decide +kernel⟩
  refine Polynomial.funext fun x => ?_
  simp [toPoly]
  ring

/-- applied: `8x² - 8x + 1` has two roots in `[0,1]` -/
example : rootCount (toPoly [1, -8, 8]) (Set.Icc 0 1) + zerosAt0 (toPoly [1, -8, 8]) = 2 := by
  have hs : Squarefree (toPoly [1, -8, 8]) := by
    refine Separable.squarefree ⟨-1, C (1 / 2) * X - C (1 / 4), Polynomial.funext fun x => ?_⟩
    simp [toPoly]
    ring
  have h := C26_num_real_roots_0_1_sturm_value_partial premSimple [1, -8, 8] (by decide) hs 3 (by decide)
  rw [show numRealRoots01Sturm premSimple 3 [1, -8, 8] = .ok 2 by decide +kernel] at h
  injection h with h
  exact_mod_cast h.symm

end EAntic
