import Verif.Lemmas.ArraysLast
import Verif.Lemmas.SturmInst
import Verif.Spec.Arrays
import Verif.Props.Arrays
import Verif.Props.Elements
import Verif.Props.Rand
import Verif.Props.Sturm

/-!
# C64: no access outside of an array (`num_real_roots_0_1_sturm.c`, `get_cfrac.c`, `randtest.c`)

`Arrays.f` is the function with all its array accesses, `.ub` if one of them is outside of its array.
-/

namespace EAntic
open Polynomial

/-- C64, `fmpz_poly_num_real_roots_0_1_sturm`: every access is inside its array, the counter does not
overflow, and the result is that of the list model of C26.  Proved part: lengths up to `2^31` (the
counter is an `int`), leading coefficient not zero (FLINT's normal form). -/
theorem C64_sturm_partial (R : PseudoRem) (fuel : ℕ) (pol : List ℤ) (hl : pol.getLastD 0 ≠ 0)
    (hlen : pol.length ≤ 2 ^ 31) :
    Arrays.sturm01 R fuel pol = numRealRoots01Sturm R fuel pol :=
  Arrays.sturm01_spec R fuel pol (fun _ => hl) hlen

/-- ... and it returns. -/
theorem C64_sturm_returns_partial (R : PseudoRem) (pol : List ℤ) (hl : pol.getLastD 0 ≠ 0)
    (hlen : pol.length ≤ 2 ^ 31) : ∃ n, ∀ fuel, pol.length ≤ fuel → Arrays.sturm01 R fuel pol = .ok n := by
  have hne : pol ≠ [] := by rintro rfl; simp at hl
  have h := derivList_lead (l := pol) fun _ => hl
  obtain ⟨v, hv⟩ : ∃ v, ∀ fuel, pol.length ≤ fuel → loop (sturmStep R) fuel
      ⟨pol, derivList pol, sgn (pol.headD 0), sgn (evaluateAtOne pol), 0⟩ = .ok v :=
    ⟨_, fun fuel hf => sturmLoop_ok R fuel _ (toPoly pol) (toPoly (derivList pol)) 1 1 (by
      have := List.length_pos_of_ne_nil hne
      rw [h.2]; omega) h.1 one_pos one_pos (by simp) (by simp)⟩
  refine ⟨v, fun fuel hf => ?_⟩
  rw [C64_sturm_partial R fuel pol hl hlen, numRealRoots01Sturm, if_neg hne]
  exact hv fuel hf

/-- C64, `fmpz_poly_num_real_roots_0_1_sturm` for polynomials of any length: either the result is that of the
list model of C26, without an access outside of an array, and is an `int`; or the counter overflows. -/
theorem C64_sturm_any_length (R : PseudoRem) (fuel : ℕ) (pol : List ℤ) (hl : pol.getLastD 0 ≠ 0) :
    Arrays.sturm01 R fuel pol = .ub ∧ 2 ^ 31 < pol.length ∨
      Arrays.sturm01 R fuel pol = numRealRoots01Sturm R fuel pol ∧
        ∀ t, Arrays.sturm01 R fuel pol = .ok t → -2 ^ 31 ≤ t ∧ t < 2 ^ 31 := by
  rcases Arrays.sturm01_or R fuel pol (fun _ => hl) with h | h
  · by_cases hlen : pol.length ≤ 2 ^ 31
    · have h1 := C64_sturm_partial R fuel pol hl hlen
      rw [h, numRealRoots01Sturm, if_neg (by rintro rfl; simp at hl)] at h1
      exact absurd h1.symm (Arrays.sturmLoop_ne_ub R fuel _)
    · exact .inl ⟨h, by omega⟩
  · exact .inr h

/-- the coefficients of an integer polynomial of degree `n` -/
theorem exists_list_of_poly (P : ℤ[X]) (hP : P ≠ 0) : ∃ l : List ℤ, l.length = P.natDegree + 1 ∧
    l.getLastD 0 ≠ 0 ∧ toPoly l = P.map (Int.castRingHom ℝ) := by
  refine ⟨(List.range (P.natDegree + 1)).map P.coeff, by simp, ?_, ?_⟩
  · rw [List.range_succ]
    simpa using hP
  · ext i
    rw [toPoly_coeff, coeff_map]
    by_cases hi : i < P.natDegree + 1
    · rw [List.getD_eq_getElem _ _ (by simpa using hi)]
      simp
    · rw [List.getD_eq_default _ _ (by simpa using hi), coeff_eq_zero_of_natDegree_lt (by omega)]
      simp

/-- The bound on the length cannot be dropped, and is the best possible: for every `n` from `2^31` on there is a
polynomial of length `n + 1`, with `n` roots in the unit interval, for which the counter overflows, whatever
pseudo remainders FLINT computes. -/
theorem C64_sturm_counterexample (n : ℕ) (hn : 2 ^ 31 ≤ n) : ∃ pol : List ℤ, pol.length = n + 1 ∧
    pol.getLastD 0 ≠ 0 ∧ ∀ (R : PseudoRem) (fuel : ℕ), pol.length ≤ fuel → Arrays.sturm01 R fuel pol = .ub := by
  have n0 : (n : ℤ) ≠ 0 := by omega
  have n1 : (0 : ℝ) < n := by exact_mod_cast (by omega : 0 < n)
  let P : ℤ[X] := ∏ i ∈ Finset.range n, (C (2 * (n : ℤ)) * X + C (-(2 * (i : ℤ) + 1)))
  have hd : ∀ i : ℕ, (C (2 * (n : ℤ)) * X + C (-(2 * (i : ℤ) + 1))).natDegree = 1 :=
    fun i => natDegree_linear (by omega)
  have hne : ∀ i ∈ Finset.range n, (C (2 * (n : ℤ)) * X + C (-(2 * (i : ℤ) + 1))) ≠ 0 := by
    intro i _ h
    have := hd i
    rw [h] at this
    simp at this
  have hP : P ≠ 0 := Finset.prod_ne_zero_iff.2 hne
  have hdeg : P.natDegree = n := by
    rw [natDegree_prod _ _ hne, Finset.sum_congr rfl fun i _ => hd i]
    simp
  obtain ⟨pol, h1, h2, h3⟩ := exists_list_of_poly P hP
  have hev : ∀ x : ℝ, (toPoly pol).eval x = ∏ i ∈ Finset.range n, (2 * n * x - (2 * i + 1)) := by
    intro x
    rw [h3, Polynomial.map_prod, eval_prod]
    refine Finset.prod_congr rfl fun i _ => ?_
    simp
    ring
  refine ⟨pol, by rw [h1, hdeg], h2, fun R fuel hf => ?_⟩
  rcases Arrays.sturm01_or R fuel pol (fun _ => h2) with h | ⟨h, ht⟩
  · exact h
  exfalso
  have m0 : ¬ MultipleRoot (toPoly pol) 0 := by
    rintro ⟨h0, -⟩
    rw [hev, Finset.prod_eq_zero_iff] at h0
    obtain ⟨i, -, h0⟩ := h0
    have : (0 : ℝ) ≤ i := Nat.cast_nonneg i
    linarith
  have m1 : ¬ MultipleRoot (toPoly pol) 1 := by
    rintro ⟨h0, -⟩
    rw [hev, Finset.prod_eq_zero_iff] at h0
    obtain ⟨i, hi, h0⟩ := h0
    have hi' : (i : ℝ) + 1 ≤ n := by exact_mod_cast Finset.mem_range.1 hi
    linarith
  rw [C26_num_real_roots_0_1_sturm_multiple_value_partial R pol h2 m0 m1 fuel hf] at h
  have h4 := (ht _ h).2
  have h5 : n ≤ distinctRoots (toPoly pol) (Set.Icc 0 1) := by
    have hfin : {x | x ∈ Set.Icc (0 : ℝ) 1 ∧ (toPoly pol).eval x = 0}.Finite := by
      refine Set.Finite.subset (toPoly pol).roots.toFinset.finite_toSet fun x hx => ?_
      have : toPoly pol ≠ 0 := toPoly_ne_of_lead h2
      simp [mem_roots this, IsRoot.def, hx.2]
    have himg : ((Finset.range n).image fun i : ℕ => ((2 * i + 1) / (2 * n) : ℝ) : Set ℝ) ⊆
        {x | x ∈ Set.Icc (0 : ℝ) 1 ∧ (toPoly pol).eval x = 0} := by
      intro x hx
      simp only [Finset.coe_image, Set.mem_image, Finset.mem_coe, Finset.mem_range] at hx
      obtain ⟨i, hi, rfl⟩ := hx
      have hi' : (i : ℝ) + 1 ≤ n := by exact_mod_cast hi
      refine ⟨⟨by positivity, ?_⟩, ?_⟩
      · rw [div_le_one (by positivity)]; linarith
      · rw [hev]
        refine Finset.prod_eq_zero (Finset.mem_range.2 hi) ?_
        field_simp
        ring
    have := Set.ncard_le_ncard himg hfin
    rw [Set.ncard_coe_finset, Finset.card_image_of_injective, Finset.card_range] at this
    · exact this
    · intro i j hij
      simp only at hij
      rw [div_left_inj' (by positivity)] at hij
      have : (i : ℝ) = j := by linarith
      exact_mod_cast this
  have : (2 : ℤ) ^ 31 ≤ ((distinctRoots (toPoly pol) (Set.Icc 0 1) + zerosAt0 (toPoly pol) : ℕ) : ℤ) := by
    have : 2 ^ 31 ≤ distinctRoots (toPoly pol) (Set.Icc 0 1) + zerosAt0 (toPoly pol) := by omega
    exact_mod_cast this
  omega

/-- `6x² - 5x + 1` has the roots `1/2` and `1/3` -/
example : Arrays.sturm01 premSimple 10 [1, -5, 6] = .ok 2 := by decide +kernel

/-- C64, `renf_elem_get_cfrac` with an array of at least `n` entries: the terms are written to the start
of the array, the rest of it is unchanged, and the number of terms is returned.  `l` are the terms of
C13. -/
theorem C64_get_cfrac {K : Nf} (E : Env K) (c : List ℤ) (rem a n : ℕ) (s : Mem) (hn : n ≤ c.length) :
    Arrays.getCfrac E c (.user rem) (.user a) n s =
      (E.getCfrac (.user rem) (.user a) n s).bind fun (l, s') => .ok (((l.length : ℤ), stored c l), s') :=
  Arrays.getCfrac_eq E c (.user rem) (.user a) n s hn

/-- C64, `renf_randtest`: its two arrays are large enough, and the entry that is picked is one that was
written. -/
theorem C64_randtest (A : ArbOps) (F : Scale2) (flog0 : ℤ) (hf : |flog0| ≤ 2 ^ 60) (malloc malloc' : ℕ → List ℤ)
    (hj : ∀ n, (malloc n).length = n) (hk : ∀ n, (malloc' n).length = n) (N : List ℤ → ℕ) (nd : Bool)
    (n₀ n₁ n₂ : ℕ) (draws : ℕ → Draw) (pick : ℕ → ℕ) (hpick : ∀ n, 0 < n → pick n < n) (len prec : ℤ)
    (bits : ℕ) (hd : ∀ i, (draws i).Ok len bits) (hlen : len ≤ 2 ^ 60) (hbits : bits ≤ 2 ^ 60) :
    Arrays.renfRandtest A F flog0 malloc malloc' N nd n₀ n₁ n₂ draws pick len prec =
      renfRandtest A F flog0 N nd n₀ n₁ n₂ draws pick len prec := by
  refine Arrays.renfRandtest_spec A F flog0 hf malloc malloc' hj hk N nd n₀ n₁ n₂ draws pick hpick len prec ?_
  intro p hp
  obtain ⟨j, rfl, -⟩ := drawLoop_ok hp
  have hl := randIrreducible_lead (hd j)
  refine ⟨toPoly_ne_of_lead (by intro e; rw [e] at hl; simp at hl), ?_, fun a ha => ?_⟩
  · have := (hd j).len_le
    rw [randIrreducible_length]
    omega
  · refine (Nat.size_le.2 ?_).trans hbits
    have := randIrreducible_bound (hd j) a ha
    rw [Int.abs_eq_natAbs] at this
    exact_mod_cast this

example : Arrays.renfRandtest exactArb scale2Simple (-1) (fun n => List.replicate n 77) (fun n => List.replicate n 5)
    (fun _ => 2) false 1 60 200 (fun _ => demoDraw) (· - 1) 3 64 =
    renfRandtest exactArb scale2Simple (-1) (fun _ => 2) false 1 60 200 (fun _ => demoDraw) (· - 1) 3 64 :=
  C64_randtest _ _ _ (by norm_num) _ _ (by simp) (by simp) _ _ _ _ _ _ _ (fun n hn => by omega) _ _ 2
    (fun _ => demoDraw_ok) (by norm_num) (by norm_num)

/-- `2/3` has three terms; the rest of the array is unchanged, and a second term beyond the end of an
array with one entry is noticed -/
example : (∃ s', Arrays.getCfrac env3 [7, 7, 7, 7] (.user 3) (.user 3) 4 mem3 = .ok ((3, [0, 1, 2, 7]), s')) ∧
    (match Arrays.getCfrac env3 [7] (.user 3) (.user 3) 4 mem3 with | .ub => true | _ => false) = true :=
  ⟨out_eq_some (by decide +kernel), by decide +kernel⟩

end EAntic
