import Verif.Spec.Poly
import Verif.Model.Descartes
import Mathlib.Algebra.Polynomial.EraseLead
import Mathlib.Algebra.Polynomial.Reverse
import Mathlib.Data.List.Basic
import Mathlib.Tactic.Ring
import Mathlib.Tactic.Linarith
import Mathlib.Tactic.NormNum

/-! # Sign variations of integer lists and of polynomials (helper lemmas) -/

namespace EAntic
open Polynomial

/-- Sign variations of a list, with `s` the last nonzero sign seen (0 if none). -/
def var : ℤ → List ℤ → ℕ
  | _, [] => 0
  | s, a :: l =>
    if s = 0 then var (sgn a) l
    else if s = - sgn a then var (-s) l + 1
    else var s l

/-- sign of the first nonzero entry, 0 if there is none -/
def fsign : List ℤ → ℤ
  | [] => 0
  | a :: l => if a = 0 then fsign l else sgn a

lemma sgn_eq_zero {a : ℤ} : sgn a = 0 ↔ a = 0 := by simp [sgn]
lemma sgn_zero : sgn 0 = 0 := rfl
lemma sgn_cases (a : ℤ) : sgn a = -1 ∨ sgn a = 0 ∨ sgn a = 1 := by
  unfold sgn
  rcases lt_trichotomy a 0 with h | h | h
  · left; exact Int.sign_eq_neg_one_of_neg h
  · right; left; simp [h]
  · right; right; exact Int.sign_eq_one_of_pos h
lemma sgn_pos {a : ℤ} : sgn a = 1 ↔ 0 < a := by unfold sgn; exact Int.sign_eq_one_iff_pos
lemma sgn_neg {a : ℤ} : sgn a = -1 ↔ a < 0 := by unfold sgn; exact Int.sign_eq_neg_one_iff_neg

lemma fsign_cases (l : List ℤ) : fsign l = -1 ∨ fsign l = 0 ∨ fsign l = 1 := by
  induction l with
  | nil => simp [fsign]
  | cons a l ih => unfold fsign; split; exact ih; exact sgn_cases a

lemma var_zero_cons_zero (l : List ℤ) : var 0 (0 :: l) = var 0 l := by simp [var, sgn_zero]

lemma var_eq (s : ℤ) (hs : s = 1 ∨ s = -1) (l : List ℤ) :
    var s l = var 0 l + if s = - fsign l then 1 else 0 := by
  induction l with
  | nil => rcases hs with rfl | rfl <;> simp [var, fsign]
  | cons a l ih =>
    by_cases ha : a = 0
    · subst ha
      have h0 : s ≠ 0 := by rcases hs with rfl | rfl <;> decide
      have h1 : s ≠ - sgn 0 := by simpa [sgn_zero] using h0
      simp only [var, h0, h1, if_false, if_true, fsign]
      simpa [sgn_zero] using ih
    · have h0 : s ≠ 0 := by rcases hs with rfl | rfl <;> decide
      have hsa : sgn a ≠ 0 := fun h => ha (sgn_eq_zero.1 h)
      simp only [var, h0, if_false, if_true, fsign, ha]
      rcases sgn_cases a with h | h | h
      · rw [h]; rcases hs with rfl | rfl <;> simp
      · exact absurd h hsa
      · rw [h]; rcases hs with rfl | rfl <;> simp

/-! ## Polynomials from lists -/

lemma toPoly_append (l m : List ℤ) : toPoly (l ++ m) = toPoly l + X ^ l.length * toPoly m := by
  induction l with
  | nil => simp [toPoly]
  | cons a l ih => simp only [List.cons_append, toPoly, ih, List.length_cons]; ring

lemma toPoly_degree_lt (l : List ℤ) : (toPoly l).degree < l.length := by
  induction l with
  | nil => simp [toPoly]
  | cons a l ih =>
    simp only [toPoly, List.length_cons]
    refine lt_of_le_of_lt (degree_add_le _ _) (max_lt ?_ ?_)
    · refine lt_of_le_of_lt degree_C_le ?_
      exact_mod_cast Nat.succ_pos _
    · by_cases h : toPoly l = 0
      · simp [h]
      · rw [degree_mul, degree_X, degree_eq_natDegree h]
        rw [degree_eq_natDegree h] at ih
        have : (toPoly l).natDegree < l.length := by exact_mod_cast ih
        have h2 : 1 + (toPoly l).natDegree < l.length + 1 := by omega
        exact_mod_cast h2

lemma toPoly_coeff (l : List ℤ) (i : ℕ) : (toPoly l).coeff i = ((l.getD i 0 : ℤ) : ℝ) := by
  induction l generalizing i with
  | nil => simp [toPoly]
  | cons a l ih =>
    cases i with
    | zero => simp [toPoly]
    | succ i => rw [toPoly, coeff_add, coeff_X_mul, coeff_C_succ, ih]; simp

lemma toPoly_eval_cons (a : ℤ) (l : List ℤ) (x : ℝ) :
    (toPoly (a :: l)).eval x = a + x * (toPoly l).eval x := by simp [toPoly]

lemma toPoly_eq_zero_iff (l : List ℤ) : toPoly l = 0 ↔ ∀ a ∈ l, a = 0 := by
  constructor
  · intro h a ha
    obtain ⟨i, hi, rfl⟩ := List.getElem_of_mem ha
    have := toPoly_coeff l i
    rw [h] at this
    simp [hi] at this
    exact_mod_cast this.symm
  · intro h
    induction l with
    | nil => rfl
    | cons a l ih =>
      simp only [toPoly]
      rw [h a (by simp), ih (fun b hb => h b (by simp [hb]))]
      simp

/-- The descending list `a :: l` as a polynomial. -/
lemma toPoly_reverse_cons (a : ℤ) (l : List ℤ) :
    toPoly (a :: l).reverse = toPoly l.reverse + monomial l.length (a : ℝ) := by
  rw [List.reverse_cons, toPoly_append, List.length_reverse]
  simp [toPoly, ← C_mul_X_pow_eq_monomial, mul_comm]

lemma toPoly_reverse_degree_lt (l : List ℤ) : (toPoly l.reverse).degree < l.length := by
  simpa using toPoly_degree_lt l.reverse

lemma leadingCoeff_reverse_cons {a : ℤ} (ha : a ≠ 0) (l : List ℤ) :
    (toPoly (a :: l).reverse).leadingCoeff = a ∧
    (toPoly (a :: l).reverse).eraseLead = toPoly l.reverse ∧ toPoly (a :: l).reverse ≠ 0 := by
  have ha' : (a : ℝ) ≠ 0 := by exact_mod_cast ha
  have hd := toPoly_reverse_degree_lt l
  have hm : (monomial l.length (a : ℝ)).degree = l.length := degree_monomial _ ha'
  have hlt : (toPoly l.reverse).degree < (monomial l.length (a : ℝ)).degree := by rw [hm]; exact hd
  have hP := toPoly_reverse_cons a l
  have h1 : (toPoly (a :: l).reverse).leadingCoeff = a := by
    rw [hP, leadingCoeff_add_of_degree_lt hlt, leadingCoeff_monomial]
  have hdeg : (toPoly (a :: l).reverse).degree = l.length := by
    rw [hP, degree_add_eq_right_of_degree_lt hlt, hm]
  have hnd : (toPoly (a :: l).reverse).natDegree = l.length := natDegree_eq_of_degree_eq_some hdeg
  refine ⟨h1, ?_, ?_⟩
  · rw [← self_sub_monomial_natDegree_leadingCoeff, h1, hnd, hP]; ring
  · intro h0; rw [h0] at hdeg; simp at hdeg

lemma sign_cast (a : ℤ) : ((SignType.sign (a : ℝ) : SignType) : ℤ) = sgn a := by
  unfold sgn
  rcases lt_trichotomy a 0 with h | h | h
  · rw [Int.sign_eq_neg_one_of_neg h, sign_neg (by exact_mod_cast h)]; rfl
  · simp [h]
  · rw [Int.sign_eq_one_of_pos h, sign_pos (by exact_mod_cast h)]; rfl

lemma sign_leadingCoeff_reverse (l : List ℤ) :
    ((SignType.sign (toPoly l.reverse).leadingCoeff : SignType) : ℤ) = fsign l := by
  induction l with
  | nil => simp [toPoly, fsign]
  | cons a l ih =>
    by_cases ha : a = 0
    · subst ha
      rw [toPoly_reverse_cons]; simp [fsign, ih]
    · rw [(leadingCoeff_reverse_cons ha l).1, sign_cast]; simp [fsign, ha]

lemma signType_cast_inj {a b : SignType} : ((a : ℤ) = (b : ℤ)) ↔ a = b := by
  revert a b; decide

lemma signType_cast_neg (a : SignType) : ((-a : SignType) : ℤ) = -(a : ℤ) := by
  revert a; decide

/-- The list count is Mathlib's number of sign variations. -/
theorem var_eq_signVariations (l : List ℤ) :
    var 0 l = (toPoly l.reverse).signVariations := by
  induction l with
  | nil => simp [var, toPoly]
  | cons a l ih =>
    by_cases ha : a = 0
    · subst ha
      rw [toPoly_reverse_cons, var_zero_cons_zero]; simp [ih]
    · obtain ⟨h1, h2, h3⟩ := leadingCoeff_reverse_cons ha l
      rw [signVariations_eq_eraseLead_add_ite h3, h2, h1, ← ih]
      have hs : sgn a = 1 ∨ sgn a = -1 := by
        rcases sgn_cases a with h | h | h
        · exact .inr h
        · exact absurd (sgn_eq_zero.1 h) ha
        · exact .inl h
      have : var 0 (a :: l) = var (sgn a) l := by simp [var]
      rw [this, var_eq _ hs]
      congr 1
      have : (SignType.sign (a:ℝ) = -SignType.sign (toPoly l.reverse).leadingCoeff) ↔
          sgn a = - fsign l := by
        rw [← signType_cast_inj, signType_cast_neg, sign_cast, sign_leadingCoeff_reverse]
      simp only [this]

end EAntic
