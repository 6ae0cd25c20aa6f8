import Verif.Lemmas.Descartes
import Mathlib.Analysis.Polynomial.Basic
import Mathlib.Topology.Order.IntermediateValue
import Mathlib.Topology.Algebra.Polynomial
import Mathlib.Tactic.FieldSimp
import Mathlib.Tactic.Positivity
import Mathlib.Data.Set.Finite.Basic
import Mathlib.Order.Interval.Set.Infinite

/-! # Roots in (0,1) and positive roots of the transformed polynomial (helper lemmas) -/

namespace EAntic
open Polynomial

lemma hom_eval (p : List ℤ) (x : ℝ) (hx : 0 < 1 + x) :
    (1 + x) * (hom p).eval x = (1 + x) ^ p.length * (toPoly p).eval (x / (1 + x)) := by
  induction p with
  | nil => simp [hom, toPoly]
  | cons a p ih =>
    simp only [hom, toPoly, eval_add, eval_mul, eval_C, eval_pow, eval_X, eval_one,
      List.length_cons]
    have h : (1 + x) ≠ 0 := hx.ne'
    have : (1 + x) * (↑a * (1 + x) ^ p.length + x * eval x (hom p)) =
      ↑a * (1 + x) ^ (p.length + 1) + x * ((1 + x) * eval x (hom p)) := by ring
    rw [this, ih]
    field_simp
    ring

lemma poly_eq_of_pos {P Q : ℝ[X]} (h : ∀ x : ℝ, 0 < x → P.eval x = Q.eval x) : P = Q := by
  apply Polynomial.eq_of_infinite_eval_eq
  exact (Set.Ioi_infinite (0 : ℝ)).mono fun x hx => h x hx

lemma hom_eq_zero_iff (p : List ℤ) : hom p = 0 ↔ toPoly p = 0 := by
  constructor
  · intro h
    apply Polynomial.eq_of_infinite_eval_eq
    refine (Set.Ioo_infinite (zero_lt_one (α := ℝ))).mono ?_
    rintro t ⟨h0, h1⟩
    have hx : 0 < 1 + t / (1 - t) := by
      have : 0 < 1 - t := by linarith
      positivity
    have he := hom_eval p (t / (1 - t)) hx
    rw [h, eval_zero, mul_zero] at he
    have : t / (1 - t) / (1 + t / (1 - t)) = t := by
      have : (1 - t) ≠ 0 := by linarith
      field_simp
      ring
    rw [this] at he
    have h2 := mul_eq_zero.1 he.symm
    simp only [Set.mem_ofPred_eq, eval_zero]
    exact h2.resolve_left (pow_ne_zero _ hx.ne')
  · intro h
    apply poly_eq_of_pos
    intro x hx
    have he := hom_eval p x (by linarith)
    rw [h, eval_zero, mul_zero] at he
    rw [eval_zero]
    exact (mul_eq_zero.1 he).resolve_left (by linarith)

/-- homogenisation of a real polynomial in degree `N` -/
noncomputable def homN (N : ℕ) (Q : ℝ[X]) : ℝ[X] :=
  ∑ i ∈ Finset.range (N + 1), C (Q.coeff i) * X ^ i * (1 + X) ^ (N - i)

lemma homN_eval (N : ℕ) (Q : ℝ[X]) (hQ : Q.natDegree ≤ N) (x : ℝ) (hx : 0 < 1 + x) :
    (homN N Q).eval x = (1 + x) ^ N * Q.eval (x / (1 + x)) := by
  rw [homN, eval_finsetSum, eval_eq_sum_range' (Nat.lt_succ_of_le hQ), Finset.mul_sum]
  apply Finset.sum_congr rfl
  intro i hi
  have hi' : i ≤ N := by simpa [Nat.lt_succ_iff] using hi
  simp only [eval_mul, eval_C, eval_pow, eval_X, eval_add, eval_one]
  have h : (1 + x) ≠ 0 := hx.ne'
  obtain ⟨d, rfl⟩ := Nat.exists_eq_add_of_le hi'
  rw [Nat.add_sub_cancel_left, div_pow, pow_add]
  field_simp

lemma toPoly_natDegree_le (p : List ℤ) : (toPoly p).natDegree ≤ p.length - 1 := by
  by_cases h : toPoly p = 0
  · simp [h]
  · have := toPoly_degree_lt p
    rw [degree_eq_natDegree h] at this
    have : (toPoly p).natDegree < p.length := by exact_mod_cast this
    omega

theorem rootCount_Ioo_le_hom (p : List ℤ) (hp : toPoly p ≠ 0) :
    (toPoly p).roots.countP (fun x => 0 < x ∧ x < 1) ≤ (hom p).roots.countP (fun x => 0 < x) := by
  classical
  set P := toPoly p with hP
  have hh : hom p ≠ 0 := fun h => hp ((hom_eq_zero_iff p).1 h)
  set m := P.roots.filter (fun x => 0 < x ∧ x < 1) with hm
  have hdvd : (m.map fun a => X - C a).prod ∣ P :=
    (Multiset.prod_X_sub_C_dvd_iff_le_roots hp m).2 (Multiset.filter_le _ _)
  obtain ⟨Q, hQ⟩ := hdvd
  have hQ0 : Q ≠ 0 := by rintro rfl; simp at hQ; exact hp hQ
  have hprod0 : (m.map fun a => X - C a).prod ≠ 0 := by
    intro h; rw [h, zero_mul] at hQ; exact hp hQ
  have hcard : P.natDegree = m.card + Q.natDegree := by
    rw [hQ, natDegree_mul hprod0 hQ0, natDegree_multiset_prod_X_sub_C_eq_card]
  have hlen : P.natDegree ≤ p.length - 1 := toPoly_natDegree_le p
  have hpl : p ≠ [] := by rintro rfl; exact hp rfl
  have hpl' : 0 < p.length := List.length_pos_iff.2 hpl
  set N := p.length - 1 - m.card with hN
  have hQN : Q.natDegree ≤ N := by omega
  have key : hom p = (m.map fun a => C (1 - a) * X - C a).prod * homN N Q := by
    apply poly_eq_of_pos
    intro x hx
    have hx1 : 0 < 1 + x := by linarith
    have he := hom_eval p x hx1
    rw [eval_mul, homN_eval N Q hQN x hx1]
    have he2 : P.eval (x / (1 + x)) =
        (m.map fun a => x / (1 + x) - a).prod * Q.eval (x / (1 + x)) := by
      rw [hQ, eval_mul, eval_multiset_prod, Multiset.map_map]
      simp
    have he3 : ((m.map fun a => C (1 - a) * X - C a).prod).eval x =
        (1 + x) ^ m.card * (m.map fun a => x / (1 + x) - a).prod := by
      rw [eval_multiset_prod, Multiset.map_map]
      have : (1 + x) ^ m.card = (m.map fun _ => (1 + x)).prod := by simp
      rw [this, ← Multiset.prod_map_mul]
      congr 1
      apply Multiset.map_congr rfl
      intro a _
      simp only [Function.comp, eval_sub, eval_mul, eval_C, eval_X]
      field_simp
      ring
    rw [he3]
    have hlen2 : p.length = 1 + (m.card + N) := by omega
    rw [← hP, he2, hlen2, pow_add, pow_add, pow_one] at he
    have h4 := mul_left_cancel₀ hx1.ne' (he.trans (by ring :
      (1 + x) * ((1 + x) ^ m.card * (1 + x) ^ N) *
        ((Multiset.map (fun a => x / (1 + x) - a) m).prod * eval (x / (1 + x)) Q) =
      (1 + x) * ((1 + x) ^ m.card * (Multiset.map (fun a => x / (1 + x) - a) m).prod *
        ((1 + x) ^ N * eval (x / (1 + x)) Q))))
    exact h4
  have hprod : ((m.map fun a => C (1 - a) * X - C a).prod).roots = m.map fun a => a / (1 - a) := by
    rw [roots_multiset_prod]
    · rw [Multiset.bind_map]
      have : ∀ a ∈ m, (C (1 - a) * X - C a).roots = {a / (1 - a)} := by
        intro a ha
        have ha2 : 0 < a ∧ a < 1 := (Multiset.mem_filter.1 ha).2
        have hne : (1 - a) ≠ 0 := by linarith [ha2.2]
        have := roots_C_mul_X_add_C (R := ℝ) (-a) hne
        rw [C_neg, ← sub_eq_add_neg] at this
        rw [this]
        congr 1
        field_simp
      rw [Multiset.bind_congr this, Multiset.bind_singleton]
    · intro h0
      obtain ⟨a, ha, h⟩ := Multiset.mem_map.1 h0
      have ha2 : 0 < a ∧ a < 1 := (Multiset.mem_filter.1 ha).2
      have := congrArg (fun q => q.eval 1) h
      simp at this
      have h1 := congrArg (fun q => q.eval 0) h
      simp at h1
      linarith [ha2.1]
  have hle : m.map (fun a => a / (1 - a)) ≤ (hom p).roots := by
    rw [← hprod, key]
    rw [key] at hh
    rw [roots_mul hh]
    exact Multiset.le_add_right _ _
  calc P.roots.countP (fun x => 0 < x ∧ x < 1) = m.card := by
        rw [Multiset.countP_eq_card_filter]
    _ = (m.map (fun a => a / (1 - a))).countP (fun x => 0 < x) := by
        rw [Multiset.countP_map]
        rw [Multiset.filter_eq_self.2]
        intro a ha
        have ha2 : 0 < a ∧ a < 1 := (Multiset.mem_filter.1 ha).2
        have : 0 < 1 - a := by linarith [ha2.2]
        exact div_pos ha2.1 this
    _ ≤ _ := Multiset.countP_le_of_le _ hle

/-- A polynomial whose leading and lowest nonzero coefficients have opposite signs has a positive
root. -/
lemma exists_pos_root_of_signs {U : ℝ[X]} (h1 : 0 < U.leadingCoeff) (h2 : U.trailingCoeff < 0) :
    ∃ x, 0 < x ∧ U.eval x = 0 := by
  have hU : U ≠ 0 := by rintro rfl; simp at h1
  -- U = X^k * W
  set k := U.natTrailingDegree
  obtain ⟨W, hW⟩ : X ^ k ∣ U := by
    rw [X_pow_dvd_iff]; intro d hd; exact coeff_eq_zero_of_lt_natTrailingDegree hd
  have hW0 : W.eval 0 = U.trailingCoeff := by
    rw [← coeff_zero_eq_eval_zero]
    have : U.coeff (0 + k) = W.coeff 0 := by rw [hW, mul_comm, coeff_mul_X_pow]
    rw [← this, zero_add]; rfl
  have hWl : W.leadingCoeff = U.leadingCoeff := by
    rw [hW, leadingCoeff_mul, leadingCoeff_X_pow, one_mul]
  have hWd : 0 < W.degree := by
    by_contra hcon
    have hc := eq_C_of_degree_le_zero (not_lt.1 hcon)
    rw [hc] at hW0 hWl
    simp at hW0 hWl
    linarith
  have ht := W.tendsto_atTop_of_leadingCoeff_nonneg hWd (by rw [hWl]; exact h1.le)
  obtain ⟨y, hy, hy0⟩ := ((ht.eventually (Filter.eventually_ge_atTop 1)).and
    (Filter.eventually_gt_atTop 0)).exists
  have hcont : ContinuousOn (fun x => W.eval x) (Set.Icc 0 y) := W.continuous.continuousOn
  obtain ⟨x, hx, hx0⟩ := intermediate_value_Icc hy0.le hcont
    (show (0 : ℝ) ∈ Set.Icc _ _ from ⟨by rw [hW0]; exact h2.le, by linarith⟩)
  have hx0' : W.eval x = 0 := hx0
  refine ⟨x, lt_of_le_of_ne hx.1 ?_, by rw [hW, eval_mul, hx0', mul_zero]⟩
  rintro rfl
  rw [hW0] at hx0'; linarith

/-- sign of the last nonzero entry -/
def lsign (l : List ℤ) : ℤ := fsign l.reverse

lemma fsign_append (l m : List ℤ) : fsign (l ++ m) = if fsign l = 0 then fsign m else fsign l := by
  induction l with
  | nil => simp [fsign]
  | cons a l ih =>
    simp only [List.cons_append, fsign]
    split
    · exact ih
    · rename_i h; rw [if_neg (fun h' => h (sgn_eq_zero.1 h'))]

lemma lsign_cons (a : ℤ) (l : List ℤ) : lsign (a :: l) = if lsign l = 0 then sgn a else lsign l := by
  unfold lsign
  rw [List.reverse_cons, fsign_append]
  simp only [fsign]
  split
  · split
    · rename_i h; rw [h, sgn_zero]
    · rfl
  · rfl

lemma var_parity (s : ℤ) (hs : s = 1 ∨ s = -1) (l : List ℤ) :
    (if lsign l = 0 then s else lsign l) = s * (-1) ^ var s l := by
  induction l generalizing s with
  | nil => simp [lsign, fsign, var]
  | cons a l ih =>
    have h0 : s ≠ 0 := by rcases hs with rfl | rfl <;> decide
    rw [lsign_cons]
    simp only [var, h0, if_false]
    by_cases h1 : s = - sgn a
    · rw [if_pos h1, pow_succ]
      have := ih (-s) (by rcases hs with rfl | rfl <;> simp)
      have hsa : sgn a = -s := by omega
      have e : s * ((-1) ^ var (-s) l * -1) = -s * (-1) ^ var (-s) l := by ring
      rw [e, ← this]
      by_cases h2 : lsign l = 0
      · rw [if_pos h2, if_pos h2, hsa, if_neg (by omega)]
      · rw [if_neg h2, if_neg h2, if_neg h2]
    · rw [if_neg h1, ← ih s hs]
      by_cases h2 : lsign l = 0
      · rw [if_pos h2, if_pos h2]
        split
        · rfl
        · rcases sgn_cases a with h | h | h <;> omega
      · simp [h2]

lemma var_zero_eq_fsign (l : List ℤ) (h : fsign l ≠ 0) : var 0 l = var (fsign l) l := by
  have hs : fsign l = 1 ∨ fsign l = -1 := by rcases fsign_cases l with h' | h' | h' <;> omega
  rw [var_eq _ hs]
  rw [if_neg (by omega)]; rfl

lemma lsign_ne_zero {l : List ℤ} (h : fsign l ≠ 0) : lsign l ≠ 0 := by
  induction l with
  | nil => exact absurd rfl h
  | cons a l ih =>
    rw [lsign_cons]
    split
    · rename_i h2
      intro ha
      rw [sgn_eq_zero] at ha; subst ha
      simp only [fsign, if_true] at h
      exact ih h h2
    · assumption

lemma lsign_of_var_odd {l : List ℤ} (h : fsign l ≠ 0) (hv : Odd (var 0 l)) :
    lsign l = - fsign l := by
  have hs : fsign l = 1 ∨ fsign l = -1 := by rcases fsign_cases l with h' | h' | h' <;> omega
  have := var_parity (fsign l) hs l
  rw [if_neg (lsign_ne_zero h), ← var_zero_eq_fsign l h, hv.neg_one_pow] at this
  omega

lemma sign_trailingCoeff (l : List ℤ) :
    ((SignType.sign (toPoly l).trailingCoeff : SignType) : ℤ) = fsign l := by
  induction l with
  | nil => simp [toPoly, fsign]
  | cons a l ih =>
    by_cases ha : a = 0
    · subst ha
      have : toPoly (0 :: l) = toPoly l * X := by simp [toPoly, mul_comm]
      rw [this]
      simp only [fsign, if_true]
      have hX : (X : ℝ[X]).trailingCoeff = 1 := by simp [trailingCoeff]
      rw [trailingCoeff_mul, hX, mul_one, ih]
    · have h0 : (toPoly (a :: l)).natTrailingDegree = 0 := by
        rw [natTrailingDegree_eq_zero]; right
        rw [toPoly_coeff]; simpa using ha
      rw [trailingCoeff, h0, toPoly_coeff, sign_cast]
      simp [fsign, ha]

lemma fsign_eq_zero_iff (l : List ℤ) : fsign l = 0 ↔ ∀ a ∈ l, a = 0 := by
  induction l with
  | nil => simp [fsign]
  | cons a l ih =>
    simp only [fsign, List.mem_cons, forall_eq_or_imp]
    split
    · rename_i h; simp [h, ih]
    · rename_i h
      simp [sgn_eq_zero, h]

theorem exists_pos_root_of_var_odd (l : List ℤ) (hv : Odd (var 0 l)) :
    ∃ x, 0 < x ∧ (toPoly l.reverse).eval x = 0 := by
  have hf : fsign l ≠ 0 := by
    intro h
    have h2 := (fsign_eq_zero_iff l).1 h
    have : var 0 l = 0 := by
      rw [var_eq_signVariations, (toPoly_eq_zero_iff _).2 (by simpa using h2)]; simp
    rw [this] at hv; simp at hv
  have hl := lsign_of_var_odd hf hv
  have h1 := sign_leadingCoeff_reverse l
  have h2 : ((SignType.sign (toPoly l.reverse).trailingCoeff : SignType) : ℤ) = lsign l :=
    sign_trailingCoeff l.reverse
  rw [hl] at h2
  rcases fsign_cases l with h | h | h
  · rw [h] at h1 h2
    have e1 : SignType.sign (toPoly l.reverse).leadingCoeff = -1 := by
      rw [← signType_cast_inj, h1]; rfl
    have e2 : SignType.sign (toPoly l.reverse).trailingCoeff = 1 := by
      rw [← signType_cast_inj, h2]; rfl
    rw [sign_eq_neg_one_iff] at e1
    rw [sign_eq_one_iff] at e2
    obtain ⟨x, hx, hx0⟩ := exists_pos_root_of_signs (U := -toPoly l.reverse) (by simpa using e1)
      (by
        have : (-toPoly l.reverse).trailingCoeff = -(toPoly l.reverse).trailingCoeff := by
          simp [trailingCoeff, natTrailingDegree_neg]
        rw [this]; linarith)
    exact ⟨x, hx, by simpa using hx0⟩
  · exact absurd h hf
  · rw [h] at h1 h2
    have e1 : SignType.sign (toPoly l.reverse).leadingCoeff = 1 := by
      rw [← signType_cast_inj, h1]; rfl
    have e2 : SignType.sign (toPoly l.reverse).trailingCoeff = -1 := by
      rw [← signType_cast_inj, h2]; rfl
    rw [sign_eq_one_iff] at e1
    rw [sign_eq_neg_one_iff] at e2
    exact exists_pos_root_of_signs e1 e2

/-- Upper bound: roots in (0,1) with multiplicity. -/
theorem rootCount_le_var (p : List ℤ) (hp : toPoly p ≠ 0) :
    (toPoly p).roots.countP (fun x => 0 < x ∧ x < 1) ≤ var 0 (tseq p) := by
  rw [var_eq_signVariations, toPoly_tseq _ p rfl]
  exact (rootCount_Ioo_le_hom p hp).trans (roots_countP_pos_le_signVariations _)

/-- An odd number of variations forces a root in (0,1). -/
theorem exists_root_of_var_odd (p : List ℤ) (hv : Odd (var 0 (tseq p))) :
    ∃ t, 0 < t ∧ t < 1 ∧ (toPoly p).eval t = 0 := by
  obtain ⟨x, hx, hx0⟩ := exists_pos_root_of_var_odd _ hv
  rw [toPoly_tseq _ p rfl] at hx0
  have hx1 : 0 < 1 + x := by linarith
  have he := hom_eval p x hx1
  rw [hx0, mul_zero] at he
  refine ⟨x / (1 + x), div_pos hx hx1, (div_lt_one hx1).2 (by linarith), ?_⟩
  exact (mul_eq_zero.1 he.symm).resolve_left (pow_ne_zero _ hx1.ne')

theorem rootCount_eq_one_of_var (p : List ℤ) (hp : toPoly p ≠ 0) (hv : var 0 (tseq p) = 1) :
    (toPoly p).roots.countP (fun x => 0 < x ∧ x < 1) = 1 := by
  apply le_antisymm
  · rw [← hv]; exact rootCount_le_var p hp
  · obtain ⟨t, h0, h1, ht⟩ := exists_root_of_var_odd p (by rw [hv]; decide)
    rw [Nat.succ_le_iff, Multiset.countP_pos]
    exact ⟨t, (mem_roots hp).2 ht, h0, h1⟩

end EAntic
