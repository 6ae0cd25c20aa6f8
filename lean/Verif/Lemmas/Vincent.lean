import Verif.Lemmas.Vca
import Verif.Lemmas.Scale01
import Mathlib.Algebra.Polynomial.Taylor
import Mathlib.FieldTheory.Perfect
import Mathlib.Topology.Algebra.Polynomial
import Mathlib.Topology.Order.Compact
import Mathlib.Data.Nat.Choose.Cast
import Mathlib.Data.List.GetD
import Mathlib.Analysis.SpecificLimits.Basic

/-!
# Small intervals have at most one sign variation (helper lemmas)

A squarefree polynomial has, on every sufficiently small subinterval of `[0,1]`, coefficients of
the transformed polynomial with at most one sign change.
-/

namespace EAntic
open Polynomial Finset

lemma hom_eq_sum (p : List ℤ) : hom p = ∑ i ∈ range p.length,
    C ((p.getD i 0 : ℤ) : ℝ) * (X ^ i * (1 + X) ^ (p.length - 1 - i)) := by
  induction p with
  | nil => simp [hom]
  | cons a p ih =>
    rw [hom, List.length_cons, sum_range_succ']
    rw [ih, mul_sum, add_comm]
    congr 1
    · refine sum_congr rfl fun i hi => ?_
      rw [mem_range] at hi
      have h1 : p.length + 1 - 1 - (i + 1) = p.length - 1 - i := by omega
      rw [h1, pow_succ]
      simp only [List.getD_cons_succ]
      ring
    · simp

/-- The Bernstein coefficients. -/
noncomputable def bern (n : ℕ) (r : ℕ → ℝ) (j : ℕ) : ℝ :=
  ∑ i ∈ range (n + 1), r i * ((j.choose i : ℝ) / (n.choose i : ℝ))

lemma hom_coeff {p : List ℤ} {n : ℕ} (hn : p.length = n + 1) {j : ℕ} (hj : j ≤ n) :
    (hom p).coeff j = n.choose j * bern n (fun i => ((p.getD i 0 : ℤ) : ℝ)) j := by
  rw [hom_eq_sum, finset_sum_coeff, hn, bern, mul_sum]
  refine sum_congr rfl fun i hi => ?_
  rw [mem_range] at hi
  rw [coeff_C_mul, coeff_X_pow_mul', Nat.add_sub_cancel]
  have hpos : (0 : ℝ) < n.choose i := by exact_mod_cast Nat.choose_pos (Nat.lt_succ_iff.1 hi)
  split_ifs with hij
  · rw [coeff_one_add_X_pow]
    have := Nat.choose_mul (n := n) hij
    have h2 : (n.choose j : ℝ) * j.choose i = n.choose i * (n - i).choose (j - i) := by
      exact_mod_cast this
    field_simp
    linear_combination -((p.getD i 0 : ℤ) : ℝ) * h2
  · rw [Nat.choose_eq_zero_of_lt (n := j) (k := i) (by omega)]
    simp

lemma choose_ratio_le {n i j : ℕ} (hj : j ≤ n) : (j.choose i : ℝ) / (n.choose i : ℝ) ≤ 1 := by
  rcases Nat.lt_or_ge n i with h | h
  · rw [Nat.choose_eq_zero_of_lt h]; simp
  · rw [div_le_one (by exact_mod_cast Nat.choose_pos h)]
    exact_mod_cast Nat.choose_le_choose i hj

lemma choose_ratio_nonneg (n i j : ℕ) : (0 : ℝ) ≤ (j.choose i : ℝ) / (n.choose i : ℝ) := by
  positivity

/-- if the constant coefficient dominates, the Bernstein coefficients are close to it -/
lemma bern_near (n : ℕ) (r : ℕ → ℝ) {j : ℕ} (hj : j ≤ n) :
    |bern n r j - r 0| ≤ ∑ i ∈ range n, |r (i + 1)| := by
  rw [bern, sum_range_succ']
  simp only [Nat.choose_zero_right, Nat.cast_one, div_one, mul_one]
  rw [add_sub_cancel_right]
  refine (abs_sum_le_sum_abs _ _).trans (sum_le_sum fun i _ => ?_)
  rw [abs_mul, abs_of_nonneg (choose_ratio_nonneg n (i + 1) j)]
  exact mul_le_of_le_one_right (abs_nonneg _) (choose_ratio_le hj)

/-- if the linear coefficient dominates the higher ones, the Bernstein coefficients have
differences close to it -/
lemma bern_diff (n : ℕ) (r : ℕ → ℝ) {j : ℕ} (hj : j < n + 1) :
    |bern (n + 1) r (j + 1) - bern (n + 1) r j - r 1 / (n + 1)| ≤ ∑ i ∈ range n, |r (i + 2)| := by
  have e : bern (n + 1) r (j + 1) - bern (n + 1) r j =
      ∑ i ∈ range (n + 1), r (i + 1) * ((j.choose i : ℝ) / ((n + 1).choose (i + 1) : ℝ)) := by
    unfold bern
    rw [← sum_sub_distrib, sum_range_succ']
    simp only [Nat.choose_zero_right, sub_self, add_zero]
    refine sum_congr rfl fun i _ => ?_
    rw [Nat.choose_succ_succ]
    push_cast
    ring
  rw [e, sum_range_succ']
  simp only [Nat.choose_zero_right, Nat.cast_one, zero_add, Nat.choose_one_right]
  have : r 1 * (1 / ((n + 1 : ℕ) : ℝ)) = r 1 / (n + 1) := by push_cast; ring
  rw [this, add_sub_cancel_right]
  refine (abs_sum_le_sum_abs _ _).trans (sum_le_sum fun i hi => ?_)
  rw [mem_range] at hi
  rw [abs_mul, abs_of_nonneg (a := (j.choose (i + 1) : ℝ) / ((n + 1).choose (i + 1 + 1) : ℝ)) (by positivity)]
  refine mul_le_of_le_one_right (abs_nonneg _) ?_
  rw [div_le_one (by exact_mod_cast Nat.choose_pos (by omega))]
  have h1 : j.choose (i + 1) ≤ n.choose (i + 1) := Nat.choose_le_choose _ (by omega)
  have h2 : n.choose (i + 1) ≤ (n + 1).choose (i + 1 + 1) := by
    rw [Nat.choose_succ_succ]; omega
  exact_mod_cast h1.trans h2

/-! ## Sign variations -/

lemma var_le_of_mono (l : List ℤ) (s : ℤ) (hs : s = -1 ∨ s = 0 ∨ s = 1)
    (hl : l.Pairwise fun a b => sgn a ≤ sgn b) (h : ∀ a ∈ l, s ≤ sgn a) :
    var s l ≤ 1 ∧ (0 ≤ s → var s l = 0) := by
  induction l generalizing s with
  | nil => simp [var]
  | cons a l ih =>
    rw [List.pairwise_cons] at hl
    have ha := h a (by simp)
    have h' : ∀ b ∈ l, s ≤ sgn b := fun b hb => h b (by simp [hb])
    unfold var
    split_ifs with h0 h1
    · subst h0
      exact ih (sgn a) (sgn_cases a) hl.2 hl.1 |>.imp id fun f _ => f ha
    · have hs1 : s = -1 := by
        rcases hs with rfl | rfl | rfl
        · rfl
        · exact absurd rfl h0
        · rcases sgn_cases a with e | e | e <;> rw [e] at ha h1 <;> norm_num at *
      subst hs1
      have ha1 : sgn a = 1 := by omega
      rw [ha1] at hl
      have := (ih 1 (.inr (.inr rfl)) hl.2 hl.1).2 (by norm_num)
      simp [this]
    · exact ih s hs hl.2 h'

lemma var_le_one_of_mono {l : List ℤ} (hl : l.Pairwise fun a b => sgn a ≤ sgn b) : var 0 l ≤ 1 := by
  cases l with
  | nil => simp [var]
  | cons a l =>
    rw [List.pairwise_cons] at hl
    simp only [var, if_true]
    exact (var_le_of_mono l _ (sgn_cases a) hl.2 hl.1).1

lemma sgn_neg' (a : ℤ) : sgn (-a) = -sgn a := by simp [sgn]

lemma var_map_neg (s : ℤ) (l : List ℤ) : var (-s) (l.map fun a => -a) = var s l := by
  induction l generalizing s with
  | nil => rfl
  | cons a l ih =>
    simp only [List.map_cons, var, neg_eq_zero, sgn_neg', neg_inj]
    simp only [ih]

lemma var_le_one_of_anti {l : List ℤ} (hl : l.Pairwise fun a b => sgn b ≤ sgn a) : var 0 l ≤ 1 := by
  rw [← var_map_neg, neg_zero]
  refine var_le_one_of_mono ?_
  rw [List.pairwise_map]
  exact hl.imp fun h => by rw [sgn_neg', sgn_neg']; omega

lemma sgn_le_of {a b : ℤ} (h1 : 0 < a → 0 < b) (h2 : b < 0 → a < 0) : sgn a ≤ sgn b := by
  rcases sgn_cases a with e | e | e <;> rcases sgn_cases b with e' | e' | e' <;> rw [e, e'] <;>
    norm_num
  · have := h2 (sgn_neg.1 e'); rw [← sgn_neg, e] at this; norm_num at this
  · have := h2 (sgn_neg.1 e'); rw [← sgn_neg, e] at this; norm_num at this
  · have := h1 (sgn_pos.1 e); rw [← sgn_pos, e'] at this; norm_num at this

lemma tseq_getD {p : List ℤ} (j : ℕ) : (((tseq p).reverse.getD j 0 : ℤ) : ℝ) = (hom p).coeff j := by
  rw [← toPoly_tseq _ p rfl, toPoly_coeff]

/-- monotone Bernstein coefficients give at most one variation -/
lemma var_le_one_of_bern {p : List ℤ} {n : ℕ} (hn : p.length = n + 1)
    (h : (∀ j < n, bern n (fun i => ((p.getD i 0 : ℤ) : ℝ)) j ≤
        bern n (fun i => ((p.getD i 0 : ℤ) : ℝ)) (j + 1)) ∨
      (∀ j < n, bern n (fun i => ((p.getD i 0 : ℤ) : ℝ)) (j + 1) ≤
        bern n (fun i => ((p.getD i 0 : ℤ) : ℝ)) j)) : var 0 (tseq p) ≤ 1 := by
  set b := bern n (fun i => ((p.getD i 0 : ℤ) : ℝ)) with hb
  have hlen : (tseq p).reverse.length = n + 1 := by rw [List.length_reverse, tseq_length _ p rfl, hn]
  have hval : ∀ j, j ≤ n → (((tseq p).reverse.getD j 0 : ℤ) : ℝ) = n.choose j * b j := fun j hj => by
    rw [tseq_getD, hom_coeff hn hj]
  have hpos : ∀ j, j ≤ n → (0 : ℝ) < n.choose j := fun j hj => by exact_mod_cast Nat.choose_pos hj
  have sign_pos : ∀ j, j ≤ n → (0 < (tseq p).reverse.getD j 0 ↔ 0 < b j) := fun j hj => by
    rw [← Int.cast_pos (R := ℝ), hval j hj, mul_pos_iff_of_pos_left (hpos j hj)]
  have sign_neg : ∀ j, j ≤ n → ((tseq p).reverse.getD j 0 < 0 ↔ b j < 0) := fun j hj => by
    rw [← Int.cast_lt_zero (R := ℝ), hval j hj]
    constructor
    · intro h; by_contra hc; push Not at hc; have := mul_nonneg (hpos j hj).le hc; linarith
    · exact mul_neg_of_pos_of_neg (hpos j hj)
  rcases h with h | h
  · have mono : ∀ j j', j ≤ j' → j' ≤ n → b j ≤ b j' := by
      intro j j' hjj hj'
      induction j', hjj using Nat.le_induction with
      | base => exact le_refl _
      | succ m hm ih => exact (ih (by omega)).trans (h m (by omega))
    refine var_le_one_of_anti ?_
    rw [← List.pairwise_reverse, List.pairwise_iff_getElem]
    intro i j hi hj hij
    rw [hlen] at hi hj
    have e := fun k (hk : k < (tseq p).reverse.length) =>
      (List.getD_eq_getElem (tseq p).reverse 0 hk).symm
    rw [e, e]
    have := mono i j hij.le (by omega)
    refine sgn_le_of (fun h1 => ?_) fun h1 => ?_
    · rw [sign_pos _ (by omega)] at h1 ⊢; linarith
    · rw [sign_neg _ (by omega)] at h1 ⊢; linarith
  · have anti : ∀ j j', j ≤ j' → j' ≤ n → b j' ≤ b j := by
      intro j j' hjj hj'
      induction j', hjj using Nat.le_induction with
      | base => exact le_refl _
      | succ m hm ih => exact (h m (by omega)).trans (ih (by omega))
    refine var_le_one_of_mono ?_
    rw [← List.pairwise_reverse, List.pairwise_iff_getElem]
    intro i j hi hj hij
    rw [hlen] at hi hj
    have e := fun k (hk : k < (tseq p).reverse.length) =>
      (List.getD_eq_getElem (tseq p).reverse 0 hk).symm
    rw [e, e]
    have := anti i j hij.le (by omega)
    refine sgn_le_of (fun h1 => ?_) fun h1 => ?_
    · rw [sign_pos _ (by omega)] at h1 ⊢; linarith
    · rw [sign_neg _ (by omega)] at h1 ⊢; linarith

/-- constant Bernstein sign gives at most one (in fact no) variation -/
lemma var_le_one_of_sign {p : List ℤ} {n : ℕ} (hn : p.length = n + 1)
    (h : (∀ j ≤ n, 0 < bern n (fun i => ((p.getD i 0 : ℤ) : ℝ)) j) ∨
      (∀ j ≤ n, bern n (fun i => ((p.getD i 0 : ℤ) : ℝ)) j < 0)) : var 0 (tseq p) ≤ 1 := by
  set b := bern n (fun i => ((p.getD i 0 : ℤ) : ℝ)) with hb
  have hlen : (tseq p).reverse.length = n + 1 := by rw [List.length_reverse, tseq_length _ p rfl, hn]
  have hval : ∀ j, j ≤ n → (((tseq p).reverse.getD j 0 : ℤ) : ℝ) = n.choose j * b j := fun j hj => by
    rw [tseq_getD, hom_coeff hn hj]
  have hpos : ∀ j, j ≤ n → (0 : ℝ) < n.choose j := fun j hj => by exact_mod_cast Nat.choose_pos hj
  have e := fun k (hk : k < (tseq p).reverse.length) =>
      (List.getD_eq_getElem (tseq p).reverse 0 hk).symm
  refine var_le_one_of_mono ?_
  rw [← List.pairwise_reverse, List.pairwise_iff_getElem]
  intro i j hi hj hij
  rw [hlen] at hi hj
  rw [e, e]
  rcases h with h | h
  · have h1 : ∀ k ≤ n, sgn ((tseq p).reverse.getD k 0) = 1 := fun k hk => by
      rw [sgn_pos, ← Int.cast_pos (R := ℝ), hval k hk]
      exact mul_pos (hpos k hk) (h k hk)
    rw [h1 _ (by omega), h1 _ (by omega)]
  · have h1 : ∀ k ≤ n, sgn ((tseq p).reverse.getD k 0) = -1 := fun k hk => by
      rw [sgn_neg, ← Int.cast_lt_zero (R := ℝ), hval k hk]
      exact mul_neg_of_pos_of_neg (hpos k hk) (h k hk)
    rw [h1 _ (by omega), h1 _ (by omega)]


/-! ## Scaled Taylor coefficients -/

lemma sum_scaled_le {lam w M : ℝ} {t : ℕ → ℝ} (hw0 : 0 < w) (hw1 : w ≤ 1)
    (ht : ∀ i, |t i| ≤ M) (n a : ℕ) :
    ∑ i ∈ range n, |lam * w ^ (i + a) * t (i + a)| ≤ n * (|lam| * w ^ a * M) := by
  calc _ ≤ ∑ _i ∈ range n, |lam| * w ^ a * M := by
        refine sum_le_sum fun i _ => ?_
        rw [abs_mul, abs_mul, abs_of_nonneg (pow_nonneg hw0.le _)]
        have h1 : w ^ (i + a) ≤ w ^ a := pow_le_pow_of_le_one hw0.le hw1 (by omega)
        have h2 : 0 ≤ w ^ (i + a) := pow_nonneg hw0.le _
        exact mul_le_mul (mul_le_mul_of_nonneg_left h1 (abs_nonneg _)) (ht _) (abs_nonneg _)
          (by positivity)
    _ = _ := by simp

lemma var_le_one_of_scaled {p : List ℤ} {n : ℕ} (hn : p.length = n + 1) {lam w M mu : ℝ}
    {t : ℕ → ℝ} (hlam : lam ≠ 0) (hw0 : 0 < w) (hw1 : w ≤ 1)
    (hp : ∀ i, ((p.getD i 0 : ℤ) : ℝ) = lam * w ^ i * t i) (ht : ∀ i, |t i| ≤ M)
    (hmu : mu ≤ max |t 0| |t 1|) (hsmall : ((n : ℝ) + 1) ^ 2 * w * M < mu) :
    var 0 (tseq p) ≤ 1 := by
  have hM : 0 ≤ M := (abs_nonneg _).trans (ht 0)
  have hl : 0 < |lam| := abs_pos.2 hlam
  have hfun : (fun i => ((p.getD i 0 : ℤ) : ℝ)) = fun i => lam * w ^ i * t i := funext hp
  rcases le_max_iff.1 hmu with h | h
  · refine var_le_one_of_sign hn ?_
    rw [hfun]
    have key : ∀ j ≤ n, |bern n (fun i => lam * w ^ i * t i) j - lam * t 0| < |lam * t 0| := by
      intro j hj
      have h1 := bern_near n (fun i => lam * w ^ i * t i) hj
      have h2 := sum_scaled_le (lam := lam) hw0 hw1 ht n 1
      simp only [pow_zero, mul_one, pow_one] at h1 h2
      refine (h1.trans h2).trans_lt ?_
      rw [abs_mul]
      have h3 : (n : ℝ) * (w * M) ≤ ((n : ℝ) + 1) ^ 2 * w * M := by
        have : (n : ℝ) ≤ ((n : ℝ) + 1) ^ 2 := by nlinarith [(Nat.cast_nonneg n : (0:ℝ) ≤ n)]
        rw [mul_assoc]
        exact mul_le_mul_of_nonneg_right this (by positivity)
      calc (n : ℝ) * (|lam| * w * M) = |lam| * (n * (w * M)) := by ring
        _ < |lam| * |t 0| := by gcongr; linarith
    rcases lt_trichotomy (lam * t 0) 0 with h0 | h0 | h0
    · right
      intro j hj
      have := key j hj
      rw [abs_of_neg h0, abs_lt] at this
      linarith [this.2]
    · exfalso
      have := key 0 (Nat.zero_le _)
      rw [h0, abs_zero] at this
      exact absurd this (not_lt.2 (abs_nonneg _))
    · left
      intro j hj
      have := key j hj
      rw [abs_of_pos h0, abs_lt] at this
      linarith [this.1]
  · refine var_le_one_of_bern hn ?_
    rw [hfun]
    cases n with
    | zero => left; intro j hj; omega
    | succ m =>
    have key : ∀ j < m + 1, |bern (m + 1) (fun i => lam * w ^ i * t i) (j + 1) -
        bern (m + 1) (fun i => lam * w ^ i * t i) j - lam * w * t 1 / (m + 1)| <
          |lam * w * t 1 / (m + 1)| := by
      intro j hj
      have h1 := bern_diff m (fun i => lam * w ^ i * t i) hj
      have h2 := sum_scaled_le (lam := lam) hw0 hw1 ht m 2
      simp only [pow_one] at h1 h2
      refine (h1.trans h2).trans_lt ?_
      have hm : (0 : ℝ) < (m : ℝ) + 1 := by positivity
      rw [abs_div, abs_of_pos hm, lt_div_iff₀ hm, abs_mul, abs_mul, abs_of_pos hw0]
      have h3 : (m : ℝ) * ((m : ℝ) + 1) * (w * M) ≤ (((m + 1 : ℕ) : ℝ) + 1) ^ 2 * w * M := by
        have : (m : ℝ) * ((m : ℝ) + 1) ≤ (((m + 1 : ℕ) : ℝ) + 1) ^ 2 := by
          push_cast; nlinarith [(Nat.cast_nonneg m : (0:ℝ) ≤ m)]
        calc _ ≤ (((m + 1 : ℕ) : ℝ) + 1) ^ 2 * (w * M) :=
              mul_le_mul_of_nonneg_right this (by positivity)
          _ = _ := by ring
      calc (m : ℝ) * (|lam| * w ^ 2 * M) * ((m : ℝ) + 1)
          = |lam| * w * (m * ((m : ℝ) + 1) * (w * M)) := by ring
        _ < |lam| * w * |t 1| := by gcongr; linarith
    rcases lt_trichotomy (lam * w * t 1 / (m + 1)) 0 with h0 | h0 | h0
    · right
      intro j hj
      have := key j hj
      rw [abs_of_neg h0, abs_lt] at this
      linarith [this.2]
    · exfalso
      have := key 0 (by omega)
      rw [h0, abs_zero] at this
      exact absurd this (not_lt.2 (abs_nonneg _))
    · left
      intro j hj
      have := key j hj
      rw [abs_of_pos h0, abs_lt] at this
      linarith [this.1]

/-! ## Compactness -/

lemma taylor_bounded (Q : ℝ[X]) : ∃ M, ∀ l ∈ Set.Icc (0 : ℝ) 1, ∀ i, |(taylor l Q).coeff i| ≤ M := by
  have h : ∀ i, ∃ B, 0 ≤ B ∧ ∀ l ∈ Set.Icc (0 : ℝ) 1, |(taylor l Q).coeff i| ≤ B := by
    intro i
    have hc : ContinuousOn (fun l : ℝ => |(hasseDeriv i Q).eval l|) (Set.Icc 0 1) :=
      ((hasseDeriv i Q).continuous.abs).continuousOn
    obtain ⟨x, _, hx⟩ := isCompact_Icc.exists_isMaxOn (Set.nonempty_Icc.2 zero_le_one) hc
    refine ⟨_, abs_nonneg ((hasseDeriv i Q).eval x), fun l hl => ?_⟩
    rw [taylor_coeff]
    exact hx hl
  choose B hB0 hB using h
  refine ⟨∑ i ∈ range (Q.natDegree + 1), B i, fun l hl i => ?_⟩
  by_cases hi : i ≤ Q.natDegree
  · exact (hB i l hl).trans (single_le_sum (f := B) (fun j _ => hB0 j) (mem_range.2 (by omega)))
  · rw [coeff_eq_zero_of_natDegree_lt, abs_zero]
    · exact sum_nonneg fun j _ => hB0 j
    · rw [natDegree_taylor]; omega

lemma taylor_separated {Q : ℝ[X]}
    (hQ : ∀ x ∈ Set.Icc (0 : ℝ) 1, ¬ (Q.IsRoot x ∧ Q.derivative.IsRoot x)) :
    ∃ mu, 0 < mu ∧ ∀ l ∈ Set.Icc (0 : ℝ) 1,
      mu ≤ max |(taylor l Q).coeff 0| |(taylor l Q).coeff 1| := by
  have hc : ContinuousOn (fun l : ℝ => max |Q.eval l| |Q.derivative.eval l|) (Set.Icc 0 1) :=
    (Q.continuous.abs.max Q.derivative.continuous.abs).continuousOn
  obtain ⟨x, hx, hmin⟩ := isCompact_Icc.exists_isMinOn (Set.nonempty_Icc.2 zero_le_one) hc
  refine ⟨max |Q.eval x| |Q.derivative.eval x|, ?_, fun l hl => ?_⟩
  · by_contra hcon
    push Not at hcon
    have h1 := (le_max_left _ _).trans hcon
    have h2 := (le_max_right _ _).trans hcon
    exact hQ x hx ⟨abs_nonpos_iff.1 h1, abs_nonpos_iff.1 h2⟩
  · rw [taylor_coeff_zero, taylor_coeff_one]
    exact hmin hl

/-- every short interval has at most one variation -/
lemma exists_depth {Q : ℝ[X]} (L : ℕ)
    (hQ : ∀ x ∈ Set.Icc (0 : ℝ) 1, ¬ (Q.IsRoot x ∧ Q.derivative.IsRoot x)) :
    ∃ N : ℕ, ∀ k, N ≤ k → ∀ (p : List ℤ) (lam l : ℝ), lam ≠ 0 → l ∈ Set.Icc (0 : ℝ) 1 →
      p.length ≤ L → toPoly p = C lam * Q.comp (C ((2 : ℝ) ^ (-(k : ℤ))) * X + C l) →
      var 0 (tseq p) ≤ 1 := by
  obtain ⟨M, hM⟩ := taylor_bounded Q
  obtain ⟨mu, hmu0, hmu⟩ := taylor_separated hQ
  have hM0 : 0 ≤ M := (abs_nonneg _).trans (hM 0 (by simp) 0)
  obtain ⟨N, hN⟩ := exists_pow_lt_of_lt_one (K := ℝ) (x := mu / (((L : ℝ) + 1) ^ 2 * (M + 1)))
    (by positivity) (y := 1 / 2) (by norm_num)
  refine ⟨N, fun k hk p lam l hlam hl hp he => ?_⟩
  cases p with
  | nil => simp [tseq, var]
  | cons a p =>
  have hw : (2 : ℝ) ^ (-(k : ℤ)) = (1 / 2) ^ k := by rw [zpow_neg, zpow_natCast, one_div, inv_pow]
  refine var_le_one_of_scaled (n := p.length) (t := fun i => (taylor l Q).coeff i) (M := M) (mu := mu)
    (w := (2 : ℝ) ^ (-(k : ℤ))) rfl hlam (two_zpow_pos _) ?_ ?_ (hM l hl) (hmu l hl) ?_
  · rw [hw]; exact pow_le_one₀ (by norm_num) (by norm_num)
  · intro i
    rw [← toPoly_coeff, he, coeff_C_mul]
    have : Q.comp (C ((2 : ℝ) ^ (-(k : ℤ))) * X + C l) =
        (taylor l Q).comp (C ((2 : ℝ) ^ (-(k : ℤ))) * X) := by
      rw [taylor_apply, comp_assoc]; simp
    rw [this, comp_C_mul_X_coeff]
    ring
  · rw [List.length_cons] at hp
    have h1 : ((2 : ℝ) ^ (-(k : ℤ))) < mu / (((L : ℝ) + 1) ^ 2 * (M + 1)) := by
      rw [hw]
      exact (pow_le_pow_of_le_one (by norm_num) (by norm_num) hk).trans_lt hN
    rw [lt_div_iff₀ (by positivity)] at h1
    have h2 : ((p.length : ℝ) + 1) ^ 2 ≤ ((L : ℝ) + 1) ^ 2 := by
      gcongr; exact_mod_cast (by omega)
    have h0 := two_zpow_pos (-(k : ℤ))
    calc _ ≤ ((L : ℝ) + 1) ^ 2 * 2 ^ (-(k : ℤ)) * (M + 1) := by gcongr; linarith
      _ = 2 ^ (-(k : ℤ)) * (((L : ℝ) + 1) ^ 2 * (M + 1)) := by ring
      _ < mu := h1

/-- the depth, uniformly for all quotients by exact roots -/
lemma exists_depth_uniform {P : ℝ[X]} (hP0 : P ≠ 0) (L : ℕ)
    (hP : ∀ x ∈ Set.Icc (0 : ℝ) 1, ¬ (P.IsRoot x ∧ P.derivative.IsRoot x)) :
    ∃ N : ℕ, ∀ (S : Multiset ℝ) (Q : ℝ[X]), P = (S.map fun e => X - C e).prod * Q →
      ∀ k, N ≤ k → ∀ (p : List ℤ) (lam l : ℝ), lam ≠ 0 → l ∈ Set.Icc (0 : ℝ) 1 →
      p.length ≤ L → toPoly p = C lam * Q.comp (C ((2 : ℝ) ^ (-(k : ℤ))) * X + C l) →
      var 0 (tseq p) ≤ 1 := by
  have hQ : ∀ (S : Multiset ℝ) (Q : ℝ[X]), P = (S.map fun e => X - C e).prod * Q →
      ∀ x ∈ Set.Icc (0 : ℝ) 1, ¬ (Q.IsRoot x ∧ Q.derivative.IsRoot x) := by
    rintro S Q rfl x hx ⟨h1, h2⟩
    refine hP x hx ⟨?_, ?_⟩
    · rw [IsRoot.def, eval_mul, h1.eq_zero, mul_zero]
    · rw [IsRoot.def, derivative_mul, eval_add, eval_mul, eval_mul, h1.eq_zero, h2.eq_zero]; simp
  have hS : ∀ S : Multiset ℝ, ∃ N : ℕ, ∀ Q : ℝ[X], P = (S.map fun e => X - C e).prod * Q →
      ∀ k, N ≤ k → ∀ (p : List ℤ) (lam l : ℝ), lam ≠ 0 → l ∈ Set.Icc (0 : ℝ) 1 →
      p.length ≤ L → toPoly p = C lam * Q.comp (C ((2 : ℝ) ^ (-(k : ℤ))) * X + C l) →
      var 0 (tseq p) ≤ 1 := by
    intro S
    by_cases h : ∃ Q : ℝ[X], P = (S.map fun e => X - C e).prod * Q
    · obtain ⟨Q, e⟩ := h
      obtain ⟨N, hN⟩ := exists_depth L (hQ S Q e)
      refine ⟨N, fun Q' e' => ?_⟩
      have : Q' = Q := by
        rw [e] at e'
        have hne : (S.map fun e => X - C e).prod ≠ (0 : ℝ[X]) := by
          rintro h0; rw [h0, zero_mul] at e; exact hP0 e
        exact (mul_left_cancel₀ hne e').symm
      subst this
      exact hN
    · exact ⟨0, fun Q e => (h ⟨Q, e⟩).elim⟩
  choose N hN using hS
  classical
  refine ⟨P.roots.powerset.toFinset.sup N, fun S Q e k hk => hN S Q e k (le_trans ?_ hk)⟩
  refine Finset.le_sup (f := N) ?_
  rw [Multiset.mem_toFinset, Multiset.mem_powerset, ← Multiset.prod_X_sub_C_dvd_iff_le_roots hP0]
  exact ⟨Q, e⟩

/-! ## Termination -/

/-- A loop whose body does not fail and decreases a measure returns. -/
lemma loop_terminates {σ α : Type} {step : σ → Res (σ ⊕ α)} {I : σ → Prop} (m : σ → ℕ)
    (hstep : ∀ s, I s → (∃ s', step s = .ok (.inl s') ∧ I s' ∧ m s' < m s) ∨
      ∃ a, step s = .ok (.inr a)) :
    ∀ (n : ℕ) (s : σ), I s → m s < n → ∃ a, loop step n s = .ok a := by
  intro n
  induction n with
  | zero => intro s _ h; omega
  | succ n ih =>
    intro s hI h
    unfold loop
    rcases hstep s hI with ⟨s', e, hI', hm⟩ | ⟨a, e⟩
    · rw [e]; exact ih s' hI' (by omega)
    · rw [e]; exact ⟨a, rfl⟩

lemma stripZeros_length (p : List ℤ) : (stripZeros p).2.length ≤ p.length := by
  have := congrArg List.length (stripZeros_spec p).1
  rw [List.length_append] at this
  omega

/-- how one iteration moves in the subdivision tree -/
lemma vcaNext_moves (F : Scale2) {st st' : VcaState} {p : List ℤ} {ex : List ℚ} {ivs : List (ℤ × ℤ)}
    (h : vcaNext F st p ex ivs = .ok (.inl st')) {N : ℕ} (hN : st.k ≤ N) :
    st'.p.length = p.length ∧ st'.k ≤ st.k ∧
      st'.c * 2 ^ (N - st'.k) = (st.c + 1) * 2 ^ (N - st.k) := by
  unfold vcaNext at h
  simp only at h
  split_ifs at h with h1 h2 h3
  · injection h with h; cases h
  · injection h with h; injection h with h; subst h
    exact ⟨taylorShift_length _ _, le_refl _, rfl⟩
  · injection h with h; injection h with h; subst h
    refine ⟨by simp only [F.length_scale, taylorShift_length], Nat.sub_le _ _, ?_⟩
    simp only
    have hd := (val2_spec (st.c + 1) (by omega)).1
    have e : N - (st.k - val2 (st.c + 1)) = val2 (st.c + 1) + (N - st.k) := by omega
    rw [e, pow_add, ← mul_assoc, Nat.div_mul_cancel hd]

lemma vcaStep_moves (F : Scale2) {P Q : ℝ[X]} {lam : ℝ} {st st' : VcaState} (hI : VInv P Q lam st)
    (h : vcaStep F st = .ok (.inl st')) {N L : ℕ} (hN : st.k ≤ N) (hL : st.p.length ≤ L)
    (hdeep : ∀ (S : Multiset ℝ) (Q : ℝ[X]), P = (S.map fun e => X - C e).prod * Q →
      ∀ k, N ≤ k → ∀ (p : List ℤ) (lam l : ℝ), lam ≠ 0 → l ∈ Set.Icc (0 : ℝ) 1 →
      p.length ≤ L → toPoly p = C lam * Q.comp (C ((2 : ℝ) ^ (-(k : ℤ))) * X + C l) →
      var 0 (tseq p) ≤ 1) :
    st'.p.length ≤ L ∧ st'.k ≤ N ∧
      ((st'.k = st.k + 1 ∧ st'.c * 2 ^ (N - st'.k) = st.c * 2 ^ (N - st.k)) ∨
        st.c * 2 ^ (N - st.k) < st'.c * 2 ^ (N - st'.k)) := by
  obtain ⟨Q', lam', h'⟩ := VInv.strip _ hI (stripZeros_spec st.p).1
  have hne := stripZeros_ne_nil hI.p_ne
  have hlen := stripZeros_length st.p
  have hvar : N ≤ st.k → var 0 (tseq (stripZeros st.p).2) ≤ 1 := by
    intro hk
    refine hdeep (((st.exact ++ List.replicate (stripZeros st.p).1
      ((st.c : ℚ) / 2 ^ st.k)).map fun e : ℚ => (e : ℝ) : List ℝ) : Multiset ℝ) Q' ?_ st.k hk _ lam'
      (pt st.c st.k) h'.lam_ne ⟨pt_nonneg _ _, ?_⟩ (hlen.trans hL) h'.p_eq
    · rw [h'.P_eq, Multiset.map_coe, Multiset.prod_coe, List.map_map]; rfl
    · have h1 : (st.c : ℝ) ≤ 2 ^ st.k := by exact_mod_cast hI.c_lt.le
      rw [pt, zpow_neg, zpow_natCast, ← div_eq_mul_inv, div_le_one (by positivity)]
      exact h1
  have hhom : hom (stripZeros st.p).2 ≠ 0 := fun h0 => h'.p_ne ((hom_eq_zero_iff _).1 h0)
  have hbis : ∀ r, r = none ∨ r = some 2 → descartesBound01 (stripZeros st.p).2 2 = r →
      st.k < N := by
    intro r hr e
    by_contra hc
    have hv := hvar (by omega)
    rw [descartesBound01_eq _ _ hhom, if_pos (by omega)] at e
    rcases hr with rfl | rfl
    · cases e
    · injection e with e; omega
  have hnext : ∀ ivs, vcaNext F st (stripZeros st.p).2 (st.exact ++ List.replicate (stripZeros st.p).1
      ((st.c : ℚ) / 2 ^ st.k)) ivs = .ok (.inl st') → st'.p.length ≤ L ∧ st'.k ≤ N ∧
      ((st'.k = st.k + 1 ∧ st'.c * 2 ^ (N - st'.k) = st.c * 2 ^ (N - st.k)) ∨
        st.c * 2 ^ (N - st.k) < st'.c * 2 ^ (N - st'.k)) := by
    intro ivs h
    obtain ⟨h1, h2, h3⟩ := vcaNext_moves F h hN
    refine ⟨by omega, by omega, .inr ?_⟩
    rw [h3]
    exact Nat.mul_lt_mul_of_pos_right (by omega) (by positivity)
  have hdown : st.k < N → st' = { c := 2 * st.c, k := st.k + 1, p := F.scale (stripZeros st.p).2 (-1), exact := (st.exact ++ List.replicate (stripZeros st.p).1 ((st.c : ℚ) / 2 ^ st.k)), ivs := st.ivs } →
      st'.p.length ≤ L ∧ st'.k ≤ N ∧
      ((st'.k = st.k + 1 ∧ st'.c * 2 ^ (N - st'.k) = st.c * 2 ^ (N - st.k)) ∨
        st.c * 2 ^ (N - st.k) < st'.c * 2 ^ (N - st'.k)) := by
    rintro hk rfl
    refine ⟨by simp only [F.length_scale]; omega, by simp only; omega, .inl ⟨rfl, ?_⟩⟩
    simp only
    have e : N - st.k = (N - (st.k + 1)) + 1 := by omega
    rw [e, pow_succ]; ring
  unfold vcaStep at h
  simp only at h
  rw [if_neg hne] at h
  split at h
  · rename_i hd
    injection h with h; injection h with h
    exact hdown (hbis _ (.inl rfl) hd) h.symm
  · rename_i hd
    injection h with h; injection h with h
    exact hdown (hbis _ (.inr rfl) hd) h.symm
  · exact hnext _ h
  · exact hnext _ h
  · cases h

/-- On a polynomial without multiple roots in `[0,1]` the subdivision terminates. -/
theorem isolate01_terminates (F : Scale2) (p : List ℤ) (hp : toPoly p ≠ 0)
    (hs : SimpleRoots (toPoly p) (Set.Icc 0 1)) :
    ∃ n, ∀ fuel, n ≤ fuel → ∃ r, isolate01 F fuel p = .ok r := by
  obtain ⟨N, hN⟩ := exists_depth_uniform hp p.length fun x hx h => hs x hx h.1 h.2
  refine ⟨2 ^ N * (N + 1) + N + 1, fun fuel hf => ?_⟩
  refine loop_terminates (I := fun st => (∃ Q lam, VInv (toPoly p) Q lam st) ∧
      st.p.length ≤ p.length ∧ st.k ≤ N)
    (fun st => (2 ^ N - st.c * 2 ^ (N - st.k)) * (N + 1) + (N - st.k)) ?_ fuel _
    ⟨⟨_, _, VInv.init hp⟩, le_refl _, Nat.zero_le _⟩ (by simp only [zero_mul, Nat.sub_zero]; omega)
  rintro s ⟨⟨Q, lam, hI⟩, hlen, hk⟩
  rcases vcaStep_spec F hI with ⟨st', e, hI'⟩ | ⟨r, e, _⟩
  · left
    obtain ⟨h1, h2, h3⟩ := vcaStep_moves F hI e hk hlen hN
    refine ⟨st', e, ⟨hI', h1, h2⟩, ?_⟩
    obtain ⟨Q', lam', hI'⟩ := hI'
    have hb : ∀ st : VcaState, st.c < 2 ^ st.k → st.k ≤ N → st.c * 2 ^ (N - st.k) < 2 ^ N := by
      intro st h1 h2
      calc _ < 2 ^ st.k * 2 ^ (N - st.k) := Nat.mul_lt_mul_of_pos_right h1 (by positivity)
        _ = 2 ^ N := by rw [← pow_add]; congr 1; omega
    have hb1 := hb s hI.c_lt hk
    have hb2 := hb st' hI'.c_lt h2
    rcases h3 with ⟨h4, h5⟩ | h4
    · rw [h5]; omega
    · have h6 : 2 ^ N - st'.c * 2 ^ (N - st'.k) + 1 ≤ 2 ^ N - s.c * 2 ^ (N - s.k) := by omega
      have h7 := Nat.mul_le_mul_right (N + 1) h6
      have h8 : N - st'.k ≤ N := Nat.sub_le _ _
      have h9 : (2 ^ N - st'.c * 2 ^ (N - st'.k) + 1) * (N + 1) =
        (2 ^ N - st'.c * 2 ^ (N - st'.k)) * (N + 1) + (N + 1) := by ring
      omega
  · right; exact ⟨r, e⟩


/-! ## Non-termination -/

/-- the exact roots written so far -/
def exactOf : VcaState ⊕ (List ℚ × List (ℤ × ℤ)) → List ℚ
  | .inl s => s.exact
  | .inr q => q.1

lemma vcaNext_exact (F : Scale2) {st : VcaState} {p : List ℤ} {ex : List ℚ} {ivs : List (ℤ × ℤ)}
    {r : VcaState ⊕ (List ℚ × List (ℤ × ℤ))} (h : vcaNext F st p ex ivs = .ok r) :
    exactOf r = ex := by
  unfold vcaNext at h
  simp only at h
  split_ifs at h <;> (injection h with h; subst h; rfl)

lemma vcaStep_exact (F : Scale2) {st : VcaState} {r : VcaState ⊕ (List ℚ × List (ℤ × ℤ))}
    (h : vcaStep F st = .ok r) :
    exactOf r =
      st.exact ++ List.replicate (stripZeros st.p).1 ((st.c : ℚ) / 2 ^ st.k) := by
  unfold vcaStep at h
  simp only at h
  split_ifs at h
  split at h
  · injection h with h; subst h; rfl
  · injection h with h; subst h; rfl
  · exact vcaNext_exact F h
  · exact vcaNext_exact F h
  · cases h

/-- The exact roots returned are dyadic. -/
theorem isolate01_dyadic (F : Scale2) (fuel : ℕ) (p : List ℤ) (r : List ℚ × List (ℤ × ℤ))
    (h : isolate01 F fuel p = .ok r) : ∀ e ∈ r.1, ∃ c k : ℕ, e = (c : ℚ) / 2 ^ k := by
  refine loop_ok (I := fun st : VcaState => ∀ e ∈ st.exact, ∃ c k : ℕ, e = (c : ℚ) / 2 ^ k)
    (Q := fun r : List ℚ × List (ℤ × ℤ) => ∀ e ∈ r.1, ∃ c k : ℕ, e = (c : ℚ) / 2 ^ k)
    ?_ ?_ fuel _ r (by simp) h
  · intro s s' hI hs e he
    have : _ = _ := vcaStep_exact F hs
    simp only [exactOf] at this
    rw [this, List.mem_append] at he
    rcases he with he | he
    · exact hI e he
    · exact ⟨_, _, (List.mem_replicate.1 he).2⟩
  · intro s a hI hs e he
    have : _ = _ := vcaStep_exact F hs
    simp only [exactOf] at this
    rw [this, List.mem_append] at he
    rcases he with he | he
    · exact hI e he
    · exact ⟨_, _, (List.mem_replicate.1 he).2⟩

end EAntic
