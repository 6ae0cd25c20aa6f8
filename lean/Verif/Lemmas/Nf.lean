import Verif.Model.Nf
import Verif.Lemmas.Descartes
import Mathlib.Algebra.Polynomial.FieldDivision
import Mathlib.RingTheory.Coprime.Lemmas
import Mathlib.RingTheory.PrincipalIdealDomain
import Mathlib.Data.List.GetD
import Mathlib.Tactic.FieldSimp
import Mathlib.Algebra.Algebra.Rat
import Mathlib.Algebra.Polynomial.AlgebraMap

/-! # Elements of number fields: representation lemmas -/

namespace EAntic

open Polynomial

theorem coeff_toPolyQ (l : List ℤ) (i : ℕ) : (toPolyQ l).coeff i = (l.getD i 0 : ℤ) := by
  induction l generalizing i with
  | nil => simp [toPolyQ]
  | cons a l ih =>
    cases i with
    | zero => simp [toPolyQ]
    | succ i => rw [toPolyQ, coeff_add, coeff_C_succ, coeff_X_mul, ih]; simp

theorem toPoly_eq_map (l : List ℤ) : toPoly l = (toPolyQ l).map (algebraMap ℚ ℝ) := by
  induction l with
  | nil => simp [toPoly, toPolyQ]
  | cons a l ih => simp [toPoly, toPolyQ, ih]

theorem toPolyQ_natDegree_lt {l : List ℤ} {n : ℕ} (h : l.length ≤ n) :
    (toPolyQ l).degree < n := by
  rw [degree_lt_iff_coeff_zero]
  intro m hm
  rw [coeff_toPolyQ, List.getD_eq_default _ _ (by omega)]
  simp

theorem natDegree_pol {K : Nf} (hK : K.Ok) : (toPolyQ K.pol).natDegree = K.degree := by
  have h2 := hK.two_le
  have hl := hK.lead
  apply le_antisymm
  · rw [natDegree_le_iff_coeff_eq_zero]
    intro m hm
    rw [coeff_toPolyQ, List.getD_eq_default _ _ (by unfold Nf.degree at hm; omega)]
    simp
  · apply le_natDegree_of_ne_zero
    rw [coeff_toPolyQ]
    intro h
    apply hl
    have h' : K.pol.getD K.degree 0 = 0 := by exact_mod_cast h
    have : K.pol.getLastD 0 = K.pol.getD (K.pol.length - 1) 0 := by
      have hne : K.pol ≠ [] := by intro h0; rw [h0] at h2; simp at h2
      rw [List.getLastD_eq_getLast?, List.getLast?_eq_getElem?, List.getD_eq_getElem?_getD]
    rw [this]; exact h'

/-- The polynomial of an element. -/
noncomputable def NfElem.polyQ (e : NfElem) : ℚ[X] := C (1 / (e.den : ℚ)) * toPolyQ e.num

theorem realValue_eq (α : ℝ) (n : List ℤ) (d : ℤ) :
    realValue α n d = aeval α (C (1 / (d : ℚ)) * toPolyQ n) := by
  unfold realValue
  rw [toPoly_eq_map, map_mul, aeval_C, eval_map_algebraMap]
  simp [div_eq_inv_mul]

theorem NfElem.val_eq (α : ℝ) (e : NfElem) : e.val α = aeval α e.polyQ := realValue_eq α _ _

theorem NfElem.num_length_le {K : Nf} (hK : K.Ok) {e : NfElem} (he : e.Wf K) :
    e.num.length ≤ K.degree := by
  have h2 := hK.two_le
  by_cases h1 : K.isLinear = true
  · rw [he.linear h1]
    have : K.pol.length = 2 := by simpa [Nf.isLinear] using h1
    unfold Nf.degree; omega
  · by_cases hq : K.isQuadratic = true
    · rw [he.quadratic hq]
      have : K.pol.length = 3 := by simpa [Nf.isQuadratic] using hq
      unfold Nf.degree; omega
    · exact (he.generic (by simpa using h1) (by simpa using hq)).1

theorem NfElem.polyQ_degree {K : Nf} (hK : K.Ok) {e : NfElem} (he : e.Wf K) :
    e.polyQ.degree < K.degree := by
  unfold polyQ
  refine lt_of_le_of_lt ?_ (toPolyQ_natDegree_lt (NfElem.num_length_le hK he))
  rw [← smul_eq_C_mul]; exact degree_smul_le _ _

theorem degree_pos {K : Nf} (hK : K.Ok) : 0 < K.degree := by
  have := hK.two_le; unfold Nf.degree; omega

theorem aeval_pol {K : Nf} {α : ℝ} (h : K.IsRoot α) : aeval α (toPolyQ K.pol) = 0 := by
  have : (toPoly K.pol).eval α = 0 := h
  rwa [toPoly_eq_map, eval_map_algebraMap] at this

/-- A polynomial of degree less than the degree of the field that vanishes at the generator is
zero. -/
theorem eq_zero_of_aeval {K : Nf} (hK : K.Ok) {α : ℝ} (hα : K.IsRoot α) {P : ℚ[X]}
    (hd : P.degree < K.degree) (h : aeval α P = 0) : P = 0 := by
  by_contra hP
  have hnd : ¬ toPolyQ K.pol ∣ P := by
    intro hdvd
    have h1 := natDegree_le_of_dvd hdvd hP
    rw [natDegree_pol hK] at h1
    rw [degree_eq_natDegree hP] at hd
    have : P.natDegree < K.degree := by exact_mod_cast hd
    omega
  have hco : IsCoprime (toPolyQ K.pol) P := (hK.irr.coprime_iff_not_dvd).2 hnd
  obtain ⟨u, v, huv⟩ := hco
  have := congrArg (aeval α) huv
  rw [map_add, map_mul, map_mul, aeval_pol hα, h] at this
  simp at this

theorem polyQ_inj {K : Nf} (hK : K.Ok) {α : ℝ} (hα : K.IsRoot α) {P Q : ℚ[X]}
    (hP : P.degree < K.degree) (hQ : Q.degree < K.degree) (h : aeval α P = aeval α Q) : P = Q := by
  have : P - Q = 0 := by
    refine eq_zero_of_aeval hK hα (lt_of_le_of_lt (degree_sub_le _ _) (max_lt hP hQ)) ?_
    rw [map_sub, h, sub_self]
  exact sub_eq_zero.1 this

theorem dvd_mul_content {d m : ℤ} {l : List ℤ} (h : ∀ a ∈ l, d ∣ m * a) :
    d ∣ m * (NfElem.content l : ℤ) := by
  induction l with
  | nil => simp [NfElem.content]
  | cons a l ih =>
    have h1 := h a (by simp)
    have h2 := ih fun b hb => h b (by simp [hb])
    have e : NfElem.content (a :: l) = Int.gcd a (NfElem.content l : ℤ) := rfl
    rw [e]
    have h3 : d ∣ (Int.gcd (m * a) (m * (NfElem.content l : ℤ)) : ℤ) := Int.dvd_coe_gcd h1 h2
    rw [Int.gcd_mul_left] at h3
    push_cast at h3
    have h4 : (m.natAbs : ℤ) * (Int.gcd a (NfElem.content l : ℤ) : ℤ) ∣
        m * (Int.gcd a (NfElem.content l : ℤ) : ℤ) :=
      mul_dvd_mul_right (Int.natAbs_dvd.2 (dvd_refl m)) _
    exact dvd_trans (by simpa using h3) (by simpa using h4)

theorem den_dvd {d d' : ℤ} {l : List ℤ} (hc : Nat.gcd d.natAbs (NfElem.content l) = 1)
    (h : ∀ a ∈ l, d ∣ d' * a) : d ∣ d' := by
  have := dvd_mul_content h
  apply IsCoprime.dvd_of_dvd_mul_right (z := (NfElem.content l : ℤ)) _ this
  rw [Int.isCoprime_iff_gcd_eq_one]
  rw [Int.gcd_def]; simpa using hc

theorem mem_getD {l : List ℤ} {a : ℤ} (h : a ∈ l) : ∃ i, i < l.length ∧ l.getD i 0 = a := by
  obtain ⟨i, hi, rfl⟩ := List.getElem_of_mem h
  exact ⟨i, hi, by rw [List.getD_eq_getElem _ _ hi]⟩

/-- Two canonical fractions of coefficient vectors that agree have equal denominators and
coefficients. -/
theorem canonical_eq {n n' : List ℤ} {d d' : ℤ} (hd : 0 < d) (hd' : 0 < d')
    (hc : Nat.gcd d.natAbs (NfElem.content n) = 1)
    (hc' : Nat.gcd d'.natAbs (NfElem.content n') = 1)
    (h : C (1 / (d : ℚ)) * toPolyQ n = C (1 / (d' : ℚ)) * toPolyQ n') :
    d = d' ∧ ∀ i, n.getD i 0 = n'.getD i 0 := by
  have hco : ∀ i, d' * n.getD i 0 = d * n'.getD i 0 := by
    intro i
    have := congrArg (fun P => P.coeff i) h
    simp only [coeff_C_mul, coeff_toPolyQ] at this
    have hdq : (d : ℚ) ≠ 0 := by exact_mod_cast hd.ne'
    have hdq' : (d' : ℚ) ≠ 0 := by exact_mod_cast hd'.ne'
    field_simp at this
    have h2 : ((d' * n.getD i 0 : ℤ) : ℚ) = ((d * n'.getD i 0 : ℤ) : ℚ) := by
      push_cast; linarith
    exact_mod_cast h2
  have h1 : d ∣ d' := den_dvd hc fun a ha => by
    obtain ⟨i, _, rfl⟩ := mem_getD ha
    rw [hco i]; exact dvd_mul_right _ _
  have h2 : d' ∣ d := den_dvd hc' fun a ha => by
    obtain ⟨i, _, rfl⟩ := mem_getD ha
    rw [← hco i]; exact dvd_mul_right _ _
  have h3 : d = d' := Int.dvd_antisymm hd.le hd'.le h1 h2
  refine ⟨h3, fun i => ?_⟩
  have := hco i
  rw [← h3] at this
  exact mul_left_cancel₀ hd.ne' this

theorem list_eq_of_getD {l l' : List ℤ} (hlen : l.length = l'.length)
    (h : ∀ i, l.getD i 0 = l'.getD i 0) : l = l' := by
  apply List.ext_getElem hlen
  intro i h1 h2
  have := h i
  rwa [List.getD_eq_getElem _ _ h1, List.getD_eq_getElem _ _ h2] at this

theorem getLastD_getD {l : List ℤ} : l.getLastD 0 = l.getD (l.length - 1) 0 := by
  rw [List.getLastD_eq_getLast?, List.getLast?_eq_getElem?, List.getD_eq_getElem?_getD]

theorem length_eq_of_getD {l l' : List ℤ} (hl : l ≠ [] → l.getLastD 0 ≠ 0)
    (hl' : l' ≠ [] → l'.getLastD 0 ≠ 0) (h : ∀ i, l.getD i 0 = l'.getD i 0) :
    l.length = l'.length := by
  have key : ∀ {l l' : List ℤ}, (l ≠ [] → l.getLastD 0 ≠ 0) → (∀ i, l.getD i 0 = l'.getD i 0) →
      l.length ≤ l'.length := by
    intro l l' hl h
    by_contra hlt
    have hne : l ≠ [] := by intro h0; rw [h0] at hlt; simp at hlt
    apply hl hne
    rw [getLastD_getD, h, List.getD_eq_default]
    omega
  exact le_antisymm (key hl h) (key hl' fun i => (h i).symm)

/-- Two canonical elements denote the same real number iff their representations agree (up to
stale storage). -/
theorem NfElem.val_inj {K : Nf} (hK : K.Ok) {α : ℝ} (hα : K.IsRoot α) {a b : NfElem}
    (ha : a.Wf K) (hb : b.Wf K) : a.val α = b.val α ↔ a.num = b.num ∧ a.den = b.den := by
  constructor
  · intro h
    rw [NfElem.val_eq, NfElem.val_eq] at h
    have hp := polyQ_inj hK hα (NfElem.polyQ_degree hK ha) (NfElem.polyQ_degree hK hb) h
    obtain ⟨h1, h2⟩ := canonical_eq ha.den_pos hb.den_pos ha.coprime hb.coprime hp
    refine ⟨list_eq_of_getD ?_ h2, h1⟩
    by_cases hl : K.isLinear = true
    · rw [ha.linear hl, hb.linear hl]
    · by_cases hq : K.isQuadratic = true
      · rw [ha.quadratic hq, hb.quadratic hq]
      · rw [Bool.not_eq_true] at hl hq
        exact length_eq_of_getD (ha.generic hl hq).2 (hb.generic hl hq).2 h2
  · rintro ⟨h1, h2⟩
    unfold NfElem.val
    rw [h1, h2]

/-- An element denotes the rational `q` iff its representation is that of `q`. -/
theorem NfElem.val_rat {K : Nf} (hK : K.Ok) {α : ℝ} (hα : K.IsRoot α) {a : NfElem}
    (ha : a.Wf K) (q : ℚ) : a.val α = q ↔
      a.den = q.den ∧ a.num.getD 0 0 = q.num ∧ ∀ i, 1 ≤ i → a.num.getD i 0 = 0 := by
  have e : (q : ℝ) = aeval α (C q) := by rw [aeval_C]; rfl
  rw [e, NfElem.val_eq]
  have hcq : (C q : ℚ[X]).degree < K.degree :=
    lt_of_le_of_lt degree_C_le (by exact_mod_cast degree_pos hK)
  have hC : (C q : ℚ[X]) = C (1 / ((q.den : ℤ) : ℚ)) * toPolyQ [q.num] := by
    simp only [toPolyQ, mul_zero, add_zero, ← C_mul]
    congr 1
    push_cast
    rw [one_div_mul_eq_div, Rat.num_div_den]
  constructor
  · intro h
    have hp := polyQ_inj hK hα (NfElem.polyQ_degree hK ha) hcq h
    rw [hC] at hp
    have hco : Nat.gcd (q.den : ℤ).natAbs (NfElem.content [q.num]) = 1 := by
      simp only [NfElem.content, List.foldr_cons, List.foldr_nil, Nat.cast_zero, Int.gcd_zero_right,
        Int.natAbs_natCast]
      exact q.reduced.symm
    obtain ⟨h1, h2⟩ := canonical_eq ha.den_pos (by exact_mod_cast q.den_pos) ha.coprime hco hp
    refine ⟨h1, by simpa using h2 0, fun i hi => ?_⟩
    rw [h2 i, List.getD_eq_default _ _ (by simpa using hi)]
  · rintro ⟨h1, h2, h3⟩
    congr 1
    rw [hC]
    unfold NfElem.polyQ
    rw [h1]
    congr 1
    ext i
    rw [coeff_toPolyQ, coeff_toPolyQ]
    congr 1
    cases i with
    | zero => simpa using h2
    | succ i => rw [h3 _ (by omega), List.getD_eq_default _ _ (by simp)]

end EAntic
