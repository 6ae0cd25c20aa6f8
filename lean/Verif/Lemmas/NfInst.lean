import Verif.Lemmas.NfPred
import Mathlib.Algebra.GCDMonoid.Nat

/-! # The contract `NfOps` can be met for every number field -/

namespace EAntic

open Polynomial

theorem exists_common_den (l : List ℚ) :
    ∃ (D : ℤ) (n : List ℤ), 0 < D ∧ n.length = l.length ∧
      ∀ i, ((n.getD i 0 : ℤ) : ℚ) = D * l.getD i 0 := by
  induction l with
  | nil => exact ⟨1, [], by norm_num, rfl, by simp⟩
  | cons q l ih =>
    obtain ⟨D, n, hD, hn, h⟩ := ih
    refine ⟨D * q.den, (D * q.num) :: n.map (fun z => z * q.den), ?_, by simp [hn], ?_⟩
    · have : (0 : ℤ) < q.den := by exact_mod_cast q.den_pos
      positivity
    · intro i
      cases i with
      | zero =>
        simp only [List.getD_cons_zero]
        push_cast
        rw [mul_assoc, mul_comm (q.den : ℚ), Rat.mul_den_eq_num]
      | succ i =>
        simp only [List.getD_cons_succ]
        have e : (n.map (fun z => z * (q.den : ℤ))).getD i 0 = n.getD i 0 * q.den := by
          rw [List.getD_eq_getElem?_getD, List.getD_eq_getElem?_getD, List.getElem?_map]
          cases n[i]? <;> simp
        rw [e]
        push_cast
        rw [h i]; ring

theorem content_dvd {l : List ℤ} {a : ℤ} (h : a ∈ l) : (NfElem.content l : ℤ) ∣ a := by
  induction l with
  | nil => simp at h
  | cons b l ih =>
    have e : NfElem.content (b :: l) = Int.gcd b (NfElem.content l : ℤ) := rfl
    rw [e]
    rcases List.mem_cons.1 h with rfl | h
    · exact Int.gcd_dvd_left ..
    · exact dvd_trans (Int.gcd_dvd_right ..) (ih h)

theorem content_map_mul (g : ℕ) (l : List ℤ) :
    NfElem.content (l.map (fun z => (g : ℤ) * z)) = g * NfElem.content l := by
  induction l with
  | nil => simp [NfElem.content]
  | cons b l ih =>
    have e : ∀ (b : ℤ) (l : List ℤ), NfElem.content (b :: l) = Int.gcd b (NfElem.content l : ℤ) :=
      fun _ _ => rfl
    rw [List.map_cons, e, e, ih]
    push_cast
    rw [Int.gcd_mul_left]
    simp

theorem exists_reduced (D : ℤ) (n : List ℤ) (hD : 0 < D) :
    ∃ (d : ℤ) (m : List ℤ), 0 < d ∧ m.length = n.length ∧
      Nat.gcd d.natAbs (NfElem.content m) = 1 ∧ ∀ i, d * n.getD i 0 = D * m.getD i 0 := by
  set g := Nat.gcd D.natAbs (NfElem.content n) with hg
  have hg0 : 0 < g := Nat.gcd_pos_of_pos_left _ (Int.natAbs_pos.2 hD.ne')
  have hgD : (g : ℤ) ∣ D := by
    have : g ∣ D.natAbs := Nat.gcd_dvd_left _ _
    exact Int.natCast_dvd.2 this
  have hgn : ∀ a ∈ n, (g : ℤ) ∣ a := fun a ha =>
    dvd_trans (Int.natCast_dvd_natCast.2 (Nat.gcd_dvd_right _ _)) (content_dvd ha)
  obtain ⟨d, hd⟩ := hgD
  have hgz : (0 : ℤ) < g := by exact_mod_cast hg0
  have hdpos : 0 < d := by
    rw [hd] at hD
    exact pos_of_mul_pos_right hD hgz.le
  have hm : n = (n.map (· / (g : ℤ))).map (fun z => (g : ℤ) * z) := by
    rw [List.map_map]
    conv_lhs => rw [← List.map_id n]
    apply List.map_congr_left
    intro a ha
    simp only [id, Function.comp]
    rw [Int.mul_ediv_cancel' (hgn a ha)]
  refine ⟨d, n.map (· / (g : ℤ)), hdpos, by simp, ?_, ?_⟩
  · have h1 : NfElem.content n = g * NfElem.content (n.map (· / (g : ℤ))) := by
      conv_lhs => rw [hm, content_map_mul]
    have h2 : D.natAbs = g * d.natAbs := by rw [hd, Int.natAbs_mul]; simp
    rw [h1, h2, Nat.gcd_mul_left] at hg
    have h3 : g * 1 = g * Nat.gcd d.natAbs (NfElem.content (n.map (· / (g : ℤ)))) := by
      rw [mul_one]; exact hg
    exact (Nat.eq_of_mul_eq_mul_left hg0 h3).symm
  · intro i
    have e : n.getD i 0 = g * (n.map (· / (g : ℤ))).getD i 0 := by
      conv_lhs => rw [hm]
      rw [List.getD_eq_getElem?_getD, List.getD_eq_getElem?_getD, List.getElem?_map]
      cases (n.map (· / (g : ℤ)))[i]? <;> simp
    rw [e, hd]; ring

theorem exists_canon {K : Nf} (hK : K.Ok) (P : ℚ[X]) (hP : P.degree < K.degree) :
    ∃ e : NfElem, e.Wf K ∧ e.polyQ = P ∧ e.stale = 0 := by
  set len : ℕ := if K.isLinear then 1 else if K.isQuadratic then 2
    else (if P = 0 then 0 else P.natDegree + 1) with hlen
  set l : List ℚ := (List.range len).map P.coeff with hl
  have hPdeg : ∀ i, len ≤ i → P.coeff i = 0 := by
    intro i hi
    have h0 : ∀ i, K.degree ≤ i → P.coeff i = 0 := by
      intro i hi
      exact coeff_eq_zero_of_degree_lt (lt_of_lt_of_le hP (by exact_mod_cast hi))
    by_cases h1 : K.isLinear = true
    · have h3 : K.pol.length = 2 := by simpa [Nf.isLinear] using h1
      apply h0
      simp only [h1, if_true] at hlen
      unfold Nf.degree; omega
    · by_cases h2 : K.isQuadratic = true
      · have h3 : K.pol.length = 3 := by simpa [Nf.isQuadratic] using h2
        apply h0
        simp only [h1, h2, if_true] at hlen
        unfold Nf.degree; simp at hlen; omega
      · simp only [h1, h2] at hlen
        by_cases h3 : P = 0
        · rw [h3]; simp
        · simp [h3] at hlen
          exact coeff_eq_zero_of_natDegree_lt (by omega)
  have hlget : ∀ i, l.getD i 0 = P.coeff i := by
    intro i
    rcases Nat.lt_or_ge i len with h | h
    · rw [List.getD_eq_getElem _ _ (by simpa [hl] using h)]
      simp [hl]
    · rw [List.getD_eq_default _ _ (by simpa [hl] using h), hPdeg i h]
  obtain ⟨D, n, hD, hn, hcoef⟩ := exists_common_den l
  obtain ⟨d, m, hd, hm, hco, hdn⟩ := exists_reduced D n hD
  have hmlen : m.length = len := by rw [hm, hn]; simp [hl]
  have hmP : ∀ i, ((m.getD i 0 : ℤ) : ℚ) = d * P.coeff i := by
    intro i
    have h1 := hcoef i
    rw [hlget] at h1
    have h2 : ((d * n.getD i 0 : ℤ) : ℚ) = ((D * m.getD i 0 : ℤ) : ℚ) := by rw [hdn i]
    push_cast at h2
    rw [h1] at h2
    have hDq : (D : ℚ) ≠ 0 := by exact_mod_cast hD.ne'
    apply mul_left_cancel₀ hDq
    linarith
  refine ⟨⟨m, d, 0⟩, ⟨hd, hco, ?_, ?_, ?_⟩, ?_, rfl⟩
  · intro h; simp only [hmlen, hlen, h, if_true]
  · intro h
    have h' : K.isLinear = false := by
      simp [Nf.isQuadratic] at h; simp [Nf.isLinear, h]
    simp [hmlen, hlen, h, h']
  · intro h1 h2
    simp only [h1, h2] at hlen
    constructor
    · show m.length ≤ K.degree
      rw [hmlen, hlen]
      by_cases h3 : P = 0
      · simp [h3]
      · simp only [h3]
        rw [degree_eq_natDegree h3] at hP
        have : P.natDegree < K.degree := by exact_mod_cast hP
        simpa using this
    · intro hne
      show m.getLastD 0 ≠ 0
      rw [getLastD_getD]
      by_cases h3 : P = 0
      · simp [h3] at hlen
        exfalso; apply hne
        exact List.length_eq_zero_iff.1 (hmlen.trans hlen)
      · simp [h3] at hlen
        intro h4
        have h5 := hmP (m.length - 1)
        rw [h4, hmlen, hlen] at h5
        simp at h5
        rcases h5 with h5 | h5
        · exact hd.ne' h5
        · exact h3 h5
  · ext i
    simp only [NfElem.polyQ, coeff_C_mul, coeff_toPolyQ, hmP]
    have hdq : (d : ℚ) ≠ 0 := by exact_mod_cast hd.ne'
    field_simp

theorem mod_degree {K : Nf} (hK : K.Ok) (P : ℚ[X]) : (P % toPolyQ K.pol).degree < K.degree := by
  have h := natDegree_pol hK
  have h0 : toPolyQ K.pol ≠ 0 := hK.irr.ne_zero
  have := degree_mod_lt P h0
  rwa [degree_eq_natDegree h0, h] at this

/-- canonical representation of a polynomial modulo the defining polynomial -/
noncomputable def canon {K : Nf} (hK : K.Ok) (P : ℚ[X]) : NfElem :=
  (exists_canon hK (P % toPolyQ K.pol) (mod_degree hK P)).choose

theorem canon_wf {K : Nf} (hK : K.Ok) (P : ℚ[X]) : (canon hK P).Wf K :=
  (exists_canon hK _ (mod_degree hK P)).choose_spec.1

theorem canon_stale {K : Nf} (hK : K.Ok) (P : ℚ[X]) : (canon hK P).stale = 0 :=
  (exists_canon hK _ (mod_degree hK P)).choose_spec.2.2

theorem canon_val {K : Nf} (hK : K.Ok) (P : ℚ[X]) {α : ℝ} (hα : K.IsRoot α) :
    (canon hK P).val α = aeval α P := by
  rw [NfElem.val_eq]
  have : (canon hK P).polyQ = P % toPolyQ K.pol := (exists_canon hK _ (mod_degree hK P)).choose_spec.2.1
  rw [this]
  conv_rhs => rw [← EuclideanDomain.div_add_mod P (toPolyQ K.pol)]
  rw [map_add, map_mul, aeval_pol hα]; simp

open Classical in
/-- inverse modulo the defining polynomial -/
noncomputable def invPoly (K : Nf) (P : ℚ[X]) : ℚ[X] :=
  if h : IsCoprime (toPolyQ K.pol) P then h.choose_spec.choose else 0

theorem aeval_invPoly {K : Nf} (hK : K.Ok) {P : ℚ[X]} (hd : P.degree < K.degree) {α : ℝ}
    (hα : K.IsRoot α) (h0 : P ≠ 0) : aeval α (invPoly K P) = (aeval α P)⁻¹ := by
  have hnd : ¬ toPolyQ K.pol ∣ P := by
    intro hdvd
    have h1 := natDegree_le_of_dvd hdvd h0
    rw [natDegree_pol hK] at h1
    rw [degree_eq_natDegree h0] at hd
    have : P.natDegree < K.degree := by exact_mod_cast hd
    omega
  have hco : IsCoprime (toPolyQ K.pol) P := (hK.irr.coprime_iff_not_dvd).2 hnd
  have := hco.choose_spec.choose_spec
  unfold invPoly
  rw [dif_pos hco]
  have h2 := congrArg (aeval α) this
  rw [map_add, map_mul, map_mul, aeval_pol hα, mul_zero, zero_add, map_one] at h2
  exact eq_inv_of_mul_eq_one_left h2

theorem polyQ_ne_zero {K : Nf} (hK : K.Ok) {α : ℝ} (hα : K.IsRoot α) {a : NfElem} (ha : a.Wf K)
    (h : a.isZero K = false) : a.polyQ ≠ 0 := by
  intro h0
  have : a.val α = 0 := by rw [NfElem.val_eq, h0, map_zero]
  rw [← isZero_iff hK hα ha] at this
  simp [this] at h

/-- An implementation of the exact arithmetic: reduce modulo the defining polynomial. -/
noncomputable def nfOps {K : Nf} (hK : K.Ok) : NfOps K where
  set _ a := canon hK a.polyQ
  add _ a b := canon hK (a.polyQ + b.polyQ)
  sub _ a b := canon hK (a.polyQ - b.polyQ)
  mul _ a b := canon hK (a.polyQ * b.polyQ)
  div _ a b := canon hK (a.polyQ * invPoly K b.polyQ)
  neg _ a := canon hK (-a.polyQ)
  inv _ a := canon hK (invPoly K a.polyQ)
  pow _ a n := canon hK (a.polyQ ^ n)
  setQ _ q := canon hK (C q)
  addQ _ a q := canon hK (a.polyQ + C q)
  subQ _ a q := canon hK (a.polyQ - C q)
  qSub _ q a := canon hK (C q - a.polyQ)
  mulQ _ a q := canon hK (a.polyQ * C q)
  divQ _ a q := canon hK (a.polyQ * C (1 / q))
  setPoly _ n q := canon hK (C (1 / (q : ℚ)) * toPolyQ n)
  set_wf _ := canon_wf hK _
  set_val _ hα := by rw [canon_val hK _ hα, NfElem.val_eq]
  add_wf _ _ := canon_wf hK _
  add_val _ _ hα := by simp only [canon_val hK _ hα, NfElem.val_eq, map_add]
  sub_wf _ _ := canon_wf hK _
  sub_val _ _ hα := by simp only [canon_val hK _ hα, NfElem.val_eq, map_sub]
  mul_wf _ _ := canon_wf hK _
  mul_val _ _ hα := by simp only [canon_val hK _ hα, NfElem.val_eq, map_mul]
  div_wf _ _ _ := canon_wf hK _
  div_val _ hb h hα := by
    simp only [canon_val hK _ hα, NfElem.val_eq, map_mul, div_eq_mul_inv]
    rw [aeval_invPoly hK (NfElem.polyQ_degree hK hb) hα (polyQ_ne_zero hK hα hb h)]
  div_zero_stale _ _ _ _ := Or.inr (canon_stale hK _)
  neg_wf _ := canon_wf hK _
  neg_val _ hα := by simp only [canon_val hK _ hα, NfElem.val_eq, map_neg]
  inv_wf _ _ := canon_wf hK _
  inv_val ha h hα := by
    simp only [canon_val hK _ hα, NfElem.val_eq]
    rw [aeval_invPoly hK (NfElem.polyQ_degree hK ha) hα (polyQ_ne_zero hK hα ha h)]
  pow_wf _ := canon_wf hK _
  pow_val _ hα := by simp only [canon_val hK _ hα, NfElem.val_eq, map_pow]
  setQ_wf := canon_wf hK _
  setQ_val hα := by simp only [canon_val hK _ hα, aeval_C]; rfl
  addQ_wf _ := canon_wf hK _
  addQ_val _ hα := by simp only [canon_val hK _ hα, NfElem.val_eq, map_add, aeval_C]; rfl
  subQ_wf _ := canon_wf hK _
  subQ_val _ hα := by simp only [canon_val hK _ hα, NfElem.val_eq, map_sub, aeval_C]; rfl
  qSub_wf _ := canon_wf hK _
  qSub_val _ hα := by simp only [canon_val hK _ hα, NfElem.val_eq, map_sub, aeval_C]; rfl
  mulQ_wf _ := canon_wf hK _
  mulQ_val _ hα := by simp only [canon_val hK _ hα, NfElem.val_eq, map_mul, aeval_C]; rfl
  divQ_wf _ _ := canon_wf hK _
  divQ_val _ _ hα := by
    simp only [canon_val hK _ hα, NfElem.val_eq, map_mul, aeval_C, div_eq_mul_inv]
    simp
  setPoly_wf _ := canon_wf hK _
  setPoly_val _ hα := by rw [canon_val hK _ hα, realValue_eq]

end EAntic
