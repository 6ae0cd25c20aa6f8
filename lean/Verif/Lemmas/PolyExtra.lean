import Verif.Model.PolyExtra
import Verif.Lemmas.SignVar
import Verif.Lemmas.Refine
import Verif.Lemmas.Isolate
import Mathlib.Analysis.Polynomial.Basic
import Mathlib.Topology.Order.IntermediateValue
import Mathlib.FieldTheory.IsAlgClosed.Basic
import Mathlib.Analysis.Complex.Basic
import Mathlib.RingTheory.Multiplicity
import Mathlib.RingTheory.Polynomial.UniqueFactorization
import Mathlib.Algebra.Polynomial.FieldDivision
import Mathlib.Data.List.GetD
import Mathlib.RingTheory.Polynomial.GaussLemma
import Mathlib.FieldTheory.Perfect

/-! # Lemmas on `has_real_root.c` and `squarefree_part.c` -/

namespace EAntic
open Polynomial

/-! ## Existence of roots -/

/-- Opposite signs at 0 and at infinity give a root. -/
lemma exists_root_of_sign {P : ℝ[X]} (hd : 0 < P.degree) (h : P.eval 0 * P.leadingCoeff ≤ 0) :
    ∃ x, P.IsRoot x := by
  wlog hl : 0 ≤ P.leadingCoeff generalizing P
  · obtain ⟨x, hx⟩ := this (P := -P) (by rwa [degree_neg]) (by simpa using h)
      (by rw [leadingCoeff_neg]; linarith)
    exact ⟨x, by simpa using hx⟩
  by_cases hz : P.eval 0 = 0
  · exact ⟨0, hz⟩
  have hlpos : 0 < P.leadingCoeff :=
    lt_of_le_of_ne hl (fun e => leadingCoeff_ne_zero.2 (ne_zero_of_degree_gt hd) e.symm)
  have h0 : P.eval 0 ≤ 0 := by
    by_contra hc
    push Not at hc
    have := mul_pos hc hlpos
    linarith
  have ht := P.tendsto_atTop_of_leadingCoeff_nonneg hd hl
  obtain ⟨y, hy0, hy⟩ := ((Filter.eventually_ge_atTop (0 : ℝ)).and
    (ht.eventually (Filter.eventually_ge_atTop 0))).exists
  obtain ⟨x, _, hx⟩ := intermediate_value_Icc hy0 P.continuous.continuousOn ⟨h0, hy⟩
  exact ⟨x, hx⟩

lemma exists_root_of_odd {P : ℝ[X]} (hd : Odd P.natDegree) : ∃ x, P.IsRoot x := by
  have hpos : 0 < P.natDegree := hd.pos
  by_cases h : P.eval 0 * P.leadingCoeff ≤ 0
  · exact exists_root_of_sign (natDegree_pos_iff_degree_pos.1 hpos) h
  push Not at h
  have hX : (-X : ℝ[X]).natDegree = 1 := by simp
  have e1 : (P.comp (-X)).natDegree = P.natDegree := by rw [natDegree_comp, hX, mul_one]
  have e2 : (P.comp (-X)).leadingCoeff = -P.leadingCoeff := by
    rw [leadingCoeff_comp (by rw [hX]; norm_num)]
    simp [hd.neg_one_pow]
  obtain ⟨x, hx⟩ := exists_root_of_sign (P := P.comp (-X))
    (natDegree_pos_iff_degree_pos.1 (e1 ▸ hpos)) (by rw [e2, eval_comp]; simp; linarith)
  exact ⟨-x, by simpa using hx⟩

/-! ## Parity of sign changes -/

/-- sign of an entry as the loops see it -/
def altSign (alt : Bool) (i : ℕ) (a : ℤ) : ℤ :=
  if alt && decide (i % 2 ≠ 0) then -sgn a else sgn a

lemma altSign_pm {alt : Bool} {i : ℕ} {a : ℤ} (ha : a ≠ 0) :
    altSign alt i a = 1 ∨ altSign alt i a = -1 := by
  unfold altSign
  have := sgn_eq_zero (a := a)
  rcases sgn_cases a with e | e | e
  · split_ifs <;> simp [e]
  · exact absurd (this.1 e) ha
  · split_ifs <;> simp [e]

/-- An odd number of sign changes means that the last entry has the opposite sign. -/
lemma signChanges_parity (alt : Bool) (l : List ℤ) : ∀ (i : ℕ) (s : ℤ) (hl : l ≠ []),
    (s = 1 ∨ s = -1) → l.getLast hl ≠ 0 →
    (signChanges alt i s l % 2 = 1 ↔ altSign alt (i + l.length - 1) (l.getLast hl) = -s) := by
  induction l with
  | nil => intro i s hl; exact absurd rfl hl
  | cons a l ih =>
    intro i s _ hs hlast
    have step : ∀ s' : ℤ, (s' = 1 ∨ s' = -1) → (hl : l ≠ []) →
        (signChanges alt (i + 1) s' l % 2 = 1 ↔
          altSign alt (i + (a :: l).length - 1) ((a :: l).getLast (by simp)) = -s') := by
      intro s' hs' hl
      have e : (a :: l).getLast (by simp) = l.getLast hl := List.getLast_cons hl
      have := ih (i + 1) s' hl hs' (by rw [← e]; exact hlast)
      rw [this, e]
      have : i + 1 + l.length - 1 = i + (a :: l).length - 1 := by simp only [List.length_cons]; omega
      rw [this]
    unfold signChanges
    by_cases ha : a = 0
    · rw [if_pos ha]
      have hl : l ≠ [] := by
        rintro rfl; simp at hlast; exact hlast ha
      exact step s hs hl
    · rw [if_neg ha]
      simp only
      change (if altSign alt i a ≠ s then signChanges alt (i + 1) (altSign alt i a) l + 1
        else signChanges alt (i + 1) s l) % 2 = 1 ↔ _
      have hpm := altSign_pm (alt := alt) (i := i) ha
      by_cases hl : l = []
      · subst hl
        simp only [List.getLast_singleton, List.length_singleton, Nat.add_sub_cancel, signChanges]
        rcases hpm with e | e <;> rcases hs with rfl | rfl <;> rw [e] <;> norm_num
      · by_cases ht : altSign alt i a = s
        · rw [if_neg (by simpa using ht)]
          exact step s hs hl
        · rw [if_pos ht]
          have h1 := step (altSign alt i a) hpm hl
          have e : altSign alt i a = -s := by
            rcases hpm with e | e <;> rcases hs with rfl | rfl <;> rw [e] at ht ⊢ <;> norm_num at *
          have hpm' := altSign_pm (alt := alt) (i := i + (a :: l).length - 1) hlast
          rw [e] at h1 ⊢
          rw [neg_neg] at h1
          rw [show (signChanges alt (i + 1) (-s) l + 1) % 2 = 1 ↔
            ¬ signChanges alt (i + 1) (-s) l % 2 = 1 by omega, h1]
          rcases hpm' with k | k <;> rcases hs with rfl | rfl <;> rw [k] <;> norm_num

lemma toPoly_natDegree_eq {p : List ℤ} (h : p ≠ []) (hl : p.getLast h ≠ 0) :
    (toPoly p).natDegree = p.length - 1 ∧ (toPoly p).leadingCoeff = (p.getLast h : ℝ) := by
  have hlen : 0 < p.length := List.length_pos_iff.2 h
  have hc : (toPoly p).coeff (p.length - 1) = (p.getLast h : ℝ) := by
    rw [toPoly_coeff, List.getD_eq_getElem _ _ (by omega), List.getLast_eq_getElem]
  have hne : (toPoly p).coeff (p.length - 1) ≠ 0 := by rw [hc]; exact_mod_cast hl
  have hd : (toPoly p).natDegree = p.length - 1 :=
    le_antisymm (toPoly_natDegree_le p) (le_natDegree_of_ne_zero hne)
  exact ⟨hd, by rw [leadingCoeff, hd, hc]⟩

theorem hasRealRoot_iff (N : List ℤ → ℕ)
    (hN : ∀ p : List ℤ, toPoly p ≠ 0 → (N p = 0 ↔ ¬ ∃ x, (toPoly p).IsRoot x))
    (p : List ℤ) (hl : ∀ h : p ≠ [], p.getLast h ≠ 0) :
    hasRealRoot N p = true ↔ ∃ x, (toPoly p).IsRoot x := by
  by_cases hp : p = []
  · subst hp
    exact iff_of_true rfl ⟨0, by simp [toPoly]⟩
  obtain ⟨hdeg, hlead⟩ := toPoly_natDegree_eq hp (hl hp)
  have hlen : 0 < p.length := List.length_pos_iff.2 hp
  have hP : toPoly p ≠ 0 := by
    intro h0; rw [h0] at hlead; simp at hlead; exact hl hp (by exact_mod_cast hlead.symm)
  have h0 : (toPoly p).eval 0 = (p.getD 0 0 : ℝ) := by
    rw [← coeff_zero_eq_eval_zero, toPoly_coeff]
  have hlast : p.getD (p.length - 1) 0 = p.getLast hp := by
    rw [List.getD_eq_getElem _ _ (by omega), List.getLast_eq_getElem]
  unfold hasRealRoot
  by_cases h1 : p.length = 1
  · rw [if_pos h1]
    simp only [Bool.false_eq_true, false_iff]
    rintro ⟨x, hx⟩
    rw [eq_C_of_natDegree_eq_zero (p := toPoly p) (by rw [hdeg, h1])] at hx
    simp only [IsRoot.def, eval_C] at hx
    rw [leadingCoeff, hdeg, h1] at hlead
    rw [hx] at hlead
    exact hl hp (by exact_mod_cast hlead.symm)
  rw [if_neg h1]
  by_cases h2 : p.length % 2 = 0
  · rw [if_pos h2]
    refine iff_of_true rfl (exists_root_of_odd ?_)
    rw [hdeg, Nat.odd_iff]; omega
  rw [if_neg h2]
  have hdpos : 0 < (toPoly p).degree := natDegree_pos_iff_degree_pos.1 (by omega)
  by_cases h3 : p.getD 0 0 = 0 ∨ sgn (p.getD 0 0) * sgn (p.getD (p.length - 1) 0) < 0
  · rw [if_pos h3]
    refine iff_of_true rfl (exists_root_of_sign hdpos ?_)
    rw [h0, hlead, ← hlast]
    rcases h3 with h3 | h3
    · rw [h3]; simp
    · have : p.getD 0 0 * p.getD (p.length - 1) 0 < 0 := by
        unfold sgn at h3
        rw [← Int.sign_mul] at h3
        by_contra hc
        have := Int.sign_nonneg_iff.2 (not_lt.1 hc)
        omega
      exact_mod_cast this.le
  rw [if_neg h3]
  push Not at h3
  obtain ⟨a, l, rfl⟩ : ∃ a l, p = a :: l := List.exists_cons_of_ne_nil hp
  simp only [List.getD_cons_zero, List.tail_cons] at h3 ⊢
  have hl0 : l ≠ [] := by rintro rfl; simp at h1
  have hs : sgn a = 1 ∨ sgn a = -1 := by
    rcases sgn_cases a with e | e | e
    · exact .inr e
    · exact absurd (sgn_eq_zero.1 e) h3.1
    · exact .inl e
  have hlastl : (a :: l).getLast hp = l.getLast hl0 := List.getLast_cons hl0
  have hne : l.getLast hl0 ≠ 0 := hlastl ▸ hl hp
  have hpar : ∀ alt, ¬ signChanges alt 1 (sgn a) l % 2 = 1 := by
    intro alt
    rw [signChanges_parity alt l 1 (sgn a) hl0 hs hne]
    have e : altSign alt (1 + l.length - 1) (l.getLast hl0) = sgn (l.getLast hl0) := by
      unfold altSign
      rw [if_neg]
      simp only [Bool.and_eq_true, decide_eq_true_eq, not_and, not_not]
      intro _
      simp at h2; omega
    rw [e]
    have h4 := h3.2
    rw [hlast, hlastl] at h4
    revert h4
    rcases hs with e1 | e1 <;> rcases sgn_cases (l.getLast hl0) with e2 | e2 | e2 <;>
      rw [e1, e2] <;> decide
  rw [if_neg (hpar false), if_neg (hpar true), decide_eq_true_eq, ← not_iff_not, not_not]
  exact hN _ hP

/-! ## Squarefree part -/

lemma squarefree_quot (O : PolyOps) {p : ℤ[X]} (hp : p ≠ 0) {r : ℤ[X]}
    (hr : p = O.gcd p (derivative p) * r) : Squarefree r := by
  set g := O.gcd p (derivative p) with hg
  have hg0 : g ≠ 0 := by rintro h; rw [h, zero_mul] at hr; exact hp hr
  intro q hq
  by_contra hu
  have hfin : FiniteMultiplicity q g := by
    exact FiniteMultiplicity.of_not_isUnit hu hg0
  have h1 := pow_multiplicity_dvd q g
  have h2 := hfin.not_pow_dvd_of_multiplicity_lt (Nat.lt_succ_self _)
  apply h2
  set m := multiplicity q g
  obtain ⟨u, hu1⟩ := h1
  obtain ⟨v, hv⟩ := hq
  have e : p = q ^ (m + 2) * (u * v) := by
    rw [hr, hu1, hv, pow_add]; ring
  refine O.dvd_gcd p (derivative p) _ ?_ ?_
  · rw [e, Nat.succ_eq_add_one]; exact Dvd.intro (q * (u * v)) (by ring)
  · rw [e, derivative_mul, derivative_pow]
    refine dvd_add ?_ ?_
    · refine Dvd.intro (C ((m + 2 : ℕ) : ℤ) * derivative q * (u * v)) ?_
      simp only [show m + 2 - 1 = m + 1 by omega, Nat.succ_eq_add_one]
      simp; ring
    · exact Dvd.intro (q * derivative (u * v)) (by simp only [Nat.succ_eq_add_one]; ring)

lemma roots_quot (O : PolyOps) {p : ℤ[X]} (hp : p ≠ 0) {r : ℤ[X]}
    (hr : p = O.gcd p (derivative p) * r) (z : ℂ) : aeval z p = 0 ↔ aeval z r = 0 := by
  set g := O.gcd p (derivative p) with hg
  set f := algebraMap ℤ ℂ with hf
  have hinj : Function.Injective f := by
    intro a b h; simpa [hf] using h
  have hP : p.map f ≠ 0 := (Polynomial.map_ne_zero_iff hinj).2 hp
  have hmap : p.map f = g.map f * r.map f := by rw [← Polynomial.map_mul, ← hr]
  have ev : ∀ q : ℤ[X], aeval z q = (q.map f).eval z := fun q => by
    rw [eval_map, aeval_def]
  rw [ev, ev]
  constructor
  · intro h
    by_contra hc
    have hroot : (p.map f).IsRoot z := h
    have h1 : (derivative (p.map f)).rootMultiplicity z = (p.map f).rootMultiplicity z - 1 :=
      derivative_rootMultiplicity_of_root hroot
    have hpos : 0 < (p.map f).rootMultiplicity z := (rootMultiplicity_pos hP).2 hroot
    have hr0 : (r.map f).rootMultiplicity z = 0 := rootMultiplicity_eq_zero hc
    have hgm : (p.map f).rootMultiplicity z = (g.map f).rootMultiplicity z := by
      rw [hmap, rootMultiplicity_mul (hmap ▸ hP), hr0, add_zero]
    have hd0 : derivative (p.map f) ≠ 0 := by
      intro hd
      have := derivative_eq_zero.1 hd
      rw [eq_C_of_natDegree_eq_zero this] at hroot
      simp only [IsRoot.def, eval_C] at hroot
      rw [eq_C_of_natDegree_eq_zero this, hroot, C_0] at hP
      exact hP rfl
    have hdvd : g.map f ∣ derivative (p.map f) := by
      rw [derivative_map]
      exact Polynomial.map_dvd f (O.gcd_dvd_right _ _)
    have := rootMultiplicity_le_rootMultiplicity_of_dvd hd0 hdvd z
    omega
  · intro h
    rw [hmap, eval_mul, h, mul_zero]

theorem squarefreePart_spec (O : PolyOps) {p : ℤ[X]} (hp : p ≠ 0) :
    Squarefree (squarefreePart O p) ∧ 0 < (squarefreePart O p).leadingCoeff ∧
      ∀ z : ℂ, aeval z (squarefreePart O p) = 0 ↔ aeval z p = 0 := by
  unfold squarefreePart
  rw [if_neg hp]
  by_cases hd : p.natDegree = 0
  · rw [if_pos hd]
    refine ⟨squarefree_one, by simp, fun z => ?_⟩
    have e := eq_C_of_natDegree_eq_zero hd
    have hc : p.coeff 0 ≠ 0 := by
      intro h; rw [h, C_0] at e; exact hp e
    rw [e]
    simp [hc]
  rw [if_neg hd]
  simp only
  set g := O.gcd p (derivative p) with hg
  obtain ⟨r, hr⟩ := O.gcd_dvd_left p (derivative p)
  have hg0 : g ≠ 0 := by rintro h; rw [← hg, h, zero_mul] at hr; exact hp hr
  have hr0 : r ≠ 0 := by rintro rfl; rw [mul_zero] at hr; exact hp hr
  have e : O.div p g = r := by
    conv_lhs => rw [hr]
    exact O.div_exact r g hg0
  rw [e]
  have hsq := squarefree_quot O hp hr
  have hro := roots_quot O hp hr
  have hl0 : r.leadingCoeff ≠ 0 := leadingCoeff_ne_zero.2 hr0
  split_ifs with h
  · refine ⟨?_, by rw [leadingCoeff_neg]; linarith [h.2], fun z => ?_⟩
    · intro q hq; exact hsq q (by rwa [dvd_neg] at hq)
    · rw [map_neg, neg_eq_zero, hro z]
  · refine ⟨hsq, ?_, fun z => (hro z).symm⟩
    push Not at h
    exact lt_of_le_of_ne (h hr0) hl0.symm

end EAntic

namespace EAntic
open Polynomial

/-- a squarefree integer polynomial is squarefree over the rationals -/
lemma squarefree_map_rat {r : ℤ[X]} (h : Squarefree r) (hr : r ≠ 0) :
    Squarefree (r.map (Int.castRingHom ℚ)) := by
  intro q hq
  have hr' : r.map (Int.castRingHom ℚ) ≠ 0 :=
    (Polynomial.map_ne_zero_iff (RingHom.injective_int _)).2 hr
  have hq0 : q ≠ 0 := by
    rintro rfl
    rw [mul_zero, zero_dvd_iff] at hq
    exact hr' hq
  obtain ⟨b, hb, hbq⟩ := IsLocalization.integerNormalization_spec (nonZeroDivisors ℤ) q
  set q' := IsLocalization.integerNormalization (nonZeroDivisors ℤ) q with hq'
  have hb0 : (b : ℤ) ≠ 0 := nonZeroDivisors.ne_zero hb
  have hbq' : q'.map (Int.castRingHom ℚ) = C (b : ℚ) * q := by
    have : algebraMap ℤ ℚ = Int.castRingHom ℚ := rfl
    rw [← this, hbq]
    ext n
    simp
  have hq'0 : q' ≠ 0 := by
    intro e
    rw [e, Polynomial.map_zero] at hbq'
    rcases mul_eq_zero.1 hbq'.symm with e | e
    · rw [C_eq_zero] at e
      exact hb0 (by exact_mod_cast e)
    · exact hq0 e
  have hc0 : q'.content ≠ 0 := by rwa [Ne, content_eq_zero_iff]
  have e1 : C (q'.content : ℚ) * q'.primPart.map (Int.castRingHom ℚ) = C (b : ℚ) * q := by
    rw [← hbq']
    conv_rhs => rw [q'.eq_C_content_mul_primPart]
    rw [Polynomial.map_mul, map_C]; rfl
  have hcq : (q'.content : ℚ) ≠ 0 := by exact_mod_cast hc0
  have hbQ : (b : ℚ) ≠ 0 := by exact_mod_cast hb0
  have e2 : q = C ((q'.content : ℚ) / b) * q'.primPart.map (Int.castRingHom ℚ) := by
    have : q = C (1 / (b : ℚ)) * (C (b : ℚ) * q) := by
      rw [← mul_assoc, ← C_mul, one_div_mul_cancel hbQ, C_1, one_mul]
    rw [this, ← e1, ← mul_assoc, ← C_mul]
    congr 2; ring
  have hprim := q'.isPrimitive_primPart
  have hcr : r.content ≠ 0 := by rwa [Ne, content_eq_zero_iff]
  have e3 : r.map (Int.castRingHom ℚ) = C (r.content : ℚ) * r.primPart.map (Int.castRingHom ℚ) := by
    conv_lhs => rw [r.eq_C_content_mul_primPart]
    rw [Polynomial.map_mul, map_C]; rfl
  have hd : (q'.primPart * q'.primPart).map (Int.castRingHom ℚ) ∣
      r.primPart.map (Int.castRingHom ℚ) := by
    obtain ⟨t, ht⟩ := hq
    refine ⟨C (1 / (r.content : ℚ)) * C ((q'.content : ℚ) / b) * C ((q'.content : ℚ) / b) * t, ?_⟩
    have hcrq : (r.content : ℚ) ≠ 0 := by exact_mod_cast hcr
    have : r.primPart.map (Int.castRingHom ℚ) = C (1 / (r.content : ℚ)) *
        r.map (Int.castRingHom ℚ) := by
      rw [e3, ← mul_assoc, ← C_mul, one_div_mul_cancel hcrq, C_1, one_mul]
    rw [this, ht, Polynomial.map_mul]
    conv_lhs => rw [e2]
    ring
  have hd' := (IsPrimitive.Int.dvd_iff_map_cast_dvd_map_cast _ _ (hprim.mul hprim)).2 hd
  have hu := h _ (hd'.trans r.primPart_dvd)
  rw [e2]
  refine IsUnit.mul ?_ ?_
  · rw [isUnit_C, isUnit_iff_ne_zero]
    exact div_ne_zero hcq hbQ
  · exact hu.map (mapRingHom (Int.castRingHom ℚ))

/-- a squarefree integer polynomial has simple complex roots -/
lemma simple_of_squarefree {r : ℤ[X]} (h : Squarefree r) (hr : r ≠ 0) (z : ℂ)
    (hz : aeval z r = 0) : aeval z (derivative r) ≠ 0 := by
  have hs : (r.map (Int.castRingHom ℚ)).Separable :=
    PerfectField.separable_iff_squarefree.2 (squarefree_map_rat h hr)
  obtain ⟨a, b, hab⟩ := hs
  intro hd
  have ev : ∀ q : ℤ[X], aeval z (q.map (Int.castRingHom ℚ)) = aeval z q := fun q => by
    have : algebraMap ℤ ℚ = Int.castRingHom ℚ := rfl
    rw [← this, aeval_map_algebraMap]
  have := congrArg (aeval z) hab
  rw [derivative_map, map_add, map_mul, map_mul, ev, ev, hz, hd] at this
  simp at this

lemma squarefreePart_simple (O : PolyOps) {p : ℤ[X]} (hp : p ≠ 0) (z : ℂ)
    (hz : aeval z (squarefreePart O p) = 0) : aeval z (derivative (squarefreePart O p)) ≠ 0 :=
  simple_of_squarefree (squarefreePart_spec O hp).1
    (leadingCoeff_ne_zero.1 (squarefreePart_spec O hp).2.1.ne') z hz

/-- the quotient by the gcd with the derivative, up to sign -/
lemma squarefreePart_quot (O : PolyOps) {p : ℤ[X]} (hp : p ≠ 0) (hd : p.natDegree ≠ 0) :
    ∃ r, p = O.gcd p (derivative p) * r ∧ r ≠ 0 ∧ 0 < (squarefreePart O p).leadingCoeff ∧
      (squarefreePart O p = r ∨ squarefreePart O p = -r) := by
  obtain ⟨r, hr⟩ := O.gcd_dvd_left p (derivative p)
  have hg0 : O.gcd p (derivative p) ≠ 0 := by rintro h; rw [h, zero_mul] at hr; exact hp hr
  have hr0 : r ≠ 0 := by rintro rfl; rw [mul_zero] at hr; exact hp hr
  have e : O.div p (O.gcd p (derivative p)) = r := by
    have h := O.div_exact r _ hg0
    rwa [← hr] at h
  refine ⟨r, hr, hr0, (squarefreePart_spec O hp).2.1, ?_⟩
  unfold squarefreePart
  rw [if_neg hp, if_neg hd]
  simp only [e]
  split_ifs
  · exact .inr rfl
  · exact .inl rfl

theorem squarefreePart_primitive (O : PolyOps) {p : ℤ[X]} (hp : p ≠ 0) :
    (squarefreePart O p).IsPrimitive ∧ squarefreePart O p ∣ p := by
  by_cases hd : p.natDegree = 0
  · have : squarefreePart O p = 1 := by unfold squarefreePart; rw [if_neg hp, if_pos hd]
    rw [this]
    exact ⟨isPrimitive_one, one_dvd _⟩
  obtain ⟨r, hr, hr0, -, hs⟩ := squarefreePart_quot O hp hd
  have hprim : r.IsPrimitive := by
    have h1 : C p.content ∣ O.gcd p (derivative p) := by
      refine O.dvd_gcd _ _ _ (C_content_dvd p) ?_
      rw [C_dvd_iff_dvd_coeff]
      intro i
      rw [coeff_derivative]
      exact Dvd.dvd.mul_right (content_dvd_coeff _) _
    have h2 : p.content ∣ (O.gcd p (derivative p)).content := by
      rw [dvd_content_iff_C_dvd]; exact h1
    have h3 : p.content = (O.gcd p (derivative p)).content * r.content := by
      rw [← content_mul, ← hr]
    have h4 : (O.gcd p (derivative p)).content ≠ 0 := by
      rw [Ne, content_eq_zero_iff]; rintro h; rw [h, zero_mul] at hr; exact hp hr
    rw [h3] at h2
    have h5 : IsUnit r.content := by
      obtain ⟨k, hk⟩ := h2
      refine isUnit_of_dvd_one ⟨k, ?_⟩
      exact mul_left_cancel₀ h4 (by rw [mul_one, ← mul_assoc]; exact hk)
    rw [isPrimitive_iff_content_eq_one, ← normalize_content]
    exact normalize_eq_one.2 h5
  have hdvd : r ∣ p := ⟨O.gcd p (derivative p), by rw [mul_comm]; exact hr⟩
  rcases hs with h | h <;> rw [h]
  · exact ⟨hprim, hdvd⟩
  · exact ⟨fun a ha => hprim a (by rwa [dvd_neg] at ha), by rwa [neg_dvd]⟩

theorem squarefreePart_unique (O O' : PolyOps) (p : ℤ[X]) : squarefreePart O p = squarefreePart O' p := by
  by_cases hp : p = 0
  · unfold squarefreePart; rw [if_pos hp, if_pos hp]
  by_cases hd : p.natDegree = 0
  · unfold squarefreePart; rw [if_neg hp, if_pos hd, if_neg hp, if_pos hd]
  obtain ⟨r, hr, hr0, hl, hs⟩ := squarefreePart_quot O hp hd
  obtain ⟨r', hr', hr0', hl', hs'⟩ := squarefreePart_quot O' hp hd
  have ha : Associated (O.gcd p (derivative p)) (O'.gcd p (derivative p)) :=
    associated_of_dvd_dvd (O'.dvd_gcd _ _ _ (O.gcd_dvd_left _ _) (O.gcd_dvd_right _ _))
      (O.dvd_gcd _ _ _ (O'.gcd_dvd_left _ _) (O'.gcd_dvd_right _ _))
  have hg0 : O.gcd p (derivative p) ≠ 0 := by
    intro h
    have h' := hr
    rw [h, zero_mul] at h'; exact hp h'
  have har : Associated r r' :=
    Associated.of_mul_left (Associated.of_eq (hr.symm.trans hr')) ha hg0
  have hss : Associated (squarefreePart O p) (squarefreePart O' p) := by
    rcases hs with h | h <;> rcases hs' with h' | h' <;> rw [h, h']
    · exact har
    · exact har.neg_right
    · exact har.neg_left
    · exact har.neg_left.neg_right
  obtain ⟨u, hu⟩ := hss
  obtain ⟨c, hc, e⟩ := Polynomial.isUnit_iff.1 u.isUnit
  rw [← e] at hu
  rcases Int.isUnit_iff.1 hc with rfl | rfl
  · rw [← hu]; simp
  · rw [← hu] at hl'
    simp at hl'
    linarith

/-- gcd and exact division as in Mathlib -/
noncomputable def PolyOps.std : PolyOps where
  gcd a b := GCDMonoid.gcd a b
  div a b := open Classical in if h : b ∣ a then h.choose else 0
  gcd_dvd_left := GCDMonoid.gcd_dvd_left
  gcd_dvd_right := GCDMonoid.gcd_dvd_right
  dvd_gcd a b d h1 h2 := GCDMonoid.dvd_gcd h1 h2
  gcd_lead a b := by
    rw [← normalize_gcd a b, leadingCoeff_normalize, ← Int.abs_eq_normalize]
    exact abs_nonneg _
  div_exact a b hb := by
    have h : b ∣ b * a := Dvd.intro _ rfl
    rw [dif_pos h]
    exact (mul_left_cancel₀ hb h.choose_spec).symm

end EAntic
