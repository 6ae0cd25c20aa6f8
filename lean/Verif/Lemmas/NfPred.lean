import Verif.Lemmas.Nf
import Mathlib.Tactic.Linarith

/-! # Structural predicates decide the real value -/

namespace EAntic

open Polynomial

theorem getD_cases {K : Nf} {e : NfElem} (he : e.Wf K) :
    (K.isLinear = true ∧ ∃ a, e.num = [a]) ∨
    (K.isLinear = false ∧ K.isQuadratic = true ∧ ∃ a b, e.num = [a, b]) ∨
    (K.isLinear = false ∧ K.isQuadratic = false ∧ (e.num ≠ [] → e.num.getLastD 0 ≠ 0)) := by
  by_cases hl : K.isLinear = true
  · left
    exact ⟨hl, List.length_eq_one_iff.1 (he.linear hl)⟩
  · rw [Bool.not_eq_true] at hl
    by_cases hq : K.isQuadratic = true
    · right; left
      exact ⟨hl, hq, List.length_eq_two.1 (he.quadratic hq)⟩
    · rw [Bool.not_eq_true] at hq
      right; right
      exact ⟨hl, hq, (he.generic hl hq).2⟩

theorem high_zero_iff {l : List ℤ} (h : l ≠ [] → l.getLastD 0 ≠ 0) :
    (∀ i, 1 ≤ i → l.getD i 0 = 0) ↔ l.length < 2 := by
  constructor
  · intro h1
    by_contra hlen
    have hne : l ≠ [] := by intro h0; rw [h0] at hlen; simp at hlen
    apply h hne
    rw [getLastD_getD]
    exact h1 _ (by omega)
  · intro h1 i hi
    exact List.getD_eq_default _ _ (by omega)

theorem isRational_struct {K : Nf} {e : NfElem} (he : e.Wf K) :
    e.isRational K = true ↔ ∀ i, 1 ≤ i → e.num.getD i 0 = 0 := by
  rcases getD_cases he with ⟨hl, a, h⟩ | ⟨hl, hq, a, b, h⟩ | ⟨hl, hq, h⟩
  · simp only [NfElem.isRational, hl, h, if_true, true_iff]
    intro i hi
    exact List.getD_eq_default _ _ (by simpa using hi)
  · simp only [NfElem.isRational, hl, hq, h]
    constructor
    · intro hb i hi
      simp at hb
      rcases Nat.lt_or_ge i 2 with h2 | h2
      · obtain rfl : i = 1 := by omega
        simpa using hb
      · exact List.getD_eq_default _ _ (by simpa using h2)
    · intro hb
      have := hb 1 (by omega)
      simpa using this
  · simp only [NfElem.isRational, hl, hq]
    rw [high_zero_iff h]
    simp

/-- `coefficient 0 / den` -/
theorem val_of_rational {K : Nf} (hK : K.Ok) {α : ℝ} (hα : K.IsRoot α) {e : NfElem} (he : e.Wf K)
    (h : e.isRational K = true) : e.val α = ((e.num.getD 0 0 : ℤ) : ℝ) / (e.den : ℝ) := by
  rw [isRational_struct he] at h
  unfold NfElem.val realValue
  congr 1
  have : toPoly e.num = C ((e.num.getD 0 0 : ℤ) : ℝ) := by
    ext i
    rw [toPoly_coeff, coeff_C]
    split_ifs with hi
    · rw [hi]
    · rw [h i (by omega)]; simp
  rw [this, eval_C]

theorem isRational_iff {K : Nf} (hK : K.Ok) {α : ℝ} (hα : K.IsRoot α) {e : NfElem} (he : e.Wf K) :
    e.isRational K = true ↔ ∃ q : ℚ, e.val α = q := by
  constructor
  · intro h
    exact ⟨(e.num.getD 0 0 : ℤ) / (e.den : ℤ), by rw [val_of_rational hK hα he h]; push_cast; rfl⟩
  · rintro ⟨q, hq⟩
    rw [isRational_struct he]
    exact ((NfElem.val_rat hK hα he q).1 hq).2.2

theorem isZero_struct {K : Nf} {e : NfElem} (he : e.Wf K) :
    e.isZero K = true ↔ e.isRational K = true ∧ e.num.getD 0 0 = 0 := by
  rw [isRational_struct he]
  rcases getD_cases he with ⟨hl, a, h⟩ | ⟨hl, hq, a, b, h⟩ | ⟨hl, hq, h⟩
  · simp only [NfElem.isZero, hl, h, if_true, beq_iff_eq]
    constructor
    · intro h0
      refine ⟨fun i hi => List.getD_eq_default _ _ (by simpa using hi), h0⟩
    · exact fun h => h.2
  · simp only [NfElem.isZero, hl, hq, h]
    constructor
    · intro hb
      simp at hb
      refine ⟨fun i hi => ?_, by simpa using hb.1⟩
      rcases Nat.lt_or_ge i 2 with h2 | h2
      · obtain rfl : i = 1 := by omega
        simpa using hb.2
      · exact List.getD_eq_default _ _ (by simpa using h2)
    · rintro ⟨h1, h2⟩
      have := h1 1 (by omega)
      simp at this h2 ⊢
      exact ⟨h2, this⟩
  · simp only [NfElem.isZero, hl, hq]
    rw [high_zero_iff h]
    simp only [Bool.false_eq_true, if_false, beq_iff_eq]
    constructor
    · intro h0
      exact ⟨by omega, List.getD_eq_default _ _ (by omega)⟩
    · rintro ⟨h1, h2⟩
      by_contra hne
      have hne' : e.num ≠ [] := by intro h0; rw [h0] at hne; simp at hne
      apply h hne'
      rw [getLastD_getD]
      have : e.num.length - 1 = 0 := by omega
      rw [this, h2]

theorem isZero_iff {K : Nf} (hK : K.Ok) {α : ℝ} (hα : K.IsRoot α) {e : NfElem} (he : e.Wf K) :
    e.isZero K = true ↔ e.val α = 0 := by
  rw [isZero_struct he]
  constructor
  · rintro ⟨h1, h2⟩
    rw [val_of_rational hK hα he h1, h2]; simp
  · intro h
    have h' : e.val α = ((0 : ℚ) : ℝ) := by rw [h]; simp
    have := (NfElem.val_rat hK hα he 0).1 h'
    exact ⟨(isRational_struct he).2 this.2.2, by simpa using this.2.1⟩

theorem isInteger_struct {K : Nf} {e : NfElem} : 
    e.isInteger K = true ↔ e.isRational K = true ∧ e.den = 1 := by
  unfold NfElem.isInteger NfElem.isRational
  split_ifs <;> simp

theorem isInteger_iff {K : Nf} (hK : K.Ok) {α : ℝ} (hα : K.IsRoot α) {e : NfElem} (he : e.Wf K) :
    e.isInteger K = true ↔ ∃ z : ℤ, e.val α = z := by
  rw [isInteger_struct]
  constructor
  · rintro ⟨h1, h2⟩
    exact ⟨e.num.getD 0 0, by rw [val_of_rational hK hα he h1, h2]; simp⟩
  · rintro ⟨z, hz⟩
    have h' : e.val α = ((z : ℚ) : ℝ) := by rw [hz]; simp
    have := (NfElem.val_rat hK hα he z).1 h'
    exact ⟨(isRational_struct he).2 this.2.2, by simpa using this.1⟩

theorem equal_iff {K : Nf} (hK : K.Ok) {α : ℝ} (hα : K.IsRoot α) {a b : NfElem} (ha : a.Wf K)
    (hb : b.Wf K) : a.equal K b = true ↔ a.val α = b.val α := by
  rw [NfElem.val_inj hK hα ha hb]
  rcases getD_cases ha with ⟨hl, x, h⟩ | ⟨hl, hq, x, y, h⟩ | ⟨hl, hq, h⟩
  · obtain ⟨x', h'⟩ := List.length_eq_one_iff.1 (hb.linear hl)
    simp [NfElem.equal, hl, h, h']
  · obtain ⟨x', y', h'⟩ := List.length_eq_two.1 (hb.quadratic hq)
    simp [NfElem.equal, hl, hq, h, h']
    tauto
  · simp [NfElem.equal, hl, hq]
    constructor
    · rintro ⟨⟨h1, _⟩, h2⟩; exact ⟨h2, h1⟩
    · rintro ⟨h1, h2⟩; exact ⟨⟨h2, by rw [h1]⟩, h1⟩

theorem raw0_eq {e : NfElem} (h : e.num ≠ []) : e.raw0 = e.num.getD 0 0 := by
  unfold NfElem.raw0
  cases hn : e.num with
  | nil => exact absurd hn h
  | cons a l => simp

theorem den_of_zero {K : Nf} {e : NfElem} (he : e.Wf K) (h : e.num = []) : e.den = 1 := by
  have := he.coprime
  rw [h] at this
  simp [NfElem.content] at this
  have := he.den_pos
  omega

theorem equalQ_iff {K : Nf} (hK : K.Ok) {α : ℝ} (hα : K.IsRoot α) {a : NfElem} (ha : a.Wf K)
    (q : ℚ) : a.equalQ K q = true ↔ a.val α = q := by
  rw [NfElem.val_rat hK hα ha]
  rcases getD_cases ha with ⟨hl, x, h⟩ | ⟨hl, hq, x, y, h⟩ | ⟨hl, hq, h⟩
  · simp only [NfElem.equalQ, hl, h, if_true, Bool.and_eq_true, beq_iff_eq]
    constructor
    · rintro ⟨h1, h2⟩
      exact ⟨h2, h1, fun i hi => List.getD_eq_default _ _ (by simpa using hi)⟩
    · rintro ⟨h1, h2, _⟩; exact ⟨h2, h1⟩
  · simp only [NfElem.equalQ, hl, hq, h, if_true, Bool.and_eq_true, beq_iff_eq, Bool.false_eq_true,
      if_false]
    constructor
    · rintro ⟨⟨h1, h2⟩, h3⟩
      refine ⟨h3, h2, fun i hi => ?_⟩
      rcases Nat.lt_or_ge i 2 with h4 | h4
      · obtain rfl : i = 1 := by omega
        exact h1
      · exact List.getD_eq_default _ _ (by simpa using h4)
    · rintro ⟨h1, h2, h3⟩; exact ⟨⟨h3 1 le_rfl, h2⟩, h1⟩
  · simp only [NfElem.equalQ, hl, hq, Bool.false_eq_true, if_false]
    rw [high_zero_iff h]
    split_ifs with h1 h2
    · constructor
      · intro h; exact absurd h (by simp)
      · rintro ⟨_, _, h3⟩; omega
    · have h2' : a.num.length = 1 := by simpa using h2
      have hne : a.num ≠ [] := by intro h0; rw [h0] at h2'; simp at h2'
      rw [raw0_eq hne]
      simp only [Bool.and_eq_true, beq_iff_eq]
      constructor
      · rintro ⟨h3, h4⟩; exact ⟨h4, h3, by omega⟩
      · rintro ⟨h3, h4, _⟩; exact ⟨h4, h3⟩
    · have h2' : a.num = [] := by
        rw [← List.length_eq_zero_iff]
        simp at h2
        omega
      have hd := den_of_zero ha h2'
      simp only [beq_iff_eq, h2', hd, List.getD_nil, List.length_nil]
      constructor
      · rintro rfl; simp
      · rintro ⟨_, h4, _⟩
        exact Rat.num_eq_zero.1 h4.symm

theorem isOne_iff {K : Nf} (hK : K.Ok) {α : ℝ} (hα : K.IsRoot α) {a : NfElem} (ha : a.Wf K) :
    a.isOne K = true ↔ a.val α = 1 := by
  have e : a.val α = 1 ↔ a.val α = ((1 : ℚ) : ℝ) := by simp
  rw [e, ← equalQ_iff hK hα ha]
  unfold NfElem.isOne NfElem.equalQ
  split_ifs with h1 h2 h3 h4
  · simp
  · simp only [Bool.and_eq_true, beq_iff_eq, Rat.num_one, Rat.den_one, Nat.cast_one]; tauto
  · simp; intro h; omega
  · have hlen : a.num.length = 1 := by simpa using h4
    have hne : a.num ≠ [] := by intro h0; rw [h0] at hlen; simp at hlen
    simp only [hlen, beq_self_eq_true, Bool.true_and, beq_iff_eq, Bool.and_eq_true, Rat.num_one,
      Rat.den_one, Nat.cast_one]
    constructor
    · intro h
      rw [Bool.not_eq_true] at h1 h2
      have hc := ha.coprime
      obtain ⟨x, hx⟩ := List.length_eq_one_iff.1 hlen
      have hr : a.raw0 = x := by simp [NfElem.raw0, hx]
      rw [hx] at hc
      simp [NfElem.content] at hc
      rw [hr] at h
      rw [h] at hc
      simp at hc
      have := ha.den_pos
      omega
    · rintro ⟨h5, h6⟩; rw [h5, h6]
  · simp at h4 ⊢
    intro h; exact absurd h h4

end EAntic
