import Verif.Lemmas.Refine
import Verif.Spec.Store
import Mathlib.FieldTheory.Separable

/-! # The refinement of the embedding keeps fields in order -/

namespace EAntic

open Polynomial

theorem deriv_ne_zero {K : Nf} (hK : K.Ok) {α : ℝ} (hα : K.IsRoot α) :
    (derivative (toPoly K.pol)).eval α ≠ 0 := by
  have hs : (toPolyQ K.pol).Separable := hK.irr.separable
  have := hs.aeval_derivative_ne_zero (x := α) (aeval_pol hα)
  rwa [toPoly_eq_map, derivative_map, eval_map_algebraMap]

theorem coeff_zero_ne {K : Nf} (hK : K.Ok) (h3 : 3 ≤ K.pol.length) : K.pol.getD 0 0 ≠ 0 := by
  intro h0
  have hX : X ∣ toPolyQ K.pol := by
    rw [X_dvd_iff, coeff_toPolyQ, h0]; simp
  obtain ⟨Q, hQ⟩ := hX
  have hu := hK.irr.isUnit_or_isUnit hQ
  rcases hu with h | h
  · exact not_isUnit_X h
  · have hd := natDegree_pol hK
    rw [hQ] at hd
    have hQ0 : Q ≠ 0 := h.ne_zero
    rw [natDegree_X_mul hQ0, natDegree_eq_zero_of_isUnit h] at hd
    unfold Nf.degree at hd
    omega

theorem linear_unique {K : Nf} (hK : K.Ok) (h2 : K.pol.length = 2) {α β : ℝ} (hα : K.IsRoot α)
    (hβ : (toPoly K.pol).IsRoot β) : β = α := by
  have hl := hK.lead
  unfold Nf.IsRoot at hα
  match hp : K.pol, h2 with
  | [a, b], _ =>
    rw [hp] at hα hβ hl
    simp only [toPoly, IsRoot.def, eval_add, eval_C, eval_mul, eval_X, eval_zero, mul_zero,
      add_zero] at hα hβ
    have hb : (b : ℝ) ≠ 0 := by
      simp only [List.getLastD_cons] at hl
      exact_mod_cast hl
    have : (β - α) * b = 0 := by linarith
    rcases mul_eq_zero.1 this with h | h
    · linarith
    · exact absurd h hb

/-- A field of the library in good order: it is the field of the root `α`, its precision is at
least 2, its enclosure contains `α` and stays clear of the other roots. -/
structure GoodField (K : Nf) (α : ℝ) (f : Field) : Prop where
  nf : f.nf = K
  prec : 2 ≤ f.prec
  enc : α ∈ f.emb
  apart : ∀ m r, f.emb = .fin m r → Apart K.pol α r

theorem refineEmbedding_cases {A : ArbOps} {nd : Bool} {fuel : ℕ} {f f' : Field} {p : ℤ}
    (h : refineEmbedding A nd fuel f p = .ok f') :
    ∃ cp b, compPrec f.nf.pol f.emb (max f.prec 64) = some cp ∧
      loop (refineStep A f.nf.pol p) fuel (f.emb, cp) = .ok b ∧ f' = { f with emb := b } ∧
      (f.immutable = true → nd = true) := by
  unfold refineEmbedding at h
  split_ifs at h with h1
  have him : f.immutable = true → nd = true := by
    intro hi; rw [hi] at h1; simpa using h1
  cases hcp : compPrec f.nf.pol f.emb (max f.prec 64) with
  | none => rw [hcp] at h; simp at h
  | some cp =>
    rw [hcp] at h
    simp only at h
    cases hl : loop (refineStep A f.nf.pol p) fuel (f.emb, cp) with
    | ok b =>
      rw [hl] at h
      simp only [Res.ok.injEq] at h
      exact ⟨cp, b, rfl, hl, h.symm, him⟩
    | _ => rw [hl] at h; simp at h

theorem refineEmbedding_good {K : Nf} (hK : K.Ok) {α : ℝ} (hα : K.IsRoot α) {A : ArbOps}
    (hA : A.InterGrow 1 ∨ ∀ β, (toPoly K.pol).IsRoot β → β = α) {nd : Bool} {fuel : ℕ}
    {f f' : Field} {p : ℤ} (hf : GoodField K α f) (h : refineEmbedding A nd fuel f p = .ok f') :
    GoodField K α f' ∧ p ≤ f'.emb.relAccuracyBits ∧ f' = { f with emb := f'.emb } := by
  obtain ⟨cp, b, hcp, hl, rfl, -⟩ := refineEmbedding_cases h
  rw [hf.nf] at hcp hl
  have hd := deriv_ne_zero hK hα
  by_cases hu : ∀ β, (toPoly K.pol).IsRoot β → β = α
  · obtain ⟨h1, h2⟩ := refineLoop_unique hα hd hu hf.enc hl
    exact ⟨⟨hf.nf, hf.prec, h1, fun m r _ β hβ hne => absurd (hu β hβ) hne⟩, h2, rfl⟩
  · have hA := hA.resolve_right hu
    have h3 : 3 ≤ K.pol.length := by
      have := hK.two_le
      by_contra hc
      exact hu fun β hβ => linear_unique hK (by omega) hα hβ
    obtain ⟨m, r, he, hr, hp⟩ := compPrec_spec h3 (coeff_zero_ne hK h3) hf.enc hcp
    have hap := hf.apart m r he
    have henc := hf.enc
    rw [he] at hl henc
    obtain ⟨h1, h2, m', r', e, hr', hle⟩ := refineLoop_apart le_rfl hA h3 (coeff_zero_ne hK h3) hα hd
      fuel m r cp b hr henc hp (by simpa using hap) hl
    refine ⟨⟨hf.nf, hf.prec, h1, fun m'' r'' e' => ?_⟩, h2, rfl⟩
    simp only at e'
    rw [e] at e'
    injection e' with _ e'
    rw [← e']
    exact hap.mono (by simpa using hle)

/-- The fields in good order satisfy what the element layer needs. -/
theorem goodField_inv {K : Nf} {E : Env K} {α : ℝ} (hK : K.Ok) (hα : K.IsRoot α)
    (hA : E.A.InterGrow 1 ∨ ∀ β, (toPoly K.pol).IsRoot β → β = α) {nd : Bool} {n : ℕ}
    (hr : E.refine = refineEmbedding E.A nd n) : FieldInv E α (GoodField K α) where
  ok := hK
  root := hα
  nf h := h.nf
  enc h := h.enc
  prec h := h.prec
  refine := by
    intro f p f' hf h
    rw [hr] at h
    exact (refineEmbedding_good hK hα hA hf h).1

theorem exactArb_interGrow : exactArb.InterGrow 1 := by
  intro a m r p m' r' _ _ _ h
  cases a with
  | whole =>
    simp only [exactArb, Ball.xinter] at h
    injection h with _ h
    linarith
  | fin m₁ r₁ =>
    simp only [exactArb, Ball.xinter, Ball.ofEnds] at h
    injection h with _ h
    have h1 := le_max_right (m₁ - r₁) (m - r)
    have h2 := min_le_right (m₁ + r₁) (m + r)
    linarith

end EAntic
