import Verif.Lemmas.CxxEnds
import Verif.Lemmas.EndsNear
import Verif.Lemmas.FieldInst

/-! # Fields from whose enclosures C++ calls end -/

open Polynomial

namespace EAntic.Cxx

theorem exists_setting {K : ℕ → Nf} {α : ℕ → ℝ} (hK : ∀ i, (K i).Ok)
    (hα : ∀ i, (K i).IsRoot (α i)) (hs : ∀ i, 3 ≤ (K i).pol.length → (K i).Sane (α i))
    {A : ℕ → ArbOps} (hT : ∀ i, (A i).Tight) (hC : ∀ i, (A i).Convergent) :
    ∃ δ : ℕ → ℝ, (∀ i, 0 < δ i) ∧ ∀ (N : ∀ i, NfOps (K i)) (ndebug : Bool) (p : ℕ → ℤ),
      (∀ i, 2 ≤ p i ∧ p i ≤ 2 ^ 63) →
      Setting K A N (fun i k => refineEmbedding (A i) ndebug k) (fun i k => refineAt (A i) ndebug k) α p
        fun i => FieldStart (K i) (α i) (δ i) (p i) ndebug := by
  have key : ∀ i, ∃ δ : ℝ, 0 < δ ∧ ∀ (nd : Bool) (N : NfOps (K i)) (p : ℤ), 2 ≤ p → p ≤ 2 ^ 63 →
      (∀ k, FieldInv (envs (A i) N (refineAt (A i) nd) k) (α i) (FieldStart (K i) (α i) δ p nd)) ∧
      CEnds (α i) p (FieldStart (K i) (α i) δ p nd) (A i) N (refineAt (A i) nd) := by
    intro i
    by_cases h3 : 3 ≤ (K i).pol.length
    · obtain ⟨δ, hδ, hδ2, H⟩ := near_ends (hK i) h3 (hα i) (hs i h3) (hT i)
      refine ⟨δ, hδ, fun nd N p hp hp' => ?_⟩
      obtain ⟨H1, H2⟩ := H nd N p hp
      have e : FieldStart (K i) (α i) δ p nd = Start (K i) (α i) δ p nd := by
        funext f
        refine propext ⟨fun h => h.2.2.2 h3, fun h => ⟨(H1 0).nf h, (H1 0).enc h, h.2.1, fun _ => h⟩⟩
      rw [e]
      exact ⟨H1, near_cends H1 (hT i) (hC i) H2 fun x hx => legal_of_sizeable hδ2 hp hp' hx⟩
    · have h2 : (K i).pol.length = 2 := by have := (hK i).two_le; omega
      have hu : ∀ β, (toPoly (K i).pol).IsRoot β → β = α i := by
        obtain ⟨c₀, c₁, e⟩ : ∃ c₀ c₁, (K i).pol = [c₀, c₁] := by
          match h : (K i).pol, h2 with
          | [c₀, c₁], _ => exact ⟨c₀, c₁, rfl⟩
        have hc : (c₁ : ℝ) ≠ 0 := by
          have := (hK i).lead
          rw [e] at this
          simpa using this
        have hα' : (toPoly (K i).pol).IsRoot (α i) := hα i
        intro β hβ
        rw [e] at hβ hα'
        simp [toPoly] at hβ hα'
        have : (c₁ : ℝ) * (β - α i) = 0 := by linarith
        rcases mul_eq_zero.1 this with h | h
        · exact absurd h hc
        · linarith
      refine ⟨1, one_pos, fun nd N p₀ hp hp' => ?_⟩
      have H : ∀ k, FieldInv (envs (A i) N (refineAt (A i) nd) k) (α i)
          (FieldStart (K i) (α i) 1 p₀ nd) := by
        intro k
        refine ⟨hK i, hα i, fun h => h.1, fun h => h.2.1, fun h => hp.trans h.2.2.1, fun {f p f'} h hf => ?_⟩
        have hf' : refineEmbedding (A i) nd k f p = .ok f' := by
          change (refineEmbedding (A i) nd k f p).reportOverflow = .ok f' at hf
          cases hr : refineEmbedding (A i) nd k f p <;> rw [hr] at hf <;>
            simp [Res.reportOverflow] at hf ⊢
          exact hf
        have H := goodField_inv (E := envs (A i) N (fun k => refineEmbedding (A i) nd k) k) (hK i) (hα i)
          (.inr hu) (nd := nd) (n := k) rfl
        have := H.refine ⟨h.1, hp.trans h.2.2.1, h.2.1, fun _ _ _ β hβ hne => absurd (hu β hβ) hne⟩ hf'
        obtain ⟨_, _, -, -, e, -⟩ := refineEmbedding_cases hf'
        exact ⟨this.nf, this.enc, by rw [e]; exact h.2.2.1, fun h => absurd h h3⟩
      exact ⟨H, linear_ends (by simp [Nf.isLinear, h2]) H⟩
  choose δ hδ H using key
  exact ⟨δ, hδ, fun N ndebug p hp => ⟨fun k i => (H i ndebug (N i) (p i) (hp i).1 (hp i).2).1 k,
      fun i => (H i ndebug (N i) (p i) (hp i).1 (hp i).2).2,
      fun i k f p => by
        show _ = ((refineEmbedding (A i) ndebug k f p).reportOverflow).reportOverflow
        cases refineEmbedding (A i) ndebug k f p <;> rfl,
      fun i k => refineEmbedding_nothrow (A i) ndebug k⟩⟩

end EAntic.Cxx
