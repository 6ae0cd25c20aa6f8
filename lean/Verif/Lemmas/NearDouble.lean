import Verif.Lemmas.CxxExec

/-! # The nearest double is unique -/

namespace EAntic.Cxx

theorem roundsNear_unique {x : ℝ} (hx : ¬ IsRat x) {d d' : Dbl} (h : RoundsNear x d)
    (h' : RoundsNear x d') : d = d' := by
  have hlim : (0 : ℝ) < dblLim := by
    have : (0 : ℚ) < dblLim := by
      unfold dblLim
      rw [sub_pos]
      exact zpow_lt_zpow_right₀ (by norm_num) (by norm_num)
    exact_mod_cast this
  cases d with
  | fin q =>
    cases d' with
    | fin q' =>
      by_contra hne
      have h1 := h.2.2.1 q' h'.1
      have h2 := h'.2.2.1 q h.1
      have h3 : |x - q| = |x - q'| := le_antisymm h1 h2
      rcases abs_eq_abs.1 h3 with h4 | h4
      · refine hne ?_
        have : (q : ℝ) = q' := by linarith
        rw [Rat.cast_inj.1 this]
      · refine hx ⟨(q + q') / 2, ?_⟩
        push_cast
        linarith
    | inf => have := (abs_lt.1 h.2.1).2; have h' : (dblLim : ℝ) ≤ x := h'; linarith
    | ninf => have := (abs_lt.1 h.2.1).1; have h' : x ≤ -(dblLim : ℝ) := h'; linarith
  | inf =>
    have h : (dblLim : ℝ) ≤ x := h
    cases d' with
    | fin q' => have := (abs_lt.1 h'.2.1).2; linarith
    | inf => rfl
    | ninf => have h' : x ≤ -(dblLim : ℝ) := h'; linarith
  | ninf =>
    have h : x ≤ -(dblLim : ℝ) := h
    cases d' with
    | fin q' => have := (abs_lt.1 h'.2.1).1; linarith
    | inf => have h' : (dblLim : ℝ) ≤ x := h'; linarith
    | ninf => rfl

theorem nearDouble_unique {a : ℝ} {d d' : Dbl} (h : NearDouble a d) (h' : NearDouble a d') :
    d = d' := by
  by_cases hr : IsRat a
  · obtain ⟨q, hq⟩ := hr
    rw [h.1 q hq, h'.1 q hq]
  · have hi : Irrational a := by
      rintro ⟨q, hq⟩; exact hr ⟨q, hq.symm⟩
    by_cases h1 : |a| ≤ dblMax
    · exact roundsNear_unique hr (h.2.1 hi h1) (h'.2.1 hi h1)
    · by_cases h2 : (dblMax : ℝ) < a
      · rw [h.2.2.1 hi h2, h'.2.2.1 hi h2]
      · have h3 : a < -dblMax := by
          rw [abs_le] at h1
          by_contra hc
          exact h1 ⟨by linarith, by linarith⟩
        rw [h.2.2.2.1 hi h3, h'.2.2.2.1 hi h3]

end EAntic.Cxx
